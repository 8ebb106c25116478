import Verif.Model.Fetch
/-!
The database thread of ct-fetch (go/cmd/ct-fetch/ct-fetch.go:198-269), the whole process as a state machine, log enrolment
(282-406) and the health endpoint (505-535).
-/
namespace Verif

/-- A certificate together with the log it came from (`LogId` of the message). -/
abbrev LogItem := Text × Item

/-- `LogSyncMessage` (ct-fetch.go:60-66): a certificate or a log state. A log is identified by one name (its id and its short URL). -/
inductive Msg where
  | cert (log : Text) (i : Item)
  | state (log : Text) (s : WState)
deriving DecidableEq

/-! ### the database thread -/

/-- Effects on the database. -/
inductive DbOp where
  | insert (is : List LogItem)
  | save (log : Text) (s : WState)
deriving DecidableEq

/-- How one call of `tryUpdate` goes (ct-fetch.go:198-215). -/
inductive Attempt where
  /-- `Store` reports an error; `taken` did arrive -/
  | storeFails (taken : List LogItem)
  /-- `Store` works, `SaveLogState` reports an error, having written or not -/
  | saveFails (written : Bool)
  | ok
deriving DecidableEq

/-- The effect of `SaveLogState` if the message carries a state. -/
def saveOp : Msg → List DbOp
  | .cert _ _ => []
  | .state log s => [.save log s]

/-- The retry loop (ct-fetch.go:248-267); the second component tells whether it succeeded. Running out of attempts stands for
cancellation while waiting for the next one. -/
def tryAll (q : List LogItem) (m : Msg) : List Attempt → List DbOp × Bool
  | [] => ([], false)
  | .storeFails taken :: as =>
    let r := tryAll q m as
    (.insert (q.filter (fun x => taken.contains x)) :: r.1, r.2)
  | .saveFails written :: as =>
    let r := tryAll q m as
    (.insert q :: ((if written then saveOp m else []) ++ r.1), r.2)
  | .ok :: _ => (.insert q :: saveOp m, true)

/-- The queue after a message has been added (ct-fetch.go:237-240). -/
def enqueue (q : List LogItem) : Msg → List LogItem
  | .cert log i => q ++ [(log, i)]
  | .state _ _ => q

/-- Does the message carry a state? -/
def Msg.isState : Msg → Bool
  | .cert _ _ => false
  | .state _ _ => true

/-- `insertCTWorker` (ct-fetch.go:217-269) on the messages it receives, each with the attempts it takes. -/
def consumer (batch : Nat) : List LogItem → List (Msg × List Attempt) → List DbOp
  | _, [] => []
  | q, (m, as) :: rest =>
    if (enqueue q m).length + 1 < batch ∧ m.isState = false then consumer batch (enqueue q m) rest
    else match tryAll (enqueue q m) m as with
      | (ops, true) => ops ++ consumer batch [] rest
      | (ops, false) => ops

/-! ### the whole process -/

/-- What the database thread is doing: waiting for a message, before a `Store`, or between a successful `Store` and `SaveLogState`. -/
inductive Phase where
  | idle
  | storing (m : Msg)
  | saving (m : Msg)
deriving DecidableEq

/-- The state of the process and of the database. `stored`: every certificate that ever reached the cache. `seen`: every entry that a worker
processed (also skipped ones); it is only for the specification. Each worker is given by its log and the events it has not produced yet. -/
structure Sys where
  chan : List Msg
  queue : List LogItem
  phase : Phase
  workers : List (Text × List Ev)
  stored : List LogItem
  saved : Text → WState
  seen : List (Text × Ev)

/-- Empty database, nothing running. -/
def Sys.init : Sys :=
  { chan := [], queue := [], phase := .idle, workers := [], stored := [], saved := fun _ => newLog, seen := [] }

/-- Atomic actions. -/
inductive Act where
  /-- `SyncLog` loads the saved state and starts a job of an RFC 6962 log (ct-fetch.go:109-152) -/
  | start (log : Text) (batch now : Nat) (sth : Option TreeHead) (proof : Option (List Bytes)) (rs : List Resp)
  /-- the same for a tiled log -/
  | startTiled (log : Text) (batch now : Nat) (sth : Option TreeHead) (es1 es2 : List TEntry) (err1 err2 : Bool)
  /-- worker `k` produces its next event -/
  | emit (k : Nat)
  /-- worker `k` stops (cancelled, or finished) -/
  | stop (k : Nat)
  /-- the database thread takes the next message -/
  | receive (batch : Nat)
  /-- `Store` reports an error after `taken` arrived -/
  | storeFails (taken : List LogItem)
  | storeOk
  | saveOk
  /-- `SaveLogState` reports an error, having written or not -/
  | saveFails (written : Bool)
  /-- the process dies and is restarted; the database stays -/
  | crash

/-- The message of an event. -/
def evMsg (log : Text) : Ev → List Msg
  | .entry _ _ _ (some i) => [.cert log i]
  | .entry _ _ _ none => []
  | .state s => [.state log s]

/-- The effect of saving a message's state. -/
def applySave (saved : Text → WState) : Msg → Text → WState
  | .cert _ _ => saved
  | .state log s => fun l => if l = log then s else saved l

/-- One step; actions that are not enabled change nothing. -/
def Sys.step (env : Env) (y : Sys) : Act → Sys
  | .start log batch now sth proof rs =>
    { y with workers := y.workers ++ [(log, runWorker env batch now (y.saved log) sth proof rs)] }
  | .startTiled log batch now sth es1 es2 e1 e2 =>
    { y with workers := y.workers ++ [(log, runTiled env.keepExpired batch now (y.saved log) sth es1 es2 e1 e2)] }
  | .emit k =>
    match y.workers[k]? with
    | some (log, e :: rest) =>
      { y with workers := y.workers.set k (log, rest), chan := y.chan ++ evMsg log e, seen := y.seen ++ [(log, e)] }
    | _ => y
  | .stop k => { y with workers := y.workers.eraseIdx k }
  | .receive batch =>
    match y.phase, y.chan with
    | .idle, m :: rest =>
      if (enqueue y.queue m).length + 1 < batch ∧ m.isState = false then { y with chan := rest, queue := enqueue y.queue m }
      else { y with chan := rest, queue := enqueue y.queue m, phase := .storing m }
    | _, _ => y
  | .storeFails taken =>
    match y.phase with
    | .storing _ => { y with stored := y.stored ++ y.queue.filter (fun x => taken.contains x) }
    | _ => y
  | .storeOk =>
    match y.phase with
    | .storing m => { y with stored := y.stored ++ y.queue, phase := .saving m }
    | _ => y
  | .saveOk =>
    match y.phase with
    | .saving m => { y with saved := applySave y.saved m, queue := [], phase := .idle }
    | _ => y
  | .saveFails written =>
    match y.phase with
    | .saving m => { y with saved := if written then applySave y.saved m else y.saved, phase := .storing m }
    | _ => y
  | .crash => { y with chan := [], queue := [], phase := .idle, workers := [] }

/-- A run of the process. -/
def Sys.run (env : Env) (y : Sys) (acts : List Act) : Sys := acts.foldl (Sys.step env) y

/-! ### enrolment -/

/-- `EnrolledLogs` (ct-fetch.go:282-287) with the workers started from `NewChan` (ct-fetch.go:466-472): `running` lists the logs of the
`SyncLog` goroutines that have not returned. -/
structure Enrolment where
  enrolled : List Text
  running : List Text

/-- Enrolment actions. -/
inductive EnrolAct where
  /-- `Enroll`, or a record with `CRLiteEnrolled` (ct-fetch.go:317-326, 396-402) -/
  | enroll (log : Text)
  /-- `Unenroll`, or a record without it (ct-fetch.go:328-333, 389-392) -/
  | unenroll (log : Text)
  /-- worker `k` is at the top of its loop and returns if its log is not enrolled (ct-fetch.go:110-113) -/
  | check (k : Nat)
  /-- worker `k` returns because of an error -/
  | fail (k : Nat)

/-- One enrolment step. -/
def Enrolment.step (e : Enrolment) : EnrolAct → Enrolment
  | .enroll log =>
    if log ∈ e.enrolled then e else { enrolled := log :: e.enrolled, running := log :: e.running }
  | .unenroll log => { e with enrolled := e.enrolled.filter (fun l => decide (l ≠ log)) }
  | .check k =>
    match e.running[k]? with
    | some log => if log ∈ e.enrolled then e else { e with running := e.running.eraseIdx k }
    | none => e
  | .fail k => { e with running := e.running.eraseIdx k }

def Enrolment.init : Enrolment := { enrolled := [], running := [] }

/-- A run of enrolment actions. -/
def Enrolment.run (e : Enrolment) (acts : List EnrolAct) : Enrolment := acts.foldl Enrolment.step e

/-! ### health -/

/-- A number as a Go `int64`. -/
def asInt64 (x : Int) : Int := (x + 9223372036854775808) % 18446744073709551616 - 9223372036854775808

/-- `RegisterUpdate` (ct-fetch.go:170-175): one variable for all workers. The argument lists which log's worker registered and when. -/
def lastUpdateTime (updates : List (Text × Int)) : Option Int := (updates.getLast?).map Prod.snd

/-- The health handler (ct-fetch.go:506-535): status code. Times in nanoseconds, the polling delay (a `uint64`) in seconds; `last = none` is Go's
zero time. The duration is computed in `int64` (line 520). -/
def health (pollingDelay : Nat) (last : Option Int) (now : Int) : Nat :=
  match last with
  | none => 503
  | some t => if now - t > asInt64 (2 * asInt64 pollingDelay * 1000000000) then 500 else 200

end Verif
