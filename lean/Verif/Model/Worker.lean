import Verif.Model.Fetch
/-!
How a job of the RFC 6962 worker ends: go/cmd/ct-fetch/rfc6962.go:318-489 and 619-688, with the places at which Go would panic made explicit. `runWorker` (Model/Fetch.lean) says what a job sends to the database thread; here the same job
also yields how `Run` returns, because `SyncLog` (go/cmd/ct-fetch/ct-fetch.go:109-167) starts another job after `nil` and gives up the log after an error. Cancellation is not modelled here.
-/
namespace Verif

/-- How a job ends. -/
inductive JobEnd where
  /-- `Run` returns `nil` after its work (rfc6962.go:488) -/
  | done
  /-- `Run` sleeps and returns `nil` (rfc6962.go:364-368, 407-408, 465-466) -/
  | slept
  /-- `Run` returns an error (rfc6962.go:415, 472, 477): `SyncLog` returns, and nothing starts it again (ct-fetch.go:147-151) -/
  | ended
  /-- a panic, which ends the process -/
  | crashed
  /-- the job has used all answers given so far and has asked for another -/
  | waits
deriving DecidableEq

/-- How a download, or a part of it, ends. -/
inductive DlEnd where
  | complete | error | panic | waiting
deriving DecidableEq

/-- `CheckClaim` (rfc6962.go:116-127); `none` is the panic at `hashStack[0]` on an empty stack. -/
def Verifier.checkClaimE (v : Verifier) : Option Bool :=
  if v.subtree.root.length ≠ 32 then some false
  else if v.numConsumed ≠ v.subtree.size then some false
  else match v.stack.getLast? with
    | none => none
    | some b => some (decide (b = v.subtree.root))

/-- One entry (rfc6962.go:653-684). -/
def takeEntryE (env : Env) (d : Download) (l : Leaf) : Download × DlEnd :=
  match env.parse l.input l.extra with
  | none => ({ d with index := add64 d.index 1 }, .complete)
  | some e =>
    match storeLogEntry env.keepExpired l.time e with
    | .fatal => (d, .error)
    | .retry => (d, .error)
    | _ =>
      match d.verifier.consume env.H l.input with
      | none => (d, .panic)
      | some v => (advance (noteTs d e.timestamp) v l, .complete)

/-- The entries of one answer (rfc6962.go:653-684). -/
def takeEntriesE (env : Env) : Download → List Leaf → Download × DlEnd
  | d, [] => (d, .complete)
  | d, l :: ls =>
    match takeEntryE env d l with
    | (d', .complete) => takeEntriesE env d' ls
    | (d', e) => (d', e)

/-- `downloadCTRangeToChannel` (rfc6962.go:619-688), with the answers not used. -/
def downloadE (env : Env) (last : Nat) : Download → List Resp → Download × DlEnd × List Resp
  | d, [] => (d, if last < d.index then .complete else .waiting, [])
  | d, r :: rs =>
    if last < d.index then (d, .complete, r :: rs)
    else match r with
      | .tooMany => downloadE env last d rs
      | .failed => (d, .error, rs)
      | .entries ls =>
        match takeEntriesE env d ls with
        | (d', .complete) => downloadE env last d' rs
        | (d', e) => (d', e, rs)

/-- After the download of one subtree (rfc6962.go:463-478); `next` is the rest of the loop. -/
def settle (env : Env) (now : Nat) (task : Task) (s : WState) (t : Subtree) (next : WState → List Resp → List Ev × JobEnd) : Download × DlEnd × List Resp → List Ev × JobEnd
  | (d, .error, _) => (leafEvents env t.first d.handed, .slept)
  | (d, .panic, _) => (leafEvents env t.first d.handed, .crashed)
  | (d, .waiting, _) => (leafEvents env t.first d.handed, .waits)
  | (d, .complete, rs) =>
    match d.verifier.checkClaimE with
    | none => (leafEvents env t.first d.handed, .crashed)
    | some false => (leafEvents env t.first d.handed, .ended)
    | some true =>
      match updateState now task s (some (t.first, t.last)) d.minTs d.maxTs with
      | none => (leafEvents env t.first d.handed, .ended)
      | some s' => (leafEvents env t.first d.handed ++ .state s' :: (next s' rs).1, (next s' rs).2)

/-- The loop over the verifiers (rfc6962.go:459-484). -/
def runSubtreesE (env : Env) (now : Nat) (task : Task) : WState → List Subtree → List Resp → List Ev × JobEnd
  | _, [], _ => ([], .done)
  | s, t :: ts, rs => settle env now task s t (fun s' rs' => runSubtreesE env now task s' ts rs') (downloadE env t.last (newDownload t) rs)

/-- One job: `NewLogWorker` and `Run` (rfc6962.go:215-489). With `batch = 0` a backfill divides by zero (line 338); with an empty queue of verifiers line 486 indexes out of range. -/
def runWorkerE (env : Env) (batch now : Nat) (s : WState) (sth : Option TreeHead) (proof : Option (List Bytes)) (rs : List Resp) : List Ev × JobEnd :=
  match sth with
  | none => ([], .slept)
  | some h =>
    let task := chooseTask batch now s (some h)
    if task = .backfill ∧ batch = 0 then ([], .crashed)
    else match jobRange batch s h.treeSize task with
      | none => (if task = .sleep then runSleep now s h else [], .slept)
      | some r =>
        match proof with
        | none => ([], .slept)
        | some p =>
          match jobSubtrees (decide (task = .backfill)) r.1 r.2 p with
          | none => ([], .ended)
          | some [] => ([], .crashed)
          | some (t :: ts) => runSubtreesE env now task s (t :: ts) rs

end Verif
