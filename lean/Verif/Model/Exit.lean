import Verif.Model.Text
/-!
How ct-fetch ends: the goroutines of `main`, their wait groups and channels (go/cmd/ct-fetch/ct-fetch.go:89-97, 109-112, 157-168, 183-196, 217-269, 289-326, 387-403, 408-426, 428-555).
-/
namespace Verif

/-- A goroutine `go syncEngine.SyncLog(…)` (ct-fetch.go:470): created but not yet at its first statement, `DownloaderWaitGroup.Add(1)` (95); running, with the messages that it still has to
send; or returned, after the deferred `Done` (96). -/
inductive SyncStage where
  | created
  | running (todo : List Nat)
  | returned
deriving DecidableEq

structure SyncGo where
  log : Text
  stage : SyncStage
deriving DecidableEq

/-- The database thread (ct-fetch.go:89-91, 217-269): created, after `ThreadWaitGroup.Add(1)` (218), or after the deferred `Done` (219). -/
inductive DbStage where
  | created
  | running
  | returned
deriving DecidableEq

/-- Where `main` is: before the end of `enrolledLogs.Wait()` (ct-fetch.go:544), in `DownloaderWaitGroup.Wait()` (188), in `ThreadWaitGroup.Wait()` (195), after `os.Exit(0)` (554). -/
inductive MainStage where
  | enrolling
  | waitDown
  | waitThread
  | exited
deriving DecidableEq

/-- Everything. `pending`: logs that will still be enrolled, by `main` (ct-fetch.go:481-485) or by `UpdateFromRemoteSettings` (387-426); `slot`: the log that the receiver of `NewChan` (467-472) has received
and not yet started; `finalized`: `Finalize` has been called (301-304); `chan`: `entryChan`; `sent` and `handled` are records that the program does not keep: all messages sent, and all messages that the
database thread has received and treated. -/
structure Exit where
  pending : List Text
  slot : Option Text
  finalized : Bool
  syncs : List SyncGo
  db : DbStage
  main : MainStage
  downWG : Nat
  threadWG : Nat
  chan : List Nat
  closed : Bool
  cancelled : Bool
  panicked : Bool
  sent : List Nat
  handled : List Nat

/-- `main` has made the engine and started the database thread and the receiver (ct-fetch.go:459-472). -/
def Exit.init (logs : List Text) : Exit :=
  { pending := logs, slot := none, finalized := false, syncs := [], db := .created, main := .enrolling, downWG := 0, threadWG := 0, chan := [], closed := false, cancelled := false,
    panicked := false, sent := [], handled := [] }

/-- Steps. A step that is not enabled changes nothing. -/
inductive XAct where
  /-- SIGINT or SIGTERM (ct-fetch.go:436-445) -/
  | signal
  /-- `NewChan <- ctLog`, and the receiver takes it (324, 399, 468) -/
  | enroll
  /-- `go syncEngine.SyncLog(…)` (470) -/
  | spawn
  /-- `Finalize` (409, 502) -/
  | finalize
  /-- goroutine `k` begins; `ms` are the messages that its jobs will send before they are done or meet an error -/
  | begin (k : Nat) (ms : List Nat)
  /-- it sends its next message; on a closed channel this panics (rfc6962.go:536-540, 610-614; tiled.go:239-243, 363-367) -/
  | send (k : Nat)
  /-- `SyncLog` returns: it has sent all that it would send (an error ends the list), or a signal made a send return (`case <-ctx.Done()`, as above) -/
  | return (k : Nat)
  /-- the database thread begins -/
  | dbBegin
  /-- it treats the next message (229-267) -/
  | dbTake
  /-- its loop ends because the channel is closed and empty -/
  | dbEnd
  /-- it gives up because of a signal while the database fails (262-264) -/
  | dbQuit
  /-- `main` goes on -/
  | main

/-- Change goroutine `k`. -/
def setSync (l : List SyncGo) (k : Nat) (log : Text) (st : SyncStage) : List SyncGo := l.set k { log := log, stage := st }

/-- One step; `cap` is the capacity of `entryChan` (83). After a panic or `os.Exit` nothing happens. -/
def Exit.step (cap : Nat) (x : Exit) (a : XAct) : Exit :=
  if x.panicked = true ∨ x.main = .exited then x
  else match a with
  | .signal => { x with cancelled := true }
  | .enroll =>
    match x.pending, x.slot with
    | log :: rest, none => { x with pending := rest, slot := some log }
    | _, _ => x
  | .spawn =>
    match x.slot with
    | some log => { x with slot := none, syncs := x.syncs ++ [{ log := log, stage := .created }] }
    | none => x
  | .finalize => if x.pending = [] then { x with finalized := true } else x
  | .begin k ms =>
    match x.syncs[k]? with
    | some { log := log, stage := .created } => { x with syncs := setSync x.syncs k log (.running ms), downWG := x.downWG + 1 }
    | _ => x
  | .send k =>
    match x.syncs[k]? with
    | some { log := log, stage := .running (m :: ms) } =>
      if x.closed then { x with panicked := true }
      else if x.chan.length < cap then { x with syncs := setSync x.syncs k log (.running ms), chan := x.chan ++ [m], sent := x.sent ++ [m] }
      else x
    | _ => x
  | .return k =>
    match x.syncs[k]? with
    | some { log := log, stage := .running todo } =>
      if todo = [] ∨ x.cancelled = true then { x with syncs := setSync x.syncs k log .returned, downWG := x.downWG - 1 } else x
    | _ => x
  | .dbBegin => if x.db = .created then { x with db := .running, threadWG := x.threadWG + 1 } else x
  | .dbTake =>
    match x.db, x.chan with
    | .running, m :: rest => { x with chan := rest, handled := x.handled ++ [m] }
    | _, _ => x
  | .dbEnd => if x.db = .running ∧ x.closed = true ∧ x.chan = [] then { x with db := .returned, threadWG := x.threadWG - 1 } else x
  | .dbQuit => if x.db = .running ∧ x.cancelled = true then { x with db := .returned, threadWG := x.threadWG - 1 } else x
  | .main =>
    match x.main with
    | .enrolling => if x.finalized then { x with main := .waitDown } else x
    | .waitDown => if x.downWG = 0 then { x with closed := true, main := .waitThread } else x
    | .waitThread => if x.threadWG = 0 then { x with main := .exited } else x
    | .exited => x

def Exit.run (cap : Nat) (x : Exit) (acts : List XAct) : Exit := acts.foldl (Exit.step cap) x

end Verif
