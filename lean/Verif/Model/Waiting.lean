import Verif.Model.Operations
/-!
How the publisher waits: for the newest run to be complete (moz_kinto_publisher/main.py:138-150, 995-1003), and for a file of a run
(workflow/__init__.py:100-131). Times are in milliseconds.
-/
namespace Verif

/-- What comes of one request for a file. -/
inductive Reply where
  /-- `blob.exists()` says no (workflow/__init__.py:108-109), or `completed` is not there (main.py:131-136) -/
  | missing
  /-- the file -/
  | sent (content : Bytes)
  /-- any other exception: after `open(local, "wb")` (workflow/__init__.py:110) with a part of the file, or before it -/
  | broken (part : Option Bytes)
deriving DecidableEq

/-- The world during a wait: what comes of a request that begins at some time, how long the request of each turn takes, how much longer than 30 seconds
each `time.sleep(30)` takes, and what `datetime.now()` gives at some time. The latter is local time without its zone, so that it jumps when summer time
begins or ends. A request is taken to see the bucket as it is when it begins. -/
structure WaitWorld where
  reply : Nat → Reply
  took : Nat → Nat
  over : Nat → Nat
  clock : Nat → Int

/-- How a wait ends. -/
inductive WaitEnd where
  | found (content : Bytes)
  | raised (part : Option Bytes)
  | timedOut
deriving DecidableEq

/-- At most `n` turns of the loop (workflow/__init__.py:119-131; main.py:141-150), beginning at time `t` with turn `i`, for a wait that began at `t0`: how
it ends and when, or `none` if it still goes on. The time that the program itself takes between requests is left out. -/
def waitTurns (w : WaitWorld) (timeout : Nat) (t0 : Nat) : Nat → Nat → Nat → Option (WaitEnd × Nat)
  | 0, _, _ => none
  | n + 1, i, t =>
    match w.reply t with
    | .sent c => some (.found c, t + w.took i)
    | .broken p => some (.raised p, t + w.took i)
    | .missing =>
      if (timeout : Int) ≤ w.clock (t + w.took i) - w.clock t0 then some (.timedOut, t + w.took i)
      else waitTurns w timeout t0 n (i + 1) (t + w.took i + 30000 + w.over i)

/-- `download_and_retry_from_google_cloud` (workflow/__init__.py:116-131) begun at `t0`, after at most `n` requests: how it ends and when (`timedOut` is the
`FileNotFoundException` raised again), and the local file, which was `before`. -/
def awaitDownload (w : WaitWorld) (timeout : Nat) (t0 n : Nat) (before : Option Bytes) : Option (WaitEnd × Nat) × Option Bytes :=
  match waitTurns w timeout t0 n 0 t0 with
  | some (.found c, t) => (some (.found c, t), some c)
  | some (.raised (some p), t) => (some (.raised (some p), t), some p)
  | r => (r, before)

/-- What `while run_id is None or not self.is_run_ready(run_id)` (main.py:141) asks: `most_recent_id` is the last of the identifiers that were listed when
the object was made (main.py:108-111, 152-153); `bucket t` is what is in the bucket at time `t`. Failing requests are left out. -/
def newestReply (ids : List Text) (bucket : Nat → List StoredObj) (t : Nat) : Reply :=
  match ids.getLast? with
  | none => .missing
  | some r => if runReady (bucket t) r then .sent [] else .missing

/-- `await_most_recent_run` (main.py:138-150) of a publisher that lists the runs and begins to wait at `t0`; `w` says how long things take. `found` is a
normal return, `timedOut` the `TimeoutException`, after which `publish_crlite` returns without having done anything (main.py:998-1002). -/
def awaitRun (w : WaitWorld) (bucket : Nat → List StoredObj) (timeout : Nat) (t0 n : Nat) : Option (WaitEnd × Nat) :=
  waitTurns { w with reply := newestReply (getRunIdentifiers (dirsOf (bucket t0))) bucket } timeout t0 n 0 t0

end Verif
