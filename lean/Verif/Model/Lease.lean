import Verif.Model.Commit
/-!
The commit lock in time: the processes that use the storage directory (go/cmd/commit/commit.go:44-54, go/cmd/aggregate-known/aggregate-known.go:125-262), and the key
`lock::commit` of Redis with its expiry (go/storage/rediscache.go:274-307). C37 is about the lock alone, without a clock.
-/
namespace Verif

/-- `COMMIT_LOCK_EXPIRATION` (rediscache.go:30) in milliseconds. -/
def leaseTime : Nat := 4 * 3600000

/-- How long aggregate-known waits for the lock (aggregate-known.go:127), in milliseconds. -/
def waitTime : Nat := 15 * 60000

/-- Where a process is. `got` is the time at which Redis executed its `SETNX`; the program does not know it. -/
inductive LPhase where
  | idle
  /-- `waitForCommitLock` began at this time (aggregate-known.go:126), or `commit` is about to try its only time (commit.go:45) -/
  | waiting (since : Nat)
  /-- `AcquireCommitLock` has returned a token -/
  | holding (token got : Nat)
  /-- `Commit` has passed its test of the lock (certdatabase.go:553-559). Everything that reads or changes the storage directory comes after this and before the release, which is
  deferred to the end of `work` -/
  | inside (token got : Nat)
  /-- `ReleaseCommitLock` has passed its test (rediscache.go:292-293) -/
  | releasing (token got : Nat)
  /-- the process has ended, well or not -/
  | gone
deriving DecidableEq

/-- Clock, lock (token and expiry), processes. Tokens are 16 random bytes; they are taken to be different, hence numbered. Two records that no program keeps: `trace`, which process
used the storage, in order; and `late`, whether a process used the storage or deleted the lock after its four hours. -/
structure Lease where
  now : Nat
  lock : Option (Nat × Nat)
  fresh : Nat
  procs : Nat → LPhase
  trace : List Nat
  late : Bool

def Lease.init : Lease := { now := 0, lock := none, fresh := 0, procs := fun _ => .idle, trace := [], late := false }

/-- Steps. Process numbers are not reused. -/
inductive LAct where
  | tick (now : Nat)
  /-- process `p` begins to wait -/
  | start (p : Nat)
  /-- one `SETNX` of `p`; `answered = false`: the answer is lost, which the caller takes for a failure (aggregate-known.go:129) -/
  | try (p : Nat) (answered : Bool)
  /-- the wait is over: `time.Since(start)` is 15 minutes or more (aggregate-known.go:127, 134), or `commit` has failed once -/
  | giveUp (p : Nat)
  /-- `HasCommitLock` in `Commit` -/
  | enter (p : Nat)
  /-- one operation on the storage directory -/
  | work (p : Nat)
  /-- `HasCommitLock` in `ReleaseCommitLock` -/
  | test (p : Nat)
  /-- `DEL` (rediscache.go:294) -/
  | del (p : Nat)
  /-- the process is killed -/
  | die (p : Nat)
  /-- Redis loses the key -/
  | lose

def Lease.set (s : Lease) (p : Nat) (x : LPhase) : Lease := { s with procs := fun q => if q = p then x else s.procs q }

/-- Redis has a key until its time has passed. -/
def Lease.held (s : Lease) : Bool :=
  match s.lock with
  | some (_, e) => decide (s.now ≤ e)
  | none => false

/-- `HasCommitLock` (rediscache.go:298-307). -/
def Lease.hasLock (s : Lease) (token : Nat) : Bool :=
  match s.lock with
  | some (t, e) => decide (s.now ≤ e) && decide (t = token)
  | none => false

/-- `SETNX` that succeeds. -/
def Lease.grant (s : Lease) (p : Nat) (answered : Bool) : Lease :=
  let s' := { s with lock := some (s.fresh, s.now + leaseTime), fresh := s.fresh + 1 }
  if answered then s'.set p (.holding s.fresh s.now) else s'

/-- Is this later than the lease allows? -/
def Lease.tooLate (s : Lease) (got : Nat) : Bool := decide (got + leaseTime < s.now)

def Lease.step (s : Lease) : LAct → Lease
  | .tick now => if s.now ≤ now then { s with now := now } else s
  | .start p =>
    match s.procs p with
    | .idle => s.set p (.waiting s.now)
    | _ => s
  | .try p answered =>
    match s.procs p with
    | .waiting since => if s.held = false ∧ s.now < since + waitTime then s.grant p answered else s
    | _ => s
  | .giveUp p =>
    match s.procs p with
    | .waiting _ => s.set p .gone
    | _ => s
  | .enter p =>
    match s.procs p with
    | .holding token got => if s.hasLock token then s.set p (.inside token got) else s
    | _ => s
  | .work p =>
    match s.procs p with
    | .inside _ got => { s with trace := s.trace ++ [p], late := s.late || s.tooLate got }
    | _ => s
  | .test p =>
    match s.procs p with
    | .holding token got => s.set p (if s.hasLock token then .releasing token got else .gone)
    | .inside token got => s.set p (if s.hasLock token then .releasing token got else .gone)
    | _ => s
  | .del p =>
    match s.procs p with
    | .releasing _ got => { s.set p .gone with lock := none, late := s.late || s.tooLate got }
    | _ => s
  | .die p => s.set p .gone
  | .lose => { s with lock := none }

def Lease.run (s : Lease) (acts : List LAct) : Lease := acts.foldl Lease.step s

end Verif
