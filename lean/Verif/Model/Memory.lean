import Verif.Model.Commit
/-!
Redis with a memory limit: the commands that Redis refuses when its memory is full (`SADD`, `SET`, `INCR`; removing needs no memory), what the programs make of the
refusal, and the keys it throws away itself if the server's `maxmemory-policy` is not `noeviction` (go/storage/rediscache.go, go/cmd/ct-fetch/ct-fetch.go:198-265,
go/cmd/commit/commit.go:24-57).
-/
namespace Verif

/-- The kinds of `maxmemory-policy`: throw nothing away, only keys with an expiry (`volatile-…`), any key (`allkeys-…`). -/
inductive EvictPolicy where
  | noeviction
  | volatile
  | allkeys
deriving DecidableEq

/-- The server: its policy, `maxmemory`, and the memory that sets and log states take (with the rest counted as constant). -/
structure MemConf where
  policy : EvictPolicy
  limit : Nat
  used : List Cached → List (Text × CTLogState) → Nat

/-- More memory in use than allowed: commands that may need memory are answered with an `OOM` error. -/
def MemConf.full (c : MemConf) (db : Db) : Bool := decide (c.limit < c.used db.sets db.logs)

/-- One `SADD` of the pipeline; the flag tells whether all so far were accepted. -/
def memAdd (c : MemConf) (r : Db × Bool) (p : Cached) : Db × Bool :=
  if c.full r.1 then (r.1, false) else (r.1.step (.insert [p]), r.2)

/-- `SetInsertMany` (rediscache.go:83-101): a pipeline goes on after a refused command; the result is an error if one was refused. The `EXPIREAT`s need no memory. -/
def memInsert (c : MemConf) (db : Db) (ps : List Cached) : Db × Bool := ps.foldl (memAdd c) (db, true)

/-- Steps: those of the programs, of the clock and of Redis' expiry, and the removal of a key by Redis for lack of memory. The commit lock, which has an expiry and so
may be thrown away too, is left out. -/
inductive MAct where
  | act (a : CAct)
  | evictBin (b : Bin)
  | evictLog (key : Text)
  | evictEpoch

/-- A step of the programs, when memory may be full. `begin`: `AcquireCommitLock` (rediscache.go:274-290) is a `SET`, so commit.go:43-46 gives up. `ensure`: if the epochs
agree there is nothing to do, else `Restore` (rediscache.go:325-328) cannot take the lock. `nextEpoch`: `INCR` (rediscache.go:320-322) fails and the commit returns the error. -/
def memAct (c : MemConf) (db : Db) (a : CAct) : Db :=
  match a with
  | .insert ps => (memInsert c db ps).1
  | .saveLog s => if c.full db then db else db.step (.saveLog s)
  | .begin ro lock => if c.full db then db else db.step (.begin ro lock)
  | .ensure => if c.full db then db else db.step .ensure
  | .nextEpoch =>
    if c.full db then
      match db.phase with
      | .replaced _ => db.step .stop
      | _ => db
    else db.step .nextEpoch
  | a => db.step a

/-- One step. Redis throws keys away only if its memory is full and its policy says so; a `volatile` policy only keys with an expiry, which the bins have
(rediscache.go:91) and the log states and the epoch do not (rediscache.go:233, 352). -/
def memStep (c : MemConf) (db : Db) : MAct → Db
  | .act a => memAct c db a
  | .evictBin b =>
    if c.full db = true ∧ c.policy ≠ .noeviction then { db with sets := db.sets.filter (fun p => decide (p.1 ≠ b)) } else db
  | .evictLog key =>
    if c.full db = true ∧ c.policy = .allkeys then { db with logs := db.logs.filter (fun p => decide (p.1 ≠ key)) } else db
  | .evictEpoch => if c.full db = true ∧ c.policy = .allkeys then { db with cacheEpoch := 0 } else db

/-- A run. -/
def memRun (c : MemConf) (db : Db) (acts : List MAct) : Db := acts.foldl (memStep c) db

/-! ### the test of the policy -/

/-- `strings.Contains(t, needle)`. -/
def containsText (needle : Text) : Text → Bool
  | [] => needle.isPrefixOf []
  | x :: t => needle.isPrefixOf (x :: t) || containsText needle t

/-- The text looked for (rediscache.go:67). -/
def policyNeedle : Text := "maxmemory_policy:noeviction".toList

/-- `MemoryPolicyCorrect` (rediscache.go:61-72): no error? `none`: `INFO memory` failed. -/
def memoryPolicyCorrect (info : Option Text) : Bool :=
  match info with
  | none => false
  | some t => containsText policyNeedle t

/-- `NewRedisCache` (rediscache.go:38-59): `none` is an error, with which all programs end (go/engine/engine.go:28-31); the flag tells whether a warning is logged. -/
def newRedisCache (ping : Bool) (info : Option Text) : Option Bool :=
  if ping then some (!memoryPolicyCorrect info) else none

end Verif
