import Verif.Model.Commit
import Verif.Model.Merkle
/-!
Smaller pieces of go/storage: batched loops, the commit lock, `Restore`, the in-memory cache, and the buffered writer of serial files.
-/
namespace Verif

/-! ### batched loops -/

/-- The loop of `moveCachedSerialsToStorage` (go/storage/certdatabase.go:479-501) for a list of `n` dates: start and size of each batch. `batchSize` is
changed inside the loop (481-483). `fuel` bounds the iterations; `n` suffices. -/
def moveBatches (n : Nat) : Nat → Nat → Nat → List (Nat × Nat)
  | 0, _, _ => []
  | fuel + 1, start, batchSize =>
    if start < n then
      let size := if start + batchSize > n then n - start else batchSize
      (start, size) :: moveBatches n fuel (start + size) size
    else []

/-- The dates given to the goroutines of each batch (488-493), batch size 1000 (line 26). -/
def moveSlices {α : Type} (batchSize : Nat) (xs : List α) : List (List α) :=
  (moveBatches xs.length xs.length 0 batchSize).map (fun p => (xs.drop p.1).take p.2)

/-- The loop of `SetRemove` (go/storage/rediscache.go:103-117): the slices given to `SREM`, batch size 1024. -/
def removeSlices {α : Type} (batchSize : Nat) (xs : List α) : Nat → Nat → List (List α)
  | 0, _ => []
  | fuel + 1, start =>
    if start < xs.length then
      let stop := if start + batchSize > xs.length then xs.length else start + batchSize
      (xs.drop start).take (stop - start) :: removeSlices batchSize xs fuel (start + batchSize)
    else []

/-! ### commit lock -/

/-- A process that uses the commit lock: the token it got from `AcquireCommitLock`, and whether `ReleaseCommitLock` has passed its test
(go/storage/rediscache.go:274-307). -/
structure LockUser where
  token : Option Nat
  checked : Bool
deriving DecidableEq

/-- Redis' `lock::commit` and the processes. Tokens are 16 random bytes; they are taken to be different, hence numbered. -/
structure LockState where
  lock : Option Nat
  users : Nat → LockUser
  fresh : Nat

def LockState.init : LockState := { lock := none, users := fun _ => ⟨none, false⟩, fresh := 0 }

def LockState.setUser (s : LockState) (p : Nat) (u : LockUser) : LockState := { s with users := fun q => if q = p then u else s.users q }

inductive LockAct where
  /-- `SETNX` (284) -/
  | acquire (p : Nat)
  /-- Redis removes the key after four hours (30) -/
  | expire
  /-- `HasCommitLock` in `ReleaseCommitLock` (292-293) -/
  | check (p : Nat)
  /-- `DEL` (294), or return if the test failed; the process no longer uses its token -/
  | finish (p : Nat)

/-- `HasCommitLock` (298-307). -/
def LockState.has (s : LockState) (p : Nat) : Bool := decide (s.lock ≠ none ∧ s.lock = (s.users p).token)

def LockState.step (s : LockState) : LockAct → LockState
  | .acquire p =>
    if (s.users p).token = none then
      match s.lock with
      | some _ => s
      | none => { s.setUser p ⟨some s.fresh, false⟩ with lock := some s.fresh, fresh := s.fresh + 1 }
    else s
  | .expire => { s with lock := none }
  | .check p => s.setUser p ⟨(s.users p).token, s.has p⟩
  | .finish p =>
    let s' := s.setUser p ⟨none, false⟩
    if (s.users p).checked then { s' with lock := none } else s'

def LockState.run (s : LockState) (acts : List LockAct) : LockState := acts.foldl LockState.step s

/-! ### restore -/

/-- The keys of Redis that `Restore` touches. -/
structure RedisLogs where
  logs : List (Text × CTLogState)
  epoch : Nat

/-- Writes of `Restore` (go/storage/rediscache.go:331-353). -/
inductive RestoreOp where
  | del (key : Text)
  | put (s : CTLogState)
  | setEpoch (e : Nat)

def RedisLogs.apply (r : RedisLogs) : RestoreOp → RedisLogs
  | .del key => { r with logs := r.logs.filter (fun p => decide (p.1 ≠ key)) }
  | .put s => { r with logs := putLog r.logs (logKey s.shortURL) s }
  | .setEpoch e => { r with epoch := e }

/-- The writes in order; `KEYS log::*` is one atomic command. -/
def restoreOps (r : RedisLogs) (epoch : Nat) (states : List CTLogState) : List RestoreOp :=
  (r.logs.map (fun p => RestoreOp.del p.1)) ++ states.map RestoreOp.put ++ [.setEpoch epoch]

/-- `Restore` (324-356) that ends after `n` writes, by an error or a crash; `lockFree` is the outcome of `AcquireCommitLock`. -/
def restore (r : RedisLogs) (epoch : Nat) (states : List CTLogState) (lockFree : Bool) (n : Nat) : RedisLogs :=
  if lockFree then ((restoreOps r epoch states).take n).foldl RedisLogs.apply r else r

/-- `EnsureCacheIsConsistent` (go/storage/certdatabase.go:88-114): `stored` are the log states in storage, `none` an error. -/
def ensureConsistent (r : RedisLogs) (diskEpoch : Nat) (stored : Option (List CTLogState)) (lockFree : Bool) (n : Nat) : RedisLogs :=
  if epochsAgree r.epoch diskEpoch then r
  else match stored with
    | none => r
    | some states => restore r (diskEpoch + 1) states lockFree n

/-- `GET` of a log key. -/
def RedisLogs.get (r : RedisLogs) (key : Text) : Option CTLogState := (r.logs.find? (fun p => decide (p.1 = key))).map Prod.snd

/-! ### the in-memory cache -/

/-- The predicate of `sort.Search` in go/storage/mockcache.go:51-53, 88-90, 129-131: `entry <= data[i]`. -/
def mockLe (l : List Bytes) (e : Bytes) (i : Nat) : Bool :=
  match l[i]? with
  | some x => bytesLe e x
  | none => true

/-- `sort.Search`. -/
def mockSearch (l : List Bytes) (e : Bytes) : Nat := sortSearch (mockLe l e) l.length 0 l.length

/-- `MockRemoteCache.SetContains` (mockcache.go:123-145) for one key. -/
def mockContains (l : List Bytes) (e : Bytes) : Bool := decide (l[mockSearch l e]? = some e)

/-- `MockRemoteCache.SetInsert` (46-71). -/
def mockInsert (l : List Bytes) (e : Bytes) : List Bytes :=
  if l[mockSearch l e]? = some e then l else l.take (mockSearch l e) ++ e :: l.drop (mockSearch l e)

/-- `MockRemoteCache.setRemove` (83-108): the last element is moved to the place of the removed one. -/
def mockRemove (l : List Bytes) (e : Bytes) : List Bytes :=
  if l[mockSearch l e]? = some e then
    (match l.getLast? with
     | some x => (l.set (mockSearch l e) x).dropLast
     | none => l)
  else l

/-! ### buffered writes -/

/-- A `bufio.Writer` on a file that accepts `room` more characters and then fails. `err` is the sticky error. -/
structure BufW where
  buf : Text
  out : Text
  room : Nat
  err : Bool

/-- `bufio.Writer.Flush`. -/
def BufW.flush (w : BufW) : BufW :=
  if w.err then w
  else if w.buf.length ≤ w.room then { buf := [], out := w.out ++ w.buf, room := w.room - w.buf.length, err := false }
  else { buf := w.buf.drop w.room, out := w.out ++ w.buf.take w.room, room := 0, err := true }

/-- One character of `WriteString` or `WriteByte`: a full buffer (of `size`) is flushed first; after an error nothing is written. -/
def BufW.put (size : Nat) (w : BufW) (c : Char) : BufW :=
  if w.err then w
  else if w.buf.length ≥ size then
    (if w.flush.err then w.flush else { w.flush with buf := w.flush.buf ++ [c] })
  else { w with buf := w.buf ++ [c] }

/-- The buffer size of `bufio.NewWriter`. -/
def bufSize : Nat := 4096

/-- `WriteSerialList` (go/storage/certdatabase.go:33-60) to a file that has room for `room` characters: the text in the file, and whether `nil` is
returned. The result of the deferred `Flush` (35) is ignored. -/
def writeSerialListTo (room : Nat) (unix : Int) (serials : List Serial) : Text × Bool :=
  let w := (writeSerialList unix serials).foldl (BufW.put bufSize) { buf := [], out := [], room := room, err := false }
  (w.flush.out, !w.err)

/-- The end of `moveOneBinOfCachedSerialsToStorage` (certdatabase.go:434-459): the new contents of the bin's file, and whether the covered entries are
removed from the cache. -/
def replaceBin (room : Nat) (unix : Int) (old : Option Text) (serials : List Serial) : Option Text × Bool :=
  if (writeSerialListTo room unix serials).2 then (some (writeSerialListTo room unix serials).1, true) else (old, false)

end Verif
