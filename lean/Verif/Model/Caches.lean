import Verif.Model.Keys
import Verif.Model.Storage
import Verif.Model.Epoch
/-!
The two implementations of `RemoteCache` (go/storage/types.go:11-32): `RedisCache` (go/storage/rediscache.go) with the commands it gives to Redis, and `MockRemoteCache` (go/storage/mockcache.go), with which the tests of the database
run. Each call is one step; that calls of several processes mix is the subject of C37 and C91, failing requests that of C89 and C95. `Migrate` is the subject of C39; the mock does nothing there. Times of calls are in milliseconds,
expiry times in seconds, as go-redis sends them.
-/
namespace Verif

/-- Log states and their JSON (go/types.go:137-146); C103 is about the text. -/
structure StateCodec (S : Type) where
  url : S → Text
  enc : S → Bytes
  dec : Bytes → Option S

/-- `SetMemberWithExpiry` (go/storage/types.go:70-74). -/
structure CacheItem where
  key : Text
  value : Bytes
  expiry : Int

/-- A call of `RemoteCache` (go/storage/types.go:11-32). `members` stands for `SetList` and for `SetToChan` without repetitions (C95), `keys` for `KeysToChan("serials::*")`, the only pattern in use (go/storage/certdatabase.go:159).
The tokens are the 16 random bytes. -/
inductive CacheCall (S : Type) where
  | exists_ (key : Text)
  | insert (key : Text) (value : Bytes)
  | insertMany (items : List CacheItem)
  | remove (key : Text) (values : List Bytes)
  | contains (key : Text) (value : Bytes)
  | members (key : Text)
  | cardinality (key : Text)
  | expireAt (key : Text) (expiry : Int)
  | keys
  | store (s : S)
  | load (url : Text)
  | loadAll
  | acquire (token : Text)
  | release (token : Text)
  | hasLock (token : Text)
  | getEpoch
  | nextEpoch
  | restore (epoch : Nat) (states : List S) (token : Text)

/-- What a call returns; `failed` is any error. -/
inductive CacheAns (S : Type) where
  | done
  | failed
  | flag (b : Bool)
  | values (l : List Bytes)
  | names (l : List Text)
  | count (n : Nat)
  | state (s : S)
  | states (l : List S)
  | token (t : Option Text)
  | epoch (n : Nat)

/-! ### maps -/

/-- Look up a key. -/
def kvGet {α : Type} (m : List (Text × α)) (k : Text) : Option α := (m.find? (fun p => decide (p.1 = k))).map Prod.snd

/-- Delete a key. -/
def kvDel {α : Type} (m : List (Text × α)) (k : Text) : List (Text × α) := m.filter (fun p => !decide (p.1 = k))

/-- Assign to a key. -/
def kvPut {α : Type} (m : List (Text × α)) (k : Text) (v : α) : List (Text × α) := (k, v) :: kvDel m k

/-! ### Redis -/

/-- A value in Redis: a set, or a string. Strings of log states are kept apart from those of the lock and the epoch: which is at a key depends on the key. -/
inductive RedisVal where
  | set (l : List Bytes)
  | blob (b : Bytes)
  | text (t : Text)

/-- A value with its expiry in milliseconds. -/
structure RedisEntry where
  val : RedisVal
  exp : Option Int

abbrev RedisKeys := List (Text × RedisEntry)

/-- Is the key past its expiry? Redis: `now > when`. -/
def RedisEntry.gone (now : Int) (e : RedisEntry) : Bool :=
  match e.exp with
  | none => false
  | some t => decide (t < now)

/-- The keys that are there at a time. -/
def redisLive (now : Int) (m : RedisKeys) : RedisKeys := m.filter (fun p => !p.2.gone now)

/-- `SADD` of one member; `none` is the error for a key of another type. -/
def redisSAdd (m : RedisKeys) (k : Text) (v : Bytes) : Option (RedisKeys × Bool) :=
  match kvGet m k with
  | none => some (kvPut m k ⟨.set [v], none⟩, true)
  | some ⟨.set l, e⟩ => if l.contains v then some (m, false) else some (kvPut m k ⟨.set (v :: l), e⟩, true)
  | some _ => none

/-- `SREM`. An empty set is no longer a key. -/
def redisSRem (m : RedisKeys) (k : Text) (vs : List Bytes) : Option RedisKeys :=
  match kvGet m k with
  | none => some m
  | some ⟨.set l, e⟩ => if l.filter (fun x => !vs.contains x) = [] then some (kvDel m k) else some (kvPut m k ⟨.set (l.filter (fun x => !vs.contains x)), e⟩)
  | some _ => none

/-- The members of a set, for `SISMEMBER`, `SMEMBERS`, `SSCAN` and `SCARD`; a missing key is an empty set. -/
def redisSet (m : RedisKeys) (k : Text) : Option (List Bytes) :=
  match kvGet m k with
  | none => some []
  | some ⟨.set l, _⟩ => some l
  | some _ => none

/-- `EXPIREAT`: nothing for a missing key; a time that is not in the future deletes the key. -/
def redisExpireAt (now : Int) (m : RedisKeys) (k : Text) (t : Int) : RedisKeys :=
  match kvGet m k with
  | none => m
  | some e => if 1000 * t ≤ now then kvDel m k else kvPut m k ⟨e.val, some (1000 * t)⟩

/-- One item of `SetInsertMany` (rediscache.go:85-94): both commands are sent whatever becomes of the others, the first error is returned at the end. -/
def redisInsertItem (now : Int) (r : RedisKeys × Bool) (i : CacheItem) : RedisKeys × Bool :=
  match redisSAdd r.1 i.key i.value with
  | some m => (redisExpireAt now m.1 i.key i.expiry, r.2)
  | none => (redisExpireAt now r.1 i.key i.expiry, false)

/-- `SetRemove` (rediscache.go:103-117), in slices of 1024. -/
def redisRemove (m : RedisKeys) (k : Text) (vs : List Bytes) : Option RedisKeys :=
  (removeSlices 1024 vs vs.length 0).foldlM (fun m b => redisSRem m k b) m

/-- The names that match `log::*` or `serials::*` (`SCAN`, `KEYS`). -/
def redisNames (m : RedisKeys) (pre : Text) : List Text := (m.map Prod.fst).filter (hasPrefix pre)

/-- `COMMIT_LOCK_KEY` (rediscache.go:29). -/
def lockName : Text := "lock::commit".toList

/-- `EPOCH_KEY` (rediscache.go:32). -/
def epochName : Text := "epoch".toList

/-- `COMMIT_LOCK_EXPIRATION` (rediscache.go:30). -/
def lockMillis : Int := 14400000

/-- `GET` and `json.Unmarshal` (rediscache.go:237-246, 260-268). -/
def redisState {S : Type} (C : StateCodec S) (m : RedisKeys) (k : Text) : Option S :=
  match kvGet m k with
  | some ⟨.blob b, _⟩ => C.dec b
  | _ => none

/-- `StoreLogState` (rediscache.go:227-234); `SET` without expiry. -/
def redisStore {S : Type} (C : StateCodec S) (m : RedisKeys) (s : S) : RedisKeys := kvPut m (logKey (C.url s)) ⟨.blob (C.enc s), none⟩

/-- `GetEpoch` (rediscache.go:309-318). -/
def redisEpoch (m : RedisKeys) : Option Nat :=
  match kvGet m epochName with
  | none => some 0
  | some ⟨.text t, _⟩ => parseUint64 t
  | some _ => none

/-- `INCR` (rediscache.go:320-322): the value must be a 64-bit signed integer, also after the increment. The expiry is kept. -/
def redisIncr (m : RedisKeys) : Option RedisKeys :=
  match kvGet m epochName with
  | none => some (kvPut m epochName ⟨.text (natText 1), none⟩)
  | some ⟨.text t, e⟩ =>
    match parseUint64 t with
    | some n => if n + 1 < 2 ^ 63 then some (kvPut m epochName ⟨.text (natText (n + 1)), e⟩) else none
    | none => none
  | some _ => none

/-- `HasCommitLock` (rediscache.go:298-307). -/
def redisHasLock (m : RedisKeys) (tok : Text) : Option Bool :=
  match kvGet m lockName with
  | none => some false
  | some ⟨.text t, _⟩ => some (decide (t = tok))
  | some _ => none

/-- `Restore` (rediscache.go:324-356) once the lock is held. -/
def redisRestore {S : Type} (C : StateCodec S) (m : RedisKeys) (e : Nat) (l : List S) : RedisKeys :=
  kvPut (l.foldl (redisStore C) ((redisNames m "log::".toList).foldl kvDel m)) epochName ⟨.text (natText e), none⟩

/-- A call of `RedisCache` (go/storage/rediscache.go:74-356) at a time, on the keys that are there. -/
def redisCall {S : Type} (C : StateCodec S) (now : Int) (m : RedisKeys) : CacheCall S → RedisKeys × CacheAns S
  | .exists_ k => (m, .flag (kvGet m k).isSome)
  | .insert k v =>
    match redisSAdd m k v with
    | some r => (r.1, .flag r.2)
    | none => (m, .failed)
  | .insertMany items =>
    if (items.foldl (redisInsertItem now) (m, true)).2 then ((items.foldl (redisInsertItem now) (m, true)).1, .done) else ((items.foldl (redisInsertItem now) (m, true)).1, .failed)
  | .remove k vs =>
    match redisRemove m k vs with
    | some m' => (m', .done)
    | none => (m, .failed)
  | .contains k v =>
    match redisSet m k with
    | some l => (m, .flag (l.contains v))
    | none => (m, .failed)
  | .members k =>
    match redisSet m k with
    | some l => (m, .values l)
    | none => (m, .failed)
  | .cardinality k =>
    match redisSet m k with
    | some l => (m, .count l.length)
    | none => (m, .failed)
  | .expireAt k t => (redisExpireAt now m k t, .done)
  | .keys => (m, .names (redisNames m "serials::".toList))
  | .store s => (redisStore C m s, .done)
  | .load u =>
    match redisState C m (logKey u) with
    | some s => (m, .state s)
    | none => (m, .failed)
  | .loadAll =>
    match (redisNames m "log::".toList).mapM (redisState C m) with
    | some l => (m, .states l)
    | none => (m, .failed)
  | .acquire tok =>
    match kvGet m lockName with
    | none => (kvPut m lockName ⟨.text tok, some (now + lockMillis)⟩, .token (some tok))
    | some _ => (m, .token none)
  | .release tok => if redisHasLock m tok = some true then (kvDel m lockName, .done) else (m, .done)
  | .hasLock tok =>
    match redisHasLock m tok with
    | some b => (m, .flag b)
    | none => (m, .failed)
  | .getEpoch =>
    match redisEpoch m with
    | some n => (m, .epoch n)
    | none => (m, .failed)
  | .nextEpoch =>
    match redisIncr m with
    | some m' => (m', .done)
    | none => (m, .failed)
  | .restore e l tok =>
    match kvGet m lockName with
    | none => (kvDel (redisRestore C (kvPut m lockName ⟨.text tok, some (now + lockMillis)⟩) e l) lockName, .done)
    | some _ => (m, .failed)

/-- The answers to a sequence of calls. -/
def redisRun {S : Type} (C : StateCodec S) (m : RedisKeys) : List (Int × CacheCall S) → List (CacheAns S)
  | [] => []
  | (now, c) :: h => (redisCall C now (redisLive now m) c).2 :: redisRun C (redisCall C now (redisLive now m) c).1 h

/-! ### the cache of the tests -/

/-- `MockRemoteCache` (mockcache.go:18-25). The log states are in `Data`, too; they are kept apart here, as their keys are no others'. -/
structure MockCache where
  data : List (Text × List Bytes)
  logs : List (Text × Bytes)
  exps : List (Text × Int)
  lock : Option Text
  epoch : Nat

/-- `NewMockRemoteCache` (mockcache.go:27-33). -/
def MockCache.empty : MockCache := ⟨[], [], [], none, 0⟩

/-- `cleanupExpiry` (mockcache.go:35-44). -/
def MockCache.cleanup (now : Int) (m : MockCache) : MockCache :=
  { m with
    data := m.data.filter (fun p => !(m.exps.any (fun x => decide (x.1 = p.1) && decide (1000 * x.2 < now))))
    exps := m.exps.filter (fun x => !decide (1000 * x.2 < now)) }

/-- `ec.Data[key]`. -/
def MockCache.set (m : MockCache) (k : Text) : List Bytes := (kvGet m.data k).getD []

/-- `SetInsert` (mockcache.go:46-71). -/
def MockCache.insert (m : MockCache) (k : Text) (v : Bytes) : MockCache :=
  if mockContains (m.set k) v then m else { m with data := kvPut m.data k (mockInsert (m.set k) v) }

/-- `setRemove` (mockcache.go:83-108); the last member takes the key with it. -/
def MockCache.removeOne (k : Text) (m : MockCache) (v : Bytes) : MockCache :=
  if mockContains (m.set k) v then
    (if (m.set k).length = 1 then { m with data := kvDel m.data k } else { m with data := kvPut m.data k (mockRemove (m.set k) v) })
  else m

/-- `filepath.Match("serials::*", key)`: the star does not match a slash. -/
def mockMatches (k : Text) : Bool := hasPrefix "serials::".toList k && !((k.drop "serials::".toList.length).contains '/')

/-- `StoreLogState` (mockcache.go:204-214): the URL as it is. -/
def MockCache.store {S : Type} (C : StateCodec S) (m : MockCache) (s : S) : MockCache := { m with logs := kvPut m.logs (C.url s) (C.enc s) }

/-- A call of `MockRemoteCache` (mockcache.go:46-318). -/
def mockCall {S : Type} (C : StateCodec S) (now : Int) (m : MockCache) : CacheCall S → MockCache × CacheAns S
  | .exists_ k => (m.cleanup now, .flag (kvGet (m.cleanup now).data k).isSome)
  | .insert k v => (m.insert k v, .flag (!mockContains (m.set k) v))
  | .insertMany items => (items.foldl (fun m i => m.insert i.key i.value) m, .done)
  | .remove k vs => ((vs.foldl (MockCache.removeOne k) m).cleanup now, .done)
  | .contains k v => (m.cleanup now, .flag (mockContains ((m.cleanup now).set k) v))
  | .members k => (m.cleanup now, .values ((m.cleanup now).set k))
  | .cardinality k => (m, .count (m.set k).length)
  | .expireAt k t => ({ m with exps := kvPut m.exps k t }, .done)
  | .keys => (m, .names ((m.data.map Prod.fst).filter mockMatches))
  | .store s => (m.store C s, .done)
  | .load u =>
    match (kvGet m.logs u).bind C.dec with
    | some s => (m, .state s)
    | none => (m, .failed)
  | .loadAll =>
    match m.logs.mapM (fun p => C.dec p.2) with
    | some l => (m, .states l)
    | none => (m, .failed)
  | .acquire tok =>
    match m.lock with
    | none => ({ m with lock := some tok }, .token (some tok))
    | some _ => (m, .token none)
  | .release tok => if m.lock = some tok then ({ m with lock := none }, .done) else (m, .done)
  | .hasLock tok => (m, .flag (decide (m.lock = some tok)))
  | .getEpoch => (m, .epoch m.epoch)
  | .nextEpoch => ({ m with epoch := (m.epoch + 1) % 2 ^ 64 }, .done)
  | .restore e l _ => (l.foldl (MockCache.store C) { m with logs := [], epoch := e }, .done)

/-- The answers to a sequence of calls. -/
def mockRun {S : Type} (C : StateCodec S) (m : MockCache) : List (Int × CacheCall S) → List (CacheAns S)
  | [] => []
  | (now, c) :: h => (mockCall C now m c).2 :: mockRun C (mockCall C now m c).1 h

end Verif
