import Verif.Model.Keys
/-!
`CertDatabase.Commit` (go/storage/certdatabase.go:401-637) running next to ct-fetch, as a state machine whose steps are the single
Redis and file-system operations.
-/
namespace Verif

/-- A bin: expiry hour (Unix seconds) and issuer id. C09 proves that different bins have different names in the cache and in storage. Bins
with day resolution (old files) are left out. -/
structure Bin where
  unix : Int
  issuer : Text
deriving DecidableEq

/-- `expDate.IsExpiredAt(t)` (certdatabase.go:239) for the `ExpDate` that `NewExpDate` makes of the bin's name (go/types.go:465-486); `now` in
Unix milliseconds. -/
def Bin.fileExpired (b : Bin) (now : Int) : Bool := decide (b.unix * 1000 + 3600000 - 1 < now)

/-- Has Redis expired the bin's key (`ExpireAt` in `SetInsertMany`, go/storage/rediscache.go:91)? -/
def Bin.keyExpired (b : Bin) (now : Int) : Bool := decide (b.unix * 1000 ≤ now)

/-- A member of a bin's Redis set. -/
abbrev Cached := Bin × Bytes

/-- What the goroutine of one bin is doing (`moveOneBinOfCachedSerialsToStorage`, certdatabase.go:401-462). -/
inductive Stage where
  /-- `SSCAN` is running; `need` was in the set when it began -/
  | scanning (need : List Bytes)
  /-- the set has been listed (line 402) -/
  | listed (es : List Bytes)
  /-- the stored serials have been read (line 426) -/
  | haveRead (es : List Bytes) (stored : List Serial)
  /-- the file has been replaced (line 449); `covered` may now be removed from the cache -/
  | wrote (covered : List Bytes)
  | finished
  | failed
deriving DecidableEq

structure Job where
  bin : Bin
  stage : Stage
deriving DecidableEq

/-- How far a commit is (certdatabase.go:526-637). `epoch` is the cache epoch read at the start. `seen` is only for the specification: everything that
had been inserted into the cache when the last log state was read. -/
inductive CPhase where
  | idle
  /-- `LoadAllLogStates` (rediscache.go:249-272): `need` are the keys that existed when the scan began -/
  | loading (epoch : Nat) (need : List Text) (acc : List (Text × CTLogState))
  | loaded (epoch : Nat) (states : List CTLogState) (seen : List Cached)
  /-- `KeysToChan` for the bins is running (certdatabase.go:154-166): `need` existed when it began -/
  | listing (epoch : Nat) (states : List CTLogState) (seen : List Cached) (need : List Bin)
  | moving (epoch : Nat) (states : List CTLogState) (seen : List Cached) (todo : List Bin) (jobs : List Job)
  | replaced (epoch : Nat)
  | bumped (epoch : Nat)

/-- Redis, the storage directory, the clock and the commit process. `ever` and `pubSeen` are only for the specification: everything that was ever
inserted into the cache, and the `seen` of the commit that wrote `ctlogs`. -/
structure Db where
  sets : List Cached
  logs : List (Text × CTLogState)
  cacheEpoch : Nat
  files : Bin → Option Text
  ctlogs : Option (List CTLogState)
  diskEpoch : Nat
  now : Int
  phase : CPhase
  ever : List Cached
  pubSeen : List Cached

/-- Everything empty. -/
def Db.init : Db :=
  { sets := [], logs := [], cacheEpoch := 0, files := fun _ => none, ctlogs := none, diskEpoch := 0, now := 0, phase := .idle, ever := [],
    pubSeen := [] }

/-- The members of one set. -/
def Db.members (db : Db) (b : Bin) : List Bytes := (db.sets.filter (fun p => decide (p.1 = b))).map Prod.snd

/-- The consistency test of the two epochs (certdatabase.go:99 and 571). -/
def epochsAgree (cache disk : Nat) : Bool := decide (cache = disk + 1 ∨ cache = 0 ∧ disk = 0)

/-- Replace the state under a key. -/
def putLog (logs : List (Text × CTLogState)) (key : Text) (s : CTLogState) : List (Text × CTLogState) :=
  (key, s) :: logs.filter (fun p => decide (p.1 ≠ key))

/-- Steps. Steps that are not enabled change nothing. The Redis scans return everything that was there during the whole scan, and may or may not return
what was added meanwhile. -/
inductive CAct where
  /-- ct-fetch stores certificates (`SetInsertMany`, rediscache.go:83-101) -/
  | insert (ps : List Cached)
  /-- ct-fetch saves a log state (rediscache.go:227-234) -/
  | saveLog (s : CTLogState)
  /-- time passes -/
  | tick (t : Int)
  /-- Redis removes a set whose time has come -/
  | keyExpires (b : Bin)
  /-- Redis loses everything -/
  | wipe
  /-- ct-fetch starts: `EnsureCacheIsConsistent` (certdatabase.go:88-114) -/
  | ensure
  /-- `Commit` up to the epoch test (certdatabase.go:549-573) -/
  | begin (readOnly hasLock : Bool)
  /-- one `GET` of `LoadAllLogStates` -/
  | readLog (key : Text)
  /-- all keys have been read and the temporary coverage file written (575-589) -/
  | loadedAll
  /-- `SCAN` for the bins begins and ends -/
  | listStart
  | listEnd (bs : List Bin)
  /-- the goroutine of a bin starts listing its set -/
  | jobStart (b : Bin)
  | jobListed (k : Nat) (es : List Bytes)
  | jobRead (k : Nat)
  | jobWrite (k : Nat)
  /-- some covered entries are removed (the error is only logged, so that some may stay) -/
  | jobRemove (k : Nat) (xs : List Bytes)
  | jobFinish (k : Nat)
  /-- any reported error in the goroutine before the file is replaced -/
  | jobFail (k : Nat)
  /-- the coverage file is replaced (596) -/
  | replaceLogs
  /-- an expired file is deleted (601, 239-241) -/
  | sweep (b : Bin)
  /-- `NextEpoch` (624). It is an `INCR` (rediscache.go:320-322), and the client sends a command again whose answer was lost, up to ten times (rediscache.go:39-45,
  `MaxRetries`): the step may therefore come again before the epoch file is replaced. -/
  | nextEpoch
  /-- the epoch file is replaced (630) -/
  | replaceEpoch
  /-- the commit returns or dies -/
  | stop

/-- The entries of a bin that are moved (certdatabase.go:410-424). -/
def coveredOf (states : List CTLogState) (es : List Bytes) : List Bytes := es.filter (isCovered (newCoverageCutoffMap states))

/-- The new contents of a bin's file (certdatabase.go:431-445). -/
def movedFile (states : List CTLogState) (b : Bin) (es : List Bytes) (stored : List Serial) : Text :=
  writeSerialList b.unix (dedup (stored ++ (coveredOf states es).map asSerial))

/-- The states `GetCTLogsFromStorage` returns (315-331); an error (no file) is `none`. -/
def Db.restored (db : Db) : Option (List (Text × CTLogState)) :=
  match db.ctlogs with
  | none => none
  | some ss => some (ss.foldl (fun l s => putLog l (logKey s.shortURL) s) [])

/-- `EnsureCacheIsConsistent` (88-114) with `Restore` (rediscache.go:324-356) taken as one step; an error leaves everything as it is.
It needs the commit lock, which a running commit holds. -/
def Db.ensure (db : Db) : Db :=
  match db.phase with
  | .idle =>
    if epochsAgree db.cacheEpoch db.diskEpoch then db
    else match db.restored with
      | none => db
      | some l => { db with logs := l, cacheEpoch := db.diskEpoch + 1 }
  | _ => db

/-- Change the stage of job `k`. -/
def setStage (jobs : List Job) (k : Nat) (b : Bin) (st : Stage) : List Job := jobs.set k { bin := b, stage := st }

/-- One step of the goroutines of a moving commit. -/
def Db.jobStep (db : Db) (epoch : Nat) (states : List CTLogState) (seen : List Cached) (todo : List Bin) (jobs : List Job) : CAct → Db
  | .jobStart b =>
    if b ∈ todo then
      { db with phase := .moving epoch states seen (todo.erase b) (jobs ++ [{ bin := b, stage := .scanning (db.members b) }]) }
    else db
  | .jobListed k es =>
    match jobs[k]? with
    | some { bin := b, stage := .scanning need } =>
      if (b.keyExpired db.now = true ∨ ∀ x ∈ need, x ∈ es) ∧ (∀ x ∈ es, x ∈ need ∨ x ∈ db.members b) then
        if es = [] then { db with phase := .moving epoch states seen todo (setStage jobs k b .finished) }
        else { db with phase := .moving epoch states seen todo (setStage jobs k b (.listed es)) }
      else db
    | _ => db
  | .jobRead k =>
    match jobs[k]? with
    | some { bin := b, stage := .listed es } =>
      match readSerialsFromStorage b.unix (db.files b) with
      | .error => { db with phase := .moving epoch states seen todo (setStage jobs k b .failed) }
      | .ok l => { db with phase := .moving epoch states seen todo (setStage jobs k b (.haveRead es l)) }
    | _ => db
  | .jobWrite k =>
    match jobs[k]? with
    | some { bin := b, stage := .haveRead es l } =>
      { db with
        files := fun b' => if b' = b then some (movedFile states b es l) else db.files b'
        phase := .moving epoch states seen todo (setStage jobs k b (.wrote (coveredOf states es))) }
    | _ => db
  | .jobRemove k xs =>
    match jobs[k]? with
    | some { bin := b, stage := .wrote cov } =>
      { db with sets := db.sets.filter (fun p => !(decide (p.1 = b) && xs.contains p.2 && cov.contains p.2)) }
    | _ => db
  | .jobFinish k =>
    match jobs[k]? with
    | some { bin := b, stage := .wrote _ } => { db with phase := .moving epoch states seen todo (setStage jobs k b .finished) }
    | _ => db
  | .jobFail k =>
    match jobs[k]? with
    | some { bin := b, stage := .scanning _ } => { db with phase := .moving epoch states seen todo (setStage jobs k b .failed) }
    | some { bin := b, stage := .listed _ } => { db with phase := .moving epoch states seen todo (setStage jobs k b .failed) }
    | some { bin := b, stage := .haveRead _ _ } => { db with phase := .moving epoch states seen todo (setStage jobs k b .failed) }
    | _ => db
  | .replaceLogs =>
    if todo = [] ∧ ∀ j ∈ jobs, j.stage = .finished then
      { db with ctlogs := some states, pubSeen := seen, phase := .replaced epoch }
    else db
  | _ => db

/-- One step of the commit process itself. -/
def Db.commitStep (db : Db) (a : CAct) : Db :=
  match db.phase with
  | .idle =>
    match a with
    | .begin readOnly hasLock =>
      if readOnly = false ∧ hasLock = true ∧ epochsAgree db.cacheEpoch db.diskEpoch = true then
        { db with phase := .loading db.cacheEpoch (db.logs.map Prod.fst) [] }
      else db
    | _ => db
  | .loading epoch need acc =>
    match a with
    | .readLog key =>
      match db.logs.find? (fun p => decide (p.1 = key)) with
      | some p => { db with phase := .loading epoch need (acc ++ [p]) }
      | none => { db with phase := .idle }
    | .loadedAll =>
      if ∀ k ∈ need, k ∈ acc.map Prod.fst then { db with phase := .loaded epoch (acc.map Prod.snd) db.ever } else db
    | _ => db
  | .loaded epoch states seen =>
    match a with
    | .listStart => { db with phase := .listing epoch states seen (db.sets.map Prod.fst) }
    | _ => db
  | .listing epoch states seen need =>
    match a with
    | .listEnd bs => if ∀ b ∈ need, b ∈ bs ∨ b.keyExpired db.now = true then { db with phase := .moving epoch states seen bs [] } else db
    | _ => db
  | .moving epoch states seen todo jobs => db.jobStep epoch states seen todo jobs a
  | .replaced epoch =>
    match a with
    | .sweep b => if b.fileExpired db.now then { db with files := fun b' => if b' = b then none else db.files b' } else db
    | .nextEpoch => { db with cacheEpoch := db.cacheEpoch + 1, phase := .bumped epoch }
    | _ => db
  | .bumped epoch =>
    match a with
    | .replaceEpoch => { db with diskEpoch := epoch, phase := .idle }
    | .nextEpoch => { db with cacheEpoch := db.cacheEpoch + 1 }
    | _ => db

/-- One step of the whole. -/
def Db.step (db : Db) : CAct → Db
  | .insert ps => { db with sets := ps ++ db.sets, ever := ps ++ db.ever }
  | .saveLog s => { db with logs := putLog db.logs (logKey s.shortURL) s }
  | .tick t => if db.now ≤ t then { db with now := t } else db
  | .keyExpires b => if b.keyExpired db.now then { db with sets := db.sets.filter (fun p => decide (p.1 ≠ b)) } else db
  | .wipe => { db with sets := [], logs := [], cacheEpoch := 0 }
  | .ensure => db.ensure
  | .stop => { db with phase := .idle }
  | a => db.commitStep a

/-- A run. -/
def Db.run (db : Db) (acts : List CAct) : Db := acts.foldl Db.step db

end Verif
