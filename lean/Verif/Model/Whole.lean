import Verif.Model.Ingest
import Verif.Model.Commit
/-!
ct-fetch and the commit process on one database: the state machine of `Model/Ingest.lean` writes into that of `Model/Commit.lean`.
-/
namespace Verif

/-- What the log list says about a log: its id (32 bytes) and its maximum merge delay in seconds (go/types.go:107-117;
go/cmd/ct-fetch/rfc6962.go:218-228). -/
structure Meta where
  id : Text → Bytes
  mmd : Text → UInt64

/-- A log state as saved (go/types.go:137-146; go/cmd/ct-fetch/rfc6962.go:527-540). -/
def encState (mt : Meta) (log : Text) (s : WState) : CTLogState :=
  { logID := b64Encode false (mt.id log), mmd := mt.mmd log, shortURL := log, minEntry := UInt64.ofNat s.minEntry, maxEntry := UInt64.ofNat s.maxEntry,
    minTimestamp := UInt64.ofNat s.minTs, maxTimestamp := UInt64.ofNat s.maxTs, lastUpdateTime := s.lastUpdate }

/-- A log state as loaded. -/
def decState (c : CTLogState) : WState :=
  { minEntry := c.minEntry.toNat, maxEntry := c.maxEntry.toNat, minTs := c.minTimestamp.toNat, maxTs := c.maxTimestamp.toNat, lastUpdate := c.lastUpdateTime }

/-- The bin of a certificate: expiry truncated to the hour, and the issuer's id (go/types.go:219-225, 450-470; go/storage/types.go:28-36). -/
def itemBin (H : Bytes → Bytes) (i : Item) : Bin := { unix := (i.notAfter / 3600 * 3600 : Nat), issuer := b64Encode true (H i.issuerKey) }

/-- `PrepareSetMember` (go/storage/certdatabase.go:278-283). -/
def encItem (H : Bytes → Bytes) (mt : Meta) (x : LogItem) : Cached := (itemBin H x.2, newMember (UInt64.ofNat x.2.timestamp) (mt.id x.1) x.2.serial)

/-- The two machines. -/
structure Whole where
  y : Sys
  db : Db

def Whole.init : Whole := { y := Sys.init, db := Db.init }

/-- The log state that an action of ct-fetch writes to the database. -/
def savedBy (y : Sys) : Act → Option (Text × WState)
  | .saveOk => match y.phase with
    | .saving (.state log s) => some (log, s)
    | _ => none
  | .saveFails true => match y.phase with
    | .saving (.state log s) => some (log, s)
    | _ => none
  | _ => none

/-- The writes of an action of ct-fetch. -/
def dbActs (H : Bytes → Bytes) (mt : Meta) (env : Env) (y : Sys) (a : Act) : List CAct :=
  .insert (((y.step env a).stored.drop y.stored.length).map (encItem H mt)) ::
    (match savedBy y a with
     | some (log, s) => [.saveLog (encState mt log s)]
     | none => [])

/-- The state a worker starts from (`GetLogState`, go/storage/certdatabase.go:264-276). Logs are named by short URLs without trailing slash. -/
def loadState (logs : List (Text × CTLogState)) (log : Text) : WState :=
  match logs.find? (fun p => decide (p.1 = logKey log)) with
  | some p => if p.2.shortURL = log then decState p.2 else newLog
  | none => newLog

/-- Steps of the whole. -/
inductive WAct where
  /-- a step of ct-fetch -/
  | fetch (a : Act)
  /-- a step of the commit process, of Redis, or of time -/
  | other (c : CAct)
  /-- ct-fetch dies and starts again (go/cmd/ct-fetch/ct-fetch.go:450-455) -/
  | restart

/-- Steps of the second kind. -/
def isOther : CAct → Bool
  | .insert _ | .saveLog _ | .ensure => false
  | _ => true

/-- One step. -/
def Whole.step (H : Bytes → Bytes) (mt : Meta) (env : Env) (v : Whole) : WAct → Whole
  | .fetch a => { y := v.y.step env a, db := v.db.run (dbActs H mt env v.y a) }
  | .other c => if isOther c then { v with db := v.db.step c } else v
  | .restart => { y := { v.y.step env .crash with saved := loadState (v.db.step .ensure).logs }, db := v.db.step .ensure }

def Whole.run (H : Bytes → Bytes) (mt : Meta) (env : Env) (v : Whole) (acts : List WAct) : Whole := acts.foldl (Whole.step H mt env) v

end Verif
