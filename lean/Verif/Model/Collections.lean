import Verif.Model.Text
/-!
# Publishing intermediates and CT logs to Remote Settings

`moz_kinto_publisher/main.py`: `publish_intermediates` and `publish_ctlogs`. The collection is a list of records; an uncaught exception ends the function, which is the flag `false`.
-/
namespace Verif

/-! ### intermediates -/

/-- An intermediate certificate as far as it is compared (main.py:356-363): the hash of the public key, the subject and the hash of the certificate. `unique_id` writes these three into one text; here it is the triple itself. -/
structure Inter where
  spki : List UInt8
  subject : Text
  der : List UInt8
deriving DecidableEq

/-- A record of the collection: `entry` is what the record and its attachment are parsed to, or `none` if that raises `IntermediateRecordError` (missing fields, hashes that do not match, a certificate that cannot be parsed, no
attachment; main.py:280-341, 386-415). -/
structure InterRec where
  id : Text
  entry : Option Inter
deriving DecidableEq

/-- `load_local_intermediates` (main.py:503-527): malformed entries and entries seen before are skipped. -/
def loadLocal : List (Option Inter) → List Inter → List Inter
  | [], acc => acc
  | none :: rest, acc => loadLocal rest acc
  | some i :: rest, acc => if acc.contains i then loadLocal rest acc else loadLocal rest (acc ++ [i])

/-- `load_remote_intermediates` (main.py:530-552): the records by certificate and the records in error; `none` if a download fails (an exception other than `IntermediateRecordError`). -/
def loadRemote (fetchOk : Text → Bool) : List InterRec → List InterRec → List InterRec → Option (List InterRec × List InterRec)
  | [], good, bad => some (good, bad)
  | r :: rest, good, bad =>
    if fetchOk r.id then
      match r.entry with
      | none => loadRemote fetchOk rest good (bad ++ [r])
      | some i => if good.any (fun g => decide (g.entry = some i)) then loadRemote fetchOk rest good (bad ++ [r]) else loadRemote fetchOk rest (good ++ [r]) bad
    else none

/-- What can happen when a record is added (main.py:462-490); all but `dies` are caught. -/
inductive AddOutcome
  | ok
  | createFails
  | attachFails
  | leftBehind
  | dies

/-- The server and the network. `interfere` is what others do to the collection before it is read again. -/
structure InterEnv where
  freshId : List InterRec → Text
  fetchOk1 : Text → Bool
  fetchOk2 : Text → Bool
  deleteOk : Text → Bool
  add : Inter → AddOutcome
  interfere : List InterRec → List InterRec

/-- Deleting records, failures are caught (main.py:616-640). -/
def deleteRecs (env : InterEnv) : List InterRec → List InterRec → List InterRec
  | [], st => st
  | r :: rest, st => if env.deleteOk r.id then deleteRecs env rest (st.filter (fun x => decide (x.id ≠ r.id))) else deleteRecs env rest st

/-- Adding records (main.py:642-650); `false` if the program ends there. -/
def addRecs (env : InterEnv) : List Inter → List InterRec → Bool × List InterRec
  | [], st => (true, st)
  | i :: rest, st =>
    match env.add i with
    | .ok => addRecs env rest (st ++ [⟨env.freshId st, some i⟩])
    | .createFails => addRecs env rest st
    | .attachFails => addRecs env rest st
    | .leftBehind => addRecs env rest (st ++ [⟨env.freshId st, none⟩])
    | .dies => (false, st ++ [⟨env.freshId st, none⟩])

/-- Whether a certificate is among the records. -/
def holdsInter (recs : List InterRec) (i : Inter) : Bool := recs.any (fun r => decide (r.entry = some i))

/-- `publish_intermediates` (main.py:574-690) after `enrolled.json` was downloaded: whether review is requested, and the collection. The sets are gone through in list order. The updates (main.py:652-665) are for records with equal `unique_id`
and different `derHash`, which does not happen, as the former contains the latter. -/
def publishInters (env : InterEnv) (localEntries : List (Option Inter)) (noop : Bool) (st : List InterRec) : Bool × List InterRec :=
  let locals := loadLocal localEntries []
  match loadRemote env.fetchOk1 st [] [] with
  | none => (false, st)
  | some (good, bad) =>
    if noop then (false, st)
    else
      let st1 := deleteRecs env (good.filter (fun r => !(locals.any (fun i => decide (r.entry = some i))))) st
      let st2 := deleteRecs env bad st1
      match addRecs env (locals.filter (fun i => !(holdsInter good i))) st2 with
      | (false, st3) => (false, st3)
      | (true, st3) =>
        let st4 := env.interfere st3
        match loadRemote env.fetchOk2 st4 [] [] with
        | none => (false, st4)
        | some (good', bad') =>
          if bad'.isEmpty && locals.all (fun i => holdsInter good' i) && good'.all (fun r => locals.any (fun i => decide (r.entry = some i))) then (true, st4)
          else (false, st4)

/-! ### CT logs -/

/-- The fields compared for updates (main.py:1219-1227). -/
structure LogMeta where
  description : Text
  key : Text
  url : Text
  operator : Text
  mmd : Nat
  admissible : Bool
  tiled : Bool
deriving DecidableEq

/-- A log in Google's list (main.py:1107-1126); `states` are the keys of `state`. -/
structure RawLog where
  logID : Text
  key : Text
  description : Text
  url : Text
  monitoringUrl : Text
  mmd : Nat
  states : List Text

/-- An operator in Google's list. -/
structure LogOperator where
  name : Text
  logs : List RawLog
  tiledLogs : List RawLog

structure UpLog where
  logID : Text
  info : LogMeta

/-- main.py:1104. -/
def admissibleStates : List Text := ["qualified".toList, "usable".toList, "readonly".toList, "retired".toList]

/-- `any(state in ctlog["state"] for state in admissible_states)`. -/
def isAdmissible (l : RawLog) : Bool := admissibleStates.any (fun s => l.states.contains s)

/-- One log in our schema (main.py:1108-1143). -/
def upLogOf (operator : Text) (tiled : Bool) (l : RawLog) : UpLog :=
  ⟨l.logID, ⟨l.description, l.key, if tiled then l.monitoringUrl else l.url, operator, l.mmd, isAdmissible l, tiled⟩⟩

/-- The flat list (main.py:1107-1143). -/
def upstreamLogs : List LogOperator → List UpLog
  | [] => []
  | o :: rest => o.logs.map (upLogOf o.name false) ++ (o.tiledLogs.map (upLogOf o.name true) ++ upstreamLogs rest)

/-- A record of the collection: `info` is `none` if one of the fields is missing; `enrolled` may be missing too. -/
structure CtRec where
  id : Text
  logID : Text
  info : Option LogMeta
  enrolled : Option Bool
deriving DecidableEq

/-- The server; `logIdOf` is `base64(sha256(base64decode(key)))`. -/
structure CtEnv where
  freshId : List CtRec → Text
  logIdOf : Text → Text
  createOk : Text → Bool
  deleteOk : Text → Bool
  updateOk : Text → Bool

/-- Adding new logs (main.py:1169-1190); failures are caught. -/
def addLogs (env : CtEnv) (known : List CtRec) : List UpLog → List CtRec → List CtRec
  | [], st => st
  | u :: rest, st =>
    if known.any (fun k => decide (k.logID = u.logID)) then addLogs env known rest st
    else if env.createOk u.logID then addLogs env known rest (st ++ [⟨env.freshId st, u.logID, some u.info, some true⟩])
    else addLogs env known rest st

/-- Deleting logs that are gone upstream (main.py:1192-1212); failures are caught. -/
def deleteLogs (env : CtEnv) (upstream : List UpLog) : List CtRec → List CtRec → List CtRec
  | [], st => st
  | k :: rest, st =>
    if upstream.any (fun u => decide (u.logID = k.logID)) then deleteLogs env upstream rest st
    else if env.deleteOk k.id then deleteLogs env upstream rest (st.filter (fun x => decide (x.id ≠ k.id)))
    else deleteLogs env upstream rest st

/-- Writing the upstream fields and the old enrolment to the record with this identifier. -/
def putCtLog (id : Text) (u : UpLog) (e : Bool) (r : CtRec) : CtRec := if r.id = id then ⟨r.id, u.logID, some u.info, some e⟩ else r

/-- Updating logs (main.py:1214-1249); a known record without `crlite_enrolled` raises `KeyError`. -/
def updateLogs (env : CtEnv) (upstream : List UpLog) (noop : Bool) : List CtRec → List CtRec → Bool × List CtRec
  | [], st => (true, st)
  | k :: rest, st =>
    match upstream.find? (fun u => decide (u.logID = k.logID)) with
    | none => updateLogs env upstream noop rest st
    | some u =>
      match k.enrolled with
      | none => (false, st)
      | some e =>
        if k.info = some u.info then updateLogs env upstream noop rest st
        else if noop then updateLogs env upstream noop rest st
        else if env.updateOk k.id then updateLogs env upstream noop rest (st.map (putCtLog k.id u e))
        else updateLogs env upstream noop rest st

/-- Whether no text occurs twice. -/
def allDistinct : List Text → Bool
  | [] => true
  | t :: rest => !(rest.contains t) && allDistinct rest

/-- `publish_ctlogs` (main.py:1078-1253): the flag is whether the end was reached. -/
def publishLogs (env : CtEnv) (operators : List LogOperator) (noop : Bool) (st : List CtRec) : Bool × List CtRec :=
  let upstream := upstreamLogs operators
  if allDistinct (upstream.map UpLog.logID) = false then (false, st)
  else if upstream.all (fun u => decide (env.logIdOf u.info.key = u.logID)) = false then (false, st)
  else if allDistinct (st.map CtRec.logID) = false then (false, st)
  else
    if noop then updateLogs env upstream noop st st
    else updateLogs env upstream noop st (deleteLogs env upstream st (addLogs env st upstream st))

end Verif
