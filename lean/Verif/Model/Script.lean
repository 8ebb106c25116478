import Verif.Model.Operations
import Verif.Model.Build
import Verif.Model.Crls
import Verif.Model.Known
import Verif.Model.EndToEnd
/-!
One execution of `containers/scripts/crlite-generate.sh`: the programs one after the other, each with its exit status and the files it leaves for the next. The shell runs with `-e`: a status other than 0 ends it.
-/
namespace Verif

/-- Libraries and file formats: the filter library; the coverage that it reads from `ct-logs.json`, and how filters are written with it (clubcard_helper.rs:143-184); how revocation sets are written and read (main.rs:576-625); how the
other files are written; PEM. -/
structure ScriptLib (F : Type) where
  lib : FilterLib F
  coverage : List CTLogState → Coverage
  writeCard : F → List CTLogState → Bytes
  writeRevset : List Bytes → Bytes
  readRevset : Bytes → Option (List Bytes)
  writeLogs : List CTLogState → Bytes
  writeList : List EnrolledIssuer → Bytes
  writeText : Text → Bytes
  pem : IssCert → Text
  unpem : Text → Option IssCert

/-- What one execution meets. -/
structure Script where
  /-- the name that `0-allocate_identifier` prints (7-9); the folder is new (0-allocate_identifier:36) -/
  run : Text
  /-- the commands up to line 17 succeed, and aggregate-crls can make its directories and load the report (aggregate-crls.go:506-534) -/
  begins : Bool
  /-- for `LoadFromDisk`: see `loadFromDisk` -/
  sp : Char → Bool
  urlParse : UrlParse
  chains : List IssCert → List IssCert → IssCert → Bool
  certOrder : List (IssCert × List Text × Bool) → List (IssCert × List Text × Bool)
  rows : List CcadbRow
  /-- for the downloads: see `crlUnits`; `disk` is what the downloaded files contain -/
  norm : Text → Option Text
  fetch : Text → Text → Option Text
  part : Text → Bool
  disk : Text → Option CrlFile
  /-- there was a signal during the downloads: aggregate-crls returns, with status 0 (aggregate-crls.go:560-562) -/
  interrupted : Bool
  crlThreads : Nat
  crlActs : List CrlAct
  /-- for `SaveIssuersList`: see `saveIssuersList` -/
  opens : Bool
  encodes : Bool
  closes : Bool
  /-- aggregate-known can make its directory, gets the lock and commits (aggregate-known.go:154-184), and can write `ct-logs.json` (191-200) -/
  committed : Bool
  /-- for the rest of aggregate-known: see `aggregateKnown` -/
  dirs : List DirEntry
  file : Text → Text → Option Text
  ctlogs : Option (List CTLogState)
  threads : Nat
  t0 : Int
  kacts : List KAct
  /-- the commands in lines 36-48 succeed -/
  goesOn : Bool
  /-- the order in which the builder finds the files of the two directories -/
  knownNames : List Text
  revokedNames : List Text
  /-- the other files of the folder when it is uploaded: `timestamp`, the logs, the audit report, the archive -/
  others : List WalkFile
  /-- the two downloads of `latest/revset.bin` succeed -/
  dlAll : Bool
  dlPrio : Bool
  /-- the builder can make its output directories -/
  makesAll : Bool
  makesPrio : Bool

/-- The issuers that aggregate-crls loads (aggregate-crls.go:530). -/
def Script.moz (e : Script) : MozIssuers := loadFromDisk e.sp e.urlParse e.chains e.certOrder e.rows

/-- What it gives to its workers. -/
def Script.units (e : Script) : List CrlUnit := crlUnits e.norm e.fetch e.part e.moz.crls

/-- Its workers at the end. -/
def Script.crlAgg (e : Script) : CrlAgg := (CrlAgg.init e.units e.crlThreads (fun _ => none)).run e.disk e.crlActs

/-- The revoked directory (crlite-generate.sh:21) after aggregate-crls; it is made at the start (aggregate-crls.go:516). -/
def Script.revokedFiles (e : Script) : Text → Option Text := if e.interrupted then fun _ => none else e.crlAgg.files

/-- aggregate-crls (crlite-generate.sh:20-26, aggregate-crls.go:506-582): `none` if the status is not 0, else the list in `enrolled.json` (inside, `none`: it does not exist or is not JSON). Errors with the audit report do not change the
status (570-581). -/
def Script.crls {F : Type} (L : ScriptLib F) (e : Script) : Option (Option (List EnrolledIssuer)) :=
  if !e.begins then none
  else if e.interrupted then some none
  else if e.crlAgg.returned then
    let r := saveIssuersList L.pem e.moz e.opens e.encodes e.closes none
    if r.2 then some r.1 else none
  else none

/-- aggregate-known (crlite-generate.sh:28-32): `none` if the status is not 0, else what it writes to `ct-logs.json`, and its workers at the end. Without a list of issuers it ends with an error (aggregate-known.go:168-170). -/
def Script.known {F : Type} (L : ScriptLib F) (e : Script) (saved : Option (List EnrolledIssuer)) : Option (List CTLogState × Agg) :=
  match saved with
  | none => none
  | some recs =>
    match loadRecords L.unpem recs MozIssuers.empty with
    | none => none
    | some m => if e.committed then aggregateKnown m.inProgram e.dirs e.file e.ctlogs e.threads (fun _ => none) e.t0 e.kacts else none

/-- Both programs with status 0: the saved list, the coverage, the workers of aggregate-known. -/
def Script.inputs {F : Type} (L : ScriptLib F) (e : Script) : Option (List EnrolledIssuer × List CTLogState × Agg) :=
  match e.crls L with
  | none => none
  | some saved =>
    match saved, e.known L saved with
    | some recs, some (sts, a) => some (recs, sts, a)
    | _, _ => none

/-- A directory as `read_dir` finds it. -/
def dirList (files : Text → Option Text) (names : List Text) : Dir := names.filterMap (fun n => (files n).map (fun t => (n, t)))

/-- The builder as `2-generate_mlbf` calls it (48-104): into a new directory of the new folder, with `--clobber`; the delta reasons are the reasons (65). -/
def Script.args {F : Type} (L : ScriptLib F) (e : Script) (rs : ReasonSet) (can : Bool) (a : Agg) (prev : Option Bytes) : BuildArgs F :=
  { known := some (dirList a.files e.knownNames), revoked := some (dirList e.revokedFiles e.revokedNames), prev := prev.bind L.readRevset, ctLogs := true, rs := rs, drs := rs, ft := .clubcard, clobber := true, canRemove := true,
    canCreateOut := can, canCreateDelta := can, out := none }

/-- A file if there is one. -/
def fileIf (name : Text) : Option Bytes → List WalkFile
  | none => []
  | some b => [⟨[name], b, false⟩]

/-- The files directly in the output directory (main.rs:733-737); `reason_codes.csv` is left out. -/
def outFiles {F : Type} (L : ScriptLib F) (sts : List CTLogState) (o : OutDir F) : List WalkFile :=
  fileIf "filter".toList (o.filter.map (fun f => L.writeCard f sts)) ++ fileIf "filter.stash".toList o.stash ++ fileIf "revset.bin".toList (o.revset.map L.writeRevset) ++
    fileIf "filter.delta".toList (o.deltaFilter.map (fun f => L.writeCard f sts))

/-- The files of a subdirectory. -/
def subFiles {F : Type} (L : ScriptLib F) (sub : Text) (d : Dir) : List WalkFile := d.map (fun e => ⟨[sub, e.1], L.writeText e.2, false⟩)

/-- `os.walk` of the output directory, one group for each directory. -/
def walkOut {F : Type} (L : ScriptLib F) (sts : List CTLogState) : Option (OutDir F) → List (List WalkFile)
  | none => []
  | some o => [outFiles L sts o, subFiles L "delta".toList (o.delta.getD [])]

/-- `2-generate_mlbf` (crlite-generate.sh:54-64): `none` if the status is not 0 (`check=True`, 2-generate_mlbf:104), else the files. -/
def Script.make {F : Type} (L : ScriptLib F) (e : Script) (rs : ReasonSet) (can : Bool) (sts : List CTLogState) (a : Agg) (prev : Option Bytes) : Option (List (List WalkFile)) :=
  let r := buildMain L.lib (e.args L rs can a prev)
  if r.2 = 0 then some (walkOut L sts r.1) else none

/-- The folder at the first upload (crlite-generate.sh:50). -/
def Script.data {F : Type} (L : ScriptLib F) (e : Script) (recs : List EnrolledIssuer) (sts : List CTLogState) (a : Agg) : List WalkFile :=
  e.others ++ (⟨["enrolled.json".toList], L.writeList recs, false⟩ :: ⟨["ct-logs.json".toList], L.writeLogs sts, false⟩ ::
    (subFiles L "known".toList (dirList a.files e.knownNames) ++ subFiles L "revoked".toList (dirList e.revokedFiles e.revokedNames)))

/-- The execution from the first upload on, if it gets there; `n` is its number. With `DoNotUpload` set (46, 66) there is nothing to say. -/
def Script.genRun {F : Type} (L : ScriptLib F) (n : Nat) (e : Script) : Option GenRun :=
  match e.inputs L with
  | none => none
  | some (recs, sts, a) =>
    if e.goesOn then
      some { run := e.run, data := e.data L recs sts a, dlAll := e.dlAll, dlPrio := e.dlPrio, makeAll := e.make L .all e.makesAll sts a, makePrio := fun prev => (e.make L .priority e.makesPrio sts a prev).map List.flatten, exec := n }
    else none

/-- The coverage that the filters of an execution have. -/
def Script.cover {F : Type} (L : ScriptLib F) (e : Script) : Coverage :=
  match e.inputs L with
  | some (_, sts, _) => L.coverage sts
  | none => fun _ => none

end Verif
