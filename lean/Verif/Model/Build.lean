import Verif.Model.Filter
import Verif.Model.Workflow
/-!
The filter builder as a program: `main` of rust-create-cascade with its checks and exit status (rust-create-cascade/src/main.rs:677-1000), and the script that calls it (workflow/2-generate_mlbf).
-/
namespace Verif

/-- `create_cascade` (cascade_helper.rs:100-155). `build` stands for the library: builder, serialization and reading back; `none` is a panic, `some none` an empty cascade, for which no file is written (142-145). -/
def createCascade {F : Type} (build : List Bytes → List Bytes → Option (Option F)) (contains : F → Bytes → Bool) (rs : ReasonSet) (revoked known : Dir) : Option (Option F) :=
  match includeAllCascade rs revoked known, excludeAllCascade rs revoked known with
  | some inc, some exc =>
    match build inc exc with
    | some (some f) => if checkAll rs revoked known (contains f) then some (some f) else none
    | some none => some none
    | none => none
  | _, _ => none

/-- `FilterType` (main.rs:679-683). -/
inductive FilterType where
  | cascade
  | clubcard
deriving DecidableEq

/-- The libraries, and the order in which a hash set is iterated. -/
structure FilterLib (F : Type) where
  clubcard : List Bytes → List (Bytes × Bool) → Option F
  cascade : List Bytes → List Bytes → Option (Option F)
  contains : F → Bytes → Bool
  order : List Text → List Text

/-- The `match filter_type` of `main` (842-865, 909-932); `none` is a panic, `some none`: no file is written. -/
def createFilter {F : Type} (lib : FilterLib F) (ft : FilterType) (rs : ReasonSet) (revoked known : Dir) : Option (Option F) :=
  match ft with
  | .clubcard => (createClubcard lib.clubcard lib.contains rs revoked known).map some
  | .cascade => createCascade lib.cascade lib.contains rs revoked known

/-- The files of the output directory that the program looks for and writes. The counts in `reason_codes.csv` are left out. -/
structure OutDir (F : Type) where
  filter : Option F
  stash : Option Bytes
  revset : Option (List Bytes)
  delta : Option Dir
  deltaFilter : Option F
deriving DecidableEq

def OutDir.empty {F : Type} : OutDir F := { filter := none, stash := none, revset := none, delta := none, deltaFilter := none }

/-- Is one of the five files there (759-773)? -/
def OutDir.occupied {F : Type} (o : OutDir F) : Bool := o.filter.isSome || o.stash.isSome || o.revset.isSome || o.delta.isSome || o.deltaFilter.isSome

/-- The command line and what the program finds. `known`, `revoked`: the directories (`none`: do not exist); `ctLogs`: does the coverage file exist; `canRemove`, `canCreateOut`, `canCreateDelta`: do these operations succeed;
`out`: the output directory (`none`: does not exist). -/
structure BuildArgs (F : Type) where
  known : Option Dir
  revoked : Option Dir
  prev : Option (List Bytes)
  ctLogs : Bool
  rs : ReasonSet
  drs : ReasonSet
  ft : FilterType
  clobber : Bool
  canRemove : Bool
  canCreateOut : Bool
  canCreateDelta : Bool
  out : Option (OutDir F)

/-- The output directory after lines 753-782: `--clobber` removes it, then it and `delta` are made if they do not exist. A removal that fails is taken to remove nothing. -/
def preparedOut {F : Type} (a : BuildArgs F) : Option (OutDir F) :=
  match (if a.clobber && a.canRemove then none else a.out) with
  | some o => some (if o.delta.isSome || !a.canCreateDelta then o else { o with delta := some [] })
  | none => if a.canCreateOut then some (if a.canCreateDelta then { OutDir.empty with delta := some [] } else OutDir.empty) else none

/-- The value of `err` in line 783. Making `delta` also makes the output directory, so that an output directory that could not be made means that `delta` could not be made. -/
def buildRefused {F : Type} (a : BuildArgs F) : Bool :=
  a.known.isNone || a.revoked.isNone || (decide (a.ft = .clubcard) && !a.ctLogs) ||
  (match a.out with
   | none => !a.canCreateOut || !a.canCreateDelta
   | some o =>
     if a.clobber then !a.canRemove || !a.canCreateOut || !a.canCreateDelta
     else o.occupied || !a.canCreateDelta)

/-- From line 819 on: the files that are written, and the exit status (101 after a panic, with the files written until then; delta files written before a panic in `write_revset_and_delta` are left out). -/
def buildFiles {F : Type} (lib : FilterLib F) (a : BuildArgs F) (known revoked : Dir) (o : OutDir F) : OutDir F × Nat :=
  match countAll a.rs revoked known, createFilter lib a.ft a.rs revoked known with
  | some _, some f =>
    let o1 : OutDir F := { o with filter := if f.isSome then f else o.filter }
    match writeRevsetAndDelta a.drs a.prev revoked known with
    | none => (o1, 101)
    | some (dir, revset) =>
      let o2 : OutDir F := { o1 with delta := some dir, revset := some revset }
      match writeStash lib.order a.drs dir with
      | none => (o2, 101)
      | some st =>
        let o3 : OutDir F := { o2 with stash := some st }
        match countAll a.drs dir known, createFilter lib a.ft a.drs dir known with
        | some _, some df => ({ o3 with deltaFilter := if df.isSome then df else o3.deltaFilter }, 0)
        | _, _ => (o3, 101)
  | _, _ => (o, 101)

/-- `main`: the output directory afterwards and the exit status. When it refuses it returns from `main`, with status 0 (783-785). -/
def buildMain {F : Type} (lib : FilterLib F) (a : BuildArgs F) : Option (OutDir F) × Nat :=
  if buildRefused a then (preparedOut a, 0)
  else match a.known, a.revoked, preparedOut a with
    | some known, some revoked, some o =>
      let r := buildFiles lib a known revoked o
      (some r.1, r.2)
    | _, _, _ => (preparedOut a, 0)

/-- Where `2-generate_mlbf` lets it write (68-73), below the run's directory; `none`: option not given. Lines 71 and 73 use `args.reason_set` and `args.filter_type`, which are `None` without the option, not their defaults. -/
def mlbfOutdir (reasonSet filterType : Option Text) : Text :=
  let rs := reasonSet.getD "all".toList
  let ft := filterType.getD "cascade".toList
  if ft = "cascade".toList then
    if rs = "all".toList then "mlbf".toList else "mlbf-".toList ++ reasonSet.getD "None".toList
  else filterType.getD "None".toList ++ '-' :: reasonSet.getD "None".toList

end Verif
