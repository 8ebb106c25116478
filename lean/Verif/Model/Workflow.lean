import Verif.Model.Publisher
/-!
# The workflow scripts

`workflow/__init__.py` (run identifiers), `workflow/0-allocate_identifier`, and the two upload scripts `workflow/1-upload_data_to_storage` and `workflow/3-upload_mlbf_to_storage`, run one after the other by
`containers/scripts/crlite-generate.sh`. Buckets are lists of directory names or of objects.
-/
namespace Verif

/-! ### run identifiers -/

/-- `\d` of a Python regular expression; digits other than the ten ASCII ones, which Python also accepts, are left out. -/
def isDig (c : Char) : Bool := decide ('0' ≤ c ∧ c ≤ '9')

/-- `kIdentifierFormat.match(x).group(1)` (workflow/__init__.py:12, 71-72) for `(\d{8}-\d+)/?`: `match` looks at the beginning of the text only, so anything may follow. -/
def matchId (t : Text) : Option Text :=
  if (t.take 8).length = 8 ∧ (t.take 8).all isDig then
    match t.drop 8 with
    | [] => none
    | c :: rest =>
      if c = '-' then
        if rest.takeWhile isDig = [] then none else some (t.take 8 ++ '-' :: rest.takeWhile isDig)
      else none
  else none

/-- The part of an identifier before the dash. -/
def idDate (t : Text) : Text := t.takeWhile (· ≠ '-')

/-- `int(parts[1])` of an identifier that has matched (workflow/__init__.py:65-66, 0-allocate_identifier:29-31). -/
def idIdx (t : Text) : Nat := ((t.dropWhile (· ≠ '-')).drop 1).foldl (fun a c => 10 * a + (c.toNat - 48)) 0

/-- `normalize_identifier` (workflow/__init__.py:59-66): the date, then the index padded to six digits. -/
def idKey (t : Text) : Text := idDate t ++ padZeros 6 (Nat.toDigits 10 (idIdx t))

/-- One step of a stable insertion sort. -/
def insertId (x : Text) : List Text → List Text
  | [] => [x]
  | y :: ys => if textLt (idKey y) (idKey x) then y :: insertId x ys else x :: y :: ys

/-- `sorted(identifiers, key=normalize_identifier)` (workflow/__init__.py:73). -/
def sortIds (l : List Text) : List Text := l.foldr insertId []

/-- `get_run_identifiers` (workflow/__init__.py:69-73). -/
def getRunIdentifiers (dirs : List Text) : List Text := sortIds (dirs.filterMap matchId)

/-- The index of the next run (0-allocate_identifier:24-31). -/
def nextIdx (today : Text) (dirs : List Text) : Nat :=
  match (getRunIdentifiers dirs).getLast? with
  | none => 0
  | some newest => if idDate newest = today then idIdx newest + 1 else 0

/-- `0-allocate_identifier` (23-41): `localDirs` are the folders that exist on disk; `mkdir` fails if the folder is there already. `today` is the date in UTC. -/
def allocate (today : Text) (dirs localDirs : List Text) : Option Text :=
  let name := today ++ '-' :: Nat.toDigits 10 (nextIdx today dirs)
  if localDirs.contains name then none else some name

/-- A sequence of runs on the given days, each of which makes its folder and then uploads something into the bucket. -/
def allocateAll : List Text → List Text → List Text → Option (List Text)
  | [], _, _ => some []
  | today :: days, dirs, localDirs =>
    match allocate today dirs localDirs with
    | none => none
    | some name =>
      match allocateAll days (dirs ++ [name ++ ['/']]) (localDirs ++ [name]) with
      | none => none
      | some names => some (name :: names)

/-! ### uploads -/

/-- A file found by `os.walk` below the folder of the run: the path relative to that folder as a list of names, the contents, and whether it is a symbolic link. -/
structure WalkFile where
  path : List Text
  content : Bytes
  symlink : Bool
deriving DecidableEq

/-- An object written to the bucket. -/
structure StoredObj where
  path : List Text
  content : Bytes
deriving DecidableEq

/-- The writes of `uploadFiles` (1-upload_data_to_storage:31-47, 3-upload_mlbf_to_storage:31-47) for files below `dest`. -/
def uploadAs (dest : List Text) (files : List WalkFile) : List StoredObj := (files.filter (fun f => !f.symlink)).map (fun f => ⟨dest ++ f.path, f.content⟩)

/-- The writes of `1-upload_data_to_storage` (main, 50-66): everything in the folder at this time. -/
def uploadData (run : Text) (files : List WalkFile) : List StoredObj := uploadAs [run] files

/-- The files of the folder, grouped by directory in the order of `os.walk`; each group is uploaded to the run and then to `latest` (3-upload_mlbf_to_storage:71-77). -/
def uploadAll (run : Text) : List (List WalkFile) → List StoredObj
  | [] => []
  | group :: rest => uploadAs [run, "clubcard-all".toList] group ++ uploadAs ["latest".toList] group ++ uploadAll run rest

/-- The writes of `3-upload_mlbf_to_storage` (main, 57-91): `allGroups` are the files below `clubcard-all` and `prio` those below `clubcard-priority`, with their paths below these folders; a folder that does not exist has no
files. The script aborts if `clubcard-all/filter` does not exist. The time in the marker is left out. -/
def uploadMlbf (run : Text) (allGroups : List (List WalkFile)) (prio : List WalkFile) : List StoredObj :=
  if allGroups.any (fun g => g.any (fun f => decide (f.path = ["filter".toList]))) then
    uploadAll run allGroups ++ (uploadAs [run, "clubcard-priority".toList] prio ++ [⟨[run, "completed".toList], []⟩])
  else []

/-- The writes of a run (containers/scripts/crlite-generate.sh:46-70) in order. If a write fails, or the process dies, the rest does not happen: the shell runs with `-e`. With `--noop` there are no writes. -/
def uploadRun (run : Text) (data : List WalkFile) (allGroups : List (List WalkFile)) (prio : List WalkFile) : List StoredObj := uploadData run data ++ uploadMlbf run allGroups prio

/-- The object with this path after some writes: the last one counts. -/
def objGet (writes : List StoredObj) (p : List Text) : Option Bytes :=
  match writes.reverse.find? (fun o => decide (o.path = p)) with
  | none => none
  | some o => some o.content

/-- `is_run_ready` (moz_kinto_publisher/main.py:131-136). -/
def runReady (writes : List StoredObj) (run : Text) : Bool := (objGet writes [run, "completed".toList]).isSome

/-- `is_run_valid` (main.py:116-129). -/
def runValid (writes : List StoredObj) (run dir delta : Text) : Bool :=
  (objGet writes [run, dir, "filter".toList]).isSome && (objGet writes [run, dir, delta]).isSome && (objGet writes [run, "ct-logs.json".toList]).isSome

end Verif
