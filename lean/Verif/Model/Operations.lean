import Verif.Model.Workflow
/-!
# Generating and publishing over time

`containers/scripts/crlite-generate.sh` run again and again against one bucket, stopped anywhere, with `moz_kinto_publisher/main.py` running at any time in between. One generation runs at a time. A run of the publisher
is one step of the collection, but everything it reads from the bucket may have been read at its own moment before, while a generation was uploading.
-/
namespace Verif

/-- One execution of crlite-generate.sh: the name allocated, the files of the run's folder at the first upload, whether the two downloads of `latest/revset.bin` succeed, and what rust-create-cascade makes of the downloaded file
for all reasons and for the priority reasons; `none` is a failure, after which the shell stops. `exec` is no part of the program: it numbers the executions. -/
structure GenRun where
  run : Text
  data : List WalkFile
  dlAll : Bool
  dlPrio : Bool
  makeAll : Option Bytes → Option (List (List WalkFile))
  makePrio : Option Bytes → Option (List WalkFile)
  exec : Nat

/-- The previous revocation set that `2-generate_mlbf` (73-90) passes on: `latest/revset.bin` from the bucket. If it is not there, or the download fails, the error is logged and the program runs without; it then reads `./prev_revset.bin`
(main.rs:689-690), which is taken not to exist. -/
def latestRevset (bucket : List StoredObj) (ok : Bool) : Option Bytes := if ok then objGet bucket ["latest".toList, "revset.bin".toList] else none

/-- The uploads of one execution (crlite-generate.sh:46-70), in order, if it is not stopped. Both downloads see the bucket before the execution, since the first upload does not write to `latest`. -/
def GenRun.writes (a : GenRun) (bucket : List StoredObj) : List StoredObj :=
  match a.makeAll (latestRevset bucket a.dlAll), a.makePrio (latestRevset bucket a.dlPrio) with
  | some groups, some prio => uploadRun a.run a.data groups prio
  | _, _ => uploadData a.run a.data

/-- The folder of an object (`list_google_storage_directories`, workflow/__init__.py:32-56, with the delimiter). -/
def folderOf (o : StoredObj) : Option Text :=
  match o.path with
  | d :: _ :: _ => some (d ++ ['/'])
  | _ => none

/-- The folders of the bucket, each once. -/
def dirsOf (bucket : List StoredObj) : List Text := (bucket.filterMap folderOf).foldl setInsert []

/-- The bucket before the last `age` uploads. -/
def earlier (age : Nat) (bucket : List StoredObj) : List StoredObj := bucket.take (bucket.length - age)

/-- How many uploads ago the publisher made each of its requests: the listing of the folders (main.py:108-111, when it starts), and for each run the request for `completed` (131-136), those for the files that make it valid (116-129)
and that for the time (155-164, kept in `cached_run_times`). Requests for several files, one after the other, count as one, since nothing is ever removed: the answer is the one at the moment of the first request with a negative answer,
or of the last. -/
structure ReadAges where
  listing : Nat
  ready : Text → Nat
  valid : Text → Nat
  time : Text → Nat

/-- Everything is read at the end. -/
def ReadAges.now : ReadAges := ⟨0, fun _ => 0, fun _ => 0, fun _ => 0⟩

/-- `PublishedRunDB` (main.py:107-164) for a channel with folder `dir` and file name `delta`. `parseTime` is `datetime.fromisoformat` of the file `timestamp`. -/
def publishedDb (ages : ReadAges) (parseTime : Bytes → Option Nat) (dir delta : Text) (bucket : List StoredObj) : RunDb :=
  { ids := getRunIdentifiers (dirsOf (earlier ages.listing bucket))
    ready := fun r => runReady (earlier (ages.ready r) bucket) r
    valid := fun r => runValid (earlier (ages.valid r) bucket) r dir delta
    time := fun r => (objGet (earlier (ages.time r) bucket) [r, "timestamp".toList]).bind parseTime }

/-- The bucket, what the current execution has still to upload, and the collection in Remote Settings. `made` is no part of the program: it notes every execution with the revocation set it was given, the latest first. -/
structure Ops where
  bucket : List StoredObj
  pending : List StoredObj
  recs : List KRec
  made : List (Text × GenRun × Option Bytes)

/-- What can happen. `generate` begins an execution; what the one before had not uploaded never will be. `write` uploads the next object. `publish` is one run of the publisher for one channel. -/
inductive OpsEvent
  | generate (a : GenRun)
  | write
  | publish (ages : ReadAges) (env : PubEnv) (slug dir delta : Text) (parseTime : Bytes → Option Nat) (maxAge : Nat) (noop : Bool)

def Ops.step (s : Ops) : OpsEvent → Ops
  | .generate a => { s with pending := a.writes s.bucket, made := (a.run, a, latestRevset s.bucket a.dlAll) :: s.made }
  | .write =>
    match s.pending with
    | [] => s
    | o :: rest => { s with bucket := s.bucket ++ [o], pending := rest }
  | .publish ages env slug dir delta parseTime maxAge noop => { s with recs := (publishCrlite env (publishedDb ages parseTime dir delta s.bucket) slug maxAge noop s.recs).2 }

/-- Nothing has happened. -/
def Ops.init : Ops := ⟨[], [], [], []⟩

end Verif
