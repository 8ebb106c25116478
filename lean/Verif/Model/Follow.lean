import Verif.Model.Worker
/-!
Which logs ct-fetch follows: the list of logs on the command line and in Remote Settings, and the goroutines that follow them
(go/cmd/ct-fetch/ct-fetch.go:92-168, 282-426, 466-496). `Enrolment` (Model/Ingest.lean) has the same with names only and single enrolments; here are the
records as they are published, whole answers of the server, and how jobs end.
-/
namespace Verif

/-- `CTLogMetadata` (types.go:109-117); the description is left out. -/
structure LogRecord where
  id : Text
  url : Text
  key : Text
  mmd : Int
  tiled : Bool
  enrolled : Bool
deriving DecidableEq

/-- `EnrolledLogs.metadata` (ct-fetch.go:282-287), and the `SyncLog` goroutines that have not returned, the newest first, each with its own copy of
the record that it was started with (ct-fetch.go:466-472). -/
structure Follow where
  metadata : Text → Option LogRecord
  workers : List LogRecord

/-- `NewEnrolledLogs` (ct-fetch.go:289-298). -/
def Follow.init : Follow := { metadata := fun _ => none, workers := [] }

/-- Setting an entry of the map. -/
def setMeta (m : Text → Option LogRecord) (id : Text) (v : Option LogRecord) : Text → Option LogRecord :=
  fun i => if i = id then v else m i

/-- One record of an answer (ct-fetch.go:387-403). Records of the command line are the same, except that those without the flag are passed over before
(ct-fetch.go:317-326, 481-485). Sending on `NewChan` and starting the goroutine is one step. -/
def Follow.record (f : Follow) (r : LogRecord) : Follow :=
  match f.metadata r.id with
  | some _ => if r.enrolled then f else { f with metadata := setMeta f.metadata r.id none }
  | none => if r.enrolled then { metadata := setMeta f.metadata r.id (some r), workers := r :: f.workers } else f

/-- What can happen. -/
inductive FollowAct where
  /-- a record of the command line (ct-fetch.go:481-485) -/
  | localRecord (r : LogRecord)
  /-- one `updateFromRemoteSettingsOnce` (ct-fetch.go:343-407); `none`: no answer, another status than 200, something that is not JSON of the right form, or no `data` -/
  | poll (answer : Option (List LogRecord))
  /-- worker `k` is at the top of its loop (ct-fetch.go:109-113) -/
  | top (k : Nat)
  /-- a job of worker `k` ends (ct-fetch.go:126-166); `stop`: a signal has been caught -/
  | job (k : Nat) (stop : Bool) (o : JobEnd)
  /-- the process ends and is started again -/
  | restart
deriving DecidableEq

/-- Whether `SyncLog` goes on to the next job (ct-fetch.go:131-166). -/
def goesOn (forever stop : Bool) (o : JobEnd) : Bool :=
  match o with
  | .ended => false
  | .waits => true
  | _ => forever && !stop

/-- One step. `forever` is the setting `runForever`. -/
def Follow.step (forever : Bool) (f : Follow) : FollowAct → Follow
  | .localRecord r => if r.enrolled then f.record r else f
  | .poll none => f
  | .poll (some l) => l.foldl Follow.record f
  | .top k =>
    match f.workers[k]? with
    | some r => if (f.metadata r.id).isSome then f else { f with workers := f.workers.eraseIdx k }
    | none => f
  | .job k stop o =>
    match f.workers[k]? with
    | some _ => if o = .crashed then Follow.init else if goesOn forever stop o then f else { f with workers := f.workers.eraseIdx k }
    | none => f
  | .restart => Follow.init

/-- A history. -/
def Follow.run (forever : Bool) (f : Follow) (acts : List FollowAct) : Follow := acts.foldl (Follow.step forever) f

end Verif
