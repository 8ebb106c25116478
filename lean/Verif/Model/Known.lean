import Verif.Model.Keys
import Verif.Model.SerialFile
/-!
aggregate-known (go/cmd/aggregate-known/aggregate-known.go): from storage to the known files.
-/
namespace Verif

/-- The capacity of `workChan` (aggregate-known.go:208-215). -/
def queueCapacity (enrolled : Text → Bool) : List IssuerDates → Nat
  | [] => 0
  | (i, ds) :: rest => (if enrolled i then ds.length else 0) + queueCapacity enrolled rest

/-- Filling `workChan` (aggregate-known.go:216-239); `none` is the error "Channel overflow". -/
def fillQueue (enrolled : Text → Bool) (cap : Nat) : List IssuerDates → List IssuerDates → Option (List IssuerDates)
  | [], q => some q
  | u :: rest, q =>
    if enrolled u.1 then (if q.length < cap then fillQueue enrolled cap rest (q ++ [u]) else none)
    else fillQueue enrolled cap rest q

/-- The queue that `work` builds. -/
def buildQueue (enrolled : Text → Bool) (list : List IssuerDates) : Option (List IssuerDates) :=
  fillQueue enrolled (queueCapacity enrolled list) list []

/-- A worker goroutine (aggregate-known.go:47-115). -/
inductive KWorker where
  /-- waiting for a work unit -/
  | ready
  /-- writing the file of this issuer; these dates are still to be written; `err`: the writer has failed (`bufio.Writer` remembers) -/
  | busy (issuer : Text) (todo : List ExpDate) (err : Bool)
  | stopped
deriving DecidableEq

/-- How writing one bin to the file goes. `bufio.NewWriter` in `WriteSerialList` returns the writer it is given, so the deferred, unchecked `Flush`
(go/storage/certdatabase.go:34-35) sends each bin to the file. -/
inductive WriteOut where
  | fine
  /-- the last flush writes only `n` characters, which is not noticed -/
  | silent (n : Nat)
  /-- an earlier flush fails: `WriteSerialList` returns an error after `n` characters -/
  | noticed (n : Nat)

/-- Everything: the work queue, the workers, the context, the files in the known directory, the clock (milliseconds), and two records that the program does not keep: the
number of errors met, and whether an unnoticed write error occurred. -/
structure Agg where
  queue : List IssuerDates
  workers : List KWorker
  cancelled : Bool
  files : Text → Option Text
  clock : Int
  errors : Nat
  silent : Bool

/-- Steps. -/
inductive KAct where
  /-- time passes -/
  | tick (now : Int)
  /-- SIGINT or SIGTERM (aggregate-known.go:147-152) -/
  | signal
  /-- worker `k` cannot create the directory (50-55) -/
  | mkdirFails (k : Nat)
  /-- worker `k` receives a unit and opens its file, or fails to (57-66), or finds the channel closed -/
  | take (k : Nat) (opens : Bool)
  /-- worker `k` treats the next date, or leaves the loop (74-113) -/
  | date (k : Nat) (readFails : Bool) (out : WriteOut)

/-- Write text to an issuer's file. -/
def appendFile (files : Text → Option Text) (i : Text) (t : Text) : Text → Option Text :=
  fun j => if j = i then some ((files i).getD [] ++ t) else files j

/-- `O_TRUNC|O_CREATE` (aggregate-known.go:61). -/
def truncFile (files : Text → Option Text) (i : Text) : Text → Option Text :=
  fun j => if j = i then some [] else files j

/-- An error that is noticed: `cancelMain`, then the worker leaves at 109-113. -/
def Agg.fail (a : Agg) (k : Nat) : Agg := { a with cancelled := true, errors := a.errors + 1, workers := a.workers.set k .stopped }

/-- Writing one bin. -/
def Agg.write (a : Agg) (k : Nat) (i : Text) (rest : List ExpDate) (err : Bool) (text : Text) : WriteOut → Agg
  | .fine =>
    if err then a.fail k
    else { a with files := appendFile a.files i text, workers := a.workers.set k (.busy i rest false) }
  | .silent n =>
    if err then a.fail k
    else { a with files := appendFile a.files i (text.take n), workers := a.workers.set k (.busy i rest true), silent := true }
  | .noticed n => { a with files := appendFile a.files i (if err then [] else text.take n) }.fail k

/-- One step. `file i d` is the content of the stored bin of issuer `i` named by the date `d`. -/
def Agg.step (file : Text → Text → Option Text) (a : Agg) : KAct → Agg
  | .tick now => if a.clock ≤ now then { a with clock := now } else a
  | .signal => { a with cancelled := true }
  | .mkdirFails k => if a.workers[k]? = some .ready then a.fail k else a
  | .take k opens =>
    if a.workers[k]? = some .ready then
      match a.queue with
      | [] => { a with workers := a.workers.set k .stopped }
      | (i, ds) :: q =>
        if opens then { a with queue := q, files := truncFile a.files i, workers := a.workers.set k (.busy i ds false) }
        else { a with queue := q }.fail k
    else a
  | .date k readFails out =>
    match a.workers[k]? with
    | some (.busy _ [] _) => { a with workers := a.workers.set k (if a.cancelled then .stopped else .ready) }
    | some (.busy i (d :: ds) err) =>
      if a.cancelled then { a with workers := a.workers.set k .stopped }
      else if d.isExpiredAt a.clock then { a with workers := a.workers.set k (.busy i ds err) }
      else if readFails then a.fail k
      else match readSerialsFromStorage d.date (file i d.id) with
        | .error => a.fail k
        | .ok l => a.write k i ds err (writeSerialList d.date l) out
    | _ => a

def Agg.run (file : Text → Text → Option Text) (a : Agg) (acts : List KAct) : Agg := acts.foldl (Agg.step file) a

/-- Before the workers start: `threads` of them (aggregate-known.go:247-255). -/
def Agg.init (queue : List IssuerDates) (threads : Nat) (files : Text → Option Text) (clock : Int) : Agg :=
  { queue := queue, workers := List.replicate threads .ready, cancelled := false, files := files, clock := clock, errors := 0, silent := false }

/-- All workers have finished and `work` returns nil (aggregate-known.go:257-262). -/
def Agg.success (a : Agg) : Bool := a.workers.all (fun w => decide (w = .stopped)) && !a.cancelled

/-- `work` from the reading of the coverage file on (aggregate-known.go:186-262): what it writes to `ctlogspath`, and the workers at the end; `none` is an error.
`ctlogs` is the stored coverage file (`none`: unreadable), `dirs` the storage directory, `file` its contents. Not modelled: errors in writing `ctlogspath`. -/
def aggregateKnown (enrolled : Text → Bool) (dirs : List DirEntry) (file : Text → Text → Option Text) (ctlogs : Option (List CTLogState)) (threads : Nat)
    (files : Text → Option Text) (t0 : Int) (acts : List KAct) : Option (List CTLogState × Agg) :=
  match ctlogs, listStorageBins dirs with
  | some sts, some out =>
    match buildQueue enrolled out with
    | none => none
    | some q => if ((Agg.init q threads files t0).run file acts).success then some (sts, (Agg.init q threads files t0).run file acts) else none
  | _, _ => none

end Verif
