import Verif.Model.Client
/-!
# Publishing filters to Remote Settings

`moz_kinto_publisher/main.py`, the parts about filters: `crlite_verify_record_consistency`, `crlite_verify_run_id_consistency`, `crlite_determine_publish` and `publish_crlite`. Timestamps are seconds. An uncaught Python
exception is `none` or the flag `false`. Logging, and the request for review at the end, are left out.
-/
namespace Verif

/-- A record of the collection, with the fields that may be absent as options: `attachment` is the file name of the attachment. `name` is `details.name`. -/
structure KRec where
  id : Option Text
  incremental : Option Bool
  parent : Option Text
  attachment : Option Text
  name : Text
  channel : Option Text
deriving DecidableEq

/-- `x.get("channel", CHANNEL_DEFAULT) == channel.slug` (main.py:700-702, 849-851, 989-991). -/
def ofChannel (slug : Text) (r : KRec) : Bool := decide (r.channel.getD "default".toList = slug)

/-! ### consistency of the records -/

/-- The malformed-record checks (main.py:857-861). -/
def wellFormed (r : KRec) : Bool := r.id.isSome && r.incremental.isSome && r.attachment.isSome && (r.incremental != some true || r.parent.isSome)

/-- `ids[ptr]` (main.py:871): with equal identifiers the last record wins. -/
def idsGet (recs : List KRec) (ptr : Text) : Option KRec := recs.reverse.find? (fun r => decide (r.id = some ptr))

/-- The walk to the full filter (main.py:873-882): the number of steps, or `none` for an unknown parent or after more than `fuel` steps. -/
def climb (recs : List KRec) : Nat → Text → Option Nat
  | fuel, ptr =>
    match idsGet recs ptr with
    | none => none
    | some r =>
      if r.incremental = some true then
        match fuel, r.parent with
        | fuel' + 1, some p =>
          match climb recs fuel' p with
          | some h => some (h + 1)
          | none => none
        | _, _ => none
      else some 0

/-- The walks from all records; `none` if one fails (main.py:872-883). -/
def maxHeight (recs : List KRec) : List KRec → Option Nat
  | [] => some 0
  | r :: rest =>
    match r.id with
    | none => none
    | some i =>
      match climb recs recs.length i, maxHeight recs rest with
      | some h, some m => some (max h m)
      | _, _ => none

/-- `crlite_verify_record_consistency` (main.py:844-888) on the records of one channel: whether no exception is raised. -/
def verifyRecords (recs : List KRec) : Bool :=
  match recs with
  | [] => true
  | _ :: _ =>
    if recs.all wellFormed then
      if (recs.filter (fun r => r.incremental != some true)).length = 1 then
        match maxHeight recs recs with
        | some m => decide (m + 1 = recs.length)
        | none => false
      else false
    else false

/-! ### what to publish -/

/-- `int(x)` for digits (main.py:946, 948); signs, spaces and underscores, which Python allows, are left out. -/
def parseNat (t : Text) : Option Nat :=
  if t = [] then none
  else if t.all (fun c => decide ('0' ≤ c ∧ c ≤ '9')) then some (t.foldl (fun a c => 10 * a + (c.toNat - 48)) 0)
  else none

/-- `[int(x) for x in run_id.split("-")]` with two parts (main.py:946, 948). -/
def parseRun (t : Text) : Option (Nat × Nat) :=
  match t.dropWhile (· ≠ '-') with
  | [] => none
  | _ :: i =>
    match parseNat (t.takeWhile (· ≠ '-')), parseNat i with
    | some d, some n => some (d, n)
    | _, _ => none

/-- `filename.rsplit("-", 1)[0]` (main.py:938). -/
def rsplitDash (t : Text) : Text :=
  match t.reverse.dropWhile (· ≠ '-') with
  | [] => t
  | _ :: r => r.reverse

/-- The run of a record (main.py:937-940). -/
def recordRun (r : KRec) : Option Text := r.attachment.map rsplitDash

/-- Order of runs as pairs of numbers. -/
def pairLt (a b : Nat × Nat) : Bool := decide (a.1 < b.1) || (decide (a.1 = b.1) && decide (a.2 < b.2))

/-- `PublishedRunDB` (main.py:107-164): the runs in the bucket in order, which are complete, which are valid for the channel, and their timestamps. -/
structure RunDb where
  ids : List Text
  ready : Text → Bool
  valid : Text → Bool
  time : Text → Option Nat

/-- `mapM` for options: `none` if one is. -/
def optMap {α β : Type} (f : α → Option β) : List α → Option (List β)
  | [] => some []
  | a :: rest =>
    match f a, optMap f rest with
    | some b, some l => some (b :: l)
    | _, _ => none

/-- Split the runs at the cut (main.py:945-952): old ones and new ones; `none` if one does not parse. -/
def splitRuns (cut : Nat × Nat) : List Text → Option (List Text × List Text)
  | [] => some ([], [])
  | r :: rest =>
    match parseRun r, splitRuns cut rest with
    | some k, some (o, n) => if pairLt cut k then some (o, r :: n) else some (r :: o, n)
    | _, _ => none

/-- Insertion into a list sorted by run (for `sort` with the key of main.py:903); stable. -/
def insertRun (r : Text) : List Text → List Text
  | [] => [r]
  | x :: rest =>
    match parseRun r, parseRun x with
    | some a, some b => if pairLt b a then x :: insertRun r rest else r :: x :: rest
    | _, _ => r :: x :: rest

def sortRuns : List Text → List Text
  | [] => []
  | r :: rest => insertRun r (sortRuns rest)

/-- No timestamp is later than the next (main.py:904-907). -/
def nonDecreasing : List Nat → Bool
  | a :: b :: rest => decide (a ≤ b) && nonDecreasing (b :: rest)
  | _ => true

/-- `crlite_verify_run_id_consistency` (main.py:891-907): the sorted runs, `some none` for an inconsistency, `none` for another exception. -/
def verifyRuns (db : RunDb) (new : List Text) : Option (Option (List Text)) :=
  if new.all db.ready && new.all db.valid then
    match optMap db.time (sortRuns new) with
    | none => none
    | some ts => if nonDecreasing ts then some (some (sortRuns new)) else some none
  else some none

/-- `min(record_run_ids)` (main.py:968): by string order. -/
def minText : List Text → Option Text
  | [] => none
  | t :: rest =>
    match minText rest with
    | none => some t
    | some m => if textLt m t then some m else some t

/-- What is to be done: clear and publish a full filter, or publish deltas. -/
inductive PubTask
  | full (run : Text)
  | deltas (runs : List Text)
deriving DecidableEq

/-- `crlite_determine_publish` (main.py:910-978); `existing` are the records of the channel sorted by name, `maxAge` the age limit in seconds. -/
def determinePublish (existing : List KRec) (db : RunDb) (maxAge : Nat) : Option PubTask :=
  match db.ids.getLast? with
  | none => none
  | some newest =>
    if existing = [] then some (.full newest)
    else if verifyRecords existing = false then some (.full newest)
    else
      match optMap recordRun existing with
      | none => none
      | some runs =>
        match runs.getLast?.bind parseRun with
        | none => none
        | some cut =>
          match splitRuns cut db.ids with
          | none => none
          | some (old, new) =>
            if runs.all (fun r => old.contains r) then
              match verifyRuns db new with
              | none => none
              | some none => some (.full newest)
              | some (some new') =>
                match (minText runs).bind db.time, db.time newest with
                | some e, some n => if e + maxAge ≤ n then some (.full newest) else some (.deltas new')
                | _, _ => none
            else some (.full newest)

/-! ### publishing -/

/-- What can happen when a record is published (main.py:731-783): all goes well; the creation fails; the attachment fails and the record is deleted again; that fails too, or the program dies in between. -/
inductive RecOutcome
  | ok
  | createFails
  | attachFails
  | leftBehind

/-- Kinto and the bucket: identifiers given to new records, outcomes by run, downloads, and which deletions succeed; `nameOf` is the name from timestamp and kind (main.py:789-791, 815-817). -/
structure PubEnv where
  freshId : List KRec → Text
  outcome : Text → RecOutcome
  download : Text → Bool
  deleteOk : Text → Bool
  nameOf : Nat → Bool → Text

/-- `publish_crlite_record` (main.py:731-783): the identifier of the new record, or `none` for an exception. -/
def publishRecord (env : PubEnv) (run : Text) (rec : KRec) (st : List KRec) : Option Text × List KRec :=
  let i := env.freshId st
  match env.outcome run with
  | .ok => (some i, st ++ [{ rec with id := some i }])
  | .createFails => (none, st)
  | .attachFails => (none, st)
  | .leftBehind => (none, st ++ [{ rec with id := some i, attachment := none }])

/-- The record of a full filter (main.py:786-810, 1029-1033). -/
def fullRec (env : PubEnv) (slug run : Text) (t : Nat) : KRec :=
  { id := none, incremental := some false, parent := none, attachment := some (run ++ '-' :: slug ++ ".filter".toList), name := env.nameOf t true, channel := some slug }

/-- The record of a delta (main.py:813-836, 1051-1060). -/
def deltaRec (env : PubEnv) (slug run : Text) (t : Nat) (prev : Text) : KRec :=
  { id := none, incremental := some true, parent := some prev, attachment := some (run ++ '-' :: slug ++ ".filter.delta".toList), name := env.nameOf t false, channel := some slug }

/-- The loop over the deltas (main.py:1042-1062). -/
def publishDeltas (env : PubEnv) (db : RunDb) (slug : Text) : List Text → Text → List KRec → Bool × List KRec
  | [], _, st => (true, st)
  | run :: rest, prev, st =>
    if env.download run then
      match db.time run with
      | none => (false, st)
      | some t =>
        match publishRecord env run (deltaRec env slug run t prev) st with
        | (some i, st') => publishDeltas env db slug rest i st'
        | (none, st') => (false, st')
    else (false, st)

/-- Deleting the records of the channel of one kind (main.py:693-728): a record without the field or without identifier raises `KeyError`, as does a failing deletion. The first list are the records fetched. -/
def clearLoop (env : PubEnv) (slug : Text) (incr : Bool) : List KRec → List KRec → Bool × List KRec
  | [], st => (true, st)
  | r :: rest, st =>
    if ofChannel slug r then
      match r.incremental with
      | none => (false, st)
      | some b =>
        if b = incr then
          match r.id with
          | none => (false, st)
          | some i => if env.deleteOk i then clearLoop env slug incr rest (st.filter (fun x => decide (x.id ≠ some i))) else (false, st)
        else clearLoop env slug incr rest st
    else clearLoop env slug incr rest st

/-- Stable insertion by name, for `sorted(..., key=name)` (main.py:994). -/
def insertRec (r : KRec) : List KRec → List KRec
  | [] => [r]
  | x :: rest => if textLt x.name r.name then x :: insertRec r rest else r :: x :: rest

def sortRecs : List KRec → List KRec
  | [] => []
  | r :: rest => insertRec r (sortRecs rest)

/-- Carrying out a task (main.py:1006-1066). -/
def runTask (env : PubEnv) (db : RunDb) (slug : Text) (existing : List KRec) (task : PubTask) (st : List KRec) : Bool × List KRec :=
  match task with
  | .full run =>
    if env.download run then
      match clearLoop env slug false st st with
      | (false, st1) => (false, st1)
      | (true, st1) =>
        match clearLoop env slug true st1 st1 with
        | (false, st2) => (false, st2)
        | (true, st2) =>
          match db.time run with
          | none => (false, st2)
          | some t =>
            match publishRecord env run (fullRec env slug run t) st2 with
            | (some _, st3) => (true, st3)
            | (none, st3) => (false, st3)
    else (false, st)
  | .deltas runs =>
    match runs with
    | [] => (true, st)
    | _ :: _ =>
      match existing.getLast?.bind KRec.id with
      | none => (false, st)
      | some prev => publishDeltas env db slug runs prev st

/-- `publish_crlite` (main.py:981-1075); `noop` is the dry run: everything that changes the collection is skipped. -/
def publishCrlite (env : PubEnv) (db : RunDb) (slug : Text) (maxAge : Nat) (noop : Bool) (st : List KRec) : Bool × List KRec :=
  let existing := sortRecs (st.filter (ofChannel slug))
  match db.ids.getLast? with
  | none => (true, st)
  | some newest =>
    if db.ready newest then
      match determinePublish existing db maxAge with
      | none => (false, st)
      | some task => if noop then (true, st) else runTask env db slug existing task st
    else (true, st)

end Verif
