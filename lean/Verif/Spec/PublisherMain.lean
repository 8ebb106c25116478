import Verif.Spec.Channel
import Verif.Model.PublisherMain
/-!
Specification for one execution of the publisher.
-/
namespace Verif.Spec

/-- Earlier or the same run, by date and number. -/
def NotAfter (x y : Text) : Prop := ∃ a b, parseRun x = some a ∧ parseRun y = some b ∧ ¬KeyLt b a

/-- The first second of the year 10000, in which Python's `datetime` ends. -/
def endOfTime : Nat := 253402300800

/-- The bucket as the generation leaves it: all runs are complete, the last listed is the newest, and later runs have later timestamps, before the year 10000. -/
structure SoundBucket (db : RunDb) : Prop where
  parse : ∀ x ∈ db.ids, ∃ k, parseRun x = some k
  distinct : RunsDistinct db.ids
  complete : ∀ x ∈ db.ids, db.ready x = true ∧ db.valid x = true ∧ ∃ t, db.time x = some t
  times : ∀ x ∈ db.ids, ∀ y ∈ db.ids, ∀ k l a b, parseRun x = some k → parseRun y = some l → KeyLt k l → db.time x = some a → db.time y = some b → a < b
  years : ∀ x ∈ db.ids, ∀ t, db.time x = some t → t < endOfTime
  last : ∀ newest, db.ids.getLast? = some newest → ∀ x ∈ db.ids, NotAfter x newest

/-- Names sort as the times in them, for times before the year 10000. -/
def NamesFollow (nm : Nat → Bool → Text) : Prop := ∀ a b p q, a < b → b < endOfTime → textLt (nm a p) (nm b q) = true

/-- The records of the channel are named after the times of their runs. -/
def NamedAfter (nm : Nat → Bool → Text) (db : RunDb) (slug : Text) (st : List KRec) : Prop :=
  ∀ r ∈ recordsOf slug st, ∀ x t, recordRun r = some x → db.time x = some t → ∃ full, r.name = nm t full

/-- The channel is a single chain, and the newest run is in it. -/
def UpToDate (slug newest : Text) (st : List KRec) : Prop := SingleChain (recordsOf slug st) ∧ ∃ r ∈ recordsOf slug st, attachmentOf slug newest r

/-- The collection has exactly one record for each certificate of the list and nothing else. -/
def SameInters (entries : List (Option Inter)) (st : List InterRec) : Prop :=
  (∀ r ∈ st, ∃ i, r.entry = some i ∧ some i ∈ entries) ∧ (∀ i, some i ∈ entries → ∃ r ∈ st, r.entry = some i) ∧ (st.map InterRec.entry).Nodup

/-- The collection has a record with the fields of Google's list for every log of the list, and no other log. -/
def SameLogs (ops : List LogOperator) (st : List CtRec) : Prop :=
  (∀ u ∈ upstreamLogs ops, ∃ r ∈ st, r.logID = u.logID ∧ r.info = some u.info) ∧ (∀ r ∈ st, ∃ u ∈ upstreamLogs ops, r.logID = u.logID)

/-- Identifiers are different and every channel is in order. -/
def FiltersSound (st : List KRec) : Prop := (st.map KRec.id).Nodup ∧ ∀ c, Tidy c st

/-- Channels have different names without dashes, the server gives fresh identifiers, and the bucket is sound. -/
structure SoundWorld (e : PubWorld) (chs : List Channel) : Prop where
  slugs : (chs.map Channel.slug).Nodup
  dashless : ∀ ch ∈ chs, ∀ c ∈ ch.slug, c ≠ '-'
  fresh : ∀ t, FreshIds (e.pub t).freshId
  bucket : ∀ ch ∈ chs, ch.enabled = true → SoundBucket (e.db ch.slug)

/-- No request about the logs is refused: identifiers are fresh, those in the collection are different, and its records have the field for the enrolment. -/
structure LogsWell (e : PubWorld) (st : List CtRec) : Prop where
  fresh : ∀ l, ∀ r ∈ l, r.id ≠ e.ct.freshId l
  ids : (st.map CtRec.id).Nodup
  enrolled : ∀ r ∈ st, r.enrolled.isSome = true
  create : ∀ t, e.ct.createOk t = true
  delete : ∀ t, e.ct.deleteOk t = true
  update : ∀ t, e.ct.updateOk t = true

/-- Another execution over the same log list, runs and enrolled issuers. What the server does may be different. -/
structure SameInputs (e e' : PubWorld) : Prop where
  upstream : e'.upstream = e.upstream
  db : e'.db = e.db
  enrolled : e'.enrolled = e.enrolled
  alone : ∀ s, e'.inter.interfere s = s

end Verif.Spec
