import Verif.Spec.Json
import Verif.Spec.PublisherMain
import Verif.Model.RunTime
/-!
Specification for the times of runs. What a text says about a date and a time is `Rfc3339` from `Spec/Json.lean`.
-/
namespace Verif.Spec

/-- Executions one after the other on a clock that does not go back: each reads it twice, and no two write their files in the same second. -/
def Clock (clock : List (Nat × Nat)) : Prop :=
  (∀ r ∈ clock, r.1 ≤ r.2 ∧ r.2 < endOfTime) ∧ clock.Pairwise (fun a b => a.1 ≤ b.1 ∧ a.2 < b.2)

/-- The runs in the bucket are these, they are complete, and their times are read from their files. -/
structure ReadFrom (files : List (Text × Text)) (db : RunDb) : Prop where
  ids : db.ids = files.map Prod.fst
  complete : ∀ x ∈ db.ids, db.ready x = true ∧ db.valid x = true
  time : ∀ f ∈ files, (db.time f.1).map Int.ofNat = fromIso f.2

/-- A date with a time of day, without anything behind it, taken as UTC: `sep` stands between the two. -/
def DateAndTime (s : Text) (sep : Char) (sec : Int) : Prop := ∃ d c, s = d ++ sep :: c ∧ d.length = 10 ∧ c.length = 8 ∧ Rfc3339 (d ++ 'T' :: (c ++ ['Z'])) sec 0

end Verif.Spec
