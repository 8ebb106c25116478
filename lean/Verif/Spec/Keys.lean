import Verif.Model.Keys
/-! Independent specification of URL identity and of the history of saves. -/
namespace Verif.Spec

/-- The same URL up to trailing slashes. -/
def SameUrl (u v : Text) : Prop := ∃ i j, u ++ List.replicate i '/' = v ++ List.replicate j '/'

/-- The last of a history of saves for this URL. -/
def IsLastSave (history : List CTLogState) (url : Text) (log : CTLogState) : Prop :=
  ∃ before after, history = before ++ log :: after ∧ SameUrl log.shortURL url ∧ ∀ l ∈ after, ¬ SameUrl l.shortURL url

/-- No two colons in a row. -/
def NoColons (t : Text) : Prop := ∀ a b, t ≠ a ++ ':' :: ':' :: b

/-- Cutting a name at every `::`, from the left. -/
inductive Split : Text → List Text → Prop
  | last {t} : NoColons t → Split t [t]
  | cut {p t parts} : NoColons (p ++ [':']) → Split t parts → Split (p ++ ':' :: ':' :: t) (p :: parts)

end Verif.Spec
