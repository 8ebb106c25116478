import Verif.Model.Signing
import Verif.Spec.Channel
/-!
Specification of review and signature, over histories.
-/
namespace Verif.Spec

/-- No record is changed in these events. -/
def NoEdits {α : Type} (evs : List (CollEvent α)) : Prop := ∀ e ∈ evs, ∀ c, e ≠ .edit c

/-- In the history `evs`, somebody read the status and then asked for review of exactly the content `c`, then somebody signed; nothing was changed from the reading to the signature. -/
def ReviewedThenSigned {α : Type} (start : CollSys α) (c : α) (evs : List (CollEvent α)) : Prop :=
  ∃ before k between mid j after, evs = before ++ .look k :: (between ++ .askReview k :: (mid ++ .sign j :: after)) ∧
    (start.run before).coll.content = c ∧ NoEdits between ∧ NoEdits mid

/-- Nobody but the publisher changes records. -/
def OnlyPublisher {α : Type} (evs : List (PubSysEvent α)) : Prop := ∀ e ∈ evs, ∀ c, e ≠ .edit c

/-- The history has a publication with the outcome `c` that went on to ask for review. -/
def OutcomeOf {α : Type} [DecidableEq α] (start : PubSys α) (c : α) (evs : List (PubSysEvent α)) : Prop :=
  ∃ before f touched after, evs = before ++ .publish f touched :: after ∧ f (start.run before).coll.content = (c, true)

end Verif.Spec
