import Verif.Model.Text
/-!
The last part of a path, and the characters of file names. Nothing here refers to the programs.
-/
namespace Verif.Spec

/-- `b` is the last part of the path `p`: what is behind the last slash, slashes at the end aside; "/" if there are only slashes, "." if there is nothing. -/
def LastPart (p b : Text) : Prop :=
  (p = [] ∧ b = ['.']) ∨ (p ≠ [] ∧ (∀ c ∈ p, c = '/') ∧ b = ['/']) ∨
    ∃ a s, p = a ++ b ++ s ∧ b ≠ [] ∧ '/' ∉ b ∧ (∀ c ∈ s, c = '/') ∧ (a = [] ∨ ∃ a', a = a' ++ ['/'])

/-- An ASCII letter or digit, or one of `~`, `-` and `.`. -/
def Allowed (c : Char) : Prop :=
  (48 ≤ c.toNat ∧ c.toNat ≤ 57) ∨ (65 ≤ c.toNat ∧ c.toNat ≤ 90) ∨ (97 ≤ c.toNat ∧ c.toNat ≤ 122) ∨ c = '~' ∨ c = '-' ∨ c = '.'

instance (c : Char) : Decidable (Allowed c) := inferInstanceAs (Decidable (_ ∨ _))

end Verif.Spec
