import Verif.Model.Waiting
/-!
What one expects of a wait.
-/
namespace Verif.Spec

/-- When request number `i` is made: 30 seconds after the end of the one before, or later. -/
def requestAt (w : WaitWorld) (t0 : Nat) : Nat → Nat
  | 0 => t0
  | i + 1 => requestAt w t0 i + w.took i + 30000 + w.over i

/-- The clock is not set during the wait. -/
def EvenClock (w : WaitWorld) (t0 : Nat) : Prop := ∀ t, t0 ≤ t → w.clock t = w.clock t0 + ((t - t0 : Nat) : Int)

/-- No request takes more than `d`, no sleep more than 30 seconds and `s`. -/
def Brisk (w : WaitWorld) (d s : Nat) : Prop := (∀ i, w.took i ≤ d) ∧ ∀ i, w.over i ≤ s

/-- The requests for one file of a bucket, none of which fails. -/
def Asks (w : WaitWorld) (bucket : Nat → List StoredObj) (path : List Text) : Prop :=
  ∀ t, w.reply t = match objGet (bucket t) path with
    | none => .missing
    | some c => .sent c

end Verif.Spec
