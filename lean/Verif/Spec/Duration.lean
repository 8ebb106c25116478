import Verif.Model.Duration
/-!
Property C116: what the text of a duration means, as documented for Go: "a possibly signed sequence of decimal numbers, each with optional fraction and a unit suffix".
-/
namespace Verif.Spec

/-- The value of decimal digits. -/
def decimal : Text → Nat
  | [] => 0
  | c :: r => (c.toNat - 48) * 10 ^ r.length + decimal r

def OnlyDigits (t : Text) : Prop := ∀ c ∈ t, 48 ≤ c.toNat ∧ c.toNat ≤ 57

/-- The units and their nanoseconds. -/
def durationUnits : List (Text × Nat) :=
  [("ns".toList, 1), ("us".toList, 10 ^ 3), ("µs".toList, 10 ^ 3), ("μs".toList, 10 ^ 3), ("ms".toList, 10 ^ 6), ("s".toList, 10 ^ 9), ("m".toList, 60 * 10 ^ 9), ("h".toList, 3600 * 10 ^ 9)]

/-- A number with its unit: the digits, those behind a point if there is one, the unit and its nanoseconds. -/
structure DurationPart where
  whole : Text
  fraction : Option Text
  unit : Text
  nanos : Nat

structure DurationPart.Good (p : DurationPart) : Prop where
  whole : OnlyDigits p.whole
  fraction : ∀ f, p.fraction = some f → OnlyDigits f
  some : p.whole ≠ [] ∨ ∃ f, p.fraction = some f ∧ f ≠ []
  unit : (p.unit, p.nanos) ∈ durationUnits

/-- The point and what is behind it. -/
def pointText : Option Text → Text
  | none => []
  | some f => '.' :: f

def DurationPart.text (p : DurationPart) : Text := p.whole ++ pointText p.fraction ++ p.unit

/-- The nanoseconds; those of a fraction are given by `frac`, except that a fraction of zeros is nothing. -/
def DurationPart.value (frac : Text → Nat → Nat) (p : DurationPart) : Nat :=
  decimal p.whole * p.nanos + (match p.fraction with | none => 0 | some f => if decimal f = 0 then 0 else frac f p.nanos)

def durationText (ps : List DurationPart) : Text := (ps.map DurationPart.text).flatten

def durationTotal (frac : Text → Nat → Nat) (ps : List DurationPart) : Nat := (ps.map (DurationPart.value frac)).sum

/-- The text is the duration `d`. -/
inductive MeansDuration (frac : Text → Nat → Nat) : Text → Int → Prop
  | zero (sign : Text) (h : sign ∈ ["".toList, "+".toList, "-".toList]) : MeansDuration frac (sign ++ "0".toList) 0
  | plus (sign : Text) (h : sign ∈ ["".toList, "+".toList]) (ps : List DurationPart) (hne : ps ≠ []) (hg : ∀ p ∈ ps, p.Good) (hr : durationTotal frac ps < 2 ^ 63) : MeansDuration frac (sign ++ durationText ps) (durationTotal frac ps)
  | minus (ps : List DurationPart) (hne : ps ≠ []) (hg : ∀ p ∈ ps, p.Good) (hr : durationTotal frac ps ≤ 2 ^ 63) : MeansDuration frac ("-".toList ++ durationText ps) (-(durationTotal frac ps : Int))

end Verif.Spec
