import Verif.Model.Config
/-!
# Settings: what is meant

A number is meant as people write it.
-/
namespace Verif.Spec

/-- `t` is the number `n` written with digits to the base `b` (at most ten). -/
inductive Numeral (b : Nat) : Text → Nat → Prop where
  | one (c : Char) (d : Nat) : "0123456789".toList[d]? = some c → d < b → Numeral b [c] d
  | more (t : Text) (n : Nat) (c : Char) (d : Nat) : Numeral b t n → "0123456789".toList[d]? = some c → d < b → Numeral b (t ++ [c]) (b * n + d)

/-- `c` is the hexadecimal digit `d`. -/
def HexSign (c : Char) (d : Nat) : Prop := "0123456789abcdef".toList[d]? = some c ∨ "0123456789ABCDEF".toList[d]? = some c

/-- `t` is the number `n` written with hexadecimal digits, with or without an underscore between any two of them. -/
inductive HexNumeral : Text → Nat → Prop where
  | one (c : Char) (d : Nat) : HexSign c d → HexNumeral [c] d
  | more (t : Text) (n : Nat) (c : Char) (d : Nat) : HexNumeral t n → HexSign c d → HexNumeral (t ++ [c]) (16 * n + d)
  | gap (t : Text) (n : Nat) (c : Char) (d : Nat) : HexNumeral t n → HexSign c d → HexNumeral (t ++ ['_', c]) (16 * n + d)

/-- Written without a zero in front, unless it is zero itself. -/
def NoLeadingZero (t : Text) : Prop := t = ['0'] ∨ t.head? ≠ some '0'

/-- The texts for one setting, if any, are plain decimal numbers between `lo` and `hi`. -/
def PlainNumbers (o : Option Text) (lo hi : Nat) : Prop := ∀ t, o = some t → ∃ n, Numeral 10 t n ∧ NoLeadingZero t ∧ lo ≤ n ∧ n ≤ hi

/-- Settings with which the programs can work: somebody does the work, a job is at least one entry and at most a billion, and the waiting times are between a second and a hundred years. -/
structure Usable (s : Settings) : Prop where
  workers : 1 ≤ s.numThreads
  batch : 1 ≤ s.batchSize ∧ s.batchSize ≤ 1000000000
  polling : 1 ≤ s.pollingDelay ∧ s.pollingDelay ≤ 3153600000
  interval : 1 ≤ s.updateInterval ∧ s.updateInterval ≤ 3153600000

/-- Which number holds: the one in the environment, else the one in the file, else the default. -/
def InForce (env file : Option Text) (dflt v : Nat) : Prop :=
  (∃ t, env = some t ∧ Numeral 10 t v) ∨ (env = none ∧ ∃ t, file = some t ∧ Numeral 10 t v) ∨ (env = none ∧ file = none ∧ v = dflt)

/-- The words for truth values that can be used anywhere. -/
def TruthWord (t : Text) (b : Bool) : Prop :=
  (String.ofList t, b) ∈ [("1", true), ("t", true), ("T", true), ("true", true), ("TRUE", true), ("True", true),
    ("0", false), ("f", false), ("F", false), ("false", false), ("FALSE", false), ("False", false)]

/-- Which truth value holds, when every text given is a word for one. -/
def InForceBool (env file : Option Text) (dflt b : Bool) : Prop :=
  (∃ t, env = some t ∧ TruthWord t b) ∨ (env = none ∧ ∃ t, file = some t ∧ TruthWord t b) ∨ (env = none ∧ file = none ∧ b = dflt)

/-- The texts with one of them replaced. -/
def withText (e : Texts) (key : Text) (v : Option Text) : Texts := fun k => if k = key then v else e k

end Verif.Spec
