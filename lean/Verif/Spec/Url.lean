import Verif.Model.Text
/-!
Queries in the form of application/x-www-form-urlencoded, as relations. Nothing here refers to the programs.
-/
namespace Verif.Spec

/-- A hexadecimal digit in ASCII and its value. -/
def HexOctet (b : UInt8) (d : Nat) : Prop :=
  d < 16 ∧ ((d < 10 ∧ b.toNat = 48 + d) ∨ (10 ≤ d ∧ b.toNat = 55 + d) ∨ (10 ≤ d ∧ b.toNat = 87 + d))

/-- A text and the octets it stands for: `+` is a space, `%` with two hexadecimal digits is an octet, and everything else but `&`, `;` and `=` is itself. -/
inductive Escaped : Bytes → Bytes → Prop
  | nil : Escaped [] []
  | plain {b t m} : b.toNat ≠ 37 → b.toNat ≠ 38 → b.toNat ≠ 43 → b.toNat ≠ 59 → b.toNat ≠ 61 → Escaped t m → Escaped (b :: t) (b :: m)
  | plus {t m} : Escaped t m → Escaped (43 :: t) (32 :: m)
  | octet {x y d e o t m} : HexOctet x d → HexOctet y e → o.toNat = 16 * d + e → Escaped t m → Escaped (37 :: x :: y :: t) (o :: m)

/-- A query: names and values with `=` between them and `&` between the pairs. -/
inductive Form : Bytes → List (Bytes × Bytes) → Prop
  | one {n v a b} : Escaped n a → Escaped v b → Form (n ++ 61 :: v) [(a, b)]
  | more {n v a b q ps} : Escaped n a → Escaped v b → Form q ps → Form (n ++ 61 :: v ++ 38 :: q) ((a, b) :: ps)

/-- `vs` are the values of the name `n`, in order. -/
inductive ValuesAre (n : Bytes) : List (Bytes × Bytes) → List Bytes → Prop
  | nil : ValuesAre n [] []
  | here {v ps vs} : ValuesAre n ps vs → ValuesAre n ((n, v) :: ps) (v :: vs)
  | there {p ps vs} : p.1 ≠ n → ValuesAre n ps vs → ValuesAre n (p :: ps) vs

/-- Every name has the same values in the same order; pairs with different names may stand in any order. -/
def SameValues (ps qs : List (Bytes × Bytes)) : Prop := ∀ n vs, ValuesAre n ps vs ↔ ValuesAre n qs vs

/-- A query that is not there, or in the form above. -/
def QueryIs (q : Bytes) (ps : List (Bytes × Bytes)) : Prop := (q = [] ∧ ps = []) ∨ Form q ps

/-- What is assumed about the parts of a URL that are not modelled: writing a part that was parsed gives a text without `?`, `#` and control characters (in the first part) that is parsed to the same again. -/
structure GoodFix (fixBase fixFragment : Bytes → Option Bytes) : Prop where
  clean : ∀ x y, fixBase x = some y → ∀ b ∈ y, b.toNat ≠ 63 ∧ b.toNat ≠ 35 ∧ 32 ≤ b.toNat ∧ b.toNat ≠ 127
  again : ∀ x y, fixBase x = some y → fixBase y = some y
  fragment : ∀ x y, fixFragment x = some y → fixFragment y = some y
  none : fixFragment [] = some []

end Verif.Spec
