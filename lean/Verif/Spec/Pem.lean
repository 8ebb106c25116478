import Verif.Spec.Der
/-!
Base64 (RFC 4648, section 4) and the textual encoding of RFC 7468, as relations. Nothing here is computed and nothing refers to the programs.
-/
namespace Verif.Spec

/-- The alphabet of RFC 4648. -/
def alphabet64 : Text := "ABCDEFGHIJKLMNOPQRSTUVWXYZabcdefghijklmnopqrstuvwxyz0123456789+/".toList

/-- The value of a character. -/
def Digit64 (d : Nat) (c : Char) : Prop := alphabet64[d]? = some c

/-- RFC 4648, section 4: groups of three octets are four digits; a last group of two or one octets is filled up with zero bits, and with `=`. -/
inductive Base64 : Bytes → Text → Prop
  | nil : Base64 [] []
  | one {a d e x y} : Digit64 d x → Digit64 e y → numB 64 [d, e] = a.toNat * 16 → Base64 [a] [x, y, '=', '=']
  | two {a b d e f x y z} : Digit64 d x → Digit64 e y → Digit64 f z → numB 64 [d, e, f] = numB 256 [a.toNat, b.toNat] * 4 →
      Base64 [a, b] [x, y, z, '=']
  | three {a b c d e f g x y z w bs t} : Digit64 d x → Digit64 e y → Digit64 f z → Digit64 g w →
      numB 64 [d, e, f, g] = numB 256 [a.toNat, b.toNat, c.toNat] → Base64 bs t → Base64 (a :: b :: c :: bs) (x :: y :: z :: w :: t)

/-- The end of a line. -/
def LineEnd (e : Text) : Prop := e = ['\n'] ∨ e = ['\r', '\n']

/-- A text in lines of any lengths. -/
inductive InLines : Text → Text → Prop
  | nil : InLines [] []
  | cons {l t e u} : l ≠ [] → LineEnd e → InLines t u → InLines (l ++ t) (l ++ e ++ u)

/-- The labels considered: printable, without hyphen and colon. -/
def Label (l : Text) : Prop := l ≠ [] ∧ ∀ c ∈ l, 32 ≤ c.toNat ∧ c.toNat < 127 ∧ c ≠ '-' ∧ c ≠ ':'

/-- RFC 7468, section 3: the octets `bs` with the label `l`; the end of the last line may be missing. -/
def Armour (l : Text) (bs : Bytes) (t : Text) : Prop :=
  Label l ∧ ∃ b64 e body f, Base64 bs b64 ∧ LineEnd e ∧ InLines b64 body ∧ (f = [] ∨ LineEnd f) ∧
    t = "-----BEGIN ".toList ++ l ++ "-----".toList ++ e ++ body ++ "-----END ".toList ++ l ++ "-----".toList ++ f

/-- The text has a marker of a beginning somewhere. -/
def HasMarker (t : Text) : Prop := ∃ a b, t = a ++ "-----BEGIN ".toList ++ b

end Verif.Spec
