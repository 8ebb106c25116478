import Verif.Model.Text
import Verif.Spec.Calendar
/-!
What a JSON text (RFC 8259) means and what a date with time (RFC 3339) means, written from the grammars in the two documents, without reference to any program that writes or reads them.
-/
namespace Verif

/-- A JSON value. Numbers are kept as they are written. -/
inductive JVal where
  | null
  | bool (b : Bool)
  | num (lit : Text)
  | str (t : Text)
  | arr (l : List JVal)
  | obj (l : List (Text × JVal))

end Verif

namespace Verif.Spec

/-- White space (RFC 8259, section 2). -/
def Ws (t : Text) : Prop := ∀ c ∈ t, c = ' ' ∨ c = '\t' ∨ c = '\n' ∨ c = '\r'

/-- A decimal digit and its value. -/
def Digit (c : Char) (n : Nat) : Prop := n < 10 ∧ c.toNat = 48 + n

/-- One or more digits. -/
def Digits (t : Text) : Prop := t ≠ [] ∧ ∀ c ∈ t, ∃ n, Digit c n

/-- The integer part of a number: no leading zero. -/
def IntPart (t : Text) : Prop := t = ['0'] ∨ (Digits t ∧ t.head? ≠ some '0')

/-- The fraction of a number. -/
def FracPart (t : Text) : Prop := t = [] ∨ ∃ d, t = '.' :: d ∧ Digits d

/-- The exponent of a number. -/
def ExpPart (t : Text) : Prop := t = [] ∨ ∃ e s d, t = e :: (s ++ d) ∧ (e = 'e' ∨ e = 'E') ∧ (s = [] ∨ s = ['+'] ∨ s = ['-']) ∧ Digits d

/-- A number (RFC 8259, section 6). -/
def IsNumber (t : Text) : Prop := ∃ m i f e, t = m ++ (i ++ (f ++ e)) ∧ (m = [] ∨ m = ['-']) ∧ IntPart i ∧ FracPart f ∧ ExpPart e

/-- A hexadecimal digit and its value. -/
def HexDigit (c : Char) (n : Nat) : Prop :=
  (n < 10 ∧ c.toNat = 48 + n) ∨ (10 ≤ n ∧ n < 16 ∧ (c.toNat = 87 + n ∨ c.toNat = 55 + n))

/-- Four hexadecimal digits. -/
def Hex4 (t : Text) (n : Nat) : Prop :=
  ∃ a b c d w x y z, t = [a, b, c, d] ∧ HexDigit a w ∧ HexDigit b x ∧ HexDigit c y ∧ HexDigit d z ∧ n = 4096 * w + 256 * x + 16 * y + z

/-- The characters that may stand behind a backslash, and what they mean. -/
def Escape (x : Char) (c : Char) : Prop :=
  (x = '"' ∧ c = '"') ∨ (x = '\\' ∧ c = '\\') ∨ (x = '/' ∧ c = '/') ∨ (x = 'b' ∧ c.toNat = 8) ∨ (x = 'f' ∧ c.toNat = 12) ∨
    (x = 'n' ∧ c.toNat = 10) ∨ (x = 'r' ∧ c.toNat = 13) ∨ (x = 't' ∧ c.toNat = 9)

/-- The inside of a string (RFC 8259, section 7). Half of a surrogate pair alone has no meaning. -/
inductive Chars : Text → Text → Prop where
  | nil : Chars [] []
  | plain {c : Char} {s t : Text} : 32 ≤ c.toNat → c ≠ '"' → c ≠ '\\' → Chars s t → Chars (c :: s) (c :: t)
  | escape {x c : Char} {s t : Text} : Escape x c → Chars s t → Chars (c :: s) ('\\' :: x :: t)
  | hex {c : Char} {h s t : Text} : Hex4 h c.toNat → Chars s t → Chars (c :: s) ('\\' :: 'u' :: (h ++ t))
  | pair {c : Char} {hi lo s t : Text} {m n : Nat} : Hex4 hi m → 55296 ≤ m → m < 56320 → Hex4 lo n → 56320 ≤ n → n < 57344 →
      c.toNat = 65536 + 1024 * (m - 55296) + (n - 56320) → Chars s t → Chars (c :: s) ('\\' :: 'u' :: (hi ++ ('\\' :: 'u' :: (lo ++ t))))

/-- A string with its quotes. -/
def IsString (s : Text) (t : Text) : Prop := ∃ u, t = '"' :: (u ++ ['"']) ∧ Chars s u

/-- What a piece of JSON stands for: a value, the elements of an array (at least one) or the members of an object (at least one). -/
inductive Piece where
  | val (v : JVal)
  | elems (l : List JVal)
  | members (l : List (Text × JVal))

/-- The grammar of RFC 8259, sections 2 to 5. -/
inductive Json : Piece → Text → Prop where
  | null : Json (.val .null) ['n', 'u', 'l', 'l']
  | true : Json (.val (.bool true)) ['t', 'r', 'u', 'e']
  | false : Json (.val (.bool false)) ['f', 'a', 'l', 's', 'e']
  | num {t : Text} : IsNumber t → Json (.val (.num t)) t
  | str {s t : Text} : IsString s t → Json (.val (.str s)) t
  | arr0 {w : Text} : Ws w → Json (.val (.arr [])) ('[' :: (w ++ [']']))
  | arr {l : List JVal} {t : Text} : Json (.elems l) t → Json (.val (.arr l)) ('[' :: (t ++ [']']))
  | obj0 {w : Text} : Ws w → Json (.val (.obj [])) ('{' :: (w ++ ['}']))
  | obj {l : List (Text × JVal)} {t : Text} : Json (.members l) t → Json (.val (.obj l)) ('{' :: (t ++ ['}']))
  | elem {v : JVal} {a t b : Text} : Ws a → Json (.val v) t → Ws b → Json (.elems [v]) (a ++ (t ++ b))
  | elems {v : JVal} {l : List JVal} {a t b u : Text} : Ws a → Json (.val v) t → Ws b → Json (.elems l) u → Json (.elems (v :: l)) (a ++ (t ++ (b ++ ',' :: u)))
  | member {k : Text} {v : JVal} {a x b c t d : Text} : Ws a → IsString k x → Ws b → Ws c → Json (.val v) t → Ws d →
      Json (.members [(k, v)]) (a ++ (x ++ (b ++ ':' :: (c ++ (t ++ d)))))
  | members {k : Text} {v : JVal} {l : List (Text × JVal)} {a x b c t d u : Text} : Ws a → IsString k x → Ws b → Ws c → Json (.val v) t → Ws d → Json (.members l) u →
      Json (.members ((k, v) :: l)) (a ++ (x ++ (b ++ ':' :: (c ++ (t ++ (d ++ ',' :: u))))))

/-- `t` is a JSON text with value `v`. -/
def JsonText (v : JVal) (t : Text) : Prop := ∃ a u b, t = a ++ (u ++ b) ∧ Ws a ∧ Json (.val v) u ∧ Ws b

/-- `d` days after 1 January 1970 comes the date `c`. -/
def OnDay (d : Int) (c : Civil) : Prop := ∃ f : Int → Civil, f 0 = ⟨1970, 1, 1⟩ ∧ (∀ k, Valid (f k) ∧ f (k + 1) = nextDay (f k)) ∧ f d = c

/-- A number with a fixed number of digits. -/
def Fixed (t : Text) (n : Nat) : Prop := (∀ c ∈ t, ∃ k, Digit c k) ∧ n = t.foldl (fun acc c => 10 * acc + (c.toNat - 48)) 0

/-- A fraction of a second in nanoseconds. -/
def Fraction (t : Text) (ns : Nat) : Prop :=
  (t = [] ∧ ns = 0) ∨ ∃ d v, t = '.' :: d ∧ d ≠ [] ∧ d.length ≤ 9 ∧ Fixed d v ∧ ns = v * 10 ^ (9 - d.length)

/-- An offset from UTC in minutes. -/
def Offset (t : Text) (off : Int) : Prop :=
  (t = ['Z'] ∧ off = 0) ∨ ∃ s h m hh mm, t = s :: (h ++ ':' :: m) ∧ h.length = 2 ∧ m.length = 2 ∧ Fixed h hh ∧ Fixed m mm ∧ hh < 24 ∧ mm < 60 ∧
    ((s = '+' ∧ off = 60 * (hh : Int) + mm) ∨ (s = '-' ∧ off = -(60 * (hh : Int) + mm)))

/-- A date with time (RFC 3339, section 5.6) and the instant that it names: seconds since 1 January 1970, and nanoseconds. Leap seconds are left out. -/
def Rfc3339 (t : Text) (sec : Int) (ns : Nat) : Prop :=
  ∃ y mo d h mi s fr z yy mm dd hh nn ss off day, t = y ++ '-' :: (mo ++ '-' :: (d ++ 'T' :: (h ++ ':' :: (mi ++ ':' :: (s ++ (fr ++ z)))))) ∧
    y.length = 4 ∧ mo.length = 2 ∧ d.length = 2 ∧ h.length = 2 ∧ mi.length = 2 ∧ s.length = 2 ∧
    Fixed y yy ∧ Fixed mo mm ∧ Fixed d dd ∧ Fixed h hh ∧ Fixed mi nn ∧ Fixed s ss ∧ Fraction fr ns ∧ Offset z off ∧
    hh < 24 ∧ nn < 60 ∧ ss < 60 ∧ OnDay day ⟨yy, mm, dd⟩ ∧ sec = day * 86400 + hh * 3600 + nn * 60 + ss - off * 60

end Verif.Spec
