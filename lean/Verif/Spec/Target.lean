import Verif.Model.Text
/-!
What a filter expression means to a client, written from the documentation of Remote Settings, of JEXL and of Mozilla's version format, without reference to the publisher.
Only the part of the language that is needed is described: `none` stands for everything else.
-/
namespace Verif.Spec

/-! ### versions -/

/-- A digit. -/
def isNumeral (c : Char) : Bool := decide (48 ≤ c.toNat ∧ c.toNat ≤ 57)

/-- The number that a run of digits stands for. -/
def numeral (t : Text) : Nat := t.foldl (fun acc c => 10 * acc + (c.toNat - 48)) 0

/-- A number at the beginning, as `strtol` reads it, and what follows. -/
def leading (t : Text) : Int × Text :=
  match t with
  | '-' :: rest => (-(numeral (rest.takeWhile isNumeral)), rest.dropWhile isNumeral)
  | '+' :: rest => (numeral (rest.takeWhile isNumeral), rest.dropWhile isNumeral)
  | t => (numeral (t.takeWhile isNumeral), t.dropWhile isNumeral)

/-- A part of a version: a number, a text, a number and a text, each of which may be absent. -/
structure VersionPart where
  a : Int
  b : Option Text
  c : Int
  d : Option Text

/-- A text that is absent if it is empty. -/
def orAbsent (t : Text) : Option Text := if t = [] then none else some t

/-- Whether a character ends the first text of a part. -/
def endsText (c : Char) : Bool := isNumeral c || decide (c = '+') || decide (c = '-')

/-- What follows the first number. `1+` is `2pre`. -/
def afterNumber (a : Int) (t : Text) : VersionPart :=
  match t with
  | '+' :: _ => ⟨a + 1, some "pre".toList, 0, none⟩
  | t => ⟨a, orAbsent (t.takeWhile (fun c => !(endsText c))), (leading (t.dropWhile (fun c => !(endsText c)))).1, orAbsent (leading (t.dropWhile (fun c => !(endsText c)))).2⟩

/-- Reading a part. -/
def versionPart (t : Text) : VersionPart := if t = ['*'] then ⟨2147483647, none, 0, none⟩ else afterNumber (leading t).1 (leading t).2

/-- Texts by their characters. -/
def compareTexts : Text → Text → Ordering
  | [], [] => .eq
  | [], _ :: _ => .lt
  | _ :: _, [] => .gt
  | a :: x, b :: y => if a.toNat < b.toNat then .lt else if b.toNat < a.toNat then .gt else compareTexts x y

/-- A text that is there comes before one that is not: `1.0a1` is before `1.0`. -/
def compareAbsent : Option Text → Option Text → Ordering
  | none, none => .eq
  | none, some _ => .gt
  | some _, none => .lt
  | some x, some y => compareTexts x y

/-- Two parts. -/
def compareParts (x y : VersionPart) : Ordering :=
  (compare x.a y.a).then ((compareAbsent x.b y.b).then ((compare x.c y.c).then (compareAbsent x.d y.d)))

/-- The parts one after the other; a part that is missing is an empty one. -/
def compareAll : List Text → List Text → Ordering
  | [], [] => .eq
  | x :: xs, [] => (compareParts (versionPart x) (versionPart [])).then (compareAll xs [])
  | [], y :: ys => (compareParts (versionPart []) (versionPart y)).then (compareAll [] ys)
  | x :: xs, y :: ys => (compareParts (versionPart x) (versionPart y)).then (compareAll xs ys)

/-- The parts between dots. -/
def dotParts : Text → List Text
  | [] => [[]]
  | c :: rest =>
    match dotParts rest with
    | [] => [[c]]
    | p :: ps => if c = '.' then [] :: p :: ps else (c :: p) :: ps

/-- The order of versions. -/
def versionOrder (x y : Text) : Ordering := compareAll (dotParts x) (dotParts y)

/-- A version of Firefox with this major version: a number, and possibly a dot and another number, behind which may come a dot or a letter and anything else (`133.0`, `128.5.0esr`, `133.0b9`, `134.0a1`). -/
def Release (v : Text) (major : Nat) : Prop :=
  ∃ d rest, v = d ++ rest ∧ d ≠ [] ∧ (∀ c ∈ d, isNumeral c = true) ∧ numeral d = major ∧
    (rest = [] ∨ ∃ e s, rest = '.' :: (e ++ s) ∧ e ≠ [] ∧ (∀ c ∈ e, isNumeral c = true) ∧ ∀ c ∈ s.head?, c = '.' ∨ 'a' ≤ c ∧ c ≤ 'z')

/-! ### expressions -/

/-- The symbols of an expression. -/
inductive Tok
  | name (t : Text)
  | str (t : Text)
  | num (n : Nat)
  | dot
  | pipe
  | lpar
  | rpar
  | ge
  | eq
  | and
deriving DecidableEq

/-- The characters of a name. -/
def isNameChar (c : Char) : Bool := isNumeral c || decide ('a' ≤ c ∧ c ≤ 'z') || decide ('A' ≤ c ∧ c ≤ 'Z') || decide (c = '_')

/-- The symbols of a text. Texts are in single quotes; a backslash is not described. -/
def symbols : Nat → Text → Option (List Tok)
  | _, [] => some []
  | 0, _ => none
  | n + 1, ' ' :: rest => symbols n rest
  | n + 1, '.' :: rest => (symbols n rest).map (Tok.dot :: ·)
  | n + 1, '(' :: rest => (symbols n rest).map (Tok.lpar :: ·)
  | n + 1, ')' :: rest => (symbols n rest).map (Tok.rpar :: ·)
  | n + 1, '>' :: '=' :: rest => (symbols n rest).map (Tok.ge :: ·)
  | n + 1, '=' :: '=' :: rest => (symbols n rest).map (Tok.eq :: ·)
  | n + 1, '&' :: '&' :: rest => (symbols n rest).map (Tok.and :: ·)
  | n + 1, '|' :: rest => if rest.head? = some '|' then none else (symbols n rest).map (Tok.pipe :: ·)
  | n + 1, '\'' :: rest =>
    if '\\' ∈ rest.takeWhile (· ≠ '\'') ∨ '\'' ∉ rest then none
    else (symbols n (rest.dropWhile (· ≠ '\'')).tail).map (Tok.str (rest.takeWhile (· ≠ '\'')) :: ·)
  | n + 1, c :: rest =>
    if isNumeral c then (symbols n (rest.dropWhile isNumeral)).map (Tok.num (numeral (c :: rest.takeWhile isNumeral)) :: ·)
    else if isNameChar c then (symbols n (rest.dropWhile isNameChar)).map (Tok.name (c :: rest.takeWhile isNameChar) :: ·)
    else none

/-- Expressions. -/
inductive Expr
  | str (t : Text)
  | num (n : Nat)
  | version
  | transform (e : Expr) (name : Text) (arg : Text)
  | ge (a b : Expr)
  | eq (a b : Expr)
  | and (a b : Expr)
deriving DecidableEq

/-- Transforms behind an operand. They bind closer than all else. -/
def transforms (e : Expr) : List Tok → Expr × List Tok
  | .pipe :: .name f :: .lpar :: .str a :: .rpar :: rest => transforms (.transform e f a) rest
  | rest => (e, rest)

/-- An operand. -/
def operand : List Tok → Option (Expr × List Tok)
  | .str t :: rest => some (transforms (.str t) rest)
  | .num n :: rest => some (transforms (.num n) rest)
  | .name a :: .dot :: .name b :: rest => if a = "env".toList ∧ b = "version".toList then some (transforms .version rest) else none
  | _ => none

/-- Comparisons bind closer than `&&`. -/
def comparison (ts : List Tok) : Option (Expr × List Tok) :=
  match operand ts with
  | none => none
  | some (a, .ge :: rest) => (operand rest).map (fun p => (.ge a p.1, p.2))
  | some (a, .eq :: rest) => (operand rest).map (fun p => (.eq a p.1, p.2))
  | some (a, rest) => some (a, rest)

/-- The expression of a list of symbols. -/
def expression (ts : List Tok) : Option Expr :=
  match comparison ts with
  | some (a, []) => some a
  | some (a, .and :: rest) =>
    match comparison rest with
    | some (b, []) => some (.and a b)
    | _ => none
  | _ => none

/-- Values. -/
inductive Val
  | str (t : Text)
  | num (n : Int)
  | bool (b : Bool)
deriving DecidableEq

/-- A client: its version, and its preferences. -/
structure ClientInfo where
  version : Text
  pref : Text → Option Text

/-- The outcome of `versionCompare`. -/
def orderNum : Ordering → Int
  | .lt => -1
  | .eq => 0
  | .gt => 1

/-- The two transforms. -/
def transformed (ctx : ClientInfo) (v : Val) (name arg : Text) : Option Val :=
  match v with
  | .str t =>
    if name = "versionCompare".toList then some (.num (orderNum (versionOrder t arg)))
    else if name = "preferenceValue".toList then some (.str ((ctx.pref t).getD arg))
    else none
  | _ => none

/-- The value of an expression. -/
def value (ctx : ClientInfo) : Expr → Option Val
  | .str t => some (.str t)
  | .num n => some (.num n)
  | .version => some (.str ctx.version)
  | .transform e name arg => (value ctx e).bind (fun v => transformed ctx v name arg)
  | .ge a b =>
    match value ctx a, value ctx b with
    | some (.num x), some (.num y) => some (.bool (decide (y ≤ x)))
    | _, _ => none
  | .eq a b =>
    match value ctx a, value ctx b with
    | some (.str x), some (.str y) => some (.bool (decide (x = y)))
    | _, _ => none
  | .and a b =>
    match value ctx a, value ctx b with
    | some (.bool x), some (.bool y) => some (.bool (x && y))
    | _, _ => none

/-- The value of a text. -/
def jexl (ctx : ClientInfo) (t : Text) : Option Val := ((symbols t.length t).bind expression).bind (value ctx)

/-- A client gets the records without an expression and those with an expression that is true. -/
def gets (ctx : ClientInfo) : Option Text → Bool
  | none => true
  | some t => decide (jexl ctx t = some (.bool true))

/-- The value of the preference with the channel. -/
def ClientInfo.channel (ctx : ClientInfo) : Text := (ctx.pref "security.pki.crlite_channel".toList).getD "none".toList

/-- The slug has no character with a meaning inside quotes. -/
def PlainSlug (slug : Text) : Prop := ∀ c ∈ slug, c ≠ '\'' ∧ c ≠ '\\'

end Verif.Spec
