/-!
Byte strings, text, hexadecimal and line splitting.

These are the library routines that the Go and Rust programs call; they are modelled
here once and used by the models of both.
-/
namespace Verif

/-- A byte string (`[]byte`, `Vec<u8>`, or a Go `string` used as bytes). -/
abbrev Bytes := List UInt8

/-- Text as a list of characters. All texts in the modelled files are ASCII. -/
abbrev Text := List Char

/-- Go `encoding/hex` alphabet (`hextable = "0123456789abcdef"`); Rust's `hex` crate is the same. -/
def hexDigit (n : Nat) : Char :=
  if n < 10 then Char.ofNat (48 + n) else Char.ofNat (87 + n)

/-- Value of a hexadecimal digit; both cases are accepted by Go `hex.DecodeString`,
by Rust `hex::decode` and by Rust `from_str_radix(_, 16)`. -/
def hexVal (c : Char) : Option Nat :=
  let n := c.toNat
  if 48 ≤ n ∧ n ≤ 57 then some (n - 48)
  else if 97 ≤ n ∧ n ≤ 102 then some (n - 87)
  else if 65 ≤ n ∧ n ≤ 70 then some (n - 55)
  else none

/-- Go `hex.EncodeToString` (used at go/types.go:265-267). -/
def hexEncode : Bytes → Text
  | [] => []
  | b :: bs => hexDigit (b.toNat / 16) :: hexDigit (b.toNat % 16) :: hexEncode bs

/-- Go `hex.DecodeString` (go/types.go:277,436) and Rust `hex::decode`
(rust-create-cascade/src/main.rs:270): an odd length or a bad digit is an error. -/
def hexDecode : Text → Option Bytes
  | [] => some []
  | [_] => none
  | a :: b :: rest =>
    match hexVal a, hexVal b, hexDecode rest with
    | some x, some y, some r => some (UInt8.ofNat (x * 16 + y) :: r)
    | _, _, _ => none

/-- Drop one trailing carriage return (Go `bufio.dropCR`; Rust `Lines` does the same for
lines that end in a newline). -/
def dropCR (l : Text) : Text :=
  if l.getLast? = some '\r' then l.dropLast else l

/-- Worker of `splitLines`; `acc` is the current line reversed. -/
def splitLinesAux : Text → Text → List Text
  | [], [] => []
  | [], acc@(_ :: _) => [dropCR acc.reverse]
  | c :: cs, acc =>
    if c = '\n' then dropCR acc.reverse :: splitLinesAux cs []
    else splitLinesAux cs (c :: acc)

/-- Go `bufio.ScanLines` and Rust `BufRead::lines`: split at newlines, a missing final newline
is tolerated, no empty last line. Simplification: Rust keeps a `\r` at the very end
of a file without final newline; the files written here always end in a newline. -/
def splitLines (t : Text) : List Text := splitLinesAux t []

/-- Most significant digit first hexadecimal digits of a number (at least one digit). -/
def natToHexAux : Nat → Nat → Text → Text
  | 0, _, acc => acc
  | fuel + 1, n, acc =>
    let acc := hexDigit (n % 16) :: acc
    if n / 16 = 0 then acc else natToHexAux fuel (n / 16) acc

/-- `%x` of a natural number. -/
def natToHex (n : Nat) : Text := natToHexAux (n + 1) n []

/-- Left padding with zeros to width `w`. -/
def padZeros (w : Nat) (t : Text) : Text := List.replicate (w - t.length) '0' ++ t

/-- Go `fmt.Sprintf("%016x", v)` for an `int64`: the sign counts towards the width. -/
def fmt016x (v : Int) : Text :=
  match v with
  | .ofNat n => padZeros 16 (natToHex n)
  | .negSucc n => '-' :: padZeros 15 (natToHex (n + 1))

/-- Digits to number, most significant first. -/
def hexToNatAux : Text → Nat → Option Nat
  | [], acc => some acc
  | c :: cs, acc =>
    match hexVal c with
    | some d => hexToNatAux cs (acc * 16 + d)
    | none => none

/-- Remove one leading `+` sign. -/
def dropPlus (t : Text) : Text :=
  if t.head? = some '+' then t.tail else t

/-- Rust `u64::from_str_radix(s, 16)`: an optional leading `+`, at least one digit, value below 2^64. -/
def parseHexU64 (t : Text) : Option Nat :=
  let t := dropPlus t
  if t = [] then none
  else match hexToNatAux t 0 with
    | some n => if n < 2 ^ 64 then some n else none
    | none => none

/-- Lexicographic byte comparison `bytes.Compare(a, b) <= 0` (go/types.go:285). -/
def bytesLe : Bytes → Bytes → Bool
  | [], _ => true
  | _ :: _, [] => false
  | a :: as, b :: bs => if a < b then true else if a = b then bytesLe as bs else false

end Verif
