import Verif.Model.Collections
import Verif.Model.Serial
/-!
# Intermediate records: parsing, verification and the text by which they are compared

`moz_kinto_publisher/main.py`: the class `Intermediate`. `Collections` takes the outcome of this as a given `Inter` per record.
-/
namespace Verif

/-! ### the text by which intermediates are compared -/

/-- The alphabet of `base64.b85encode`. -/
def b85Alphabet : Text := "0123456789ABCDEFGHIJKLMNOPQRSTUVWXYZabcdefghijklmnopqrstuvwxyz!#$%&()*+-;<=>?@^_`{|}~".toList

/-- One digit. -/
def b85Digit (n : Nat) : Char := b85Alphabet.getD n '0'

/-- Four bytes, big endian, as five digits. -/
def b85Block (a b c d : UInt8) : Text :=
  let n := ((a.toNat * 256 + b.toNat) * 256 + c.toNat) * 256 + d.toNat
  [b85Digit (n / 52200625), b85Digit (n / 614125 % 85), b85Digit (n / 7225 % 85), b85Digit (n / 85 % 85), b85Digit (n % 85)]

/-- `base64.b85encode`. Simplification: only for whole blocks of four bytes (the hashes have 32 bytes); a rest is left out. -/
def b85Encode : Bytes → Text
  | a :: b :: c :: d :: rest => b85Block a b c d ++ b85Encode rest
  | _ => []

/-- The quotation mark that Python's `repr` of bytes uses: `"` if there is a `'` and no `"` in it, else `'`. -/
def reprQuote (bs : Bytes) : UInt8 := if bs.contains 39 && !(bs.contains 34) then 34 else 39

/-- A lower case hexadecimal digit. -/
def reprHex (n : Nat) : Char := if n < 10 then Char.ofNat (48 + n) else Char.ofNat (87 + n)

/-- One byte in Python's `repr`. -/
def reprByte (q : UInt8) (b : UInt8) : Text :=
  if b = q ∨ b = 92 then ['\\', Char.ofNat b.toNat]
  else if b = 9 then ['\\', 't']
  else if b = 10 then ['\\', 'n']
  else if b = 13 then ['\\', 'r']
  else if b < 32 ∨ 127 ≤ b then ['\\', 'x', reprHex (b.toNat / 16), reprHex (b.toNat % 16)]
  else [Char.ofNat b.toNat]

/-- `repr` of bytes, which is also what an f-string writes for them. -/
def bytesRepr (bs : Bytes) : Text :=
  'b' :: Char.ofNat (reprQuote bs).toNat :: (bs.flatMap (reprByte (reprQuote bs)) ++ [Char.ofNat (reprQuote bs).toNat])

/-- `Intermediate.unique_id` (main.py:356-360). -/
def uniqueId (i : Inter) : Text := b85Encode i.spki ++ '-' :: (i.subject ++ '-' :: bytesRepr i.der)

/-! ### records -/

/-- A certificate as `x509.load_pem_x509_certificate` reads it. -/
structure PemCert where
  der : Bytes
  spki : Bytes
  subject : Text

/-- The `attachment` of a record: are all five fields there (main.py:241-247), and two of them. -/
structure RawAttachment where
  complete : Bool
  hash : Text
  location : Text

/-- An entry of enrolled.json or a record of the collection: the keys that `Intermediate.__init__` looks at. Simplification: values have the right JSON
types. -/
structure RawInter where
  pem : Option Text
  attachment : Option RawAttachment
  pubKeyHash : Option Text
  derHash : Option Text
  hasSubject : Bool
  id : Option Text

/-- What comes of a record: an intermediate, an `IntermediateRecordError`, or another exception. -/
inductive Parsed where
  | ok (i : Inter)
  | bad
  | dies
deriving DecidableEq

/-- The outside world. `loadPem`: `none` if the `cryptography` package raises. `marked`: `asciiPemToBinaryDer` (main.py:167-174) finds the markers and what is
between them decodes; its result is not used. `fetch`: the download of an attachment. -/
structure PemEnv where
  sha : Bytes → Bytes
  loadPem : Text → Option PemCert
  marked : Text → Bool
  fetch : Text → Option Text

/-- The translation of `altchars="-_"`. -/
def altChar (c : Char) : Char := if c = '-' then '+' else if c = '_' then '/' else c

/-- `base64.b64decode(t, altchars="-_", validate=True)`. -/
def pyB64Decode (t : Text) : Option Bytes := b64Decode false (t.map altChar)

/-- Decoding of an optional hash field (main.py:309-335): `none` is `IntermediateRecordError`. The length test is skipped for the empty string, which is
false in Python. -/
def hashField : Option Text → Option (Option Bytes)
  | none => some none
  | some t =>
    match pyB64Decode t with
    | none => none
    | some h => if h ≠ [] ∧ h.length ≠ 32 then none else some (some h)

/-- Does a declared hash contradict the computed one (main.py:396, 406)? Absent and empty hashes do not. -/
def contradicts (declared : Option Bytes) (actual : Bytes) : Bool :=
  match declared with
  | none => false
  | some h => decide (h ≠ [] ∧ h ≠ actual)

/-- `set_pem` (main.py:384-408). -/
def setPem (env : PemEnv) (pk dh : Option Bytes) (pem : Text) : Parsed :=
  if env.marked pem then
    match env.loadPem pem with
    | none => .bad
    | some c =>
      if contradicts dh (env.sha c.der) then .bad
      else if contradicts pk (env.sha c.spki) then .bad
      else .ok ⟨env.sha c.spki, c.subject, env.sha c.der⟩
  else .dies

/-- `Intermediate.__init__` for a record with a `pem` (main.py:281-341) up to `set_pem`, which is `k`. -/
def parsePem (r : RawInter) (k : Option Bytes → Option Bytes → Parsed) : Parsed :=
  if r.pubKeyHash.isSome && r.hasSubject then
    match hashField r.pubKeyHash, hashField r.derHash with
    | some pk, some dh => k pk dh
    | _, _ => .bad
  else .bad

/-- `Intermediate.__init__` for a record with an `attachment` (main.py:281-348), and what follows. A missing field of the attachment is a `KeyError`. -/
def parseAttached (r : RawInter) (a : RawAttachment) (k : Option Bytes → Option Bytes → Parsed) : Parsed :=
  if r.derHash.isSome && r.id.isSome then
    match hashField r.pubKeyHash, hashField r.derHash with
    | some pk, some dh => if a.complete then (if a.hash.length = 64 then k pk dh else .bad) else .dies
    | _, _ => .bad
  else .bad

/-- An entry of enrolled.json (main.py:507-511). An entry with an attachment has no `subject`, so `unique_id` raises. -/
def parseLocal (env : PemEnv) (r : RawInter) : Parsed :=
  match r.pem, r.attachment with
  | some pem, none => parsePem r (fun pk dh => setPem env pk dh pem)
  | none, some a => parseAttached r a (fun _ _ => .dies)
  | _, _ => .bad

/-- `download_pem` (main.py:410-417); a failed download is an exception of another kind. -/
def downloadPem (env : PemEnv) (a : RawAttachment) (pk dh : Option Bytes) : Parsed :=
  match env.fetch a.location with
  | some pem => setPem env pk dh pem
  | none => .dies

/-- For a record with a `pem` and no attachment `download_pem` raises an `Exception` (main.py:411-412). -/
def noAttachment : Parsed → Parsed
  | .ok _ => .dies
  | x => x

/-- A record of the collection (main.py:540-544). -/
def parseRemote (env : PemEnv) (r : RawInter) : Parsed :=
  match r.pem, r.attachment with
  | none, some a => parseAttached r a (downloadPem env a)
  | some pem, none => noAttachment (parsePem r (fun pk dh => setPem env pk dh pem))
  | _, _ => .bad

/-- The `derHash` that `add_to_kinto` writes (main.py:362-365, 469-476). -/
def writtenDerHash (i : Inter) : Text := b64Encode false i.der

end Verif
