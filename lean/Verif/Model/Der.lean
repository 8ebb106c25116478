import Verif.Model.Crls
/-!
From the bytes of a certificate or a CRL to serial numbers: go/types.go:340-434 and
aggregate-crls.go:286-302, on top of Go's `encoding/asn1`.

`encoding/asn1` is not part of /repo. Its `Unmarshal` is modelled here for exactly the Go types of
go/types.go:340-361 and 411-415. A Go parse function takes a slice and an offset; here it takes the
bytes from the offset on and returns the bytes that are left. `none` is an error.
-/
namespace Verif

/-- `tagAndLength` of `encoding/asn1`. -/
structure TagLen where
  cls : Nat
  compound : Bool
  tag : Nat
  length : Nat
deriving DecidableEq

/-- `parseBase128Int` of `encoding/asn1` (tags, object identifiers). `shifted` counts the octets read
so far: a sixth octet, a leading 0x80 and a value over `math.MaxInt32` are errors. -/
def base128Loop : Bytes → Nat → Nat → Option (Nat × Bytes)
  | [], _, _ => none
  | b :: rest, shifted, acc =>
    if shifted = 5 then none
    else if shifted = 0 ∧ b = 0x80 then none
    else
      if b.toNat < 128 then
        (if acc * 128 + b.toNat % 128 > 2147483647 then none else some (acc * 128 + b.toNat % 128, rest))
      else base128Loop rest (shifted + 1) (acc * 128 + b.toNat % 128)

/-- The loop over the length octets in `parseTagAndLength`: `n` octets are still to be read. -/
def lengthLoop : Nat → Bytes → Nat → Option (Nat × Bytes)
  | 0, bs, acc => some (acc, bs)
  | _ + 1, [], _ => none
  | n + 1, b :: rest, acc =>
    if acc ≥ 8388608 then none
    else if acc * 256 + b.toNat = 0 then none
    else lengthLoop n rest (acc * 256 + b.toNat)

/-- The length part of `parseTagAndLength`. -/
def parseLength : Bytes → Option (Nat × Bytes)
  | [] => none
  | b :: rest =>
    if b.toNat < 128 then some (b.toNat, rest)
    else if b.toNat = 128 then none
    else
      match lengthLoop (b.toNat - 128) rest 0 with
      | none => none
      | some (n, rest') => if n < 128 then none else some (n, rest')

/-- The tag part of `parseTagAndLength` after the first octet, whose low five bits are `low`. -/
def parseTagNumber (low : Nat) (rest : Bytes) : Option (Nat × Bytes) :=
  if low = 31 then
    match base128Loop rest 0 0 with
    | none => none
    | some (t, rest') => if t < 31 then none else some (t, rest')
  else some (low, rest)

/-- `parseTagAndLength` of `encoding/asn1`. -/
def parseTagLen : Bytes → Option (TagLen × Bytes)
  | [] => none
  | b :: rest =>
    match parseTagNumber (b.toNat % 32) rest with
    | none => none
    | some (t, rest1) =>
      match parseLength rest1 with
      | none => none
      | some (n, rest2) => some (⟨b.toNat / 64, b.toNat / 32 % 2 == 1, t, n⟩, rest2)

/-- `parseField` for an `asn1.RawValue`: any element is accepted, its content octets are kept. -/
def rawField (bs : Bytes) : Option (Bytes × Bytes) :=
  match parseTagLen bs with
  | none => none
  | some (t, rest) => if t.length > rest.length then none else some (rest.take t.length, rest.drop t.length)

/-- `parseField` for `Version asn1.RawValue` with `optional,explicit,default:0,tag:0`
(go/types.go:413): the bytes after the version. The content of the version is not used. -/
def skipVersion (bs : Bytes) : Option Bytes :=
  if bs = [] then some []
  else
    match parseTagLen bs with
    | none => none
    | some (t, rest) =>
      if rest = [] then none
      else if t.cls = 2 ∧ t.tag = 0 ∧ (t.length = 0 ∨ t.compound = true) then
        (if t.length > rest.length then none else some (rest.drop t.length))
      else some bs

/-- The kinds of universal type that the structures of go/types.go use, as class-universal tag number and
whether the encoding must be constructed (`getUniversalType` of `encoding/asn1`). -/
inductive Kind where
  | boolean | integer | octetString | oid | enumerated | sequence | time
deriving DecidableEq

/-- Whether an element header matches the type of the field. A `time.Time` may be a UTCTime (23) or a GeneralizedTime (24). -/
def Kind.matches (k : Kind) (t : TagLen) : Bool :=
  t.cls == 0 &&
  match k with
  | .boolean => t.tag == 1 && !t.compound
  | .integer => t.tag == 2 && !t.compound
  | .octetString => t.tag == 4 && !t.compound
  | .oid => t.tag == 6 && !t.compound
  | .enumerated => t.tag == 10 && !t.compound
  | .sequence => t.tag == 16 && t.compound
  | .time => (t.tag == 23 || t.tag == 24) && !t.compound

/-- `parseField` up to the content octets, for a field of kind `k`: the tag number, the content and the bytes after
it. `some (none, bs)` is an absent optional field. -/
def typedField (k : Kind) (optional : Bool) (bs : Bytes) : Option (Option (Nat × Bytes) × Bytes) :=
  if bs = [] then (if optional then some (none, []) else none)
  else
    match parseTagLen bs with
    | none => none
    | some (t, rest) =>
      if k.matches t then
        (if t.length > rest.length then none else some (some (t.tag, rest.take t.length), rest.drop t.length))
      else if optional then some (none, bs) else none

/-- `checkInteger` of `encoding/asn1`: no empty and no non-minimal two's complement. -/
def checkInteger : Bytes → Bool
  | [] => false
  | [_] => true
  | a :: b :: _ => !((a == 0 && b.toNat < 128) || (a == 0xff && 128 ≤ b.toNat))

/-- The big-endian value of some octets. -/
def beValue (bs : Bytes) : Nat := bs.foldl (fun n b => n * 256 + b.toNat) 0

/-- The two's complement value of some octets. -/
def twosValue (bs : Bytes) : Int :=
  match bs with
  | [] => 0
  | b :: _ => if b.toNat < 128 then (beValue bs : Int) else (beValue bs : Int) - (256 ^ bs.length : Nat)

/-- `parseInt64` of `encoding/asn1`. -/
def parseInt64 (bs : Bytes) : Option Int :=
  if checkInteger bs then (if bs.length > 8 then none else some (twosValue bs)) else none

/-- `parseInt32` of `encoding/asn1`. -/
def parseInt32 (bs : Bytes) : Option Int :=
  match parseInt64 bs with
  | none => none
  | some v => if v < -2147483648 ∨ v > 2147483647 then none else some v

/-- The rest of `parseObjectIdentifier`; `fuel` bounds the number of components, each of which takes at least one octet. -/
def oidLoop : Nat → Bytes → Option (List Nat)
  | 0, bs => if bs = [] then some [] else none
  | fuel + 1, bs =>
    if bs = [] then some []
    else
      match base128Loop bs 0 0 with
      | none => none
      | some (v, rest) =>
        match oidLoop fuel rest with
        | none => none
        | some vs => some (v :: vs)

/-- The first two components of an object identifier share one number. -/
def oidSplit (v : Nat) : List Nat := if v < 80 then [v / 40, v % 40] else [2, v - 80]

/-- `parseObjectIdentifier` of `encoding/asn1`. -/
def parseOid (bs : Bytes) : Option (List Nat) :=
  match oidLoop bs.length bs with
  | none => none
  | some [] => none
  | some (v :: vs) => some (oidSplit v ++ vs)

/-- `parseBool` of `encoding/asn1`. -/
def parseBool : Bytes → Option Bool
  | [b] => if b = 0 then some false else if b = 0xff then some true else none
  | _ => none

/-- `parseSequenceOf` of `encoding/asn1` for a slice of structures: the content octets of the elements. Go checks
all headers first and parses the elements afterwards. -/
def sequenceOf : Nat → Bytes → Option (List Bytes)
  | 0, bs => if bs = [] then some [] else none
  | fuel + 1, bs =>
    if bs = [] then some []
    else
      match typedField .sequence false bs with
      | some (some (_, content), rest) =>
        (match sequenceOf fuel rest with
        | none => none
        | some cs => some (content :: cs))
      | _ => none

/-- All results, or `none` if one fails. -/
def allSome {α β : Type} (f : α → Option β) : List α → Option (List β)
  | [] => some []
  | a :: rest =>
    match f a with
    | none => none
    | some b =>
      match allSome f rest with
      | none => none
      | some bs => some (b :: bs)

/-- `asn1.Unmarshal(ext.Value, &reasonCode)` (go/types.go:371); bytes after the element are not looked at. -/
def parseEnumerated (bs : Bytes) : Option Int :=
  match typedField .enumerated false bs with
  | some (some (_, content), _) => parseInt32 content
  | _ => none

/-- `kOidExtensionReasonCode` (go/types.go:28). -/
def reasonOid : List Nat := [2, 5, 29, 21]

/-- The critical flag of an `Extension` (go/types.go:352): `false` if absent; `none` on error. -/
def criticalField (bs : Bytes) : Option (Bool × Bytes) :=
  match typedField .boolean true bs with
  | none => none
  | some (none, rest) => some (false, rest)
  | some (some (_, content), rest) =>
    match parseBool content with
    | none => none
    | some c => some (c, rest)

/-- `parseField` for an `Extension` (go/types.go:350-354), from the content octets of its sequence. The result is what
`Reason` uses (go/types.go:367, 371): whether the identifier is the CRLReason one, and the value as ENUMERATED. -/
def parseExtension (bs : Bytes) : Option CrlExtension :=
  match typedField .oid false bs with
  | some (some (_, oidBytes), rest1) =>
    (match parseOid oidBytes with
    | none => none
    | some oid =>
      match criticalField rest1 with
      | none => none
      | some (_, rest2) =>
        match typedField .octetString false rest2 with
        | some (some (_, value), _) => some ⟨oid == reasonOid, parseEnumerated value⟩
        | _ => none)
  | _ => none

/-- A `time.Time` field. `timeOk generalized content` says whether `parseUTCTime` or `parseGeneralizedTime` accepts the
content; the times are not used here. The result is the bytes after the field. -/
def timeField (timeOk : Bool → Bytes → Bool) (optional : Bool) (bs : Bytes) : Option Bytes :=
  match typedField .time optional bs with
  | none => none
  | some (none, rest) => some rest
  | some (some (tag, content), rest) => if timeOk (tag == 24) content then some rest else none

/-- An optional slice of structures: absent is empty. -/
def optionalSlice {α : Type} (elem : Bytes → Option α) (bs : Bytes) : Option (List α) :=
  match typedField .sequence true bs with
  | none => none
  | some (none, _) => some []
  | some (some (_, content), _) =>
    match sequenceOf content.length content with
    | none => none
    | some cs => allSome elem cs

/-- `parseField` for a `RevokedCertificateWithRawSerial` (go/types.go:356-361), from the content octets of its sequence. -/
def parseRevoked (timeOk : Bool → Bytes → Bool) (bs : Bytes) : Option (Serial × List CrlExtension) :=
  match rawField bs with
  | none => none
  | some (serial, rest1) =>
    match timeField timeOk false rest1 with
    | none => none
    | some rest2 =>
      match optionalSlice parseExtension rest2 with
      | none => none
      | some exts => some (serial, exts)

/-- The `Version int` field with `optional,default:0` (go/types.go:342): the bytes after it. -/
def versionField (bs : Bytes) : Option Bytes :=
  match typedField .integer true bs with
  | none => none
  | some (none, rest) => some rest
  | some (some (_, content), rest) =>
    match parseInt64 content with
    | none => none
    | some _ => some rest

/-- The fields of `TBSCertificateListWithRawSerials` (go/types.go:340-348), from the content octets of its sequence. Bytes after the last
field, the CRL extensions among them, are not looked at. -/
def parseTbsFields (timeOk : Bool → Bytes → Bool) (bs : Bytes) : Option (List (Serial × List CrlExtension)) :=
  match versionField bs with
  | none => none
  | some rest1 =>
    match rawField rest1 with
    | none => none
    | some (_, rest2) =>
      match rawField rest2 with
      | none => none
      | some (_, rest3) =>
        match timeField timeOk false rest3 with
        | none => none
        | some rest4 =>
          match timeField timeOk true rest4 with
          | none => none
          | some rest5 => optionalSlice (parseRevoked timeOk) rest5

/-- `DecodeRawTBSCertList` (go/types.go:398-402). -/
def decodeRawTbs (timeOk : Bool → Bytes → Bool) (data : Bytes) : Option (List (Serial × List CrlExtension)) :=
  match typedField .sequence false data with
  | some (some (_, content), _) => parseTbsFields timeOk content
  | _ => none

/-- `processCRL` (aggregate-crls.go:286-302) on the bytes of the list to be signed. -/
def processCrlBytes (timeOk : Bool → Bytes → Bool) (data : Bytes) : Option (List (Serial × UInt8)) :=
  match decodeRawTbs timeOk data with
  | none => none
  | some es => processEntries es

/-- `NewSerialFromTBS` (go/types.go:426-433), and `NewSerial` (417-424) and `NewSerialFromCertificate`
(100-102) with it; `none` is the panic. -/
def newSerialFromTbs (data : Bytes) : Option Serial :=
  match typedField .sequence false data with
  | some (some (_, content), _) =>
    (match skipVersion content with
    | none => none
    | some rest =>
      match rawField rest with
      | none => none
      | some (serial, _) => some serial)
  | _ => none

end Verif
