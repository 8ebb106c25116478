import Verif.Model.Text
/-!
The Distinguished Encoding Rules and the parts of RFC 5280 that describe serial numbers and revocation lists, as relations between
values and octets. Nothing here is computed and nothing refers to the decoder.
-/
namespace Verif.Spec

/-- The number with the digits `ds` in base `B`, most significant first. -/
def numB (B : Nat) : List Nat → Nat
  | [] => 0
  | d :: ds => d * B ^ ds.length + numB B ds

/-- X.690 8.1.2.4.2: a number in base 128, most significant first, the high bit on all octets but the last, and no leading zero digit. -/
def Base128 (n : Nat) (ts : Bytes) : Prop :=
  ∃ hi lo, ts = hi ++ [lo] ∧ lo.toNat < 128 ∧ (∀ b ∈ hi, 128 ≤ b.toNat) ∧ ts.head? ≠ some 0x80 ∧
    numB 128 (ts.map (fun b => b.toNat % 128)) = n

/-- X.690 8.1.2: identifier octets of class `cls`, constructed or not, and tag number `tag`. -/
def Identifier (cls tag : Nat) (constructed : Bool) (id : Bytes) : Prop :=
  cls < 4 ∧
  ((tag < 31 ∧ ∃ b, id = [b] ∧ b.toNat = cls * 64 + (if constructed then 32 else 0) + tag) ∨
   (31 ≤ tag ∧ ∃ b ts, id = b :: ts ∧ b.toNat = cls * 64 + (if constructed then 32 else 0) + 31 ∧ Base128 tag ts))

/-- X.690 8.1.3 and 10.1: the definite form with the fewest octets. -/
def LengthOctets (n : Nat) (ls : Bytes) : Prop :=
  (n < 128 ∧ ∃ b, ls = [b] ∧ b.toNat = n) ∨
  (128 ≤ n ∧ ∃ k ds, ls = k :: ds ∧ k.toNat = 128 + ds.length ∧ ds.head? ≠ some 0 ∧ numB 256 (ds.map UInt8.toNat) = n)

/-- One encoded element. -/
def Element (cls tag : Nat) (constructed : Bool) (content whole : Bytes) : Prop :=
  ∃ id ls, Identifier cls tag constructed id ∧ LengthOctets content.length ls ∧ whole = id ++ ls ++ content

/-- X.690 8.3: the integer `v` in two's complement, in the fewest octets. -/
def TwosComplement (v : Int) (bs : Bytes) : Prop :=
  ∃ b rest, bs = b :: rest ∧
    (v = (numB 256 (bs.map UInt8.toNat) : Int) - (if b.toNat < 128 then 0 else (256 ^ bs.length : Nat))) ∧
    (∀ c, rest.head? = some c → ¬ (b = 0 ∧ c.toNat < 128) ∧ ¬ (b = 0xff ∧ 128 ≤ c.toNat))

/-- The concatenation of encodings of the members of a list. -/
def Concat {α : Type} (P : α → Bytes → Prop) : List α → Bytes → Prop
  | [], bs => bs = []
  | a :: rest, bs => ∃ x y, P a x ∧ Concat P rest y ∧ bs = x ++ y

/-- X.690 8.19: the content octets of an object identifier. -/
def OidContent (arcs : List Nat) (content : Bytes) : Prop :=
  ∃ a b more, arcs = a :: b :: more ∧ a ≤ 2 ∧ (a < 2 → b < 40) ∧ Concat Base128 ((a * 40 + b) :: more) content

/-- No component of the object identifier needs more than 31 bits. -/
def OidFits : List Nat → Prop
  | a :: b :: more => a * 40 + b < 2147483648 ∧ ∀ n ∈ more, n < 2147483648
  | _ => True

/-- RFC 5280 4.1: an extension of a CRL entry: identifier, critical flag if one is encoded, value. -/
structure Ext where
  oid : List Nat
  critical : Option Bool
  value : Bytes

/-- The optional critical flag. -/
def CriticalBytes : Option Bool → Bytes → Prop
  | none, bs => bs = []
  | some c, bs => Element 0 1 false [if c then 0xff else 0] bs

/-- RFC 5280 4.1: `Extension ::= SEQUENCE { extnID OBJECT IDENTIFIER, critical BOOLEAN DEFAULT FALSE, extnValue OCTET STRING }`. -/
def ExtBytes (e : Ext) (whole : Bytes) : Prop :=
  ∃ c o cr v, OidContent e.oid c ∧ Element 0 6 false c o ∧ CriticalBytes e.critical cr ∧ Element 0 4 false e.value v ∧
    Element 0 16 true (o ++ cr ++ v) whole

/-- An optional `SEQUENCE OF`. -/
def OptionalSeq {α : Type} (P : α → Bytes → Prop) (l : List α) (bs : Bytes) : Prop :=
  (l = [] ∧ bs = []) ∨ ∃ body, Concat P l body ∧ Element 0 16 true body bs

/-- `Time ::= CHOICE { UTCTime, GeneralizedTime }` with a content that is a time. -/
def TimeBytes (timeOk : Bool → Bytes → Bool) (bs : Bytes) : Prop :=
  ∃ g c, timeOk g c = true ∧ Element 0 (if g then 24 else 23) false c bs

/-- An entry of a CRL: the content octets of the serial number and the extensions. -/
structure Revoked where
  serial : Bytes
  exts : List Ext

/-- RFC 5280 5.1: `SEQUENCE { userCertificate INTEGER, revocationDate Time, crlEntryExtensions Extensions OPTIONAL }`. -/
def RevokedBytes (timeOk : Bool → Bytes → Bool) (r : Revoked) (whole : Bytes) : Prop :=
  ∃ s t x, Element 0 2 false r.serial s ∧ TimeBytes timeOk t ∧ OptionalSeq ExtBytes r.exts x ∧
    Element 0 16 true (s ++ t ++ x) whole

/-- RFC 5280 5.1: `TBSCertList`. The signature algorithm, the name of the issuer and the CRL extensions may have any content. -/
def CrlBytes (timeOk : Bool → Bytes → Bool) (rs : List Revoked) (whole : Bytes) : Prop :=
  ∃ v sg nm t1 t2 rv ex : Bytes,
    (v = [] ∨ Element 0 2 false [1] v) ∧ (∃ c, Element 0 16 true c sg) ∧ (∃ c, Element 0 16 true c nm) ∧
    TimeBytes timeOk t1 ∧ (t2 = [] ∨ TimeBytes timeOk t2) ∧ OptionalSeq (RevokedBytes timeOk) rs rv ∧
    (ex = [] ∨ ∃ c, Element 2 0 true c ex) ∧
    Element 0 16 true (v ++ sg ++ nm ++ t1 ++ t2 ++ rv ++ ex) whole

/-- RFC 5280 4.1: the start of `TBSCertificate`: an optional explicit version, the serial number, and anything after it. -/
def CertBytes (serial : Bytes) (whole : Bytes) : Prop :=
  ∃ v s more : Bytes, (v = [] ∨ ∃ w, Element 0 2 false [2] w ∧ Element 2 0 true w v) ∧ Element 0 2 false serial s ∧ serial ≠ [] ∧
    Element 0 16 true (v ++ s ++ more) whole

/-- The value of an extension starts with the ENUMERATED `v`. -/
def EnumValue (v : Int) (value : Bytes) : Prop :=
  ∃ c e more, TwosComplement v c ∧ Element 0 10 false c e ∧ value = e ++ more

/-- RFC 5280 5.3.1: the reason of an entry is 0 without a CRLReason extension, otherwise the value of the only one. -/
def EntryReason (exts : List Ext) (code : Nat) : Prop :=
  ((∀ e ∈ exts, e.oid ≠ [2, 5, 29, 21]) ∧ code = 0) ∨
  (∃ pre e post, exts = pre ++ e :: post ∧ e.oid = [2, 5, 29, 21] ∧ (∀ x ∈ pre ++ post, x.oid ≠ [2, 5, 29, 21]) ∧
    EnumValue code e.value)

end Verif.Spec
