import Verif.Model.X509
import Verif.Spec.Der
/-!
Certificates after RFC 5280 4.1 and signed certificate timestamps after RFC 6962 3.2 and 3.3, as relations between values and octets.
Only the parameters of `X509World` are shared with the reader: they say what is acceptable inside the fields that are not looked at.
-/
namespace Verif.Spec

/-- RFC 5246 4.4: a number in `n` octets. -/
def TlsNum (n v : Nat) (bs : Bytes) : Prop := bs.length = n ∧ numB 256 (bs.map UInt8.toNat) = v

/-- RFC 5246 4.3: a vector with `n` octets of length. -/
def TlsVector (n : Nat) (body bs : Bytes) : Prop := ∃ l, TlsNum n body.length l ∧ bs = l ++ body

/-- RFC 6962 3.2: `SignedCertificateTimestamp` of the log `s.1` with the timestamp `s.2`. -/
def SctBytes (s : Bytes × Nat) (bs : Bytes) : Prop :=
  s.1.length = 32 ∧ ∃ (v h g : UInt8) (t e x y z : Bytes), TlsNum 8 s.2 t ∧ TlsVector 2 e x ∧ TlsVector 2 y z ∧ bs = v :: (s.1 ++ (t ++ (x ++ (h :: g :: z))))

/-- RFC 6962 3.3: `SerializedSCT`. -/
def SerializedSct (s : Bytes × Nat) (bs : Bytes) : Prop := ∃ c, SctBytes s c ∧ TlsVector 2 c bs

/-- RFC 6962 3.3: the value of the extension, an OCTET STRING with a `SignedCertificateTimestampList`. -/
def SctValue (l : List (Bytes × Nat)) (value : Bytes) : Prop :=
  ∃ body inner, Concat SerializedSct l body ∧ TlsVector 2 body inner ∧ Element 0 4 false inner value

/-- RFC 6962 3.3: the identifier of the extension. -/
def sctArcs : List Nat := [1, 3, 6, 1, 4, 1, 11129, 2, 4, 2]

/-- The extensions of a certificate give the timestamps `l`: there is no such extension, or one with these. -/
def ExtScts (exts : List Ext) (l : List (Bytes × Nat)) : Prop :=
  ((∀ e ∈ exts, e.oid ≠ sctArcs) ∧ l = []) ∨
  (∃ pre e post, exts = pre ++ e :: post ∧ e.oid = sctArcs ∧ (∀ x ∈ pre ++ post, x.oid ≠ sctArcs) ∧ SctValue l e.value)

/-- The extensions as written and as read. -/
inductive ExtsMatch : List Ext → List CertExt → Prop
  | nil : ExtsMatch [] []
  | cons (e : Ext) (x : CertExt) (es : List Ext) (xs : List CertExt) : OidContent e.oid x.oid → x.value = e.value → ExtsMatch es xs → ExtsMatch (e :: es) (x :: xs)

/-- The fields of a certificate; the names and the key are whole elements. -/
structure CertFields where
  serial : Bytes
  issuer : Bytes
  valid : Bool
  subject : Bytes
  spki : Bytes
  exts : List Ext

/-- An optional unique identifier. -/
def UidBytes (X : X509World) (tag : Nat) (bs : Bytes) : Prop := bs = [] ∨ ∃ c f, X.uidOk c = true ∧ Element 2 tag f c bs

/-- RFC 5280 4.1: the extensions, if any. -/
def ExtensionsBytes (exts : List Ext) (bs : Bytes) : Prop :=
  (exts = [] ∧ bs = []) ∨ ∃ body inner, Concat ExtBytes exts body ∧ Element 0 16 true body inner ∧ Element 2 3 true inner bs

/-- RFC 5280 4.1: `TBSCertificate`. -/
def TbsBytes (X : X509World) (f : CertFields) (whole : Bytes) : Prop :=
  ∃ v s ac a nc vc va sc kc u1 u2 ex : Bytes,
    (v = [] ∨ ∃ w, Element 0 2 false [2] w ∧ Element 2 0 true w v ∧ X.versionOk w = true) ∧ f.serial ≠ [] ∧ Element 0 2 false f.serial s ∧
    Element 0 16 true ac a ∧ X.algOk ac = true ∧ Element 0 16 true nc f.issuer ∧ X.nameOk nc = true ∧
    Element 0 16 true vc va ∧ X.validity vc = some f.valid ∧ Element 0 16 true sc f.subject ∧ X.nameOk sc = true ∧
    Element 0 16 true kc f.spki ∧ X.keyOk kc = true ∧ UidBytes X 1 u1 ∧ UidBytes X 2 u2 ∧ ExtensionsBytes f.exts ex ∧
    Element 0 16 true (v ++ (s ++ (a ++ (f.issuer ++ (va ++ (f.subject ++ (f.spki ++ (u1 ++ (u2 ++ ex))))))))) whole

/-- RFC 5280 4.1: `Certificate`, with the octets `tbs` to be signed. -/
def CertificateBytes (X : X509World) (f : CertFields) (tbs whole : Bytes) : Prop :=
  ∃ ac a gc g : Bytes, TbsBytes X f tbs ∧ Element 0 16 true ac a ∧ X.algOk ac = true ∧ Element 0 3 false gc g ∧ X.sigOk gc = true ∧
    Element 0 16 true (tbs ++ (a ++ g)) whole

/-- The octets begin with a version that is not in a constructed element. -/
def PrimitiveVersion (bs : Bytes) : Prop := ∃ c w rest, c ≠ [] ∧ Element 2 0 false c w ∧ bs = w ++ rest

/-- Some octets that begin with a timestamp that can be read; octets after its signature are not looked at. -/
def LooseSct (s : Bytes × Nat) (bs : Bytes) : Prop := ∃ c p q, TlsVector 2 c bs ∧ c = p ++ q ∧ SctBytes s p

/-- No timestamp can be read from the start of these octets. -/
def NoSct (bs : Bytes) : Prop := ∀ s p q, bs = p ++ q → ¬ LooseSct s p

/-! What the query program accepts: as RFC 5280, but the lengths need not be the shortest, octets may follow inside some sequences, and object identifiers are not looked at. -/

/-- The short form, or the long form with at most 126 octets and a value below 2^64. -/
def LooseLength (n : Nat) (ls : Bytes) : Prop :=
  (n < 128 ∧ ∃ b, ls = [b] ∧ b.toNat = n) ∨ ∃ k ds, ls = k :: ds ∧ 0 < ds.length ∧ ds.length < 127 ∧ k.toNat = 128 + ds.length ∧ numB 256 (ds.map UInt8.toNat) = n ∧ n < 2 ^ 64

/-- An element with one octet for class, form and tag number. -/
def LooseElement (cls tag : Nat) (constructed : Bool) (content whole : Bytes) : Prop :=
  cls < 4 ∧ tag < 31 ∧ ∃ b ls, b.toNat = cls * 64 + (if constructed then 32 else 0) + tag ∧ LooseLength content.length ls ∧ whole = b :: (ls ++ content)

/-- An extension: identifier, perhaps a flag, value. -/
def LooseExt (x : CertExt) (whole : Bytes) : Prop :=
  ∃ o cr v more, LooseElement 0 6 false x.oid o ∧ (cr = [] ∨ ∃ b, LooseElement 0 1 false [b] cr) ∧ LooseElement 0 4 false x.value v ∧ LooseElement 0 16 true (o ++ (cr ++ (v ++ more))) whole

/-- The extensions, to the end of the certificate, if any. -/
def LooseExtensions (xs : List CertExt) (bs : Bytes) : Prop :=
  (xs = [] ∧ bs = []) ∨ ∃ body inner, Concat LooseExt xs body ∧ LooseElement 0 16 true body inner ∧ LooseElement 2 3 true inner bs

/-- A sequence with an acceptable content. -/
def LooseSeq (ok : Bytes → Bool) (bs : Bytes) : Prop := ∃ c, LooseElement 0 16 true c bs ∧ ok c = true

/-- An optional element of the context class with an acceptable content. -/
def LooseOpt (tag : Nat) (ok : Bytes → Bool) (bs : Bytes) : Prop := bs = [] ∨ ∃ c f, LooseElement 2 tag f c bs ∧ ok c = true

/-- A certificate with the fields `p`; `more` follows. -/
def LooseCertificate (X : X509World) (p : ParsedCert) (whole : Bytes) : Prop :=
  ∃ tbs a g gc extra v s alg vc va u1 u2 ex : Bytes,
    LooseElement 0 16 true (tbs ++ (a ++ (g ++ extra))) whole ∧ LooseSeq X.algOk a ∧ LooseElement 0 3 false gc g ∧ X.sigOk gc = true ∧
    LooseElement 0 16 true (v ++ (s ++ (alg ++ (p.issuer ++ (va ++ (p.subject ++ (p.spki ++ (u1 ++ (u2 ++ ex))))))))) tbs ∧
    LooseOpt 0 X.versionOk v ∧ LooseElement 0 2 false p.serial s ∧ LooseSeq X.algOk alg ∧ LooseSeq X.nameOk p.issuer ∧ LooseElement 0 16 true vc va ∧ X.validity vc = some p.valid ∧
    LooseSeq X.nameOk p.subject ∧ LooseSeq X.keyOk p.spki ∧ LooseOpt 1 X.uidOk u1 ∧ LooseOpt 2 X.uidOk u2 ∧ LooseExtensions p.exts ex

end Verif.Spec
