import Verif.Model.Client
import Verif.Model.Leaf
/-!
How rust-query-crlite reads a certificate (rust-query-crlite/src/main.rs:231-243, 351-385, 408-462, 568, 591). The work is done by
x509-parser 0.16 with der-parser 9 and asn1-rs (rust-query-crlite/Cargo.toml:13, 25); their sources are not in the repository, the
definitions follow their documented behaviour. Simplifications: tag numbers of 31 and above are not read, no field of a certificate
has one; where these libraries look at the number of a tag only, the class is looked at as well; the contents of algorithms, names,
validity, keys, unique identifiers and signatures are left to the parameters `X509World`.
-/
namespace Verif

/-- The length octets of an element, as asn1-rs reads them for DER: the short form, or the long form with a value below 2^64,
which need not be the shortest. The indefinite form and 0xff are errors. -/
def elemLen : Bytes → Option (Nat × Bytes)
  | [] => none
  | b :: rest =>
    if b.toNat < 128 then some (b.toNat, rest)
    else if b.toNat = 128 ∨ b.toNat = 255 then none
    else match readBE (b.toNat - 128) 0 rest with
      | none => none
      | some (n, rest) => if n < 2 ^ 64 then some (n, rest) else none

/-- One element: class, form, tag number and content. -/
structure Elem where
  cls : Nat
  constructed : Bool
  tag : Nat
  content : Bytes
deriving DecidableEq

/-- `Any::from_der` of asn1-rs: an element and the octets after it. -/
def elem : Bytes → Option (Elem × Bytes)
  | [] => none
  | b :: rest =>
    if b.toNat % 32 = 31 then none
    else match elemLen rest with
      | none => none
      | some (n, rest) =>
        match readN n rest with
        | none => none
        | some (c, rest) => some (⟨b.toNat / 64, decide (b.toNat / 32 % 2 = 1), b.toNat % 32, c⟩, rest)

/-- An element of a given kind: its content and the octets after it. -/
def expect (cls tag : Nat) (constructed : Bool) (bs : Bytes) : Option (Bytes × Bytes) :=
  match elem bs with
  | none => none
  | some (e, rest) => if e.cls = cls ∧ e.tag = tag ∧ e.constructed = constructed then some (e.content, rest) else none

/-- `OptTaggedParser` of asn1-rs: an element with this tag number, which must then be of the context class, or nothing. -/
def optTagged (tag : Nat) (bs : Bytes) : Option (Option Bytes × Bytes) :=
  if bs = [] then some (none, bs)
  else match elem bs with
    | none => none
    | some (e, rest) => if e.tag ≠ tag then some (none, bs) else if e.cls ≠ 2 then none else some (some e.content, rest)

/-- An extension of a certificate: the octets of the identifier and of the value. -/
structure CertExt where
  oid : Bytes
  value : Bytes
deriving DecidableEq

/-- The critical flag of an extension is optional and need not be in DER (`der_read_critical`). -/
def skipCritical (bs : Bytes) : Bytes :=
  match expect 0 1 false bs with
  | none => bs
  | some (c, rest) => if c.length = 1 then rest else bs

/-- The contents of one extension. -/
def readExt (bs : Bytes) : Option CertExt :=
  match expect 0 6 false bs with
  | none => none
  | some (oid, rest) => (expect 0 4 false (skipCritical rest)).map (fun p => ⟨oid, p.1⟩)

/-- The extensions of a certificate; all octets must be used. `fuel` is at least the number of octets. -/
def readExts : Nat → Bytes → Option (List CertExt)
  | _, [] => some []
  | 0, _ :: _ => none
  | fuel + 1, b :: bs =>
    match expect 0 16 true (b :: bs) with
    | none => none
    | some (c, rest) =>
      match readExt c, readExts fuel rest with
      | some e, some l => some (e :: l)
      | _, _ => none

/-- `parse_extensions` with the explicit tag 3: none at the end of the certificate, otherwise all that is left must be extensions. -/
def extField (bs : Bytes) : Option (List CertExt) :=
  if bs = [] then some []
  else match expect 2 3 true bs with
    | none => none
    | some (c, rest) =>
      match expect 0 16 true c with
      | none => none
      | some (l, rest2) => if rest = [] ∧ rest2 = [] then readExts l.length l else none

/-! ### the signed certificate timestamps -/

/-- One signed certificate timestamp, without its length: version, log, timestamp, extensions, two octets for the algorithm,
signature. Octets after the signature are not looked at. -/
def readSct : Bytes → Option (Bytes × Nat)
  | [] => none
  | _ :: b =>
    match readN 32 b with
    | none => none
    | some (id, b) =>
      match readBE 8 0 b with
      | none => none
      | some (ts, b) =>
        match readOpaque 2 0 b with
        | none => none
        | some (_, b) =>
          match readN 2 b with
          | none => none
          | some (_, b) => (readOpaque 2 0 b).map (fun _ => (id, ts))

/-- `many1(complete(…))`: timestamps are read up to the first that cannot be. `fuel` is at least the number of octets. -/
def sctLoop : Nat → Bytes → List (Bytes × Nat)
  | 0, _ => []
  | fuel + 1, b =>
    match readOpaque 2 0 b with
    | none => []
    | some (c, rest) =>
      match readSct c with
      | none => []
      | some s => s :: sctLoop fuel rest

/-- The value of the extension: an OCTET STRING with a list with its length. What cannot be read gives no timestamps, since
`parsed_extension` is then no `SCT` (main.rs:236-239). -/
def sctList (value : Bytes) : List (Bytes × Nat) :=
  match expect 0 4 false value with
  | none => []
  | some (c, _) =>
    match readOpaque 2 0 c with
    | none => []
    | some (l, _) => sctLoop l.length l

/-- `OID_SCT_EXTENSION` (main.rs:51): 1.3.6.1.4.1.11129.2.4.2 in octets. -/
def sctOid : Bytes := [0x2b, 0x06, 0x01, 0x04, 0x01, 0xd6, 0x79, 0x02, 0x04, 0x02]

/-- `get_sct_ids_and_timestamps` (main.rs:231-243): without the extension, or with several, there are none. -/
def certScts (exts : List CertExt) : List (Bytes × Nat) :=
  match exts.filter (fun e => decide (e.oid = sctOid)) with
  | [e] => sctList e.value
  | _ => []

/-! ### the certificate -/

/-- What is not modelled: whether the contents of a version, an algorithm, a name, a key, a unique identifier and a signature can be
read, and whether a validity can be read and is valid now (`validity.is_valid()`, main.rs:371). -/
structure X509World where
  versionOk : Bytes → Bool
  algOk : Bytes → Bool
  nameOk : Bytes → Bool
  validity : Bytes → Option Bool
  keyOk : Bytes → Bool
  uidOk : Bytes → Bool
  sigOk : Bytes → Bool

/-- An optional field with a check of its contents: the octets after it. -/
def optField (tag : Nat) (ok : Bytes → Bool) (bs : Bytes) : Option Bytes :=
  match optTagged tag bs with
  | none => none
  | some (none, rest) => some rest
  | some (some c, rest) => if ok c then some rest else none

/-- A sequence with a check of its contents: the octets after it. -/
def seqField (ok : Bytes → Bool) (bs : Bytes) : Option Bytes :=
  match expect 0 16 true bs with
  | none => none
  | some (c, rest) => if ok c then some rest else none

/-- The octets of `bs` up to `rest`. -/
def upTo (bs rest : Bytes) : Bytes := bs.take (bs.length - rest.length)

/-- What the program uses of a certificate: the names and the key with their headers, the content of the serial number, whether the
certificate is valid now, and the extensions. -/
structure ParsedCert where
  issuer : Bytes
  subject : Bytes
  spki : Bytes
  serial : Bytes
  valid : Bool
  exts : List CertExt
deriving DecidableEq

/-- The contents of a `TBSCertificate`. The serial number is kept as it stands (`raw_serial`, main.rs:352); it may be negative or
not the shortest. -/
def readTbs (X : X509World) (bs : Bytes) : Option ParsedCert :=
  (optField 0 X.versionOk bs).bind fun b1 =>
  (expect 0 2 false b1).bind fun s =>
  (seqField X.algOk s.2).bind fun b2 =>
  (seqField X.nameOk b2).bind fun b3 =>
  (expect 0 16 true b3).bind fun v =>
  (X.validity v.1).bind fun valid =>
  (seqField X.nameOk v.2).bind fun b4 =>
  (seqField X.keyOk b4).bind fun b5 =>
  (optField 1 X.uidOk b5).bind fun b6 =>
  (optField 2 X.uidOk b6).bind fun b7 =>
  (extField b7).map fun exts => ⟨upTo b2 b3, upTo v.2 b4, upTo b4 b5, s.1, valid, exts⟩

/-- `X509Certificate::from_der` (main.rs:420, 453, 568, 591). Octets after the certificate are not looked at. -/
def readCert (X : X509World) (der : Bytes) : Option ParsedCert :=
  (expect 0 16 true der).bind fun w =>
  (expect 0 16 true w.1).bind fun t =>
  (readTbs X t.1).bind fun cert =>
  (seqField X.algOk t.2).bind fun b =>
  (expect 0 3 false b).bind fun g =>
  if X.sigOk g.1 then some cert else none

/-- What `query` uses of a certificate (main.rs:351-381). -/
def readClient (X : X509World) (der : Bytes) : Option ClientCert :=
  (readCert X der).map fun c => ⟨c.issuer, c.serial, certScts c.exts, c.valid⟩

/-- What the program uses of the certificate of an issuer (main.rs:420-427, 448-458). -/
def readIssuer (X : X509World) (der : Bytes) : Option IssuerCert :=
  (readCert X der).map fun c => ⟨c.subject, c.spki⟩

end Verif
