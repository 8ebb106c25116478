import Verif.Model.Serial
import Verif.Model.Issuers
/-!
Textual armour ("PEM", RFC 7468): Go's `encoding/pem` as `CertificateToPEM` and `PEMToCertificate` use it (go/rootprogram/issuers.go:251-294), the Rust
crate `pem` 1 (rust-query-crlite/src/main.rs:405-425, 586-594), `asciiPemToBinaryDer` of the publisher (moz_kinto_publisher/main.py:167-174), and the
two places of aggregate-crls that accept armoured CRLs (go/cmd/aggregate-crls/aggregate-crls.go:180-256). A file is a text with one character per octet.
-/
namespace Verif

/-- The octets of a file as characters. -/
def octetText (bs : Bytes) : Text := bs.map (fun b => Char.ofNat b.toNat)

/-- `bytes.Cut` of Go and `read_until` of the crate: what is before and after the first occurrence. -/
def cutAt (pat : Text) : Text → Option (Text × Text)
  | [] => if pat = [] then some ([], []) else none
  | c :: t =>
    if pat.isPrefixOf (c :: t) then some ([], (c :: t).drop pat.length)
    else (cutAt pat t).map (fun p => (c :: p.1, p.2))

/-- `-----BEGIN `. -/
def pemBegin : Text := "-----BEGIN ".toList

/-- `-----END `. -/
def pemEnd : Text := "-----END ".toList

/-- `-----`. -/
def pemDashes : Text := "-----".toList

/-- Characters that `getLine` and `removeSpacesAndTabs` drop. -/
def isBlank (c : Char) : Bool := decide (c = ' ' ∨ c = '\t')

/-- `bytes.TrimRight(line, " \t")`. -/
def trimBlanks (t : Text) : Text := (t.reverse.dropWhile isBlank).reverse

/-- `getLine` of Go's `encoding/pem`: the first line without its end and trailing blanks, and the rest. -/
def pemLine (t : Text) : Text × Text :=
  match cutAt ['\n'] t with
  | none => (trimBlanks t, [])
  | some p => (trimBlanks (dropCR p.1), p.2)

/-- The search for the next block in `pem.Decode`: at the very start of the text, or after a newline. -/
def pemFind (t : Text) : Option Text :=
  if pemBegin.isPrefixOf t then some (t.drop pemBegin.length) else (cutAt ('\n' :: pemBegin) t).map Prod.snd

/-- The loop over header lines of `pem.Decode`; `none` if the text ends here, otherwise whether there were headers, and the rest. -/
def pemHeaders : Nat → Bool → Text → Option (Bool × Text)
  | 0, _, _ => none
  | n + 1, any, t =>
    if t = [] then none
    else if ':' ∈ (pemLine t).1 then pemHeaders n true (pemLine t).2
    else some (any, t)

/-- What is before and after the marker of the end of a block. -/
def pemSplit (any : Bool) (t : Text) : Option (Text × Text) :=
  if any = false ∧ pemEnd.isPrefixOf t = true then some ([], t.drop pemEnd.length) else cutAt ('\n' :: pemEnd) t

/-- Characters that are dropped before base64 is decoded: blanks by `removeSpacesAndTabs`, ends of lines by `base64.StdEncoding.Decode`. -/
def isSpacing (c : Char) : Bool := decide (c = ' ' ∨ c = '\t' ∨ c = '\r' ∨ c = '\n')

/-- The part of `pem.Decode` behind the headers: the octets of the block of type `label`. -/
def pemBody (label : Text) (any : Bool) (t : Text) : Option Bytes :=
  match pemSplit any t with
  | none => none
  | some p =>
    if (label ++ pemDashes).isPrefixOf p.2 = true ∧ (pemLine (p.2.drop (label ++ pemDashes).length)).1 = [] then
      b64Decode false (p.1.filter (fun c => !isSpacing c))
    else none

/-- The loop of `pem.Decode` (Go `encoding/pem`). -/
def pemLoop : Nat → Text → Option (Text × Bytes)
  | 0, _ => none
  | n + 1, t =>
    match pemFind t with
    | none => none
    | some u =>
      if pemDashes.isSuffixOf (pemLine u).1 then
        match pemHeaders ((pemLine u).2.length + 1) false (pemLine u).2 with
        | none => none
        | some h =>
          match pemBody ((pemLine u).1.take ((pemLine u).1.length - 5)) h.1 h.2 with
          | some bs => some ((pemLine u).1.take ((pemLine u).1.length - 5), bs)
          | none => pemLoop n h.2
      else pemLoop n (pemLine u).2

/-- `pem.Decode`: type and octets of the first block. -/
def pemDecode (t : Text) : Option (Text × Bytes) := pemLoop (t.length + 1) t

/-- The lines of 64 characters that `pem.Encode` writes. -/
def pemLines : Nat → Text → Text
  | 0, _ => []
  | n + 1, t => if t = [] then [] else t.take 64 ++ '\n' :: pemLines n (t.drop 64)

/-- `pem.EncodeToMemory` of a block without headers. -/
def pemEncode (label : Text) (bs : Bytes) : Text :=
  pemBegin ++ label ++ pemDashes ++ '\n' :: pemLines (b64Encode false bs).length (b64Encode false bs) ++ pemEnd ++ label ++ pemDashes ++ ['\n']

/-- ASCII white space. -/
def isAsciiSpace (c : Char) : Bool := decide (c = ' ' ∨ (9 ≤ c.toNat ∧ c.toNat ≤ 13))

/-- `CERTIFICATE`. -/
def certLabel : Text := "CERTIFICATE".toList

/-- `CertificateToPEM` (issuers.go:251-257) of the certificate with the octets `raw`. -/
def certificateToPem (raw : Bytes) : Text := trimBoth isAsciiSpace (pemEncode certLabel raw)

/-- `PEMToCertificate` (issuers.go:259-275) and `PEMToZcryptoCertificate` (277-293); `parse` is `ParseCertificate`. -/
def pemToCertificate {α : Type} (parse : Bytes → Option α) (t : Text) : Option α :=
  match pemDecode t with
  | none => none
  | some b => if b.1 = certLabel then parse b.2 else none

/-- `skip_whitespace` of the crate `pem`. -/
def skipSpacing (t : Text) : Text := t.dropWhile isSpacing

/-- `raw_data.lines().map(str::trim_end).collect()` of the crate. -/
def rustData (t : Text) : Text := ((splitLines t).map (fun l => (l.reverse.dropWhile isAsciiSpace).reverse)).flatten

/-- `Pem::new_from_captures` of the crate. Simplifications: octets outside ASCII are refused (the crate accepts them in tags and at the ends of lines, if
they are UTF-8), and base64 must be padded. -/
def rustBlock (tag data tagEnd : Text) : Option (Text × Bytes) :=
  if tag = [] ∨ tag ≠ tagEnd ∨ (tag ++ data).any (fun c => decide (128 ≤ c.toNat)) = true then none
  else (b64Decode false (rustData data)).map (fun bs => (tag, bs))

/-- `pem::parse` (rust-query-crlite/src/main.rs:410, 587) of the crate `pem` 1: the first begin marker anywhere, its tag, the text up to the next end
marker. -/
def rustPem (t : Text) : Option (Text × Bytes) :=
  match cutAt pemBegin t with
  | none => none
  | some p =>
    match cutAt pemDashes p.2 with
    | none => none
    | some q =>
      match cutAt pemEnd (skipSpacing q.2) with
      | none => none
      | some r =>
        match cutAt pemDashes r.2 with
        | none => none
        | some s => rustBlock q.1 r.1 s.1

/-- A character of base64 or its padding: what `base64.b64decode` does not discard. -/
def isB64 (c : Char) : Bool := (b64Val false c).isSome || decide (c = '=')

/-- `asciiPemToBinaryDer` (main.py:167-174); `none` is an exception. Simplification: text behind the padding is refused. -/
def asciiPemToDer (t : Text) : Option Bytes :=
  match cutAt (pemBegin ++ certLabel ++ pemDashes) t with
  | none => none
  | some p =>
    match cutAt (pemEnd ++ certLabel ++ pemDashes) p.2 with
    | none => none
    | some q => b64Decode false (q.1.filter isB64)

/-- `X509 CRL`. -/
def crlLabel : Text := "X509 CRL".toList

/-- The octets that `x509.ParseCRL` takes for the CRL (aggregate-crls.go:186): armour counts only if the file begins with it. -/
def crlOctets (f : Bytes) : Bytes :=
  if (pemBegin ++ crlLabel).isPrefixOf (octetText f) then
    match pemDecode (octetText f) with
    | none => f
    | some b => if b.1 = crlLabel then b.2 else f
  else f

/-- The octets whose distribution point is checked (`loadAndCheckIssuingDistributionPointOfCRL`, aggregate-crls.go:211-224): the first block anywhere in
the file, of whatever type. -/
def idpOctets (f : Bytes) : Bytes :=
  match pemDecode (octetText f) with
  | none => f
  | some b => b.2

/-- The octets that `query_cert_pem_or_der_bytes` (rust-query-crlite/src/main.rs:586-594) takes for the certificate. -/
def queryOctets (f : Bytes) : Bytes :=
  match rustPem (octetText f) with
  | none => f
  | some b => b.2

end Verif
