import Verif.Model.Query
import Verif.Spec.Pem
/-!
Specification for C107: which certificates a query is about, and what its exit status should say.
-/
namespace Verif.Spec

variable {F : Type}

/-- The loaded filters say that the certificate is revoked: its issuer is enrolled, it is valid now, and some filter has it as revoked. -/
def SaysRevoked (W : QueryWorld F) (db : LoadedDb F) (der : Bytes) (c : ClientCert) : Prop :=
  ∃ spki, lookupSpki W.parseIssuer (W.verifies der) db.inters c.issuerDN = some spki ∧ c.valid = true ∧ ∃ f ∈ db.filters, W.has f (W.sha spki) c.serial c.scts = .revoked

/-- The octets are a certificate that is known to be revoked. -/
def RevokedCert (W : QueryWorld F) (db : LoadedDb F) (der : Bytes) : Prop := ∃ c, W.parse der = some c ∧ SaysRevoked W db der c

/-- Text before an armour: none, or lines without a marker. -/
def Intro (x : Text) : Prop := x = [] ∨ ∃ y, x = y ++ ['\n'] ∧ ¬ HasMarker y

/-- The octets begin, after a text without marker, with the armour of `der`; `post` follows. -/
def ArmouredFirst (input der : Bytes) (post : Text) : Prop := ∃ x l a, Intro x ∧ Armour l der a ∧ octetText input = x ++ a ++ post

/-- The contents of a file are one certificate `der`: plainly, or in one armour with any text before and after. -/
def FileHolds (input der : Bytes) : Prop := (¬ HasMarker (octetText input) ∧ der = input) ∨ ∃ post, ArmouredFirst input der post ∧ ¬ HasMarker post

/-- `host` or `host:port`; the port is a decimal number, possibly with a plus sign, of at most 65535. -/
def HostPort (h host : Text) (port : Nat) : Prop :=
  (':' ∉ h ∧ host = h ∧ port = 443) ∨
  ∃ p ds, h = host ++ ':' :: p ∧ ':' ∉ p ∧ (p = ds ∨ p = '+' :: ds) ∧ ds ≠ [] ∧ (∀ c ∈ ds, '0' ≤ c ∧ c ≤ '9') ∧ ds.foldl (fun a c => 10 * a + (c.toNat - 48)) 0 = port ∧ port < 65536

/-- The attempt gives the certificate `der`. -/
def Reached (W : QueryWorld F) (k : Nat) (host addr : Text) (i : Nat) (der : Bytes) : Prop := W.connect k host addr i = some der ∧ ∃ c, W.parse der = some c

/-- The certificate that the `k`th host `h` is judged by: that of the first successful one of the attempts, two for each of its addresses. -/
def Served (W : QueryWorld F) (k : Nat) (h : Text) (der : Bytes) : Prop :=
  ∃ host port before a after, HostPort h host port ∧ W.resolve k host port = some (before ++ a :: after) ∧ (∀ b ∈ before, ∀ i, i < 2 → ∀ d, ¬ Reached W k host b i d) ∧
    (Reached W k host a 0 der ∨ (∀ d, ¬ Reached W k host a 0 d) ∧ Reached W k host a 1 der)

/-- The characters with the property `White_Space` of Unicode, which are what `str::trim` understands as white space. -/
def whiteSpace : List Nat :=
  [0x9, 0xa, 0xb, 0xc, 0xd, 0x20, 0x85, 0xa0, 0x1680, 0x2000, 0x2001, 0x2002, 0x2003, 0x2004, 0x2005, 0x2006, 0x2007, 0x2008, 0x2009, 0x200a, 0x2028, 0x2029, 0x202f, 0x205f, 0x3000]

/-- White space, or nothing. -/
def Blank (t : Text) : Prop := ∀ c ∈ t, c.toNat ∈ whiteSpace

/-- One line of a hosts file, without its end: a host with white space around it, or white space, or a comment. -/
inductive HostLine : Option Text → Text → Prop
  | host (a h b : Text) : Blank a → Blank b → h ≠ [] → (∀ c ∈ h, c.toNat ∉ whiteSpace) → h.head? ≠ some '#' → HostLine (some h) (a ++ h ++ b)
  | blank (a : Text) : Blank a → HostLine none a
  | comment (a c : Text) : Blank a → HostLine none (a ++ '#' :: c)

/-- A hosts file: lines, each with its end, which the last may lack. -/
inductive HostFile : List Text → Text → Prop
  | done : HostFile [] []
  | last (o : Option Text) (l : Text) : HostLine o l → '\n' ∉ l → HostFile o.toList l
  | line (o : Option Text) (l : Text) (hs : List Text) (t : Text) : HostLine o l → '\n' ∉ l → HostFile hs t → HostFile (o.toList ++ hs) (l ++ '\n' :: t)

/-- The program gets as far as its subcommand, with the database `db`. -/
def Ready (W : QueryWorld F) (update : Option Instance) (chan : ClientChannel) (fs : Files) (db : LoadedDb F) : Prop :=
  W.dirOk = true ∧ ∃ fs1 fs2, (update = none ∧ fs1 = fs ∨ ∃ inst, update = some inst ∧ W.update inst chan fs = (true, fs1)) ∧ W.load fs1 = (some db, fs2)

/-- The host of the attachments and that of the collections of an instance; the development instance is the staging one. -/
def instanceHosts : Instance → Text × Text
  | .prod => ("firefox-settings-attachments.cdn.mozilla.net".toList, "firefox.settings.services.mozilla.com".toList)
  | _ => ("firefox-settings-attachments.cdn.allizom.org".toList, "firefox.settings.services.allizom.org".toList)

/-- Where an instance has the list of filters. -/
def recordsAt (inst : Instance) : Text := "https://".toList ++ (instanceHosts inst).2 ++ "/v1/buckets/security-state-staging/collections/cert-revocations/records".toList

/-- Where an instance has the attachment of a record. -/
def attachmentAt (inst : Instance) (location : Text) : Text := "https://".toList ++ (instanceHosts inst).1 ++ '/' :: location

end Verif.Spec
