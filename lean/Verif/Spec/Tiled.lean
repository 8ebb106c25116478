import Verif.Model.Tiled
/-! What is expected of following a tiled log, stated without the functions of `Verif.Model.Tiled`. -/
namespace Verif.Spec
open Verif

/-- `c` is the certificate with the given fingerprint. -/
def HasFingerprint (H : Bytes → Bytes) (pc : Bytes → Option Cert) (fp : Bytes) (c : Cert) : Prop := ∃ d, H d = fp ∧ pc d = some c

/-- The certificate of an entry: the certificate of an ordinary entry, or the precertificate. -/
def EntryCert (pc : Bytes → Option Cert) (e : SunEntry) (c : Cert) : Prop :=
  (∃ x, e.body = .x509 x ∧ pc x = some c) ∨ (∃ k t, e.body = .precert k t ∧ pc e.precert = some c)

/-- `i` is the issuer that the chain of an entry names, where `R` says which certificate is the one with a given fingerprint: the first
certificate of the chain, or the second if the first is a precertificate signing certificate. -/
def ChainIssuer (R : Bytes → Cert → Prop) (chain : List Bytes) (i : Cert) : Prop :=
  (∃ f rest, chain = f :: rest ∧ R f i ∧ i.preIssuer = false) ∨
  (∃ f g rest p, chain = f :: g :: rest ∧ R f p ∧ p.preIssuer = true ∧ R g i)

/-- The item is the record of the entry. -/
def RecordOf (pc : Bytes → Option Cert) (R : Bytes → Cert → Prop) (e : SunEntry) (item : Item) : Prop :=
  ∃ c i, EntryCert pc e c ∧ ChainIssuer R e.chain i ∧
    item.serial = c.serial ∧ item.notAfter = c.notAfter ∧ item.issuerKey = i.key ∧ item.timestamp = e.timestamp

/-- The entries are consecutive entries of the log, from the given index on. -/
def Consecutive (content : Nat → SunEntry) (start : Nat) (es : List (SunEntry × Nat)) : Prop :=
  ∀ n e t, es[n]? = some (e, t) → e = content (start + n)

/-- Where the iterator stops in a tree of `n` leaves: before the last, incomplete tile of 256 entries, unless it begins in that tile. -/
def tileStop (n start : Nat) : Nat := if start < n / 256 * 256 then n / 256 * 256 else n

/-- The iterator yields all the entries that it should. -/
def AllYielded (content : Nat → SunEntry) (n start : Nat) (es : List (SunEntry × Nat)) : Prop :=
  Consecutive content start es ∧ es.length = tileStop n start - start

/-- An entry that a log may contain: its certificate can be parsed, and so can whatever has a fingerprint named in its chain; a
precertificate signing certificate is never the last of a chain. -/
def ProperEntry (H : Bytes → Bytes) (pc : Bytes → Option Cert) (e : SunEntry) : Prop :=
  (∃ c, EntryCert pc e c) ∧ (∀ fp ∈ e.chain, ∀ d, H d = fp → pc d ≠ none) ∧
  ∀ fp, e.chain = [fp] → ∀ c, HasFingerprint H pc fp c → c.preIssuer = false

/-- The log answers requests for an issuer with what has the fingerprint, or not at all. -/
def HonestAnswers (H : Bytes → Bytes) (w : TNet) : Prop := ∀ n fp d, w.ask n fp = some d → H d = fp

end Verif.Spec
