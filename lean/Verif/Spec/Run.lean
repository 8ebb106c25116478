import Verif.Model.SerialFile
import Verif.Model.Filter
import Verif.Props.Data
/-!
The input of a run of the filter builder, as the Go programs write it: for each issuer the known serials by expiry and, if aggregate-crls wrote a file, the revoked serials with reasons.
-/
namespace Verif.Spec
open Verif.Props

structure RunIssuer where
  /-- SHA-256 of the issuer's public key -/
  digest : Bytes
  known : List (Nat × List Serial)
  revoked : Option (List (Serial × UInt8))

abbrev RunInput := List RunIssuer

/-- The text of a known file, as aggregate-known writes it (C44). -/
def RunIssuer.knownText (i : RunIssuer) : Text := (i.known.map (fun b => writeSerialList (b.1 : Int) b.2)).flatten

/-- The known directory. -/
def knownDir (w : RunInput) : Dir := w.map (fun i => (issuerID i.digest, i.knownText))

/-- The revoked file of an issuer, as aggregate-crls writes it (C46). -/
def RunIssuer.revokedText (i : RunIssuer) : Option Text := i.revoked.map storeRevokedCertificateList

/-- The revoked directory: also files of issuers without a known file. -/
def revokedDir (w : RunInput) (extra : Dir) : Dir := (w.filterMap (fun i => i.revokedText.map (fun t => (issuerID i.digest, t)))) ++ extra

/-- What holds of the Go programs' output: 32-byte digests, one file per issuer, expiries of 64 bits; the extra revoked files are of other issuers. -/
def GoodInput (w : RunInput) (extra : Dir) : Prop :=
  (w.map RunIssuer.digest).Nodup ∧ (∀ i ∈ w, i.digest.length = 32 ∧ ∀ b ∈ i.known, b.1 < 2 ^ 64) ∧ ∀ e ∈ extra, ∀ i ∈ w, e.1 ≠ issuerID i.digest

/-- The certificate with issuer `d` and serial `s` is known. -/
def KnownIn (w : RunInput) (d : Bytes) (s : Serial) : Prop := ∃ i ∈ w, i.digest = d ∧ ∃ b ∈ i.known, s ∈ b.2

/-- It is revoked with a reason of the set. -/
def RevokedIn (rs : ReasonSet) (w : RunInput) (d : Bytes) (s : Serial) : Prop :=
  ∃ i ∈ w, i.digest = d ∧ ∃ l, i.revoked = some l ∧ ∃ c, (s, c) ∈ l ∧ codesOf rs c.toNat

/-- The number of known entries, repeats counted. -/
def RunIssuer.size (i : RunIssuer) : Nat := (i.known.map (fun b => b.2.length)).sum

end Verif.Spec
