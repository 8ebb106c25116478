import Verif.Model.Client
import Verif.Model.Filter
/-!
The answer of a clubcard to the client. The library clubcard-crlite is not part of the repository; what is modelled here is what its callers say of it: a filter carries the coverage read from ct-logs.json
(rust-create-cascade/src/clubcard_helper.rs:150-152, 161) and answers NotCovered, NotEnrolled, Good or Revoked (rust-query-crlite/src/main.rs:266-283).
-/
namespace Verif

/-- The covered timestamps of each log: the first and the last, from `CRLiteCoverage::from_mozilla_ct_logs_json`. The last one is the coverage cutoff of go/types.go:166-175. -/
abbrev Coverage := Bytes → Option (Nat × Nat)

/-- One SCT is covered. -/
def sctCovered (cov : Coverage) (sct : Bytes × Nat) : Bool :=
  match cov sct.1 with
  | none => false
  | some r => decide (r.1 ≤ sct.2 ∧ sct.2 ≤ r.2)

/-- A filter with its coverage. -/
structure Card (F : Type) where
  filter : F
  coverage : Coverage

/-- `Filter::has` (rust-query-crlite/src/main.rs:266-283) with `clubcard.contains`: NotCovered unless some SCT is covered, NotEnrolled unless the filter was built with the issuer, and else what the filter says. -/
def cardHas {F : Type} (enrolls : F → Bytes → Bool) (contains : F → Bytes → Bool) (f : Card F) (d s : Bytes) (scts : List (Bytes × Nat)) : QStatus :=
  if scts.any (sctCovered f.coverage) then
    if enrolls f.filter d then
      if contains f.filter (crliteKey d s) then .revoked else .good
    else .notEnrolled
  else .notCovered

end Verif
