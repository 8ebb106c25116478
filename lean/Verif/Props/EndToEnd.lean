import Verif.Model.EndToEnd
import Verif.Props.Delta
import Verif.Props.Client
/-!
Property C74: from the inputs of a sequence of runs to the client's answer.
-/
namespace Verif.Props
open Verif.Spec

/-- Some SCT of the certificate has a timestamp in the covered range of its log. -/
def Covers (cov : Coverage) (scts : List (Bytes × Nat)) : Prop := ∃ t ∈ scts, ∃ lo hi, cov t.1 = some (lo, hi) ∧ lo ≤ t.2 ∧ t.2 ≤ hi

theorem covers_iff (cov : Coverage) (scts : List (Bytes × Nat)) : scts.any (sctCovered cov) = true ↔ Covers cov scts := by
  rw [List.any_eq_true]
  unfold Covers
  refine exists_congr (fun t => and_congr_right (fun _ => ?_))
  unfold sctCovered
  cases h : cov t.1 with
  | none => simp
  | some r =>
    obtain ⟨lo, hi⟩ := r
    dsimp only
    rw [decide_eq_true_iff]
    constructor
    · intro h; exact ⟨lo, hi, rfl, h⟩
    · rintro ⟨a, b, e, h⟩
      cases e
      exact h

/-- What is assumed of the filter library: a filter enrolls the issuers it was built with. (That filters answer exactly on the certificates they were built with need not be assumed: C56.) -/
def EnrollsInput {F : Type} (build : List Bytes → List (Bytes × Bool) → Option F) (enrolls : F → Bytes → Bool) : Prop :=
  ∀ inc st f, build inc st = some f → ∀ d s b, d.length = 32 → (crliteKey d s, b) ∈ st → enrolls f d = true

theorem enrolls_known {F : Type} {build : List Bytes → List (Bytes × Bool) → Option F} {contains : F → Bytes → Bool} {enrolls : F → Bytes → Bool} (he : EnrollsInput build enrolls) {rs : ReasonSet} {w : RunInput}
    {extra : Dir} (h : GoodInput w extra) {f : F} (hf : createClubcard build contains rs (revokedDir w extra) (knownDir w) = some f) {d : Bytes} {s : Serial} (hk : KnownIn w d s) : enrolls f d = true := by
  obtain ⟨st, h1, h2⟩ := C56_status rs w extra h
  obtain ⟨inc, h3, _⟩ := C56_included rs w extra h
  unfold createClubcard at hf
  rw [h3, h1] at hf
  dsimp only at hf
  split at hf
  · rename_i f' hb
    split at hf
    · cases hf
      by_cases hr : RevokedIn rs w d s
      · exact he _ _ _ hb d s true (knownIn_length h hk) ((h2 _ _).2 ⟨d, s, hk, rfl, ⟨fun _ => hr, fun _ => rfl⟩⟩)
      · exact he _ _ _ hb d s false (knownIn_length h hk) ((h2 _ _).2 ⟨d, s, hk, rfl, ⟨(fun e => by cases e), fun e => absurd e hr⟩⟩)
    · cases hf
  · cases hf

section
variable {F : Type} {build : List Bytes → List (Bytes × Bool) → Option F} {contains : F → Bytes → Bool} {order : List Text → List Text} {rs : ReasonSet}

theorem RunChain.enrolls_delta {enrolls : F → Bytes → Bool} (C : RunChain build contains order rs) (he : EnrollsInput build enrolls) {n : Nat} {d : Bytes} {s : Serial} (hk : KnownIn (C.W (n + 1)) d s) :
    enrolls (C.out (n + 1)).deltaFilter d = true := by
  obtain ⟨w', revset, h1, _, h3, h4, h5, _⟩ := C58_delta rs (some (C.out n).revset) (C.W (n + 1)) (C.X (n + 1)) (C.good (n + 1))
  obtain ⟨_, k2, _, k4⟩ := createRun_some (C.run n)
  rw [k2, Option.some.injEq, Prod.mk.injEq] at h1
  rw [h1.1, ← h3] at k4
  exact enrolls_known he h4 k4 ((h5 d s).2 hk)

theorem RunChain.enrolls_full {enrolls : F → Bytes → Bool} (C : RunChain build contains order rs) (he : EnrollsInput build enrolls) {d : Bytes} {s : Serial} (hk : KnownIn (C.W 0) d s) :
    enrolls (C.out 0).filter d = true := enrolls_known he (C.good 0) (createRun_some C.run0).1 hk

/-- What a client has after run `n`: the full filter of the first run and the deltas of the later ones, each with the coverage of its run. -/
def RunChain.cards (C : RunChain build contains order rs) (cov : Nat → Coverage) (n : Nat) : List (Card F) :=
  ⟨(C.out 0).filter, cov 0⟩ :: (List.range n).map (fun m => ⟨(C.out (m + 1)).deltaFilter, cov (m + 1)⟩)

theorem RunChain.mem_cards (C : RunChain build contains order rs) (cov : Nat → Coverage) (n : Nat) (f : Card F) :
    f ∈ C.cards cov n ↔ f = ⟨(C.out 0).filter, cov 0⟩ ∨ ∃ m, m < n ∧ f = ⟨(C.out (m + 1)).deltaFilter, cov (m + 1)⟩ := by
  unfold RunChain.cards
  rw [List.mem_cons, List.mem_map]
  refine or_congr Iff.rfl (exists_congr (fun m => ?_))
  rw [List.mem_range]
  exact and_congr_right (fun _ => eq_comm)

end

section
variable {F : Type} (build : List Bytes → List (Bytes × Bool) → Option F) (contains : F → Bytes → Bool) (enrolls : F → Bytes → Bool) (he : EnrollsInput build enrolls) (order : List Text → List Text) (rs : ReasonSet)
  (C : RunChain build contains order rs) (cov : Nat → Coverage) (sha : Bytes → Bytes) (parse : Bytes → Option IssuerCert) (verifies : Bytes → Bool) (inter : Intermediates)
include he

/-- **C74, Revoked.** Full statement: without `hcov`. Proved: for every sequence of runs, a certificate known and revoked in run `n`, valid now and with a known issuer, is answered Revoked from the filters of the
runs up to `n`, provided each of these runs that knew the certificate as revoked also covered one of its SCTs. Missing: the runs that knew it from a log that is not among its SCTs (`C74_known_elsewhere_fails`). -/
theorem C74_revoked_partial (n : Nat) (c : ClientCert) (spki : Bytes) (hl : lookupSpki parse verifies inter c.issuerDN = some spki) (hv : c.valid = true)
    (hk : KnownIn (C.W n) (sha spki) c.serial) (hr : RevokedIn rs (C.W n) (sha spki) c.serial) (hcov : ∀ m ≤ n, KnownIn (C.W m) (sha spki) c.serial → RevokedIn rs (C.W m) (sha spki) c.serial → Covers (cov m) c.scts) :
    clientQuery sha parse verifies (cardHas enrolls contains) (C.cards cov n) inter c = .revoked := by
  rw [C63_revoked_iff]
  refine ⟨spki, hl, hv, ?_⟩
  induction n with
  | zero =>
    refine ⟨⟨(C.out 0).filter, cov 0⟩, (C.mem_cards cov 0 _).2 (Or.inl rfl), ?_⟩
    unfold cardHas
    rw [if_pos ((covers_iff _ _).2 (hcov 0 (Nat.le_refl _) hk hr)), if_pos (C.enrolls_full he hk),
      if_pos ((C56_written_filter_exact build contains rs _ _ (C.good 0) _ (createRun_some C.run0).1 _ _ hk).2 hr)]
  | succ n ih =>
    by_cases hp : KnownIn (C.W n) (sha spki) c.serial ∧ RevokedIn rs (C.W n) (sha spki) c.serial
    · obtain ⟨f, hf, h⟩ := ih hp.1 hp.2 (fun m hm => hcov m (by omega))
      refine ⟨f, ?_, h⟩
      rw [C.mem_cards] at hf ⊢
      rcases hf with hf | ⟨m, hm, hf⟩
      · exact Or.inl hf
      · exact Or.inr ⟨m, by omega, hf⟩
    · refine ⟨⟨(C.out (n + 1)).deltaFilter, cov (n + 1)⟩, (C.mem_cards cov _ _).2 (Or.inr ⟨n, by omega, rfl⟩), ?_⟩
      unfold cardHas
      rw [if_pos ((covers_iff _ _).2 (hcov _ (Nat.le_refl _) hk hr)), if_pos (C.enrolls_delta he hk), if_pos ((C59_delta_filter build contains order rs C n _ _ hk).2 ⟨hr, hp⟩)]

/-- The answers of the single filters to a certificate never revoked up to run `n`. -/
theorem cardHas_never (n : Nat) (d s : Bytes) (scts : List (Bytes × Nat)) (hr : ∀ m ≤ n, ¬ RevokedIn rs (C.W m) d s) (hsure : ∀ m ≤ n, Covers (cov m) scts → KnownIn (C.W m) d s) (f : Card F)
    (hf : f ∈ C.cards cov n) : cardHas enrolls contains f d s scts = .good ∨ cardHas enrolls contains f d s scts = .notCovered := by
  by_cases hc : Covers f.coverage scts
  · left
    rcases (C.mem_cards cov n f).1 hf with rfl | ⟨m, hm, rfl⟩
    · have hk := hsure 0 (Nat.zero_le _) hc
      unfold cardHas
      rw [if_pos ((covers_iff _ _).2 hc), if_pos (C.enrolls_full he hk), if_neg]
      intro h
      exact hr 0 (Nat.zero_le _) ((C56_written_filter_exact build contains rs _ _ (C.good 0) _ (createRun_some C.run0).1 _ _ hk).1 h)
    · have hk := hsure (m + 1) hm hc
      unfold cardHas
      rw [if_pos ((covers_iff _ _).2 hc), if_pos (C.enrolls_delta he hk), if_neg]
      intro h
      exact hr (m + 1) hm ((C59_delta_filter build contains order rs C m _ _ hk).1 h).1
  · right
    unfold cardHas
    rw [if_neg (fun h => hc ((covers_iff _ _).1 h))]

/-- **C74, not Revoked.** For every sequence of runs: a certificate that was in no run revoked, and known in every run that covers one of its SCTs, is not answered Revoked; it is answered Good if some run covers it,
and else NotCovered. -/
theorem C74_not_revoked (n : Nat) (c : ClientCert) (spki : Bytes) (hl : lookupSpki parse verifies inter c.issuerDN = some spki) (hv : c.valid = true)
    (hr : ∀ m ≤ n, ¬ RevokedIn rs (C.W m) (sha spki) c.serial) (hsure : ∀ m ≤ n, Covers (cov m) c.scts → KnownIn (C.W m) (sha spki) c.serial) :
    clientQuery sha parse verifies (cardHas enrolls contains) (C.cards cov n) inter c ≠ .revoked ∧
    ((∃ m ≤ n, Covers (cov m) c.scts) → clientQuery sha parse verifies (cardHas enrolls contains) (C.cards cov n) inter c = .good) ∧
    ((∀ m ≤ n, ¬ Covers (cov m) c.scts) → clientQuery sha parse verifies (cardHas enrolls contains) (C.cards cov n) inter c = .notCovered) := by
  have key := cardHas_never build contains enrolls he order rs C cov n (sha spki) c.serial c.scts hr hsure
  have hans := ((C63_answers sha parse verifies (cardHas enrolls contains) (C.cards cov n) inter c).2 spki hl).2 hv
  have nrev : ¬ ∃ f ∈ C.cards cov n, cardHas enrolls contains f (sha spki) c.serial c.scts = .revoked := by
    rintro ⟨f, hf, h⟩
    rcases key f hf with h' | h' <;> rw [h'] at h <;> cases h
  have nenr : ¬ ∃ f ∈ C.cards cov n, cardHas enrolls contains f (sha spki) c.serial c.scts = .notEnrolled := by
    rintro ⟨f, hf, h⟩
    rcases key f hf with h' | h' <;> rw [h'] at h <;> cases h
  rw [hans]
  unfold precedence
  rw [if_neg nrev]
  refine ⟨?_, ?_, ?_⟩
  · split
    · intro h; cases h
    · intro h; cases h
  · rintro ⟨m, hm, hc⟩
    rw [if_pos]
    cases m with
    | zero =>
      refine ⟨⟨(C.out 0).filter, cov 0⟩, (C.mem_cards cov n _).2 (Or.inl rfl), ?_⟩
      rcases key _ ((C.mem_cards cov n _).2 (Or.inl rfl)) with h | h
      · exact h
      · unfold cardHas at h
        rw [if_pos ((covers_iff _ _).2 hc)] at h
        split at h
        · split at h <;> cases h
        · cases h
    | succ m =>
      have hmem := (C.mem_cards cov n ⟨(C.out (m + 1)).deltaFilter, cov (m + 1)⟩).2 (Or.inr ⟨m, hm, rfl⟩)
      refine ⟨_, hmem, ?_⟩
      rcases key _ hmem with h | h
      · exact h
      · unfold cardHas at h
        rw [if_pos ((covers_iff _ _).2 hc)] at h
        split at h
        · split at h <;> cases h
        · cases h
  · intro hc
    rw [if_neg, if_neg nenr]
    rintro ⟨f, hf, h⟩
    have hcf : ¬ Covers f.coverage c.scts := by
      rcases (C.mem_cards cov n f).1 hf with rfl | ⟨m, hm, rfl⟩
      · exact hc 0 (Nat.zero_le _)
      · exact hc (m + 1) hm
    unfold cardHas at h
    rw [if_neg (fun h => hcf ((covers_iff _ _).1 h))] at h
    cases h

omit he in
/-- **C74, a disagreement.** The revocation is in the delta of the first run that knows it, and never again. If that run knows the certificate only from a log that is not among its SCTs (or from a cache entry of the
old form without log and timestamp), so that its filter does not cover the certificate, then no later delta answers Revoked: for every sequence of runs, a certificate that becomes known and revoked together in run
`k + 1`, is uncovered up to that run and stays revoked, is never answered Revoked, however many deltas the client has, until the next full filter; and as soon as one of them covers it the answer is Good. The comment
in go/storage/types.go:89-93 says this of entries of the old form. -/
theorem C74_known_elsewhere_fails (k n : Nat) (c : ClientCert) (spki : Bytes) (hl : lookupSpki parse verifies inter c.issuerDN = some spki) (hv : c.valid = true) (he : EnrollsInput build enrolls)
    (hkn : ∀ m, k < m → KnownIn (C.W m) (sha spki) c.serial) (hrn : ∀ m, k < m → RevokedIn rs (C.W m) (sha spki) c.serial) (hcov : ∀ m ≤ k + 1, ¬ Covers (cov m) c.scts) :
    clientQuery sha parse verifies (cardHas enrolls contains) (C.cards cov n) inter c ≠ .revoked ∧
    ((∃ m ≤ n, Covers (cov m) c.scts) → clientQuery sha parse verifies (cardHas enrolls contains) (C.cards cov n) inter c = .good) := by
  have key : ∀ f ∈ C.cards cov n, cardHas enrolls contains f (sha spki) c.serial c.scts = if c.scts.any (sctCovered f.coverage) then .good else .notCovered := by
    intro f hf
    rcases (C.mem_cards cov n f).1 hf with rfl | ⟨m, hm, rfl⟩
    · have := hcov 0 (Nat.zero_le _)
      rw [← covers_iff] at this
      rw [if_neg this]
      unfold cardHas
      rw [if_neg this]
    · by_cases hmk : m ≤ k
      · have := hcov (m + 1) (by omega)
        rw [← covers_iff] at this
        rw [if_neg this]
        unfold cardHas
        rw [if_neg this]
      · have hk := hkn (m + 1) (by omega)
        have hno : ¬ contains (C.out (m + 1)).deltaFilter (crliteKey (sha spki) c.serial) = true := by
          rw [C59_delta_filter build contains order rs C m _ _ hk]
          exact fun h => h.2 ⟨hkn m (by omega), hrn m (by omega)⟩
        unfold cardHas
        split
        · rw [if_pos (C.enrolls_delta he hk)]
        · rfl
  have hans := ((C63_answers sha parse verifies (cardHas enrolls contains) (C.cards cov n) inter c).2 spki hl).2 hv
  have nrev : ¬ ∃ f ∈ C.cards cov n, cardHas enrolls contains f (sha spki) c.serial c.scts = .revoked := by
    rintro ⟨f, hf, h⟩
    rw [key f hf] at h
    split at h <;> cases h
  rw [hans]
  unfold precedence
  rw [if_neg nrev]
  constructor
  · intro h
    split at h
    · cases h
    · split at h <;> cases h
  · rintro ⟨m, hm, hc⟩
    rw [if_pos]
    cases m with
    | zero => exact absurd hc (hcov 0 (Nat.zero_le _))
    | succ m =>
      have hmem := (C.mem_cards cov n ⟨(C.out (m + 1)).deltaFilter, cov (m + 1)⟩).2 (Or.inr ⟨m, hm, rfl⟩)
      refine ⟨_, hmem, ?_⟩
      rw [key _ hmem, if_pos ((covers_iff _ _).2 hc)]

end

/-! #### examples -/

/-- The filters of the example library enroll one issuer. -/
def exEnrolls (_ : List Bytes) (d : Bytes) : Bool := decide (d.length = 32)

theorem exEnrolls_input : EnrollsInput exBuild exEnrolls := fun _ _ _ _ _ _ _ hd _ => decide_eq_true hd

/-- Log 1 is covered up to 1000. -/
def exCov (_ : Nat) : Coverage := fun l => if l = [1] then some (0, 1000) else none

/-- Log 1 is covered up to 1000, from the third run on up to 2000. -/
def exCovLate (m : Nat) : Coverage := fun l => if l = [1] then some (0, if m < 2 then 1000 else 2000) else none

def exClientCert (t : Nat) (s : Bytes) : ClientCert := ⟨[9], s, [([1], t)], true⟩

def exInter : Intermediates := [([9], [[5]])]

/-- The certificate with serial 2 is revoked from the second run on and is answered Revoked from then on. -/
example : clientQuery (fun _ => List.replicate 32 7) (fun d => some ⟨[9], d⟩) (fun _ => true) (cardHas exEnrolls exContains) (exChain.cards exCov 3) exInter (exClientCert 500 [2]) = .revoked :=
  C74_revoked_partial exBuild exContains exEnrolls exEnrolls_input (fun l => l) .all exChain exCov (fun _ => List.replicate 32 7) (fun d => some ⟨[9], d⟩) (fun _ => true) exInter 3 (exClientCert 500 [2]) [5]
    (by decide) rfl ⟨_, List.mem_singleton.2 rfl, rfl, _, List.mem_singleton.2 rfl, by decide⟩ ⟨_, List.mem_singleton.2 rfl, rfl, _, rfl, 4, by decide, trivial⟩
    (fun _ _ _ _ => ⟨([1], 500), List.mem_singleton.2 rfl, 0, 1000, if_pos rfl, by decide, by decide⟩)

example : clientQuery (fun _ => List.replicate 32 7) (fun d => some ⟨[9], d⟩) (fun _ => true) (cardHas exEnrolls exContains) (exChain.cards exCov 0) exInter (exClientCert 500 [2]) = .good ∧
    clientQuery (fun _ => List.replicate 32 7) (fun d => some ⟨[9], d⟩) (fun _ => true) (cardHas exEnrolls exContains) (exChain.cards exCov 1) exInter (exClientCert 500 [2]) = .revoked ∧
    clientQuery (fun _ => List.replicate 32 7) (fun d => some ⟨[9], d⟩) (fun _ => true) (cardHas exEnrolls exContains) (exChain.cards exCov 1) exInter (exClientCert 1500 [2]) = .notCovered := by decide +kernel

/-- The certificate with serial 2 is in the delta of the second run, which does not cover it; the third covers it. -/
example : clientQuery (fun _ => List.replicate 32 7) (fun d => some ⟨[9], d⟩) (fun _ => true) (cardHas exEnrolls exContains) (exChain.cards exCovLate 3) exInter (exClientCert 1500 [2]) = .good ∧
    KnownIn (exChain.W 3) (List.replicate 32 7) [2] ∧ RevokedIn .all (exChain.W 3) (List.replicate 32 7) [2] :=
  ⟨by decide +kernel, ⟨_, List.mem_singleton.2 rfl, rfl, _, List.mem_singleton.2 rfl, by decide⟩, ⟨_, List.mem_singleton.2 rfl, rfl, _, rfl, 4, by decide, trivial⟩⟩

/-- The certificate with serial 1 of another issuer's list, never revoked, known and covered. -/
example := C74_not_revoked exBuild exContains exEnrolls exEnrolls_input (fun l => l) .all exChain exCov (fun _ => List.replicate 32 7) (fun d => some ⟨[9], d⟩) (fun _ => true) exInter 0 (exClientCert 500 [2]) [5] (by decide) rfl
  (fun m hm => by
    obtain rfl : m = 0 := by omega
    rintro ⟨i, hi, _, l, hl, c, hc, _⟩
    rw [List.mem_singleton.1 hi] at hl
    cases hl
    revert hc
    generalize hc0 : ((exClientCert 500 [2]).serial, c) = e
    intro hc
    rw [List.mem_singleton.1 hc] at hc0
    cases hc0)
  (fun m hm _ => by
    obtain rfl : m = 0 := by omega
    exact ⟨_, List.mem_singleton.2 rfl, rfl, _, List.mem_singleton.2 rfl, by decide⟩)

end Verif.Props
