import Verif.Props.Operations
import Verif.Props.Disclosed
/-!
Property C92: from the CT logs and the CCADB report, over any history of generations and publications, to the answer of a client that has downloaded the channel. This joins C82 (generations and publications) with C83 and C86 (one run).
-/
namespace Verif.Spec
open Verif.Props

/-- The programs before the filter builder in one generation: ct-fetch and aggregate-known, which give the known directory and the coverage, and aggregate-crls on the CCADB report, which gives the revoked directory. -/
structure SystemRun (H : Bytes → Bytes) (mt : Meta) (w : World) (env : Env) (W : RunInput) (cov : Coverage) where
  known : Spec.KnownRun H mt w env W cov
  crls : Spec.CrlRun W
  report : Spec.ReportRun
  same : crls.units = report.units ∧ crls.disk = report.disk

/-- The certificate of the issuer with key digest `d`, with serial `n`, expiry `na` and these SCTs is in the scope of the run: its issuer is enrolled, its expiry hour has not begun when aggregate-known ends, and its SCTs are honest. -/
def SystemRun.InScope {H : Bytes → Bytes} {mt : Meta} {w : World} {env : Env} {W : RunInput} {cov : Coverage} (R : SystemRun H mt w env W cov) (scts : List (Bytes × Nat)) (d : Bytes) (n : Serial) (na : Nat) : Prop :=
  R.known.enrolled (issuerID d) = true ∧ R.known.a.clock < ((na / 3600 * 3600 : Nat) : Int) * 1000 ∧ Spec.HonestScts cov R.known.sts H mt w env scts d n na

end Verif.Spec

namespace Verif.Props
open Verif.Spec

section
variable {H : Bytes → Bytes} {mt : Meta} {w : World} {env : Env} (hid : ∀ log, (mt.id log).length = 32) (hH : ∀ x, (env.H x).length = 32)

include hid hH in
/-- In scope and covered is known. -/
theorem inScope_known {W : RunInput} {X : Dir} {cov : Coverage} (hg : GoodInput W X) (R : SystemRun H mt w env W cov) {scts : List (Bytes × Nat)} {d : Bytes} {n : Serial} {na : Nat} (hy : yearOf na ≤ 9999)
    (hs : R.InScope scts d n na) (hc : Covers cov scts) : KnownIn W d n := by
  obtain ⟨t, ht, lo, hi, h1, h2, h3⟩ := hc
  obtain ⟨h4, h5⟩ := hs.2.2 t ht lo hi h1 h2 h3
  exact C83_covered_is_known_partial hid hH hg R.known t.1 t.2 lo hi h1 h3 h4 d n na h5 hs.1 hs.2.1 hy

theorem systemRevoked_iff {W : RunInput} {cov : Coverage} (R : SystemRun H mt w env W cov) (d : Bytes) (n : Serial) :
    RevokedIn .all W d n ↔ (∃ i ∈ W, i.digest = d) ∧ Spec.ListedIn R.report .all (issuerID d) n := by
  rw [R.crls.revoked_iff .all d n, R.same.1, R.same.2]
  exact and_congr_right fun _ => onCrl_iff R.report .all (issuerID d) n

end

section
variable {F : Type} (dec : Bytes → Option (List Bytes)) (card : Bytes → Option (Card F)) (build : List Bytes → List (Bytes × Bool) → Option F) (contains : F → Bytes → Bool) (enrolls : F → Bytes → Bool)
  (he : EnrollsInput build enrolls) (order : List Text → List Text) (W : GenRun → RunInput) (X : GenRun → Dir) (cov : GenRun → Coverage) (sha : Bytes → Bytes) (parse : Bytes → Option IssuerCert) (verifies : Bytes → Bool)
  (inter : Intermediates) {H : Bytes → Bytes} {mt : Meta} {w : World} {env : Env} (hid : ∀ log, (mt.id log).length = 32) (hH : ∀ x, (env.H x).length = 32)
  (s : Ops) (h : OpsReach s) (hgen : ∀ y a prev, Finished s.bucket y → MadeBy s y a prev → Generates dec card build contains order a (W a) (X a) (cov a)) (R : ∀ y a prev, Finished s.bucket y → MadeBy s y a prev → SystemRun H mt w env (W a) (cov a))
  (slug : Text) (hs : ∀ c ∈ slug, c ≠ '-') (l : List KRec) (hl : l.Perm (recordsOf slug s.recs)) (hc : IsChain l) (cards : List (Card F)) (hcards : ClientCards card s.bucket slug l cards)
include he h hgen hs hl hc hcards hid hH

/-- **C92 (Revoked, partial).** From the logs and the report to the client, over any history of generations and publications, stopped anywhere: if the channel is a chain and a client has its filters, then a certificate that the last run of the
chain covers, and that a CRL disclosed for its issuer in that run lists as revoked, is answered Revoked, provided all CRLs disclosed for the issuer could be used in that run, and the earlier runs of the chain that found it listed covered it too.
Full statement: without the last condition (`C74_known_elsewhere_fails`) and those named in `Spec.KnownRun`, `Spec.CrlRun` and `Spec.ReportRun`. -/
theorem C92_revoked_partial (c : ClientCert) (spki : Bytes) (hlk : lookupSpki parse verifies inter c.issuerDN = some spki) (hv : c.valid = true) (na : Nat) (hy : yearOf na ≤ 9999)
    (hlast : ∀ runs z, CarryAll slug runs l → runs.getLast? = some z → ∀ a prev (hf : Finished s.bucket z) (hm : MadeBy s z a prev), (R z a prev hf hm).InScope c.scts (sha spki) c.serial na ∧ Covers (cov a) c.scts ∧
      Spec.ListedIn (R z a prev hf hm).report .all (issuerID (sha spki)) c.serial)
    (hbefore : ∀ runs, CarryAll slug runs l → ∀ y ∈ runs, ∀ a prev (hf : Finished s.bucket y) (hm : MadeBy s y a prev), Spec.ListedIn (R y a prev hf hm).report .all (issuerID (sha spki)) c.serial → Covers (cov a) c.scts) :
    clientQuery sha parse verifies (cardHas enrolls contains) cards inter c = .revoked := by
  refine C82_revoked_partial dec card build contains enrolls he order W X cov sha parse verifies inter s h hgen slug hs l hl hc cards hcards c spki hlk hv ?_ ?_
  · intro runs z hcar hz a prev hm
    have hf := chain_finished h hs hl hc hcar z (List.mem_of_getLast? hz)
    obtain ⟨h1, h2, h3⟩ := hlast runs z hcar hz a prev hf hm
    have hk := inScope_known hid hH (hgen z a prev hf hm).good (R z a prev hf hm) hy h1 h2
    refine ⟨hk, (systemRevoked_iff (R z a prev hf hm) _ _).2 ⟨?_, h3⟩⟩
    obtain ⟨i, hi, hd, _⟩ := hk
    exact ⟨i, hi, hd⟩
  · intro runs hcar y hy a prev hm _ hr
    have hf := chain_finished h hs hl hc hcar y hy
    exact hbefore runs hcar y hy a prev hf hm ((systemRevoked_iff (R y a prev hf hm) _ _).1 hr).2

/-- **C92 (not Revoked, partial).** After any such history: a certificate in the scope of all runs of the chain, which no CRL disclosed for its issuer listed as revoked in any of them, is not answered Revoked. -/
theorem C92_not_revoked_partial (c : ClientCert) (spki : Bytes) (hlk : lookupSpki parse verifies inter c.issuerDN = some spki) (na : Nat) (hy : yearOf na ≤ 9999)
    (hscope : ∀ runs, CarryAll slug runs l → ∀ y ∈ runs, ∀ a prev (hf : Finished s.bucket y) (hm : MadeBy s y a prev), (R y a prev hf hm).InScope c.scts (sha spki) c.serial na)
    (hcrl : ∀ runs, CarryAll slug runs l → ∀ y ∈ runs, ∀ a prev (hf : Finished s.bucket y) (hm : MadeBy s y a prev), ∀ v t k, (R y a prev hf hm).report.Discloses (issuerID (sha spki)) v → (R y a prev hf hm).report.Got (issuerID (sha spki)) v t →
      (c.serial, k) ∈ t → ¬ codesOf .all k.toNat) :
    clientQuery sha parse verifies (cardHas enrolls contains) cards inter c ≠ .revoked := by
  refine C82_not_revoked dec card build contains enrolls he order W X cov sha parse verifies inter s h hgen slug hs l hl hc cards hcards c spki hlk ?_ ?_
  · intro runs hcar y hy a prev hm hr
    have hf := chain_finished h hs hl hc hcar y hy
    obtain ⟨_, v, t, k, h1, h2, h3, h4⟩ := ((systemRevoked_iff (R y a prev hf hm) _ _).1 hr).2
    exact hcrl runs hcar y hy a prev hf hm v t k h1 h2 h3 h4
  · intro runs hcar y hy' a prev hm hcv
    have hf := chain_finished h hs hl hc hcar y hy'
    exact inScope_known hid hH (hgen y a prev hf hm).good (R y a prev hf hm) hy (hscope runs hcar y hy' a prev hf hm) hcv

/-- **C92 (Good, partial).** Such a certificate, if it is valid now, is answered Good if a run of the chain covers it, and NotCovered if none does. -/
theorem C92_good_partial (c : ClientCert) (spki : Bytes) (hlk : lookupSpki parse verifies inter c.issuerDN = some spki) (hv : c.valid = true) (na : Nat) (hy : yearOf na ≤ 9999)
    (hscope : ∀ runs, CarryAll slug runs l → ∀ y ∈ runs, ∀ a prev (hf : Finished s.bucket y) (hm : MadeBy s y a prev), (R y a prev hf hm).InScope c.scts (sha spki) c.serial na)
    (hcrl : ∀ runs, CarryAll slug runs l → ∀ y ∈ runs, ∀ a prev (hf : Finished s.bucket y) (hm : MadeBy s y a prev), ∀ v t k, (R y a prev hf hm).report.Discloses (issuerID (sha spki)) v → (R y a prev hf hm).report.Got (issuerID (sha spki)) v t →
      (c.serial, k) ∈ t → ¬ codesOf .all k.toNat) :
    ((∀ runs, CarryAll slug runs l → ∃ y ∈ runs, ∀ a prev, MadeBy s y a prev → Covers (cov a) c.scts) → clientQuery sha parse verifies (cardHas enrolls contains) cards inter c = .good) ∧
    ((∀ runs, CarryAll slug runs l → ∀ y ∈ runs, ∀ a prev, MadeBy s y a prev → ¬ Covers (cov a) c.scts) → clientQuery sha parse verifies (cardHas enrolls contains) cards inter c = .notCovered) := by
  refine C82_good dec card build contains enrolls he order W X cov sha parse verifies inter s h hgen slug hs l hl hc cards hcards c spki hlk hv ?_ ?_
  · intro runs hcar y hy a prev hm hr
    have hf := chain_finished h hs hl hc hcar y hy
    obtain ⟨_, v, t, k, h1, h2, h3, h4⟩ := ((systemRevoked_iff (R y a prev hf hm) _ _).1 hr).2
    exact hcrl runs hcar y hy a prev hf hm v t k h1 h2 h3 h4
  · intro runs hcar y hy' a prev hm hcv
    have hf := chain_finished h hs hl hc hcar y hy'
    exact inScope_known hid hH (hgen y a prev hf hm).good (R y a prev hf hm) hy (hscope runs hcar y hy' a prev hf hm) hcv

end

/-! ### an example: the two generations of C82, with the log of C83 and a report that discloses one CRL -/

/-- A root, and an intermediate with a full CRL. -/
def gRows : List CcadbRow :=
  [⟨false, some ⟨['r'], ['0'], 0⟩, "Root Certificate".toList, [], [], []⟩,
   ⟨false, some ⟨issuerID fDigest, ['1'], 1⟩, "Intermediate Certificate".toList, "Not Revoked".toList, "http:f".toList, []⟩]

/-- The CRL lists the certificate from the second run on. -/
def gDisk : Nat → Text → Option CrlFile
  | 0 => fun _ => some ⟨true, some [], none, 0⟩
  | _ => fun _ => some ⟨true, some [([1, 2], [⟨true, some 1⟩])], none, 0⟩

theorem gFields : Spec.CrlFields exSpace ⟨false, some ⟨issuerID fDigest, ['1'], 1⟩, "Intermediate Certificate".toList, "Not Revoked".toList, "http:f".toList, []⟩ "http:f".toList [] :=
  ⟨⟨[], [], by decide, by decide, by decide, Or.inr ⟨⟨⟨'h', _, rfl, by decide⟩, "http:".toList, 'f', by decide, by decide⟩, ⟨'h', _, rfl, by decide⟩, "http:".toList, 'f', by decide, by decide⟩⟩, Or.inl ⟨rfl, by decide⟩⟩

theorem gRows_formed : Spec.WellFormed exSpace gRows := by
  intro r hr
  rcases List.mem_cons.1 hr with rfl | hr
  · exact ⟨[], [], ⟨[], [], rfl, by decide, by decide, Or.inl rfl⟩, Or.inl ⟨rfl, by decide⟩⟩
  · rw [List.mem_singleton.1 hr]
    exact ⟨_, _, gFields⟩

def gReport (n : Nat) : Spec.ReportRun where
  sp := exSpace
  spaces := exSpace_spaces
  parse := exParse
  norm := some
  stable := fun _ v _ => ⟨v, rfl⟩
  chains := fun _ _ _ => true
  order := fun l => l
  ordered := fun _ _ => Iff.rfl
  rows := gRows
  formed := gRows_formed
  fetch := fun _ v => some v
  part := fun _ => false
  disk := gDisk n

def gActs : List CrlAct := [.take 0, .next 0 xSt, .next 0 xSt, .take 0]

def gCrlRun : ∀ n, Spec.CrlRun (fW n)
  | 0 =>
    { disk := gDisk 0, units := (gReport 0).units, nodup := (gReport 0).nodup, threads := 1, one := Nat.le_refl _, acts := gActs,
      returned := by decide +kernel, whole := by decide +kernel, loud := by decide +kernel, reads := by decide +kernel }
  | _ + 1 =>
    { disk := gDisk 1, units := (gReport 1).units, nodup := (gReport 1).nodup, threads := 1, one := Nat.le_refl _, acts := gActs,
      returned := by decide +kernel, whole := by decide +kernel, loud := by decide +kernel,
      reads := (by decide +kernel : ∀ i ∈ fW 1, ((CrlAgg.init (gReport 1).units 1 (fun _ => none)).run (gDisk 1) gActs).files (issuerID i.digest) = i.revokedText) }

def gSys (n : Nat) : SystemRun wHash wMeta wWorld wEnv (fW n) (fCov n) where
  known := fKnownRun n
  crls := gCrlRun n
  report := match n with
    | 0 => gReport 0
    | _ + 1 => gReport 1
  same := match n with
    | 0 => ⟨rfl, rfl⟩
    | _ + 1 => ⟨rfl, rfl⟩

/-- Which of the two generations it is. -/
def gIdx (a : GenRun) : Nat := if a.run = "20240101-0".toList then 0 else 1

theorem gIdx_0 : gIdx exGen0 = 0 := if_pos rfl

theorem gIdx_1 : gIdx exGen1 = 1 := if_neg (by decide +kernel)

def gDec (b : Bytes) : Option (List Bytes) := if b = [10] then some (fOut 0).revset else if b = [11] then some (fOut 1).revset else none

def gCard (b : Bytes) : Option (Card (List Bytes)) :=
  if b = [20] then some ⟨(fOut 0).filter, fCov 0⟩ else if b = [21] then some ⟨(fOut 1).filter, fCov 1⟩ else if b = [30] then some ⟨(fOut 0).deltaFilter, fCov 0⟩ else if b = [31] then some ⟨(fOut 1).deltaFilter, fCov 1⟩ else none

theorem gGen0 : Generates gDec gCard exBuild exContains (fun l => l) exGen0 (fW 0) [] (fCov 0) := by
  refine ⟨fW_good 0, ?_⟩
  intro prev groups h1 _
  have h1 : (if prev = none then some (exGroups 0) else none) = some groups := h1
  split at h1
  · rename_i hp
    cases h1
    rw [hp]
    refine ⟨fOut 0, fChain.run0, ?_, ?_, ?_⟩
    · exact ⟨_, List.mem_singleton.2 rfl, ⟨["filter".toList], [20 + 0], false⟩, List.mem_cons_self, rfl, rfl, rfl⟩
    · exact ⟨_, List.mem_singleton.2 rfl, ⟨["filter.delta".toList], [30 + 0], false⟩, List.mem_cons_of_mem _ List.mem_cons_self, rfl, rfl, rfl⟩
    · exact ⟨_, List.mem_singleton.2 rfl, ⟨["revset.bin".toList], [10 + 0], false⟩, List.mem_cons_of_mem _ (List.mem_cons_of_mem _ List.mem_cons_self), rfl, rfl, (fOut 0).revset, rfl, fun k => Iff.rfl⟩
  · cases h1

theorem gGen1 : Generates gDec gCard exBuild exContains (fun l => l) exGen1 (fW 1) [] (fCov 1) := by
  refine ⟨fW_good 1, ?_⟩
  intro prev groups h1 _
  have h1 : (if prev = some [10] then some (exGroups 1) else none) = some groups := h1
  split at h1
  · rename_i hp
    cases h1
    rw [hp]
    refine ⟨fOut 1, fChain.run 0, ?_, ?_, ?_⟩
    · exact ⟨_, List.mem_singleton.2 rfl, ⟨["filter".toList], [20 + 1], false⟩, List.mem_cons_self, rfl, rfl, rfl⟩
    · exact ⟨_, List.mem_singleton.2 rfl, ⟨["filter.delta".toList], [30 + 1], false⟩, List.mem_cons_of_mem _ List.mem_cons_self, rfl, rfl, rfl⟩
    · exact ⟨_, List.mem_singleton.2 rfl, ⟨["revset.bin".toList], [10 + 1], false⟩, List.mem_cons_of_mem _ (List.mem_cons_of_mem _ List.mem_cons_self), rfl, rfl, (fOut 1).revset, rfl, fun k => Iff.rfl⟩
  · cases h1

theorem gGenerates (y : Text) (a : GenRun) (prev : Option Bytes) (h : MadeBy exOpsState y a prev) : Generates gDec gCard exBuild exContains (fun l => l) a (fW (gIdx a)) [] (fCov (gIdx a)) := by
  rcases exMade h with ⟨_, rfl⟩ | ⟨_, rfl⟩
  · rw [gIdx_1]; exact gGen1
  · rw [gIdx_0]; exact gGen0

theorem gCard0 : gCard [20] = some ⟨(fOut 0).filter, fCov 0⟩ := rfl

theorem gCard1 : gCard [31] = some ⟨(fOut 1).deltaFilter, fCov 1⟩ := rfl

theorem gCards : ClientCards gCard exOpsState.bucket "default".toList [exRec0, exRec1] [⟨(fOut 0).filter, fCov 0⟩, ⟨(fOut 1).deltaFilter, fCov 1⟩] := by
  intro c
  constructor
  · intro hc
    rcases List.mem_cons.1 hc with rfl | hc
    · exact ⟨exRec0, List.mem_cons_self, _, exCarries0, _, exFile0, gCard0⟩
    · rw [List.mem_singleton.1 hc]
      exact ⟨exRec1, List.mem_cons_of_mem _ List.mem_cons_self, _, exCarries1, _, exFile1, gCard1⟩
  · rintro ⟨r, hr, run, hcar, bytes, hb, hcd⟩
    rcases List.mem_cons.1 hr with rfl | hr
    · rw [attachment_unique exSlug (carries_attachment hcar) (carries_attachment exCarries0), exFile0, Option.some.injEq] at hb
      rw [← hb, gCard0, Option.some.injEq] at hcd
      rw [← hcd]
      exact List.mem_cons_self
    · rw [List.mem_singleton.1 hr] at hcar hb
      rw [attachment_unique exSlug (carries_attachment hcar) (carries_attachment exCarries1), exFile1, Option.some.injEq] at hb
      rw [← hb, gCard1, Option.some.injEq] at hcd
      rw [← hcd]
      exact List.mem_cons_of_mem _ List.mem_cons_self

theorem gScope (n : Nat) : (gSys n).InScope fCert.scts fDigest fCert.serial 1700002800 := ⟨rfl, by show fAgg.clock < _; decide +kernel, fHonest n⟩

theorem gDiscloses (n : Nat) : (gReport n).Discloses (issuerID fDigest) "http:f".toList :=
  ⟨_, ⟨issuerID fDigest, ['1'], 1⟩, _, _, "http:f".toList, ⟨[_], [], rfl, rfl, Or.inr rfl, rfl, rfl, by
    intro q hq d _ _ h4 h5
    rw [List.mem_singleton.1 hq] at h4 h5
    exact absurd h5 (by decide)⟩, rfl, rfl, gFields, Or.inl ⟨rfl, by decide⟩, "http".toList, (by decide : exParse "http:f".toList = some ("http".toList, "http:f".toList)), Or.inl rfl⟩

theorem gGot (v : Text) : (gReport 1).Got (issuerID fDigest) v [([1, 2], 1)] := ⟨v, rfl, v, _, _, rfl, rfl, rfl, rfl, rfl⟩

/-- The certificate is listed in the second run: it is answered Revoked from the published filters. -/
example : clientQuery (fun _ => fDigest) (fun d => some ⟨[9], d⟩) (fun _ => true) (cardHas exEnrolls exContains) [⟨(fOut 0).filter, fCov 0⟩, ⟨(fOut 1).deltaFilter, fCov 1⟩] exInter fCert = .revoked := by
  refine C92_revoked_partial gDec gCard exBuild exContains exEnrolls exEnrolls_input (fun l => l) (fun a => fW (gIdx a)) (fun _ => []) (fun a => fCov (gIdx a)) (fun _ => fDigest) (fun d => some ⟨[9], d⟩) (fun _ => true) exInter
    wMeta_id (fun _ => rfl) exOpsState exState_reach (fun y a prev _ => gGenerates y a prev) (fun _ a _ _ _ => gSys (gIdx a)) "default".toList exSlug [exRec0, exRec1] exState_perm exState_chain _ gCards fCert [5] (by decide) rfl 1700002800 (by decide +kernel) ?_ ?_
  · intro runs z hruns hz a prev _ hm
    rw [exState_runs runs hruns] at hz
    have hz : "20240102-0".toList = z := by simpa using hz
    subst hz
    refine ⟨gScope _, fCovers _, ?_⟩
    rcases exMade hm with ⟨_, rfl⟩ | ⟨e, _⟩
    · rw [gIdx_1]
      exact ⟨fun v _ => ⟨_, gGot v⟩, "http:f".toList, [([1, 2], 1)], 1, gDiscloses 1, gGot _, List.mem_singleton.2 rfl, trivial⟩
    · exact absurd e (by decide +kernel)
  · intro _ _ _ _ _ _ _ _ _
    exact fCovers _

/-! After the first generation and publication only. -/

def gOps : Ops := exFirst.step exPublish

theorem gOps_reach : OpsReach gOps := OpsReach.step _ _ exFirst_reach (exPublish_good _)

theorem gOps_made {y : Text} {a : GenRun} {prev : Option Bytes} (h : MadeBy gOps y a prev) : a = exGen0 := by
  have hm := assocGet_mem h
  have h2 : gOps.made = ((Ops.init.step (.generate exGen0)).step (.generate exGen0)).made := writes_made 9 _
  rw [h2] at hm
  rcases List.mem_cons.1 hm with e | hm
  · rw [Prod.mk.injEq, Prod.mk.injEq] at e
    exact e.2.1
  · rcases List.mem_cons.1 hm with e | hm
    · rw [Prod.mk.injEq, Prod.mk.injEq] at e
      exact e.2.1
    · cases hm

theorem gOps_perm : [exRec0].Perm (recordsOf "default".toList gOps.recs) := by
  have : recordsOf "default".toList gOps.recs = [exRec0] := by decide +kernel
  rw [this]

theorem gOps_file : objGet gOps.bucket (fileOf "20240101-0".toList exRec0) = some [20] := by decide +kernel

theorem gOps_cards : ClientCards gCard gOps.bucket "default".toList [exRec0] [⟨(fOut 0).filter, fCov 0⟩] := by
  intro c
  constructor
  · intro hc
    rw [List.mem_singleton.1 hc]
    exact ⟨exRec0, List.mem_cons_self, _, exCarries0, _, gOps_file, gCard0⟩
  · rintro ⟨r, hr, run, hcar, bytes, hb, hcd⟩
    rw [List.mem_singleton.1 hr] at hcar hb
    rw [attachment_unique exSlug (carries_attachment hcar) (carries_attachment exCarries0), gOps_file, Option.some.injEq] at hb
    rw [← hb, gCard0, Option.some.injEq] at hcd
    rw [← hcd]
    exact List.mem_cons_self

theorem gUnlisted {v : Text} {t : List (Serial × UInt8)} {k : UInt8} (h : (gReport 0).Got (issuerID fDigest) v t) : (fCert.serial, k) ∉ t := by
  obtain ⟨_, _, _, _, _, _, h2, _, h4, h5⟩ := h
  cases h2
  cases h4
  cases t with
  | nil => intro h; cases h
  | cons x y => cases h5

theorem gHyps {runs : List Text} (_ : CarryAll "default".toList runs [exRec0]) (y : Text) (_ : y ∈ runs) (a : GenRun) (prev : Option Bytes) (_ : Finished gOps.bucket y) (hm : MadeBy gOps y a prev) (v : Text) (t : List (Serial × UInt8)) (k : UInt8)
    (_ : (gSys (gIdx a)).report.Discloses (issuerID fDigest) v) (h : (gSys (gIdx a)).report.Got (issuerID fDigest) v t) : (fCert.serial, k) ∈ t → ¬ codesOf .all k.toNat := by
  rw [gOps_made hm, gIdx_0] at h
  exact fun h' => absurd h' (gUnlisted h)

theorem gOps_generates (y : Text) (a : GenRun) (prev : Option Bytes) (h : MadeBy gOps y a prev) : Generates gDec gCard exBuild exContains (fun l => l) a (fW (gIdx a)) [] (fCov (gIdx a)) := by
  rw [gOps_made h, gIdx_0]
  exact gGen0

/-- Not revoked, and Good, in the first run. -/
example : clientQuery (fun _ => fDigest) (fun d => some ⟨[9], d⟩) (fun _ => true) (cardHas exEnrolls exContains) [⟨(fOut 0).filter, fCov 0⟩] exInter fCert ≠ .revoked :=
  C92_not_revoked_partial gDec gCard exBuild exContains exEnrolls exEnrolls_input (fun l => l) (fun a => fW (gIdx a)) (fun _ => []) (fun a => fCov (gIdx a)) (fun _ => fDigest) (fun d => some ⟨[9], d⟩) (fun _ => true) exInter
    wMeta_id (fun _ => rfl) gOps gOps_reach (fun y a prev _ => gOps_generates y a prev) (fun _ a _ _ _ => gSys (gIdx a)) "default".toList exSlug [exRec0] gOps_perm ⟨rfl, rfl, "i".toList, rfl, trivial⟩ _ gOps_cards fCert [5] (by decide) 1700002800 (by decide +kernel)
    (fun _ _ _ _ _ _ _ _ => gScope _) (fun _ hc => gHyps hc)

example : clientQuery (fun _ => fDigest) (fun d => some ⟨[9], d⟩) (fun _ => true) (cardHas exEnrolls exContains) [⟨(fOut 0).filter, fCov 0⟩] exInter fCert = .good :=
  (C92_good_partial gDec gCard exBuild exContains exEnrolls exEnrolls_input (fun l => l) (fun a => fW (gIdx a)) (fun _ => []) (fun a => fCov (gIdx a)) (fun _ => fDigest) (fun d => some ⟨[9], d⟩) (fun _ => true) exInter
    wMeta_id (fun _ => rfl) gOps gOps_reach (fun y a prev _ => gOps_generates y a prev) (fun _ a _ _ _ => gSys (gIdx a)) "default".toList exSlug [exRec0] gOps_perm ⟨rfl, rfl, "i".toList, rfl, trivial⟩ _ gOps_cards fCert [5] (by decide) rfl 1700002800 (by decide +kernel)
    (fun _ _ _ _ _ _ _ _ => gScope _) (fun _ hc => gHyps hc)).1
    (fun runs hc => by
      cases runs with
      | nil => exact hc.elim
      | cons y rest => exact ⟨y, List.mem_cons_self, fun _ _ _ => fCovers _⟩)

/-! The same report in the chain of C83: examples for the answers of C86. -/

theorem gSame (n : Nat) : (gCrlRun n).units = (gSys n).report.units ∧ (gCrlRun n).disk = (gSys n).report.disk := (gSys n).same

example (n : Nat) : clientQuery (fun _ => fDigest) (fun d => some ⟨[9], d⟩) (fun _ => true) (cardHas exEnrolls exContains) (fChain.cards fCov (n + 1)) exInter fCert = .revoked :=
  C86_revoked_partial exBuild exContains exEnrolls exEnrolls_input (fun l => l) .all fChain fCov (fun _ => fDigest) (fun d => some ⟨[9], d⟩) (fun _ => true) exInter wMeta_id (fun _ => rfl) fKnownRun gCrlRun (fun n => (gSys n).report) gSame
    (n + 1) fCert [5] (by decide) rfl 1700002800 (by decide +kernel) rfl (by show fAgg.clock < _; decide +kernel) (fHonest _) (fCovers _)
    ⟨fun v _ => ⟨_, gGot v⟩, "http:f".toList, [([1, 2], 1)], 1, gDiscloses 1, gGot _, List.mem_singleton.2 rfl, trivial⟩ (fun _ _ _ => fCovers _)

example : clientQuery (fun _ => fDigest) (fun d => some ⟨[9], d⟩) (fun _ => true) (cardHas exEnrolls exContains) (fChain.cards fCov 0) exInter fCert ≠ .revoked :=
  C86_not_revoked_partial exBuild exContains exEnrolls exEnrolls_input (fun l => l) .all fChain fCov (fun _ => fDigest) (fun d => some ⟨[9], d⟩) (fun _ => true) exInter wMeta_id (fun _ => rfl) fKnownRun gCrlRun (fun n => (gSys n).report) gSame
    0 fCert [5] (by decide) rfl 1700002800 (by decide +kernel) (fun _ _ => rfl) (fun _ _ => by show fAgg.clock < _; decide +kernel) (fun _ _ => fHonest _)
    (fun m hm v l k _ h2 h3 => by
      cases Nat.le_zero.1 hm
      exact absurd h3 (gUnlisted h2))

end Verif.Props
