import Verif.Props.World
/-!
C122 for the channel with the priority reasons.
-/
namespace Verif.Props
open Verif.Spec

theorem systemRevoked_reasons {H : Bytes → Bytes} {mt : Meta} {w : World} {env : Env} {V : RunInput} {cov : Coverage} (R : SystemRun H mt w env V cov) (rs : ReasonSet) (d : Bytes) (n : Serial) :
    RevokedIn rs V d n ↔ (∃ i ∈ V, i.digest = d) ∧ Spec.ListedIn R.report rs (issuerID d) n := by
  rw [R.crls.revoked_iff rs d n, R.same.1, R.same.2]
  exact and_congr_right fun _ => onCrl_iff R.report rs (issuerID d) n

section
variable {F : Type} (L : ScriptLib F) (W : QueryWorld (Card F)) (hL : GoodLib L W.fromBytes) (enrolls : F → Bytes → Bool) (he : EnrollsInput L.lib.clubcard enrolls) (hW : W.has = cardHas enrolls L.lib.contains) (inst : Instance)
  {H : Bytes → Bytes} {mt : Meta} {w : World} {env : Env} (hid : ∀ log, (mt.id log).length = 32) (hH : ∀ x, (env.H x).length = 32)
  (E : Nat → Script) (ht : ∀ n, TidyFolder (E n)) (s : Ops) (h : ScriptReach L E s)
  (hw : ∀ y n, Finished s.bucket y → Executed s y n → ReadableScript L (E n) ∧ (E n).makesPrio = true ∧ ∃ acts, ScriptWorld H mt w env L (E n) acts)
  (hlists : ReadsLists W L E s.bucket) (fs : Files) (db : LoadedDb (Card F))
  (hm : Mirrors W inst .compat s fs) (hr : Ready W (some inst) .compat fs db) (l : List KRec) (hl : l.Perm (recordsOf (channelName .compat) s.recs)) (hc : IsChain l) (runs : List Text) (z : Text)
  (hruns : CarryAll (channelName .compat) runs l) (hz : runs.getLast? = some z)

include hL ht h hw in
theorem made_priority {y : Text} {a : GenRun} {prev : Option Bytes} (hf : Finished s.bucket y) (hma : MadeBy s y a prev) :
    GeneratesPriority L.readRevset W.fromBytes L.lib.clubcard L.lib.contains L.lib.order a (theInput L (E a.exec)) [] ((E a.exec).cover L) := by
  obtain ⟨h1, h2, _⟩ := hw y _ hf ⟨a, prev, hma, rfl⟩
  exact C99_generates_priority L W.fromBytes hL (E a.exec) h1 h2 _ (made_input L W.fromBytes hL E ht s h (fun y n hf hn => ⟨(hw y n hf hn).1, (hw y n hf hn).2.2⟩) hf hma) _ a (made_genRun h hma)

include hL he hW hid hH ht h hw hlists hm hr hl hc hruns hz

/-- **C122, Revoked on the channel with the priority reasons (partial).** As `C122_revoked_partial`, for certificates that a CRL lists with a priority reason, on the channel `compat`. Full statement: also without `hstable` (`C97_reason_change_fails`) and
`makesPrio` (`C99_priority_missing_fails`). -/
theorem C122_priority_partial (der spki : Bytes) (c : ClientCert) (hp : W.parse der = some c) (hv : c.valid = true) (hver : W.verifies der spki = true) (na : Nat) (hy : yearOf na ≤ 9999)
    (hiss : ∀ n, Executed s z n → HeldBy W L (E n) c.issuerDN spki ∧ ∀ k, HeldBy W L (E n) c.issuerDN k → W.verifies der k = true → k = spki)
    (hlast : ∀ n, Executed s z n → ScopeOf H mt w env L (E n) c.scts (W.sha spki) c.serial na ∧ Covers ((E n).cover L) c.scts ∧ RevokedBy (E n) .priority (issuerID (W.sha spki)) c.serial)
    (hstable : ∀ x y, Next s.bucket x y → ∀ m n, Executed s x m → Executed s y n → RevokedBy (E m) .all (issuerID (W.sha spki)) c.serial → RevokedBy (E n) .priority (issuerID (W.sha spki)) c.serial → RevokedBy (E m) .priority (issuerID (W.sha spki)) c.serial)
    (hbefore : ∀ y ∈ runs, ∀ n, Executed s y n → RevokedBy (E n) .priority (issuerID (W.sha spki)) c.serial → Covers ((E n).cover L) c.scts) :
    (∀ files f input, f ∈ files → W.file f = some (some input) → FileHolds input der → (W.main (some inst) .compat (.x509 files) fs).1 = 1) ∧
    ∀ hosts i h, hosts[i]? = some h → Served W i h der → (W.main (some inst) .compat (.https hosts) fs).1 = 1 := by
  have hs := channelName_plain .compat
  have ho := scriptReach_ops ht h
  have hw' : ∀ y n, Finished s.bucket y → Executed s y n → ReadableScript L (E n) ∧ ∃ acts, ScriptWorld H mt w env L (E n) acts := fun y n hf hn => ⟨(hw y n hf hn).1, (hw y n hf hn).2.2⟩
  obtain ⟨n, hn, h1, h2⟩ := C122_issuers_partial L W inst E ht s h hw' hlists fs db hm hr l hl hc runs z hruns hz der c.issuerDN
  obtain ⟨hi1, hi2⟩ := hiss n hn
  obtain ⟨k, hk⟩ := h2 ⟨spki, hi1, hver⟩
  obtain ⟨h3, h4⟩ := h1 k hk
  rw [hi2 k h3 h4] at hk
  have hcards := clientCards_perm (C121_filters_partial ho hm hr) hl
  have hgen := fun y a prev (hf : Finished s.bucket y) (hma : MadeBy s y a prev) => made_generates L W.fromBytes hL E ht s h hw' hf hma
  have hfin := chain_finished ho hs hl hc hruns
  refine reported hr (revokedCert_of hp ?_)
  rw [hW]
  refine C97_revoked_partial L.readRevset W.fromBytes L.lib.clubcard L.lib.contains enrolls he L.lib.order (fun a => theInput L (E a.exec)) (fun _ => []) (fun a => (E a.exec).cover L) W.sha W.parseIssuer (W.verifies der) db.inters s ho
    hgen (fun y a prev hf hma => made_priority L W hL E ht s h hw hf hma) (channelName .compat) hs l hl hc db.filters hcards c spki hk hv ?_ ?_ ?_
  · intro x y hxy a prev a' prev' hma hma' hkn ra rp
    have hfx := hxy.1
    have hfy := hxy.2.1
    obtain ⟨R, _, r2, r3⟩ := made_system L W.fromBytes hL E ht s h hw' hfx hma
    obtain ⟨R', _, r2', r3'⟩ := made_system L W.fromBytes hL E ht s h hw' hfy hma'
    have q1 := (listedIn_iff r2 r3 _ _ _).1 ((systemRevoked_reasons R _ _ _).1 ra).2
    have q2 := (listedIn_iff r2' r3' _ _ _).1 ((systemRevoked_reasons R' _ _ _).1 rp).2
    exact (systemRevoked_reasons R _ _ _).2 ⟨((systemRevoked_reasons R _ _ _).1 ra).1, (listedIn_iff r2 r3 _ _ _).2 (hstable x y hxy _ _ ⟨a, prev, hma, rfl⟩ ⟨a', prev', hma', rfl⟩ q1 q2)⟩
  · intro runs' z' hruns' hz' a prev hma
    rw [carryAll_unique hs l _ _ hruns' hruns, hz, Option.some.injEq] at hz'
    subst hz'
    have hf := hfin z (List.mem_of_getLast? hz)
    obtain ⟨R, r1, r2, r3⟩ := made_system L W.fromBytes hL E ht s h hw' hf hma
    obtain ⟨k1, k2, k3⟩ := hlast _ ⟨a, prev, hma, rfl⟩
    have hkn := inScope_known hid hH (hgen z a prev hf hma).good R hy (r1 _ _ _ _ k1) k2
    have hkn2 := hkn
    obtain ⟨i, hi, hd, _⟩ := hkn2
    exact ⟨hkn, (systemRevoked_reasons R _ _ _).2 ⟨⟨i, hi, hd⟩, (listedIn_iff r2 r3 _ _ _).2 k3⟩⟩
  · intro runs' hruns' y hyr a prev hma _ rp
    rw [carryAll_unique hs l _ _ hruns' hruns] at hyr
    obtain ⟨R, _, r2, r3⟩ := made_system L W.fromBytes hL E ht s h hw' (hfin y hyr) hma
    exact hbefore y hyr _ ⟨a, prev, hma, rfl⟩ ((listedIn_iff r2 r3 _ _ _).1 ((systemRevoked_reasons R _ _ _).1 rp).2)

/-- **C122, not Revoked on the channel with the priority reasons (partial).** Certificates in the scope of all runs of the chain, which no CRL disclosed for their issuer listed with a priority reason in any of them: the program exits with 0. -/
theorem C122_priority_clear_partial (clear : Bytes → Prop)
    (hno : ∀ der, clear der → ∀ c, W.parse der = some c → ∃ na : Nat, yearOf na ≤ 9999 ∧ ∀ m spki, Executed s z m → HeldBy W L (E m) c.issuerDN spki → W.verifies der spki = true →
      ∀ y ∈ runs, ∀ n, Executed s y n → ScopeOf H mt w env L (E n) c.scts (W.sha spki) c.serial na ∧
        ∀ v t k, DisclosedIn (E n) (issuerID (W.sha spki)) v → FetchedIn (E n) (issuerID (W.sha spki)) v t → (c.serial, k) ∈ t → ¬ codesOf .priority k.toNat) :
    (∀ files, (∀ f ∈ files, ∃ input der, W.file f = some (some input) ∧ FileHolds input der ∧ clear der) → (W.main (some inst) .compat (.x509 files) fs).1 = 0) ∧
    ∀ hosts, (∀ i h, hosts[i]? = some h → ∃ der, Served W i h der ∧ clear der) → (W.main (some inst) .compat (.https hosts) fs).1 = 0 := by
  have hs := channelName_plain .compat
  have ho := scriptReach_ops ht h
  have hw' : ∀ y n, Finished s.bucket y → Executed s y n → ReadableScript L (E n) ∧ ∃ acts, ScriptWorld H mt w env L (E n) acts := fun y n hf hn => ⟨(hw y n hf hn).1, (hw y n hf hn).2.2⟩
  have hcards := clientCards_perm (C121_filters_partial ho hm hr) hl
  have hgen := fun y a prev (hf : Finished s.bucket y) (hma : MadeBy s y a prev) => made_generates L W.fromBytes hL E ht s h hw' hf hma
  have hfin := chain_finished ho hs hl hc hruns
  refine passed hr (fun der hd => ?_)
  rintro ⟨c, hp, hsay⟩
  have hsay' := hsay
  obtain ⟨spki, hlk, hv, _⟩ := hsay
  obtain ⟨m, hm', h1, _⟩ := C122_issuers_partial L W inst E ht s h hw' hlists fs db hm hr l hl hc runs z hruns hz der c.issuerDN
  obtain ⟨h3, h4⟩ := h1 spki hlk
  obtain ⟨na, hy, hno'⟩ := hno der hd c hp
  have key := hno' m spki hm' h3 h4
  refine (C97_good L.readRevset W.fromBytes L.lib.clubcard L.lib.contains enrolls he L.lib.order (fun a => theInput L (E a.exec)) (fun _ => []) (fun a => (E a.exec).cover L) W.sha W.parseIssuer (W.verifies der) db.inters s ho
    hgen (fun y a prev hf hma => made_priority L W hL E ht s h hw hf hma) (channelName .compat) hs l hl hc db.filters hcards c spki hlk hv ?_ ?_).2.2 ?_
  · intro runs' hruns' y hyr a prev hma rp
    rw [carryAll_unique hs l _ _ hruns' hruns] at hyr
    obtain ⟨R, _, r2, r3⟩ := made_system L W.fromBytes hL E ht s h hw' (hfin y hyr) hma
    obtain ⟨_, v, t, k, q1, q2, q3, q4⟩ := (listedIn_iff r2 r3 _ _ _).1 ((systemRevoked_reasons R _ _ _).1 rp).2
    exact (key y hyr _ ⟨a, prev, hma, rfl⟩).2 v t k q1 q2 q3 q4
  · intro runs' hruns' y hyr a prev hma hcv
    rw [carryAll_unique hs l _ _ hruns' hruns] at hyr
    have hf := hfin y hyr
    obtain ⟨R, r1, _, _⟩ := made_system L W.fromBytes hL E ht s h hw' hf hma
    exact inScope_known hid hH (hgen y a prev hf hma).good R hy (r1 _ _ _ _ (key y hyr _ ⟨a, prev, hma, rfl⟩).1) hcv
  · rw [C63_revoked_iff, ← hW]
    exact hsay'

end

/-! ### examples: the executions of C99, published on the other channel -/

def sPr1 : Ops := ((List.replicate 21 OpsEvent.write).foldl Ops.step (Ops.init.step (.generate (sGen 0)))).step exPrPublish

def sPr2 : Ops := ((List.replicate 21 OpsEvent.write).foldl Ops.step (sPr1.step (.generate (sGen 1)))).step exPrPublish

theorem sPrPublish {s : Ops} (h : ScriptReach sLib sE s) : ScriptReach sLib sE (s.step exPrPublish) := ScriptReach.publish s _ _ _ _ _ _ _ _ h exPrSlug exFresh_fresh

theorem sPr1_reach : ScriptReach sLib sE sPr1 :=
  sPrPublish (scriptReach_writes 21 _ (ScriptReach.generate _ 0 (sGen 0) "20240101".toList [] ScriptReach.init (sGen_eq 0) ⟨by decide +kernel, by decide +kernel⟩ (folder_days (fun _ ho => by cases ho)) (by decide +kernel) (by rw [sGen_run.1]; decide +kernel)))

theorem sPr2_reach : ScriptReach sLib sE sPr2 :=
  sPrPublish (scriptReach_writes 21 _ (ScriptReach.generate _ 1 (sGen 1) "20240102".toList [] sPr1_reach (sGen_eq 1) ⟨by decide +kernel, by decide +kernel⟩ (folder_days (by decide +kernel)) (by decide +kernel) (by rw [sGen_run.2]; decide +kernel)))

theorem prPublish_made (s : Ops) : (s.step exPrPublish).made = s.made := rfl

theorem sPrMade1 {y : Text} {n : Nat} (h : Executed sPr1 y n) : y = "20240101-0".toList ∧ n = 0 := by
  obtain ⟨a, prev, hm, rfl⟩ := h
  have hm := assocGet_mem hm
  have h1 : sPr1.made = (Ops.init.step (.generate (sGen 0))).made := writes_made 21 _
  rw [h1] at hm
  rcases List.mem_cons.1 hm with e | hm
  · rw [Prod.mk.injEq, Prod.mk.injEq] at e
    rw [e.1, e.2.1, sExec]
    exact ⟨sGen_run.1, rfl⟩
  · cases hm

theorem sPrMade2 {y : Text} {n : Nat} (h : Executed sPr2 y n) : (y = "20240102-0".toList ∧ n = 1) ∨ (y = "20240101-0".toList ∧ n = 0) := by
  obtain ⟨a, prev, hm, rfl⟩ := h
  have hm := assocGet_mem hm
  have h2 : sPr1.made = (Ops.init.step (.generate (sGen 0))).made := writes_made 21 _
  unfold sPr2 at hm
  rw [prPublish_made, writes_made] at hm
  rcases List.mem_cons.1 hm with e | hm
  · rw [Prod.mk.injEq, Prod.mk.injEq] at e
    rw [e.1, e.2.1, sExec]
    exact Or.inl ⟨sGen_run.2, rfl⟩
  · have hm : (y, a, prev) ∈ sPr1.made := hm
    rw [h2] at hm
    rcases List.mem_cons.1 hm with e | hm
    · rw [Prod.mk.injEq, Prod.mk.injEq] at e
      rw [e.1, e.2.1, sExec]
      exact Or.inr ⟨sGen_run.1, rfl⟩
    · cases hm

theorem sPrConditions (n : Nat) : ReadableScript sLib (sE n) ∧ (sE n).makesPrio = true ∧ ∃ acts, ScriptWorld wHash wMeta wWorld wEnv sLib (sE n) acts := ⟨(sConditions n).1, rfl, (sConditions n).2⟩

theorem sPr1_file0 : objGet sPr1.bucket (fileIn "clubcard-priority".toList "20240101-0".toList exPrRec0) = some [1] := by decide +kernel

theorem sPr2_file0 : objGet sPr2.bucket (fileIn "clubcard-priority".toList "20240101-0".toList exPrRec0) = some [1] := by decide +kernel

theorem sPr2_file1 : objGet sPr2.bucket (fileIn "clubcard-priority".toList "20240102-0".toList exPrRec1) = some sFilter1 := by decide +kernel

theorem sPrRecs : sPr1.recs = [exPrRec0] ∧ sPr2.recs = [exPrRec0, exPrRec1] := by decide +kernel

theorem sPr1_perm : [exPrRec0].Perm (recordsOf "compat".toList sPr1.recs) := by
  have : recordsOf "compat".toList sPr1.recs = [exPrRec0] := by decide +kernel
  rw [this]

theorem sPr2_perm : [exPrRec0, exPrRec1].Perm (recordsOf "compat".toList sPr2.recs) := by
  have : recordsOf "compat".toList sPr2.recs = [exPrRec0, exPrRec1] := by decide +kernel
  rw [this]

def sPrRaw1 : List RawFilterRec := [⟨"01".toList, "20240101-0-compat.filter".toList, "a".toList, false, some "compat".toList⟩]

def sPrRaw2 : List RawFilterRec := sPrRaw1 ++ [⟨"0002".toList, "20240102-0-compat.filter.delta".toList, "b".toList, true, some "compat".toList⟩]

theorem sPrServed1 : ServedAll sSha sPr1.bucket .compat [exPrRec0] sPrRaw1 := by
  refine ⟨⟨rfl, rfl, rfl, ?_⟩, trivial⟩
  intro _ run hcar
  rw [attachment_unique (channelName_plain .compat) (carries_attachment hcar) (carries_attachment exPrCarries0)]
  exact ⟨[1], sPr1_file0, by decide +kernel⟩

theorem sPrServed2 : ServedAll sSha sPr2.bucket .compat [exPrRec0, exPrRec1] sPrRaw2 := by
  refine ⟨⟨rfl, rfl, rfl, ?_⟩, ⟨rfl, rfl, rfl, ?_⟩, trivial⟩
  · intro _ run hcar
    rw [attachment_unique (channelName_plain .compat) (carries_attachment hcar) (carries_attachment exPrCarries0)]
    exact ⟨[1], sPr2_file0, by decide +kernel⟩
  · intro _ run hcar
    rw [attachment_unique (channelName_plain .compat) (carries_attachment hcar) (carries_attachment exPrCarries1)]
    exact ⟨sFilter1, sPr2_file1, by decide +kernel⟩

theorem sPrMirrors1 : Mirrors (sAns sPrRaw1 sPr1.bucket) .prod .compat sPr1 exSrvFs where
  served := ⟨[exPrRec0], sPrRaw1, by rw [sPrRecs.1], rfl, sPrServed1⟩
  honest := sAns_honest _ _
  removable := fun _ => rfl
  names := by decide +kernel
  strays := exAns_strays
  small := sAns_small _ _

theorem sPrMirrors2 : Mirrors (sAns sPrRaw2 sPr2.bucket) .prod .compat sPr2 exSrvFs where
  served := ⟨[exPrRec0, exPrRec1], sPrRaw2, by rw [sPrRecs.2], rfl, sPrServed2⟩
  honest := sAns_honest _ _
  removable := fun _ => rfl
  names := by decide +kernel
  strays := exAns_strays
  small := sAns_small _ _

def sPrFs1 : Files := [("20240101-0-compat.filter".toList, [1]), (interName, binMap exInter)]

def sPrFs2 : Files := [("20240101-0-compat.filter".toList, [1]), ("20240102-0-compat.filter.delta".toList, sFilter1), (interName, binMap exInter)]

theorem sPrUpdate1 : (sAns sPrRaw1 sPr1.bucket).update .prod .compat exSrvFs = (true, sPrFs1) := by decide +kernel

theorem sPrUpdate2 : (sAns sPrRaw2 sPr2.bucket).update .prod .compat exSrvFs = (true, sPrFs2) := by decide +kernel

theorem sPrLoad1 : loadFilters sCard sPrFs1 = some [("20240101-0-compat.filter".toList, ⟨[], fCov 0⟩)] :=
  loadFilters_served (n := "20240101-0-compat.filter".toList) (b := [1]) (by decide +kernel) sCard0 (loadFilters_inters sCard (binMap exInter))

theorem sPrLoad2 : loadFilters sCard sPrFs2 = some [("20240101-0-compat.filter".toList, ⟨[], fCov 0⟩), ("20240102-0-compat.filter.delta".toList, ⟨[fDigest ++ [1, 2]], fCov 0⟩)] :=
  loadFilters_served (n := "20240101-0-compat.filter".toList) (b := [1]) (by decide +kernel) sCard0
    (loadFilters_served (n := "20240102-0-compat.filter.delta".toList) (b := sFilter1) (by decide +kernel) sCard1 (loadFilters_inters sCard (binMap exInter)))

theorem sPrReady1 : Ready (sAns sPrRaw1 sPr1.bucket) (some .prod) .compat exSrvFs sDb1 :=
  ⟨rfl, _, _, Or.inr ⟨.prod, rfl, sPrUpdate1⟩, load_of (W := sAns sPrRaw1 sPr1.bucket) sPrLoad1 (b := binMap exInter) (by decide +kernel) (by decide +kernel)⟩

theorem sPrReady2 : Ready (sAns sPrRaw2 sPr2.bucket) (some .prod) .compat exSrvFs sDb2 :=
  ⟨rfl, _, _, Or.inr ⟨.prod, rfl, sPrUpdate2⟩, load_of (W := sAns sPrRaw2 sPr2.bucket) sPrLoad2 (b := binMap exInter) (by decide +kernel) (by decide +kernel)⟩

/-- The CRL of the second execution lists the certificate for key compromise. -/
theorem sPrRevokedBy : RevokedBy (sScript true) .priority (issuerID fDigest) [1, 2] := ⟨fun v _ => ⟨_, sFetched v⟩, "http:f".toList, [([1, 2], 1)], 1, sDiscloses _, sFetched _, List.mem_singleton.2 rfl, List.mem_cons_self⟩

/-- The first CRL does not list it. -/
theorem sPrUnlisted {v : Text} {t : List (Serial × UInt8)} {k : UInt8} (h2 : FetchedIn (sE 0) (issuerID fDigest) v t) (h3 : (fCert.serial, k) ∈ t) : False := by
  obtain ⟨u, hu, p, f, l, e1, e2, e3, e4, e5⟩ := h2
  have e2 : some (⟨true, some [], none, 0⟩ : CrlFile) = some f := e2
  cases e2
  cases e4
  cases t with
  | nil => cases h3
  | cons x t => cases e5

/-- After the second execution and publication on this channel: the program updates itself and exits with 1. -/
example : ((sAns sPrRaw2 sPr2.bucket).main (some .prod) .compat (.x509 ["good".toList, "revoked".toList]) exSrvFs).1 = 1 := by
  refine (C122_priority_partial sLib (sAns sPrRaw2 sPr2.bucket) sLib_good exEnrolls exEnrolls_input rfl .prod wMeta_id (fun _ => rfl) sE sTidy sPr2 sPr2_reach (fun _ n _ _ => sPrConditions n) (sAns_lists _ _) exSrvFs sDb2 sPrMirrors2 sPrReady2 [exPrRec0, exPrRec1] sPr2_perm
    exPrState_chain _ "20240102-0".toList exAnsPr_carry rfl [0x30, 2, 0] [5] fCert rfl rfl rfl 1700002800 (by decide +kernel) (fun n _ => sHeld _ _ n _) ?_ ?_ (fun _ _ _ _ _ => sCovers _)).1 ["good".toList, "revoked".toList] "revoked".toList [0x30, 2, 0] (by decide)
    (by decide +kernel) (Or.inl ⟨exAns_plain 2, rfl⟩)
  · intro n hn
    rcases sPrMade2 hn with ⟨_, rfl⟩ | ⟨e, _⟩
    · exact ⟨sScope true, sCovers true, sPrRevokedBy⟩
    · exact absurd e (by decide +kernel)
  · intro x y _ m n hm _ hr _
    rcases sPrMade2 hm with ⟨_, rfl⟩ | ⟨_, rfl⟩
    · exact sPrRevokedBy
    · obtain ⟨_, v, t, k, _, h2, h3, _⟩ := hr
      exact (sPrUnlisted h2 h3).elim

/-- After the first it exits with 0. -/
example : ((sAns sPrRaw1 sPr1.bucket).main (some .prod) .compat (.x509 ["revoked".toList]) exSrvFs).1 = 0 := by
  refine (C122_priority_clear_partial sLib (sAns sPrRaw1 sPr1.bucket) sLib_good exEnrolls exEnrolls_input rfl .prod wMeta_id (fun _ => rfl) sE sTidy sPr1 sPr1_reach (fun _ n _ _ => sPrConditions n) (sAns_lists _ _) exSrvFs sDb1 sPrMirrors1 sPrReady1 [exPrRec0] sPr1_perm
    ⟨rfl, rfl, "i".toList, rfl, trivial⟩ ["20240101-0".toList] "20240101-0".toList ⟨exPrCarries0, trivial⟩ rfl (fun der => der = [0x30, 2, 0]) ?_).1 ["revoked".toList] ?_
  · rintro der rfl c hp
    refine ⟨1700002800, by decide +kernel, ?_⟩
    intro m spki _ hheld hver y hy n hn
    have hc : c = fCert := (Option.some.inj hp).symm
    subst hc
    have hk : spki = [5] := (sHeld _ _ m _).2 spki hheld hver
    subst hk
    obtain ⟨_, rfl⟩ := sPrMade1 hn
    exact ⟨sScope false, fun v t k _ h2 h3 => (sPrUnlisted h2 h3).elim⟩
  · intro f hf
    rw [List.mem_singleton.1 hf]
    exact ⟨[0x30, 2, 0], [0x30, 2, 0], by decide +kernel, Or.inl ⟨exAns_plain 2, rfl⟩, rfl⟩

end Verif.Props
