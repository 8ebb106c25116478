import Verif.Model.Crls
import Verif.Props.Known
import Verif.Props.Storage
/-!
Properties C46 and C47: aggregate-crls.
-/
namespace Verif.Props

/-! ### C47: the distribution point check -/

theorem idpLoop_spec (partition : List Text) (fetch : Text) (uris : List (Option Text)) : ∀ found b,
    idpLoop partition fetch uris found = some b ↔
      (∀ u, some u ∈ uris → u ∈ partition → u = fetch) ∧ (b = true ↔ found = true ∨ (some fetch ∈ uris ∧ fetch ∈ partition)) := by
  induction uris with
  | nil => intro found b; cases b <;> cases found <;> simp [idpLoop]
  | cons o rest ih =>
    intro found b
    cases o with
    | none =>
      unfold idpLoop
      rw [ih found b]
      simp
    | some u =>
      unfold idpLoop
      by_cases hp : partition.contains u = true
      · rw [if_pos hp]
        have hp' : u ∈ partition := by simpa using hp
        by_cases hf : fetch = u
        · rw [if_pos hf, ih true b]
          subst hf
          constructor
          · rintro ⟨h1, h2⟩
            refine ⟨fun v hv hvp => ?_, ?_⟩
            · rcases List.mem_cons.1 hv with e | hv
              · exact Option.some.inj e
              · exact h1 v hv hvp
            · rw [h2]; simp [hp']
          · rintro ⟨h1, h2⟩
            refine ⟨fun v hv hvp => h1 v (by simp [hv]) hvp, ?_⟩
            rw [h2]; simp [hp']
        · rw [if_neg hf]
          constructor
          · intro h; cases h
          · rintro ⟨h1, _⟩
            exact absurd (h1 u (by simp) hp').symm hf
      · rw [if_neg hp, ih found b]
        have hp' : u ∉ partition := by simpa using hp
        constructor
        · rintro ⟨h1, h2⟩
          refine ⟨fun v hv hvp => ?_, ?_⟩
          · rcases List.mem_cons.1 hv with e | hv
            · exact absurd (Option.some.inj e ▸ hvp) hp'
            · exact h1 v hv hvp
          · rw [h2]
            constructor
            · rintro (h | ⟨h, h'⟩)
              · exact Or.inl h
              · exact Or.inr ⟨by simp [h], h'⟩
            · rintro (h | ⟨h, h'⟩)
              · exact Or.inl h
              · rcases List.mem_cons.1 h with e | h
                · exact absurd (Option.some.inj e ▸ h') hp'
                · exact Or.inr ⟨h, h'⟩
        · rintro ⟨h1, h2⟩
          refine ⟨fun v hv hvp => h1 v (by simp [hv]) hvp, ?_⟩
          rw [h2]
          constructor
          · rintro (h | ⟨h, h'⟩)
            · exact Or.inl h
            · rcases List.mem_cons.1 h with e | h
              · exact absurd (Option.some.inj e ▸ h') hp'
              · exact Or.inr ⟨h, h'⟩
          · rintro (h | ⟨h, h'⟩)
            · exact Or.inl h
            · exact Or.inr ⟨by simp [h], h'⟩

/-- **C47 (the check).** For a CRL fetched from one of the issuer's partition URLs, the check accepts iff the CRL's distribution point names that URL and no other URL of the
partition. -/
theorem C47_check_iff (c : CrlFile) (fetch : Text) (partition : List Text) (hf : fetch ∈ partition) :
    checkIdp c fetch partition = true ↔
      ∃ uris, c.idp = some uris ∧ some fetch ∈ uris ∧ ∀ u, some u ∈ uris → u ∈ partition → u = fetch := by
  unfold checkIdp
  cases hc : c.idp with
  | none => simp
  | some uris =>
    dsimp only
    constructor
    · intro h
      cases hl : idpLoop partition fetch uris false with
      | none => rw [hl] at h; cases h
      | some b =>
        rw [hl] at h
        dsimp only at h
        obtain ⟨h1, h2⟩ := (idpLoop_spec partition fetch uris false b).1 hl
        rcases h2.1 h with h3 | ⟨h3, _⟩
        · cases h3
        · exact ⟨uris, rfl, h3, h1⟩
    · rintro ⟨uris', e, h3, h1⟩
      cases e
      rw [(idpLoop_spec partition fetch uris false true).2 ⟨h1, by simp [h3, hf]⟩]

/-- A CRL of another partition is not accepted. -/
theorem C47_other_partition_rejected (c : CrlFile) (fetch other : Text) (partition : List Text) (hf : fetch ∈ partition) (ho : other ∈ partition) (hne : other ≠ fetch)
    (uris : List (Option Text)) (hi : c.idp = some uris) (hm : some other ∈ uris) : checkIdp c fetch partition = false := by
  cases h : checkIdp c fetch partition with
  | false => rfl
  | true =>
    obtain ⟨uris', e, _, h1⟩ := (C47_check_iff c fetch partition hf).1 h
    rw [hi] at e
    cases e
    exact absurd (h1 other hm ho) hne

example : ∃ (c : CrlFile) (fetch other : Text) (partition : List Text), fetch ∈ partition ∧ other ∈ partition ∧ other ≠ fetch ∧ c.idp = some [some other] ∧
    checkIdp c fetch partition = false ∧ checkIdp c other partition = true :=
  ⟨⟨true, some [], some [some ['b']], 0⟩, ['a'], ['b'], [['a'], ['b']], by decide⟩

/-! ### C46: the revoked files -/

/-- Specification: the CRL at `u` was downloaded, is signed by the issuer, and lists exactly the revocations `l`, all of which could be decoded. -/
def CrlLists (disk : Text → Option CrlFile) (u : UrlPath) (l : List (Serial × UInt8)) : Prop :=
  ∃ p c es, u.path = some p ∧ disk p = some c ∧ c.sigOK = true ∧ c.entries = some es ∧
    es.map (fun e => serialAndReason e.1 e.2) = l.map some

theorem processEntries_iff (es : List (Serial × List CrlExtension)) : ∀ l, processEntries es = some l ↔ es.map (fun e => serialAndReason e.1 e.2) = l.map some := by
  induction es with
  | nil => intro l; cases l <;> simp [processEntries]
  | cons e rest ih =>
    intro l
    obtain ⟨s, exts⟩ := e
    unfold processEntries
    cases h1 : serialAndReason s exts with
    | none =>
      cases l <;> simp [h1]
    | some p =>
      dsimp only
      cases h2 : processEntries rest with
      | none =>
        cases l with
        | nil => simp
        | cons q qs =>
          simp only [List.map_cons, h1, reduceCtorEq, List.cons.injEq, Option.some.injEq, false_iff, not_and]
          intro _ h
          rw [(ih qs).2 h] at h2
          cases h2
      | some r =>
        cases l with
        | nil => simp
        | cons q qs =>
          simp only [List.map_cons, h1, List.cons.injEq, Option.some.injEq]
          constructor
          · rintro ⟨rfl, rfl⟩
            exact ⟨rfl, (ih r).1 h2⟩
          · rintro ⟨rfl, h⟩
            rw [(ih qs).2 h] at h2
            exact ⟨rfl, (Option.some.inj h2).symm⟩

/-- One CRL: failed, or its list. -/
theorem treatCrl_spec (disk : Text → Option CrlFile) (part : Bool) (partition : List Text) (u : UrlPath) :
    ((treatCrl disk part partition u).failed = false → CrlLists disk u (treatCrl disk part partition u).serials) ∧
    ∀ l, CrlLists disk u l → (treatCrl disk part partition u).failed = false ∧ (treatCrl disk part partition u).serials = l := by
  unfold treatCrl
  cases hp : u.path with
  | none =>
    refine ⟨(fun h => by cases h), ?_⟩
    rintro l ⟨p, c, es, h1, _⟩
    rw [hp] at h1
    cases h1
  | some p =>
    dsimp only
    unfold loadCrl
    cases hd : disk p with
    | none =>
      refine ⟨(fun h => by cases h), ?_⟩
      rintro l ⟨p', c, es, h1, h2, _⟩
      rw [hp] at h1
      cases h1
      rw [hd] at h2
      cases h2
    | some c =>
      dsimp only
      cases hs : c.sigOK with
      | false =>
        refine ⟨(fun h => by cases h), ?_⟩
        rintro l ⟨p', c', es, h1, h2, h3, _⟩
        rw [hp] at h1
        cases h1
        rw [hd] at h2
        cases h2
        rw [hs] at h3
        cases h3
      | true =>
        simp only [if_true]
        unfold processCRL
        cases he : c.entries with
        | none =>
          refine ⟨(fun h => by cases h), ?_⟩
          rintro l ⟨p', c', es, h1, h2, h3, h4, _⟩
          rw [hp] at h1
          cases h1
          rw [hd] at h2
          cases h2
          rw [he] at h4
          cases h4
        | some es =>
          dsimp only
          cases hes : processEntries es with
          | none =>
            refine ⟨(fun h => by cases h), ?_⟩
            rintro l ⟨p', c', es', h1, h2, h3, h4, h5⟩
            rw [hp] at h1
            cases h1
            rw [hd] at h2
            cases h2
            rw [he] at h4
            cases h4
            rw [(processEntries_iff es l).2 h5] at hes
            cases hes
          | some r =>
            refine ⟨fun _ => ⟨p, c, es, hp, hd, hs, he, (processEntries_iff es r).1 hes⟩, ?_⟩
            rintro l ⟨p', c', es', h1, h2, h3, h4, h5⟩
            rw [hp] at h1
            cases h1
            rw [hd] at h2
            cases h2
            rw [he] at h4
            cases h4
            rw [(processEntries_iff es l).2 h5] at hes
            exact ⟨rfl, (Option.some.inj hes).symm⟩

/-- Specification: all these CRLs are good, and these are their lists, in order. -/
def AllList (disk : Text → Option CrlFile) (us : List UrlPath) (ls : List (List (Serial × UInt8))) : Prop :=
  ∃ ps : List (UrlPath × List (Serial × UInt8)), ps.map Prod.fst = us ∧ ps.map Prod.snd = ls ∧ ∀ p ∈ ps, CrlLists disk p.1 p.2

theorem allList_nil (disk : Text → Option CrlFile) (ls : List (List (Serial × UInt8))) : AllList disk [] ls ↔ ls = [] := by
  constructor
  · rintro ⟨ps, h1, h2, _⟩
    rw [List.map_eq_nil_iff] at h1
    subst h1
    exact h2.symm
  · rintro rfl
    exact ⟨[], rfl, rfl, by simp⟩

theorem allList_snoc (disk : Text → Option CrlFile) (us : List UrlPath) (u : UrlPath) (ls : List (List (Serial × UInt8))) :
    AllList disk (us ++ [u]) ls ↔ ∃ ls' l, ls = ls' ++ [l] ∧ AllList disk us ls' ∧ CrlLists disk u l := by
  constructor
  · rintro ⟨ps, h1, h2, h3⟩
    obtain ⟨p1, p2, rfl, h4, h5⟩ := List.map_eq_append_iff.1 h1
    obtain ⟨x, t, rfl, hx, ht⟩ := List.map_eq_cons_iff.1 h5
    rw [List.map_eq_nil_iff] at ht
    subst ht
    refine ⟨p1.map Prod.snd, x.2, ?_, ⟨p1, h4, rfl, fun p hp => h3 p (by simp [hp])⟩, ?_⟩
    · rw [← h2]; simp
    · rw [← hx]; exact h3 x (by simp)
  · rintro ⟨ls', l, rfl, ⟨ps, h1, h2, h3⟩, hl⟩
    refine ⟨ps ++ [(u, l)], by simp [h1], by simp [h2], ?_⟩
    intro p hp
    rcases List.mem_append.1 hp with hp | hp
    · exact h3 p hp
    · rw [List.mem_singleton.1 hp]; exact hl

/-- What a worker holds after treating `pre`. -/
def Treated (disk : Text → Option CrlFile) (pre : List UrlPath) (failed : Bool) (serials : List (Serial × UInt8)) : Prop :=
  (failed = false → ∃ ls, AllList disk pre ls ∧ serials = ls.flatten) ∧ (failed = true → ¬ ∃ ls, AllList disk pre ls)

theorem treated_step (disk : Text → Option CrlFile) (part : Bool) (partition : List Text) (pre : List UrlPath) (p : UrlPath) (failed : Bool)
    (l : List (Serial × UInt8)) (h : Treated disk pre failed l) :
    Treated disk (pre ++ [p]) (failed || (treatCrl disk part partition p).failed) (l ++ (treatCrl disk part partition p).serials) := by
  obtain ⟨t1, t2⟩ := treatCrl_spec disk part partition p
  refine ⟨fun hf => ?_, fun hf => ?_⟩
  · rw [Bool.or_eq_false_iff] at hf
    obtain ⟨ls, h1, h2⟩ := h.1 hf.1
    refine ⟨ls ++ [(treatCrl disk part partition p).serials], (allList_snoc disk pre p _).2 ⟨ls, _, rfl, h1, t1 hf.2⟩, ?_⟩
    rw [h2]; simp
  · rintro ⟨ls, hls⟩
    obtain ⟨ls', l', _, h1, h2⟩ := (allList_snoc disk pre p ls).1 hls
    rw [Bool.or_eq_true] at hf
    rcases hf with hf | hf
    · exact h.2 hf ⟨ls', h1⟩
    · rw [(t2 l' h2).1] at hf
      cases hf

/-- The file of a unit is as it should be after the unit was treated. -/
def UnitDone (disk : Text → Option CrlFile) (files0 files : Text → Option Text) (u : CrlUnit) : Prop :=
  (∀ ls, AllList disk u.paths ls → files u.issuer = some (storeRevokedCertificateList ls.flatten)) ∧
  ((¬ ∃ ls, AllList disk u.paths ls) → files u.issuer = files0 u.issuer)

/-- The lists are determined. -/
theorem crlLists_unique {disk : Text → Option CrlFile} {u : UrlPath} {l l' : List (Serial × UInt8)} (h : CrlLists disk u l) (h' : CrlLists disk u l') : l = l' := by
  have t := (treatCrl_spec disk false [] u).2
  exact (t l h).2.symm.trans (t l' h').2

theorem allList_unique {disk : Text → Option CrlFile} {us : List UrlPath} {ls ls' : List (List (Serial × UInt8))} (h : AllList disk us ls) (h' : AllList disk us ls') :
    ls = ls' := by
  obtain ⟨ps, h1, h2, h3⟩ := h
  obtain ⟨qs, g1, g2, g3⟩ := h'
  have key : ∀ (ps qs : List (UrlPath × List (Serial × UInt8))), ps.map Prod.fst = qs.map Prod.fst → (∀ p ∈ ps, CrlLists disk p.1 p.2) → (∀ p ∈ qs, CrlLists disk p.1 p.2) →
      ps.map Prod.snd = qs.map Prod.snd := by
    intro ps
    induction ps with
    | nil => intro qs h _ _; cases qs with
      | nil => rfl
      | cons => simp at h
    | cons p ps ih =>
      intro qs h hp hq
      cases qs with
      | nil => simp at h
      | cons q qs =>
        simp only [List.map_cons, List.cons.injEq] at h ⊢
        refine ⟨?_, ih qs h.2 (fun x hx => hp x (by simp [hx])) (fun x hx => hq x (by simp [hx]))⟩
        have a := hp p (by simp)
        have b := hq q (by simp)
        rw [h.1] at a
        exact crlLists_unique a b
  rw [← h2, ← g2]
  exact key ps qs (h1.trans g1.symm) h3 g3

/-- The invariant of the aggregation, unless the process died or a write error went unnoticed. -/
structure CrlInv (disk : Text → Option CrlFile) (units : List CrlUnit) (files0 : Text → Option Text) (a : CrlAgg) : Prop where
  queue : ∀ u ∈ a.queue, u ∈ units
  busy : ∀ (k : Nat) (u : CrlUnit) (todo : List UrlPath) (failed : Bool) (l : List (Serial × UInt8)), a.workers[k]? = some (.busy u todo failed l) →
    u ∈ units ∧ ∃ pre, u.paths = pre ++ todo ∧ Treated disk pre failed l
  files : ∀ u ∈ units, a.files u.issuer = files0 u.issuer ∨ UnitDone disk files0 a.files u
  place : a.cancelled = false → ∀ u ∈ units, u ∈ a.queue ∨ (∃ (k : Nat) (todo : List UrlPath) (failed : Bool) (l : List (Serial × UInt8)),
    a.workers[k]? = some (.busy u todo failed l)) ∨ UnitDone disk files0 a.files u
  stopped : a.cancelled = false → ∀ k : Nat, a.workers[k]? = some .stopped → a.queue = []

theorem unitDone_other {disk : Text → Option CrlFile} {files0 files : Text → Option Text} {v : CrlUnit} {i : Text} {t : Text} (h : v.issuer ≠ i) :
    UnitDone disk files0 (setFile files i t) v ↔ UnitDone disk files0 files v := by
  unfold UnitDone setFile
  simp only [if_neg h]

theorem setFile_self (files : Text → Option Text) (i t : Text) : setFile files i t i = some t := by
  unfold setFile
  rw [if_pos rfl]

theorem setFile_ne (files : Text → Option Text) {i j : Text} (t : Text) (h : j ≠ i) : setFile files i t j = files j := by
  unfold setFile
  rw [if_neg h]

/-- The fields of the state that matter here are kept when only a worker changes from a busy state whose unit is accounted for. -/
theorem crlInv_step (disk : Text → Option CrlFile) (units : List CrlUnit) (hn : (units.map CrlUnit.issuer).Nodup) (files0 : Text → Option Text) (a : CrlAgg) (act : CrlAct)
    (h : CrlInv disk units files0 a) (hf : (a.step disk act).fatal = false) (hs : (a.step disk act).silent = false) : CrlInv disk units files0 (a.step disk act) := by
  have hinj : ∀ u ∈ units, ∀ v ∈ units, u.issuer = v.issuer → u = v := by
    intro u hu v hv e
    obtain ⟨m, hm⟩ := List.getElem?_of_mem hu
    obtain ⟨n, hn'⟩ := List.getElem?_of_mem hv
    have hm1 := (List.getElem?_eq_some_iff.1 hm).1
    have h1 : (units.map CrlUnit.issuer)[m]? = (units.map CrlUnit.issuer)[n]? := by
      rw [List.getElem?_map, List.getElem?_map, hm, hn']
      simp [e]
    have := (List.getElem?_inj (by simpa using hm1) hn).1 h1
    subst this
    rw [hm] at hn'
    exact Option.some.inj hn'
  by_cases hfat : a.fatal = true
  · unfold CrlAgg.step
    rw [if_pos hfat]
    exact h
  · unfold CrlAgg.step at hf hs ⊢
    rw [if_neg hfat] at hf hs ⊢
    cases act with
    | signal =>
      dsimp only
      exact ⟨h.queue, h.busy, h.files, (fun hc => by cases hc), (fun hc => by cases hc)⟩
    | take k =>
      dsimp only at hf hs ⊢
      by_cases hk : a.workers[k]? = some .ready
      · rw [if_pos hk] at hf hs ⊢
        cases hq : a.queue with
        | nil =>
          dsimp only
          refine ⟨by rw [← hq]; exact h.queue, ?_, h.files, ?_, (fun _ _ _ => rfl)⟩
          · intro j u todo failed l hj
            rcases get_set hj with ⟨_, e⟩ | ⟨_, hj⟩
            · cases e
            · exact h.busy j u todo failed l hj
          · intro hc u hu
            rcases h.place hc u hu with h1 | ⟨j, todo, failed, l, h1⟩ | h1
            · rw [hq] at h1; cases h1
            · refine Or.inr (Or.inl ⟨j, todo, failed, l, ?_⟩)
              dsimp only
              rw [get_set_ne (fun (e : j = k) => by rw [e, hk] at h1; cases h1)]
              exact h1
            · exact Or.inr (Or.inr h1)
        | cons w q =>
          dsimp only
          have hwm : w ∈ units := h.queue w (by rw [hq]; simp)
          refine ⟨fun u hu => h.queue u (by rw [hq]; simp [hu]), ?_, h.files, ?_, ?_⟩
          · intro j u todo failed l hj
            rcases get_set hj with ⟨_, e⟩ | ⟨_, hj⟩
            · cases e
              exact ⟨hwm, [], rfl, ⟨fun _ => ⟨[], (allList_nil disk []).2 rfl, rfl⟩, (fun hx => by cases hx)⟩⟩
            · exact h.busy j u todo failed l hj
          · intro hc u hu
            rcases h.place hc u hu with h1 | ⟨j, todo, failed, l, h1⟩ | h1
            · rw [hq] at h1
              rcases List.mem_cons.1 h1 with e | h1
              · exact Or.inr (Or.inl ⟨k, u.paths, false, [], by dsimp only; rw [get_set_self hk, e]⟩)
              · exact Or.inl h1
            · refine Or.inr (Or.inl ⟨j, todo, failed, l, ?_⟩)
              dsimp only
              rw [get_set_ne (fun (e : j = k) => by rw [e, hk] at h1; cases h1)]
              exact h1
            · exact Or.inr (Or.inr h1)
          · intro hc j hj
            rcases get_set hj with ⟨_, e⟩ | ⟨_, hj⟩
            · cases e
            · have := h.stopped hc j hj
              rw [hq] at this
              cases this
      · rw [if_neg hk]
        exact h
    | next k out =>
      dsimp only at hf hs ⊢
      cases hk : a.workers[k]? with
      | none => exact h
      | some w =>
        cases w with
        | ready => exact h
        | stopped => exact h
        | busy u todo failed l =>
          rw [hk] at hf hs
          obtain ⟨hum, pre, hpre, htr⟩ := h.busy k u todo failed l hk
          cases todo with
          | cons p rest =>
            dsimp only at hf hs ⊢
            by_cases hc : a.cancelled = true
            · rw [if_pos hc]
              refine ⟨h.queue, ?_, h.files, ?_, ?_⟩
              · intro j u' todo' failed' l' hj
                rcases get_set hj with ⟨_, e⟩ | ⟨_, hj⟩
                · cases e
                · exact h.busy j u' todo' failed' l' hj
              · intro hc'; dsimp only at hc'; rw [hc] at hc'; cases hc'
              · intro hc'; dsimp only at hc'; rw [hc] at hc'; cases hc'
            · rw [if_neg hc]
              unfold CrlAgg.crl
              dsimp only
              refine ⟨h.queue, ?_, h.files, ?_, ?_⟩
              · intro j u' todo' failed' l' hj
                rcases get_set hj with ⟨_, e⟩ | ⟨_, hj⟩
                · cases e
                  exact ⟨hum, pre ++ [p], by rw [hpre]; simp, treated_step disk _ _ pre p failed l htr⟩
                · exact h.busy j u' todo' failed' l' hj
              · intro hc' v hv
                rcases h.place hc' v hv with h1 | ⟨j, todo', failed', l', h1⟩ | h1
                · exact Or.inl h1
                · by_cases e : j = k
                  · rw [e, hk] at h1
                    cases h1
                    exact Or.inr (Or.inl ⟨k, _, _, _, get_set_self hk⟩)
                  · refine Or.inr (Or.inl ⟨j, todo', failed', l', ?_⟩)
                    dsimp only
                    rw [get_set_ne e]
                    exact h1
                · exact Or.inr (Or.inr h1)
              · intro hc' j hj
                rcases get_set hj with ⟨_, e⟩ | ⟨_, hj⟩
                · cases e
                · exact h.stopped hc' j hj
          | nil =>
            dsimp only at hf hs ⊢
            rw [List.append_nil] at hpre
            -- the unit's file is right afterwards, the other files are unchanged
            have finish : ∀ (files' : Text → Option Text) (s : Bool), UnitDone disk files0 files' u → (∀ i, i ≠ u.issuer → files' i = a.files i) →
                CrlInv disk units files0 { a with files := files', workers := a.workers.set k .ready, silent := s } := by
              intro files' s hd ho
              have hoth : ∀ v ∈ units, v ≠ u → (UnitDone disk files0 a.files v → UnitDone disk files0 files' v) := by
                intro v hv hne hd'
                unfold UnitDone at hd' ⊢
                rw [ho v.issuer (fun e => hne (hinj v hv u hum e))]
                exact hd'
              refine ⟨h.queue, ?_, ?_, ?_, ?_⟩
              · intro j u' todo' failed' l' hj
                rcases get_set hj with ⟨_, e⟩ | ⟨_, hj⟩
                · cases e
                · exact h.busy j u' todo' failed' l' hj
              · intro v hv
                by_cases e : v = u
                · rw [e]; exact Or.inr hd
                · rcases h.files v hv with h1 | h1
                  · refine Or.inl ?_
                    dsimp only
                    rw [ho v.issuer (fun e' => e (hinj v hv u hum e'))]
                    exact h1
                  · exact Or.inr (hoth v hv e h1)
              · intro hc' v hv
                by_cases e : v = u
                · rw [e]; exact Or.inr (Or.inr hd)
                · rcases h.place hc' v hv with h1 | ⟨j, todo', failed', l', h1⟩ | h1
                  · exact Or.inl h1
                  · refine Or.inr (Or.inl ⟨j, todo', failed', l', ?_⟩)
                    dsimp only
                    rw [get_set_ne (fun (ej : j = k) => by rw [ej, hk] at h1; cases h1; exact e rfl)]
                    exact h1
                  · exact Or.inr (Or.inr (hoth v hv e h1))
              · intro hc' j hj
                rcases get_set hj with ⟨_, e⟩ | ⟨_, hj⟩
                · cases e
                · exact h.stopped hc' j hj
            unfold CrlAgg.store at hf hs ⊢
            by_cases hfl : failed = true
            · rw [if_pos hfl]
              have hno := htr.2 hfl
              rw [← hpre] at hno
              refine finish a.files a.silent ⟨fun ls hls => absurd ⟨ls, hls⟩ hno, fun _ => ?_⟩ (fun _ _ => rfl)
              rcases h.files u hum with h1 | h1
              · exact h1
              · exact h1.2 hno
            · rw [if_neg hfl] at hf hs ⊢
              obtain ⟨ls, hls, hl⟩ := htr.1 (by simpa using hfl)
              rw [← hpre] at hls
              cases out with
              | openFails => cases hf
              | opened room stop =>
                dsimp only at hf hs ⊢
                by_cases hc : (a.cancelled && decide (l ≠ [])) = true
                · rw [if_pos hc] at hf; cases hf
                · rw [if_neg hc] at hf hs ⊢
                  by_cases hw : (writeRevokedTo room l).2 = true
                  · rw [if_pos hw] at hs ⊢
                    dsimp only at hs
                    rw [Bool.or_eq_false_iff] at hs
                    have ht : (writeRevokedTo room l).1 = storeRevokedCertificateList l := by
                      have := hs.2
                      simpa using this
                    refine finish _ _ ⟨fun ls' hls' => ?_, fun hno => absurd ⟨ls, hls⟩ hno⟩ (fun i hi => setFile_ne _ _ hi)
                    rw [setFile_self, ht, hl, allList_unique hls hls']
                  · rw [if_neg hw] at hf; cases hf

theorem crlAgg_fatal_mono (disk : Text → Option CrlFile) (acts : List CrlAct) : ∀ a : CrlAgg, a.fatal = true → (a.run disk acts).fatal = true := by
  induction acts with
  | nil => intro a h; exact h
  | cons x xs ih =>
    intro a h
    refine ih _ ?_
    unfold CrlAgg.step
    rw [if_pos h]
    exact h

theorem crlAgg_silent_step (disk : Text → Option CrlFile) (a : CrlAgg) (act : CrlAct) (h : a.silent = true) : (a.step disk act).silent = true := by
  unfold CrlAgg.step
  split
  · exact h
  · cases act with
    | signal => exact h
    | take k =>
      dsimp only
      split
      · split <;> exact h
      · exact h
    | next k out =>
      dsimp only
      split
      · unfold CrlAgg.store
        split
        · exact h
        · split
          · exact h
          · split
            · exact h
            · split
              · dsimp only; rw [h]; rfl
              · exact h
      · split
        · exact h
        · exact h
      · exact h

theorem crlAgg_silent_mono (disk : Text → Option CrlFile) (acts : List CrlAct) : ∀ a : CrlAgg, a.silent = true → (a.run disk acts).silent = true := by
  induction acts with
  | nil => intro a h; exact h
  | cons x xs ih => intro a h; exact ih _ (crlAgg_silent_step disk a x h)

theorem crlInv_run (disk : Text → Option CrlFile) (units : List CrlUnit) (hn : (units.map CrlUnit.issuer).Nodup) (files0 : Text → Option Text) (acts : List CrlAct) :
    ∀ a : CrlAgg, CrlInv disk units files0 a → (a.run disk acts).fatal = false → (a.run disk acts).silent = false → CrlInv disk units files0 (a.run disk acts) := by
  induction acts with
  | nil => intro a h _ _; exact h
  | cons x xs ih =>
    intro a h hf hs
    have hf1 : (a.step disk x).fatal = false := by
      cases hh : (a.step disk x).fatal with
      | false => rfl
      | true => rw [show (a.run disk (x :: xs)).fatal = true from crlAgg_fatal_mono disk xs _ hh] at hf; cases hf
    have hs1 : (a.step disk x).silent = false := by
      cases hh : (a.step disk x).silent with
      | false => rfl
      | true => rw [show (a.run disk (x :: xs)).silent = true from crlAgg_silent_mono disk xs _ hh] at hs; cases hs
    exact ih _ (crlInv_step disk units hn files0 a x h hf1 hs1) hf hs

theorem crlInv_init (disk : Text → Option CrlFile) (units : List CrlUnit) (threads : Nat) (files0 : Text → Option Text) :
    CrlInv disk units files0 (CrlAgg.init units threads files0) := by
  refine ⟨fun u hu => hu, ?_, fun u _ => Or.inl rfl, fun _ u hu => Or.inl hu, ?_⟩
  · intro k u todo failed l hk
    have := get_replicate hk
    cases this
  · intro _ k hk
    have := get_replicate hk
    cases this

theorem crlAgg_workers_length (disk : Text → Option CrlFile) (acts : List CrlAct) : ∀ a : CrlAgg, (a.run disk acts).workers.length = a.workers.length := by
  induction acts with
  | nil => intro a; rfl
  | cons x xs ih =>
    intro a
    refine (ih _).trans ?_
    unfold CrlAgg.step
    split
    · rfl
    · cases x with
      | signal => rfl
      | take k =>
        dsimp only
        split
        · split <;> simp
        · rfl
      | next k out =>
        dsimp only
        split
        · unfold CrlAgg.store
          split
          · simp
          · split
            · rfl
            · split
              · rfl
              · split <;> simp
        · split
          · simp
          · unfold CrlAgg.crl; simp
        · rfl

/-- When the workers have finished, uninterrupted, each unit's file is right. -/
theorem crl_all_done (disk : Text → Option CrlFile) (units : List CrlUnit) (hn : (units.map CrlUnit.issuer).Nodup) (threads : Nat) (h1 : 1 ≤ threads)
    (files0 : Text → Option Text) (acts : List CrlAct) (hr : ((CrlAgg.init units threads files0).run disk acts).returned = true)
    (hc : ((CrlAgg.init units threads files0).run disk acts).cancelled = false)
    (hs : ((CrlAgg.init units threads files0).run disk acts).silent = false) (u : CrlUnit) (hu : u ∈ units) :
    UnitDone disk files0 ((CrlAgg.init units threads files0).run disk acts).files u := by
  have hlen := crlAgg_workers_length disk acts (CrlAgg.init units threads files0)
  have inv := crlInv_run disk units hn files0 acts _ (crlInv_init disk units threads files0)
  generalize (CrlAgg.init units threads files0).run disk acts = a at *
  unfold CrlAgg.returned at hr
  rw [Bool.and_eq_true, List.all_eq_true] at hr
  have inv := inv (by simpa using hr.1) hs
  have hst : ∀ (k : Nat) (w : CWorker), a.workers[k]? = some w → w = .stopped := fun k w hw => by simpa using hr.2 w (List.mem_of_getElem? hw)
  have hlen : a.workers.length = threads := by rw [hlen]; simp [CrlAgg.init]
  have h0 : a.workers[0]? = some .stopped := by
    have h0 := List.getElem?_eq_getElem (l := a.workers) (i := 0) (by omega)
    rw [h0, hst 0 _ h0]
  rcases inv.place hc u hu with h2 | ⟨k, todo, failed, l, h2⟩ | h2
  · rw [inv.stopped hc 0 h0] at h2; cases h2
  · have := hst k _ h2; cases this
  · exact h2

/-- **C46 (uninterrupted, no unnoticed write error).** The aggregation starts with a directory without the issuer's file, and ends. Then the file of an issuer exists iff every one of its CRLs
was downloaded, is signed by the issuer, and could be decoded; and its content is exactly the revocations those CRLs list. This is for any number of issuers, CRLs and workers, in any
interleaving. Missing: interruption (`C46_interrupted_fails`), a failing last flush (`C46_last_flush_fails`), and the clause about enrolment, which is false
(`C46_enrolled_anyway_fails`). -/
theorem C46_file_iff_partial (disk : Text → Option CrlFile) (units : List CrlUnit) (hn : (units.map CrlUnit.issuer).Nodup) (threads : Nat) (h1 : 1 ≤ threads)
    (files0 : Text → Option Text) (acts : List CrlAct) (hr : ((CrlAgg.init units threads files0).run disk acts).returned = true)
    (hc : ((CrlAgg.init units threads files0).run disk acts).cancelled = false)
    (hs : ((CrlAgg.init units threads files0).run disk acts).silent = false) (u : CrlUnit) (hu : u ∈ units) (h0 : files0 u.issuer = none) (t : Text) :
    ((CrlAgg.init units threads files0).run disk acts).files u.issuer = some t ↔
      ∃ ls, AllList disk u.paths ls ∧ t = storeRevokedCertificateList ls.flatten := by
  have hd := crl_all_done disk units hn threads h1 files0 acts hr hc hs u hu
  constructor
  · intro ht
    by_cases hex : ∃ ls, AllList disk u.paths ls
    · obtain ⟨ls, hls⟩ := hex
      rw [hd.1 ls hls] at ht
      exact ⟨ls, hls, (Option.some.inj ht).symm⟩
    · rw [hd.2 hex, h0] at ht
      cases ht
  · rintro ⟨ls, hls, rfl⟩
    exact hd.1 ls hls

theorem allList_mem {disk : Text → Option CrlFile} {us : List UrlPath} {ls : List (List (Serial × UInt8))} (h : AllList disk us ls) (x : Serial × UInt8) :
    x ∈ ls.flatten ↔ ∃ u ∈ us, ∃ l, CrlLists disk u l ∧ x ∈ l := by
  obtain ⟨ps, rfl, rfl, h3⟩ := h
  rw [List.mem_flatten]
  constructor
  · rintro ⟨l, hl, hx⟩
    obtain ⟨p, hp, rfl⟩ := List.mem_map.1 hl
    exact ⟨p.1, List.mem_map.2 ⟨p, hp, rfl⟩, p.2, h3 p hp, hx⟩
  · rintro ⟨u, hu, l, hl, hx⟩
    obtain ⟨p, hp, rfl⟩ := List.mem_map.1 hu
    rw [crlLists_unique hl (h3 p hp)] at hx
    exact ⟨p.2, List.mem_map.2 ⟨p, hp, rfl⟩, hx⟩

/-- **C46 (what the filter builder reads).** In that situation, if all CRLs of an issuer are good, the filter builder reads from the issuer's file a serial as revoked iff one of the CRLs
lists it with a reason code of the reason set. -/
theorem C46_read_back_partial (disk : Text → Option CrlFile) (units : List CrlUnit) (hn : (units.map CrlUnit.issuer).Nodup) (threads : Nat) (h1 : 1 ≤ threads)
    (files0 : Text → Option Text) (acts : List CrlAct) (hr : ((CrlAgg.init units threads files0).run disk acts).returned = true)
    (hc : ((CrlAgg.init units threads files0).run disk acts).cancelled = false)
    (hs : ((CrlAgg.init units threads files0).run disk acts).silent = false) (u : CrlUnit) (hu : u ∈ units)
    (hgood : ∀ p ∈ u.paths, ∃ l, CrlLists disk p l) (rs : ReasonSet) (s : Serial) :
    ∃ t entries, ((CrlAgg.init units threads files0).run disk acts).files u.issuer = some t ∧ readRevokedFile rs t = some entries ∧
      ((∃ r, (hexEncode s, r) ∈ entries) ↔ ∃ p ∈ u.paths, ∃ l c, CrlLists disk p l ∧ (s, c) ∈ l ∧ codesOf rs c.toNat) := by
  have hall : ∀ us : List UrlPath, (∀ p ∈ us, ∃ l, CrlLists disk p l) → ∃ ls, AllList disk us ls := by
    intro us
    induction us with
    | nil => intro _; exact ⟨[], (allList_nil disk []).2 rfl⟩
    | cons p ps ih =>
      intro hg
      obtain ⟨l, hl⟩ := hg p (by simp)
      obtain ⟨ls, qs, e1, e2, e3⟩ := ih (fun q hq => hg q (by simp [hq]))
      exact ⟨l :: ls, (p, l) :: qs, by simp [e1], by simp [e2], by
        intro q hq
        rcases List.mem_cons.1 hq with rfl | hq
        · exact hl
        · exact e3 q hq⟩
  obtain ⟨ls, hls⟩ := hall u.paths hgood
  have hd := (crl_all_done disk units hn threads h1 files0 acts hr hc hs u hu).1 ls hls
  refine ⟨_, _, hd, C06_revoked_file_roundtrip rs _, ?_⟩
  have hiff := C06_revoked_serial_iff rs ls.flatten s
  rw [C06_revoked_file_roundtrip] at hiff
  have h2 : (∃ r, (hexEncode s, r) ∈ (ls.flatten.filter (fun p => !skipReason rs (Reason.ofCode p.2.toNat))).map (fun p => (hexEncode p.1, Reason.ofCode p.2.toNat))) ↔
      ∃ c, (s, c) ∈ ls.flatten ∧ codesOf rs c.toNat := by
    rw [← hiff]
    constructor
    · intro h; exact ⟨_, rfl, h⟩
    · rintro ⟨_, e, h⟩
      rw [← Option.some.inj e] at h
      exact h
  rw [h2]
  constructor
  · rintro ⟨c, h3, h4⟩
    obtain ⟨p, hp, l, hl, hx⟩ := (allList_mem hls (s, c)).1 h3
    exact ⟨p, hp, l, c, hl, hx, h4⟩
  · rintro ⟨p, hp, l, c, hl, hx, h4⟩
    exact ⟨c, (allList_mem hls (s, c)).2 ⟨p, hp, l, hl, hx⟩, h4⟩

/-- **C46 (interrupted).** As long as the process has not died in the middle of a write and no write error went unnoticed, no file is ever partial: each issuer's file is the old one, or holds
all revocations of all the issuer's CRLs, which were all good. -/
theorem C46_no_partial_file (disk : Text → Option CrlFile) (units : List CrlUnit) (hn : (units.map CrlUnit.issuer).Nodup) (threads : Nat)
    (files0 : Text → Option Text) (acts : List CrlAct) (hf : ((CrlAgg.init units threads files0).run disk acts).fatal = false)
    (hs : ((CrlAgg.init units threads files0).run disk acts).silent = false) (u : CrlUnit) (hu : u ∈ units) :
    ((CrlAgg.init units threads files0).run disk acts).files u.issuer = files0 u.issuer ∨
    ∃ ls, AllList disk u.paths ls ∧ ((CrlAgg.init units threads files0).run disk acts).files u.issuer = some (storeRevokedCertificateList ls.flatten) := by
  have inv := crlInv_run disk units hn files0 acts _ (crlInv_init disk units threads files0) hf hs
  rcases inv.files u hu with h | h
  · exact Or.inl h
  · by_cases hex : ∃ ls, AllList disk u.paths ls
    · obtain ⟨ls, hls⟩ := hex
      exact Or.inr ⟨ls, hls, h.1 ls hls⟩
    · exact Or.inl (h.2 hex)

/-! #### from the map of CRL URLs -/

/-- All files written belong to units. -/
structure CrlWithin (units : List CrlUnit) (files0 : Text → Option Text) (a : CrlAgg) : Prop where
  queue : ∀ u ∈ a.queue, u ∈ units
  busy : ∀ (k : Nat) (u : CrlUnit) (todo : List UrlPath) (failed : Bool) (l : List (Serial × UInt8)), a.workers[k]? = some (.busy u todo failed l) → u ∈ units
  files : ∀ i, i ∉ units.map CrlUnit.issuer → a.files i = files0 i

theorem crlWithin_workers {units : List CrlUnit} {files0 : Text → Option Text} {a : CrlAgg} (h : CrlWithin units files0 a) (k : Nat) (w : CWorker)
    (hw : ∀ u todo failed l, w = .busy u todo failed l → u ∈ units) (q : List CrlUnit) (hq : ∀ u ∈ q, u ∈ units) (files' : Text → Option Text)
    (hf : ∀ i, i ∉ units.map CrlUnit.issuer → files' i = a.files i) (c s f : Bool) (au : List (Text × Text × AuditKind)) :
    CrlWithin units files0 { queue := q, workers := a.workers.set k w, cancelled := c, files := files', audit := au, fatal := f, silent := s } := by
  refine ⟨hq, ?_, ?_⟩
  · intro j u todo failed l hj
    rcases get_set hj with ⟨_, e⟩ | ⟨_, hj⟩
    · exact hw u todo failed l e.symm
    · exact h.busy j u todo failed l hj
  · intro i hi
    dsimp only
    rw [hf i hi]
    exact h.files i hi

theorem crlWithin_files {units : List CrlUnit} {files0 : Text → Option Text} {a : CrlAgg} (h : CrlWithin units files0 a) (files' : Text → Option Text)
    (hf : ∀ i, i ∉ units.map CrlUnit.issuer → files' i = a.files i) (f : Bool) : CrlWithin units files0 { a with files := files', fatal := f } := by
  refine ⟨h.queue, h.busy, ?_⟩
  intro i hi
  dsimp only
  rw [hf i hi]
  exact h.files i hi

theorem crlWithin_step (disk : Text → Option CrlFile) (units : List CrlUnit) (files0 : Text → Option Text) (a : CrlAgg) (act : CrlAct) (h : CrlWithin units files0 a) :
    CrlWithin units files0 (a.step disk act) := by
  unfold CrlAgg.step
  split
  · exact h
  · cases act with
    | signal => exact ⟨h.queue, h.busy, h.files⟩
    | take k =>
      dsimp only
      split
      · split
        · rename_i hq
          refine crlWithin_workers h k .stopped (fun _ _ _ _ e => by cases e) _ ?_ _ (fun _ _ => rfl) _ _ _ _
          exact h.queue
        · rename_i u q hq
          refine crlWithin_workers h k _ ?_ q (fun v hv => h.queue v (by rw [hq]; simp [hv])) _ (fun _ _ => rfl) _ _ _ _
          intro v _ _ _ e
          cases e
          exact h.queue _ (by rw [hq]; simp)
      · exact h
    | next k out =>
      dsimp only
      split
      · rename_i u failed l hk
        have hu := h.busy k _ _ _ _ hk
        have hset : ∀ t i, i ∉ units.map CrlUnit.issuer → setFile a.files u.issuer t i = a.files i := by
          intro t i hi
          exact setFile_ne _ _ (fun e => hi (e ▸ List.mem_map.2 ⟨u, hu, rfl⟩))
        unfold CrlAgg.store
        split
        · exact crlWithin_workers h k .ready (fun _ _ _ _ e => by cases e) _ h.queue _ (fun _ _ => rfl) _ _ _ _
        · split
          · exact crlWithin_files h a.files (fun _ _ => rfl) true
          · split
            · exact crlWithin_files h _ (hset _) true
            · split
              · exact crlWithin_workers h k .ready (fun _ _ _ _ e => by cases e) _ h.queue _ (hset _) _ _ _ _
              · exact crlWithin_files h _ (hset _) true
      · rename_i u p rest failed l hk
        have hu := h.busy k _ _ _ _ hk
        split
        · exact crlWithin_workers h k .stopped (fun _ _ _ _ e => by cases e) _ h.queue _ (fun _ _ => rfl) _ _ _ _
        · refine crlWithin_workers h k _ ?_ _ h.queue _ (fun _ _ => rfl) _ _ _ _
          intro v _ _ _ e
          cases e
          exact hu
      · exact h

/-- **C46.** Whatever happens, files of issuers without CRLs are not touched. -/
theorem C46_no_other_files (disk : Text → Option CrlFile) (units : List CrlUnit) (threads : Nat) (files0 : Text → Option Text) (acts : List CrlAct) (i : Text)
    (hi : i ∉ units.map CrlUnit.issuer) : ((CrlAgg.init units threads files0).run disk acts).files i = files0 i := by
  have key : ∀ (acts : List CrlAct) (a : CrlAgg), CrlWithin units files0 a → CrlWithin units files0 (a.run disk acts) := by
    intro acts
    induction acts with
    | nil => intro a h; exact h
    | cons x xs ih => intro a h; exact ih _ (crlWithin_step disk units files0 a x h)
  refine (key acts _ ⟨fun u hu => hu, ?_, fun _ _ => rfl⟩).files i hi
  intro k u todo failed l hk
  have := get_replicate hk
  cases this

theorem crlUnits_mem (parse : Text → Option Text) (fetch : Text → Text → Option Text) (part : Text → Bool) (m : List (Text × List Text)) (u : CrlUnit) :
    u ∈ crlUnits parse fetch part m ↔ ∃ e ∈ m, parseUrls parse e.2 ≠ [] ∧
      u = { issuer := e.1, partitioned := part e.1, paths := (parseUrls parse e.2).map (fun v => { url := v, path := fetch e.1 v }) } := by
  induction m with
  | nil => simp [crlUnits]
  | cons e rest ih =>
    obtain ⟨i, urls⟩ := e
    unfold crlUnits
    by_cases h : parseUrls parse urls = []
    · rw [if_pos h, ih]
      constructor
      · rintro ⟨e, he, h1⟩; exact ⟨e, by simp [he], h1⟩
      · rintro ⟨e, he, h1, h2⟩
        rcases List.mem_cons.1 he with rfl | he
        · exact absurd h h1
        · exact ⟨e, he, h1, h2⟩
    · rw [if_neg h, List.mem_cons, ih]
      constructor
      · rintro (rfl | ⟨e, he, h1⟩)
        · exact ⟨(i, urls), by simp, h, rfl⟩
        · exact ⟨e, by simp [he], h1⟩
      · rintro ⟨e, he, h1, h2⟩
        rcases List.mem_cons.1 he with rfl | he
        · exact Or.inl h2
        · exact Or.inr ⟨e, he, h1, h2⟩

theorem crlUnits_issuers (parse : Text → Option Text) (fetch : Text → Text → Option Text) (part : Text → Bool) (m : List (Text × List Text)) :
    ((crlUnits parse fetch part m).map CrlUnit.issuer).Sublist (m.map Prod.fst) := by
  induction m with
  | nil => exact List.Sublist.refl _
  | cons e rest ih =>
    obtain ⟨i, urls⟩ := e
    unfold crlUnits
    split
    · exact ih.cons i
    · exact ih.cons_cons i

/-- **C46 (from the map of CRL URLs; uninterrupted, no unnoticed write error).** An issuer gets a revoked file iff it has a CRL URL that parses and every CRL named by such a URL was downloaded,
is signed by the issuer, and could be decoded. -/
theorem C46_from_map_partial (disk : Text → Option CrlFile) (parse : Text → Option Text) (fetch : Text → Text → Option Text) (part : Text → Bool)
    (m : List (Text × List Text)) (hn : (m.map Prod.fst).Nodup) (threads : Nat) (h1 : 1 ≤ threads) (files0 : Text → Option Text) (acts : List CrlAct)
    (hr : ((CrlAgg.init (crlUnits parse fetch part m) threads files0).run disk acts).returned = true)
    (hc : ((CrlAgg.init (crlUnits parse fetch part m) threads files0).run disk acts).cancelled = false)
    (hs : ((CrlAgg.init (crlUnits parse fetch part m) threads files0).run disk acts).silent = false) (i : Text) (urls : List Text) (hi : (i, urls) ∈ m)
    (h0 : files0 i = none) :
    (∃ t, ((CrlAgg.init (crlUnits parse fetch part m) threads files0).run disk acts).files i = some t) ↔
      (∃ x ∈ urls, ∃ v, parse x = some v) ∧ ∀ x ∈ urls, ∀ v, parse x = some v → ∃ l, CrlLists disk { url := v, path := fetch i v } l := by
  have hn' := (crlUnits_issuers parse fetch part m).nodup hn
  have hmem : ∀ v, v ∈ parseUrls parse urls ↔ ∃ x ∈ urls, parse x = some v := fun v => List.mem_filterMap
  by_cases hp : parseUrls parse urls = []
  · have hnot : i ∉ (crlUnits parse fetch part m).map CrlUnit.issuer := by
      intro h
      obtain ⟨u, hu, e⟩ := List.mem_map.1 h
      obtain ⟨x, hx, hne, rfl⟩ := (crlUnits_mem parse fetch part m u).1 hu
      dsimp only at e
      obtain ⟨a, ha⟩ := List.getElem?_of_mem hx
      obtain ⟨b, hb⟩ := List.getElem?_of_mem hi
      have ha1 := (List.getElem?_eq_some_iff.1 ha).1
      have hab : (m.map Prod.fst)[a]? = (m.map Prod.fst)[b]? := by
        rw [List.getElem?_map, List.getElem?_map, ha, hb]
        simp [e]
      have := (List.getElem?_inj (by simpa using ha1) hn).1 hab
      subst this
      rw [ha] at hb
      cases hb
      exact hne hp
    rw [C46_no_other_files disk _ threads files0 acts i hnot, h0]
    constructor
    · rintro ⟨t, h⟩; cases h
    · rintro ⟨⟨x, hx, v, hv⟩, _⟩
      have := (hmem v).2 ⟨x, hx, hv⟩
      rw [hp] at this
      cases this
  · have hu := (crlUnits_mem parse fetch part m _).2 ⟨(i, urls), hi, hp, rfl⟩
    dsimp only at hu
    have hiff := C46_file_iff_partial disk _ hn' threads h1 files0 acts hr hc hs _ hu h0
    dsimp only at hiff
    constructor
    · rintro ⟨t, ht⟩
      obtain ⟨ls, ⟨ps, e1, _, e3⟩, _⟩ := (hiff t).1 ht
      refine ⟨?_, ?_⟩
      · cases hpu : parseUrls parse urls with
        | nil => exact absurd hpu hp
        | cons v vs =>
          obtain ⟨x, hx, hv⟩ := (hmem v).1 (by rw [hpu]; simp)
          exact ⟨x, hx, v, hv⟩
      · intro x hx v hv
        have : ({ url := v, path := fetch i v } : UrlPath) ∈ ps.map Prod.fst := by
          rw [e1]
          exact List.mem_map.2 ⟨v, (hmem v).2 ⟨x, hx, hv⟩, rfl⟩
        obtain ⟨p, hp', e⟩ := List.mem_map.1 this
        exact ⟨p.2, e ▸ e3 p hp'⟩
    · rintro ⟨_, hg⟩
      obtain ⟨t, _, ht, _⟩ := C46_read_back_partial disk _ hn' threads h1 files0 acts hr hc hs _ hu (by
        intro p hp'
        obtain ⟨v, hv, rfl⟩ := List.mem_map.1 hp'
        obtain ⟨x, hx, e⟩ := (hmem v).1 hv
        exact hg x hx v e) .all []
      exact ⟨t, ht⟩

/-! #### the audit report -/

/-- The entries for one CRL are in the report. -/
def Reported (disk : Text → Option CrlFile) (audit : List (Text × Text × AuditKind)) (u : CrlUnit) (p : UrlPath) : Prop :=
  ∀ e ∈ (treatCrl disk u.partitioned u.partition p).audit, (u.issuer, p.url, e) ∈ audit

structure CrlAud (disk : Text → Option CrlFile) (units : List CrlUnit) (a : CrlAgg) : Prop where
  queue : ∀ u ∈ a.queue, u ∈ units
  busy : ∀ (k : Nat) (u : CrlUnit) (todo : List UrlPath) (failed : Bool) (l : List (Serial × UInt8)), a.workers[k]? = some (.busy u todo failed l) →
    u ∈ units ∧ ∃ pre, u.paths = pre ++ todo ∧ ∀ p ∈ pre, Reported disk a.audit u p
  sound : ∀ x ∈ a.audit, ∃ u ∈ units, u.issuer = x.1 ∧ ∃ p ∈ u.paths, p.url = x.2.1 ∧ x.2.2 ∈ (treatCrl disk u.partitioned u.partition p).audit
  place : a.cancelled = false → a.fatal = false → ∀ u ∈ units, u ∈ a.queue ∨ (∃ (k : Nat) (todo : List UrlPath) (failed : Bool) (l : List (Serial × UInt8)),
    a.workers[k]? = some (.busy u todo failed l)) ∨ ∀ p ∈ u.paths, Reported disk a.audit u p
  stopped : a.cancelled = false → ∀ k : Nat, a.workers[k]? = some .stopped → a.queue = []

theorem crlAud_ready {disk : Text → Option CrlFile} {units : List CrlUnit} {a : CrlAgg} {k : Nat} {u : CrlUnit} {failed : Bool} {l : List (Serial × UInt8)}
    (h : CrlAud disk units a) (hk : a.workers[k]? = some (.busy u [] failed l)) (files' : Text → Option Text) (s : Bool) :
    CrlAud disk units { a with files := files', workers := a.workers.set k .ready, silent := s } := by
  obtain ⟨hum, pre, hpre, hrep⟩ := h.busy k u [] failed l hk
  rw [List.append_nil] at hpre
  refine ⟨h.queue, ?_, h.sound, ?_, ?_⟩
  · intro j u' todo' failed' l' hj
    rcases get_set hj with ⟨_, e⟩ | ⟨_, hj⟩
    · cases e
    · exact h.busy j u' todo' failed' l' hj
  · intro hc hf v hv
    rcases h.place hc hf v hv with h1 | ⟨j, todo', failed', l', h1⟩ | h1
    · exact Or.inl h1
    · by_cases e : j = k
      · rw [e, hk] at h1
        cases h1
        exact Or.inr (Or.inr (fun p hp => hrep p (hpre ▸ hp)))
      · refine Or.inr (Or.inl ⟨j, todo', failed', l', ?_⟩)
        dsimp only
        rw [get_set_ne e]
        exact h1
    · exact Or.inr (Or.inr h1)
  · intro hc j hj
    rcases get_set hj with ⟨_, e⟩ | ⟨_, hj⟩
    · cases e
    · exact h.stopped hc j hj

theorem crlAud_fatal {disk : Text → Option CrlFile} {units : List CrlUnit} {a : CrlAgg} (h : CrlAud disk units a) (files' : Text → Option Text) :
    CrlAud disk units { a with files := files', fatal := true } :=
  ⟨h.queue, h.busy, h.sound, (fun _ hf => by cases hf), h.stopped⟩

theorem crlAud_step (disk : Text → Option CrlFile) (units : List CrlUnit) (a : CrlAgg) (act : CrlAct) (h : CrlAud disk units a) :
    CrlAud disk units (a.step disk act) := by
  unfold CrlAgg.step
  by_cases hfat : a.fatal = true
  · rw [if_pos hfat]; exact h
  · rw [if_neg hfat]
    cases act with
    | signal => exact ⟨h.queue, h.busy, h.sound, (fun hc => by cases hc), (fun hc => by cases hc)⟩
    | take k =>
      dsimp only
      by_cases hk : a.workers[k]? = some .ready
      · rw [if_pos hk]
        cases hq : a.queue with
        | nil =>
          dsimp only
          refine ⟨by rw [← hq]; exact h.queue, ?_, h.sound, ?_, (fun _ _ _ => rfl)⟩
          · intro j u todo failed l hj
            rcases get_set hj with ⟨_, e⟩ | ⟨_, hj⟩
            · cases e
            · exact h.busy j u todo failed l hj
          · intro hc hf u hu
            rcases h.place hc hf u hu with h1 | ⟨j, todo, failed, l, h1⟩ | h1
            · rw [hq] at h1; cases h1
            · refine Or.inr (Or.inl ⟨j, todo, failed, l, ?_⟩)
              dsimp only
              rw [get_set_ne (fun (e : j = k) => by rw [e, hk] at h1; cases h1)]
              exact h1
            · exact Or.inr (Or.inr h1)
        | cons w q =>
          dsimp only
          refine ⟨fun u hu => h.queue u (by rw [hq]; simp [hu]), ?_, h.sound, ?_, ?_⟩
          · intro j u todo failed l hj
            rcases get_set hj with ⟨_, e⟩ | ⟨_, hj⟩
            · cases e
              exact ⟨h.queue _ (by rw [hq]; simp), [], rfl, (fun p hp => by cases hp)⟩
            · exact h.busy j u todo failed l hj
          · intro hc hf u hu
            rcases h.place hc hf u hu with h1 | ⟨j, todo, failed, l, h1⟩ | h1
            · rw [hq] at h1
              rcases List.mem_cons.1 h1 with e | h1
              · exact Or.inr (Or.inl ⟨k, u.paths, false, [], by dsimp only; rw [get_set_self hk, e]⟩)
              · exact Or.inl h1
            · refine Or.inr (Or.inl ⟨j, todo, failed, l, ?_⟩)
              dsimp only
              rw [get_set_ne (fun (e : j = k) => by rw [e, hk] at h1; cases h1)]
              exact h1
            · exact Or.inr (Or.inr h1)
          · intro hc j hj
            rcases get_set hj with ⟨_, e⟩ | ⟨_, hj⟩
            · cases e
            · have := h.stopped hc j hj
              rw [hq] at this
              cases this
      · rw [if_neg hk]; exact h
    | next k out =>
      dsimp only
      cases hk : a.workers[k]? with
      | none => exact h
      | some w =>
        cases w with
        | ready => exact h
        | stopped => exact h
        | busy u todo failed l =>
          cases todo with
          | nil =>
            dsimp only
            unfold CrlAgg.store
            split
            · exact crlAud_ready h hk a.files a.silent
            · split
              · exact crlAud_fatal h a.files
              · split
                · exact crlAud_fatal h _
                · split
                  · exact crlAud_ready h hk _ _
                  · exact crlAud_fatal h _
          | cons p rest =>
            obtain ⟨hum, pre, hpre, hrep⟩ := h.busy k u (p :: rest) failed l hk
            dsimp only
            by_cases hc : a.cancelled = true
            · rw [if_pos hc]
              refine ⟨h.queue, ?_, h.sound, ?_, ?_⟩
              · intro j u' todo' failed' l' hj
                rcases get_set hj with ⟨_, e⟩ | ⟨_, hj⟩
                · cases e
                · exact h.busy j u' todo' failed' l' hj
              · intro hc'; dsimp only at hc'; rw [hc] at hc'; cases hc'
              · intro hc'; dsimp only at hc'; rw [hc] at hc'; cases hc'
            · rw [if_neg hc]
              unfold CrlAgg.crl
              dsimp only
              have hmono : ∀ (v : CrlUnit) (q : UrlPath), Reported disk a.audit v q →
                  Reported disk (a.audit ++ (treatCrl disk u.partitioned u.partition p).audit.map (fun e => (u.issuer, p.url, e))) v q :=
                fun v q hv e he => List.mem_append_left _ (hv e he)
              refine ⟨h.queue, ?_, ?_, ?_, ?_⟩
              · intro j u' todo' failed' l' hj
                rcases get_set hj with ⟨_, e⟩ | ⟨_, hj⟩
                · cases e
                  refine ⟨hum, pre ++ [p], by rw [hpre]; simp, ?_⟩
                  intro q hq
                  rcases List.mem_append.1 hq with hq | hq
                  · exact hmono _ _ (hrep q hq)
                  · rw [List.mem_singleton.1 hq]
                    intro e he
                    exact List.mem_append_right _ (List.mem_map.2 ⟨e, he, rfl⟩)
                · obtain ⟨g1, pre', g2, g3⟩ := h.busy j u' todo' failed' l' hj
                  exact ⟨g1, pre', g2, fun q hq => hmono _ _ (g3 q hq)⟩
              · intro x hx
                rcases List.mem_append.1 hx with hx | hx
                · exact h.sound x hx
                · obtain ⟨e, he, rfl⟩ := List.mem_map.1 hx
                  exact ⟨u, hum, rfl, p, by rw [hpre]; simp, rfl, he⟩
              · intro hc' hf v hv
                rcases h.place hc' hf v hv with h1 | ⟨j, todo', failed', l', h1⟩ | h1
                · exact Or.inl h1
                · by_cases e : j = k
                  · rw [e, hk] at h1
                    cases h1
                    exact Or.inr (Or.inl ⟨k, _, _, _, get_set_self hk⟩)
                  · refine Or.inr (Or.inl ⟨j, todo', failed', l', ?_⟩)
                    dsimp only
                    rw [get_set_ne e]
                    exact h1
                · exact Or.inr (Or.inr (fun q hq => hmono _ _ (h1 q hq)))
              · intro hc' j hj
                rcases get_set hj with ⟨_, e⟩ | ⟨_, hj⟩
                · cases e
                · exact h.stopped hc' j hj

theorem wrongIdp_mem (disk : Text → Option CrlFile) (part : Bool) (partition : List Text) (p : UrlPath) :
    AuditKind.wrongIdp ∈ (treatCrl disk part partition p).audit ↔
      part = true ∧ ∃ path c, p.path = some path ∧ disk path = some c ∧ c.sigOK = true ∧ checkIdp c p.url partition = false := by
  unfold treatCrl loadCrl
  cases hp : p.path with
  | none => simp
  | some path =>
    dsimp only
    cases hd : disk path with
    | none => simp [hd]
    | some c =>
      dsimp only
      cases hs : c.sigOK with
      | false => simp [hd, hs]
      | true =>
        have hidp : AuditKind.wrongIdp ∈ idpAudit part partition c p.url ↔ part = true ∧ checkIdp c p.url partition = false := by
          unfold idpAudit
          cases part <;> cases checkIdp c p.url partition <;> simp
        simp only [if_true]
        cases hc : processCRL c with
        | none => simp [hd, hs, hidp]
        | some l =>
          simp only [List.mem_append, hidp, List.mem_singleton]
          constructor
          · rintro (⟨h1, h2⟩ | h)
            · exact ⟨h1, path, c, rfl, hd, hs, h2⟩
            · split at h <;> cases h
          · rintro ⟨h1, p', c', e1, e2, _, h2⟩
            cases e1
            rw [hd] at e2
            cases e2
            exact Or.inl ⟨h1, h2⟩

/-- **C47 (reported).** When the aggregation has ended uninterrupted, the report names exactly the CRLs of partitioned issuers that name another URL of the partition, or do not name the URL
they were fetched from. This is what the check does: it does not reject anything (`C47_used_anyway_fails`). -/
theorem C47_reported (disk : Text → Option CrlFile) (units : List CrlUnit) (threads : Nat) (h1 : 1 ≤ threads)
    (files0 : Text → Option Text) (acts : List CrlAct) (hr : ((CrlAgg.init units threads files0).run disk acts).returned = true)
    (hc : ((CrlAgg.init units threads files0).run disk acts).cancelled = false) (i url : Text) :
    (i, url, AuditKind.wrongIdp) ∈ ((CrlAgg.init units threads files0).run disk acts).audit ↔
      ∃ u ∈ units, u.issuer = i ∧ u.partitioned = true ∧ ∃ p ∈ u.paths, p.url = url ∧ ∃ path c, p.path = some path ∧ disk path = some c ∧ c.sigOK = true ∧
        ¬ ∃ uris, c.idp = some uris ∧ some url ∈ uris ∧ ∀ q ∈ u.paths, some q.url ∈ uris → q.url = url := by
  have hlen := crlAgg_workers_length disk acts (CrlAgg.init units threads files0)
  have key : ∀ (acts : List CrlAct) (a : CrlAgg), CrlAud disk units a → CrlAud disk units (a.run disk acts) := by
    intro acts
    induction acts with
    | nil => intro a h; exact h
    | cons x xs ih => intro a h; exact ih _ (crlAud_step disk units a x h)
  have inv := key acts (CrlAgg.init units threads files0) ⟨fun u hu => hu, fun k u todo failed l hk => (by have := get_replicate hk; cases this),
    fun x hx => (by cases hx), fun _ _ u hu => Or.inl hu, fun _ k hk => (by have := get_replicate hk; cases this)⟩
  generalize (CrlAgg.init units threads files0).run disk acts = a at *
  unfold CrlAgg.returned at hr
  rw [Bool.and_eq_true, List.all_eq_true] at hr
  have hst : ∀ (k : Nat) (w : CWorker), a.workers[k]? = some w → w = .stopped := fun k w hw => by simpa using hr.2 w (List.mem_of_getElem? hw)
  have hlen : a.workers.length = threads := by rw [hlen]; simp [CrlAgg.init]
  have h0 : a.workers[0]? = some .stopped := by
    have h0 := List.getElem?_eq_getElem (l := a.workers) (i := 0) (by omega)
    rw [h0, hst 0 _ h0]
  have hspec : ∀ u ∈ units, u.partitioned = true → ∀ p ∈ u.paths, ∀ c, checkIdp c p.url u.partition = false ↔
      ¬ ∃ uris, c.idp = some uris ∧ some p.url ∈ uris ∧ ∀ q ∈ u.paths, some q.url ∈ uris → q.url = p.url := by
    intro u _ hpt p hp c
    have hpart : u.partition = u.paths.map UrlPath.url := by unfold CrlUnit.partition; rw [if_pos hpt]
    have := C47_check_iff c p.url u.partition (by rw [hpart]; exact List.mem_map.2 ⟨p, hp, rfl⟩)
    rw [← Bool.not_eq_true, this, hpart]
    refine not_congr ⟨?_, ?_⟩
    · rintro ⟨uris, g1, g2, g3⟩
      exact ⟨uris, g1, g2, fun q hq hm => g3 q.url hm (List.mem_map.2 ⟨q, hq, rfl⟩)⟩
    · rintro ⟨uris, g1, g2, g3⟩
      refine ⟨uris, g1, g2, fun v hv hm => ?_⟩
      obtain ⟨q, hq, rfl⟩ := List.mem_map.1 hm
      exact g3 q hq hv
  constructor
  · intro hm
    obtain ⟨u, hu, e1, p, hp, e2, hk⟩ := inv.sound _ hm
    dsimp only at e1 e2 hk
    obtain ⟨hpt, path, c, g1, g2, g3, g4⟩ := (wrongIdp_mem disk _ _ p).1 hk
    refine ⟨u, hu, e1, hpt, p, hp, e2, path, c, g1, g2, g3, ?_⟩
    rw [← e2]
    exact (hspec u hu hpt p hp c).1 g4
  · rintro ⟨u, hu, rfl, hpt, p, hp, rfl, path, c, g1, g2, g3, g4⟩
    have hk := (wrongIdp_mem disk u.partitioned u.partition p).2 ⟨hpt, path, c, g1, g2, g3, (hspec u hu hpt p hp c).2 g4⟩
    rcases inv.place hc (by simpa using hr.1) u hu with h2 | ⟨k, todo, failed, l, h2⟩ | h2
    · rw [inv.stopped hc 0 h0] at h2; cases h2
    · have := hst k _ h2; cases this
    · exact h2 p hp _ hk

/-! #### examples and failures -/

/-- Two good CRLs, one CRL with a bad signature. -/
def xDisk : Text → Option CrlFile := fun p =>
  if p = ['p'] then some ⟨true, some [([1], []), ([2], [⟨true, some 1⟩])], some [some ['u']], 0⟩
  else if p = ['q'] then some ⟨true, some [([3], [⟨true, some 5⟩])], some [some ['v']], 0⟩
  else if p = ['r'] then some ⟨false, some [], some [], 0⟩
  else none

def xUnits : List CrlUnit :=
  [⟨['a'], false, [⟨['u'], some ['p']⟩, ⟨['v'], some ['q']⟩]⟩, ⟨['b'], false, [⟨['u'], some ['p']⟩, ⟨['w'], some ['r']⟩]⟩, ⟨['c'], false, [⟨['x'], none⟩]⟩]

def xSt : StoreOut := .opened 1000000 0

/-- Two workers, interleaved. -/
def xActs : List CrlAct :=
  [.take 0, .take 1, .next 0 xSt, .next 1 xSt, .next 1 xSt, .next 0 xSt, .next 0 xSt, .next 1 xSt, .take 1, .next 1 xSt, .next 1 xSt, .take 0, .take 1]

example : (xUnits.map CrlUnit.issuer).Nodup ∧
    let a := (CrlAgg.init xUnits 2 (fun _ => none)).run xDisk xActs
    a.returned = true ∧ a.cancelled = false ∧ a.silent = false ∧ a.fatal = false ∧
    a.files ['a'] = some "0001\n0102\n0503\n".toList ∧ a.files ['b'] = none ∧ a.files ['c'] = none := by decide +kernel

/-- The map behind these units. -/
def xMap : List (Text × List Text) := [(['a'], [['u'], ['v']]), (['b'], [['u'], ['w']]), (['c'], [['x']]), (['d'], [[]])]
def xParse (t : Text) : Option Text := if t = [] then none else some t
def xFetch (_ u : Text) : Option Text :=
  if u = ['u'] then some ['p'] else if u = ['v'] then some ['q'] else if u = ['w'] then some ['r'] else none

example : crlUnits xParse xFetch (fun _ => false) xMap = xUnits ∧ (xMap.map Prod.fst).Nodup := by decide

/-- **C46 (the list of issuers is saved last, partial).** When the list of issuers is saved, the revoked files are final: if there was no signal and no unnoticed write error, the file of every unit is there exactly if all its CRLs are
good. -/
theorem C46_enrolled_last_partial (disk : Text → Option CrlFile) (units : List CrlUnit) (hn : (units.map CrlUnit.issuer).Nodup) (threads : Nat) (h1 : 1 ≤ threads) (acts : List CrlAct) (issuers l : List Text)
    (he : ((CrlAgg.init units threads (fun _ => none)).run disk acts).enrolled issuers = some l) (hc : ((CrlAgg.init units threads (fun _ => none)).run disk acts).cancelled = false)
    (hs : ((CrlAgg.init units threads (fun _ => none)).run disk acts).silent = false) (u : CrlUnit) (hu : u ∈ units) :
    l = issuers ∧ ∀ t, ((CrlAgg.init units threads (fun _ => none)).run disk acts).files u.issuer = some t ↔ ∃ ls, AllList disk u.paths ls ∧ t = storeRevokedCertificateList ls.flatten := by
  unfold CrlAgg.enrolled at he
  split at he
  · rename_i hr
    exact ⟨(Option.some.inj he).symm, fun t => C46_file_iff_partial disk units hn threads h1 _ acts hr hc hs u hu rfl t⟩
  · cases he

example : ((CrlAgg.init xUnits 2 (fun _ => none)).run xDisk xActs).enrolled [['a']] = some [['a']] ∧ ((CrlAgg.init xUnits 2 (fun _ => none)).run xDisk (xActs.take 5)).enrolled [['a']] = none := by decide +kernel

/-- **C46 fails on enrolment.** The run ends normally; issuer `b` has a CRL that is not signed by it, so no revoked file is written, but it is saved as enrolled like all the others. -/
theorem C46_enrolled_anyway_fails :
    let a := (CrlAgg.init xUnits 2 (fun _ => none)).run xDisk xActs
    a.enrolled [['a'], ['b'], ['c']] = some [['a'], ['b'], ['c']] ∧ a.files ['b'] = none := by decide +kernel

/-- **C46 fails when interrupted.** After a signal the workers leave, but the program then saves the list of issuers and exits with success: issuer `a`, whose CRLs are all good, has no revoked
file. -/
theorem C46_interrupted_fails :
    let a := (CrlAgg.init xUnits 1 (fun _ => none)).run xDisk [.take 0, .signal, .next 0 xSt]
    a.returned = true ∧ a.files ['a'] = none ∧ a.enrolled [['a'], ['b'], ['c']] ≠ none ∧
    ∃ ls, AllList xDisk [⟨['u'], some ['p']⟩, ⟨['v'], some ['q']⟩] ls := by
  refine ⟨by decide +kernel, by decide +kernel, by decide +kernel, [[([1], 0), ([2], 1)], [([3], 5)]], [(⟨['u'], some ['p']⟩, [([1], 0), ([2], 1)]), (⟨['v'], some ['q']⟩, [([3], 5)])], rfl, rfl, ?_⟩
  intro p hp
  rcases List.mem_cons.1 hp with rfl | hp
  · exact ⟨['p'], _, _, rfl, rfl, rfl, rfl, by decide⟩
  · rw [List.mem_singleton] at hp
    subst hp
    exact ⟨['q'], _, _, rfl, rfl, rfl, rfl, by decide⟩

/-- **C46 fails in the last flush.** A full disk: the run ends normally with an empty file, although the CRLs list three certificates. -/
theorem C46_last_flush_fails :
    let a := (CrlAgg.init xUnits 1 (fun _ => none)).run xDisk
      [.take 0, .next 0 xSt, .next 0 xSt, .next 0 (.opened 0 0), .take 0, .next 0 xSt, .next 0 xSt, .next 0 xSt, .take 0, .next 0 xSt, .next 0 xSt, .take 0]
    a.returned = true ∧ a.cancelled = false ∧ a.files ['a'] = some [] := by decide +kernel

/-- **C46 fails without workers** (`numThreads` zero or negative): the run ends normally, without files. -/
theorem C46_no_workers_fails : (CrlAgg.init xUnits 0 (fun _ => none)).returned = true ∧ (CrlAgg.init xUnits 0 (fun _ => none)).files ['a'] = none := by decide +kernel

/-- **C47 fails: the check is not enforced.** The server gives the CRL of partition `v` also at `u`. The check refuses it and the audit says so, but the list is used: the issuer's file is written,
with the revocations of `v` only. -/
theorem C47_used_anyway_fails :
    let u : CrlUnit := ⟨['a'], true, [⟨['u'], some ['q']⟩, ⟨['v'], some ['q']⟩]⟩
    let a := (CrlAgg.init [u] 1 (fun _ => none)).run xDisk [.take 0, .next 0 xSt, .next 0 xSt, .next 0 xSt, .take 0]
    a.returned = true ∧ a.files ['a'] = some "0503\n0503\n".toList ∧ (['a'], ['u'], .wrongIdp) ∈ a.audit ∧ (['a'], ['v'], .wrongIdp) ∉ a.audit := by
  decide +kernel

/-! #### each theorem applied -/

example := C47_check_iff ⟨true, some [], some [some ['b']], 0⟩ ['a'] [['a'], ['b']] (by decide)
example := C46_file_iff_partial xDisk xUnits (by decide) 2 (by decide) (fun _ => none) xActs (by decide +kernel) (by decide +kernel) (by decide +kernel) _ List.mem_cons_self rfl
theorem xGood : ∀ p ∈ [(⟨['u'], some ['p']⟩ : UrlPath), ⟨['v'], some ['q']⟩], ∃ l, CrlLists xDisk p l := by
  intro p hp
  simp only [List.mem_cons, List.not_mem_nil, or_false] at hp
  rcases hp with rfl | rfl
  · exact ⟨[([1], 0), ([2], 1)], ['p'], _, _, rfl, rfl, rfl, rfl, by decide +kernel⟩
  · exact ⟨[([3], 5)], ['q'], _, _, rfl, rfl, rfl, rfl, by decide +kernel⟩

example := C46_read_back_partial xDisk xUnits (by decide) 2 (by decide) (fun _ => none) xActs (by decide +kernel) (by decide +kernel) (by decide +kernel) _ List.mem_cons_self xGood .all [2]
example := C46_no_partial_file xDisk xUnits (by decide) 2 (fun _ => none) (xActs.take 6) (by decide +kernel) (by decide +kernel) _ List.mem_cons_self
example := C46_no_other_files xDisk xUnits 2 (fun _ => some ['o']) xActs ['z'] (by decide)
example := C46_from_map_partial xDisk xParse xFetch (fun _ => false) xMap (by decide) 2 (by decide) (fun _ => none) xActs (by decide +kernel) (by decide +kernel) (by decide +kernel) ['a'] [['u'], ['v']] List.mem_cons_self rfl

end Verif.Props
