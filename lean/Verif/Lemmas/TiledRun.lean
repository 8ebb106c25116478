import Verif.Lemmas.Tiled
/-! More lemmas about the jobs of a tiled log: requests are made once, progress, and the relation to `Verif.Model.Fetch`. -/
namespace Verif
open Verif.Spec

/-! ### each issuer is fetched once -/

/-- No issuer is asked for again once the log has answered with a certificate. -/
def AskedOnce (pc : Bytes → Option Cert) (st : Issuers) : Prop :=
  (∀ fp d, (fp, some d) ∈ st.asked → pc d ≠ none → lookupCert st.map fp ≠ none) ∧
  ∀ a b fp d, st.asked = a ++ (fp, some d) :: b → pc d ≠ none → ∀ x, (fp, x) ∉ b

theorem askedOnce_empty (pc : Bytes → Option Cert) : AskedOnce pc noIssuers := by
  refine ⟨fun fp d h => (by cases h), fun a b fp d h => ?_⟩
  cases a <;> cases h

theorem askedOnce_snoc {pc : Bytes → Option Cert} {st : Issuers} (hi : AskedOnce pc st) {fp : Bytes} (hl : lookupCert st.map fp = none)
    (r : Option Bytes) {a b : List (Bytes × Option Bytes)} {k : Bytes} {d : Bytes} (h : st.asked ++ [(fp, r)] = a ++ (k, some d) :: b)
    (hd : pc d ≠ none) : ∀ x, (k, x) ∉ b := by
  intro x hx
  rcases List.append_eq_append_iff.1 h with ⟨c, h1, h2⟩ | ⟨c, h1, h2⟩
  · rcases c with _ | ⟨y, c⟩
    · simp only [List.nil_append, List.cons.injEq] at h2
      rw [← h2.2] at hx; cases hx
    · simp only [List.cons_append, List.cons.injEq] at h2
      have := h2.2
      have hlen := congrArg List.length this
      simp only [List.length_nil, List.length_append, List.length_cons] at hlen
      omega
  · rcases c with _ | ⟨y, c⟩
    · simp only [List.nil_append, List.cons.injEq] at h2
      rw [h2.2] at hx; cases hx
    · simp only [List.cons_append, List.cons.injEq] at h2
      obtain ⟨rfl, h3⟩ := h2
      rw [h3] at hx
      rcases List.mem_append.1 hx with hx | hx
      · exact hi.2 a c k d h1 hd x hx
      · have hk : k = fp := by cases List.mem_singleton.1 hx; rfl
        subst hk
        exact hi.1 k d (by rw [h1]; simp) hd hl

theorem askedOnce_keeps {pc : Bytes → Option Cert} {w : TNet} (hw : w.pc = pc) : Keeps w (AskedOnce pc) := by
  intro st fp hi
  rcases getCertificate_cases w st fp with ⟨c, _, h⟩ | ⟨hl, _, h⟩ | ⟨d, hl, _, hp, h⟩ | ⟨d, c, hl, ha, hp, h⟩ <;> rw [h]
  · exact hi
  · refine ⟨fun k x hm hx => ?_, fun a b k x he hx => askedOnce_snoc hi hl none he hx⟩
    rcases List.mem_append.1 hm with hm | hm
    · exact hi.1 k x hm hx
    · cases List.mem_singleton.1 hm
  · refine ⟨fun k x hm hx => ?_, fun a b k x he hx => askedOnce_snoc hi hl (some d) he hx⟩
    rcases List.mem_append.1 hm with hm | hm
    · exact hi.1 k x hm hx
    · cases List.mem_singleton.1 hm
      rw [hw] at hp
      exact absurd hp hx
  · refine ⟨fun k x hm hx => ?_, fun a b k x he hx => askedOnce_snoc hi hl (some d) he hx⟩
    simp only [lookupCert]
    split
    · intro h; cases h
    · rename_i hne
      rcases List.mem_append.1 hm with hm | hm
      · exact hi.1 k x hm hx
      · cases List.mem_singleton.1 hm
        exact absurd rfl hne

/-! ### progress is saved at every multiple of the batch size -/

/-- The message for an entry at a multiple of the batch size is followed by the state that claims it. -/
def SavedAt (batch : Nat) (evs : List Ev) : Prop :=
  ∀ a b i input ts item, evs = a ++ .entry i input ts item :: b → i % batch = 0 → ∃ s b', b = .state s :: b' ∧ s.maxEntry = i

theorem savedAt_state {batch : Nat} {evs : List Ev} (s : WState) (h : SavedAt batch evs) : SavedAt batch (.state s :: evs) := by
  intro a b i input ts item he hm
  rcases a with _ | ⟨x, a⟩
  · simp only [List.nil_append, List.cons.injEq] at he; cases he.1
  · simp only [List.cons_append, List.cons.injEq] at he
    exact h a b i input ts item he.2 hm

theorem savedAt_entry {batch : Nat} {evs : List Ev} {i : Nat} {input : Bytes} {ts : Nat} {item : Option Item} (hn : i % batch ≠ 0)
    (h : SavedAt batch evs) : SavedAt batch (.entry i input ts item :: evs) := by
  intro a b k input' ts' item' he hm
  rcases a with _ | ⟨x, a⟩
  · simp only [List.nil_append, List.cons.injEq] at he
    cases he.1
    exact absurd hm hn
  · simp only [List.cons_append, List.cons.injEq] at he
    exact h a b k input' ts' item' he.2 hm

theorem savedAt_both {batch : Nat} {evs : List Ev} {i : Nat} {input : Bytes} {ts : Nat} {item : Option Item} {s : WState} (hs : s.maxEntry = i)
    (h : SavedAt batch evs) : SavedAt batch (.entry i input ts item :: .state s :: evs) := by
  intro a b k input' ts' item' he hm
  rcases a with _ | ⟨x, a⟩
  · simp only [List.nil_append, List.cons.injEq] at he
    cases he.1
    exact ⟨s, evs, he.2.symm, hs⟩
  · simp only [List.cons_append, List.cons.injEq] at he
    exact savedAt_state s h a b k input' ts' item' he.2 hm

theorem savedAt_append {batch : Nat} {a b : List Ev} (ha : SavedAt batch a) (hb : SavedAt batch b) : SavedAt batch (a ++ b) := by
  intro x y i input ts item he hm
  rcases List.append_eq_append_iff.1 he with ⟨c, h1, h2⟩ | ⟨c, h1, h2⟩
  · exact hb c y i input ts item h2 hm
  · rcases c with _ | ⟨z, c⟩
    · exact hb [] y i input ts item (by simpa using h2.symm) hm
    · simp only [List.cons_append, List.cons.injEq] at h2
      obtain ⟨rfl, h3⟩ := h2
      obtain ⟨s, b', h4, h5⟩ := ha x c i input ts item h1 hm
      exact ⟨s, b' ++ b, by rw [h3, h4]; rfl, h5⟩

theorem savedAt_nil (batch : Nat) : SavedAt batch [] := by
  intro a b i input ts item he
  cases a <;> cases he

/-- The claimed range does not go beyond what was read. -/
def NotBeyond (v : TVars) : Prop := v.state.maxEntry ≤ v.maxEntry

theorem notBeyond_advance {v : TVars} (h : NotBeyond v) (e : SunEntry) : NotBeyond (advanceTiled v e) := by
  unfold NotBeyond at *
  simp only [advanceTiled]
  omega

theorem saveTiled_max {v : TVars} (h : NotBeyond v) (now : Nat) : (saveTiled now v).state.maxEntry = v.maxEntry := by
  unfold NotBeyond at h
  simp only [saveTiled, updateTiled]
  omega

theorem notBeyond_save {v : TVars} (h : NotBeyond v) (now : Nat) : NotBeyond (saveTiled now v) := by
  unfold NotBeyond
  rw [saveTiled_max h]
  exact Nat.le_refl _

theorem loopTiled_saved (w : TNet) {batch : Nat} (hb : 0 < batch) (now : Nat) : ∀ (es : List (SunEntry × Nat)) (v : TVars) (st : Issuers), NotBeyond v →
    SavedAt batch (loopTiled w batch now v st es).1 ∧ NotBeyond (loopTiled w batch now v st es).2.1 := by
  intro es
  induction es with
  | nil => intro v st h; exact ⟨savedAt_nil batch, h⟩
  | cons x es ih =>
    obtain ⟨e, t⟩ := x
    intro v st h
    rcases loopTiled_cons w batch now v st e t es with ⟨st1, hs, hq⟩ | ⟨st1, hs, hq⟩ | ⟨o, st1, hs, _, _, h0, hq⟩ |
      ⟨o, st1, hs, _, _, _, hm, hq⟩ | ⟨o, st1, hs, _, _, _, hm, hq⟩ <;> rw [hq]
    · exact ⟨savedAt_nil batch, h⟩
    · exact ⟨savedAt_nil batch, h⟩
    · omega
    · have h1 := ih (saveTiled now (advanceTiled v e)) st1 (notBeyond_save (notBeyond_advance h e) now)
      exact ⟨savedAt_both (saveTiled_max (notBeyond_advance h e) now) h1.1, h1.2⟩
    · have h1 := ih (advanceTiled v e) st1 (notBeyond_advance h e)
      exact ⟨savedAt_entry hm h1.1, h1.2⟩

theorem readTiled_saved (w : TNet) {batch : Nat} (hb : 0 < batch) (now : Nat) (es : List (SunEntry × Nat)) (v : TVars) (st : Issuers) (err : Bool)
    (h : NotBeyond v) : SavedAt batch (readTiled w batch now v st es err).1 ∧ NotBeyond (readTiled w batch now v st es err).2.1 := by
  have h1 := loopTiled_saved w hb now es v st h
  rcases readTiled_cases w batch now v st es err with ⟨_, _, h2⟩ | ⟨_, h2⟩ <;> rw [h2]
  · exact h1
  · exact ⟨savedAt_append h1.1 (savedAt_state _ (savedAt_nil batch)), notBeyond_save h1.2 now⟩

theorem jobTiled_saved (w : TNet) (j : TJob) (hb : 0 < j.batch) (st : Issuers) : SavedAt j.batch (jobTiled w j st).1 := by
  have h0 : NotBeyond (startVars j.s) := Nat.le_refl _
  have h1 := readTiled_saved w hb j.now j.es1 (startVars j.s) st j.err1 h0
  rcases jobTiled_cases w j st with ⟨_, h⟩ | ⟨hd, _, h⟩ | ⟨hd, _, _, h⟩ | ⟨hd, x, _, _, hx, h⟩ | ⟨hd, v1, st1, _, _, hr, h⟩ <;> rw [h]
  · exact savedAt_nil _
  · unfold sleepTiled
    split
    · exact savedAt_state _ (savedAt_nil _)
    · exact savedAt_nil _
  · exact h1.1
  · exact h1.1
  · have h2 := h1.2
    rw [hr] at h2
    exact savedAt_append h1.1 (readTiled_saved w hb j.now j.es2 v1 st1 j.err2 h2).1

/-! ### an entry that can never be stored stops the claimed range -/

/-- Neither the variables nor the state claim entry `k`. -/
def Below (k : Nat) (v : TVars) : Prop := v.maxEntry < k ∧ v.state.maxEntry < k

/-- The entry cannot be got past. -/
def Blocks (w : TNet) (I : Issuers → Prop) (T : Nat → Prop) (e : SunEntry) : Prop :=
  ∀ st t o st1, I st → T t → Stored w st t e o st1 → o = .fatal ∨ o = .retry

theorem consecutive_tail {content : Nat → SunEntry} {start : Nat} {x : SunEntry × Nat} {es : List (SunEntry × Nat)}
    (h : Consecutive content start (x :: es)) : Consecutive content (start + 1) es := by
  intro n e t hn
  rw [h (n + 1) e t hn]
  congr 1
  omega

theorem below_advance {k : Nat} {v : TVars} (h : Below k v) (e : SunEntry) (hk : v.maxEntry + 1 ≠ k) : Below k (advanceTiled v e) := by
  unfold Below at *
  simp only [advanceTiled]
  omega

theorem below_save {k : Nat} {v : TVars} (h : Below k v) (now : Nat) : Below k (saveTiled now v) := by
  unfold Below at *
  simp only [saveTiled, updateTiled]
  omega

theorem loopTiled_below {w : TNet} {I : Issuers → Prop} {T : Nat → Prop} {content : Nat → SunEntry} {k : Nat} (hk : Keeps w I)
    (hb : Blocks w I T (content k)) (batch now : Nat) : ∀ (es : List (SunEntry × Nat)) (v : TVars) (st : Issuers), I st →
    (∀ x ∈ es, T x.2) → Consecutive content (v.maxEntry + 1) es → Below k v →
    (∀ s, .state s ∈ (loopTiled w batch now v st es).1 → s.maxEntry < k) ∧ Below k (loopTiled w batch now v st es).2.1 := by
  intro es
  induction es with
  | nil => intro v st _ _ _ hv; exact ⟨fun s h => (by cases h), hv⟩
  | cons x es ih =>
    obtain ⟨e, t⟩ := x
    intro v st hi ht hc hv
    have ht2 : ∀ x ∈ es, T x.2 := fun x hx => ht x (List.mem_cons_of_mem _ hx)
    have hgo : ∀ {o st1}, Stored w st t e o st1 → o ≠ .fatal → o ≠ .retry → v.maxEntry + 1 ≠ k := by
      intro o st1 hs h1 h2 hkk
      have he : e = content (v.maxEntry + 1) := hc 0 e t rfl
      rw [hkk] at he
      rw [he] at hs
      rcases hb st t o st1 hi (ht _ (List.mem_cons_self ..)) hs with h | h
      · exact h1 h
      · exact h2 h
    rcases loopTiled_cons w batch now v st e t es with ⟨st1, hs, hq⟩ | ⟨st1, hs, hq⟩ | ⟨o, st1, hs, ho1, ho2, h0, hq⟩ |
      ⟨o, st1, hs, ho1, ho2, _, hm, hq⟩ | ⟨o, st1, hs, ho1, ho2, _, hm, hq⟩ <;> rw [hq]
    · exact ⟨fun s h => (by cases h), hv⟩
    · exact ⟨fun s h => (by cases h), hv⟩
    · exact ⟨fun s h => (by cases List.mem_singleton.1 h), below_advance hv e (hgo hs ho1 ho2)⟩
    · have hv2 := below_save (below_advance hv e (hgo hs ho1 ho2)) now
      have h1 := ih (saveTiled now (advanceTiled v e)) st1 (hs.keeps hk hi) ht2 (consecutive_tail hc) hv2
      refine ⟨fun s h => ?_, h1.2⟩
      rcases List.mem_cons.1 h with h | h
      · cases h
      · rcases List.mem_cons.1 h with h | h
        · cases h; exact hv2.2
        · exact h1.1 s h
    · have h1 := ih (advanceTiled v e) st1 (hs.keeps hk hi) ht2 (consecutive_tail hc) (below_advance hv e (hgo hs ho1 ho2))
      refine ⟨fun s h => ?_, h1.2⟩
      rcases List.mem_cons.1 h with h | h
      · cases h
      · exact h1.1 s h

theorem readTiled_below {w : TNet} {I : Issuers → Prop} {T : Nat → Prop} {content : Nat → SunEntry} {k : Nat} (hk : Keeps w I)
    (hb : Blocks w I T (content k)) (batch now : Nat) (es : List (SunEntry × Nat)) (v : TVars) (st : Issuers) (err : Bool) (hi : I st)
    (ht : ∀ x ∈ es, T x.2) (hc : Consecutive content (v.maxEntry + 1) es) (hv : Below k v) :
    (∀ s, .state s ∈ (readTiled w batch now v st es err).1 → s.maxEntry < k) ∧ Below k (readTiled w batch now v st es err).2.1 := by
  have h1 := loopTiled_below hk hb batch now es v st hi ht hc hv
  rcases readTiled_cases w batch now v st es err with ⟨_, _, h2⟩ | ⟨_, h2⟩ <;> rw [h2]
  · exact h1
  · have h3 := below_save h1.2 now
    refine ⟨fun s h => ?_, h3⟩
    rcases List.mem_append.1 h with h | h
    · exact h1.1 s h
    · cases List.mem_singleton.1 h; exact h3.2

theorem consecutive_left {content : Nat → SunEntry} {start : Nat} {a b : List (SunEntry × Nat)} (h : Consecutive content start (a ++ b)) :
    Consecutive content start a := fun n e t hn => h n e t (getElem?_append_left' hn)

theorem consecutive_right {content : Nat → SunEntry} {start : Nat} {a b : List (SunEntry × Nat)} (h : Consecutive content start (a ++ b)) :
    Consecutive content (start + a.length) b := by
  intro n e t hn
  rw [h (a.length + n) e t (getElem?_append_right' hn)]
  congr 1
  omega

theorem jobTiled_below {w : TNet} {I : Issuers → Prop} {T : Nat → Prop} {content : Nat → SunEntry} {k : Nat} (hk : Keeps w I)
    (hb : Blocks w I T (content k)) (j : TJob) (st : Issuers) (hi : I st) (ht : ∀ x ∈ j.es1 ++ j.es2, T x.2)
    (hc : Consecutive content (j.s.maxEntry + 1) (j.es1 ++ j.es2)) (hs : j.s.maxEntry < k) :
    ∀ s, .state s ∈ (jobTiled w j st).1 → s.maxEntry < k := by
  have h0 : Below k (startVars j.s) := ⟨hs, hs⟩
  have h1 := readTiled_below hk hb j.batch j.now j.es1 (startVars j.s) st j.err1 hi (fun x hx => ht x (List.mem_append_left _ hx))
    (consecutive_left hc) h0
  rcases jobTiled_cases w j st with ⟨_, h⟩ | ⟨hd, _, h⟩ | ⟨hd, _, _, h⟩ | ⟨hd, x, _, _, hx, h⟩ | ⟨hd, v1, st1, _, _, hr, h⟩ <;> rw [h]
  · intro s h; cases h
  · intro s h
    unfold sleepTiled at h
    split at h
    · cases List.mem_singleton.1 h
      simp only [updateTiled]
      omega
    · cases h
  · exact h1.1
  · exact h1.1
  · have hi1 := readTiled_keeps hk j.batch j.now (startVars j.s) st j.es1 j.err1 hi
    have h2 := h1.2
    have hv : v1.maxEntry = j.s.maxEntry + j.es1.length := by
      have := readTiled_complete (w := w) (batch := j.batch) (now := j.now) (v := startVars j.s) (st := st) (es := j.es1) (err := j.err1)
        (by rw [hr])
      rw [hr] at this
      exact this
    rw [hr] at hi1 h2
    have hc2 : Consecutive content (v1.maxEntry + 1) j.es2 := by
      have := consecutive_right hc
      rw [hv, show j.s.maxEntry + j.es1.length + 1 = j.s.maxEntry + 1 + j.es1.length by omega]
      exact this
    have h3 := readTiled_below hk hb j.batch j.now j.es2 v1 st1 j.err2 hi1 (fun x hx => ht x (List.mem_append_right _ hx)) hc2 h2
    intro s h
    rcases List.mem_append.1 h with h | h
    · exact h1.1 s h
    · exact h3.1 s h

/-! ### a log that answers is read to its end -/

/-- Nothing stands in the way of storing the entry: its certificate can be parsed, and its issuers are answered. -/
def Answered (H : Bytes → Bytes) (w : TNet) (e : SunEntry) : Prop := ProperEntry H w.pc e ∧ ∀ fp ∈ e.chain, ∀ n, w.ask n fp ≠ none

theorem getCertificate_not_missing {w : TNet} {st : Issuers} {fp : Bytes} (hp : ∀ n, w.ask n fp ≠ none) :
    (getCertificate w st fp).1 ≠ .intermittent := by
  intro hf
  rcases getCertificate_cases w st fp with ⟨c, _, h⟩ | ⟨_, ha, h⟩ | ⟨d, _, _, _, h⟩ | ⟨d, c, _, _, _, h⟩ <;> rw [h] at hf
  · cases hf
  · exact hp _ ha
  · cases hf
  · cases hf

theorem Stored.answered {w : TNet} {st st1 : Issuers} {t : Nat} {e : SunEntry} {o : Outcome} (hp : ∀ fp ∈ e.chain, ∀ n, w.ask n fp ≠ none)
    (h : Stored w st t e o st1) : o ≠ .retry := by
  have hmem : ∀ {f : Bytes} {l : List Bytes}, e.chain = l → f ∈ l → ∀ n, w.ask n f ≠ none := by
    intro f l hl hf
    exact hp f (by rw [hl]; exact hf)
  cases h with
  | noCert _ => exact fun h => by cases h
  | expired _ _ _ => exact fun h => by cases h
  | selfSigned _ _ _ => exact fun h => by cases h
  | firstFatal _ _ _ _ => exact fun h => by cases h
  | firstMissing _ _ hch hg => exact fun _ => getCertificate_not_missing (hmem hch (by simp)) hg
  | direct _ _ _ _ _ => exact fun h => by cases h
  | lone _ _ _ _ _ => exact fun h => by cases h
  | secondFatal _ _ _ _ _ _ => exact fun h => by cases h
  | secondMissing _ _ hch _ _ hg => exact fun _ => getCertificate_not_missing (hmem hch (by simp)) hg
  | behind _ _ _ _ _ _ => exact fun h => by cases h

theorem loopTiled_not_slept {w : TNet} (batch now : Nat) : ∀ (es : List (SunEntry × Nat)) (v : TVars) (st : Issuers),
    (∀ x ∈ es, ∀ fp ∈ x.1.chain, ∀ n, w.ask n fp ≠ none) → (loopTiled w batch now v st es).2.2.2 ≠ some .slept := by
  intro es
  induction es with
  | nil => intro v st _ h; cases h
  | cons x es ih =>
    obtain ⟨e, t⟩ := x
    intro v st hp
    have hp2 : ∀ x ∈ es, ∀ fp ∈ x.1.chain, ∀ n, w.ask n fp ≠ none := fun x hx => hp x (List.mem_cons_of_mem _ hx)
    rcases loopTiled_cons w batch now v st e t es with ⟨st1, hs, hq⟩ | ⟨st1, hs, hq⟩ | ⟨o, st1, hs, _, _, _, hq⟩ |
      ⟨o, st1, hs, _, _, _, _, hq⟩ | ⟨o, st1, hs, _, _, _, _, hq⟩ <;> rw [hq]
    · intro h; cases h
    · exact absurd rfl (hs.answered (hp _ (List.mem_cons_self ..)))
    · intro h; cases h
    · exact ih _ _ hp2
    · exact ih _ _ hp2

theorem loopTiled_end_cases (w : TNet) (batch now : Nat) : ∀ (es : List (SunEntry × Nat)) (v : TVars) (st : Issuers),
    (loopTiled w batch now v st es).2.2.2 ≠ some .finished := by
  intro es
  induction es with
  | nil => intro v st h; cases h
  | cons x es ih =>
    obtain ⟨e, t⟩ := x
    intro v st
    rcases loopTiled_cons w batch now v st e t es with ⟨st1, hs, hq⟩ | ⟨st1, hs, hq⟩ | ⟨o, st1, hs, _, _, _, hq⟩ |
      ⟨o, st1, hs, _, _, _, _, hq⟩ | ⟨o, st1, hs, _, _, _, _, hq⟩ <;> rw [hq]
    · intro h; cases h
    · intro h; cases h
    · intro h; cases h
    · exact ih _ _
    · exact ih _ _

/-- A read that meets no obstacle: it succeeds, and the state claims all that was yielded. -/
theorem readTiled_done {H : Bytes → Bytes} {w : TNet} (hh : HonestAnswers H w) {batch : Nat} (hb : 0 < batch) (now : Nat)
    (es : List (SunEntry × Nat)) (v : TVars) (st : Issuers) (hi : CacheIs (HasFingerprint H w.pc) st) (hv : NotBeyond v)
    (hp : ∀ x ∈ es, Answered H w x.1) :
    (readTiled w batch now v st es false).2.2.2 = none ∧
    (readTiled w batch now v st es false).2.1.state.maxEntry = v.maxEntry + es.length ∧
    (readTiled w batch now v st es false).2.1.state.lastUpdate = some now := by
  have hn : (loopTiled w batch now v st es).2.2.2 = none := by
    have h1 := loopTiled_not_halted hh batch now es v st hi (fun x hx => (hp x hx).1)
    have h2 := loopTiled_not_crashed w hb now es v st
    have h3 := loopTiled_not_slept batch now es v st (fun x hx => (hp x hx).2)
    have h4 := loopTiled_end_cases w batch now es v st
    rcases hx : (loopTiled w batch now v st es).2.2.2 with _ | x
    · rfl
    · rw [hx] at h1 h2 h3 h4
      cases x
      · exact absurd rfl h4
      · exact absurd rfl h3
      · exact absurd rfl h1
      · exact absurd rfl h2
  rcases readTiled_cases w batch now v st es false with ⟨x, h, _⟩ | ⟨_, h2⟩
  · rw [hn] at h; cases h
  · rw [h2]
    refine ⟨rfl, ?_, rfl⟩
    show (saveTiled now (loopTiled w batch now v st es).2.1).state.maxEntry = v.maxEntry + es.length
    rw [saveTiled_max (loopTiled_saved w hb now es v st hv).2, loopTiled_complete es v st hn]

theorem tileStop_ge {n start : Nat} (h : start ≤ n) : start ≤ tileStop n start ∧ tileStop n start ≤ n := by
  unfold tileStop
  split
  · omega
  · omega

theorem tileStop_stop (n start : Nat) : tileStop n (tileStop n start) = n := by
  unfold tileStop
  split
  · rw [if_neg (by omega)]
  · rw [if_neg]
    omega

/-- What the iterator yields in a job on a log of `n` entries that answers every request. -/
def SmoothJob (H : Bytes → Bytes) (content : Nat → SunEntry) (n : Nat) (w : TNet) (j : TJob) : Prop :=
  (∃ h, j.sth = some h ∧ h.treeSize = n) ∧ 0 < j.batch ∧ n + j.batch < 18446744073709551616 ∧ HonestAnswers H w ∧
  (∀ k, k < n → Answered H w (content k)) ∧ j.err1 = false ∧ j.err2 = false ∧
  AllYielded content n (j.s.maxEntry + 1) j.es1 ∧ AllYielded content n (tileStop n (j.s.maxEntry + 1)) j.es2 ∧
  (∀ t, j.s.lastUpdate = some t → t + 600 ≤ j.now)

theorem yielded_answered {H : Bytes → Bytes} {w : TNet} {content : Nat → SunEntry} {n start : Nat} {es : List (SunEntry × Nat)}
    (hs : start ≤ n) (ha : ∀ k, k < n → Answered H w (content k)) (hy : AllYielded content n start es) : ∀ x ∈ es, Answered H w x.1 := by
  intro x hx
  obtain ⟨m, hm, rfl⟩ := List.mem_iff_getElem.1 hx
  have h1 := hy.1 m es[m].1 es[m].2 (by rw [List.getElem?_eq_getElem hm])
  rw [h1]
  have := (tileStop_ge hs).2
  have h2 := hy.2
  exact ha _ (by omega)

theorem add64_small {a b n : Nat} (h : a + b < 18446744073709551616) (_ : n = a + b) : add64 a b = a + b := by
  unfold add64
  exact Nat.mod_eq_of_lt h

/-- One job on a log that answers every request. -/
theorem jobTiled_smooth {H : Bytes → Bytes} {content : Nat → SunEntry} {n : Nat} {w : TNet} {j : TJob} (hj : SmoothJob H content n w j)
    {st : Issuers} (hi : CacheIs (HasFingerprint H w.pc) st) (hs : j.s.maxEntry < n) :
    ((jobTiled w j st).2.1.maxEntry = n - 1 ∨
      ((jobTiled w j st).2.1.maxEntry = tileStop n (j.s.maxEntry + 1) - 1 ∧ (jobTiled w j st).2.1.lastUpdate = some j.now)) ∧
    ((jobTiled w j st).2.2.2 = .finished ∨ (jobTiled w j st).2.2.2 = .slept) := by
  obtain ⟨⟨hd, hsth, hn⟩, hb, hsmall, hh, ha, he1, he2, hy1, hy2, hrest⟩ := hj
  have hstart : j.s.maxEntry + 1 ≤ n := hs
  have hts := tileStop_ge hstart
  have d1 := readTiled_done hh hb j.now j.es1 (startVars j.s) st hi (Nat.le_refl _) (yielded_answered hstart ha hy1)
  have hlen1 := hy1.2
  have hv0 : (startVars j.s).maxEntry = j.s.maxEntry := rfl
  rcases jobTiled_cases w j st with ⟨h0, _⟩ | ⟨hd', hq, h⟩ | ⟨hd', hq, hc, h⟩ | ⟨hd', x, hq, _, hx, h⟩ | ⟨hd', v1, st1, hq, hc, hr, h⟩
  · rw [hsth] at h0; cases h0
  · -- nothing to read
    rw [hsth] at hq; cases hq
    refine ⟨?_, .inr (by rw [h]; exact sleepTiled_end j st hd)⟩
    have hadd1 : add64 j.s.maxEntry 1 = j.s.maxEntry + 1 := add64_small (by omega) rfl
    by_cases hfull : j.s.maxEntry + 1 = n
    · refine .inl ?_
      rw [h]
      unfold sleepTiled
      rw [if_pos (by rw [hadd1]; omega)]
      simp only [updateTiled]
      omega
    · -- impossible: the job reads
      exfalso
      have hch : chooseTiled j.batch j.now j.s (some hd) = .update ∨ chooseTiled j.batch j.now j.s (some hd) = .forceUpdate := by
        unfold chooseTiled
        dsimp only
        by_cases hbig : add64 j.s.maxEntry j.batch < hd.treeSize
        · rw [if_pos hbig]; exact .inl rfl
        · rw [if_neg hbig]
          refine .inr ?_
          cases hl : j.s.lastUpdate with
          | none => dsimp only; rw [if_pos (by rw [hadd1]; omega)]
          | some t =>
            dsimp only
            rw [if_neg (by have := hrest t hl; omega), if_pos (by rw [hadd1]; omega)]
      have he : (jobTiled w j st).2.2.2 = .slept := by rw [h]; exact sleepTiled_end j st hd
      rw [← he1] at d1
      rcases hch with hch | hch
      · have : (jobTiled w j st).2.2.2 = .finished := by
          unfold jobTiled
          rw [hsth]
          dsimp only
          rw [hch]
          dsimp only
          rw [d1.1]
          rfl
        rw [this] at he; cases he
      · have : (jobTiled w j st).2.2.2 = .finished := by
          unfold jobTiled
          rw [hsth]
          dsimp only
          rw [hch]
          dsimp only
          unfold secondRead
          rcases hr : readTiled w j.batch j.now (startVars j.s) st j.es1 j.err1 with ⟨evs, v1, st1, x⟩
          have hx : x = none := by have := d1.1; rw [hr] at this; exact this
          subst hx
          dsimp only
          have hv1 : v1.maxEntry = j.s.maxEntry + j.es1.length := by
            have := readTiled_complete (w := w) (batch := j.batch) (now := j.now) (v := startVars j.s) (st := st) (es := j.es1) (err := j.err1)
              (by rw [hr])
            rw [hr] at this
            exact this
          have hi1 := readTiled_keeps (cacheIs_keeps (honest_answersAre hh)) j.batch j.now (startVars j.s) st j.es1 j.err1 hi
          have hb1 := (readTiled_saved w hb j.now j.es1 (startVars j.s) st j.err1 (Nat.le_refl _)).2
          rw [hr] at hi1 hb1
          have d2 := readTiled_done hh hb j.now j.es2 v1 st1 hi1 hb1 (yielded_answered hts.2 ha hy2)
          rw [he2, d2.1]
          rfl
        rw [this] at he; cases he
  · rw [he1] at h
    refine ⟨.inr ⟨?_, ?_⟩, .inl ?_⟩
    · rw [h]; dsimp only; rw [d1.2.1, hlen1, hv0]; omega
    · rw [h]; exact d1.2.2
    · rw [h, d1.1]; rfl
  · rw [he1, d1.1] at hx; cases hx
  · have hv1 : v1.maxEntry = j.s.maxEntry + j.es1.length := by
      have := readTiled_complete (w := w) (batch := j.batch) (now := j.now) (v := startVars j.s) (st := st) (es := j.es1) (err := j.err1)
        (by rw [hr])
      rw [hr] at this
      exact this
    have hi1 := readTiled_keeps (cacheIs_keeps (honest_answersAre hh)) j.batch j.now (startVars j.s) st j.es1 j.err1 hi
    have hb1 := (readTiled_saved w hb j.now j.es1 (startVars j.s) st j.err1 (Nat.le_refl _)).2
    rw [hr] at hi1 hb1
    have d2 := readTiled_done hh hb j.now j.es2 v1 st1 hi1 hb1 (yielded_answered hts.2 ha hy2)
    have hlen2 := hy2.2
    rw [tileStop_stop] at hlen2
    rw [he2] at h
    refine ⟨.inl ?_, .inl ?_⟩
    · rw [h]; dsimp only; rw [d2.2.1, hv1]; omega
    · rw [h, d2.1]; rfl

/-! ### the events are those of `Verif.Model.Fetch` -/

/-- The entries as `Verif.Model.Fetch` sees them. -/
def SeenAs (pc : Bytes → Option Cert) (es : List (SunEntry × Nat)) (ts : List TEntry) : Prop :=
  ts.length = es.length ∧ ∀ (n : Nat) e t, es[n]? = some (e, t) → ∃ get, ts[n]? = some (sunEntry pc get t e)

theorem sunEntry_fields (pc : Bytes → Option Cert) (get : Bytes → Fetched) (t : Nat) (e : SunEntry) :
    (sunEntry pc get t e).cert = pc (certBytes e) ∧ (sunEntry pc get t e).chain = e.chain.map get ∧
    (sunEntry pc get t e).time = t ∧ (sunEntry pc get t e).timestamp = e.timestamp ∧ (sunEntry pc get t e).input = sunLeaf e := by
  unfold sunEntry certBytes
  cases e.body <;> exact ⟨rfl, rfl, rfl, rfl, rfl⟩

/-- The answers that an entry gets from the cache and the log. -/
def getFor (w : TNet) (st : Issuers) : List Bytes → Bytes → Fetched
  | [], _ => .intermittent
  | f :: _, fp => if fp = f then (getCertificate w st f).1 else (getCertificate w (getCertificate w st f).2 fp).1

theorem getCertificate_twice {w : TNet} {st : Issuers} {f : Bytes} {p : Cert} (h : (getCertificate w st f).1 = .cert p) :
    getCertificate w (getCertificate w st f).2 f = (.cert p, (getCertificate w st f).2) := by
  have h1 := getCertificate_again h
  rcases getCertificate_cases w (getCertificate w st f).2 f with ⟨c, h2, h3⟩ | ⟨h2, _, _⟩ | ⟨d, h2, _, _, _⟩ | ⟨d, c, h2, _, _, _⟩
  · rw [h1] at h2
    cases h2
    exact h3
  · rw [h1] at h2; cases h2
  · rw [h1] at h2; cases h2
  · rw [h1] at h2; cases h2

theorem getFor_second {w : TNet} {st : Issuers} {f g : Bytes} {rest : List Bytes} {p : Cert} (h : (getCertificate w st f).1 = .cert p) :
    getFor w st (f :: rest) g = (getCertificate w (getCertificate w st f).2 g).1 := by
  simp only [getFor]
  split
  · rename_i hfg
    subst hfg
    rw [getCertificate_twice h, h]
  · rfl

theorem Stored.seen {w : TNet} {st st1 : Issuers} {t : Nat} {e : SunEntry} {o : Outcome} (h : Stored w st t e o st1) :
    storeTiledEntry w.keep (sunEntry w.pc (getFor w st e.chain) t e) = o := by
  obtain ⟨h1, h2, h3, h4, _⟩ := sunEntry_fields w.pc (getFor w st e.chain) t e
  unfold storeTiledEntry
  rw [h1, h2, h3, h4]
  cases h with
  | noCert hn => rw [hn]
  | expired hc ht hk => rw [hc]; dsimp only; rw [if_pos ⟨ht, hk⟩]
  | selfSigned hc hx hch => rw [hc]; dsimp only; rw [if_neg hx, hch]; rfl
  | @firstFatal c f rest hc hx hch hg =>
    rw [hc]; dsimp only; rw [if_neg hx, hch]
    have : getFor w st (f :: rest) f = .fatal := by simp only [getFor, if_true]; exact hg
    simp only [List.map_cons, this]
  | @firstMissing c f rest hc hx hch hg =>
    rw [hc]; dsimp only; rw [if_neg hx, hch]
    have : getFor w st (f :: rest) f = .intermittent := by simp only [getFor, if_true]; exact hg
    simp only [List.map_cons, this]
  | @direct c p f rest hc hx hch hg hp =>
    rw [hc]; dsimp only; rw [if_neg hx, hch]
    have : getFor w st (f :: rest) f = .cert p := by simp only [getFor, if_true]; exact hg
    simp only [List.map_cons, this, hp]
    rfl
  | @lone c p f hc hx hch hg hp =>
    rw [hc]; dsimp only; rw [if_neg hx, hch]
    have : getFor w st [f] f = .cert p := by simp only [getFor, if_true]; exact hg
    simp only [List.map_cons, List.map_nil, this, hp]
    rfl
  | @secondFatal c p f g rest hc hx hch hg hp hg2 =>
    rw [hc]; dsimp only; rw [if_neg hx, hch]
    have : getFor w st (f :: g :: rest) f = .cert p := by simp only [getFor, if_true]; exact hg
    have h5 : getFor w st (f :: g :: rest) g = .fatal := by rw [getFor_second hg]; exact hg2
    simp only [List.map_cons, this, h5, hp]
    rfl
  | @secondMissing c p f g rest hc hx hch hg hp hg2 =>
    rw [hc]; dsimp only; rw [if_neg hx, hch]
    have : getFor w st (f :: g :: rest) f = .cert p := by simp only [getFor, if_true]; exact hg
    have h5 : getFor w st (f :: g :: rest) g = .intermittent := by rw [getFor_second hg]; exact hg2
    simp only [List.map_cons, this, h5, hp]
    rfl
  | @behind c p i f g rest hc hx hch hg hp hg2 =>
    rw [hc]; dsimp only; rw [if_neg hx, hch]
    have : getFor w st (f :: g :: rest) f = .cert p := by simp only [getFor, if_true]; exact hg
    have h5 : getFor w st (f :: g :: rest) g = .cert i := by rw [getFor_second hg]; exact hg2
    simp only [List.map_cons, this, h5, hp]
    rfl

theorem seenAs_any (pc : Bytes → Option Cert) : ∀ es : List (SunEntry × Nat), ∃ ts, SeenAs pc es ts := by
  intro es
  refine ⟨es.map (fun x => sunEntry pc (fun _ => .intermittent) x.2 x.1), by simp, fun n e t hn => ⟨fun _ => .intermittent, ?_⟩⟩
  rw [List.getElem?_map, hn]
  rfl

theorem seenAs_cons {pc : Bytes → Option Cert} {es : List (SunEntry × Nat)} {ts : List TEntry} (h : SeenAs pc es ts) (e : SunEntry) (t : Nat)
    (get : Bytes → Fetched) : SeenAs pc ((e, t) :: es) (sunEntry pc get t e :: ts) := by
  refine ⟨by simp [h.1], fun n e' t' hn => ?_⟩
  rcases n with _ | n
  · cases hn
    exact ⟨get, rfl⟩
  · exact h.2 n e' t' hn

theorem loopTiled_seen (w : TNet) {batch : Nat} (hb : 0 < batch) (now : Nat) : ∀ (es : List (SunEntry × Nat)) (v : TVars) (st : Issuers),
    ∃ ts, SeenAs w.pc es ts ∧ readEntries w.keep batch now v ts =
      ((loopTiled w batch now v st es).1, (loopTiled w batch now v st es).2.1, (loopTiled w batch now v st es).2.2.2.isNone) := by
  intro es
  induction es with
  | nil => intro v st; exact ⟨[], ⟨rfl, fun n e t h => (by cases h)⟩, rfl⟩
  | cons x es ih =>
    obtain ⟨e, t⟩ := x
    intro v st
    obtain ⟨f1, f2, f3, f4, f5⟩ := sunEntry_fields w.pc (getFor w st e.chain) t e
    rcases loopTiled_cons w batch now v st e t es with ⟨st1, hs, hq⟩ | ⟨st1, hs, hq⟩ | ⟨o, st1, hs, _, _, h0, hq⟩ |
      ⟨o, st1, hs, ho1, ho2, _, hm, hq⟩ | ⟨o, st1, hs, ho1, ho2, _, hm, hq⟩ <;> rw [hq]
    · obtain ⟨ts, hts⟩ := seenAs_any w.pc es
      refine ⟨_, seenAs_cons hts e t (getFor w st e.chain), ?_⟩
      simp only [readEntries, hs.seen]
      rfl
    · obtain ⟨ts, hts⟩ := seenAs_any w.pc es
      refine ⟨_, seenAs_cons hts e t (getFor w st e.chain), ?_⟩
      simp only [readEntries, hs.seen]
      rfl
    · omega
    · obtain ⟨ts, hts, hread⟩ := ih (saveTiled now (advanceTiled v e)) st1
      refine ⟨_, seenAs_cons hts e t (getFor w st e.chain), ?_⟩
      have hs' := hs.seen
      cases o with
      | fatal => exact absurd rfl ho1
      | retry => exact absurd rfl ho2
      | skip =>
        simp only [readEntries, hs', f4, f5, if_pos hm]
        unfold advanceTiled at hread
        rw [hread]
        rfl
      | store i =>
        simp only [readEntries, hs', f4, f5, if_pos hm]
        unfold advanceTiled at hread
        rw [hread]
        rfl
    · obtain ⟨ts, hts, hread⟩ := ih (advanceTiled v e) st1
      refine ⟨_, seenAs_cons hts e t (getFor w st e.chain), ?_⟩
      have hs' := hs.seen
      cases o with
      | fatal => exact absurd rfl ho1
      | retry => exact absurd rfl ho2
      | skip =>
        simp only [readEntries, hs', f4, f5, if_neg hm]
        unfold advanceTiled at hread
        rw [hread]
        rfl
      | store i =>
        simp only [readEntries, hs', f4, f5, if_neg hm]
        unfold advanceTiled at hread
        rw [hread]
        rfl

theorem readTiled_seen (w : TNet) {batch : Nat} (hb : 0 < batch) (now : Nat) (es : List (SunEntry × Nat)) (v : TVars) (st : Issuers) (err : Bool) :
    ∃ ts, SeenAs w.pc es ts ∧ readLogEntries w.keep batch now v ts err =
      ((readTiled w batch now v st es err).1, (readTiled w batch now v st es err).2.1, (readTiled w batch now v st es err).2.2.2.isNone) := by
  obtain ⟨ts, hts, hr⟩ := loopTiled_seen w hb now es v st
  refine ⟨ts, hts, ?_⟩
  unfold readLogEntries
  rw [hr]
  rcases readTiled_cases w batch now v st es err with ⟨x, h1, h2⟩ | ⟨h1, h2⟩ <;> rw [h2, h1]
  · simp only [Option.isNone]
  · simp only [Option.isNone]
    cases err <;> rfl

theorem jobTiled_seen (w : TNet) (j : TJob) (hb : 0 < j.batch) (st : Issuers) : ∃ ts1 ts2, SeenAs w.pc j.es1 ts1 ∧ SeenAs w.pc j.es2 ts2 ∧
    (jobTiled w j st).1 = runTiled w.keep j.batch j.now j.s j.sth ts1 ts2 j.err1 j.err2 := by
  obtain ⟨ts1, hts1, hr1⟩ := readTiled_seen w hb j.now j.es1 (startVars j.s) st j.err1
  unfold jobTiled runTiled
  cases hs : j.sth with
  | none =>
    obtain ⟨ts2, hts2⟩ := seenAs_any w.pc j.es2
    exact ⟨ts1, ts2, hts1, hts2, rfl⟩
  | some h =>
    dsimp only
    unfold startVars at *
    cases hc : chooseTiled j.batch j.now j.s (some h) with
    | init =>
      exfalso
      revert hc
      unfold chooseTiled
      dsimp only
      split
      · intro h; cases h
      · split
        · split <;> (intro h; cases h)
        · split
          · intro h; cases h
          · split <;> (intro h; cases h)
    | backfill =>
      exfalso
      revert hc
      unfold chooseTiled
      dsimp only
      split
      · intro h; cases h
      · split
        · split <;> (intro h; cases h)
        · split
          · intro h; cases h
          · split <;> (intro h; cases h)
    | retry =>
      exfalso
      revert hc
      unfold chooseTiled
      dsimp only
      split
      · intro h; cases h
      · split
        · split <;> (intro h; cases h)
        · split
          · intro h; cases h
          · split <;> (intro h; cases h)
    | sleep =>
      obtain ⟨ts2, hts2⟩ := seenAs_any w.pc j.es2
      refine ⟨ts1, ts2, hts1, hts2, ?_⟩
      dsimp only
      unfold sleepTiled
      split <;> rfl
    | update =>
      obtain ⟨ts2, hts2⟩ := seenAs_any w.pc j.es2
      refine ⟨ts1, ts2, hts1, hts2, ?_⟩
      dsimp only
      rw [hr1]
    | forceUpdate =>
      dsimp only
      unfold secondRead
      rcases hr : readTiled w j.batch j.now { maxEntry := j.s.maxEntry, minTs := j.s.minTs, maxTs := j.s.maxTs, state := j.s } st j.es1 j.err1
        with ⟨evs, v1, st1, x⟩
      rw [hr] at hr1
      cases x with
      | some x =>
        obtain ⟨ts2, hts2⟩ := seenAs_any w.pc j.es2
        refine ⟨ts1, ts2, hts1, hts2, ?_⟩
        rw [hr1]
        rfl
      | none =>
        obtain ⟨ts2, hts2, hr2⟩ := readTiled_seen w hb j.now j.es2 v1 st1 j.err2
        refine ⟨ts1, ts2, hts1, hts2, ?_⟩
        rw [hr1]
        simp only [Option.isNone]
        rw [hr2]

end Verif
