import Verif.Props.Caches
/-!
C109: the cache of the tests.
-/
namespace Verif.Props
open Verif.Spec

variable {S : Type} {C : StateCodec S}

/-! ### removal from the end -/

theorem ascending_perm_nodup {l : List Bytes} (h : Ascending l) : l.Nodup := h.imp (fun hx => hx.2)

theorem mockRemove_end {pre post : List Bytes} {v : Bytes} (h : Ascending (pre ++ v :: post)) (hp : post.length ≤ 1) : mockRemove (pre ++ v :: post) v = pre ++ post := by
  have hs : mockSearch (pre ++ v :: post) v = pre.length := by
    have := mockSearch_eq h (i := pre.length) (by simp)
    rw [List.getElem_append_right (Nat.le_refl _)] at this
    simpa using this
  unfold mockRemove
  rw [hs, if_pos (by simp)]
  match post, hp with
  | [], _ => simp
  | [w], _ =>
    have : (pre ++ [v, w]).getLast? = some w := by simp
    rw [this]
    simp

theorem fromTheEnd_post {P : Bytes → Prop} {pre post : List Bytes} {v : Bytes} (h : Ascending (pre ++ v :: post)) (hP : ∀ x, x ∈ pre ++ v :: post ↔ P x)
    (hf : P v → ∀ x y, P x → P y → Before v x → Before v y → x = y) : post.length ≤ 1 := by
  match post with
  | [] => simp
  | [w] => simp
  | x :: y :: r =>
    exfalso
    have hb := (List.pairwise_append.1 h).2.1
    rw [List.pairwise_cons] at hb
    have hx := hb.1 x (by simp)
    have hy := hb.1 y (by simp)
    have hxy := ((List.pairwise_cons.1 hb.2).1 y (by simp)).2
    exact hxy (hf ((hP v).1 (by simp)) x y ((hP x).1 (by simp)) ((hP y).1 (by simp)) hx hy)

/-! ### what the test cache stands for -/

/-- The test cache stands for what the cache holds; nothing in it expires up to `last`. -/
structure MockRel (C : StateCodec S) (last : Int) (m : MockCache) (i : CacheIs S) : Prop where
  once : KeysOnce m.data
  asc : ∀ k, Ascending (m.set k)
  mem : ∀ k x, x ∈ m.set k ↔ i.holds k x
  ne : ∀ k, kvGet m.data k ≠ some []
  named : ∀ k x, i.holds k x → SetKey k ∧ NoSlash k
  exps : ∀ x ∈ m.exps, last < 1000 * x.2
  till : ∀ k t, i.till k = some t → last < 1000 * t
  logsOnce : KeysOnce m.logs
  logs : ∀ u, (∀ b, kvGet m.logs u = some b → ∃ s, C.dec b = some s ∧ i.log u = some s) ∧ (kvGet m.logs u = none → i.log u = none)
  lock : m.lock = i.lock.map Prod.fst
  lockTill : ∀ p, i.lock = some p → last ≤ p.2
  epoch : m.epoch = i.epoch

variable {last now : Int} {m : MockCache} {i : CacheIs S}

theorem mockRel_empty (C : StateCodec S) (last : Int) : MockRel C last MockCache.empty CacheIs.empty :=
  ⟨List.nodup_nil, fun _ => List.Pairwise.nil, fun _ _ => ⟨fun h => (by cases h), fun h => h.elim⟩, fun _ h => (by cases h), fun _ _ h => h.elim, fun _ h => (by cases h), fun _ _ h => (by cases h), List.nodup_nil,
    fun _ => ⟨fun _ h => (by cases h), fun _ => rfl⟩, rfl, fun _ h => (by cases h), rfl⟩

theorem at_same (h : MockRel C last m i) (hn : now ≤ last) : i.at now = i := by
  unfold CacheIs.at
  have ht : ∀ k t, i.till k = some t → now ≤ 1000 * t := fun k t e => by have := h.till k t e; omega
  have hl : ∀ p, i.lock = some p → now ≤ p.2 := fun p e => by have := h.lockTill p e; omega
  rw [if_pos hl]
  obtain ⟨a, b, c, d, e⟩ := i
  dsimp only at ht ⊢
  congr 1
  · funext k x
    exact propext ⟨fun hx => hx.1, fun hx => ⟨hx, ht k⟩⟩
  · funext k
    rw [if_pos (ht k)]

theorem cleanup_same (h : MockRel C last m i) (hn : now ≤ last) : m.cleanup now = m := by
  have hx : ∀ x ∈ m.exps, ¬ 1000 * x.2 < now := fun x hx => by have := h.exps x hx; omega
  unfold MockCache.cleanup
  have h1 : m.exps.filter (fun x => !decide (1000 * x.2 < now)) = m.exps := by
    rw [List.filter_eq_self]
    intro x hm
    simp [hx x hm]
  have h2 : m.data.filter (fun p => !(m.exps.any (fun x => decide (x.1 = p.1) && decide (1000 * x.2 < now)))) = m.data := by
    rw [List.filter_eq_self]
    intro p _
    rw [Bool.not_eq_true', List.any_eq_false]
    intro x hm
    simp [hx x hm]
  rw [h1, h2]

theorem mockSet_put (m : MockCache) (k : Text) (l : List Bytes) (k' : Text) : MockCache.set { m with data := kvPut m.data k l } k' = if k' = k then l else m.set k' := by
  unfold MockCache.set
  dsimp only
  rw [kvGet_put]
  split <;> rfl

theorem mockSet_del (m : MockCache) (k : Text) (k' : Text) : MockCache.set { m with data := kvDel m.data k } k' = if k' = k then [] else m.set k' := by
  unfold MockCache.set
  dsimp only
  rw [kvGet_del]
  split <;> rfl

/-- The data changes at one key. -/
theorem MockRel.of_set (h : MockRel C last m i) {m' : MockCache} {i' : CacheIs S} (ho : KeysOnce m'.data) (ha : ∀ k, Ascending (m'.set k)) (hm : ∀ k x, x ∈ m'.set k ↔ i'.holds k x)
    (hne : ∀ k, kvGet m'.data k ≠ some []) (hn : ∀ k x, i'.holds k x → SetKey k ∧ NoSlash k) (ht : ∀ k t, i'.till k = some t → last < 1000 * t)
    (hr : m'.logs = m.logs ∧ m'.exps = m.exps ∧ m'.lock = m.lock ∧ m'.epoch = m.epoch) (hi : i'.log = i.log ∧ i'.lock = i.lock ∧ i'.epoch = i.epoch) : MockRel C last m' i' := by
  obtain ⟨r1, r2, r3, r4⟩ := hr
  obtain ⟨i1, i2, i3⟩ := hi
  exact ⟨ho, ha, hm, hne, hn, by rw [r2]; exact h.exps, ht, by rw [r1]; exact h.logsOnce, by rw [r1, i1]; exact h.logs, by rw [r3, i2]; exact h.lock, by rw [i2]; exact h.lockTill, by rw [r4, i3]; exact h.epoch⟩

theorem mockInsert_rel (h : MockRel C last m i) {k : Text} (hk : SetKey k) (hs : NoSlash k) (v : Bytes) : MockRel C last (m.insert k v) (i.add k v) := by
  have hn : ∀ k' x, (i.add k v).holds k' x → SetKey k' ∧ NoSlash k' := by
    rintro k' x (hx | ⟨rfl, _⟩)
    · exact h.named k' x hx
    · exact ⟨hk, hs⟩
  unfold MockCache.insert
  by_cases hc : mockContains (m.set k) v = true
  · rw [if_pos hc]
    refine h.of_set h.once h.asc (fun k' x => ?_) h.ne hn h.till ⟨rfl, rfl, rfl, rfl⟩ ⟨rfl, rfl, rfl⟩
    rw [h.mem]
    refine ⟨Or.inl, ?_⟩
    rintro (hx | ⟨rfl, rfl⟩)
    · exact hx
    · rw [← h.mem]
      exact (mockContains_iff (h.asc _) _).1 hc
  · rw [if_neg hc]
    obtain ⟨a1, a2⟩ := mockInsert_spec (h.asc k) v
    refine h.of_set (keysOnce_put h.once _ _) (fun k' => ?_) (fun k' x => ?_) (fun k' => ?_) hn h.till ⟨rfl, rfl, rfl, rfl⟩ ⟨rfl, rfl, rfl⟩
    · rw [mockSet_put]
      split
      · exact a1
      · exact h.asc k'
    · rw [mockSet_put]
      by_cases e : k' = k
      · subst e
        rw [if_pos rfl, a2, h.mem]
        unfold CacheIs.add
        simp only [true_and]
        exact Or.comm
      · rw [if_neg e, h.mem]
        unfold CacheIs.add
        simp [e]
    · dsimp only
      rw [kvGet_put]
      split
      · intro hx
        cases hx' : mockInsert (m.set k) v with
        | nil =>
          have := (a2 v).2 (Or.inl rfl)
          rw [hx'] at this
          cases this
        | cons a l =>
          rw [hx'] at hx
          cases hx
      · exact h.ne k'

theorem expire_later (h : MockRel C last m i) (hn : now ≤ last) {k : Text} {t : Int} (ht : last < 1000 * t) : MockRel C last m (i.expire now k t) := by
  refine h.of_set h.once h.asc (fun k' x => ?_) h.ne (fun k' x hx => h.named k' x hx.1) (fun k' t' e => ?_) ⟨rfl, rfl, rfl, rfl⟩ ⟨rfl, rfl, rfl⟩
  · rw [h.mem]
    exact ⟨fun hx => ⟨hx, fun hc => by have := hc.2; omega⟩, fun hx => hx.1⟩
  · unfold CacheIs.expire at e
    dsimp only at e
    split at e
    · split at e
      · cases e
        exact ht
      · cases e
    · exact h.till k' t' e

theorem mockInserts_rel (hn : now ≤ last) : ∀ (items : List CacheItem) {m : MockCache} {i : CacheIs S}, MockRel C last m i → (∀ x ∈ items, SetKey x.key) → (∀ x ∈ items, NoSlash x.key ∧ last < 1000 * x.expiry) →
    MockRel C last (items.foldl (fun m i => m.insert i.key i.value) m) (items.foldl (fun i x => (i.add x.key x.value).expire now x.key x.expiry) i)
  | [], _, _, h, _, _ => h
  | x :: items, m, i, h, hk, hs => by
    rw [List.foldl_cons, List.foldl_cons]
    exact mockInserts_rel hn items (expire_later (mockInsert_rel h (hk x (by simp)) (hs x (by simp)).1 x.value) hn (hs x (by simp)).2) (fun y hy => hk y (by simp [hy])) (fun y hy => hs y (by simp [hy]))

theorem mockRemoveOne_rel (h : MockRel C last m i) (k : Text) (v : Bytes) (hf : i.holds k v → ∀ x y, i.holds k x → i.holds k y → Before v x → Before v y → x = y) :
    MockRel C last (m.removeOne k v) (i.without k [v]) := by
  have hn : ∀ k' x, (i.without k [v]).holds k' x → SetKey k' ∧ NoSlash k' := fun k' x hx => h.named k' x hx.1
  have ht : ∀ k' t, (i.without k [v]).till k' = some t → last < 1000 * t := by
    intro k' t e
    unfold CacheIs.without at e
    dsimp only at e
    split at e
    · cases e
    · exact h.till k' t e
  unfold MockCache.removeOne
  by_cases hc : mockContains (m.set k) v = true
  · rw [if_pos hc]
    have hv := (mockContains_iff (h.asc k) v).1 hc
    obtain ⟨pre, post, e⟩ := List.append_of_mem hv
    have hasc := h.asc k
    have hmem := h.mem k
    rw [e] at hasc hmem
    have hp := fromTheEnd_post hasc hmem hf
    have hrem := mockRemove_end hasc hp
    have hnd := ascending_perm_nodup hasc
    have hmem' : ∀ x, x ∈ pre ++ post ↔ x ∈ pre ++ v :: post ∧ x ≠ v := by
      intro x
      have h1 := List.nodup_append.1 hnd
      have h2 := List.nodup_cons.1 h1.2.1
      rw [List.mem_append, List.mem_append, List.mem_cons]
      constructor
      · rintro (hx | hx)
        · exact ⟨Or.inl hx, h1.2.2 x hx v (by simp)⟩
        · exact ⟨Or.inr (Or.inr hx), fun e => h2.1 (e ▸ hx)⟩
      · rintro ⟨hx | rfl | hx, hne⟩
        · exact Or.inl hx
        · exact absurd rfl hne
        · exact Or.inr hx
    by_cases hl : (m.set k).length = 1
    · rw [if_pos hl]
      have hnil : pre ++ post = [] := by
        rw [e, List.length_append, List.length_cons] at hl
        apply List.eq_nil_of_length_eq_zero
        rw [List.length_append]
        omega
      refine h.of_set (keysOnce_del h.once _) (fun k' => ?_) (fun k' x => ?_) (fun k' => ?_) hn ht ⟨rfl, rfl, rfl, rfl⟩ ⟨rfl, rfl, rfl⟩
      · rw [mockSet_del]
        split
        · exact List.Pairwise.nil
        · exact h.asc k'
      · rw [mockSet_del]
        unfold CacheIs.without
        dsimp only
        by_cases ek : k' = k
        · subst ek
          rw [if_pos rfl, ← hmem]
          have := hmem' x
          rw [hnil] at this
          simpa using this
        · rw [if_neg ek, h.mem]
          simp [ek]
      · dsimp only
        rw [kvGet_del]
        split
        · intro hx
          cases hx
        · exact h.ne k'
    · rw [if_neg hl]
      refine h.of_set (keysOnce_put h.once _ _) (fun k' => ?_) (fun k' x => ?_) (fun k' => ?_) hn ht ⟨rfl, rfl, rfl, rfl⟩ ⟨rfl, rfl, rfl⟩
      · rw [mockSet_put, e, hrem]
        split
        · exact hasc.sublist (List.Sublist.append (List.Sublist.refl _) (List.sublist_cons_self _ _))
        · exact h.asc k'
      · rw [mockSet_put, e, hrem]
        unfold CacheIs.without
        dsimp only
        by_cases ek : k' = k
        · subst ek
          rw [if_pos rfl, hmem', hmem]
          simp
        · rw [if_neg ek, h.mem]
          simp [ek]
      · dsimp only
        rw [kvGet_put, e, hrem]
        split
        · intro hx
          injection hx with hx
          rw [e, List.length_append, List.length_cons] at hl
          have := congrArg List.length hx
          rw [List.length_append, List.length_nil] at this
          omega
        · exact h.ne k'
  · rw [if_neg hc]
    refine h.of_set h.once h.asc (fun k' x => ?_) h.ne hn ht ⟨rfl, rfl, rfl, rfl⟩ ⟨rfl, rfl, rfl⟩
    rw [h.mem]
    unfold CacheIs.without
    dsimp only
    refine ⟨fun hx => ⟨hx, ?_⟩, fun hx => hx.1⟩
    rintro ⟨rfl, hv⟩
    rw [List.mem_singleton] at hv
    subst hv
    exact hc ((mockContains_iff (h.asc _) _).2 ((h.mem _ _).2 hx))

theorem mockRemoves_rel (k : Text) : ∀ (vs : List Bytes) {m : MockCache} {i : CacheIs S}, MockRel C last m i → FromTheEnd (i.holds k) vs → MockRel C last (vs.foldl (MockCache.removeOne k) m) (i.without k vs)
  | [], m, i, h, _ => by
    refine h.of_set h.once h.asc (fun k' x => ?_) h.ne (fun k' x hx => h.named k' x hx.1) (fun k' t e => ?_) ⟨rfl, rfl, rfl, rfl⟩ ⟨rfl, rfl, rfl⟩
    · rw [List.foldl_nil, h.mem]
      unfold CacheIs.without
      simp
    · unfold CacheIs.without at e
      dsimp only at e
      split at e
      · cases e
      · exact h.till k' t e
  | v :: vs, m, i, h, hf => by
    rw [List.foldl_cons]
    have h1 := mockRemoveOne_rel h k v hf.1
    have hP : (i.without k [v]).holds k = fun x => i.holds k x ∧ x ≠ v := by
      funext x
      unfold CacheIs.without
      simp
    have h2 := mockRemoves_rel k vs h1 (by rw [hP]; exact hf.2)
    rw [without_append] at h2
    exact h2

theorem mockStore_rel (h : MockRel C last m i) {s : S} (hs : StateFaithful C s) (hu : trimSlashes (C.url s) = C.url s) : MockRel C last (m.store C s) (i.keep C s) := by
  refine ⟨h.once, h.asc, h.mem, h.ne, h.named, h.exps, h.till, keysOnce_put h.logsOnce _ _, fun u => ?_, h.lock, h.lockTill, h.epoch⟩
  unfold MockCache.store CacheIs.keep
  dsimp only
  rw [kvGet_put, hu]
  by_cases e : u = C.url s
  · rw [if_pos e, if_pos e]
    exact ⟨fun b hb => by cases hb; exact ⟨s, hs, rfl⟩, fun hb => by cases hb⟩
  · rw [if_neg e, if_neg e]
    exact h.logs u

theorem mockStores_rel : ∀ (l : List S) {m : MockCache} {i : CacheIs S}, MockRel C last m i → (∀ s ∈ l, StateFaithful C s) → (∀ s ∈ l, trimSlashes (C.url s) = C.url s) →
    MockRel C last (l.foldl (MockCache.store C) m) (l.foldl (CacheIs.keep C) i)
  | [], _, _, h, _, _ => h
  | s :: l, m, i, h, hs, hu => by
    rw [List.foldl_cons, List.foldl_cons]
    exact mockStores_rel l (mockStore_rel h (hs s (by simp)) (hu s (by simp))) (fun x hx => hs x (by simp [hx])) (fun x hx => hu x (by simp [hx]))

theorem mockLoadAll_eq (h : MockRel C last m i) : ∃ l : List S, m.logs.mapM (fun p => C.dec p.2) = some l ∧
    ∃ us : List Text, us.Nodup ∧ (∀ u, u ∈ us ↔ ∃ s, i.log u = some s) ∧ us.map i.log = l.map some := by
  have hget : ∀ (l : List (Text × Bytes)), KeysOnce l → ∀ p ∈ l, kvGet l p.1 = some p.2 := by
    intro l
    induction l with
    | nil => intro _ p hp; cases hp
    | cons q l ih =>
      intro ho p hp
      obtain ⟨a, b⟩ := q
      rw [kvGet_cons]
      have ho2 := List.nodup_cons.1 (show (a :: l.map Prod.fst).Nodup from ho)
      rcases List.mem_cons.1 hp with rfl | hp
      · rw [if_pos rfl]
      · rw [if_neg, ih ho2.2 p hp]
        intro e
        exact ho2.1 (e ▸ List.mem_map_of_mem (f := Prod.fst) hp)
  have hdec : ∀ p ∈ m.logs, ∃ s, C.dec p.2 = some s ∧ i.log p.1 = some s := fun p hp => (h.logs p.1).1 p.2 (hget _ h.logsOnce p hp)
  obtain ⟨l, h1, h2⟩ := mapM_some (fun p : Text × Bytes => C.dec p.2) m.logs (fun p hp => by obtain ⟨s, hs, _⟩ := hdec p hp; exact ⟨s, hs⟩)
  refine ⟨l, h1, m.logs.map Prod.fst, h.logsOnce, fun u => ?_, ?_⟩
  · rw [kvGet_mem]
    constructor
    · rintro ⟨b, hb⟩
      obtain ⟨s, _, hs⟩ := (h.logs u).1 b hb
      exact ⟨s, hs⟩
    · rintro ⟨s, hs⟩
      cases hg : kvGet m.logs u with
      | none =>
        rw [(h.logs u).2 hg] at hs
        cases hs
      | some b => exact ⟨b, rfl⟩
  · rw [← h2, List.map_map]
    refine List.map_congr_left (fun p hp => ?_)
    obtain ⟨s, hs, hl⟩ := hdec p hp
    show i.log p.1 = C.dec p.2
    rw [hs, hl]

theorem mockSet_nonempty (h : MockRel C last m i) (k : Text) : (∃ l, kvGet m.data k = some l) ↔ ∃ x, i.holds k x := by
  constructor
  · rintro ⟨l, hl⟩
    cases hl' : l with
    | nil =>
      rw [hl'] at hl
      exact absurd hl (h.ne k)
    | cons a r =>
      refine ⟨a, (h.mem k a).1 ?_⟩
      unfold MockCache.set
      rw [hl, hl']
      simp
  · rintro ⟨x, hx⟩
    cases hg : kvGet m.data k with
    | some l => exact ⟨l, rfl⟩
    | none =>
      have := (h.mem k x).2 hx
      unfold MockCache.set at this
      rw [hg] at this
      cases this

/-- One call. -/
theorem mockCall_rel {start : Int} (h : MockRel C (start + 4 * 60 * 60 * 1000) m i) (c : CacheCall S) (hc : TestCall C start i now c) :
    i.Answer c (mockCall C now m c).2 ∧ MockRel C (start + 4 * 60 * 60 * 1000) (mockCall C now m c).1 (i.next C now c) := by
  obtain ⟨hn0, hn, hp, hx⟩ := hc
  have hcl := cleanup_same h hn
  cases c with
  | exists_ k =>
    unfold mockCall
    dsimp only
    rw [hcl]
    refine ⟨?_, h⟩
    show (kvGet m.data k).isSome = true ↔ _
    rw [Option.isSome_iff_exists, mockSet_nonempty h]
  | insert k v =>
    refine ⟨?_, mockInsert_rel h hp hx v⟩
    show (!mockContains (m.set k) v) = true ↔ _
    rw [← h.mem, ← mockContains_iff (h.asc k)]
    simp
  | insertMany items => exact ⟨trivial, mockInserts_rel hn items h hp hx⟩
  | remove k vs =>
    have h1 := mockRemoves_rel k vs h hx
    unfold mockCall
    dsimp only
    rw [cleanup_same h1 hn]
    exact ⟨trivial, h1⟩
  | contains k v =>
    unfold mockCall
    dsimp only
    rw [hcl]
    exact ⟨by show _ ↔ _; rw [mockContains_iff (h.asc k), h.mem], h⟩
  | members k =>
    unfold mockCall
    dsimp only
    rw [hcl]
    exact ⟨⟨ascending_perm_nodup (h.asc k), h.mem k⟩, h⟩
  | cardinality k => exact ⟨⟨m.set k, ascending_perm_nodup (h.asc k), h.mem k, rfl⟩, h⟩
  | expireAt k t =>
    refine ⟨trivial, ?_⟩
    have h1 := expire_later (now := now) h hn (k := k) hx
    refine ⟨h1.once, h1.asc, h1.mem, h1.ne, h1.named, fun x hm => ?_, h1.till, h1.logsOnce, h1.logs, h1.lock, h1.lockTill, h1.epoch⟩
    rcases List.mem_cons.1 hm with rfl | hm
    · exact hx
    · exact h.exps x (List.mem_filter.1 hm).1
  | keys =>
    refine ⟨⟨List.Nodup.sublist List.filter_sublist h.once, fun k => ?_⟩, h⟩
    rw [List.mem_filter, kvGet_mem, mockSet_nonempty h]
    unfold mockMatches
    rw [Bool.and_eq_true, hasPrefix_iff]
    constructor
    · rintro ⟨h1, h2, _⟩
      exact ⟨h2, h1⟩
    · rintro ⟨h1, x, h2⟩
      refine ⟨⟨x, h2⟩, h1, ?_⟩
      have := (h.named k x h2).2
      simp only [Bool.not_eq_true', List.contains_eq_mem, decide_eq_false_iff_not]
      exact fun hm => this (List.mem_of_mem_drop hm)
  | store s => exact ⟨trivial, mockStore_rel h hp hx⟩
  | load u =>
    unfold mockCall
    dsimp only
    have hu : trimSlashes u = u := hx
    cases hg : kvGet m.logs u with
    | none => exact ⟨by show i.log (trimSlashes u) = none; rw [hu]; exact (h.logs u).2 hg, h⟩
    | some b =>
      obtain ⟨s, h1, h2⟩ := (h.logs u).1 b hg
      rw [Option.bind_some, h1]
      exact ⟨by show i.log (trimSlashes u) = some s; rw [hu]; exact h2, h⟩
  | loadAll =>
    obtain ⟨l, e, h1⟩ := mockLoadAll_eq h
    unfold mockCall
    dsimp only
    rw [e]
    exact ⟨h1, h⟩
  | acquire tok =>
    unfold mockCall CacheIs.next
    dsimp only
    have hl := h.lock
    cases hi : i.lock with
    | none =>
      rw [hi] at hl
      rw [hl, if_pos rfl]
      refine ⟨?_, h.once, h.asc, h.mem, h.ne, h.named, h.exps, h.till, h.logsOnce, h.logs, rfl, fun p e => ?_, h.epoch⟩
      · show some tok = _
        rw [if_pos hi]
      · cases e
        show _ ≤ now + _
        omega
    | some p =>
      rw [hi] at hl
      rw [hl, if_neg (by simp)]
      refine ⟨?_, ?_⟩
      · show none = _
        rw [if_neg (by rw [hi]; simp)]
      · have : ({ i with lock := some p } : CacheIs S) = i := by rw [← hi]
        rw [this]
        exact h
  | release tok =>
    unfold mockCall CacheIs.next
    dsimp only
    have hl := h.lock
    by_cases ht : m.lock = some tok
    · rw [if_pos ht, if_pos]
      · exact ⟨trivial, h.once, h.asc, h.mem, h.ne, h.named, h.exps, h.till, h.logsOnce, h.logs, rfl, fun p e => (by cases e), h.epoch⟩
      · rw [hl] at ht
        obtain ⟨p, h1, h2⟩ := Option.map_eq_some_iff.1 ht
        exact ⟨p.2, by rw [h1, ← h2]⟩
    · rw [if_neg ht, if_neg]
      · exact ⟨trivial, h⟩
      · rintro ⟨e, he⟩
        rw [hl, he] at ht
        exact ht rfl
  | hasLock tok =>
    refine ⟨?_, h⟩
    show decide (m.lock = some tok) = true ↔ _
    rw [decide_eq_true_iff, h.lock, Option.map_eq_some_iff]
    constructor
    · rintro ⟨p, h1, h2⟩
      exact ⟨p.2, by rw [h1, ← h2]⟩
    · rintro ⟨e, he⟩
      exact ⟨(tok, e), he, rfl⟩
  | getEpoch => exact ⟨h.epoch, h⟩
  | nextEpoch =>
    refine ⟨trivial, h.once, h.asc, h.mem, h.ne, h.named, h.exps, h.till, h.logsOnce, h.logs, h.lock, h.lockTill, ?_⟩
    show (m.epoch + 1) % 2 ^ 64 = i.epoch + 1
    have : i.epoch + 1 < 2 ^ 63 := hp
    rw [h.epoch, Nat.mod_eq_of_lt (by omega)]
  | restore e l tok =>
    unfold mockCall CacheIs.next
    dsimp only
    rw [if_pos hx.1]
    refine ⟨hx.1, ?_⟩
    have h1 : MockRel C (start + 4 * 60 * 60 * 1000) { m with logs := [], epoch := e } { i with log := fun _ => none, epoch := e } :=
      ⟨h.once, h.asc, h.mem, h.ne, h.named, h.exps, h.till, List.nodup_nil, fun u => ⟨fun b hb => (by cases hb), fun _ => rfl⟩, h.lock, h.lockTill, rfl⟩
    have h2 := mockStores_rel l h1 hp.2 hx.2
    obtain ⟨a1, a2, a3, a4⟩ := keep_fields (C := C) l { i with log := fun _ => none, epoch := e }
    obtain ⟨b1, b2, b3, b4⟩ := keep_fields (C := C) l { i with log := fun _ => none }
    have : ({ l.foldl (CacheIs.keep C) { i with log := fun _ => none } with epoch := e } : CacheIs S) = l.foldl (CacheIs.keep C) { i with log := fun _ => none, epoch := e } := by
      have h3 := keep_log (C := C) l { i with log := fun _ => none } { i with log := fun _ => none, epoch := e } rfl
      generalize l.foldl (CacheIs.keep C) { i with log := fun _ => none, epoch := e } = X at *
      generalize l.foldl (CacheIs.keep C) { i with log := fun _ => none } = Y at *
      obtain ⟨x1, x2, x3, x4, x5⟩ := X
      obtain ⟨y1, y2, y3, y4, y5⟩ := Y
      simp only at *
      subst_vars
      rfl
    rw [this]
    exact h2

theorem mockRun_follows {start : Int} : ∀ (h : List (Int × CacheCall S)) {m : MockCache} {i : CacheIs S}, MockRel C (start + 4 * 60 * 60 * 1000) m i → AllCalls C (TestCall C start) i h → i.Follows C h (mockRun C m h)
  | [], _, _, _, _ => trivial
  | (now, c) :: h, _, _, hr, hp => by
    have he := at_same hr hp.1.2.1
    have hp1 := hp.1
    have hp2 := hp.2
    rw [he] at hp1 hp2
    obtain ⟨h1, h2⟩ := mockCall_rel hr c hp1
    show (CacheIs.at _ now).Answer c _ ∧ ((CacheIs.at _ now).next C now c).Follows C h (mockRun C (mockCall C now _ c).1 h)
    rw [he]
    exact ⟨h1, mockRun_follows h h2 hp2⟩

/-- **C109 (the cache of the tests), partial.** The full statement is the one of `C109_redis`. It holds for calls within four hours in which nothing expires, keys and URLs are as the programs build them, the lock is free when the cache
is restored, and members are only removed when at most one member is behind them. Outside of this it fails, see the theorems below. -/
theorem C109_mock_partial (C : StateCodec S) (start : Int) (h : List (Int × CacheCall S)) (hp : AllCalls C (TestCall C start) CacheIs.empty h) :
    CacheIs.empty.Follows C h (mockRun C MockCache.empty h) := mockRun_follows h (mockRel_empty C _) hp

/-! ### both caches -/

theorem states_perm {i : CacheIs S} {l l' : List S} (h : ∃ us : List Text, us.Nodup ∧ (∀ u, u ∈ us ↔ ∃ s, i.log u = some s) ∧ us.map i.log = l.map some)
    (h' : ∃ us : List Text, us.Nodup ∧ (∀ u, u ∈ us ↔ ∃ s, i.log u = some s) ∧ us.map i.log = l'.map some) : l.Perm l' := by
  obtain ⟨us, a1, a2, a3⟩ := h
  obtain ⟨vs, b1, b2, b3⟩ := h'
  have hp : us.Perm vs := (List.perm_ext_iff_of_nodup a1 b1).2 (fun u => (a2 u).trans (b2 u).symm)
  have hq := hp.map i.log
  rw [a3, b3] at hq
  have := hq.filterMap id
  rw [List.filterMap_map, List.filterMap_map] at this
  simpa using this

theorem answers_alike {i : CacheIs S} {c : CacheCall S} {a b : CacheAns S} (h1 : i.Answer c a) (h2 : i.Answer c b) : Alike a b := by
  have hb : ∀ {P : Prop} {x y : Bool}, (x = true ↔ P) → (y = true ↔ P) → x = y := by
    intro P x y e1 e2
    have := e1.trans e2.symm
    cases x <;> cases y <;> simp_all
  cases c <;> cases a <;> first
    | exact h1.elim
    | (cases b <;> first
        | exact h2.elim
        | exact rfl
        | exact congrArg CacheAns.flag (hb h1 h2)
        | exact (List.perm_ext_iff_of_nodup h1.1 h2.1).2 (fun x => (h1.2 x).trans (h2.2 x).symm)
        | (obtain ⟨l, a1, a2, a3⟩ := h1
           obtain ⟨l', b1, b2, b3⟩ := h2
           exact congrArg CacheAns.count (by rw [a3, b3]; exact ((List.perm_ext_iff_of_nodup a1 b1).2 (fun x => (a2 x).trans (b2 x).symm)).length_eq))
        | exact states_perm h1 h2
        | exact congrArg CacheAns.state (Option.some.inj (Eq.trans (Eq.symm h1) h2))
        | exact absurd (Eq.trans (Eq.symm h1) h2) (by simp)
        | exact congrArg CacheAns.token (Eq.trans h1 (Eq.symm h2))
        | exact congrArg CacheAns.epoch (Eq.trans h1 (Eq.symm h2))
        | exact absurd h1 h2
        | exact absurd h2 h1)

theorem follows_alike : ∀ (h : List (Int × CacheCall S)) {i : CacheIs S} {as bs : List (CacheAns S)}, i.Follows C h as → i.Follows C h bs → AllAlike as bs
  | [], _, [], [], _, _ => trivial
  | (_, _) :: h, _, _ :: _, _ :: _, h1, h2 => ⟨answers_alike h1.1 h2.1, follows_alike h h1.2 h2.2⟩

theorem allCalls_proper {start : Int} : ∀ (h : List (Int × CacheCall S)) {i : CacheIs S}, AllCalls C (TestCall C start) i h → AllCalls C (fun i _ c => ProperCall C i c) i h
  | [], _, _ => trivial
  | (_, _) :: h, _, hp => ⟨hp.1.2.2.1, allCalls_proper h hp.2⟩

/-- **C109 (both), partial.** On the calls of `C109_mock_partial` the test cache and Redis say the same, call by call. -/
theorem C109_alike_partial (C : StateCodec S) (start : Int) (h : List (Int × CacheCall S)) (hp : AllCalls C (TestCall C start) CacheIs.empty h) :
    AllAlike (mockRun C MockCache.empty h) (redisRun C [] h) :=
  follows_alike h (C109_mock_partial C start h hp) (C109_redis C h (allCalls_proper h hp))

/-! ### where they differ -/

/-- The expiry times that `SetInsertMany` gives to Redis are not in the test cache: what Redis forgets, it keeps. -/
theorem C109_expiry_fails (C : StateCodec S) (k : Text) (v : Bytes) (t now later : Int) (h1 : now < 1000 * t) (h2 : 1000 * t < later) :
    redisRun C [] [(now, .insertMany [⟨k, v, t⟩]), (later, .contains k v)] = [.done, .flag false] ∧
    mockRun C MockCache.empty [(now, .insertMany [⟨k, v, t⟩]), (later, .contains k v)] = [.done, .flag true] := by
  constructor
  · have n1 : ¬ 1000 * t ≤ now := by omega
    simp [redisRun, redisCall, redisLive, redisInsertItem, redisSAdd, redisExpireAt, redisSet, kvGet, kvPut, kvDel, RedisEntry.gone, n1, h2]
  · have hc : mockContains [v] v = true := (mockContains_iff (List.pairwise_singleton _ _) v).2 (by simp)
    have hi : mockInsert [] v = [v] := rfl
    have hn : mockContains [] v = false := rfl
    simp [mockRun, mockCall, MockCache.insert, MockCache.set, MockCache.cleanup, MockCache.empty, kvGet, kvPut, kvDel, hc, hi, hn]

/-- The test cache keeps a lock that Redis lets go after four hours. -/
theorem C109_lock_fails (C : StateCodec S) (a b : Text) (now later : Int) (h : now + 4 * 60 * 60 * 1000 < later) :
    redisRun C [] [(now, .acquire a), (later, .acquire b)] = [.token (some a), .token (some b)] ∧
    mockRun C MockCache.empty [(now, .acquire a), (later, .acquire b)] = [.token (some a), .token none] := by
  have h' : now + lockMillis < later := by unfold lockMillis; omega
  exact ⟨by simp [redisRun, redisCall, redisLive, kvGet, kvPut, kvDel, RedisEntry.gone, h'], rfl⟩

/-- While the lock is taken, Redis refuses to be restored; the test cache does not ask. -/
theorem C109_restore_fails (C : StateCodec S) (a b : Text) (e : Nat) (l : List S) (now later : Int) (h : later ≤ now + 4 * 60 * 60 * 1000) :
    redisRun C [] [(now, .acquire a), (later, .restore e l b)] = [.token (some a), .failed] ∧
    mockRun C MockCache.empty [(now, .acquire a), (later, .restore e l b)] = [.token (some a), .done] := by
  have h' : ¬ now + lockMillis < later := by unfold lockMillis; omega
  exact ⟨by simp [redisRun, redisCall, redisLive, kvGet, kvPut, kvDel, RedisEntry.gone, h'], rfl⟩

/-- A state stored for a URL with a slash at its end is found without the slash in Redis, but not in the test cache. -/
theorem C109_slash_fails (C : StateCodec S) (s : S) (hs : StateFaithful C s) (hu : trimSlashes (C.url s) ≠ C.url s) (now : Int) :
    redisRun C [] [(now, .store s), (now, .load (trimSlashes (C.url s)))] = [.done, .state s] ∧
    mockRun C MockCache.empty [(now, .store s), (now, .load (trimSlashes (C.url s)))] = [.done, .failed] := by
  have hs' : C.dec (C.enc s) = some s := hs
  have ht : logKey (trimSlashes (C.url s)) = logKey (C.url s) := by unfold logKey; rw [trimSlashes_idem]
  constructor
  · simp [redisRun, redisCall, redisLive, redisStore, redisState, kvGet, kvPut, kvDel, RedisEntry.gone, ht, hs']
  · have hu' : ¬ C.url s = trimSlashes (C.url s) := fun e => hu e.symm
    simp [mockRun, mockCall, MockCache.store, MockCache.empty, kvGet, kvPut, kvDel, hu']

/-- Two removals from the front of a set: the first puts the last member in its place, the second is not found any more. -/
theorem C109_remove_fails (C : StateCodec S) (now : Int) :
    redisRun C [] ([[1], [2], [3], [4]].map (fun v => (now, CacheCall.insert "serials::x".toList v)) ++ [(now, .remove "serials::x".toList [[1], [2]]), (now, .members "serials::x".toList)]) =
      [.flag true, .flag true, .flag true, .flag true, .done, .values [[4], [3]]] ∧
    mockRun C MockCache.empty ([[1], [2], [3], [4]].map (fun v => (now, CacheCall.insert "serials::x".toList v)) ++ [(now, .remove "serials::x".toList [[1], [2]]), (now, .members "serials::x".toList)]) =
      [.flag true, .flag true, .flag true, .flag true, .done, .values [[4], [2], [3]]] := by
  refine ⟨rfl, ?_⟩
  have h1 : [[1], [2], [3], [4]].foldl (fun m v => MockCache.insert m "serials::x".toList v) MockCache.empty = ⟨[("serials::x".toList, [[1], [2], [3], [4]])], [], [], none, 0⟩ := rfl
  have h2 : [[1], [2]].foldl (MockCache.removeOne "serials::x".toList) ⟨[("serials::x".toList, [[1], [2], [3], [4]])], [], [], none, 0⟩ = ⟨[("serials::x".toList, [[4], [2], [3]])], [], [], none, 0⟩ := rfl
  have c1 : mockContains (MockCache.empty.set "serials::x".toList) [1] = false := by decide +kernel
  have c2 : mockContains ((MockCache.empty.insert "serials::x".toList [1]).set "serials::x".toList) [2] = false := by decide +kernel
  have c3 : mockContains (((MockCache.empty.insert "serials::x".toList [1]).insert "serials::x".toList [2]).set "serials::x".toList) [3] = false := by decide +kernel
  have c4 : mockContains ((((MockCache.empty.insert "serials::x".toList [1]).insert "serials::x".toList [2]).insert "serials::x".toList [3]).set "serials::x".toList) [4] = false := by decide +kernel
  simp only [List.foldl_cons, List.foldl_nil] at h1 h2
  simp only [mockRun, mockCall, List.map_cons, List.map_nil, List.cons_append, List.nil_append, c1, c2, c3, c4, h1, h2, List.foldl_cons, List.foldl_nil]
  rfl

/-- A key with a slash is in the test cache, but not in its list of keys. -/
theorem C109_keys_fails (C : StateCodec S) (now : Int) :
    redisRun C [] [(now, .insert "serials::a/b".toList [1]), (now, .keys)] = [.flag true, .names ["serials::a/b".toList]] ∧
    mockRun C MockCache.empty [(now, .insert "serials::a/b".toList [1]), (now, .keys)] = [.flag true, .names []] := ⟨rfl, rfl⟩

/-! ### examples -/

/-- States that are their URLs. -/
def urlStates : StateCodec Text := ⟨id, fun s => s.map (fun c => UInt8.ofNat c.toNat), fun b => some (b.map (fun o => Char.ofNat o.toNat))⟩

/-- A day in a test. -/
def testCalls : List (Int × CacheCall Text) :=
  [(5, .insert "serials::x".toList [1]), (6, .insert "serials::x".toList [2]), (7, .insertMany [⟨"serials::x".toList, [3], 20000⟩]), (8, .remove "serials::x".toList [[2]]), (9, .store "ct/a".toList), (10, .nextEpoch),
   (11, .restore 4 ["ct/b".toList] "u".toList), (12, .acquire "t".toList), (13, .release "t".toList), (14, .members "serials::x".toList), (15, .load "ct/a".toList), (16, .getEpoch)]

example : mockRun urlStates MockCache.empty testCalls = [.flag true, .flag true, .done, .done, .done, .done, .done, .token (some "t".toList), .done, .values [[1], [3]], .failed, .epoch 4] := rfl

theorem at_unlocked {i : CacheIs S} {now : Int} (h : i.lock = none) : (i.at now).lock = none := by
  unfold CacheIs.at
  dsimp only
  split
  · exact h
  · rfl

/-- These calls are as `C109_mock_partial` and `C109_alike_partial` want them. -/
theorem testCalls_good : AllCalls urlStates (TestCall urlStates 0) CacheIs.empty testCalls := by
  have hk : SetKey "serials::x".toList := ⟨['x'], rfl⟩
  have hk2 : NoSlash "serials::x".toList := by unfold NoSlash; decide
  have ha : StateFaithful urlStates "ct/a".toList := rfl
  have hb : StateFaithful urlStates "ct/b".toList := rfl
  have ta : trimSlashes (urlStates.url "ct/a".toList) = urlStates.url "ct/a".toList := by decide +kernel
  have tb : trimSlashes (urlStates.url "ct/b".toList) = urlStates.url "ct/b".toList := by decide +kernel
  have ta' : trimSlashes "ct/a".toList = "ct/a".toList := ta
  unfold testCalls
  simp only [AllCalls, TestCall]
  refine ⟨⟨by omega, by omega, hk, hk2⟩, ⟨by omega, by omega, hk, hk2⟩, ⟨by omega, by omega, ?_, ?_⟩, ⟨by omega, by omega, hk, ?_, trivial⟩, ⟨by omega, by omega, ha, ta⟩,
    ⟨by omega, by omega, (show 0 + 1 < 2 ^ 63 by decide), trivial⟩, ⟨by omega, by omega, ⟨by omega, ?_⟩, ?_, ?_⟩, ⟨by omega, by omega, trivial, trivial⟩, ⟨by omega, by omega, trivial, trivial⟩, ⟨by omega, by omega, hk, trivial⟩, ⟨by omega, by omega, trivial, ta'⟩, ⟨by omega, by omega, trivial, trivial⟩, trivial⟩
  · intro x hx
    rw [List.mem_singleton] at hx
    subst hx
    exact hk
  · intro x hx
    rw [List.mem_singleton] at hx
    subst hx
    exact ⟨hk2, by decide⟩
  · rintro - x y hx hy h1 h2
    have hm : ∀ z, Before [2] z → z = [1] ∨ z = [2] ∨ z = [3] → z = [3] := by
      rintro z hz (rfl | rfl | rfl)
      · exact absurd hz.1 (by decide)
      · exact absurd rfl hz.2
      · rfl
    have hz : ∀ z, ((((((CacheIs.empty (S := Text)).at 5).next urlStates 5 (.insert "serials::x".toList [1])).at 6).next urlStates 6 (.insert "serials::x".toList [2])).at 7 |>.next urlStates 7 (.insertMany [⟨"serials::x".toList, [3], 20000⟩])).holds "serials::x".toList z → z = [1] ∨ z = [2] ∨ z = [3] := by
      intro z h
      simpa [CacheIs.next, CacheIs.at, CacheIs.add, CacheIs.expire, CacheIs.empty, or_assoc] using h
    rw [hm x h1 (hz x hx.1), hm y h2 (hz y hy.1)]
  · intro s hs
    rw [List.mem_singleton] at hs
    subst hs
    exact hb
  · have e1 : ∀ j n, (CacheIs.next urlStates j n .nextEpoch).lock = j.lock := fun _ _ => rfl
    have e2 : ∀ j n s, (CacheIs.next urlStates j n (.store s)).lock = j.lock := fun _ _ _ => rfl
    have e3 : ∀ j n k v, (CacheIs.next urlStates j n (.remove k v)).lock = j.lock := fun _ _ _ _ => rfl
    have e4 : ∀ j n x, (CacheIs.next urlStates j n (.insertMany [x])).lock = j.lock := fun _ _ _ => rfl
    have e5 : ∀ j n k v, (CacheIs.next urlStates j n (.insert k v)).lock = j.lock := fun _ _ _ _ => rfl
    refine at_unlocked ((e1 _ _).trans (at_unlocked ((e2 _ _ _).trans (at_unlocked ((e3 _ _ _ _).trans (at_unlocked ((e4 _ _ _).trans (at_unlocked ((e5 _ _ _ _).trans (at_unlocked ((e5 _ _ _ _).trans ?_)))))))))))
    exact at_unlocked rfl
  · intro s hs
    rw [List.mem_singleton] at hs
    subst hs
    exact tb

example : StateFaithful urlStates "ct/".toList ∧ trimSlashes (urlStates.url "ct/".toList) ≠ urlStates.url "ct/".toList := ⟨rfl, by decide +kernel⟩

/-! ### each theorem applied -/

example := C109_mock_partial urlStates 0 testCalls testCalls_good
example := C109_alike_partial urlStates 0 testCalls testCalls_good
example := C109_redis urlStates testCalls (allCalls_proper testCalls testCalls_good)
example := C109_expiry_fails urlStates "serials::x".toList [1] 20 5 20001 (by decide) (by decide)
example := C109_lock_fails urlStates "a".toList "b".toList 5 14400006 (by decide)
example := C109_restore_fails urlStates "a".toList "b".toList 4 ["ct/a".toList] 5 6 (by decide)
example := C109_slash_fails urlStates "ct/".toList rfl (by decide +kernel) 5

end Verif.Props
