import Verif.Lemmas.Caches
/-!
C109: both implementations of the cache answer as a cache should, and alike.
-/
namespace Verif.Props
open Verif.Spec

variable {S : Type} {C : StateCodec S} {m m' : RedisKeys} {i i' : CacheIs S}

/-! ### log states -/

theorem redisStore_rel (h : RedisRel C m i) {s : S} (hs : StateFaithful C s) : RedisRel C (redisStore C m s) (i.keep C s) := by
  unfold redisStore
  refine h.of_logs (keysOnce_put h.once _ _) (fun k' hk => ?_) (fun u => ?_) ⟨rfl, rfl, rfl, rfl⟩
  · rw [kvGet_put, if_neg]
    rintro rfl
    exact hk ⟨_, rfl⟩
  · unfold CacheIs.keep logKey
    dsimp only
    rw [kvGet_put]
    by_cases hu : u = trimSlashes (C.url s)
    · rw [if_pos hu, if_pos (by rw [hu])]
      exact ⟨s, rfl, hs⟩
    · rw [if_neg (fun e => hu (List.append_cancel_left e)), if_neg hu]
      exact h.logs u

theorem redisStores_rel : ∀ (l : List S) {m : RedisKeys} {i : CacheIs S}, RedisRel C m i → (∀ s ∈ l, StateFaithful C s) → RedisRel C (l.foldl (redisStore C) m) (l.foldl (CacheIs.keep C) i)
  | [], _, _, h, _ => h
  | s :: l, m, i, h, hs => by
    rw [List.foldl_cons, List.foldl_cons]
    exact redisStores_rel l (redisStore_rel h (hs s (by simp))) (fun x hx => hs x (by simp [hx]))

theorem redisState_eq (h : RedisRel C m i) (u : Text) : redisState C m ("log::".toList ++ u) = i.log u := by
  have hs := h.logs u
  unfold redisState
  match hg : kvGet m ("log::".toList ++ u) with
  | none =>
    rw [hg] at hs
    exact hs.symm
  | some ⟨.blob b, none⟩ =>
    rw [hg] at hs
    obtain ⟨s, h1, h2⟩ := hs
    rw [h1]
    exact h2
  | some ⟨.blob b, some _⟩ =>
    rw [hg] at hs
    cases hs
  | some ⟨.set b, e⟩ =>
    rw [hg] at hs
    cases hs
  | some ⟨.text b, e⟩ =>
    rw [hg] at hs
    cases hs

theorem mem_redisNames (m : RedisKeys) (pre k : Text) : k ∈ redisNames m pre ↔ (∃ r, k = pre ++ r) ∧ ∃ v, kvGet m k = some v := by
  unfold redisNames
  rw [List.mem_filter, kvGet_mem, hasPrefix_iff, and_comm]

theorem logKey_there (h : RedisRel C m i) (u : Text) : (∃ v, kvGet m ("log::".toList ++ u) = some v) ↔ ∃ s, i.log u = some s := by
  have hs := h.logs u
  match hg : kvGet m ("log::".toList ++ u) with
  | none =>
    rw [hg] at hs
    rw [show i.log u = none from hs]
    constructor <;> (rintro ⟨_, e⟩; cases e)
  | some ⟨.blob b, none⟩ =>
    rw [hg] at hs
    obtain ⟨s, h1, h2⟩ := hs
    exact ⟨fun _ => ⟨s, h1⟩, fun _ => ⟨_, rfl⟩⟩
  | some ⟨.blob b, some _⟩ =>
    rw [hg] at hs
    cases hs
  | some ⟨.set b, e⟩ =>
    rw [hg] at hs
    cases hs
  | some ⟨.text b, e⟩ =>
    rw [hg] at hs
    cases hs

theorem mapM_some {α β : Type} (f : α → Option β) : ∀ l : List α, (∀ x ∈ l, ∃ y, f x = some y) → ∃ r, l.mapM f = some r ∧ l.map f = r.map some
  | [], _ => ⟨[], rfl, rfl⟩
  | x :: l, h => by
    obtain ⟨y, hy⟩ := h x (by simp)
    obtain ⟨r, h1, h2⟩ := mapM_some f l (fun z hz => h z (by simp [hz]))
    refine ⟨y :: r, ?_, ?_⟩
    · rw [List.mapM_cons, hy, h1]
      rfl
    · rw [List.map_cons, List.map_cons, hy, h2]

theorem prefixed (pre : Text) : ∀ l : List Text, (∀ k ∈ l, ∃ r, k = pre ++ r) → ∃ us : List Text, l = us.map (fun u => pre ++ u)
  | [], _ => ⟨[], rfl⟩
  | k :: l, h => by
    obtain ⟨r, rfl⟩ := h k (by simp)
    obtain ⟨us, rfl⟩ := prefixed pre l (fun x hx => h x (by simp [hx]))
    exact ⟨r :: us, rfl⟩

theorem redisLoadAll_eq (h : RedisRel C m i) : ∃ l : List S, (redisNames m "log::".toList).mapM (redisState C m) = some l ∧
    ∃ us : List Text, us.Nodup ∧ (∀ u, u ∈ us ↔ ∃ s, i.log u = some s) ∧ us.map i.log = l.map some := by
  obtain ⟨us, hus⟩ := prefixed "log::".toList (redisNames m "log::".toList) (fun k hk => ((mem_redisNames _ _ _).1 hk).1)
  have hmem : ∀ u, u ∈ us ↔ ∃ s, i.log u = some s := by
    intro u
    rw [← logKey_there h u]
    have := mem_redisNames m "log::".toList ("log::".toList ++ u)
    rw [hus] at this
    constructor
    · intro hu
      exact (this.1 (List.mem_map_of_mem hu)).2
    · intro hv
      obtain ⟨u', hu', e⟩ := List.mem_map.1 (this.2 ⟨⟨u, rfl⟩, hv⟩)
      rw [← List.append_cancel_left e]
      exact hu'
  have heq : (redisNames m "log::".toList).map (redisState C m) = us.map i.log := by
    rw [hus, List.map_map]
    exact List.map_congr_left (fun u _ => redisState_eq h u)
  obtain ⟨l, h1, h2⟩ := mapM_some (redisState C m) (redisNames m "log::".toList) (by
    intro k hk
    rw [hus] at hk
    obtain ⟨u, hu, rfl⟩ := List.mem_map.1 hk
    rw [redisState_eq h u]
    exact (hmem u).1 hu)
  refine ⟨l, h1, us, ?_, hmem, by rw [← heq, h2]⟩
  have hn : (redisNames m "log::".toList).Nodup := List.Nodup.sublist List.filter_sublist h.once
  rw [hus] at hn
  exact (List.pairwise_map.1 hn).imp (fun hne e => hne (by rw [e]))

/-! ### lock and epoch -/

theorem parseUint64_natText (n : Nat) (h : n < 2 ^ 64) : parseUint64 (natText n) = some n := parseUint64_of (natText_digits n).1 (natText_digits n).2.1 h

theorem redisHasLock_eq (h : RedisRel C m i) (tok : Text) : ∃ b, redisHasLock m tok = some b ∧ (b = true ↔ ∃ e, i.lock = some (tok, e)) := by
  have hl := h.lock
  unfold LockRel at hl
  unfold redisHasLock
  rw [hl]
  cases hi : i.lock with
  | none => exact ⟨false, rfl, by simp⟩
  | some p =>
    refine ⟨decide (p.1 = tok), rfl, ?_⟩
    rw [decide_eq_true_iff]
    constructor
    · rintro rfl
      exact ⟨p.2, rfl⟩
    · rintro ⟨e, he⟩
      cases he
      rfl

theorem lock_none_iff (h : RedisRel C m i) : kvGet m lockName = none ↔ i.lock = none := by
  have hl := h.lock
  unfold LockRel at hl
  rw [hl]
  cases i.lock <;> simp

theorem redisEpoch_eq (h : RedisRel C m i) : redisEpoch m = some i.epoch := by
  have he := h.epoch
  unfold EpochRel at he
  unfold redisEpoch
  rcases he.2 with ⟨h1, h2⟩ | h1
  · rw [h1, h2]
  · rw [h1]
    exact parseUint64_natText _ (by have := he.1; omega)

theorem redisIncr_rel (h : RedisRel C m i) (hb : i.epoch + 1 < 2 ^ 63) : ∃ m', redisIncr m = some m' ∧ RedisRel C m' { i with epoch := i.epoch + 1 } := by
  have he := h.epoch
  unfold EpochRel at he
  unfold redisIncr
  rcases he.2 with ⟨h1, h2⟩ | h1
  · refine ⟨_, by rw [h1], ?_⟩
    refine h.of_epoch (keysOnce_put h.once _ _) (fun k' hne => by rw [kvGet_put, if_neg hne]) ?_ ⟨rfl, rfl, rfl, rfl⟩
    rw [kvGet_put, if_pos rfl]
    refine ⟨hb, Or.inr ?_⟩
    rw [h2]
  · refine ⟨kvPut m epochName ⟨.text (natText (i.epoch + 1)), none⟩, ?_, ?_⟩
    · rw [h1]
      dsimp only
      rw [parseUint64_natText _ (by omega)]
      dsimp only
      rw [if_pos hb]
    · refine h.of_epoch (keysOnce_put h.once _ _) (fun k' hne => by rw [kvGet_put, if_neg hne]) ?_ ⟨rfl, rfl, rfl, rfl⟩
      rw [kvGet_put, if_pos rfl]
      exact ⟨hb, Or.inr rfl⟩

theorem keep_fields : ∀ (l : List S) (i : CacheIs S), (l.foldl (CacheIs.keep C) i).holds = i.holds ∧ (l.foldl (CacheIs.keep C) i).till = i.till ∧ (l.foldl (CacheIs.keep C) i).lock = i.lock ∧
    (l.foldl (CacheIs.keep C) i).epoch = i.epoch
  | [], _ => ⟨rfl, rfl, rfl, rfl⟩
  | s :: l, i => keep_fields l (i.keep C s)

theorem keep_log : ∀ (l : List S) (i j : CacheIs S), i.log = j.log → (l.foldl (CacheIs.keep C) i).log = (l.foldl (CacheIs.keep C) j).log
  | [], _, _, h => h
  | s :: l, i, j, h => keep_log l (i.keep C s) (j.keep C s) (by unfold CacheIs.keep; dsimp only; rw [h])

theorem kvGet_dels {α : Type} : ∀ (ks : List Text) (m : List (Text × α)) (k : Text), kvGet (ks.foldl kvDel m) k = if k ∈ ks then none else kvGet m k
  | [], _, _ => by simp
  | a :: ks, m, k => by
    rw [List.foldl_cons, kvGet_dels ks, kvGet_del]
    by_cases h1 : k ∈ ks
    · rw [if_pos h1, if_pos (by simp [h1])]
    · by_cases h2 : k = a
      · rw [if_neg h1, if_pos h2, if_pos (by simp [h2])]
      · rw [if_neg h1, if_neg h2, if_neg (by simp [h1, h2])]

theorem keysOnce_dels {α : Type} : ∀ (ks : List Text) {m : List (Text × α)}, KeysOnce m → KeysOnce (ks.foldl kvDel m)
  | [], _, h => h
  | a :: ks, _, h => keysOnce_dels ks (keysOnce_del h a)

theorem redisRestore_rel (h : RedisRel C m i) (hl : i.lock = none) {e : Nat} (he : e < 2 ^ 63) {l : List S} (hs : ∀ s ∈ l, StateFaithful C s) (tok : Text) (t : Int) :
    RedisRel C (kvDel (redisRestore C (kvPut m lockName ⟨.text tok, some t⟩) e l) lockName) { l.foldl (CacheIs.keep C) { i with log := fun _ => none } with epoch := e } := by
  have h1 : RedisRel C (kvPut m lockName ⟨.text tok, some t⟩) { i with lock := some (tok, t) } := by
    refine h.of_lock (keysOnce_put h.once _ _) (fun k' hne => by rw [kvGet_put, if_neg hne]) ?_ ⟨rfl, rfl, rfl, rfl⟩
    rw [kvGet_put, if_pos rfl]
    rfl
  generalize hm : kvPut m lockName ⟨.text tok, some t⟩ = m1 at h1
  have h2 : RedisRel C ((redisNames m1 "log::".toList).foldl kvDel m1) { i with lock := some (tok, t), log := fun _ => none } := by
    refine h1.of_logs (keysOnce_dels _ h1.once) (fun k' hk => ?_) (fun u => ?_) ⟨rfl, rfl, rfl, rfl⟩
    · rw [kvGet_dels, if_neg]
      intro hc
      exact hk ((mem_redisNames _ _ _).1 hc).1
    · rw [kvGet_dels]
      by_cases hc : "log::".toList ++ u ∈ redisNames m1 "log::".toList
      · rw [if_pos hc]
        rfl
      · rw [if_neg hc]
        cases hg : kvGet m1 ("log::".toList ++ u) with
        | none => rfl
        | some v => exact absurd ((mem_redisNames _ _ _).2 ⟨⟨u, rfl⟩, v, hg⟩) hc
  have h3 := redisStores_rel l h2 hs
  have h4 := h3.of_epoch (m' := redisRestore C m1 e l) (i' := { l.foldl (CacheIs.keep C) { i with lock := some (tok, t), log := fun _ => none } with epoch := e })
    (keysOnce_put h3.once _ _) (fun k' hne => by unfold redisRestore; rw [kvGet_put, if_neg hne]) (by
      unfold redisRestore
      rw [kvGet_put, if_pos rfl]
      exact ⟨he, Or.inr rfl⟩) ⟨rfl, rfl, rfl, rfl⟩
  obtain ⟨a1, a2, a3, a4⟩ := keep_fields (C := C) l { i with lock := some (tok, t), log := fun _ => none }
  obtain ⟨b1, b2, b3, b4⟩ := keep_fields (C := C) l { i with log := fun _ => none }
  refine h4.of_lock (keysOnce_del h4.once _) (fun k' hne => by rw [kvGet_del, if_neg hne]) ?_ ⟨?_, ?_, ?_, rfl⟩
  · rw [kvGet_del, if_pos rfl]
    unfold LockRel
    dsimp only
    rw [b3, hl]
    rfl
  · dsimp only
    rw [a1, b1]
  · dsimp only
    rw [a2, b2]
  · exact keep_log l _ _ rfl

/-- One call. -/
theorem redisCall_rel (h : RedisRel C m i) (now : Int) (c : CacheCall S) (hc : ProperCall C i c) :
    i.Answer c (redisCall C now m c).2 ∧ RedisRel C (redisCall C now m c).1 (i.next C now c) := by
  cases c with
  | exists_ k => exact ⟨redisExists_iff h hc, h⟩
  | insert k v =>
    obtain ⟨m', b, e, h1, h2⟩ := redisSAdd_rel h hc v
    unfold redisCall
    dsimp only
    rw [e]
    exact ⟨h2, h1⟩
  | insertMany items =>
    obtain ⟨h1, h2⟩ := redisInsertItems_rel now items h hc
    unfold redisCall
    dsimp only
    rw [if_pos h1]
    exact ⟨trivial, h2⟩
  | remove k vs =>
    obtain ⟨m', e, h1⟩ := redisRemove_rel hc (removeSlices 1024 vs vs.length 0) h
    rw [(C36_removed_once 1024 (by decide) vs).1] at h1
    unfold redisCall redisRemove
    dsimp only
    rw [e]
    exact ⟨trivial, h1⟩
  | contains k v =>
    obtain ⟨l, e, h1, h2⟩ := redisSet_eq h hc
    unfold redisCall
    dsimp only
    rw [e]
    refine ⟨?_, h⟩
    show l.contains v = true ↔ _
    rw [← h2 v]
    simp
  | members k =>
    obtain ⟨l, e, h1, h2⟩ := redisSet_eq h hc
    unfold redisCall
    dsimp only
    rw [e]
    exact ⟨⟨h1, h2⟩, h⟩
  | cardinality k =>
    obtain ⟨l, e, h1, h2⟩ := redisSet_eq h hc
    unfold redisCall
    dsimp only
    rw [e]
    exact ⟨⟨l, h1, h2, rfl⟩, h⟩
  | expireAt k t => exact ⟨trivial, redisExpireAt_rel h hc now t⟩
  | keys =>
    refine ⟨⟨List.Nodup.sublist List.filter_sublist h.once, fun k => ?_⟩, h⟩
    rw [mem_redisNames]
    constructor
    · rintro ⟨h1, v, h2⟩
      exact ⟨h1, (redisExists_iff h h1).1 (by rw [h2]; rfl)⟩
    · rintro ⟨h1, h2⟩
      exact ⟨h1, Option.isSome_iff_exists.1 ((redisExists_iff h h1).2 h2)⟩
  | store s => exact ⟨trivial, redisStore_rel h hc⟩
  | load u =>
    unfold redisCall logKey
    dsimp only
    rw [redisState_eq h]
    cases hs : i.log (trimSlashes u) with
    | none => exact ⟨hs, h⟩
    | some s => exact ⟨hs, h⟩
  | loadAll =>
    obtain ⟨l, e, h1⟩ := redisLoadAll_eq h
    unfold redisCall
    dsimp only
    rw [e]
    exact ⟨h1, h⟩
  | acquire tok =>
    unfold redisCall
    dsimp only
    unfold CacheIs.next
    dsimp only
    by_cases hl : i.lock = none
    · rw [(lock_none_iff h).2 hl]
      refine ⟨?_, ?_⟩
      · show some tok = _
        rw [if_pos hl]
      · refine h.of_lock (keysOnce_put h.once _ _) (fun k' hne => by rw [kvGet_put, if_neg hne]) ?_ ⟨rfl, rfl, rfl, rfl⟩
        rw [kvGet_put, if_pos rfl, if_pos hl]
        rfl
    · cases hg : kvGet m lockName with
      | none => exact absurd ((lock_none_iff h).1 hg) hl
      | some v =>
        refine ⟨?_, ?_⟩
        · show none = _
          rw [if_neg hl]
        · rw [if_neg hl]
          exact h
  | release tok =>
    obtain ⟨b, e, h1⟩ := redisHasLock_eq h tok
    unfold redisCall CacheIs.next
    dsimp only
    rw [e]
    by_cases hb : b = true
    · rw [if_pos (by rw [hb]), if_pos (h1.1 hb)]
      refine ⟨trivial, h.of_lock (keysOnce_del h.once _) (fun k' hne => by rw [kvGet_del, if_neg hne]) ?_ ⟨rfl, rfl, rfl, rfl⟩⟩
      rw [kvGet_del, if_pos rfl]
      rfl
    · rw [if_neg (by intro hc; cases hc; exact hb rfl), if_neg (fun hx => hb (h1.2 hx))]
      exact ⟨trivial, h⟩
  | hasLock tok =>
    obtain ⟨b, e, h1⟩ := redisHasLock_eq h tok
    unfold redisCall
    dsimp only
    rw [e]
    exact ⟨h1, h⟩
  | getEpoch =>
    unfold redisCall
    dsimp only
    rw [redisEpoch_eq h]
    exact ⟨rfl, h⟩
  | nextEpoch =>
    obtain ⟨m', e, h1⟩ := redisIncr_rel h hc
    unfold redisCall
    dsimp only
    rw [e]
    exact ⟨trivial, h1⟩
  | restore e l tok =>
    unfold redisCall CacheIs.next
    dsimp only
    by_cases hl : i.lock = none
    · rw [(lock_none_iff h).2 hl, if_pos hl]
      exact ⟨hl, redisRestore_rel h hl hc.1 hc.2 tok _⟩
    · cases hg : kvGet m lockName with
      | none => exact absurd ((lock_none_iff h).1 hg) hl
      | some v =>
        rw [if_neg hl]
        exact ⟨hl, h⟩

theorem redisRun_follows : ∀ (h : List (Int × CacheCall S)) {m : RedisKeys} {i : CacheIs S}, RedisRel C m i → AllCalls C (fun i _ c => ProperCall C i c) i h → i.Follows C h (redisRun C m h)
  | [], _, _, _, _ => trivial
  | (now, c) :: h, _, _, hr, hp => by
    obtain ⟨h1, h2⟩ := redisCall_rel (hr.live now) now c hp.1
    exact ⟨h1, redisRun_follows h h2 hp.2⟩

/-- **C109 (Redis).** Whatever sequence of calls is made, with whatever time between them, `RedisCache` answers as a cache should: sets keep their members until these are removed or the set expires, log states are found under their
URLs, at most one token has the lock, the epoch counts. -/
theorem C109_redis (C : StateCodec S) (h : List (Int × CacheCall S)) (hp : AllCalls C (fun i _ c => ProperCall C i c) CacheIs.empty h) :
    CacheIs.empty.Follows C h (redisRun C [] h) := redisRun_follows h (redisRel_empty C) hp

theorem redisSAdd_refused {m : RedisKeys} {k : Text} {e : RedisEntry} (hk : kvGet m k = some e) (hn : ∀ l, e.val ≠ .set l) (v : Bytes) : redisSAdd m k v = none := by
  unfold redisSAdd
  rw [hk]
  obtain ⟨val, t⟩ := e
  cases val with
  | set l => exact absurd rfl (hn l)
  | blob b => rfl
  | text n => rfl

theorem redisInsertItem_other (now : Int) (r : RedisKeys × Bool) (x : CacheItem) (k : Text) (h : k ≠ x.key) : kvGet (redisInsertItem now r x).1 k = kvGet r.1 k := by
  have hexp : ∀ m : RedisKeys, kvGet (redisExpireAt now m x.key x.expiry) k = kvGet m k := by
    intro m
    unfold redisExpireAt
    split
    · rfl
    · split
      · rw [kvGet_del, if_neg h]
      · rw [kvGet_put, if_neg h]
  have hadd : ∀ r', redisSAdd r.1 x.key x.value = some r' → kvGet r'.1 k = kvGet r.1 k := by
    intro r' hr
    unfold redisSAdd at hr
    split at hr
    · cases hr; exact (kvGet_put ..).trans (if_neg h)
    · split at hr
      · cases hr; rfl
      · cases hr; exact (kvGet_put ..).trans (if_neg h)
    · cases hr
  unfold redisInsertItem
  split
  · rename_i r' hr
    exact (hexp r'.1).trans (hadd r' hr)
  · exact hexp r.1

theorem redisInsertItem_flag (now : Int) (r : RedisKeys × Bool) (x : CacheItem) (h : r.2 = false) : (redisInsertItem now r x).2 = false := by
  unfold redisInsertItem
  split
  · exact h
  · rfl

theorem redisInsertItems_flag (now : Int) : ∀ (items : List CacheItem) (r : RedisKeys × Bool), r.2 = false → (items.foldl (redisInsertItem now) r).2 = false
  | [], _, h => h
  | x :: items, r, h => redisInsertItems_flag now items _ (redisInsertItem_flag now r x h)

theorem redisInsertItems_refused (now : Int) {e : RedisEntry} (hn : ∀ l, e.val ≠ .set l) : ∀ (items : List CacheItem) (r : RedisKeys × Bool) (k : Text),
    kvGet r.1 k = some e → k ∈ items.map CacheItem.key → (items.foldl (redisInsertItem now) r).2 = false
  | [], _, _, _, h => absurd h (by simp)
  | x :: items, r, k, hk, h => by
    rw [List.foldl_cons]
    by_cases hx : k = x.key
    · subst hx
      refine redisInsertItems_flag now items _ ?_
      unfold redisInsertItem
      rw [redisSAdd_refused hk hn]
    · refine redisInsertItems_refused now hn items _ k ((redisInsertItem_other now r x k hx).trans hk) ?_
      rcases List.mem_cons.1 h with h | h
      · exact absurd h hx
      · exact h

/-- **C109 (Redis), refused commands.** A key that holds something other than a set is refused by Redis, and the caller is told: by `SetInsert`, by `SetInsertMany` wherever the item stands, and by `SetContains`. -/
theorem C109_refused_reported (C : StateCodec S) (now : Int) (m : RedisKeys) (k : Text) (e : RedisEntry) (hk : kvGet m k = some e) (hn : ∀ l, e.val ≠ .set l) :
    (∀ v, redisCall C now m (.insert k v) = (m, .failed)) ∧
    (∀ items : List CacheItem, k ∈ items.map CacheItem.key → (redisCall C now m (.insertMany items)).2 = .failed) ∧
    (∀ v, (redisCall C now m (.contains k v)).2 = .failed) ∧ (redisCall C now m (.members k)).2 = .failed ∧ (redisCall C now m (.cardinality k)).2 = .failed := by
  refine ⟨fun v => ?_, fun items h => ?_, ?_⟩
  · unfold redisCall
    dsimp only
    rw [redisSAdd_refused hk hn]
  · unfold redisCall
    dsimp only
    rw [redisInsertItems_refused now hn items (m, true) k hk h]
    rfl
  · have hs : redisSet m k = none := by
      unfold redisSet
      rw [hk]
      obtain ⟨val, t⟩ := e
      cases val with
      | set l => exact absurd rfl (hn l)
      | blob b => rfl
      | text n => rfl
    unfold redisCall
    dsimp only
    rw [hs]
    exact ⟨fun _ => rfl, rfl, rfl⟩

/-- A log state under a name that is used for a set. -/
example : kvGet [("k".toList, (⟨.blob [1], none⟩ : RedisEntry))] "k".toList = some ⟨.blob [1], none⟩ ∧ (∀ l, RedisVal.blob [1] ≠ .set l) := ⟨rfl, fun _ h => (by cases h)⟩

end Verif.Props
