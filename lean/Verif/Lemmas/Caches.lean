import Verif.Spec.Caches
import Verif.Props.Storage
import Verif.Props.Epoch
import Verif.Props.Keys
/-!
Lemmas for C109: maps, and the relation between the keys of Redis and what the cache holds.
-/
namespace Verif.Props
open Verif.Spec

variable {α S : Type}

/-! ### maps -/

theorem kvGet_nil (k : Text) : kvGet ([] : List (Text × α)) k = none := rfl

theorem kvGet_cons (a : Text) (v : α) (m : List (Text × α)) (k : Text) : kvGet ((a, v) :: m) k = if a = k then some v else kvGet m k := by
  unfold kvGet
  rw [List.find?_cons]
  by_cases h : a = k
  · simp [h]
  · simp [h]

theorem kvGet_del (m : List (Text × α)) (k k' : Text) : kvGet (kvDel m k) k' = if k' = k then none else kvGet m k' := by
  induction m with
  | nil => simp [kvDel, kvGet]
  | cons p m ih =>
    obtain ⟨a, v⟩ := p
    unfold kvDel at ih ⊢
    rw [List.filter_cons]
    by_cases h : a = k
    · subst h
      rw [if_neg (by simp), ih, kvGet_cons]
      by_cases hk : k' = a
      · simp [hk]
      · rw [if_neg hk, if_neg hk, if_neg (Ne.symm hk)]
    · rw [if_pos (by simp [h]), kvGet_cons, kvGet_cons, ih]
      by_cases hk : k' = k
      · subst hk
        rw [if_neg h, if_pos rfl, if_pos rfl]
      · rw [if_neg hk, if_neg hk]

theorem kvGet_put (m : List (Text × α)) (k : Text) (v : α) (k' : Text) : kvGet (kvPut m k v) k' = if k' = k then some v else kvGet m k' := by
  unfold kvPut
  rw [kvGet_cons, kvGet_del]
  by_cases h : k' = k
  · rw [if_pos h.symm, if_pos h]
  · rw [if_neg (Ne.symm h), if_neg h, if_neg h]

/-- Each key once. -/
def KeysOnce (m : List (Text × α)) : Prop := (m.map Prod.fst).Nodup

theorem keysOnce_filter {m : List (Text × α)} (h : KeysOnce m) (p : Text × α → Bool) : KeysOnce (m.filter p) :=
  List.Nodup.sublist (List.Sublist.map _ List.filter_sublist) h

theorem keysOnce_del {m : List (Text × α)} (h : KeysOnce m) (k : Text) : KeysOnce (kvDel m k) := keysOnce_filter h _

theorem keysOnce_put {m : List (Text × α)} (h : KeysOnce m) (k : Text) (v : α) : KeysOnce (kvPut m k v) := by
  unfold KeysOnce kvPut
  rw [List.map_cons, List.nodup_cons]
  refine ⟨?_, keysOnce_del h k⟩
  rintro hm
  obtain ⟨p, hp, rfl⟩ := List.mem_map.1 hm
  unfold kvDel at hp
  simp at hp

theorem kvGet_mem {m : List (Text × α)} (k : Text) : k ∈ m.map Prod.fst ↔ ∃ v, kvGet m k = some v := by
  induction m with
  | nil => simp [kvGet]
  | cons p m ih =>
    obtain ⟨a, v⟩ := p
    rw [kvGet_cons, List.map_cons, List.mem_cons, ih]
    by_cases h : a = k
    · simp [h]
    · simp [h, Ne.symm h]

theorem kvGet_filter {m : List (Text × α)} (h : KeysOnce m) (p : Text × α → Bool) (k : Text) : kvGet (m.filter p) k = (kvGet m k).filter (fun v => p (k, v)) := by
  induction m with
  | nil => rfl
  | cons q m ih =>
    obtain ⟨a, v⟩ := q
    unfold KeysOnce at h
    rw [List.map_cons, List.nodup_cons] at h
    have ih := ih h.2
    rw [List.filter_cons, kvGet_cons]
    by_cases ha : a = k
    · subst ha
      rw [if_pos rfl]
      cases hp : p (a, v)
      · have : kvGet m a = none := by
          cases hm : kvGet m a with
          | none => rfl
          | some w => exact absurd ((kvGet_mem a).2 ⟨w, hm⟩) h.1
        rw [if_neg (by simp), ih, this]
        simp [Option.filter, hp]
      · rw [if_pos rfl, kvGet_cons, if_pos rfl]
        simp [Option.filter, hp]
    · rw [if_neg ha]
      cases hp : p (a, v)
      · rw [if_neg (by simp), ih]
      · rw [if_pos rfl, kvGet_cons, if_neg ha, ih]

/-! ### keys of different kinds -/

theorem setKey_lock {k : Text} (h : SetKey k) : k ≠ lockName := by
  rintro rfl
  obtain ⟨r, h⟩ := h
  cases h

theorem setKey_epoch {k : Text} (h : SetKey k) : k ≠ epochName := by
  rintro rfl
  obtain ⟨r, h⟩ := h
  cases h

theorem setKey_log {k : Text} (h : SetKey k) (u : Text) : k ≠ "log::".toList ++ u := by
  rintro rfl
  obtain ⟨r, h⟩ := h
  cases h

theorem log_lock (u : Text) : "log::".toList ++ u ≠ lockName := by
  intro h
  cases h

theorem log_epoch (u : Text) : "log::".toList ++ u ≠ epochName := by
  intro h
  cases h

theorem lock_epoch : lockName ≠ epochName := by decide

/-! ### what the keys stand for -/

/-- The key of a set. -/
def SetRel (P : Bytes → Prop) (till : Option Int) : Option RedisEntry → Prop
  | none => (∀ x, ¬ P x) ∧ till = none
  | some ⟨.set l, e⟩ => l ≠ [] ∧ l.Nodup ∧ (∀ x, x ∈ l ↔ P x) ∧ e = till.map (fun t => 1000 * t)
  | _ => False

/-- The key of a log state. -/
def LogRel (C : StateCodec S) (s : Option S) : Option RedisEntry → Prop
  | none => s = none
  | some ⟨.blob b, none⟩ => ∃ s', s = some s' ∧ C.dec b = some s'
  | _ => False

/-- The key of the lock. -/
def LockRel (l : Option (Text × Int)) (e : Option RedisEntry) : Prop := e = l.map (fun p => ⟨.text p.1, some p.2⟩)

/-- The key of the epoch. -/
def EpochRel (n : Nat) (e : Option RedisEntry) : Prop := n < 2 ^ 63 ∧ ((e = none ∧ n = 0) ∨ e = some ⟨.text (natText n), none⟩)

/-- The keys of Redis stand for what the cache holds. -/
structure RedisRel (C : StateCodec S) (m : RedisKeys) (i : CacheIs S) : Prop where
  once : KeysOnce m
  sets : ∀ k, SetKey k → SetRel (i.holds k) (i.till k) (kvGet m k)
  logs : ∀ u, LogRel C (i.log u) (kvGet m ("log::".toList ++ u))
  lock : LockRel i.lock (kvGet m lockName)
  epoch : EpochRel i.epoch (kvGet m epochName)

variable {C : StateCodec S} {m m' : RedisKeys} {i i' : CacheIs S}

theorem redisRel_empty (C : StateCodec S) : RedisRel C [] CacheIs.empty :=
  ⟨List.nodup_nil, fun _ _ => ⟨fun _ h => h, rfl⟩, fun _ => rfl, rfl, by unfold EpochRel; exact ⟨Nat.two_pow_pos 63, Or.inl ⟨rfl, rfl⟩⟩⟩

/-- Only the key of a set changes. -/
theorem RedisRel.of_set (h : RedisRel C m i) (ho : KeysOnce m') {k : Text} (hk : SetKey k) (hm : ∀ k', k' ≠ k → kvGet m' k' = kvGet m k')
    (hs : SetRel (i'.holds k) (i'.till k) (kvGet m' k)) (hh : ∀ k', k' ≠ k → i'.holds k' = i.holds k' ∧ i'.till k' = i.till k')
    (hr : i'.log = i.log ∧ i'.lock = i.lock ∧ i'.epoch = i.epoch) : RedisRel C m' i' := by
  refine ⟨ho, fun k' hk' => ?_, fun u => ?_, ?_, ?_⟩
  · by_cases e : k' = k
    · rw [e]
      exact hs
    · rw [hm k' e, (hh k' e).1, (hh k' e).2]
      exact h.sets k' hk'
  · rw [hm _ (setKey_log hk u).symm, hr.1]
    exact h.logs u
  · rw [hm _ (setKey_lock hk).symm, hr.2.1]
    exact h.lock
  · rw [hm _ (setKey_epoch hk).symm, hr.2.2]
    exact h.epoch

/-- Only the keys of log states change. -/
theorem RedisRel.of_logs (h : RedisRel C m i) (ho : KeysOnce m') (hm : ∀ k', (¬ ∃ u, k' = "log::".toList ++ u) → kvGet m' k' = kvGet m k')
    (hs : ∀ u, LogRel C (i'.log u) (kvGet m' ("log::".toList ++ u)))
    (hr : i'.holds = i.holds ∧ i'.till = i.till ∧ i'.lock = i.lock ∧ i'.epoch = i.epoch) : RedisRel C m' i' := by
  refine ⟨ho, fun k' hk' => ?_, hs, ?_, ?_⟩
  · rw [hm k' (fun ⟨u, e⟩ => setKey_log hk' u e), hr.1, hr.2.1]
    exact h.sets k' hk'
  · rw [hm _ (fun ⟨u, e⟩ => log_lock u e.symm), hr.2.2.1]
    exact h.lock
  · rw [hm _ (fun ⟨u, e⟩ => log_epoch u e.symm), hr.2.2.2]
    exact h.epoch

/-- Only the lock changes. -/
theorem RedisRel.of_lock (h : RedisRel C m i) (ho : KeysOnce m') (hm : ∀ k', k' ≠ lockName → kvGet m' k' = kvGet m k')
    (hs : LockRel i'.lock (kvGet m' lockName)) (hr : i'.holds = i.holds ∧ i'.till = i.till ∧ i'.log = i.log ∧ i'.epoch = i.epoch) : RedisRel C m' i' := by
  refine ⟨ho, fun k' hk' => ?_, fun u => ?_, hs, ?_⟩
  · rw [hm k' (setKey_lock hk'), hr.1, hr.2.1]
    exact h.sets k' hk'
  · rw [hm _ (log_lock u), hr.2.2.1]
    exact h.logs u
  · rw [hm _ lock_epoch.symm, hr.2.2.2]
    exact h.epoch

/-- Only the epoch changes. -/
theorem RedisRel.of_epoch (h : RedisRel C m i) (ho : KeysOnce m') (hm : ∀ k', k' ≠ epochName → kvGet m' k' = kvGet m k')
    (hs : EpochRel i'.epoch (kvGet m' epochName)) (hr : i'.holds = i.holds ∧ i'.till = i.till ∧ i'.log = i.log ∧ i'.lock = i.lock) : RedisRel C m' i' := by
  refine ⟨ho, fun k' hk' => ?_, fun u => ?_, ?_, hs⟩
  · rw [hm k' (setKey_epoch hk'), hr.1, hr.2.1]
    exact h.sets k' hk'
  · rw [hm _ (log_epoch u), hr.2.2.1]
    exact h.logs u
  · rw [hm _ lock_epoch, hr.2.2.2]
    exact h.lock

theorem kvGet_live (ho : KeysOnce m) (now : Int) (k : Text) : kvGet (redisLive now m) k = (kvGet m k).filter (fun e => !e.gone now) := kvGet_filter ho _ k

theorem option_filter_some {β : Type} (p : β → Bool) (x : β) : (some x).filter p = if p x then some x else none := rfl

/-- What is over is gone on both sides. -/
theorem RedisRel.live (h : RedisRel C m i) (now : Int) : RedisRel C (redisLive now m) (i.at now) := by
  refine ⟨keysOnce_filter h.once _, fun k hk => ?_, fun u => ?_, ?_, ?_⟩
  · rw [kvGet_live h.once]
    have hs := h.sets k hk
    unfold CacheIs.at
    dsimp only
    match hg : kvGet m k with
    | none =>
      rw [hg] at hs
      obtain ⟨h1, h2⟩ := hs
      show (∀ x, ¬ _) ∧ _
      refine ⟨fun x hx => h1 x hx.1, ?_⟩
      rw [h2]
      split <;> rfl
    | some ⟨.set l, e⟩ =>
      rw [hg] at hs
      obtain ⟨h1, h2, h3, h4⟩ := hs
      subst h4
      by_cases ht : ∀ t, i.till k = some t → now ≤ 1000 * t
      · have hg : RedisEntry.gone now ⟨.set l, (i.till k).map (fun t => 1000 * t)⟩ = false := by
          unfold RedisEntry.gone
          cases hk : i.till k with
          | none => rfl
          | some t =>
            have := ht t hk
            simp only [Option.map_some, decide_eq_false_iff_not]
            omega
        rw [option_filter_some, hg, if_pos ht]
        show _ ∧ _ ∧ _ ∧ _
        exact ⟨h1, h2, fun x => ⟨fun hx => ⟨(h3 x).1 hx, ht⟩, fun hx => (h3 x).2 hx.1⟩, rfl⟩
      · have hg : RedisEntry.gone now ⟨.set l, (i.till k).map (fun t => 1000 * t)⟩ = true := by
          unfold RedisEntry.gone
          cases hk : i.till k with
          | none => exact absurd (fun t e => by rw [hk] at e; cases e) ht
          | some t =>
            simp only [Option.map_some, decide_eq_true_iff]
            by_cases hc : 1000 * t < now
            · exact hc
            · refine absurd (fun t' e => ?_) ht
              rw [hk] at e
              cases e
              omega
        rw [option_filter_some, hg, if_neg ht]
        exact ⟨fun x hx => ht hx.2, rfl⟩
    | some ⟨.blob b, e⟩ =>
      rw [hg] at hs
      cases hs
    | some ⟨.text b, e⟩ =>
      rw [hg] at hs
      cases hs
  · rw [kvGet_live h.once]
    have hs := h.logs u
    match hg : kvGet m ("log::".toList ++ u) with
    | none =>
      rw [hg] at hs
      exact hs
    | some ⟨.blob b, none⟩ =>
      rw [hg] at hs
      exact hs
    | some ⟨.blob b, some _⟩ =>
      rw [hg] at hs
      cases hs
    | some ⟨.set b, e⟩ =>
      rw [hg] at hs
      cases hs
    | some ⟨.text b, e⟩ =>
      rw [hg] at hs
      cases hs
  · rw [kvGet_live h.once]
    have hs := h.lock
    unfold LockRel at hs ⊢
    unfold CacheIs.at
    dsimp only
    rw [hs]
    cases hl : i.lock with
    | none =>
      split <;> rfl
    | some p =>
      rw [Option.map_some, option_filter_some]
      unfold RedisEntry.gone
      dsimp only
      by_cases hc : now ≤ p.2
      · rw [if_pos, if_pos]
        · rfl
        · intro q hq
          cases hq
          exact hc
        · have : ¬ p.2 < now := by omega
          simp [this]
      · rw [if_neg, if_neg]
        · rfl
        · intro hq
          exact hc (hq p rfl)
        · have : p.2 < now := by omega
          simp [this]
  · rw [kvGet_live h.once]
    have hs := h.epoch
    unfold EpochRel at hs ⊢
    refine ⟨hs.1, ?_⟩
    rcases hs.2 with ⟨h1, h2⟩ | h1
    · left
      rw [h1]
      exact ⟨rfl, h2⟩
    · right
      rw [h1]
      rfl

/-! ### the commands -/

theorem setRel_some {P : Bytes → Prop} {t : Option Int} {g : Option RedisEntry} (h : SetRel P t g) : ∃ l : List Bytes, l.Nodup ∧ (∀ x, x ∈ l ↔ P x) ∧ ((g = none ∧ l = [] ∧ t = none) ∨ (g = some ⟨.set l, t.map (fun t => 1000 * t)⟩ ∧ l ≠ [])) := by
  match g, h with
  | none, h => exact ⟨[], List.nodup_nil, fun x => ⟨fun hx => by simp at hx, fun hx => absurd hx (h.1 x)⟩, Or.inl ⟨rfl, rfl, h.2⟩⟩
  | some ⟨.set l, e⟩, h =>
    obtain ⟨h1, h2, h3, rfl⟩ := h
    exact ⟨l, h2, h3, Or.inr ⟨rfl, h1⟩⟩

theorem redisSet_eq (h : RedisRel C m i) {k : Text} (hk : SetKey k) : ∃ l : List Bytes, redisSet m k = some l ∧ l.Nodup ∧ ∀ x, x ∈ l ↔ i.holds k x := by
  obtain ⟨l, h1, h2, ⟨h3, rfl, _⟩ | ⟨h3, _⟩⟩ := setRel_some (h.sets k hk)
  · exact ⟨[], by unfold redisSet; rw [h3], h1, h2⟩
  · exact ⟨l, by unfold redisSet; rw [h3], h1, h2⟩

theorem redisExists_iff (h : RedisRel C m i) {k : Text} (hk : SetKey k) : (kvGet m k).isSome = true ↔ ∃ x, i.holds k x := by
  obtain ⟨l, h1, h2, ⟨h3, rfl, _⟩ | ⟨h3, h4⟩⟩ := setRel_some (h.sets k hk)
  · rw [h3]
    constructor
    · intro h
      cases h
    · rintro ⟨x, hx⟩
      have := (h2 x).2 hx
      simp at this
  · rw [h3]
    refine ⟨fun _ => ?_, fun _ => rfl⟩
    obtain ⟨x, hx⟩ := List.exists_mem_of_ne_nil l h4
    exact ⟨x, (h2 x).1 hx⟩

theorem redisSAdd_rel (h : RedisRel C m i) {k : Text} (hk : SetKey k) (v : Bytes) :
    ∃ m' b, redisSAdd m k v = some (m', b) ∧ RedisRel C m' (i.add k v) ∧ (b = true ↔ ¬ i.holds k v) := by
  have hadd : ∀ k', k' ≠ k → (i.add k v).holds k' = i.holds k' ∧ (i.add k v).till k' = i.till k' := by
    intro k' hne
    refine ⟨?_, rfl⟩
    funext x
    unfold CacheIs.add
    simp [hne]
  obtain ⟨l, h1, h2, ⟨h3, rfl, h4⟩ | ⟨h3, h4⟩⟩ := setRel_some (h.sets k hk)
  · refine ⟨kvPut m k ⟨.set [v], none⟩, true, by unfold redisSAdd; rw [h3], ?_, ?_⟩
    · refine h.of_set (keysOnce_put h.once _ _) hk (fun k' hne => by rw [kvGet_put, if_neg hne]) ?_ hadd ⟨rfl, rfl, rfl⟩
      rw [kvGet_put, if_pos rfl]
      refine ⟨by simp, by simp, fun x => ?_, ?_⟩
      · unfold CacheIs.add
        have := h2 x
        simp at this
        simp [this]
      · show none = (i.till k).map _
        rw [h4]
        rfl
    · have := h2 v
      simp at this
      simp [this]
  · by_cases hv : v ∈ l
    · refine ⟨m, false, by unfold redisSAdd; rw [h3]; dsimp only; rw [if_pos (by simp [hv])], ?_, ?_⟩
      · refine h.of_set h.once hk (fun _ _ => rfl) ?_ hadd ⟨rfl, rfl, rfl⟩
        rw [h3]
        refine ⟨h4, h1, fun x => ?_, rfl⟩
        unfold CacheIs.add
        dsimp only
        rw [h2 x]
        constructor
        · exact Or.inl
        · rintro (hx | ⟨_, rfl⟩)
          · exact hx
          · exact (h2 _).1 hv
      · simp [(h2 v).1 hv]
    · refine ⟨kvPut m k ⟨.set (v :: l), (i.till k).map (fun t => 1000 * t)⟩, true, by unfold redisSAdd; rw [h3]; dsimp only; rw [if_neg (by simp [hv])], ?_, ?_⟩
      · refine h.of_set (keysOnce_put h.once _ _) hk (fun k' hne => by rw [kvGet_put, if_neg hne]) ?_ hadd ⟨rfl, rfl, rfl⟩
        rw [kvGet_put, if_pos rfl]
        refine ⟨by simp, List.nodup_cons.2 ⟨hv, h1⟩, fun x => ?_, rfl⟩
        unfold CacheIs.add
        dsimp only
        rw [List.mem_cons, h2 x]
        constructor
        · rintro (rfl | hx)
          · exact Or.inr ⟨rfl, rfl⟩
          · exact Or.inl hx
        · rintro (hx | ⟨_, rfl⟩)
          · exact Or.inr hx
          · exact Or.inl rfl
      · rw [← h2 v]
        simp [hv]

theorem redisExpireAt_rel (h : RedisRel C m i) {k : Text} (hk : SetKey k) (now t : Int) : RedisRel C (redisExpireAt now m k t) (i.expire now k t) := by
  have hexp : ∀ k', k' ≠ k → (i.expire now k t).holds k' = i.holds k' ∧ (i.expire now k t).till k' = i.till k' := by
    intro k' hne
    unfold CacheIs.expire
    dsimp only
    rw [if_neg hne]
    refine ⟨?_, rfl⟩
    funext x
    simp [hne]
  obtain ⟨l, h1, h2, ⟨h3, rfl, h4⟩ | ⟨h3, h4⟩⟩ := setRel_some (h.sets k hk)
  · unfold redisExpireAt
    rw [h3]
    refine h.of_set h.once hk (fun _ _ => rfl) ?_ hexp ⟨rfl, rfl, rfl⟩
    rw [h3]
    unfold CacheIs.expire
    dsimp only
    rw [if_pos rfl, if_neg]
    · exact ⟨fun x hx => by have := (h2 x).2 hx.1; simp at this, rfl⟩
    · rintro ⟨⟨x, hx⟩, _⟩
      have := (h2 x).2 hx
      simp at this
  · have hex : ∃ x, i.holds k x := by
      obtain ⟨x, hx⟩ := List.exists_mem_of_ne_nil l h4
      exact ⟨x, (h2 x).1 hx⟩
    unfold redisExpireAt
    rw [h3]
    dsimp only
    by_cases ht : 1000 * t ≤ now
    · rw [if_pos ht]
      refine h.of_set (keysOnce_del h.once _) hk (fun k' hne => by rw [kvGet_del, if_neg hne]) ?_ hexp ⟨rfl, rfl, rfl⟩
      rw [kvGet_del, if_pos rfl]
      unfold CacheIs.expire
      dsimp only
      rw [if_pos rfl, if_neg (by omega)]
      exact ⟨fun x hx => hx.2 ⟨rfl, ht⟩, rfl⟩
    · rw [if_neg ht]
      refine h.of_set (keysOnce_put h.once _ _) hk (fun k' hne => by rw [kvGet_put, if_neg hne]) ?_ hexp ⟨rfl, rfl, rfl⟩
      rw [kvGet_put, if_pos rfl]
      unfold CacheIs.expire
      dsimp only
      rw [if_pos rfl, if_pos ⟨hex, by omega⟩]
      refine ⟨h4, h1, fun x => ?_, rfl⟩
      rw [h2 x]
      exact ⟨fun hx => ⟨hx, fun hc => ht hc.2⟩, fun hx => hx.1⟩

theorem redisInsertItems_rel (now : Int) : ∀ (items : List CacheItem) {m : RedisKeys} {i : CacheIs S}, RedisRel C m i → (∀ x ∈ items, SetKey x.key) →
    (items.foldl (redisInsertItem now) (m, true)).2 = true ∧
    RedisRel C (items.foldl (redisInsertItem now) (m, true)).1 (items.foldl (fun i x => (i.add x.key x.value).expire now x.key x.expiry) i)
  | [], _, _, h, _ => ⟨rfl, h⟩
  | x :: items, m, i, h, hs => by
    have hk : SetKey x.key := hs x (by simp)
    obtain ⟨m1, b, e, h1, _⟩ := redisSAdd_rel h hk x.value
    rw [List.foldl_cons, List.foldl_cons]
    have : redisInsertItem now (m, true) x = (redisExpireAt now m1 x.key x.expiry, true) := by
      unfold redisInsertItem
      dsimp only
      rw [e]
    rw [this]
    exact redisInsertItems_rel now items (redisExpireAt_rel h1 hk now x.expiry) (fun y hy => hs y (by simp [hy]))

theorem without_nil (i : CacheIs S) (k : Text) (hi : (∀ x, ¬ i.holds k x) → i.till k = none) : i.without k [] = i := by
  unfold CacheIs.without
  obtain ⟨a, b, c, d, e⟩ := i
  dsimp only at hi ⊢
  congr 1
  · funext k' x
    simp
  · funext k'
    split
    · rename_i hc
      obtain ⟨rfl, hc⟩ := hc
      rw [hi (fun x hx => by have := hc x hx; simp at this)]
    · rfl

theorem without_append (i : CacheIs S) (k : Text) (vs ws : List Bytes) : (i.without k vs).without k ws = i.without k (vs ++ ws) := by
  unfold CacheIs.without
  dsimp only
  congr 1
  · funext k' x
    simp only [List.mem_append, not_and, not_or, eq_iff_iff]
    constructor
    · rintro ⟨⟨h1, h2⟩, h3⟩
      exact ⟨h1, fun e => ⟨h2 e, h3 e⟩⟩
    · rintro ⟨h1, h2⟩
      exact ⟨⟨h1, fun e => (h2 e).1⟩, fun e => (h2 e).2⟩
  · funext k'
    by_cases hk : k' = k
    · subst hk
      by_cases h1 : ∀ x, i.holds k' x → x ∈ vs
      · rw [if_pos (c := _ ∧ ∀ x, i.holds k' x → x ∈ vs ++ ws) ⟨rfl, fun x hx => List.mem_append.2 (Or.inl (h1 x hx))⟩, if_pos]
        exact ⟨rfl, fun x hx => absurd ⟨rfl, h1 x hx.1⟩ hx.2⟩
      · by_cases h2 : ∀ x, i.holds k' x → x ∈ vs ++ ws
        · rw [if_pos (c := _ ∧ ∀ x, i.holds k' x → x ∈ vs ++ ws) ⟨rfl, h2⟩, if_pos]
          refine ⟨rfl, fun x hx => ?_⟩
          rcases List.mem_append.1 (h2 x hx.1) with h | h
          · exact absurd ⟨rfl, h⟩ hx.2
          · exact h
        · rw [if_neg (c := _ ∧ ∀ x, i.holds k' x → x ∈ vs ++ ws) (fun hc => h2 hc.2), if_neg (c := _ ∧ ∀ x, i.holds k' x → x ∈ vs) (fun hc => h1 hc.2), if_neg]
          rintro ⟨_, hc⟩
          refine h2 (fun x hx => ?_)
          by_cases hv : x ∈ vs
          · exact List.mem_append.2 (Or.inl hv)
          · exact List.mem_append.2 (Or.inr (hc x ⟨hx, fun e => hv e.2⟩))
    · rw [if_neg (fun hc => hk hc.1), if_neg (fun hc => hk hc.1), if_neg (fun hc => hk hc.1)]

theorem redisSRem_rel (h : RedisRel C m i) {k : Text} (hk : SetKey k) (vs : List Bytes) : ∃ m', redisSRem m k vs = some m' ∧ RedisRel C m' (i.without k vs) := by
  have hwo : ∀ k', k' ≠ k → (i.without k vs).holds k' = i.holds k' ∧ (i.without k vs).till k' = i.till k' := by
    intro k' hne
    unfold CacheIs.without
    dsimp only
    rw [if_neg (fun hc => hne hc.1)]
    refine ⟨?_, rfl⟩
    funext x
    simp [hne]
  obtain ⟨l, h1, h2, ⟨h3, rfl, h4⟩ | ⟨h3, h4⟩⟩ := setRel_some (h.sets k hk)
  · refine ⟨m, by unfold redisSRem; rw [h3], ?_⟩
    refine h.of_set h.once hk (fun _ _ => rfl) ?_ hwo ⟨rfl, rfl, rfl⟩
    rw [h3]
    unfold CacheIs.without
    dsimp only
    refine ⟨fun x hx => ?_, ?_⟩
    · have := (h2 x).2 hx.1
      simp at this
    · rw [if_pos]
      exact ⟨rfl, fun x hx => by have := (h2 x).2 hx; simp at this⟩
  · by_cases he : l.filter (fun x => !vs.contains x) = []
    · refine ⟨kvDel m k, by unfold redisSRem; rw [h3]; dsimp only; rw [if_pos he], ?_⟩
      refine h.of_set (keysOnce_del h.once _) hk (fun k' hne => by rw [kvGet_del, if_neg hne]) ?_ hwo ⟨rfl, rfl, rfl⟩
      rw [kvGet_del, if_pos rfl]
      have hall : ∀ x, i.holds k x → x ∈ vs := by
        intro x hx
        have := List.filter_eq_nil_iff.1 he x ((h2 x).2 hx)
        simpa using this
      unfold CacheIs.without
      dsimp only
      refine ⟨fun x hx => hx.2 ⟨rfl, hall x hx.1⟩, ?_⟩
      rw [if_pos ⟨rfl, hall⟩]
    · refine ⟨kvPut m k ⟨.set (l.filter (fun x => !vs.contains x)), (i.till k).map (fun t => 1000 * t)⟩, by unfold redisSRem; rw [h3]; dsimp only; rw [if_neg he], ?_⟩
      refine h.of_set (keysOnce_put h.once _ _) hk (fun k' hne => by rw [kvGet_put, if_neg hne]) ?_ hwo ⟨rfl, rfl, rfl⟩
      rw [kvGet_put, if_pos rfl]
      unfold CacheIs.without
      dsimp only
      refine ⟨he, List.Nodup.sublist List.filter_sublist h1, fun x => ?_, ?_⟩
      · rw [List.mem_filter, h2 x]
        simp
      · rw [if_neg]
        rintro ⟨_, hc⟩
        refine he (List.filter_eq_nil_iff.2 (fun x hx => ?_))
        simp [hc x ((h2 x).1 hx)]

theorem redisRemove_rel {k : Text} (hk : SetKey k) : ∀ (bs : List (List Bytes)) {m : RedisKeys} {i : CacheIs S}, RedisRel C m i →
    ∃ m', bs.foldlM (fun m b => redisSRem m k b) m = some m' ∧ RedisRel C m' (i.without k bs.flatten)
  | [], m, i, h => by
    refine ⟨m, rfl, ?_⟩
    rw [List.flatten_nil, without_nil]
    · exact h
    · intro he
      obtain ⟨l, h1, h2, ⟨h3, rfl, h4⟩ | ⟨h3, h4⟩⟩ := setRel_some (h.sets k hk)
      · exact h4
      · obtain ⟨x, hx⟩ := List.exists_mem_of_ne_nil l h4
        exact absurd ((h2 x).1 hx) (he x)
  | b :: bs, m, i, h => by
    obtain ⟨m1, e, h1⟩ := redisSRem_rel h hk b
    obtain ⟨m2, e2, h2⟩ := redisRemove_rel hk bs h1
    refine ⟨m2, ?_, ?_⟩
    · rw [List.foldlM_cons, e]
      exact e2
    · rw [List.flatten_cons, ← without_append]
      exact h2

end Verif.Props
