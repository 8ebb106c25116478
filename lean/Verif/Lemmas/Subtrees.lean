import Verif.Lemmas.Merkle
/-! Lemmas about the ranges of consistency proofs and the ordering of subtrees. -/
namespace Verif
open Verif.Spec

def IsPow2 (n : Nat) : Prop := ∃ k, n = 2 ^ k

theorem subproof_self (m lo : Nat) (b : Bool) : subproof m lo m b = if b then [] else [(lo, lo + m - 1)] := by
  rw [subproof]; simp

theorem subproof_left (m lo n : Nat) (b : Bool) (h0 : m < n) (hm : 0 < m) (h : m ≤ split n) :
    subproof m lo n b = subproof m lo (split n) b ++ [(lo + split n, lo + n - 1)] := by
  rw [subproof]
  rw [if_neg (by omega), if_neg (by omega), if_pos h]

theorem subproof_right (m lo n : Nat) (b : Bool) (h0 : m < n) (h : split n < m) :
    subproof m lo n b = subproof (m - split n) (lo + split n) (n - split n) false ++ [(lo, lo + split n - 1)] := by
  rw [subproof]
  rw [if_neg (by omega), if_neg (by have := split_pos n; omega), if_neg (by omega)]

theorem pow2_not_right (m n : Nat) (hp : IsPow2 m) (h0 : m < n) (hm : 0 < m) : m ≤ split n := by
  obtain ⟨j, rfl⟩ := hp
  obtain ⟨h1, h2⟩ := split_spec n (by omega)
  obtain ⟨k, hk⟩ := split_isPow n
  rw [hk] at h2 ⊢
  rcases Nat.lt_or_ge k j with h | h
  · have := Nat.pow_le_pow_right (n := 2) (by decide) h
    rw [Nat.pow_succ] at this
    omega
  · exact Nat.pow_le_pow_right (by decide) h

/-- What the loop computes, against SUBPROOF. -/
theorem proofLoop_spec (fuel : Nat) : ∀ (target first last : Nat) (terms : List Range), first ≤ target → target ≤ last →
    last + 1 - first ≤ fuel →
    ∃ ts cur, proofLoop fuel target first last terms = some (terms ++ ts, cur) ∧
      subproof (target + 1 - first) first (last + 1 - first) false = (ts ++ [cur]).reverse ∧
      (IsPow2 (target + 1 - first) → subproof (target + 1 - first) first (last + 1 - first) true = ts.reverse) ∧
      (¬ IsPow2 (target + 1 - first) → target < last →
        subproof (target + 1 - first) first (last + 1 - first) true = (ts ++ [cur]).reverse) := by
  induction fuel with
  | zero => intro target first last terms h1 h2 h3; omega
  | succ fuel ih =>
    intro target first last terms h1 h2 h3
    unfold proofLoop
    by_cases hstop : first ≠ last ∧ last ≠ target
    · rw [if_pos hstop]
      have hsz : (Subtree.mk [] first last).size = last + 1 - first := rfl
      have hmid : (Subtree.mk [] first last).midpoint = first + split (last + 1 - first) := by
        unfold Subtree.midpoint
        rw [prevPow2_eq_split _ (by rw [hsz]; omega), hsz]
      obtain ⟨s1, s2⟩ := split_spec (last + 1 - first) (by omega)
      have s0 := split_pos (last + 1 - first)
      simp only [hmid]
      generalize hk : split (last + 1 - first) = k at *
      by_cases hlt : target < first + k
      · rw [if_pos hlt]
        obtain ⟨ts, cur, e, a, b, c⟩ := ih target first (first + k - 1) (terms ++ [(first + k, last)]) h1 (by omega) (by omega)
        have hn : first + k - 1 + 1 - first = k := by omega
        rw [hn] at a b c
        have hl : ∀ bb, subproof (target + 1 - first) first (last + 1 - first) bb =
            subproof (target + 1 - first) first k bb ++ [(first + k, last)] := by
          intro bb
          rw [subproof_left _ _ _ _ (by omega) (by omega) (by omega), hk, show first + (last + 1 - first) - 1 = last by omega]
        refine ⟨(first + k, last) :: ts, cur, by rw [e]; simp, ?_, ?_, ?_⟩
        · rw [hl, a]; simp
        · intro hp; rw [hl, b hp]; simp
        · intro hp _
          have hne : target + 1 - first ≠ k := by
            intro e; apply hp; rw [e, ← hk]; exact split_isPow _
          rw [hl, c hp (by omega)]; simp
      · rw [if_neg hlt]
        obtain ⟨ts, cur, e, a, _, _⟩ := ih target (first + k) last (terms ++ [(first, first + k - 1)]) (by omega) h2 (by omega)
        have e1 : target + 1 - (first + k) = target + 1 - first - k := by omega
        have e2 : last + 1 - (first + k) = last + 1 - first - k := by omega
        rw [e1, e2] at a
        have hl : ∀ bb, subproof (target + 1 - first) first (last + 1 - first) bb =
            subproof (target + 1 - first - k) (first + k) (last + 1 - first - k) false ++ [(first, first + k - 1)] := by
          intro bb
          rw [subproof_right _ _ _ _ (by omega) (by omega), hk]
        refine ⟨(first, first + k - 1) :: ts, cur, by rw [e]; simp, ?_, ?_, ?_⟩
        · rw [hl, a]; simp
        · intro hp
          have := pow2_not_right _ (last + 1 - first) hp (by omega) (by omega)
          omega
        · intro _ _; rw [hl, a]; simp
    · rw [if_neg hstop]
      have hte : target = last := by omega
      subst hte
      refine ⟨[], (first, target), by simp, ?_, ?_, ?_⟩
      · rw [subproof_self]; simp; omega
      · intro _; rw [subproof_self]; simp
      · intro _ hlt; omega

theorem proofRanges_spec (m n : Nat) (h0 : 0 < m) (h : m < n) : proofRanges m n = some (proofNodes m n) := by
  obtain ⟨ts, cur, e, _, b, c⟩ := proofLoop_spec n (m - 1) 0 (n - 1) [] (by omega) (by omega) (by omega)
  unfold proofRanges proofTarget
  rw [if_neg (by omega), e]
  have e1 : m - 1 + 1 - 0 = m := by omega
  have e2 : n - 1 + 1 - 0 = n := by omega
  rw [e1, e2] at b c
  simp only [List.nil_append, Option.some.injEq]
  unfold proofNodes
  by_cases hp : IsPow2 m
  · have : m &&& (m - 1) = 0 := (and_pred_eq_zero m h0).2 hp
    rw [b hp, this]; simp
  · have : m &&& (m - 1) ≠ 0 := fun e => hp ((and_pred_eq_zero m h0).1 e)
    rw [c hp (by omega), if_pos this]

/-! ### attaching roots -/

def Subtree.range (t : Subtree) : Range := (t.first, t.last)

theorem attachRoots_ranges : ∀ (rs : List Range) (ps : List Bytes), rs.length = ps.length →
    (attachRoots rs ps).map Subtree.range = rs
  | [], [], _ => rfl
  | (f, l) :: rs, p :: ps, h => by
    simp only [attachRoots, List.map_cons, Subtree.range]
    congr 1
    exact attachRoots_ranges rs ps (by simpa using h)

theorem attachRoots_roots : ∀ (rs : List Range) (ps : List Bytes), rs.length = ps.length →
    (attachRoots rs ps).map Subtree.root = ps
  | [], [], _ => rfl
  | (f, l) :: rs, p :: ps, h => by
    simp only [attachRoots, List.map_cons]
    congr 1
    exact attachRoots_roots rs ps (by simpa using h)

theorem attachRoots_mem_map (g : Range → Bytes) : ∀ (rs : List Range) (t : Subtree), t ∈ attachRoots rs (rs.map g) →
    t.root = g t.range
  | [], t, h => by simp [attachRoots] at h
  | (f, l) :: rs, t, h => by
    simp only [List.map_cons, attachRoots, List.mem_cons] at h
    rcases h with rfl | h
    · rfl
    · exact attachRoots_mem_map g rs t h

/-! ### tiling -/

theorem tilesUp_append : ∀ (rs ss : List Range) (a b c : Nat), TilesUp a b rs → TilesUp b c ss → TilesUp a c (rs ++ ss)
  | [], ss, a, b, c, h1, h2 => by simp only [TilesUp] at h1; subst h1; exact h2
  | r :: rs, ss, a, b, c, ⟨h, h', h1⟩, h2 => ⟨h, h', tilesUp_append rs ss _ b c h1 h2⟩

theorem tilesUp_bounds : ∀ (rs : List Range) (a b : Nat), TilesUp a b rs → a ≤ b ∧ ∀ r ∈ rs, a ≤ r.1 ∧ r.1 ≤ r.2 ∧ r.2 < b
  | [], a, b, h => by simp only [TilesUp] at h; simp [h]
  | r :: rs, a, b, ⟨h, h', h1⟩ => by
    obtain ⟨hab, ih⟩ := tilesUp_bounds rs _ b h1
    refine ⟨by omega, ?_⟩
    intro x hx
    rcases List.mem_cons.1 hx with rfl | hx
    · omega
    · have := ih x hx; omega

theorem tilesUp_sorted : ∀ (rs : List Range) (a b : Nat), TilesUp a b rs → rs.Pairwise (fun r s => r.2 < s.1)
  | [], _, _, _ => List.Pairwise.nil
  | r :: rs, a, b, ⟨h, h', h1⟩ => by
    refine List.Pairwise.cons ?_ (tilesUp_sorted rs _ b h1)
    intro s hs
    have := (tilesUp_bounds rs _ b h1).2 s hs
    omega

/-- The nodes of SUBPROOF right of the old tree tile the new part. -/
theorem subproof_right_tiles (n : Nat) : ∀ (m lo : Nat) (b : Bool), 0 < m → m ≤ n →
    TilesUp (lo + m) (lo + n) ((subproof m lo n b).filter (fun r => decide (lo + m ≤ r.1))) := by
  induction n using Nat.strongRecOn with
  | _ n ih =>
    intro m lo b hm hmn
    by_cases he : m = n
    · subst he
      rw [subproof_self]
      split
      · simp [TilesUp]
      · simp [TilesUp, hm]
    · obtain ⟨s1, s2⟩ := split_spec n (by omega)
      have s0 := split_pos n
      by_cases hl : m ≤ split n
      · rw [subproof_left m lo n b (by omega) hm hl, List.filter_append]
        apply tilesUp_append _ _ _ (lo + split n) _ (ih (split n) s1 m lo b hm hl)
        simp only [List.filter_cons, show decide (lo + m ≤ lo + split n) = true by simp; omega, if_true, List.filter_nil]
        exact ⟨rfl, by dsimp only; omega, by simp only [TilesUp]; omega⟩
      · rw [subproof_right m lo n b (by omega) (by omega), List.filter_append]
        have := ih (n - split n) (by omega) (m - split n) (lo + split n) false (by omega) (by omega)
        rw [show lo + split n + (m - split n) = lo + m by omega, show lo + split n + (n - split n) = lo + n by omega] at this
        simpa [show ¬ (lo + m ≤ lo) by omega] using this

/-- All nodes of SUBPROOF with the old tree's node included tile the whole range. -/
theorem subproof_all_tiles (n : Nat) : ∀ (m lo : Nat) (b : Bool), 0 < m → m ≤ n → (b = false ∨ (¬ IsPow2 m ∧ m < n)) →
    ∃ rs, rs.Perm (subproof m lo n b) ∧ TilesUp lo (lo + n) rs := by
  induction n using Nat.strongRecOn with
  | _ n ih =>
    intro m lo b hm hmn hb
    by_cases he : m = n
    · subst he
      have : b = false := by rcases hb with hb | hb; exact hb; omega
      subst this
      rw [subproof_self]
      refine ⟨_, List.Perm.refl _, ?_⟩
      simp [TilesUp]; omega
    · obtain ⟨s1, s2⟩ := split_spec n (by omega)
      have s0 := split_pos n
      by_cases hl : m ≤ split n
      · rw [subproof_left m lo n b (by omega) hm hl]
        obtain ⟨rs, hp, ht⟩ := ih (split n) s1 m lo b hm hl (by
          rcases hb with hb | hb
          · left; exact hb
          · right; refine ⟨hb.1, ?_⟩
            rcases Nat.lt_or_ge m (split n) with h | h
            · exact h
            · exfalso; apply hb.1
              rw [show m = split n by omega]; exact split_isPow n)
        refine ⟨rs ++ [(lo + split n, lo + n - 1)], hp.append_right _, tilesUp_append _ _ _ _ _ ht ?_⟩
        exact ⟨rfl, by dsimp only; omega, by simp only [TilesUp]; omega⟩
      · rw [subproof_right m lo n b (by omega) (by omega)]
        obtain ⟨rs, hp, ht⟩ := ih (n - split n) (by omega) (m - split n) (lo + split n) false (by omega) (by omega) (Or.inl rfl)
        refine ⟨(lo, lo + split n - 1) :: rs, ?_, ?_⟩
        · exact (hp.cons _).trans (List.perm_append_comm (l₁ := [_]))
        · simp only [TilesUp]
          refine ⟨trivial, by omega, ?_⟩
          rw [show lo + split n - 1 + 1 = lo + split n by omega]
          rw [show lo + split n + (n - split n) = lo + n by omega] at ht
          exact ht

/-! ### binary search and insertion -/

theorem sortSearch_spec (f : Nat → Bool) : ∀ (fuel i j : Nat), i ≤ j → j - i ≤ fuel →
    (∀ a b, i ≤ a → a ≤ b → b < j → f a = true → f b = true) →
    i ≤ sortSearch f fuel i j ∧ sortSearch f fuel i j ≤ j ∧
      (∀ a, i ≤ a → a < sortSearch f fuel i j → f a = false) ∧
      (∀ a, sortSearch f fuel i j ≤ a → a < j → f a = true) := by
  intro fuel
  induction fuel with
  | zero =>
    intro i j h1 h2 _
    simp only [sortSearch]
    refine ⟨by omega, by omega, ?_, ?_⟩ <;> intro a _ _ <;> omega
  | succ fuel ih =>
    intro i j h1 h2 hmono
    unfold sortSearch
    by_cases hij : i < j
    · rw [if_pos hij]
      dsimp only
      by_cases hf : f ((i + j) / 2) = true
      · rw [if_pos hf]
        obtain ⟨a1, a2, a3, a4⟩ := ih i ((i + j) / 2) (by omega) (by omega)
          (fun a b ha hab hb => hmono a b ha hab (by omega))
        refine ⟨a1, by omega, a3, ?_⟩
        intro a ha haj
        rcases Nat.lt_or_ge a ((i + j) / 2) with h | h
        · exact a4 a ha h
        · exact hmono _ a (by omega) h haj hf
      · rw [if_neg hf]
        obtain ⟨a1, a2, a3, a4⟩ := ih ((i + j) / 2 + 1) j (by omega) (by omega)
          (fun a b ha hab hb => hmono a b (by omega) hab hb)
        refine ⟨by omega, a2, ?_, a4⟩
        intro a ha haj
        rcases Nat.lt_or_ge ((i + j) / 2) a with h | h
        · exact a3 a h haj
        · cases hfa : f a with
          | false => rfl
          | true => exact absurd (hmono a _ ha h (by omega) hfa) hf
    · rw [if_neg hij]
      refine ⟨by omega, by omega, ?_, ?_⟩ <;> intro a _ _ <;> omega

theorem insertAt_spec (before : Subtree → Subtree → Bool)
    (htrans : ∀ a b c, before b a = false → before c b = false → before c a = false)
    (hasym : ∀ a b, before a b = true → before b a = false)
    (vs : List Subtree) (t : Subtree) (hs : vs.Pairwise (fun a b => before b a = false)) :
    (insertAt before vs t).Perm (t :: vs) ∧ (insertAt before vs t).Pairwise (fun a b => before b a = false) := by
  unfold insertAt
  dsimp only
  generalize hpos : sortSearch _ vs.length 0 vs.length = pos
  obtain ⟨_, p2, p3, p4⟩ := sortSearch_spec
    (beforeAt before vs t) vs.length 0 vs.length (by omega) (by omega) (by
      intro a b _ hab hb hfa
      unfold beforeAt at hfa ⊢
      rw [List.getElem?_eq_getElem (by omega)] at hfa ⊢
      dsimp only at hfa ⊢
      rcases Nat.lt_or_ge a b with hlt | hge
      · have hab' := List.pairwise_iff_getElem.1 hs a b (by omega) hb hlt
        cases hc : before t vs[b] with
        | true => rfl
        | false =>
          have := htrans vs[a] vs[b] t hab' hc
          rw [this] at hfa; cases hfa
      · have : a = b := by omega
        subst this; exact hfa)
  rw [hpos] at p2 p3 p4
  have hlt : ∀ u ∈ vs.take pos, before t u = false := by
    intro u hu
    obtain ⟨i, hi, rfl⟩ := List.mem_iff_getElem.1 hu
    simp only [List.length_take] at hi
    have := p3 i (by omega) (by omega)
    unfold beforeAt at this
    rw [List.getElem?_eq_getElem (by omega)] at this
    rw [List.getElem_take]; exact this
  have hge : ∀ u ∈ vs.drop pos, before t u = true := by
    intro u hu
    obtain ⟨i, hi, rfl⟩ := List.mem_iff_getElem.1 hu
    simp only [List.length_drop] at hi
    have := p4 (pos + i) (by omega) (by omega)
    unfold beforeAt at this
    rw [List.getElem?_eq_getElem (by omega)] at this
    rw [List.getElem_drop]; exact this
  constructor
  · have : (vs.take pos ++ t :: vs.drop pos).Perm (t :: (vs.take pos ++ vs.drop pos)) := List.perm_middle
    rwa [List.take_append_drop] at this
  · rw [List.pairwise_append]
    refine ⟨hs.sublist (List.take_sublist _ _), ?_, ?_⟩
    · refine List.Pairwise.cons ?_ (hs.sublist (List.drop_sublist _ _))
      intro u hu
      exact hasym _ _ (hge u hu)
    · intro a ha b hb
      rcases List.mem_cons.1 hb with rfl | hb
      · exact hlt a ha
      · exact htrans a t b (hlt a ha) (hasym _ _ (hge b hb))

theorem orderBefore_trans (bf : Bool) (a b c : Subtree) : orderBefore bf b a = false → orderBefore bf c b = false →
    orderBefore bf c a = false := by
  unfold orderBefore
  cases bf <;> simp <;> omega

theorem orderBefore_asymm (bf : Bool) (a b : Subtree) : orderBefore bf a b = true → orderBefore bf b a = false := by
  unfold orderBefore
  cases bf <;> simp <;> omega

theorem foldl_insertAt (bf : Bool) (ts : List Subtree) : ∀ acc : List Subtree,
    acc.Pairwise (fun a b => orderBefore bf b a = false) →
    (ts.foldl (insertAt (orderBefore bf)) acc).Perm (ts ++ acc) ∧
      (ts.foldl (insertAt (orderBefore bf)) acc).Pairwise (fun a b => orderBefore bf b a = false) := by
  induction ts with
  | nil => intro acc h; exact ⟨List.Perm.refl _, h⟩
  | cons t ts ih =>
    intro acc h
    obtain ⟨p, s⟩ := insertAt_spec (orderBefore bf) (orderBefore_trans bf) (orderBefore_asymm bf) acc t h
    obtain ⟨p2, s2⟩ := ih _ s
    refine ⟨?_, s2⟩
    simp only [List.foldl_cons]
    exact p2.trans ((p.append_left ts).trans List.perm_middle)

theorem orderSubtrees_spec (bf : Bool) (f l : Nat) (ts : List Subtree) :
    (orderSubtrees bf f l ts).Perm (ts.filter (fun t => decide (f ≤ t.first ∧ t.last ≤ l))) ∧
      (orderSubtrees bf f l ts).Pairwise (fun a b => orderBefore bf b a = false) := by
  have := foldl_insertAt bf (ts.filter (fun t => decide (f ≤ t.first ∧ t.last ≤ l))) [] List.Pairwise.nil
  simpa [orderSubtrees] using this

/-- Sorting the pieces of a tiling gives the tiling. -/
theorem sorted_tiles_up (us : List Subtree) (rs : List Range) (a b : Nat) (ht : TilesUp a b rs)
    (hp : (us.map Subtree.range).Perm rs) (hs : us.Pairwise (fun x y => orderBefore false y x = false)) :
    us.map Subtree.range = rs := by
  have hsr := tilesUp_sorted rs a b ht
  have hb := (tilesUp_bounds rs a b ht).2
  refine List.Perm.eq_of_pairwise (le := fun r s : Range => r.1 ≤ s.1) ?_ ?_ ?_ hp
  · intro x y hx hy hxy hyx
    have hx' := hp.subset hx
    obtain ⟨i, hi, rfl⟩ := List.mem_iff_getElem.1 hx'
    obtain ⟨j, hj, rfl⟩ := List.mem_iff_getElem.1 hy
    rcases Nat.lt_trichotomy i j with h | h | h
    · have := List.pairwise_iff_getElem.1 hsr i j hi hj h
      have := hb _ (List.getElem_mem hi); omega
    · subst h; rfl
    · have := List.pairwise_iff_getElem.1 hsr j i hj hi h
      have := hb _ (List.getElem_mem hj); omega
  · rw [List.pairwise_map]
    refine hs.imp ?_
    intro x y h
    simp [orderBefore] at h
    exact h
  · refine List.Pairwise.imp_of_mem ?_ hsr
    intro x y hx hy h
    have := hb x hx
    omega

theorem sorted_tiles_down (us : List Subtree) (rs : List Range) (a b : Nat) (ht : TilesUp a b rs)
    (hp : (us.map Subtree.range).Perm rs) (hs : us.Pairwise (fun x y => orderBefore true y x = false)) :
    us.map Subtree.range = rs.reverse := by
  have hsr := tilesUp_sorted rs a b ht
  have hb := (tilesUp_bounds rs a b ht).2
  refine List.Perm.eq_of_pairwise (le := fun r s : Range => s.2 ≤ r.2) ?_ ?_ ?_ (hp.trans (List.reverse_perm rs).symm)
  · intro x y hx hy hxy hyx
    have hx' := hp.subset hx
    have hy' := List.mem_reverse.1 hy
    obtain ⟨i, hi, rfl⟩ := List.mem_iff_getElem.1 hx'
    obtain ⟨j, hj, rfl⟩ := List.mem_iff_getElem.1 hy'
    rcases Nat.lt_trichotomy i j with h | h | h
    · have := List.pairwise_iff_getElem.1 hsr i j hi hj h
      have := hb _ (List.getElem_mem hj); omega
    · subst h; rfl
    · have := List.pairwise_iff_getElem.1 hsr j i hj hi h
      have := hb _ (List.getElem_mem hi); omega
  · rw [List.pairwise_map]
    refine hs.imp ?_
    intro x y h
    simp [orderBefore] at h
    exact h
  · rw [List.pairwise_reverse]
    refine List.Pairwise.imp_of_mem ?_ hsr
    intro x y hx hy h
    have := hb y hy
    omega

theorem consistency_ranges (proof : List Bytes) (m n : Nat) (h0 : 0 < m) (h : m < n) (ts : List Subtree)
    (hts : consistencyProofToSubtrees proof m n = some ts) :
    ts.map Subtree.range = proofNodes m n ∧ ts.map Subtree.root = proof ∧ ts = attachRoots (proofNodes m n) proof := by
  unfold consistencyProofToSubtrees at hts
  rw [if_neg (by omega), proofRanges_spec m n h0 h] at hts
  dsimp only at hts
  split at hts
  · cases hts
  · rename_i hl
    cases hts
    have hl' : (proofNodes m n).length = proof.length := by simpa using hl
    exact ⟨attachRoots_ranges _ _ hl', attachRoots_roots _ _ hl', rfl⟩

theorem three_not_pow2 : ¬ IsPow2 3 := by
  rintro ⟨k, hk⟩
  cases k with
  | zero => simp at hk
  | succ k => rw [Nat.pow_succ] at hk; omega

theorem proofNodes_last (m n : Nat) (h0 : 0 < m) (h : m < n) : ∀ r ∈ proofNodes m n, r.2 < n := by
  have gen : ∀ (n m lo : Nat) (b : Bool), 0 < m → m ≤ n → ∀ r ∈ subproof m lo n b, r.2 < lo + n := by
    intro n
    induction n using Nat.strongRecOn with
    | _ n ih =>
      intro m lo b hm hmn r hr
      by_cases he : m = n
      · subst he
        rw [subproof_self] at hr
        split at hr
        · cases hr
        · simp at hr; subst hr; dsimp only; omega
      · obtain ⟨s1, s2⟩ := split_spec n (by omega)
        have s0 := split_pos n
        by_cases hl : m ≤ split n
        · rw [subproof_left m lo n b (by omega) hm hl, List.mem_append] at hr
          rcases hr with hr | hr
          · have := ih (split n) s1 m lo b hm hl r hr; omega
          · simp at hr; subst hr; dsimp only; omega
        · rw [subproof_right m lo n b (by omega) (by omega), List.mem_append] at hr
          rcases hr with hr | hr
          · have := ih (n - split n) (by omega) (m - split n) (lo + split n) false (by omega) (by omega) r hr; omega
          · simp at hr; subst hr; dsimp only; omega
  intro r hr
  have := gen n m 0 true h0 (by omega) r hr
  omega

theorem filter_ranges (ts : List Subtree) (f l : Nat) :
    (ts.filter (fun t => decide (f ≤ t.first ∧ t.last ≤ l))).map Subtree.range =
      (ts.map Subtree.range).filter (fun r => decide (f ≤ r.1 ∧ r.2 ≤ l)) := by
  rw [List.filter_map]; rfl

/-- The retained ranges of a job, in some order, tile the job. -/
theorem job_tiles (first last : Nat) (proof : List Bytes) (ts : List Subtree)
    (hr : (0 < first ∧ first ≤ last) ∨ (first = 0 ∧ 3 ≤ last))
    (hts : consistencyProofToSubtrees proof (proofOldSize first) (last + 1) = some ts) :
    ∃ rs, TilesUp first (last + 1) rs ∧
      ((ts.filter (fun t => decide (first ≤ t.first ∧ t.last ≤ last))).map Subtree.range).Perm rs := by
  rw [filter_ranges]
  rcases hr with ⟨h0, h1⟩ | ⟨rfl, h3⟩
  · have ho : proofOldSize first = first := by unfold proofOldSize; rw [if_neg (by omega)]
    rw [ho] at hts
    obtain ⟨e, _, _⟩ := consistency_ranges proof first (last + 1) h0 (by omega) ts hts
    have hlast := proofNodes_last first (last + 1) h0 (by omega)
    rw [e]
    have ht := subproof_right_tiles (last + 1) first 0 true h0 (by omega)
    refine ⟨_, by simpa using ht, ?_⟩
    have : (proofNodes first (last + 1)).filter (fun r => decide (first ≤ r.1 ∧ r.2 ≤ last)) =
        (subproof first 0 (last + 1) true).filter (fun r => decide (first ≤ r.1)) := by
      apply List.filter_congr
      intro r hr
      have := hlast r hr
      simp
      omega
    rw [this]
  · have ho : proofOldSize 0 = 3 := rfl
    rw [ho] at hts
    obtain ⟨e, _, _⟩ := consistency_ranges proof 3 (last + 1) (by omega) (by omega) ts hts
    have hlast := proofNodes_last 3 (last + 1) (by omega) (by omega)
    rw [e]
    obtain ⟨rs, hp, ht⟩ := subproof_all_tiles (last + 1) 3 0 true (by omega) (by omega) (Or.inr ⟨three_not_pow2, by omega⟩)
    refine ⟨rs, by simpa using ht, ?_⟩
    rw [List.filter_eq_self.2]
    · exact hp.symm
    · intro r hr
      have := hlast r hr
      simp; omega

end Verif
