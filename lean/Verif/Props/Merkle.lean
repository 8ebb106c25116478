import Verif.Lemmas.Subtrees
/-!
Properties C15 to C19: checking downloaded entries against tree hashes.
-/
namespace Verif.Props
open Verif Verif.Spec

/-- The hash used in examples: pads or cuts to 32 bytes. -/
def toyHash (x : Bytes) : Bytes := (x ++ List.replicate 32 0).take 32

theorem length_toyHash (x : Bytes) : (toyHash x).length = 32 := by simp [toyHash]

/-- "Largest power of two smaller than n": the specification's `split` is what RFC 6962 says. -/
theorem C15_split_is_rfc (n : Nat) (h : 2 ≤ n) :
    (∃ k, split n = 2 ^ k) ∧ split n < n ∧ ∀ j, 2 ^ j < n → 2 ^ j ≤ split n := by
  obtain ⟨h1, h2⟩ := split_spec n h
  refine ⟨split_isPow n, h1, ?_⟩
  intro j hj
  exact pow2_not_right (2 ^ j) n ⟨j, rfl⟩ hj (Nat.two_pow_pos j)

example : split 7 = 4 ∧ split 8 = 4 ∧ split 9 = 8 := by decide

/-- **C15.** Feeding leaves to the verifier of an index range never panics, and afterwards the claim check passes iff exactly the
right number of leaves was fed and their RFC 6962 tree hash is the claimed root. -/
theorem C15_verifier_accepts_iff (H : Bytes → Bytes) (hH : ∀ x, (H x).length = 32) (t : Subtree) (ht : t.first ≤ t.last)
    (ds : List Bytes) :
    ∃ v, (newVerifier t).consumeAll H ds = some v ∧
      (v.checkClaim = true ↔ ds.length = t.last + 1 - t.first ∧ mth H ds = t.root) := by
  have hsz : 0 < t.size := by unfold Subtree.size; omega
  obtain ⟨v, e, h1, h2, h3, h4, h5⟩ := consumeAll_inv H t hsz ds _ _ (newVerifier_inv H t hsz)
  refine ⟨v, e, ?_⟩
  simp only [List.nil_append] at h2 h3 h4 h5
  unfold Verifier.checkClaim
  rw [h1, h2]
  have hs : t.size = t.last + 1 - t.first := rfl
  by_cases hr : t.root.length = 32
  · rw [if_neg (by simpa using hr)]
    by_cases hc : ds.length = t.size
    · rw [if_neg (by simpa using hc), h4 hc]
      simp [hc, hs]
    · rw [if_pos (by simpa using hc)]
      simp [← hs, hc]
  · rw [if_pos (by simpa using hr)]
    simp only [Bool.false_eq_true, false_iff, not_and]
    intro _ he
    exact hr (he ▸ length_mth H 32 hH ds)

example : (∀ x, (toyHash x).length = 32) ∧ (Subtree.mk [] 5 9).first ≤ (Subtree.mk [] 5 9).last :=
  ⟨length_toyHash, by decide⟩

/-- Equal tree hashes of different leaf sequences of equal length contain a collision. -/
theorem mth_collision (H : Bytes → Bytes) (hH : ∀ x, (H x).length = 32) (n : Nat) : ∀ xs ys : List Bytes, xs.length = n →
    ys.length = n → mth H xs = mth H ys → xs ≠ ys → ∃ x ∈ hashed H xs, ∃ y ∈ hashed H ys, x ≠ y ∧ H x = H y := by
  induction n using Nat.strongRecOn with
  | _ n ih =>
    intro xs ys hx hy he hne
    match xs, ys, hx, hy with
    | [], [], _, _ => exact absurd rfl hne
    | [a], [b], _, _ =>
      refine ⟨0 :: a, by rw [hashed]; simp, 0 :: b, by rw [hashed]; simp, ?_, ?_⟩
      · intro e; apply hne; simp only [List.cons.injEq, true_and] at e; rw [e]
      · rw [mth_singleton, mth_singleton] at he; exact he
    | a :: b :: r, c :: d :: s, hx, hy =>
      have h2 : 2 ≤ (a :: b :: r).length := by simp
      have h2' : 2 ≤ (c :: d :: s).length := by simp
      have hlen : (a :: b :: r).length = (c :: d :: s).length := by rw [hx, hy]
      rw [mth_split H _ h2, mth_split H _ h2'] at he
      have hhx : hashed H (a :: b :: r) = (1 :: (mth H ((a :: b :: r).take (split (a :: b :: r).length)) ++
        mth H ((a :: b :: r).drop (split (a :: b :: r).length)))) ::
        (hashed H ((a :: b :: r).take (split (a :: b :: r).length)) ++
          hashed H ((a :: b :: r).drop (split (a :: b :: r).length))) := by rw [hashed]
      have hhy : hashed H (c :: d :: s) = (1 :: (mth H ((c :: d :: s).take (split (c :: d :: s).length)) ++
        mth H ((c :: d :: s).drop (split (c :: d :: s).length)))) ::
        (hashed H ((c :: d :: s).take (split (c :: d :: s).length)) ++
          hashed H ((c :: d :: s).drop (split (c :: d :: s).length))) := by rw [hashed]
      rw [hhx, hhy]
      clear hhx hhy
      have hsl := split_lt (a :: b :: r).length h2
      have hsp := split_pos (a :: b :: r).length
      rw [← hlen] at he ⊢
      generalize (a :: b :: r) = X at *
      generalize (c :: d :: s) = Y at *
      generalize split X.length = k at *
      by_cases hin : mth H (X.take k) = mth H (Y.take k) ∧ mth H (X.drop k) = mth H (Y.drop k)
      · by_cases ht : X.take k = Y.take k
        · have hd : X.drop k ≠ Y.drop k := by
            intro hd; apply hne
            rw [← List.take_append_drop k X, ← List.take_append_drop k Y, ht, hd]
          obtain ⟨x, hx1, y, hy1, h⟩ := ih (n - k) (by omega) (X.drop k) (Y.drop k) (by simp; omega) (by simp; omega) hin.2 hd
          exact ⟨x, by simp [hx1], y, by simp [hy1], h⟩
        · obtain ⟨x, hx1, y, hy1, h⟩ := ih k (by omega) (X.take k) (Y.take k) (by simp; omega) (by simp; omega) hin.1 ht
          exact ⟨x, by simp [hx1], y, by simp [hy1], h⟩
      · refine ⟨_, List.mem_cons_self, _, List.mem_cons_self, ?_, he⟩
        intro e
        simp only [List.cons.injEq, true_and] at e
        have hl : (mth H (X.take k)).length = (mth H (Y.take k)).length := by rw [length_mth H 32 hH, length_mth H 32 hH]
        exact hin (List.append_inj e hl)

/-- **C16.** If two different downloads for the same range and root are both accepted, then among the byte strings hashed for the
one and for the other there are two different ones with the same hash. -/
theorem C16_two_accepted_collide (H : Bytes → Bytes) (hH : ∀ x, (H x).length = 32) (t : Subtree) (ht : t.first ≤ t.last)
    (xs ys : List Bytes) (vx vy : Verifier) (hx : (newVerifier t).consumeAll H xs = some vx)
    (hy : (newVerifier t).consumeAll H ys = some vy) (ax : vx.checkClaim = true) (ay : vy.checkClaim = true) (hne : xs ≠ ys) :
    ∃ x ∈ hashed H xs, ∃ y ∈ hashed H ys, x ≠ y ∧ H x = H y := by
  obtain ⟨v, e, hv⟩ := C15_verifier_accepts_iff H hH t ht xs
  obtain ⟨w, f, hw⟩ := C15_verifier_accepts_iff H hH t ht ys
  rw [hx] at e; cases e
  rw [hy] at f; cases f
  obtain ⟨l1, m1⟩ := hv.1 ax
  obtain ⟨l2, m2⟩ := hw.1 ay
  exact mth_collision H hH _ xs ys l1 l2 (m1.trans m2.symm) hne

/-- Two different leaf lists accepted under the (colliding) toy hash. -/
example : ∃ (t : Subtree) (xs ys : List Bytes) (vx vy : Verifier), t.first ≤ t.last ∧
    (newVerifier t).consumeAll toyHash xs = some vx ∧ (newVerifier t).consumeAll toyHash ys = some vy ∧
    vx.checkClaim = true ∧ vy.checkClaim = true ∧ xs ≠ ys := by
  refine ⟨⟨toyHash (0 :: List.replicate 32 1), 4, 4⟩, [List.replicate 32 1], [List.replicate 33 1], ?_⟩
  refine ⟨_, _, by decide, rfl, rfl, ?_, ?_, ?_⟩ <;> decide

/-- Every byte string that the specification says is hashed really is fed to the hash: the tree hash depends on nothing else. -/
theorem C16_hashed_determines (H H' : Bytes → Bytes) (n : Nat) : ∀ d : List Bytes, d.length = n →
    (∀ x ∈ hashed H d, H x = H' x) → mth H d = mth H' d := by
  induction n using Nat.strongRecOn with
  | _ n ih =>
    intro d hd h
    match d, hd with
    | [], _ => rw [mth_nil, mth_nil]; exact h _ (by rw [hashed]; simp)
    | [x], _ => rw [mth_singleton, mth_singleton]; exact h _ (by rw [hashed]; simp)
    | a :: b :: r, hd =>
      have h2 : 2 ≤ (a :: b :: r).length := by simp
      have hsl := split_lt (a :: b :: r).length h2
      have hsp := split_pos (a :: b :: r).length
      have hh : hashed H (a :: b :: r) = (1 :: (mth H ((a :: b :: r).take (split (a :: b :: r).length)) ++
        mth H ((a :: b :: r).drop (split (a :: b :: r).length)))) ::
        (hashed H ((a :: b :: r).take (split (a :: b :: r).length)) ++
          hashed H ((a :: b :: r).drop (split (a :: b :: r).length))) := by rw [hashed]
      rw [hh] at h
      rw [mth_split H _ h2, mth_split H' _ h2]
      unfold pairHash
      rw [h _ List.mem_cons_self]
      clear hh
      generalize (a :: b :: r) = X at *
      generalize split X.length = k at *
      rw [ih k (by omega) (X.take k) (by simp; omega) (fun x hx => h x (by simp [hx])),
        ih (n - k) (by omega) (X.drop k) (by simp; omega) (fun x hx => h x (by simp [hx]))]

/-! ### C17 -/

/-- **C17.** For `0 < old < new` and a proof with the right number of nodes, the subtrees carry the proof's hashes in order and their
index ranges are those of the nodes of RFC 6962's PROOF(old, D[new]). -/
theorem C17_subtrees_are_rfc (proof : List Bytes) (old new : Nat) (h0 : 0 < old) (h : old < new)
    (hlen : proof.length = (proofNodes old new).length) :
    ∃ ts, consistencyProofToSubtrees proof old new = some ts ∧ ts.map (fun t => (t.first, t.last)) = proofNodes old new ∧
      ts.map Subtree.root = proof := by
  have hs : consistencyProofToSubtrees proof old new = some (attachRoots (proofNodes old new) proof) := by
    unfold consistencyProofToSubtrees
    rw [if_neg (by omega), proofRanges_spec old new h0 h]
    dsimp only
    rw [if_neg (by omega)]
  obtain ⟨a, b, _⟩ := consistency_ranges proof old new h0 h _ hs
  exact ⟨_, hs, a, b⟩

example : proofNodes 3 7 = [(2, 2), (3, 3), (0, 1), (4, 6)] := by
  unfold proofNodes
  rw [subproof_left 3 0 7 true (by decide) (by decide) (by decide)]
  rw [show split 7 = 4 by decide, subproof_right 3 0 4 true (by decide) (by decide)]
  rw [show split 4 = 2 by decide, subproof_left 1 2 2 false (by decide) (by decide) (by decide)]
  rw [show split 2 = 1 by decide, subproof_self]
  decide

/-- **C17 (errors).** `new ≤ old` or a wrong number of nodes is an error, and nothing else is. -/
theorem C17_error_iff (proof : List Bytes) (old new : Nat) (h0 : 0 < old) :
    consistencyProofToSubtrees proof old new = none ↔ new ≤ old ∨ proof.length ≠ (proofNodes old new).length := by
  by_cases h : new ≤ old
  · simp [consistencyProofToSubtrees, h]
  · by_cases hl : proof.length = (proofNodes old new).length
    · obtain ⟨ts, e, _⟩ := C17_subtrees_are_rfc proof old new h0 (by omega) hl
      simp [e, hl, h]
    · constructor
      · intro _; exact Or.inr hl
      · intro _
        unfold consistencyProofToSubtrees
        rw [if_neg h, proofRanges_spec old new h0 (by omega)]
        dsimp only
        rw [if_pos (fun e => hl e.symm)]

theorem proofLoop_terminates (fuel : Nat) : ∀ (target first last : Nat) (terms : List Range), first ≤ last →
    last + 1 - first ≤ fuel → proofLoop fuel target first last terms ≠ none := by
  induction fuel with
  | zero => intro target first last terms h1 h2; omega
  | succ fuel ih =>
    intro target first last terms h1 h2
    unfold proofLoop
    split
    · rename_i hc
      have hsz : (Subtree.mk [] first last).size = last + 1 - first := rfl
      have hmid : (Subtree.mk [] first last).midpoint = first + split (last + 1 - first) := by
        unfold Subtree.midpoint
        rw [prevPow2_eq_split _ (by rw [hsz]; omega), hsz]
      obtain ⟨s1, s2⟩ := split_spec (last + 1 - first) (by omega)
      have s0 := split_pos (last + 1 - first)
      simp only [hmid]
      split
      · exact ih _ _ _ _ (by omega) (by omega)
      · exact ih _ _ _ _ (by omega) (by omega)
    · simp

/-- **C17 (termination).** The walk down the tree ends for every pair of sizes, including old size 0. -/
theorem C17_terminates (old new : Nat) (h : old < new) : proofRanges old new ≠ none := by
  have := proofLoop_terminates new (proofTarget old) 0 (new - 1) [] (by omega) (by omega)
  unfold proofRanges
  split
  · rename_i e; exact absurd e this
  · simp

/-! ### C18 -/

/-- **C18 (initial and update jobs).** For a job `[first, last]` with `first ≥ 1`, or `first = 0` in a tree of more than 3 entries, the
queue of subtrees is ascending, adjacent, and exactly the job. -/
theorem C18_job_tiles_up (first last : Nat) (proof : List Bytes) (us : List Subtree)
    (hr : (0 < first ∧ first ≤ last) ∨ (first = 0 ∧ 3 ≤ last)) (hus : jobSubtrees false first last proof = some us) :
    TilesUp first (last + 1) (us.map (fun t => (t.first, t.last))) := by
  unfold jobSubtrees at hus
  split at hus
  · cases hus
  · rename_i ts hts
    cases hus
    obtain ⟨rs, ht, hp⟩ := job_tiles first last proof ts hr hts
    obtain ⟨p, s⟩ := orderSubtrees_spec false first last ts
    have := sorted_tiles_up _ rs _ _ ht ((p.map Subtree.range).trans hp) s
    change TilesUp first (last + 1) ((orderSubtrees false first last ts).map Subtree.range)
    rw [this]; exact ht

/-- **C18 (backfill jobs).** The same, descending. -/
theorem C18_job_tiles_down (first last : Nat) (proof : List Bytes) (us : List Subtree)
    (hr : (0 < first ∧ first ≤ last) ∨ (first = 0 ∧ 3 ≤ last)) (hus : jobSubtrees true first last proof = some us) :
    TilesDown first (last + 1) (us.map (fun t => (t.first, t.last))) := by
  unfold jobSubtrees at hus
  split at hus
  · cases hus
  · rename_i ts hts
    cases hus
    obtain ⟨rs, ht, hp⟩ := job_tiles first last proof ts hr hts
    obtain ⟨p, s⟩ := orderSubtrees_spec true first last ts
    have := sorted_tiles_down _ rs _ _ ht ((p.map Subtree.range).trans hp) s
    unfold TilesDown
    change TilesUp first (last + 1) ((orderSubtrees true first last ts).map Subtree.range).reverse
    rw [this, List.reverse_reverse]; exact ht

/-- **C18 (roots).** Each queued subtree keeps the hash the proof gave for its range. -/
theorem C18_job_roots (bf : Bool) (first last : Nat) (proof : List Bytes) (us : List Subtree)
    (hr : (0 < first ∧ first ≤ last) ∨ (first = 0 ∧ 3 ≤ last)) (hus : jobSubtrees bf first last proof = some us) :
    ∀ u ∈ us, ((u.first, u.last), u.root) ∈ (proofNodes (proofOldSize first) (last + 1)).zip proof := by
  unfold jobSubtrees at hus
  split at hus
  · cases hus
  · rename_i ts hts
    cases hus
    intro u hu
    have hm := (List.mem_filter.1 ((orderSubtrees_spec bf first last ts).1.subset hu)).1
    have hpos : 0 < proofOldSize first ∧ proofOldSize first < last + 1 := by
      unfold proofOldSize; split <;> omega
    obtain ⟨a, b, _⟩ := consistency_ranges proof _ _ hpos.1 hpos.2 ts hts
    rw [← a, ← b, List.zip_map', List.mem_map]
    exact ⟨u, hm, rfl⟩

/-- **C18 (every job gets a queue).** A proof with the right number of nodes always yields a queue, and it is not empty. -/
theorem C18_job_exists (bf : Bool) (first last : Nat) (proof : List Bytes)
    (hr : (0 < first ∧ first ≤ last) ∨ (first = 0 ∧ 3 ≤ last))
    (hlen : proof.length = (proofNodes (proofOldSize first) (last + 1)).length) :
    ∃ us, jobSubtrees bf first last proof = some us ∧ us ≠ [] := by
  have hpos : 0 < proofOldSize first ∧ proofOldSize first < last + 1 := by
    unfold proofOldSize; split <;> omega
  obtain ⟨ts, e, _⟩ := C17_subtrees_are_rfc proof _ _ hpos.1 hpos.2 hlen
  have hj : jobSubtrees bf first last proof = some (orderSubtrees bf first last ts) := by
    unfold jobSubtrees; rw [e]
  refine ⟨_, hj, ?_⟩
  intro hnil
  cases bf with
  | false =>
    have := C18_job_tiles_up first last proof _ hr hj
    rw [hnil] at this
    simp [TilesUp] at this
    omega
  | true =>
    have := C18_job_tiles_down first last proof _ hr hj
    rw [hnil] at this
    simp [TilesDown, TilesUp] at this
    omega

/-- **C18 (guard).** With `first = 0` and a tree of 3 or fewer entries there is no queue, whatever the proof. -/
theorem C18_small_tree_fails (bf : Bool) (last : Nat) (proof : List Bytes) (h : last < 3) :
    jobSubtrees bf 0 last proof = none := by
  have : consistencyProofToSubtrees proof (proofOldSize 0) (last + 1) = none := by
    unfold consistencyProofToSubtrees
    rw [if_pos (show last + 1 ≤ proofOldSize 0 by simp [proofOldSize]; omega)]
  unfold jobSubtrees
  rw [this]

example : jobSubtrees true 5 9 [[1], [2], [3], [4], [5]] =
    some [⟨[5], 8, 9⟩, ⟨[3], 6, 7⟩, ⟨[2], 5, 5⟩] := by decide

example : (0 < 5 ∧ 5 ≤ 9) ∨ (5 = 0 ∧ 3 ≤ 9) := by decide

/-! ### C19 -/

theorem zip_honest (H : Bytes → Bytes) (d : List Bytes) : ∀ (rs : List Range) (a : Range) (b : Bytes),
    (a, b) ∈ rs.zip (rs.map (fun r => mth H (slice d r))) → b = mth H (slice d a) := by
  intro rs
  induction rs with
  | nil => intro a b h; cases h
  | cons r rs ih =>
    intro a b h
    simp only [List.map_cons, List.zip_cons_cons, List.mem_cons, Prod.mk.injEq] at h
    rcases h with ⟨rfl, rfl⟩ | h
    · rfl
    · exact ih a b h

/-- **C19.** If the log answers with the true RFC 6962 consistency proof for its entries `d`, the job gets a queue of subtrees, and
feeding each of them the log's true entries passes the claim check. -/
theorem C19_honest_log_accepted (H : Bytes → Bytes) (hH : ∀ x, (H x).length = 32) (d : List Bytes) (bf : Bool)
    (first last : Nat) (hr : (0 < first ∧ first ≤ last) ∨ (first = 0 ∧ 3 ≤ last)) (hd : last < d.length) :
    ∃ us, jobSubtrees bf first last (honestProof H d (proofOldSize first) (last + 1)) = some us ∧ us ≠ [] ∧
      ∀ u ∈ us, ∃ v, (newVerifier u).consumeAll H (slice d (u.first, u.last)) = some v ∧ v.checkClaim = true := by
  obtain ⟨us, hus, hne⟩ := C18_job_exists bf first last (honestProof H d (proofOldSize first) (last + 1)) hr
    (by simp [honestProof])
  refine ⟨us, hus, hne, ?_⟩
  intro u hu
  have hroot := C18_job_roots bf first last _ us hr hus u hu
  have hur : u.root = mth H (slice d (u.first, u.last)) := zip_honest H d _ _ _ hroot
  have hb : first ≤ u.first ∧ u.first ≤ u.last ∧ u.last < last + 1 := by
    cases bf with
    | false =>
      have := C18_job_tiles_up first last _ us hr hus
      exact (tilesUp_bounds _ _ _ this).2 _ (List.mem_map.2 ⟨u, hu, rfl⟩)
    | true =>
      have := C18_job_tiles_down first last _ us hr hus
      exact (tilesUp_bounds _ _ _ this).2 (u.first, u.last) (List.mem_reverse.2 (List.mem_map.2 ⟨u, hu, rfl⟩))
  obtain ⟨v, e, hiff⟩ := C15_verifier_accepts_iff H hH u hb.2.1 (slice d (u.first, u.last))
  refine ⟨v, e, hiff.2 ⟨?_, hur.symm⟩⟩
  simp [slice]
  omega

/-- **C19 (converse).** If the claimed roots are the true ones, an accepted download of a queued subtree is the true one, unless the
hash collides. -/
theorem C19_accepted_is_true (H : Bytes → Bytes) (hH : ∀ x, (H x).length = 32) (d : List Bytes) (u : Subtree)
    (hu : u.first ≤ u.last) (hd : u.last < d.length) (hroot : u.root = mth H (slice d (u.first, u.last))) (xs : List Bytes)
    (v : Verifier) (hx : (newVerifier u).consumeAll H xs = some v) (ha : v.checkClaim = true) :
    xs = slice d (u.first, u.last) ∨
      ∃ x ∈ hashed H xs, ∃ y ∈ hashed H (slice d (u.first, u.last)), x ≠ y ∧ H x = H y := by
  obtain ⟨v', e, hv⟩ := C15_verifier_accepts_iff H hH u hu xs
  rw [hx] at e; cases e
  obtain ⟨l1, m1⟩ := hv.1 ha
  by_cases he : xs = slice d (u.first, u.last)
  · exact Or.inl he
  · right
    exact mth_collision H hH _ xs _ l1 (by simp [slice]; omega) (m1.trans hroot) he

example : ∃ (d : List Bytes) (first last : Nat), ((0 < first ∧ first ≤ last) ∨ (first = 0 ∧ 3 ≤ last)) ∧ last < d.length :=
  ⟨List.replicate 10 [7], 5, 9, by decide, by decide⟩

/-! ### each theorem applied -/

example : mth toyHash [[1], [2], [3]] = mth (fun x => if x = [99] then [] else toyHash x) [[1], [2], [3]] :=
  C16_hashed_determines toyHash (fun x => if x = [99] then [] else toyHash x) 3 [[1], [2], [3]] rfl (by decide +kernel)
example := (C17_error_iff [[1], [2]] 5 10 (by decide)).1 (by decide)
example : proofRanges 5 10 ≠ none := C17_terminates 5 10 (by decide)

theorem exJob : jobSubtrees true 5 9 [[1], [2], [3], [4], [5]] = some [⟨[5], 8, 9⟩, ⟨[3], 6, 7⟩, ⟨[2], 5, 5⟩] := by decide

example := C18_job_tiles_up 5 9 [[1], [2], [3], [4], [5]] [⟨[2], 5, 5⟩, ⟨[3], 6, 7⟩, ⟨[5], 8, 9⟩] (by decide) (by decide)
example := C18_job_tiles_down 5 9 [[1], [2], [3], [4], [5]] _ (by decide) exJob
example := C18_job_roots true 5 9 [[1], [2], [3], [4], [5]] _ (by decide) exJob
example := C18_job_exists true 5 9 [[1], [2], [3], [4], [5]] (by decide)
  (Decidable.byContradiction fun h => absurd ((C17_error_iff [[1], [2], [3], [4], [5]] 5 10 (by decide)).2 (Or.inr h)) (by decide))
example := C19_honest_log_accepted toyHash length_toyHash (List.replicate 10 [7]) true 5 9 (by decide) (by decide)

end Verif.Props
