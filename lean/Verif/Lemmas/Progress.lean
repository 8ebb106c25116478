import Verif.Spec.Progress
import Verif.Props.Fetch
/-! Lemmas for progress. -/
namespace Verif
open Verif.Spec Verif.Props

theorem takeEntries_honest (env : Env) (ls : List Leaf) : ∀ (d : Download) (v : Verifier), (∀ l ∈ ls, Ok env l) →
    d.verifier.consumeAll env.H (ls.map Leaf.input) = some v → d.index + ls.length < 18446744073709551616 →
    ∃ d', takeEntries env d ls = (d', true) ∧ d'.verifier = v ∧ d'.index = d.index + ls.length := by
  induction ls with
  | nil => intro d v _ h _; simp [Verifier.consumeAll] at h; exact ⟨d, rfl, h, rfl⟩
  | cons l ls ih =>
    intro d v hok h hi
    obtain ⟨e, he, hf, hr⟩ := hok l (by simp)
    simp only [List.map_cons, Verifier.consumeAll] at h
    cases hc : d.verifier.consume env.H l.input with
    | none => rw [hc] at h; cases h
    | some v1 =>
      rw [hc] at h
      have ht : takeEntry env d l = some (advance (noteTs d e.timestamp) v1 l) := by
        unfold takeEntry
        rw [he]
        dsimp only
        split
        · rename_i h1; exact absurd h1 hf
        · rename_i h1; exact absurd h1 hr
        · rw [hc]
      simp only [List.length_cons] at hi
      have hidx : (advance (noteTs d e.timestamp) v1 l).index = d.index + 1 := by
        simp only [advance, noteTs]
        exact add64_eq _ _ (by omega)
      obtain ⟨d', h1, h2, h3⟩ := ih (advance (noteTs d e.timestamp) v1 l) v (fun x hx => hok x (by simp [hx])) h (by omega)
      refine ⟨d', ?_, h2, by rw [h3, hidx, List.length_cons]; omega⟩
      simp only [takeEntries, ht]
      exact h1

theorem range_map_append (srv : Nat → Leaf) (i k n : Nat) :
    (List.range (k + n)).map (fun m => srv (i + m)) = (List.range k).map (fun m => srv (i + m)) ++ (List.range n).map (fun m => srv (i + k + m)) := by
  rw [List.range_add, List.map_append, List.map_map]
  congr 1
  apply List.map_congr_left
  intro m _
  simp [Nat.add_assoc]

theorem consumeAll_split (H : Bytes → Bytes) (xs ys : List Bytes) : ∀ (v w : Verifier), v.consumeAll H (xs ++ ys) = some w →
    ∃ u, v.consumeAll H xs = some u ∧ u.consumeAll H ys = some w := by
  induction xs with
  | nil => intro v w h; exact ⟨v, rfl, h⟩
  | cons x xs ih =>
    intro v w h
    simp only [List.cons_append, Verifier.consumeAll] at h
    cases hc : v.consume H x with
    | none => rw [hc] at h; cases h
    | some v1 =>
      rw [hc] at h
      obtain ⟨u, h1, h2⟩ := ih v1 w h
      exact ⟨u, by simp only [Verifier.consumeAll, hc]; exact h1, h2⟩

theorem download_stop (env : Env) (last : Nat) (d : Download) (rs : List Resp) (h : last < d.index) : download env last d rs = (d, true, rs) := by
  cases rs with
  | nil => simp [download, h]
  | cons r rs => simp [download, h]

theorem download_honest (env : Env) (srv : Nat → Leaf) (last : Nat) (hl : last < 18446744073709551615) (rest : List Resp) {i j : Nat} {rs : List Resp}
    (ha : Answers srv i j rs) : j = last + 1 → (∀ k, k < j → Ok env (srv k)) → ∀ (d : Download) (v : Verifier), d.index = i →
    d.verifier.consumeAll env.H (((List.range (j - i)).map (fun m => srv (i + m))).map Leaf.input) = some v →
    ∃ d', download env last d (rs ++ rest) = (d', true, rest) ∧ d'.verifier = v := by
  induction ha with
  | nothing j =>
    intro hj _ d v hd h
    simp [Verifier.consumeAll] at h
    exact ⟨d, by rw [List.nil_append]; exact download_stop env last d rest (by omega), h⟩
  | @busy i j rs hij _ ih =>
    intro hj hok d v hd h
    obtain ⟨d', h1, h2⟩ := ih hj hok d v hd h
    refine ⟨d', ?_, h2⟩
    rw [List.cons_append, download, if_neg (by omega)]
    exact h1
  | @piece i j k rs hk hkj hr ih =>
    intro hj hok d v hd h
    have hsplit : j - i = k + (j - (i + k)) := by omega
    rw [hsplit, range_map_append, List.map_append] at h
    obtain ⟨u, h1, h2⟩ := consumeAll_split _ _ _ _ _ h
    obtain ⟨d1, e1, e2, e3⟩ := takeEntries_honest env ((List.range k).map (fun m => srv (i + m))) d u
      (by
        intro l hl
        simp only [List.mem_map, List.mem_range] at hl
        obtain ⟨m, hm, rfl⟩ := hl
        exact hok _ (by omega)) h1 (by simp; omega)
    simp only [List.length_map, List.length_range] at e3
    obtain ⟨d', h3, h4⟩ := ih hj hok d1 v (by omega) (by rw [e2]; exact h2)
    refine ⟨d', ?_, h4⟩
    rw [List.cons_append, download, if_neg (by omega)]
    simp only [e1]
    exact h3

/-- The leaves of a range, as served. -/
theorem served_slice (d : List Bytes) (srv : Nat → Leaf) (h : ∀ k x, d[k]? = some x → (srv k).input = x) (i j : Nat) (hij : i ≤ j)
    (hj : j < d.length) : ((List.range (j + 1 - i)).map (fun m => srv (i + m))).map Leaf.input = slice d (i, j) := by
  apply List.ext_getElem?
  intro m
  simp only [slice, List.map_map, List.getElem?_map, List.getElem?_take, List.getElem?_drop]
  by_cases hm : m < j + 1 - i
  · have hlt : i + m < d.length := by omega
    rw [if_pos hm, List.getElem?_range hm, List.getElem?_eq_getElem hlt]
    simp [h (i + m) _ (List.getElem?_eq_getElem hlt)]
  · rw [if_neg hm, List.getElem?_eq_none (by simp; omega)]
    rfl

/-- One subtree of an honest log is downloaded, checked and recorded. -/
theorem runSubtrees_step (env : Env) (d : List Bytes) (srv : Nat → Leaf) (hsrv : ∀ k x, d[k]? = some x → (srv k).input = x)
    (hok : ∀ k, k < d.length → Ok env (srv k)) (hsz : d.length < 18446744073709551616) (now : Nat) (task : Task) (s : WState) (t : Subtree) (ts : List Subtree)
    (htt : t.first ≤ t.last) (htl : t.last < d.length)
    (hv : ∃ v, (newVerifier t).consumeAll env.H (slice d (t.first, t.last)) = some v ∧ v.checkClaim = true)
    (r1 r2 : List Resp) (ha : Answers srv t.first (t.last + 1) r1)
    (hup : ∀ mn mx, ∃ s', updateState now task s (some (t.first, t.last)) mn mx = some s') :
    ∃ pre s' mn mx, updateState now task s (some (t.first, t.last)) mn mx = some s' ∧
      runSubtrees env now task s (t :: ts) (r1 ++ r2) = pre ++ .state s' :: runSubtrees env now task s' ts r2 := by
  obtain ⟨v, h1, h2⟩ := hv
  rw [← served_slice d srv hsrv t.first t.last htt htl] at h1
  obtain ⟨dl, h3, h4⟩ := download_honest env srv t.last (by omega) r2 ha rfl (fun k hk => hok k (by omega)) (newDownload t) v rfl h1
  obtain ⟨s', hs'⟩ := hup dl.minTs dl.maxTs
  refine ⟨leafEvents env t.first dl.handed, s', dl.minTs, dl.maxTs, hs', ?_⟩
  rw [runSubtrees, h3]
  simp only [h4, h2, if_true, hs']

/-- Ascending queue. -/
theorem runSubtrees_up (env : Env) (d : List Bytes) (srv : Nat → Leaf) (hsrv : ∀ k x, d[k]? = some x → (srv k).input = x)
    (hok : ∀ k, k < d.length → Ok env (srv k)) (hsz : d.length < 18446744073709551616) (now : Nat) (task : Task)
    (htask : task = .init ∨ task = .update) (ts : List Subtree) : ∀ (first last : Nat) (s : WState) (rs : List Resp), ts ≠ [] →
    TilesUp first (last + 1) (ts.map (fun t => (t.first, t.last))) → last < d.length →
    (∀ t ∈ ts, ∃ v, (newVerifier t).consumeAll env.H (slice d (t.first, t.last)) = some v ∧ v.checkClaim = true) →
    AnswersAll srv ts rs → (task = .init ∧ s.lastUpdate = none ∨ s.lastUpdate ≠ none ∧ s.maxEntry + 1 = first) →
    ∃ a s', runSubtrees env now task s ts rs = a ++ [.state s'] ∧ s'.lastUpdate = some now ∧ s'.maxEntry = last ∧
      s'.minEntry = if s.lastUpdate = none then first else s.minEntry := by
  induction ts with
  | nil => intro first last s rs hne; exact absurd rfl hne
  | cons t ts ih =>
    intro first last s rs _ htile hlast hv hans hs
    cases hans with
    | @cons _ _ r1 r2 ha hrest =>
      simp only [List.map_cons, TilesUp] at htile
      obtain ⟨hf, hle, hrec⟩ := htile
      have htl : t.last < d.length := by
        have : ∀ (rs : List (Nat × Nat)) (a b : Nat), TilesUp a b rs → a ≤ b := by
          intro rs
          induction rs with
          | nil => intro a b h; exact Nat.le_of_eq h
          | cons r rs ih =>
            intro a b h
            simp only [TilesUp] at h
            have := ih _ _ h.2.2
            omega
        have := this _ _ _ hrec
        omega
      have hup : ∀ mn mx, ∃ s', updateState now task s (some (t.first, t.last)) mn mx = some s' ∧ s'.lastUpdate = some now ∧
          s'.maxEntry = t.last ∧ s'.minEntry = if s.lastUpdate = none then first else s.minEntry := by
        intro mn mx
        rcases hs with ⟨hti, hn⟩ | ⟨hn, hm⟩
        · subst hti
          exact ⟨⟨t.first, t.last, min mn mn, max mx mx, some now⟩, by simp only [updateState, hn, if_true], rfl, rfl, by simp [hn, hf]⟩
        · have he : s.maxEntry = sub64 t.first 1 := by rw [sub64_eq _ _ (by omega) (by omega)]; omega
          rcases htask with h | h <;> subst h
          · exact ⟨⟨s.minEntry, t.last, min s.minTs mn, max s.maxTs mx, some now⟩, by simp only [updateState, if_neg hn, if_pos he], rfl, rfl, by simp [hn]⟩
          · exact ⟨⟨s.minEntry, t.last, min s.minTs mn, max s.maxTs mx, some now⟩, by simp only [updateState, if_pos he], rfl, rfl, by simp [hn]⟩
      obtain ⟨pre, s1, mn, mx, hu, hrun⟩ := runSubtrees_step env d srv hsrv hok hsz now task s t ts hle htl (hv t (by simp)) r1 r2 ha
        (fun mn mx => (hup mn mx).imp (fun _ h => h.1))
      obtain ⟨s1', hu', h1, h2, h3⟩ := hup mn mx
      have : s1 = s1' := Option.some.inj (hu.symm.trans hu')
      subst this
      cases ts with
      | nil =>
        simp only [List.map_nil, TilesUp] at hrec
        refine ⟨pre, s1, by rw [hrun]; simp [runSubtrees], h1, by omega, h3⟩
      | cons u us =>
        obtain ⟨a, s', r, e1, e2, e3⟩ := ih (t.last + 1) last s1 r2 (by simp) hrec hlast (fun x hx => hv x (by simp [hx])) hrest
          (Or.inr ⟨by rw [h1]; simp, by omega⟩)
        refine ⟨pre ++ .state s1 :: a, s', by rw [hrun, r]; simp, e1, e2, ?_⟩
        rw [e3, if_neg (by rw [h1]; simp), h3]

theorem tilesUp_snoc (rs : List (Nat × Nat)) (r : Nat × Nat) : ∀ a b, TilesUp a b (rs ++ [r]) →
    TilesUp a r.1 rs ∧ r.1 ≤ r.2 ∧ r.2 + 1 = b := by
  induction rs with
  | nil => intro a b h; simp [TilesUp] at h; exact ⟨h.1.symm, h.2.1, h.2.2⟩
  | cons x xs ih =>
    intro a b h
    simp only [List.cons_append, TilesUp] at h ⊢
    obtain ⟨h1, h2, h3⟩ := ih _ _ h.2.2
    exact ⟨⟨h.1, h.2.1, h1⟩, h2, h3⟩

/-- Descending queue. -/
theorem runSubtrees_down (env : Env) (d : List Bytes) (srv : Nat → Leaf) (hsrv : ∀ k x, d[k]? = some x → (srv k).input = x)
    (hok : ∀ k, k < d.length → Ok env (srv k)) (hsz : d.length < 18446744073709551616) (now : Nat) (ts : List Subtree) :
    ∀ (first last : Nat) (s : WState) (rs : List Resp), ts ≠ [] →
    TilesDown first (last + 1) (ts.map (fun t => (t.first, t.last))) → last < d.length →
    (∀ t ∈ ts, ∃ v, (newVerifier t).consumeAll env.H (slice d (t.first, t.last)) = some v ∧ v.checkClaim = true) →
    AnswersAll srv ts rs → s.minEntry = last + 1 →
    ∃ a s', runSubtrees env now .backfill s ts rs = a ++ [.state s'] ∧ s'.lastUpdate = some now ∧ s'.maxEntry = s.maxEntry ∧
      s'.minEntry = first := by
  induction ts with
  | nil => intro first last s rs hne; exact absurd rfl hne
  | cons t ts ih =>
    intro first last s rs _ htile hlast hv hans hs
    cases hans with
    | @cons _ _ r1 r2 ha hrest =>
      unfold TilesDown at htile
      simp only [List.map_cons, List.reverse_cons] at htile
      obtain ⟨hrec, hle, hf⟩ := tilesUp_snoc _ _ _ _ htile
      dsimp only at hrec hle hf
      have hup : ∀ mn mx, ∃ s', updateState now .backfill s (some (t.first, t.last)) mn mx = some s' ∧ s'.lastUpdate = some now ∧
          s'.maxEntry = s.maxEntry ∧ s'.minEntry = t.first := by
        intro mn mx
        have he : s.minEntry = add64 t.last 1 := by rw [add64_eq _ _ (by omega)]; omega
        exact ⟨⟨t.first, s.maxEntry, min s.minTs mn, max s.maxTs mx, some now⟩, by simp only [updateState, if_pos he], rfl, rfl, rfl⟩
      obtain ⟨pre, s1, mn, mx, hu, hrun⟩ := runSubtrees_step env d srv hsrv hok hsz now .backfill s t ts hle (by omega) (hv t (by simp)) r1 r2 ha
        (fun mn mx => (hup mn mx).imp (fun _ h => h.1))
      obtain ⟨s1', hu', h1, h2, h3⟩ := hup mn mx
      have : s1 = s1' := Option.some.inj (hu.symm.trans hu')
      subst this
      cases ts with
      | nil =>
        simp only [List.map_nil, List.reverse_nil, TilesUp] at hrec
        exact ⟨pre, s1, by rw [hrun]; simp [runSubtrees], h1, h2, by omega⟩
      | cons u us =>
        have hpos : 0 < t.first := by
          have : ∀ (rs : List (Nat × Nat)) (a b : Nat), TilesUp a b rs → rs ≠ [] → a < b := by
            intro rs
            induction rs with
            | nil => intro a b _ h; exact absurd rfl h
            | cons r rs ih =>
              intro a b h _
              simp only [TilesUp] at h
              cases rs with
              | nil => simp only [TilesUp] at h; omega
              | cons r' rs' => have := ih _ _ h.2.2 (by simp); omega
          have := this _ _ _ hrec (by simp)
          omega
        obtain ⟨a, s', r, e1, e2, e3⟩ := ih first (t.first - 1) s1 r2 (by simp)
          (by unfold TilesDown; rw [Nat.sub_add_cancel hpos]; exact hrec) (by omega) (fun x hx => hv x (by simp [hx])) hrest (by omega)
        exact ⟨pre ++ .state s1 :: a, s', by rw [hrun, r]; simp, e1, by omega, e3⟩

end Verif
