import Verif.Lemmas.Fetch
/-! Properties of the log workers: C20, C21, C25, C26, C27. -/
namespace Verif.Props
open Spec

/-! ### C20 -/

/-- **C20.** For every state, tree head, batch size and time: the range of a chosen job is non-empty, below the tree size, no longer than the batch,
and, unless the log is new, it starts right after or ends right before the claimed range. Missing: a log whose
tree is smaller than what was already fetched (`hmin`; `C20_shrunk_log_fails`), and indices within a batch of 2^64 (`hov`). -/
theorem C20_job_range_partial (batch now : Nat) (s : WState) (h : TreeHead) (r : Range) (hb : 0 < batch)
    (hsize : h.treeSize < 2 ^ 64) (hov : s.maxEntry + batch < 2 ^ 64) (hmin : s.minEntry ≤ h.treeSize)
    (hr : jobRange batch s h.treeSize (chooseTask batch now s (some h)) = some r) :
    r.1 ≤ r.2 ∧ r.2 < h.treeSize ∧ r.2 + 1 - r.1 ≤ batch ∧
    (s.lastUpdate = none → r.2 + 1 = h.treeSize) ∧
    (s.lastUpdate ≠ none → r.1 = s.maxEntry + 1 ∨ r.2 + 1 = s.minEntry) := by
  have h3 := (chooseTask_job batch now s h r hr).1
  have hlt := jobRange_lt batch s h.treeSize _ r hr (by omega) (by simpa using hsize)
  have hmod := Nat.mod_lt s.minEntry hb
  have hmodle := Nat.mod_le s.minEntry batch
  have hmodge : s.minEntry % batch = 0 → 0 < s.minEntry → batch ≤ s.minEntry := fun h1 h2 =>
    Nat.le_of_dvd h2 (Nat.dvd_of_mod_eq_zero h1)
  simp only [Nat.reducePow] at hsize hov
  have e1 := sub64_eq h.treeSize 1 (by omega) hsize
  have e2 := add64_eq s.maxEntry batch hov
  have e3 := add64_eq s.maxEntry 1 (by omega)
  revert hr
  unfold chooseTask
  dsimp only
  rw [if_neg (by omega)]
  have tUpdate : jobRange batch s h.treeSize .update = some r → s.maxEntry + 1 < h.treeSize → s.lastUpdate ≠ none →
      r.1 ≤ r.2 ∧ r.2 < h.treeSize ∧ r.2 + 1 - r.1 ≤ batch ∧
      (s.lastUpdate = none → r.2 + 1 = h.treeSize) ∧
      (s.lastUpdate ≠ none → r.1 = s.maxEntry + 1 ∨ r.2 + 1 = s.minEntry) := by
    intro hr hm hl
    simp only [jobRange, rawRange, e1, e2, e3, Option.some.injEq] at hr
    subst hr
    dsimp only at hlt ⊢
    refine ⟨?_, hlt, ?_, fun e => absurd e hl, fun _ => Or.inl rfl⟩
    · split <;> omega
    · split <;> omega
  cases hl : s.lastUpdate with
  | none =>
    intro hr
    simp only [jobRange, rawRange, e1, Option.some.injEq] at hr
    subst hr
    dsimp only
    refine ⟨?_, by split <;> omega, ?_, fun _ => by split <;> omega, fun e => absurd rfl e⟩
    · split <;> split <;> omega
    · split <;> split <;> omega
  | some t =>
    rw [hl] at tUpdate
    dsimp only
    intro hr
    split at hr
    · rename_i hu
      rw [e2] at hu
      exact tUpdate hr (by omega) (by simp)
    · split at hr
      · rename_i hp
        have e4 := sub64_eq s.minEntry 1 (by omega) (by omega)
        have e5 := sub64_eq s.minEntry (s.minEntry % batch) (by omega) (by omega)
        simp only [jobRange, rawRange, e1, e4, e5, Option.some.injEq] at hr
        subst hr
        dsimp only at hlt ⊢
        refine ⟨?_, hlt, ?_, fun e => (Option.some_ne_none _ e).elim, fun _ => Or.inr ?_⟩
        · by_cases hm : s.minEntry % batch = 0
          · have := hmodge hm hp
            rw [if_neg (by omega), sub64_eq s.minEntry batch this (by omega)]
            split <;> omega
          · rw [if_pos hm]
            split <;> omega
        · by_cases hm : s.minEntry % batch = 0
          · have := hmodge hm hp
            rw [if_neg (by omega), sub64_eq s.minEntry batch this (by omega)]
            split <;> omega
          · rw [if_pos hm]
            split <;> omega
        · split <;> omega
      · split at hr
        · simp [jobRange, rawRange] at hr
        · split at hr
          · rename_i hu
            rw [e1] at hu
            exact tUpdate hr (by omega) (by simp)
          · simp [jobRange, rawRange] at hr

example : jobRange 10 ⟨25, 40, 0, 0, some 7⟩ 45 (chooseTask 10 1000 ⟨25, 40, 0, 0, some 7⟩ (some ⟨45, 0⟩)) = some (20, 24) := by
  decide
example : jobRange 10 ⟨20, 40, 0, 0, some 7⟩ 60 (chooseTask 10 1000 ⟨20, 40, 0, 0, some 7⟩ (some ⟨60, 0⟩)) = some (41, 50) := by
  decide
example : jobRange 10 newLog 60 (chooseTask 10 1000 newLog (some ⟨60, 0⟩)) = some (50, 59) := by decide

/-- **C20 fails for a log that shrank**: entries 60 to 80 were fetched, and the log now signs a tree of 45 entries. The job is the range from 50 to 44, which
is empty, is not next to the claimed range, and is what the log is asked for. Nothing is claimed because of it (`C20_shrunk_log_claims_nothing`). -/
theorem C20_shrunk_log_fails : jobRange 10 ⟨60, 80, 0, 0, some 7⟩ 45 (chooseTask 10 1000 ⟨60, 80, 0, 0, some 7⟩ (some ⟨45, 0⟩)) = some (50, 44) := by
  decide

/-- **C20 (which job).** A new log gets its newest batch; many new entries come before old ones, old ones before few new ones. -/
theorem C20_job_priority (batch now : Nat) (s : WState) (h : TreeHead) (hsize : h.treeSize < 2 ^ 64)
    (hov : s.maxEntry + batch < 2 ^ 64) (h3 : 3 < h.treeSize) :
    (s.lastUpdate = none → chooseTask batch now s (some h) = .init) ∧
    (∀ t, s.lastUpdate = some t → s.maxEntry + batch < h.treeSize → chooseTask batch now s (some h) = .update) ∧
    (∀ t, s.lastUpdate = some t → h.treeSize ≤ s.maxEntry + batch → 0 < s.minEntry →
      chooseTask batch now s (some h) = .backfill) ∧
    (∀ t, s.lastUpdate = some t → h.treeSize ≤ s.maxEntry + batch → s.minEntry = 0 → t + 600 ≤ now →
      s.maxEntry + 1 < h.treeSize → chooseTask batch now s (some h) = .update) := by
  simp only [Nat.reducePow] at hsize hov
  have e1 := sub64_eq h.treeSize 1 (by omega) hsize
  have e2 := add64_eq s.maxEntry batch hov
  have n3 : ¬ h.treeSize ≤ 3 := by omega
  refine ⟨?_, ?_, ?_, ?_⟩
  · intro hl; simp [chooseTask, hl, n3]
  · intro t hl hu
    simp [chooseTask, hl, n3, e2, hu]
  · intro t hl hu hm
    simp [chooseTask, hl, n3, e2, hm, show ¬ s.maxEntry + batch < h.treeSize by omega]
  · intro t hl hu hm ht hx
    simp only [chooseTask, hl, n3, e2, e1, if_false]
    rw [if_neg (by omega), if_neg (by omega), if_neg (by omega), if_pos (by omega)]

example : ∃ s : WState, ∃ h : TreeHead, 3 < h.treeSize ∧ s.lastUpdate = some 5 ∧ h.treeSize ≤ s.maxEntry + 10 ∧ 0 < s.minEntry :=
  ⟨⟨25, 40, 0, 0, some 5⟩, ⟨45, 0⟩, by decide, rfl, by decide, by decide⟩

/-- **C20 (which job, tiled logs).** More than a batch of new entries are fetched at once. Fewer are fetched, incomplete tiles included, if the last update was ten minutes ago or more or never; else, and if there are none, the worker sleeps. -/
theorem C20_tiled_priority (batch now : Nat) (s : WState) (h : TreeHead) (hb : 0 < batch) (hov : s.maxEntry + batch < 2 ^ 64) :
    (chooseTiled batch now s (some h) = .update ↔ s.maxEntry + batch < h.treeSize) ∧
    (chooseTiled batch now s (some h) = .forceUpdate ↔ h.treeSize ≤ s.maxEntry + batch ∧ s.maxEntry + 1 < h.treeSize ∧ ∀ t, s.lastUpdate = some t → t + 600 ≤ now) ∧
    (chooseTiled batch now s (some h) = .sleep ↔ h.treeSize ≤ s.maxEntry + 1 ∨ (h.treeSize ≤ s.maxEntry + batch ∧ ∃ t, s.lastUpdate = some t ∧ now < t + 600)) := by
  simp only [Nat.reducePow] at hov
  have e2 := add64_eq s.maxEntry batch hov
  have e1 := add64_eq s.maxEntry 1 (by omega)
  unfold chooseTiled
  dsimp only
  rw [e1, e2]
  by_cases h1 : s.maxEntry + batch < h.treeSize
  · rw [if_pos h1]
    refine ⟨⟨fun _ => h1, fun _ => rfl⟩, ⟨(fun e => by cases e), (fun e => by omega)⟩, ⟨(fun e => by cases e), ?_⟩⟩
    rintro (e | ⟨e, _⟩) <;> omega
  · rw [if_neg h1]
    cases hl : s.lastUpdate with
    | none =>
      dsimp only
      by_cases h2 : s.maxEntry + 1 < h.treeSize
      · rw [if_pos h2]
        refine ⟨⟨(fun e => by cases e), (fun e => by omega)⟩, ⟨fun _ => ⟨by omega, h2, (fun t e => by cases e)⟩, fun _ => rfl⟩, ⟨(fun e => by cases e), ?_⟩⟩
        rintro (e | ⟨_, t, e, _⟩)
        · omega
        · cases e
      · rw [if_neg h2]
        exact ⟨⟨(fun e => by cases e), (fun e => by omega)⟩, ⟨(fun e => by cases e), (fun e => by omega)⟩, ⟨fun _ => Or.inl (by omega), fun _ => rfl⟩⟩
    | some t =>
      dsimp only
      by_cases h3 : now < t + 600
      · rw [if_pos h3]
        refine ⟨⟨(fun e => by cases e), (fun e => by omega)⟩, ⟨(fun e => by cases e), (fun e => by have := e.2.2 t rfl; omega)⟩, ⟨fun _ => Or.inr ⟨by omega, t, rfl, h3⟩, fun _ => rfl⟩⟩
      · rw [if_neg h3]
        by_cases h2 : s.maxEntry + 1 < h.treeSize
        · rw [if_pos h2]
          refine ⟨⟨(fun e => by cases e), (fun e => by omega)⟩, ⟨fun _ => ⟨by omega, h2, (fun u e => by cases e; omega)⟩, fun _ => rfl⟩, ⟨(fun e => by cases e), ?_⟩⟩
          rintro (e | ⟨_, u, e, e'⟩)
          · omega
          · cases e; omega
        · rw [if_neg h2]
          exact ⟨⟨(fun e => by cases e), (fun e => by omega)⟩, ⟨(fun e => by cases e), (fun e => by omega)⟩, ⟨fun _ => Or.inl (by omega), fun _ => rfl⟩⟩

example : chooseTiled 10 1000 ⟨0, 40, 0, 0, some 400⟩ (some ⟨50, 0⟩) = .forceUpdate ∧ chooseTiled 10 999 ⟨0, 40, 0, 0, some 400⟩ (some ⟨50, 0⟩) = .sleep := by decide

/-- **C20 (shrunk tiled log).** If a tiled log now signs a tree smaller than what was already fetched, nothing is sent. -/
theorem C20_tiled_shrunk_claims_nothing (keep : Bool) (batch now : Nat) (s : WState) (h : TreeHead) (es1 es2 : List TEntry) (err1 err2 : Bool) (hb : 0 < batch) (hov : s.maxEntry + batch < 2 ^ 64)
    (hshrunk : h.treeSize < s.maxEntry + 1) : runTiled keep batch now s (some h) es1 es2 err1 err2 = [] := by
  have hs := (C20_tiled_priority batch now s h hb hov).2.2.2 (Or.inl (by omega))
  unfold runTiled
  dsimp only
  rw [hs]
  dsimp only
  rw [if_neg]
  rw [add64_eq s.maxEntry 1 (by simp only [Nat.reducePow] at hov ⊢; omega)]
  omega

example : (⟨30, 7⟩ : TreeHead).treeSize < (⟨0, 40, 0, 0, some 400⟩ : WState).maxEntry + 1 := by decide

/-- **C20 (shrunk log).** If a log now signs a tree that is smaller than what was already fetched, no job sends any state. -/
theorem C20_shrunk_log_claims_nothing (env : Env) (batch now : Nat) (s : WState) (h : TreeHead) (proof : Option (List Bytes))
    (rs : List Resp) (hb : 0 < batch) (hsize : h.treeSize < 2 ^ 64) (hov : s.maxEntry + batch < 2 ^ 64) (hl : s.lastUpdate ≠ none)
    (hm : s.minEntry ≤ s.maxEntry) (hshrunk : h.treeSize < s.minEntry) (s' : WState) :
    .state s' ∉ runWorker env batch now s (some h) proof rs := by
  simp only [Nat.reducePow] at hsize hov
  obtain ⟨t, ht⟩ := Option.ne_none_iff_exists'.1 hl
  intro hmem
  rcases runWorker_cases env batch now s (some h) proof rs with h0 | ⟨h', e, hs, hr⟩ | ⟨h', r, p, ts, e, hj, hp, hts, hr⟩
  · rw [h0] at hmem; cases hmem
  · cases e
    rw [hr] at hmem
    unfold runSleep at hmem
    rw [if_neg (by unfold sub64; omega)] at hmem
    cases hmem
  · cases e
    rw [hr] at hmem
    have h3 := (chooseTask_job batch now s h r hj).1
    have htask : chooseTask batch now s (some h) = .backfill := by
      have e2 := add64_eq s.maxEntry batch hov
      simp only [chooseTask, ht, show ¬ h.treeSize ≤ 3 by omega, e2, if_false]
      rw [if_neg (by omega), if_pos (by omega)]
    rw [htask] at hj hts hmem
    have hb := jobSubtrees_bounds _ _ _ _ _ hts
    have hlt := jobRange_lt batch s h.treeSize _ r hj (by omega) (by omega)
    cases ts with
    | nil => simp [runSubtrees] at hmem
    | cons u us =>
      have hu := hb u (by simp)
      have hnone : ∀ mn mx, updateState now .backfill s (some (u.first, u.last)) mn mx = none := by
        intro mn mx
        simp only [updateState]
        rw [if_neg (by rw [add64_eq _ _ (by omega)]; omega)]
      unfold runSubtrees at hmem
      split at hmem
      · exact state_not_mem_leafEvents _ _ _ _ hmem
      · split at hmem
        · rw [hnone] at hmem
          exact state_not_mem_leafEvents _ _ _ _ hmem
        · exact state_not_mem_leafEvents _ _ _ _ hmem

example : ∃ s : WState, s.lastUpdate ≠ none ∧ s.minEntry ≤ s.maxEntry ∧ 50 < s.minEntry := ⟨⟨90, 99, 0, 0, some 1⟩, by decide⟩

/-! ### C21 -/

/-- Any behaviour of any number of jobs on one log, one after the other: each starts from the state of a new log or from *some* state sent
earlier (not necessarily the last one), the world answers as it likes within `Good`, and the job is cut off at any point. -/
inductive History (env : Env) (Good : WState → Nat → Nat → Option TreeHead → Option (List Bytes) → List Resp → Prop) :
    List Ev → Prop
  | start : History env Good []
  | job {evs p : List Ev} {s : WState} {batch now : Nat} {sth : Option TreeHead} {proof : Option (List Bytes)} {rs : List Resp} :
      History env Good evs → (s = newLog ∨ .state s ∈ evs) → Good s batch now sth proof rs →
      p <+: runWorker env batch now s sth proof rs → History env Good (evs ++ p)

/-- Sizes fit in 64 bits, and a new log is not first seen with exactly one entry (see `C25_one_entry_fails`). -/
def Sane (s : WState) (sth : Option TreeHead) : Prop :=
  ∀ h, sth = some h → h.treeSize < 2 ^ 64 ∧ (s.lastUpdate = none → h.treeSize ≠ s.maxEntry + 1)

/-- **C21 (one job).** Every entry claimed by a state that a job sends was claimed before or is among the entries that the job processed before
that state. `G` restricts the leaves; `hG` says which leaf sequences pass the Merkle check. -/
theorem C21_job (env : Env) (hH : ∀ x, (env.H x).length = 32) (G : Nat → Bytes → Prop) (E : Nat → Prop) (batch now : Nat)
    (s : WState) (sth : Option TreeHead) (proof : Option (List Bytes)) (rs : List Resp) (hsane : Sane s sth)
    (hmax : s.maxEntry < 2 ^ 64 - 1) (hE : ∀ i, Claims s i → E i)
    (hG : ∀ h r p, sth = some h → jobRange batch s h.treeSize (chooseTask batch now s sth) = some r → proof = some p →
      ∀ bf us, jobSubtrees bf r.1 r.2 p = some us → ∀ t ∈ us, ∀ xs, xs.Sublist (servedInputs rs) →
        xs.length = t.last + 1 - t.first → mth env.H xs = t.root → ∀ k x, xs[k]? = some x → G (t.first + k) x)
    (a b : List Ev) (s' : WState) (hrun : runWorker env batch now s sth proof rs = a ++ .state s' :: b) :
    s'.lastUpdate = some now ∧ s'.maxEntry < 2 ^ 64 - 1 ∧
      ∀ i, s'.minEntry ≤ i → i ≤ s'.maxEntry → E i ∨ Processed G a i := by
  have claims_of : s'.lastUpdate = some now ∧ s'.maxEntry < 18446744073709551615 ∧ (∀ i, Claims s' i → E i ∨ Processed G a i) →
      s'.lastUpdate = some now ∧ s'.maxEntry < 2 ^ 64 - 1 ∧
      ∀ i, s'.minEntry ≤ i → i ≤ s'.maxEntry → E i ∨ Processed G a i := by
    rintro ⟨h1, h2, h3⟩
    exact ⟨h1, h2, fun i h4 h5 => h3 i ⟨by rw [h1]; simp, h4, h5⟩⟩
  apply claims_of
  simp only [Nat.reducePow, Nat.reduceSub] at hmax
  rcases runWorker_cases env batch now s sth proof rs with h0 | ⟨h, e, hs, hr⟩ | ⟨h, r, p, ts, e, hj, hp, hts, hr⟩
  · rw [h0] at hrun; simp at hrun
  · obtain ⟨hsz, hone⟩ := hsane h e
    simp only [Nat.reducePow] at hsz
    rw [hr] at hrun
    unfold runSleep at hrun
    split at hrun
    · rename_i hmx
      unfold sub64 at hmx
      simp only [updateState] at hrun
      have hne : s.lastUpdate ≠ none := fun e => hone e (by omega)
      cases a with
      | cons x xs => simp at hrun
      | nil =>
        simp at hrun
        obtain ⟨hst, _⟩ := hrun
        subst hst
        exact ⟨rfl, hmax, fun i hi => Or.inl (hE i ⟨hne, hi.2.1, hi.2.2⟩)⟩
    · simp at hrun
  · obtain ⟨hsz, _⟩ := hsane h e
    simp only [Nat.reducePow] at hsz
    subst e
    have hc := chooseTask_job batch now s h r hj
    have hlt := jobRange_lt batch s h.treeSize _ r hj (by omega) hsz
    have hb := jobSubtrees_bounds _ _ _ _ _ hts
    rw [hr] at hrun
    exact runSubtrees_claims env hH now _ G ts E s rs a b s' hmax hE hc.2
      (fun t ht => ⟨(hb t ht).2.1, by have := hb t ht; omega⟩)
      (fun t ht xs hx hl hm => hG h r p rfl hj hp _ ts hts t ht xs hx hl hm) hrun

/-- The same over a history of jobs. -/
theorem history_claims (env : Env) (hH : ∀ x, (env.H x).length = 32) (G : Nat → Bytes → Prop)
    (Good : WState → Nat → Nat → Option TreeHead → Option (List Bytes) → List Resp → Prop)
    (hsane : ∀ s batch now sth proof rs, Good s batch now sth proof rs → Sane s sth)
    (hG : ∀ s batch now sth proof rs, Good s batch now sth proof rs → ∀ h r p, sth = some h →
      jobRange batch s h.treeSize (chooseTask batch now s sth) = some r → proof = some p →
      ∀ bf us, jobSubtrees bf r.1 r.2 p = some us → ∀ t ∈ us, ∀ xs, xs.Sublist (servedInputs rs) →
        xs.length = t.last + 1 - t.first → mth env.H xs = t.root → ∀ k x, xs[k]? = some x → G (t.first + k) x)
    (evs : List Ev) (hist : History env Good evs) : ∀ a b s, evs = a ++ .state s :: b →
      s.lastUpdate ≠ none ∧ s.maxEntry < 2 ^ 64 - 1 ∧ ∀ i, s.minEntry ≤ i → i ≤ s.maxEntry → Processed G a i := by
  induction hist with
  | start => intro a b s h; simp at h
  | @job evs p s0 batch now sth proof rs hist hs0 hgood hp ih =>
    intro a b s h
    rcases split_append h with ⟨c, hc⟩ | ⟨a', ha, hpre⟩
    · exact ih a c s hc
    · obtain ⟨q, hq⟩ := hp
      rw [hpre] at hq
      have hstart : s0.maxEntry < 2 ^ 64 - 1 ∧ ∀ i, Claims s0 i → Processed G evs i := by
        rcases hs0 with rfl | hm
        · exact ⟨by decide, fun i hi => absurd rfl hi.1⟩
        · obtain ⟨x, y, hxy⟩ := List.append_of_mem hm
          obtain ⟨_, h2, h3⟩ := ih x y s0 hxy
          refine ⟨h2, fun i hi => ?_⟩
          rw [hxy]
          exact processed_append_left (h3 i hi.2.1 hi.2.2)
      obtain ⟨h1, h2, h3⟩ := C21_job env hH G (fun i => Processed G evs i) batch now s0 sth proof
        rs (hsane _ _ _ _ _ _ hgood) hstart.1 hstart.2 (hG _ _ _ _ _ _ hgood) a' (b ++ q) s (by simpa using hq.symm)
      refine ⟨by rw [h1]; simp, h2, fun i hi1 hi2 => ?_⟩
      rw [ha]
      rcases h3 i hi1 hi2 with h4 | h4
      · exact processed_append_left h4
      · exact processed_append_right h4

/-- **C21.** Whatever the servers answer, however jobs are cut off, and from whichever earlier state they restart: when a state claiming `[min, max]`
is sent, every entry number in that range has been handed over or deliberately skipped before. -/
theorem C21_claimed_was_processed (env : Env) (hH : ∀ x, (env.H x).length = 32) (evs : List Ev)
    (hist : History env (fun s _ _ sth _ _ => Sane s sth) evs) (a b : List Ev) (s : WState) (he : evs = a ++ .state s :: b) :
    ∀ i, s.minEntry ≤ i → i ≤ s.maxEntry → ∃ input ts item, Ev.entry i input ts item ∈ a := by
  intro i h1 h2
  obtain ⟨x, y, z, m, _⟩ := (history_claims env hH (fun _ _ => True) _ (fun _ _ _ _ _ _ h => h) (by intros; trivial) evs hist a b s
    he).2.2 i h1 h2
  exact ⟨x, y, z, m⟩

/-- The log answers with true consistency proofs for its entries `d`, and its answers contain no second sequence of leaves with the tree hash of
a range of `d`. By `C16_two_accepted_collide` and `mth_collision`, the second part can only fail if the hash function collides on the
strings actually hashed. -/
def TrueProofs (H : Bytes → Bytes) (d : List Bytes) (s : WState) (batch now : Nat) (sth : Option TreeHead)
    (proof : Option (List Bytes)) (rs : List Resp) : Prop :=
  (∀ h r p, sth = some h → jobRange batch s h.treeSize (chooseTask batch now s sth) = some r → proof = some p →
    r.2 < d.length ∧ p = honestProof H d (proofOldSize r.1) (r.2 + 1)) ∧
  ∀ (u : Range) (xs : List Bytes), u.1 ≤ u.2 → u.2 < d.length → xs.Sublist (servedInputs rs) → xs.length = u.2 + 1 - u.1 →
    mth H xs = mth H (slice d u) → xs = slice d u

/-- **C21 (contents).** If in addition the consistency proofs are true, the processed entries are the entries of the log: every claimed `i` was
processed with leaf `d[i]`. -/
theorem C21_claimed_is_log_content (env : Env) (hH : ∀ x, (env.H x).length = 32) (d : List Bytes) (evs : List Ev)
    (hist : History env (fun s batch now sth proof rs => Sane s sth ∧ TrueProofs env.H d s batch now sth proof rs) evs)
    (a b : List Ev) (s : WState) (he : evs = a ++ .state s :: b) :
    ∀ i, s.minEntry ≤ i → i ≤ s.maxEntry → ∃ input ts item, Ev.entry i input ts item ∈ a ∧ d[i]? = some input := by
  refine (history_claims env hH (fun i x => d[i]? = some x) _ (fun _ _ _ _ _ _ h => h.1) ?_ evs hist a b s he).2.2
  intro s batch now sth proof rs hgood h r p hsth hr hp bf us hus t ht xs hsub hlen hroot k x hx
  obtain ⟨hd, hpe⟩ := hgood.2.1 h r p hsth hr hp
  have hrange := jobSubtrees_range bf r.1 r.2 p us hus
  have hb := jobSubtrees_bounds bf r.1 r.2 p us hus t ht
  have hroot2 := C18_job_roots bf r.1 r.2 p us hrange hus t ht
  rw [hpe] at hroot2
  have hur := zip_honest env.H d (proofNodes (proofOldSize r.1) (r.2 + 1)) (t.first, t.last) t.root hroot2
  have hxs := hgood.2.2 (t.first, t.last) xs hb.2.1 (by dsimp only; omega) hsub hlen (by rw [hroot, hur])
  rw [hxs] at hx
  simp only [slice] at hx
  rw [List.getElem?_take] at hx
  split at hx
  · rwa [List.getElem?_drop] at hx
  · cases hx

/-! A concrete log of five equal entries, for the examples. -/

def toyCert : Cert := { serial := [1], notAfter := 100, key := [9], preIssuer := false }

def toyEnv : Env :=
  { H := toyHash, parse := fun _ _ => some { timestamp := 50, precert := false, cert := some toyCert, chain := [some toyCert] }
    keepExpired := false }

def toyLog : List Bytes := List.replicate 5 [7]

def toyLeaf : Bytes := leafHash toyHash [7]

def toyProof : List Bytes := [toyLeaf, toyLeaf, pairHash toyHash toyLeaf toyLeaf, toyLeaf]

def toyEntries (n : Nat) : Resp := .entries (List.replicate n ⟨[7], [], 10⟩)

def toyAnswers : List Resp := [.tooMany, toyEntries 1, toyEntries 1, toyEntries 1, toyEntries 1, toyEntries 1]

def toyRun : List Ev := runWorker toyEnv 10 1000 newLog (some ⟨5, 60⟩) (some toyProof) toyAnswers

/-- The toy job sends four states, the last one claiming the whole log. -/
theorem toyRun_claims : .state ⟨0, 4, 50, 50, some 1000⟩ ∈ toyRun ∧ toyRun.length = 9 := by decide +kernel

theorem sane_new (n t : Nat) (h : n < 2 ^ 64) (h1 : n ≠ 1) : Sane newLog (some ⟨n, t⟩) := by
  intro h' e
  cases e
  exact ⟨h, fun _ => h1⟩

theorem toyRun_history : History toyEnv (fun s _ _ sth _ _ => Sane s sth) toyRun :=
  History.job (p := toyRun) History.start (Or.inl rfl) (sane_new 5 60 (by decide) (by decide)) (List.prefix_refl _)

example : ∃ evs s, History toyEnv (fun s _ _ sth _ _ => Sane s sth) evs ∧ .state s ∈ evs ∧ s.minEntry = 0 ∧ s.maxEntry = 4 :=
  ⟨toyRun, _, toyRun_history, toyRun_claims.1, rfl, rfl⟩

theorem toy_trueProofs : TrueProofs toyHash toyLog newLog 10 1000 (some ⟨5, 60⟩) (some toyProof) toyAnswers := by
  refine ⟨?_, ?_⟩
  · intro h r p e hr hp
    cases e; cases hp
    have : jobRange 10 newLog 5 (chooseTask 10 1000 newLog (some ⟨5, 60⟩)) = some (0, 4) := by decide
    rw [this] at hr
    cases hr
    refine ⟨by decide, ?_⟩
    have hn : proofNodes 3 5 = [(2, 2), (3, 3), (0, 1), (4, 4)] := by
      simp [proofNodes, subproof, show split 5 = 4 by decide, show split 4 = 2 by decide, show split 2 = 1 by decide]
    have h1 : mth toyHash [[7]] = toyLeaf := mth_singleton _ _
    have h2 : mth toyHash [[7], [7]] = pairHash toyHash toyLeaf toyLeaf := by
      rw [mth_split _ _ (by decide)]
      rw [show split ([[7], [7]] : List Bytes).length = 1 by decide]
      simp only [List.take, List.drop, h1]
    show toyProof = honestProof toyHash toyLog 3 5
    rw [honestProof, hn]
    simp only [List.map, slice, toyLog, List.replicate, List.drop, List.take, h1, h2, toyProof, Nat.reduceAdd, Nat.reduceSub]
  · intro u xs h1 h2 hsub hlen _
    have hs : servedInputs toyAnswers = toyLog := by decide
    rw [hs] at hsub
    have hall : ∀ x ∈ xs, x = [7] := fun x hx => List.eq_of_mem_replicate (hsub.subset hx)
    rw [List.eq_replicate_of_mem hall, hlen]
    simp only [slice, toyLog, List.drop_replicate, List.take_replicate] at h2 ⊢
    rw [List.length_replicate] at h2
    congr 1
    omega

example : ∃ evs s, History toyEnv (fun s b n sth p rs => Sane s sth ∧ TrueProofs toyHash toyLog s b n sth p rs) evs ∧
    .state s ∈ evs ∧ s.minEntry = 0 ∧ s.maxEntry = 4 :=
  ⟨toyRun, _, History.job (p := toyRun) History.start (Or.inl rfl) ⟨sane_new 5 60 (by decide) (by decide), toy_trueProofs⟩
    (List.prefix_refl _), toyRun_claims.1, rfl, rfl⟩

/-! ### C25 -/

/-- **C25 (RFC 6962 logs).** A state claiming a range that starts at 0 is only sent after entry 0 was processed, provided the log was not first
contacted when it had exactly one entry. -/
theorem C25_entry_zero_partial (env : Env) (hH : ∀ x, (env.H x).length = 32) (evs : List Ev)
    (hist : History env (fun s _ _ sth _ _ => Sane s sth) evs) (a b : List Ev) (s : WState) (he : evs = a ++ .state s :: b)
    (h0 : s.minEntry = 0) : ∃ input ts item, Ev.entry 0 input ts item ∈ a :=
  C21_claimed_was_processed env hH evs hist a b s he 0 (by omega) (by omega)

example : ∃ a b s, toyRun = a ++ .state s :: b ∧ s.minEntry = 0 :=
  have h := List.append_of_mem toyRun_claims.1
  ⟨_, _, _, h.choose_spec.choose_spec, rfl⟩

/-- **C25 fails (RFC 6962 logs).** A log first contacted when it has exactly one entry is recorded as having entries `[0, 0]` although nothing was
downloaded. From then on every job starts at entry 1. -/
theorem C25_one_entry_fails (env : Env) (batch now t : Nat) (proof : Option (List Bytes)) (rs : List Resp) :
    runWorker env batch now newLog (some ⟨1, t⟩) proof rs = [.state ⟨0, 0, 0, t, some now⟩] := by
  simp [runWorker, chooseTask, jobRange, rawRange, runSleep, newLog, sub64, updateState]

/-- After that, the next job of a grown log starts at entry 1 and there is no backfill. -/
theorem C25_one_entry_never_repaired (batch now now' t : Nat) (h : TreeHead) (hn : h.treeSize < 2 ^ 64) (r : Range)
    (hr : jobRange batch ⟨0, 0, 0, t, some now⟩ h.treeSize (chooseTask batch now' ⟨0, 0, 0, t, some now⟩ (some h)) = some r) :
    r.1 = 1 := by
  have h3 := (chooseTask_job _ _ _ _ _ hr).1
  have : chooseTask batch now' ⟨0, 0, 0, t, some now⟩ (some h) = .update ∨
      chooseTask batch now' ⟨0, 0, 0, t, some now⟩ (some h) = .sleep := by
    simp only [chooseTask]
    rw [if_neg (by omega)]
    split
    · exact Or.inl rfl
    · rw [if_neg (by omega)]
      split
      · exact Or.inr rfl
      · split
        · exact Or.inl rfl
        · exact Or.inr rfl
  rcases this with e | e
  · rw [e] at hr
    simp only [jobRange, rawRange, Option.some.injEq] at hr
    rw [← hr]
    rfl
  · rw [e] at hr; simp [jobRange, rawRange] at hr

example : jobRange 2 ⟨0, 0, 0, 9, some 5⟩ 8 (chooseTask 2 6 ⟨0, 0, 0, 9, some 5⟩ (some ⟨8, 0⟩)) = some (1, 2) := by decide

/-- Any behaviour of jobs on one tiled log. -/
inductive TiledHistory (keep : Bool) : List Ev → Prop
  | start : TiledHistory keep []
  | job {evs p : List Ev} {s : WState} {batch now : Nat} {sth : Option TreeHead} {es1 es2 : List TEntry} {e1 e2 : Bool} :
      TiledHistory keep evs → (s = newLog ∨ .state s ∈ evs) → p <+: runTiled keep batch now s sth es1 es2 e1 e2 →
      TiledHistory keep (evs ++ p)

/-- **C25 fails (tiled logs).** No job of a tiled log ever downloads entry 0, yet every state it sends claims a range starting at 0. -/
theorem C25_tiled_fails (keep : Bool) (evs : List Ev) (hist : TiledHistory keep evs) :
    (∀ input ts item, Ev.entry 0 input ts item ∉ evs) ∧ ∀ s, .state s ∈ evs → s.minEntry = 0 := by
  induction hist with
  | start => simp
  | @job evs p s batch now sth es1 es2 e1 e2 hist hs hp ih =>
    have h0 := runTiled_zero keep batch now s sth es1 es2 e1 e2
    refine ⟨?_, ?_⟩
    · intro input ts item hm
      rcases List.mem_append.1 hm with hm | hm
      · exact ih.1 _ _ _ hm
      · exact h0.1 _ _ _ (hp.subset hm)
    · intro s' hm
      rcases List.mem_append.1 hm with hm | hm
      · exact ih.2 _ hm
      · exact h0.2 _ (hp.subset hm)

/-- **C21 (tiled logs, partial).** What does hold for tiled logs: every claimed entry except entry 0 was processed before the state was sent. -/
theorem C21_tiled_partial (keep : Bool) (evs : List Ev) (hist : TiledHistory keep evs) : ∀ a b s, evs = a ++ .state s :: b →
    ∀ i, 1 ≤ i → i ≤ s.maxEntry → ∃ input ts item, Ev.entry i input ts item ∈ a := by
  induction hist with
  | start => intro a b s h; simp at h
  | @job evs p s0 batch now sth es1 es2 e1 e2 hist hs0 hp ih =>
    intro a b s h
    rcases split_append h with ⟨c, hc⟩ | ⟨a', ha, hpre⟩
    · exact ih a c s hc
    · obtain ⟨q, hq⟩ := hp
      rw [hpre] at hq
      have hstart : ∀ i, 1 ≤ i → i ≤ s0.maxEntry → Processed (fun _ _ => True) evs i := by
        intro i h1 h2
        rcases hs0 with rfl | hm
        · simp only [newLog] at h2; omega
        · obtain ⟨x, y, hxy⟩ := List.append_of_mem hm
          obtain ⟨u, v, w, m⟩ := ih x y s0 hxy i h1 h2
          exact ⟨u, v, w, by rw [hxy]; exact List.mem_append_left _ m, trivial⟩
      intro i h1 h2
      have := (runTiled_claims keep batch now s0 sth es1 es2 e1 e2 (fun _ _ => True) (fun i => Processed (fun _ _ => True) evs i)
        (fun _ _ => True) (fun _ _ _ _ _ => trivial) [] hstart (Or.inl trivial) (fun _ _ _ _ => trivial)
        ⟨fun _ _ _ => trivial, fun _ _ _ => trivial⟩ a' (b ++ q) s (by simpa using hq.symm)).1 i h1 h2
      rw [ha]
      rcases this with ⟨u, v, w, m, _⟩ | ⟨u, v, w, m, _⟩
      · exact ⟨u, v, w, List.mem_append_left _ m⟩
      · exact ⟨u, v, w, List.mem_append_right _ m⟩

def toyTEntry : TEntry := { input := [7], timestamp := 50, precert := false, cert := some toyCert, chain := [.cert toyCert], time := 10 }

example : ∃ evs s, TiledHistory false evs ∧ .state s ∈ evs ∧ s.maxEntry = 2 :=
  ⟨runTiled false 10 1000 newLog (some ⟨3, 60⟩) [toyTEntry, toyTEntry] [] false false, ⟨0, 2, 0, 50, some 1000⟩,
    TiledHistory.job (evs := []) (p := runTiled false 10 1000 newLog (some ⟨3, 60⟩) [toyTEntry, toyTEntry] [] false false)
      TiledHistory.start (Or.inl rfl) (List.prefix_refl _), by decide, rfl⟩

/-! ### C26 -/

/-- **C26.** Over every history: each claimed entry was processed with a timestamp between the recorded minimum and maximum (log timestamps
being positive), and the recorded maximum is the timestamp of a processed entry up to `MaxEntry`, or of a tree head that was seen (`T`) and whose entries are all
up to `MaxEntry`. -/
theorem C26_timestamps_bracket (env : Env) (hH : ∀ x, (env.H x).length = 32)
    (hpos : ∀ x y e, env.parse x y = some e → 0 < e.timestamp) (T : TreeHead → Prop) (evs : List Ev)
    (hist : History env (fun s _ _ sth _ _ => Sane s sth ∧ ∀ h, sth = some h → T h) evs) :
    ∀ a b s, evs = a ++ .state s :: b →
      (∀ i, s.minEntry ≤ i → i ≤ s.maxEntry → ∃ input ts item, Ev.entry i input ts item ∈ a ∧ s.minTs ≤ ts ∧ ts ≤ s.maxTs) ∧
      ((∃ h, T h ∧ h.timestamp = s.maxTs ∧ h.treeSize ≤ s.maxEntry + 1) ∨
        ∃ i input item, i ≤ s.maxEntry ∧ Ev.entry i input s.maxTs item ∈ a) := by
  have strong : ∀ a b s, evs = a ++ .state s :: b → s.maxEntry < 18446744073709551615 ∧ s.lastUpdate ≠ none ∧ TsOk True (fun _ _ => True) a T s := by
    induction hist with
    | start => intro a b s h; simp at h
    | @job evs p s0 batch now sth proof rs hist hs0 hgood hp ih =>
      intro a b s h
      rcases split_append h with ⟨c, hc⟩ | ⟨a', ha, hpre⟩
      · exact ih a c s hc
      · obtain ⟨q, hq⟩ := hp
        rw [hpre] at hq
        have hstart : s0.maxEntry < 18446744073709551615 ∧ TsOk True (fun _ _ => True) evs T s0 := by
          rcases hs0 with rfl | hm
          · exact ⟨by decide, fun h => absurd rfl h⟩
          · obtain ⟨x, y, hxy⟩ := List.append_of_mem hm
            obtain ⟨h2, _, h3⟩ := ih x y s0 hxy
            refine ⟨h2, ?_⟩
            rw [hxy]
            exact tsOk_append h3
        rw [ha]
        exact runWorker_ts True (fun _ _ => True) env hH (fun _ => hpos) T batch now s0 sth proof rs evs hstart.1 hstart.2 (fun h e => (hgood.1 h e))
          hgood.2 (by intros; trivial) a' (b ++ q) s (by simpa using hq.symm)
  intro a b s h
  obtain ⟨_, h2, h3⟩ := strong a b s h
  refine ⟨(h3 h2).2.1 trivial, ?_⟩
  rcases (h3 h2).2.2 with h | ⟨i, x, y, l, _, m⟩
  · exact Or.inl h
  · exact Or.inr ⟨i, x, y, l, m⟩

/-- **C26 fails (minimum).** One idle run of a fully fetched log sets the recorded minimum timestamp to 0, whatever was recorded before: the entry
number `MinEntry` is passed as a timestamp. -/
theorem C26_minimum_fails (env : Env) (batch now t n mn mx ts : Nat) (proof : Option (List Bytes)) (rs : List Resp)
    (hn : 3 < n) (hn2 : n < 2 ^ 64) (hb : batch < 2 ^ 64 - n) (hb0 : 0 < batch) :
    runWorker env batch now ⟨0, n - 1, mn, mx, some t⟩ (some ⟨n, ts⟩) proof rs = [.state ⟨0, n - 1, 0, max mx ts, some now⟩] := by
  simp only [Nat.reducePow] at hn2 hb
  have e1 := sub64_eq n 1 (by omega) hn2
  have e2 := add64_eq (n - 1) batch (by omega)
  have : chooseTask batch now ⟨0, n - 1, mn, mx, some t⟩ (some ⟨n, ts⟩) = .sleep := by
    simp only [chooseTask, e1, e2]
    rw [if_neg (by omega), if_neg (by omega), if_neg (by omega)]
    split
    · rfl
    · rw [if_neg (by omega)]
  simp only [runWorker, this, jobRange, rawRange, runSleep, e1, updateState, if_true]
  simp

example : (3 : Nat) < 5 ∧ 5 < 2 ^ 64 ∧ 10 < 2 ^ 64 - 5 := by decide

/-! ### C27 -/

/-- **C27 (stored).** An entry is handed to the database iff its certificate parses, it is not expired (or expired ones are kept) and it has an
issuer; it is stored under the key of the certificate that issues it, with its own serial, expiry and timestamp. -/
theorem C27_stored_iff (keep : Bool) (now : Nat) (e : RawEntry) (i : Item) :
    storeLogEntry keep now e = .store i ↔ ∃ c issuer, e.cert = some c ∧ (now ≤ c.notAfter ∨ keep = true) ∧
      IssuedBy e.chain issuer ∧ i = ⟨c.serial, c.notAfter, issuer.key, e.timestamp⟩ := by
  unfold storeLogEntry IssuedBy mkItem
  rcases e with ⟨ts, pre, cert, chain⟩
  cases cert with
  | none => simp
  | some c =>
    dsimp only
    by_cases hx : c.notAfter < now ∧ keep = false
    · rw [if_pos hx]
      constructor
      · intro h; cases h
      · rintro ⟨c', issuer, hc, h1, _⟩
        cases hc
        obtain ⟨h2, h3⟩ := hx
        rcases h1 with h1 | h1
        · omega
        · rw [h3] at h1; cases h1
    · rw [if_neg hx]
      have hok : now ≤ c.notAfter ∨ keep = true := by
        cases keep <;> simp at hx ⊢
        omega
      rcases chain with _ | ⟨_ | p, rest⟩
      · simp
      · simp
      · cases hp : p.preIssuer with
        | true =>
          rcases rest with _ | ⟨_ | q, rest⟩
          · simp [hp]
          · simp [hp]
          · simp only [hp, if_true, Outcome.store.injEq]
            constructor
            · intro h; exact ⟨c, q, rfl, hok, Or.inr ⟨p, rest, rfl, hp⟩, h.symm⟩
            · rintro ⟨c', i', hc, _, hi, he⟩
              cases hc
              rcases hi with ⟨r, h1, h2⟩ | ⟨p', r, h1, h2⟩
              · cases h1; rw [hp] at h2; cases h2
              · cases h1; exact he.symm
        | false =>
          simp only [hp, Bool.false_eq_true, if_false, Outcome.store.injEq]
          constructor
          · intro h; exact ⟨c, p, rfl, hok, Or.inl ⟨rest, rfl, hp⟩, h.symm⟩
          · rintro ⟨c', i', hc, _, hi, he⟩
            cases hc
            rcases hi with ⟨r, h1, h2⟩ | ⟨p', r, h1, h2⟩
            · cases h1; exact he.symm
            · cases h1; rw [hp] at h2; cases h2

/-- **C27 (skipped).** An entry is skipped, and the job goes on, iff it parses and either is expired (and expired ones are not kept) or has
no chain (a root certificate). -/
theorem C27_skipped_iff (keep : Bool) (now : Nat) (e : RawEntry) :
    storeLogEntry keep now e = .skip ↔ ∃ c, e.cert = some c ∧ ((c.notAfter < now ∧ keep = false) ∨ e.chain = []) := by
  unfold storeLogEntry
  rcases e with ⟨ts, pre, cert, chain⟩
  cases cert with
  | none => simp
  | some c =>
    dsimp only
    by_cases hx : c.notAfter < now ∧ keep = false
    · rw [if_pos hx]; simp [hx]
    · rw [if_neg hx]
      rcases chain with _ | ⟨_ | p, rest⟩
      · simp
      · simp [hx]
      · cases hp : p.preIssuer with
        | true => rcases rest with _ | ⟨_ | q, rest⟩ <;> simp [hx, hp]
        | false => simp [hx, hp]

/-- **C27 (tiled logs, stored).** -/
theorem C27_tiled_stored_iff (keep : Bool) (e : TEntry) (i : Item) :
    storeTiledEntry keep e = .store i ↔ ∃ c issuer, e.cert = some c ∧ (e.time ≤ c.notAfter ∨ keep = true) ∧
      TiledIssuedBy e.chain issuer ∧ i = ⟨c.serial, c.notAfter, issuer.key, e.timestamp⟩ := by
  unfold storeTiledEntry TiledIssuedBy mkItem
  rcases e with ⟨inp, ts, pre, cert, chain, time⟩
  cases cert with
  | none => simp
  | some c =>
    dsimp only
    by_cases hx : c.notAfter < time ∧ keep = false
    · rw [if_pos hx]
      constructor
      · intro h; cases h
      · rintro ⟨c', issuer, hc, h1, _⟩
        cases hc
        obtain ⟨h2, h3⟩ := hx
        rcases h1 with h1 | h1
        · omega
        · rw [h3] at h1; cases h1
    · rw [if_neg hx]
      have hok : time ≤ c.notAfter ∨ keep = true := by
        cases keep <;> simp at hx ⊢
        omega
      rcases chain with _ | ⟨p | _ | _, rest⟩
      · simp
      · cases hp : p.preIssuer with
        | true =>
          rcases rest with _ | ⟨q | _ | _, rest⟩
          · simp [hp]
          · simp only [hp, if_true, Outcome.store.injEq]
            constructor
            · intro h; exact ⟨c, q, rfl, hok, Or.inr ⟨p, rest, rfl, hp⟩, h.symm⟩
            · rintro ⟨c', i', hc, _, hi, he⟩
              cases hc
              rcases hi with ⟨r, h1, h2⟩ | ⟨p', r, h1, h2⟩
              · cases h1; rw [hp] at h2; cases h2
              · cases h1; exact he.symm
          · simp [hp]
          · simp [hp]
        | false =>
          simp only [hp, Bool.false_eq_true, if_false, Outcome.store.injEq]
          constructor
          · intro h; exact ⟨c, p, rfl, hok, Or.inl ⟨rest, rfl, hp⟩, h.symm⟩
          · rintro ⟨c', i', hc, _, hi, he⟩
            cases hc
            rcases hi with ⟨r, h1, h2⟩ | ⟨p', r, h1, h2⟩
            · cases h1; exact he.symm
            · cases h1; rw [hp] at h2; cases h2
      · simp
      · simp

/-- **C27 (tiled logs, skipped).** -/
theorem C27_tiled_skipped_iff (keep : Bool) (e : TEntry) :
    storeTiledEntry keep e = .skip ↔ ∃ c, e.cert = some c ∧ ((c.notAfter < e.time ∧ keep = false) ∨ e.chain = []) := by
  unfold storeTiledEntry
  rcases e with ⟨inp, ts, pre, cert, chain, time⟩
  cases cert with
  | none => simp
  | some c =>
    dsimp only
    by_cases hx : c.notAfter < time ∧ keep = false
    · rw [if_pos hx]; simp [hx]
    · rw [if_neg hx]
      rcases chain with _ | ⟨p | _ | _, rest⟩
      · simp
      · cases hp : p.preIssuer with
        | true => rcases rest with _ | ⟨q | _ | _, rest⟩ <;> simp [hx, hp]
        | false => simp [hx, hp]
      · simp [hx]
      · simp [hx]

/-- **C27 (processed entries).** Over every history: an entry counted as processed (and by C21 every claimed entry was) parses, and was either sent under
the issuing certificate's key, or is expired or a root certificate. -/
theorem C27_processed_entries (env : Env) (evs : List Ev)
    (hist : History env (fun s _ _ sth _ _ => Sane s sth) evs) (i : Nat) (input : Bytes) (ts : Nat) (item : Option Item)
    (hm : Ev.entry i input ts item ∈ evs) :
    ∃ extra time e c, env.parse input extra = some e ∧ e.timestamp = ts ∧ e.cert = some c ∧
      (item = none → (c.notAfter < time ∧ env.keepExpired = false) ∨ e.chain = []) ∧
      (∀ it, item = some it → ∃ issuer, IssuedBy e.chain issuer ∧ it = ⟨c.serial, c.notAfter, issuer.key, ts⟩) := by
  have key : ∃ l, Ok env l ∧ ∃ pos, leafEvent env pos l = .entry i input ts item := by
    induction hist with
    | start => cases hm
    | @job evs p s0 batch now sth proof rs hist hs0 hgood hp ih =>
      rcases List.mem_append.1 hm with h | h
      · exact ih h
      · exact runWorker_entry env batch now s0 sth proof rs _ (hp.subset h) (by intro s; simp)
  obtain ⟨l, ⟨e, he, hf, hr⟩, pos, hl⟩ := key
  unfold leafEvent at hl
  rw [he] at hl
  simp only [Ev.entry.injEq] at hl
  obtain ⟨rfl, rfl, rfl, rfl⟩ := hl
  cases hs : storeLogEntry env.keepExpired l.time e with
  | fatal => exact absurd hs hf
  | retry => exact absurd hs hr
  | skip =>
    obtain ⟨c, hc, hw⟩ := (C27_skipped_iff _ _ _).1 hs
    exact ⟨l.extra, l.time, e, c, he, rfl, hc, fun _ => hw, by intro it h; simp [outItem] at h⟩
  | store it =>
    obtain ⟨c, iss, hc, _, hi, hit⟩ := (C27_stored_iff _ _ _ _).1 hs
    refine ⟨l.extra, l.time, e, c, he, rfl, hc, by intro h; simp [outItem] at h, ?_⟩
    intro it' h
    simp only [outItem, Option.some.injEq] at h
    subst h
    exact ⟨iss, hi, hit⟩

example : storeLogEntry false 10 ⟨50, true, some toyCert, [some ⟨[2], 90, [3], true⟩, some ⟨[4], 95, [5], false⟩]⟩ =
    .store ⟨[1], 100, [5], 50⟩ := by decide

/-! ### each theorem applied -/

theorem toyHash_length : ∀ x, (toyEnv.H x).length = 32 := length_toyHash

theorem toyRun_split : ∃ a b, toyRun = a ++ .state ⟨0, 4, 50, 50, some 1000⟩ :: b := List.append_of_mem toyRun_claims.1

/-- The job of `toyRun`, with nothing required of the entries. -/
example : ∃ (a : List Ev) (s : WState), ∀ i, s.minEntry ≤ i → i ≤ s.maxEntry → False ∨ Processed (fun _ _ => True) a i := by
  obtain ⟨a, b, h⟩ := toyRun_split
  exact ⟨a, _, (C21_job toyEnv toyHash_length (fun _ _ => True) (fun _ => False) 10 1000 newLog (some ⟨5, 60⟩) (some toyProof) toyAnswers (sane_new 5 60 (by decide) (by decide)) (by decide)
    (fun i hi => absurd hi.1 (by decide)) (fun _ _ _ _ _ _ _ _ _ _ _ _ _ _ _ _ _ _ => trivial) a b _ h).2.2⟩

example : ∃ (a : List Ev) (s : WState), (∀ i, s.minEntry ≤ i → i ≤ s.maxEntry → ∃ input ts item, Ev.entry i input ts item ∈ a) ∧ s.maxEntry = 4 := by
  obtain ⟨a, b, h⟩ := toyRun_split
  exact ⟨a, _, C21_claimed_was_processed toyEnv toyHash_length toyRun toyRun_history a b _ h, rfl⟩

example := C25_tiled_fails false _ (TiledHistory.job (evs := []) (p := runTiled false 10 1000 newLog (some ⟨3, 60⟩) [toyTEntry, toyTEntry] [] false false) TiledHistory.start (Or.inl rfl) (List.prefix_refl _))

example := C26_timestamps_bracket toyEnv toyHash_length (fun x y e h => by cases h; decide) (fun _ => True) toyRun
  (History.job (p := toyRun) History.start (Or.inl rfl) ⟨sane_new 5 60 (by decide) (by decide), fun _ _ => trivial⟩ (List.prefix_refl _))

end Verif.Props
