import Verif.Lemmas.Progress
/-!
Property C29: fetching makes progress until the whole log is covered.
-/
namespace Verif.Props
open Verif.Spec

/-- The consistency proof an honest log of content `d` returns for the job a worker chooses. -/
def proofFor (env : Env) (d : List Bytes) (batch now t : Nat) (s : WState) : List Bytes :=
  match jobRange batch s d.length (chooseTask batch now s (some ⟨d.length, t⟩)) with
  | none => []
  | some r => honestProof env.H d (proofOldSize r.1) (r.2 + 1)

/-- The answers `rs` are what an honest log (content `d`, entries `srv`) gives to the requests of the job. -/
def HonestAnswers (env : Env) (d : List Bytes) (srv : Nat → Leaf) (batch now t : Nat) (s : WState) (rs : List Resp) : Prop :=
  ∀ r us, jobRange batch s d.length (chooseTask batch now s (some ⟨d.length, t⟩)) = some r →
    jobSubtrees (decide (chooseTask batch now s (some ⟨d.length, t⟩) = .backfill)) r.1 r.2 (proofFor env d batch now t s) = some us →
    AnswersAll srv us rs

/-- A state that makes progress: brand new, or a range inside the log that does not begin at 1, 2 or 3. -/
def Good (n : Nat) (s : WState) : Prop :=
  s.lastUpdate = none ∨ s.lastUpdate ≠ none ∧ s.minEntry ≤ s.maxEntry ∧ s.maxEntry < n ∧ ¬(1 ≤ s.minEntry ∧ s.minEntry ≤ 3)

/-- The log serves the content `d` with usable entries. -/
structure HonestLog (env : Env) (d : List Bytes) (srv : Nat → Leaf) : Prop where
  hash : ∀ x, (env.H x).length = 32
  content : ∀ k x, d[k]? = some x → (srv k).input = x
  usable : ∀ k, k < d.length → Ok env (srv k)

/-- The batch size and log size for which progress is proved: at least 4 entries per job, and a first job that does not begin at entry 1, 2 or 3. -/
structure Sizes (n batch : Nat) : Prop where
  log : 3 < n
  perJob : 4 ≤ batch
  fits : n + batch < 18446744073709551616
  start : n ≤ batch ∨ batch + 4 ≤ n

/-- One job against an honest log, at least ten minutes after the last one, extends the claimed range, or the whole log was and
stays claimed. -/
theorem C29_job_extends_partial (env : Env) (d : List Bytes) (srv : Nat → Leaf) (hl : HonestLog env d srv) (batch now t : Nat)
    (hz : Sizes d.length batch) (s : WState) (hs : Good d.length s) (hnow : ∀ u, s.lastUpdate = some u → u + 600 ≤ now) (rs : List Resp)
    (hr : HonestAnswers env d srv batch now t s rs) :
    ∃ a s', runWorker env batch now s (some ⟨d.length, t⟩) (some (proofFor env d batch now t s)) rs = a ++ [.state s'] ∧
      Good d.length s' ∧ s'.lastUpdate = some now ∧
      (s.lastUpdate ≠ none → s'.minEntry ≤ s.minEntry ∧ s.maxEntry ≤ s'.maxEntry) ∧
      (remaining d.length s' < remaining d.length s ∨ remaining d.length s' = 0 ∧ remaining d.length s = 0) := by
  obtain ⟨hn, hb, hfit, hst⟩ := hz
  have key : ∀ (task : Task) (r : Range), chooseTask batch now s (some ⟨d.length, t⟩) = task → jobRange batch s d.length task = some r →
      ((0 < r.1 ∧ r.1 ≤ r.2) ∨ (r.1 = 0 ∧ 3 ≤ r.2)) → r.2 < d.length →
      ∃ us, jobSubtrees (decide (task = .backfill)) r.1 r.2 (honestProof env.H d (proofOldSize r.1) (r.2 + 1)) = some us ∧ us ≠ [] ∧
        (∀ u ∈ us, ∃ v, (newVerifier u).consumeAll env.H (slice d (u.first, u.last)) = some v ∧ v.checkClaim = true) ∧ AnswersAll srv us rs ∧
        runWorker env batch now s (some ⟨d.length, t⟩) (some (proofFor env d batch now t s)) rs = runSubtrees env now task s us rs := by
    intro task r ht hj hr1 hr2
    obtain ⟨us, h1, h2, h3⟩ := C19_honest_log_accepted env.H hl.hash d (decide (task = .backfill)) r.1 r.2 hr1 hr2
    have hp : proofFor env d batch now t s = honestProof env.H d (proofOldSize r.1) (r.2 + 1) := by
      unfold proofFor; rw [ht, hj]
    refine ⟨us, h1, h2, h3, hr r us (by rw [ht]; exact hj) (by rw [ht, hp]; exact h1), ?_⟩
    unfold runWorker
    simp only [ht, hj, hp, h1]
  have hm1 : sub64 d.length 1 = d.length - 1 := sub64_eq _ _ (by omega) (by omega)
  rcases hs with hnone | ⟨hsome, hle, hmax, hmin⟩
  · -- the first job
    have ht : chooseTask batch now s (some ⟨d.length, t⟩) = .init := by
      unfold chooseTask
      simp only [hnone]
      rw [if_neg (by omega)]
    have hj : jobRange batch s d.length .init = some (d.length - batch, d.length - 1) := by
      simp only [jobRange, rawRange, hm1, Option.some.injEq, Prod.mk.injEq]
      constructor <;> split <;> omega
    obtain ⟨us, h1, h2, h3, h4, h5⟩ := key _ _ ht hj (by dsimp only; omega) (by dsimp only; omega)
    have htile := C18_job_tiles_up (d.length - batch) (d.length - 1) _ us (by omega) h1
    obtain ⟨a, s', e1, e2, e3, e4⟩ := runSubtrees_up env d srv hl.content hl.usable (by omega) now .init (Or.inl rfl) us _ _ s rs h2 htile (by omega) h3 h4
      (Or.inl ⟨rfl, hnone⟩)
    rw [if_pos hnone] at e4
    refine ⟨a, s', h5.trans e1, Or.inr ⟨by rw [e2]; simp, by omega, by omega, by omega⟩, e2, fun h => absurd hnone h, Or.inl ?_⟩
    simp only [remaining, e2, hnone]
    omega
  · obtain ⟨u, hu⟩ : ∃ u, s.lastUpdate = some u := by
      cases h : s.lastUpdate with
      | none => exact absurd h hsome
      | some u => exact ⟨u, rfl⟩
    have hrem : remaining d.length s = (d.length - 1 - s.maxEntry) + s.minEntry := by simp only [remaining, hu]
    have hadd : add64 s.maxEntry batch = s.maxEntry + batch := add64_eq _ _ (by omega)
    have hadd1 : add64 s.maxEntry 1 = s.maxEntry + 1 := add64_eq _ _ (by omega)
    -- an update job
    have upd : chooseTask batch now s (some ⟨d.length, t⟩) = .update → s.maxEntry < d.length - 1 →
        ∃ a s', runWorker env batch now s (some ⟨d.length, t⟩) (some (proofFor env d batch now t s)) rs = a ++ [.state s'] ∧
          Good d.length s' ∧ s'.lastUpdate = some now ∧
          (s.lastUpdate ≠ none → s'.minEntry ≤ s.minEntry ∧ s.maxEntry ≤ s'.maxEntry) ∧
          (remaining d.length s' < remaining d.length s ∨ remaining d.length s' = 0 ∧ remaining d.length s = 0) := by
      intro ht hlt
      have hj : jobRange batch s d.length .update =
          some (s.maxEntry + 1, if s.maxEntry + batch > d.length - 1 then d.length - 1 else s.maxEntry + batch) := by
        simp only [jobRange, rawRange, hm1, hadd, hadd1]
      have hhi : ∃ hi, (if s.maxEntry + batch > d.length - 1 then d.length - 1 else s.maxEntry + batch) = hi ∧ s.maxEntry + 1 ≤ hi ∧ hi < d.length := by
        refine ⟨_, rfl, ?_, ?_⟩ <;> split <;> omega
      obtain ⟨hi, ehi, hh1, hh2⟩ := hhi
      rw [ehi] at hj
      obtain ⟨us, h1, h2, h3, h4, h5⟩ := key _ _ ht hj (by dsimp only; omega) (by dsimp only; omega)
      have htile := C18_job_tiles_up (s.maxEntry + 1) hi _ us (by omega) h1
      obtain ⟨a, s', e1, e2, e3, e4⟩ := runSubtrees_up env d srv hl.content hl.usable (by omega) now .update (Or.inr rfl) us _ _ s rs h2 htile hh2 h3 h4
        (Or.inr ⟨hsome, rfl⟩)
      rw [if_neg hsome] at e4
      refine ⟨a, s', h5.trans e1, Or.inr ⟨by rw [e2]; simp, by omega, by omega, by omega⟩, e2, fun _ => ⟨by omega, by omega⟩, Or.inl ?_⟩
      simp only [remaining, e2, hu]
      omega
    by_cases c1 : s.maxEntry + batch < d.length
    · refine upd ?_ (by omega)
      unfold chooseTask
      simp only [hu, hadd]
      rw [if_neg (by omega), if_pos c1]
    · by_cases c2 : 0 < s.minEntry
      · -- a backfill job
        have ht : chooseTask batch now s (some ⟨d.length, t⟩) = .backfill := by
          unfold chooseTask
          simp only [hu, hadd]
          rw [if_neg (by omega), if_neg c1, if_pos c2]
        have hmod : s.minEntry % batch < batch := Nat.mod_lt _ (by omega)
        have hmodle : s.minEntry % batch ≤ s.minEntry := Nat.mod_le _ _
        have hdvd : s.minEntry % batch = 0 → batch ≤ s.minEntry := fun h => Nat.le_of_dvd c2 (Nat.dvd_of_mod_eq_zero h)
        have hlo : ∃ lo, (if s.minEntry % batch ≠ 0 then sub64 s.minEntry (s.minEntry % batch) else sub64 s.minEntry batch) = lo ∧ lo < s.minEntry ∧
            (lo = 0 ∨ batch ≤ lo) := by
          by_cases h : s.minEntry % batch ≠ 0
          · rw [if_pos h, sub64_eq _ _ hmodle (by omega)]
            refine ⟨_, rfl, Nat.sub_lt c2 (Nat.pos_of_ne_zero h), ?_⟩
            have e := Nat.div_add_mod s.minEntry batch
            have hm : s.minEntry - s.minEntry % batch = batch * (s.minEntry / batch) := by omega
            rw [hm]
            by_cases hq : s.minEntry / batch = 0
            · left; simp [hq]
            · right; exact Nat.le_mul_of_pos_right _ (Nat.pos_of_ne_zero hq)
          · have h0 : s.minEntry % batch = 0 := by omega
            rw [if_neg h, sub64_eq _ _ (hdvd h0) (by omega)]
            refine ⟨_, rfl, by omega, ?_⟩
            obtain ⟨q, hq⟩ := Nat.dvd_of_mod_eq_zero h0
            rw [hq]
            cases q with
            | zero => left; simp
            | succ q =>
              rw [Nat.mul_succ, Nat.add_sub_cancel]
              cases q with
              | zero => left; simp
              | succ q => right; exact Nat.le_mul_of_pos_right _ (by omega)
        obtain ⟨lo, elo, hlo1, hlo2⟩ := hlo
        have hj : jobRange batch s d.length .backfill = some (lo, s.minEntry - 1) := by
          simp only [jobRange, rawRange, hm1]
          rw [elo, sub64_eq s.minEntry 1 (by omega) (by omega), if_neg (by omega)]
        obtain ⟨us, h1, h2, h3, h4, h5⟩ := key _ _ ht hj (by dsimp only; omega) (by dsimp only; omega)
        have htile := C18_job_tiles_down lo (s.minEntry - 1) _ us (by omega) h1
        obtain ⟨a, s', e1, e2, e3, e4⟩ := runSubtrees_down env d srv hl.content hl.usable (by omega) now us _ _ s rs h2 htile (by omega) h3 h4 (by omega)
        refine ⟨a, s', h5.trans e1, Or.inr ⟨by rw [e2]; simp, by omega, by omega, by omega⟩, e2, fun _ => ⟨by omega, by omega⟩, Or.inl ?_⟩
        simp only [remaining, e2, hu]
        omega
      · have c3 := hnow u hu
        by_cases c4 : s.maxEntry < d.length - 1
        · refine upd ?_ c4
          unfold chooseTask
          simp only [hu, hadd, hm1]
          rw [if_neg (by omega), if_neg c1, if_neg c2, if_neg (by omega), if_pos c4]
        · have ht : chooseTask batch now s (some ⟨d.length, t⟩) = .sleep := by
            unfold chooseTask
            simp only [hu, hadd, hm1]
            rw [if_neg (by omega), if_neg c1, if_neg c2, if_neg (by omega), if_neg c4]
          have hrun : runWorker env batch now s (some ⟨d.length, t⟩) (some (proofFor env d batch now t s)) rs =
              [.state { s with minTs := min s.minTs s.minEntry, maxTs := max s.maxTs t, lastUpdate := some now }] := by
            unfold runWorker
            simp only [ht, jobRange, rawRange, if_true, runSleep, hm1, updateState]
            rw [if_pos (by omega)]
          refine ⟨[], _, hrun, Or.inr ⟨by simp, hle, hmax, hmin⟩, rfl, fun _ => ⟨Nat.le_refl _, Nat.le_refl _⟩, Or.inr ⟨?_, by omega⟩⟩
          simp only [remaining]
          omega

/-- `k` jobs in a row against the same honest log, each at least ten minutes after the previous one; every job starts from the last
state the previous one sent. -/
inductive Rounds (env : Env) (d : List Bytes) (srv : Nat → Leaf) (batch : Nat) : Nat → WState → WState → Prop
  | zero (s : WState) : Rounds env d srv batch 0 s s
  | succ {k : Nat} {s s' s'' : WState} (now t : Nat) (rs : List Resp) (a : List Ev) :
      (∀ u, s.lastUpdate = some u → u + 600 ≤ now) → HonestAnswers env d srv batch now t s rs →
      runWorker env batch now s (some ⟨d.length, t⟩) (some (proofFor env d batch now t s)) rs = a ++ [.state s'] →
      Rounds env d srv batch k s' s'' → Rounds env d srv batch (k + 1) s s''

theorem rounds_remaining (env : Env) (d : List Bytes) (srv : Nat → Leaf) (hl : HonestLog env d srv) (batch : Nat)
    (hz : Sizes d.length batch) {k : Nat} {s s' : WState} (h : Rounds env d srv batch k s s') (hs : Good d.length s) :
    remaining d.length s' ≤ remaining d.length s - k ∧ Good d.length s' ∧ (0 < k → s'.lastUpdate ≠ none) := by
  induction h with
  | zero s => exact ⟨by omega, hs, fun h => absurd h (by omega)⟩
  | @succ k s s1 s2 now t rs a hnow hans hrun hrest ih =>
    obtain ⟨a', s1', e, g, lu, _, r⟩ := C29_job_extends_partial env d srv hl batch now t hz s hs hnow rs hans
    have hh : a ++ [Ev.state s1] = a' ++ [.state s1'] := hrun.symm.trans e
    have h2 := (List.append_inj' hh rfl).2
    simp only [List.cons.injEq, and_true, Ev.state.injEq] at h2
    subst h2
    obtain ⟨i1, i2, i3⟩ := ih g
    refine ⟨by omega, i2, fun _ => ?_⟩
    by_cases hk : 0 < k
    · exact i3 hk
    · have : k = 0 := by omega
      subst this
      cases hrest
      rw [lu]; simp

/-- As many jobs as the log has entries claim the whole log, from a new worker or from any state in which the range begins at 0 or
above 3. -/
theorem C29_whole_log_partial (env : Env) (d : List Bytes) (srv : Nat → Leaf) (hl : HonestLog env d srv) (batch k : Nat)
    (hz : Sizes d.length batch) (hk : d.length ≤ k) (s s' : WState) (hs : Good d.length s) (h : Rounds env d srv batch k s s') :
    s'.minEntry = 0 ∧ s'.maxEntry = d.length - 1 := by
  obtain ⟨h1, h2, h3⟩ := rounds_remaining env d srv hl batch hz h hs
  have h0 := hz.log
  have hne := h3 (by omega)
  have hb : remaining d.length s ≤ d.length := by
    unfold remaining
    rcases hs with hs | ⟨hs, a, b, _⟩
    · rw [hs]; dsimp only; omega
    · cases h : s.lastUpdate with
      | none => exact absurd h hs
      | some u => dsimp only; omega
  have hr : remaining d.length s' = 0 := by omega
  rcases h2 with h2 | ⟨_, a, b, _⟩
  · exact absurd h2 hne
  · cases h : s'.lastUpdate with
    | none => exact absurd h hne
    | some u =>
      simp only [remaining, h] at hr
      omega

theorem answersAll_exist (srv : Nat → Leaf) (ts : List Subtree) (h : ∀ t ∈ ts, t.first ≤ t.last) : ∃ rs, AnswersAll srv ts rs := by
  induction ts with
  | nil => exact ⟨_, .nil⟩
  | cons t ts ih =>
    obtain ⟨rs, hrs⟩ := ih (fun x hx => h x (by simp [hx]))
    have := h t (by simp)
    have hp : Answers srv t.first (t.last + 1) [.entries ((List.range (t.last + 1 - t.first)).map (fun m => srv (t.first + m)))] := by
      apply Answers.piece (by omega) (by omega)
      rw [show t.first + (t.last + 1 - t.first) = t.last + 1 by omega]
      exact .nothing _
    exact ⟨_, .cons hp hrs⟩

/-- An honest log can always answer, so that the rounds of `C29_whole_log_partial` exist for every number of rounds. -/
theorem C29_rounds_exist (env : Env) (d : List Bytes) (srv : Nat → Leaf) (hl : HonestLog env d srv) (batch : Nat)
    (hz : Sizes d.length batch) (k : Nat) : ∀ (s : WState), Good d.length s → ∃ s', Rounds env d srv batch k s s' := by
  induction k with
  | zero => intro s _; exact ⟨s, .zero s⟩
  | succ k ih =>
    intro s hs
    obtain ⟨now, hnow⟩ : ∃ now, ∀ u, s.lastUpdate = some u → u + 600 ≤ now := by
      cases h : s.lastUpdate with
      | none => exact ⟨0, fun u hu => by cases hu⟩
      | some u => exact ⟨u + 600, fun u' hu => by cases hu; exact Nat.le_refl _⟩
    have hans : ∃ rs, HonestAnswers env d srv batch now 0 s rs := by
      unfold HonestAnswers
      cases hj : jobRange batch s d.length (chooseTask batch now s (some ⟨d.length, 0⟩)) with
      | none => exact ⟨[], fun r us h => by cases h⟩
      | some r =>
        cases hus : jobSubtrees (decide (chooseTask batch now s (some ⟨d.length, 0⟩) = .backfill)) r.1 r.2 (proofFor env d batch now 0 s) with
        | none => exact ⟨[], fun r' us h1 h2 => by cases h1; rw [hus] at h2; cases h2⟩
        | some us =>
          obtain ⟨rs, hrs⟩ := answersAll_exist srv us (fun t ht => (jobSubtrees_bounds _ _ _ _ _ hus t ht).2.1)
          exact ⟨rs, fun r' us' h1 h2 => by cases h1; rw [hus] at h2; cases h2; exact hrs⟩
    obtain ⟨rs, hrs⟩ := hans
    obtain ⟨a, s1, e, g, _⟩ := C29_job_extends_partial env d srv hl batch now 0 hz s hs hnow rs hrs
    obtain ⟨s', hs'⟩ := ih s1 g
    exact ⟨s', .succ now 0 rs a hnow hrs e hs'⟩

example : HonestLog toyEnv (List.replicate 9 [7]) (fun _ => ⟨[7], [], 10⟩) ∧ Sizes 9 4 ∧ Good 9 newLog := by
  refine ⟨⟨fun x => ?_, fun k x h => ?_, fun k _ => ?_⟩, ⟨by decide, by decide, by decide, by decide⟩, Or.inl rfl⟩
  · exact length_toyHash x
  · have := List.mem_of_getElem? h
    simp at this
    exact this.symm
  · exact ⟨_, rfl, by decide, by decide⟩

/-- The property fails: with a range that begins at entry 1, 2 or 3, a worker that has nothing new to fetch and a batch of at least that
many entries never sends anything again, whatever the log answers. -/
theorem C29_stuck_fails (env : Env) (batch now n t : Nat) (s : WState) (h1 : 1 ≤ s.minEntry) (h3 : s.minEntry ≤ 3) (hb : s.minEntry ≤ batch)
    (hu : s.lastUpdate ≠ none) (hn : 3 < n) (hn64 : n < 18446744073709551616) (hmax : n ≤ s.maxEntry + batch)
    (hfit : s.maxEntry + batch < 18446744073709551616) (proof : Option (List Bytes)) (rs : List Resp) :
    runWorker env batch now s (some ⟨n, t⟩) proof rs = [] := by
  obtain ⟨u, hu'⟩ : ∃ u, s.lastUpdate = some u := by
    cases h : s.lastUpdate with
    | none => exact absurd h hu
    | some u => exact ⟨u, rfl⟩
  have ht : chooseTask batch now s (some ⟨n, t⟩) = .backfill := by
    unfold chooseTask
    simp only [hu', add64_eq s.maxEntry batch hfit]
    rw [if_neg (by omega), if_neg (by omega), if_pos (by omega)]
  have hlo : (if s.minEntry % batch ≠ 0 then sub64 s.minEntry (s.minEntry % batch) else sub64 s.minEntry batch) = 0 := by
    by_cases h : s.minEntry = batch
    · rw [if_neg (by rw [h]; simp), sub64_eq _ _ (by omega) (by omega)]; omega
    · rw [Nat.mod_eq_of_lt (by omega), if_pos (by omega), sub64_eq _ _ (by omega) (by omega)]; omega
  have hj : jobRange batch s n .backfill = some (0, s.minEntry - 1) := by
    simp only [jobRange, rawRange]
    rw [hlo, sub64_eq s.minEntry 1 (by omega) (by omega), sub64_eq n 1 (by omega) (by omega), if_neg (by omega)]
  unfold runWorker
  simp only [ht, hj]
  cases proof with
  | none => rfl
  | some p =>
    dsimp only
    rw [C18_small_tree_fails _ _ p (by omega)]

/-- Such a state is reached by the first job on an honest log that has one more entry than the batch size; `stuckRun` is that job. -/
def stuckRun : List Ev :=
  runWorker toyEnv 4 1000 newLog (some ⟨5, 60⟩) (some (honestProof toyHash toyLog 1 5)) [toyEntries 1, toyEntries 2, toyEntries 1]

/-- The witness for `C29_stuck_fails`: after the first job the range is [1, 4] of a log with 5 entries. -/
theorem C29_stuck_reached_fails : ∃ a s, stuckRun = a ++ [.state s] ∧ s.minEntry = 1 ∧ s.maxEntry = 4 ∧
    ∀ now t proof rs, runWorker toyEnv 4 now s (some ⟨5, t⟩) proof rs = [] := by
  have h : stuckRun.getLast? = some (.state ⟨1, 4, 50, 50, some 1000⟩) := by decide +kernel
  refine ⟨stuckRun.dropLast, ⟨1, 4, 50, 50, some 1000⟩, ?_, rfl, rfl, ?_⟩
  · have hne : stuckRun ≠ [] := by intro e; rw [e] at h; cases h
    rw [List.getLast?_eq_some_getLast hne] at h
    rw [← Option.some.inj h, List.dropLast_concat_getLast]
  · intro now t proof rs
    exact C29_stuck_fails toyEnv 4 now 5 t _ (by decide) (by decide) (by decide) (by decide) (by decide) (by decide) (by decide) (by decide) proof rs

/-! ### each theorem applied -/

theorem exHonest : HonestLog toyEnv (List.replicate 9 [7]) (fun _ => ⟨[7], [], 10⟩) := by
  refine ⟨fun x => length_toyHash x, fun k x h => ?_, fun k _ => ⟨_, rfl, by decide, by decide⟩⟩
  have := List.mem_of_getElem? h
  simp at this
  exact this.symm

/-- Nine rounds exist, and after them the whole log is downloaded. -/
example : ∃ s' : WState, s'.minEntry = 0 ∧ s'.maxEntry = 8 := by
  obtain ⟨s', h⟩ := C29_rounds_exist toyEnv (List.replicate 9 [7]) (fun _ => ⟨[7], [], 10⟩) exHonest 4 ⟨by decide, by decide, by decide, by decide⟩ 9 newLog (Or.inl rfl)
  exact ⟨s', C29_whole_log_partial toyEnv (List.replicate 9 [7]) (fun _ => ⟨[7], [], 10⟩) exHonest 4 9 ⟨by decide, by decide, by decide, by decide⟩ (by decide) newLog s' (Or.inl rfl) h⟩

/-- And for one of them. -/
example : ∃ s s' : WState, remaining 9 s' < remaining 9 s ∨ remaining 9 s' = 0 ∧ remaining 9 s = 0 := by
  obtain ⟨s', h⟩ := C29_rounds_exist toyEnv (List.replicate 9 [7]) (fun _ => ⟨[7], [], 10⟩) exHonest 4 ⟨by decide, by decide, by decide, by decide⟩ 1 newLog (Or.inl rfl)
  cases h with
  | succ now t rs a hnow hans e _ =>
    obtain ⟨a, s', _, _, _, _, h⟩ := C29_job_extends_partial toyEnv (List.replicate 9 [7]) (fun _ => ⟨[7], [], 10⟩) exHonest 4 now t ⟨by decide, by decide, by decide, by decide⟩ newLog (Or.inl rfl) hnow rs hans
    exact ⟨newLog, s', h⟩

example := C29_stuck_fails toyEnv 4 5000 9 0 ⟨2, 8, 50, 50, some 10⟩ (by decide) (by decide) (by decide) (by decide) (by decide) (by decide) (by decide) (by decide) none []

end Verif.Props
