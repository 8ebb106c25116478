import Verif.Spec.Growth
import Verif.Props.Whole
/-!
Lemmas for C106: the states of one job grow, and so do the states that wait to be saved.
-/
namespace Verif
open Verif.Spec Verif.Props

/-- The states among the events of a job. -/
def evStates (evs : List Ev) : List WState := evs.filterMap (fun e => match e with
  | .state s => some s
  | .entry _ _ _ _ => none)

theorem evStates_append (a b : List Ev) : evStates (a ++ b) = evStates a ++ evStates b := List.filterMap_append ..

theorem evStates_state (s : WState) (b : List Ev) : evStates (.state s :: b) = s :: evStates b := rfl

theorem evStates_entry (i : Nat) (x : Bytes) (t : Nat) (it : Option Item) (b : List Ev) : evStates (.entry i x t it :: b) = evStates b := rfl

theorem evStates_leafEvents (env : Env) (ls : List Leaf) : ∀ pos, evStates (leafEvents env pos ls) = [] := by
  induction ls with
  | nil => intro pos; rfl
  | cons l ls ih =>
    intro pos
    obtain ⟨item, h⟩ := leafEvent_eq env pos l
    rw [leafEvents, h, evStates_entry]
    exact ih _

theorem Spec.Chain.append_left {s : WState} {a b : List WState} (h : Chain s (a ++ b)) : Chain s a := by
  induction a generalizing s with
  | nil => trivial
  | cons t a ih => exact ⟨h.1, ih h.2⟩

/-! ### one job -/

theorem updateState_grows (now : Nat) (task : Task) (s s' : WState) (t : Subtree) (mn mx : Nat) (hs : s.maxEntry < 18446744073709551615) (ht : t.first ≤ t.last) (hl : t.last < 18446744073709551615)
    (h : updateState now task s (some (t.first, t.last)) mn mx = some s') : (s'.lastUpdate ≠ none ∧ Grows s s') ∧ s'.maxEntry < 18446744073709551615 := by
  rcases updateState_cases now task s s' _ mn mx h with ⟨rfl, h1, h2⟩ | ⟨rfl, h1, h2⟩ | ⟨rfl, h1, h2⟩
  · exact ⟨⟨by simp, fun h => absurd h1 h⟩, hl⟩
  · refine ⟨⟨by simp, fun _ => ⟨by simp, Nat.le_refl _, ?_, Nat.min_le_left _ _, Nat.le_max_left _ _⟩⟩, hl⟩
    unfold sub64 at h1
    dsimp only at h1 ⊢
    omega
  · refine ⟨⟨by simp, fun _ => ⟨by simp, ?_, Nat.le_refl _, Nat.min_le_left _ _, Nat.le_max_left _ _⟩⟩, hs⟩
    unfold add64 at h1
    dsimp only at h1 ⊢
    omega

theorem runSubtrees_chain (env : Env) (now : Nat) (task : Task) (ts : List Subtree) : ∀ (s : WState) (rs : List Resp), s.maxEntry < 18446744073709551615 →
    (∀ t ∈ ts, t.first ≤ t.last ∧ t.last < 18446744073709551615) → Chain s (evStates (runSubtrees env now task s ts rs)) := by
  induction ts with
  | nil => intro s rs _ _; trivial
  | cons t ts ih =>
    intro s rs hs hts
    unfold runSubtrees
    split
    · rw [evStates_leafEvents]; trivial
    · split
      · split
        · rw [evStates_leafEvents]; trivial
        · rename_i s' hu
          rw [evStates_append, evStates_leafEvents, List.nil_append, evStates_state]
          obtain ⟨h1, h2⟩ := updateState_grows now task s s' t _ _ hs (hts t (by simp)).1 (hts t (by simp)).2 hu
          exact ⟨h1, ih s' _ h2 (fun u hu => hts u (by simp [hu]))⟩
      · rw [evStates_leafEvents]; trivial

/-- The states of a job of an RFC 6962 log grow. -/
theorem runWorker_chain (env : Env) (batch now : Nat) (s : WState) (sth : Option TreeHead) (proof : Option (List Bytes)) (rs : List Resp) (hs : s.maxEntry < 18446744073709551615) (hsane : Sane s sth) :
    Chain s (evStates (runWorker env batch now s sth proof rs)) := by
  rcases runWorker_cases env batch now s sth proof rs with h0 | ⟨h, e, _, hr⟩ | ⟨h, r, p, ts, e, hj, _, hts, hr⟩
  · rw [h0]; trivial
  · rw [hr]
    unfold runSleep
    split
    · simp only [updateState]
      exact ⟨⟨by simp, fun _ => ⟨by simp, Nat.le_refl _, Nat.le_refl _, Nat.min_le_left _ _, Nat.le_max_left _ _⟩⟩, trivial⟩
    · trivial
  · obtain ⟨hsz, _⟩ := hsane h e
    simp only [Nat.reducePow] at hsz
    have hc := chooseTask_job batch now s h r hj
    have hlt := jobRange_lt batch s h.treeSize _ r hj (by omega) hsz
    have hb := jobSubtrees_bounds _ _ _ _ _ hts
    rw [hr]
    exact runSubtrees_chain env now _ ts s rs hs (fun t ht => ⟨(hb t ht).2.1, by have := hb t ht; omega⟩)

theorem updateTiled_grows (now : Nat) (s : WState) (mx mn mt : Nat) : (updateTiled now s mx mn mt).lastUpdate ≠ none ∧ Grows s (updateTiled now s mx mn mt) :=
  ⟨by simp [updateTiled], fun _ => ⟨by simp [updateTiled], Nat.zero_le _, Nat.le_max_left _ _, Nat.min_le_left _ _, Nat.le_max_left _ _⟩⟩

theorem Spec.Chain.append {s : WState} {a b : List WState} (h1 : Chain s a) (h2 : Chain (a.getLastD s) b) : Chain s (a ++ b) := by
  induction a generalizing s with
  | nil => exact h2
  | cons t a ih =>
    refine ⟨h1.1, ih h1.2 ?_⟩
    rwa [List.getLastD_cons] at h2

theorem readEntries_chain (keep : Bool) (batch now : Nat) (es : List TEntry) : ∀ (v : TVars),
    Chain v.state (evStates (readEntries keep batch now v es).1) ∧ (evStates (readEntries keep batch now v es).1).getLastD v.state = (readEntries keep batch now v es).2.1.state := by
  induction es with
  | nil => intro v; exact ⟨trivial, rfl⟩
  | cons e es ih =>
    intro v
    unfold readEntries
    split
    · exact ⟨trivial, rfl⟩
    · exact ⟨trivial, rfl⟩
    · dsimp only
      split
      · obtain ⟨h1, h2⟩ := ih (saveTiled now { v with maxEntry := v.maxEntry + 1, minTs := min v.minTs e.timestamp, maxTs := max v.maxTs e.timestamp })
        dsimp only
        rw [evStates_entry, evStates_state]
        refine ⟨⟨updateTiled_grows _ _ _ _ _, h1⟩, ?_⟩
        rw [List.getLastD_cons]
        exact h2
      · rw [evStates_entry]
        exact ih { v with maxEntry := v.maxEntry + 1, minTs := min v.minTs e.timestamp, maxTs := max v.maxTs e.timestamp }

theorem readLogEntries_chain (keep : Bool) (batch now : Nat) (v : TVars) (es : List TEntry) (err : Bool) :
    Chain v.state (evStates (readLogEntries keep batch now v es err).1) ∧
    (evStates (readLogEntries keep batch now v es err).1).getLastD v.state = (readLogEntries keep batch now v es err).2.1.state := by
  have h := readEntries_chain keep batch now es v
  unfold readLogEntries
  split
  · rename_i evs v' he
    rw [he] at h
    exact h
  · rename_i evs v' he
    rw [he] at h
    dsimp only at h ⊢
    rw [evStates_append]
    refine ⟨h.1.append ?_, ?_⟩
    · rw [h.2]
      exact ⟨updateTiled_grows _ _ _ _ _, trivial⟩
    · rw [List.getLastD_eq_getLast?, evStates_state, List.getLast?_append]
      rfl

/-- The states of a job of a tiled log grow. -/
theorem runTiled_chain (keep : Bool) (batch now : Nat) (s : WState) (sth : Option TreeHead) (es1 es2 : List TEntry) (e1 e2 : Bool) :
    Chain s (evStates (runTiled keep batch now s sth es1 es2 e1 e2)) := by
  unfold runTiled
  split
  · trivial
  · dsimp only
    split
    · split
      · exact ⟨updateTiled_grows _ _ _ _ _, trivial⟩
      · trivial
    · exact (readLogEntries_chain keep batch now ⟨s.maxEntry, s.minTs, s.maxTs, s⟩ es1 e1).1
    · have h := readLogEntries_chain keep batch now ⟨s.maxEntry, s.minTs, s.maxTs, s⟩ es1 e1
      split
      · rename_i evs v' he
        rw [he] at h
        exact h.1
      · rename_i evs v' he
        rw [he] at h
        rw [evStates_append]
        refine h.1.append ?_
        rw [h.2]
        exact (readLogEntries_chain keep batch now v' es2 e2).1
    · trivial

/-! ### the process -/

/-- The state of `log` that a message carries. -/
def msgStates (log : Text) : Msg → List WState
  | .cert _ _ => []
  | .state l s => if l = log then [s] else []

def phaseStates (log : Text) : Phase → List WState
  | .idle => []
  | .storing m => msgStates log m
  | .saving m => msgStates log m

/-- The unfinished jobs of `log`. -/
def jobsOf (log : Text) (ws : List (Text × List Ev)) : List (Text × List Ev) := ws.filter (fun p => decide (p.1 = log))

/-- All states of `log` that are on their way to the database, in the order in which they are saved. -/
def pending (y : Sys) (log : Text) : List WState :=
  phaseStates log y.phase ++ y.chan.flatMap (msgStates log) ++ (jobsOf log y.workers).flatMap (fun p => evStates p.2)

/-- At most one job of the log, and the pending states grow. -/
structure ChainInv (y : Sys) (log : Text) : Prop where
  one : (jobsOf log y.workers).length ≤ 1
  chain : Chain (y.saved log) (pending y log)

theorem settled_pending {y : Sys} {log : Text} (h : Settled y log) : jobsOf log y.workers = [] ∧ pending y log = [] := by
  obtain ⟨h1, h2, h3, h4⟩ := h
  have hj : jobsOf log y.workers = [] := by
    unfold jobsOf
    rw [List.filter_eq_nil_iff]
    intro p hp
    simpa using h1 p hp
  have msg : ∀ m, (∀ s, m ≠ Msg.state log s) → msgStates log m = [] := by
    intro m hm
    cases m with
    | cert l i => rfl
    | state l s =>
      unfold msgStates
      dsimp only
      rw [if_neg]
      rintro rfl
      exact hm s rfl
  refine ⟨hj, ?_⟩
  unfold pending
  rw [hj]
  have h5 : phaseStates log y.phase = [] := by
    cases hp : y.phase with
    | idle => rfl
    | storing m => exact msg m (fun s e => h3 s (by rw [hp, e]))
    | saving m => exact msg m (fun s e => h4 s (by rw [hp, e]))
  have h6 : y.chan.flatMap (msgStates log) = [] := by
    rw [List.flatMap_eq_nil_iff]
    intro m hm
    exact msg m (fun s e => h2 s (by rw [← e]; exact hm))
  rw [h5, h6]
  rfl

theorem msgStates_evMsg (log log' : Text) (e : Ev) : (evMsg log e).flatMap (msgStates log') = if log = log' then evStates [e] else [] := by
  cases e with
  | state s =>
    simp only [evMsg, List.flatMap_cons, List.flatMap_nil, List.append_nil, msgStates]
    rfl
  | entry i x t it => cases it <;> simp [evMsg, msgStates, evStates]

theorem evStates_cons (e : Ev) (r : List Ev) : evStates (e :: r) = evStates [e] ++ evStates r := evStates_append [e] r

theorem jobsOf_append (log : Text) (a b : List (Text × List Ev)) : jobsOf log (a ++ b) = jobsOf log a ++ jobsOf log b := List.filter_append ..

theorem jobsOf_cons (log : Text) (p : Text × List Ev) (b : List (Text × List Ev)) : jobsOf log (p :: b) = if p.1 = log then p :: jobsOf log b else jobsOf log b := by
  unfold jobsOf
  rw [List.filter_cons]
  simp only [decide_eq_true_eq]

theorem chainInv_start {y : Sys} {log log' : Text} (hi : ChainInv y log) (hs : Settled y log') (evs : List Ev) (hc : Chain (y.saved log') (evStates evs)) :
    ChainInv { y with workers := y.workers ++ [(log', evs)] } log := by
  by_cases h : log' = log
  · subst h
    obtain ⟨h1, h2⟩ := settled_pending hs
    have hj : jobsOf log' (y.workers ++ [(log', evs)]) = [(log', evs)] := by
      rw [jobsOf_append, h1, jobsOf_cons, if_pos rfl]; rfl
    refine ⟨?_, ?_⟩
    · show (jobsOf log' (y.workers ++ [(log', evs)])).length ≤ 1
      rw [hj]; exact Nat.le_refl _
    · show Chain (y.saved log') (phaseStates log' y.phase ++ y.chan.flatMap (msgStates log') ++ (jobsOf log' (y.workers ++ [(log', evs)])).flatMap (fun p => evStates p.2))
      unfold pending at h2
      have h3 := (List.append_eq_nil_iff.1 h2).1
      rw [hj, h3]
      simpa using hc
  · have hj : jobsOf log (y.workers ++ [(log', evs)]) = jobsOf log y.workers := by
      rw [jobsOf_append, jobsOf_cons, if_neg h]; exact List.append_nil _
    refine ⟨?_, ?_⟩
    · show (jobsOf log (y.workers ++ [(log', evs)])).length ≤ 1
      rw [hj]; exact hi.one
    · show Chain (y.saved log) (phaseStates log y.phase ++ y.chan.flatMap (msgStates log) ++ (jobsOf log (y.workers ++ [(log', evs)])).flatMap (fun p => evStates p.2))
      rw [hj]; exact hi.chain

theorem chainInv_emit {env : Env} {y : Sys} {log : Text} (hi : ChainInv y log) (k : Nat) : ChainInv (y.step env (.emit k)) log := by
  simp only [Sys.step]
  split
  · rename_i l e rest hk
    obtain ⟨hlt, hget⟩ := List.getElem?_eq_some_iff.1 hk
    obtain ⟨a, b, h1, h2, h3⟩ := List.exists_of_set (a' := (l, rest)) hlt
    rw [hget] at h1
    have hi1 := hi.one
    have hi2 := hi.chain
    unfold pending at hi2
    rw [h1, jobsOf_append, jobsOf_cons] at hi1 hi2
    by_cases hl : l = log
    · subst hl
      simp only [if_pos] at hi1 hi2
      rw [List.length_append, List.length_cons] at hi1
      have ha : jobsOf l a = [] := List.length_eq_zero_iff.1 (by omega)
      have hb : jobsOf l b = [] := List.length_eq_zero_iff.1 (by omega)
      rw [ha, hb] at hi2
      refine ⟨?_, ?_⟩
      · dsimp only
        rw [h3, jobsOf_append, jobsOf_cons, ha, hb]
        simp
      · unfold pending
        dsimp only
        rw [h3, jobsOf_append, jobsOf_cons, ha, hb, List.flatMap_append, msgStates_evMsg, if_pos rfl, if_pos rfl]
        simp only [List.nil_append, List.flatMap_cons, List.flatMap_nil, List.append_nil] at hi2 ⊢
        rw [evStates_cons] at hi2
        simpa only [List.append_assoc] using hi2
    · simp only [if_neg hl] at hi1 hi2
      refine ⟨?_, ?_⟩
      · dsimp only
        rw [h3, jobsOf_append, jobsOf_cons, if_neg hl]
        exact hi1
      · unfold pending
        dsimp only
        rw [h3, jobsOf_append, jobsOf_cons, if_neg hl, List.flatMap_append, msgStates_evMsg, if_neg hl, List.append_nil]
        exact hi2
  · exact hi

theorem chainInv_stop {env : Env} {y : Sys} {log : Text} (hi : ChainInv y log) (k : Nat) : ChainInv (y.step env (.stop k)) log := by
  have hsub : (jobsOf log (y.workers.eraseIdx k)).Sublist (jobsOf log y.workers) := (List.eraseIdx_sublist ..).filter _
  have hc : jobsOf log (y.workers.eraseIdx k) = jobsOf log y.workers ∨ jobsOf log (y.workers.eraseIdx k) = [] := by
    have h1 := hi.one
    have h2 := hsub.length_le
    rcases Nat.eq_zero_or_pos (jobsOf log (y.workers.eraseIdx k)).length with h | h
    · exact Or.inr (List.length_eq_zero_iff.1 h)
    · exact Or.inl (hsub.eq_of_length (by omega))
  refine ⟨Nat.le_trans hsub.length_le hi.one, ?_⟩
  show Chain (y.saved log) (phaseStates log y.phase ++ y.chan.flatMap (msgStates log) ++ (jobsOf log (y.workers.eraseIdx k)).flatMap (fun p => evStates p.2))
  have h := hi.chain
  unfold pending at h
  rcases hc with hc | hc
  · rw [hc]; exact h
  · rw [hc]
    have := h.append_left
    simpa using this

theorem chainInv_receive {env : Env} {y : Sys} {log : Text} (hi : ChainInv y log) (batch : Nat) : ChainInv (y.step env (.receive batch)) log := by
  simp only [Sys.step]
  split
  · rename_i m rest hp hc
    have h := hi.chain
    unfold pending at h
    rw [hp, hc] at h
    simp only [phaseStates, List.nil_append, List.flatMap_cons] at h
    split
    · rename_i hm
      have hms : msgStates log m = [] := by
        cases m with
        | cert l i => rfl
        | state l s => cases hm.2
      refine ⟨hi.one, ?_⟩
      unfold pending
      dsimp only
      rw [hp]
      rw [hms] at h
      exact h
    · exact ⟨hi.one, h⟩
  · exact hi

theorem chain_save {saved : Text → WState} {log : Text} {m : Msg} {rest : List WState} (h : Chain (saved log) (msgStates log m ++ rest)) :
    Chain (applySave saved m log) rest ∧ Grows (saved log) (applySave saved m log) ∧ Chain (applySave saved m log) (msgStates log m ++ rest) := by
  cases m with
  | cert l i => exact ⟨h, Grows.refl _, h⟩
  | state l s =>
    unfold msgStates at h ⊢
    unfold applySave
    dsimp only at h ⊢
    by_cases hl : l = log
    · subst hl
      simp only [if_pos] at h ⊢
      exact ⟨h.2, h.1.2, ⟨h.1.1, Grows.refl _⟩, h.2⟩
    · rw [if_neg hl] at h ⊢
      rw [if_neg (fun e => hl e.symm)]
      exact ⟨h, Grows.refl _, h⟩

/-- The invariant is kept, and what is saved grows. -/
theorem chainInv_step {w : World} {env : Env} {y : Sys} {log : Text} (hy : SysInv w env y) (hi : ChainInv y log) (a : Act) (ha : Allowed w env y a) (ho : OneAtATime y a) :
    ChainInv (y.step env a) log ∧ Grows (y.saved log) ((y.step env a).saved log) := by
  cases a with
  | start l batch now sth proof rs =>
    exact ⟨chainInv_start hi ho _ (runWorker_chain env batch now _ sth proof rs ((hy.saved l).bound ha.1) ha.2.1), Grows.refl _⟩
  | startTiled l batch now sth es1 es2 e1 e2 =>
    exact ⟨chainInv_start hi ho _ (runTiled_chain env.keepExpired batch now _ sth es1 es2 e1 e2), Grows.refl _⟩
  | emit k =>
    refine ⟨chainInv_emit hi k, ?_⟩
    simp only [Sys.step]
    split <;> exact Grows.refl _
  | stop k => exact ⟨chainInv_stop hi k, Grows.refl _⟩
  | receive b =>
    refine ⟨chainInv_receive hi b, ?_⟩
    simp only [Sys.step]
    split
    · split <;> exact Grows.refl _
    · exact Grows.refl _
  | storeFails t =>
    simp only [Sys.step]
    split
    · exact ⟨⟨hi.one, hi.chain⟩, Grows.refl _⟩
    · exact ⟨hi, Grows.refl _⟩
  | storeOk =>
    simp only [Sys.step]
    split
    · rename_i m hp
      refine ⟨⟨hi.one, ?_⟩, Grows.refl _⟩
      have h := hi.chain
      unfold pending at h ⊢
      rw [hp] at h
      exact h
    · exact ⟨hi, Grows.refl _⟩
  | saveOk =>
    simp only [Sys.step]
    split
    · rename_i m hp
      have h := hi.chain
      unfold pending at h
      rw [hp, List.append_assoc] at h
      obtain ⟨h1, h2, _⟩ := chain_save h
      exact ⟨⟨hi.one, h1⟩, h2⟩
    · exact ⟨hi, Grows.refl _⟩
  | saveFails b =>
    simp only [Sys.step]
    split
    · rename_i m hp
      have h := hi.chain
      unfold pending at h
      rw [hp, List.append_assoc] at h
      obtain ⟨_, h2, h3⟩ := chain_save h
      cases b with
      | true =>
        refine ⟨⟨hi.one, ?_⟩, h2⟩
        unfold pending
        rw [List.append_assoc]
        exact h3
      | false =>
        refine ⟨⟨hi.one, ?_⟩, Grows.refl _⟩
        unfold pending
        rw [List.append_assoc]
        exact h
    · exact ⟨hi, Grows.refl _⟩
  | crash => exact ⟨⟨Nat.zero_le _, trivial⟩, Grows.refl _⟩

theorem chainInv_init (log : Text) : ChainInv Sys.init log := ⟨Nat.zero_le _, trivial⟩

end Verif
