import Verif.Model.Exit
/-!
C94: ct-fetch ends only when its work is done, and can always end.
-/
namespace Verif

namespace Spec

/-- Every log of `logs` has been synchronised, once: there is a goroutine for each, in order, and all have returned. -/
def AllSynced (logs : List Text) (x : Exit) : Prop := x.syncs.map SyncGo.log = logs ∧ ∀ g ∈ x.syncs, g.stage = .returned

/-- No goroutine lags behind `main`: when the message channel is closed, every `SyncLog` that was or is about to be started has passed its first statement; when `main` exits, the database thread has passed its own. -/
def NoLaggard (x : Exit) : Prop :=
  (x.closed = true → x.slot = none ∧ ∀ g ∈ x.syncs, g.stage ≠ .created) ∧ (x.main = .exited → x.db ≠ .created)

end Spec

namespace Props

/-! ### Lists of goroutines -/

/-- Is the goroutine between its `Add` and its `Done`? -/
def isRunning (g : SyncGo) : Bool :=
  match g.stage with
  | .running _ => true
  | _ => false

/-- A bound on the steps that a goroutine needs. -/
def goWeight (g : SyncGo) : Nat :=
  match g.stage with
  | .created => 6
  | .running todo => 3 + 2 * todo.length
  | .returned => 0

theorem sum_set {α : Type} (f : α → Nat) (y : α) : ∀ (l : List α) (k : Nat) (x : α), l[k]? = some x → ((l.set k y).map f).sum + f x = (l.map f).sum + f y
  | [], k, x, h => by simp at h
  | a :: l, 0, x, h => by
    simp at h
    subst h
    simp
    omega
  | a :: l, k + 1, x, h => by
    have ih := sum_set f y l k x (by simpa using h)
    simp [-List.map_set]
    omega

theorem count_set (y : SyncGo) : ∀ (l : List SyncGo) (k : Nat) (x : SyncGo), l[k]? = some x →
    (l.set k y).countP isRunning + (if isRunning x then 1 else 0) = l.countP isRunning + (if isRunning y then 1 else 0)
  | [], k, x, h => by simp at h
  | a :: l, 0, x, h => by
    simp at h
    subst h
    simp [List.countP_cons]
    omega
  | a :: l, k + 1, x, h => by
    have ih := count_set y l k x (by simpa using h)
    simp [List.countP_cons]
    omega

theorem logs_set (st : SyncStage) : ∀ (l : List SyncGo) (k : Nat) (x : SyncGo), l[k]? = some x → (setSync l k x.log st).map SyncGo.log = l.map SyncGo.log
  | [], k, x, h => by simp at h
  | a :: l, 0, x, h => by
    simp at h
    subst h
    simp [setSync]
  | a :: l, k + 1, x, h => by
    have ih := logs_set st l k x (by simpa using h)
    simpa [setSync] using ih

theorem mem_setSync {l : List SyncGo} {k : Nat} {log : Text} {st : SyncStage} {g : SyncGo} (h : g ∈ setSync l k log st) : g ∈ l ∨ g = { log := log, stage := st } :=
  List.mem_or_eq_of_mem_set h

/-! ### The invariant -/

structure XInv (logs : List Text) (x : Exit) : Prop where
  logs : x.syncs.map SyncGo.log ++ x.slot.toList ++ x.pending = logs
  fin : x.finalized = true → x.pending = []
  past : x.main ≠ .enrolling → x.finalized = true
  down : x.downWG = x.syncs.countP isRunning
  thread : x.threadWG = if x.db = .running then 1 else 0
  closed : x.closed = true ↔ x.main = .waitThread ∨ x.main = .exited
  flow : x.handled ++ x.chan = x.sent
  gone : x.db = .returned → x.cancelled = true ∨ (x.closed = true ∧ x.chan = [])
  out : x.main = .exited → x.db ≠ .running

theorem xinv_init (logs : List Text) : XInv logs (Exit.init logs) := by
  constructor <;> simp [Exit.init]

theorem xinv_step {logs : List Text} (cap : Nat) {x : Exit} (h : XInv logs x) (a : XAct) : XInv logs (x.step cap a) := by
  unfold Exit.step
  by_cases hp : x.panicked = true ∨ x.main = .exited
  · rw [if_pos hp]; exact h
  rw [if_neg hp]
  have hne : x.main ≠ .exited := fun e => hp (.inr e)
  obtain ⟨h1, h2, h3, h4, h5, h6, h7, h8, h9⟩ := h
  cases a with
  | signal => exact ⟨h1, h2, h3, h4, h5, h6, h7, fun _ => .inl rfl, h9⟩
  | enroll =>
    dsimp only
    split
    · rename_i log rest hpe hs
      refine ⟨?_, ?_, h3, h4, h5, h6, h7, h8, h9⟩
      · rw [← h1, hpe, hs]; simp
      · intro hf
        have := h2 hf
        rw [hpe] at this
        cases this
    · exact ⟨h1, h2, h3, h4, h5, h6, h7, h8, h9⟩
  | spawn =>
    dsimp only
    split
    · rename_i log hs
      refine ⟨?_, h2, h3, ?_, h5, h6, h7, h8, h9⟩
      · rw [← h1, hs]; simp
      · simp [h4, List.countP_append, isRunning]
    · exact ⟨h1, h2, h3, h4, h5, h6, h7, h8, h9⟩
  | finalize =>
    dsimp only
    split
    · rename_i hpe
      exact ⟨h1, fun _ => hpe, fun _ => rfl, h4, h5, h6, h7, h8, h9⟩
    · exact ⟨h1, h2, h3, h4, h5, h6, h7, h8, h9⟩
  | begin k ms =>
    dsimp only
    split
    · rename_i log hk
      refine ⟨?_, h2, h3, ?_, h5, h6, h7, h8, h9⟩
      · dsimp only
        rw [logs_set _ _ _ _ hk]; exact h1
      · have := count_set { log := log, stage := .running ms } _ _ _ hk
        simp [isRunning] at this
        dsimp only [setSync]
        omega
    · exact ⟨h1, h2, h3, h4, h5, h6, h7, h8, h9⟩
  | send k =>
    dsimp only
    split
    · rename_i log m ms hk
      split
      · exact ⟨h1, h2, h3, h4, h5, h6, h7, h8, h9⟩
      · rename_i hc
        split
        · refine ⟨?_, h2, h3, ?_, h5, h6, ?_, ?_, h9⟩
          · dsimp only
            rw [logs_set _ _ _ _ hk]; exact h1
          · have := count_set { log := log, stage := .running ms } _ _ _ hk
            simp [isRunning] at this
            dsimp only [setSync]
            omega
          · dsimp only
            rw [← List.append_assoc, h7]
          · intro hd
            rcases h8 hd with hd | hd
            · exact .inl hd
            · exact absurd hd.1 hc
        · exact ⟨h1, h2, h3, h4, h5, h6, h7, h8, h9⟩
    · exact ⟨h1, h2, h3, h4, h5, h6, h7, h8, h9⟩
  | «return» k =>
    dsimp only
    split
    · rename_i log todo hk
      split
      · refine ⟨?_, h2, h3, ?_, h5, h6, h7, h8, h9⟩
        · dsimp only
          rw [logs_set _ _ _ _ hk]; exact h1
        · have := count_set { log := log, stage := .returned } _ _ _ hk
          simp [isRunning] at this
          dsimp only [setSync]
          omega
      · exact ⟨h1, h2, h3, h4, h5, h6, h7, h8, h9⟩
    · exact ⟨h1, h2, h3, h4, h5, h6, h7, h8, h9⟩
  | dbBegin =>
    dsimp only
    split
    · rename_i hd
      refine ⟨h1, h2, h3, h4, ?_, h6, h7, ?_, fun e => absurd e hne⟩
      · simp [h5, hd]
      · intro e; cases e
    · exact ⟨h1, h2, h3, h4, h5, h6, h7, h8, h9⟩
  | dbTake =>
    dsimp only
    split
    · rename_i m rest hd hc
      refine ⟨h1, h2, h3, h4, h5, h6, ?_, ?_, h9⟩
      · dsimp only
        rw [← h7, hc]; simp
      · intro e
        dsimp only at e
        rw [hd] at e
        cases e
    · exact ⟨h1, h2, h3, h4, h5, h6, h7, h8, h9⟩
  | dbEnd =>
    dsimp only
    split
    · rename_i hd
      refine ⟨h1, h2, h3, h4, ?_, h6, h7, fun _ => .inr ⟨hd.2.1, hd.2.2⟩, fun e => absurd e hne⟩
      simp [h5, hd.1]
    · exact ⟨h1, h2, h3, h4, h5, h6, h7, h8, h9⟩
  | dbQuit =>
    dsimp only
    split
    · rename_i hd
      refine ⟨h1, h2, h3, h4, ?_, h6, h7, fun _ => .inl hd.2, fun e => absurd e hne⟩
      simp [h5, hd.1]
    · exact ⟨h1, h2, h3, h4, h5, h6, h7, h8, h9⟩
  | main =>
    dsimp only
    split
    · rename_i hm
      split
      · rename_i hf
        refine ⟨h1, h2, fun _ => hf, h4, h5, ?_, h7, h8, ?_⟩
        · rw [hm] at h6
          simpa using h6
        · intro e; cases e
      · exact ⟨h1, h2, h3, h4, h5, h6, h7, h8, h9⟩
    · rename_i hm
      split
      · refine ⟨h1, h2, fun _ => h3 (by rw [hm]; intro e; cases e), h4, h5, ?_, h7, ?_, ?_⟩
        · simp
        · intro e
          rcases h8 e with e | e
          · exact .inl e
          · exact .inr ⟨rfl, e.2⟩
        · intro e; cases e
      · exact ⟨h1, h2, h3, h4, h5, h6, h7, h8, h9⟩
    · rename_i hm
      split
      · rename_i ht
        refine ⟨h1, h2, fun _ => h3 (by rw [hm]; intro e; cases e), h4, h5, ?_, h7, h8, ?_⟩
        · simp only [or_true, iff_true]
          exact h6.2 (.inl hm)
        · intro _ e
          dsimp only at e
          rw [e] at h5
          simp at h5
          omega
      · exact ⟨h1, h2, h3, h4, h5, h6, h7, h8, h9⟩
    · exact ⟨h1, h2, h3, h4, h5, h6, h7, h8, h9⟩

theorem xinv_run {logs : List Text} (cap : Nat) : ∀ (acts : List XAct) {x : Exit}, XInv logs x → XInv logs (x.run cap acts)
  | [], _, h => h
  | a :: acts, _, h => xinv_run cap acts (xinv_step cap h a)

/-! ### When no goroutine lags behind -/

structure XQuiet (x : Exit) : Prop where
  all : x.closed = true → ∀ g ∈ x.syncs, g.stage = .returned
  fine : x.panicked = false

theorem countP_zero {l : List SyncGo} (h : l.countP isRunning = 0) (hc : ∀ g ∈ l, g.stage ≠ .created) : ∀ g ∈ l, g.stage = .returned := by
  intro g hg
  have hr := List.countP_eq_zero.1 h g hg
  cases hs : g.stage with
  | created => exact absurd hs (hc g hg)
  | running t => simp [isRunning, hs] at hr
  | returned => rfl

theorem xquiet_step {logs : List Text} (cap : Nat) {x : Exit} (h : XInv logs x) (hq : XQuiet x) (a : XAct) (hn : Spec.NoLaggard (x.step cap a)) : XQuiet (x.step cap a) := by
  obtain ⟨q1, q2⟩ := hq
  have keep : ∀ {k : Nat} {log : Text} {st st' : SyncStage}, x.syncs[k]? = some { log := log, stage := st } → x.closed = true → st = .returned := by
    intro k log st st' hk hc
    exact q1 hc _ (List.mem_of_getElem? hk)
  revert hn
  unfold Exit.step
  by_cases hp : x.panicked = true ∨ x.main = .exited
  · rw [if_pos hp]; intro _; exact ⟨q1, q2⟩
  rw [if_neg hp]
  cases a with
  | signal => intro _; exact ⟨q1, q2⟩
  | enroll =>
    dsimp only
    split
    · intro _; exact ⟨q1, q2⟩
    · intro _; exact ⟨q1, q2⟩
  | spawn =>
    dsimp only
    split
    · intro hn
      refine ⟨?_, q2⟩
      intro hc g hg
      have hcr := (hn.1 hc).2
      rw [List.mem_append] at hg
      rcases hg with hg | hg
      · exact q1 hc g hg
      · have := hcr g (by simp only [List.mem_append]; exact .inr hg)
        rw [List.mem_singleton] at hg
        rw [hg] at this
        exact absurd rfl this
    · intro _; exact ⟨q1, q2⟩
  | finalize =>
    dsimp only
    split
    · intro _; exact ⟨q1, q2⟩
    · intro _; exact ⟨q1, q2⟩
  | begin k ms =>
    dsimp only
    split
    · rename_i log hk
      intro _
      refine ⟨?_, q2⟩
      intro hc
      have := keep (st' := .created) hk hc
      cases this
    · intro _; exact ⟨q1, q2⟩
  | send k =>
    dsimp only
    split
    · rename_i log m ms hk
      split
      · rename_i hc
        have := keep (st' := .created) hk hc
        cases this
      · split
        · rename_i hc _
          intro _
          exact ⟨fun e => absurd e hc, q2⟩
        · intro _; exact ⟨q1, q2⟩
    · intro _; exact ⟨q1, q2⟩
  | «return» k =>
    dsimp only
    split
    · split
      · intro _
        refine ⟨?_, q2⟩
        intro hc g hg
        rcases mem_setSync hg with hg | hg
        · exact q1 hc g hg
        · rw [hg]
      · intro _; exact ⟨q1, q2⟩
    · intro _; exact ⟨q1, q2⟩
  | dbBegin =>
    dsimp only
    split
    · intro _; exact ⟨q1, q2⟩
    · intro _; exact ⟨q1, q2⟩
  | dbTake =>
    dsimp only
    split
    · intro _; exact ⟨q1, q2⟩
    · intro _; exact ⟨q1, q2⟩
  | dbEnd =>
    dsimp only
    split
    · intro _; exact ⟨q1, q2⟩
    · intro _; exact ⟨q1, q2⟩
  | dbQuit =>
    dsimp only
    split
    · intro _; exact ⟨q1, q2⟩
    · intro _; exact ⟨q1, q2⟩
  | main =>
    dsimp only
    split
    · split
      · intro _; exact ⟨q1, q2⟩
      · intro _; exact ⟨q1, q2⟩
    · split
      · rename_i hd
        intro hn
        refine ⟨?_, q2⟩
        intro hc
        exact countP_zero (h.down ▸ hd) (hn.1 rfl).2
      · intro _; exact ⟨q1, q2⟩
    · split
      · intro _; exact ⟨q1, q2⟩
      · intro _; exact ⟨q1, q2⟩
    · intro _; exact ⟨q1, q2⟩

theorem xquiet_run {logs : List Text} (cap : Nat) : ∀ (acts : List XAct) {x : Exit}, XInv logs x → XQuiet x →
    (∀ n, Spec.NoLaggard (x.run cap (acts.take n))) → XQuiet (x.run cap acts)
  | [], _, _, hq, _ => hq
  | a :: acts, _, h, hq, hn =>
    xquiet_run cap acts (xinv_step cap h a) (xquiet_step cap h hq a (hn 1)) (fun n => hn (n + 1))

/-- **C94** (the order of messages, whatever the schedule). At every moment the messages that the database thread has treated are those sent first, in order, and those sent later are in the channel: none is lost on the way,
treated twice or overtaken. -/
theorem C94_order (cap : Nat) (logs : List Text) (acts : List XAct) :
    let x := (Exit.init logs).run cap acts
    x.handled ++ x.chan = x.sent :=
  (xinv_run cap acts (xinv_init logs)).flow

/-- **C94, in part** (what is missing: the goroutines call `Add` themselves, so the wait groups do not know of a goroutine that has been started and has not run yet; the statement fails without `NoLaggard`, see
`C94_early_fails`, `C94_closed_fails` and `C94_unsaved_fails`). If no goroutine lags behind `main`: the program never sends on the closed channel; and when it exits, every enrolled log has been synchronised, once,
and, unless there was a signal, every message that was sent has been treated. -/
theorem C94_done_partial (cap : Nat) (logs : List Text) (acts : List XAct) (hn : ∀ n, Spec.NoLaggard ((Exit.init logs).run cap (acts.take n))) :
    let x := (Exit.init logs).run cap acts
    x.panicked = false ∧
    (x.main = .exited → Spec.AllSynced logs x ∧ (x.cancelled = false → x.handled = x.sent)) := by
  intro x
  have h : XInv logs x := xinv_run cap acts (xinv_init logs)
  have hq : XQuiet x := xquiet_run cap acts (xinv_init logs) ⟨(fun e => by cases e), rfl⟩ hn
  refine ⟨hq.fine, fun he => ?_⟩
  have hlast : Spec.NoLaggard x := by
    have := hn acts.length
    rwa [List.take_length] at this
  have hc : x.closed = true := h.closed.2 (.inr he)
  have hf : x.pending = [] := h.fin (h.past (by rw [he]; intro e; cases e))
  have hs := (hlast.1 hc).1
  refine ⟨⟨?_, hq.all hc⟩, fun hnc => ?_⟩
  · have := h.logs
    rw [hf, hs] at this
    simpa using this
  · have hd : x.db = .returned := by
      cases hdb : x.db with
      | created => exact absurd hdb (hlast.2 he)
      | running => exact absurd hdb (h.out he)
      | returned => rfl
    rcases h.gone hd with hg | hg
    · rw [hnc] at hg; cases hg
    · have := h.flow
      rw [hg.2] at this
      simpa using this

/-- Two logs, three messages, a channel for one message. -/
def exitActs : List XAct :=
  [.dbBegin, .enroll, .spawn, .begin 0 [1, 2], .enroll, .spawn, .begin 1 [3], .finalize, .send 0, .send 0, .main, .dbTake, .send 1, .return 1, .send 1, .dbTake, .main, .send 0, .return 0, .return 1, .main, .main, .dbTake,
    .dbEnd, .main]

/-- The hypothesis of `C94_done_partial` holds of a run with two logs whose jobs alternate, and the program exits in it. -/
example : (∀ n, Spec.NoLaggard ((Exit.init [['a'], ['b']]).run 1 (exitActs.take n))) ∧ ((Exit.init [['a'], ['b']]).run 1 exitActs).main = .exited ∧
    ((Exit.init [['a'], ['b']]).run 1 exitActs).handled = [1, 3, 2] := by
  refine ⟨?_, by decide, by decide⟩
  have hall : ∀ n, n < 26 → Spec.NoLaggard ((Exit.init [['a'], ['b']]).run 1 (exitActs.take n)) := by
    unfold Spec.NoLaggard
    decide
  intro n
  by_cases hn : n < 26
  · exact hall n hn
  · have : exitActs.take n = exitActs.take 25 := by
      rw [List.take_of_length_le (by show 25 ≤ n; omega)]
      rfl
    rw [this]
    exact hall 25 (by omega)

/-- **C94 fails**: the program may exit with status 0, without a signal, before it has done anything for an enrolled log: the goroutine for the log has been started (or is about to be), but has not yet called `Add`, and `main`
waits for a counter that is zero. -/
theorem C94_early_fails : ∃ logs acts,
    let x := (Exit.init logs).run 16384 acts
    logs ≠ [] ∧ x.cancelled = false ∧ x.main = .exited ∧ x.sent = [] ∧ (∀ g ∈ x.syncs, g.stage = .created) ∧ ¬ Spec.AllSynced logs x := by
  refine ⟨[['a']], [.dbBegin, .enroll, .spawn, .finalize, .main, .main, .dbEnd, .main], ?_⟩
  unfold Spec.AllSynced
  decide

/-- **C94 fails** in a second way: a goroutine that begins after `main` has closed the channel sends on it, and the program panics. -/
theorem C94_closed_fails : ∃ logs acts, ((Exit.init logs).run 16384 acts).panicked = true ∧ ((Exit.init logs).run 16384 acts).cancelled = false :=
  ⟨[['a']], [.dbBegin, .enroll, .spawn, .finalize, .main, .main, .begin 0 [1], .send 0], by decide⟩

/-- **C94 fails** in a third way: every log has been synchronised, but the database thread has not yet begun, and `main` exits with the messages in the channel. -/
theorem C94_unsaved_fails : ∃ logs acts,
    let x := (Exit.init logs).run 16384 acts
    x.cancelled = false ∧ x.main = .exited ∧ Spec.AllSynced logs x ∧ x.sent = [1] ∧ x.handled = [] := by
  refine ⟨[['a']], [.enroll, .spawn, .begin 0 [1], .send 0, .return 0, .finalize, .main, .main, .main], ?_⟩
  unfold Spec.AllSynced
  decide

/-! ### The program can always end -/

/-- A bound on the steps that are left. -/
def mainWeight : MainStage → Nat
  | .enrolling => 3
  | .waitDown => 2
  | .waitThread => 1
  | .exited => 0

def dbWeight : DbStage → Nat
  | .created => 2
  | .running => 1
  | .returned => 0

def exitWeight (x : Exit) : Nat :=
  8 * x.pending.length + 7 * x.slot.toList.length + (x.syncs.map goWeight).sum + x.chan.length + (if x.finalized then 0 else 1) + dbWeight x.db + mainWeight x.main

theorem stages_cases (l : List SyncGo) :
    (∃ (k : Nat) (log : Text), l[k]? = some { log := log, stage := .created }) ∨ (∃ (k : Nat) (log : Text) (todo : List Nat), l[k]? = some { log := log, stage := .running todo }) ∨ l.countP isRunning = 0 := by
  induction l with
  | nil => exact .inr (.inr rfl)
  | cons g l ih =>
    obtain ⟨log, st⟩ := g
    cases st with
    | created => exact .inl ⟨0, log, rfl⟩
    | running todo => exact .inr (.inl ⟨0, log, todo, rfl⟩)
    | returned =>
      rcases ih with ⟨k, lg, hk⟩ | ⟨k, lg, todo, hk⟩ | h
      · exact .inl ⟨k + 1, lg, by simpa using hk⟩
      · exact .inr (.inl ⟨k + 1, lg, todo, by simpa using hk⟩)
      · exact .inr (.inr (by simp [isRunning, h]))

/-- As long as the program has neither exited nor panicked, some step other than a signal brings it closer to an end. -/
theorem exit_progress {logs : List Text} {cap : Nat} (hcap : 0 < cap) {x : Exit} (h : XInv logs x) (hp : x.panicked = false) (hm : x.main ≠ .exited) :
    ∃ a, a ≠ .signal ∧ (exitWeight (x.step cap a) < exitWeight x ∨ (x.step cap a).panicked = true) := by
  have hgo : ¬ (x.panicked = true ∨ x.main = .exited) := by
    rintro (e | e)
    · rw [hp] at e; cases e
    · exact hm e
  cases hs : x.slot with
  | some log =>
    refine ⟨.spawn, (fun e => by cases e), .inl ?_⟩
    simp [Exit.step, hgo, hs, exitWeight, goWeight]
    omega
  | none =>
  cases hpe : x.pending with
  | cons log rest =>
    refine ⟨.enroll, (fun e => by cases e), .inl ?_⟩
    simp [Exit.step, hgo, hs, hpe, exitWeight]
    omega
  | nil =>
  cases hf : x.finalized with
  | false =>
    refine ⟨.finalize, (fun e => by cases e), .inl ?_⟩
    simp [Exit.step, hgo, hs, hpe, hf, exitWeight]
  | true =>
  by_cases hme : x.main = .enrolling
  · refine ⟨.main, (fun e => by cases e), .inl ?_⟩
    simp [Exit.step, hme, hf, hp, exitWeight, mainWeight]
  rcases stages_cases x.syncs with ⟨k, log, hk⟩ | ⟨k, log, todo, hk⟩ | hz
  · refine ⟨.begin k [], (fun e => by cases e), .inl ?_⟩
    have := sum_set goWeight { log := log, stage := .running [] } _ _ _ hk
    simp [goWeight, -List.map_set] at this
    simp [Exit.step, hgo, hk, exitWeight, setSync, -List.map_set]
    omega
  · cases todo with
    | nil =>
      refine ⟨.return k, (fun e => by cases e), .inl ?_⟩
      have := sum_set goWeight { log := log, stage := .returned } _ _ _ hk
      simp [goWeight, -List.map_set] at this
      simp [Exit.step, hgo, hk, exitWeight, setSync, -List.map_set]
      omega
    | cons m ms =>
      cases hc : x.closed with
      | true =>
        refine ⟨.send k, (fun e => by cases e), .inr ?_⟩
        simp [Exit.step, hgo, hk, hc]
      | false =>
        by_cases hl : x.chan.length < cap
        · refine ⟨.send k, (fun e => by cases e), .inl ?_⟩
          have := sum_set goWeight { log := log, stage := .running ms } _ _ _ hk
          simp [goWeight, -List.map_set] at this
          simp [Exit.step, hgo, hk, hc, hl, exitWeight, setSync, -List.map_set]
          omega
        · cases hd : x.db with
          | created =>
            refine ⟨.dbBegin, (fun e => by cases e), .inl ?_⟩
            simp [Exit.step, hgo, hd, exitWeight, dbWeight]
          | running =>
            cases hch : x.chan with
            | nil => rw [hch] at hl; exact absurd hcap hl
            | cons c cs =>
              refine ⟨.dbTake, (fun e => by cases e), .inl ?_⟩
              simp [Exit.step, hgo, hd, hch, exitWeight]
          | returned =>
            rcases h.gone hd with hg | hg
            · refine ⟨.return k, (fun e => by cases e), .inl ?_⟩
              have := sum_set goWeight { log := log, stage := .returned } _ _ _ hk
              simp [goWeight, -List.map_set] at this
              simp [Exit.step, hgo, hk, hg, exitWeight, setSync, -List.map_set]
              omega
            · rw [hc] at hg; cases hg.1
  · cases hmn : x.main with
    | enrolling => exact absurd hmn hme
    | exited => exact absurd hmn hm
    | waitDown =>
      refine ⟨.main, (fun e => by cases e), .inl ?_⟩
      have hd0 : x.downWG = 0 := h.down.trans hz
      simp [Exit.step, hp, hmn, hd0, exitWeight, mainWeight]
    | waitThread =>
      have hc : x.closed = true := h.closed.2 (.inl hmn)
      cases hd : x.db with
      | created =>
        refine ⟨.main, (fun e => by cases e), .inl ?_⟩
        have ht : x.threadWG = 0 := by rw [h.thread, hd]; rfl
        simp [Exit.step, hp, hmn, ht, exitWeight, mainWeight]
      | returned =>
        refine ⟨.main, (fun e => by cases e), .inl ?_⟩
        have ht : x.threadWG = 0 := by rw [h.thread, hd]; rfl
        simp [Exit.step, hp, hmn, ht, exitWeight, mainWeight]
      | running =>
        cases hch : x.chan with
        | nil =>
          refine ⟨.dbEnd, (fun e => by cases e), .inl ?_⟩
          simp [Exit.step, hp, hmn, hd, hc, hch, exitWeight, dbWeight]
        | cons c cs =>
          refine ⟨.dbTake, (fun e => by cases e), .inl ?_⟩
          simp [Exit.step, hp, hmn, hd, hch, exitWeight]

theorem exit_reaches {logs : List Text} {cap : Nat} (hcap : 0 < cap) : ∀ (n : Nat) (x : Exit), XInv logs x → exitWeight x ≤ n →
    ∃ more, XAct.signal ∉ more ∧ ((x.run cap more).main = .exited ∨ (x.run cap more).panicked = true)
  | 0, x, h, hw => by
    refine ⟨[], by simp, .inl ?_⟩
    show x.main = .exited
    cases hm : x.main with
    | exited => rfl
    | _ => simp [exitWeight, hm, mainWeight] at hw
  | n + 1, x, h, hw => by
    cases hp : x.panicked with
    | true => exact ⟨[], by simp, .inr hp⟩
    | false =>
      by_cases hm : x.main = .exited
      · exact ⟨[], by simp, .inl hm⟩
      · obtain ⟨a, hns, ha⟩ := exit_progress hcap h hp hm
        rcases ha with ha | ha
        · obtain ⟨more, hnot, hres⟩ := exit_reaches hcap n (x.step cap a) (xinv_step cap h a) (by omega)
          refine ⟨a :: more, ?_, hres⟩
          intro hmem
          rcases List.mem_cons.1 hmem with e | e
          · exact hns e.symm
          · exact hnot e
        · refine ⟨[a], ?_, .inr ha⟩
          intro hmem
          exact hns (List.mem_singleton.1 hmem).symm

/-- **C94** (no deadlock). Wherever the program is, with any schedule behind it and with or without a signal, its goroutines and `main` can go on, without a further signal, until it ends: `main` does not wait for ever
for a goroutine that waits for room in the channel, nor the database thread for a message that never comes. -/
theorem C94_no_deadlock (cap : Nat) (hcap : 0 < cap) (logs : List Text) (acts : List XAct) :
    ∃ more, XAct.signal ∉ more ∧
      (((Exit.init logs).run cap (acts ++ more)).main = .exited ∨ ((Exit.init logs).run cap (acts ++ more)).panicked = true) := by
  obtain ⟨more, hn, h⟩ := exit_reaches hcap _ _ (xinv_run cap acts (xinv_init logs)) (Nat.le_refl _)
  refine ⟨more, hn, ?_⟩
  have : (Exit.init logs).run cap (acts ++ more) = ((Exit.init logs).run cap acts).run cap more := List.foldl_append
  rw [this]
  exact h

/-- A database thread that gave up after a signal, with the channel full and a sender waiting: the program still ends. -/
example : let x := (Exit.init [['a']]).run 1 [.dbBegin, .enroll, .spawn, .begin 0 [1, 2, 3], .finalize, .send 0, .main, .signal, .dbQuit, .send 0]
    x.chan = [1] ∧ x.db = .returned ∧ x.main = .waitDown ∧ (x.run 1 [.return 0, .main, .main]).main = .exited := by decide

end Props
end Verif
