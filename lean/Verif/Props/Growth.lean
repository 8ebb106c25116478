import Verif.Lemmas.GrowthDb
import Verif.Props.EndToEnd
/-!
Property C106: what has been covered stays covered.
-/
namespace Verif.Props
open Verif.Spec

/-! ### what ct-fetch saves -/

/-- Every job starts when nothing is left of the log's earlier ones. -/
def AllOneAtATime (env : Env) : Sys → List Act → Prop
  | _, [] => True
  | y, a :: as => OneAtATime y a ∧ AllOneAtATime env (y.step env a) as

theorem saved_grows {w : World} {env : Env} (hH : ∀ x, (env.H x).length = 32) (log : Text) (acts : List Act) : ∀ y, SysInv w env y → ChainInv y log →
    AllAllowed w env y acts → AllOneAtATime env y acts → ChainInv (y.run env acts) log ∧ Grows (y.saved log) ((y.run env acts).saved log) := by
  induction acts with
  | nil => intro y _ hc _ _; exact ⟨hc, Grows.refl _⟩
  | cons a as ih =>
    intro y hi hc ha ho
    obtain ⟨h1, h2⟩ := chainInv_step hi hc a ha.1 ho.1
    obtain ⟨h3, h4⟩ := ih _ (sysInv_step hH hi a ha.1) h1 ha.2 ho.2
    exact ⟨h3, h2.trans h4⟩

theorem allAllowed_append {w : World} {env : Env} (a b : List Act) : ∀ y, AllAllowed w env y (a ++ b) ↔ AllAllowed w env y a ∧ AllAllowed w env (y.run env a) b := by
  induction a with
  | nil => intro y; simp [AllAllowed, Sys.run]
  | cons x a ih =>
    intro y
    have := ih (y.step env x)
    simp only [List.cons_append, AllAllowed, this, Sys.run, List.foldl_cons, and_assoc]

theorem allOne_append {env : Env} (a b : List Act) : ∀ y, AllOneAtATime env y (a ++ b) ↔ AllOneAtATime env y a ∧ AllOneAtATime env (y.run env a) b := by
  induction a with
  | nil => intro y; simp [AllOneAtATime, Sys.run]
  | cons x a ih =>
    intro y
    have := ih (y.step env x)
    simp only [List.cons_append, AllOneAtATime, this, Sys.run, List.foldl_cons, and_assoc]

/-- **C106, what is saved (partial).** Full statement: the range of entries and of timestamps that is saved for a log never gets smaller. Proved for every run of ct-fetch, with failures of
the database and crashes anywhere, in which a job of a log starts only when the states of its earlier jobs have been saved. Missing: jobs that start earlier (`C106_stale_start_fails`). -/
theorem C106_saved_partial (w : World) (env : Env) (hH : ∀ x, (env.H x).length = 32) (acts1 acts2 : List Act) (ha : AllAllowed w env Sys.init (acts1 ++ acts2))
    (ho : AllOneAtATime env Sys.init (acts1 ++ acts2)) (log : Text) :
    Grows ((Sys.init.run env acts1).saved log) ((Sys.init.run env (acts1 ++ acts2)).saved log) := by
  obtain ⟨a1, a2⟩ := (allAllowed_append acts1 acts2 _).1 ha
  obtain ⟨o1, o2⟩ := (allOne_append acts1 acts2 _).1 ho
  have h1 := saved_grows hH log acts1 _ (sysInv_init w env) (chainInv_init log) a1 o1
  have h2 := (saved_grows hH log acts2 _ (sysInv_run hH acts1 _ (sysInv_init w env) a1) h1.1 a2 o2).2
  have : Sys.init.run env (acts1 ++ acts2) = (Sys.init.run env acts1).run env acts2 := List.foldl_append ..
  rw [this]
  exact h2

/-! ### one job per log and process -/

/-- The log whose job an action starts. -/
def startOf : Act → Option Text
  | .start log _ _ _ _ _ => some log
  | .startTiled log _ _ _ _ _ _ _ => some log
  | _ => none

/-- Between two starts of the process, each log has at most one job. `done` lists the logs that have had theirs. -/
def OncePerProcess : List Text → List Act → Prop
  | _, [] => True
  | done, a :: as => match a with
    | .crash => OncePerProcess [] as
    | a => match startOf a with
      | some log => log ∉ done ∧ OncePerProcess (log :: done) as
      | none => OncePerProcess done as

theorem evMsg_log {log log' : Text} {e : Ev} {s : WState} (h : Msg.state log s ∈ evMsg log' e) : log' = log := by
  cases e with
  | state t =>
    simp only [evMsg, List.mem_singleton, Msg.state.injEq] at h
    exact h.1.symm
  | entry i x t it =>
    cases it with
    | none => cases h
    | some it => simp only [evMsg, List.mem_singleton] at h; cases h

/-- Only a start makes a log unsettled. -/
theorem settled_step {env : Env} {y : Sys} {log : Text} (h : Settled y log) (a : Act) (ha : startOf a ≠ some log) : Settled (y.step env a) log := by
  obtain ⟨h1, h2, h3, h4⟩ := h
  cases a with
  | start l batch now sth proof rs =>
    refine ⟨fun p hp => ?_, h2, h3, h4⟩
    rcases List.mem_append.1 hp with hp | hp
    · exact h1 p hp
    · rw [List.mem_singleton.1 hp]
      exact fun e => ha (congrArg some e)
  | startTiled l batch now sth es1 es2 e1 e2 =>
    refine ⟨fun p hp => ?_, h2, h3, h4⟩
    rcases List.mem_append.1 hp with hp | hp
    · exact h1 p hp
    · rw [List.mem_singleton.1 hp]
      exact fun e => ha (congrArg some e)
  | emit k =>
    simp only [Sys.step]
    split
    · rename_i l e rest hk
      have hl := h1 _ (List.mem_of_getElem? hk)
      refine ⟨fun p hp => ?_, fun s hs => ?_, h3, h4⟩
      · rcases List.mem_or_eq_of_mem_set hp with hp | hp
        · exact h1 p hp
        · rw [hp]; exact hl
      · rcases List.mem_append.1 hs with hs | hs
        · exact h2 s hs
        · exact hl (evMsg_log hs)
    · exact ⟨h1, h2, h3, h4⟩
  | stop k => exact ⟨fun p hp => h1 p (List.mem_of_mem_eraseIdx hp), h2, h3, h4⟩
  | receive b =>
    simp only [Sys.step]
    split
    · rename_i m rest hp hc
      have h2' : ∀ s, Msg.state log s ∉ rest := fun s hs => h2 s (by rw [hc]; exact List.mem_cons_of_mem _ hs)
      split
      · exact ⟨h1, h2', h3, h4⟩
      · refine ⟨h1, h2', fun s e => ?_, (fun s e => by cases e)⟩
        cases e
        exact h2 s (by rw [hc]; exact List.mem_cons_self ..)
    · exact ⟨h1, h2, h3, h4⟩
  | storeFails t =>
    simp only [Sys.step]
    split <;> exact ⟨h1, h2, h3, h4⟩
  | storeOk =>
    simp only [Sys.step]
    split
    · rename_i m hp
      refine ⟨h1, h2, (fun s e => by cases e), fun s e => ?_⟩
      cases e
      exact h3 s hp
    · exact ⟨h1, h2, h3, h4⟩
  | saveOk =>
    simp only [Sys.step]
    split
    · exact ⟨h1, h2, (fun s e => by cases e), (fun s e => by cases e)⟩
    · exact ⟨h1, h2, h3, h4⟩
  | saveFails b =>
    simp only [Sys.step]
    split
    · rename_i m hp
      refine ⟨h1, h2, fun s e => ?_, (fun s e => by cases e)⟩
      cases e
      exact h4 s hp
    · exact ⟨h1, h2, h3, h4⟩
  | crash => exact ⟨(fun p hp => by cases hp), (fun s hs => by cases hs), (fun s e => by cases e), (fun s e => by cases e)⟩

theorem settled_crash (env : Env) (y : Sys) (log : Text) : Settled (y.step env .crash) log :=
  ⟨(fun p hp => by cases hp), (fun s hs => by cases hs), (fun s e => by cases e), (fun s e => by cases e)⟩

theorem once_oneAtATime (env : Env) (acts : List Act) : ∀ y done, (∀ log, log ∉ done → Settled y log) → OncePerProcess done acts → AllOneAtATime env y acts := by
  induction acts with
  | nil => intro y done _ _; trivial
  | cons a as ih =>
    intro y done hd ho
    have quiet : startOf a = none → OncePerProcess done as → AllOneAtATime env (y.step env a) as :=
      fun hs ho => ih _ done (fun log hl => settled_step (hd log hl) a (by rw [hs]; simp)) ho
    have starts : ∀ l, startOf a = some l → OncePerProcess (l :: done) as → AllOneAtATime env (y.step env a) as := by
      intro l hs ho
      refine ih _ (l :: done) (fun log hl => settled_step (hd log (fun h => hl (List.mem_cons_of_mem _ h))) a ?_) ho
      rw [hs]
      intro e
      exact hl (by rw [Option.some.inj e]; exact List.mem_cons_self ..)
    cases a with
    | start l batch now sth proof rs => exact ⟨hd l ho.1, starts l rfl ho.2⟩
    | startTiled l batch now sth es1 es2 e1 e2 => exact ⟨hd l ho.1, starts l rfl ho.2⟩
    | crash => exact ⟨trivial, ih _ [] (fun log _ => settled_crash env y log) ho⟩
    | emit k => exact ⟨trivial, quiet rfl ho⟩
    | stop k => exact ⟨trivial, quiet rfl ho⟩
    | receive b => exact ⟨trivial, quiet rfl ho⟩
    | storeFails t => exact ⟨trivial, quiet rfl ho⟩
    | storeOk => exact ⟨trivial, quiet rfl ho⟩
    | saveOk => exact ⟨trivial, quiet rfl ho⟩
    | saveFails b => exact ⟨trivial, quiet rfl ho⟩

/-- **C106, without `RunForever`.** If every process has at most one job for each log (ct-fetch.go:156-158; no log is enrolled twice), what is saved never gets smaller. -/
theorem C106_one_job (w : World) (env : Env) (hH : ∀ x, (env.H x).length = 32) (acts1 acts2 : List Act) (ha : AllAllowed w env Sys.init (acts1 ++ acts2))
    (ho : OncePerProcess [] (acts1 ++ acts2)) (log : Text) : Grows ((Sys.init.run env acts1).saved log) ((Sys.init.run env (acts1 ++ acts2)).saved log) :=
  C106_saved_partial w env hH acts1 acts2 ha
    (once_oneAtATime env _ _ [] (fun _ _ => ⟨(fun p hp => by cases hp), (fun s hs => by cases hs), (fun s e => by cases e), (fun s e => by cases e)⟩) ho) log

/-! ### what is published -/

/-- A careful run: jobs of logs with proper names, one at a time. -/
def Careful (v : Whole) : WAct → Prop
  | .fetch a => OneAtATime v.y a ∧ ∀ log, startOf a = some log → Named log
  | _ => True

def AllCareful (H : Bytes → Bytes) (mt : Meta) (env : Env) : Whole → List WAct → Prop
  | _, [] => True
  | v, a :: as => Careful v a ∧ AllCareful H mt env (v.step H mt env a) as

structure CInv (v : Whole) : Prop where
  g : GInv v.db
  chain : ∀ log, ChainInv v.y log
  named : ∀ log, ¬ Named log → Settled v.y log
  load : ∀ log, Named log → loadState v.db.logs log = v.y.saved log

theorem savedBy_none {env : Env} {y : Sys} {a : Act} (h : savedBy y a = none) : (y.step env a).saved = y.saved := by
  cases a with
  | saveOk =>
    simp only [Sys.step]
    simp only [savedBy] at h
    split
    · rename_i m hp
      rw [hp] at h
      cases m with
      | cert l i => rfl
      | state l s => cases h
    · rfl
  | saveFails b =>
    simp only [Sys.step]
    split
    · rename_i m hp
      cases b with
      | false => rfl
      | true =>
        simp only [savedBy] at h
        rw [hp] at h
        cases m with
        | cert l i => rfl
        | state l s => cases h
    · rfl
  | emit k => simp only [Sys.step]; split <;> rfl
  | receive b =>
    simp only [Sys.step]
    split
    · split <;> rfl
    · rfl
  | storeFails t => simp only [Sys.step]; split <;> rfl
  | storeOk => simp only [Sys.step]; split <;> rfl
  | _ => rfl

theorem savedBy_some {env : Env} {y : Sys} {a : Act} {log : Text} {s : WState} (h : savedBy y a = some (log, s)) :
    y.phase = .saving (.state log s) ∧ (y.step env a).saved = applySave y.saved (.state log s) := by
  unfold savedBy at h
  split at h
  · split at h
    · rename_i hp; cases h; simp only [Sys.step, hp]; exact ⟨trivial, trivial⟩
    · cases h
  · split at h
    · rename_i hp; cases h; simp only [Sys.step, hp, if_true]; exact ⟨trivial, trivial⟩
    · cases h
  · cases h

theorem find_key {logs : List (Text × CTLogState)} (h : logs.Pairwise (fun p q => p.1 ≠ q.1)) {p : Text × CTLogState} (hp : p ∈ logs) :
    logs.find? (fun q => decide (q.1 = p.1)) = some p := by
  cases hf : logs.find? (fun q => decide (q.1 = p.1)) with
  | none =>
    rw [List.find?_eq_none] at hf
    exact absurd (decide_eq_true rfl) (hf p hp)
  | some q =>
    have h1 := List.mem_of_find?_eq_some hf
    have h2 : q.1 = p.1 := by simpa using List.find?_some hf
    rw [distinct_eq h q h1 p hp h2]

theorem loadState_mem {db : Db} (hg : GInv db) {p : Text × CTLogState} (hp : p ∈ db.logs) : loadState db.logs p.2.shortURL = decState p.2 := by
  unfold loadState
  rw [← (hg.keys p hp).1, find_key hg.nodup hp]
  dsimp only
  rw [if_pos rfl]

theorem find_filter_ne (logs : List (Text × CTLogState)) {k k' : Text} (h : k' ≠ k) :
    (logs.filter (fun p => decide (p.1 ≠ k))).find? (fun p => decide (p.1 = k')) = logs.find? (fun p => decide (p.1 = k')) := by
  rw [List.find?_filter]
  congr 1
  funext p
  by_cases e : p.1 = k'
  · simp [e, h]
  · simp [e]

theorem loadState_putLog (logs : List (Text × CTLogState)) (log log' : Text) (hl : Named log) (hl' : Named log') (c : CTLogState) (hc : c.shortURL = log) :
    loadState (putLog logs (logKey log) c) log' = if log' = log then decState c else loadState logs log' := by
  unfold loadState putLog
  rw [List.find?_cons]
  by_cases e : log' = log
  · subst e
    simp [hc]
  · have hk : logKey log' ≠ logKey log := fun h => e (logKey_inj hl' hl h)
    rw [if_neg e, decide_eq_false (fun h => hk h.symm), find_filter_ne logs hk]

/-- A state that is already there may be saved. -/
theorem fixed_save {db db' : Db} (hg : GInv db) (hl : db'.logs = db.logs) {s : CTLogState} (h : db' = { db with logs := putLog db.logs (logKey s.shortURL) s }) :
    UpdatedC s ∧ ∀ p ∈ db.logs, Rel p.2 s := by
  have h1 : db.logs = putLog db.logs (logKey s.shortURL) s := by
    have := congrArg Db.logs h
    rw [hl] at this
    exact this
  have hm : (logKey s.shortURL, s) ∈ db.logs := by rw [h1]; exact List.mem_cons_self ..
  refine ⟨(hg.keys _ hm).2, fun p hp e => ?_⟩
  have : p = (logKey s.shortURL, s) := distinct_eq hg.nodup p hp _ hm (by rw [(hg.keys p hp).1, e])
  rw [this]
  exact GrowsC.refl _

theorem ensure_eff (db : Db) (hg : GInv db) : GInv (db.step .ensure) ∧ Under (published db) (published (db.step .ensure)) := by
  have he := step_eff db .ensure trivial
  refine gInv_eff hg (fun s hs => ?_) he
  have hcase : (db.step .ensure).logs = db.logs ∨ (db.step .ensure).cacheEpoch = db.diskEpoch + 1 ∧ epochsAgree db.cacheEpoch db.diskEpoch = false := by
    show db.ensure.logs = db.logs ∨ db.ensure.cacheEpoch = db.diskEpoch + 1 ∧ epochsAgree db.cacheEpoch db.diskEpoch = false
    unfold Db.ensure
    split
    · split
      · exact Or.inl rfl
      · rename_i hne
        split
        · exact Or.inl rfl
        · exact Or.inr ⟨rfl, by simpa using hne⟩
    · exact Or.inl rfl
  rcases hcase with h | ⟨h1, h2⟩
  · exact fixed_save hg h hs
  · have h3 := congrArg Db.cacheEpoch hs
    rw [h1] at h3
    unfold epochsAgree at h2
    exact absurd (Or.inl h3.symm) (of_decide_eq_false h2)

theorem cInv_step {H : Bytes → Bytes} {mt : Meta} {w : World} {env : Env} (hid : ∀ log, (mt.id log).length = 32) {v : Whole} (hw : WInv H mt w env v) (hi : CInv v) (a : WAct)
    (ha : WAllowed w env v a) (hc : Careful v a) : CInv (v.step H mt env a) ∧ Under (published v.db) (published (v.step H mt env a).db) := by
  cases a with
  | other c =>
    unfold Whole.step
    dsimp only
    split
    · rename_i ho
      have he := step_eff v.db c ha
      have hl := (other_logs v.db c ho ha).1
      obtain ⟨h1, h2⟩ := gInv_eff hi.g (fun s hs => fixed_save hi.g hl hs) he
      refine ⟨⟨h1, hi.chain, hi.named, fun log hn => ?_⟩, h2⟩
      show loadState (v.db.step c).logs log = v.y.saved log
      rw [hl]
      exact hi.load log hn
    · exact ⟨hi, under_refl hi.g.pub.ord⟩
  | restart =>
    obtain ⟨h1, h2⟩ := ensure_eff v.db hi.g
    exact ⟨⟨h1, fun log => ⟨Nat.zero_le _, trivial⟩, fun log _ => settled_crash env v.y log, fun _ _ => rfl⟩, h2⟩
  | fetch a =>
    obtain ⟨ha1, ha2, ha3⟩ := ha
    obtain ⟨hc1, hc2⟩ := hc
    obtain ⟨⟨new, hnew⟩, _⟩ := step_grows env v.y a
    have hdrop : (v.y.step env a).stored.drop v.y.stored.length = new := by rw [hnew]; simp
    have hins : Eff v.db (v.db.step (.insert (new.map (encItem H mt)))) := by
      refine step_eff v.db _ (fun p hp => ?_)
      obtain ⟨x, hx, rfl⟩ := List.mem_map.1 hp
      show (asSerial (newMember _ _ _)).length < 32768
      rw [(C01_member_roundtrip _ _ _ (hid _)).1]
      exact ha3 x (by rw [hnew]; exact List.mem_append_right _ hx)
    obtain ⟨g1, u1⟩ := gInv_eff (db' := v.db.step (.insert (new.map (encItem H mt)))) hi.g (fun s hs => fixed_save (db' := v.db.step (.insert (new.map (encItem H mt)))) hi.g rfl hs) hins
    have hchain := fun log => (chainInv_step hw.sys (hi.chain log) a ha1 hc1).1
    have hnamed : ∀ log, ¬ Named log → Settled (v.y.step env a) log :=
      fun log hl => settled_step (hi.named log hl) a (fun e => hl (hc2 log e))
    unfold Whole.step
    dsimp only
    unfold dbActs
    rw [hdrop]
    cases hsv : savedBy v.y a with
    | none =>
      refine ⟨⟨g1, hchain, hnamed, fun log hn => ?_⟩, u1⟩
      show loadState v.db.logs log = (v.y.step env a).saved log
      rw [savedBy_none hsv]
      exact hi.load log hn
    | some p =>
      obtain ⟨log, s⟩ := p
      obtain ⟨hp, hsaved⟩ := savedBy_some (env := env) hsv
      have hfit := ha2 log s hsv
      have hn : Named log := by
        refine Classical.byContradiction (fun hn => ?_)
        exact (hi.named log hn).2.2.2 s hp
      have hgrow : s.lastUpdate ≠ none ∧ Grows (v.y.saved log) s := by
        have h := (hi.chain log).chain
        unfold pending at h
        rw [hp] at h
        simp only [phaseStates, msgStates, if_true] at h
        exact h.1
      have he2 := step_eff (v.db.step (.insert (new.map (encItem H mt)))) (.saveLog (encState mt log s)) trivial
      have hrel : UpdatedC (encState mt log s) ∧ ∀ q ∈ v.db.logs, Rel q.2 (encState mt log s) := by
        refine ⟨⟨hn, hgrow.1⟩, fun q hq e => growsC_of_dec ?_⟩
        have hld := loadState_mem hi.g hq
        rw [show q.2.shortURL = log from e, hi.load log hn] at hld
        rw [← hld, decState_encState mt log s hfit]
        exact hgrow.2
      have hs2 : ∀ s', (v.db.step (.insert (new.map (encItem H mt)))).step (.saveLog (encState mt log s)) =
          ({ v.db.step (.insert (new.map (encItem H mt))) with logs := putLog (v.db.step (.insert (new.map (encItem H mt)))).logs (logKey s'.shortURL) s' } : Db) →
          UpdatedC s' ∧ ∀ p ∈ (v.db.step (.insert (new.map (encItem H mt)))).logs, Rel p.2 s' := by
        intro s' hs'
        have hl : putLog v.db.logs (logKey log) (encState mt log s) = putLog v.db.logs (logKey s'.shortURL) s' := congrArg Db.logs hs'
        have : encState mt log s = s' := by
          unfold putLog at hl
          exact (Prod.mk.inj (List.cons.inj hl).1).2
        subst this
        exact hrel
      obtain ⟨g2, u2⟩ := gInv_eff g1 hs2 he2
      refine ⟨⟨g2, hchain, hnamed, fun log' hn' => ?_⟩, u1.trans u2⟩
      show loadState (putLog v.db.logs (logKey log) (encState mt log s)) log' = (v.y.step env a).saved log'
      rw [loadState_putLog v.db.logs log log' hn hn' _ rfl, hsaved, decState_encState mt log s hfit, hi.load log' hn']
      rfl

theorem cInv_run {H : Bytes → Bytes} {mt : Meta} {w : World} {env : Env} (hid : ∀ log, (mt.id log).length = 32) (hH : ∀ x, (env.H x).length = 32) (acts : List WAct) :
    ∀ v, WInv H mt w env v → CInv v → WAllAllowed H mt w env v acts → AllCareful H mt env v acts →
      CInv (v.run H mt env acts) ∧ Under (published v.db) (published (v.run H mt env acts).db) := by
  induction acts with
  | nil => intro v _ hi _ _; exact ⟨hi, under_refl hi.g.pub.ord⟩
  | cons a as ih =>
    intro v hw hi ha hc
    obtain ⟨h1, h2⟩ := cInv_step hid hw hi a ha.1 hc.1
    obtain ⟨h3, h4⟩ := ih _ (winv_step hid hH hw a ha.1) h1 ha.2 hc.2
    exact ⟨h3, h2.trans h4⟩

theorem cInv_init : CInv Whole.init :=
  ⟨gInv_init, chainInv_init, fun _ _ => ⟨(fun p hp => by cases hp), (fun s hs => by cases hs), (fun s e => by cases e), (fun s e => by cases e)⟩, fun _ _ => rfl⟩

theorem wAllAllowed_appendG {H : Bytes → Bytes} {mt : Meta} {w : World} {env : Env} (a b : List WAct) : ∀ v, WAllAllowed H mt w env v (a ++ b) ↔
    WAllAllowed H mt w env v a ∧ WAllAllowed H mt w env (v.run H mt env a) b := by
  induction a with
  | nil => intro v; simp [WAllAllowed, Whole.run]
  | cons x a ih =>
    intro v
    have := ih (v.step H mt env x)
    simp only [List.cons_append, WAllAllowed, this, Whole.run, List.foldl_cons, and_assoc]

theorem allCareful_append {H : Bytes → Bytes} {mt : Meta} {env : Env} (a b : List WAct) : ∀ v, AllCareful H mt env v (a ++ b) ↔
    AllCareful H mt env v a ∧ AllCareful H mt env (v.run H mt env a) b := by
  induction a with
  | nil => intro v; simp [AllCareful, Whole.run]
  | cons x a ih =>
    intro v
    have := ih (v.step H mt env x)
    simp only [List.cons_append, AllCareful, this, Whole.run, List.foldl_cons, and_assoc]

/-- **C106, what is published (partial).** Full statement: what the published file of log states says to be covered stays covered by every later one. Proved for every run of ct-fetch and of commits on one
database, in any interleaving, with restarts, restores and failures anywhere (except loss of the Redis data), in which a job of a log starts only when the states of its earlier jobs have been saved: the state
that counts for a log in the later file has an update time, reaches at least as far back and at least as far on, in entries and in timestamps. Missing: jobs that start earlier (`C106_stale_start_fails`), and
histories that lose Redis data. -/
theorem C106_published_partial (H : Bytes → Bytes) (mt : Meta) (w : World) (env : Env) (hid : ∀ log, (mt.id log).length = 32) (hH : ∀ x, (env.H x).length = 32) (acts1 acts2 : List WAct)
    (ha : WAllAllowed H mt w env Whole.init (acts1 ++ acts2)) (hc : AllCareful H mt env Whole.init (acts1 ++ acts2)) (sts : List CTLogState)
    (hst : (Whole.init.run H mt env acts1).db.ctlogs = some sts) (url : Text) (c : CTLogState) (hn : newest sts url = some c) :
    ∃ sts' c', (Whole.init.run H mt env (acts1 ++ acts2)).db.ctlogs = some sts' ∧ newest sts' url = some c' ∧ c.lastUpdateTime ≠ none ∧ c'.lastUpdateTime ≠ none ∧
      c'.minEntry ≤ c.minEntry ∧ c.maxEntry ≤ c'.maxEntry ∧ c'.minTimestamp ≤ c.minTimestamp ∧ c.maxTimestamp ≤ c'.maxTimestamp := by
  obtain ⟨a1, a2⟩ := (wAllAllowed_appendG acts1 acts2 _).1 ha
  obtain ⟨o1, o2⟩ := (allCareful_append acts1 acts2 _).1 hc
  obtain ⟨i1, _⟩ := cInv_run hid hH acts1 _ (winv_init H mt w env) cInv_init a1 o1
  obtain ⟨_, u2⟩ := cInv_run hid hH acts2 _ (winv_run hid hH acts1 _ (winv_init H mt w env) a1) i1 a2 o2
  have hrun : Whole.init.run H mt env (acts1 ++ acts2) = (Whole.init.run H mt env acts1).run H mt env acts2 := List.foldl_append ..
  rw [hrun]
  have hp : published (Whole.init.run H mt env acts1).db = sts := by unfold published; rw [hst]; rfl
  rw [hp] at u2
  obtain ⟨hm, hu⟩ := newest_some hn
  obtain ⟨c', h1, h2⟩ := u2 c hm
  have hlu : c.lastUpdateTime ≠ none := (i1.g.pub.named c (by rw [hp]; exact hm)).2
  obtain ⟨h3, h4⟩ := h2 hlu
  rw [hu] at h1
  cases hcl : ((Whole.init.run H mt env acts1).run H mt env acts2).db.ctlogs with
  | none =>
    unfold published at h1
    rw [hcl] at h1
    cases h1
  | some sts' =>
    unfold published at h1
    rw [hcl] at h1
    exact ⟨sts', c', rfl, h1, hlu, h3, h4⟩

theorem newest_cutoff (mt : Meta) (hid : ∀ log, (mt.id log).length = 32) (log : Text) (huniq : ∀ a, mt.id a = mt.id log → a = log) (sts : List CTLogState)
    (h : ∀ c ∈ sts, ∃ l s, c = encState mt l s) : newCoverageCutoffMap sts (mt.id log) = (newest sts log).map CTLogState.coverageCutoff := by
  unfold newCoverageCutoffMap newest
  rw [foldl_cutoff]
  have hcongr : ∀ (l : List CTLogState), (∀ c ∈ l, ∃ u s, c = encState mt u s) →
      l.find? (fun st => decide (st.keyID = some (mt.id log))) = l.find? (fun c => decide (c.shortURL = log)) := by
    intro l hl
    induction l with
    | nil => rfl
    | cons c l ih =>
      obtain ⟨u, s, rfl⟩ := hl c (by simp)
      rw [List.find?_cons, List.find?_cons, ih (fun d hd => hl d (by simp [hd])), keyID_encState mt hid]
      by_cases e : u = log
      · subst e
        have : (encState mt u s).shortURL = u := rfl
        simp [this]
      · have h1 : ¬ (encState mt u s).shortURL = log := e
        have h2 : ¬ some (mt.id u) = some (mt.id log) := fun h => e (huniq u (Option.some.inj h))
        rw [decide_eq_false h1, decide_eq_false h2]
  rw [hcongr sts.reverse (fun c hc => h c (List.mem_reverse.1 hc))]
  cases sts.reverse.find? (fun c => decide (c.shortURL = log)) <;> rfl

/-- **C106, the cutoff (partial).** With the same hypotheses, for a log whose id no other log has: its coverage cutoff never gets earlier, so that every entry of the cache that counted as covered
(go/storage/types.go:88-108) still does. -/
theorem C106_cutoff_partial (H : Bytes → Bytes) (mt : Meta) (w : World) (env : Env) (hid : ∀ log, (mt.id log).length = 32) (hH : ∀ x, (env.H x).length = 32) (acts1 acts2 : List WAct)
    (ha : WAllAllowed H mt w env Whole.init (acts1 ++ acts2)) (hc : AllCareful H mt env Whole.init (acts1 ++ acts2)) (log : Text) (huniq : ∀ a, mt.id a = mt.id log → a = log)
    (hm : (mt.mmd log).toNat * 1000 < 2 ^ 64) (sts : List CTLogState) (hst : (Whole.init.run H mt env acts1).db.ctlogs = some sts) (k : UInt64)
    (hk : newCoverageCutoffMap sts (mt.id log) = some k) :
    ∃ sts' k', (Whole.init.run H mt env (acts1 ++ acts2)).db.ctlogs = some sts' ∧ newCoverageCutoffMap sts' (mt.id log) = some k' ∧ k ≤ k' ∧
      ∀ e, entryLogId e = mt.id log → isCovered (newCoverageCutoffMap sts) e = true → isCovered (newCoverageCutoffMap sts') e = true := by
  obtain ⟨a1, a2⟩ := (wAllAllowed_appendG acts1 acts2 _).1 ha
  have w1 := winv_run hid hH acts1 _ (winv_init H mt w env) a1
  have w2 := winv_run hid hH (acts1 ++ acts2) _ (winv_init H mt w env) ha
  have enc1 : ∀ c ∈ sts, ∃ l s, c = encState mt l s := fun c hc => by
    obtain ⟨l, s, _, h, _⟩ := w1.states.ctlogs sts hst c hc
    exact ⟨l, s, h⟩
  rw [newest_cutoff mt hid log huniq sts enc1] at hk
  cases hn : newest sts log with
  | none => rw [hn] at hk; cases hk
  | some c =>
    rw [hn] at hk
    obtain ⟨sts', c', h1, h2, _, _, _, _, _, h3⟩ := C106_published_partial H mt w env hid hH acts1 acts2 ha hc sts hst log c hn
    have enc2 : ∀ c ∈ sts', ∃ l s, c = encState mt l s := fun c hc => by
      obtain ⟨l, s, _, h, _⟩ := w2.states.ctlogs sts' h1 c hc
      exact ⟨l, s, h⟩
    have hmmd : ∀ d : CTLogState, (∃ l s, d = encState mt l s) → d.shortURL = log → d.mmd = mt.mmd log := by
      rintro d ⟨l, s, rfl⟩ e
      have : l = log := e
      rw [← this]
      rfl
    have m1 := hmmd c (enc1 c (newest_some hn).1) (newest_some hn).2
    have m2 := hmmd c' (enc2 c' (newest_some h2).1) (newest_some h2).2
    have k1 := coverageCutoff_toNat c (by rw [m1]; exact hm)
    have k2 := coverageCutoff_toNat c' (by rw [m2]; exact hm)
    have hle : k ≤ c'.coverageCutoff := by
      have hk : c.coverageCutoff = k := Option.some.inj hk
      rw [← hk, UInt64.le_iff_toNat_le, k1, k2, m1, m2]
      have := UInt64.le_iff_toNat_le.1 h3
      omega
    have hk' : newCoverageCutoffMap sts' (mt.id log) = some c'.coverageCutoff := by
      rw [newest_cutoff mt hid log huniq sts' enc2, h2]
      rfl
    have hk0 : newCoverageCutoffMap sts (mt.id log) = some k := by
      rw [newest_cutoff mt hid log huniq sts enc1, hn]
      exact hk
    refine ⟨sts', c'.coverageCutoff, h1, hk', hle, fun e he hcov => ?_⟩
    unfold isCovered at hcov ⊢
    split
    · rfl
    · rename_i hlen
      rw [if_neg hlen, he, hk0] at hcov
      rw [he, hk']
      dsimp only at hcov ⊢
      have h5 := of_decide_eq_true hcov
      have h6 := UInt64.le_iff_toNat_le.1 hle
      exact decide_eq_true (by omega)

/-! ### the clients -/

/-- From run to run the covered range of each log grows. -/
def CoverGrows (cov : Nat → Coverage) : Prop :=
  ∀ m l lo hi, cov m l = some (lo, hi) → ∃ lo' hi', cov (m + 1) l = some (lo', hi') ∧ lo' ≤ lo ∧ hi ≤ hi'

theorem covers_grows {cov : Nat → Coverage} (h : CoverGrows cov) {scts : List (Bytes × Nat)} (k : Nat) (hk : Covers (cov k) scts) : ∀ d, Covers (cov (k + d)) scts := by
  intro d
  induction d with
  | zero => exact hk
  | succ d ih =>
    obtain ⟨t, ht, lo, hi, h1, h2, h3⟩ := ih
    obtain ⟨lo', hi', h4, h5, h6⟩ := h _ _ _ _ h1
    exact ⟨t, ht, lo', hi', h4, by omega, by omega⟩

section
variable {F : Type} (build : List Bytes → List (Bytes × Bool) → Option F) (contains : F → Bytes → Bool) (enrolls : F → Bytes → Bool) (he : EnrollsInput build enrolls) (order : List Text → List Text)
  (rs : ReasonSet) (C : RunChain build contains order rs) (cov : Nat → Coverage) (sha : Bytes → Bytes) (parse : Bytes → Option IssuerCert) (verifies : Bytes → Bool) (inter : Intermediates)
include he

/-- **C106, for the clients.** If coverage grows from run to run, a certificate that was covered in run `k`, at which it was not yet known as revoked, and is known and revoked in a run `n`, is answered Revoked
after run `n`. -/
theorem C106_client (hgrow : CoverGrows cov) (k n : Nat) (c : ClientCert) (spki : Bytes) (hl : lookupSpki parse verifies inter c.issuerDN = some spki) (hv : c.valid = true)
    (hcov : Covers (cov k) c.scts) (hbefore : ∀ m < k, ¬ (KnownIn (C.W m) (sha spki) c.serial ∧ RevokedIn rs (C.W m) (sha spki) c.serial)) (hk : KnownIn (C.W n) (sha spki) c.serial)
    (hr : RevokedIn rs (C.W n) (sha spki) c.serial) : clientQuery sha parse verifies (cardHas enrolls contains) (C.cards cov n) inter c = .revoked := by
  refine C74_revoked_partial build contains enrolls he order rs C cov sha parse verifies inter n c spki hl hv hk hr (fun m _ h1 h2 => ?_)
  rcases Nat.lt_or_ge m k with h | h
  · exact absurd ⟨h1, h2⟩ (hbefore m h)
  · have := covers_grows hgrow k hcov (m - k)
    rwa [show k + (m - k) = m by omega] at this

/-- **C106, what a shrunken coverage does.** For every sequence of runs: a certificate that is known in all of them, is revoked from run `k + 1` on, and is not covered in that very run, is never answered Revoked,
however many deltas the client has, until the next full filter; if any run covers it, before or after, the answer is Good. -/
theorem C106_lost_fails (k n : Nat) (c : ClientCert) (spki : Bytes) (hl : lookupSpki parse verifies inter c.issuerDN = some spki) (hv : c.valid = true) (hkn : ∀ m, KnownIn (C.W m) (sha spki) c.serial)
    (hnot : ∀ m ≤ k, ¬ RevokedIn rs (C.W m) (sha spki) c.serial) (hrn : ∀ m, k < m → RevokedIn rs (C.W m) (sha spki) c.serial) (hcov : ¬ Covers (cov (k + 1)) c.scts) :
    clientQuery sha parse verifies (cardHas enrolls contains) (C.cards cov n) inter c ≠ .revoked ∧
    ((∃ m ≤ n, Covers (cov m) c.scts) → clientQuery sha parse verifies (cardHas enrolls contains) (C.cards cov n) inter c = .good) := by
  have key : ∀ f ∈ C.cards cov n, cardHas enrolls contains f (sha spki) c.serial c.scts = if c.scts.any (sctCovered f.coverage) then .good else .notCovered := by
    intro f hf
    rcases (C.mem_cards cov n f).1 hf with rfl | ⟨m, hm, rfl⟩
    · unfold cardHas
      split
      · rw [if_pos (C.enrolls_full he (hkn 0)), if_neg]
        intro h
        exact hnot 0 (Nat.zero_le _) ((C56_written_filter_exact build contains rs _ _ (C.good 0) _ (createRun_some C.run0).1 _ _ (hkn 0)).1 h)
      · rfl
    · by_cases hmk : m = k
      · subst hmk
        rw [← covers_iff] at hcov
        rw [if_neg hcov]
        unfold cardHas
        rw [if_neg hcov]
      · have hk := hkn (m + 1)
        have hno : ¬ contains (C.out (m + 1)).deltaFilter (crliteKey (sha spki) c.serial) = true := by
          rw [C59_delta_filter build contains order rs C m _ _ hk]
          rintro ⟨h1, h2⟩
          rcases Nat.lt_or_ge k m with h | h
          · exact h2 ⟨hkn m, hrn m h⟩
          · exact hnot (m + 1) (by omega) h1
        unfold cardHas
        split
        · rw [if_pos (C.enrolls_delta he hk)]
        · rfl
  have hans := ((C63_answers sha parse verifies (cardHas enrolls contains) (C.cards cov n) inter c).2 spki hl).2 hv
  have nrev : ¬ ∃ f ∈ C.cards cov n, cardHas enrolls contains f (sha spki) c.serial c.scts = .revoked := by
    rintro ⟨f, hf, h⟩
    rw [key f hf] at h
    split at h <;> cases h
  rw [hans]
  unfold precedence
  rw [if_neg nrev]
  constructor
  · intro h
    split at h
    · cases h
    · split at h <;> cases h
  · rintro ⟨m, hm, hc⟩
    rw [if_pos]
    cases m with
    | zero =>
      have hmem := (C.mem_cards cov n ⟨(C.out 0).filter, cov 0⟩).2 (Or.inl rfl)
      refine ⟨_, hmem, ?_⟩
      rw [key _ hmem, if_pos ((covers_iff _ _).2 hc)]
    | succ m =>
      have hmem := (C.mem_cards cov n ⟨(C.out (m + 1)).deltaFilter, cov (m + 1)⟩).2 (Or.inr ⟨m, hm, rfl⟩)
      refine ⟨_, hmem, ?_⟩
      rw [key _ hmem, if_pos ((covers_iff _ _).2 hc)]

end

/-! ### a run in which coverage shrinks -/

/-- An entry of a tiled log, with a certificate of its own. -/
def gEntry (b : UInt8) : TEntry :=
  { input := [b], timestamp := b.toNat * 1000, precert := false, cert := some ⟨[b], 1700002800, [9], false⟩, chain := [.cert ⟨[7], 1800000000, [9], false⟩], time := 5 }

/-- The first job of the tiled log 'b' reads four entries, with a batch size of two. -/
def gFirst : Act := .startTiled ['b'] 2 1000 (some ⟨9, 90⟩) ([1, 2, 3, 4].map gEntry) [] false false

/-- The second job reads the first two of them. -/
def gSecond : Act := .startTiled ['b'] 2 1001 (some ⟨9, 90⟩) ([1, 2].map gEntry) [] false false

/-- The database thread takes `n` messages and stores and saves. -/
def gSave (n : Nat) : List Act := (List.replicate n (Act.receive 100)).flatMap (fun a => [a, .storeOk, .saveOk])

def gBin : Bin := itemBin wHash ⟨[1], 1700002800, [9], 0⟩

/-- Log 'b' has an id of its own. -/
def gMeta : Meta := { id := fun l => if l = ['b'] then List.replicate 32 1 else List.replicate 32 0, mmd := fun _ => 1 }

/-- The entries of the cache. -/
def gMember (b : UInt8) : Bytes := newMember (UInt64.ofNat (b.toNat * 1000)) (List.replicate 32 1) [b]

/-- A commit that finds the entries `es`. -/
def gCommit (es : List Bytes) : List WAct :=
  [CAct.begin false true, .readLog (logKey ['b']), .loadedAll, .listStart, .listEnd [gBin], .jobStart gBin, .jobListed 0 es, .jobRead 0, .jobWrite 0, .jobRemove 0 es, .jobFinish 0, .replaceLogs,
   .nextEpoch, .replaceEpoch].map .other

/-- The first job; the second one starts before anything of the first is saved; the states of the first are saved and published. -/
def gActs1 : List WAct :=
  (gFirst :: (List.replicate 7 (Act.emit 0) ++ [Act.stop 0, gSecond] ++ gSave 7)).map .fetch ++ gCommit ([1, 2, 3, 4].map gMember)

/-- The states of the second job are saved and published. -/
def gActs2 : List WAct := (List.replicate 4 (Act.emit 0) ++ gSave 4).map .fetch ++ gCommit ([4, 1, 2].map gMember)

def gState1 : CTLogState := encState gMeta ['b'] ⟨0, 4, 0, 4000, some 1000⟩
def gState2 : CTLogState := encState gMeta ['b'] ⟨0, 2, 0, 2000, some 1001⟩

theorem g_result : (Whole.init.run wHash gMeta wEnv gActs1).db.ctlogs = some [gState1] ∧ (Whole.init.run wHash gMeta wEnv (gActs1 ++ gActs2)).db.ctlogs = some [gState2] ∧
    readSerialsFromStorage gBin.unix ((Whole.init.run wHash gMeta wEnv gActs1).db.files gBin) = .ok [[1], [2], [3]] := by
  decide +kernel

/-- The log says nothing false about itself. -/
theorem g_allowed : WAllAllowed wHash gMeta openWorld wEnv Whole.init (gActs1 ++ gActs2) := by
  have hstart : ∀ (v : Whole) (now : Nat) (es : List TEntry), v.y.stored.all (fun x => decide (x.2.serial.length < 32768)) = true →
      WAllowed openWorld wEnv v (.fetch (.startTiled ['b'] 2 now (some ⟨9, 90⟩) es [] false false)) := by
    intro v now es h
    refine ⟨⟨by decide, fun _ _ => trivial, fun _ _ => trivial, fun _ _ _ => trivial, fun _ _ _ => trivial⟩, (fun _ _ h => by cases h), fun x hx => ?_⟩
    rw [List.all_eq_true] at h
    exact of_decide_eq_true (h x hx)
  have e1 : gActs1 ++ gActs2 = [WAct.fetch gFirst] ++ (((List.replicate 7 (Act.emit 0) ++ [Act.stop 0]).map .fetch) ++ ([WAct.fetch gSecond] ++
      ((gSave 7).map .fetch ++ gCommit ([1, 2, 3, 4].map gMember) ++ gActs2))) := by
    unfold gActs1
    simp [List.append_assoc]
  rw [e1, wAllAllowed_appendG]
  refine ⟨⟨hstart _ _ _ rfl, trivial⟩, ?_⟩
  rw [wAllAllowed_appendG]
  refine ⟨quietRun_allowed _ _ (by decide +kernel), ?_⟩
  rw [wAllAllowed_appendG]
  exact ⟨⟨hstart _ _ _ (by decide +kernel), trivial⟩, quietRun_allowed _ _ (by decide +kernel)⟩

/-- **C106 fails.** The loop of `SyncLog` (ct-fetch.go:109-166) loads the log state for the next job as soon as the job before has handed its last message to the channel, which holds up to 16384 messages (line 84); the
database thread may not have saved them yet. Here the second job of a tiled log starts from the state from before the first one. Everything that is saved and published is true (C41), but the published state
goes from four entries back to two, the cutoff from 3000 to 1000, and the third entry, covered and stored after the first commit, is not covered any more. -/
theorem C106_stale_start_fails : ∃ (w : World) (env : Env) (acts1 acts2 : List WAct) (c c' : CTLogState) (e : Bytes), WAllAllowed wHash gMeta w env Whole.init (acts1 ++ acts2) ∧
    (Whole.init.run wHash gMeta env acts1).db.ctlogs = some [c] ∧ (Whole.init.run wHash gMeta env (acts1 ++ acts2)).db.ctlogs = some [c'] ∧ c'.shortURL = c.shortURL ∧ c'.maxEntry < c.maxEntry ∧
    c'.maxTimestamp < c.maxTimestamp ∧ isCovered (newCoverageCutoffMap [c]) e = true ∧ isCovered (newCoverageCutoffMap [c']) e = false :=
  ⟨openWorld, wEnv, gActs1, gActs2, gState1, gState2, gMember 3, g_allowed, g_result.1, g_result.2.1, rfl, by decide, by decide, by decide, by decide⟩

/-! ### a run that meets the hypotheses -/

/-- The next job, which reads entries five and six. -/
def gThird : Act := .startTiled ['b'] 2 1001 (some ⟨9, 90⟩) ([5, 6].map gEntry) [] false false

def gJob1 : List Act := gFirst :: (List.replicate 7 (Act.emit 0) ++ [Act.stop 0] ++ gSave 7)
def gJob2 : List Act := gThird :: (List.replicate 4 (Act.emit 0) ++ gSave 4)

def gGood1 : List WAct := gJob1.map .fetch ++ gCommit ([1, 2, 3, 4].map gMember)
def gGood2 : List WAct := gJob2.map .fetch ++ gCommit ([4, 5, 6].map gMember)

theorem settled_empty {y : Sys} (h : y.workers = [] ∧ y.chan = [] ∧ y.phase = .idle) (log : Text) : Settled y log := by
  obtain ⟨h1, h2, h3⟩ := h
  refine ⟨fun p hp => ?_, fun s hs => ?_, fun s e => ?_, fun s e => ?_⟩
  · rw [h1] at hp; cases hp
  · rw [h2] at hs; cases hs
  · rw [h3] at e; cases e
  · rw [h3] at e; cases e

/-- A step that starts no job. -/
def noStart : WAct → Bool
  | .fetch a => (startOf a).isNone
  | _ => true

theorem careful_quiet {H : Bytes → Bytes} {mt : Meta} {env : Env} (acts : List WAct) : ∀ v, acts.all noStart = true → AllCareful H mt env v acts := by
  induction acts with
  | nil => intro v _; trivial
  | cons a as ih =>
    intro v h
    simp only [List.all_cons, Bool.and_eq_true] at h
    refine ⟨?_, ih _ h.2⟩
    cases a with
    | fetch a =>
      have hn : startOf a = none := by simpa [noStart] using h.1
      refine ⟨?_, fun log e => ?_⟩
      · cases a <;> first | trivial | (cases hn; done)
      · rw [hn] at e; cases e
    | other c => trivial
    | restart => trivial

theorem gGood_result : (Whole.init.run wHash gMeta wEnv gGood1).db.ctlogs = some [gState1] ∧
    (Whole.init.run wHash gMeta wEnv (gGood1 ++ gGood2)).db.ctlogs = some [encState gMeta ['b'] ⟨0, 6, 0, 6000, some 1001⟩] := by
  decide +kernel

theorem gGood_ok : WAllAllowed wHash gMeta openWorld wEnv Whole.init (gGood1 ++ gGood2) ∧ AllCareful wHash gMeta wEnv Whole.init (gGood1 ++ gGood2) := by
  have hstart : ∀ (v : Whole) (now : Nat) (es : List TEntry), v.y.stored.all (fun x => decide (x.2.serial.length < 32768)) = true →
      WAllowed openWorld wEnv v (.fetch (.startTiled ['b'] 2 now (some ⟨9, 90⟩) es [] false false)) := by
    intro v now es h
    refine ⟨⟨by decide, fun _ _ => trivial, fun _ _ => trivial, fun _ _ _ => trivial, fun _ _ _ => trivial⟩, (fun _ _ h => by cases h), fun x hx => ?_⟩
    rw [List.all_eq_true] at h
    exact of_decide_eq_true (h x hx)
  have hcare : ∀ (v : Whole) (now : Nat) (es : List TEntry), v.y.workers = [] ∧ v.y.chan = [] ∧ v.y.phase = .idle →
      Careful v (.fetch (.startTiled ['b'] 2 now (some ⟨9, 90⟩) es [] false false)) := by
    intro v now es h
    refine ⟨settled_empty h _, fun log e => ?_⟩
    cases e
    unfold Named
    decide
  have e1 : gGood1 ++ gGood2 = [WAct.fetch gFirst] ++ (gGood1.tail ++ ([WAct.fetch gThird] ++ gGood2.tail)) := rfl
  rw [e1, wAllAllowed_appendG, wAllAllowed_appendG, wAllAllowed_appendG, allCareful_append, allCareful_append, allCareful_append]
  exact ⟨⟨⟨hstart _ _ _ rfl, trivial⟩, quietRun_allowed _ _ (by decide +kernel), ⟨hstart _ _ _ (by decide +kernel), trivial⟩, quietRun_allowed _ _ (by decide +kernel)⟩,
    ⟨⟨hcare _ _ _ ⟨rfl, rfl, rfl⟩, trivial⟩, careful_quiet _ _ (by decide +kernel), ⟨hcare _ _ _ (by decide +kernel), trivial⟩, careful_quiet _ _ (by decide +kernel)⟩⟩

/-- All hypotheses of `C106_published_partial` and `C106_cutoff_partial` hold for this run of two jobs and two commits, which publishes four entries and then six. -/
example : (∀ log, (gMeta.id log).length = 32) ∧ (∀ x, (wEnv.H x).length = 32) ∧ WAllAllowed wHash gMeta openWorld wEnv Whole.init (gGood1 ++ gGood2) ∧
    AllCareful wHash gMeta wEnv Whole.init (gGood1 ++ gGood2) ∧ (Whole.init.run wHash gMeta wEnv gGood1).db.ctlogs = some [gState1] ∧ newest [gState1] ['b'] = some gState1 ∧
    (gMeta.mmd ['b']).toNat * 1000 < 2 ^ 64 ∧ newCoverageCutoffMap [gState1] (gMeta.id ['b']) = some 3000 ∧
    ∀ a, gMeta.id a = gMeta.id ['b'] → a = ['b'] := by
  refine ⟨fun log => ?_, fun x => rfl, gGood_ok.1, gGood_ok.2, gGood_result.1, by decide, by decide, by decide, fun a h => ?_⟩
  · unfold gMeta
    dsimp only
    split <;> rfl
  · unfold gMeta at h
    dsimp only at h
    split at h
    · assumption
    · exact absurd h (by decide)

/-- All hypotheses of `C106_saved_partial` and `C106_one_job` hold for two processes with one job each; the second reads on from where the first has stopped. -/
example : AllAllowed openWorld wEnv Sys.init ((gJob1 ++ [.crash]) ++ gJob2) ∧ OncePerProcess [] ((gJob1 ++ [.crash]) ++ gJob2) ∧
    AllOneAtATime wEnv Sys.init ((gJob1 ++ [.crash]) ++ gJob2) ∧ ((Sys.init.run wEnv (gJob1 ++ [.crash])).saved ['b']).maxEntry = 4 ∧
    ((Sys.init.run wEnv ((gJob1 ++ [.crash]) ++ gJob2)).saved ['b']).maxEntry = 6 := by
  have once : OncePerProcess [] ((gJob1 ++ [.crash]) ++ gJob2) := by
    refine ⟨by decide, ?_⟩
    show OncePerProcess [] (gJob2)
    exact ⟨by decide, trivial⟩
  refine ⟨?_, once, once_oneAtATime wEnv _ _ [] (fun log _ => settled_empty ⟨rfl, rfl, rfl⟩ log) once, by decide +kernel, by decide +kernel⟩
  have quiet : ∀ (acts : List Act) (y : Sys), acts.all Quiet = true → AllAllowed openWorld wEnv y acts := by
    intro acts
    induction acts with
    | nil => intro y _; trivial
    | cons x acts ih =>
      intro y h
      simp only [List.all_cons, Bool.and_eq_true] at h
      refine ⟨?_, ih _ h.2⟩
      cases x <;> first | trivial | simp [Quiet] at h
  have ht : ∀ (y : Sys) (now : Nat) (es : List TEntry), Allowed openWorld wEnv y (.startTiled ['b'] 2 now (some ⟨9, 90⟩) es [] false false) := fun y now es =>
    ⟨by decide, fun _ _ => trivial, fun _ _ => trivial, fun _ _ _ => trivial, fun _ _ _ => trivial⟩
  rw [allAllowed_append]
  exact ⟨⟨ht _ _ _, quiet _ _ (by decide)⟩, ⟨ht _ _ _, quiet _ _ (by decide)⟩⟩

/-- Coverage that grows. -/
example : CoverGrows exCov ∧ CoverGrows exCovLate := by
  refine ⟨fun m l lo hi h => ⟨lo, hi, h, Nat.le_refl _, Nat.le_refl _⟩, fun m l lo hi h => ?_⟩
  unfold exCovLate at h ⊢
  split at h
  · rename_i hl
    cases h
    rw [if_pos hl]
    refine ⟨_, _, rfl, Nat.le_refl _, ?_⟩
    split <;> split <;> omega
  · cases h

/-- The certificate with serial 2 is known from the first run on and revoked from the second one on: answered Revoked if coverage grows. -/
example : clientQuery (fun _ => List.replicate 32 7) (fun d => some ⟨[9], d⟩) (fun _ => true) (cardHas exEnrolls exContains) (exChain.cards exCov 3) exInter (exClientCert 500 [2]) = .revoked :=
  C106_client exBuild exContains exEnrolls exEnrolls_input (fun l => l) .all exChain exCov (fun _ => List.replicate 32 7) (fun d => some ⟨[9], d⟩) (fun _ => true) exInter
    (fun m l lo hi h => ⟨lo, hi, h, Nat.le_refl _, Nat.le_refl _⟩) 0 3 (exClientCert 500 [2]) [5]
    (by decide) rfl ⟨([1], 500), List.mem_singleton.2 rfl, 0, 1000, if_pos rfl, by decide, by decide⟩ (fun m h => absurd h (Nat.not_lt_zero _))
    ⟨_, List.mem_singleton.2 rfl, rfl, _, List.mem_singleton.2 rfl, by decide⟩ ⟨_, List.mem_singleton.2 rfl, rfl, _, rfl, 4, by decide, trivial⟩

/-- Log 1 is covered up to 1000, but in the second run only up to 400. -/
def exCovDip (m : Nat) : Coverage := fun l => if l = [1] then some (0, if m = 1 then 400 else 1000) else none

/-- The same certificate, covered in the first run and from the third one on, but not in the second: Good. -/
example : clientQuery (fun _ => List.replicate 32 7) (fun d => some ⟨[9], d⟩) (fun _ => true) (cardHas exEnrolls exContains) (exChain.cards exCovDip 3) exInter (exClientCert 500 [2]) = .good ∧
    KnownIn (exChain.W 0) (List.replicate 32 7) [2] ∧ ¬ RevokedIn .all (exChain.W 0) (List.replicate 32 7) [2] ∧
    KnownIn (exChain.W 3) (List.replicate 32 7) [2] ∧ RevokedIn .all (exChain.W 3) (List.replicate 32 7) [2] ∧ ¬ Covers (exCovDip 1) (exClientCert 500 [2]).scts := by
  refine ⟨by decide +kernel, ⟨_, List.mem_singleton.2 rfl, rfl, _, List.mem_singleton.2 rfl, by decide⟩, ?_, ⟨_, List.mem_singleton.2 rfl, rfl, _, List.mem_singleton.2 rfl, by decide⟩,
    ⟨_, List.mem_singleton.2 rfl, rfl, _, rfl, 4, by decide, trivial⟩, ?_⟩
  · rintro ⟨i, hi, _, l, hl, c, hc, _⟩
    cases List.mem_singleton.1 hi
    cases hl
    simp at hc
  · rw [← covers_iff]
    decide

/-! ### each theorem applied -/

theorem gMeta_len : ∀ log, (gMeta.id log).length = 32 := by
  intro log
  unfold gMeta
  dsimp only
  split <;> rfl

theorem gMeta_uniq : ∀ a, gMeta.id a = gMeta.id ['b'] → a = ['b'] := by
  intro a h
  unfold gMeta at h
  dsimp only at h
  split at h
  · assumption
  · exact absurd h (by decide)

example := C106_published_partial wHash gMeta openWorld wEnv gMeta_len (fun _ => rfl) gGood1 gGood2 gGood_ok.1 gGood_ok.2 [gState1] gGood_result.1 ['b'] gState1 (by decide)
example := C106_cutoff_partial wHash gMeta openWorld wEnv gMeta_len (fun _ => rfl) gGood1 gGood2 gGood_ok.1 gGood_ok.2 ['b'] gMeta_uniq (by decide) [gState1] gGood_result.1 3000 (by decide)
example := C106_lost_fails exBuild exContains exEnrolls exEnrolls_input (fun l => l) .all exChain exCovDip (fun _ => List.replicate 32 7) (fun d => some ⟨[9], d⟩) (fun _ => true) exInter 0 3 (exClientCert 500 [2]) [5]
  (by decide) rfl
  (fun m => match m with
    | 0 => ⟨_, List.mem_singleton.2 rfl, rfl, _, List.mem_singleton.2 rfl, by decide⟩
    | 1 => ⟨_, List.mem_singleton.2 rfl, rfl, _, List.mem_singleton.2 rfl, by decide⟩
    | _ + 2 => ⟨_, List.mem_singleton.2 rfl, rfl, _, List.mem_singleton.2 rfl, by decide⟩)
  (fun m hm => by
    cases Nat.le_zero.1 hm
    rintro ⟨i, hi, _, l, hl, c, hc, _⟩
    cases List.mem_singleton.1 hi
    cases hl
    simp [exClientCert] at hc)
  (fun m hm => match m, hm with
    | 1, _ => ⟨_, List.mem_singleton.2 rfl, rfl, _, rfl, 4, by decide, trivial⟩
    | _ + 2, _ => ⟨_, List.mem_singleton.2 rfl, rfl, _, rfl, 4, by decide, trivial⟩)
  (by rw [← covers_iff]; decide)

end Verif.Props
