import Verif.Props.Commit
import Verif.Spec.Memory
/-!
Property C111: Redis runs out of memory.
-/
namespace Verif.Props
open Verif.Spec

/-! ### what is refused -/

theorem memFold_spec (c : MemConf) (ps : List Cached) : ∀ (db : Db) (ok : Bool),
    ∃ qs : List Cached, (∀ p ∈ qs, p ∈ ps) ∧ (ps.foldl (memAdd c) (db, ok)).1 = { db with sets := qs ++ db.sets, ever := qs ++ db.ever } ∧
      ((ps.foldl (memAdd c) (db, ok)).2 = true → ok = true ∧ ∀ p ∈ ps, p ∈ qs) := by
  induction ps with
  | nil => intro db ok; exact ⟨[], by simp, rfl, fun h => ⟨h, by simp⟩⟩
  | cons p ps ih =>
    intro db ok
    rw [List.foldl_cons]
    by_cases hf : c.full db = true
    · have e : memAdd c (db, ok) p = (db, false) := by unfold memAdd; dsimp only; rw [if_pos hf]
      rw [e]
      obtain ⟨qs, h1, h2, h3⟩ := ih db false
      exact ⟨qs, fun q hq => List.mem_cons_of_mem _ (h1 q hq), h2, fun h => absurd (h3 h).1 (by decide)⟩
    · have e : memAdd c (db, ok) p = (db.step (.insert [p]), ok) := by unfold memAdd; dsimp only; rw [if_neg hf]
      rw [e]
      obtain ⟨qs, h1, h2, h3⟩ := ih (db.step (.insert [p])) ok
      refine ⟨qs ++ [p], fun q hq => ?_, ?_, fun h => ⟨(h3 h).1, fun q hq => ?_⟩⟩
      · rcases List.mem_append.1 hq with h | h
        · exact List.mem_cons_of_mem _ (h1 q h)
        · simp only [List.mem_singleton] at h; subst h; exact List.mem_cons_self
      · rw [h2]
        simp only [Db.step, List.append_assoc, List.cons_append, List.nil_append]
      · rcases List.mem_cons.1 hq with h0 | h0
        · subst h0; simp
        · exact List.mem_append_left _ ((h3 h).2 q h0)

theorem memInsert_step (c : MemConf) (db : Db) (ps : List Cached) : ∃ qs : List Cached, (∀ p ∈ qs, p ∈ ps) ∧ (memInsert c db ps).1 = db.step (.insert qs) := by
  obtain ⟨qs, h1, h2, _⟩ := memFold_spec c ps db true
  exact ⟨qs, h1, h2⟩

/-- A step with a memory limit and no eviction is a step without limit, or none, or the end of the commit. -/
theorem memStep_fine (c : MemConf) (hc : c.policy = .noeviction) (db : Db) (m : MAct) (hf : FineM m) : ∃ as, (∀ a ∈ as, Fine a) ∧ memStep c db m = db.run as := by
  have stay : ∃ as, (∀ a ∈ as, Fine a) ∧ db = db.run as := ⟨[], (fun a h => by cases h), rfl⟩
  have one : ∀ a, Fine a → ∃ as, (∀ a ∈ as, Fine a) ∧ db.step a = db.run as :=
    fun a h => ⟨[a], (fun x hx => by rw [List.mem_singleton.1 hx]; exact h), rfl⟩
  cases m with
  | act a =>
    show ∃ as, (∀ a ∈ as, Fine a) ∧ memAct c db a = db.run as
    have hf' : Fine a := hf
    unfold memAct
    split
    · next ps =>
      obtain ⟨qs, h1, h2⟩ := memInsert_step c db ps
      rw [h2]
      exact one _ (fun p hp => hf' p (h1 p hp))
    · split
      · exact stay
      · exact one _ trivial
    · split
      · exact stay
      · exact one _ trivial
    · split
      · exact stay
      · exact one _ trivial
    · split
      · split
        · exact one _ trivial
        · exact stay
      · exact one _ trivial
    · exact one _ hf'
  | evictBin b =>
    unfold memStep
    dsimp only
    rw [if_neg (fun h => h.2 hc)]
    exact stay
  | evictLog key =>
    unfold memStep
    dsimp only
    rw [if_neg (fun h => by rw [hc] at h; cases h.2)]
    exact stay
  | evictEpoch =>
    unfold memStep
    dsimp only
    rw [if_neg (fun h => by rw [hc] at h; cases h.2)]
    exact stay

theorem memRun_fine (c : MemConf) (hc : c.policy = .noeviction) (acts : List MAct) : ∀ db : Db, (∀ a ∈ acts, FineM a) →
    ∃ as, (∀ a ∈ as, Fine a) ∧ memRun c db acts = db.run as := by
  induction acts with
  | nil => intro db _; exact ⟨[], (fun a h => by cases h), rfl⟩
  | cons m ms ih =>
    intro db hf
    obtain ⟨as, h1, h2⟩ := memStep_fine c hc db m (hf m List.mem_cons_self)
    obtain ⟨bs, h3, h4⟩ := ih (memStep c db m) (fun a ha => hf a (List.mem_cons_of_mem _ ha))
    refine ⟨as ++ bs, fun a ha => ?_, ?_⟩
    · rcases List.mem_append.1 ha with h | h
      · exact h1 a h
      · exact h3 a h
    · show memRun c (memStep c db m) ms = _
      rw [h4, h2]
      unfold Db.run
      rw [List.foldl_append]

/-! ### examples -/

/-- One unit of memory for each certificate and each log state. -/
def exMem (p : EvictPolicy) (n : Nat) : MemConf := { policy := p, limit := n, used := fun s l => s.length + l.length }

/-- A certificate and the state of its log. -/
def exFill : List MAct := [.act (.insert [(exBin, exMember 10 [1])]), .act (.saveLog (exState 2000))]

/-- The commit that follows. -/
def exMove (es : List Bytes) : List MAct := (fullCommit es).map .act

theorem exFill_fine : ∀ a ∈ exFill, FineM a := by
  intro a ha
  simp only [exFill, List.mem_cons, List.not_mem_nil, or_false] at ha
  rcases ha with rfl | rfl
  · intro p hp
    simp only [List.mem_singleton] at hp
    subst hp
    show (asSerial (exMember 10 [1])).length < 32768
    decide +kernel
  · trivial

theorem exMove_fine (es : List Bytes) : ∀ a ∈ exMove es, FineM a := by
  intro a ha
  obtain ⟨x, hx, rfl⟩ := List.mem_map.1 ha
  simp only [fullCommit, List.mem_cons, List.not_mem_nil, or_false] at hx
  rcases hx with rfl | rfl | rfl | rfl | rfl | rfl | rfl | rfl | rfl | rfl | rfl | rfl | rfl | rfl <;> first | trivial | skip
  refine ⟨by decide, ?_⟩
  intro b hb
  simp only [List.mem_singleton] at hb
  subst hb
  unfold InRange
  decide

/-! ### C111 -/

/-- **C111.** What `SetInsertMany` reports: if no error, then all certificates are in the cache. In any case nothing goes, nothing else comes, and nothing else
changes; if memory does not become full there is no error. -/
theorem C111_insert_reported (c : MemConf) (db : Db) (ps : List Cached) :
    ((memInsert c db ps).2 = true → ∀ p ∈ ps, p ∈ (memInsert c db ps).1.sets) ∧
    (∀ p ∈ db.sets, p ∈ (memInsert c db ps).1.sets) ∧ (∀ p ∈ (memInsert c db ps).1.sets, p ∈ db.sets ∨ p ∈ ps) ∧
    (memInsert c db ps).1.logs = db.logs ∧ (memInsert c db ps).1.files = db.files ∧ (memInsert c db ps).1.phase = db.phase ∧
    ((∀ qs : List Cached, c.used (qs ++ db.sets) db.logs ≤ c.limit) → (memInsert c db ps).2 = true) := by
  obtain ⟨qs, h1, h2, h3⟩ := memFold_spec c ps db true
  have e : (memInsert c db ps).1 = { db with sets := qs ++ db.sets, ever := qs ++ db.ever } := h2
  rw [e]
  refine ⟨fun h p hp => List.mem_append_left _ ((h3 h).2 p hp), fun p hp => List.mem_append_right _ hp, fun p hp => ?_, rfl, rfl, rfl, fun hfit => ?_⟩
  · rcases List.mem_append.1 hp with h | h
    · exact Or.inr (h1 p h)
    · exact Or.inl h
  · have key : ∀ (ps : List Cached) (d : Db), (∃ qs, d.sets = qs ++ db.sets) → d.logs = db.logs → (ps.foldl (memAdd c) (d, true)).2 = true := by
      intro ps
      induction ps with
      | nil => intro d _ _; rfl
      | cons p ps ih =>
        intro d hd hl
        obtain ⟨rs, hd⟩ := hd
        have hn : ¬ c.full d = true := by
          unfold MemConf.full
          rw [decide_eq_true_eq, hd, hl]
          exact Nat.not_lt.2 (hfit rs)
        rw [List.foldl_cons]
        have e : memAdd c (d, true) p = (d.step (.insert [p]), true) := by unfold memAdd; dsimp only; rw [if_neg hn]
        rw [e]
        exact ih _ ⟨p :: rs, by show [p] ++ d.sets = _; rw [hd]; rfl⟩ hl
    exact key ps db ⟨[], rfl⟩ rfl

/-- The second certificate is refused, and this is reported. -/
example : (memInsert (exMem .noeviction 0) Db.init [(exBin, exMember 10 [1]), (exBin, exMember 20 [2])]).2 = false ∧
    (memInsert (exMem .noeviction 0) Db.init [(exBin, exMember 10 [1]), (exBin, exMember 20 [2])]).1.sets = [(exBin, exMember 10 [1])] ∧
    (memInsert (exMem .noeviction 1) Db.init [(exBin, exMember 10 [1]), (exBin, exMember 20 [2])]).2 = true := by
  decide +kernel

/-- **C111 (partial).** On a server that evicts nothing, however little memory it has, and whichever commands it refuses in any interleaving of ct-fetch and commits:
every serial that was in storage or in the cache is in one of the two afterwards, and published coverage of what had been inserted implies that it is stored, both until
the hour of the bin. Missing: servers that evict (`C111_evicted_fails`, `C111_published_fails`), and what is missing from C31 and C32. -/
theorem C111_full_safe_partial (c : MemConf) (hc : c.policy = .noeviction) (before after : List MAct) (hb : ∀ a ∈ before, FineM a) (ha : ∀ a ∈ after, FineM a)
    (b : Bin) (hl : Live b (memRun c Db.init (before ++ after)).now) :
    (∀ s, Stored (memRun c Db.init before) b s ∨ InCache (memRun c Db.init before) b s →
      Stored (memRun c Db.init (before ++ after)) b s ∨ InCache (memRun c Db.init (before ++ after)) b s) ∧
    (∀ st m, (memRun c Db.init (before ++ after)).ctlogs = some st → (b, m) ∈ (memRun c Db.init (before ++ after)).pubSeen →
      isCovered (newCoverageCutoffMap st) m = true → Stored (memRun c Db.init (before ++ after)) b (asSerial m)) := by
  have e : memRun c Db.init (before ++ after) = memRun c (memRun c Db.init before) after := by unfold memRun; rw [List.foldl_append]
  obtain ⟨as, h1, h2⟩ := memRun_fine c hc before Db.init hb
  obtain ⟨bs, h3, h4⟩ := memRun_fine c hc after (memRun c Db.init before) ha
  have hi : DbInv (Db.init.run as) := run_induct (P := DbInv) (fun _ _ h he => dbInv_eff h he) as Db.init dbInv_init h1
  rw [e, h4] at hl ⊢
  rw [h2] at hl ⊢
  refine ⟨fun s hs => C31_nothing_lost_partial _ hi bs h3 b s hl hs, fun st m hst hm hcov => ?_⟩
  have er : (Db.init.run as).run bs = Db.init.run (as ++ bs) := by unfold Db.run; rw [List.foldl_append]
  rw [er] at hl hst hm ⊢
  exact C32_published_is_stored_partial (as ++ bs) (fun a ha' => (List.mem_append.1 ha').elim (h1 a) (h3 a)) st hst b m hm hl hcov

/-- Room for the certificate and the state, so that the commit goes through and a later insertion of two is refused in part. -/
example : (∀ a ∈ exFill, FineM a) ∧ (∀ a ∈ exMove [exMember 10 [1]] , FineM a) ∧ (exMem .noeviction 2).policy = .noeviction ∧
    Live exBin (memRun (exMem .noeviction 2) Db.init (exFill ++ exMove [exMember 10 [1]])).now ∧
    InCache (memRun (exMem .noeviction 2) Db.init exFill) exBin [1] ∧
    (memRun (exMem .noeviction 2) Db.init (exFill ++ exMove [exMember 10 [1]])).ctlogs = some [exState 2000] ∧
    (exBin, exMember 10 [1]) ∈ (memRun (exMem .noeviction 2) Db.init (exFill ++ exMove [exMember 10 [1]])).pubSeen ∧
    isCovered (newCoverageCutoffMap [exState 2000]) (exMember 10 [1]) = true := by
  refine ⟨exFill_fine, exMove_fine _, rfl, by unfold Live; decide +kernel, ⟨exMember 10 [1], by decide +kernel, by decide +kernel⟩, by decide +kernel, by decide +kernel, by decide +kernel⟩

/-- **C111 (partial): a commit that has begun needs no memory until it counts the epoch.** However full the memory, its steps do what they do without a limit. -/
theorem C111_commit_goes_on_partial (c : MemConf) (acts : List CAct) (h : ∀ a ∈ acts, isCommitStep a = true ∧ a ≠ .nextEpoch) :
    ∀ db : Db, memRun c db (acts.map .act) = db.run acts := by
  induction acts with
  | nil => intro db; rfl
  | cons a as ih =>
    intro db
    have hs : memStep c db (.act a) = db.step a := by
      have h1 := h a List.mem_cons_self
      show memAct c db a = db.step a
      cases a <;> first | rfl | (cases h1.1; done) | exact absurd rfl h1.2
    show memRun c (memStep c db (.act a)) (as.map .act) = (db.step a).run as
    rw [hs]
    exact ih (fun x hx => h x (List.mem_cons_of_mem _ hx)) _

example : (∀ a ∈ ((fullCommit [exMember 10 [1]]).drop 1).take 11, isCommitStep a = true ∧ a ≠ .nextEpoch) := by
  intro a ha
  simp only [fullCommit, List.drop, List.take, List.mem_cons, List.not_mem_nil, or_false] at ha
  rcases ha with rfl | rfl | rfl | rfl | rfl | rfl | rfl | rfl | rfl | rfl | rfl <;> exact ⟨rfl, (fun h => by cases h)⟩

/-- Two databases that differ in the clock only. -/
def SameButTime (d d' : Db) : Prop :=
  d'.sets = d.sets ∧ d'.logs = d.logs ∧ d'.files = d.files ∧ d'.ctlogs = d.ctlogs ∧ d'.cacheEpoch = d.cacheEpoch ∧ d'.diskEpoch = d.diskEpoch ∧ d'.phase = d.phase

theorem memStep_full (c : MemConf) (hc : c.policy = .noeviction) (db : Db) (hp : db.phase = .idle) (hf : c.full db = true) (m : MAct) (hm : NoExpiry m) :
    SameButTime db (memStep c db m) := by
  have same : SameButTime db db := ⟨rfl, rfl, rfl, rfl, rfl, rfl, rfl⟩
  have hadd : ∀ (ps : List Cached) (ok : Bool), (ps.foldl (memAdd c) (db, ok)).1 = db := by
    intro ps
    induction ps with
    | nil => intro ok; rfl
    | cons p ps ih =>
      intro ok
      have e : memAdd c (db, ok) p = (db, false) := by unfold memAdd; dsimp only; rw [if_pos hf]
      rw [List.foldl_cons, e]
      exact ih false
  have hcs : ∀ a, isCommitStep a = true → SameButTime db (db.step a) := by
    intro a ha
    have := C33_idle_inert [a] (fun x hx => by rw [List.mem_singleton.1 hx]; exact ha) db hp
    have e : db.step a = db := this
    rw [e]
    exact same
  cases m with
  | act a =>
    show SameButTime db (memAct c db a)
    cases a with
    | insert ps =>
      show SameButTime db (memInsert c db ps).1
      have e : (memInsert c db ps).1 = db := hadd ps true
      rw [e]
      exact same
    | saveLog s => unfold memAct; dsimp only; rw [if_pos hf]; exact same
    | «begin» ro l => unfold memAct; dsimp only; rw [if_pos hf]; exact same
    | ensure => unfold memAct; dsimp only; rw [if_pos hf]; exact same
    | nextEpoch => unfold memAct; dsimp only; rw [if_pos hf, hp]; exact same
    | tick t =>
      show SameButTime db (db.step (.tick t))
      unfold Db.step
      dsimp only
      split
      · exact ⟨rfl, rfl, rfl, rfl, rfl, rfl, rfl⟩
      · exact same
    | keyExpires b => exact absurd hm id
    | wipe => exact absurd hm id
    | _ => exact hcs _ rfl
  | evictBin b =>
    unfold memStep
    dsimp only
    rw [if_neg (fun h => h.2 hc)]
    exact same
  | evictLog key =>
    unfold memStep
    dsimp only
    rw [if_neg (fun h => by rw [hc] at h; cases h.2)]
    exact same
  | evictEpoch =>
    unfold memStep
    dsimp only
    rw [if_neg (fun h => by rw [hc] at h; cases h.2)]
    exact same

/-- **C111 fails: a full cache is not emptied by commits.** ct-fetch.go:253-259 waits for memory to become available "when the cache is committed to disk". But taking the
commit lock needs memory: on a server that evicts nothing, once memory is full, no sequence of insertions, retries, restarts and commits changes anything at all until Redis
expires a bin. -/
theorem C111_stuck_fails (c : MemConf) (hc : c.policy = .noeviction) (acts : List MAct) (ha : ∀ a ∈ acts, NoExpiry a) : ∀ db : Db, db.phase = .idle → c.full db = true →
    SameButTime db (memRun c db acts) ∧ c.full (memRun c db acts) = true := by
  induction acts with
  | nil => intro db _ hf; exact ⟨⟨rfl, rfl, rfl, rfl, rfl, rfl, rfl⟩, hf⟩
  | cons m ms ih =>
    intro db hp hf
    obtain ⟨h1, h2, h3, h4, h5, h6, h7⟩ := memStep_full c hc db hp hf m (ha m List.mem_cons_self)
    have hf' : c.full (memStep c db m) = true := by
      unfold MemConf.full at hf ⊢
      rw [h1, h2]
      exact hf
    obtain ⟨⟨g1, g2, g3, g4, g5, g6, g7⟩, g8⟩ := ih (fun a h => ha a (List.mem_cons_of_mem _ h)) (memStep c db m) (h7.trans hp) hf'
    exact ⟨⟨g1.trans h1, g2.trans h2, g3.trans h3, g4.trans h4, g5.trans h5, g6.trans h6, g7.trans h7⟩, g8⟩

/-- It is full although all certificates in it are covered: with one unit more the same commit empties it. -/
example : (memRun (exMem .noeviction 1) Db.init exFill).phase = .idle ∧ (exMem .noeviction 1).full (memRun (exMem .noeviction 1) Db.init exFill) = true ∧
    (memRun (exMem .noeviction 1) Db.init (exFill ++ exMove [exMember 10 [1]])).sets = [(exBin, exMember 10 [1])] ∧
    (memRun (exMem .noeviction 2) Db.init (exFill ++ exMove [exMember 10 [1]])).sets = [] ∧ (∀ a ∈ exMove [exMember 10 [1]], NoExpiry a) := by
  refine ⟨?_, by decide +kernel, by decide +kernel, by decide +kernel, ?_⟩
  · rfl
  · intro a ha
    obtain ⟨x, hx, rfl⟩ := List.mem_map.1 ha
    simp only [fullCommit, List.mem_cons, List.not_mem_nil, or_false] at hx
    rcases hx with rfl | rfl | rfl | rfl | rfl | rfl | rfl | rfl | rfl | rfl | rfl | rfl | rfl | rfl <;> trivial

/-- **C111 fails on a server that evicts.** Whatever the state: the bin goes, and with it every serial that was only there; the log states that claim them, the epochs and
so the consistency check do not change. -/
theorem C111_evicted_fails (c : MemConf) (hc : c.policy ≠ .noeviction) (db : Db) (hf : c.full db = true) (b : Bin) (s : Serial) (hs : ¬ Stored db b s) :
    ¬ InCache (memStep c db (.evictBin b)) b s ∧ ¬ Stored (memStep c db (.evictBin b)) b s ∧ (memStep c db (.evictBin b)).logs = db.logs ∧
    (memStep c db (.evictBin b)).cacheEpoch = db.cacheEpoch ∧ (memStep c db (.evictBin b)).diskEpoch = db.diskEpoch := by
  have e : memStep c db (.evictBin b) = { db with sets := db.sets.filter (fun p => decide (p.1 ≠ b)) } := by
    unfold memStep
    dsimp only
    rw [if_pos ⟨hf, hc⟩]
  rw [e]
  refine ⟨?_, hs, rfl, rfl, rfl⟩
  rintro ⟨m, h1, _⟩
  have := (List.mem_filter.1 h1).2
  exact absurd rfl (of_decide_eq_true this)

example : (exMem .volatile 1).policy ≠ .noeviction ∧ (exMem .volatile 1).full (memRun (exMem .volatile 1) Db.init exFill) = true ∧
    InCache (memRun (exMem .volatile 1) Db.init exFill) exBin [1] := by
  refine ⟨by decide, by decide +kernel, ⟨exMember 10 [1], by decide +kernel, by decide +kernel⟩⟩

/-- **C111 fails on a server that evicts: the epoch.** If the policy allows it to evict any key, also the epoch may go. After the first commit no commit begins then, also when memory is no longer full, until ct-fetch is started again.
Under other policies and while there is memory the epoch stays. -/
theorem C111_epoch_evicted_fails (c : MemConf) (db : Db) :
    (c.full db = true → c.policy = .allkeys → db.phase = .idle → 1 ≤ db.diskEpoch →
      (memStep c db .evictEpoch).cacheEpoch = 0 ∧ (∀ ro lock, (memStep c db .evictEpoch).step (.begin ro lock) = memStep c db .evictEpoch) ∧
      (memStep c db .evictEpoch).sets = db.sets ∧ (memStep c db .evictEpoch).logs = db.logs) ∧
    (c.full db = false ∨ c.policy ≠ .allkeys → memStep c db .evictEpoch = db) := by
  constructor
  · intro hf hc hp hd
    have e : memStep c db .evictEpoch = { db with cacheEpoch := 0 } := by
      unfold memStep
      dsimp only
      rw [if_pos ⟨hf, hc⟩]
    rw [e]
    refine ⟨rfl, fun ro lock => ?_, rfl, rfl⟩
    have ha : epochsAgree 0 db.diskEpoch = false := by
      unfold epochsAgree
      exact decide_eq_false (by omega)
    simp only [Db.step, Db.commitStep, hp]
    rw [ha, if_neg (by rintro ⟨_, _, h⟩; cases h)]
  · intro h
    unfold memStep
    dsimp only
    rw [if_neg ?_]
    rintro ⟨h1, h2⟩
    rcases h with h | h
    · rw [h] at h1; cases h1
    · exact h h2

example : (exMem .allkeys 1).full { memRun (exMem .volatile 1) Db.init exFill with diskEpoch := 1, cacheEpoch := 2 } = true ∧ (exMem .allkeys 1).policy = .allkeys ∧
    (memRun (exMem .volatile 1) Db.init exFill).phase = .idle := by
  refine ⟨by decide +kernel, rfl, rfl⟩

/-- A state and a certificate are stored, committed, and the state is evicted; a second commit follows. -/
def exLogEvicted : List MAct :=
  exFill ++ (fullCommit [exMember 10 [1]]).map .act ++ [.act (.insert [(exBin, exMember 11 [2]), (exBin, exMember 11 [3])]), .evictLog (logKey ['l'])] ++
    (.begin false true :: (fullCommit [exMember 11 [2], exMember 11 [3]]).drop 2).map .act

/-- **C111 fails on a server that evicts: the state of a log.** If the policy allows it to evict any key, also the state of a log may go, and nothing but it. A commit that follows publishes no coverage of that log,
although it was published before and its certificates are on disk. Under other policies and while there is memory the states stay. -/
theorem C111_log_evicted_fails (c : MemConf) (db : Db) (key : Text) :
    (c.full db = true → c.policy = .allkeys →
      (∀ s, (key, s) ∉ (memStep c db (.evictLog key)).logs) ∧ (∀ k s, k ≠ key → ((k, s) ∈ (memStep c db (.evictLog key)).logs ↔ (k, s) ∈ db.logs)) ∧
      { memStep c db (.evictLog key) with logs := db.logs } = db) ∧
    (c.full db = false ∨ c.policy ≠ .allkeys → memStep c db (.evictLog key) = db) ∧
    (memRun (exMem .allkeys 2) Db.init (exLogEvicted.take 18)).ctlogs = some [exState 2000] ∧ (memRun (exMem .allkeys 2) Db.init exLogEvicted).ctlogs = some [] := by
  refine ⟨?_, ?_, by decide +kernel, by decide +kernel⟩
  · intro hf hc
    have e : memStep c db (.evictLog key) = { db with logs := db.logs.filter (fun p => decide (p.1 ≠ key)) } := by
      unfold memStep
      dsimp only
      rw [if_pos ⟨hf, hc⟩]
    rw [e]
    refine ⟨fun s h => ?_, fun k s hk => ?_, rfl⟩
    · exact of_decide_eq_true (List.mem_filter.1 h).2 rfl
    · rw [List.mem_filter]
      exact ⟨fun h => h.1, fun h => ⟨h, decide_eq_true hk⟩⟩
  · intro h
    unfold memStep
    dsimp only
    rw [if_neg ?_]
    rintro ⟨h1, h2⟩
    rcases h with h | h
    · rw [h] at h1; cases h1
    · exact h h2

example := (C111_log_evicted_fails (exMem .allkeys 1) (memRun (exMem .allkeys 1) Db.init exFill) (logKey ['l'])).1 (by decide +kernel) rfl

/-- The bin is evicted after the state was saved; a commit follows. -/
def exEvicted : List MAct :=
  exFill ++ [.evictBin exBin] ++ ([.begin false true, .readLog (logKey ['l']), .loadedAll, .listStart, .listEnd [], .replaceLogs, .nextEpoch, .replaceEpoch] : List CAct).map .act

/-- **C111 fails on a server that evicts: coverage is published for what it evicted**, by a commit in which nothing fails. -/
theorem C111_published_fails : (memRun (exMem .volatile 1) Db.init exEvicted).ctlogs = some [exState 2000] ∧
    (exBin, exMember 10 [1]) ∈ (memRun (exMem .volatile 1) Db.init exEvicted).pubSeen ∧ isCovered (newCoverageCutoffMap [exState 2000]) (exMember 10 [1]) = true ∧
    Live exBin (memRun (exMem .volatile 1) Db.init exEvicted).now ∧ ¬ Stored (memRun (exMem .volatile 1) Db.init exEvicted) exBin [1] ∧
    (memRun (exMem .volatile 1) Db.init exEvicted).cacheEpoch = 1 := by
  refine ⟨by decide +kernel, by decide +kernel, by decide +kernel, by unfold Live; decide +kernel, ?_, by decide +kernel⟩
  have h : (memRun (exMem .volatile 1) Db.init exEvicted).files exBin = none := by decide +kernel
  rintro ⟨l, h1, h2⟩
  rw [h] at h1
  cases h1
  cases h2

/-- **C111 fails: the policy is only warned about.** Whatever Redis says about its policy, the programs go on; they stop only if Redis does not answer at all. If it does not say
its policy there is a warning too. -/
theorem C111_policy_ignored_fails (ping : Bool) (info : Option Text) : (newRedisCache ping info = none ↔ ping = false) ∧ newRedisCache true none = some true := by
  refine ⟨?_, rfl⟩
  unfold newRedisCache
  cases ping <;> simp

/-- **C111 (partial): a commit that cannot count the epoch can be repeated.** With the memory full `INCR` is refused and the commit ends; the epochs are as before it, so that in every
history without eviction the next commit is not refused for them. The coverage it published stays published. -/
theorem C111_epoch_refused_partial (c : MemConf) (hc : c.policy = .noeviction) (acts : List MAct) (hf : ∀ a ∈ acts, FineM a) (e : Nat)
    (hp : (memRun c Db.init acts).phase = .replaced e) (hfull : c.full (memRun c Db.init acts) = true) :
    (memRun c Db.init (acts ++ [.act .nextEpoch])).phase = .idle ∧
    (memRun c Db.init (acts ++ [.act .nextEpoch])).cacheEpoch = (memRun c Db.init acts).cacheEpoch ∧
    (memRun c Db.init (acts ++ [.act .nextEpoch])).ctlogs = (memRun c Db.init acts).ctlogs ∧
    ((memRun c Db.init (acts ++ [.act .nextEpoch])).cacheEpoch = (memRun c Db.init (acts ++ [.act .nextEpoch])).diskEpoch + 1 ∨
      (memRun c Db.init (acts ++ [.act .nextEpoch])).cacheEpoch = 0 ∧ (memRun c Db.init (acts ++ [.act .nextEpoch])).diskEpoch = 0) := by
  have e1 : memRun c Db.init (acts ++ [.act .nextEpoch]) = (memRun c Db.init acts).step .stop := by
    unfold memRun
    rw [List.foldl_append]
    show memAct c (memRun c Db.init acts) .nextEpoch = _
    unfold memAct
    dsimp only
    rw [if_pos hfull, hp]
    rfl
  rw [e1]
  obtain ⟨as, h1, h2⟩ := memRun_fine c hc acts Db.init hf
  have hi : EpochInv (Db.init.run as) := run_induct (P := EpochInv) (fun _ _ h he => epochInv_eff h he) as Db.init (Or.inl rfl) h1
  rw [← h2] at hi
  unfold EpochInv at hi
  rw [hp] at hi
  refine ⟨rfl, rfl, rfl, ?_⟩
  have := (epochsAgree_iff _ _).1 hi.2
  show (memRun c Db.init acts).cacheEpoch = (memRun c Db.init acts).diskEpoch + 1 ∨ (memRun c Db.init acts).cacheEpoch = 0 ∧ (memRun c Db.init acts).diskEpoch = 0
  rw [hi.1]
  exact this

/-- ct-fetch fills the memory while the commit is running. -/
def exRefilled : List MAct := exFill ++ (exMove [exMember 10 [1]]).take 12 ++ [.act (.insert [(exBin, exMember 20 [2]), (exBin, exMember 30 [3])])]

example : (∃ e, (memRun (exMem .noeviction 2) Db.init exRefilled).phase = .replaced e) ∧ (exMem .noeviction 2).full (memRun (exMem .noeviction 2) Db.init exRefilled) = true ∧
    (∀ a ∈ exRefilled, FineM a) ∧ (memRun (exMem .noeviction 2) Db.init exRefilled).ctlogs = some [exState 2000] := by
  refine ⟨⟨0, rfl⟩, by decide +kernel, ?_, by decide +kernel⟩
  intro a ha
  rcases List.mem_append.1 ha with ha | ha
  · rcases List.mem_append.1 ha with ha | ha
    · exact exFill_fine a ha
    · exact exMove_fine _ a (List.mem_of_mem_take ha)
  · simp only [List.mem_singleton] at ha
    subst ha
    intro p hp
    simp only [List.mem_cons, List.not_mem_nil, or_false] at hp
    rcases hp with rfl | rfl
    · show (asSerial (exMember 20 [2])).length < 32768
      decide +kernel
    · show (asSerial (exMember 30 [3])).length < 32768
      decide +kernel

/-! ### the test of the policy -/

theorem containsText_iff (n : Text) : ∀ t : Text, containsText n t = true ↔ ∃ a b, t = a ++ n ++ b
  | [] => by
    unfold containsText
    constructor
    · intro h
      obtain ⟨b, hb⟩ := List.isPrefixOf_iff_prefix.1 h
      exact ⟨[], b, by simpa using hb.symm⟩
    · rintro ⟨a, b, h⟩
      have h' : n = [] := by
        have := congrArg List.length h
        simp only [List.length_nil, List.length_append] at this
        exact List.eq_nil_of_length_eq_zero (by omega)
      subst h'
      rfl
  | x :: t => by
    unfold containsText
    rw [Bool.or_eq_true, containsText_iff n t]
    constructor
    · rintro (h | ⟨a, b, h⟩)
      · obtain ⟨b, hb⟩ := List.isPrefixOf_iff_prefix.1 h
        exact ⟨[], b, by simpa using hb.symm⟩
      · exact ⟨x :: a, b, by rw [h]; rfl⟩
    · rintro ⟨a, b, h⟩
      cases a with
      | nil => exact Or.inl (List.isPrefixOf_iff_prefix.2 ⟨b, by simpa using h.symm⟩)
      | cons y a =>
        rw [List.cons_append, List.cons_append] at h
        injection h with h1 h2
        exact Or.inr ⟨a, b, h2⟩

/-- A text without the separator lies on one side of it. -/
theorem infix_sep {n : Text} {c : Char} (hn : c ∉ n) (u v : Text) (h : ∃ a b, u ++ c :: v = a ++ n ++ b) : (∃ a b, u = a ++ n ++ b) ∨ ∃ a b, v = a ++ n ++ b := by
  obtain ⟨a, b, h⟩ := h
  rcases List.append_eq_append_iff.1 h with ⟨w, h1, h2⟩ | ⟨w, h1, h2⟩
  · -- `a ++ n = u ++ w`, `c :: v = w ++ b`
    cases w with
    | nil =>
      left
      rw [List.append_nil] at h1
      exact ⟨a, [], by rw [List.append_nil]; exact h1.symm⟩
    | cons d w =>
      rw [List.cons_append] at h2
      injection h2 with e1 e2
      subst e1
      rcases List.append_eq_append_iff.1 h1 with ⟨z, g1, g2⟩ | ⟨z, g1, g2⟩
      · -- `u = a ++ z`, `n = z ++ c :: w`
        exact absurd (by rw [g2]; simp) hn
      · -- `a = u ++ z`, `c :: w = z ++ n`
        cases z with
        | nil =>
          rw [List.nil_append] at g2
          exact absurd (by rw [← g2]; simp) hn
        | cons y z =>
          rw [List.cons_append] at g2
          injection g2 with e3 e4
          exact Or.inr ⟨z, b, by rw [e2, e4]⟩
  · -- `u = a ++ n ++ w`
    left
    exact ⟨a, w, h1⟩

theorem policyNeedle_split : policyNeedle = "maxmemory_policy".toList ++ ':' :: "noeviction".toList := by decide

theorem field_contains (k v : Text) (hp : PlainField (k, v)) :
    (∃ a b, k ++ ':' :: (v ++ ['\r']) = a ++ policyNeedle ++ b) ↔ (∃ x, k = x ++ "maxmemory_policy".toList) ∧ ∃ y, v = "noeviction".toList ++ y := by
  have hk : ':' ∉ k := fun h => (hp ':' (List.mem_append_left _ h)).1 rfl
  have hv : ':' ∉ v ++ ['\r'] := by
    intro h
    rcases List.mem_append.1 h with h | h
    · exact (hp ':' (List.mem_append_right _ h)).1 rfl
    · revert h; decide
  have hr : '\r' ∉ "noeviction".toList := by decide
  constructor
  · rintro ⟨a, b, h⟩
    rw [policyNeedle_split] at h
    have h' : k ++ ':' :: (v ++ ['\r']) = (a ++ "maxmemory_policy".toList) ++ ':' :: ("noeviction".toList ++ b) := by
      rw [h]; simp only [List.append_assoc, List.cons_append]
    obtain ⟨e1, e2⟩ : k = a ++ "maxmemory_policy".toList ∧ v ++ ['\r'] = "noeviction".toList ++ b := by
      rcases List.append_eq_append_iff.1 h' with ⟨w, h1, h2⟩ | ⟨w, h1, h2⟩
      · cases w with
        | nil => rw [List.nil_append] at h2; injection h2 with _ h3; exact ⟨by rw [h1, List.append_nil], h3⟩
        | cons d w =>
          rw [List.cons_append] at h2
          injection h2 with _ h3
          exact absurd (by rw [h3]; simp) hv
      · cases w with
        | nil => rw [List.nil_append] at h2; injection h2 with _ h3; exact ⟨by rw [h1, List.append_nil], h3.symm⟩
        | cons d w =>
          rw [List.cons_append] at h2
          injection h2 with h3 _
          subst h3
          exact absurd (by rw [h1]; simp) hk
    refine ⟨⟨a, e1⟩, ?_⟩
    rcases List.append_eq_append_iff.1 e2 with ⟨w, h1, h2⟩ | ⟨w, h1, h2⟩
    · cases w with
      | nil => exact ⟨[], by rw [h1]; simp⟩
      | cons d w =>
        rw [List.cons_append] at h2
        injection h2 with h3 _
        subst h3
        exact absurd (by rw [h1]; simp) hr
    · exact ⟨w, h1⟩
  · rintro ⟨⟨x, rfl⟩, y, rfl⟩
    exact ⟨x, y ++ ['\r'], by rw [policyNeedle_split]; simp only [List.append_assoc, List.cons_append]⟩

theorem fields_contain (fields : List (Text × Text)) (hp : ∀ f ∈ fields, PlainField f) :
    (∃ a b, fields.flatMap (fun f => f.1 ++ ':' :: (f.2 ++ ['\r', '\n'])) = a ++ policyNeedle ++ b) ↔
      ∃ f ∈ fields, (∃ x, f.1 = x ++ "maxmemory_policy".toList) ∧ ∃ y, f.2 = "noeviction".toList ++ y := by
  have hn : '\n' ∉ policyNeedle := by decide
  induction fields with
  | nil =>
    constructor
    · rintro ⟨a, b, h⟩
      have := congrArg List.length h
      have hl : policyNeedle.length = 27 := by decide
      simp only [List.flatMap_nil, List.length_nil, List.length_append, hl] at this
      omega
    · rintro ⟨f, hf, _⟩; cases hf
  | cons f fs ih =>
    have e : (f :: fs).flatMap (fun f => f.1 ++ ':' :: (f.2 ++ ['\r', '\n'])) =
        (f.1 ++ ':' :: (f.2 ++ ['\r'])) ++ '\n' :: fs.flatMap (fun f => f.1 ++ ':' :: (f.2 ++ ['\r', '\n'])) := by
      simp only [List.flatMap_cons, List.append_assoc, List.cons_append, List.nil_append]
    rw [e]
    have ih' := ih (fun g hg => hp g (List.mem_cons_of_mem _ hg))
    constructor
    · intro h
      rcases infix_sep hn _ _ h with h | h
      · exact ⟨f, List.mem_cons_self, (field_contains f.1 f.2 (hp f List.mem_cons_self)).1 h⟩
      · obtain ⟨g, hg, h⟩ := ih'.1 h
        exact ⟨g, List.mem_cons_of_mem _ hg, h⟩
    · rintro ⟨g, hg, h⟩
      rcases List.mem_cons.1 hg with rfl | hg
      · obtain ⟨a, b, h⟩ := (field_contains g.1 g.2 (hp g List.mem_cons_self)).2 h
        exact ⟨a, b ++ '\n' :: fs.flatMap (fun f => f.1 ++ ':' :: (f.2 ++ ['\r', '\n'])), by rw [h]; simp only [List.append_assoc]⟩
      · obtain ⟨a, b, h⟩ := ih'.2 ⟨g, hg, h⟩
        exact ⟨(f.1 ++ ':' :: (f.2 ++ ['\r'])) ++ '\n' :: a, b, by rw [h]; simp only [List.append_assoc, List.cons_append]⟩

/-- **C111 (partial): the test of the policy is right.** For a reply in which only one field has a name that ends in `maxmemory_policy`, and no policy but `noeviction` begins so:
a warning is logged exactly if the policy is another one. -/
theorem C111_policy_tested_partial (fields : List (Text × Text)) (hp : ∀ f ∈ fields, PlainField f) (policy : Text) (hin : ("maxmemory_policy".toList, policy) ∈ fields)
    (hone : ∀ f ∈ fields, ∀ x, f.1 = x ++ "maxmemory_policy".toList → f = ("maxmemory_policy".toList, policy))
    (hv : ∀ y, policy = "noeviction".toList ++ y → y = []) :
    newRedisCache true (some (infoReply fields)) = some false ↔ policy = "noeviction".toList := by
  have hn : '\n' ∉ policyNeedle := by decide
  have key : memoryPolicyCorrect (some (infoReply fields)) = true ↔ policy = "noeviction".toList := by
    show containsText policyNeedle (infoReply fields) = true ↔ _
    rw [containsText_iff]
    have e : infoReply fields = "# Memory\r".toList ++ '\n' :: fields.flatMap (fun f => f.1 ++ ':' :: (f.2 ++ ['\r', '\n'])) := by
      unfold infoReply
      have : "# Memory\r\n".toList = "# Memory\r".toList ++ ['\n'] := by decide
      rw [this, List.append_assoc]
      rfl
    rw [e]
    constructor
    · intro h
      rcases infix_sep hn _ _ h with ⟨a, b, h⟩ | h
      · have := congrArg List.length h
        have hl : policyNeedle.length = 27 := by decide
        have hh : "# Memory\r".toList.length = 9 := by decide
        simp only [List.length_append, hl, hh] at this
        omega
      · obtain ⟨f, hf, ⟨x, hx⟩, y, hy⟩ := (fields_contain fields hp).1 h
        have hfe := hone f hf x hx
        subst hfe
        have : y = [] := hv y hy
        subst this
        have hy' : policy = "noeviction".toList ++ [] := hy
        rw [hy', List.append_nil]
    · intro h
      obtain ⟨a, b, hab⟩ := (fields_contain fields hp).2 ⟨_, hin, ⟨[], rfl⟩, [], by rw [h, List.append_nil]⟩
      exact ⟨"# Memory\r".toList ++ '\n' :: a, b, by rw [hab]; simp only [List.append_assoc, List.cons_append]⟩
  rw [← key]
  unfold newRedisCache
  rw [if_pos rfl]
  cases memoryPolicyCorrect (some (infoReply fields)) <;> simp

/-- A reply of three fields. -/
def exInfo (policy : String) : List (Text × Text) :=
  [("used_memory".toList, "1000".toList), ("maxmemory_policy".toList, policy.toList), ("mem_fragmentation_ratio".toList, "1.2".toList)]

example : (∀ f ∈ exInfo "volatile-lru", PlainField f) ∧ newRedisCache true (some (infoReply (exInfo "volatile-lru"))) = some true ∧
    newRedisCache true (some (infoReply (exInfo "noeviction"))) = some false ∧ newRedisCache false none = none := by
  refine ⟨?_, by decide +kernel, by decide +kernel, by decide +kernel⟩
  intro f hf
  simp only [exInfo, List.mem_cons, List.not_mem_nil, or_false] at hf
  rcases hf with rfl | rfl | rfl <;> (unfold PlainField; decide +kernel)

example : ("maxmemory_policy".toList, "noeviction".toList) ∈ exInfo "noeviction" ∧
    (∀ f ∈ exInfo "noeviction", ∀ x, f.1 = x ++ "maxmemory_policy".toList → f = ("maxmemory_policy".toList, "noeviction".toList)) ∧
    ∀ y : Text, "noeviction".toList = "noeviction".toList ++ y → y = [] := by
  refine ⟨by simp [exInfo], ?_, fun y h => ?_⟩
  · intro f hf x hx
    simp only [exInfo, List.mem_cons, List.not_mem_nil, or_false] at hf
    have hs : "maxmemory_policy".toList <:+ f.1 := ⟨x, hx.symm⟩
    rcases hf with rfl | rfl | rfl
    · exact absurd (List.isSuffixOf_iff_suffix.2 hs) (by decide +kernel)
    · rfl
    · exact absurd (List.isSuffixOf_iff_suffix.2 hs) (by decide +kernel)
  · have := congrArg List.length h
    rw [List.length_append] at this
    exact List.eq_nil_of_length_eq_zero (by omega)

end Verif.Props
