import Verif.Props.Commit
/-!
C35 for histories in which a scan may return a bin twice.
-/
namespace Verif.Props
open Verif.Spec

/-! ### what the goroutines hold, whatever they do -/

/-- What a goroutine holds: values that were inserted, stored serials that are accounted for (`J`), and for removal only covered values. -/
def BinStage (ever : List Cached) (J : Bin → Serial → Prop) (states : List CTLogState) (b : Bin) : Stage → Prop
  | .scanning need => ∀ x ∈ need, (b, x) ∈ ever
  | .listed es => ∀ x ∈ es, (b, x) ∈ ever
  | .haveRead es l => (∀ x ∈ es, (b, x) ∈ ever) ∧ ∀ s ∈ l, J b s ∧ s.length < 32768
  | .wrote cov => ∀ x ∈ cov, isCovered (newCoverageCutoffMap states) x = true
  | _ => True

structure BinHolds (J : Bin → Serial → Prop) (db : Db) : Prop where
  sub : ∀ p ∈ db.sets, p ∈ db.ever
  stored : ∀ b s, Stored db b s → J b s
  jobs : ∀ e st seen todo jobs, db.phase = .moving e st seen todo jobs → ∀ j ∈ jobs, BinStage db.ever J st j.bin j.stage

theorem stageHolds_mono {ever ever' : List Cached} {J : Bin → Serial → Prop} {states : List CTLogState} {b : Bin} {s : Stage} (h : BinStage ever J states b s) (he : ∀ p ∈ ever, p ∈ ever') : BinStage ever' J states b s := by
  cases s with
  | scanning need => exact fun x hx => he _ (h x hx)
  | listed es => exact fun x hx => he _ (h x hx)
  | haveRead es l => exact ⟨fun x hx => he _ (h.1 x hx), h.2⟩
  | wrote cov => exact h
  | finished => trivial
  | failed => trivial

theorem mem_setStage' {jobs : List Job} {k : Nat} {b : Bin} {st' : Stage} {j : Job} (hj : j ∈ setStage jobs k b st') : j = ⟨b, st'⟩ ∨ j ∈ jobs := by
  unfold setStage at hj
  rcases List.mem_or_eq_of_mem_set hj with h | h
  · exact Or.inr h
  · exact Or.inl h

/-- The stage of one goroutine changes and the files do not. -/
theorem binHolds_set {J : Bin → Serial → Prop} {db : Db} (hi : BinHolds J db) {e : Nat} {st : List CTLogState} {seen : List Cached} {todo : List Bin} {jobs : List Job}
    (hp : db.phase = .moving e st seen todo jobs) {k : Nat} {b : Bin} {s' : Stage} (h : BinStage db.ever J st b s') :
    BinHolds J { db with phase := .moving e st seen todo (setStage jobs k b s') } := by
  refine ⟨hi.sub, hi.stored, fun e2 st2 seen2 todo2 jobs2 h2 j hj => ?_⟩
  cases h2
  rcases mem_setStage' hj with rfl | hm
  · exact h
  · exact hi.jobs _ _ _ _ _ hp j hm

/-- Another phase than moving. -/
theorem binHolds_phase {J : Bin → Serial → Prop} {db : Db} (hi : BinHolds J db) {db' : Db} (h1 : db'.sets = db.sets) (h2 : db'.ever = db.ever) (h3 : db'.files = db.files)
    (h : ∀ e st seen todo jobs, db'.phase = .moving e st seen todo jobs → jobs = []) : BinHolds J db' := by
  refine ⟨by rw [h1, h2]; exact hi.sub, fun b s hs => hi.stored b s (by unfold Stored at hs ⊢; rwa [h3] at hs), fun e st seen todo jobs hp j hj => ?_⟩
  rw [h e st seen todo jobs hp] at hj
  cases hj

/-- What is read from a written file: the serials it was written from, if they are short; else nothing. -/
theorem binHolds_write {J : Bin → Serial → Prop} {db : Db} (hi : BinHolds J db) {e : Nat} {st : List CTLogState} {seen : List Cached} {todo : List Bin} {jobs : List Job}
    (hp : db.phase = .moving e st seen todo jobs) {k : Nat} {b : Bin}
    (hx : (∀ b s, J b s) ∨ (∀ b m, (b, m) ∈ db.ever → isCovered (newCoverageCutoffMap st) m = true → J b (asSerial m)) ∧ (∀ p ∈ db.ever, Short p.2) ∧ InRange b) {es : List Bytes} {l : List Serial} (hj : jobs[k]? = some ⟨b, .haveRead es l⟩) :
    BinHolds J { db with
        files := fun b' => if b' = b then some (movedFile st b es l) else db.files b'
        phase := .moving e st seen todo (setStage jobs k b (.wrote (coveredOf st es))) } := by
  have hh := hi.jobs _ _ _ _ _ hp _ (List.mem_of_getElem? hj)
  refine ⟨hi.sub, fun b' s hs => ?_, fun e2 st2 seen2 todo2 jobs2 h2 j hj2 => ?_⟩
  · rcases hx with hx | ⟨hJ, hshort, hb⟩
    · exact hx b' s
    obtain ⟨l', hl', hm⟩ := hs
    dsimp only at hl'
    by_cases e : b' = b
    · subst e
      rw [if_pos rfl, read_movedFile st b' hb es (fun x hx => hshort _ (hh.1 x hx)) l (fun s hs => (hh.2 s hs).2)] at hl'
      cases hl'
      rcases (mem_moved st es l s).1 hm with hm | ⟨m, a1, a2, rfl⟩
      · exact (hh.2 s hm).1
      · exact hJ b' m (hh.1 m a1) a2
    · rw [if_neg e] at hl'
      exact hi.stored b' s ⟨l', hl', hm⟩
  · cases h2
    rcases mem_setStage' hj2 with rfl | hm
    · exact fun x hx => (List.mem_filter.1 hx).2
    · exact hi.jobs _ _ _ _ _ hp j hm

/-- The bins that are listed have dates. -/
def Ranged (db : Db) : Prop := ∀ e st seen todo jobs, db.phase = .moving e st seen todo jobs → ∀ b ∈ todo ++ jobs.map Job.bin, InRange b

/-- The histories: serials are short and the bins have dates. Redis may lose data, and a scan may return a bin twice. -/
def Dated : CAct → Prop
  | .insert ps => ∀ p ∈ ps, Short p.2
  | .listEnd bs => ∀ b ∈ bs, InRange b
  | _ => True

theorem map_bin_setStage {jobs : List Job} {k : Nat} {b : Bin} {st : Stage} (h : ∃ s, jobs[k]? = some ⟨b, s⟩) : (setStage jobs k b st).map Job.bin = jobs.map Job.bin := by
  obtain ⟨s, hs⟩ := h
  exact map_bin_set jobs k b s st hs

theorem binHolds_same {J : Bin → Serial → Prop} {db db' : Db} (hi : BinHolds J db) (h1 : ∀ p ∈ db'.sets, p ∈ db'.ever) (h2 : ∀ p ∈ db.ever, p ∈ db'.ever) (h3 : db'.files = db.files) (h4 : db'.phase = db.phase) : BinHolds J db' := by
  refine ⟨h1, fun b s hs => hi.stored b s (by unfold Stored at hs ⊢; rwa [h3] at hs), fun e st seen todo jobs hp j hj => ?_⟩
  exact stageHolds_mono (hi.jobs e st seen todo jobs (h4 ▸ hp) j hj) h2

theorem binHolds_jobStep {J : Bin → Serial → Prop} {db : Db} (hi : BinHolds J db) {e : Nat} {st : List CTLogState} {seen : List Cached} {todo : List Bin} {jobs : List Job}
    (hp : db.phase = .moving e st seen todo jobs) (hx : (∀ b s, J b s) ∨ (∀ b m, (b, m) ∈ db.ever → isCovered (newCoverageCutoffMap st) m = true → J b (asSerial m)) ∧ (∀ p ∈ db.ever, Short p.2) ∧ Ranged db) (a : CAct) : BinHolds J (db.jobStep e st seen todo jobs a) := by
  unfold Db.jobStep
  split
  · split
    · refine ⟨hi.sub, hi.stored, fun e2 st2 seen2 todo2 jobs2 h2 j hj => ?_⟩
      cases h2
      rcases List.mem_append.1 hj with hj | hj
      · exact hi.jobs _ _ _ _ _ hp j hj
      · simp only [List.mem_singleton] at hj
        subst hj
        exact fun x hx => hi.sub _ (mem_members.1 hx)
    · exact hi
  · split
    · next k es b need hj =>
      split
      · next hc =>
        split
        · exact binHolds_set hi hp trivial
        · refine binHolds_set hi hp (fun x hx => ?_)
          rcases hc.2 x hx with h | h
          · exact hi.jobs _ _ _ _ _ hp _ (List.mem_of_getElem? hj) x h
          · exact hi.sub _ (mem_members.1 h)
      · exact hi
    · exact hi
  · split
    · next k b es hj =>
      split
      · exact binHolds_set hi hp trivial
      · next l hl => exact binHolds_set hi hp ⟨hi.jobs _ _ _ _ _ hp _ (List.mem_of_getElem? hj), fun s hs => ⟨hi.stored b s ⟨l, hl, hs⟩, read_short _ _ _ hl s hs⟩⟩
    · exact hi
  · split
    · next k b es l hj =>
      refine binHolds_write hi hp ?_ hj
      rcases hx with hx | ⟨h1, h2, h3⟩
      · exact Or.inl hx
      · exact Or.inr ⟨h1, h2, h3 _ _ _ _ _ hp b (List.mem_append_right _ (List.mem_map.2 ⟨_, List.mem_of_getElem? hj, rfl⟩))⟩
    · exact hi
  · split
    · exact binHolds_same hi (fun p hp => hi.sub p (List.mem_filter.1 hp).1) (fun _ h => h) rfl rfl
    · exact hi
  · split
    · exact binHolds_set hi hp trivial
    · exact hi
  · split
    · exact binHolds_set hi hp trivial
    · exact binHolds_set hi hp trivial
    · exact binHolds_set hi hp trivial
    · exact hi
  · split
    · exact binHolds_phase hi rfl rfl rfl (fun _ _ _ _ _ h => by cases h)
    · exact hi
  · exact hi

theorem binHolds_commitStep {J : Bin → Serial → Prop} {db : Db} (hi : BinHolds J db)
    (hx : (∀ b s, J b s) ∨ (∀ e st seen todo jobs, db.phase = .moving e st seen todo jobs → ∀ b m, (b, m) ∈ db.ever → isCovered (newCoverageCutoffMap st) m = true → J b (asSerial m)) ∧ (∀ p ∈ db.ever, Short p.2) ∧ Ranged db)
    (a : CAct) : BinHolds J (db.commitStep a) := by
  unfold Db.commitStep
  split
  · split
    · split
      · exact binHolds_phase hi rfl rfl rfl (fun _ _ _ _ _ h => by cases h)
      · exact hi
    · exact hi
  · split
    · split
      · exact binHolds_phase hi rfl rfl rfl (fun _ _ _ _ _ h => by cases h)
      · exact binHolds_phase hi rfl rfl rfl (fun _ _ _ _ _ h => by cases h)
    · split
      · exact binHolds_phase hi rfl rfl rfl (fun _ _ _ _ _ h => by cases h)
      · exact hi
    · exact hi
  · split
    · exact binHolds_phase hi rfl rfl rfl (fun _ _ _ _ _ h => by cases h)
    · exact hi
  · split
    · split
      · exact binHolds_phase hi rfl rfl rfl (fun _ _ _ _ _ h => by cases h; rfl)
      · exact hi
    · exact hi
  · next epoch states seen todo jobs hp => exact binHolds_jobStep hi hp (hx.elim Or.inl (fun h => Or.inr ⟨h.1 _ _ _ _ _ hp, h.2⟩)) a
  · next epoch hp =>
    split
    · next b =>
      split
      · refine ⟨hi.sub, fun b' s hs => ?_, fun e st seen todo jobs h => ?_⟩
        · obtain ⟨l, hl, hm⟩ := hs
          dsimp only at hl
          split at hl
          · have : readSerialsFromStorage b'.unix none = .ok [] := rfl
            rw [this] at hl
            cases hl
            cases hm
          · exact hi.stored b' s ⟨l, hl, hm⟩
        · dsimp only at h
          rw [hp] at h
          cases h
      · exact hi
    · exact binHolds_phase hi rfl rfl rfl (fun _ _ _ _ _ h => by cases h)
    · exact hi
  · next hp =>
    split
    · exact binHolds_phase hi rfl rfl rfl (fun _ _ _ _ _ h => by cases h)
    · exact binHolds_phase hi rfl rfl rfl (fun _ _ _ _ _ h => by dsimp only at h; rw [hp] at h; cases h)
    · exact hi

theorem binHolds_step {J : Bin → Serial → Prop} {db : Db} (hi : BinHolds J db)
    (hx : (∀ b s, J b s) ∨ (∀ e st seen todo jobs, db.phase = .moving e st seen todo jobs → ∀ b m, (b, m) ∈ db.ever → isCovered (newCoverageCutoffMap st) m = true → J b (asSerial m)) ∧ (∀ p ∈ db.ever, Short p.2) ∧ Ranged db)
    (a : CAct) : BinHolds J (db.step a) := by
  unfold Db.step
  split
  · refine binHolds_same hi (fun p hp => ?_) (fun p hp => List.mem_append_right _ hp) rfl rfl
    rcases List.mem_append.1 hp with hp | hp
    · exact List.mem_append_left _ hp
    · exact List.mem_append_right _ (hi.sub p hp)
  · exact binHolds_same hi hi.sub (fun _ h => h) rfl rfl
  · split
    · exact binHolds_same hi hi.sub (fun _ h => h) rfl rfl
    · exact hi
  · split
    · exact binHolds_same hi (fun p hp => hi.sub p (List.mem_filter.1 hp).1) (fun _ h => h) rfl rfl
    · exact hi
  · exact binHolds_same hi (fun p hp => by cases hp) (fun _ h => h) rfl rfl
  · unfold Db.ensure
    split
    · split
      · exact hi
      · split
        · exact hi
        · exact binHolds_same hi hi.sub (fun _ h => h) rfl rfl
    · exact hi
  · exact binHolds_phase hi rfl rfl rfl (fun _ _ _ _ _ h => by cases h)
  · exact binHolds_commitStep hi hx a

theorem dbCommit_ever (db : Db) (a : CAct) : (db.commitStep a).ever = db.ever := by
  unfold Db.commitStep
  split
  case h_5 =>
    unfold Db.jobStep
    split <;> (first | rfl | (split <;> first | rfl | (split <;> first | rfl | (split <;> rfl))))
  all_goals (split <;> first | rfl | (split <;> first | rfl | (split <;> rfl)))

theorem ranged_jobStep {db : Db} (hr : Ranged db) {e : Nat} {st : List CTLogState} {seen : List Cached} {todo : List Bin} {jobs : List Job}
    (hp : db.phase = .moving e st seen todo jobs) (a : CAct) : Ranged (db.jobStep e st seen todo jobs a) := by
  have hset : ∀ (k : Nat) (b : Bin) (s s' : Stage) (files : Bin → Option Text), jobs[k]? = some ⟨b, s⟩ → Ranged { db with files := files, phase := .moving e st seen todo (setStage jobs k b s') } := by
    intro k b s s' files hj e2 st2 seen2 todo2 jobs2 h
    cases h
    rw [map_bin_setStage ⟨s, hj⟩]
    exact hr _ _ _ _ _ hp
  unfold Db.jobStep
  split
  · split
    · next b hb =>
      intro e2 st2 seen2 todo2 jobs2 h
      cases h
      intro b' hb'
      refine hr _ _ _ _ _ hp b' ?_
      rw [List.map_append] at hb'
      rcases List.mem_append.1 hb' with h | h
      · exact List.mem_append_left _ (List.mem_of_mem_erase h)
      · rcases List.mem_append.1 h with h | h
        · exact List.mem_append_right _ h
        · rw [List.map_cons, List.map_nil, List.mem_singleton] at h
          rw [h]
          exact List.mem_append_left _ hb
    · exact hr
  · split
    · next hj =>
      split
      · split
        · exact hset _ _ _ _ db.files hj
        · exact hset _ _ _ _ db.files hj
      · exact hr
    · exact hr
  · split
    · next hj =>
      split
      · exact hset _ _ _ _ db.files hj
      · exact hset _ _ _ _ db.files hj
    · exact hr
  · split
    · next hj => exact hset _ _ _ _ _ hj
    · exact hr
  · split
    · exact hr
    · exact hr
  · split
    · next hj => exact hset _ _ _ _ db.files hj
    · exact hr
  · split
    · next hj => exact hset _ _ _ _ db.files hj
    · next hj => exact hset _ _ _ _ db.files hj
    · next hj => exact hset _ _ _ _ db.files hj
    · exact hr
  · split
    · exact fun _ _ _ _ _ h => by cases h
    · exact hr
  · exact hr

theorem ranged_step {db : Db} (hr : Ranged db) {a : CAct} (hd : Dated a) : Ranged (db.step a) := by
  unfold Db.step
  split
  · exact hr
  · exact hr
  · split
    · exact hr
    · exact hr
  · split
    · exact hr
    · exact hr
  · exact hr
  · unfold Db.ensure
    split
    · split
      · exact hr
      · split
        · exact hr
        · exact hr
    · exact hr
  · exact fun _ _ _ _ _ h => by cases h
  · unfold Db.commitStep
    split
    · split
      · split
        · exact fun _ _ _ _ _ h => by cases h
        · exact hr
      · exact hr
    · split
      · split
        · exact fun _ _ _ _ _ h => by cases h
        · exact fun _ _ _ _ _ h => by cases h
      · split
        · exact fun _ _ _ _ _ h => by cases h
        · exact hr
      · exact hr
    · split
      · exact fun _ _ _ _ _ h => by cases h
      · exact hr
    · split
      · split
        · intro e2 st2 seen2 todo2 jobs2 h b hb
          cases h
          rw [List.map_nil, List.append_nil] at hb
          exact hd b hb
        · exact hr
      · exact hr
    · next hp => exact ranged_jobStep hr hp a
    · next hp =>
      split
      · split
        · intro e2 st2 seen2 todo2 jobs2 h
          dsimp only at h
          rw [hp] at h
          cases h
        · exact hr
      · exact fun _ _ _ _ _ h => by cases h
      · exact hr
    · next hp =>
      split
      · exact fun _ _ _ _ _ h => by cases h
      · exact fun _ _ _ _ _ h => by dsimp only at h; rw [hp] at h; cases h
      · exact hr

theorem dbStep_ever (db : Db) (a : CAct) : (db.step a).ever = db.ever ∨ ∃ ps, a = .insert ps ∧ (db.step a).ever = ps ++ db.ever := by
  unfold Db.step
  split
  · exact Or.inr ⟨_, rfl, rfl⟩
  · exact Or.inl rfl
  · split <;> exact Or.inl rfl
  · split <;> exact Or.inl rfl
  · exact Or.inl rfl
  · unfold Db.ensure
    split
    · split
      · exact Or.inl rfl
      · split <;> exact Or.inl rfl
    · exact Or.inl rfl
  · exact Or.inl rfl
  · exact Or.inl (dbCommit_ever db a)

/-- A step takes a value out of the cache only if Redis loses its data, the hour of the bin has begun, or the running commit's states cover the value. -/
theorem dbLeaves_step {J : Bin → Serial → Prop} {db : Db} (hi : BinHolds J db) {a : CAct} (hw : a ≠ .wipe) {b : Bin} {m : Bytes} (h1 : (b, m) ∈ db.sets) (h2 : (b, m) ∉ (db.step a).sets) :
    b.keyExpired db.now = true ∨ ∃ e st seen todo jobs, db.phase = .moving e st seen todo jobs ∧ isCovered (newCoverageCutoffMap st) m = true := by
  unfold Db.step at h2
  split at h2
  · exact absurd (List.mem_append_right _ h1) h2
  · exact absurd h1 h2
  · split at h2 <;> exact absurd h1 h2
  · split at h2
    · next b' hk =>
      dsimp only at h2
      rw [List.mem_filter] at h2
      by_cases e : b = b'
      · exact Or.inl (e ▸ hk)
      · exact absurd ⟨h1, by simp [e]⟩ h2
    · exact absurd h1 h2
  · exact absurd rfl hw
  · unfold Db.ensure at h2
    split at h2
    · split at h2
      · exact absurd h1 h2
      · split at h2 <;> exact absurd h1 h2
    · exact absurd h1 h2
  · exact absurd h1 h2
  · unfold Db.commitStep at h2
    split at h2
    case h_5 epoch states seen todo jobs hp =>
      unfold Db.jobStep at h2
      split at h2
      case h_5 k xs =>
        split at h2
        · next b' cov hj =>
          dsimp only at h2
          rw [List.mem_filter] at h2
          by_cases e : b = b' ∧ m ∈ cov
          · obtain ⟨rfl, hm⟩ := e
            exact Or.inr ⟨epoch, states, seen, todo, jobs, hp, hi.jobs _ _ _ _ _ hp _ (List.mem_of_getElem? hj) m hm⟩
          · refine absurd ⟨h1, ?_⟩ h2
            simp only [Bool.not_eq_true', Bool.and_eq_false_iff, decide_eq_false_iff_not, List.contains_eq_mem]
            by_cases e1 : b = b'
            · exact Or.inr (fun hm => e ⟨e1, hm⟩)
            · exact Or.inl (Or.inl e1)
        · exact absurd h1 h2
      all_goals first
        | exact absurd h1 h2
        | (split at h2 <;> first
            | exact absurd h1 h2
            | (split at h2 <;> first
                | exact absurd h1 h2
                | (split at h2 <;> exact absurd h1 h2)))
    all_goals first
      | exact absurd h1 h2
      | (split at h2 <;> first
          | exact absurd h1 h2
          | (split at h2 <;> exact absurd h1 h2))

theorem dbStep_now (db : Db) (a : CAct) : db.now ≤ (db.step a).now := by
  have hj : ∀ e st seen todo jobs, (db.jobStep e st seen todo jobs a).now = db.now := by
    intro e st seen todo jobs
    unfold Db.jobStep
    split <;> (first | rfl | (split <;> first | rfl | (split <;> first | rfl | (split <;> rfl))))
  unfold Db.step
  split
  · exact Int.le_refl _
  · exact Int.le_refl _
  · split
    · assumption
    · exact Int.le_refl _
  · split <;> exact Int.le_refl _
  · exact Int.le_refl _
  · unfold Db.ensure
    split
    · split
      · exact Int.le_refl _
      · split <;> exact Int.le_refl _
    · exact Int.le_refl _
  · exact Int.le_refl _
  · unfold Db.commitStep
    split
    case h_5 => rw [hj]; exact Int.le_refl _
    all_goals (split <;> first | exact Int.le_refl _ | (split <;> first | exact Int.le_refl _ | (split <;> exact Int.le_refl _)))

theorem dbRun_now (acts : List CAct) : ∀ db : Db, db.now ≤ (db.run acts).now := by
  induction acts with
  | nil => exact fun _ => Int.le_refl _
  | cons a as ih => exact fun db => Int.le_trans (dbStep_now db a) (ih (db.step a))

theorem bin_stay (acts : List CAct) : ∀ db : Db, BinHolds (fun _ _ => True) db → CAct.wipe ∉ acts → ∀ (b : Bin) (m : Bytes), (b, m) ∈ db.sets →
    Live b (db.run acts).now → (∀ k st, CommitWith db acts k st → isCovered (newCoverageCutoffMap st) m = false) → (b, m) ∈ (db.run acts).sets := by
  induction acts with
  | nil => intro db _ _ b m h _ _; exact h
  | cons a as ih =>
    intro db hd hw b m h hl hk
    refine ih (db.step a) (binHolds_step hd (Or.inl (fun _ _ => trivial)) a) (fun h => hw (List.mem_cons_of_mem _ h)) b m ?_ hl ?_
    · refine Classical.byContradiction fun hn => ?_
      rcases dbLeaves_step hd (fun e => hw (by rw [e]; exact List.mem_cons_self)) h hn with h1 | ⟨e, st, seen, todo, jobs, hp, hc⟩
      · have := dbRun_now (a :: as) db
        unfold Live at hl
        unfold Bin.keyExpired at h1
        simp only [decide_eq_true_eq] at h1
        omega
      · have := hk 0 st ⟨e, seen, todo, jobs, hp⟩
        rw [hc] at this
        cases this
    · rintro k st ⟨e, seen, todo, jobs, hp⟩
      exact hk (k + 1) st ⟨e, seen, todo, jobs, hp⟩

/-- **C35 (cache).** From any database in which no commit is running, in any history in which Redis does not lose its data (scans may return bins twice, serials may have any length, commits and restarts may be cut anywhere): a value in the
cache that no commit's log states cover stays there until the hour of its bin begins. -/
theorem C35_uncovered_stay (db : Db) (hp : db.phase = .idle) (hsub : ∀ p ∈ db.sets, p ∈ db.ever) (acts : List CAct) (hw : CAct.wipe ∉ acts) (b : Bin) (m : Bytes) (h : (b, m) ∈ db.sets)
    (hl : Live b (db.run acts).now) (hk : ∀ k st, CommitWith db acts k st → isCovered (newCoverageCutoffMap st) m = false) : (b, m) ∈ (db.run acts).sets :=
  bin_stay acts db ⟨hsub, fun _ _ _ => trivial, fun _ _ _ _ _ h => by rw [hp] at h; cases h⟩ hw b m h hl hk

/-- **C35 (storage).** A serial is in storage only if it was there before, or it is the serial of a value of that bin that ct-fetch inserted and that the log states of some commit cover; scans may return bins twice, and Redis may lose data. -/
theorem C35_only_covered_stored (db : Db) (hp : db.phase = .idle) (hsub : ∀ p ∈ db.sets, p ∈ db.ever) (hshort : ∀ p ∈ db.ever, Short p.2) (acts : List CAct) (hd : ∀ a ∈ acts, Dated a) (b : Bin) (s : Serial)
    (h : Stored (db.run acts) b s) :
    Stored db b s ∨ ∃ k st m, CommitWith db acts k st ∧ (b, m) ∈ (db.run (acts.take k)).ever ∧ isCovered (newCoverageCutoffMap st) m = true ∧ asSerial m = s := by
  let J : Bin → Serial → Prop := fun b s =>
    Stored db b s ∨ ∃ k st m, CommitWith db acts k st ∧ (b, m) ∈ (db.run (acts.take k)).ever ∧ isCovered (newCoverageCutoffMap st) m = true ∧ asSerial m = s
  have key : ∀ n, n ≤ acts.length → BinHolds J (db.run (acts.take n)) ∧ (∀ p ∈ (db.run (acts.take n)).ever, Short p.2) ∧ Ranged (db.run (acts.take n)) := by
    intro n
    induction n with
    | zero =>
      intro _
      exact ⟨⟨hsub, fun b s h => Or.inl h, fun _ _ _ _ _ h => by rw [List.take_zero] at h; exact absurd (hp.symm.trans h) (by intro e; cases e)⟩, hshort, fun _ _ _ _ _ h => by rw [List.take_zero] at h; exact absurd (hp.symm.trans h) (by intro e; cases e)⟩
    | succ n ih =>
      intro hn
      obtain ⟨h1, h2, h3⟩ := ih (by omega)
      have hlt : n < acts.length := by omega
      have e : db.run (acts.take (n + 1)) = (db.run (acts.take n)).step acts[n] := by
        rw [List.take_add_one, List.getElem?_eq_getElem hlt]
        unfold Db.run
        rw [List.foldl_append]
        rfl
      have ha := hd acts[n] (List.getElem_mem hlt)
      rw [e]
      refine ⟨binHolds_step h1 (Or.inr ⟨fun e st seen todo jobs hph b m hm hc => Or.inr ⟨n, st, m, ⟨e, seen, todo, jobs, hph⟩, hm, hc, rfl⟩, h2, h3⟩) _, ?_, ranged_step h3 ha⟩
      rcases dbStep_ever (db.run (acts.take n)) acts[n] with h | ⟨ps, e1, e2⟩
      · rw [h]; exact h2
      · rw [e2]
        rw [e1] at ha
        intro p hp
        rcases List.mem_append.1 hp with h | h
        · exact ha p h
        · exact h2 p h
  have hfin := (key acts.length (Nat.le_refl _)).1
  rw [List.take_length] at hfin
  exact hfin.stored b s h

/-- A history in which a scan returns a bin twice. -/
example : CAct.wipe ∉ dupActs ∧ (∀ a ∈ dupActs, Dated a) ∧ ∃ bs, CAct.listEnd bs ∈ dupActs ∧ ¬ bs.Nodup := by
  refine ⟨?_, ?_, [exBin, exBin], by simp [dupActs], by decide⟩
  · intro h
    simp [dupActs] at h
  · intro a ha
    have h1 : Short (exMember 10 [1]) := by unfold Short; decide +kernel
    have h2 : Short (exMember 20 [2]) := by unfold Short; decide +kernel
    have h3 : InRange exBin := by unfold InRange; decide
    simp only [dupActs, List.mem_cons, List.not_mem_nil, or_false] at ha
    rcases ha with rfl | rfl | rfl | rfl | rfl | rfl | rfl | rfl | rfl | rfl | rfl | rfl | rfl | rfl | rfl | rfl | rfl | rfl | rfl | rfl | rfl | rfl | rfl <;>
      first | trivial | skip
    · intro p hp
      rw [List.mem_singleton] at hp
      rw [hp]
      exact h1
    · intro b hb
      simp only [List.mem_cons, List.not_mem_nil, or_false, or_self] at hb
      rw [hb]
      exact h3
    · intro p hp
      rw [List.mem_singleton] at hp
      rw [hp]
      exact h2

/-- The database that is empty, and a covered and an uncovered value. -/
example : Db.init.phase = .idle ∧ (∀ p ∈ Db.init.sets, p ∈ Db.init.ever) ∧ (∀ p ∈ Db.init.ever, Short p.2) ∧ CAct.wipe ∉ exActs ∧
    (exBin, exMember 5000 [2]) ∈ (Db.init.run exActs).sets ∧ Stored (Db.init.run exActs) exBin [1] :=
  ⟨rfl, (fun _ h => by cases h), (fun _ h => by cases h), (fun h => by simp [exActs, fullCommit] at h), (by rw [exActs_result.2.1]; simp), ⟨_, exActs_result.1, by simp⟩⟩

/-! ### each theorem applied -/

example : (exBin, exMember 5000 [2]) ∈ ((Db.init.run (exActs.take 2)).run (exActs.drop 2)).sets := by
  refine C35_uncovered_stay (Db.init.run (exActs.take 2)) rfl (by decide +kernel) (exActs.drop 2) (fun h => by simp [exActs, fullCommit] at h) exBin _ (by decide +kernel) (by unfold Live; decide +kernel) ?_
  rintro k st ⟨e, seen, todo, jobs, hp⟩
  have hall : ∀ k ∈ List.range 15, ∀ st ∈ CPhase.states? ((Db.init.run (exActs.take 2)).run ((exActs.drop 2).take k)).phase, isCovered (newCoverageCutoffMap st) (exMember 5000 [2]) = false := by decide +kernel
  have hk : (exActs.drop 2).take k = (exActs.drop 2).take (min k 14) := by
    rcases Nat.le_total k 14 with h | h
    · rw [Nat.min_eq_left h]
    · rw [Nat.min_eq_right h, List.take_of_length_le (show (exActs.drop 2).length ≤ k from h), List.take_of_length_le (show (exActs.drop 2).length ≤ 14 from Nat.le_refl _)]
  rw [hk] at hp
  refine hall (min k 14) (List.mem_range.2 (by omega)) st ?_
  rw [hp]
  exact List.mem_singleton.2 rfl

end Verif.Props
