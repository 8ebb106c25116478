import Verif.Spec.Commit
import Verif.Props.Data
/-! Lemmas for commits. -/
namespace Verif
open Verif.Spec Verif.Props

/-- What one step can do. -/
inductive Eff (db : Db) : Db → Prop
  | same : Eff db db
  | insert (ps : List Cached) (h : ∀ p ∈ ps, Short p.2) : Eff db { db with sets := ps ++ db.sets, ever := ps ++ db.ever }
  | saveLog (s : CTLogState) : Eff db { db with logs := putLog db.logs (logKey s.shortURL) s }
  | tick (t : Int) (h : db.now ≤ t) : Eff db { db with now := t }
  | keyExpires (b : Bin) (h : b.keyExpired db.now = true) : Eff db { db with sets := db.sets.filter (fun p => decide (p.1 ≠ b)) }
  | restore (hp : db.phase = .idle) (he : epochsAgree db.cacheEpoch db.diskEpoch = false) (l : List (Text × CTLogState)) (hl : db.restored = some l) :
      Eff db { db with logs := l, cacheEpoch := db.diskEpoch + 1 }
  | stop : Eff db { db with phase := .idle }
  | begin (hp : db.phase = .idle) (he : epochsAgree db.cacheEpoch db.diskEpoch = true) :
      Eff db { db with phase := .loading db.cacheEpoch (db.logs.map Prod.fst) [] }
  | readLog (epoch : Nat) (need : List Text) (acc : List (Text × CTLogState)) (hp : db.phase = .loading epoch need acc) (p : Text × CTLogState)
      (h : p ∈ db.logs) : Eff db { db with phase := .loading epoch need (acc ++ [p]) }
  | loadedAll (epoch : Nat) (need : List Text) (acc : List (Text × CTLogState)) (hp : db.phase = .loading epoch need acc)
      (h : ∀ k ∈ need, k ∈ acc.map Prod.fst) : Eff db { db with phase := .loaded epoch (acc.map Prod.snd) db.ever }
  | listStart (epoch : Nat) (states : List CTLogState) (seen : List Cached) (hp : db.phase = .loaded epoch states seen) :
      Eff db { db with phase := .listing epoch states seen (db.sets.map Prod.fst) }
  | listEnd (epoch : Nat) (states : List CTLogState) (seen : List Cached) (need bs : List Bin) (hp : db.phase = .listing epoch states seen need)
      (h : ∀ b ∈ need, b ∈ bs ∨ b.keyExpired db.now = true) (hn : bs.Nodup) (hr : ∀ b ∈ bs, InRange b) : Eff db { db with phase := .moving epoch states seen bs [] }
  | jobStart (epoch : Nat) (states : List CTLogState) (seen : List Cached) (todo : List Bin) (jobs : List Job)
      (hp : db.phase = .moving epoch states seen todo jobs) (b : Bin) (h : b ∈ todo) :
      Eff db { db with phase := .moving epoch states seen (todo.erase b) (jobs ++ [{ bin := b, stage := .scanning (db.members b) }]) }
  | jobListed (epoch : Nat) (states : List CTLogState) (seen : List Cached) (todo : List Bin) (jobs : List Job)
      (hp : db.phase = .moving epoch states seen todo jobs) (k : Nat) (b : Bin) (need es : List Bytes) (hj : jobs[k]? = some ⟨b, .scanning need⟩)
      (h1 : b.keyExpired db.now = true ∨ ∀ x ∈ need, x ∈ es) (h2 : ∀ x ∈ es, x ∈ need ∨ x ∈ db.members b) (st : Stage)
      (hst : st = .listed es ∨ st = .finished ∧ es = []) :
      Eff db { db with phase := .moving epoch states seen todo (setStage jobs k b st) }
  | jobRead (epoch : Nat) (states : List CTLogState) (seen : List Cached) (todo : List Bin) (jobs : List Job)
      (hp : db.phase = .moving epoch states seen todo jobs) (k : Nat) (b : Bin) (es : List Bytes) (hj : jobs[k]? = some ⟨b, .listed es⟩)
      (l : List Serial) (h : readSerialsFromStorage b.unix (db.files b) = .ok l) :
      Eff db { db with phase := .moving epoch states seen todo (setStage jobs k b (.haveRead es l)) }
  | jobWrite (epoch : Nat) (states : List CTLogState) (seen : List Cached) (todo : List Bin) (jobs : List Job)
      (hp : db.phase = .moving epoch states seen todo jobs) (k : Nat) (b : Bin) (es : List Bytes) (l : List Serial)
      (hj : jobs[k]? = some ⟨b, .haveRead es l⟩) :
      Eff db { db with
        files := fun b' => if b' = b then some (movedFile states b es l) else db.files b'
        phase := .moving epoch states seen todo (setStage jobs k b (.wrote (coveredOf states es))) }
  | jobRemove (epoch : Nat) (states : List CTLogState) (seen : List Cached) (todo : List Bin) (jobs : List Job)
      (hp : db.phase = .moving epoch states seen todo jobs) (k : Nat) (b : Bin) (cov xs : List Bytes) (hj : jobs[k]? = some ⟨b, .wrote cov⟩) :
      Eff db { db with sets := db.sets.filter (fun p => !(decide (p.1 = b) && xs.contains p.2 && cov.contains p.2)) }
  | jobFinish (epoch : Nat) (states : List CTLogState) (seen : List Cached) (todo : List Bin) (jobs : List Job)
      (hp : db.phase = .moving epoch states seen todo jobs) (k : Nat) (b : Bin) (cov : List Bytes) (hj : jobs[k]? = some ⟨b, .wrote cov⟩) :
      Eff db { db with phase := .moving epoch states seen todo (setStage jobs k b .finished) }
  | jobFail (epoch : Nat) (states : List CTLogState) (seen : List Cached) (todo : List Bin) (jobs : List Job)
      (hp : db.phase = .moving epoch states seen todo jobs) (k : Nat) (b : Bin) (st : Stage) (hj : jobs[k]? = some ⟨b, st⟩) :
      Eff db { db with phase := .moving epoch states seen todo (setStage jobs k b .failed) }
  | replaceLogs (epoch : Nat) (states : List CTLogState) (seen : List Cached) (jobs : List Job)
      (hp : db.phase = .moving epoch states seen [] jobs) (h : ∀ j ∈ jobs, j.stage = .finished) :
      Eff db { db with ctlogs := some states, pubSeen := seen, phase := .replaced epoch }
  | sweep (epoch : Nat) (hp : db.phase = .replaced epoch) (b : Bin) (h : b.fileExpired db.now = true) :
      Eff db { db with files := fun b' => if b' = b then none else db.files b' }
  | nextEpoch (epoch : Nat) (hp : db.phase = .replaced epoch) : Eff db { db with cacheEpoch := db.cacheEpoch + 1, phase := .bumped epoch }
  | countAgain (epoch : Nat) (hp : db.phase = .bumped epoch) : Eff db { db with cacheEpoch := db.cacheEpoch + 1 }
  | replaceEpoch (epoch : Nat) (hp : db.phase = .bumped epoch) : Eff db { db with diskEpoch := epoch, phase := .idle }

theorem jobStep_eff (db : Db) (epoch : Nat) (states : List CTLogState) (seen : List Cached) (todo : List Bin) (jobs : List Job)
    (hp : db.phase = .moving epoch states seen todo jobs) (a : CAct) : Eff db (db.jobStep epoch states seen todo jobs a) := by
  unfold Db.jobStep
  split
  · split
    · exact .jobStart epoch states seen todo jobs hp _ (by assumption)
    · exact .same
  · split
    · rename_i hj
      split
      · rename_i h
        split
        · exact .jobListed epoch states seen todo jobs hp _ _ _ _ hj h.1 h.2 _ (Or.inr ⟨rfl, by assumption⟩)
        · exact .jobListed epoch states seen todo jobs hp _ _ _ _ hj h.1 h.2 _ (Or.inl rfl)
      · exact .same
    · exact .same
  · split
    · rename_i hj
      split
      · exact .jobFail epoch states seen todo jobs hp _ _ _ hj
      · rename_i h
        exact .jobRead epoch states seen todo jobs hp _ _ _ hj _ h
    · exact .same
  · split
    · rename_i hj
      exact .jobWrite epoch states seen todo jobs hp _ _ _ _ hj
    · exact .same
  · split
    · rename_i hj
      exact .jobRemove epoch states seen todo jobs hp _ _ _ _ hj
    · exact .same
  · split
    · rename_i hj
      exact .jobFinish epoch states seen todo jobs hp _ _ _ hj
    · exact .same
  · split
    · rename_i hj; exact .jobFail epoch states seen todo jobs hp _ _ _ hj
    · rename_i hj; exact .jobFail epoch states seen todo jobs hp _ _ _ hj
    · rename_i hj; exact .jobFail epoch states seen todo jobs hp _ _ _ hj
    · exact .same
  · split
    · rename_i h
      obtain ⟨h1, h2⟩ := h
      subst h1
      exact .replaceLogs epoch states seen jobs hp h2
    · exact .same
  · exact .same

theorem commitStep_eff (db : Db) (a : CAct) (hf : Fine a) : Eff db (db.commitStep a) := by
  unfold Db.commitStep
  split
  · rename_i hp
    split
    · split
      · rename_i h; exact .begin hp h.2.2
      · exact .same
    · exact .same
  · rename_i epoch need acc hp
    split
    · split
      · rename_i p h
        exact .readLog epoch need acc hp p (List.mem_of_find?_eq_some h)
      · exact .stop
    · split
      · rename_i h; exact .loadedAll epoch need acc hp h
      · exact .same
    · exact .same
  · rename_i epoch states seen hp
    split
    · exact .listStart epoch states seen hp
    · exact .same
  · rename_i epoch states seen need hp
    split
    · split
      · rename_i h; exact .listEnd epoch states seen need _ hp h hf.1 hf.2
      · exact .same
    · exact .same
  · rename_i epoch states seen todo jobs hp
    exact jobStep_eff db epoch states seen todo jobs hp a
  · rename_i epoch hp
    split
    · split
      · rename_i h; exact .sweep epoch hp _ h
      · exact .same
    · exact .nextEpoch epoch hp
    · exact .same
  · rename_i epoch hp
    split
    · exact .replaceEpoch epoch hp
    · exact .countAgain epoch hp
    · exact .same

theorem step_eff (db : Db) (a : CAct) (hf : Fine a) : Eff db (db.step a) := by
  unfold Db.step
  split
  · exact .insert _ hf
  · exact .saveLog _
  · split
    · exact .tick _ (by assumption)
    · exact .same
  · split
    · exact .keyExpires _ (by assumption)
    · exact .same
  · exact absurd hf id
  · unfold Db.ensure
    split
    · rename_i hp
      split
      · exact .same
      · rename_i he
        split
        · exact .same
        · exact .restore hp (by simpa using he) _ (by assumption)
    · exact .same
  · exact .stop
  · exact commitStep_eff db _ hf


/-! ### files -/

theorem hexDecode_length (t : Text) : ∀ s, hexDecode t = some s → t.length = 2 * s.length := by
  fun_induction hexDecode t with
  | case1 => intro s h; cases h; rfl
  | case2 => intro s h; cases h
  | case3 a b rest x y r h1 h2 h3 ih => intro s h; cases h; have := ih r (by assumption); simp only [List.length_cons]; omega
  | case4 => intro s h; cases h

theorem decodeLines_mem (ls : List Text) : ∀ l, decodeLines ls = some l → ∀ s ∈ l, ∃ t ∈ ls, hexDecode t = some s := by
  induction ls with
  | nil => intro l h s hs; simp [decodeLines] at h; subst h; cases hs
  | cons t ts ih =>
    intro l h s hs
    unfold decodeLines at h
    split at h
    · rename_i x r h1 h2
      cases h
      rcases List.mem_cons.1 hs with rfl | hs
      · exact ⟨t, by simp, h1⟩
      · obtain ⟨t', a, b⟩ := ih _ h2 s hs
        exact ⟨t', by simp [a], b⟩
    · cases h

/-- What can be read is short. -/
theorem read_short (u : Int) (f : Option Text) (l : List Serial) (h : readSerialsFromStorage u f = .ok l) : ∀ s ∈ l, s.length < 32768 := by
  unfold readSerialsFromStorage at h
  split at h
  · cases h; intro s hs; cases hs
  · split at h
    · cases h
    · cases h; intro s hs; cases hs
    · rename_i t l0 ls hsc
      split at h
      · cases h
      · split at h
        · cases h
        · rename_i r hr
          cases h
          intro s hs
          obtain ⟨t', ht', hd⟩ := decodeLines_mem _ _ hr s hs
          unfold scanLines at hsc
          dsimp only at hsc
          split at hsc
          · cases hsc
          · rename_i hany
            have hsc := Option.some.inj hsc
            simp only [List.any_eq_true, decide_eq_true_eq, not_exists, not_and] at hany
            have h1 := hany t' (by rw [hsc]; simp [ht'])
            have h2 := hexDecode_length _ _ hd
            unfold maxScanToken at h1
            omega

/-- What is written can be read. -/
theorem read_movedFile (states : List CTLogState) (b : Bin) (hb : InRange b) (es : List Bytes) (hes : ∀ x ∈ es, Short x) (l : List Serial)
    (hl : ∀ s ∈ l, s.length < 32768) :
    readSerialsFromStorage b.unix (some (movedFile states b es l)) = .ok (dedup (l ++ (coveredOf states es).map asSerial)) := by
  refine C04_file_roundtrip_partial _ _ hb ?_
  intro s hs
  rw [mem_dedup, List.mem_append] at hs
  rcases hs with hs | hs
  · exact hl s hs
  · obtain ⟨m, hm, rfl⟩ := List.mem_map.1 hs
    exact hes m (List.mem_filter.1 hm).1

theorem mem_moved (states : List CTLogState) (es : List Bytes) (l : List Serial) (s : Serial) :
    s ∈ dedup (l ++ (coveredOf states es).map asSerial) ↔ s ∈ l ∨ ∃ m ∈ es, isCovered (newCoverageCutoffMap states) m = true ∧ asSerial m = s := by
  rw [mem_dedup, List.mem_append, List.mem_map]
  simp only [coveredOf, List.mem_filter]
  constructor
  · rintro (h | ⟨m, ⟨h1, h2⟩, h3⟩)
    · exact Or.inl h
    · exact Or.inr ⟨m, h1, h2, h3⟩
  · rintro (h | ⟨m, h1, h2, h3⟩)
    · exact Or.inl h
    · exact Or.inr ⟨m, ⟨h1, h2⟩, h3⟩

/-! ### jobs -/

theorem map_bin_set (jobs : List Job) (k : Nat) (b : Bin) (st st' : Stage) (h : jobs[k]? = some ⟨b, st⟩) :
    (setStage jobs k b st').map Job.bin = jobs.map Job.bin := by
  unfold setStage
  rw [List.map_set]
  apply List.ext_getElem?
  intro i
  rw [List.getElem?_set]
  split
  · rename_i hi
    subst hi
    have hlt : k < jobs.length := by
      apply Decidable.byContradiction
      intro hn
      rw [List.getElem?_eq_none (by omega)] at h
      cases h
    rw [if_pos (by simpa using hlt), List.getElem?_map, h]
    rfl
  · rfl

theorem mem_setStage {jobs : List Job} {k : Nat} {b : Bin} {st st' : Stage} (h : jobs[k]? = some ⟨b, st⟩) (hn : (jobs.map Job.bin).Nodup) {j : Job}
    (hj : j ∈ setStage jobs k b st') : j = ⟨b, st'⟩ ∨ j ∈ jobs ∧ j.bin ≠ b := by
  unfold setStage at hj
  obtain ⟨i, hi⟩ := List.mem_iff_getElem?.1 hj
  rw [List.getElem?_set] at hi
  split at hi
  · split at hi
    · left; exact (Option.some.inj hi).symm
    · cases hi
  · rename_i hne
    right
    refine ⟨List.mem_of_getElem? hi, fun hb => hne ?_⟩
    have h1 : (jobs.map Job.bin)[k]? = some b := by rw [List.getElem?_map, h]; rfl
    have h2 : (jobs.map Job.bin)[i]? = some b := by rw [List.getElem?_map, hi]; simp [hb]
    obtain ⟨hk, e1⟩ := List.getElem?_eq_some_iff.1 h1
    obtain ⟨hi', e2⟩ := List.getElem?_eq_some_iff.1 h2
    apply Decidable.byContradiction
    intro hki
    rcases Nat.lt_or_gt_of_ne hki with hlt | hlt
    · exact List.pairwise_iff_getElem.1 hn k i hk hi' hlt (e1.trans e2.symm)
    · exact List.pairwise_iff_getElem.1 hn i k hi' hk hlt (e2.trans e1.symm)

theorem setStage_mem {jobs : List Job} {k : Nat} {b : Bin} {st st' : Stage} (h : jobs[k]? = some ⟨b, st⟩) : ⟨b, st'⟩ ∈ setStage jobs k b st' := by
  unfold setStage
  have hlt : k < jobs.length := (List.getElem?_eq_some_iff.1 h).1
  exact List.mem_of_getElem? (i := k) (by rw [List.getElem?_set]; simp [hlt])

theorem setStage_keep {jobs : List Job} {k : Nat} {b : Bin} {st st' : Stage} (h : jobs[k]? = some ⟨b, st⟩) {j : Job} (hj : j ∈ jobs) (hb : j.bin ≠ b) :
    j ∈ setStage jobs k b st' := by
  unfold setStage
  obtain ⟨i, hi⟩ := List.mem_iff_getElem?.1 hj
  refine List.mem_of_getElem? (i := i) ?_
  rw [List.getElem?_set, if_neg ?_, hi]
  intro e
  subst e
  rw [h] at hi
  cases hi
  exact hb rfl

theorem mem_members {db : Db} {b : Bin} {m : Bytes} : m ∈ db.members b ↔ (b, m) ∈ db.sets := by
  simp only [Db.members, List.mem_map, List.mem_filter, decide_eq_true_eq]
  constructor
  · rintro ⟨⟨b', m'⟩, ⟨h1, h2⟩, h3⟩
    dsimp only at h2 h3
    subst h2 h3
    exact h1
  · intro h; exact ⟨(b, m), ⟨h, rfl⟩, rfl⟩

/-- What is known of a goroutine at each stage. -/
def StageOk (db : Db) (b : Bin) : Stage → Prop
  | .scanning need => ∀ x ∈ need, Short x
  | .listed es => ∀ x ∈ es, Short x
  | .haveRead es l => (∀ x ∈ es, Short x) ∧ readSerialsFromStorage b.unix (db.files b) = .ok l
  | .wrote cov => ∀ m ∈ cov, Stored db b (asSerial m)
  | _ => True

/-- Invariant of the goroutines. -/
def JobsInv (db : Db) : Prop :=
  ∀ epoch states seen todo jobs, db.phase = .moving epoch states seen todo jobs →
    (todo ++ jobs.map Job.bin).Nodup ∧ (∀ b ∈ todo ++ jobs.map Job.bin, InRange b) ∧ ∀ j ∈ jobs, StageOk db j.bin j.stage

structure DbInv (db : Db) : Prop where
  short : ∀ p ∈ db.sets, Short p.2
  jobs : JobsInv db

/-- Changing stages keeps the invariant if the new stage is justified. -/
theorem jobsInv_set {db : Db} {epoch : Nat} {states : List CTLogState} {seen : List Cached} {todo : List Bin} {jobs : List Job} (hi : JobsInv db)
    (hp : db.phase = .moving epoch states seen todo jobs) {k : Nat} {b : Bin} {st st' : Stage} (hj : jobs[k]? = some ⟨b, st⟩)
    (hs : StageOk db b st') : JobsInv { db with phase := .moving epoch states seen todo (setStage jobs k b st') } := by
  obtain ⟨h1, h2, h3⟩ := hi _ _ _ _ _ hp
  intro e ss se td js hph
  cases hph
  rw [map_bin_set jobs k b st st' hj]
  refine ⟨h1, h2, fun j hj' => ?_⟩
  rcases mem_setStage hj (List.nodup_append.1 h1).2.1 hj' with rfl | ⟨hm, _⟩
  · exact hs
  · exact h3 j hm

/-- Stages only depend on the files. -/
theorem jobsInv_files {db db' : Db} (hi : JobsInv db) (hf : db'.files = db.files) (hp : db'.phase = db.phase) : JobsInv db' := by
  intro e ss se td js hph
  rw [hp] at hph
  obtain ⟨h1, h2, h3⟩ := hi _ _ _ _ _ hph
  refine ⟨h1, h2, fun j hj => ?_⟩
  have := h3 j hj
  cases h : j.stage <;> rw [h] at this <;> simp only [StageOk, Stored, hf] at this ⊢ <;> exact this

theorem jobsInv_other {db : Db} (h : ∀ epoch states seen todo jobs, db.phase ≠ .moving epoch states seen todo jobs) : JobsInv db :=
  fun _ _ _ _ _ hp => absurd hp (h _ _ _ _ _)

theorem mem_of_getElem?' {jobs : List Job} {k : Nat} {j : Job} (h : jobs[k]? = some j) : j ∈ jobs := List.mem_of_getElem? h

theorem dbInv_eff {db db' : Db} (hi : DbInv db) (h : Eff db db') : DbInv db' := by
  cases h with
  | same => exact hi
  | insert ps hs =>
    refine ⟨fun p hp => ?_, jobsInv_files hi.jobs rfl rfl⟩
    rcases List.mem_append.1 hp with hp | hp
    · exact hs p hp
    · exact hi.short p hp
  | saveLog s => exact ⟨hi.short, jobsInv_files hi.jobs rfl rfl⟩
  | tick t h => exact ⟨hi.short, jobsInv_files hi.jobs rfl rfl⟩
  | keyExpires b h => exact ⟨fun p hp => hi.short p (List.mem_filter.1 hp).1, jobsInv_files hi.jobs rfl rfl⟩
  | restore hp he l hl => exact ⟨hi.short, jobsInv_files hi.jobs rfl rfl⟩
  | stop => exact ⟨hi.short, jobsInv_other (fun _ _ _ _ _ h => by cases h)⟩
  | begin hp he => exact ⟨hi.short, jobsInv_other (fun _ _ _ _ _ h => by cases h)⟩
  | readLog epoch need acc hp p h => exact ⟨hi.short, jobsInv_other (fun _ _ _ _ _ h => by cases h)⟩
  | loadedAll epoch need acc hp h => exact ⟨hi.short, jobsInv_other (fun _ _ _ _ _ h => by cases h)⟩
  | listStart epoch states seen hp => exact ⟨hi.short, jobsInv_other (fun _ _ _ _ _ h => by cases h)⟩
  | listEnd epoch states seen need bs hp h hn hr =>
    refine ⟨hi.short, fun e ss se td js hph => ?_⟩
    cases hph
    simp only [List.map_nil, List.append_nil]
    exact ⟨hn, hr, fun j hj => by cases hj⟩
  | jobStart epoch states seen todo jobs hp b h =>
    obtain ⟨h1, h2, h3⟩ := hi.jobs _ _ _ _ _ hp
    refine ⟨hi.short, fun e ss se td js hph => ?_⟩
    cases hph
    have hperm : ((todo.erase b) ++ (jobs ++ [(⟨b, .scanning (db.members b)⟩ : Job)]).map Job.bin).Perm (todo ++ jobs.map Job.bin) := by
      rw [List.map_append, ← List.append_assoc]
      refine (List.perm_append_comm).trans ?_
      exact ((List.perm_cons_erase h).append_right _).symm
    refine ⟨hperm.nodup_iff.2 h1, fun x hx => h2 x (hperm.mem_iff.1 hx), fun j hj => ?_⟩
    rcases List.mem_append.1 hj with hj | hj
    · exact h3 j hj
    · simp only [List.mem_singleton] at hj
      subst hj
      intro x hx
      exact hi.short (b, x) (mem_members.1 hx)
  | jobListed epoch states seen todo jobs hp k b need es hj h1 h2 st hst =>
    refine ⟨hi.short, jobsInv_set hi.jobs hp hj ?_⟩
    rcases hst with rfl | ⟨rfl, _⟩
    · intro x hx
      rcases h2 x hx with h | h
      · exact (hi.jobs _ _ _ _ _ hp).2.2 _ (mem_of_getElem?' hj) x h
      · exact hi.short (b, x) (mem_members.1 h)
    · trivial
  | jobRead epoch states seen todo jobs hp k b es hj l h =>
    exact ⟨hi.short, jobsInv_set hi.jobs hp hj ⟨(hi.jobs _ _ _ _ _ hp).2.2 _ (mem_of_getElem?' hj), h⟩⟩
  | jobWrite epoch states seen todo jobs hp k b es l hj =>
    obtain ⟨h1, h2, h3⟩ := hi.jobs _ _ _ _ _ hp
    refine ⟨hi.short, fun e ss se td js hph => ?_⟩
    cases hph
    rw [map_bin_set jobs k b _ _ hj]
    refine ⟨h1, h2, fun j hj' => ?_⟩
    have hs := h3 _ (mem_of_getElem?' hj)
    have hb : InRange b := h2 b (by simp only [List.mem_append, List.mem_map]; exact Or.inr ⟨_, mem_of_getElem?' hj, rfl⟩)
    rcases mem_setStage hj (List.nodup_append.1 h1).2.1 hj' with rfl | ⟨hm, hne⟩
    · intro m hm
      refine ⟨dedup (l ++ (coveredOf states es).map asSerial), ?_, ?_⟩
      · dsimp only
        rw [if_pos rfl]
        exact read_movedFile states b hb es hs.1 l (read_short _ _ _ hs.2)
      · rw [mem_moved]
        obtain ⟨a1, a2⟩ := List.mem_filter.1 hm
        exact Or.inr ⟨m, a1, a2, rfl⟩
    · have := h3 j hm
      cases h : j.stage <;> rw [h] at this <;> simp only [StageOk, Stored, if_neg hne] at this ⊢ <;> exact this
  | jobRemove epoch states seen todo jobs hp k b cov xs hj =>
    exact ⟨fun p hp => hi.short p (List.mem_filter.1 hp).1, jobsInv_files hi.jobs rfl rfl⟩
  | jobFinish epoch states seen todo jobs hp k b cov hj => exact ⟨hi.short, jobsInv_set hi.jobs hp hj trivial⟩
  | jobFail epoch states seen todo jobs hp k b st hj => exact ⟨hi.short, jobsInv_set hi.jobs hp hj trivial⟩
  | replaceLogs epoch states seen jobs hp h => exact ⟨hi.short, jobsInv_other (fun _ _ _ _ _ h => by cases h)⟩
  | sweep epoch hp b h =>
    exact ⟨hi.short, jobsInv_other (fun _ _ _ _ _ h => by dsimp only at h; rw [hp] at h; cases h)⟩
  | nextEpoch epoch hp => exact ⟨hi.short, jobsInv_other (fun _ _ _ _ _ h => by cases h)⟩
  | countAgain epoch hp => exact ⟨hi.short, jobsInv_files hi.jobs rfl rfl⟩
  | replaceEpoch epoch hp => exact ⟨hi.short, jobsInv_other (fun _ _ _ _ _ h => by cases h)⟩

theorem live_of_eff {db db' : Db} (h : Eff db db') : db.now ≤ db'.now := by
  cases h <;> first | exact Int.le_refl _ | assumption

/-- Storage only loses expired bins. -/
theorem stored_eff {db db' : Db} (hi : DbInv db) (h : Eff db db') (b : Bin) (s : Serial) (hl : Live b db'.now) (hs : Stored db b s) : Stored db' b s := by
  cases h with
  | jobWrite epoch states seen todo jobs hp k b' es l hj =>
    obtain ⟨h1, h2, h3⟩ := hi.jobs _ _ _ _ _ hp
    obtain ⟨l', hl', hm⟩ := hs
    by_cases e : b = b'
    · subst e
      have hst := h3 _ (mem_of_getElem?' hj)
      have hb : InRange b := h2 b (by simp only [List.mem_append, List.mem_map]; exact Or.inr ⟨_, mem_of_getElem?' hj, rfl⟩)
      have : l' = l := by
        have := hl'.symm.trans hst.2
        cases this; rfl
      subst this
      refine ⟨dedup (l' ++ (coveredOf states es).map asSerial), ?_, ?_⟩
      · dsimp only
        rw [if_pos rfl]
        exact read_movedFile states b hb es hst.1 _ (read_short _ _ _ hst.2)
      · rw [mem_moved]; exact Or.inl hm
    · exact ⟨l', by dsimp only; rw [if_neg e]; exact hl', hm⟩
  | sweep epoch hp b' h =>
    obtain ⟨l', hl', hm⟩ := hs
    by_cases e : b = b'
    · subst e
      simp only [Bin.fileExpired, decide_eq_true_eq] at h
      unfold Live at hl
      dsimp only at hl
      omega
    · exact ⟨l', by dsimp only; rw [if_neg e]; exact hl', hm⟩
  | _ => exact hs

/-- The cache only loses expired bins and what has been stored. -/
theorem cached_eff {db db' : Db} (hi : DbInv db) (h : Eff db db') (b : Bin) (m : Bytes) (hl : Live b db'.now) (hs : (b, m) ∈ db.sets) :
    (b, m) ∈ db'.sets ∨ Stored db' b (asSerial m) := by
  cases h with
  | insert ps h => exact Or.inl (List.mem_append.2 (Or.inr hs))
  | keyExpires b' h =>
    left
    refine List.mem_filter.2 ⟨hs, ?_⟩
    simp only [Bin.keyExpired, decide_eq_true_eq, ne_eq] at h ⊢
    intro e
    subst e
    unfold Live at hl
    dsimp only at hl
    omega
  | jobRemove epoch states seen todo jobs hp k b' cov xs hj =>
    by_cases hc : b = b' ∧ m ∈ xs ∧ m ∈ cov
    · right
      obtain ⟨e, _, h2⟩ := hc
      subst e
      exact (hi.jobs _ _ _ _ _ hp).2.2 _ (mem_of_getElem?' hj) m h2
    · left
      refine List.mem_filter.2 ⟨hs, ?_⟩
      simp only [Bool.not_eq_true', Bool.and_eq_false_iff, decide_eq_false_iff_not, List.contains_eq_mem]
      by_cases e1 : b = b'
      · by_cases e2 : m ∈ xs
        · exact Or.inr (fun e3 => hc ⟨e1, e2, e3⟩)
        · exact Or.inl (Or.inr e2)
      · exact Or.inl (Or.inl e1)
  | _ => exact Or.inl hs

/-! ### published coverage -/

/-- The goroutine still has to store the entry. -/
def Waits (m : Bytes) : Stage → Prop
  | .scanning need => m ∈ need
  | .listed es => m ∈ es
  | .haveRead es _ => m ∈ es
  | .failed => True
  | _ => False

/-- The entry still waits to be moved. -/
def Pending (todo : List Bin) (jobs : List Job) (b : Bin) (m : Bytes) : Prop := b ∈ todo ∨ ∃ j ∈ jobs, j.bin = b ∧ Waits m j.stage

structure PubInv (db : Db) : Prop where
  sub : ∀ p ∈ db.sets, p ∈ db.ever
  kept : ∀ b m, (b, m) ∈ db.ever → Live b db.now → Stored db b (asSerial m) ∨ (b, m) ∈ db.sets
  pub : ∀ st, db.ctlogs = some st → ∀ b m, (b, m) ∈ db.pubSeen → Live b db.now → isCovered (newCoverageCutoffMap st) m = true → Stored db b (asSerial m)
  loaded : ∀ e st seen, db.phase = .loaded e st seen → ∀ p ∈ seen, p ∈ db.ever
  listing : ∀ e st seen need, db.phase = .listing e st seen need → ∀ b m, (b, m) ∈ seen → Live b db.now →
    Stored db b (asSerial m) ∨ (b, m) ∈ db.sets ∧ b ∈ need
  moving : ∀ e st seen todo jobs, db.phase = .moving e st seen todo jobs → ∀ b m, (b, m) ∈ seen → Live b db.now →
    isCovered (newCoverageCutoffMap st) m = true → Stored db b (asSerial m) ∨ (b, m) ∈ db.sets ∧ Pending todo jobs b m

theorem carry {db db' : Db} (hi : DbInv db) (h : Eff db db') {b : Bin} {m : Bytes} {Q : Prop} (hl : Live b db'.now)
    (hs : Stored db b (asSerial m) ∨ (b, m) ∈ db.sets ∧ Q) : Stored db' b (asSerial m) ∨ (b, m) ∈ db'.sets ∧ Q := by
  rcases hs with hs | ⟨hs, q⟩
  · exact Or.inl (stored_eff hi h b _ hl hs)
  · rcases cached_eff hi h b m hl hs with h1 | h1
    · exact Or.inr ⟨h1, q⟩
    · exact Or.inl h1

theorem live_back {db db' : Db} (h : Eff db db') {b : Bin} (hl : Live b db'.now) : Live b db.now := by
  have := live_of_eff h
  unfold Live at hl ⊢
  omega

/-- Steps that leave the commit process alone. -/
theorem pubInv_same {db db' : Db} (hi : DbInv db) (hp : PubInv db) (h : Eff db db') (hph : db'.phase = db.phase) (hc : db'.ctlogs = db.ctlogs)
    (hps : db'.pubSeen = db.pubSeen) (hsub : ∀ p ∈ db'.sets, p ∈ db'.ever) (hev : ∀ p ∈ db.ever, p ∈ db'.ever)
    (hnew : ∀ p ∈ db'.ever, p ∈ db.ever ∨ p ∈ db'.sets) : PubInv db' where
  sub := hsub
  kept := by
    intro b m hm hl
    rcases hnew _ hm with h1 | h1
    · have := carry (Q := True) hi h hl ((hp.kept b m h1 (live_back h hl)).imp id (fun x => ⟨x, trivial⟩))
      exact this.imp id And.left
    · exact Or.inr h1
  pub := by
    intro st hst b m hm hl hcov
    rw [hc] at hst
    rw [hps] at hm
    exact stored_eff hi h b _ hl (hp.pub st hst b m hm (live_back h hl) hcov)
  loaded := by
    intro e st seen hst p hpp
    rw [hph] at hst
    exact hev p (hp.loaded e st seen hst p hpp)
  listing := by
    intro e st seen need hst b m hm hl
    rw [hph] at hst
    exact carry hi h hl (hp.listing e st seen need hst b m hm (live_back h hl))
  moving := by
    intro e st seen todo jobs hst b m hm hl hcov
    rw [hph] at hst
    exact carry hi h hl (hp.moving e st seen todo jobs hst b m hm (live_back h hl) hcov)

/-- Steps that leave the data alone. -/
theorem pubInv_phase {db : Db} (hp : PubInv db) (ph : CPhase) (hl : ∀ e st seen, ph = .loaded e st seen → ∀ p ∈ seen, p ∈ db.ever)
    (hli : ∀ e st seen need, ph = .listing e st seen need → ∀ b m, (b, m) ∈ seen → Live b db.now →
      Stored db b (asSerial m) ∨ (b, m) ∈ db.sets ∧ b ∈ need)
    (hm : ∀ e st seen todo jobs, ph = .moving e st seen todo jobs → ∀ b m, (b, m) ∈ seen → Live b db.now →
      isCovered (newCoverageCutoffMap st) m = true → Stored db b (asSerial m) ∨ (b, m) ∈ db.sets ∧ Pending todo jobs b m) :
    PubInv { db with phase := ph } :=
  ⟨hp.sub, hp.kept, hp.pub, hl, hli, hm⟩

/-- Pending entries when one goroutine changes its stage. -/
theorem pending_set {todo : List Bin} {jobs : List Job} {k : Nat} {b0 : Bin} {st st' : Stage} (hn : (todo ++ jobs.map Job.bin).Nodup)
    (hj : jobs[k]? = some ⟨b0, st⟩) {b : Bin} {m : Bytes} (h : Pending todo jobs b m) : b ≠ b0 ∧ Pending todo (setStage jobs k b0 st') b m ∨
      b = b0 ∧ ∃ j ∈ jobs, j = ⟨b0, st⟩ ∧ Waits m st := by
  have hmem := mem_of_getElem?' hj
  by_cases e : b = b0
  · right
    subst e
    refine ⟨rfl, _, hmem, rfl, ?_⟩
    rcases h with h | ⟨j, h1, h2, h3⟩
    · exact absurd rfl ((List.nodup_append.1 hn).2.2 _ h _ (List.mem_map.2 ⟨_, hmem, rfl⟩))
    · obtain ⟨i, hi⟩ := List.mem_iff_getElem?.1 h1
      have hj2 := mem_setStage (st' := .finished) hj (List.nodup_append.1 hn).2.1 (j := j)
      by_cases hik : i = k
      · subst hik
        rw [hj] at hi
        cases hi
        exact h3
      · have : j ∈ setStage jobs k b .finished := by
          unfold setStage
          exact List.mem_of_getElem? (i := i) (by rw [List.getElem?_set, if_neg (fun e => hik e.symm)]; exact hi)
        rcases hj2 this with rfl | ⟨_, h4⟩
        · exact absurd h3 id
        · exact absurd h2 h4
  · left
    refine ⟨e, ?_⟩
    rcases h with h | ⟨j, h1, h2, h3⟩
    · exact Or.inl h
    · exact Or.inr ⟨j, setStage_keep hj h1 (by rw [h2]; exact e), h2, h3⟩

theorem pubInv_eff {db db' : Db} (hi : DbInv db) (hp : PubInv db) (h : Eff db db') : PubInv db' := by
  have h0 := h
  cases h with
  | same => exact hp
  | insert ps hs =>
    refine pubInv_same hi hp h0 rfl rfl rfl ?_ ?_ ?_
    · intro p hpp
      rcases List.mem_append.1 hpp with h1 | h1
      · exact List.mem_append.2 (Or.inl h1)
      · exact List.mem_append.2 (Or.inr (hp.sub p h1))
    · intro p h1; exact List.mem_append.2 (Or.inr h1)
    · intro p h1
      rcases List.mem_append.1 h1 with h2 | h2
      · exact Or.inr (List.mem_append.2 (Or.inl h2))
      · exact Or.inl h2
  | saveLog s => exact pubInv_same hi hp h0 rfl rfl rfl hp.sub (fun _ h => h) (fun _ h => Or.inl h)
  | tick t h => exact pubInv_same hi hp h0 rfl rfl rfl hp.sub (fun _ h => h) (fun _ h => Or.inl h)
  | keyExpires b h =>
    exact pubInv_same hi hp h0 rfl rfl rfl (fun p h => hp.sub p (List.mem_filter.1 h).1) (fun _ h => h) (fun _ h => Or.inl h)
  | restore hph he l hl => exact pubInv_same hi hp h0 rfl rfl rfl hp.sub (fun _ h => h) (fun _ h => Or.inl h)
  | stop => exact pubInv_phase hp _ (fun _ _ _ h => by cases h) (fun _ _ _ _ h => by cases h) (fun _ _ _ _ _ h => by cases h)
  | begin hph he => exact pubInv_phase hp _ (fun _ _ _ h => by cases h) (fun _ _ _ _ h => by cases h) (fun _ _ _ _ _ h => by cases h)
  | readLog epoch need acc hph p h => exact pubInv_phase hp _ (fun _ _ _ h => by cases h) (fun _ _ _ _ h => by cases h) (fun _ _ _ _ _ h => by cases h)
  | loadedAll epoch need acc hph h =>
    refine pubInv_phase hp _ (fun _ _ _ h => ?_) (fun _ _ _ _ h => by cases h) (fun _ _ _ _ _ h => by cases h)
    cases h
    exact fun p h => h
  | listStart epoch states seen hph =>
    refine pubInv_phase hp _ (fun _ _ _ h => by cases h) (fun _ _ _ _ h => ?_) (fun _ _ _ _ _ h => by cases h)
    cases h
    intro b m hm hl
    exact (hp.kept b m (hp.loaded _ _ _ hph _ hm) hl).imp id (fun x => ⟨x, List.mem_map.2 ⟨_, x, rfl⟩⟩)
  | listEnd epoch states seen need bs hph h hn hr =>
    refine pubInv_phase hp _ (fun _ _ _ h => by cases h) (fun _ _ _ _ h => by cases h) (fun _ _ _ _ _ h' => ?_)
    cases h'
    intro b m hm hl _
    rcases hp.listing _ _ _ _ hph b m hm hl with h1 | ⟨h1, h2⟩
    · exact Or.inl h1
    · rcases h b h2 with h3 | h3
      · exact Or.inr ⟨h1, Or.inl h3⟩
      · simp only [Bin.keyExpired, decide_eq_true_eq] at h3
        unfold Live at hl
        omega
  | jobStart epoch states seen todo jobs hph b0 h =>
    refine pubInv_phase hp _ (fun _ _ _ h => by cases h) (fun _ _ _ _ h => by cases h) (fun _ _ _ _ _ h' => ?_)
    cases h'
    intro b m hm hl hc
    rcases hp.moving _ _ _ _ _ hph b m hm hl hc with h1 | ⟨h1, h2⟩
    · exact Or.inl h1
    · refine Or.inr ⟨h1, ?_⟩
      by_cases e : b = b0
      · subst e
        exact Or.inr ⟨_, List.mem_append.2 (Or.inr (List.mem_singleton.2 rfl)), rfl, mem_members.2 h1⟩
      · rcases h2 with h2 | ⟨j, a1, a2, a3⟩
        · exact Or.inl ((List.mem_erase_of_ne e).2 h2)
        · exact Or.inr ⟨j, List.mem_append.2 (Or.inl a1), a2, a3⟩
  | jobListed epoch states seen todo jobs hph k b0 need es hj h1 h2 st hst =>
    refine pubInv_phase hp _ (fun _ _ _ h => by cases h) (fun _ _ _ _ h => by cases h) (fun _ _ _ _ _ h' => ?_)
    cases h'
    intro b m hm hl hc
    rcases hp.moving _ _ _ _ _ hph b m hm hl hc with g1 | ⟨g1, g2⟩
    · exact Or.inl g1
    · refine Or.inr ⟨g1, ?_⟩
      rcases pending_set (st' := st) (hi.jobs _ _ _ _ _ hph).1 hj g2 with ⟨_, g3⟩ | ⟨e, _, _, _, g3⟩
      · exact g3
      · subst e
        have hes : m ∈ es := by
          rcases h1 with h1 | h1
          · simp only [Bin.keyExpired, decide_eq_true_eq] at h1
            unfold Live at hl
            omega
          · exact h1 m g3
        rcases hst with rfl | ⟨_, rfl⟩
        · exact Or.inr ⟨_, setStage_mem hj, rfl, hes⟩
        · cases hes
  | jobRead epoch states seen todo jobs hph k b0 es hj l h =>
    refine pubInv_phase hp _ (fun _ _ _ h => by cases h) (fun _ _ _ _ h => by cases h) (fun _ _ _ _ _ h' => ?_)
    cases h'
    intro b m hm hl hc
    rcases hp.moving _ _ _ _ _ hph b m hm hl hc with g1 | ⟨g1, g2⟩
    · exact Or.inl g1
    · refine Or.inr ⟨g1, ?_⟩
      rcases pending_set (st' := .haveRead es l) (hi.jobs _ _ _ _ _ hph).1 hj g2 with ⟨_, g3⟩ | ⟨e, _, _, _, g3⟩
      · exact g3
      · subst e
        exact Or.inr ⟨_, setStage_mem hj, rfl, g3⟩
  | jobWrite epoch states seen todo jobs hph k b0 es l hj =>
    have hi' := dbInv_eff hi h0
    refine ⟨hp.sub, ?_, ?_, (fun _ _ _ h => by cases h), (fun _ _ _ _ h => by cases h), fun _ _ _ _ _ h' => ?_⟩
    · intro b m hm hl
      exact (hp.kept b m hm hl).imp (stored_eff hi h0 b _ hl) id
    · intro st hst b m hm hl hc
      exact stored_eff hi h0 b _ hl (hp.pub st hst b m hm hl hc)
    · have hj' := h'
      cases h'
      intro b m hm hl hc
      rcases hp.moving _ _ _ _ _ hph b m hm hl hc with g1 | ⟨g1, g2⟩
      · exact Or.inl (stored_eff hi h0 b _ hl g1)
      · rcases pending_set (st' := .wrote (coveredOf states es)) (hi.jobs _ _ _ _ _ hph).1 hj g2 with ⟨_, g3⟩ | ⟨e, _, _, _, g3⟩
        · exact Or.inr ⟨g1, g3⟩
        · subst e
          left
          exact (hi'.jobs _ _ _ _ _ hj').2.2 _ (setStage_mem hj) m (List.mem_filter.2 ⟨g3, hc⟩)
  | jobRemove epoch states seen todo jobs hph k b0 cov xs hj =>
    exact pubInv_same hi hp h0 rfl rfl rfl (fun p h => hp.sub p (List.mem_filter.1 h).1) (fun _ h => h) (fun _ h => Or.inl h)
  | jobFinish epoch states seen todo jobs hph k b0 cov hj =>
    refine pubInv_phase hp _ (fun _ _ _ h => by cases h) (fun _ _ _ _ h => by cases h) (fun _ _ _ _ _ h' => ?_)
    cases h'
    intro b m hm hl hc
    rcases hp.moving _ _ _ _ _ hph b m hm hl hc with g1 | ⟨g1, g2⟩
    · exact Or.inl g1
    · rcases pending_set (st' := .finished) (hi.jobs _ _ _ _ _ hph).1 hj g2 with ⟨_, g3⟩ | ⟨e, _, _, _, g3⟩
      · exact Or.inr ⟨g1, g3⟩
      · exact absurd g3 id
  | jobFail epoch states seen todo jobs hph k b0 st hj =>
    refine pubInv_phase hp _ (fun _ _ _ h => by cases h) (fun _ _ _ _ h => by cases h) (fun _ _ _ _ _ h' => ?_)
    cases h'
    intro b m hm hl hc
    rcases hp.moving _ _ _ _ _ hph b m hm hl hc with g1 | ⟨g1, g2⟩
    · exact Or.inl g1
    · refine Or.inr ⟨g1, ?_⟩
      rcases pending_set (st' := .failed) (hi.jobs _ _ _ _ _ hph).1 hj g2 with ⟨_, g3⟩ | ⟨e, _, _, _, g3⟩
      · exact g3
      · subst e
        exact Or.inr ⟨_, setStage_mem hj, rfl, trivial⟩
  | replaceLogs epoch states seen jobs hph h =>
    refine ⟨hp.sub, hp.kept, ?_, (fun _ _ _ h => by cases h), (fun _ _ _ _ h => by cases h), (fun _ _ _ _ _ h => by cases h)⟩
    intro st hst b m hm hl hc
    cases hst
    rcases hp.moving _ _ _ _ _ hph b m hm hl hc with g1 | ⟨_, g2⟩
    · exact g1
    · rcases g2 with g2 | ⟨j, a1, a2, a3⟩
      · cases g2
      · rw [h j a1] at a3
        exact absurd a3 id
  | sweep epoch hph b h => exact pubInv_same hi hp h0 rfl rfl rfl hp.sub (fun _ h => h) (fun _ h => Or.inl h)
  | nextEpoch epoch hph =>
    exact ⟨hp.sub, hp.kept, hp.pub, (fun _ _ _ h => by cases h), (fun _ _ _ _ h => by cases h), (fun _ _ _ _ _ h => by cases h)⟩
  | countAgain epoch hph =>
    exact pubInv_same hi hp h0 rfl rfl rfl hp.sub (fun _ h => h) (fun _ h => Or.inl h)
  | replaceEpoch epoch hph =>
    exact ⟨hp.sub, hp.kept, hp.pub, (fun _ _ _ h => by cases h), (fun _ _ _ _ h => by cases h), (fun _ _ _ _ _ h => by cases h)⟩

theorem run_induct {P : Db → Prop} (hstep : ∀ db db', P db → Eff db db' → P db') (acts : List CAct) : ∀ db, P db → (∀ a ∈ acts, Fine a) → P (db.run acts) := by
  induction acts with
  | nil => intro db h _; exact h
  | cons a as ih =>
    intro db h hf
    exact ih _ (hstep _ _ h (step_eff db a (hf a (by simp)))) (fun x hx => hf x (by simp [hx]))

theorem dbInv_init : DbInv Db.init := ⟨(fun p h => by cases h), jobsInv_other (fun _ _ _ _ _ h => by cases h)⟩

theorem pubInv_init : PubInv Db.init :=
  ⟨(fun p h => by cases h), (fun b m h => by cases h), (fun st h => by cases h), (fun _ _ _ h => by cases h), (fun _ _ _ _ h => by cases h),
    (fun _ _ _ _ _ h => by cases h)⟩

end Verif
