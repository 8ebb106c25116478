import Verif.Spec.Follow
import Verif.Props.Worker
/-!
C113: the list of logs decides which logs are followed.
-/
namespace Verif.Props
open Verif.Spec

/-! ### what is enrolled -/

/-- Induction from the end of a list. -/
theorem record_induction {α : Type} {P : List α → Prop} (nil : P []) (append_singleton : ∀ l x, P l → P (l ++ [x])) (l : List α) : P l := by
  have h : ∀ r : List α, P r.reverse := by
    intro r
    induction r with
    | nil => exact nil
    | cons x r ih => rw [List.reverse_cons]; exact append_singleton _ _ ih
  simpa using h l.reverse

/-- What a record does to the map. -/
def metaRecord (m : Text → Option LogRecord) (r : LogRecord) : Text → Option LogRecord :=
  fun i => if i = r.id then (if r.enrolled then some ((m r.id).getD r) else none) else m i

theorem record_metadata (f : Follow) (r : LogRecord) : (f.record r).metadata = metaRecord f.metadata r := by
  funext i
  unfold Follow.record metaRecord setMeta
  by_cases hi : i = r.id
  · subst hi
    cases hm : f.metadata r.id <;> cases he : r.enrolled <;> simp [hm]
  · cases hm : f.metadata r.id <;> cases he : r.enrolled <;> simp [hi]

theorem records_metadata (l : List LogRecord) : ∀ f : Follow, (l.foldl Follow.record f).metadata = l.foldl metaRecord f.metadata := by
  induction l with
  | nil => intro f; rfl
  | cons r l ih => intro f; simp only [List.foldl_cons]; rw [ih, record_metadata]

/-- A step that is neither a restart nor a panic. -/
def Runs (act : FollowAct) : Prop := act ≠ .restart ∧ ∀ k s, act ≠ .job k s .crashed

theorem step_metadata (forever : Bool) (f : Follow) (act : FollowAct) (h : Runs act) :
    (f.step forever act).metadata = (said act).foldl metaRecord f.metadata := by
  cases act with
  | localRecord r =>
    by_cases he : r.enrolled = true <;> simp [Follow.step, said, he, record_metadata]
  | poll a =>
    cases a with
    | none => rfl
    | some l => simp [Follow.step, said, records_metadata]
  | top k =>
    simp only [Follow.step, said, List.foldl_nil]
    split
    · split <;> rfl
    · rfl
  | job k s o =>
    simp only [Follow.step, said, List.foldl_nil]
    split
    · rw [if_neg (fun e => h.2 k s (by rw [e]))]
      split <;> rfl
    · rfl
  | restart => exact absurd rfl h.1

theorem run_metadata (forever : Bool) (acts : List FollowAct) : ∀ f : Follow, (∀ act ∈ acts, Runs act) →
    (f.run forever acts).metadata = (allSaid acts).foldl metaRecord f.metadata := by
  induction acts with
  | nil => intro f _; rfl
  | cons act acts ih =>
    intro f h
    have := ih (f.step forever act) (fun a ha => h a (List.mem_cons_of_mem _ ha))
    simp only [Follow.run, List.foldl_cons] at this ⊢
    rw [this, step_metadata forever f act (h act (List.mem_cons_self ..))]
    simp [allSaid, List.foldl_append]

theorem lastWord_append (l : List LogRecord) (x r : LogRecord) :
    LastWord (l ++ [x]) r ↔ r = x ∨ (r.id ≠ x.id ∧ LastWord l r) := by
  constructor
  · rintro ⟨a, b, e, hb⟩
    rcases List.eq_nil_or_concat b with rfl | ⟨b', y, rfl⟩
    · have := List.append_inj' e rfl
      exact .inl (by simpa using this.2.symm)
    · have e' : l ++ [x] = (a ++ r :: b') ++ [y] := by simpa using e
      have := List.append_inj' e' rfl
      have hx : x = y := by simpa using this.2
      subst hx
      refine .inr ⟨fun hh => hb x (by simp) hh.symm, a, b', this.1, fun z hz => hb z (by simp [hz])⟩
  · rintro (rfl | ⟨hne, a, b, rfl, hb⟩)
    · exact ⟨l, [], by simp, by simp⟩
    · exact ⟨a, b ++ [x], by simp, fun z hz => by
        rcases List.mem_append.mp hz with hz | hz
        · exact hb z hz
        · simp only [List.mem_singleton] at hz; subst hz; exact hne.symm⟩

theorem fold_enrolled_iff (m : Text → Option LogRecord) (id : Text) (l : List LogRecord) :
    ((l.foldl metaRecord m) id).isSome = true ↔
      (∃ r, LastWord l r ∧ r.id = id ∧ r.enrolled = true) ∨ ((∀ r ∈ l, r.id ≠ id) ∧ (m id).isSome = true) := by
  induction l using record_induction with
  | nil =>
    simp only [List.foldl_nil, List.not_mem_nil, false_imp_iff, implies_true, true_and]
    exact ⟨.inr, fun h => h.elim (fun ⟨r, ⟨a, b, e, _⟩, _⟩ => by simp at e) (fun h => h)⟩
  | append_singleton l x ih =>
    simp only [List.foldl_append, List.foldl_cons, List.foldl_nil]
    by_cases hx : id = x.id
    · subst hx
      constructor
      · intro h
        refine .inl ⟨x, (lastWord_append ..).mpr (.inl rfl), rfl, ?_⟩
        cases he : x.enrolled with
        | true => rfl
        | false => simp [metaRecord, he] at h
      · rintro (⟨r, hw, hid, he⟩ | ⟨h, _⟩)
        · rcases (lastWord_append ..).mp hw with rfl | ⟨hne, _⟩
          · simp [metaRecord, he]
          · exact absurd hid hne
        · exact absurd rfl (h x (by simp))
    · have hm : metaRecord (List.foldl metaRecord m l) x id = (List.foldl metaRecord m l) id := by simp [metaRecord, hx]
      rw [hm, ih]
      constructor
      · rintro (⟨r, hw, hid, he⟩ | ⟨h, h'⟩)
        · exact .inl ⟨r, (lastWord_append ..).mpr (.inr ⟨fun e => hx (hid.symm.trans e), hw⟩), hid, he⟩
        · refine .inr ⟨fun r hr => ?_, h'⟩
          rcases List.mem_append.mp hr with hr | hr
          · exact h r hr
          · simp only [List.mem_singleton] at hr; subst hr; exact fun e => hx e.symm
      · rintro (⟨r, hw, hid, he⟩ | ⟨h, h'⟩)
        · rcases (lastWord_append ..).mp hw with rfl | ⟨_, hw⟩
          · exact absurd hid.symm hx
          · exact .inl ⟨r, hw, hid, he⟩
        · exact .inr ⟨fun r hr => h r (by simp [hr]), h'⟩

theorem enrolledBy_append (l : List LogRecord) (x r : LogRecord) :
    EnrolledBy (l ++ [x]) r ↔
      (r = x ∧ x.enrolled = true ∧ ∀ y, LastWord l y → y.id = x.id → y.enrolled = false) ∨
      (EnrolledBy l r ∧ (x.id = r.id → x.enrolled = true)) := by
  constructor
  · rintro ⟨a, b, e, he, hb, ha⟩
    rcases List.eq_nil_or_concat b with rfl | ⟨b', y, rfl⟩
    · have := List.append_inj' e rfl
      have hx : x = r := by simpa using this.2
      subst hx
      obtain ⟨rfl, _⟩ := this
      exact .inl ⟨rfl, he, ha⟩
    · have e' : l ++ [x] = (a ++ r :: b') ++ [y] := by simpa using e
      have := List.append_inj' e' rfl
      have hx : x = y := by simpa using this.2
      subst hx
      exact .inr ⟨⟨a, b', this.1, he, fun z hz => hb z (by simp [hz]), ha⟩, fun hh => hb x (by simp) hh⟩
  · rintro (⟨rfl, he, ha⟩ | ⟨⟨a, b, rfl, he, hb, ha⟩, hx⟩)
    · exact ⟨l, [], by simp, he, by simp, ha⟩
    · refine ⟨a, b ++ [x], by simp, he, fun z hz => ?_, ha⟩
      rcases List.mem_append.mp hz with hz | hz
      · exact hb z hz
      · simp only [List.mem_singleton] at hz; subst hz; exact hx

theorem enrolledBy_iff (id : Text) (l : List LogRecord) : ∀ r,
    (l.foldl metaRecord (fun _ => none)) id = some r ↔ EnrolledBy l r ∧ r.id = id := by
  induction l using record_induction with
  | nil =>
    intro r
    simp only [List.foldl_nil, reduceCtorEq, false_iff]
    rintro ⟨⟨a, b, e, _⟩, _⟩
    simp at e
  | append_singleton l x ih =>
    intro r
    have hen := fold_enrolled_iff (fun _ => none) id l
    simp only [List.foldl_append, List.foldl_cons, List.foldl_nil]
    rw [enrolledBy_append]
    by_cases hx : id = x.id
    · subst hx
      cases he : x.enrolled with
      | false =>
        simp only [metaRecord, he, if_true, reduceCtorEq, false_iff, Bool.false_eq_true, if_false]
        rintro ⟨⟨_, h, _⟩ | ⟨_, h⟩, hid⟩
        · exact absurd h (by decide)
        · exact absurd (h hid.symm) (by decide)
      | true =>
        simp only [metaRecord, he, if_true, Option.some.injEq]
        cases hm : (List.foldl metaRecord (fun _ => none) l) x.id with
        | none =>
          simp only [Option.getD_none]
          constructor
          · rintro rfl
            refine ⟨.inl ⟨rfl, trivial, fun y hy hid => ?_⟩, rfl⟩
            rw [Bool.eq_false_iff]
            intro hye
            have := hen.mpr (.inl ⟨y, hy, hid, hye⟩)
            simp [hm] at this
          · rintro ⟨⟨rfl, _⟩ | ⟨h, _⟩, hid⟩
            · rfl
            · exact absurd ((ih r).mpr ⟨h, hid⟩) (by simp [hm])
        | some r0 =>
          have h0 := (ih r0).mp hm
          simp only [Option.getD_some]
          constructor
          · rintro rfl
            exact ⟨.inr ⟨h0.1, fun _ => trivial⟩, h0.2⟩
          · rintro ⟨⟨rfl, _, h⟩ | ⟨h, _⟩, hid⟩
            · obtain ⟨y, hy, hyid, hye⟩ | ⟨_, h'⟩ := hen.mp (by simp [hm])
              · exact absurd hye (by simp [h y hy hyid])
              · simp at h'
            · have := (ih r).mpr ⟨h, hid⟩
              rw [hm] at this
              exact Option.some.inj this
    · have hm : metaRecord (List.foldl metaRecord (fun _ => none) l) x id = (List.foldl metaRecord (fun _ => none) l) id := by simp [metaRecord, hx]
      rw [hm, ih]
      constructor
      · rintro ⟨h, hid⟩
        exact ⟨.inr ⟨h, fun e => absurd (hid.symm.trans e.symm) hx⟩, hid⟩
      · rintro ⟨⟨rfl, _⟩ | ⟨h, _⟩, hid⟩
        · exact absurd hid.symm hx
        · exact ⟨h, hid⟩

/-- **C113 (what is enrolled).** Whatever was said on the command line and by the server since the process began, in however many answers, with failed requests,
jobs and ends of workers in between: a log is enrolled iff the last record about it says so. -/
theorem C113_enrolled (forever : Bool) (acts : List FollowAct) (h : ∀ act ∈ acts, Runs act) (id : Text) :
    (((Follow.init.run forever acts).metadata id).isSome = true ↔ ∃ r, LastWord (allSaid acts) r ∧ r.id = id ∧ r.enrolled = true) := by
  rw [run_metadata forever acts Follow.init h, fold_enrolled_iff]
  simp [Follow.init]

/-- **C113 (with which record).** The record kept for an enrolled log is the one by which it was enrolled: the first after its last withdrawal, not the last. -/
theorem C113_record (forever : Bool) (acts : List FollowAct) (h : ∀ act ∈ acts, Runs act) (id : Text) (r : LogRecord) :
    (Follow.init.run forever acts).metadata id = some r ↔ EnrolledBy (allSaid acts) r ∧ r.id = id := by
  rw [run_metadata forever acts Follow.init h]
  exact enrolledBy_iff id _ r

/-! ### who follows -/

theorem record_workers (f : Follow) (r : LogRecord) :
    (f.record r).workers = if (f.metadata r.id).isSome = false ∧ r.enrolled = true then r :: f.workers else f.workers := by
  unfold Follow.record
  cases hm : f.metadata r.id <;> cases he : r.enrolled <;> simp

/-- Every enrolled log has a goroutine with the record kept for it. -/
def Served (f : Follow) (id : Text) : Prop := ∀ r, f.metadata id = some r → r ∈ f.workers ∧ r.id = id

theorem served_record {f : Follow} {id : Text} (h : Served f id) (r : LogRecord) : Served (f.record r) id := by
  intro x hx
  rw [record_metadata] at hx
  rw [record_workers]
  unfold metaRecord at hx
  by_cases hi : id = r.id
  · subst hi
    rw [if_pos rfl] at hx
    cases he : r.enrolled with
    | false => simp [he] at hx
    | true =>
      rw [he, if_pos rfl] at hx
      cases hm : f.metadata r.id with
      | none => simp only [hm, Option.getD_none, Option.some.injEq] at hx; subst hx; simp
      | some y =>
        simp only [hm, Option.getD_some, Option.some.injEq] at hx; subst hx
        simpa using h y hm
  · rw [if_neg hi] at hx
    refine ⟨?_, (h x hx).2⟩
    split
    · exact List.mem_cons_of_mem _ (h x hx).1
    · exact (h x hx).1

theorem served_records {id : Text} (l : List LogRecord) : ∀ {f : Follow}, Served f id → Served (l.foldl Follow.record f) id := by
  induction l with
  | nil => intro f h; exact h
  | cons r l ih => intro f h; exact ih (served_record h r)

theorem worker_kept_of_ne {α : Type} {l : List α} {k : Nat} {x y : α} (hx : x ∈ l) (hk : l[k]? = some y) (hne : x ≠ y) : x ∈ l.eraseIdx k := by
  rw [List.mem_eraseIdx_iff_getElem?]
  obtain ⟨i, hi⟩ := List.mem_iff_getElem?.mp hx
  refine ⟨i, fun e => ?_, hi⟩
  subst e
  rw [hk] at hi
  exact hne (Option.some.inj hi).symm

theorem served_step (forever : Bool) {f : Follow} {id : Text} (h : Served f id) (act : FollowAct)
    (hj : ∀ k stop o r, act = .job k stop o → f.workers[k]? = some r → o ≠ .crashed ∧ (r.id = id → o = .waits ∨ (o ≠ .ended ∧ forever = true ∧ stop = false))) :
    Served (f.step forever act) id := by
  cases act with
  | localRecord r =>
    simp only [Follow.step]
    split
    · exact served_record h r
    · exact h
  | poll a =>
    cases a with
    | none => exact h
    | some l => exact served_records l h
  | top k =>
    simp only [Follow.step]
    split
    · rename_i r hr
      split
      · exact h
      · rename_i hn
        intro x hx
        refine ⟨worker_kept_of_ne (h x hx).1 hr (fun e => hn ?_), (h x hx).2⟩
        subst e
        have hid := (h x hx).2
        rw [hid]
        simp only at hx
        rw [hx]
        rfl
    · exact h
  | job k stop o =>
    simp only [Follow.step]
    split
    · rename_i r hr
      split
      · rename_i ho
        exact absurd ho (hj k stop o r rfl hr).1
      · split
        · exact h
        · rename_i ho hg
          have : r.id ≠ id := fun e => by
            rcases (hj k stop o r rfl hr).2 e with rfl | ⟨h1, rfl, rfl⟩
            · simp [goesOn] at hg
            · cases o <;> simp [goesOn] at hg h1
          intro x hx
          exact ⟨worker_kept_of_ne (h x hx).1 hr (fun e => this (e ▸ (h x hx).2)), (h x hx).2⟩
    · exact h
  | restart => intro r hr; simp [Follow.step, Follow.init] at hr

theorem served_run (forever : Bool) {id : Text} (acts : List FollowAct) : ∀ {f : Follow}, Served f id → NoJobEnds forever id f acts →
    Served (f.run forever acts) id := by
  induction acts with
  | nil => intro f h _; exact h
  | cons act acts ih =>
    intro f h hn
    exact ih (served_step forever h act hn.1) hn.2

/-- The logs without a goroutine at the top of its loop stay; those that are not enrolled go. -/
theorem round_run (forever : Bool) (n : Nat) : ∀ f : Follow, n ≤ f.workers.length →
    (f.run forever (Spec.round n)).metadata = f.metadata ∧
    (f.run forever (Spec.round n)).workers =
      (f.workers.take n).filter (fun r => (f.metadata r.id).isSome) ++ f.workers.drop n := by
  induction n with
  | zero => intro f _; exact ⟨rfl, by simp [Spec.round, Follow.run]⟩
  | succ n ih =>
    intro f hn
    have hr : Spec.round (n + 1) = .top n :: Spec.round n := by
      simp [Spec.round, List.range_succ]
    have hget : f.workers[n]? = some f.workers[n] := List.getElem?_eq_getElem (by omega)
    have htake : f.workers.take (n + 1) = f.workers.take n ++ [f.workers[n]] := by
      rw [List.take_add_one, hget]; rfl
    have hdrop : f.workers.drop n = f.workers[n] :: f.workers.drop (n + 1) := by
      rw [List.drop_eq_getElem_cons]
    rw [hr]
    simp only [Follow.run, List.foldl_cons]
    by_cases he : (f.metadata f.workers[n].id).isSome = true
    · have hs : f.step forever (.top n) = f := by simp [Follow.step, hget, he]
      rw [hs]
      have := ih f (by omega)
      simp only [Follow.run] at this
      refine ⟨this.1, this.2.trans ?_⟩
      rw [htake, List.filter_append, hdrop]
      simp [he]
    · have hs : f.step forever (.top n) = { f with workers := f.workers.eraseIdx n } := by simp [Follow.step, hget, he]
      rw [hs]
      have hl : n ≤ (f.workers.eraseIdx n).length := by
        rw [List.length_eraseIdx_of_lt (by omega)]; omega
      have := ih { f with workers := f.workers.eraseIdx n } hl
      simp only [Follow.run] at this
      refine ⟨this.1, this.2.trans ?_⟩
      have he' : f.workers.eraseIdx n = f.workers.take n ++ f.workers.drop (n + 1) := List.eraseIdx_eq_take_drop_succ ..
      have ht : (f.workers.take n).length = n := by simp; omega
      rw [he', List.take_append_of_le_length (by omega), List.take_of_length_le (by omega), List.drop_append_of_le_length (by omega),
        List.drop_eq_nil_of_le (by omega), htake, List.filter_append]
      simp [he]

theorem served_init (id : Text) : Served Follow.init id := fun r hr => by simp [Follow.init] at hr

/-- **C113 (who is followed, in part).** Take any history since the process began in which no goroutine of the log returned because of a job, then an answer of the server, and
let every goroutine come to the top of its loop. Then the log is followed iff the last record about it, in this answer or an earlier one, says that it is enrolled. Full statement: iff the answer
lists it as enrolled, in every history. Missing: logs that are not in the answer any more (`C113_gone_fails`) and logs whose goroutine returned (`C113_ended_fails`). -/
theorem C113_followed_partial (forever : Bool) (acts : List FollowAct) (h : ∀ act ∈ acts, Runs act) (id : Text) (hj : NoJobEnds forever id Follow.init acts)
    (l : List LogRecord) :
    let f := (Follow.init.run forever acts).step forever (.poll (some l))
    Followed (f.run forever (Spec.round f.workers.length)) id ↔ ∃ r, LastWord (allSaid acts ++ l) r ∧ r.id = id ∧ r.enrolled = true := by
  intro f
  have hs : Served f id := served_records l (served_run forever acts (served_init id) hj)
  have hm : f.metadata = (allSaid acts ++ l).foldl metaRecord (fun _ => none) := by
    rw [List.foldl_append]
    show (l.foldl Follow.record _).metadata = _
    rw [records_metadata, run_metadata forever acts Follow.init h]
    rfl
  have he := fold_enrolled_iff (fun _ => none) id (allSaid acts ++ l)
  rw [← hm] at he
  simp only [Option.isSome_none, Bool.false_eq_true, and_false, or_false] at he
  rw [← he]
  have hr := (round_run forever f.workers.length f (Nat.le_refl _)).2
  rw [List.take_length, List.drop_length, List.append_nil] at hr
  unfold Followed
  rw [hr]
  constructor
  · rintro ⟨r, hr, rfl⟩
    exact (List.mem_filter.mp hr).2
  · intro hi
    obtain ⟨r, hr⟩ := Option.isSome_iff_exists.mp hi
    exact ⟨r, List.mem_filter.mpr ⟨(hs r hr).1, by rw [(hs r hr).2]; exact hi⟩, (hs r hr).2⟩

theorem kept_meta (id : Text) (r : LogRecord) (l : List LogRecord) (hl : ∀ x ∈ l, x.id = id → x.enrolled = true) :
    ∀ m : Text → Option LogRecord, m id = some r → (l.foldl metaRecord m) id = some r := by
  induction l with
  | nil => intro m h; exact h
  | cons x l ih =>
    intro m h
    refine ih (fun y hy => hl y (List.mem_cons_of_mem _ hy)) _ ?_
    unfold metaRecord
    by_cases hx : id = x.id
    · subst hx
      rw [if_pos rfl, if_pos (hl x (List.mem_cons_self ..) rfl), h]
      rfl
    · rw [if_neg hx, h]

theorem no_new_records (id : Text) (r : LogRecord) (l : List LogRecord) (hl : ∀ x ∈ l, x.id = id → x.enrolled = true) :
    ∀ f : Follow, f.metadata id = some r → ∀ w ∈ (l.foldl Follow.record f).workers, w.id = id → w ∈ f.workers := by
  induction l with
  | nil => intro f _ w hw _; exact hw
  | cons x l ih =>
    intro f hm w hw hid
    have hl' : ∀ y ∈ l, y.id = id → y.enrolled = true := fun y hy => hl y (List.mem_cons_of_mem _ hy)
    have hm' : (f.record x).metadata id = some r := by
      rw [record_metadata]
      exact kept_meta id r [x] (fun y hy => by simp only [List.mem_singleton] at hy; subst hy; exact hl y (List.mem_cons_self ..)) f.metadata hm
    have := ih hl' (f.record x) hm' w hw hid
    rw [record_workers] at this
    split at this
    · rename_i hc
      rcases List.mem_cons.mp this with rfl | h
      · rw [hid, hm] at hc
        simp at hc
      · exact h
    · exact this

theorem no_new_step (forever : Bool) (id : Text) (r : LogRecord) (f : Follow) (act : FollowAct) (hrun : Runs act)
    (hl : ∀ x ∈ said act, x.id = id → x.enrolled = true) (hm : f.metadata id = some r) :
    (f.step forever act).metadata id = some r ∧ ∀ w ∈ (f.step forever act).workers, w.id = id → w ∈ f.workers := by
  refine ⟨by rw [step_metadata forever f act hrun]; exact kept_meta id r _ hl _ hm, ?_⟩
  cases act with
  | localRecord x =>
    simp only [Follow.step]
    split
    · rename_i he
      exact no_new_records id r [x] (fun y hy _ => by simp only [List.mem_singleton] at hy; subst hy; exact he) f hm
    · exact fun w hw _ => hw
  | poll a =>
    cases a with
    | none => exact fun w hw _ => hw
    | some l => exact no_new_records id r l hl f hm
  | top k =>
    simp only [Follow.step]
    split
    · split
      · exact fun w hw _ => hw
      · exact fun w hw _ => (List.eraseIdx_sublist ..).subset hw
    · exact fun w hw _ => hw
  | job k s o =>
    simp only [Follow.step]
    split
    · rw [if_neg (fun e => hrun.2 k s (by rw [e]))]
      split
      · exact fun w hw _ => hw
      · exact fun w hw _ => (List.eraseIdx_sublist ..).subset hw
    · exact fun w hw _ => hw
  | restart => exact absurd rfl hrun.1

theorem no_new_run (forever : Bool) (id : Text) (r : LogRecord) (acts : List FollowAct) : ∀ f : Follow, (∀ act ∈ acts, Runs act) →
    (∀ x ∈ allSaid acts, x.id = id → x.enrolled = true) → f.metadata id = some r →
    (f.run forever acts).metadata id = some r ∧ ∀ w ∈ (f.run forever acts).workers, w.id = id → w ∈ f.workers := by
  induction acts with
  | nil => intro f _ _ hm; exact ⟨hm, fun w hw _ => hw⟩
  | cons act acts ih =>
    intro f hrun hl hm
    have hl1 : ∀ x ∈ said act, x.id = id → x.enrolled = true := fun x hx => hl x (by simp [allSaid, hx])
    have hl2 : ∀ x ∈ allSaid acts, x.id = id → x.enrolled = true := fun x hx => hl x (by
      simp only [allSaid, List.map_cons, List.flatten_cons, List.mem_append]; exact .inr hx)
    have h1 := no_new_step forever id r f act (hrun act (List.mem_cons_self ..)) hl1 hm
    have h2 := ih (f.step forever act) (fun a ha => hrun a (List.mem_cons_of_mem _ ha)) hl2 h1.1
    exact ⟨h2.1, fun w hw hid => h1.2 w (h2.2 w hw hid) hid⟩

/-- **C113 (the end).** After a signal, or without `runForever`, every goroutine returns at the end of its job, however the job ends: when each has ended its job nothing is followed any more. -/
theorem C113_stops (forever stop : Bool) (hs : stop = true ∨ forever = false) (os : Nat → JobEnd) (ho : ∀ k, os k ≠ .waits ∧ os k ≠ .crashed) (f : Follow) :
    (f.run forever ((List.range f.workers.length).reverse.map (fun k => .job k stop (os k)))).workers = [] := by
  have h : ∀ (n : Nat) (f : Follow), n = f.workers.length → (f.run forever ((List.range n).reverse.map (fun k => .job k stop (os k)))).workers = [] := by
    intro n
    induction n with
    | zero => intro f hn; exact List.length_eq_zero_iff.mp hn.symm
    | succ n ih =>
      intro f hn
      have hget : f.workers[n]? = some f.workers[n] := List.getElem?_eq_getElem (by omega)
      have hg : goesOn forever stop (os n) = false := by
        have := ho n
        cases h : os n with
        | waits => exact absurd h this.1
        | ended => rfl
        | _ => rcases hs with rfl | rfl <;> simp [goesOn]
      simp only [List.range_succ, List.reverse_append, List.reverse_cons, List.reverse_nil, List.nil_append, List.singleton_append, List.map_cons, Follow.run, List.foldl_cons]
      refine ih _ ?_
      simp [Follow.step, (ho n).2, hg, List.length_eraseIdx_of_lt, ← hn]
  exact h _ f rfl

/-- **C113 fails (a goroutine that returned).** A log is enrolled, and its first job ends with an error. Whatever happens from then on, and however often the server lists it as
enrolled: it stays enrolled, and nothing follows it until the process is started again or the log is withdrawn. -/
theorem C113_ended_fails (forever stop : Bool) (r : LogRecord) (he : r.enrolled = true) (acts : List FollowAct) (hrun : ∀ act ∈ acts, Runs act)
    (hl : ∀ x ∈ allSaid acts, x.id = r.id → x.enrolled = true) :
    let f := Follow.init.run forever ([.poll (some [r]), .top 0, .job 0 stop .ended] ++ acts)
    f.metadata r.id = some r ∧ ¬ Followed f r.id := by
  have h0 : Follow.init.run forever [.poll (some [r]), .top 0, .job 0 stop .ended] = { metadata := setMeta (fun _ => none) r.id (some r), workers := [] } := by
    simp [Follow.run, Follow.step, Follow.record, Follow.init, he, setMeta, goesOn]
  intro f
  have hf : f = ({ metadata := setMeta (fun _ => none) r.id (some r), workers := [] } : Follow).run forever acts := by
    rw [← h0]; simp [f, Follow.run]
  rw [hf]
  have := no_new_run forever r.id r acts { metadata := setMeta (fun _ => none) r.id (some r), workers := [] } hrun hl (by simp [setMeta])
  exact ⟨this.1, fun ⟨w, hw, hid⟩ => by simpa using this.2 w hw hid⟩

/-- **C113 fails (one old answer of a log).** One signed tree head that is too old for the job at hand is enough (`C98_stale_head_fails`): the log stays enrolled and is not followed any more. -/
theorem C113_stale_head_fails (r : LogRecord) (he : r.enrolled = true) (acts : List FollowAct) (hrun : ∀ act ∈ acts, Runs act)
    (hl : ∀ x ∈ allSaid acts, x.id = r.id → x.enrolled = true) (env : Env) (batch now n t : Nat) (s : WState) (hu : s.lastUpdate ≠ none) (hn : 3 < n)
    (hm : n + batch ≤ s.minEntry) (hb : 0 < batch) (hx : s.minEntry ≤ s.maxEntry) (hfit : s.maxEntry + batch < 18446744073709551616) (p : List Bytes) (rs : List Resp) :
    let f := Follow.init.run true ([.poll (some [r]), .top 0, .job 0 false (runWorkerE env batch now s (some ⟨n, t⟩) (some p) rs).2] ++ acts)
    f.metadata r.id = some r ∧ ¬ Followed f r.id := by
  rw [C98_stale_head_fails env batch now n t s hu hn hm hb hx hfit p rs]
  exact C113_ended_fails true false r he acts hrun hl

/-- **C113 fails (a changed record).** As long as a log is listed as enrolled, what else its records say is not taken over: the goroutine goes on with the address, key, merge delay and kind
of log of the record that enrolled it. -/
theorem C113_changed_fails (forever : Bool) (r : LogRecord) (he : r.enrolled = true) (acts : List FollowAct) (hrun : ∀ act ∈ acts, Runs act)
    (hl : ∀ x ∈ allSaid acts, x.id = r.id → x.enrolled = true) :
    let f := Follow.init.run forever (.poll (some [r]) :: acts)
    f.metadata r.id = some r ∧ ∀ w ∈ f.workers, w.id = r.id → w = r := by
  have h0 : Follow.init.step forever (.poll (some [r])) = { metadata := setMeta (fun _ => none) r.id (some r), workers := [r] } := by
    simp [Follow.step, Follow.record, Follow.init, he]
  have := no_new_run forever r.id r acts { metadata := setMeta (fun _ => none) r.id (some r), workers := [r] } hrun hl (by simp [setMeta])
  intro f
  have hf : f = ({ metadata := setMeta (fun _ => none) r.id (some r), workers := [r] } : Follow).run forever acts := by
    rw [← h0]; rfl
  rw [hf]
  exact ⟨this.1, fun w hw hid => by simpa using this.2 w hw hid⟩

/-- **C113 fails (a log that is gone).** A log that the server does not list any more is followed as before, after any number of answers without it. -/
theorem C113_gone_fails (forever : Bool) (r : LogRecord) (he : r.enrolled = true) (acts : List FollowAct) (hrun : ∀ act ∈ acts, Runs act)
    (hl : ∀ x ∈ allSaid acts, x.id ≠ r.id) (hj : NoJobEnds forever r.id Follow.init (.poll (some [r]) :: acts)) :
    let f := Follow.init.run forever (.poll (some [r]) :: acts)
    f.metadata r.id = some r ∧ r ∈ f.workers := by
  intro f
  have hm := (C113_changed_fails forever r he acts hrun (fun x hx e => absurd e (hl x hx))).1
  exact ⟨hm, (served_run forever _ (served_init r.id) hj r hm).1⟩

theorem fresh_records (l : List LogRecord) : ∀ f : Follow, (l.map LogRecord.id).Nodup → (∀ r ∈ l, f.metadata r.id = none) →
    (l.foldl Follow.record f).workers = (l.filter LogRecord.enrolled).reverse ++ f.workers := by
  induction l with
  | nil => intro f _ _; rfl
  | cons x l ih =>
    intro f hn hf
    rw [List.map_cons, List.nodup_cons] at hn
    have hx := hf x (List.mem_cons_self ..)
    simp only [List.foldl_cons]
    rw [ih (f.record x) hn.2 (fun r hr => by
      rw [record_metadata]
      unfold metaRecord
      rw [if_neg (fun e : r.id = x.id => hn.1 (e ▸ List.mem_map_of_mem hr))]
      exact hf r (List.mem_cons_of_mem _ hr)), record_workers, hx]
    cases he : x.enrolled <;> simp [he]

/-- **C113 (a new process).** After a restart, an answer that lists every log once starts exactly one goroutine for every log listed as enrolled, with the record just listed; what went before does not matter. -/
theorem C113_fresh (forever : Bool) (f : Follow) (l : List LogRecord) (hn : (l.map LogRecord.id).Nodup) :
    (f.run forever [.restart, .poll (some l)]).workers = (l.filter LogRecord.enrolled).reverse ∧
    ∀ id, (f.run forever [.restart, .poll (some l)]).metadata id = l.find? (fun r => r.enrolled && r.id == id) := by
  refine ⟨by simpa [Follow.run, Follow.step, Follow.init] using fresh_records l Follow.init hn (fun _ _ => rfl), fun id => ?_⟩
  have h : ∀ (l : List LogRecord) (m : Text → Option LogRecord), (l.map LogRecord.id).Nodup → (∀ r ∈ l, m r.id = none) →
      (l.foldl metaRecord m) id = (l.find? (fun r => r.enrolled && r.id == id)).or (m id) := by
    intro l
    induction l with
    | nil => intro m _ _; rfl
    | cons x l ih =>
      intro m hn hm
      rw [List.map_cons, List.nodup_cons] at hn
      simp only [List.foldl_cons]
      rw [ih _ hn.2 (fun r hr => by
        unfold metaRecord
        rw [if_neg (fun e : r.id = x.id => hn.1 (e ▸ List.mem_map_of_mem hr))]
        exact hm r (List.mem_cons_of_mem _ hr))]
      have hmx := hm x (List.mem_cons_self ..)
      by_cases hid : id = x.id
      · subst hid
        have hnone : l.find? (fun r => r.enrolled && r.id == x.id) = none := by
          rw [List.find?_eq_none]
          intro r hr
          have : r.id ≠ x.id := fun e => hn.1 (e ▸ List.mem_map_of_mem hr)
          simp [this]
        rw [hnone, List.find?_cons]
        cases he : x.enrolled <;> simp [metaRecord, he, hmx, hnone]
      · have hne : (x.id == id) = false := by simpa using fun e => hid e.symm
        rw [List.find?_cons, hne]
        simp [metaRecord, hid]
  have := h l Follow.init.metadata hn (fun _ _ => rfl)
  show (l.foldl Follow.record Follow.init).metadata id = _
  rw [records_metadata, this]
  simp [Follow.init]

/-! ### examples -/

/-- A log, and the same at another address, withdrawn, and another log. -/
def exLogA : LogRecord := ⟨['a'], ['u'], ['k'], 86400, false, true⟩
def exLogA' : LogRecord := ⟨['a'], ['v'], ['k'], 60, true, true⟩
def exLogAOff : LogRecord := ⟨['a'], ['u'], ['k'], 86400, false, false⟩
def exLogB : LogRecord := ⟨['b'], ['w'], ['l'], 86400, true, true⟩

/-- A history: the command line, answers, a failed request, jobs. -/
def exFollowed : List FollowAct :=
  [.localRecord exLogB, .poll (some [exLogA]), .job 0 false .done, .poll none, .top 0, .poll (some [exLogA', exLogB]), .job 1 false .slept, .poll (some [exLogAOff])]

theorem exFollowed_runs : ∀ act ∈ exFollowed, Runs act := by
  unfold Runs exFollowed
  simp

theorem exFollowed_said : allSaid exFollowed = [exLogB, exLogA, exLogA', exLogB, exLogAOff] := by decide

example : ((Follow.init.run true exFollowed).metadata ['a']).isSome = false ∧ ((Follow.init.run true exFollowed).metadata ['b']).isSome = true := by
  refine ⟨by decide, (C113_enrolled true exFollowed exFollowed_runs ['b']).mpr ⟨exLogB, ?_, rfl, rfl⟩⟩
  exact ⟨[exLogB, exLogA, exLogA'], [exLogAOff], exFollowed_said, by decide⟩

/-- The record kept is the first one of the two. -/
example : (Follow.init.run true (exFollowed.take 7)).metadata ['a'] = some exLogA :=
  (C113_record true (exFollowed.take 7) (fun act h => exFollowed_runs act (List.mem_of_mem_take h)) ['a'] exLogA).mpr
    ⟨⟨[exLogB], [exLogA', exLogB], by decide, rfl, by decide, by
      rintro x ⟨a, b, e, _⟩ hid
      cases a with
      | nil => simp only [List.nil_append, List.cons.injEq] at e; obtain ⟨rfl, _⟩ := e; exact absurd hid (by decide)
      | cons y a => simp at e⟩, rfl⟩

theorem exFollowed_jobs (id : Text) : NoJobEnds true id Follow.init exFollowed := by
  have h : ∀ (f : Follow) (k : Nat) (o : JobEnd), o ≠ .ended → o ≠ .crashed → ∀ k' stop o' r, FollowAct.job k false o = .job k' stop o' →
      f.workers[k']? = some r → o' ≠ .crashed ∧ (r.id = id → o' = .waits ∨ (o' ≠ .ended ∧ true = true ∧ stop = false)) := by
    intro f k o hg hc k' stop o' r e _
    cases e
    exact ⟨hc, fun _ => .inr ⟨hg, rfl, rfl⟩⟩
  refine ⟨by simp, by simp, h _ _ _ (by decide) (by decide), by simp, by simp, by simp, h _ _ _ (by decide) (by decide), by simp, trivial⟩

/-- After the withdrawal and an answer with the other log: this one is followed, the withdrawn one is not. -/
example : let f := (Follow.init.run true exFollowed).step true (.poll (some [exLogB]))
    Followed (f.run true (Spec.round f.workers.length)) ['b'] ∧ ¬ Followed (f.run true (Spec.round f.workers.length)) ['a'] := by
  refine ⟨(C113_followed_partial true exFollowed exFollowed_runs ['b'] (exFollowed_jobs _) [exLogB]).mpr
    ⟨exLogB, ⟨[exLogB, exLogA, exLogA', exLogB, exLogAOff], [], by rw [exFollowed_said], by simp⟩, rfl, rfl⟩, ?_⟩
  rintro ⟨r, hr, hid⟩
  have : (((Follow.init.run true exFollowed).step true (.poll (some [exLogB]))).run true
      (Spec.round ((Follow.init.run true exFollowed).step true (.poll (some [exLogB]))).workers.length)).workers = [exLogB] := by decide
  rw [this] at hr
  simp only [List.mem_singleton] at hr
  subst hr
  exact absurd hid (by decide)

/-- Twenty answers that list the log do not bring it back. -/
example : ¬ Followed (Follow.init.run true ([.poll (some [exLogA]), .top 0, .job 0 false .ended] ++ List.replicate 20 (.poll (some [exLogA', exLogB])))) ['a'] :=
  (C113_ended_fails true false exLogA rfl _ (fun act h => by rw [List.eq_of_mem_replicate h]; simp [Runs]) (by decide)).2

/-- A signal while both goroutines work. -/
example : ((Follow.init.run true (exFollowed.take 6)).run true [.job 1 true .done, .job 0 true .slept]).workers = [] :=
  C113_stops true true (.inl rfl) (fun k => if k = 0 then .slept else .done) (fun k => by constructor <;> (show (if k = 0 then _ else _) ≠ _; split <;> decide)) (Follow.init.run true (exFollowed.take 6))

/-- The stale tree head of a log of which entries 60 to 80 are there. -/
example : ¬ Followed (Follow.init.run true ([.poll (some [exLogA]), .top 0, .job 0 false (runWorkerE toyEnv 10 1000 ⟨60, 80, 0, 0, some 7⟩ (some ⟨45, 0⟩) (some []) []).2] ++ [.poll (some [exLogA])])) ['a'] :=
  (C113_stale_head_fails exLogA rfl [.poll (some [exLogA])] (by simp [Runs]) (by decide) toyEnv 10 1000 45 0 ⟨60, 80, 0, 0, some 7⟩ (by decide) (by decide) (by decide) (by decide) (by decide) (by decide) [] []).2

/-- The log moved to another address, with another merge delay: the goroutine keeps the old ones. -/
example : (Follow.init.run true [.poll (some [exLogA]), .poll (some [exLogA'])]).workers = [exLogA] := by decide
example : ∀ w ∈ (Follow.init.run true [.poll (some [exLogA]), .poll (some [exLogA'])]).workers, w.id = ['a'] → w = exLogA :=
  (C113_changed_fails true exLogA rfl [.poll (some [exLogA'])] (by simp [Runs]) (by decide)).2

example : exLogA ∈ (Follow.init.run true [.poll (some [exLogA]), .poll (some [exLogB]), .top 0, .top 1]).workers :=
  (C113_gone_fails true exLogA rfl [.poll (some [exLogB]), .top 0, .top 1] (by simp [Runs]) (by decide) ⟨by simp, by simp, by simp, by simp, trivial⟩).2

example : ((Follow.init.run true exFollowed).run true [.restart, .poll (some [exLogA', exLogB])]).workers = [exLogB, exLogA'] :=
  (C113_fresh true (Follow.init.run true exFollowed) [exLogA', exLogB] (by decide)).1

end Verif.Props
