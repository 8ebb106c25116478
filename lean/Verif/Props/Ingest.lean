import Verif.Lemmas.Ingest
/-! C22, C23, C24, C28, C30: the database thread, the whole of ct-fetch, the merge delay, enrolment, health. -/
namespace Verif.Props
open Verif Verif.Spec

/-! ### C22 -/

theorem append_split {α : Type} {xs p a b : List α} {e : α} (h : xs ++ p = a ++ e :: b) :
    (∃ c, xs = a ++ e :: c) ∨ (∃ a', a = xs ++ a' ∧ p = a' ++ e :: b) := by
  rcases List.append_eq_append_iff.1 h with ⟨a', h1, h2⟩ | ⟨c, h1, h2⟩
  · exact Or.inr ⟨a', h1, h2⟩
  · cases c with
    | nil =>
      simp at h1 h2
      exact Or.inr ⟨[], by simp [h1], h2.symm⟩
    | cons m c =>
      simp at h2
      obtain ⟨rfl, _⟩ := h2
      exact Or.inl ⟨c, h1⟩

theorem inserted_append (a b : List DbOp) : inserted (a ++ b) = inserted a ++ inserted b := by
  induction a with
  | nil => rfl
  | cons m a ih => cases m <;> simp [inserted, ih]

theorem inserted_saveOp (m : Msg) : inserted (saveOp m) = [] := by cases m <;> rfl

theorem tryAll_ok (q : List LogItem) (m : Msg) (as : List Attempt) : ∀ ops, tryAll q m as = (ops, true) → ∀ x ∈ q, x ∈ inserted ops := by
  induction as with
  | nil => intro ops h; simp [tryAll] at h
  | cons a as ih =>
    intro ops h x hx
    cases a with
    | storeFails taken =>
      simp only [tryAll, Prod.mk.injEq] at h
      rw [← h.1]
      simp [inserted, ih _ (Prod.ext rfl h.2) x hx]
    | saveFails wr =>
      simp only [tryAll, Prod.mk.injEq] at h
      rw [← h.1]
      simp [inserted, hx]
    | ok =>
      simp only [tryAll, Prod.mk.injEq] at h
      rw [← h.1]
      simp [inserted, hx]

theorem saveOp_split {m : Msg} {p b : List DbOp} {log : Text} {s : WState} (h : saveOp m = p ++ .save log s :: b) :
    m = .state log s ∧ p = [] := by
  cases m with
  | cert l i => simp [saveOp] at h
  | state l s' =>
    cases p with
    | nil => simp [saveOp] at h; obtain ⟨⟨rfl, rfl⟩, _⟩ := h; exact ⟨rfl, rfl⟩
    | cons x xs => simp [saveOp] at h

theorem tryAll_save (q : List LogItem) (m : Msg) (as : List Attempt) : ∀ p b log s, (tryAll q m as).1 = p ++ .save log s :: b →
    m = .state log s ∧ ∀ x ∈ q, x ∈ inserted p := by
  induction as with
  | nil => intro p b log s h; simp [tryAll] at h
  | cons a as ih =>
    intro p b log s h
    cases a with
    | storeFails taken =>
      simp only [tryAll] at h
      cases p with
      | nil => simp at h
      | cons o p =>
        simp at h
        obtain ⟨h1, h2⟩ := ih p b log s h.2
        exact ⟨h1, fun x hx => by rw [← h.1]; simp [inserted, h2 x hx]⟩
    | saveFails wr =>
      simp only [tryAll] at h
      cases p with
      | nil => simp at h
      | cons o p =>
        simp only [List.cons_append, List.cons.injEq] at h
        refine ⟨?_, fun x hx => by rw [← h.1]; simp [inserted, hx]⟩
        rcases append_split h.2 with ⟨c, hc⟩ | ⟨a', _, ha⟩
        · split at hc
          · exact (saveOp_split hc).1
          · simp at hc
        · exact (ih _ _ _ _ ha).1
    | ok =>
      simp only [tryAll] at h
      cases p with
      | nil => simp at h
      | cons o p =>
        simp only [List.cons_append, List.cons.injEq] at h
        exact ⟨(saveOp_split h.2).1, fun x hx => by rw [← h.1]; simp [inserted, hx]⟩

theorem consumer_save (batch : Nat) (msgs : List (Msg × List Attempt)) : ∀ q p b log s,
    consumer batch q msgs = p ++ .save log s :: b →
    ∃ pre as post, msgs = pre ++ (.state log s, as) :: post ∧ ∀ x, x ∈ q ∨ x ∈ certs (pre.map Prod.fst) → x ∈ inserted p := by
  induction msgs with
  | nil => intro q p b log s h; simp [consumer] at h
  | cons ma rest ih =>
    obtain ⟨m, as⟩ := ma
    have enq : ∀ q x, (x ∈ q ∨ x ∈ certs [m]) → x ∈ enqueue q m := by
      intro q x hx
      cases m with
      | cert l i => simpa [enqueue, certs] using hx
      | state l s => simpa [enqueue, certs] using hx
    intro q p b log s h
    unfold consumer at h
    split at h
    · obtain ⟨pre, as', post, h1, h2⟩ := ih _ p b log s h
      refine ⟨(m, as) :: pre, as', post, by rw [h1]; rfl, fun x hx => h2 x ?_⟩
      rw [List.map_cons, show ∀ l, m :: l = [m] ++ l from fun _ => rfl, certs_append, List.mem_append] at hx
      rcases hx with hx | hx | hx
      · exact Or.inl (enq q x (Or.inl hx))
      · exact Or.inl (enq q x (Or.inr hx))
      · exact Or.inr hx
    · split at h
      · rename_i ops ht
        rcases append_split h with ⟨c, hc⟩ | ⟨p', hp, hr⟩
        · obtain ⟨h1, h2⟩ := tryAll_save (enqueue q m) m as p c log s (by rw [ht]; exact hc)
          refine ⟨[], as, rest, by rw [h1]; rfl, fun x hx => h2 x (enq q x ?_)⟩
          rcases hx with hx | hx
          · exact Or.inl hx
          · simp [certs] at hx
        · obtain ⟨pre, as', post, h1, h2⟩ := ih [] p' b log s hr
          refine ⟨(m, as) :: pre, as', post, by rw [h1]; rfl, fun x hx => ?_⟩
          rw [hp, inserted_append, List.mem_append]
          rw [List.map_cons, show ∀ l, m :: l = [m] ++ l from fun _ => rfl, certs_append, List.mem_append] at hx
          have ins := tryAll_ok _ _ _ _ ht
          rcases hx with hx | hx | hx
          · exact Or.inl (ins x (enq q x (Or.inl hx)))
          · exact Or.inl (ins x (enq q x (Or.inr hx)))
          · exact Or.inr (h2 x (Or.inr hx))
      · rename_i ops ht
        obtain ⟨h1, h2⟩ := tryAll_save (enqueue q m) m as p b log s (by rw [ht]; exact h)
        refine ⟨[], as, rest, by rw [h1]; rfl, fun x hx => h2 x (enq q x ?_)⟩
        rcases hx with hx | hx
        · exact Or.inl hx
        · simp [certs] at hx

/-- **C22.** Cut the database's history at any point (`done`): if a log state has been written, then it was sent by a worker, and every certificate sent
before it had been written before it. For every sequence of messages, batch size, pattern of failed and partly executed database calls. -/
theorem C22_state_after_certificates (batch : Nat) (msgs : List (Msg × List Attempt)) (done : List DbOp)
    (hd : done <+: consumer batch [] msgs) (log : Text) (s : WState) (hs : .save log s ∈ done) :
    ∃ pre as post before after, msgs = pre ++ (.state log s, as) :: post ∧ done = before ++ .save log s :: after ∧
      ∀ l i, Msg.cert l i ∈ pre.map Prod.fst → (l, i) ∈ inserted before := by
  obtain ⟨before, after, hba⟩ := List.append_of_mem hs
  obtain ⟨more, hm⟩ := hd
  obtain ⟨pre, as, post, h1, h2⟩ := consumer_save batch msgs [] before (after ++ more) log s (by rw [← hm, hba]; simp)
  refine ⟨pre, as, post, before, after, h1, hba, fun l i hc => h2 (l, i) (Or.inr ?_)⟩
  generalize pre.map Prod.fst = ms at hc
  induction ms with
  | nil => cases hc
  | cons m ms ih =>
    rcases List.mem_cons.1 hc with h | h
    · rw [← h]; simp [certs]
    · cases m with
      | cert l' i' => simp [certs, ih h]
      | state l' s' => simp [certs, ih h]

/-- A run with a failed and a partly executed insertion, and a state that is saved at the third attempt. -/
def toyMsgs : List (Msg × List Attempt) :=
  [(.cert ['a'] ⟨[1], 100, [9], 50⟩, []), (.cert ['a'] ⟨[2], 100, [9], 51⟩, []),
   (.state ['a'] ⟨0, 4, 50, 51, some 10⟩, [.storeFails [(['a'], ⟨[2], 100, [9], 51⟩)], .saveFails false, .ok])]

example : .save ['a'] ⟨0, 4, 50, 51, some 10⟩ ∈ consumer 100 [] toyMsgs ∧ (consumer 100 [] toyMsgs).length = 4 := by decide

/-- **C22 (delivery).** If the database always accepts in the end, every state that was sent is written, and nothing sent before a state is lost. -/
theorem C22_all_delivered (batch : Nat) (pre : List (Msg × List Attempt)) (log : Text) (s : WState) (as : List Attempt)
    (post : List (Msg × List Attempt)) (hok : ∀ x ∈ pre ++ (.state log s, as) :: post, Attempt.ok ∈ x.2) (q : List LogItem) :
    ∃ before after, consumer batch q (pre ++ (.state log s, as) :: post) = before ++ .save log s :: after ∧
      ∀ x, x ∈ q ∨ x ∈ certs (pre.map Prod.fst) → x ∈ inserted before := by
  have succ : ∀ q m as, Attempt.ok ∈ as → ∃ ops, tryAll q m as = (ops, true) ∧
      (∀ log s, m = .state log s → ∃ before after, ops = before ++ .save log s :: after ∧ ∀ x ∈ q, x ∈ inserted before) := by
    intro q m as h
    induction as with
    | nil => cases h
    | cons a as ih =>
      cases a with
      | ok =>
        refine ⟨_, rfl, ?_⟩
        rintro log s rfl
        exact ⟨[.insert q], [], rfl, fun x hx => by simp [inserted, hx]⟩
      | storeFails taken =>
        obtain ⟨ops, h1, h2⟩ := ih (by simpa using h)
        refine ⟨.insert (q.filter (fun x => taken.contains x)) :: ops, by simp only [tryAll, h1], ?_⟩
        intro log s e
        obtain ⟨bf, af, h3, h4⟩ := h2 log s e
        exact ⟨.insert (q.filter (fun x => taken.contains x)) :: bf, af, by rw [h3]; rfl, fun x hx => by simp [inserted, h4 x hx]⟩
      | saveFails wr =>
        obtain ⟨ops, h1, h2⟩ := ih (by simpa using h)
        refine ⟨.insert q :: ((if wr then saveOp m else []) ++ ops), by simp only [tryAll, h1], ?_⟩
        intro log s e
        obtain ⟨bf, af, h3, h4⟩ := h2 log s e
        exact ⟨.insert q :: ((if wr then saveOp m else []) ++ bf), af, by rw [h3]; simp, fun x hx => by simp [inserted, hx]⟩
  induction pre generalizing q with
  | nil =>
    obtain ⟨ops, h1, h2⟩ := succ q (.state log s) as (hok (.state log s, as) (by simp))
    obtain ⟨bf, af, h3, h4⟩ := h2 log s rfl
    refine ⟨bf, af ++ consumer batch [] post, ?_, fun x hx => ?_⟩
    · rw [List.nil_append, consumer, if_neg (by simp [Msg.isState])]
      simp only [enqueue, h1, h3]
      simp
    · rcases hx with hx | hx
      · exact h4 x hx
      · simp [certs] at hx
  | cons ma pre ih =>
    obtain ⟨m, as'⟩ := ma
    have hok' := fun x hx => hok x (List.mem_cons_of_mem _ hx)
    have enq : ∀ x, (x ∈ q ∨ x ∈ certs [m]) → x ∈ enqueue q m := by
      intro x hx
      cases m with
      | cert l i => simpa [enqueue, certs] using hx
      | state l s => simpa [enqueue, certs] using hx
    have spl : ∀ x, x ∈ q ∨ x ∈ certs (((m, as') :: pre).map Prod.fst) → x ∈ enqueue q m ∨ x ∈ certs (pre.map Prod.fst) := by
      intro x hx
      rw [List.map_cons, show ∀ l, m :: l = [m] ++ l from fun _ => rfl, certs_append, List.mem_append] at hx
      rcases hx with hx | hx | hx
      · exact Or.inl (enq x (Or.inl hx))
      · exact Or.inl (enq x (Or.inr hx))
      · exact Or.inr hx
    rw [List.cons_append, consumer]
    split
    · obtain ⟨bf, af, h1, h2⟩ := ih hok' (enqueue q m)
      exact ⟨bf, af, h1, fun x hx => h2 x (spl x hx)⟩
    · obtain ⟨ops, h1, _⟩ := succ (enqueue q m) m as' (hok (m, as') (by simp))
      obtain ⟨bf, af, h3, h4⟩ := ih hok' []
      simp only [h1]
      refine ⟨ops ++ bf, af, by rw [h3]; simp, fun x hx => ?_⟩
      rw [inserted_append, List.mem_append]
      rcases spl x hx with h | h
      · exact Or.inl (tryAll_ok _ _ _ _ h1 x h)
      · exact Or.inr (h4 x (Or.inr h))

example : ∀ x ∈ [(Msg.cert ['a'] ⟨[1], 100, [9], 50⟩, [Attempt.saveFails true, .ok]), (.state ['a'] newLog, [.ok])], Attempt.ok ∈ x.2 := by decide

/-! ### C23 -/

/-- **C23.** The whole process from an empty database, with any number of concurrent workers for any logs, each starting from whatever state is saved at that
moment, any interleaving, failing database calls, cancellations and crashes: every entry claimed by a saved state of an RFC 6962 log was processed with a
permitted leaf, and the certificate it produced (if any) is in the database. -/
theorem C23_saved_states_are_true (w : World) (env : Env) (hH : ∀ x, (env.H x).length = 32) (acts : List Act)
    (ha : AllAllowed w env Sys.init acts) (log : Text) (hw : w.tiled log = false) (i : Nat)
    (hi : Claims ((Sys.init.run env acts).saved log) i) :
    ∃ input ts item, (log, Ev.entry i input ts item) ∈ (Sys.init.run env acts).seen ∧ w.G log i input ∧
      ∀ it, item = some it → (log, it) ∈ (Sys.init.run env acts).stored := by
  have h := (sysInv_run hH acts _ (sysInv_init w env) ha).saved log
  obtain ⟨x, y, z, m, g, f⟩ := h.acc i (by simpa [Claimed, hw] using hi)
  exact ⟨x, y, z, mem_eventsOf.1 m, g, f⟩

/-- **C23 (tiled logs, partial).** The same without entry 0, which is never fetched (`C25_tiled_fails`). -/
theorem C23_tiled_partial (w : World) (env : Env) (hH : ∀ x, (env.H x).length = 32) (acts : List Act)
    (ha : AllAllowed w env Sys.init acts) (log : Text) (hw : w.tiled log = true) (i : Nat) (h1 : 1 ≤ i)
    (h2 : i ≤ ((Sys.init.run env acts).saved log).maxEntry) :
    ∃ input ts item, (log, Ev.entry i input ts item) ∈ (Sys.init.run env acts).seen ∧ w.G log i input ∧
      ∀ it, item = some it → (log, it) ∈ (Sys.init.run env acts).stored := by
  have h := (sysInv_run hH acts _ (sysInv_init w env) ha).saved log
  obtain ⟨x, y, z, m, g, f⟩ := h.acc i (by simp [Claimed, hw, h1, h2])
  exact ⟨x, y, z, mem_eventsOf.1 m, g, f⟩

/-- The log says nothing false about itself. -/
def openWorld : World :=
  { tiled := fun l => decide (l = ['b']), G := fun _ _ _ => True, L := fun _ _ => True, TL := fun _ _ => True, T := fun _ _ => True }

/-- Two workers for the same RFC 6962 log started from the same (then stale) state and one for a tiled log, interleaved, with a failing database. -/
def toyActs : List Act :=
  [.start ['a'] 10 1000 (some ⟨5, 60⟩) (some toyProof) toyAnswers, .start ['a'] 10 1000 (some ⟨5, 60⟩) (some toyProof) toyAnswers,
   .startTiled ['b'] 10 1000 (some ⟨3, 60⟩) [toyTEntry, toyTEntry] [] false false,
   .emit 0, .emit 1, .emit 2, .emit 0, .emit 0, .emit 0, .emit 0, .emit 0, .emit 0, .emit 0, .emit 0, .emit 2, .emit 2] ++
  (List.replicate 11 (.receive 100)).flatMap (fun a => [a, .storeFails [], .storeOk, .saveFails false, .storeOk, .saveOk]) ++
  [.crash, .start ['a'] 10 1000 (some ⟨5, 60⟩) (some toyProof) toyAnswers]

theorem toyActs_result : (Sys.init.run toyEnv toyActs).saved ['a'] = ⟨0, 4, 50, 50, some 1000⟩ := by decide +kernel

/-- Actions that do not start a job. -/
def Quiet : Act → Bool
  | .start .. => false
  | .startTiled .. => false
  | _ => true

theorem toyActs_allowed : AllAllowed openWorld toyEnv Sys.init toyActs := by
  have new : ∀ s : WState, s = newLog ∨ s.lastUpdate ≠ none → Sane s (some ⟨5, 60⟩) := by
    intro s hs h e
    cases e
    refine ⟨by decide, fun hn => ?_⟩
    rcases hs with rfl | hs
    · decide
    · exact absurd hn hs
  have triv : ∀ (acts : List Act) (y : Sys), acts.all Quiet = true → AllAllowed openWorld toyEnv y acts := by
    intro acts
    induction acts with
    | nil => intro y _; trivial
    | cons x acts ih =>
      intro y h
      simp only [List.all_cons, Bool.and_eq_true] at h
      refine ⟨?_, ih _ h.2⟩
      cases x <;> first | trivial | simp [Quiet] at h
  have app : ∀ (a b : List Act) (y : Sys), AllAllowed openWorld toyEnv y a → AllAllowed openWorld toyEnv (y.run toyEnv a) b →
      AllAllowed openWorld toyEnv y (a ++ b) := by
    intro a
    induction a with
    | nil => intro b y _ h; exact h
    | cons x a ih => intro b y h1 h2; exact ⟨h1.1, ih b _ h1.2 h2⟩
  have leaves : ∀ s, JobLeaves toyEnv.H (openWorld.G ['a']) s 10 1000 (some ⟨5, 60⟩) (some toyProof) toyAnswers := by
    intro s; intro h r p _ _ _ bf us _ t _ xs _ _ _ k x _; trivial
  unfold toyActs
  apply app
  · apply app
    · refine ⟨⟨rfl, new _ (Or.inl rfl), fun _ _ => trivial, fun _ _ => trivial, leaves _⟩,
        ⟨rfl, new _ (Or.inl rfl), fun _ _ => trivial, fun _ _ => trivial, leaves _⟩,
        ⟨rfl, fun _ _ => trivial, fun _ _ => trivial, fun _ _ _ => trivial, fun _ _ _ => trivial⟩, ?_⟩
      exact triv _ _ (by decide)
    · exact triv _ _ (by decide)
  · refine ⟨trivial, ⟨rfl, new _ (Or.inr ?_), fun _ _ => trivial, fun _ _ => trivial, leaves _⟩, trivial⟩
    show ((Sys.init.run toyEnv _).step toyEnv .crash).saved ['a'] |>.lastUpdate |> (· ≠ none)
    simp only [Sys.step]
    decide +kernel

example : ∃ acts i, AllAllowed openWorld toyEnv Sys.init acts ∧ Claims ((Sys.init.run toyEnv acts).saved ['a']) i :=
  ⟨toyActs, 3, toyActs_allowed, by rw [toyActs_result]; exact ⟨by simp, by decide, by decide⟩⟩

/-! ### C24 -/

/-- A log of (eventually) `N` entries that honours its maximum merge delay: entry `i` carries timestamp `ts i` and became part of the tree at `merged i`. -/
structure MergeDelay (N mmd : Nat) (ts merged : Nat → Nat) : Prop where
  order : ∀ i j, i ≤ j → j < N → merged i ≤ merged j
  promise : ∀ i, i < N → merged i ≤ ts i + mmd
  past : ∀ i, i < N → ts i ≤ merged i

/-- What is assumed of the world for one log: leaves carry their timestamps, position `i` holds a leaf with timestamp `ts i`, and a tree head
includes everything merged by its timestamp. -/
structure HonestTimes (w : World) (env : Env) (log : Text) (N : Nat) (ts merged : Nat → Nat) (tsOf : Bytes → Nat) : Prop where
  parse : ∀ x y e, env.parse x y = some e → e.timestamp = tsOf x
  tiled : ∀ te, w.TL log te → te.timestamp = tsOf te.input
  leaf : ∀ i x, w.G log i x → i < N ∧ tsOf x = ts i
  head : ∀ h, w.T log h → ∀ i, i < N → merged i ≤ h.timestamp → i < h.treeSize

/-- The maximum timestamp of a saved state is attained. -/
theorem saved_attained (w : World) (env : Env) (hH : ∀ x, (env.H x).length = 32) (acts : List Act) (ha : AllAllowed w env Sys.init acts)
    (log : Text) (hl : ((Sys.init.run env acts).saved log).lastUpdate ≠ none) :
    Attained (w.T log) (w.G log) (eventsOf log (Sys.init.run env acts).seen) ((Sys.init.run env acts).saved log) := by
  have h := (sysInv_run hH acts _ (sysInv_init w env) ha).saved log
  cases hw : w.tiled log with
  | true => exact h.att hw
  | false => exact Or.inr (h.ts hw hl).2.2

/-- A recorded event has the timestamp of its leaf. -/
theorem seen_timestamp (w : World) (env : Env) (hH : ∀ x, (env.H x).length = 32) (acts : List Act) (ha : AllAllowed w env Sys.init acts)
    (log : Text) (tsOf : Bytes → Nat) (h1 : ∀ x y e, env.parse x y = some e → e.timestamp = tsOf x)
    (h2 : ∀ te, w.TL log te → te.timestamp = tsOf te.input) (i t : Nat) (x : Bytes) (item : Option Item)
    (hm : (log, Ev.entry i x t item) ∈ (Sys.init.run env acts).seen) : t = tsOf x := by
  rcases (sysInv_run hH acts _ (sysInv_init w env) ha).seen log _ hm with ⟨s, h⟩ | ⟨_, l, _, ⟨e, he, _⟩, pos, hp⟩ | ⟨_, te, hte, pos, _, _, hp⟩
  · cases h
  · unfold leafEvent at hp
    rw [he] at hp
    simp only [Ev.entry.injEq] at hp
    obtain ⟨_, h3, h4, _⟩ := hp
    rw [← h3, ← h4]
    exact h1 _ _ _ he
  · simp only [Ev.entry.injEq] at hp
    obtain ⟨_, h3, h4, _⟩ := hp
    rw [h3, h4]
    exact h2 te hte

/-- **C24 (partial).** For every run of ct-fetch against a log that honours its merge delay: an entry whose timestamp lies strictly before the newest recorded
timestamp minus the delay has an index not above the newest recorded entry. Missing: the entry whose timestamp equals the cutoff, see
`C24_boundary_fails`. -/
theorem C24_before_cutoff_partial (w : World) (env : Env) (hH : ∀ x, (env.H x).length = 32) (acts : List Act)
    (ha : AllAllowed w env Sys.init acts) (log : Text) (N mmd : Nat) (ts merged : Nat → Nat) (tsOf : Bytes → Nat)
    (hd : MergeDelay N mmd ts merged) (ht : HonestTimes w env log N ts merged tsOf)
    (hl : ((Sys.init.run env acts).saved log).lastUpdate ≠ none) (x : Nat) (hx : x < N)
    (hc : ts x + mmd < ((Sys.init.run env acts).saved log).maxTs) : x ≤ ((Sys.init.run env acts).saved log).maxEntry := by
  have hp := hd.promise x hx
  rcases saved_attained w env hH acts ha log hl with h | ⟨h, h1, h2, h3⟩ | ⟨j, y, item, h1, h2, h3⟩
  · omega
  · have := ht.head h h1 x hx (by omega)
    omega
  · obtain ⟨hj, hjt⟩ := ht.leaf j y h2
    have h4 := seen_timestamp w env hH acts ha log tsOf ht.parse ht.tiled _ _ _ _ (mem_eventsOf.1 h3)
    have := hd.past j hj
    rcases Nat.lt_or_ge j x with hlt | hge
    · have := hd.order j x (by omega) hx
      omega
    · omega

/-- **C24 (whole log, partial).** Once backfilling has reached entry 0 of an RFC 6962 log, every entry strictly before the cutoff has been processed and its
certificate stored. -/
theorem C24_complete_log_partial (w : World) (env : Env) (hH : ∀ x, (env.H x).length = 32) (acts : List Act)
    (ha : AllAllowed w env Sys.init acts) (log : Text) (hw : w.tiled log = false) (N mmd : Nat) (ts merged : Nat → Nat) (tsOf : Bytes → Nat)
    (hd : MergeDelay N mmd ts merged) (ht : HonestTimes w env log N ts merged tsOf)
    (hl : ((Sys.init.run env acts).saved log).lastUpdate ≠ none) (h0 : ((Sys.init.run env acts).saved log).minEntry = 0) (x : Nat) (hx : x < N)
    (hc : ts x + mmd < ((Sys.init.run env acts).saved log).maxTs) :
    ∃ input t item, (log, Ev.entry x input t item) ∈ (Sys.init.run env acts).seen ∧ w.G log x input ∧
      ∀ it, item = some it → (log, it) ∈ (Sys.init.run env acts).stored :=
  C23_saved_states_are_true w env hH acts ha log hw x
    ⟨hl, by omega, C24_before_cutoff_partial w env hH acts ha log N mmd ts merged tsOf hd ht hl x hx hc⟩

/-- Timestamps and merge times of an eight-entry log with merge delay 20. -/
def tsList : List Nat := [10, 20, 30, 95, 90, 100, 100, 200]
def mergedList : List Nat := [10, 20, 30, 100, 100, 100, 100, 200]
def tsAt (l : List Nat) (i : Nat) : Nat := (l[i]?).getD 0
def tsLeaves : List Bytes := tsList.map (fun t => [UInt8.ofNat t])

/-- Leaves of that log are one byte, the timestamp. -/
def tsEnv : Env :=
  { H := toyHash, parse := fun x _ => some ⟨(x.head?.getD 0).toNat, false, some toyCert, [some toyCert]⟩, keepExpired := false }

theorem ts_mergeDelay : MergeDelay 8 20 (tsAt tsList) (tsAt mergedList) := by
  constructor
  · intro i j hij hj
    have key : ∀ j : Fin 8, ∀ i : Fin 8, i.1 ≤ j.1 → tsAt mergedList i ≤ tsAt mergedList j := by decide
    exact key ⟨j, hj⟩ ⟨i, by omega⟩ hij
  · intro i hi
    have key : ∀ i : Fin 8, tsAt mergedList i ≤ tsAt tsList i + 20 := by decide
    exact key ⟨i, hi⟩
  · intro i hi
    have key : ∀ i : Fin 8, tsAt tsList i ≤ tsAt mergedList i := by decide
    exact key ⟨i, hi⟩

/-- The world of that log. -/
def tsWorld : World :=
  { tiled := fun _ => false, G := fun _ i x => tsLeaves[i]? = some x, L := fun _ _ => True, TL := fun _ _ => False,
    T := fun _ h => h.treeSize = 8 ∧ h.timestamp = 200 }

theorem ts_honest (log : Text) : HonestTimes tsWorld tsEnv log 8 (tsAt tsList) (tsAt mergedList) (fun x => (x.head?.getD 0).toNat) := by
  refine ⟨?_, fun _ h => h.elim, ?_, ?_⟩
  · intro x y e h; cases h; rfl
  · intro i x h
    have hi : i < 8 := by
      have := (List.getElem?_eq_some_iff.1 h).1
      simpa [tsLeaves, tsList] using this
    refine ⟨hi, ?_⟩
    have key : ∀ i : Fin 8, ∀ x, tsLeaves[i.1]? = some x → (x.head?.getD 0).toNat = tsAt tsList i := by
      intro i
      match i with
      | ⟨0, _⟩ | ⟨1, _⟩ | ⟨2, _⟩ | ⟨3, _⟩ | ⟨4, _⟩ | ⟨5, _⟩ | ⟨6, _⟩ | ⟨7, _⟩ => intro x h; cases h; rfl
    exact key ⟨i, hi⟩ x h
  · intro h hh i hi _
    rw [hh.1]; exact hi

/-- A run in that world: one job, whose state is saved. -/
def tsServed : List Resp := [.entries ((tsLeaves.drop 4).map (fun x => ⟨x, [], 1⟩))]
def tsProof : List Bytes := honestProof toyHash tsLeaves (proofOldSize 4) 8
def tsActs : List Act :=
  .start ['a'] 4 1000 (some ⟨8, 200⟩) (some tsProof) tsServed ::
    ([.emit 0, .emit 0, .emit 0, .emit 0, .emit 0] ++ (List.replicate 5 (.receive 100)).flatMap (fun a => [a, .storeOk, .saveOk]))

theorem tsActs_result : (Sys.init.run tsEnv tsActs).saved ['a'] = ⟨4, 7, 90, 200, some 1000⟩ := by decide +kernel

theorem tsActs_allowed : AllAllowed tsWorld tsEnv Sys.init tsActs := by
  have triv : ∀ (acts : List Act) (y : Sys), acts.all Quiet = true → AllAllowed tsWorld tsEnv y acts := by
    intro acts
    induction acts with
    | nil => intro y _; trivial
    | cons x acts ih =>
      intro y h
      simp only [List.all_cons, Bool.and_eq_true] at h
      refine ⟨?_, ih _ h.2⟩
      cases x <;> first | trivial | simp [Quiet] at h
  refine ⟨⟨rfl, sane_new 8 200 (by decide) (by decide), ?_, fun _ _ => trivial, ?_⟩, triv _ _ (by decide)⟩
  · intro h e; cases e; exact ⟨rfl, rfl⟩
  · intro h r p e1 e2 e3 bf us hus t ht xs hsub hlen hroot k x hx
    cases e1
    cases e3
    have hr : r = (4, 7) := by
      have : jobRange 4 newLog 8 (chooseTask 4 1000 newLog (some ⟨8, 200⟩)) = some (4, 7) := by decide
      exact Option.some.inj (e2.symm.trans this)
    subst hr
    have hu : jobSubtrees bf 4 7 tsProof = some [⟨mth toyHash (tsLeaves.drop 4), 4, 7⟩] := by
      cases bf <;> decide +kernel
    have hu2 : us = [⟨mth toyHash (tsLeaves.drop 4), 4, 7⟩] := Option.some.inj (hus.symm.trans hu)
    rw [hu2] at ht
    simp only [List.mem_singleton] at ht
    subst ht
    have hserved : servedInputs tsServed = tsLeaves.drop 4 := by decide
    rw [hserved] at hsub
    have hxs : xs = tsLeaves.drop 4 := hsub.eq_of_length (by rw [hlen]; decide)
    rw [hxs, List.getElem?_drop] at hx
    exact hx

example : ∃ x, x < 8 ∧ tsAt tsList x + 20 < ((Sys.init.run tsEnv tsActs).saved ['a']).maxTs ∧
    ((Sys.init.run tsEnv tsActs).saved ['a']).lastUpdate ≠ none ∧ AllAllowed tsWorld tsEnv Sys.init tsActs ∧
    HonestTimes tsWorld tsEnv ['a'] 8 (tsAt tsList) (tsAt mergedList) (fun x => (x.head?.getD 0).toNat) :=
  ⟨4, by decide, by rw [tsActs_result]; decide, by rw [tsActs_result]; decide, tsActs_allowed, ts_honest ['a']⟩

/-- **C24 fails (boundary).** Entry 3 of a tiled log that honours its merge delay of 10 has a timestamp equal to the recorded maximum minus the delay, which
the code counts as covered, and is not among the entries up to the recorded `MaxEntry`. -/
theorem C24_boundary_fails : ∃ (ts merged : Nat → Nat) (es : List TEntry) (s : WState), MergeDelay 4 10 ts merged ∧
    (∀ k e, es[k]? = some e → e.timestamp = ts (k + 1)) ∧
    .state s ∈ runTiled false 2 1000 newLog (some ⟨4, 100⟩) es [] false false ∧ ts 3 ≤ s.maxTs - 10 ∧ s.maxEntry < 3 := by
  refine ⟨tsAt [95, 95, 100, 90], tsAt [100, 100, 100, 100], [⟨[7], 95, false, some toyCert, [.cert toyCert], 10⟩,
    ⟨[7], 100, false, some toyCert, [.cert toyCert], 10⟩, ⟨[7], 90, false, some toyCert, [.cert toyCert], 10⟩], ⟨0, 2, 0, 100, some 1000⟩, ⟨?_, ?_, ?_⟩, ?_, ?_, ?_, ?_⟩
  · intro i j hij hj
    have key : ∀ j : Fin 4, ∀ i : Fin 4, i.1 ≤ j.1 → tsAt [100, 100, 100, 100] i ≤ tsAt [100, 100, 100, 100] j := by decide
    exact key ⟨j, hj⟩ ⟨i, by omega⟩ hij
  · intro i hi
    have key : ∀ i : Fin 4, tsAt [100, 100, 100, 100] i ≤ tsAt [95, 95, 100, 90] i + 10 := by decide
    exact key ⟨i, hi⟩
  · intro i hi
    have key : ∀ i : Fin 4, tsAt [95, 95, 100, 90] i ≤ tsAt [100, 100, 100, 100] i := by decide
    exact key ⟨i, hi⟩
  · intro k e h
    match k with
    | 0 | 1 | 2 => cases h; rfl
    | k + 3 => simp at h
  · decide
  · decide
  · decide

/-- **C24 fails (lower edge).** While a log is being backfilled, the recorded interval from the minimum timestamp to the cutoff can contain an entry that has
not been downloaded: here entry 3, below `MinEntry`, of a log that honours its merge delay of 20. -/
theorem C24_lower_edge_fails : ∃ s, MergeDelay 8 20 (tsAt tsList) (tsAt mergedList) ∧
    .state s ∈ runWorker tsEnv 4 1000 newLog (some ⟨8, 200⟩) (some (honestProof toyHash tsLeaves (proofOldSize 4) 8))
      [.entries ((tsLeaves.drop 4).map (fun x => ⟨x, [], 1⟩))] ∧
    s.minTs ≤ tsAt tsList 3 ∧ tsAt tsList 3 ≤ s.maxTs - 20 ∧ 3 < s.minEntry :=
  ⟨⟨4, 7, 90, 200, some 1000⟩, ts_mergeDelay, by decide +kernel, by decide, by decide, by decide⟩

/-! ### C28 -/

/-- **C28.** Enrolling an already enrolled log changes nothing; enrolling another one starts exactly one worker, for that log; nothing else ever starts one. -/
theorem C28_one_start_per_enrolment (e : Enrolment) (log : Text) :
    (log ∈ e.enrolled → e.step (.enroll log) = e) ∧
    (log ∉ e.enrolled → (e.step (.enroll log)).running = log :: e.running ∧ log ∈ (e.step (.enroll log)).enrolled) ∧
    (∀ act, (∀ l, act ≠ .enroll l) → (e.step act).running.Sublist e.running) ∧
    log ∉ (e.step (.unenroll log)).enrolled := by
  refine ⟨fun h => by simp [Enrolment.step, h], fun h => by simp [Enrolment.step, h], fun act h => ?_, by simp [Enrolment.step]⟩
  cases act with
  | enroll l => exact absurd rfl (h l)
  | unenroll l => exact List.Sublist.refl _
  | check k =>
    simp only [Enrolment.step]
    split
    · split
      · exact List.Sublist.refl _
      · exact List.eraseIdx_sublist ..
    · exact List.Sublist.refl _
  | fail k => exact List.eraseIdx_sublist ..

/-- How often a log was enrolled while a worker for it was still running. -/
def overlaps (log : Text) : Enrolment → List EnrolAct → Nat
  | _, [] => 0
  | e, act :: acts =>
    (match act with
      | .enroll l => if l = log ∧ l ∉ e.enrolled ∧ l ∈ e.running then 1 else 0
      | _ => 0) + overlaps log (e.step act) acts

/-- **C28 (how many, partial).** After any sequence of enrolments, withdrawals, checks and failures, the number of workers of a log is at most one plus the number of
times it was enrolled again before its previous worker had noticed the withdrawal. In particular it is at most one if that never happens. What is
missing for "at most one" is the code for that case: see `C28_two_workers_fails`. -/
theorem C28_workers_partial (acts : List EnrolAct) (log : Text) :
    ((Enrolment.init.run acts).running.count log) ≤ 1 + overlaps log Enrolment.init acts := by
  have strong : ∀ (acts : List EnrolAct) (e : Enrolment) (n : Nat), (e.running.count log ≤ 1 + n) →
      ((e.run acts).running.count log) ≤ 1 + n + overlaps log e acts := by
    intro acts
    induction acts with
    | nil => intro e n h; simpa [Enrolment.run, overlaps] using h
    | cons act acts ih =>
      intro e n h
      by_cases hen : ∃ l, act = .enroll l
      · obtain ⟨l, rfl⟩ := hen
        simp only [overlaps]
        by_cases hcase : l = log ∧ l ∉ e.enrolled ∧ l ∈ e.running
        · rw [if_pos hcase]
          have := ih (e.step (.enroll l)) (n + 1) (by
            obtain ⟨rfl, h1, _⟩ := hcase
            simp only [Enrolment.step, if_neg h1, List.count_cons_self]
            omega)
          simp only [Enrolment.run, List.foldl_cons] at this ⊢
          omega
        · rw [if_neg hcase]
          have := ih (e.step (.enroll l)) n (by
            by_cases h1 : l ∈ e.enrolled
            · simpa [Enrolment.step, h1] using h
            · simp only [Enrolment.step, if_neg h1, List.count_cons]
              split
              · rename_i h2
                have h2 : l = log := by simpa using h2
                have : log ∉ e.running := fun h3 => hcase ⟨h2, h1, by rw [h2]; exact h3⟩
                rw [List.count_eq_zero_of_not_mem this]
                omega
              · omega)
          simp only [Enrolment.run, List.foldl_cons] at this ⊢
          omega
      · have hs := (C28_one_start_per_enrolment e log).2.2.1 act (fun l hl => hen ⟨l, hl⟩)
        have := ih (e.step act) n (Nat.le_trans (hs.count_le _) h)
        have ho : overlaps log e (act :: acts) = overlaps log (e.step act) acts := by
          cases act with
          | enroll l => exact absurd ⟨l, rfl⟩ hen
          | unenroll l => simp [overlaps]
          | check k => simp [overlaps]
          | fail k => simp [overlaps]
        rw [ho]
        simpa only [Enrolment.run, List.foldl_cons] using this
  have := strong acts Enrolment.init 0 (by simp [Enrolment.init])
  simpa using this

example : overlaps ['a'] Enrolment.init [.enroll ['a'], .unenroll ['a'], .check 0, .enroll ['a'], .enroll ['a']] = 0 := by decide

/-- **C28 fails.** A log that is withdrawn and enrolled again while its worker is busy with a job has two workers from then on. -/
theorem C28_two_workers_fails : ∃ acts, (Enrolment.init.run acts).running.count ['a'] = 2 ∧
    ∀ k, ((Enrolment.init.run acts).step (.check k)).running.count ['a'] = 2 := by
  refine ⟨[.enroll ['a'], .unenroll ['a'], .enroll ['a']], by decide, ?_⟩
  intro k
  match k with
  | 0 => decide
  | 1 => decide
  | k + 2 => rfl

/-! ### C30 -/

/-- **C30 (partial).** With a polling delay of less than 2^32 seconds: 503 exactly when no worker ever registered, 200 exactly when the last registration is at most
twice the polling delay ago, 500 exactly when it is longer ago. -/
theorem C30_status_partial (pd : Nat) (hp : pd < 2 ^ 32) (updates : List (Text × Int)) (now : Int) :
    (health pd (lastUpdateTime updates) now = 503 ↔ updates = []) ∧
    (health pd (lastUpdateTime updates) now = 200 ↔
      ∃ before w t, updates = before ++ [(w, t)] ∧ now ≤ t + 2 * (pd : Int) * 1000000000) ∧
    (health pd (lastUpdateTime updates) now = 500 ↔
      ∃ before w t, updates = before ++ [(w, t)] ∧ t + 2 * (pd : Int) * 1000000000 < now) := by
  have e1 : asInt64 (pd : Int) = pd := by unfold asInt64; omega
  have e2 : asInt64 (2 * (pd : Int) * 1000000000) = 2 * (pd : Int) * 1000000000 := by unfold asInt64; omega
  rcases List.eq_nil_or_concat updates with rfl | ⟨before, ⟨w, t⟩, rfl⟩
  · simp [lastUpdateTime, health]
  · have hl : lastUpdateTime (before.concat (w, t)) = some t := by simp [lastUpdateTime]
    have uniq : ∀ P : Int → Prop, (∃ b w' t', before.concat (w, t) = b ++ [(w', t')] ∧ P t') ↔ P t := by
      intro P
      constructor
      · rintro ⟨b, w', t', h, hP⟩
        rw [List.concat_eq_append] at h
        obtain ⟨_, h2⟩ := List.append_inj' h rfl
        simp at h2
        rw [h2.2]; exact hP
      · intro h; exact ⟨before, w, t, by simp, h⟩
    rw [hl, uniq (fun t => now ≤ t + 2 * (pd : Int) * 1000000000), uniq (fun t => t + 2 * (pd : Int) * 1000000000 < now)]
    simp only [health, e1, e2]
    split
    · simp; omega
    · simp; omega

example : health 600 (lastUpdateTime [(['a'], 5), (['b'], 1000000000000)]) 1500000000000 = 200 := by decide

/-- **C30 fails (title).** "Every worker reported recently" is not what is checked: one worker that registers now hides any number of workers whose last
registration is arbitrarily long ago. -/
theorem C30_silent_worker_fails (pd : Nat) (hp : pd < 2 ^ 32) (others : List (Text × Int)) (w : Text) (now : Int) :
    health pd (lastUpdateTime (others ++ [(w, now)])) now = 200 :=
  ((C30_status_partial pd hp _ now).2.1).2 ⟨others, w, now, rfl, by omega⟩

/-- **C30 fails (huge delay).** A polling delay of 2^33 seconds overflows the duration, and the endpoint reports failure right after an update. -/
theorem C30_huge_delay_fails (now : Int) : health (2 ^ 33) (some now) now = 500 := by
  have e : asInt64 (2 * asInt64 ((2 ^ 33 : Nat) : Int) * 1000000000) = -1266874889709551616 := by decide
  simp only [health, e]
  rw [if_pos (by omega)]

/-! ### each theorem applied -/

example := C23_saved_states_are_true openWorld toyEnv length_toyHash toyActs toyActs_allowed ['a'] rfl 3 (by rw [toyActs_result]; exact ⟨by simp, by decide, by decide⟩)
example : 4 ≤ ((Sys.init.run tsEnv tsActs).saved ['a']).maxEntry :=
  C24_before_cutoff_partial tsWorld tsEnv length_toyHash tsActs tsActs_allowed ['a'] 8 20 (tsAt tsList) (tsAt mergedList) (fun x => (x.head?.getD 0).toNat) ts_mergeDelay (ts_honest ['a'])
    (by rw [tsActs_result]; decide) 4 (by decide) (by rw [tsActs_result]; decide)
example := C30_silent_worker_fails 600 (by decide) [(['a'], 5), (['b'], 7)] ['c'] 1000000000000

end Verif.Props
