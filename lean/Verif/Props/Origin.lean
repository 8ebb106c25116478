import Verif.Props.Flow
/-!
Property C93: every known certificate was served by a log.
-/
namespace Verif.Props
open Verif.Spec

/-! ### specification -/

/-- In the steps `acts`, a log answered with an entry that carries the certificate with serial `s` and expiry `na`, whose chain names an issuer whose key has digest `d`. -/
def Spec.ServedCert (H : Bytes → Bytes) (env : Env) (acts : List WAct) (d : Bytes) (s : Serial) (na : Nat) : Prop :=
  (∃ log batch now sth proof rs, WAct.fetch (.start log batch now sth proof rs) ∈ acts ∧ ∃ l ∈ servedLeaves rs, ∃ e, env.parse l.input l.extra = some e ∧
    ∃ c p, e.cert = some c ∧ c.serial = s ∧ c.notAfter = na ∧ Spec.ChainIssuer e.chain p ∧ H p.key = d) ∨
  ∃ log batch now sth es1 es2 e1 e2, WAct.fetch (.startTiled log batch now sth es1 es2 e1 e2) ∈ acts ∧ ∃ te ∈ es1 ++ es2,
    ∃ c p, te.cert = some c ∧ c.serial = s ∧ c.notAfter = na ∧ Spec.FetchedIssuer te.chain p ∧ H p.key = d

/-- `file` reads nothing but the files of `db`. -/
def Spec.OnlyStorage (db : Db) (file : Text → Text → Option Text) : Prop :=
  ∀ i e t, file i e = some t → ∃ b, b.issuer = i ∧ (newExpDateFromTime b.unix).id = e ∧ db.files b = some t

/-! ### storage holds only what was inserted -/

/-- A reader gets back what was written, or an error. -/
theorem read_exact (u : Int) (serials l : List Serial) (h : readSerialsFromStorage u (some (writeSerialList u serials)) = .ok l) : l = serials := by
  unfold readSerialsFromStorage scanLines at h
  simp only [splitLines_writeSerialList] at h
  split at h
  · cases h
  · rename_i heq
    split at heq <;> cases heq
  · rename_i a ls heq
    split at heq
    · cases heq
    · rw [Option.some.injEq, List.cons.injEq] at heq
      obtain ⟨rfl, rfl⟩ := heq
      rw [if_neg (fun h => h rfl), decodeLines_map] at h
      cases h
      rfl

/-- A member with this serial was inserted into this bin. -/
def FromEver (ever : List Cached) (b : Bin) (s : Serial) : Prop := ∃ m, (b, m) ∈ ever ∧ asSerial m = s

def StageFrom (ever : List Cached) (b : Bin) : Stage → Prop
  | .scanning need => ∀ x ∈ need, (b, x) ∈ ever
  | .listed es => ∀ x ∈ es, (b, x) ∈ ever
  | .haveRead es l => (∀ x ∈ es, (b, x) ∈ ever) ∧ ∀ s ∈ l, FromEver ever b s
  | _ => True

structure Sourced (db : Db) : Prop where
  sets : ∀ p ∈ db.sets, p ∈ db.ever
  files : ∀ b t, db.files b = some t → ∃ l, t = writeSerialList b.unix l ∧ ∀ s ∈ l, FromEver db.ever b s
  jobs : ∀ e ss seen todo jobs, db.phase = .moving e ss seen todo jobs → ∀ j ∈ jobs, StageFrom db.ever j.bin j.stage

theorem sourced_phase {db : Db} (h : Sourced db) (p : CPhase) (hp : ∀ e ss seen todo jobs, p = .moving e ss seen todo jobs → ∀ j ∈ jobs, StageFrom db.ever j.bin j.stage) :
    Sourced { db with phase := p } := ⟨h.sets, h.files, fun e ss seen todo jobs he => hp e ss seen todo jobs he⟩

theorem sourced_set {db : Db} (h : Sourced db) {e : Nat} {ss : List CTLogState} {seen : List Cached} {todo : List Bin} {jobs : List Job}
    (hp : db.phase = .moving e ss seen todo jobs) (k : Nat) (b : Bin) (st : Stage) (hst : StageFrom db.ever b st) :
    Sourced { db with phase := .moving e ss seen todo (setStage jobs k b st) } := by
  refine sourced_phase h _ (fun e' ss' seen' todo' jobs' he j hj => ?_)
  cases he
  rcases List.mem_or_eq_of_mem_set hj with hj | rfl
  · exact h.jobs _ _ _ _ _ hp j hj
  · exact hst

theorem sourced_read {db : Db} (h : Sourced db) (b : Bin) (l : List Serial) (hr : readSerialsFromStorage b.unix (db.files b) = .ok l) : ∀ s ∈ l, FromEver db.ever b s := by
  intro s hs
  cases hf : db.files b with
  | none => rw [hf] at hr; cases hr; cases hs
  | some t =>
    obtain ⟨l', rfl, hl'⟩ := h.files b t hf
    rw [hf] at hr
    rw [read_exact _ _ _ hr] at hs
    exact hl' s hs

theorem sourced_jobStep {db : Db} {e : Nat} {ss : List CTLogState} {seen : List Cached} {todo : List Bin} {jobs : List Job} (h : Sourced db)
    (hp : db.phase = .moving e ss seen todo jobs) (a : CAct) : Sourced (db.jobStep e ss seen todo jobs a) := by
  have hmem : ∀ b x, x ∈ db.members b → (b, x) ∈ db.ever := fun b x hx => h.sets _ (mem_members.1 hx)
  unfold Db.jobStep
  split
  · split
    · refine sourced_phase h _ (fun e' ss' seen' todo' jobs' he j hj => ?_)
      cases he
      rcases List.mem_append.1 hj with hj | hj
      · exact h.jobs _ _ _ _ _ hp j hj
      · rw [List.mem_singleton.1 hj]
        exact hmem _
    · exact h
  · split
    · rename_i hj
      split
      · rename_i hc
        split
        · exact sourced_set h hp _ _ _ trivial
        · refine sourced_set h hp _ _ _ (fun x hx => ?_)
          rcases hc.2 x hx with hx | hx
          · exact h.jobs _ _ _ _ _ hp _ (List.mem_of_getElem? hj) x hx
          · exact hmem _ x hx
      · exact h
    · exact h
  · split
    · rename_i hj
      split
      · exact sourced_set h hp _ _ _ trivial
      · rename_i hr
        exact sourced_set h hp _ _ _ ⟨h.jobs _ _ _ _ _ hp _ (List.mem_of_getElem? hj), sourced_read h _ _ hr⟩
    · exact h
  · split
    · rename_i b es l hj
      obtain ⟨q1, q2⟩ := h.jobs _ _ _ _ _ hp _ (List.mem_of_getElem? hj)
      refine ⟨h.sets, fun b' t ht => ?_, (sourced_set h hp _ b (.wrote (coveredOf ss es)) trivial).jobs⟩
      dsimp only at ht
      split at ht
      · rename_i hb
        subst hb
        refine ⟨_, (Option.some.inj ht).symm, fun s hs => ?_⟩
        rcases (mem_moved _ _ _ _).1 hs with hs | ⟨m, hm, _, rfl⟩
        · exact q2 s hs
        · exact ⟨m, q1 m hm, rfl⟩
      · exact h.files b' t ht
    · exact h
  · split
    · exact ⟨fun p hp => h.sets p (List.mem_filter.1 hp).1, h.files, h.jobs⟩
    · exact h
  · split
    · exact sourced_set h hp _ _ _ trivial
    · exact h
  · split
    · exact sourced_set h hp _ _ _ trivial
    · exact sourced_set h hp _ _ _ trivial
    · exact sourced_set h hp _ _ _ trivial
    · exact h
  · split
    · exact ⟨h.sets, h.files, (fun _ _ _ _ _ he => by cases he)⟩
    · exact h
  · exact h

theorem sourced_commitStep {db : Db} (h : Sourced db) (a : CAct) : Sourced (db.commitStep a) := by
  have other : ∀ p : CPhase, (∀ e ss seen todo jobs, p ≠ .moving e ss seen todo jobs) → Sourced { db with phase := p } :=
    fun p hp => sourced_phase h p (fun e ss seen todo jobs he => absurd he (hp e ss seen todo jobs))
  unfold Db.commitStep
  split
  · split
    · split
      · exact other _ (fun _ _ _ _ _ he => by cases he)
      · exact h
    · exact h
  · split
    · split
      · exact other _ (fun _ _ _ _ _ he => by cases he)
      · exact other _ (fun _ _ _ _ _ he => by cases he)
    · split
      · exact other _ (fun _ _ _ _ _ he => by cases he)
      · exact h
    · exact h
  · split
    · exact other _ (fun _ _ _ _ _ he => by cases he)
    · exact h
  · split
    · split
      · refine sourced_phase h _ (fun e ss seen todo jobs he j hj => ?_)
        cases he
        cases hj
      · exact h
    · exact h
  · rename_i hp
    exact sourced_jobStep h hp a
  · split
    · split
      · refine ⟨h.sets, fun b t ht => ?_, h.jobs⟩
        dsimp only at ht
        split at ht
        · cases ht
        · exact h.files b t ht
      · exact h
    · exact ⟨h.sets, h.files, (fun _ _ _ _ _ he => by cases he)⟩
    · exact h
  · split
    · exact ⟨h.sets, h.files, (fun _ _ _ _ _ he => by cases he)⟩
    · exact ⟨h.sets, h.files, h.jobs⟩
    · exact h

theorem stageFrom_mono {a b : List Cached} (hs : ∀ p ∈ a, p ∈ b) {bin : Bin} {st : Stage} (h : StageFrom a bin st) : StageFrom b bin st := by
  cases st with
  | scanning need => exact fun x hx => hs _ (h x hx)
  | listed es => exact fun x hx => hs _ (h x hx)
  | haveRead es l => exact ⟨fun x hx => hs _ (h.1 x hx), fun s hm => (h.2 s hm).imp (fun m hm => ⟨hs _ hm.1, hm.2⟩)⟩
  | _ => trivial

theorem sourced_step {db : Db} (h : Sourced db) (a : CAct) : Sourced (db.step a) := by
  unfold Db.step
  split
  · rename_i ps
    have up : ∀ p ∈ db.ever, p ∈ ps ++ db.ever := fun p hp => List.mem_append_right _ hp
    refine ⟨fun p hp => ?_, fun b t ht => ?_, fun e ss seen todo jobs he j hj => stageFrom_mono up (h.jobs _ _ _ _ _ he j hj)⟩
    · rcases List.mem_append.1 hp with hp | hp
      · exact List.mem_append_left _ hp
      · exact up p (h.sets p hp)
    · obtain ⟨l, h1, h2⟩ := h.files b t ht
      exact ⟨l, h1, fun s hs => (h2 s hs).imp (fun m hm => ⟨up _ hm.1, hm.2⟩)⟩
  · exact ⟨h.sets, h.files, h.jobs⟩
  · split
    · exact ⟨h.sets, h.files, h.jobs⟩
    · exact h
  · split
    · exact ⟨fun p hp => h.sets p (List.mem_filter.1 hp).1, h.files, h.jobs⟩
    · exact h
  · exact ⟨(fun p hp => by cases hp), h.files, h.jobs⟩
  · unfold Db.ensure
    split
    · split
      · exact h
      · split
        · exact h
        · exact ⟨h.sets, h.files, h.jobs⟩
    · exact h
  · exact ⟨h.sets, h.files, (fun _ _ _ _ _ he => by cases he)⟩
  · exact sourced_commitStep h _

theorem sourced_init : Sourced Db.init := ⟨(fun p hp => by cases hp), (fun b t ht => by cases ht), (fun _ _ _ _ _ he => by cases he)⟩

theorem sourced_run (acts : List CAct) : ∀ db : Db, Sourced db → Sourced (db.run acts) := by
  induction acts with
  | nil => intro db h; exact h
  | cons a as ih => intro db h; exact ih _ (sourced_step h a)

/-! ### what is inserted was served -/

/-- The certificates in a job's answers satisfy `Q`. -/
def ActFrom (env : Env) (Q : Text → Item → Prop) : Act → Prop
  | .start log _ _ _ _ rs => ∀ l ∈ servedLeaves rs, ∀ e, env.parse l.input l.extra = some e → ∀ it, outItem (storeLogEntry env.keepExpired l.time e) = some it → Q log it
  | .startTiled log _ _ _ es1 es2 _ _ => ∀ te ∈ es1 ++ es2, ∀ it, outItem (storeTiledEntry env.keepExpired te) = some it → Q log it
  | _ => True

/-- All certificates in the process and in the database satisfy `Q`. -/
structure SysFrom (Q : Text → Item → Prop) (y : Sys) : Prop where
  chan : ∀ log i, Msg.cert log i ∈ y.chan → Q log i
  queue : ∀ x ∈ y.queue, Q x.1 x.2
  stored : ∀ x ∈ y.stored, Q x.1 x.2
  workers : ∀ log tr, (log, tr) ∈ y.workers → ∀ pos input ts it, Ev.entry pos input ts (some it) ∈ tr → Q log it

theorem sysFrom_step {env : Env} {Q : Text → Item → Prop} {y : Sys} (h : SysFrom Q y) (a : Act) (ha : ActFrom env Q a) : SysFrom Q (y.step env a) := by
  cases a with
  | start log batch now sth proof rs =>
    refine ⟨h.chan, h.queue, h.stored, fun l tr hm pos input ts it he => ?_⟩
    rcases List.mem_append.1 hm with hm | hm
    · exact h.workers l tr hm pos input ts it he
    · rw [List.mem_singleton, Prod.mk.injEq] at hm
      obtain ⟨rfl, rfl⟩ := hm
      obtain ⟨x, hx, _, p, hp⟩ := runWorker_served env batch now _ sth proof rs _ he (fun s hs => by cases hs)
      unfold leafEvent at hp
      split at hp
      · cases hp
      · rename_i e hpe
        simp only [Ev.entry.injEq] at hp
        exact ha x hx e hpe it hp.2.2.2
  | startTiled log batch now sth es1 es2 e1 e2 =>
    refine ⟨h.chan, h.queue, h.stored, fun l tr hm pos input ts it he => ?_⟩
    rcases List.mem_append.1 hm with hm | hm
    · exact h.workers l tr hm pos input ts it he
    · rw [List.mem_singleton, Prod.mk.injEq] at hm
      obtain ⟨rfl, rfl⟩ := hm
      rcases runTiled_served _ _ _ _ _ _ _ _ _ _ he with ⟨s, hs⟩ | ⟨te, hte, p, _, _, hp⟩
      · cases hs
      · simp only [Ev.entry.injEq] at hp
        exact ha te hte it hp.2.2.2.symm
  | emit k =>
    simp only [Sys.step]
    split
    · rename_i log e rest hk
      have hm := List.mem_of_getElem? hk
      refine ⟨fun l i hi => ?_, h.queue, h.stored, fun l tr hl pos input ts it he => ?_⟩
      · rcases List.mem_append.1 hi with hi | hi
        · exact h.chan l i hi
        · unfold evMsg at hi
          split at hi
          · rw [List.mem_singleton, Msg.cert.injEq] at hi
            obtain ⟨rfl, rfl⟩ := hi
            exact h.workers _ _ hm _ _ _ _ (List.mem_cons_self ..)
          · cases hi
          · rw [List.mem_singleton] at hi; cases hi
      · rcases List.mem_or_eq_of_mem_set hl with hl | hl
        · exact h.workers l tr hl pos input ts it he
        · cases hl
          exact h.workers _ _ hm _ _ _ _ (List.mem_cons_of_mem _ he)
    · exact h
  | stop k => exact ⟨h.chan, h.queue, h.stored, fun l tr hl => h.workers l tr (List.mem_of_mem_eraseIdx hl)⟩
  | receive batch =>
    simp only [Sys.step]
    split
    · rename_i m rest _ hch
      have hc : ∀ log i, Msg.cert log i ∈ rest → Q log i := fun l i hi => h.chan l i (by rw [hch]; exact List.mem_cons_of_mem _ hi)
      have hq : ∀ x ∈ enqueue y.queue m, Q x.1 x.2 := by
        intro x hx
        unfold enqueue at hx
        split at hx
        · rcases List.mem_append.1 hx with hx | hx
          · exact h.queue x hx
          · rw [List.mem_singleton.1 hx]
            exact h.chan _ _ (by rw [hch]; exact List.mem_cons_self ..)
        · exact h.queue x hx
      split
      · exact ⟨hc, hq, h.stored, h.workers⟩
      · exact ⟨hc, hq, h.stored, h.workers⟩
    · exact h
  | storeFails taken =>
    simp only [Sys.step]
    split
    · refine ⟨h.chan, h.queue, fun x hx => ?_, h.workers⟩
      rcases List.mem_append.1 hx with hx | hx
      · exact h.stored x hx
      · exact h.queue x (List.mem_filter.1 hx).1
    · exact h
  | storeOk =>
    simp only [Sys.step]
    split
    · refine ⟨h.chan, h.queue, fun x hx => ?_, h.workers⟩
      rcases List.mem_append.1 hx with hx | hx
      · exact h.stored x hx
      · exact h.queue x hx
    · exact h
  | saveOk =>
    simp only [Sys.step]
    split
    · exact ⟨h.chan, (fun x hx => by cases hx), h.stored, h.workers⟩
    · exact h
  | saveFails written =>
    simp only [Sys.step]
    split
    · exact ⟨h.chan, h.queue, h.stored, h.workers⟩
    · exact h
  | crash => exact ⟨(fun _ _ hi => by cases hi), (fun x hx => by cases hx), h.stored, (fun _ _ hi => by cases hi)⟩

/-- The two machines together. -/
structure WholeFrom (H : Bytes → Bytes) (mt : Meta) (Q : Text → Item → Prop) (v : Whole) : Prop where
  sys : SysFrom Q v.y
  db : Sourced v.db
  ever : ∀ p ∈ v.db.ever, ∃ x ∈ v.y.stored, p = encItem H mt x

theorem step_ever (db : Db) (c : CAct) (ho : isOther c = true) : (db.step c).ever = db.ever := by
  by_cases hw : c = .wipe
  · subst hw; rfl
  · by_cases he : c = .ensure
    · subst he; cases ho
    · cases c <;> first | (cases ho; done) | rfl | skip
      all_goals first
        | (exact (commitStep_logs db _).2)
        | (unfold Db.step; dsimp only; split <;> rfl)
        | (exact absurd rfl hw)

theorem ensure_ever (db : Db) : (db.step .ensure).ever = db.ever := by
  show db.ensure.ever = db.ever
  unfold Db.ensure
  split
  · split
    · rfl
    · split <;> rfl
  · rfl

def WActFrom (env : Env) (Q : Text → Item → Prop) : WAct → Prop
  | .fetch a => ActFrom env Q a
  | _ => True

theorem wholeFrom_step {H : Bytes → Bytes} {mt : Meta} {env : Env} {Q : Text → Item → Prop} {v : Whole} (h : WholeFrom H mt Q v) (a : WAct) (ha : WActFrom env Q a) :
    WholeFrom H mt Q (v.step H mt env a) := by
  cases a with
  | fetch a =>
    refine ⟨sysFrom_step h.sys a ha, sourced_run _ _ h.db, fun p hp => ?_⟩
    obtain ⟨⟨new, hnew⟩, _⟩ := step_grows env v.y a
    have hev : ((v.db.run (dbActs H mt env v.y a)).ever) = new.map (encItem H mt) ++ v.db.ever := by
      unfold dbActs Db.run
      rw [List.foldl_cons, hnew, List.drop_left]
      split
      · rfl
      · rfl
    have hp : p ∈ (v.db.run (dbActs H mt env v.y a)).ever := hp
    show ∃ x ∈ (v.y.step env a).stored, p = encItem H mt x
    rw [hev] at hp
    rw [hnew]
    rcases List.mem_append.1 hp with hp | hp
    · obtain ⟨x, hx, rfl⟩ := List.mem_map.1 hp
      exact ⟨x, List.mem_append_right _ hx, rfl⟩
    · obtain ⟨x, hx, hxp⟩ := h.ever p hp
      exact ⟨x, List.mem_append_left _ hx, hxp⟩
  | other c =>
    unfold Whole.step
    dsimp only
    split
    · rename_i ho
      refine ⟨h.sys, sourced_step h.db c, fun p hp => ?_⟩
      dsimp only at hp
      rw [step_ever v.db c ho] at hp
      exact h.ever p hp
    · exact h
  | restart =>
    have h1 := sysFrom_step (env := env) h.sys .crash trivial
    refine ⟨⟨h1.chan, h1.queue, h1.stored, h1.workers⟩, sourced_step h.db .ensure, fun p hp => ?_⟩
    have hp : p ∈ (v.db.step .ensure).ever := hp
    rw [ensure_ever] at hp
    exact h.ever p hp

theorem wholeFrom_run {H : Bytes → Bytes} {mt : Meta} {env : Env} {Q : Text → Item → Prop} (acts : List WAct) : ∀ v : Whole, WholeFrom H mt Q v → (∀ a ∈ acts, WActFrom env Q a) →
    WholeFrom H mt Q (v.run H mt env acts) := by
  induction acts with
  | nil => intro v h _; exact h
  | cons a as ih => intro v h ha; exact ih _ (wholeFrom_step h a (ha a (by simp))) (fun b hb => ha b (by simp [hb]))

theorem wholeFrom_init (H : Bytes → Bytes) (mt : Meta) (Q : Text → Item → Prop) : WholeFrom H mt Q Whole.init :=
  ⟨⟨(fun _ _ hi => by cases hi), (fun x hx => by cases hx), (fun x hx => by cases hx), (fun _ _ hi => by cases hi)⟩, sourced_init, (fun p hp => by cases hp)⟩

theorem store_rfc {keep : Bool} {now : Nat} {e : RawEntry} {it : Item} (h : outItem (storeLogEntry keep now e) = some it) :
    ∃ c p, e.cert = some c ∧ c.serial = it.serial ∧ c.notAfter = it.notAfter ∧ Spec.ChainIssuer e.chain p ∧ p.key = it.issuerKey := by
  unfold storeLogEntry at h
  split at h
  · cases h
  · rename_i c hc
    split at h
    · cases h
    · split at h
      · cases h
      · cases h
      · rename_i p rest hch
        split at h
        · rename_i hpre
          split at h
          · cases h
          · cases h
          · rename_i i r
            cases h
            exact ⟨c, i, hc, rfl, rfl, Or.inr ⟨p, r, hch, hpre⟩, rfl⟩
        · rename_i hpre
          cases h
          exact ⟨c, p, hc, rfl, rfl, Or.inl ⟨rest, hch, by simpa using hpre⟩, rfl⟩

theorem store_tiled {keep : Bool} {e : TEntry} {it : Item} (h : outItem (storeTiledEntry keep e) = some it) :
    ∃ c p, e.cert = some c ∧ c.serial = it.serial ∧ c.notAfter = it.notAfter ∧ Spec.FetchedIssuer e.chain p ∧ p.key = it.issuerKey := by
  unfold storeTiledEntry at h
  split at h
  · cases h
  · rename_i c hc
    split at h
    · cases h
    · split at h
      · cases h
      · cases h
      · cases h
      · rename_i p rest hch
        split at h
        · rename_i hpre
          split at h
          · cases h
          · cases h
          · cases h
          · rename_i i r
            cases h
            exact ⟨c, i, hc, rfl, rfl, Or.inr ⟨p, r, hch, hpre⟩, rfl⟩
        · rename_i hpre
          cases h
          exact ⟨c, p, hc, rfl, rfl, Or.inl ⟨rest, hch, by simpa using hpre⟩, rfl⟩

theorem wActFrom_served (H : Bytes → Bytes) (env : Env) (acts : List WAct) : ∀ a ∈ acts, WActFrom env (fun _ it => Spec.ServedCert H env acts (H it.issuerKey) it.serial it.notAfter) a := by
  intro a ha
  cases a with
  | fetch a =>
    cases a with
    | start log batch now sth proof rs =>
      intro l hl e he it hit
      obtain ⟨c, p, h1, h2, h3, h4, h5⟩ := store_rfc hit
      exact Or.inl ⟨log, batch, now, sth, proof, rs, ha, l, hl, e, he, c, p, h1, h2, h3, h4, by rw [h5]⟩
    | startTiled log batch now sth es1 es2 e1 e2 =>
      intro te hte it hit
      obtain ⟨c, p, h1, h2, h3, h4, h5⟩ := store_tiled hit
      exact Or.inr ⟨log, batch, now, sth, es1, es2, e1, e2, ha, te, hte, c, p, h1, h2, h3, h4, by rw [h5]⟩
    | _ => trivial
  | _ => trivial

theorem file_served (H : Bytes → Bytes) (mt : Meta) (env : Env) (hid : ∀ log, (mt.id log).length = 32) (acts : List WAct) (b : Bin) (t : Text)
    (h : (Whole.init.run H mt env acts).db.files b = some t) : ∃ l, t = writeSerialList b.unix l ∧ ∀ s ∈ l, ∃ d na, Spec.ServedCert H env acts d s na ∧ b.issuer = issuerID d ∧
      b.unix = ((na / 3600 * 3600 : Nat) : Int) := by
  have hw := wholeFrom_run (env := env) acts _ (wholeFrom_init H mt _) (wActFrom_served H env acts)
  obtain ⟨l, h1, h2⟩ := hw.db.files b t h
  refine ⟨l, h1, fun s hs => ?_⟩
  obtain ⟨m, hm, rfl⟩ := h2 s hs
  obtain ⟨x, hx, he⟩ := hw.ever _ hm
  have hq := hw.sys.stored x hx
  unfold encItem at he
  rw [Prod.mk.injEq] at he
  obtain ⟨rfl, rfl⟩ := he
  rw [asSerial_newMember _ _ _ (hid _)]
  exact ⟨_, _, hq, rfl, rfl⟩

/-- **C93 (storage).** For every history of ct-fetch and commits, with any answers of the logs (also false ones), any scheduling, errors, deaths of the processes, and losses of the cache: a serial that a reader finds
in the storage file of a bin belongs to a certificate that a log served, with the bin's issuer in its chain and its expiry in the bin's hour. -/
theorem C93_stored (H : Bytes → Bytes) (mt : Meta) (env : Env) (hid : ∀ log, (mt.id log).length = 32) (acts : List WAct) (b : Bin) (s : Serial)
    (h : Stored (Whole.init.run H mt env acts).db b s) : ∃ d na, Spec.ServedCert H env acts d s na ∧ b.issuer = issuerID d ∧ b.unix ≤ na ∧ (na : Int) < b.unix + 3600 ∧ b.unix % 3600 = 0 := by
  obtain ⟨l, hl, hs⟩ := h
  cases hf : (Whole.init.run H mt env acts).db.files b with
  | none => rw [hf] at hl; cases hl; cases hs
  | some t =>
    obtain ⟨l', rfl, hl'⟩ := file_served H mt env hid acts b t hf
    rw [hf] at hl
    rw [read_exact _ _ _ hl] at hs
    obtain ⟨d, na, h1, h2, h3⟩ := hl' s hs
    exact ⟨d, na, h1, h2, by omega, by omega, by omega⟩

/-- **C93 (known files, partial).** Every serial that the filter builder reads from the known directory, which was empty before this run of aggregate-known, belongs to a certificate that a log served, with this
issuer in its chain and its expiry in the hour that the file states. Missing: a cut last bin (`C44_last_flush_fails`, `C04_cut_fails`), the first day of 1970. -/
theorem C93_known_partial (H : Bytes → Bytes) (mt : Meta) (env : Env) (hid : ∀ log, (mt.id log).length = 32) (acts : List WAct) (enrolled : Text → Bool) (dirs : List DirEntry)
    (file : Text → Text → Option Text) (hview : Spec.OnlyStorage (Whole.init.run H mt env acts).db file) (threads : Nat) (h1 : 1 ≤ threads) (t0 : Int) (ht0 : 86400000 ≤ t0) (kacts : List KAct)
    (sts : List CTLogState) (a : Agg) (h : aggregateKnown enrolled dirs file (Whole.init.run H mt env acts).db.ctlogs threads (fun _ => none) t0 kacts = some (sts, a)) (hloud : a.silent = false)
    (W : RunInput) (X : Dir) (hg : GoodInput W X) (hW : Spec.ReadsKnown W a.files) (i : RunIssuer) (hi : i ∈ W) (bin : Nat × List Serial) (hb : bin ∈ i.known) (s : Serial) (hs : s ∈ bin.2) :
    enrolled (issuerID i.digest) = true ∧ ∃ na, Spec.ServedCert H env acts i.digest s na ∧ bin.1 ≤ na ∧ na < bin.1 + 3600 := by
  obtain ⟨_, out, hout, rfl, hok⟩ := aggregateKnown_some h
  obtain ⟨hnd, _, hiff⟩ := C40_listing_exact _ out hout
  have hfile := hW.1 i hi
  have hin : issuerID i.digest ∈ (out.filter (fun u => enrolled u.1)).map Prod.fst := by
    by_cases hc : issuerID i.digest ∈ (out.filter (fun u => enrolled u.1)).map Prod.fst
    · exact hc
    · have := C44_no_other_files file (out.filter (fun u => enrolled u.1)) threads (fun _ => none) t0 kacts _ hc
      rw [hfile] at this
      cases this
  obtain ⟨⟨name, ds⟩, hu, hname⟩ := List.mem_map.1 hin
  dsimp only at hname
  subst hname
  obtain ⟨hds, he⟩ := List.mem_filter.1 hu
  refine ⟨he, ?_⟩
  obtain ⟨content, entries, c1, c2, _, c4⟩ := C44_complete_partial file _ (nodup_filter_fst out _ hnd) threads h1 _ t0 kacts hok hloud _ ds hu (fun x hxm hxe => by
    obtain ⟨name, _, p, dt, _, hxp⟩ := (hiff (issuerID i.digest) x).1 ⟨ds, hds, hxm⟩
    have := newExpDate_bounds hxp
    unfold ExpDate.isExpiredAt at hxe
    rw [decide_eq_false_iff_not] at hxe
    omega)
  rw [hfile] at c1
  rw [← Option.some.inj c1, read_known i (hg.2.1 i hi).2] at c2
  have hmem : (bin.1, hexEncode s) ∈ entries := by
    rw [← Option.some.inj c2]
    unfold knownEntries
    rw [List.mem_flatten]
    exact ⟨_, List.mem_map.2 ⟨bin, hb, rfl⟩, List.mem_map.2 ⟨s, hs, rfl⟩⟩
  obtain ⟨d, _, _, l, hl, s', hs', heq⟩ := c4 _ hmem
  rw [Prod.mk.injEq] at heq
  obtain ⟨e1, e2⟩ := heq
  rw [hexEncode_injective e2]
  cases hf : file (issuerID i.digest) d.id with
  | none => rw [hf] at hl; cases hl; cases hs'
  | some t =>
    obtain ⟨b, hb1, hb2, hb3⟩ := hview _ _ _ hf
    obtain ⟨l', rfl, hl'⟩ := file_served H mt env hid acts b t hb3
    rw [hf] at hl
    by_cases hu : b.unix = d.date
    · rw [← hu] at hl e1
      rw [read_exact _ _ _ hl] at hs'
      obtain ⟨d', na, q1, q2, q3⟩ := hl' s' hs'
      rw [hb1] at q2
      have : i.digest = d' := b64Encode_injective q2
      subst this
      exact ⟨na, q1, by omega, by omega⟩
    · rw [C04_wrong_expiry_refused _ _ _ hu] at hl
      cases hl

/-! ### the Merkle check comes too late -/

def uCert : Cert := { serial := [6, 6], notAfter := 1700002800, key := [9], preIssuer := false }

/-- Leaf `[15]` carries this certificate, all others carry `wCert`. -/
def uEnv : Env :=
  { H := wHash, parse := fun x _ => some ⟨(x.head?.getD 0).toNat * 100, false, some (if x = [15] then uCert else wCert), [some wCert]⟩, keepExpired := false }

/-- The log's tree does not contain the leaf `[15]`. -/
def uWorld : World := { tiled := fun _ => false, G := fun _ _ x => x ≠ [15], L := fun _ _ => True, TL := fun _ _ => False, T := fun _ _ => True }

def uProof : List Bytes := honestProof wHash (wLeaves ++ [[205]]) (proofOldSize 4) 5

/-- After `wActs` the log has grown by one entry; it serves `[15]` in its place. The check fails, and the worker stops. -/
def uStart : WAct := .fetch (.start ['a'] 4 2000 (some ⟨5, 20500⟩) (some uProof) [.entries [⟨[15], [], 1⟩]])

def uRest : List WAct :=
  ([.emit 0, .emit 0, .receive 1, .storeOk, .saveOk].map .fetch) ++ ([.begin false true, .readLog (logKey ['a']), .loadedAll, .listStart, .listEnd [wBin], .jobStart wBin,
    .jobListed 0 ([(1500, [6, 6]), (20000, [1, 2])].map (fun p => newMember p.1 (List.replicate 32 0) p.2)), .jobRead 0, .jobWrite 0, .jobFinish 0, .replaceLogs].map .other)

def uActs : List WAct := wActs ++ uStart :: uRest

theorem wAllAllowed_append {H : Bytes → Bytes} {mt : Meta} {w : World} {env : Env} (a b : List WAct) : ∀ v : Whole, WAllAllowed H mt w env v a → WAllAllowed H mt w env (v.run H mt env a) b →
    WAllAllowed H mt w env v (a ++ b) := by
  induction a with
  | nil => intro v _ h; exact h
  | cons x xs ih => intro v h1 h2; exact ⟨h1.1, ih _ h1.2 h2⟩

theorem uActs_allowed : WAllAllowed wHash wMeta uWorld uEnv Whole.init uActs := by
  refine wAllAllowed_append _ _ _ ?_ ?_
  · have hcons : wActs = .fetch (.start ['a'] 4 1000 (some ⟨4, 20000⟩) (some wProof) wServed) :: wActs.tail := rfl
    rw [hcons]
    refine ⟨⟨⟨rfl, sane_new 4 20000 (by decide) (by decide), (fun _ _ => trivial), (fun _ _ => trivial), ?_⟩, (fun _ _ h => by cases h), (fun x h => by cases h)⟩,
      quietRun_allowed _ _ (by decide +kernel)⟩
    intro h r p e1 e2 e3 bf us hus t ht xs hsub hlen hroot k x hx
    have hserved : ∀ y ∈ servedInputs wServed, y ≠ [15] := by decide
    exact hserved x (hsub.subset (List.mem_of_getElem? hx))
  · have hsaved : (Whole.init.run wHash wMeta uEnv wActs).y.saved ['a'] = ⟨0, 3, 1000, 20000, some 1000⟩ := by decide +kernel
    refine ⟨⟨⟨rfl, ?_, (fun _ _ => trivial), (fun _ _ => trivial), ?_⟩, (fun _ _ h => by cases h), (by decide +kernel)⟩, quietRun_allowed _ _ (by decide +kernel)⟩
    · intro h he
      cases he
      rw [hsaved]
      exact ⟨by decide, fun e => by cases e⟩
    · rw [hsaved]
      intro h r p e1 e2 e3 bf us hus t ht xs hsub hlen hroot k x hx
      cases e1
      cases e3
      have hr : r = (4, 4) := by
        have : jobRange 4 ⟨0, 3, 1000, 20000, some 1000⟩ 5 (chooseTask 4 2000 ⟨0, 3, 1000, 20000, some 1000⟩ (some ⟨5, 20500⟩)) = some (4, 4) := by decide
        exact Option.some.inj (e2.symm.trans this)
      subst hr
      have hu : jobSubtrees bf 4 4 uProof = some [⟨mth wHash [[205]], 4, 4⟩] := by cases bf <;> decide +kernel
      rw [Option.some.inj (hus.symm.trans hu)] at ht
      rw [List.mem_singleton.1 ht] at hlen hroot
      have hx' : xs = [[15]] := hsub.eq_of_length (by rw [hlen]; rfl)
      rw [hx'] at hroot
      exact absurd hroot (by decide +kernel)

/-- **C93 fails for verified entries.** A certificate can get into storage although the only entry that carried it never passed the Merkle check and is not in the log's tree: ct-fetch sends each certificate to the
database before the check of its batch, and what has been sent is neither held back nor removed when the check fails. The log only has to use a timestamp that is already covered. -/
theorem C93_unverified_fails : ∃ (w : World) (env : Env) (acts : List WAct) (b : Bin) (s : Serial), WAllAllowed wHash wMeta w env Whole.init acts ∧
    Stored (Whole.init.run wHash wMeta env acts).db b s ∧ ∀ log i input extra e c, w.G log i input → env.parse input extra = some e → e.cert = some c → c.serial ≠ s := by
  refine ⟨uWorld, uEnv, uActs, wBin, [6, 6], uActs_allowed, ⟨[[1, 2], [6, 6]], by decide +kernel, by decide⟩, fun log i input extra e c hG he hc => ?_⟩
  cases he
  cases hc
  rw [if_neg hG]
  decide

/-! ### examples -/

/-- A stored certificate of the run above. -/
example : Stored (Whole.init.run wHash wMeta wEnv wActs).db wBin [1, 2] ∧ ∀ log, (wMeta.id log).length = 32 := ⟨⟨_, wActs_result.2.2, by decide⟩, wMeta_id⟩

theorem fOnly : Spec.OnlyStorage (Whole.init.run wHash wMeta wEnv wActs).db fFile := by
  intro i e t h
  unfold fFile at h
  split at h
  · rename_i hc
    exact ⟨{ unix := 1700002800, issuer := issuerID fDigest }, hc.1.symm, hc.2.symm, by rw [fFiles, if_pos (by decide +kernel)]; exact h⟩
  · cases h

/-- The known certificate of the run in `Flow.lean` was served. -/
example (n : Nat) (i : RunIssuer) (hi : i ∈ fW n) (bin : Nat × List Serial) (hb : bin ∈ i.known) (s : Serial) (hs : s ∈ bin.2) :
    ∃ na, Spec.ServedCert wHash wEnv wActs i.digest s na ∧ bin.1 ≤ na ∧ na < bin.1 + 3600 :=
  (C93_known_partial wHash wMeta wEnv wMeta_id wActs (fun _ => true) fDirs fFile fOnly 1 (Nat.le_refl _) 1690000000000 (by decide) fActs [wState] fAgg (fKnownRun n).result
    (fKnownRun n).loud (fW n) [] (fW_good n) (fKnownRun n).reads i hi bin hb s hs).2

/-! ### each theorem applied -/

example := C93_stored wHash wMeta wEnv wMeta_id wActs wBin [1, 2] ⟨_, wActs_result.2.2, by decide⟩

end Verif.Props
