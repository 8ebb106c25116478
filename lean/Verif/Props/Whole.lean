import Verif.Model.Whole
import Verif.Props.Ingest
import Verif.Props.Storage
/-!
Property C41: published coverage, end to end.
-/
namespace Verif.Props
open Verif.Spec

/-- The numbers of a state are 64-bit numbers. -/
def Fits (s : WState) : Prop := s.minEntry < 2 ^ 64 ∧ s.maxEntry < 2 ^ 64 ∧ s.minTs < 2 ^ 64 ∧ s.maxTs < 2 ^ 64

theorem decState_encState (mt : Meta) (log : Text) (s : WState) (h : Fits s) : decState (encState mt log s) = s := by
  obtain ⟨h1, h2, h3, h4⟩ := h
  cases s
  simp only [decState, encState, WState.mk.injEq, and_true]
  refine ⟨?_, ?_, ?_, ?_⟩ <;> exact UInt64.toNat_ofNat_of_lt' (by assumption)

/-- What may happen: ct-fetch's steps are allowed, states and serials are within their types' limits, and the commit steps are fine. -/
def WAllowed (w : World) (env : Env) (v : Whole) : WAct → Prop
  | .fetch a => Allowed w env v.y a ∧ (∀ log s, savedBy v.y a = some (log, s) → Fits s) ∧ ∀ x ∈ (v.y.step env a).stored, x.2.serial.length < 32768
  | .other c => Fine c
  | .restart => True

def WAllAllowed (H : Bytes → Bytes) (mt : Meta) (w : World) (env : Env) : Whole → List WAct → Prop
  | _, [] => True
  | v, a :: as => WAllowed w env v a ∧ WAllAllowed H mt w env (v.step H mt env a) as

/-- A saved or published state: it is true of what ct-fetch has seen, with certificates that are in `have'`. -/
def Pub (H : Bytes → Bytes) (mt : Meta) (w : World) (y : Sys) (have' : List Cached) (c : CTLogState) : Prop :=
  ∃ log s hv, c = encState mt log s ∧ Fits s ∧ StateOk w log (eventsOf log y.seen) hv s ∧ (∀ x ∈ hv, x ∈ y.stored) ∧ ∀ x ∈ hv, encItem H mt x ∈ have'

/-- All states in the database are such states. -/
structure PubAll (P : List Cached → CTLogState → Prop) (db : Db) : Prop where
  keys : ∀ p ∈ db.logs, p.1 = logKey p.2.shortURL
  logs : ∀ p ∈ db.logs, P db.ever p.2
  loading : ∀ e need acc, db.phase = .loading e need acc → ∀ p ∈ acc, P db.ever p.2
  loaded : ∀ e st seen, db.phase = .loaded e st seen → ∀ s ∈ st, P seen s
  listing : ∀ e st seen need, db.phase = .listing e st seen need → ∀ s ∈ st, P seen s
  moving : ∀ e st seen todo jobs, db.phase = .moving e st seen todo jobs → ∀ s ∈ st, P seen s
  ctlogs : ∀ st, db.ctlogs = some st → ∀ s ∈ st, P db.pubSeen s

theorem mem_putLog {l : List (Text × CTLogState)} {k : Text} {s : CTLogState} {p : Text × CTLogState} (h : p ∈ putLog l k s) : p = (k, s) ∨ p ∈ l := by
  rcases List.mem_cons.1 h with h | h
  · exact Or.inl h
  · exact Or.inr (List.mem_filter.1 h).1

theorem mem_putAll (ss : List CTLogState) : ∀ (l : List (Text × CTLogState)) p, p ∈ ss.foldl (fun l s => putLog l (logKey s.shortURL) s) l →
    (p.1 = logKey p.2.shortURL ∧ p.2 ∈ ss) ∨ p ∈ l := by
  induction ss with
  | nil => intro l p h; exact Or.inr h
  | cons s ss ih =>
    intro l p h
    rcases ih _ p h with ⟨h1, h2⟩ | h
    · exact Or.inl ⟨h1, by simp [h2]⟩
    · rcases mem_putLog h with rfl | h
      · exact Or.inl ⟨rfl, by simp⟩
      · exact Or.inr h

/-- The invariant under one step of the database. -/
theorem pubAll_eff {P : List Cached → CTLogState → Prop} (hmono : ∀ a b s, (∀ x ∈ a, x ∈ b) → P a s → P b s) {db db' : Db} (hi : PubAll P db)
    (hres : ∀ st, db.ctlogs = some st → ∀ s ∈ st, P db.ever s)
    (hs : ∀ s, db' = { db with logs := putLog db.logs (logKey s.shortURL) s } → P db.ever s) (h : Eff db db') : PubAll P db' := by
  obtain ⟨i1, i2, i3, i4, i5, i6, i7⟩ := hi
  cases h with
  | same => exact ⟨i1, i2, i3, i4, i5, i6, i7⟩
  | insert ps h =>
    have up : ∀ x ∈ db.ever, x ∈ ps ++ db.ever := fun x hx => List.mem_append_right _ hx
    exact ⟨i1, fun p hp => hmono _ _ _ up (i2 p hp), fun e need acc hp p hm => hmono _ _ _ up (i3 e need acc hp p hm), i4, i5, i6, i7⟩
  | saveLog s =>
    refine ⟨fun p hp => ?_, fun p hp => ?_, i3, i4, i5, i6, i7⟩
    · rcases mem_putLog hp with rfl | hp
      · rfl
      · exact i1 p hp
    · rcases mem_putLog hp with rfl | hp
      · exact hs s rfl
      · exact i2 p hp
  | tick t h => exact ⟨i1, i2, i3, i4, i5, i6, i7⟩
  | keyExpires b h => exact ⟨i1, i2, i3, i4, i5, i6, i7⟩
  | restore hp he l hl =>
    have hst : ∃ st, db.ctlogs = some st ∧ l = st.foldl (fun l s => putLog l (logKey s.shortURL) s) [] := by
      unfold Db.restored at hl
      split at hl
      · cases hl
      · rename_i ss hss; cases hl; exact ⟨ss, hss, rfl⟩
    obtain ⟨st, hst, rfl⟩ := hst
    refine ⟨fun p hp => ?_, fun p hp => ?_, i3, i4, i5, i6, i7⟩
    · rcases mem_putAll st [] p hp with h | h
      · exact h.1
      · cases h
    · rcases mem_putAll st [] p hp with h | h
      · exact hres st hst _ h.2
      · cases h
  | stop => exact ⟨i1, i2, (fun _ _ _ h => by cases h), (fun _ _ _ h => by cases h), (fun _ _ _ _ h => by cases h), (fun _ _ _ _ _ h => by cases h), i7⟩
  | begin hp he =>
    exact ⟨i1, i2, (fun _ _ _ h p hp => by cases h; cases hp), (fun _ _ _ h => by cases h), (fun _ _ _ _ h => by cases h),
      (fun _ _ _ _ _ h => by cases h), i7⟩
  | readLog epoch need acc hp p h =>
    refine ⟨i1, i2, fun _ _ _ he q hq => ?_, (fun _ _ _ h => by cases h), (fun _ _ _ _ h => by cases h), (fun _ _ _ _ _ h => by cases h), i7⟩
    cases he
    rcases List.mem_append.1 hq with hq | hq
    · exact i3 _ _ _ hp q hq
    · simp only [List.mem_singleton] at hq
      subst hq
      exact i2 q h
  | loadedAll epoch need acc hp h =>
    refine ⟨i1, i2, (fun _ _ _ h => by cases h), fun _ _ _ he s hs => ?_, (fun _ _ _ _ h => by cases h), (fun _ _ _ _ _ h => by cases h), i7⟩
    cases he
    obtain ⟨p, hp', rfl⟩ := List.mem_map.1 hs
    exact i3 _ _ _ hp p hp'
  | listStart epoch states seen hp =>
    refine ⟨i1, i2, (fun _ _ _ h => by cases h), (fun _ _ _ h => by cases h), fun _ _ _ _ he s hs => ?_, (fun _ _ _ _ _ h => by cases h), i7⟩
    cases he
    exact i4 _ _ _ hp s hs
  | listEnd epoch states seen need bs hp h hn hr =>
    refine ⟨i1, i2, (fun _ _ _ h => by cases h), (fun _ _ _ h => by cases h), (fun _ _ _ _ h => by cases h), fun _ _ _ _ _ he s hs => ?_, i7⟩
    cases he
    exact i5 _ _ _ _ hp s hs
  | jobStart epoch states seen todo jobs hp b h =>
    exact ⟨i1, i2, (fun _ _ _ h => by cases h), (fun _ _ _ h => by cases h), (fun _ _ _ _ h => by cases h),
      (fun _ _ _ _ _ he => by cases he; exact i6 _ _ _ _ _ hp), i7⟩
  | jobListed epoch states seen todo jobs hp k b need es hj h1 h2 st hst =>
    exact ⟨i1, i2, (fun _ _ _ h => by cases h), (fun _ _ _ h => by cases h), (fun _ _ _ _ h => by cases h),
      (fun _ _ _ _ _ he => by cases he; exact i6 _ _ _ _ _ hp), i7⟩
  | jobRead epoch states seen todo jobs hp k b es hj l h =>
    exact ⟨i1, i2, (fun _ _ _ h => by cases h), (fun _ _ _ h => by cases h), (fun _ _ _ _ h => by cases h),
      (fun _ _ _ _ _ he => by cases he; exact i6 _ _ _ _ _ hp), i7⟩
  | jobWrite epoch states seen todo jobs hp k b es l hj =>
    exact ⟨i1, i2, (fun _ _ _ h => by cases h), (fun _ _ _ h => by cases h), (fun _ _ _ _ h => by cases h),
      (fun _ _ _ _ _ he => by cases he; exact i6 _ _ _ _ _ hp), i7⟩
  | jobRemove epoch states seen todo jobs hp k b cov xs hj => exact ⟨i1, i2, i3, i4, i5, i6, i7⟩
  | jobFinish epoch states seen todo jobs hp k b cov hj =>
    exact ⟨i1, i2, (fun _ _ _ h => by cases h), (fun _ _ _ h => by cases h), (fun _ _ _ _ h => by cases h),
      (fun _ _ _ _ _ he => by cases he; exact i6 _ _ _ _ _ hp), i7⟩
  | jobFail epoch states seen todo jobs hp k b st hj =>
    exact ⟨i1, i2, (fun _ _ _ h => by cases h), (fun _ _ _ h => by cases h), (fun _ _ _ _ h => by cases h),
      (fun _ _ _ _ _ he => by cases he; exact i6 _ _ _ _ _ hp), i7⟩
  | replaceLogs epoch states seen jobs hp h =>
    refine ⟨i1, i2, (fun _ _ _ h => by cases h), (fun _ _ _ h => by cases h), (fun _ _ _ _ h => by cases h), (fun _ _ _ _ _ h => by cases h), ?_⟩
    intro st he s hs
    cases he
    exact i6 _ _ _ _ _ hp s hs
  | sweep epoch hp b h => exact ⟨i1, i2, i3, i4, i5, i6, i7⟩
  | nextEpoch epoch hp =>
    exact ⟨i1, i2, (fun _ _ _ h => by cases h), (fun _ _ _ h => by cases h), (fun _ _ _ _ h => by cases h), (fun _ _ _ _ _ h => by cases h), i7⟩
  | countAgain epoch hp => exact ⟨i1, i2, i3, i4, i5, i6, i7⟩
  | replaceEpoch epoch hp =>
    exact ⟨i1, i2, (fun _ _ _ h => by cases h), (fun _ _ _ h => by cases h), (fun _ _ _ _ h => by cases h), (fun _ _ _ _ _ h => by cases h), i7⟩

theorem jobStep_logs (db : Db) (epoch : Nat) (states : List CTLogState) (seen : List Cached) (todo : List Bin) (jobs : List Job) (a : CAct) :
    (db.jobStep epoch states seen todo jobs a).logs = db.logs ∧ (db.jobStep epoch states seen todo jobs a).ever = db.ever := by
  unfold Db.jobStep
  split
  · split <;> exact ⟨rfl, rfl⟩
  · split
    · split
      · split <;> exact ⟨rfl, rfl⟩
      · exact ⟨rfl, rfl⟩
    · exact ⟨rfl, rfl⟩
  · split
    · split <;> exact ⟨rfl, rfl⟩
    · exact ⟨rfl, rfl⟩
  · split <;> exact ⟨rfl, rfl⟩
  · split <;> exact ⟨rfl, rfl⟩
  · split <;> exact ⟨rfl, rfl⟩
  · split <;> exact ⟨rfl, rfl⟩
  · split <;> exact ⟨rfl, rfl⟩
  · exact ⟨rfl, rfl⟩

theorem commitStep_logs (db : Db) (a : CAct) : (db.commitStep a).logs = db.logs ∧ (db.commitStep a).ever = db.ever := by
  unfold Db.commitStep
  split
  · split
    · split <;> exact ⟨rfl, rfl⟩
    · exact ⟨rfl, rfl⟩
  · split
    · split <;> exact ⟨rfl, rfl⟩
    · split <;> exact ⟨rfl, rfl⟩
    · exact ⟨rfl, rfl⟩
  · split <;> exact ⟨rfl, rfl⟩
  · split
    · split <;> exact ⟨rfl, rfl⟩
    · exact ⟨rfl, rfl⟩
  · exact jobStep_logs db _ _ _ _ _ a
  · split
    · split <;> exact ⟨rfl, rfl⟩
    · exact ⟨rfl, rfl⟩
    · exact ⟨rfl, rfl⟩
  · split <;> exact ⟨rfl, rfl⟩

/-- Other steps do not touch the log states in the cache. -/
theorem other_logs (db : Db) (c : CAct) (ho : isOther c = true) (hf : Fine c) : (db.step c).logs = db.logs ∧ (db.step c).ever = db.ever := by
  cases c <;> first
    | exact commitStep_logs db _
    | (cases ho; done)
    | exact hf.elim
    | exact ⟨rfl, rfl⟩
    | (unfold Db.step; dsimp only; split <;> exact ⟨rfl, rfl⟩)

theorem pub_mono_have {H : Bytes → Bytes} {mt : Meta} {w : World} {y : Sys} : ∀ a b s, (∀ x ∈ a, x ∈ b) → Pub H mt w y a s → Pub H mt w y b s := by
  rintro a b s hab ⟨log, st, hv, h1, h2, h3, h4, h5⟩
  exact ⟨log, st, hv, h1, h2, h3, h4, fun x hx => hab _ (h5 x hx)⟩

theorem pub_mono_sys {H : Bytes → Bytes} {mt : Meta} {w : World} {y y' : Sys} (hs : ∀ p ∈ y.seen, p ∈ y'.seen) (hst : ∀ x ∈ y.stored, x ∈ y'.stored)
    (a : List Cached) (s : CTLogState) (h : Pub H mt w y a s) : Pub H mt w y' a s := by
  obtain ⟨log, st, hv, h1, h2, h3, h4, h5⟩ := h
  exact ⟨log, st, hv, h1, h2, h3.mono (fun e he => mem_eventsOf.2 (hs _ (mem_eventsOf.1 he))) (fun x hx => hx), fun x hx => hst x (h4 x hx), h5⟩

theorem PubAll.imp {P Q : List Cached → CTLogState → Prop} (h : ∀ a s, P a s → Q a s) {db : Db} (hi : PubAll P db) : PubAll Q db :=
  ⟨hi.keys, fun p hp => h _ _ (hi.logs p hp), fun e n a hp p hm => h _ _ (hi.loading e n a hp p hm), fun e st se hp s hs => h _ _ (hi.loaded e st se hp s hs),
   fun e st se n hp s hs => h _ _ (hi.listing e st se n hp s hs), fun e st se t j hp s hs => h _ _ (hi.moving e st se t j hp s hs),
   fun st hst s hs => h _ _ (hi.ctlogs st hst s hs)⟩

/-- The invariant of the whole. -/
structure WInv (H : Bytes → Bytes) (mt : Meta) (w : World) (env : Env) (v : Whole) : Prop where
  sys : SysInv w env v.y
  dbi : DbInv v.db
  pub : PubInv v.db
  ever : ∀ x ∈ v.y.stored, encItem H mt x ∈ v.db.ever
  states : PubAll (Pub H mt w v.y) v.db

theorem step_grows (env : Env) (y : Sys) (a : Act) : (∃ l, (y.step env a).stored = y.stored ++ l) ∧ ∀ p ∈ y.seen, p ∈ (y.step env a).seen := by
  have hnil : ∃ l, y.stored = y.stored ++ l := ⟨[], by simp⟩
  cases a with
  | emit k =>
    simp only [Sys.step]
    split
    · exact ⟨hnil, fun p hp => List.mem_append_left _ hp⟩
    · exact ⟨hnil, fun p hp => hp⟩
  | receive b =>
    simp only [Sys.step]
    split
    · split <;> exact ⟨hnil, fun p hp => hp⟩
    · exact ⟨hnil, fun p hp => hp⟩
  | storeFails t =>
    simp only [Sys.step]
    split
    · exact ⟨⟨_, rfl⟩, fun p hp => hp⟩
    · exact ⟨hnil, fun p hp => hp⟩
  | storeOk =>
    simp only [Sys.step]
    split
    · exact ⟨⟨_, rfl⟩, fun p hp => hp⟩
    · exact ⟨hnil, fun p hp => hp⟩
  | saveOk =>
    simp only [Sys.step]
    split <;> exact ⟨hnil, fun p hp => hp⟩
  | saveFails b =>
    simp only [Sys.step]
    split <;> exact ⟨hnil, fun p hp => hp⟩
  | _ => exact ⟨hnil, fun p hp => hp⟩

/-- The state written is true. -/
theorem savedBy_ok {w : World} {env : Env} {y : Sys} (hi : SysInv w env y) (a : Act) (log : Text) (s : WState) (h : savedBy y a = some (log, s)) :
    StateOk w log (eventsOf log y.seen) y.stored s := by
  unfold savedBy at h
  split at h
  · split at h
    · rename_i hp; cases h; exact (hi.saving _ hp).2 _ _ rfl
    · cases h
  · split at h
    · rename_i hp; cases h; exact (hi.saving _ hp).2 _ _ rfl
    · cases h
  · cases h

theorem winv_step {H : Bytes → Bytes} {mt : Meta} {w : World} {env : Env} (hid : ∀ log, (mt.id log).length = 32) (hH : ∀ x, (env.H x).length = 32) {v : Whole}
    (hi : WInv H mt w env v) (a : WAct) (ha : WAllowed w env v a) : WInv H mt w env (v.step H mt env a) := by
  have hres : ∀ st, v.db.ctlogs = some st → ∀ s ∈ st, Pub H mt w v.y v.db.ever s := by
    intro st hst s hs
    obtain ⟨log, s', hv, h1, h2, h3, h4, h5⟩ := hi.states.ctlogs st hst s hs
    exact ⟨log, s', hv, h1, h2, h3, h4, fun x hx => hi.ever x (h4 x hx)⟩
  cases a with
  | other c =>
    unfold Whole.step
    dsimp only
    split
    · rename_i ho
      have he := step_eff v.db c ha
      have hl := other_logs v.db c ho ha
      refine ⟨hi.sys, dbInv_eff hi.dbi he, pubInv_eff hi.dbi hi.pub he, fun x hx => ?_, pubAll_eff pub_mono_have hi.states hres ?_ he⟩
      · dsimp only; rw [hl.2]; exact hi.ever x hx
      · intro s hs
        have h1 : v.db.logs = putLog v.db.logs (logKey s.shortURL) s := by
          have := congrArg Db.logs hs
          rw [hl.1] at this
          exact this
        have h2 : (logKey s.shortURL, s) ∈ v.db.logs := by
          rw [h1]; exact List.mem_cons_self ..
        exact hi.states.logs _ h2
    · exact hi
  | restart =>
    have he := step_eff v.db .ensure trivial
    have hsl : ∀ s, v.db.step .ensure = { v.db with logs := putLog v.db.logs (logKey s.shortURL) s } → Pub H mt w v.y v.db.ever s := by
      intro s hs
      have hm : (logKey s.shortURL, s) ∈ (v.db.step .ensure).logs := by rw [hs]; exact List.mem_cons_self ..
      have hcase : (v.db.step .ensure).logs = v.db.logs ∨ some (v.db.step .ensure).logs = v.db.restored := by
        show v.db.ensure.logs = v.db.logs ∨ some v.db.ensure.logs = v.db.restored
        unfold Db.ensure
        split
        · split
          · exact Or.inl rfl
          · split
            · exact Or.inl rfl
            · rename_i hr; exact Or.inr hr.symm
        · exact Or.inl rfl
      rcases hcase with h | h
      · rw [h] at hm; exact hi.states.logs _ hm
      · unfold Db.restored at h
        split at h
        · cases h
        · rename_i ss hss
          have h := Option.some.inj h
          rw [h] at hm
          rcases mem_putAll ss [] _ hm with h3 | h3
          · exact hres ss hss s h3.2
          · cases h3
    have hev : (v.db.step .ensure).ever = v.db.ever := by
      show v.db.ensure.ever = v.db.ever
      unfold Db.ensure
      split
      · split
        · rfl
        · split <;> rfl
      · rfl
    have hst := pubAll_eff pub_mono_have hi.states hres hsl he
    have hsys := sysInv_step hH hi.sys .crash trivial
    have hstored : (v.y.step env .crash).stored = v.y.stored := rfl
    have hseen : (v.y.step env .crash).seen = v.y.seen := rfl
    refine ⟨⟨fun log => ?_, hsys.chan, hsys.storing, hsys.saving, hsys.workers, hsys.evs, hsys.seen⟩, dbInv_eff hi.dbi he, pubInv_eff hi.dbi hi.pub he,
      fun x hx => ?_, hst⟩
    · show StateOk w log (eventsOf log v.y.seen) v.y.stored (loadState (v.db.step .ensure).logs log)
      unfold loadState
      split
      · rename_i p hp
        split
        · rename_i hurl
          obtain ⟨log', s', hv, h1, h2, h3, h4, h5⟩ := hst.logs p (List.mem_of_find?_eq_some hp)
          have : log' = log := by rw [h1] at hurl; exact hurl
          subst this
          rw [h1, decState_encState mt log' s' h2]
          exact h3.mono (fun e h => h) h4
        · exact stateOk_newLog w log _ _
      · exact stateOk_newLog w log _ _
    · show encItem H mt x ∈ (v.db.step .ensure).ever
      rw [hev]
      exact hi.ever x hx
  | fetch a =>
    obtain ⟨ha1, ha2, ha3⟩ := ha
    obtain ⟨⟨new, hnew⟩, hgrow⟩ := step_grows env v.y a
    have hsys := sysInv_step hH hi.sys a ha1
    have hdrop : (v.y.step env a).stored.drop v.y.stored.length = new := by rw [hnew]; simp
    have hins : Eff v.db (v.db.step (.insert (new.map (encItem H mt)))) := by
      refine step_eff v.db _ (fun p hp => ?_)
      obtain ⟨x, hx, rfl⟩ := List.mem_map.1 hp
      show (asSerial (newMember _ _ _)).length < 32768
      rw [(C01_member_roundtrip _ _ _ (hid _)).1]
      exact ha3 x (by rw [hnew]; exact List.mem_append_right _ hx)
    have d1 := dbInv_eff hi.dbi hins
    have p1 := pubInv_eff hi.dbi hi.pub hins
    have hst1 : PubAll (Pub H mt w v.y) (v.db.step (.insert (new.map (encItem H mt)))) := by
      refine pubAll_eff pub_mono_have hi.states hres (fun s hs => ?_) hins
      have hm : (logKey s.shortURL, s) ∈ (v.db.step (.insert (new.map (encItem H mt)))).logs := by rw [hs]; exact List.mem_cons_self ..
      exact hi.states.logs _ hm
    have hever : ∀ x ∈ (v.y.step env a).stored, encItem H mt x ∈ (v.db.step (.insert (new.map (encItem H mt)))).ever := by
      intro x hx
      rw [hnew] at hx
      show encItem H mt x ∈ new.map (encItem H mt) ++ v.db.ever
      rcases List.mem_append.1 hx with hx | hx
      · exact List.mem_append_right _ (hi.ever x hx)
      · exact List.mem_append_left _ (List.mem_map_of_mem hx)
    have hstored : ∀ x ∈ v.y.stored, x ∈ (v.y.step env a).stored := fun x hx => by rw [hnew]; exact List.mem_append_left _ hx
    unfold Whole.step
    dsimp only
    unfold dbActs
    rw [hdrop]
    cases hsv : savedBy v.y a with
    | none => exact ⟨hsys, d1, p1, hever, hst1.imp (fun b s h => pub_mono_sys hgrow hstored b s h)⟩
    | some p =>
      obtain ⟨log, s⟩ := p
      have he2 := step_eff (v.db.step (.insert (new.map (encItem H mt)))) (.saveLog (encState mt log s)) trivial
      refine ⟨hsys, dbInv_eff d1 he2, pubInv_eff d1 p1 he2, hever, ?_⟩
      refine PubAll.imp (fun b s h => pub_mono_sys hgrow hstored b s h) (P := Pub H mt w v.y) ?_
      have hnewpub : Pub H mt w v.y (v.db.step (.insert (new.map (encItem H mt)))).ever (encState mt log s) :=
        ⟨log, s, v.y.stored, rfl, ha2 log s hsv, savedBy_ok hi.sys a log s hsv, fun x hx => hx, fun x hx => hever x (hstored x hx)⟩
      refine ⟨fun q hq => ?_, fun q hq => ?_, hst1.loading, hst1.loaded, hst1.listing, hst1.moving, hst1.ctlogs⟩
      · rcases mem_putLog hq with rfl | hq
        · rfl
        · exact hst1.keys q hq
      · rcases mem_putLog hq with rfl | hq
        · exact hnewpub
        · exact hst1.logs q hq

theorem winv_run {H : Bytes → Bytes} {mt : Meta} {w : World} {env : Env} (hid : ∀ log, (mt.id log).length = 32) (hH : ∀ x, (env.H x).length = 32)
    (acts : List WAct) : ∀ v, WInv H mt w env v → WAllAllowed H mt w env v acts → WInv H mt w env (v.run H mt env acts) := by
  induction acts with
  | nil => intro v h _; exact h
  | cons a as ih => intro v h ha; exact ih _ (winv_step hid hH h a ha.1) ha.2

theorem winv_init (H : Bytes → Bytes) (mt : Meta) (w : World) (env : Env) : WInv H mt w env Whole.init :=
  ⟨sysInv_init w env, dbInv_init, pubInv_init, (fun x h => by cases h),
   ⟨(fun p h => by cases h), (fun p h => by cases h), (fun _ _ _ h => by cases h), (fun _ _ _ h => by cases h), (fun _ _ _ _ h => by cases h),
    (fun _ _ _ _ _ h => by cases h), (fun _ h => by cases h)⟩⟩

/-- An item carries the timestamp of its entry. -/
theorem stored_timestamp {k : Bool} {now : Nat} {e : RawEntry} {it : Item} (h : outItem (storeLogEntry k now e) = some it) : it.timestamp = e.timestamp := by
  unfold storeLogEntry at h
  split at h
  · cases h
  · split at h
    · cases h
    · split at h
      · cases h
      · cases h
      · split at h
        · split at h
          · cases h
          · cases h
          · cases h; rfl
        · cases h; rfl

theorem stored_tiled_timestamp {k : Bool} {e : TEntry} {it : Item} (h : outItem (storeTiledEntry k e) = some it) : it.timestamp = e.timestamp := by
  unfold storeTiledEntry at h
  split at h
  · cases h
  · split at h
    · cases h
    · split at h
      · cases h
      · cases h
      · cases h
      · split at h
        · split at h
          · cases h
          · cases h
          · cases h
          · cases h; rfl
        · cases h; rfl

/-- An event has the timestamp of its leaf, and so has its item. -/
theorem evOk_timestamp {w : World} {env : Env} {log : Text} {tsOf : Bytes → Nat} (h1 : ∀ x y e, env.parse x y = some e → e.timestamp = tsOf x)
    (h2 : ∀ te, w.TL log te → te.timestamp = tsOf te.input) {i t : Nat} {x : Bytes} {item : Option Item} (h : EvOk w env log (.entry i x t item)) :
    t = tsOf x ∧ ∀ it, item = some it → it.timestamp = tsOf x := by
  rcases h with ⟨s, h⟩ | ⟨_, l, _, ⟨e, he, _⟩, pos, hp⟩ | ⟨_, te, hte, pos, _, _, hp⟩
  · cases h
  · unfold leafEvent at hp
    rw [he] at hp
    simp only [Ev.entry.injEq] at hp
    obtain ⟨_, h3, h4, h5⟩ := hp
    have := h1 _ _ _ he
    refine ⟨by rw [← h3, ← h4]; exact this, fun it hit => ?_⟩
    rw [← h3, ← this]
    exact stored_timestamp (h5.trans hit)
  · simp only [Ev.entry.injEq] at hp
    obtain ⟨_, h3, h4, h5⟩ := hp
    have := h2 _ hte
    refine ⟨by rw [h3, h4]; exact this, fun it hit => ?_⟩
    rw [h3, ← this]
    exact stored_tiled_timestamp (h5.symm.trans hit)

theorem keyID_encState (mt : Meta) (hid : ∀ log, (mt.id log).length = 32) (log : Text) (s : WState) : (encState mt log s).keyID = some (mt.id log) := by
  unfold CTLogState.keyID encState
  dsimp only
  rw [b64Decode_b64Encode]
  simp [hid log]

/-- The bin a certificate belongs into: that of its issuer, for the hour in which it expires. -/
def Spec.HourBin (H : Bytes → Bytes) (it : Item) (b : Bin) : Prop :=
  b.issuer = b64Encode true (H it.issuerKey) ∧ b.unix % 3600 = 0 ∧ b.unix ≤ (it.notAfter : Int) ∧ (it.notAfter : Int) < b.unix + 3600

theorem hourBin_eq {H : Bytes → Bytes} {it : Item} {b : Bin} (h : Spec.HourBin H it b) : b = itemBin H it := by
  obtain ⟨h1, h2, h3, h4⟩ := h
  obtain ⟨u, i⟩ := b
  unfold itemBin
  dsimp only at h1 h2 h3 h4
  rw [Bin.mk.injEq]
  exact ⟨by omega, h1⟩

/-- **C41 (partial).** For every run of ct-fetch and of commits on one database, in any interleaving, with restarts and failures anywhere (except loss of the
Redis data): if the published log states give log `log` the coverage cutoff `c`, the log honours its merge delay, and entry `x` of the log has a timestamp before
`c`, then the entry was downloaded and checked, and the serial number of its certificate is in the storage file of its bin until the bin expires. For RFC 6962
logs the published state must reach back to entry 0. Missing: entries with timestamp exactly `c` (`C24_boundary_fails`), entry 0 of tiled logs (`C25_tiled_fails`),
and histories that lose Redis data (`C32_cache_loss_fails`). -/
theorem C41_published_partial (H : Bytes → Bytes) (mt : Meta) (w : World) (env : Env) (hid : ∀ log, (mt.id log).length = 32)
    (hH : ∀ x, (env.H x).length = 32) (acts : List WAct) (ha : WAllAllowed H mt w env Whole.init acts)
    (log : Text) (huniq : ∀ a, mt.id a = mt.id log → a = log) (N : Nat) (ts merged : Nat → Nat) (tsOf : Bytes → Nat) (hm : (mt.mmd log).toNat * 1000 < 2 ^ 64)
    (hd : MergeDelay N ((mt.mmd log).toNat * 1000) ts merged) (ht : HonestTimes w env log N ts merged tsOf)
    (sts : List CTLogState) (hst : (Whole.init.run H mt env acts).db.ctlogs = some sts) (c : UInt64)
    (hc : newCoverageCutoffMap sts (mt.id log) = some c) (x : Nat) (hx : x < N) (hxc : ts x < c.toNat)
    (hback : w.tiled log = false → ∀ s ∈ sts, s.shortURL = log → s.minEntry = 0 ∧ s.lastUpdateTime ≠ none) (htiled : w.tiled log = true → 1 ≤ x) :
    ∃ input item, (log, Ev.entry x input (ts x) item) ∈ (Whole.init.run H mt env acts).y.seen ∧ w.G log x input ∧
      ∀ it, item = some it → ∀ b, Spec.HourBin H it b → Live b (Whole.init.run H mt env acts).db.now →
        Stored (Whole.init.run H mt env acts).db b it.serial := by
  have hi := winv_run hid hH acts _ (winv_init H mt w env) ha
  generalize Whole.init.run H mt env acts = v at *
  -- the state behind the cutoff
  have hcut : ∃ s ∈ sts, s.keyID = some (mt.id log) ∧ c = s.coverageCutoff := by
    unfold newCoverageCutoffMap at hc
    rw [foldl_cutoff] at hc
    split at hc
    · rename_i s hs
      have h1 := List.mem_of_find?_eq_some hs
      have h2 := List.find?_some hs
      exact ⟨s, List.mem_reverse.1 h1, by simpa using h2, (Option.some.inj hc).symm⟩
    · cases hc
  obtain ⟨st, hmem, hkey, rfl⟩ := hcut
  obtain ⟨log', s, hv, rfl, hfit, hok, hsub, hsee⟩ := hi.states.ctlogs sts hst st hmem
  have : log' = log := by
    rw [keyID_encState mt hid] at hkey
    exact huniq _ (Option.some.inj hkey)
  subst this
  have hmts : (UInt64.ofNat s.maxTs).toNat = s.maxTs := UInt64.toNat_ofNat_of_lt' hfit.2.2.2
  have hmin : (UInt64.ofNat s.minEntry).toNat = s.minEntry := UInt64.toNat_ofNat_of_lt' hfit.1
  have hcn : (encState mt log' s).coverageCutoff.toNat = s.maxTs - (mt.mmd log').toNat * 1000 := by
    have h := coverageCutoff_toNat (encState mt log' s) hm
    have h2 : (encState mt log' s).maxTimestamp.toNat = s.maxTs := hmts
    rw [h2] at h
    exact h
  rw [hcn] at hxc
  have hev : ∀ i y t item, Ev.entry i y t item ∈ eventsOf log' v.y.seen → t = tsOf y ∧ ∀ it, item = some it → it.timestamp = tsOf y :=
    fun i y t item h => evOk_timestamp ht.parse ht.tiled (hi.sys.seen log' _ (mem_eventsOf.1 h))
  have hback' : w.tiled log' = false → s.minEntry = 0 ∧ s.lastUpdate ≠ none := by
    intro h
    obtain ⟨h1, h2⟩ := hback h _ hmem rfl
    refine ⟨?_, h2⟩
    rw [← hmin]
    have h1 : UInt64.ofNat s.minEntry = 0 := h1
    rw [h1]; rfl
  have hatt : Attained (w.T log') (w.G log') (eventsOf log' v.y.seen) s := by
    cases hw : w.tiled log' with
    | true => exact hok.att hw
    | false => exact Or.inr (hok.ts hw (hback' hw).2).2.2
  have hp := hd.promise x hx
  have hle : x ≤ s.maxEntry := by
    rcases hatt with h | ⟨h, h1, h2, h3⟩ | ⟨j, y, item, h1, h2, h3⟩
    · omega
    · have := ht.head h h1 x hx (by omega)
      omega
    · obtain ⟨hj, hjt⟩ := ht.leaf j y h2
      have h4 := (hev _ _ _ _ h3).1
      have := hd.past j hj
      rcases Nat.lt_or_ge j x with hlt | hge
      · have := hd.order j x (by omega) hx
        omega
      · omega
  have hclaim : Claimed (w.tiled log') s x := by
    unfold Claimed
    split
    · rename_i hw; exact ⟨htiled hw, hle⟩
    · rename_i hw
      have h := hback' (by simpa using hw)
      exact ⟨h.2, by omega, hle⟩
  obtain ⟨input, t, item, hm1, hm2, hm3⟩ := hok.acc x hclaim
  obtain ⟨e1, e2⟩ := hev _ _ _ _ hm1
  have e3 := (ht.leaf x input hm2).2
  refine ⟨input, item, ?_, hm2, fun it hit b hb hl => ?_⟩
  · rw [← e3, ← e1]; exact mem_eventsOf.1 hm1
  · rw [hourBin_eq hb] at hl ⊢
    have hsm := hsee _ (hm3 it hit)
    have hroundtrip := C01_member_roundtrip (UInt64.ofNat it.timestamp) (mt.id log') it.serial (hid log')
    have hits : it.timestamp = ts x := (e2 it hit).trans e3
    have hcov : isCovered (newCoverageCutoffMap sts) (newMember (UInt64.ofNat it.timestamp) (mt.id log') it.serial) = true := by
      unfold isCovered
      split
      · rfl
      · rw [hroundtrip.2.2, hc, hroundtrip.2.1]
        dsimp only
        have hlt : it.timestamp < 2 ^ 64 := by have := hfit.2.2.2; omega
        rw [hcn, UInt64.toNat_ofNat_of_lt' hlt]
        exact decide_eq_true (by omega)
    have := hi.pub.pub sts hst (itemBin H it) _ hsm hl hcov
    rw [hroundtrip.1] at this
    exact this

/-! ### A run that meets the hypotheses -/

/-- A hash that depends on all bytes. -/
def wHash (x : Bytes) : Bytes :=
  let v := x.foldl (fun a b => (a * 257 + b.toNat + 1) % 65521) 1
  UInt8.ofNat (v / 256) :: UInt8.ofNat v :: List.replicate 30 0

def wLeaves : List Bytes := [[10], [20], [30], [200]]
def wTimes (i : Nat) : Nat := (((wLeaves[i]?).getD []).head?.getD 0).toNat * 100
def wCert : Cert := { serial := [1, 2], notAfter := 1700002800, key := [9], preIssuer := false }
def wEnv : Env :=
  { H := wHash, parse := fun x _ => some ⟨(x.head?.getD 0).toNat * 100, false, some wCert, [some wCert]⟩, keepExpired := false }
def wWorld : World :=
  { tiled := fun _ => false, G := fun _ i x => wLeaves[i]? = some x, L := fun _ l => l.time = 1, TL := fun _ _ => False,
    T := fun _ h => h.treeSize = 4 ∧ h.timestamp = 20000 }

def wMeta : Meta := { id := fun l => if l = ['a'] then List.replicate 32 0 else List.replicate 32 1, mmd := fun _ => 1 }

def wProof : List Bytes := honestProof wHash wLeaves (proofOldSize 0) 4
def wServed : List Resp := [.entries ([[10], [20]].map (fun x => ⟨x, [], 1⟩)), .entries [⟨[30], [], 1⟩], .entries [⟨[200], [], 1⟩]]

/-- One worker downloads the whole log; then a commit. -/
def wFetch : List Act :=
  .start ['a'] 4 1000 (some ⟨4, 20000⟩) (some wProof) wServed ::
    (List.replicate 7 (.emit 0) ++ (List.replicate 7 (.receive 100)).flatMap (fun a => [a, .storeOk, .saveOk]))

def wBin : Bin := itemBin wHash ⟨[1, 2], 1700002800, [9], 0⟩

example : Spec.HourBin wHash ⟨[1, 2], 1700002800, [9], 0⟩ wBin ∧ Spec.HourBin wHash ⟨[1, 2], 1700006399, [9], 0⟩ wBin := by unfold Spec.HourBin; decide +kernel

def wMembers : List Bytes := [1000, 2000, 3000, 20000].map (fun t => newMember t (List.replicate 32 0) [1, 2])

/-- A restart between fetching and the commit, and a second commit after it. -/
def wActs : List WAct :=
  wFetch.map .fetch ++ [.restart] ++ ([.begin false true, .readLog (logKey ['a']), .loadedAll, .listStart, .listEnd [wBin], .jobStart wBin, .jobListed 0 wMembers,
    .jobRead 0, .jobWrite 0, .jobRemove 0 wMembers, .jobFinish 0, .replaceLogs, .nextEpoch, .replaceEpoch].map .other)

def wState : CTLogState := encState wMeta ['a'] ⟨0, 3, 1000, 20000, some 1000⟩

theorem wActs_result : (Whole.init.run wHash wMeta wEnv wActs).db.ctlogs = some [wState] ∧
    newCoverageCutoffMap [wState] (List.replicate 32 0) = some 19000 ∧
    readSerialsFromStorage wBin.unix ((Whole.init.run wHash wMeta wEnv wActs).db.files wBin) = .ok [[1, 2]] := by
  decide +kernel

instance (s : WState) : Decidable (Fits s) := by unfold Fits; infer_instance
instance (b : Bin) : Decidable (InRange b) := by unfold InRange; infer_instance

/-- A check of the conditions of `WAllowed` that does not cover the start of a job. -/
def quietStep (env : Env) (v : Whole) : WAct → Bool
  | .fetch a => Quiet a && (match savedBy v.y a with
      | none => true
      | some p => decide (Fits p.2)) && (v.y.step env a).stored.all (fun x => decide (x.2.serial.length < 32768))
  | .other (.insert _) => false
  | .other .wipe => false
  | .other (.listEnd bs) => decide bs.Nodup && bs.all (fun b => decide (InRange b))
  | .other _ => true
  | .restart => true

def quietRun (H : Bytes → Bytes) (mt : Meta) (env : Env) : Whole → List WAct → Bool
  | _, [] => true
  | v, a :: as => quietStep env v a && quietRun H mt env (v.step H mt env a) as

theorem quietStep_allowed {w : World} {env : Env} {v : Whole} {a : WAct} (h : quietStep env v a = true) : WAllowed w env v a := by
  cases a with
  | restart => trivial
  | other c =>
    cases c <;> first | trivial | (cases h; done) | skip
    simp only [quietStep, Bool.and_eq_true, decide_eq_true_eq, List.all_eq_true] at h
    exact h
  | fetch a =>
    simp only [quietStep, Bool.and_eq_true, List.all_eq_true, decide_eq_true_eq] at h
    obtain ⟨⟨h1, h2⟩, h3⟩ := h
    refine ⟨?_, fun log s hs => ?_, fun x hx => h3 x hx⟩
    · cases a <;> first | trivial | (cases h1; done)
    · rw [hs] at h2
      exact of_decide_eq_true h2

theorem quietRun_allowed {H : Bytes → Bytes} {mt : Meta} {w : World} {env : Env} (acts : List WAct) : ∀ v, quietRun H mt env v acts = true →
    WAllAllowed H mt w env v acts := by
  induction acts with
  | nil => intro v _; trivial
  | cons a as ih =>
    intro v h
    simp only [quietRun, Bool.and_eq_true] at h
    exact ⟨quietStep_allowed h.1, ih _ h.2⟩

theorem wActs_allowed : WAllAllowed wHash wMeta wWorld wEnv Whole.init wActs := by
  have hcons : wActs = .fetch (.start ['a'] 4 1000 (some ⟨4, 20000⟩) (some wProof) wServed) :: wActs.tail := rfl
  rw [hcons]
  refine ⟨⟨⟨rfl, sane_new 4 20000 (by decide) (by decide), ?_, (by decide : ∀ l ∈ servedLeaves wServed, l.time = 1), ?_⟩, (fun _ _ h => by cases h), (fun x h => by cases h)⟩,
    quietRun_allowed _ _ (by decide +kernel)⟩
  · intro h e; cases e; exact ⟨rfl, rfl⟩
  · intro h r p e1 e2 e3 bf us hus t ht xs hsub hlen hroot k x hx
    cases e1
    cases e3
    have hr : r = (0, 3) := by
      have : jobRange 4 newLog 4 (chooseTask 4 1000 newLog (some ⟨4, 20000⟩)) = some (0, 3) := by decide
      exact Option.some.inj (e2.symm.trans this)
    subst hr
    have hserved : servedInputs wServed = wLeaves := by decide
    rw [hserved] at hsub
    have hu : jobSubtrees bf 0 3 wProof = some (if bf then [⟨mth wHash [[200]], 3, 3⟩, ⟨mth wHash [[30]], 2, 2⟩, ⟨mth wHash [[10], [20]], 0, 1⟩]
        else [⟨mth wHash [[10], [20]], 0, 1⟩, ⟨mth wHash [[30]], 2, 2⟩, ⟨mth wHash [[200]], 3, 3⟩]) := by
      cases bf <;> decide +kernel
    have hu2 := Option.some.inj (hus.symm.trans hu)
    have ht2 : t = ⟨mth wHash [[10], [20]], 0, 1⟩ ∨ t = ⟨mth wHash [[30]], 2, 2⟩ ∨ t = ⟨mth wHash [[200]], 3, 3⟩ := by
      rw [hu2] at ht
      cases bf
      · simpa using ht
      · simp only [if_pos, List.mem_cons, List.not_mem_nil, or_false] at ht
        rcases ht with h | h | h
        · exact Or.inr (Or.inr h)
        · exact Or.inr (Or.inl h)
        · exact Or.inl h
    have hmem : ∀ y ∈ xs, y ∈ wLeaves := fun y hy => hsub.subset hy
    have key1 : ∀ a ∈ wLeaves, (mth wHash [a] = mth wHash [[30]] → a = [30]) ∧ (mth wHash [a] = mth wHash [[200]] → a = [200]) := by decide +kernel
    have key2 : ∀ a ∈ wLeaves, ∀ b ∈ wLeaves, mth wHash [a, b] = mth wHash [[10], [20]] → a = [10] ∧ b = [20] := by decide +kernel
    rcases ht2 with rfl | rfl | rfl
    · match xs, hlen, hmem, hroot, hx with
      | [a, b], _, hmem, hroot, hx =>
        obtain ⟨rfl, rfl⟩ := key2 a (hmem a (by simp)) b (hmem b (by simp)) hroot
        match k, hx with
        | 0, hx => exact hx
        | 1, hx => exact hx
    · match xs, hlen, hmem, hroot, hx with
      | [a], _, hmem, hroot, hx =>
        have := (key1 a (hmem a (by simp))).1 hroot
        subst this
        match k, hx with
        | 0, hx => exact hx
    · match xs, hlen, hmem, hroot, hx with
      | [a], _, hmem, hroot, hx =>
        have := (key1 a (hmem a (by simp))).2 hroot
        subst this
        match k, hx with
        | 0, hx => exact hx

theorem w_mergeDelay : MergeDelay 4 1000 wTimes wTimes := by
  refine ⟨?_, fun i _ => by omega, fun i _ => by omega⟩
  intro i j hij hj
  have key : ∀ j : Fin 4, ∀ i : Fin 4, i.1 ≤ j.1 → wTimes i ≤ wTimes j := by decide
  exact key ⟨j, hj⟩ ⟨i, by omega⟩ hij

theorem w_honest (log : Text) : HonestTimes wWorld wEnv log 4 wTimes wTimes (fun x => (x.head?.getD 0).toNat * 100) := by
  refine ⟨?_, fun _ h => h.elim, ?_, ?_⟩
  · intro x y e h; cases h; rfl
  · intro i x h
    have h : wLeaves[i]? = some x := h
    have hi : i < 4 := by
      have := (List.getElem?_eq_some_iff.1 h).1
      simpa [wLeaves] using this
    refine ⟨hi, ?_⟩
    unfold wTimes
    rw [h]
    rfl
  · intro h hT i hi _
    rw [hT.1]
    exact hi

/-- All hypotheses of `C41_published_partial` hold for this run and entry 2, whose certificate is stored. -/
example : WAllAllowed wHash wMeta wWorld wEnv Whole.init wActs ∧ (∀ log, (wMeta.id log).length = 32) ∧ (∀ x, (wEnv.H x).length = 32) ∧
    (∀ a, wMeta.id a = wMeta.id ['a'] → a = ['a']) ∧ (wMeta.mmd ['a']).toNat * 1000 < 2 ^ 64 ∧
    MergeDelay 4 ((wMeta.mmd ['a']).toNat * 1000) wTimes wTimes ∧
    HonestTimes wWorld wEnv ['a'] 4 wTimes wTimes (fun x => (x.head?.getD 0).toNat * 100) ∧
    (Whole.init.run wHash wMeta wEnv wActs).db.ctlogs = some [wState] ∧ newCoverageCutoffMap [wState] (wMeta.id ['a']) = some 19000 ∧
    wTimes 2 < (19000 : UInt64).toNat ∧ (∀ s ∈ [wState], s.shortURL = ['a'] → s.minEntry = 0 ∧ s.lastUpdateTime ≠ none) ∧
    Live wBin (Whole.init.run wHash wMeta wEnv wActs).db.now := by
  refine ⟨wActs_allowed, ?_, fun x => rfl, ?_, by decide, w_mergeDelay, w_honest _, wActs_result.1, wActs_result.2.1, by decide, ?_, ?_⟩
  · intro log
    unfold wMeta
    dsimp only
    split <;> rfl
  · intro a h
    unfold wMeta at h
    dsimp only at h
    split at h
    · assumption
    · exact absurd h (by decide)
  · intro s hs _
    simp only [List.mem_singleton] at hs
    subst hs
    decide
  · unfold Live
    decide +kernel

end Verif.Props
