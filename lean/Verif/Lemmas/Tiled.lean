import Verif.Spec.Tiled
/-! Lemmas about the jobs of a tiled log. -/
namespace Verif
open Verif.Spec

/-! ### requests for issuers -/

theorem lookupCert_mem {m : List (Bytes × Cert)} {fp : Bytes} {c : Cert} (h : lookupCert m fp = some c) : (fp, c) ∈ m := by
  induction m with
  | nil => simp [lookupCert] at h
  | cons x m ih =>
    obtain ⟨k, d⟩ := x
    simp only [lookupCert] at h
    split at h
    · rename_i hk
      cases h
      subst hk
      exact List.mem_cons_self ..
    · exact List.mem_cons_of_mem _ (ih h)

theorem lookupCert_none {m : List (Bytes × Cert)} {fp : Bytes} (h : lookupCert m fp = none) : ∀ c, (fp, c) ∉ m := by
  induction m with
  | nil => simp
  | cons x m ih =>
    obtain ⟨k, d⟩ := x
    simp only [lookupCert] at h
    split at h
    · cases h
    · rename_i hk
      intro c hm
      rcases List.mem_cons.1 hm with h1 | h1
      · cases h1; exact hk rfl
      · exact ih h c h1

/-- The cases of a request. -/
theorem getCertificate_cases (w : TNet) (st : Issuers) (fp : Bytes) :
    (∃ c, lookupCert st.map fp = some c ∧ getCertificate w st fp = (.cert c, st)) ∨
    (lookupCert st.map fp = none ∧ w.ask st.asked.length fp = none ∧
      getCertificate w st fp = (.intermittent, ⟨st.map, st.asked ++ [(fp, none)]⟩)) ∨
    (∃ d, lookupCert st.map fp = none ∧ w.ask st.asked.length fp = some d ∧ w.pc d = none ∧
      getCertificate w st fp = (.fatal, ⟨st.map, st.asked ++ [(fp, some d)]⟩)) ∨
    (∃ d c, lookupCert st.map fp = none ∧ w.ask st.asked.length fp = some d ∧ w.pc d = some c ∧
      getCertificate w st fp = (.cert c, ⟨(fp, c) :: st.map, st.asked ++ [(fp, some d)]⟩)) := by
  unfold getCertificate
  cases h : lookupCert st.map fp with
  | some c => exact .inl ⟨c, rfl, rfl⟩
  | none =>
    refine .inr ?_
    dsimp only
    cases h2 : w.ask st.asked.length fp with
    | none => exact .inl ⟨rfl, rfl, rfl⟩
    | some d =>
      refine .inr ?_
      dsimp only
      cases h3 : w.pc d with
      | none => exact .inl ⟨d, rfl, rfl, h3, rfl⟩
      | some c => exact .inr ⟨d, c, rfl, rfl, h3, rfl⟩

theorem getCertificate_again {w : TNet} {st : Issuers} {fp : Bytes} {c : Cert} (h : (getCertificate w st fp).1 = .cert c) :
    lookupCert (getCertificate w st fp).2.map fp = some c := by
  rcases getCertificate_cases w st fp with ⟨d, h1, h2⟩ | ⟨_, _, h2⟩ | ⟨d, _, _, _, h2⟩ | ⟨d, e, _, _, _, h2⟩
  · rw [h2] at h ⊢; cases h; exact h1
  · rw [h2] at h; cases h
  · rw [h2] at h; cases h
  · rw [h2] at h ⊢; cases h; simp [lookupCert]

/-- The cases of storing an entry. -/
inductive Stored (w : TNet) (st : Issuers) (time : Nat) (e : SunEntry) : Outcome → Issuers → Prop
  | noCert : w.pc (certBytes e) = none → Stored w st time e .fatal st
  | expired {c : Cert} : w.pc (certBytes e) = some c → c.notAfter < time → w.keep = false → Stored w st time e .skip st
  | selfSigned {c : Cert} : w.pc (certBytes e) = some c → ¬(c.notAfter < time ∧ w.keep = false) → e.chain = [] → Stored w st time e .skip st
  | firstFatal {c : Cert} {f : Bytes} {rest : List Bytes} : w.pc (certBytes e) = some c → ¬(c.notAfter < time ∧ w.keep = false) →
      e.chain = f :: rest → (getCertificate w st f).1 = .fatal → Stored w st time e .fatal (getCertificate w st f).2
  | firstMissing {c : Cert} {f : Bytes} {rest : List Bytes} : w.pc (certBytes e) = some c → ¬(c.notAfter < time ∧ w.keep = false) →
      e.chain = f :: rest → (getCertificate w st f).1 = .intermittent → Stored w st time e .retry (getCertificate w st f).2
  | direct {c p : Cert} {f : Bytes} {rest : List Bytes} : w.pc (certBytes e) = some c → ¬(c.notAfter < time ∧ w.keep = false) →
      e.chain = f :: rest → (getCertificate w st f).1 = .cert p → p.preIssuer = false →
      Stored w st time e (.store (mkItem c p e.timestamp)) (getCertificate w st f).2
  | lone {c p : Cert} {f : Bytes} : w.pc (certBytes e) = some c → ¬(c.notAfter < time ∧ w.keep = false) →
      e.chain = [f] → (getCertificate w st f).1 = .cert p → p.preIssuer = true → Stored w st time e .fatal (getCertificate w st f).2
  | secondFatal {c p : Cert} {f g : Bytes} {rest : List Bytes} : w.pc (certBytes e) = some c → ¬(c.notAfter < time ∧ w.keep = false) →
      e.chain = f :: g :: rest → (getCertificate w st f).1 = .cert p → p.preIssuer = true →
      (getCertificate w (getCertificate w st f).2 g).1 = .fatal → Stored w st time e .fatal (getCertificate w (getCertificate w st f).2 g).2
  | secondMissing {c p : Cert} {f g : Bytes} {rest : List Bytes} : w.pc (certBytes e) = some c → ¬(c.notAfter < time ∧ w.keep = false) →
      e.chain = f :: g :: rest → (getCertificate w st f).1 = .cert p → p.preIssuer = true →
      (getCertificate w (getCertificate w st f).2 g).1 = .intermittent → Stored w st time e .retry (getCertificate w (getCertificate w st f).2 g).2
  | behind {c p i : Cert} {f g : Bytes} {rest : List Bytes} : w.pc (certBytes e) = some c → ¬(c.notAfter < time ∧ w.keep = false) →
      e.chain = f :: g :: rest → (getCertificate w st f).1 = .cert p → p.preIssuer = true →
      (getCertificate w (getCertificate w st f).2 g).1 = .cert i →
      Stored w st time e (.store (mkItem c i e.timestamp)) (getCertificate w (getCertificate w st f).2 g).2

theorem storeSunEntry_stored (w : TNet) (st : Issuers) (time : Nat) (e : SunEntry) :
    Stored w st time e (storeSunEntry w st time e).1 (storeSunEntry w st time e).2 := by
  unfold storeSunEntry
  cases hc : w.pc (certBytes e) with
  | none => exact .noCert hc
  | some c =>
    dsimp only
    by_cases hx : c.notAfter < time ∧ w.keep = false
    · rw [if_pos hx]; exact .expired hc hx.1 hx.2
    · rw [if_neg hx]
      cases hch : e.chain with
      | nil => exact .selfSigned hc hx hch
      | cons f rest =>
        dsimp only
        rcases hg : getCertificate w st f with ⟨r, st1⟩
        have e1 : (getCertificate w st f).1 = r := by rw [hg]
        have e2 : (getCertificate w st f).2 = st1 := by rw [hg]
        cases r with
        | fatal => rw [← e2]; exact .firstFatal hc hx hch e1
        | intermittent => rw [← e2]; exact .firstMissing hc hx hch e1
        | cert p =>
          dsimp only
          by_cases hp : p.preIssuer
          · rw [if_pos hp]
            unfold storeBehind
            cases rest with
            | nil => rw [← e2]; exact .lone hc hx hch e1 hp
            | cons g rest =>
              dsimp only
              rcases hg2 : getCertificate w st1 g with ⟨r2, st2⟩
              have e3 : (getCertificate w (getCertificate w st f).2 g).1 = r2 := by rw [e2, hg2]
              have e4 : (getCertificate w (getCertificate w st f).2 g).2 = st2 := by rw [e2, hg2]
              cases r2 with
              | fatal => rw [← e4]; exact .secondFatal hc hx hch e1 hp e3
              | intermittent => rw [← e4]; exact .secondMissing hc hx hch e1 hp e3
              | cert i => rw [← e4]; exact .behind hc hx hch e1 hp e3
          · rw [if_neg hp, ← e2]
            exact .direct hc hx hch e1 (by simpa using hp)

theorem entryCert_of {pc : Bytes → Option Cert} {e : SunEntry} {c : Cert} (h : pc (certBytes e) = some c) : EntryCert pc e c := by
  unfold certBytes at h
  cases hb : e.body with
  | x509 x => rw [hb] at h; exact .inl ⟨x, hb, h⟩
  | precert k t => rw [hb] at h; exact .inr ⟨k, t, hb, h⟩

theorem entryCert_bytes {pc : Bytes → Option Cert} {e : SunEntry} {c : Cert} (h : EntryCert pc e c) : pc (certBytes e) = some c := by
  unfold certBytes
  rcases h with ⟨x, hb, h⟩ | ⟨k, t, hb, h⟩ <;> rw [hb] <;> exact h

/-! ### properties of the cache that every request keeps -/

/-- A property of the cache is kept by every request. -/
def Keeps (w : TNet) (I : Issuers → Prop) : Prop := ∀ st fp, I st → I (getCertificate w st fp).2

theorem Stored.keeps {w : TNet} {I : Issuers → Prop} (hk : Keeps w I) {st st1 : Issuers} {t : Nat} {e : SunEntry} {o : Outcome}
    (h : Stored w st t e o st1) (hi : I st) : I st1 := by
  cases h with
  | noCert _ => exact hi
  | expired _ _ _ => exact hi
  | selfSigned _ _ _ => exact hi
  | firstFatal _ _ _ _ => exact hk _ _ hi
  | firstMissing _ _ _ _ => exact hk _ _ hi
  | direct _ _ _ _ _ => exact hk _ _ hi
  | lone _ _ _ _ _ => exact hk _ _ hi
  | secondFatal _ _ _ _ _ _ => exact hk _ _ (hk _ _ hi)
  | secondMissing _ _ _ _ _ _ => exact hk _ _ (hk _ _ hi)
  | behind _ _ _ _ _ _ => exact hk _ _ (hk _ _ hi)

/-- What the loop does with its first entry. -/
theorem loopTiled_cons (w : TNet) (batch now : Nat) (v : TVars) (st : Issuers) (e : SunEntry) (t : Nat) (es : List (SunEntry × Nat)) :
    (∃ st1, Stored w st t e .fatal st1 ∧ loopTiled w batch now v st ((e, t) :: es) = ([], v, st1, some .halted)) ∨
    (∃ st1, Stored w st t e .retry st1 ∧ loopTiled w batch now v st ((e, t) :: es) = ([], v, st1, some .slept)) ∨
    (∃ o st1, Stored w st t e o st1 ∧ o ≠ .fatal ∧ o ≠ .retry ∧ batch = 0 ∧
      loopTiled w batch now v st ((e, t) :: es) = ([sunEvent (advanceTiled v e) e o], advanceTiled v e, st1, some .crashed)) ∨
    (∃ o st1, Stored w st t e o st1 ∧ o ≠ .fatal ∧ o ≠ .retry ∧ 0 < batch ∧ (v.maxEntry + 1) % batch = 0 ∧
      loopTiled w batch now v st ((e, t) :: es) =
        (sunEvent (advanceTiled v e) e o :: .state (saveTiled now (advanceTiled v e)).state ::
          (loopTiled w batch now (saveTiled now (advanceTiled v e)) st1 es).1,
         (loopTiled w batch now (saveTiled now (advanceTiled v e)) st1 es).2)) ∨
    (∃ o st1, Stored w st t e o st1 ∧ o ≠ .fatal ∧ o ≠ .retry ∧ 0 < batch ∧ (v.maxEntry + 1) % batch ≠ 0 ∧
      loopTiled w batch now v st ((e, t) :: es) =
        (sunEvent (advanceTiled v e) e o :: (loopTiled w batch now (advanceTiled v e) st1 es).1,
         (loopTiled w batch now (advanceTiled v e) st1 es).2)) := by
  have hs := storeSunEntry_stored w st t e
  rcases hq : storeSunEntry w st t e with ⟨o, st1⟩
  rw [hq] at hs
  simp only [loopTiled, hq]
  have main : ∀ o, Stored w st t e o st1 → o ≠ .fatal → o ≠ .retry →
      ((batch = 0) ∨ (0 < batch ∧ (v.maxEntry + 1) % batch = 0) ∨ (0 < batch ∧ (v.maxEntry + 1) % batch ≠ 0)) := by
    intro _ _ _ _
    by_cases hb : batch = 0
    · exact .inl hb
    · by_cases hm : (v.maxEntry + 1) % batch = 0
      · exact .inr (.inl ⟨by omega, hm⟩)
      · exact .inr (.inr ⟨by omega, hm⟩)
  cases o with
  | fatal => exact .inl ⟨st1, hs, rfl⟩
  | retry => exact .inr (.inl ⟨st1, hs, rfl⟩)
  | skip =>
    refine .inr (.inr ?_)
    rcases main _ hs (fun h => by cases h) (fun h => by cases h) with hb | ⟨hb, hm⟩ | ⟨hb, hm⟩
    · exact .inl ⟨.skip, st1, hs, (fun h => by cases h), (fun h => by cases h), hb, by simp [hb]⟩
    · refine .inr (.inl ⟨.skip, st1, hs, (fun h => by cases h), (fun h => by cases h), hb, hm, ?_⟩)
      have : (advanceTiled v e).maxEntry % batch = 0 := hm
      simp only [if_neg (show ¬ batch = 0 by omega), if_pos this]
    · refine .inr (.inr ⟨.skip, st1, hs, (fun h => by cases h), (fun h => by cases h), hb, hm, ?_⟩)
      have : ¬ (advanceTiled v e).maxEntry % batch = 0 := hm
      simp only [if_neg (show ¬ batch = 0 by omega), if_neg this]
  | store i =>
    refine .inr (.inr ?_)
    rcases main _ hs (fun h => by cases h) (fun h => by cases h) with hb | ⟨hb, hm⟩ | ⟨hb, hm⟩
    · exact .inl ⟨.store i, st1, hs, (fun h => by cases h), (fun h => by cases h), hb, by simp [hb]⟩
    · refine .inr (.inl ⟨.store i, st1, hs, (fun h => by cases h), (fun h => by cases h), hb, hm, ?_⟩)
      have : (advanceTiled v e).maxEntry % batch = 0 := hm
      simp only [if_neg (show ¬ batch = 0 by omega), if_pos this]
    · refine .inr (.inr ⟨.store i, st1, hs, (fun h => by cases h), (fun h => by cases h), hb, hm, ?_⟩)
      have : ¬ (advanceTiled v e).maxEntry % batch = 0 := hm
      simp only [if_neg (show ¬ batch = 0 by omega), if_neg this]

theorem loopTiled_keeps {w : TNet} {I : Issuers → Prop} (hk : Keeps w I) (batch now : Nat) :
    ∀ (es : List (SunEntry × Nat)) (v : TVars) (st : Issuers), I st → I (loopTiled w batch now v st es).2.2.1 := by
  intro es
  induction es with
  | nil => intro v st hi; exact hi
  | cons x es ih =>
    obtain ⟨e, t⟩ := x
    intro v st hi
    rcases loopTiled_cons w batch now v st e t es with ⟨st1, hs, hq⟩ | ⟨st1, hs, hq⟩ | ⟨o, st1, hs, _, _, _, hq⟩ |
      ⟨o, st1, hs, _, _, _, _, hq⟩ | ⟨o, st1, hs, _, _, _, _, hq⟩ <;> rw [hq]
    · exact hs.keeps hk hi
    · exact hs.keeps hk hi
    · exact hs.keeps hk hi
    · exact ih _ _ (hs.keeps hk hi)
    · exact ih _ _ (hs.keeps hk hi)

/-- The cases of a read. -/
theorem readTiled_cases (w : TNet) (batch now : Nat) (v : TVars) (st : Issuers) (es : List (SunEntry × Nat)) (err : Bool) :
    (∃ x, (loopTiled w batch now v st es).2.2.2 = some x ∧ readTiled w batch now v st es err = loopTiled w batch now v st es) ∨
    ((loopTiled w batch now v st es).2.2.2 = none ∧ readTiled w batch now v st es err =
      ((loopTiled w batch now v st es).1 ++ [.state (saveTiled now (loopTiled w batch now v st es).2.1).state],
       saveTiled now (loopTiled w batch now v st es).2.1, (loopTiled w batch now v st es).2.2.1, if err then some .slept else none)) := by
  unfold readTiled
  rcases h : loopTiled w batch now v st es with ⟨evs, v1, st1, x⟩
  cases x with
  | some x => exact .inl ⟨x, rfl, rfl⟩
  | none => exact .inr ⟨rfl, rfl⟩

theorem readTiled_keeps {w : TNet} {I : Issuers → Prop} (hk : Keeps w I) (batch now : Nat) (v : TVars) (st : Issuers)
    (es : List (SunEntry × Nat)) (err : Bool) (hi : I st) : I (readTiled w batch now v st es err).2.2.1 := by
  have := loopTiled_keeps hk batch now es v st hi
  rcases readTiled_cases w batch now v st es err with ⟨_, _, h⟩ | ⟨_, h⟩ <;> rw [h] <;> exact this

/-- The cases of a job. -/
theorem jobTiled_cases (w : TNet) (j : TJob) (st : Issuers) :
    (j.sth = none ∧ jobTiled w j st = ([], j.s, st, .slept)) ∨
    (∃ h, j.sth = some h ∧ jobTiled w j st = sleepTiled j st h) ∨
    (∃ h, j.sth = some h ∧ chooseTiled j.batch j.now j.s (some h) = .update ∧
      jobTiled w j st = ((readTiled w j.batch j.now (startVars j.s) st j.es1 j.err1).1,
        (readTiled w j.batch j.now (startVars j.s) st j.es1 j.err1).2.1.state,
        (readTiled w j.batch j.now (startVars j.s) st j.es1 j.err1).2.2.1,
        endOf (readTiled w j.batch j.now (startVars j.s) st j.es1 j.err1).2.2.2)) ∨
    (∃ h x, j.sth = some h ∧ chooseTiled j.batch j.now j.s (some h) = .forceUpdate ∧
      (readTiled w j.batch j.now (startVars j.s) st j.es1 j.err1).2.2.2 = some x ∧
      jobTiled w j st = ((readTiled w j.batch j.now (startVars j.s) st j.es1 j.err1).1,
        (readTiled w j.batch j.now (startVars j.s) st j.es1 j.err1).2.1.state,
        (readTiled w j.batch j.now (startVars j.s) st j.es1 j.err1).2.2.1, x)) ∨
    (∃ h v1 st1, j.sth = some h ∧ chooseTiled j.batch j.now j.s (some h) = .forceUpdate ∧
      readTiled w j.batch j.now (startVars j.s) st j.es1 j.err1 =
        ((readTiled w j.batch j.now (startVars j.s) st j.es1 j.err1).1, v1, st1, none) ∧
      jobTiled w j st = ((readTiled w j.batch j.now (startVars j.s) st j.es1 j.err1).1 ++ (readTiled w j.batch j.now v1 st1 j.es2 j.err2).1,
        (readTiled w j.batch j.now v1 st1 j.es2 j.err2).2.1.state, (readTiled w j.batch j.now v1 st1 j.es2 j.err2).2.2.1,
        endOf (readTiled w j.batch j.now v1 st1 j.es2 j.err2).2.2.2)) := by
  unfold jobTiled
  cases hs : j.sth with
  | none => exact .inl ⟨rfl, rfl⟩
  | some h =>
    refine .inr ?_
    dsimp only
    cases hc : chooseTiled j.batch j.now j.s (some h) with
    | init => exact .inl ⟨h, rfl, rfl⟩
    | backfill => exact .inl ⟨h, rfl, rfl⟩
    | sleep => exact .inl ⟨h, rfl, rfl⟩
    | retry => exact .inl ⟨h, rfl, rfl⟩
    | update => exact .inr (.inl ⟨h, rfl, hc, rfl⟩)
    | forceUpdate =>
      refine .inr (.inr ?_)
      dsimp only
      unfold secondRead
      rcases hr : readTiled w j.batch j.now (startVars j.s) st j.es1 j.err1 with ⟨evs, v1, st1, x⟩
      cases x with
      | some x => exact .inl ⟨h, x, rfl, hc, rfl, rfl⟩
      | none => exact .inr ⟨h, v1, st1, rfl, hc, rfl, rfl⟩

theorem sleepTiled_cache (j : TJob) (st : Issuers) (h : TreeHead) : (sleepTiled j st h).2.2.1 = st := by
  unfold sleepTiled
  split <;> rfl

theorem sleepTiled_end (j : TJob) (st : Issuers) (h : TreeHead) : (sleepTiled j st h).2.2.2 = .slept := by
  unfold sleepTiled
  split <;> rfl

theorem jobTiled_keeps {w : TNet} {I : Issuers → Prop} (hk : Keeps w I) (j : TJob) (st : Issuers) (hi : I st) :
    I (jobTiled w j st).2.2.1 := by
  rcases jobTiled_cases w j st with ⟨_, h⟩ | ⟨hd, _, h⟩ | ⟨hd, _, _, h⟩ | ⟨hd, x, _, _, _, h⟩ | ⟨hd, v1, st1, _, _, hr, h⟩
  · rw [h]; exact hi
  · rw [h, sleepTiled_cache]; exact hi
  · rw [h]; exact readTiled_keeps hk _ _ _ _ _ _ hi
  · rw [h]; exact readTiled_keeps hk _ _ _ _ _ _ hi
  · rw [h]
    refine readTiled_keeps hk _ _ _ _ _ _ ?_
    have := readTiled_keeps hk j.batch j.now (startVars j.s) st j.es1 j.err1 hi
    rw [hr] at this
    exact this

/-! ### the cache holds what the log answered -/

/-- Everything in the cache is as `R` says. -/
def CacheIs (R : Bytes → Cert → Prop) (st : Issuers) : Prop := ∀ fp c, (fp, c) ∈ st.map → R fp c

theorem cacheIs_empty (R : Bytes → Cert → Prop) : CacheIs R noIssuers := by
  intro fp c h
  cases h

/-- Everything that the log answers and that can be parsed is as `R` says. -/
def AnswersAre (R : Bytes → Cert → Prop) (w : TNet) : Prop := ∀ n fp d c, w.ask n fp = some d → w.pc d = some c → R fp c

theorem cacheIs_keeps {R : Bytes → Cert → Prop} {w : TNet} (hw : AnswersAre R w) : Keeps w (CacheIs R) := by
  intro st fp hi
  rcases getCertificate_cases w st fp with ⟨c, _, h⟩ | ⟨_, _, h⟩ | ⟨d, _, _, _, h⟩ | ⟨d, c, _, ha, hp, h⟩ <;> rw [h]
  · exact hi
  · exact hi
  · exact hi
  · intro k x hm
    rcases List.mem_cons.1 hm with h1 | h1
    · cases h1; exact hw _ _ _ _ ha hp
    · exact hi k x h1

theorem getCertificate_is {R : Bytes → Cert → Prop} {w : TNet} (hw : AnswersAre R w) {st : Issuers} (hi : CacheIs R st) {fp : Bytes} {c : Cert}
    (h : (getCertificate w st fp).1 = .cert c) : R fp c :=
  cacheIs_keeps hw st fp hi fp c (lookupCert_mem (getCertificate_again h))

theorem Stored.record {R : Bytes → Cert → Prop} {w : TNet} (hw : AnswersAre R w) {st st1 : Issuers} (hi : CacheIs R st) {t : Nat}
    {e : SunEntry} {o : Outcome} (h : Stored w st t e o st1) {item : Item} (ho : outItem o = some item) : RecordOf w.pc R e item := by
  cases h with
  | noCert _ => cases ho
  | expired _ _ _ => cases ho
  | selfSigned _ _ _ => cases ho
  | firstFatal _ _ _ _ => cases ho
  | firstMissing _ _ _ _ => cases ho
  | lone _ _ _ _ _ => cases ho
  | secondFatal _ _ _ _ _ _ => cases ho
  | secondMissing _ _ _ _ _ _ => cases ho
  | @direct c p f rest hc _ hch hg hp =>
    cases ho
    exact ⟨c, p, entryCert_of hc, .inl ⟨f, rest, hch, getCertificate_is hw hi hg, hp⟩, rfl, rfl, rfl, rfl⟩
  | @behind c p i f g rest hc _ hch hg hp hg2 =>
    cases ho
    exact ⟨c, i, entryCert_of hc, .inr ⟨f, g, rest, p, hch, getCertificate_is hw hi hg, hp,
      getCertificate_is hw (cacheIs_keeps hw st f hi) hg2⟩, rfl, rfl, rfl, rfl⟩

/-- What is known of a message for an entry among those yielded. -/
def EntryMessage (pc : Bytes → Option Cert) (R : Bytes → Cert → Prop) (start : Nat) (es : List (SunEntry × Nat)) (i : Nat) (input : Bytes)
    (ts : Nat) (item : Option Item) : Prop :=
  ∃ n e t, es[n]? = some (e, t) ∧ i = start + n ∧ input = sunLeaf e ∧ ts = e.timestamp ∧ ∀ x, item = some x → RecordOf pc R e x

theorem entryMessage_cons {pc : Bytes → Option Cert} {R : Bytes → Cert → Prop} {start : Nat} {es : List (SunEntry × Nat)} {i : Nat}
    {input : Bytes} {ts : Nat} {item : Option Item} (x : SunEntry × Nat) (h : EntryMessage pc R (start + 1) es i input ts item) :
    EntryMessage pc R start (x :: es) i input ts item := by
  obtain ⟨n, e, t, h1, h2, h3⟩ := h
  exact ⟨n + 1, e, t, h1, by omega, h3⟩

theorem entryMessage_first {pc : Bytes → Option Cert} {R : Bytes → Cert → Prop} {v : TVars} {e : SunEntry} {t : Nat}
    {es : List (SunEntry × Nat)} {o : Outcome} {i : Nat} {input : Bytes} {ts : Nat} {item : Option Item}
    (h : Ev.entry i input ts item = sunEvent (advanceTiled v e) e o) (hr : ∀ x, outItem o = some x → RecordOf pc R e x) :
    EntryMessage pc R (v.maxEntry + 1) ((e, t) :: es) i input ts item := by
  unfold sunEvent at h
  cases h
  exact ⟨0, e, t, rfl, rfl, rfl, rfl, hr⟩

theorem loopTiled_messages {R : Bytes → Cert → Prop} {w : TNet} (hw : AnswersAre R w) (batch now : Nat) :
    ∀ (es : List (SunEntry × Nat)) (v : TVars) (st : Issuers), CacheIs R st → ∀ i input ts item,
      Ev.entry i input ts item ∈ (loopTiled w batch now v st es).1 → EntryMessage w.pc R (v.maxEntry + 1) es i input ts item := by
  intro es
  induction es with
  | nil => intro v st _ i input ts item hm; cases hm
  | cons x es ih =>
    obtain ⟨e, t⟩ := x
    intro v st hi i input ts item hm
    rcases loopTiled_cons w batch now v st e t es with ⟨st1, hs, hq⟩ | ⟨st1, hs, hq⟩ | ⟨o, st1, hs, _, _, _, hq⟩ |
      ⟨o, st1, hs, _, _, _, _, hq⟩ | ⟨o, st1, hs, _, _, _, _, hq⟩ <;> rw [hq] at hm
    · cases hm
    · cases hm
    · exact entryMessage_first (List.mem_singleton.1 hm) (fun x hx => hs.record hw hi hx)
    · rcases List.mem_cons.1 hm with hm | hm
      · exact entryMessage_first hm (fun x hx => hs.record hw hi hx)
      · rcases List.mem_cons.1 hm with hm | hm
        · cases hm
        · exact entryMessage_cons _ (ih _ _ (hs.keeps (cacheIs_keeps hw) hi) i input ts item hm)
    · rcases List.mem_cons.1 hm with hm | hm
      · exact entryMessage_first hm (fun x hx => hs.record hw hi hx)
      · exact entryMessage_cons _ (ih _ _ (hs.keeps (cacheIs_keeps hw) hi) i input ts item hm)

theorem readTiled_messages {R : Bytes → Cert → Prop} {w : TNet} (hw : AnswersAre R w) (batch now : Nat) (es : List (SunEntry × Nat))
    (v : TVars) (st : Issuers) (err : Bool) (hi : CacheIs R st) (i : Nat) (input : Bytes) (ts : Nat) (item : Option Item)
    (hm : Ev.entry i input ts item ∈ (readTiled w batch now v st es err).1) : EntryMessage w.pc R (v.maxEntry + 1) es i input ts item := by
  rcases readTiled_cases w batch now v st es err with ⟨_, _, h⟩ | ⟨_, h⟩ <;> rw [h] at hm
  · exact loopTiled_messages hw batch now es v st hi i input ts item hm
  · rcases List.mem_append.1 hm with hm | hm
    · exact loopTiled_messages hw batch now es v st hi i input ts item hm
    · cases List.mem_singleton.1 hm

/-- The loop ends at its end only after every entry, and with the index of the last one. -/
theorem loopTiled_complete {w : TNet} {batch now : Nat} : ∀ (es : List (SunEntry × Nat)) (v : TVars) (st : Issuers),
    (loopTiled w batch now v st es).2.2.2 = none → (loopTiled w batch now v st es).2.1.maxEntry = v.maxEntry + es.length := by
  intro es
  induction es with
  | nil => intro v st _; rfl
  | cons x es ih =>
    obtain ⟨e, t⟩ := x
    intro v st hn
    rcases loopTiled_cons w batch now v st e t es with ⟨st1, hs, hq⟩ | ⟨st1, hs, hq⟩ | ⟨o, st1, hs, _, _, _, hq⟩ |
      ⟨o, st1, hs, _, _, _, _, hq⟩ | ⟨o, st1, hs, _, _, _, _, hq⟩ <;> rw [hq] at hn ⊢
    · cases hn
    · cases hn
    · cases hn
    · have := ih (saveTiled now (advanceTiled v e)) st1 hn
      simp only [List.length_cons]
      rw [this]
      simp only [saveTiled, advanceTiled]
      omega
    · have := ih (advanceTiled v e) st1 hn
      simp only [List.length_cons]
      rw [this]
      simp only [advanceTiled]
      omega

theorem readTiled_complete {w : TNet} {batch now : Nat} {es : List (SunEntry × Nat)} {v : TVars} {st : Issuers} {err : Bool}
    (h : (readTiled w batch now v st es err).2.2.2 = none) : (readTiled w batch now v st es err).2.1.maxEntry = v.maxEntry + es.length := by
  rcases readTiled_cases w batch now v st es err with ⟨x, h1, h2⟩ | ⟨h1, h2⟩ <;> rw [h2] at h ⊢
  · rw [h1] at h; cases h
  · exact loopTiled_complete es v st h1

theorem getElem?_append_left' {α : Type} {a b : List α} {n : Nat} {x : α} (h : a[n]? = some x) : (a ++ b)[n]? = some x := by
  have : n < a.length := (List.getElem?_eq_some_iff.1 h).1
  rw [List.getElem?_append_left this]; exact h

theorem getElem?_append_right' {α : Type} {a b : List α} {n : Nat} {x : α} (h : b[n]? = some x) : (a ++ b)[a.length + n]? = some x := by
  rw [List.getElem?_append_right (by omega)]
  simpa using h

theorem jobTiled_messages {R : Bytes → Cert → Prop} {w : TNet} (hw : AnswersAre R w) (j : TJob) (st : Issuers) (hi : CacheIs R st)
    (i : Nat) (input : Bytes) (ts : Nat) (item : Option Item) (hm : Ev.entry i input ts item ∈ (jobTiled w j st).1) :
    EntryMessage w.pc R (j.s.maxEntry + 1) (j.es1 ++ j.es2) i input ts item := by
  have left : EntryMessage w.pc R (j.s.maxEntry + 1) j.es1 i input ts item →
      EntryMessage w.pc R (j.s.maxEntry + 1) (j.es1 ++ j.es2) i input ts item := by
    rintro ⟨n, e, t, h1, h2⟩
    exact ⟨n, e, t, getElem?_append_left' h1, h2⟩
  rcases jobTiled_cases w j st with ⟨_, h⟩ | ⟨hd, _, h⟩ | ⟨hd, _, _, h⟩ | ⟨hd, x, _, _, _, h⟩ | ⟨hd, v1, st1, _, _, hr, h⟩ <;> rw [h] at hm
  · cases hm
  · unfold sleepTiled at hm
    split at hm
    · cases List.mem_singleton.1 hm
    · cases hm
  · exact left (readTiled_messages hw _ _ _ (startVars j.s) _ _ hi i input ts item hm)
  · exact left (readTiled_messages hw _ _ _ (startVars j.s) _ _ hi i input ts item hm)
  · rcases List.mem_append.1 hm with hm | hm
    · exact left (readTiled_messages hw _ _ _ (startVars j.s) _ _ hi i input ts item hm)
    · have hi1 : CacheIs R st1 := by
        have := readTiled_keeps (cacheIs_keeps hw) j.batch j.now (startVars j.s) st j.es1 j.err1 hi
        rw [hr] at this
        exact this
      have hv : v1.maxEntry = j.s.maxEntry + j.es1.length := by
        have := readTiled_complete (w := w) (batch := j.batch) (now := j.now) (v := startVars j.s) (st := st) (es := j.es1) (err := j.err1)
          (by rw [hr])
        rw [hr] at this
        exact this
      obtain ⟨n, e, t, h1, h2, h3⟩ := readTiled_messages hw _ _ _ v1 _ _ hi1 i input ts item hm
      exact ⟨j.es1.length + n, e, t, getElem?_append_right' h1, by omega, h3⟩

/-! ### how jobs end -/

theorem honest_answersAre {H : Bytes → Bytes} {w : TNet} (h : HonestAnswers H w) : AnswersAre (HasFingerprint H w.pc) w := by
  intro n fp d c ha hp
  exact ⟨d, h n fp d ha, hp⟩

theorem getCertificate_not_fatal {H : Bytes → Bytes} {w : TNet} (hh : HonestAnswers H w) {st : Issuers} {fp : Bytes}
    (hp : ∀ d, H d = fp → w.pc d ≠ none) : (getCertificate w st fp).1 ≠ .fatal := by
  intro hf
  rcases getCertificate_cases w st fp with ⟨c, _, h⟩ | ⟨_, _, h⟩ | ⟨d, _, ha, hn, h⟩ | ⟨d, c, _, _, _, h⟩ <;> rw [h] at hf
  · cases hf
  · cases hf
  · exact hp d (hh _ _ _ ha) hn
  · cases hf

theorem Stored.proper {H : Bytes → Bytes} {w : TNet} (hh : HonestAnswers H w) {st st1 : Issuers} (hi : CacheIs (HasFingerprint H w.pc) st)
    {t : Nat} {e : SunEntry} {o : Outcome} (hp : ProperEntry H w.pc e) (h : Stored w st t e o st1) : o ≠ .fatal := by
  obtain ⟨⟨c0, hc0⟩, hparse, hlone⟩ := hp
  have hmem : ∀ {f : Bytes} {l : List Bytes}, e.chain = l → f ∈ l → ∀ d, H d = f → w.pc d ≠ none := by
    intro f l hl hf
    exact hparse f (by rw [hl]; exact hf)
  cases h with
  | noCert hn => rw [entryCert_bytes hc0] at hn; cases hn
  | expired _ _ _ => exact fun h => by cases h
  | selfSigned _ _ _ => exact fun h => by cases h
  | firstFatal _ _ hch hg => exact fun _ => getCertificate_not_fatal hh (hmem hch (by simp)) hg
  | firstMissing _ _ _ _ => exact fun h => by cases h
  | direct _ _ _ _ _ => exact fun h => by cases h
  | @lone c p f hc _ hch hg hpi =>
    intro _
    have := hlone f hch p (getCertificate_is (honest_answersAre hh) hi hg)
    rw [this] at hpi; cases hpi
  | secondFatal _ _ hch _ _ hg => exact fun _ => getCertificate_not_fatal hh (hmem hch (by simp)) hg
  | secondMissing _ _ _ _ _ _ => exact fun h => by cases h
  | behind _ _ _ _ _ _ => exact fun h => by cases h

theorem loopTiled_not_halted {H : Bytes → Bytes} {w : TNet} (hh : HonestAnswers H w) (batch now : Nat) :
    ∀ (es : List (SunEntry × Nat)) (v : TVars) (st : Issuers), CacheIs (HasFingerprint H w.pc) st →
      (∀ x ∈ es, ProperEntry H w.pc x.1) → (loopTiled w batch now v st es).2.2.2 ≠ some .halted := by
  intro es
  induction es with
  | nil => intro v st _ _ h; cases h
  | cons x es ih =>
    obtain ⟨e, t⟩ := x
    intro v st hi hp
    have hp1 := hp (e, t) (List.mem_cons_self ..)
    have hp2 : ∀ x ∈ es, ProperEntry H w.pc x.1 := fun x hx => hp x (List.mem_cons_of_mem _ hx)
    have hk := cacheIs_keeps (honest_answersAre hh)
    rcases loopTiled_cons w batch now v st e t es with ⟨st1, hs, hq⟩ | ⟨st1, hs, hq⟩ | ⟨o, st1, hs, _, _, _, hq⟩ |
      ⟨o, st1, hs, _, _, _, _, hq⟩ | ⟨o, st1, hs, _, _, _, _, hq⟩ <;> rw [hq]
    · exact absurd rfl (hs.proper hh hi hp1)
    · intro h; cases h
    · intro h; cases h
    · exact ih _ _ (hs.keeps hk hi) hp2
    · exact ih _ _ (hs.keeps hk hi) hp2

theorem loopTiled_not_crashed (w : TNet) {batch : Nat} (hb : 0 < batch) (now : Nat) :
    ∀ (es : List (SunEntry × Nat)) (v : TVars) (st : Issuers), (loopTiled w batch now v st es).2.2.2 ≠ some .crashed := by
  intro es
  induction es with
  | nil => intro v st h; cases h
  | cons x es ih =>
    obtain ⟨e, t⟩ := x
    intro v st
    rcases loopTiled_cons w batch now v st e t es with ⟨st1, hs, hq⟩ | ⟨st1, hs, hq⟩ | ⟨o, st1, hs, _, _, h0, hq⟩ |
      ⟨o, st1, hs, _, _, _, _, hq⟩ | ⟨o, st1, hs, _, _, _, _, hq⟩ <;> rw [hq]
    · intro h; cases h
    · intro h; cases h
    · omega
    · exact ih _ _
    · exact ih _ _

theorem readTiled_ne {w : TNet} {batch now : Nat} {v : TVars} {st : Issuers} {es : List (SunEntry × Nat)} {err : Bool} {x : TiledEnd}
    (hx : x ≠ .slept) (h : (loopTiled w batch now v st es).2.2.2 ≠ some x) : (readTiled w batch now v st es err).2.2.2 ≠ some x := by
  rcases readTiled_cases w batch now v st es err with ⟨_, _, h2⟩ | ⟨_, h2⟩ <;> rw [h2]
  · exact h
  · cases err
    · intro h3; cases h3
    · intro h3; simp only [if_true] at h3; cases h3; exact hx rfl

theorem endOf_ne {r : Option TiledEnd} {x : TiledEnd} (hx : x ≠ .finished) (h : r ≠ some x) : endOf r ≠ x := by
  cases r with
  | none => exact fun h2 => hx h2.symm
  | some y => exact fun h2 => h (by rw [show y = x from h2])

theorem jobTiled_not_halted {H : Bytes → Bytes} {w : TNet} (hh : HonestAnswers H w) (j : TJob) (st : Issuers)
    (hi : CacheIs (HasFingerprint H w.pc) st) (hp : ∀ x ∈ j.es1 ++ j.es2, ProperEntry H w.pc x.1) : (jobTiled w j st).2.2.2 ≠ .halted := by
  have hk := cacheIs_keeps (honest_answersAre hh)
  have h1 : (readTiled w j.batch j.now (startVars j.s) st j.es1 j.err1).2.2.2 ≠ some .halted :=
    readTiled_ne (fun h => by cases h) (loopTiled_not_halted hh _ _ _ _ _ hi (fun x hx => hp x (List.mem_append_left _ hx)))
  rcases jobTiled_cases w j st with ⟨_, h⟩ | ⟨hd, _, h⟩ | ⟨hd, _, _, h⟩ | ⟨hd, x, _, _, hx, h⟩ | ⟨hd, v1, st1, _, _, hr, h⟩ <;> rw [h]
  · intro h; cases h
  · rw [sleepTiled_end]; intro h; cases h
  · exact endOf_ne (fun h => by cases h) h1
  · intro h2
    rw [hx] at h1
    exact h1 (by rw [show x = TiledEnd.halted from h2])
  · have hi1 := readTiled_keeps hk j.batch j.now (startVars j.s) st j.es1 j.err1 hi
    rw [hr] at hi1
    exact endOf_ne (fun h => by cases h) (readTiled_ne (fun h => by cases h)
      (loopTiled_not_halted hh _ _ _ _ _ hi1 (fun x hx => hp x (List.mem_append_right _ hx))))

theorem jobTiled_not_crashed (w : TNet) (j : TJob) (st : Issuers) (hb : 0 < j.batch) : (jobTiled w j st).2.2.2 ≠ .crashed := by
  have h1 : (readTiled w j.batch j.now (startVars j.s) st j.es1 j.err1).2.2.2 ≠ some .crashed :=
    readTiled_ne (fun h => by cases h) (loopTiled_not_crashed w hb _ _ _ _)
  rcases jobTiled_cases w j st with ⟨_, h⟩ | ⟨hd, _, h⟩ | ⟨hd, _, _, h⟩ | ⟨hd, x, _, _, hx, h⟩ | ⟨hd, v1, st1, _, _, hr, h⟩ <;> rw [h]
  · intro h; cases h
  · rw [sleepTiled_end]; intro h; cases h
  · exact endOf_ne (fun h => by cases h) h1
  · intro h2
    rw [hx] at h1
    exact h1 (by rw [show x = TiledEnd.crashed from h2])
  · exact endOf_ne (fun h => by cases h) (readTiled_ne (fun h => by cases h) (loopTiled_not_crashed w hb _ _ _ _))

end Verif
