import Verif.Lemmas.Growth
/-!
Lemmas for C106: the published states grow.
-/
namespace Verif
open Verif.Spec Verif.Props

theorem Spec.GrowsC.refl (c : CTLogState) : GrowsC c c := fun h => ⟨h, UInt64.le_refl _, UInt64.le_refl _, UInt64.le_refl _, UInt64.le_refl _⟩

theorem Spec.GrowsC.trans {c d e : CTLogState} (h1 : GrowsC c d) (h2 : GrowsC d e) : GrowsC c e := by
  intro h
  obtain ⟨a0, a1, a2, a3, a4⟩ := h1 h
  obtain ⟨b0, b1, b2, b3, b4⟩ := h2 a0
  exact ⟨b0, UInt64.le_trans b1 a1, UInt64.le_trans a2 b2, UInt64.le_trans b3 a3, UInt64.le_trans a4 b4⟩

theorem growsC_of_dec {c d : CTLogState} (h : Grows (decState c) (decState d)) : GrowsC c d := h

/-- A short URL without trailing slash, as ct-fetch makes them (go/storage/certdatabase.go:266). -/
def Spec.Named (u : Text) : Prop := trimSlashes u = u

theorem logKey_inj {u v : Text} (hu : Spec.Named u) (hv : Spec.Named v) (h : logKey u = logKey v) : u = v := by
  unfold logKey at h
  have := List.append_cancel_left h
  rwa [hu, hv] at this

/-- A state of a named log that has been updated. -/
def UpdatedC (s : CTLogState) : Prop := Named s.shortURL ∧ s.lastUpdateTime ≠ none

/-- If the two states are of one log, the second covers what the first does. -/
def Rel (c d : CTLogState) : Prop := c.shortURL = d.shortURL → GrowsC c d

/-- A list of states that is published or going to be: in order, each below what the cache has, and above what is published. -/
structure Ups (pub logs st : List CTLogState) : Prop where
  named : ∀ s ∈ st, UpdatedC s
  here : ∀ s ∈ st, ∃ p ∈ logs, p.shortURL = s.shortURL
  below : ∀ s ∈ st, ∀ p ∈ logs, Rel s p
  ord : st.Pairwise Rel
  above : ∀ c ∈ pub, ∀ s ∈ st, Rel c s

/-- The states a commit works with. -/
def commitStates : CPhase → Option (List CTLogState)
  | .loaded _ st _ => some st
  | .listing _ st _ _ => some st
  | .moving _ st _ _ _ => some st
  | _ => none

/-- What is published. -/
def published (db : Db) : List CTLogState := db.ctlogs.getD []

def values (logs : List (Text × CTLogState)) : List CTLogState := logs.map Prod.snd

structure GInv (db : Db) : Prop where
  keys : ∀ p ∈ db.logs, p.1 = logKey p.2.shortURL ∧ UpdatedC p.2
  nodup : db.logs.Pairwise (fun p q => p.1 ≠ q.1)
  pub : Ups [] (values db.logs) (published db)
  loading : ∀ e need acc, db.phase = .loading e need acc →
    Ups (published db) (values db.logs) (values acc) ∧ (∀ c ∈ published db, logKey c.shortURL ∈ need) ∧ ∀ p ∈ acc, p.1 = logKey p.2.shortURL
  states : ∀ st, commitStates db.phase = some st → Ups (published db) (values db.logs) st ∧ ∀ c ∈ published db, ∃ s ∈ st, s.shortURL = c.shortURL

/-- In a list with distinct keys, one key has one state. -/
theorem distinct_eq {logs : List (Text × CTLogState)} (h : logs.Pairwise (fun p q => p.1 ≠ q.1)) : ∀ p ∈ logs, ∀ q ∈ logs, p.1 = q.1 → p = q := by
  induction h with
  | nil => intro p hp; cases hp
  | cons h1 _ ih =>
    intro p hp q hq he
    rcases List.mem_cons.1 hp with rfl | hp'
    · rcases List.mem_cons.1 hq with rfl | hq'
      · rfl
      · exact absurd he (h1 q hq')
    · rcases List.mem_cons.1 hq with rfl | hq'
      · exact absurd he.symm (h1 p hp')
      · exact ih p hp' q hq' he

theorem putLog_distinct {logs : List (Text × CTLogState)} (h : logs.Pairwise (fun p q => p.1 ≠ q.1)) (k : Text) (s : CTLogState) :
    (putLog logs k s).Pairwise (fun p q => p.1 ≠ q.1) := by
  unfold putLog
  rw [List.pairwise_cons]
  refine ⟨fun q hq => ?_, h.filter _⟩
  have := (List.mem_filter.1 hq).2
  exact fun e => (of_decide_eq_true this) e.symm

theorem putAll_distinct (ss : List CTLogState) : ∀ (logs : List (Text × CTLogState)), logs.Pairwise (fun p q => p.1 ≠ q.1) →
    (ss.foldl (fun l s => putLog l (logKey s.shortURL) s) logs).Pairwise (fun p q => p.1 ≠ q.1) := by
  induction ss with
  | nil => intro l h; exact h
  | cons s ss ih => intro l h; exact ih _ (putLog_distinct h _ _)

theorem putAll_newest (ss : List CTLogState) : ∀ (logs : List (Text × CTLogState)), ss.Pairwise Rel → (∀ s ∈ ss, UpdatedC s) →
    (∀ p ∈ logs, p.1 = logKey p.2.shortURL ∧ UpdatedC p.2) →
    (∀ p ∈ ss.foldl (fun l s => putLog l (logKey s.shortURL) s) logs, (p ∈ logs ∧ ∀ s ∈ ss, s.shortURL ≠ p.2.shortURL) ∨ (p.2 ∈ ss ∧ ∀ c ∈ ss, Rel c p.2)) ∧
    (∀ s ∈ ss, ∃ p ∈ ss.foldl (fun l s => putLog l (logKey s.shortURL) s) logs, p.2.shortURL = s.shortURL) ∧
    ∀ q ∈ logs, ∃ p ∈ ss.foldl (fun l s => putLog l (logKey s.shortURL) s) logs, p.2.shortURL = q.2.shortURL := by
  induction ss with
  | nil =>
    intro l _ _ _
    exact ⟨fun p hp => Or.inl ⟨hp, fun s hs => by cases hs⟩, fun s hs => (by cases hs), fun q hq => ⟨q, hq, rfl⟩⟩
  | cons s ss ih =>
    intro l ho hn hl
    rw [List.pairwise_cons] at ho
    rw [List.foldl_cons]
    have hkeys : ∀ p ∈ putLog l (logKey s.shortURL) s, p.1 = logKey p.2.shortURL ∧ UpdatedC p.2 := by
      intro p hp
      rcases mem_putLog hp with rfl | hp
      · exact ⟨rfl, hn s (by simp)⟩
      · exact hl p hp
    obtain ⟨h1, h2, h3⟩ := ih (putLog l (logKey s.shortURL) s) ho.2 (fun c hc => hn c (by simp [hc])) hkeys
    refine ⟨fun p hp => ?_, fun c hc => ?_, fun q hq => ?_⟩
    · rcases h1 p hp with ⟨hm, hne⟩ | ⟨hm, hr⟩
      · rcases List.mem_cons.1 hm with rfl | hm
        · refine Or.inr ⟨by simp, fun c hc => ?_⟩
          rcases List.mem_cons.1 hc with rfl | hc
          · exact fun _ => GrowsC.refl _
          · exact fun e => absurd e (hne c hc)
        · have hm' := List.mem_filter.1 hm
          refine Or.inl ⟨hm'.1, fun c hc => ?_⟩
          rcases List.mem_cons.1 hc with rfl | hc
          · intro e
            refine of_decide_eq_true hm'.2 ?_
            rw [(hl p hm'.1).1, e]
          · exact hne c hc
      · refine Or.inr ⟨by simp [hm], fun c hc => ?_⟩
        rcases List.mem_cons.1 hc with rfl | hc
        · exact ho.1 _ hm
        · exact hr c hc
    · rcases List.mem_cons.1 hc with rfl | hc
      · exact h3 (logKey c.shortURL, c) (List.mem_cons_self ..)
      · exact h2 c hc
    · by_cases he : q.1 = logKey s.shortURL
      · have : q.2.shortURL = s.shortURL := logKey_inj (hl q hq).2.1 (hn s (by simp)).1 ((hl q hq).1.symm.trans he)
        rw [this]
        exact h3 (logKey s.shortURL, s) (List.mem_cons_self ..)
      · exact h3 q (List.mem_cons_of_mem _ (List.mem_filter.2 ⟨hq, decide_eq_true he⟩))

theorem mem_values {logs : List (Text × CTLogState)} {s : CTLogState} (h : s ∈ values logs) : ∃ p ∈ logs, p.2 = s := List.mem_map.1 h

theorem values_mem {logs : List (Text × CTLogState)} {p : Text × CTLogState} (h : p ∈ logs) : p.2 ∈ values logs := List.mem_map_of_mem h

/-- Saving a state that covers what the cache has for its log. -/
theorem ups_save {pub st : List CTLogState} {logs : List (Text × CTLogState)} (hk : ∀ p ∈ logs, p.1 = logKey p.2.shortURL ∧ UpdatedC p.2) {s : CTLogState} (hn : UpdatedC s)
    (hs : ∀ p ∈ logs, Rel p.2 s) (h : Ups pub (values logs) st) : Ups pub (values (putLog logs (logKey s.shortURL) s)) st := by
  refine ⟨h.named, fun c hc => ?_, fun c hc d hd => ?_, h.ord, h.above⟩
  · obtain ⟨d, hd, he⟩ := h.here c hc
    obtain ⟨p, hp, rfl⟩ := mem_values hd
    by_cases e : p.1 = logKey s.shortURL
    · refine ⟨s, values_mem (p := (_, s)) (List.mem_cons_self ..), ?_⟩
      rw [← he]
      exact (logKey_inj (hk p hp).2.1 hn.1 ((hk p hp).1.symm.trans e)).symm
    · exact ⟨p.2, values_mem (List.mem_cons_of_mem _ (List.mem_filter.2 ⟨hp, decide_eq_true e⟩)), he⟩
  · obtain ⟨p, hp, rfl⟩ := mem_values hd
    rcases mem_putLog hp with rfl | hp
    · intro e
      obtain ⟨d, hd, he⟩ := h.here c hc
      obtain ⟨q, hq, rfl⟩ := mem_values hd
      exact (h.below c hc q.2 hd he.symm).trans (hs q hq (he.trans e))
    · exact h.below c hc p.2 (values_mem hp)

/-- The state that counts for a log. -/
theorem newest_some {sts : List CTLogState} {url : Text} {c : CTLogState} (h : newest sts url = some c) : c ∈ sts ∧ c.shortURL = url := by
  unfold newest at h
  exact ⟨List.mem_reverse.1 (List.mem_of_find?_eq_some h), by simpa using List.find?_some h⟩

theorem newest_exists {sts : List CTLogState} {c : CTLogState} (h : c ∈ sts) : ∃ d, newest sts c.shortURL = some d := by
  unfold newest
  cases hf : sts.reverse.find? (fun d => decide (d.shortURL = c.shortURL)) with
  | some d => exact ⟨d, rfl⟩
  | none =>
    rw [List.find?_eq_none] at hf
    exact absurd (decide_eq_true rfl) (hf c (List.mem_reverse.2 h))

theorem newest_above {sts : List CTLogState} (ho : sts.Pairwise Rel) : ∀ c ∈ sts, ∀ d, newest sts c.shortURL = some d → GrowsC c d := by
  have key : ∀ (l : List CTLogState), l.Pairwise (fun a b => Rel b a) → ∀ c ∈ l, ∀ d, l.find? (fun x => decide (x.shortURL = c.shortURL)) = some d → GrowsC c d := by
    intro l hl
    induction hl with
    | nil => intro c hc; cases hc
    | @cons a l h1 _ ih =>
      intro c hc d hd
      rw [List.find?_cons] at hd
      split at hd
      · rename_i he
        cases hd
        rcases List.mem_cons.1 hc with rfl | hc
        · exact GrowsC.refl _
        · exact h1 c hc (of_decide_eq_true he).symm
      · rename_i he
        rcases List.mem_cons.1 hc with rfl | hc
        · exact absurd rfl (of_decide_eq_false he)
        · exact ih c hc d hd
  intro c hc d hd
  exact key sts.reverse (List.pairwise_reverse.2 ho) c (List.mem_reverse.2 hc) d hd

/-- Everything published is covered by what counts in the other list. -/
def Under (a b : List CTLogState) : Prop := ∀ c ∈ a, ∃ d, newest b c.shortURL = some d ∧ GrowsC c d

theorem Under.trans {a b c : List CTLogState} (h1 : Under a b) (h2 : Under b c) : Under a c := by
  intro x hx
  obtain ⟨y, hy, hxy⟩ := h1 x hx
  obtain ⟨hm, hu⟩ := newest_some hy
  obtain ⟨z, hz, hyz⟩ := h2 y hm
  rw [hu] at hz
  exact ⟨z, hz, hxy.trans hyz⟩

theorem under_refl {a : List CTLogState} (h : a.Pairwise Rel) : Under a a := by
  intro c hc
  obtain ⟨d, hd⟩ := newest_exists hc
  exact ⟨d, hd, newest_above h c hc d hd⟩

/-- One step of the database. -/
theorem gInv_eff {db db' : Db} (hi : GInv db) (hs : ∀ s, db' = { db with logs := putLog db.logs (logKey s.shortURL) s } → UpdatedC s ∧ ∀ p ∈ db.logs, Rel p.2 s) (h : Eff db db') :
    GInv db' ∧ Under (published db) (published db') := by
  obtain ⟨i1, i2, i3, i4, i5⟩ := hi
  have u := under_refl i3.ord
  cases h with
  | same => exact ⟨⟨i1, i2, i3, i4, i5⟩, u⟩
  | insert ps h => exact ⟨⟨i1, i2, i3, i4, i5⟩, u⟩
  | tick t h => exact ⟨⟨i1, i2, i3, i4, i5⟩, u⟩
  | keyExpires b h => exact ⟨⟨i1, i2, i3, i4, i5⟩, u⟩
  | saveLog s =>
    obtain ⟨hn, hr⟩ := hs s rfl
    refine ⟨⟨fun p hp => ?_, putLog_distinct i2 _ _, ups_save i1 hn hr i3, fun e need acc hp => ?_, fun st hp => ?_⟩, u⟩
    · rcases mem_putLog hp with rfl | hp
      · exact ⟨rfl, hn⟩
      · exact i1 p hp
    · obtain ⟨a, b, c⟩ := i4 e need acc hp
      exact ⟨ups_save i1 hn hr a, b, c⟩
    · obtain ⟨a, b⟩ := i5 st hp
      exact ⟨ups_save i1 hn hr a, b⟩
  | restore hp he l hl =>
    have hst : l = (published db).foldl (fun l s => putLog l (logKey s.shortURL) s) [] := by
      unfold Db.restored at hl
      split at hl
      · cases hl
      · rename_i ss hss; cases hl; unfold published; rw [hss]; rfl
    obtain ⟨h1, h2, _⟩ := putAll_newest (published db) [] i3.ord i3.named (fun p hp => by cases hp)
    rw [← hst] at h1 h2
    have h1' : ∀ p ∈ l, p.2 ∈ published db ∧ ∀ c ∈ published db, Rel c p.2 := by
      intro p hp
      rcases h1 p hp with ⟨h, _⟩ | h
      · cases h
      · exact h
    refine ⟨⟨fun p hp => ?_, ?_, ⟨i3.named, fun s hs => ?_, fun s hs d hd => ?_, i3.ord, i3.above⟩, (fun e need acc h => by rw [hp] at h; cases h), (fun st h => by rw [hp] at h; cases h)⟩, u⟩
    · refine ⟨?_, i3.named _ (h1' p hp).1⟩
      have hm : p ∈ (published db).foldl (fun l s => putLog l (logKey s.shortURL) s) [] := by rw [← hst]; exact hp
      rcases mem_putAll _ [] p hm with h | h
      · exact h.1
      · cases h
    · dsimp only
      rw [hst]
      exact putAll_distinct _ _ List.Pairwise.nil
    · obtain ⟨p, hp, he⟩ := h2 s hs
      exact ⟨p.2, values_mem hp, he⟩
    · obtain ⟨p, hp, rfl⟩ := mem_values hd
      exact (h1' p hp).2 s hs
  | stop => exact ⟨⟨i1, i2, i3, (fun _ _ _ h => by cases h), (fun _ h => by cases h)⟩, u⟩
  | begin hp he =>
    refine ⟨⟨i1, i2, i3, fun _ _ _ h => ?_, (fun _ h => by cases h)⟩, u⟩
    cases h
    refine ⟨⟨(fun s h => by cases h), (fun s h => by cases h), (fun s h => by cases h), List.Pairwise.nil, (fun c _ s h => by cases h)⟩, fun c hc => ?_, (fun p h => by cases h)⟩
    obtain ⟨d, hd, he⟩ := i3.here c hc
    obtain ⟨p, hp, rfl⟩ := mem_values hd
    rw [← he, ← (i1 p hp).1]
    exact List.mem_map_of_mem hp
  | readLog epoch need acc hp p h =>
    refine ⟨⟨i1, i2, i3, fun _ _ _ h' => ?_, (fun _ h => by cases h)⟩, u⟩
    cases h'
    obtain ⟨a, b, c⟩ := i4 _ _ _ hp
    have hv : values (acc ++ [p]) = values acc ++ [p.2] := by unfold values; rw [List.map_append]; rfl
    rw [hv]
    refine ⟨⟨fun s hs => ?_, fun s hs => ?_, fun s hs d hd => ?_, ?_, fun x hx s hs => ?_⟩, b, fun q hq => ?_⟩
    · rcases List.mem_append.1 hs with hs | hs
      · exact a.named s hs
      · rw [List.mem_singleton.1 hs]; exact (i1 p h).2
    · rcases List.mem_append.1 hs with hs | hs
      · exact a.here s hs
      · rw [List.mem_singleton.1 hs]; exact ⟨p.2, values_mem h, rfl⟩
    · rcases List.mem_append.1 hs with hs | hs
      · exact a.below s hs d hd
      · rw [List.mem_singleton.1 hs]
        obtain ⟨q, hq, rfl⟩ := mem_values hd
        intro e
        have : p = q := distinct_eq i2 p h q hq (by rw [(i1 p h).1, (i1 q hq).1, e])
        rw [this]
        exact GrowsC.refl _
    · rw [List.pairwise_append]
      refine ⟨a.ord, List.pairwise_singleton _ _, fun s hs d hd => ?_⟩
      rw [List.mem_singleton.1 hd]
      exact a.below s hs _ (values_mem h)
    · rcases List.mem_append.1 hs with hs | hs
      · exact a.above x hx s hs
      · rw [List.mem_singleton.1 hs]; exact i3.below x hx _ (values_mem h)
    · rcases List.mem_append.1 hq with hq | hq
      · exact c q hq
      · rw [List.mem_singleton.1 hq]; exact (i1 p h).1
  | loadedAll epoch need acc hp h =>
    refine ⟨⟨i1, i2, i3, (fun _ _ _ h => by cases h), fun st h' => ?_⟩, u⟩
    cases h'
    obtain ⟨a, b, c⟩ := i4 _ _ _ hp
    refine ⟨a, fun x hx => ?_⟩
    obtain ⟨q, hq, he⟩ := List.mem_map.1 (h _ (b x hx))
    refine ⟨q.2, values_mem hq, ?_⟩
    exact logKey_inj (a.named _ (values_mem hq)).1 (i3.named x hx).1 ((c q hq).symm.trans he)
  | listStart epoch states seen hp =>
    exact ⟨⟨i1, i2, i3, (fun _ _ _ h => by cases h), (fun st h' => i5 st (by rw [hp]; exact h'))⟩, u⟩
  | listEnd epoch states seen need bs hp h hn hr =>
    exact ⟨⟨i1, i2, i3, (fun _ _ _ h => by cases h), (fun st h' => i5 st (by rw [hp]; exact h'))⟩, u⟩
  | jobStart epoch states seen todo jobs hp b h =>
    exact ⟨⟨i1, i2, i3, (fun _ _ _ h => by cases h), (fun st h' => i5 st (by rw [hp]; exact h'))⟩, u⟩
  | jobListed epoch states seen todo jobs hp k b need es hj h1 h2 st hst =>
    exact ⟨⟨i1, i2, i3, (fun _ _ _ h => by cases h), (fun st h' => i5 st (by rw [hp]; exact h'))⟩, u⟩
  | jobRead epoch states seen todo jobs hp k b es hj l h =>
    exact ⟨⟨i1, i2, i3, (fun _ _ _ h => by cases h), (fun st h' => i5 st (by rw [hp]; exact h'))⟩, u⟩
  | jobWrite epoch states seen todo jobs hp k b es l hj =>
    exact ⟨⟨i1, i2, i3, (fun _ _ _ h => by cases h), (fun st h' => i5 st (by rw [hp]; exact h'))⟩, u⟩
  | jobRemove epoch states seen todo jobs hp k b cov xs hj => exact ⟨⟨i1, i2, i3, i4, i5⟩, u⟩
  | jobFinish epoch states seen todo jobs hp k b cov hj =>
    exact ⟨⟨i1, i2, i3, (fun _ _ _ h => by cases h), (fun st h' => i5 st (by rw [hp]; exact h'))⟩, u⟩
  | jobFail epoch states seen todo jobs hp k b st hj =>
    exact ⟨⟨i1, i2, i3, (fun _ _ _ h => by cases h), (fun st h' => i5 st (by rw [hp]; exact h'))⟩, u⟩
  | replaceLogs epoch states seen jobs hp h =>
    obtain ⟨a, b⟩ := i5 states (by rw [hp]; rfl)
    refine ⟨⟨i1, i2, ⟨a.named, a.here, a.below, a.ord, (fun c hc => by cases hc)⟩, (fun _ _ _ h => by cases h), (fun _ h => by cases h)⟩, fun c hc => ?_⟩
    obtain ⟨s, hs, he⟩ := b c hc
    obtain ⟨d, hd⟩ := newest_exists hs
    rw [he] at hd
    obtain ⟨h1, h2⟩ := newest_some hd
    exact ⟨d, hd, a.above c hc d h1 h2.symm⟩
  | sweep epoch hp b h => exact ⟨⟨i1, i2, i3, i4, i5⟩, u⟩
  | nextEpoch epoch hp => exact ⟨⟨i1, i2, i3, (fun _ _ _ h => by cases h), (fun _ h => by cases h)⟩, u⟩
  | countAgain epoch hp => exact ⟨⟨i1, i2, i3, i4, i5⟩, u⟩
  | replaceEpoch epoch hp => exact ⟨⟨i1, i2, i3, (fun _ _ _ h => by cases h), (fun _ h => by cases h)⟩, u⟩

theorem gInv_init : GInv Db.init :=
  ⟨(fun p h => by cases h), List.Pairwise.nil, ⟨(fun s h => by cases h), (fun s h => by cases h), (fun s h => by cases h), List.Pairwise.nil, (fun c h => by cases h)⟩,
    (fun _ _ _ h => by cases h), (fun _ h => by cases h)⟩

end Verif
