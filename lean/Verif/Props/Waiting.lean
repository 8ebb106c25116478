import Verif.Spec.Waiting
import Verif.Props.Workflow
/-!
C114: the publisher waits for a run or a file, and not for ever.
-/
namespace Verif.Props
open Verif.Spec

theorem requestAt_ge (w : WaitWorld) (t0 : Nat) : ∀ i, t0 ≤ requestAt w t0 i
  | 0 => Nat.le_refl _
  | i + 1 => by have := requestAt_ge w t0 i; simp only [requestAt]; omega

theorem requestAt_far (w : WaitWorld) (t0 : Nat) : ∀ i, t0 + 30000 * i ≤ requestAt w t0 i
  | 0 => by simp [requestAt]
  | i + 1 => by have := requestAt_far w t0 i; simp only [requestAt]; omega

/-- The wait goes on after request `i`. -/
def GoesOn (w : WaitWorld) (timeout t0 i : Nat) : Prop :=
  w.reply (requestAt w t0 i) = .missing ∧ w.clock (requestAt w t0 i + w.took i) - w.clock t0 < timeout

/-- The wait ends after request `i`, in the way `e`. -/
def EndsAt (w : WaitWorld) (timeout t0 i : Nat) (e : WaitEnd) : Prop :=
  (∃ c, w.reply (requestAt w t0 i) = .sent c ∧ e = .found c) ∨ (∃ p, w.reply (requestAt w t0 i) = .broken p ∧ e = .raised p) ∨
  (w.reply (requestAt w t0 i) = .missing ∧ (timeout : Int) ≤ w.clock (requestAt w t0 i + w.took i) - w.clock t0 ∧ e = .timedOut)

theorem waitTurns_from (w : WaitWorld) (timeout t0 : Nat) : ∀ n i e t, waitTurns w timeout t0 n i (requestAt w t0 i) = some (e, t) ↔
    ∃ j, i ≤ j ∧ j < i + n ∧ (∀ k, i ≤ k → k < j → GoesOn w timeout t0 k) ∧ EndsAt w timeout t0 j e ∧ t = requestAt w t0 j + w.took j := by
  intro n
  induction n with
  | zero =>
    intro i e t
    simp only [waitTurns]
    constructor
    · intro h; cases h
    · rintro ⟨j, h1, h2, _⟩; omega
  | succ n ih =>
    intro i e t
    have hnext := ih (i + 1) e t
    simp only [requestAt] at hnext
    -- what an end at a later request means when the wait goes on after request `i`
    have hgo : ∀ hm : w.reply (requestAt w t0 i) = .missing, w.clock (requestAt w t0 i + w.took i) - w.clock t0 < timeout →
        ((∃ j, i + 1 ≤ j ∧ j < i + 1 + n ∧ (∀ k, i + 1 ≤ k → k < j → GoesOn w timeout t0 k) ∧ EndsAt w timeout t0 j e ∧ t = requestAt w t0 j + w.took j) ↔
        ∃ j, i ≤ j ∧ j < i + (n + 1) ∧ (∀ k, i ≤ k → k < j → GoesOn w timeout t0 k) ∧ EndsAt w timeout t0 j e ∧ t = requestAt w t0 j + w.took j) := by
      intro hm hc
      constructor
      · rintro ⟨j, h1, h2, h3, h4, h5⟩
        refine ⟨j, by omega, by omega, fun k hk1 hk2 => ?_, h4, h5⟩
        rcases Nat.eq_or_lt_of_le hk1 with e1 | h
        · exact e1 ▸ ⟨hm, hc⟩
        · exact h3 k (by omega) hk2
      · rintro ⟨j, h1, h2, h3, h4, h5⟩
        rcases Nat.eq_or_lt_of_le h1 with e1 | h
        · subst e1
          rcases h4 with ⟨c, hr, _⟩ | ⟨p, hr, _⟩ | ⟨_, hd, _⟩
          · rw [hm] at hr; cases hr
          · rw [hm] at hr; cases hr
          · omega
        · exact ⟨j, by omega, by omega, fun k hk1 hk2 => h3 k (by omega) hk2, h4, h5⟩
    -- an end at request `i` itself
    have hend : ∀ e', EndsAt w timeout t0 i e' → (∀ e'', EndsAt w timeout t0 i e'' → e'' = e') → ¬ GoesOn w timeout t0 i →
        (some (e', requestAt w t0 i + w.took i) = some (e, t) ↔
        ∃ j, i ≤ j ∧ j < i + (n + 1) ∧ (∀ k, i ≤ k → k < j → GoesOn w timeout t0 k) ∧ EndsAt w timeout t0 j e ∧ t = requestAt w t0 j + w.took j) := by
      intro e' he hu hn
      constructor
      · intro h
        injection h with h
        injection h with h1 h2
        subst h1; subst h2
        exact ⟨i, Nat.le_refl _, by omega, fun k h1 h2 => by omega, he, rfl⟩
      · rintro ⟨j, h1, h2, h3, h4, h5⟩
        rcases Nat.eq_or_lt_of_le h1 with e1 | h
        · subst e1; rw [hu e h4, h5]
        · exact absurd (h3 i (Nat.le_refl _) h) hn
    cases hr : w.reply (requestAt w t0 i) with
    | sent c =>
      simp only [waitTurns, hr]
      refine hend _ (.inl ⟨c, hr, rfl⟩) ?_ ?_
      · rintro e'' (⟨c', h, rfl⟩ | ⟨p, h, _⟩ | ⟨h, _⟩)
        · rw [hr] at h; cases h; rfl
        · rw [hr] at h; cases h
        · rw [hr] at h; cases h
      · intro h; rw [GoesOn, hr] at h; cases h.1
    | broken p =>
      simp only [waitTurns, hr]
      refine hend _ (.inr (.inl ⟨p, hr, rfl⟩)) ?_ ?_
      · rintro e'' (⟨c', h, _⟩ | ⟨p', h, rfl⟩ | ⟨h, _⟩)
        · rw [hr] at h; cases h
        · rw [hr] at h; cases h; rfl
        · rw [hr] at h; cases h
      · intro h; rw [GoesOn, hr] at h; cases h.1
    | missing =>
      simp only [waitTurns, hr]
      by_cases hc : (timeout : Int) ≤ w.clock (requestAt w t0 i + w.took i) - w.clock t0
      · rw [if_pos hc]
        refine hend _ (.inr (.inr ⟨hr, hc, rfl⟩)) ?_ ?_
        · rintro e'' (⟨c', h, _⟩ | ⟨p', h, _⟩ | ⟨_, _, h⟩)
          · rw [hr] at h; cases h
          · rw [hr] at h; cases h
          · exact h
        · intro h; have := h.2; omega
      · rw [if_neg hc, hnext]
        exact hgo hr (by omega)

/-- **C114 (exactly).** A wait ends after the first request that is answered with the file, that fails, or whose answer comes when the clock says that the
time is up; and the end says which. -/
theorem C114_exact (w : WaitWorld) (timeout t0 n : Nat) (e : WaitEnd) (t : Nat) : waitTurns w timeout t0 n 0 t0 = some (e, t) ↔
    ∃ i, i < n ∧ (∀ j, j < i → w.reply (requestAt w t0 j) = .missing ∧ w.clock (requestAt w t0 j + w.took j) - w.clock t0 < timeout) ∧
      t = requestAt w t0 i + w.took i ∧
      ((∃ c, w.reply (requestAt w t0 i) = .sent c ∧ e = .found c) ∨ (∃ p, w.reply (requestAt w t0 i) = .broken p ∧ e = .raised p) ∨
       (w.reply (requestAt w t0 i) = .missing ∧ (timeout : Int) ≤ w.clock (requestAt w t0 i + w.took i) - w.clock t0 ∧ e = .timedOut)) := by
  have h := waitTurns_from w timeout t0 n 0 e t
  simp only [requestAt] at h
  rw [h]
  constructor
  · rintro ⟨j, _, h2, h3, h4, h5⟩
    exact ⟨j, by omega, fun k hk => h3 k (Nat.zero_le _) hk, h5, h4⟩
  · rintro ⟨j, h2, h3, h5, h4⟩
    exact ⟨j, Nat.zero_le _, by omega, fun k _ hk => h3 k hk, h4, h5⟩

/-- **C114 (the local file).** If the download returns, the local file is what the bucket held at the last request. If the time is up, or while the wait
goes on, the local file is as before. -/
theorem C114_file (w : WaitWorld) (timeout t0 n : Nat) (before : Option Bytes) :
    (∀ c t, (awaitDownload w timeout t0 n before).1 = some (.found c, t) → (awaitDownload w timeout t0 n before).2 = some c ∧ ∃ i, w.reply (requestAt w t0 i) = .sent c) ∧
    ((awaitDownload w timeout t0 n before).1 = none → (awaitDownload w timeout t0 n before).2 = before) ∧
    ∀ t, (awaitDownload w timeout t0 n before).1 = some (.timedOut, t) → (awaitDownload w timeout t0 n before).2 = before := by
  unfold awaitDownload
  cases hw : waitTurns w timeout t0 n 0 t0 with
  | none => exact ⟨(fun c t h => by cases h), fun _ => rfl, (fun t h => by cases h)⟩
  | some r =>
    obtain ⟨e, t'⟩ := r
    cases e with
    | found c =>
      refine ⟨fun c' t h => ?_, (fun h => by cases h), (fun t h => by cases h)⟩
      cases h
      obtain ⟨i, _, _, _, h⟩ := (C114_exact w timeout t0 n (.found c) t').1 hw
      rcases h with ⟨c', h, hc⟩ | ⟨p, _, hc⟩ | ⟨_, _, hc⟩
      · cases hc; exact ⟨rfl, i, h⟩
      · cases hc
      · cases hc
    | raised p =>
      cases p with
      | none => exact ⟨(fun c t h => by cases h), (fun h => by cases h), (fun t h => by cases h)⟩
      | some p => exact ⟨(fun c t h => by cases h), (fun h => by cases h), (fun t h => by cases h)⟩
    | timedOut => exact ⟨(fun c t h => by cases h), (fun h => by cases h), fun t h => rfl⟩

/-- **C114 (not for ever, partial).** If the clock is not set during the wait, at most one request for each 30 seconds of the limit and one more are made,
and the wait ends before the limit and the time for one sleep and one request have passed (or with the first request). Missing: clocks that are set
(`C114_clock_fails`). -/
theorem C114_bounded_partial (w : WaitWorld) (timeout t0 d s : Nat) (hc : EvenClock w t0) (hb : Brisk w d s) (n : Nat) (hn : timeout / 30000 + 2 ≤ n) :
    ∃ e t, waitTurns w timeout t0 n 0 t0 = some (e, t) ∧ (t ≤ t0 + d ∨ t < t0 + timeout + 30000 + s + d) := by
  -- the first request after which the wait does not go on
  have hstop : ¬ GoesOn w timeout t0 (timeout / 30000 + 1) := by
    intro h
    have h2 := h.2
    have hf := requestAt_far w t0 (timeout / 30000 + 1)
    rw [hc _ (by omega)] at h2
    have := Nat.div_add_mod timeout 30000
    have := Nat.mod_lt timeout (show 30000 > 0 by omega)
    omega
  have hfirst : ∀ m, ¬ GoesOn w timeout t0 m → ∃ i, i ≤ m ∧ ¬ GoesOn w timeout t0 i ∧ ∀ j, j < i → GoesOn w timeout t0 j := by
    intro m
    induction m using Nat.strongRecOn with
    | ind m ih =>
      intro h
      by_cases hm : ∃ k, k < m ∧ ¬ GoesOn w timeout t0 k
      · obtain ⟨k, hk, hg⟩ := hm
        obtain ⟨i, hi, h1, h2⟩ := ih k hk hg
        exact ⟨i, by omega, h1, h2⟩
      · exact ⟨m, Nat.le_refl _, h, fun j hj => Classical.byContradiction fun hgj => hm ⟨j, hj, hgj⟩⟩
  obtain ⟨i, hi, hni, hall⟩ := hfirst _ hstop
  have htime : requestAt w t0 i + w.took i ≤ t0 + d ∨ requestAt w t0 i + w.took i < t0 + timeout + 30000 + s + d := by
    cases i with
    | zero => left; have := hb.1 0; simp only [requestAt]; omega
    | succ i =>
      right
      have h2 := (hall i (by omega)).2
      have := requestAt_ge w t0 i
      rw [hc _ (by omega)] at h2
      have := hb.1 (i + 1); have := hb.2 i
      simp only [requestAt]; omega
  have hends : ∃ e, EndsAt w timeout t0 i e := by
    cases hr : w.reply (requestAt w t0 i) with
    | sent c => exact ⟨.found c, .inl ⟨c, hr, rfl⟩⟩
    | broken p => exact ⟨.raised p, .inr (.inl ⟨p, hr, rfl⟩)⟩
    | missing =>
      refine ⟨.timedOut, .inr (.inr ⟨hr, Classical.byContradiction fun h => hni ⟨hr, by omega⟩, rfl⟩)⟩
  obtain ⟨e, he⟩ := hends
  exact ⟨e, _, (C114_exact w timeout t0 n e _).2 ⟨i, by omega, hall, rfl, he⟩, htime⟩

/-- **C114 (what comes in time is found, partial).** If the file is in the bucket from time `a` on, not later than the limit less the time for one request,
and no request fails, then the wait ends with the file. Missing: clocks that are set. -/
theorem C114_found_partial (w : WaitWorld) (timeout t0 d s a : Nat) (c : Bytes) (hc : EvenClock w t0) (hb : Brisk w d s)
    (hf : ∀ t p, w.reply t ≠ .broken p) (hs : ∀ t c', w.reply t = .sent c' → c' = c) (ha : ∀ t, a ≤ t → w.reply t = .sent c) (hin : a + d ≤ t0 + timeout)
    (n : Nat) (hn : timeout / 30000 + 2 ≤ n) : ∃ t, waitTurns w timeout t0 n 0 t0 = some (.found c, t) := by
  obtain ⟨e, t, h, _⟩ := C114_bounded_partial w timeout t0 d s hc hb n hn
  obtain ⟨i, hi, hall, ht, he⟩ := (C114_exact w timeout t0 n e t).1 h
  rcases he with ⟨c', hr, he⟩ | ⟨p, hr, _⟩ | ⟨hr, hd, _⟩
  · rw [hs _ _ hr] at he; exact ⟨t, he ▸ h⟩
  · exact absurd hr (hf _ _)
  · exfalso
    have := requestAt_ge w t0 i
    rw [hc _ (by omega)] at hd
    have := hb.1 i
    rw [ha _ (by omega)] at hr; cases hr

/-- **C114 (runs).** If the wait for the newest run returns, then the newest of the runs listed at its beginning is complete. -/
theorem C114_run (w : WaitWorld) (bucket : Nat → List StoredObj) (timeout t0 n t : Nat) (c : Bytes) (h : awaitRun w bucket timeout t0 n = some (.found c, t)) :
    ∃ newest t', (getRunIdentifiers (dirsOf (bucket t0))).getLast? = some newest ∧ t0 ≤ t' ∧ t' ≤ t ∧ runReady (bucket t') newest = true := by
  obtain ⟨i, _, _, ht, he⟩ := (C114_exact _ timeout t0 n (.found c) t).1 h
  rcases he with ⟨c', hr, _⟩ | ⟨p, _, he⟩ | ⟨_, _, he⟩
  · have hge := requestAt_ge { w with reply := newestReply (getRunIdentifiers (dirsOf (bucket t0))) bucket } t0 i
    simp only [newestReply] at hr
    cases hl : (getRunIdentifiers (dirsOf (bucket t0))).getLast? with
    | none => rw [hl] at hr; cases hr
    | some r =>
      rw [hl] at hr
      refine ⟨r, _, rfl, hge, by omega, ?_⟩
      exact Classical.byContradiction fun hno => by
        simp only [if_neg hno] at hr
        cases hr
  · cases he
  · cases he

/-- **C114 (runs that end in time, partial).** If the newest run of the listing is complete from time `a` on, not later than the limit less the time for one
request, then the wait returns. Missing: clocks that are set, and runs that begin during the wait (`C114_stale_fails`). -/
theorem C114_run_found_partial (w : WaitWorld) (bucket : Nat → List StoredObj) (timeout t0 d s a : Nat) (hc : EvenClock w t0) (hb : Brisk w d s) (newest : Text)
    (hl : (getRunIdentifiers (dirsOf (bucket t0))).getLast? = some newest) (ha : ∀ t, a ≤ t → runReady (bucket t) newest = true) (hin : a + d ≤ t0 + timeout)
    (n : Nat) (hn : timeout / 30000 + 2 ≤ n) : ∃ t, awaitRun w bucket timeout t0 n = some (.found [], t) := by
  refine C114_found_partial { w with reply := newestReply (getRunIdentifiers (dirsOf (bucket t0))) bucket } timeout t0 d s a [] hc hb ?_ ?_ ?_ hin n hn
  · intro t p h
    simp only [newestReply, hl] at h
    split at h <;> cases h
  · intro t c h
    simp only [newestReply, hl] at h
    split at h <;> cases h
    rfl
  · intro t ht
    simp only [newestReply, hl, ha t ht, if_true]

/-- **C114 (a complete run).** Once the marker of a run is in the bucket, the download of any regular file of the run ends with its first request, and the
local file has the contents of the file, whatever the clock says. -/
theorem C114_complete (w : WaitWorld) (bucket : Nat → List StoredObj) (run : Text) (data : List WalkFile) (groups : List (List WalkFile)) (prio : List WalkFile)
    (hf : RunFolder run data groups prio) (before : List StoredObj) (hnew : runReady before run = false) (k t0 : Nat)
    (hbk : bucket t0 = before ++ (uploadRun run data groups prio).take k) (h : runReady (bucket t0) run = true) (timeout n : Nat) (local0 : Option Bytes) :
    (∀ f ∈ data, f.symlink = false → Asks w bucket ([run] ++ f.path) → awaitDownload w timeout t0 (n + 1) local0 = (some (.found f.content, t0 + w.took 0), some f.content)) ∧
    (∀ g ∈ groups, ∀ f ∈ g, f.symlink = false → Asks w bucket ([run, "clubcard-all".toList] ++ f.path) →
      awaitDownload w timeout t0 (n + 1) local0 = (some (.found f.content, t0 + w.took 0), some f.content)) := by
  rw [hbk] at h
  obtain ⟨h1, h2, _⟩ := C73_completed_last run data groups prio before hf hnew k h
  have key : ∀ p c, objGet (bucket t0) p = some c → Asks w bucket p → awaitDownload w timeout t0 (n + 1) local0 = (some (.found c, t0 + w.took 0), some c) := by
    intro p c hp ha
    have hr := ha t0
    rw [hp] at hr
    have hw : waitTurns w timeout t0 (n + 1) 0 t0 = some (.found c, t0 + w.took 0) := by simp only [waitTurns, hr]
    simp only [awaitDownload, hw]
  refine ⟨fun f hfm hs ha => key _ _ ?_ ha, fun g hg f hfm hs ha => key _ _ ?_ ha⟩
  · rw [hbk]; exact h1 f hfm hs
  · rw [hbk]; exact (h2 g hg f hfm hs).1

/-! ### what is false -/

/-- Nothing is ever there, requests take no time and sleeps 30 seconds; the clock is set by `jump` half a minute after the beginning. -/
def exJump (jump : Int) : WaitWorld := ⟨fun _ => .missing, fun _ => 0, fun _ => 0, fun t => if t < 30000 then (t : Int) else (t : Int) + jump⟩

theorem exJump_at (jump : Int) : ∀ i, requestAt (exJump jump) 0 i = 30000 * i
  | 0 => rfl
  | i + 1 => by rw [requestAt, exJump_at jump i]; simp only [exJump]; omega

/-- **C114 fails** when the clock is set: `datetime.now()` is local time. If summer time ends during the wait for a file, the wait of 5 minutes goes on for
more than an hour; if it begins then, the wait ends after 30 seconds. The program says as a reason that the 5 minutes are over. -/
theorem C114_clock_fails : waitTurns (exJump (-3600000)) 300000 0 130 0 0 = none ∧ requestAt (exJump (-3600000)) 0 130 = 3900000 ∧
    waitTurns (exJump 3600000) 300000 0 2 0 0 = some (.timedOut, 30000) := by decide +kernel

/-- **C114 fails** for however long one waits: with the clock set back far enough the wait has not ended after any number of requests. -/
theorem C114_clock_far_fails (timeout n : Nat) : waitTurns (exJump (-(30000 * n : Nat))) (timeout + 30001) 0 n 0 0 = none := by
  cases hw : waitTurns (exJump (-(30000 * n : Nat))) (timeout + 30001) 0 n 0 0 with
  | none => rfl
  | some r =>
    obtain ⟨e, t⟩ := r
    obtain ⟨i, hi, _, _, he⟩ := (C114_exact _ _ 0 n e t).1 hw
    rcases he with ⟨c, hr, _⟩ | ⟨p, hr, _⟩ | ⟨_, hd, _⟩
    · cases hr
    · cases hr
    · exfalso
      rw [exJump_at] at hd
      simp only [exJump] at hd
      split at hd <;> split at hd <;> omega

/-- The writes of one run. -/
def exRunOf (run : Text) : List StoredObj := uploadRun run exData exAll []

/-- The bucket in which a run has died before its end, and another is complete a minute after the beginning. -/
def exOvertaken (t : Nat) : List StoredObj := (exRunOf "20240101-0".toList).take 3 ++ if t < 60000 then [] else exRunOf "20240101-1".toList

/-- The bucket to which the first run comes after a minute. -/
def exFirstRun (t : Nat) : List StoredObj := if t < 60000 then [] else exRunOf "20240101-0".toList

/-- **C114 fails** for runs that begin during the wait: the runs are listed once, before it. If there was none, or if the newest has died, the publisher
waits until the time is up although another run is complete meanwhile. -/
theorem C114_stale_fails : awaitRun (exJump 0) exFirstRun 300000 0 12 = some (.timedOut, 300000) ∧ runReady (exFirstRun 60000) "20240101-0".toList = true ∧
    awaitRun (exJump 0) exOvertaken 300000 0 12 = some (.timedOut, 300000) ∧ runReady (exOvertaken 60000) "20240101-1".toList = true := by decide +kernel

/-! ### each theorem applied -/

/-- A file that comes after 70 seconds; requests take a second, sleeps 5 milliseconds too long. -/
def exLate : WaitWorld := ⟨fun t => if t < 1070000 then .missing else .sent [7], fun _ => 1000, fun _ => 5, fun t => (t : Int) + 42⟩

theorem exLate_even : EvenClock exLate 1000000 := by intro t ht; simp only [exLate]; omega
theorem exLate_brisk : Brisk exLate 1000 5 := ⟨fun _ => Nat.le_refl _, fun _ => Nat.le_refl _⟩

/-- The fourth request gets it. -/
example : waitTurns exLate 300000 1000000 12 0 1000000 = some (.found [7], 1094015) ∧ awaitDownload exLate 300000 1000000 12 (some [1, 2]) = (some (.found [7], 1094015), some [7]) := by decide +kernel

/-- With a limit of one minute the time is up first, and the old local file stays. -/
example : awaitDownload exLate 60000 1000000 12 (some [1, 2]) = (some (.timedOut, 1063010), some [1, 2]) := by decide +kernel

/-- A limit of nothing means one request. -/
example : awaitDownload exLate 0 1000000 12 none = (some (.timedOut, 1001000), none) := by decide +kernel

/-- A transfer that breaks leaves the part it got. -/
example : awaitDownload { exLate with reply := fun _ => .broken (some [9]) } 300000 1000000 12 (some [1, 2]) = (some (.raised (some [9]), 1001000), some [9]) := by decide +kernel

example : ∃ i, i < 12 ∧ (∀ j, j < i → exLate.reply (requestAt exLate 1000000 j) = .missing ∧ exLate.clock (requestAt exLate 1000000 j + exLate.took j) - exLate.clock 1000000 < (300000 : Nat)) ∧
    1094015 = requestAt exLate 1000000 i + exLate.took i ∧
    ((∃ c, exLate.reply (requestAt exLate 1000000 i) = .sent c ∧ WaitEnd.found [7] = .found c) ∨ (∃ p, exLate.reply (requestAt exLate 1000000 i) = .broken p ∧ WaitEnd.found [7] = .raised p) ∨
     (exLate.reply (requestAt exLate 1000000 i) = .missing ∧ ((300000 : Nat) : Int) ≤ exLate.clock (requestAt exLate 1000000 i + exLate.took i) - exLate.clock 1000000 ∧ WaitEnd.found [7] = .timedOut)) :=
  (C114_exact exLate 300000 1000000 12 (.found [7]) 1094015).1 (by decide +kernel)

example : (awaitDownload exLate 300000 1000000 12 (some [1, 2])).2 = some [7] ∧ ∃ i, exLate.reply (requestAt exLate 1000000 i) = .sent [7] :=
  (C114_file exLate 300000 1000000 12 (some [1, 2])).1 [7] 1094015 (by decide +kernel)

example : ∃ e t, waitTurns exLate 300000 1000000 12 0 1000000 = some (e, t) ∧ (t ≤ 1000000 + 1000 ∨ t < 1000000 + 300000 + 30000 + 5 + 1000) :=
  C114_bounded_partial exLate 300000 1000000 1000 5 exLate_even exLate_brisk 12 (by decide)

example : ∃ t, waitTurns exLate 300000 1000000 12 0 1000000 = some (.found [7], t) :=
  C114_found_partial exLate 300000 1000000 1000 5 1070000 [7] exLate_even exLate_brisk (fun t p h => by simp only [exLate] at h; split at h <;> cases h)
    (fun t c h => by simp only [exLate] at h; split at h <;> cases h; rfl) (fun t ht => by simp only [exLate]; rw [if_neg (by omega)]) (by decide) 12 (by decide)

/-- The bucket in which the listed run is complete after a minute. -/
def exFinishing (t : Nat) : List StoredObj := if t < 60000 then (exRunOf "20240101-0".toList).take 3 else exRunOf "20240101-0".toList

example : awaitRun (exJump 0) exFinishing 300000 0 12 = some (.found [], 60000) := by decide +kernel

example : ∃ newest t', (getRunIdentifiers (dirsOf (exFinishing 0))).getLast? = some newest ∧ 0 ≤ t' ∧ t' ≤ 60000 ∧ runReady (exFinishing t') newest = true :=
  C114_run (exJump 0) exFinishing 300000 0 12 60000 [] (by decide +kernel)

example : ∃ t, awaitRun (exJump 0) exFinishing 300000 0 12 = some (.found [], t) :=
  C114_run_found_partial (exJump 0) exFinishing 300000 0 0 0 60000 (fun t _ => by simp only [exJump]; split <;> split <;> omega) ⟨fun _ => Nat.le_refl _, fun _ => Nat.le_refl _⟩
    "20240101-0".toList (by decide +kernel) (fun t ht => by simp only [exFinishing]; rw [if_neg (by omega)]; decide +kernel) (by decide) 12 (by decide)

/-- The wait for a file of the bucket. -/
def exAsk (bucket : Nat → List StoredObj) (path : List Text) : WaitWorld :=
  ⟨fun t => match objGet (bucket t) path with
    | none => .missing
    | some c => .sent c, fun _ => 500, fun _ => 0, fun _ => 0⟩

example : awaitDownload (exAsk (fun _ => exRunOf "20240101-0".toList) ["20240101-0".toList, "ct-logs.json".toList]) 300000 7 1 none = (some (.found [2], 507), some [2]) :=
  (C114_complete _ (fun _ => exRunOf "20240101-0".toList) _ exData exAll [] exFolder [] rfl 100 7 (by decide +kernel) (by decide +kernel) 300000 0 none).1
    ⟨["ct-logs.json".toList], [2], false⟩ (by decide +kernel) rfl (fun _ => rfl)

example : waitTurns (exJump (-(30000 * 1000000 : Nat))) (270000 + 30001) 0 1000000 0 0 = none := C114_clock_far_fails 270000 1000000

end Verif.Props
