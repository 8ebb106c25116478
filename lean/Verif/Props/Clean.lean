import Verif.Model.Clean
import Verif.Props.Keys
/-!
Property C88: the removal of expired bins from the storage directory.
-/
namespace Verif.Spec

/-- The bin's name says that its time has passed: three parts, the second a date whose last good millisecond is before `now`. -/
def Overdue (now : Int) (name : Text) : Prop := ∃ p d i e, Split name [p, d, i] ∧ newExpDate d = some e ∧ e.lastGood < now

/-- A directory of an issuer. -/
def IssuerDir (d : DirEntry) : Prop := d.isDir = true ∧ ∃ i, d.name = "issuer::".toList ++ i

/-- The file is in the directory of this name. -/
def Holds (dirs : List DirEntry) (dn f : Text) : Prop := ∃ d ∈ dirs, d.name = dn ∧ f ∈ d.files

/-- What a file system gives: no two entries of the storage directory have the same name. -/
def Listing (dirs : List DirEntry) : Prop := (dirs.map DirEntry.name).Nodup

end Verif.Spec

namespace Verif
open Verif.Spec

theorem overdue_iff (now : Int) (name : Text) : overdue now name = true ↔ Overdue now name := by
  unfold overdue Overdue
  constructor
  · intro h
    split at h
    · rename_i p d i hs
      split at h
      · rename_i e he
        exact ⟨p, d, i, e, (splitColons_iff _ _).1 hs, he, by simpa [ExpDate.isExpiredAt] using h⟩
      · cases h
    · cases h
  · rintro ⟨p, d, i, e, hs, he, hl⟩
    rw [(splitColons_iff _ _).2 hs]
    simp [he, ExpDate.isExpiredAt, hl]

theorem isIssuerDir_iff (d : DirEntry) : isIssuerDir d = true ↔ IssuerDir d := by
  unfold isIssuerDir IssuerDir
  rw [Bool.and_eq_true, hasPrefix_iff]

theorem mem_removedFiles {env : SweepEnv} {now : Int} {d : DirEntry} {f : Text} :
    f ∈ removedFiles env now d ↔ f ∈ d.files ∧ Overdue now f ∧ env.stuck d.name f = false := by
  unfold removedFiles
  rw [List.mem_filter, Bool.and_eq_true, overdue_iff, Bool.not_eq_true']

theorem removedFiles_all {env : SweepEnv} {now : Int} {d : DirEntry} :
    d.files.length = (removedFiles env now d).length ↔ ∀ f ∈ d.files, Overdue now f ∧ env.stuck d.name f = false := by
  unfold removedFiles
  rw [eq_comm, List.length_filter_eq_length_iff]
  simp only [Bool.and_eq_true, overdue_iff, Bool.not_eq_true']

/-- The directory `d` after the removals `ops`. -/
def DirEntry.without (ops : List SweepOp) (d : DirEntry) : DirEntry :=
  { d with files := d.files.filter (fun f => decide (SweepOp.file d.name f ∉ ops)) }

theorem sweepRun_eq (ops : List SweepOp) : ∀ dirs : List DirEntry, sweepRun dirs ops =
    (dirs.filter (fun d => decide (SweepOp.dir d.name ∉ ops))).map (DirEntry.without ops) := by
  induction ops with
  | nil =>
    intro dirs
    have hw : ∀ d ∈ dirs, DirEntry.without [] d = d := by
      intro d _
      obtain ⟨n, b, fs⟩ := d
      simp [DirEntry.without]
    have hf : dirs.filter (fun d => decide (SweepOp.dir d.name ∉ ([] : List SweepOp))) = dirs := by simp
    rw [hf, List.map_congr_left hw]
    simp [sweepRun]
  | cons op ops ih =>
    intro dirs
    rw [show sweepRun dirs (op :: ops) = sweepRun (op.apply dirs) ops from rfl, ih]
    cases op with
    | file dn f =>
      induction dirs with
      | nil => rfl
      | cons d dirs ihd =>
        have hn : ∀ d : DirEntry, (if d.name = dn then { d with files := d.files.filter (fun g => decide (g ≠ f)) } else d).name = d.name := by
          intro d; split <;> rfl
        have hw : DirEntry.without ops (if d.name = dn then { d with files := d.files.filter (fun g => decide (g ≠ f)) } else d) =
            DirEntry.without (.file dn f :: ops) d := by
          unfold DirEntry.without
          split
          · rename_i h
            subst h
            simp only [List.filter_filter, DirEntry.mk.injEq, true_and]
            apply List.filter_congr
            intro g _
            by_cases h1 : g = f <;> by_cases h2 : SweepOp.file d.name g ∈ ops <;> simp [h1, h2]
          · rename_i h
            simp only [DirEntry.mk.injEq, true_and]
            apply List.filter_congr
            intro g _
            simp [h]
        simp only [SweepOp.apply, List.map_cons, List.filter_cons, hn] at ihd ⊢
        by_cases h : SweepOp.dir d.name ∈ ops
        · simpa [h] using ihd
        · simp only [h, not_false_iff, decide_true, if_true, List.map_cons, hw, List.mem_cons, reduceCtorEq, false_or]
          simpa using ihd
    | dir dn =>
      simp only [SweepOp.apply, List.filter_filter]
      have : (fun d : DirEntry => decide (SweepOp.dir d.name ∉ ops) && decide (d.name ≠ dn)) =
          fun d => decide (SweepOp.dir d.name ∉ SweepOp.dir dn :: ops) := by
        funext d
        by_cases h1 : d.name = dn <;> by_cases h2 : SweepOp.dir d.name ∈ ops <;> simp [h1, h2]
      rw [this]
      apply List.map_congr_left
      intro d _
      simp [DirEntry.without]

theorem sweepDirs_sound (env : SweepEnv) (now : Int) (dirs : List DirEntry) :
    (∀ dn f, SweepOp.file dn f ∈ (sweepDirs env now dirs).1 → ∃ d ∈ dirs, d.name = dn ∧ IssuerDir d ∧ f ∈ d.files ∧ Overdue now f) ∧
    (∀ dn, SweepOp.dir dn ∈ (sweepDirs env now dirs).1 → ∃ d ∈ dirs, d.name = dn ∧ IssuerDir d ∧ ∀ f ∈ d.files, Overdue now f) := by
  induction dirs with
  | nil => simp [sweepDirs]
  | cons d rest ih =>
    have up : ∀ {P : DirEntry → Prop}, (∃ d ∈ rest, P d) → ∃ x ∈ d :: rest, P x :=
      fun ⟨x, hx, hp⟩ => ⟨x, List.mem_cons_of_mem _ hx, hp⟩
    have here : ∀ {dn f : Text}, isIssuerDir d = true → SweepOp.file dn f ∈ (removedFiles env now d).map (SweepOp.file d.name) →
        ∃ x ∈ d :: rest, x.name = dn ∧ IssuerDir x ∧ f ∈ x.files ∧ Overdue now f := by
      intro dn f hi h
      obtain ⟨g, hg, e⟩ := List.mem_map.1 h
      rw [SweepOp.file.injEq] at e
      obtain ⟨e1, e2⟩ := e
      subst e1 e2
      obtain ⟨a, b, _⟩ := mem_removedFiles.1 hg
      exact ⟨d, List.mem_cons_self, rfl, (isIssuerDir_iff _).1 hi, a, b⟩
    have nodir : ∀ {dn : Text}, SweepOp.dir dn ∉ (removedFiles env now d).map (SweepOp.file d.name) := by
      intro dn h
      obtain ⟨g, _, e⟩ := List.mem_map.1 h
      cases e
    unfold sweepDirs
    split
    · rename_i hi
      split
      · simp
      · dsimp only
        split
        · exact ⟨fun dn f h => here hi h, fun dn h => absurd h nodir⟩
        · split
          · rename_i hl
            rw [Bool.and_eq_true, decide_eq_true_eq] at hl
            have hall := removedFiles_all.1 hl.1
            refine ⟨fun dn f h => ?_, fun dn h => ?_⟩
            · rcases List.mem_append.1 h with h | h
              · exact here hi h
              · rcases List.mem_cons.1 h with h | h
                · cases h
                · exact up (ih.1 dn f h)
            · rcases List.mem_append.1 h with h | h
              · exact absurd h nodir
              · rcases List.mem_cons.1 h with h | h
                · rw [SweepOp.dir.injEq] at h
                  exact ⟨d, List.mem_cons_self, h.symm, (isIssuerDir_iff _).1 hi, fun f hf => (hall f hf).1⟩
                · exact up (ih.2 dn h)
          · refine ⟨fun dn f h => ?_, fun dn h => ?_⟩
            · rcases List.mem_append.1 h with h | h
              · exact here hi h
              · exact up (ih.1 dn f h)
            · rcases List.mem_append.1 h with h | h
              · exact absurd h nodir
              · exact up (ih.2 dn h)
    · exact ⟨fun dn f h => up (ih.1 dn f h), fun dn h => up (ih.2 dn h)⟩

theorem sweepDirs_complete (env : SweepEnv) (now : Int) (dirs : List DirEntry) (h : (sweepDirs env now dirs).2 = true) :
    ∀ d ∈ dirs, IssuerDir d →
      (∀ f ∈ d.files, Overdue now f → env.stuck d.name f = false → SweepOp.file d.name f ∈ (sweepDirs env now dirs).1) ∧
      ((∀ f ∈ d.files, Overdue now f ∧ env.stuck d.name f = false) → env.dirStuck d.name = false →
        SweepOp.dir d.name ∈ (sweepDirs env now dirs).1) := by
  induction dirs with
  | nil => intro d hd; cases hd
  | cons x rest ih =>
    intro d hd hi
    unfold sweepDirs at h ⊢
    rcases List.mem_cons.1 hd with rfl | hd
    · rw [if_pos ((isIssuerDir_iff _).2 hi)] at h ⊢
      split at h
      · cases h
      · rename_i h1
        rw [if_neg h1]
        dsimp only at h ⊢
        split at h
        · cases h
        · rename_i h2
          rw [if_neg h2]
          constructor
          · intro f hf ho hs
            have : SweepOp.file d.name f ∈ (removedFiles env now d).map (SweepOp.file d.name) :=
              List.mem_map_of_mem (mem_removedFiles.2 ⟨hf, ho, hs⟩)
            split <;> exact List.mem_append_left _ this
          · intro hall hs
            rw [if_pos (by rw [removedFiles_all.2 hall, hs]; simp)]
            exact List.mem_append_right _ List.mem_cons_self
    · split at h
      · rename_i hx
        rw [if_pos hx]
        split at h
        · cases h
        · rename_i h1
          rw [if_neg h1]
          dsimp only at h ⊢
          split at h
          · cases h
          · rename_i h2
            rw [if_neg h2]
            have hr : (sweepDirs env now rest).2 = true := by split at h <;> exact h
            obtain ⟨a, b⟩ := ih hr d hd hi
            refine ⟨fun f hf ho hs => ?_, fun hall hs => ?_⟩
            · have := a f hf ho hs
              split
              · exact List.mem_append_right _ (List.mem_cons_of_mem _ this)
              · exact List.mem_append_right _ this
            · have := b hall hs
              split
              · exact List.mem_append_right _ (List.mem_cons_of_mem _ this)
              · exact List.mem_append_right _ this
      · rename_i hx
        rw [if_neg hx]
        exact ih h d hd hi

theorem sweep_sound (env : SweepEnv) (now : Int) (dirs : List DirEntry) :
    (∀ dn f, SweepOp.file dn f ∈ (sweep env now dirs).1 → ∃ d ∈ dirs, d.name = dn ∧ IssuerDir d ∧ f ∈ d.files ∧ Overdue now f) ∧
    (∀ dn, SweepOp.dir dn ∈ (sweep env now dirs).1 → ∃ d ∈ dirs, d.name = dn ∧ IssuerDir d ∧ ∀ f ∈ d.files, Overdue now f) := by
  unfold sweep
  split
  · simp
  · exact sweepDirs_sound env now dirs

theorem entry_unique {dirs : List DirEntry} (hl : Listing dirs) {d d' : DirEntry} (h : d ∈ dirs) (h' : d' ∈ dirs) (e : d.name = d'.name) : d = d' := by
  unfold Listing at hl
  induction dirs with
  | nil => cases h
  | cons x rest ih =>
    rw [List.map_cons, List.nodup_cons] at hl
    rcases List.mem_cons.1 h with k | k <;> rcases List.mem_cons.1 h' with k' | k'
    · rw [k, k']
    · exact absurd (by rw [← k, e]; exact List.mem_map_of_mem k') hl.1
    · exact absurd (by rw [← k', ← e]; exact List.mem_map_of_mem k) hl.1
    · exact ih hl.2 k k'

theorem mem_sweepRun {dirs : List DirEntry} {ops : List SweepOp} {d' : DirEntry} :
    d' ∈ sweepRun dirs ops ↔ ∃ d ∈ dirs, SweepOp.dir d.name ∉ ops ∧ d' = d.without ops := by
  rw [sweepRun_eq, List.mem_map]
  simp only [List.mem_filter, decide_eq_true_eq]
  constructor
  · rintro ⟨d, ⟨a, b⟩, c⟩; exact ⟨d, a, b, c.symm⟩
  · rintro ⟨d, a, b, c⟩; exact ⟨d, ⟨a, b⟩, c.symm⟩

theorem mem_without {ops : List SweepOp} {d : DirEntry} {f : Text} : f ∈ (d.without ops).files ↔ f ∈ d.files ∧ SweepOp.file d.name f ∉ ops := by
  unfold DirEntry.without
  simp [List.mem_filter]

end Verif

namespace Verif.Props
open Verif Verif.Spec

/-- **C88 (only expired bins go).** Whatever fails, and wherever the process is stopped (after the removals `ops`), every file whose name does not
say that its time has passed is still in its directory, as is everything outside the issuers' directories; and no file appears. -/
theorem C88_only_expired_removed (env : SweepEnv) (now : Int) (dirs : List DirEntry) (hl : Listing dirs) (ops : List SweepOp)
    (hp : ops <+: (sweep env now dirs).1) :
    (∀ d ∈ dirs, ∀ f ∈ d.files, ¬ Overdue now f → ∃ d' ∈ sweepRun dirs ops, d'.name = d.name ∧ d'.isDir = d.isDir ∧ f ∈ d'.files) ∧
    (∀ d ∈ dirs, ¬ IssuerDir d → d ∈ sweepRun dirs ops) ∧
    (∀ d' ∈ sweepRun dirs ops, ∃ d ∈ dirs, d'.name = d.name ∧ d'.isDir = d.isDir ∧ ∀ f ∈ d'.files, f ∈ d.files) := by
  obtain ⟨s1, s2⟩ := sweep_sound env now dirs
  refine ⟨fun d hd f hf ho => ?_, fun d hd hi => ?_, fun d' hd' => ?_⟩
  · refine ⟨d.without ops, mem_sweepRun.2 ⟨d, hd, fun h => ?_, rfl⟩, rfl, rfl, mem_without.2 ⟨hf, fun h => ?_⟩⟩
    · obtain ⟨x, hx, e, _, ha⟩ := s2 _ (hp.subset h)
      have := entry_unique hl hx hd e
      subst this
      exact ho (ha f hf)
    · obtain ⟨_, _, _, _, _, ha⟩ := s1 _ _ (hp.subset h)
      exact ho ha
  · refine mem_sweepRun.2 ⟨d, hd, fun h => ?_, ?_⟩
    · obtain ⟨x, hx, e, hx', _⟩ := s2 _ (hp.subset h)
      have := entry_unique hl hx hd e
      subst this
      exact hi hx'
    · obtain ⟨n, b, fs⟩ := d
      unfold DirEntry.without
      simp only [DirEntry.mk.injEq, true_and]
      rw [eq_comm, List.filter_eq_self]
      intro f _
      rw [decide_eq_true_eq]
      intro h
      obtain ⟨x, hx, e, hx', _⟩ := s1 _ _ (hp.subset h)
      have := entry_unique hl hx hd e
      subst this
      exact hi hx'
  · obtain ⟨d, hd, _, e⟩ := mem_sweepRun.1 hd'
    subst e
    exact ⟨d, hd, rfl, rfl, fun f hf => (mem_without.1 hf).1⟩

/-- **C88 (a certificate that is still valid keeps its bin).** The file that a commit wrote for a certificate expiring at `t` (seconds) is there after
the sweep, at whatever point that stopped, as long as the certificate has not expired. -/
theorem C88_valid_kept (env : SweepEnv) (now : Int) (dirs : List DirEntry) (hl : Listing dirs) (ops : List SweepOp)
    (hp : ops <+: (sweep env now dirs).1) (t : Int) (dg : Bytes) (h0 : 0 ≤ yearOf t) (h1 : yearOf t ≤ 9999) (hv : now ≤ t * 1000)
    (dn : Text) (hf : Holds dirs dn (serialCacheKeyID (newExpDateFromTime t).id (issuerID dg))) :
    Holds (sweepRun dirs ops) dn (serialCacheKeyID (newExpDateFromTime t).id (issuerID dg)) := by
  obtain ⟨d, hd, e, hf⟩ := hf
  obtain ⟨a, _, _⟩ := C88_only_expired_removed env now dirs hl ops hp
  obtain ⟨d', hd', e', _, hf'⟩ := a d hd _ hf (by
    rintro ⟨p, dd, i, x, hs, hx, hlt⟩
    have hs' := splitColons_binName (newExpDateFromTime t).id (issuerID dg) (colon_not_mem_id _) (colon_not_mem_b64Encode _ _)
    rw [(splitColons_iff _ _).2 hs] at hs'
    simp only [List.cons.injEq, and_true] at hs'
    rw [hs'.2.1] at hx
    have := C11_hour_bin_safe t now h0 h1 x hx (by simpa [ExpDate.isExpiredAt] using hlt)
    omega)
  exact ⟨d', hd', by rw [e', e], hf'⟩

/-- **C88 (every expired bin goes).** If the sweep returns without error and no removal failed, no issuer's directory holds a file whose
name says that its time has passed (crashed commits' temporary files included), and none that held only such files is left. -/
theorem C88_expired_gone (env : SweepEnv) (now : Int) (dirs : List DirEntry) (hok : (sweep env now dirs).2 = true)
    (hs : ∀ dn f, env.stuck dn f = false) (hds : ∀ dn, env.dirStuck dn = false) :
    ∀ d' ∈ sweepRun dirs (sweep env now dirs).1, IssuerDir d' → d'.files ≠ [] ∧ ∀ f ∈ d'.files, ¬ Overdue now f := by
  intro d' hd' hi
  obtain ⟨d, hd, hnd, e⟩ := mem_sweepRun.1 hd'
  subst e
  have hi' : IssuerDir d := hi
  have hroot : env.noRoot = false := by
    cases h : env.noRoot with
    | false => rfl
    | true => simp [sweep, h] at hok
  have hsw : sweep env now dirs = sweepDirs env now dirs := by simp [sweep, hroot]
  rw [hsw] at hok hnd ⊢
  obtain ⟨a, b⟩ := sweepDirs_complete env now dirs hok d hd hi'
  refine ⟨fun h => hnd (b (fun f hf => ?_) (hds _)), fun f hf ho => ?_⟩
  · by_cases hm : SweepOp.file d.name f ∈ (sweepDirs env now dirs).1
    · obtain ⟨_, _, _, _, _, ho⟩ := (sweepDirs_sound env now dirs).1 _ _ hm
      exact ⟨ho, hs _ _⟩
    · have := mem_without.2 ⟨hf, hm⟩
      rw [h] at this
      cases this
  · obtain ⟨hf, hm⟩ := mem_without.1 hf
    exact hm (a f hf ho (hs _ _))

/-- **C88 (what the aggregator sees).** After such a sweep the listing shows exactly the bins it would have shown before whose time has not passed. -/
theorem C88_listing_after (env : SweepEnv) (now : Int) (dirs : List DirEntry) (hl : Listing dirs) (hok : (sweep env now dirs).2 = true)
    (hs : ∀ dn f, env.stuck dn f = false) (hds : ∀ dn, env.dirStuck dn = false) (before : List IssuerDates)
    (hb : listStorageBins dirs = some before) :
    ∃ after, listStorageBins (sweepRun dirs (sweep env now dirs).1) = some after ∧
      ∀ j x, (∃ ds, (j, ds) ∈ after ∧ x ∈ ds) ↔ (∃ ds, (j, ds) ∈ before ∧ x ∈ ds) ∧ now ≤ x.lastGood := by
  obtain ⟨_, _, ib⟩ := C40_listing_exact _ before hb
  have mem : ∀ (dirs : List DirEntry) (n : Text), n ∈ storageNames dirs ↔ ∃ d ∈ dirs, IssuerDir d ∧ n ∈ d.files ∧ hasPrefix "serials::".toList n = true := by
    intro dirs n
    unfold storageNames
    rw [List.mem_flatMap]
    constructor
    · rintro ⟨d, hd, hn⟩
      obtain ⟨d1, d2⟩ := List.mem_filter.1 hd
      obtain ⟨n1, n2⟩ := List.mem_filter.1 hn
      exact ⟨d, d1, (isIssuerDir_iff _).1 d2, n1, n2⟩
    · rintro ⟨d, d1, d2, n1, n2⟩
      exact ⟨d, List.mem_filter.2 ⟨d1, (isIssuerDir_iff _).2 d2⟩, List.mem_filter.2 ⟨n1, n2⟩⟩
  obtain ⟨keep, _, sub⟩ := C88_only_expired_removed env now dirs hl _ List.prefix_rfl
  have gone := C88_expired_gone env now dirs hok hs hds
  have hsome : ∃ after, listStorageBins (sweepRun dirs (sweep env now dirs).1) = some after := by
    cases h : listStorageBins (sweepRun dirs (sweep env now dirs).1) with
    | some after => exact ⟨after, rfl⟩
    | none =>
      obtain ⟨n, hn, parts, hsp, hlen⟩ := (C40_listing_fails_iff _).1 h
      obtain ⟨d', hd', hi', hf', hpre⟩ := (mem _ _).1 hn
      obtain ⟨d0, hd0, e1, e2, hsub⟩ := sub d' hd'
      have hi0 : IssuerDir d0 := by unfold IssuerDir at hi' ⊢; rwa [e1, e2] at hi'
      have : listStorageBins dirs = none :=
        (C40_listing_fails_iff _).2 ⟨n, (mem _ _).2 ⟨d0, hd0, hi0, hsub n hf', hpre⟩, parts, hsp, hlen⟩
      rw [hb] at this
      cases this
  obtain ⟨after, ha⟩ := hsome
  obtain ⟨_, _, ia⟩ := C40_listing_exact _ after ha
  refine ⟨after, ha, fun j x => ?_⟩
  rw [ia, ib]
  constructor
  · rintro ⟨n, hn, p, d, hsp, hd⟩
    obtain ⟨d', hd', hi', hf', hpre⟩ := (mem _ _).1 hn
    obtain ⟨d0, hd0, e1, e2, hsub⟩ := sub d' hd'
    have hi0 : IssuerDir d0 := by unfold IssuerDir at hi' ⊢; rwa [e1, e2] at hi'
    refine ⟨⟨n, (mem _ _).2 ⟨d0, hd0, hi0, hsub n hf', hpre⟩, p, d, hsp, hd⟩, ?_⟩
    have := (gone d' hd' hi').2 n hf'
    by_cases hlt : now ≤ x.lastGood
    · exact hlt
    · exact absurd ⟨p, d, j, x, hsp, hd, by omega⟩ this
  · rintro ⟨⟨n, hn, p, d, hsp, hd⟩, hlt⟩
    obtain ⟨d0, hd0, hi0, hf0, hpre⟩ := (mem _ _).1 hn
    obtain ⟨d', hd', e1, e2, hf'⟩ := keep d0 hd0 n hf0 (by
      rintro ⟨p', dd, i, y, hs', hy, hlt'⟩
      have e := hsp.unique hs'
      simp only [List.cons.injEq, and_true] at e
      rw [← e.2.1, hd, Option.some.injEq] at hy
      subst hy
      omega)
    have hi' : IssuerDir d' := by unfold IssuerDir at hi0 ⊢; rwa [e1, e2]
    exact ⟨n, (mem _ _).2 ⟨d', hd', hi', hf', hpre⟩, p, d, hsp, hd⟩

/-- **C88 (temporary files are not bins).** The file that an interrupted replacement leaves behind (a dot, the bin's name, a number) is never taken for a
bin, whatever the bin and the number. -/
theorem C88_temporary_not_listed (dirs : List DirEntry) (name r : Text) : '.' :: (name ++ r) ∉ storageNames dirs := by
  intro h
  unfold storageNames at h
  rw [List.mem_flatMap] at h
  obtain ⟨d, _, hn⟩ := h
  obtain ⟨s, hs⟩ := hasPrefix_iff.1 (List.mem_filter.1 hn).2
  have := congrArg List.head? hs
  revert this
  show some '.' = some 's' → False
  decide

/-- A storage directory with an expired bin, its left-over temporary file, a bin that has not expired, a legacy day bin, and other files. -/
def sweptDirs : List DirEntry :=
  [{ name := "issuer::AQID".toList, isDir := true,
     files := ["serials::2023-11-14-21::AQID".toList, ".serials::2023-11-14-21::AQID77".toList, "serials::2023-11-14-22::AQID".toList, "serials::2023-11-14::AQID".toList,
       "README".toList] },
   { name := "issuer::BBBB".toList, isDir := true, files := ["serials::2023-11-13::BBBB".toList] },
   { name := "other".toList, isDir := true, files := ["serials::2023-11-13::BBBB".toList] }]

/-- Nothing fails. -/
def sweptEnv : SweepEnv := { noRoot := false, noFirst := fun _ => false, noSecond := fun _ => false, stuck := fun _ _ => false, dirStuck := fun _ => false }

example : Listing sweptDirs := by unfold Listing; decide +kernel

/-- 22:13:20 on 14 November 2023: the 21 o'clock bin goes, the bin and the issuer of 13 November go, the rest stays. -/
example : sweep sweptEnv 1700000000000 sweptDirs =
    ([.file "issuer::AQID".toList "serials::2023-11-14-21::AQID".toList, .file "issuer::AQID".toList ".serials::2023-11-14-21::AQID77".toList,
      .file "issuer::BBBB".toList "serials::2023-11-13::BBBB".toList, .dir "issuer::BBBB".toList], true) := by decide +kernel

example : (sweepRun sweptDirs (sweep sweptEnv 1700000000000 sweptDirs).1).map (fun d => (String.ofList d.name, d.files.map String.ofList)) =
    [("issuer::AQID", ["serials::2023-11-14-22::AQID", "serials::2023-11-14::AQID", "README"]), ("other", ["serials::2023-11-13::BBBB"])] := by decide +kernel

example : (listStorageBins sweptDirs).isSome = true := by decide +kernel

example : Holds sweptDirs "issuer::AQID".toList (serialCacheKeyID (newExpDateFromTime 1700000000).id (issuerID [1, 2, 3])) ∧
    (1700000000000 : Int) ≤ 1700000000 * 1000 := by
  refine ⟨⟨_, List.mem_cons_self, rfl, ?_⟩, by decide⟩
  decide +kernel

/-! ### each theorem applied -/

theorem sweptDirs_listing : Listing sweptDirs := by unfold Listing; decide +kernel

/-- Stopped after the first removal. -/
example := C88_only_expired_removed sweptEnv 1700000000000 sweptDirs sweptDirs_listing ((sweep sweptEnv 1700000000000 sweptDirs).1.take 1) (List.take_prefix _ _)

example := C88_valid_kept sweptEnv 1700000000000 sweptDirs sweptDirs_listing _ (List.prefix_refl _) 1700000000 [1, 2, 3] (by decide +kernel) (by decide +kernel) (by decide) "issuer::AQID".toList
  ⟨_, List.mem_cons_self, rfl, by decide +kernel⟩

example := C88_expired_gone sweptEnv 1700000000000 sweptDirs (by decide +kernel) (fun _ _ => rfl) (fun _ => rfl)

example := C88_listing_after sweptEnv 1700000000000 sweptDirs sweptDirs_listing (by decide +kernel) (fun _ _ => rfl) (fun _ => rfl) _ (Option.some_get (show (listStorageBins sweptDirs).isSome = true by decide +kernel)).symm

end Verif.Props
