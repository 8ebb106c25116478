import Verif.Model.Build
import Verif.Props.Delta
/-!
C96: what the exit status of the filter builder says about the files it leaves.
-/
namespace Verif.Spec

/-- The builder was called as documented: inputs exist, directories can be made, and nothing is in the way. -/
structure BuildReady {F : Type} (a : BuildArgs F) (known revoked : Dir) : Prop where
  known : a.known = some known
  revoked : a.revoked = some revoked
  ctLogs : a.ctLogs = true
  remove : a.canRemove = true
  create : a.canCreateOut = true ∧ a.canCreateDelta = true
  free : a.clobber = true ∨ ∀ o, a.out = some o → o = ⟨none, none, none, none, none⟩

/-- A run directory holds all five files of a run. -/
def Complete {F : Type} (o : Option (OutDir F)) : Prop :=
  ∃ f s r d df, o = some ⟨some f, some s, some r, some d, some df⟩

end Verif.Spec

namespace Verif.Props
open Verif.Spec

/-! ### counting needs no more than building -/

theorem countPairs_of_status (rs : ReasonSet) : ∀ (l : List (Text × Option Text × Text)) {st : List (Bytes × Bool)}, forPairs (statusOne rs) l = some st → ∃ c, countPairs rs l = some c
  | [], _, _ => ⟨_, rfl⟩
  | (i, r, k) :: rest, st, h => by
    unfold forPairs at h
    split at h
    · rename_i a b h1 h2
      obtain ⟨c, hc⟩ := countPairs_of_status rs rest h2
      unfold statusOne at h1
      split at h1
      · rename_i issuer rev known _ h4 h5
        refine ⟨(countOne rev known).merge c, ?_⟩
        unfold countPairs countPair
        rw [h4, h5, hc]
      · cases h1
    · cases h

theorem countAll_of_clubcard {F : Type} {build : List Bytes → List (Bytes × Bool) → Option F} {contains : F → Bytes → Bool} {rs : ReasonSet} {revoked known : Dir} {f : F}
    (h : createClubcard build contains rs revoked known = some f) : ∃ c, countAll rs revoked known = some c := by
  unfold createClubcard at h
  split at h
  · rename_i inc st _ h2
    exact countPairs_of_status rs _ h2
  · cases h

/-! ### a run that is not refused -/

theorem ready_not_refused {F : Type} {a : BuildArgs F} {known revoked : Dir} (h : BuildReady a known revoked) : buildRefused a = false := by
  obtain ⟨h1, h2, h3, h4, ⟨h5, h6⟩, h7⟩ := h
  unfold buildRefused
  rw [h1, h2, h3, h4, h5, h6]
  cases ho : a.out with
  | none => cases a.ft <;> rfl
  | some o =>
    rcases h7 with h7 | h7
    · rw [h7]; cases a.ft <;> rfl
    · rw [h7 o ho]; cases a.ft <;> cases a.clobber <;> rfl

theorem ready_prepared {F : Type} {a : BuildArgs F} {known revoked : Dir} (h : BuildReady a known revoked) : preparedOut a = some ⟨none, none, none, some [], none⟩ := by
  obtain ⟨_, _, _, h4, ⟨h5, h6⟩, h7⟩ := h
  unfold preparedOut
  rw [h4, h5, h6]
  rcases h7 with h7 | h7
  · rw [h7]; rfl
  · cases ho : a.out with
    | none => cases a.clobber <;> rfl
    | some o => rw [h7 o ho]; cases a.clobber <;> rfl

theorem ready_main {F : Type} (lib : FilterLib F) {a : BuildArgs F} {known revoked : Dir} (h : BuildReady a known revoked) :
    buildMain lib a = (some (buildFiles lib a known revoked ⟨none, none, none, some [], none⟩).1, (buildFiles lib a known revoked ⟨none, none, none, some [], none⟩).2) := by
  unfold buildMain
  rw [ready_not_refused h, h.known, h.revoked, ready_prepared h]
  rfl

theorem buildFiles_clubcard {F : Type} (lib : FilterLib F) (a : BuildArgs F) (hft : a.ft = .clubcard) (known revoked : Dir) (o : OutDir F) :
    (∃ r, createRun lib.clubcard lib.contains lib.order a.rs a.drs a.prev revoked known = some r ∧
      buildFiles lib a known revoked o = (⟨some r.filter, some r.stash, some r.revset, some r.deltaDir, some r.deltaFilter⟩, 0)) ∨
    (createRun lib.clubcard lib.contains lib.order a.rs a.drs a.prev revoked known = none ∧ (buildFiles lib a known revoked o).2 = 101) := by
  unfold buildFiles createFilter createRun
  rw [hft]
  dsimp only
  cases h1 : createClubcard lib.clubcard lib.contains a.rs revoked known with
  | none => cases countAll a.rs revoked known <;> exact Or.inr ⟨rfl, rfl⟩
  | some f =>
    obtain ⟨c, hc⟩ := countAll_of_clubcard h1
    rw [hc]
    cases h2 : writeRevsetAndDelta a.drs a.prev revoked known with
    | none => exact Or.inr ⟨rfl, rfl⟩
    | some p =>
      obtain ⟨dir, revset⟩ := p
      dsimp only [Option.map_some]
      cases h3 : writeStash lib.order a.drs dir with
      | none => exact Or.inr ⟨rfl, rfl⟩
      | some st =>
        dsimp only
        cases h4 : createClubcard lib.clubcard lib.contains a.drs dir known with
        | none => cases countAll a.drs dir known <;> exact Or.inr ⟨rfl, rfl⟩
        | some df =>
          obtain ⟨c', hc'⟩ := countAll_of_clubcard h4
          rw [hc']
          exact Or.inl ⟨_, rfl, rfl⟩

/-- Full statement: a builder that ends with status 0 leaves all files of a run, each made from the given inputs. It holds when the builder was called as documented and makes a clubcard. What is missing: calls that the builder
refuses (`C96_exit_zero_fails`) and empty cascades (`C96_cascade_fails`). -/
theorem C96_done_partial {F : Type} (lib : FilterLib F) (a : BuildArgs F) (known revoked : Dir) (hft : a.ft = .clubcard) (h : BuildReady a known revoked) (h0 : (buildMain lib a).2 = 0) :
    ∃ r, createRun lib.clubcard lib.contains lib.order a.rs a.drs a.prev revoked known = some r ∧
      (buildMain lib a).1 = some ⟨some r.filter, some r.stash, some r.revset, some r.deltaDir, some r.deltaFilter⟩ := by
  rw [ready_main lib h] at h0 ⊢
  rcases buildFiles_clubcard lib a hft known revoked ⟨none, none, none, some [], none⟩ with ⟨r, hr, hb⟩ | ⟨_, hb⟩
  · exact ⟨r, hr, by rw [hb]⟩
  · rw [hb] at h0; cases h0

/-- Any failure on the way (an unreadable line, a bad issuer name, a filter that fails its check) shows in the exit status, and nothing else does. -/
theorem C96_status {F : Type} (lib : FilterLib F) (a : BuildArgs F) (known revoked : Dir) (hft : a.ft = .clubcard) (h : BuildReady a known revoked) :
    (buildMain lib a).2 = 0 ↔ ∃ r, createRun lib.clubcard lib.contains lib.order a.rs a.drs a.prev revoked known = some r := by
  refine ⟨fun h0 => ?_, fun ⟨r, hr⟩ => ?_⟩
  · obtain ⟨r, hr, _⟩ := C96_done_partial lib a known revoked hft h h0
    exact ⟨r, hr⟩
  · rw [ready_main lib h]
    rcases buildFiles_clubcard lib a hft known revoked ⟨none, none, none, some [], none⟩ with ⟨r', _, hb⟩ | ⟨hn, _⟩
    · rw [hb]
    · rw [hn] at hr; cases hr

/-- With status 0 the filter answers correctly for every certificate known to the run. -/
theorem C96_filter {F : Type} (lib : FilterLib F) (a : BuildArgs F) (w : RunInput) (extra : Dir) (hg : GoodInput w extra) (hft : a.ft = .clubcard) (h : BuildReady a (knownDir w) (revokedDir w extra)) (h0 : (buildMain lib a).2 = 0) :
    ∃ o f, (buildMain lib a).1 = some o ∧ o.filter = some f ∧ ∀ d s, KnownIn w d s → (lib.contains f (crliteKey d s) = true ↔ RevokedIn a.rs w d s) := by
  obtain ⟨r, hr, ho⟩ := C96_done_partial lib a _ _ hft h h0
  exact ⟨_, r.filter, ho, rfl, fun d s hk => C56_written_filter_exact lib.clubcard lib.contains a.rs w extra hg r.filter (createRun_some hr).1 d s hk⟩

/-! ### cascades -/

theorem createCascade_check {F : Type} {build : List Bytes → List Bytes → Option (Option F)} {contains : F → Bytes → Bool} {rs : ReasonSet} {revoked known : Dir} {f : F}
    (h : createCascade build contains rs revoked known = some (some f)) : checkAll rs revoked known (contains f) = true := by
  unfold createCascade at h
  split at h
  · split at h
    · split at h
      · rename_i hc
        cases h
        exact hc
      · cases h
    · cases h
    · cases h
  · cases h

/-- A cascade that is written answers correctly for every known certificate, whatever the library does. -/
theorem C96_cascade_exact {F : Type} (build : List Bytes → List Bytes → Option (Option F)) (contains : F → Bytes → Bool) (rs : ReasonSet) (w : RunInput) (extra : Dir) (hg : GoodInput w extra) (f : F)
    (h : createCascade build contains rs (revokedDir w extra) (knownDir w) = some (some f)) (d : Bytes) (s : Serial) (hk : KnownIn w d s) :
    contains f (crliteKey d s) = true ↔ RevokedIn rs w d s := by
  have hc := createCascade_check h
  refine C56_written_filter_exact (fun _ _ => some f) contains rs w extra hg f ?_ d s hk
  obtain ⟨inc, hinc, _⟩ := C56_included rs w extra hg
  obtain ⟨st, hst, _⟩ := C56_status rs w extra hg
  unfold createClubcard
  rw [hinc, hst]
  dsimp only
  rw [hc]
  rfl

/-! ### what is there already -/

/-- Without `--clobber`, a file that was there before the call is there afterwards, unchanged, and the builder adds nothing but an empty `delta`. -/
theorem C96_no_overwrite {F : Type} (lib : FilterLib F) (a : BuildArgs F) (o : OutDir F) (hc : a.clobber = false) (ho : a.out = some o)
    (hany : o.filter.isSome ∨ o.stash.isSome ∨ o.revset.isSome ∨ o.delta.isSome ∨ o.deltaFilter.isSome) :
    ∃ o', (buildMain lib a).1 = some o' ∧ o'.filter = o.filter ∧ o'.stash = o.stash ∧ o'.revset = o.revset ∧ o'.deltaFilter = o.deltaFilter ∧ (o'.delta = o.delta ∨ o.delta = none ∧ o'.delta = some []) := by
  have hocc : o.occupied = true := by
    unfold OutDir.occupied
    rcases hany with h | h | h | h | h <;> simp [h]
  have hr : buildRefused a = true := by
    unfold buildRefused
    rw [ho, hc]
    simp [hocc]
  unfold buildMain
  rw [hr, if_pos rfl]
  unfold preparedOut
  rw [hc, ho]
  cases hd : o.delta with
  | some d => exact ⟨o, by simp [hd], rfl, rfl, rfl, rfl, Or.inl hd⟩
  | none =>
    cases hcd : a.canCreateDelta with
    | false => exact ⟨o, by simp [hd], rfl, rfl, rfl, rfl, Or.inl hd⟩
    | true => exact ⟨{ o with delta := some [] }, by simp [hd], rfl, rfl, rfl, rfl, Or.inr ⟨rfl, rfl⟩⟩

/-- Nor does a call that fails on the way leave files of an earlier run: with `--clobber` every file afterwards was written by this call. -/
theorem C96_no_mix {F : Type} (lib : FilterLib F) (a b : BuildArgs F) (hc : a.clobber = true) (hr : a.canRemove = true) (hcr : a.canCreateOut = true) (hb : b = { a with out := none }) :
    buildMain lib a = buildMain lib b := by
  subst hb
  unfold buildMain
  have h1 : preparedOut a = preparedOut ({ a with out := none } : BuildArgs F) := by
    unfold preparedOut
    dsimp only
    rw [hc, hr]
    rfl
  have h2 : buildRefused a = buildRefused ({ a with out := none } : BuildArgs F) := by
    unfold buildRefused
    dsimp only
    rw [hc, hr, hcr]
    cases a.out <;> simp
  have h3 : ∀ k r o, buildFiles lib a k r o = buildFiles lib { a with out := none } k r o := fun _ _ _ => rfl
  rw [h2, ← h1]
  simp only [← h3]

/-! ### examples -/

def exLib : FilterLib (List Bytes) := { clubcard := exBuild, cascade := fun inc _ => if inc = [] then some none else some (some inc), contains := exContains, order := fun l => l }

/-- The second run of the example inputs, into a directory in which an earlier run left its files. -/
def exOld : OutDir (List Bytes) := ⟨some [], some [], some [], some [], some []⟩

def exArgs : BuildArgs (List Bytes) :=
  { known := some (knownDir (exW 1)), revoked := some (revokedDir (exW 1) []), prev := some (exOut 0).revset, ctLogs := true, rs := .all, drs := .all, ft := .clubcard, clobber := true, canRemove := true, canCreateOut := true,
    canCreateDelta := true, out := some exOld }

theorem exArgs_ready : BuildReady exArgs (knownDir (exW 1)) (revokedDir (exW 1) []) := ⟨rfl, rfl, rfl, rfl, ⟨rfl, rfl⟩, Or.inl rfl⟩

theorem exArgs_zero : (buildMain exLib exArgs).2 = 0 := (C96_status exLib exArgs _ _ rfl exArgs_ready).2 ⟨exOut 1, exChain.run 0⟩

example : ∃ r, createRun exBuild exContains (fun l => l) .all .all (some (exOut 0).revset) (revokedDir (exW 1) []) (knownDir (exW 1)) = some r ∧
    (buildMain exLib exArgs).1 = some ⟨some r.filter, some r.stash, some r.revset, some r.deltaDir, some r.deltaFilter⟩ := C96_done_partial exLib exArgs _ _ rfl exArgs_ready exArgs_zero

example := C96_filter exLib exArgs (exW 1) [] (exW_good 1) rfl exArgs_ready exArgs_zero

example : createCascade exLib.cascade exContains .all (revokedDir (exW 1) []) (knownDir (exW 1)) = some (some (exOut 1).filter) := by decide +kernel

example : buildMain exLib { exArgs with clobber := false } = (some exOld, 0) := by decide +kernel

example := C96_no_overwrite exLib { exArgs with clobber := false } exOld rfl rfl (Or.inl rfl)

example := C96_no_mix exLib exArgs { exArgs with out := none } rfl rfl rfl rfl

example := C96_status exLib exArgs _ _ rfl exArgs_ready

example := C96_cascade_exact exLib.cascade exContains .all (exW 1) [] (exW_good 1) (exOut 1).filter (by decide +kernel)

/-! ### where it fails -/

/-- Status 0 does not mean that there are files: a call that the builder refuses ends with status 0, so that `subprocess.run(…, check=True)` in 2-generate_mlbf goes on. Here the known directory is missing; likewise when the output
directory cannot be made. -/
theorem C96_exit_zero_fails : ∃ (a : BuildArgs (List Bytes)), a.known = none ∧ (buildMain exLib a).2 = 0 ∧ ¬ Complete (buildMain exLib a).1 ∧ ∃ (b : BuildArgs (List Bytes)), b.canCreateOut = false ∧ b.known.isSome ∧ b.revoked.isSome ∧
    buildMain exLib b = (none, 0) := by
  refine ⟨{ exArgs with known := none }, rfl, by decide +kernel, ?_, { exArgs with canCreateOut := false, canCreateDelta := false }, rfl, rfl, rfl, by decide +kernel⟩
  rintro ⟨f, s, r, d, df, h⟩
  rw [show (buildMain exLib { exArgs with known := none }).1 = some ⟨none, none, none, some [], none⟩ by decide +kernel] at h
  cases h

/-- A refused call with `--clobber` has already deleted the earlier files, and still ends with status 0. -/
theorem C96_clobber_fails : ∃ (a : BuildArgs (List Bytes)), Complete a.out ∧ a.revoked = none ∧ buildMain exLib a = (some ⟨none, none, none, some [], none⟩, 0) :=
  ⟨{ exArgs with revoked := none }, ⟨[], [], [], [], [], rfl⟩, rfl, by decide +kernel⟩

/-- A refused call without `--clobber` makes `delta`, so that the same call is refused again after its cause is gone, again with status 0 and without files. -/
theorem C96_retry_fails : ∃ (a b : BuildArgs (List Bytes)), a.out = none ∧ a.ctLogs = false ∧ b = { a with ctLogs := true, out := (buildMain exLib a).1 } ∧ buildMain exLib b = (some ⟨none, none, none, some [], none⟩, 0) ∧
    Complete (buildMain exLib { b with out := none }).1 := by
  refine ⟨{ exArgs with clobber := false, out := none, ctLogs := false }, _, rfl, rfl, rfl, by decide +kernel, (exOut 1).filter, (exOut 1).stash, (exOut 1).revset, (exOut 1).deltaDir, (exOut 1).deltaFilter, by decide +kernel⟩

/-- A cascade without revoked certificates is not written, and the builder ends with status 0. Here nothing new is revoked in the third run, so there is no delta filter. -/
theorem C96_cascade_fails : ∃ (a : BuildArgs (List Bytes)) (o : OutDir (List Bytes)), BuildReady a (knownDir (exW 2)) (revokedDir (exW 2) []) ∧ a.ft = .cascade ∧ buildMain exLib a = (some o, 0) ∧ o.filter.isSome ∧ o.deltaFilter = none :=
  ⟨{ exArgs with ft := .cascade, known := some (knownDir (exW 2)), revoked := some (revokedDir (exW 2) []), prev := some (exOut 1).revset }, ⟨some (exOut 2).filter, some (exOut 2).stash, some (exOut 2).revset, some (exOut 2).deltaDir, none⟩,
    ⟨rfl, rfl, rfl, rfl, ⟨rfl, rfl⟩, Or.inl rfl⟩, rfl, by decide +kernel, rfl, rfl⟩

/-- The directories that crlite-generate.sh and 3-upload_mlbf_to_storage agree on. -/
theorem C96_dirs : mlbfOutdir (some "all".toList) (some "clubcard".toList) = "clubcard-all".toList ∧ mlbfOutdir (some "priority".toList) (some "clubcard".toList) = "clubcard-priority".toList ∧
    mlbfOutdir none none = "mlbf".toList ∧ (∀ rs rs' : Text, mlbfOutdir (some rs) (some "clubcard".toList) = mlbfOutdir (some rs') (some "clubcard".toList) → rs = rs') := by
  refine ⟨by decide +kernel, by decide +kernel, by decide +kernel, fun rs rs' h => ?_⟩
  unfold mlbfOutdir at h
  simpa using h

/-- Leaving `--reason-set` at its default `all` does not give the directory of `--reason-set all`. -/
theorem C96_outdir_fails : mlbfOutdir none (some "clubcard".toList) = "clubcard-None".toList ∧ mlbfOutdir none (some "clubcard".toList) ≠ mlbfOutdir (some "all".toList) (some "clubcard".toList) := by
  decide +kernel

end Verif.Props
