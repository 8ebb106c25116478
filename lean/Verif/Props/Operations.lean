import Verif.Model.Operations
import Verif.Props.Workflow
import Verif.Props.EndToEnd
/-!
Properties C81 and C82: generating and publishing over time.
-/
namespace Verif.Spec

/-- The name of a run. -/
def IsRun (r : Text) : Prop := ∃ d n, IsDate d ∧ n < 1000000 ∧ r = runName d n

/-- There is an object in this folder. -/
def HasFolder (b : List StoredObj) (r : Text) : Prop := ∃ o ∈ b, ∃ x rest, o.path = r :: x :: rest

/-- The run has a folder in the bucket. -/
def Listed (b : List StoredObj) (r : Text) : Prop := IsRun r ∧ HasFolder b r

/-- The run has a folder in the bucket and is marked complete. -/
def Finished (b : List StoredObj) (r : Text) : Prop := Listed b r ∧ ∃ o ∈ b, o.path = [r, "completed".toList]

/-- Both runs are complete, `y` is later than `x`, and no run with a folder in the bucket is between them. -/
def Next (b : List StoredObj) (x y : Text) : Prop := Finished b x ∧ Finished b y ∧ NameBefore x y ∧ ∀ z, Listed b z → NameBefore x z → ¬NameBefore z y

/-- The revocation set that a run has uploaded. -/
def revsetOf (b : List StoredObj) (r : Text) : Option Bytes := objGet b [r, "clubcard-all".toList, "revset.bin".toList]

/-- An execution of the generator as it should be: the folder has at least one file when the data are uploaded (crlite-generate.sh:38 writes the timestamp), the files are where they belong, and rust-create-cascade writes the revocation
set whenever it writes a filter and succeeds. -/
structure GoodGenRun (a : GenRun) : Prop where
  some_data : ∃ f ∈ a.data, f.symlink = false
  data_path : ∀ f ∈ a.data, f.path ≠ []
  data_apart : ∀ f ∈ a.data, f.path ≠ ["completed".toList]
  folder : ∀ prev prev' groups prio, a.makeAll prev = some groups → a.makePrio prev' = some prio → RunFolder a.run a.data groups prio
  revset : ∀ prev groups, a.makeAll prev = some groups → (∃ g ∈ groups, ∃ f ∈ g, f.path = ["filter".toList]) → ∃ g ∈ groups, ∃ f ∈ g, f.symlink = false ∧ f.path = ["revset.bin".toList]

/-- The conditions on the world: executions get their name from `0-allocate_identifier`, on a day that is not before the days of the runs in the bucket, with a number below a million; channels have no dash in their name; Remote Settings
gives new records new identifiers. -/
def GoodEvent (s : Ops) : OpsEvent → Prop
  | .generate a => GoodGenRun a ∧ ∃ today localDirs, IsDate today ∧ (∀ d n, IsDate d → HasFolder s.bucket (runName d n) → Verif.Props.digitsNat d ≤ Verif.Props.digitsNat today) ∧ nextIdx today (dirsOf s.bucket) < 1000000 ∧
      allocate today (dirsOf s.bucket) localDirs = some a.run
  | .write => True
  | .publish _ env slug _ _ _ _ _ => (∀ c ∈ slug, c ≠ '-') ∧ FreshIds env.freshId

/-- The states that can be reached from an empty bucket and an empty collection. -/
inductive OpsReach : Ops → Prop
  | init : OpsReach Ops.init
  | step (s : Ops) (e : OpsEvent) : OpsReach s → GoodEvent s e → OpsReach (s.step e)

end Verif.Spec

namespace Verif.Props
open Verif.Spec

/-! ### names -/

theorem nameBefore_irrefl (a : Text) : ¬NameBefore a a := fun h => nameBefore_asymm h h

theorem nameBefore_trans {a b c : Text} (h1 : NameBefore a b) (h2 : NameBefore b c) : NameBefore a c := by
  obtain ⟨d, n, d', n', hd, hd', ha, hb, h⟩ := h1
  obtain ⟨e, m, e', m', he, he', hb', hc, g⟩ := h2
  rw [hb] at hb'
  obtain ⟨rfl, rfl⟩ := runName_inj hd' he hb'
  refine ⟨d, n, e', m', hd, he', ha, hc, ?_⟩
  unfold IdBefore at *
  rcases h with h | ⟨rfl, h⟩
  · rcases g with g | ⟨rfl, g⟩
    · exact Or.inl (by omega)
    · exact Or.inl h
  · rcases g with g | ⟨rfl, g⟩
    · exact Or.inl g
    · exact Or.inr ⟨rfl, by omega⟩

theorem parseNat_digits (t : Text) (hne : t ≠ []) (h : ∀ c ∈ t, '0' ≤ c ∧ c ≤ '9') : parseNat t = some (digitsNat t) := by
  unfold parseNat
  rw [if_neg hne, if_pos (List.all_eq_true.2 (fun c hc => decide_eq_true (h c hc)))]
  rfl

theorem parseRun_runName {d : Text} (h : IsDate d) (n : Nat) : parseRun (runName d n) = some (digitsNat d, n) := by
  unfold parseRun runName
  rw [dropWhile_dash d _ h.2, takeWhile_dash d _ h.2]
  dsimp only
  rw [parseNat_digits d (by intro e; have := h.1; rw [e] at this; cases this) h.2, parseNat_digits _ Nat.toDigits_ne_nil (toDigits_dig n), digitsNat_toDigits]

theorem nameBefore_keys {x y : Text} (hx : IsRun x) (hy : IsRun y) {kx ky : Nat × Nat} (hkx : parseRun x = some kx) (hky : parseRun y = some ky) : NameBefore x y ↔ KeyLt kx ky := by
  obtain ⟨d, n, hd, hn, rfl⟩ := hx
  obtain ⟨d', n', hd', hn', rfl⟩ := hy
  rw [parseRun_runName hd, Option.some.injEq] at hkx
  rw [parseRun_runName hd', Option.some.injEq] at hky
  subst hkx hky
  unfold KeyLt
  dsimp only
  constructor
  · rintro ⟨e, m, e', m', he, he', h1, h2, h3⟩
    obtain ⟨rfl, rfl⟩ := runName_inj hd he h1
    obtain ⟨rfl, rfl⟩ := runName_inj hd' he' h2
    rcases h3 with h3 | ⟨rfl, h3⟩
    · exact Or.inl h3
    · exact Or.inr ⟨rfl, h3⟩
  · intro h
    refine ⟨d, n, d', n', hd, hd', rfl, rfl, ?_⟩
    rcases h with h | ⟨e, h⟩
    · exact Or.inl h
    · exact Or.inr ⟨date_inj hd hd' e, h⟩

theorem isRun_not_latest {r : Text} (h : IsRun r) : r ≠ "latest".toList := by
  obtain ⟨d, n, hd, _, rfl⟩ := h
  intro e
  have h1 := idDate_runName hd n
  rw [e] at h1
  have h2 : idDate "latest".toList = "latest".toList := by decide
  rw [h2] at h1
  have := hd.1
  rw [← h1] at this
  revert this
  decide

/-! ### the folders of the bucket -/

theorem mem_dirsOf {b : List StoredObj} {x : Text} : x ∈ dirsOf b ↔ ∃ r, x = r ++ ['/'] ∧ HasFolder b r := by
  unfold dirsOf
  rw [mem_foldl_setInsert, List.mem_filterMap]
  constructor
  · rintro (h | ⟨o, ho, h⟩)
    · cases h
    · unfold folderOf at h
      cases hp : o.path with
      | nil => rw [hp] at h; cases h
      | cons d l =>
        cases l with
        | nil => rw [hp] at h; cases h
        | cons y rest =>
          rw [hp] at h
          dsimp only at h
          rw [Option.some.injEq] at h
          exact ⟨d, h.symm, o, ho, y, rest, hp⟩
  · rintro ⟨r, rfl, o, ho, y, rest, hp⟩
    right
    refine ⟨o, ho, ?_⟩
    unfold folderOf
    rw [hp]

/-- Everything in the bucket is in `latest` or in the folder of a run. -/
def Kept (b : List StoredObj) : Prop := ∀ o ∈ b, (∃ rest, o.path = "latest".toList :: rest) ∨ ∃ r x rest, IsRun r ∧ o.path = r :: x :: rest

theorem mem_dirs_listed {b : List StoredObj} {r : Text} : r ++ ['/'] ∈ dirsOf b ↔ HasFolder b r := by
  rw [mem_dirsOf]
  constructor
  · rintro ⟨r', e, h⟩
    rw [List.append_cancel_right e]
    exact h
  · intro h
    exact ⟨r, rfl, h⟩

theorem tidy_dirs {b : List StoredObj} (hk : Kept b) : TidyBucket (dirsOf b) := by
  intro x hx
  obtain ⟨r, rfl, o, ho, y, rest, hp⟩ := mem_dirsOf.1 hx
  rcases hk o ho with ⟨rest', hp'⟩ | ⟨r', y', rest', ⟨d, n, hd, hn, hr⟩, hp'⟩
  · right
    rintro ⟨d, c, rest'', hd, hc1, hc2, e⟩
    rw [hp] at hp'
    injection hp' with hr _
    rw [hr] at e
    cases d with
    | nil => exact absurd hd.1 (by decide)
    | cons a as =>
      rw [List.cons_append] at e
      have : 'l' = a := by
        have h1 : ("latest".toList ++ ['/']).head? = some 'l' := by decide
        rw [e] at h1
        simpa using h1.symm
      have := (hd.2 a (by simp)).2
      rename_i hl
      rw [← hl] at this
      revert this
      decide
  · left
    rw [hp] at hp'
    injection hp' with e _
    rw [e, hr]
    exact ⟨d, n, hd, hn, rfl⟩

theorem listed_iff {b : List StoredObj} (hk : Kept b) (r : Text) : r ∈ getRunIdentifiers (dirsOf b) ↔ Listed b r := by
  rw [mem_getRun (tidy_dirs hk)]
  constructor
  · rintro ⟨d, n, hd, hn, rfl, h⟩
    exact ⟨⟨d, n, hd, hn, rfl⟩, mem_dirs_listed.1 h⟩
  · rintro ⟨⟨d, n, hd, hn, rfl⟩, h⟩
    exact ⟨d, n, hd, hn, rfl, mem_dirs_listed.2 h⟩

theorem runs_nodup {b : List StoredObj} (hk : Kept b) : (getRunIdentifiers (dirsOf b)).Nodup := by
  unfold getRunIdentifiers
  rw [(sortIds_perm _).nodup_iff]
  have hn : (dirsOf b).Nodup := nodup_foldl_setInsert _ _ List.nodup_nil
  have ht := tidy_dirs hk
  generalize dirsOf b = l at hn ht
  induction l with
  | nil => exact List.nodup_nil
  | cons x rest ih =>
    rw [List.nodup_cons] at hn
    have hrest := ih hn.2 (fun y hy => ht y (List.mem_cons_of_mem _ hy))
    rcases ht x List.mem_cons_self with ⟨d, n, hd, hn', rfl⟩ | hx
    · rw [List.filterMap_cons_some (matchId_runName hd n), List.nodup_cons]
      refine ⟨?_, hrest⟩
      intro h
      obtain ⟨y, hy, hm⟩ := List.mem_filterMap.1 h
      rcases ht y (List.mem_cons_of_mem _ hy) with ⟨d', n', hd', hn'', rfl⟩ | hy'
      · rw [matchId_runName hd', Option.some.injEq] at hm
        rw [hm] at hy
        exact hn.1 hy
      · rw [matchId_none hy'] at hm
        cases hm
    · rw [List.filterMap_cons_none (matchId_none hx)]
      exact hrest

theorem runs_parse {b : List StoredObj} (hk : Kept b) : ∀ x ∈ getRunIdentifiers (dirsOf b), ∃ k, parseRun x = some k := by
  intro x hx
  obtain ⟨⟨d, n, hd, _, rfl⟩, _⟩ := (listed_iff hk x).1 hx
  exact ⟨_, parseRun_runName hd n⟩

theorem runs_distinct {b : List StoredObj} (hk : Kept b) : RunsDistinct (getRunIdentifiers (dirsOf b)) := by
  refine ⟨runs_nodup hk, ?_⟩
  intro x hx y hy k hkx hky
  obtain ⟨⟨d, n, hd, _, rfl⟩, _⟩ := (listed_iff hk x).1 hx
  obtain ⟨⟨d', n', hd', _, rfl⟩, _⟩ := (listed_iff hk y).1 hy
  rw [parseRun_runName hd, Option.some.injEq] at hkx
  rw [parseRun_runName hd', Option.some.injEq] at hky
  subst hkx
  rw [Prod.mk.injEq] at hky
  rw [date_inj hd hd' hky.1.symm, hky.2]

theorem ready_iff {b : List StoredObj} {r : Text} : runReady b r = true ↔ ∃ o ∈ b, o.path = [r, "completed".toList] := by
  unfold runReady
  cases h : objGet b [r, "completed".toList] with
  | none =>
    refine ⟨fun h => (by cases h), ?_⟩
    rintro ⟨o, ho, e⟩
    exact absurd e (objGet_none.1 h o ho)
  | some x =>
    refine ⟨fun _ => ?_, fun _ => rfl⟩
    apply Classical.byContradiction
    intro hno
    rw [objGet_none.2 (fun o ho e => hno ⟨o, ho, e⟩)] at h
    cases h

theorem finished_iff {b : List StoredObj} {r : Text} : Finished b r ↔ Listed b r ∧ runReady b r = true := by
  unfold Finished
  rw [ready_iff]

/-! ### what the bucket holds -/

/-- The files of a run are in the bucket under its name. -/
def RunUploaded (b : List StoredObj) (run : Text) (data : List WalkFile) (groups : List (List WalkFile)) (prio : List WalkFile) : Prop :=
  (∀ f ∈ data, f.symlink = false → objGet b (run :: f.path) = some f.content) ∧
  (∀ g ∈ groups, ∀ f ∈ g, f.symlink = false → objGet b (run :: "clubcard-all".toList :: f.path) = some f.content) ∧
  (∀ f ∈ prio, f.symlink = false → objGet b (run :: "clubcard-priority".toList :: f.path) = some f.content)

/-- What holds of the bucket between executions, and of what the executions were given. -/
structure BInv (b : List StoredObj) (made : List (Text × GenRun × Option Bytes)) : Prop where
  kept : Kept b
  entry : ∀ y, Listed b y → ∃ a prev, assocGet made y = some (a, prev)
  given : ∀ x y a prev, Listed b x → Listed b y → NameBefore x y → (∀ z, Listed b z → NameBefore x z → ¬NameBefore z y) → runReady b x = true → assocGet made y = some (a, prev) → prev = if a.dlAll then revsetOf b x else none
  latest : ∀ x, Listed b x → (∀ z, Listed b z → ¬NameBefore x z) → runReady b x = true → objGet b ["latest".toList, "revset.bin".toList] = revsetOf b x
  files : ∀ y a prev, Listed b y → runReady b y = true → assocGet made y = some (a, prev) → GoodGenRun a ∧ a.run = y ∧ ∃ prev' groups prio, a.makeAll prev = some groups ∧ a.makePrio prev' = some prio ∧
    (∃ g ∈ groups, ∃ f ∈ g, f.path = ["filter".toList]) ∧
    (∀ x, Listed b x → NameBefore x y → (∀ z, Listed b z → NameBefore x z → ¬NameBefore z y) → runReady b x = true → prev' = if a.dlPrio then revsetOf b x else none) ∧ RunUploaded b y a.data groups prio

/-- An execution under way: `before` is the bucket it found, `done` what it has uploaded. -/
structure Busy (before done pending : List StoredObj) (a : GenRun) (made : List (Text × GenRun × Option Bytes)) : Prop where
  inv : BInv before made
  good : GoodGenRun a
  isRun : IsRun a.run
  fresh : ¬HasFolder before a.run
  newest : ∀ z, Listed before z → NameBefore z a.run
  writes : done ++ pending = a.writes before

theorem writes_cases (a : GenRun) (b : List StoredObj) : (a.writes b = uploadData a.run a.data ∨ ∃ g p, a.makeAll (latestRevset b a.dlAll) = some g ∧ a.makePrio (latestRevset b a.dlPrio) = some p ∧ a.writes b = uploadRun a.run a.data g p) := by
  unfold GenRun.writes
  cases h1 : a.makeAll (latestRevset b a.dlAll) with
  | none => exact Or.inl rfl
  | some g =>
    cases h2 : a.makePrio (latestRevset b a.dlPrio) with
    | none => exact Or.inl rfl
    | some p => exact Or.inr ⟨g, p, rfl, rfl, rfl⟩

theorem uploadData_shape {a : GenRun} (hg : GoodGenRun a) {o : StoredObj} (h : o ∈ uploadData a.run a.data) : ∃ x rest, o.path = a.run :: x :: rest := by
  obtain ⟨f, hf, _, rfl⟩ := mem_uploadAs.1 h
  cases hp : f.path with
  | nil => exact absurd hp (hg.data_path f hf)
  | cons x rest => exact ⟨x, rest, by simp⟩

theorem writes_shape {a : GenRun} {b : List StoredObj} (hg : GoodGenRun a) {o : StoredObj} (h : o ∈ a.writes b) : (∃ rest, o.path = "latest".toList :: rest) ∨ ∃ x rest, o.path = a.run :: x :: rest := by
  rcases writes_cases a b with e | ⟨g, p, _, _, e⟩
  · rw [e] at h
    exact Or.inr (uploadData_shape hg h)
  · rw [e] at h
    rcases uploadRun_marker a.run a.data g p with e | e
    · rw [e] at h
      rcases List.mem_append.1 h with h | h
      · rcases mem_beforeMarker h with ⟨f, hf, rfl⟩ | ⟨_, _, f, hf, rfl⟩ | ⟨_, _, f, hf, rfl⟩ | ⟨f, hf, rfl⟩
        · right
          cases hp : f.path with
          | nil => exact absurd hp (hg.data_path f hf)
          | cons x rest => exact ⟨x, rest, rfl⟩
        · exact Or.inr ⟨_, _, rfl⟩
        · exact Or.inl ⟨_, rfl⟩
        · exact Or.inr ⟨_, _, rfl⟩
      · rw [List.mem_singleton.1 h]
        exact Or.inr ⟨_, _, rfl⟩
    · rw [e] at h
      exact Or.inr (uploadData_shape hg h)

theorem writes_head {a : GenRun} {b : List StoredObj} (hg : GoodGenRun a) {o : StoredObj} {rest : List StoredObj} (h : a.writes b = o :: rest) : ∃ x r, o.path = a.run :: x :: r := by
  obtain ⟨f, hf, hs⟩ := hg.some_data
  have hne : uploadData a.run a.data ≠ [] := by
    intro e
    have : (⟨[a.run] ++ f.path, f.content⟩ : StoredObj) ∈ uploadData a.run a.data := mem_uploadAs.2 ⟨f, hf, hs, rfl⟩
    rw [e] at this
    cases this
  have hpre : ∃ tail, a.writes b = uploadData a.run a.data ++ tail := by
    rcases writes_cases a b with e | ⟨g, p, _, _, e⟩
    · exact ⟨[], by rw [e, List.append_nil]⟩
    · exact ⟨_, e⟩
  obtain ⟨tail, ht⟩ := hpre
  cases hu : uploadData a.run a.data with
  | nil => exact absurd hu hne
  | cons q qs =>
    rw [hu, h] at ht
    injection ht with e _
    refine uploadData_shape hg (o := o) ?_
    rw [hu, e]
    exact List.mem_cons_self

theorem busy_shape {before done pending : List StoredObj} {a : GenRun} {made : List (Text × GenRun × Option Bytes)} (h : Busy before done pending a made) {o : StoredObj} (ho : o ∈ done) :
    (∃ rest, o.path = "latest".toList :: rest) ∨ ∃ x rest, o.path = a.run :: x :: rest :=
  writes_shape h.good (b := before) (by rw [← h.writes]; exact List.mem_append.2 (Or.inl ho))

/-- Objects of other runs stay as they are. -/
theorem busy_get {before done pending : List StoredObj} {a : GenRun} {made : List (Text × GenRun × Option Bytes)} (h : Busy before done pending a made) {x : Text} (hx : IsRun x) (hne : x ≠ a.run) (p : List Text) :
    objGet (before ++ done) (x :: p) = objGet before (x :: p) := by
  rw [objGet_append, objGet_none.2]
  intro o ho e
  rcases busy_shape h ho with ⟨rest, hp⟩ | ⟨y, rest, hp⟩
  · rw [e] at hp
    injection hp with hp _
    exact isRun_not_latest hx hp
  · rw [e] at hp
    injection hp with hp _
    exact hne hp

theorem busy_ready {before done pending : List StoredObj} {a : GenRun} {made : List (Text × GenRun × Option Bytes)} (h : Busy before done pending a made) {x : Text} (hx : IsRun x) (hne : x ≠ a.run) :
    runReady (before ++ done) x = runReady before x := by
  unfold runReady
  rw [busy_get h hx hne]

theorem busy_listed {before done pending : List StoredObj} {a : GenRun} {made : List (Text × GenRun × Option Bytes)} (h : Busy before done pending a made) {x : Text} (hx : Listed (before ++ done) x) : Listed before x ∨ x = a.run := by
  obtain ⟨hr, o, ho, y, rest, hp⟩ := hx
  rcases List.mem_append.1 ho with ho | ho
  · exact Or.inl ⟨hr, o, ho, y, rest, hp⟩
  · right
    rcases busy_shape h ho with ⟨rest', hp'⟩ | ⟨y', rest', hp'⟩
    · rw [hp] at hp'
      injection hp' with e _
      exact absurd e (isRun_not_latest hr)
    · rw [hp] at hp'
      injection hp' with e _

theorem listed_mono {b c : List StoredObj} {x : Text} (h : Listed b x) : Listed (b ++ c) x := by
  obtain ⟨hr, o, ho, y, rest, hp⟩ := h
  exact ⟨hr, o, List.mem_append.2 (Or.inl ho), y, rest, hp⟩

theorem busy_self {before done pending : List StoredObj} {a : GenRun} {made : List (Text × GenRun × Option Bytes)} (h : Busy before done pending a made) (hne : done ≠ []) : Listed (before ++ done) a.run := by
  refine ⟨h.isRun, ?_⟩
  cases done with
  | nil => exact absurd rfl hne
  | cons o rest =>
    obtain ⟨x, r, hp⟩ := writes_head h.good (b := before) (o := o) (rest := rest ++ pending) (by rw [← h.writes]; rfl)
    exact ⟨o, List.mem_append.2 (Or.inr List.mem_cons_self), x, r, hp⟩

theorem busy_not_ready {before done pending : List StoredObj} {a : GenRun} {made : List (Text × GenRun × Option Bytes)} (h : Busy before done pending a made) : runReady before a.run = false := by
  rw [Bool.eq_false_iff]
  intro hr
  obtain ⟨o, ho, hp⟩ := ready_iff.1 hr
  exact h.fresh ⟨o, ho, _, _, hp⟩

/-- When the marker of the current run is there, so is everything else. -/
theorem busy_done {before done pending : List StoredObj} {a : GenRun} {made : List (Text × GenRun × Option Bytes)} (h : Busy before done pending a made) (hr : runReady (before ++ done) a.run = true) :
    ∃ g p, a.makeAll (latestRevset before a.dlAll) = some g ∧ a.makePrio (latestRevset before a.dlPrio) = some p ∧ (∃ grp ∈ g, ∃ f ∈ grp, f.path = ["filter".toList]) ∧ AllUploaded (before ++ done) a.run a.data g p := by
  have hd : done = (a.writes before).take done.length := by rw [← h.writes]; simp
  rcases writes_cases a before with e | ⟨g, p, h1, h2, e⟩
  · exfalso
    obtain ⟨o, ho, hp⟩ := ready_iff.1 hr
    rcases List.mem_append.1 ho with ho | ho
    · exact h.fresh ⟨o, ho, _, _, hp⟩
    · rw [hd, e] at ho
      obtain ⟨f, hf, _, rfl⟩ := mem_uploadAs.1 (List.mem_of_mem_take ho)
      injection hp with _ hp
      exact h.good.data_apart f hf hp
  · refine ⟨g, p, h1, h2, ?_⟩
    rw [e] at hd
    rw [hd] at hr ⊢
    refine ⟨?_, ?_⟩
    · apply Classical.byContradiction
      intro hno
      rw [C73_no_filter a.run a.data g p before (h.good.folder _ _ g p h1 h2) (busy_not_ready h) (fun grp hgrp f hf e => hno ⟨grp, hgrp, f, hf, e⟩)] at hr
      cases hr
    exact C73_completed_last a.run a.data g p before (h.good.folder _ _ g p h1 h2) (busy_not_ready h) _ hr

/-- The invariant of the bucket holds at every moment of an execution. -/
theorem busy_inv {before done pending : List StoredObj} {a : GenRun} {made : List (Text × GenRun × Option Bytes)} (h : Busy before done pending a made) : BInv (before ++ done) ((a.run, a, latestRevset before a.dlAll) :: made) := by
  have hne : ∀ x, Listed before x → a.run ≠ x := by
    rintro x hx rfl
    exact h.fresh hx.2
  have hget : ∀ x, Listed before x → assocGet ((a.run, a, latestRevset before a.dlAll) :: made) x = assocGet made x := fun x hx => assocGet_cons_ne _ _ _ (hne x hx)
  by_cases hdone : done = []
  · subst hdone
    rw [List.append_nil]
    refine ⟨h.inv.kept, ?_, ?_, h.inv.latest, ?_⟩
    · intro y hy
      rw [hget y hy]
      exact h.inv.entry y hy
    · intro x y a' prev hx hy h1 h2 h3 h4
      rw [hget y hy] at h4
      exact h.inv.given x y a' prev hx hy h1 h2 h3 h4
    · intro y a' prev hy h1 h2
      rw [hget y hy] at h2
      exact h.inv.files y a' prev hy h1 h2
  · have hself := busy_self h hdone
    refine ⟨?_, ?_, ?_, ?_, ?_⟩
    · intro o ho
      rcases List.mem_append.1 ho with ho | ho
      · exact h.inv.kept o ho
      · rcases busy_shape h ho with hp | ⟨x, rest, hp⟩
        · exact Or.inl hp
        · exact Or.inr ⟨a.run, x, rest, h.isRun, hp⟩
    · intro y hy
      rcases busy_listed h hy with hy | rfl
      · rw [hget y hy]
        exact h.inv.entry y hy
      · exact ⟨a, _, assocGet_cons_self _ _ _⟩
    · intro x y a' prev hx hy h1 h2 h3 h4
      rcases busy_listed h hy with hyb | rfl
      · rw [hget y hyb] at h4
        rcases busy_listed h hx with hxb | rfl
        · rw [busy_ready h hxb.1 (hne x hxb).symm] at h3
          unfold revsetOf
          rw [busy_get h hxb.1 (hne x hxb).symm]
          exact h.inv.given x y a' prev hxb hyb h1 (fun z hz => h2 z (listed_mono hz)) h3 h4
        · exact absurd h1 (nameBefore_asymm (h.newest y hyb))
      · rw [assocGet_cons_self, Option.some.injEq, Prod.mk.injEq] at h4
        obtain ⟨rfl, rfl⟩ := h4
        rcases busy_listed h hx with hxb | rfl
        · rw [busy_ready h hxb.1 (hne x hxb).symm] at h3
          have hl := h.inv.latest x hxb (fun z hz hlt => h2 z (listed_mono hz) hlt (h.newest z hz)) h3
          unfold latestRevset
          rw [hl]
          unfold revsetOf
          rw [busy_get h hxb.1 (hne x hxb).symm]
        · exact absurd h1 (nameBefore_irrefl _)
    · intro x hx hmax hr
      rcases busy_listed h hx with hxb | rfl
      · exact absurd (h.newest x hxb) (hmax _ hself)
      · obtain ⟨g, p, h1, h2, hfil, _, hu, _⟩ := busy_done h hr
        obtain ⟨grp, hgrp, f, hf, hs, hp⟩ := h.good.revset _ g h1 hfil
        obtain ⟨u1, u2⟩ := hu grp hgrp f hf hs
        rw [hp] at u1 u2
        unfold revsetOf
        rw [u1, u2]
    · intro y a' prev hy hr h4
      rcases busy_listed h hy with hyb | rfl
      · rw [hget y hyb] at h4
        rw [busy_ready h hyb.1 (hne y hyb).symm] at hr
        obtain ⟨g1, g2, prev', g, p, g3, g4, g45, gprev, g5, g6, g7⟩ := h.inv.files y a' prev hyb hr h4
        have hg := fun q => busy_get h hyb.1 (hne y hyb).symm q
        refine ⟨g1, g2, prev', g, p, g3, g4, g45, ?_, fun f hf hs => (hg _).trans (g5 f hf hs), fun grp hgrp f hf hs => (hg _).trans (g6 grp hgrp f hf hs), fun f hf hs => (hg _).trans (g7 f hf hs)⟩
        intro x hx h1 h2 h3
        rcases busy_listed h hx with hxb | rfl
        · rw [busy_ready h hxb.1 (hne x hxb).symm] at h3
          unfold revsetOf
          rw [busy_get h hxb.1 (hne x hxb).symm]
          exact gprev x hxb h1 (fun z hz => h2 z (listed_mono hz)) h3
        · exact absurd h1 (nameBefore_asymm (h.newest y hyb))
      · rw [assocGet_cons_self, Option.some.injEq, Prod.mk.injEq] at h4
        obtain ⟨rfl, rfl⟩ := h4
        obtain ⟨g, p, h1, h2, hfil, u1, u2, u3⟩ := busy_done h hr
        refine ⟨h.good, rfl, _, g, p, h1, h2, hfil, ?_, u1, fun grp hgrp f hf hs => (u2 grp hgrp f hf hs).1, u3⟩
        intro x hx h1 h2 h3
        rcases busy_listed h hx with hxb | rfl
        · rw [busy_ready h hxb.1 (hne x hxb).symm] at h3
          have hl := h.inv.latest x hxb (fun z hz hlt => h2 z (listed_mono hz) hlt (h.newest z hz)) h3
          unfold latestRevset
          rw [hl]
          unfold revsetOf
          rw [busy_get h hxb.1 (hne x hxb).symm]
        · exact absurd h1 (nameBefore_irrefl _)

/-- The invariant of a state. -/
def BucketInv (s : Ops) : Prop :=
  (s.pending = [] ∧ s.bucket = [] ∧ s.made = []) ∨
  ∃ before done a made, Busy before done s.pending a made ∧ s.bucket = before ++ done ∧ s.made = (a.run, a, latestRevset before a.dlAll) :: made

theorem bucketInv_inv {s : Ops} (h : BucketInv s) : BInv s.bucket s.made := by
  rcases h with ⟨_, h1, h2⟩ | ⟨before, done, a, made, hb, h1, h2⟩
  · rw [h1, h2]
    have hno : ∀ y, ¬Listed [] y := by
      rintro y ⟨_, o, ho, _⟩
      cases ho
    exact ⟨fun o ho => (by cases ho), fun y hy => absurd hy (hno y), fun x y _ _ hx => absurd hx (hno x), fun x hx => absurd hx (hno x), fun y _ _ hy => absurd hy (hno y)⟩
  · rw [h1, h2]
    exact busy_inv hb

theorem bucketInv_step {s : Ops} {e : OpsEvent} (h : BucketInv s) (he : GoodEvent s e) : BucketInv (s.step e) := by
  cases e with
  | generate a =>
    have hb := bucketInv_inv h
    obtain ⟨hg, today, localDirs, hday, hclock, hnum, hal⟩ := he
    have ht := tidy_dirs hb.kept
    have hal' : a.run = runName today (nextIdx today (dirsOf s.bucket)) := by
      unfold allocate at hal
      dsimp only at hal
      split at hal
      · cases hal
      · rw [Option.some.injEq] at hal
        exact hal.symm
    obtain ⟨_, n, hn, hafter⟩ := C72_fresh_partial today _ localDirs ht hday (fun d n hd hm => hclock d n hd (mem_dirs_listed.1 hm)) _ hal
    have hnew : ∀ z, Listed s.bucket z → NameBefore z a.run := by
      rintro z ⟨⟨d, m, hd, hm, rfl⟩, hz⟩
      exact ⟨d, m, today, n, hd, hday, rfl, hn, hafter d m hd (mem_dirs_listed.2 hz)⟩
    have hrun : IsRun a.run := ⟨today, _, hday, hnum, hal'⟩
    exact Or.inr ⟨s.bucket, [], a, s.made, ⟨hb, hg, hrun, fun hf => nameBefore_irrefl _ (hnew _ ⟨hrun, hf⟩), hnew, rfl⟩, (List.append_nil _).symm, rfl⟩
  | write =>
    unfold Ops.step
    cases hp : s.pending with
    | nil =>
      dsimp only
      exact h
    | cons o rest =>
      dsimp only
      rcases h with ⟨h1, _⟩ | ⟨before, done, a, made, hb, h1, h2⟩
      · rw [hp] at h1
        cases h1
      · right
        refine ⟨before, done ++ [o], a, made, ⟨hb.inv, hb.good, hb.isRun, hb.fresh, hb.newest, ?_⟩, ?_, h2⟩
        · rw [← hb.writes, hp]
          simp
        · dsimp only
          rw [h1, List.append_assoc]
  | publish ages env slug dir delta parseTime maxAge noop => exact h

theorem reach_bucketInv {s : Ops} (h : OpsReach s) : BucketInv s := by
  induction h with
  | init => exact Or.inl ⟨rfl, rfl, rfl⟩
  | step s e _ he ih => exact bucketInv_step ih he

end Verif.Props

namespace Verif.Spec

/-- A complete record with the full filter of the run, or an incremental one with its delta. -/
def Carries (slug run : Text) (r : KRec) : Prop :=
  (r.incremental = some false ∧ r.attachment = some (run ++ '-' :: slug ++ ".filter".toList)) ∨ (r.incremental = some true ∧ r.attachment = some (run ++ '-' :: slug ++ ".filter.delta".toList))

/-- The records carry the runs, in this order. -/
def CarryAll (slug : Text) : List Text → List KRec → Prop
  | [], [] => True
  | run :: runs, r :: recs => Carries slug run r ∧ CarryAll slug runs recs
  | _, _ => False

/-- Each run is related to the one before. -/
def Steps (R : Text → Text → Prop) : Text → List Text → Prop
  | _, [] => True
  | x, y :: rest => R x y ∧ Steps R y rest

/-- The last execution that got this name, and the revocation set it was given. (An execution that uploads nothing leaves its name to the next.) -/
def MadeBy (s : Ops) (run : Text) (a : GenRun) (prev : Option Bytes) : Prop := assocGet s.made run = some (a, prev)

end Verif.Spec

namespace Verif.Props
open Verif.Spec

/-! ### what is published -/

/-- The complete records of the channel carry runs that satisfy `P`, and the run of a record and that of its parent are related by `R`. -/
def Follows (P : Text → Prop) (R : Text → Text → Prop) (slug : Text) (st : List KRec) : Prop :=
  (∀ r ∈ recordsOf slug st, r.attachment.isSome = true → ∃ run, P run ∧ Carries slug run r) ∧
  (∀ r ∈ recordsOf slug st, ∀ s ∈ recordsOf slug st, r.attachment.isSome = true → s.attachment.isSome = true → r.incremental = some true → ∀ i, s.id = some i → r.parent = some i →
    ∀ x y, attachmentOf slug x s → attachmentOf slug y r → R x y)

theorem carries_attachment {slug run : Text} {r : KRec} (h : Carries slug run r) : attachmentOf slug run r := by
  rcases h with ⟨_, h⟩ | ⟨_, h⟩
  · exact Or.inl h
  · exact Or.inr h

theorem attachment_unique {slug x y : Text} {r : KRec} (hs : ∀ c ∈ slug, c ≠ '-') (h1 : attachmentOf slug x r) (h2 : attachmentOf slug y r) : x = y := by
  have a := attachment_run hs h1
  rw [attachment_run hs h2] at a
  exact (Option.some.inj a).symm

theorem follows_weaken {P P' : Text → Prop} {R R' : Text → Text → Prop} {slug : Text} {st : List KRec} (h : Follows P R slug st) (hP : ∀ x, P x → P' x) (hR : ∀ x y, R x y → R' x y) : Follows P' R' slug st := by
  refine ⟨fun r hr ha => ?_, fun r hr s hs h1 h2 h3 i hi hp x y hx hy => hR x y (h.2 r hr s hs h1 h2 h3 i hi hp x y hx hy)⟩
  obtain ⟨run, h1, h2⟩ := h.1 r hr ha
  exact ⟨run, hP run h1, h2⟩

theorem follows_sub {P : Text → Prop} {R : Text → Text → Prop} {slug : Text} {st st' : List KRec} (ht : Follows P R slug st) (hs : ∀ x ∈ st', x ∈ st) : Follows P R slug st' := by
  have hsub : ∀ x ∈ recordsOf slug st', x ∈ recordsOf slug st := by
    intro x hx
    obtain ⟨a, b⟩ := List.mem_filter.1 hx
    exact List.mem_filter.2 ⟨hs x a, b⟩
  exact ⟨fun r hr => ht.1 r (hsub r hr), fun r hr s hs => ht.2 r (hsub r hr) s (hsub s hs)⟩

theorem follows_add {P : Text → Prop} {R : Text → Text → Prop} {slug : Text} {st : List KRec} (ht : Follows P R slug st) (rec : KRec) (hid : ∀ r ∈ st, ∀ i, rec.id = some i → r.parent ≠ some i)
    (h1 : rec.attachment.isSome = true → ∃ run, P run ∧ Carries slug run rec)
    (h2 : rec.attachment.isSome = true → rec.incremental = some true → ∀ s ∈ recordsOf slug st, s.attachment.isSome = true → ∀ i, s.id = some i → rec.parent = some i → ∀ x y, attachmentOf slug x s → attachmentOf slug y rec → R x y)
    (h3 : rec.attachment.isSome = true → rec.incremental = some true → rec.parent ≠ rec.id) : Follows P R slug (st ++ [rec]) := by
  have hmem : ∀ x ∈ recordsOf slug (st ++ [rec]), x ∈ recordsOf slug st ∨ x = rec := by
    intro x hx
    rw [recordsOf_append] at hx
    rcases List.mem_append.1 hx with hx | hx
    · exact Or.inl hx
    · exact Or.inr (List.mem_singleton.1 (List.mem_filter.1 hx).1)
  constructor
  · intro r hr
    rcases hmem r hr with hr | rfl
    · exact ht.1 r hr
    · exact h1
  · intro r hr s hs ha hb hc i hi hp
    rcases hmem r hr with hr' | rfl
    · rcases hmem s hs with hs | rfl
      · exact ht.2 r hr' s hs ha hb hc i hi hp
      · exact absurd hp (hid r (List.mem_filter.1 hr').1 i hi)
    · rcases hmem s hs with hs | rfl
      · exact h2 ha hc s hs hb i hi hp
      · exact absurd (hp.trans hi.symm) (h3 ha hc)

theorem follows_deltas {P : Text → Prop} {R : Text → Text → Prop} (env : PubEnv) (db : RunDb) (slug : Text) (hsl : ∀ c ∈ slug, c ≠ '-') (hf : FreshIds env.freshId) (runs : List Text) : ∀ (prev : Text) (st : List KRec),
    Follows P R slug st → (∃ s ∈ recordsOf slug st, s.id = some prev ∧ ∃ x, attachmentOf slug x s) → (∀ run ∈ runs, P run) → (∀ s ∈ recordsOf slug st, s.id = some prev → ∀ x, attachmentOf slug x s → Steps R x runs) →
    Follows P R slug (publishDeltas env db slug runs prev st).2 := by
  induction runs with
  | nil => intro prev st ht _ _ _; exact ht
  | cons run rest ih =>
    intro prev st ht hprev hP hR
    unfold publishDeltas
    by_cases hd : env.download run = true
    · rw [if_pos hd]
      cases htime : db.time run with
      | none => exact ht
      | some t =>
        dsimp only
        unfold publishRecord
        cases ho : env.outcome run with
        | ok =>
          dsimp only
          have hatt : attachmentOf slug run { deltaRec env slug run t prev with id := some (env.freshId st) } := Or.inr rfl
          have hadd : Follows P R slug (st ++ [{ deltaRec env slug run t prev with id := some (env.freshId st) }]) := by
            refine follows_add ht _ ?_ ?_ ?_ ?_
            · intro r hr i hi
              cases hi
              exact (hf st r hr).2
            · intro _
              exact ⟨run, hP run (by simp), Or.inr ⟨rfl, rfl⟩⟩
            · intro _ _ s hs _ i hi hp x y hx hy
              cases hp
              rw [attachment_unique hsl hy hatt]
              exact (hR s hs hi x hx).1
            · intro _ _ he
              cases he
              obtain ⟨s, hs, hsi, _⟩ := hprev
              exact (hf st s (List.mem_filter.1 hs).1).1 hsi
          refine ih _ _ hadd ⟨_, List.mem_filter.2 ⟨List.mem_append.2 (Or.inr (List.mem_singleton.2 rfl)), decide_eq_true rfl⟩, rfl, run, hatt⟩ (fun x hx => hP x (by simp [hx])) ?_
          intro s hs hsi x hx
          rw [recordsOf_append] at hs
          rcases List.mem_append.1 hs with hs | hs
          · exact absurd hsi (hf st s (List.mem_filter.1 hs).1).1
          · rw [List.mem_singleton.1 (List.mem_filter.1 hs).1] at hx
            rw [attachment_unique hsl hx hatt]
            obtain ⟨s', hs', hsi', x', hx'⟩ := hprev
            exact (hR s' hs' hsi' x' hx').2
        | createFails => exact ht
        | attachFails => exact ht
        | leftBehind =>
          refine follows_add ht _ ?_ ?_ ?_ ?_
          · intro r hr i hi
            cases hi
            exact (hf st r hr).2
          · intro h; cases h
          · intro h; cases h
          · intro h; cases h
    · rw [if_neg hd]; exact ht

theorem follows_full {P : Text → Prop} {R : Text → Text → Prop} (env : PubEnv) (db : RunDb) (slug run : Text) (existing st : List KRec) (hrun : P run) (hf : FreshIds env.freshId) (ht : Follows P R slug st) :
    Follows P R slug (runTask env db slug existing (.full run) st).2 := by
  unfold runTask
  dsimp only
  by_cases hd : env.download run = true
  · rw [if_pos hd]
    have hsub1 := clear_sub env slug false st st
    cases h1 : clearLoop env slug false st st with
    | mk b1 st1 =>
      rw [h1] at hsub1
      have ht1 : Follows P R slug st1 := follows_sub ht hsub1
      cases b1 with
      | false => exact ht1
      | true =>
        dsimp only
        have hsub2 := clear_sub env slug true st1 st1
        cases h2 : clearLoop env slug true st1 st1 with
        | mk b2 st2 =>
          rw [h2] at hsub2
          have ht2 : Follows P R slug st2 := follows_sub ht1 hsub2
          cases b2 with
          | false => exact ht2
          | true =>
            dsimp only
            cases htime : db.time run with
            | none => exact ht2
            | some t =>
              dsimp only
              unfold publishRecord
              cases ho : env.outcome run with
              | ok =>
                dsimp only
                refine follows_add ht2 _ ?_ ?_ ?_ ?_
                · intro r hr i hi
                  cases hi
                  exact (hf st2 r hr).2
                · intro _
                  exact ⟨run, hrun, Or.inl ⟨rfl, rfl⟩⟩
                · intro _ h; cases h
                · intro _ h; cases h
              | createFails => exact ht2
              | attachFails => exact ht2
              | leftBehind =>
                refine follows_add ht2 _ ?_ ?_ ?_ ?_
                · intro r hr i hi
                  cases hi
                  exact (hf st2 r hr).2
                · intro h; cases h
                · intro h; cases h
                · intro h; cases h
  · rw [if_neg hd]; exact ht

/-- Runs in order, all complete, that comprise every listed run after the first except some after all of them, follow each other. -/
theorem steps_next {b : List StoredObj} (runs : List Text) : ∀ x, Finished b x → (∀ y ∈ runs, Finished b y) → (∀ y ∈ runs, NameBefore x y) → runs.Pairwise NameBefore → (∀ z, Listed b z → NameBefore x z → z ∈ runs ∨ ∀ y ∈ runs, NameBefore y z) → Steps (Next b) x runs := by
  induction runs with
  | nil => intro x _ _ _ _ _; trivial
  | cons y rest ih =>
    intro x hx hfin hlt hpw hall
    rw [List.pairwise_cons] at hpw
    refine ⟨⟨hx, hfin y (by simp), hlt y (by simp), ?_⟩, ih y (hfin y (by simp)) (fun z hz => hfin z (by simp [hz])) hpw.1 hpw.2 ?_⟩
    · intro z hz hxz hzy
      rcases hall z hz hxz with hm | hm
      · rcases List.mem_cons.1 hm with rfl | hm
        · exact nameBefore_irrefl _ hzy
        · exact nameBefore_asymm hzy (hpw.1 z hm)
      · exact nameBefore_asymm hzy (hm y (by simp))
    · intro z hz hyz
      rcases hall z hz (nameBefore_trans (hlt y (by simp)) hyz) with hm | hm
      · rcases List.mem_cons.1 hm with rfl | hm
        · exact absurd hyz (nameBefore_irrefl _)
        · exact Or.inl hm
      · exact Or.inr (fun w hw => hm w (by simp [hw]))

theorem earlier_sub {age : Nat} {b : List StoredObj} {o : StoredObj} (h : o ∈ earlier age b) : o ∈ b := List.mem_of_mem_take h

theorem earlier_kept {age : Nat} {b : List StoredObj} (h : Kept b) : Kept (earlier age b) := fun o ho => h o (earlier_sub ho)

theorem earlier_listed {age : Nat} {b : List StoredObj} {x : Text} (h : Listed (earlier age b) x) : Listed b x := by
  obtain ⟨hr, o, ho, y, rest, hp⟩ := h
  exact ⟨hr, o, earlier_sub ho, y, rest, hp⟩

theorem earlier_ready {age : Nat} {b : List StoredObj} {x : Text} (h : runReady (earlier age b) x = true) : runReady b x = true := by
  obtain ⟨o, ho, hp⟩ := ready_iff.1 h
  exact ready_iff.2 ⟨o, earlier_sub ho, hp⟩

/-- What is listed now and was not at an earlier moment is after everything that was. -/
def Grown (b : List StoredObj) : Prop := ∀ n z x, Listed b z → ¬Listed (b.take n) z → Listed (b.take n) x → NameBefore x z

theorem take_listed {b : List StoredObj} {n : Nat} {x : Text} (h : Listed (b.take n) x) : Listed b x := by
  obtain ⟨hr, o, ho, y, rest, hp⟩ := h
  exact ⟨hr, o, List.mem_of_mem_take ho, y, rest, hp⟩

theorem reach_grown {s : Ops} (h : OpsReach s) : Grown s.bucket := by
  induction h with
  | init =>
    rintro n z x ⟨_, o, ho, _⟩
    cases ho
  | step s e hr he ih =>
    cases e with
    | generate a => exact ih
    | publish ages env slug dir delta parseTime maxAge noop => exact ih
    | write =>
      have hbi := reach_bucketInv hr
      unfold Ops.step
      cases hp : s.pending with
      | nil => exact ih
      | cons o rest =>
        dsimp only
        intro n z x hz hnz hx
        by_cases hn : n ≤ s.bucket.length
        · rw [List.take_append_of_le_length hn] at hnz hx
          by_cases hzo : Listed s.bucket z
          · exact ih n z x hzo hnz hx
          · rcases hbi with ⟨h, _⟩ | ⟨before, done, a, made, hb, hbk, _⟩
            · rw [hp] at h
              cases h
            · have hb' : Busy before (done ++ [o]) rest a made := ⟨hb.inv, hb.good, hb.isRun, hb.fresh, hb.newest, by rw [← hb.writes, hp]; simp⟩
              rw [hbk, List.append_assoc] at hz
              have hza : z = a.run := (busy_listed hb' hz).resolve_left (fun h => hzo (by rw [hbk]; exact listed_mono h))
              have hxb := take_listed hx
              rw [hbk] at hxb
              rcases busy_listed hb hxb with hxb | rfl
              · rw [hza]
                exact hb.newest x hxb
              · rw [hza] at hnz
                exact absurd hx hnz
        · rw [List.take_of_length_le (by rw [List.length_append, List.length_singleton]; omega)] at hnz
          exact absurd hz hnz

theorem follows_publish (ages : ReadAges) (env : PubEnv) (b : List StoredObj) (parseTime : Bytes → Option Nat) (dir delta slug : Text) (maxAge : Nat) (noop : Bool) (st : List KRec) (hs : ∀ c ∈ slug, c ≠ '-') (hf : FreshIds env.freshId) (hk : Kept b) (hg : Grown b)
    (ht : Tidy slug st) (hfo : Follows (Finished b) (Next b) slug st) : Follows (Finished b) (Next b) slug (publishCrlite env (publishedDb ages parseTime dir delta b) slug maxAge noop st).2 := by
  have hids : (publishedDb ages parseTime dir delta b).ids = getRunIdentifiers (dirsOf (earlier ages.listing b)) := rfl
  have hrd : ∀ r, (publishedDb ages parseTime dir delta b).ready r = true → runReady b r = true := fun r h => earlier_ready h
  have hk0 : Kept (earlier ages.listing b) := earlier_kept hk
  generalize publishedDb ages parseTime dir delta b = db at hids hrd
  unfold publishCrlite
  dsimp only
  cases hnew : db.ids.getLast? with
  | none => exact hfo
  | some newest =>
    dsimp only
    by_cases hready : db.ready newest = true
    · rw [if_pos hready]
      have hfl : st.filter (ofChannel slug) = recordsOf slug st := rfl
      rw [hfl]
      cases hdet : determinePublish (sortRecs (recordsOf slug st)) db maxAge with
      | none => exact hfo
      | some task =>
        dsimp only
        cases noop with
        | true => exact hfo
        | false =>
          rw [if_neg (by simp)]
          cases task with
          | full run =>
            have := C68_full_newest _ _ _ _ hdet
            rw [hnew] at this
            cases this
            refine follows_full env db slug newest _ st (finished_iff.2 ⟨earlier_listed ((listed_iff hk0 newest).1 ?_), hrd _ hready⟩) hf hfo
            rw [← hids]
            exact List.mem_of_getLast? hnew
          | deltas runs =>
            obtain ⟨l, tip, hl, hc, hn, hltip, hstip⟩ := C67_last_is_tip slug db maxAge runs st hs ht hdet
            obtain ⟨_, _, last, tiprun, cut, d1, d2, d3, d4, d5, d6, d7, d8⟩ := C68_deltas _ _ _ _ hdet
            rw [hstip] at d1
            cases d1
            have htl : tip ∈ l := List.mem_of_getLast? hltip
            obtain ⟨hta, i, hi⟩ := chain_complete hc tip htl
            have htm : tip ∈ recordsOf slug st := hl.mem_iff.1 htl
            obtain ⟨run0, hfin0, hcar0⟩ := hfo.1 tip htm hta
            have hatt0 := carries_attachment hcar0
            have htr : tiprun = run0 := by
              have := attachment_run hs hatt0
              rw [d2] at this
              exact Option.some.inj this
            subst htr
            have hlisted0 : ∀ x ∈ runs, Listed (earlier ages.listing b) x := by
              intro x hx
              refine (listed_iff hk0 x).1 ?_
              rw [← hids]
              exact ((d4 x).1 hx).1
            have hlisted : ∀ x ∈ runs, Listed b x := fun x hx => earlier_listed (hlisted0 x hx)
            have hdist : RunsDistinct db.ids := by
              rw [hids]
              exact runs_distinct hk0
            have hfinr : ∀ x ∈ runs, Finished b x := by
              intro x hx
              exact finished_iff.2 ⟨hlisted x hx, hrd x (d7 x hx).1⟩
            have hlt : ∀ y ∈ runs, NameBefore tiprun y := by
              intro y hy
              obtain ⟨_, k, hk', hlt⟩ := (d4 y).1 hy
              exact (nameBefore_keys hfin0.1.1 (hlisted y hy).1 d3 hk').2 (keyLt_iff.2 hlt)
            have hpw : runs.Pairwise NameBefore := by
              refine (deltas_increasing hdist (fun x hx => ((d4 x).1 hx).1) d5 d6).imp_of_mem ?_
              intro x y hx hy hxy
              obtain ⟨_, kx, hkx, _⟩ := (d4 x).1 hx
              obtain ⟨_, ky, hky, _⟩ := (d4 y).1 hy
              exact (nameBefore_keys (hlisted x hx).1 (hlisted y hy).1 hkx hky).2 (hxy kx ky hkx hky)
            have hall : ∀ z, Listed b z → NameBefore tiprun z → z ∈ runs ∨ ∀ y ∈ runs, NameBefore y z := by
              intro z hz hlt'
              by_cases hz0 : Listed (earlier ages.listing b) z
              case neg => exact Or.inr (fun y hy => hg _ z y hz hz0 (hlisted0 y hy))
              have hzm : z ∈ db.ids := by
                rw [hids]
                exact (listed_iff hk0 z).2 hz0
              obtain ⟨d, n, hd, _, rfl⟩ := hz.1
              exact Or.inl <| (d4 _).2 ⟨hzm, _, parseRun_runName hd n, keyLt_iff.1 ((nameBefore_keys hfin0.1.1 hz.1 d3 (parseRun_runName hd n)).1 hlt')⟩
            have hsteps := steps_next runs tiprun hfin0 hfinr hlt hpw hall
            unfold runTask
            dsimp only
            cases runs with
            | nil => exact hfo
            | cons run rest =>
              dsimp only
              rw [hstip, Option.bind_some, hi]
              dsimp only
              refine follows_deltas env db slug hs hf (run :: rest) i st hfo ⟨tip, htm, hi, tiprun, hatt0⟩ hfinr ?_
              intro s hsm hsi x hx
              have hsl : s ∈ l := hl.mem_iff.2 hsm
              have hst : s = tip := by
                have h1 := idsGet_nodup hn hsl hsi
                have h2 := idsGet_nodup hn htl hi
                rw [h1] at h2
                cases h2
                rfl
              rw [hst] at hx
              rw [attachment_unique hs hx hatt0]
              exact hsteps
    · rw [if_neg hready]; exact hfo

/-! ### the two together -/

/-- What holds of the collection. -/
def RecsInv (s : Ops) : Prop := (s.recs.map KRec.id).Nodup ∧ ∀ slug, (∀ c ∈ slug, c ≠ '-') → Tidy slug s.recs ∧ Follows (Finished s.bucket) (Next s.bucket) slug s.recs

theorem finished_mono {b c : List StoredObj} {x : Text} (h : Finished b x) : Finished (b ++ c) x := by
  obtain ⟨h1, o, ho, hp⟩ := h
  exact ⟨listed_mono h1, o, List.mem_append.2 (Or.inl ho), hp⟩

/-- New runs are after all others, so that they come between no two. -/
theorem next_mono {s : Ops} {o : StoredObj} {rest : List StoredObj} (h : BucketInv s) (hp : s.pending = o :: rest) {x y : Text} (hn : Next s.bucket x y) : Next (s.bucket ++ [o]) x y := by
  obtain ⟨h1, h2, h3, h4⟩ := hn
  refine ⟨finished_mono h1, finished_mono h2, h3, ?_⟩
  intro z hz hxz hzy
  rcases h with ⟨h, _⟩ | ⟨before, done, a, made, hb, hbk, _⟩
  · rw [hp] at h
    cases h
  · have hb' : Busy before (done ++ [o]) rest a made := ⟨hb.inv, hb.good, hb.isRun, hb.fresh, hb.newest, by rw [← hb.writes, hp]; simp⟩
    rw [hbk, List.append_assoc] at hz
    rcases busy_listed hb' hz with hz | rfl
    · exact h4 z (by rw [hbk]; exact listed_mono hz) hxz hzy
    · have hy := h2.1
      rw [hbk] at hy
      rcases busy_listed hb hy with hy | rfl
      · exact nameBefore_asymm hzy (hb.newest y hy)
      · exact nameBefore_irrefl _ hzy

theorem tidy_of_records {slug : Text} {st st' : List KRec} (h : recordsOf slug st' = recordsOf slug st) (ht : Tidy slug st) : Tidy slug st' := by
  unfold Tidy at *
  rw [h]
  exact ht

theorem follows_of_records {P : Text → Prop} {R : Text → Text → Prop} {slug : Text} {st st' : List KRec} (h : recordsOf slug st' = recordsOf slug st) (ht : Follows P R slug st) : Follows P R slug st' := by
  unfold Follows at *
  rw [h]
  exact ht

theorem reach_recsInv {s : Ops} (h : OpsReach s) : RecsInv s := by
  induction h with
  | init =>
    refine ⟨List.nodup_nil, fun slug _ => ⟨⟨fun r hr => (by cases hr), fun r hr => (by cases hr)⟩, ⟨fun r hr => (by cases hr), fun r hr => (by cases hr)⟩⟩⟩
  | step s e hr he ih =>
    have hb := reach_bucketInv hr
    cases e with
    | generate a => exact ih
    | write =>
      unfold Ops.step
      cases hp : s.pending with
      | nil =>
        dsimp only
        exact ih
      | cons o rest =>
        dsimp only
        exact ⟨ih.1, fun slug hs => ⟨(ih.2 slug hs).1, follows_weaken (ih.2 slug hs).2 (fun x hx => finished_mono hx) (fun x y hxy => next_mono hb hp hxy)⟩⟩
    | publish ages env slug dir delta parseTime maxAge noop =>
      obtain ⟨hs, hf⟩ := he
      have hk := (bucketInv_inv hb).kept
      refine ⟨(C67_other_channels env _ slug ('-' :: slug) maxAge noop s.recs hf (List.cons_ne_self _ _) ih.1).2, ?_⟩
      intro c hc
      by_cases hcs : c = slug
      · subst hcs
        refine ⟨C67_tidy_kept env _ c maxAge noop s.recs hs hf (runs_distinct (earlier_kept hk)) (runs_parse (earlier_kept hk)) (ih.2 c hc).1, ?_⟩
        exact follows_publish ages env s.bucket parseTime dir delta c maxAge noop s.recs hs hf hk (reach_grown hr) (ih.2 c hc).1 (ih.2 c hc).2
      · have := (C67_other_channels env (publishedDb ages parseTime dir delta s.bucket) slug c maxAge noop s.recs hf hcs ih.1).1
        exact ⟨tidy_of_records this (ih.2 c hc).1, follows_of_records this (ih.2 c hc).2⟩

/-! ### C81 -/

theorem linked_follows {P : Text → Prop} {R : Text → Text → Prop} {slug : Text} {st : List KRec} (hf : Follows P R slug st) (l : List KRec) : ∀ (prev : KRec) (p x : Text), prev.id = some p → prev ∈ recordsOf slug st →
    prev.attachment.isSome = true → Carries slug x prev → Linked p l → (∀ r ∈ l, r ∈ recordsOf slug st) → ∃ runs, CarryAll slug runs l ∧ Steps R x runs := by
  induction l with
  | nil => intro prev p x _ _ _ _ _ _; exact ⟨[], trivial, trivial⟩
  | cons r rest ih =>
    intro prev p x hp hpm hpa hx hl hs
    obtain ⟨a, b, c, i, d, e⟩ := hl
    have hr := hs r (by simp)
    obtain ⟨y, _, hy⟩ := hf.1 r hr c
    obtain ⟨runs, h1, h2⟩ := ih r i y d hr c hy e (fun x hx => hs x (by simp [hx]))
    exact ⟨y :: runs, ⟨hy, h1⟩, hf.2 r hr prev hpm c hpa a p hp b x y (carries_attachment hx) (carries_attachment hy), h2⟩

/-- **C81, runs.** In every state that generations and publications can reach, stopped anywhere: if a channel is a chain, it is the full filter of a complete run followed by the deltas of complete runs, each the next run after the
one before; no run that has left anything in the bucket is passed over. -/
theorem C81_runs (s : Ops) (h : OpsReach s) (slug : Text) (hs : ∀ c ∈ slug, c ≠ '-') (l : List KRec) (hl : l.Perm (recordsOf slug s.recs)) (hc : IsChain l) :
    ∃ x runs, Finished s.bucket x ∧ CarryAll slug (x :: runs) l ∧ Steps (Next s.bucket) x runs := by
  have hf := ((reach_recsInv h).2 slug hs).2
  cases l with
  | nil => exact hc.elim
  | cons r rest =>
    obtain ⟨_, b, i, c, d⟩ := hc
    have hr : r ∈ recordsOf slug s.recs := hl.mem_iff.1 (by simp)
    obtain ⟨x, hx, hcar⟩ := hf.1 r hr b
    obtain ⟨runs, h1, h2⟩ := linked_follows hf rest r i x c hr b hcar d (fun y hy => hl.mem_iff.1 (by simp [hy]))
    exact ⟨x, runs, hx, ⟨hcar, h1⟩, h2⟩

/-- **C81, files.** What is in the bucket under the name of a complete run is what the last execution with this name made, with the revocation set it was given. -/
theorem C81_files (s : Ops) (h : OpsReach s) (y : Text) (hy : Finished s.bucket y) :
    ∃ a prev groups, MadeBy s y a prev ∧ a.makeAll prev = some groups ∧ (∃ g ∈ groups, ∃ f ∈ g, f.path = ["filter".toList]) ∧
      (∀ f ∈ a.data, f.symlink = false → objGet s.bucket (y :: f.path) = some f.content) ∧
      ∀ g ∈ groups, ∀ f ∈ g, f.symlink = false → objGet s.bucket (y :: "clubcard-all".toList :: f.path) = some f.content := by
  have hb := bucketInv_inv (reach_bucketInv h)
  obtain ⟨hl, hr⟩ := finished_iff.1 hy
  obtain ⟨a, prev, hm⟩ := hb.entry y hl
  obtain ⟨_, _, prev', groups, prio, h1, _, h2, _, h3, h4, _⟩ := hb.files y a prev hl hr hm
  exact ⟨a, prev, groups, hm, h1, h2, h3, h4⟩

/-- **C81, what deltas need.** A run whose delta is to be published has its list of logs, its filter and its delta for this channel in the bucket, and its last file, and the time of the run can be read. -/
theorem C81_deltas_present (ages : ReadAges) (parseTime : Bytes → Option Nat) (dir delta : Text) (b : List StoredObj) (existing : List KRec) (maxAge : Nat) (runs : List Text)
    (h : determinePublish existing (publishedDb ages parseTime dir delta b) maxAge = some (.deltas runs)) (x : Text) (hx : x ∈ runs) :
    (∀ p ∈ [["completed".toList], ["ct-logs.json".toList], [dir, "filter".toList], [dir, delta]], ∃ o ∈ b, o.path = x :: p) ∧
    ∃ c t, objGet (earlier (ages.time x) b) [x, "timestamp".toList] = some c ∧ parseTime c = some t := by
  obtain ⟨_, _, _, _, _, _, _, _, _, _, _, hall, _⟩ := C68_deltas existing _ maxAge runs h
  obtain ⟨h1, h2, t, h3⟩ := hall x hx
  have hv : runValid (earlier (ages.valid x) b) x dir delta = true := h2
  have some_mem : ∀ p, (objGet (earlier (ages.valid x) b) p).isSome = true → ∃ o ∈ b, o.path = p := by
    intro p hp
    refine Classical.byContradiction (fun hno => ?_)
    rw [objGet_none.2 (fun o ho e => hno ⟨o, earlier_sub ho, e⟩)] at hp
    cases hp
  unfold runValid at hv
  rw [Bool.and_eq_true, Bool.and_eq_true] at hv
  refine ⟨?_, ?_⟩
  · intro p hp
    simp only [List.mem_cons, List.not_mem_nil, or_false] at hp
    rcases hp with rfl | rfl | rfl | rfl
    · exact ready_iff.1 (earlier_ready h1)
    · exact some_mem _ hv.2
    · exact some_mem _ hv.1.1
    · exact some_mem _ hv.1.2
  · have h3 : (objGet (earlier (ages.time x) b) [x, "timestamp".toList]).bind parseTime = some t := h3
    obtain ⟨c, h4, h5⟩ := Option.bind_eq_some_iff.1 h3
    exact ⟨c, t, h4, h5⟩

/-- **C81, deltas.** If a complete run comes next after another complete run, its delta was computed against exactly the revocation set that the run before has uploaded; or, if the download failed, against none, and then it contains all
revocations. -/
theorem C81_given (s : Ops) (h : OpsReach s) (x y : Text) (hn : Next s.bucket x y) (a : GenRun) (prev : Option Bytes) (hm : MadeBy s y a prev) :
    (a.dlAll = true → prev = revsetOf s.bucket x ∧ prev ≠ none) ∧ (a.dlAll = false → prev = none) := by
  have hb := bucketInv_inv (reach_bucketInv h)
  obtain ⟨hx, hy, hlt, hno⟩ := hn
  obtain ⟨hxl, hxr⟩ := finished_iff.1 hx
  have hg := hb.given x y a prev hxl hy.1 hlt hno hxr hm
  obtain ⟨a', prev', hm'⟩ := hb.entry x hxl
  obtain ⟨hgood, _, _, groups, prio, h1, _, h2, _, _, h4, _⟩ := hb.files x a' prev' hxl hxr hm'
  obtain ⟨g, hgm, f, hf, hsl, hp⟩ := hgood.revset _ groups h1 h2
  have hrev := h4 g hgm f hf hsl
  rw [hp] at hrev
  constructor
  · intro hd
    rw [hd, if_pos rfl] at hg
    refine ⟨hg, ?_⟩
    rw [hg]
    unfold revsetOf
    rw [hrev]
    intro e
    cases e
  · intro hd
    rw [hd] at hg
    rw [hg]
    rfl

end Verif.Props

namespace Verif.Spec

/-- The file that is published with a record of a run (moz_kinto_publisher/main.py:55-90, 1017-1065). -/
def fileOf (run : Text) (r : KRec) : List Text := if r.incremental = some true then [run, "clubcard-all".toList, "filter.delta".toList] else [run, "clubcard-all".toList, "filter".toList]

/-- What a client has that has downloaded the records of a channel: the filters in their attachments. -/
def ClientCards {F : Type} (card : Bytes → Option (Card F)) (b : List StoredObj) (slug : Text) (l : List KRec) (cards : List (Card F)) : Prop :=
  ∀ c, c ∈ cards ↔ ∃ r ∈ l, ∃ run, Carries slug run r ∧ ∃ bytes, objGet b (fileOf run r) = some bytes ∧ card bytes = some c

/-- The files that `makeAll` makes are those of a run of rust-create-cascade with these inputs; `dec` reads a revocation set and `card` a filter with its coverage. A set that is read back has the elements that were written. -/
structure Generates {F : Type} (dec : Bytes → Option (List Bytes)) (card : Bytes → Option (Card F)) (build : List Bytes → List (Bytes × Bool) → Option F) (contains : F → Bytes → Bool) (order : List Text → List Text)
    (a : GenRun) (w : RunInput) (x : Dir) (cov : Coverage) : Prop where
  good : GoodInput w x
  make : ∀ prev groups, a.makeAll prev = some groups → (∃ g ∈ groups, ∃ f ∈ g, f.path = ["filter".toList]) →
    ∃ out, createRun build contains order .all .all (prev.bind dec) (revokedDir w x) (knownDir w) = some out ∧
      (∃ g ∈ groups, ∃ f ∈ g, f.symlink = false ∧ f.path = ["filter".toList] ∧ card f.content = some ⟨out.filter, cov⟩) ∧
      (∃ g ∈ groups, ∃ f ∈ g, f.symlink = false ∧ f.path = ["filter.delta".toList] ∧ card f.content = some ⟨out.deltaFilter, cov⟩) ∧
      (∃ g ∈ groups, ∃ f ∈ g, f.symlink = false ∧ f.path = ["revset.bin".toList] ∧ ∃ l, dec f.content = some l ∧ ∀ k, k ∈ l ↔ k ∈ out.revset)

end Verif.Spec

namespace Verif.Props
open Verif.Spec

/-! ### C82 -/

section
variable {F : Type} {dec : Bytes → Option (List Bytes)} {card : Bytes → Option (Card F)} {build : List Bytes → List (Bytes × Bool) → Option F} {contains : F → Bytes → Bool} {order : List Text → List Text}
  {W : GenRun → RunInput} {X : GenRun → Dir} {cov : GenRun → Coverage} {s : Ops}

/-- What is known of a complete run. -/
theorem run_out (h : OpsReach s) (hgen : ∀ y a prev, Finished s.bucket y → MadeBy s y a prev → Generates dec card build contains order a (W a) (X a) (cov a)) {y : Text} (hy : Finished s.bucket y) :
    ∃ a prev out, MadeBy s y a prev ∧ createRun build contains order .all .all (prev.bind dec) (revokedDir (W a) (X a)) (knownDir (W a)) = some out ∧
      (∃ bytes, objGet s.bucket [y, "clubcard-all".toList, "filter".toList] = some bytes ∧ card bytes = some ⟨out.filter, cov a⟩) ∧
      (∃ bytes, objGet s.bucket [y, "clubcard-all".toList, "filter.delta".toList] = some bytes ∧ card bytes = some ⟨out.deltaFilter, cov a⟩) ∧
      ∃ bytes l, revsetOf s.bucket y = some bytes ∧ dec bytes = some l ∧ ∀ k, k ∈ l ↔ ∃ d n, KnownIn (W a) d n ∧ RevokedIn .all (W a) d n ∧ k = crliteKey d n := by
  obtain ⟨a, prev, groups, hm, h1, h2, _, h4⟩ := C81_files s h y hy
  have hg := hgen y a prev hy hm
  obtain ⟨out, ho, ⟨g1, hg1, f1, hf1, hs1, hp1, hc1⟩, ⟨g2, hg2, f2, hf2, hs2, hp2, hc2⟩, g3, hg3, f3, hf3, hs3, hp3, l, hl, hmem⟩ := hg.make prev groups h1 h2
  have e1 := h4 g1 hg1 f1 hf1 hs1
  have e2 := h4 g2 hg2 f2 hf2 hs2
  have e3 := h4 g3 hg3 f3 hf3 hs3
  rw [hp1] at e1
  rw [hp2] at e2
  rw [hp3] at e3
  refine ⟨a, prev, out, hm, ho, ⟨_, e1, hc1⟩, ⟨_, e2, hc2⟩, _, l, e3, hl, ?_⟩
  intro k
  rw [hmem]
  obtain ⟨w', revset, k1, k2, _⟩ := C58_delta .all (prev.bind dec) (W a) (X a) hg.good
  rw [(createRun_some ho).2.1, Option.some.injEq, Prod.mk.injEq] at k1
  rw [k1.2]
  exact k2 k

/-- The filters of one run, on the certificates known to it. -/
theorem out_answers {enrolls : F → Bytes → Bool} (he : EnrollsInput build enrolls) {w : RunInput} {x : Dir} (hg : GoodInput w x) {prev : Option (List Bytes)} {out : RunOut F}
    (ho : createRun build contains order .all .all prev (revokedDir w x) (knownDir w) = some out) {d : Bytes} {n : Serial} (hk : KnownIn w d n) :
    enrolls out.filter d = true ∧ enrolls out.deltaFilter d = true ∧ (contains out.filter (crliteKey d n) = true ↔ RevokedIn .all w d n) ∧
    (contains out.deltaFilter (crliteKey d n) = true ↔ RevokedIn .all w d n ∧ crliteKey d n ∉ prevSet prev) := by
  obtain ⟨k1, k2, _, k4⟩ := createRun_some ho
  obtain ⟨w', revset, h1, _, h3, h4, h5, _, h6, _⟩ := C58_delta .all prev w x hg
  rw [k2, Option.some.injEq, Prod.mk.injEq] at h1
  rw [h1.1, ← h3] at k4
  refine ⟨enrolls_known he hg k1 hk, enrolls_known he h4 k4 ((h5 d n).2 hk), C56_written_filter_exact build contains .all _ _ hg _ k1 _ _ hk, ?_⟩
  rw [C56_written_filter_exact build contains .all w' [] h4 _ k4 d n ((h5 d n).2 hk), h6]
  exact ⟨fun h => h.2, fun h => ⟨hk, h⟩⟩

/-- The certificate is known to the run and revoked. -/
def KnownRevoked (W : GenRun → RunInput) (s : Ops) (y : Text) (d : Bytes) (n : Serial) : Prop := ∀ a prev, MadeBy s y a prev → KnownIn (W a) d n ∧ RevokedIn .all (W a) d n

theorem steps_revoked {enrolls : F → Bytes → Bool} (he : EnrollsInput build enrolls) (h : OpsReach s) (hgen : ∀ y a prev, Finished s.bucket y → MadeBy s y a prev → Generates dec card build contains order a (W a) (X a) (cov a)) (d : Bytes) (n : Serial)
    (runs : List Text) : ∀ x, Finished s.bucket x → Steps (Next s.bucket) x runs → KnownRevoked W s ((x :: runs).getLast (by simp)) d n →
    KnownRevoked W s x d n ∨ ∃ y ∈ runs, ∃ a prev bytes f, MadeBy s y a prev ∧ KnownIn (W a) d n ∧ RevokedIn .all (W a) d n ∧ objGet s.bucket [y, "clubcard-all".toList, "filter.delta".toList] = some bytes ∧ card bytes = some ⟨f, cov a⟩ ∧
      enrolls f d = true ∧ contains f (crliteKey d n) = true := by
  induction runs with
  | nil => intro x _ _ hkr; exact Or.inl hkr
  | cons y rest ih =>
    intro x hx hst hkr
    obtain ⟨hn, hst⟩ := hst
    rw [List.getLast_cons (by simp)] at hkr
    have hy := hn.2.1
    rcases ih y hy hst hkr with hkry | ⟨z, hz, hrest⟩
    · by_cases hkrx : KnownRevoked W s x d n
      · exact Or.inl hkrx
      · right
        obtain ⟨a, prev, out, hm, ho, _, ⟨bytes, hb, hc⟩, _⟩ := run_out h hgen hy
        obtain ⟨hk, hr⟩ := hkry a prev hm
        obtain ⟨_, a2, _, a4⟩ := out_answers he (hgen y a prev hy hm).good ho hk
        refine ⟨y, by simp, a, prev, bytes, out.deltaFilter, hm, hk, hr, hb, hc, a2, a4.2 ⟨hr, ?_⟩⟩
        intro hmem
        apply hkrx
        obtain ⟨ax, prevx, outx, hmx, _, _, _, rb, l, hrb, hdec, hl⟩ := run_out h hgen hx
        obtain ⟨g1, g2⟩ := C81_given s h x y hn a prev hm
        cases hd : a.dlAll with
        | false =>
          rw [g2 hd] at hmem
          cases hmem
        | true =>
          rw [(g1 hd).1, hrb, Option.bind_some, hdec] at hmem
          obtain ⟨d', n', hk', hr', e⟩ := (hl _).1 hmem
          obtain ⟨rfl, rfl⟩ := C13_key_injective d d' n n' (knownIn_length (hgen y a prev hy hm).good hk) (knownIn_length (hgen x ax prevx hx hmx).good hk') e
          intro a' prev' hm'
          unfold MadeBy at hmx hm'
          rw [hmx, Option.some.injEq, Prod.mk.injEq] at hm'
          obtain ⟨rfl, rfl⟩ := hm'
          exact ⟨hk', hr'⟩
    · exact Or.inr ⟨z, by simp [hz], hrest⟩

theorem carryAll_mem {slug : Text} (runs : List Text) : ∀ l : List KRec, CarryAll slug runs l → (∀ y ∈ runs, ∃ r ∈ l, Carries slug y r) ∧ (∀ r ∈ l, ∃ y ∈ runs, Carries slug y r) := by
  induction runs with
  | nil =>
    intro l h
    cases l with
    | nil => exact ⟨fun y hy => (by cases hy), fun y hy => (by cases hy)⟩
    | cons r rest => exact h.elim
  | cons x runs ih =>
    intro l h
    cases l with
    | nil => exact h.elim
    | cons r rest =>
      obtain ⟨h1, h2⟩ := ih rest h.2
      constructor
      · intro y hy
        rcases List.mem_cons.1 hy with rfl | hy
        · exact ⟨r, by simp, h.1⟩
        · obtain ⟨r', hr', hc⟩ := h1 y hy
          exact ⟨r', by simp [hr'], hc⟩
      · intro r' hr'
        rcases List.mem_cons.1 hr' with rfl | hr'
        · exact ⟨x, by simp, h.1⟩
        · obtain ⟨y, hy, hc⟩ := h2 r' hr'
          exact ⟨y, by simp [hy], hc⟩

theorem steps_finished {b : List StoredObj} (runs : List Text) : ∀ x, Finished b x → Steps (Next b) x runs → ∀ y ∈ x :: runs, Finished b y := by
  induction runs with
  | nil => intro x hx _ y hy; rw [List.mem_singleton.1 hy]; exact hx
  | cons z rest ih =>
    intro x hx hst y hy
    rcases List.mem_cons.1 hy with rfl | hy
    · exact hx
    · exact ih z hst.1.2.1 hst.2 y hy

end

/-- The runs of a chain are complete. -/
theorem chain_finished {s : Ops} (h : OpsReach s) {slug : Text} (hs : ∀ c ∈ slug, c ≠ '-') {l : List KRec} (hl : l.Perm (recordsOf slug s.recs)) (hc : IsChain l) {runs : List Text} (hcar : CarryAll slug runs l) : ∀ y ∈ runs, Finished s.bucket y := by
  intro y hy
  obtain ⟨x, runs', hx, hcar', hst⟩ := C81_runs s h slug hs l hl hc
  obtain ⟨r, hr, hcy⟩ := (carryAll_mem runs l hcar).1 y hy
  obtain ⟨z, hz, hcz⟩ := (carryAll_mem (x :: runs') l hcar').2 r hr
  rw [attachment_unique hs (carries_attachment hcy) (carries_attachment hcz)]
  exact steps_finished runs' x hx hst z hz

section
variable {F : Type} (dec : Bytes → Option (List Bytes)) (card : Bytes → Option (Card F)) (build : List Bytes → List (Bytes × Bool) → Option F) (contains : F → Bytes → Bool) (enrolls : F → Bytes → Bool)
  (he : EnrollsInput build enrolls) (order : List Text → List Text) (W : GenRun → RunInput) (X : GenRun → Dir) (cov : GenRun → Coverage) (sha : Bytes → Bytes) (parse : Bytes → Option IssuerCert) (verifies : Bytes → Bool)
  (inter : Intermediates) (s : Ops) (h : OpsReach s) (hgen : ∀ y a prev, Finished s.bucket y → MadeBy s y a prev → Generates dec card build contains order a (W a) (X a) (cov a))
  (slug : Text) (hs : ∀ c ∈ slug, c ≠ '-') (l : List KRec) (hl : l.Perm (recordsOf slug s.recs)) (hc : IsChain l) (cards : List (Card F)) (hcards : ClientCards card s.bucket slug l cards)
include he h hgen hs hl hc hcards

/-- **C82, Revoked (partial).** Full statement: without `hcov`. Proved: after any history of generations and publications, stopped anywhere, if the channel is a chain and a client has its filters, then a certificate that is known and revoked
in the last run of the chain, valid now and with a known issuer, is answered Revoked, provided each run of the chain that knew the certificate and found it revoked also covered one of its SCTs. Missing: runs that knew it from elsewhere
(`C74_known_elsewhere_fails`). -/
theorem C82_revoked_partial (c : ClientCert) (spki : Bytes) (hlk : lookupSpki parse verifies inter c.issuerDN = some spki) (hv : c.valid = true)
    (hkr : ∀ runs z, CarryAll slug runs l → runs.getLast? = some z → ∀ a prev, MadeBy s z a prev → KnownIn (W a) (sha spki) c.serial ∧ RevokedIn .all (W a) (sha spki) c.serial)
    (hcov : ∀ runs, CarryAll slug runs l → ∀ y ∈ runs, ∀ a prev, MadeBy s y a prev → KnownIn (W a) (sha spki) c.serial → RevokedIn .all (W a) (sha spki) c.serial → Covers (cov a) c.scts) :
    clientQuery sha parse verifies (cardHas enrolls contains) cards inter c = .revoked := by
  rw [C63_revoked_iff]
  refine ⟨spki, hlk, hv, ?_⟩
  obtain ⟨x, runs, hx, hcar, hst⟩ := C81_runs s h slug hs l hl hc
  have hlast : KnownRevoked W s ((x :: runs).getLast (by simp)) (sha spki) c.serial := hkr (x :: runs) _ hcar (List.getLast?_eq_some_getLast (by simp))
  have hanswer : ∀ y ∈ x :: runs, ∀ a prev f, MadeBy s y a prev → KnownIn (W a) (sha spki) c.serial → RevokedIn .all (W a) (sha spki) c.serial → enrolls f (sha spki) = true → contains f (crliteKey (sha spki) c.serial) = true →
      cardHas enrolls contains ⟨f, cov a⟩ (sha spki) c.serial c.scts = .revoked := by
    intro y hy a prev f hm hk hr h1 h2
    unfold cardHas
    rw [if_pos ((covers_iff _ _).2 (hcov (x :: runs) hcar y hy a prev hm hk hr)), if_pos h1, if_pos h2]
  cases l with
  | nil => exact hc.elim
  | cons r0 rest =>
    have hinc : ∀ l : List KRec, ∀ p, Linked p l → ∀ r ∈ l, r.incremental = some true := by
      intro l
      induction l with
      | nil => intro p _ r hr; cases hr
      | cons q qs ih =>
        intro p hlk r hr
        obtain ⟨e1, _, _, i, _, e2⟩ := hlk
        rcases List.mem_cons.1 hr with rfl | hr
        · exact e1
        · exact ih i e2 r hr
    obtain ⟨hfull, _, i, _, hlinked⟩ := hc
    rcases steps_revoked (enrolls := enrolls) he h hgen (sha spki) c.serial runs x hx hst hlast with hkx | ⟨y, hy, a, prev, bytes, f, hm, hk, hrev, hb, hcd, h1, h2⟩
    · obtain ⟨a, prev, out, hm, ho, ⟨bytes, hb, hcd⟩, _⟩ := run_out h hgen hx
      obtain ⟨hk, hr⟩ := hkx a prev hm
      obtain ⟨a1, _, a3, _⟩ := out_answers he (hgen x a prev hx hm).good ho hk
      refine ⟨⟨out.filter, cov a⟩, (hcards _).2 ⟨r0, by simp, x, hcar.1, bytes, ?_, hcd⟩, hanswer x (by simp) a prev _ hm hk hr a1 (a3.2 hr)⟩
      unfold fileOf
      rw [hfull, if_neg (by simp)]
      exact hb
    · obtain ⟨r, hr, hcy⟩ := (carryAll_mem runs rest hcar.2).1 y hy
      refine ⟨⟨f, cov a⟩, (hcards _).2 ⟨r, by simp [hr], y, hcy, bytes, ?_, hcd⟩, hanswer y (by simp [hy]) a prev f hm hk hrev h1 h2⟩
      unfold fileOf
      rw [hinc rest i hlinked r hr, if_pos rfl]
      exact hb

/-- **C82, not Revoked.** After any such history: a certificate that was revoked in no run of the chain, and known to every run of it that covers one of its SCTs, is not answered Revoked. -/
theorem C82_not_revoked (c : ClientCert) (spki : Bytes) (hlk : lookupSpki parse verifies inter c.issuerDN = some spki)
    (hr : ∀ runs, CarryAll slug runs l → ∀ y ∈ runs, ∀ a prev, MadeBy s y a prev → ¬RevokedIn .all (W a) (sha spki) c.serial)
    (hsure : ∀ runs, CarryAll slug runs l → ∀ y ∈ runs, ∀ a prev, MadeBy s y a prev → Covers (cov a) c.scts → KnownIn (W a) (sha spki) c.serial) :
    clientQuery sha parse verifies (cardHas enrolls contains) cards inter c ≠ .revoked := by
  intro hq
  rw [C63_revoked_iff] at hq
  obtain ⟨spki', hlk', _, f, hf, hhas⟩ := hq
  rw [hlk, Option.some.injEq] at hlk'
  subst hlk'
  obtain ⟨x, runs, hx, hcar, hst⟩ := C81_runs s h slug hs l hl hc
  obtain ⟨r, hrl, run, hcr, bytes, hb, hcd⟩ := (hcards f).1 hf
  obtain ⟨y, hy, hcy⟩ := (carryAll_mem (x :: runs) l hcar).2 r hrl
  have hry : run = y := attachment_unique hs (carries_attachment hcr) (carries_attachment hcy)
  subst hry
  have hfin := steps_finished runs x hx hst run hy
  obtain ⟨a, prev, out, hm, ho, ⟨b1, hb1, hc1⟩, ⟨b2, hb2, hc2⟩, _⟩ := run_out h hgen hfin
  have hnr := hr (x :: runs) hcar run hy a prev hm
  have key : f.coverage = cov a ∧ (KnownIn (W a) (sha spki) c.serial → contains f.filter (crliteKey (sha spki) c.serial) = true → RevokedIn .all (W a) (sha spki) c.serial) := by
    unfold fileOf at hb
    by_cases hi : r.incremental = some true
    · rw [if_pos hi, hb2, Option.some.injEq] at hb
      rw [← hb, hc2, Option.some.injEq] at hcd
      rw [← hcd]
      refine ⟨rfl, fun hk hcon => ?_⟩
      exact ((out_answers he (hgen run a prev hfin hm).good ho hk).2.2.2.1 hcon).1
    · rw [if_neg hi, hb1, Option.some.injEq] at hb
      rw [← hb, hc1, Option.some.injEq] at hcd
      rw [← hcd]
      refine ⟨rfl, fun hk hcon => ?_⟩
      exact (out_answers he (hgen run a prev hfin hm).good ho hk).2.2.1.1 hcon
  unfold cardHas at hhas
  by_cases hcv : c.scts.any (sctCovered f.coverage) = true
  · rw [if_pos hcv] at hhas
    rw [key.1, covers_iff] at hcv
    have hk := hsure (x :: runs) hcar run hy a prev hm hcv
    by_cases hen : enrolls f.filter (sha spki) = true
    · rw [if_pos hen] at hhas
      by_cases hcon : contains f.filter (crliteKey (sha spki) c.serial) = true
      · exact hnr (key.2 hk hcon)
      · rw [if_neg hcon] at hhas
        cases hhas
    · rw [if_neg hen] at hhas
      cases hhas
  · rw [if_neg hcv] at hhas
    cases hhas

/-- What the filters answer on such a certificate, and that every run of the chain has its filter with the client. -/
theorem chain_answers (c : ClientCert) (spki : Bytes)
    (hr : ∀ runs, CarryAll slug runs l → ∀ y ∈ runs, ∀ a prev, MadeBy s y a prev → ¬RevokedIn .all (W a) (sha spki) c.serial)
    (hsure : ∀ runs, CarryAll slug runs l → ∀ y ∈ runs, ∀ a prev, MadeBy s y a prev → Covers (cov a) c.scts → KnownIn (W a) (sha spki) c.serial) :
    ∃ runs, CarryAll slug runs l ∧ (∀ f ∈ cards, ∃ y ∈ runs, ∃ a prev, MadeBy s y a prev ∧ f.coverage = cov a) ∧ (∀ y ∈ runs, ∃ a prev, MadeBy s y a prev ∧ ∃ f ∈ cards, f.coverage = cov a) ∧
      ∀ f ∈ cards, cardHas enrolls contains f (sha spki) c.serial c.scts = if c.scts.any (sctCovered f.coverage) then .good else .notCovered := by
  obtain ⟨x, runs, hx, hcar, hst⟩ := C81_runs s h slug hs l hl hc
  have hcard : ∀ y ∈ x :: runs, ∃ a prev out, MadeBy s y a prev ∧ createRun build contains order .all .all (prev.bind dec) (revokedDir (W a) (X a)) (knownDir (W a)) = some out ∧
      ∀ r, ∃ bytes, objGet s.bucket (fileOf y r) = some bytes ∧ (card bytes = some ⟨out.filter, cov a⟩ ∨ card bytes = some ⟨out.deltaFilter, cov a⟩) := by
    intro y hy
    obtain ⟨a, prev, out, hm, ho, ⟨b1, hb1, hc1⟩, ⟨b2, hb2, hc2⟩, _⟩ := run_out h hgen (steps_finished runs x hx hst y hy)
    refine ⟨a, prev, out, hm, ho, fun r => ?_⟩
    unfold fileOf
    split
    · exact ⟨b2, hb2, Or.inr hc2⟩
    · exact ⟨b1, hb1, Or.inl hc1⟩
  have hof : ∀ f ∈ cards, ∃ y ∈ x :: runs, ∃ a prev out, MadeBy s y a prev ∧ createRun build contains order .all .all (prev.bind dec) (revokedDir (W a) (X a)) (knownDir (W a)) = some out ∧
      (f = ⟨out.filter, cov a⟩ ∨ f = ⟨out.deltaFilter, cov a⟩) := by
    intro f hf
    obtain ⟨r, hrl, run, hcr, bytes, hb, hcd⟩ := (hcards f).1 hf
    obtain ⟨y, hy, hcy⟩ := (carryAll_mem (x :: runs) l hcar).2 r hrl
    have hry : run = y := attachment_unique hs (carries_attachment hcr) (carries_attachment hcy)
    subst hry
    obtain ⟨a, prev, out, hm, ho, hfile⟩ := hcard run hy
    obtain ⟨bytes', hb', hcd'⟩ := hfile r
    rw [hb, Option.some.injEq] at hb'
    rw [← hb', hcd, Option.some.injEq, Option.some.injEq] at hcd'
    exact ⟨run, hy, a, prev, out, hm, ho, hcd'⟩
  refine ⟨x :: runs, hcar, ?_, ?_, ?_⟩
  · intro f hf
    obtain ⟨y, hy, a, prev, out, hm, _, e⟩ := hof f hf
    refine ⟨y, hy, a, prev, hm, ?_⟩
    rcases e with rfl | rfl <;> rfl
  · intro y hy
    obtain ⟨a, prev, out, hm, _, hfile⟩ := hcard y hy
    obtain ⟨r, hrl, hcy⟩ := (carryAll_mem (x :: runs) l hcar).1 y hy
    obtain ⟨bytes, hb, hcd⟩ := hfile r
    refine ⟨a, prev, hm, ?_⟩
    rcases hcd with hcd | hcd
    · exact ⟨_, (hcards _).2 ⟨r, hrl, y, hcy, bytes, hb, hcd⟩, rfl⟩
    · exact ⟨_, (hcards _).2 ⟨r, hrl, y, hcy, bytes, hb, hcd⟩, rfl⟩
  · intro f hf
    obtain ⟨y, hy, a, prev, out, hm, ho, e⟩ := hof f hf
    have hfc : f.coverage = cov a := by rcases e with rfl | rfl <;> rfl
    unfold cardHas
    by_cases hcv : c.scts.any (sctCovered f.coverage) = true
    · rw [if_pos hcv, if_pos hcv]
      rw [hfc, covers_iff] at hcv
      have hk := hsure (x :: runs) hcar y hy a prev hm hcv
      have hnr := hr (x :: runs) hcar y hy a prev hm
      obtain ⟨a1, a2, a3, a4⟩ := out_answers he (hgen y a prev (steps_finished runs x hx hst y hy) hm).good ho hk
      rcases e with rfl | rfl
      · rw [if_pos a1, if_neg (fun h => hnr (a3.1 h))]
      · rw [if_pos a2, if_neg (fun h => hnr (a4.1 h).1)]
    · rw [if_neg hcv, if_neg hcv]

/-- **C82, Good.** Such a certificate, if it is valid now, is answered Good if a run of the chain covers one of its SCTs, and NotCovered if none does. -/
theorem C82_good (c : ClientCert) (spki : Bytes) (hlk : lookupSpki parse verifies inter c.issuerDN = some spki) (hv : c.valid = true)
    (hr : ∀ runs, CarryAll slug runs l → ∀ y ∈ runs, ∀ a prev, MadeBy s y a prev → ¬RevokedIn .all (W a) (sha spki) c.serial)
    (hsure : ∀ runs, CarryAll slug runs l → ∀ y ∈ runs, ∀ a prev, MadeBy s y a prev → Covers (cov a) c.scts → KnownIn (W a) (sha spki) c.serial) :
    ((∀ runs, CarryAll slug runs l → ∃ y ∈ runs, ∀ a prev, MadeBy s y a prev → Covers (cov a) c.scts) → clientQuery sha parse verifies (cardHas enrolls contains) cards inter c = .good) ∧
    ((∀ runs, CarryAll slug runs l → ∀ y ∈ runs, ∀ a prev, MadeBy s y a prev → ¬ Covers (cov a) c.scts) → clientQuery sha parse verifies (cardHas enrolls contains) cards inter c = .notCovered) := by
  obtain ⟨runs, hcar, hof, hhas, key⟩ := chain_answers dec card build contains enrolls he order W X cov sha s h hgen slug hs l hl hc cards hcards c spki hr hsure
  have hans := ((C63_answers sha parse verifies (cardHas enrolls contains) cards inter c).2 spki hlk).2 hv
  have nrev : ¬ ∃ f ∈ cards, cardHas enrolls contains f (sha spki) c.serial c.scts = .revoked := by
    rintro ⟨f, hf, hk⟩
    rw [key f hf] at hk
    split at hk <;> cases hk
  have nenr : ¬ ∃ f ∈ cards, cardHas enrolls contains f (sha spki) c.serial c.scts = .notEnrolled := by
    rintro ⟨f, hf, hk⟩
    rw [key f hf] at hk
    split at hk <;> cases hk
  rw [hans]
  unfold precedence
  rw [if_neg nrev]
  constructor
  · intro hcov
    obtain ⟨y, hy, hcv⟩ := hcov runs hcar
    obtain ⟨a, prev, hm, f, hf, hfc⟩ := hhas y hy
    rw [if_pos]
    refine ⟨f, hf, ?_⟩
    rw [key f hf, if_pos]
    rw [hfc, covers_iff]
    exact hcv a prev hm
  · intro hno
    rw [if_neg, if_neg nenr]
    rintro ⟨f, hf, hk⟩
    obtain ⟨y, hy, a, prev, hm, hfc⟩ := hof f hf
    rw [key f hf, if_neg] at hk
    · cases hk
    · rw [hfc, covers_iff]
      exact hno runs hcar y hy a prev hm

end

/-! #### an example: two generations, each followed by the publisher -/

/-- The files of the two runs: `[10]`, `[11]` are revocation sets, `[20]`, `[21]` full filters, `[30]`, `[31]` deltas. -/
def exDec (b : Bytes) : Option (List Bytes) := if b = [10] then some (exOut 0).revset else if b = [11] then some (exOut 1).revset else none

def exCard (b : Bytes) : Option (Card (List Bytes)) :=
  if b = [20] then some ⟨(exOut 0).filter, exCov 0⟩ else if b = [21] then some ⟨(exOut 1).filter, exCov 0⟩ else if b = [30] then some ⟨(exOut 0).deltaFilter, exCov 0⟩ else if b = [31] then some ⟨(exOut 1).deltaFilter, exCov 0⟩ else none

def exGroups (n : UInt8) : List (List WalkFile) := [[⟨["filter".toList], [20 + n], false⟩, ⟨["filter.delta".toList], [30 + n], false⟩, ⟨["revset.bin".toList], [10 + n], false⟩]]

def exGen0 : GenRun := ⟨"20240101-0".toList, [⟨["timestamp".toList], [1], false⟩, ⟨["ct-logs.json".toList], [2], false⟩], true, true, fun p => if p = none then some (exGroups 0) else none, fun _ => some [], 0⟩

def exGen1 : GenRun := ⟨"20240102-0".toList, [⟨["timestamp".toList], [2], false⟩, ⟨["ct-logs.json".toList], [2], false⟩], true, true, fun p => if p = some [10] then some (exGroups 1) else none, fun _ => some [], 0⟩

def exParseTime (b : Bytes) : Option Nat := b.head?.map UInt8.toNat

def exPublish : OpsEvent := .publish .now exPub "default".toList "clubcard-all".toList "filter.delta".toList exParseTime 100 false

theorem exGroups_revset (n : UInt8) : ∃ g ∈ exGroups n, ∃ f ∈ g, f.symlink = false ∧ f.path = ["revset.bin".toList] :=
  ⟨_, List.mem_singleton.2 rfl, ⟨["revset.bin".toList], [10 + n], false⟩, List.mem_cons_of_mem _ (List.mem_cons_of_mem _ List.mem_cons_self), rfl, rfl⟩

theorem exGen_names {p : List Text} (rest : List Text) (h : p = ["timestamp".toList] ∨ p = ["ct-logs.json".toList]) : p ≠ "clubcard-all".toList :: rest ∧ p ≠ "clubcard-priority".toList :: rest := by
  have h1 : "timestamp".toList ≠ "clubcard-all".toList := by decide +kernel
  have h2 : "timestamp".toList ≠ "clubcard-priority".toList := by decide +kernel
  have h3 : "ct-logs.json".toList ≠ "clubcard-all".toList := by decide +kernel
  have h4 : "ct-logs.json".toList ≠ "clubcard-priority".toList := by decide +kernel
  rcases h with h | h
  · rw [h]
    exact ⟨fun e => h1 (List.head_eq_of_cons_eq e), fun e => h2 (List.head_eq_of_cons_eq e)⟩
  · rw [h]
    exact ⟨fun e => h3 (List.head_eq_of_cons_eq e), fun e => h4 (List.head_eq_of_cons_eq e)⟩

theorem exGen0_apart : ∀ f ∈ exGen0.data, f.path ≠ ["completed".toList] := by decide +kernel

theorem exGen0_names : ∀ f ∈ exGen0.data, f.path = ["timestamp".toList] ∨ f.path = ["ct-logs.json".toList] := by decide +kernel

theorem exGen0_good : GoodGenRun exGen0 := by
  refine ⟨⟨_, List.mem_cons_self, rfl⟩, by decide, by decide, ?_, ?_⟩
  · intro prev prev' groups prio h1 h2
    have h1 : (if prev = none then some (exGroups 0) else none) = some groups := h1
    have h2 : some ([] : List WalkFile) = some prio := h2
    split at h1
    · cases h1
      cases h2
      exact ⟨by decide, by decide, by decide, by decide, fun f hf => ⟨exGen0_apart f hf, fun rest => exGen_names rest (exGen0_names f hf)⟩⟩
    · cases h1
  · intro prev groups h1 _
    have h1 : (if prev = none then some (exGroups 0) else none) = some groups := h1
    split at h1
    · cases h1
      exact exGroups_revset 0
    · cases h1

theorem exGen1_apart : ∀ f ∈ exGen1.data, f.path ≠ ["completed".toList] := by decide +kernel

theorem exGen1_names : ∀ f ∈ exGen1.data, f.path = ["timestamp".toList] ∨ f.path = ["ct-logs.json".toList] := by decide +kernel

theorem exGen1_good : GoodGenRun exGen1 := by
  refine ⟨⟨_, List.mem_cons_self, rfl⟩, by decide, by decide, ?_, ?_⟩
  · intro prev prev' groups prio h1 h2
    have h1 : (if prev = some [10] then some (exGroups 1) else none) = some groups := h1
    have h2 : some ([] : List WalkFile) = some prio := h2
    split at h1
    · cases h1
      cases h2
      exact ⟨by decide, by decide, by decide, by decide, fun f hf => ⟨exGen1_apart f hf, fun rest => exGen_names rest (exGen1_names f hf)⟩⟩
    · cases h1
  · intro prev groups h1 _
    have h1 : (if prev = some [10] then some (exGroups 1) else none) = some groups := h1
    split at h1
    · cases h1
      exact exGroups_revset 1
    · cases h1

theorem exPublish_good (s : Ops) : GoodEvent s exPublish := ⟨by show ∀ c ∈ "default".toList, c ≠ '-'; decide +kernel, exFresh_fresh⟩

theorem reach_writes (n : Nat) : ∀ s, OpsReach s → OpsReach ((List.replicate n OpsEvent.write).foldl Ops.step s) := by
  induction n with
  | zero => intro s h; exact h
  | succ n ih => intro s h; exact ih _ (OpsReach.step s .write h trivial)

theorem generate_good {s : Ops} {a : GenRun} (ha : GoodGenRun a) (today : Text) (hday : IsDate today) (hdirs : ∀ o ∈ s.bucket, digitsNat ((o.path.headD []).take 8) ≤ digitsNat today)
    (hnum : nextIdx today (dirsOf s.bucket) < 1000000) (hal : allocate today (dirsOf s.bucket) [] = some a.run) : GoodEvent s (.generate a) := by
  refine ⟨ha, today, [], hday, ?_, hnum, hal⟩
  rintro d n hd ⟨o, ho, x, rest, hp⟩
  have := hdirs o ho
  rw [hp, List.headD_cons] at this
  unfold runName at this
  rw [List.take_append_of_le_length (by rw [hd.1]; exact Nat.le_refl _), List.take_of_length_le (by rw [hd.1]; exact Nat.le_refl _)] at this
  exact this

/-- The first generation stops once before it has uploaded anything, so that its name is used again; then it uploads everything. -/
def exFirst : Ops := (List.replicate 9 OpsEvent.write).foldl Ops.step ((Ops.init.step (.generate exGen0)).step (.generate exGen0))

def exSecond : Ops := (List.replicate 9 OpsEvent.write).foldl Ops.step ((exFirst.step exPublish).step (.generate exGen1))

def exOpsState : Ops := exSecond.step exPublish

theorem exFirst_reach : OpsReach exFirst := by
  refine reach_writes 9 _ (OpsReach.step _ _ (OpsReach.step _ _ OpsReach.init ?_) ?_)
  · exact generate_good exGen0_good "20240101".toList ⟨by decide +kernel, by decide +kernel⟩ (fun o ho => (by cases ho)) (by decide +kernel) (by decide +kernel)
  · exact generate_good exGen0_good "20240101".toList ⟨by decide +kernel, by decide +kernel⟩ (fun o ho => (by cases ho)) (by decide +kernel) (by decide +kernel)

/-- The second publication of the example publishes a delta. -/
example : determinePublish (sortRecs (recordsOf "default".toList exSecond.recs)) (publishedDb .now (fun c => some c.length) "clubcard-all".toList "filter.delta".toList exSecond.bucket) 1000 = some (.deltas ["20240102-0".toList]) := by decide +kernel

/-- It does so too if it listed the runs after the first upload of the second generation and asked for `completed` after the last; and if it listed them before the second generation, there is nothing to do. -/
example : determinePublish (sortRecs (recordsOf "default".toList exSecond.recs)) (publishedDb { ReadAges.now with listing := 8 } exParseTime "clubcard-all".toList "filter.delta".toList exSecond.bucket) 100 = some (.deltas ["20240102-0".toList]) ∧
    determinePublish (sortRecs (recordsOf "default".toList exSecond.recs)) (publishedDb { ReadAges.now with listing := 9 } exParseTime "clubcard-all".toList "filter.delta".toList exSecond.bucket) 100 = some (.deltas []) := by decide +kernel

theorem exState_reach : OpsReach exOpsState := by
  refine OpsReach.step _ _ (reach_writes 9 _ (OpsReach.step _ _ (OpsReach.step _ _ exFirst_reach (exPublish_good _)) ?_)) (exPublish_good _)
  exact generate_good exGen1_good "20240102".toList ⟨by decide +kernel, by decide +kernel⟩ (by decide +kernel) (by decide +kernel) (by decide +kernel)

theorem writes_made (n : Nat) : ∀ s : Ops, ((List.replicate n OpsEvent.write).foldl Ops.step s).made = s.made := by
  induction n with
  | zero => intro s; rfl
  | succ n ih =>
    intro s
    have h1 := ih (s.step .write)
    have h2 : (s.step .write).made = s.made := by
      unfold Ops.step
      cases s.pending with
      | nil => rfl
      | cons o rest => rfl
    rw [h2] at h1
    exact h1

theorem exMade {y : Text} {a : GenRun} {prev : Option Bytes} (h : MadeBy exOpsState y a prev) : (y = "20240102-0".toList ∧ a = exGen1) ∨ (y = "20240101-0".toList ∧ a = exGen0) := by
  have hm := assocGet_mem h
  have h1 : exOpsState.made = ((exFirst.step exPublish).step (.generate exGen1)).made := writes_made 9 _
  have h2 : exFirst.made = ((Ops.init.step (.generate exGen0)).step (.generate exGen0)).made := writes_made 9 _
  rw [h1] at hm
  rcases List.mem_cons.1 hm with e | hm
  · rw [Prod.mk.injEq, Prod.mk.injEq] at e
    exact Or.inl ⟨e.1, e.2.1⟩
  · have hm : (y, a, prev) ∈ exFirst.made := hm
    rw [h2] at hm
    rcases List.mem_cons.1 hm with e | hm
    · rw [Prod.mk.injEq, Prod.mk.injEq] at e
      exact Or.inr ⟨e.1, e.2.1⟩
    · rcases List.mem_cons.1 hm with e | hm
      · rw [Prod.mk.injEq, Prod.mk.injEq] at e
        exact Or.inr ⟨e.1, e.2.1⟩
      · cases hm

def exInputOf (a : GenRun) : RunInput := if a.run = "20240101-0".toList then exW 0 else exW 1

theorem exInputOf_0 : exInputOf exGen0 = exW 0 := if_pos rfl

theorem exInputOf_1 : exInputOf exGen1 = exW 1 := if_neg (by decide +kernel)

theorem exGroups_file (n : UInt8) : ∀ g ∈ exGroups n, ∀ f ∈ g, f.symlink = false := by
  intro g hg f hf
  rw [List.mem_singleton.1 hg] at hf
  simp only [List.mem_cons, List.not_mem_nil, or_false] at hf
  rcases hf with rfl | rfl | rfl <;> rfl

theorem exGen0_generates : Generates exDec exCard exBuild exContains (fun l => l) exGen0 (exInputOf exGen0) [] (exCov 0) := by
  rw [exInputOf_0]
  refine ⟨exW_good 0, ?_⟩
  intro prev groups h1 _
  have h1 : (if prev = none then some (exGroups 0) else none) = some groups := h1
  split at h1
  · rename_i hp
    cases h1
    rw [hp]
    refine ⟨exOut 0, exChain.run0, ?_, ?_, ?_⟩
    · exact ⟨_, List.mem_singleton.2 rfl, ⟨["filter".toList], [20 + 0], false⟩, List.mem_cons_self, rfl, rfl, rfl⟩
    · exact ⟨_, List.mem_singleton.2 rfl, ⟨["filter.delta".toList], [30 + 0], false⟩, List.mem_cons_of_mem _ List.mem_cons_self, rfl, rfl, rfl⟩
    · exact ⟨_, List.mem_singleton.2 rfl, ⟨["revset.bin".toList], [10 + 0], false⟩, List.mem_cons_of_mem _ (List.mem_cons_of_mem _ List.mem_cons_self), rfl, rfl, (exOut 0).revset, rfl, fun k => Iff.rfl⟩
  · cases h1

theorem exGen1_generates : Generates exDec exCard exBuild exContains (fun l => l) exGen1 (exInputOf exGen1) [] (exCov 0) := by
  rw [exInputOf_1]
  refine ⟨exW_good 1, ?_⟩
  intro prev groups h1 _
  have h1 : (if prev = some [10] then some (exGroups 1) else none) = some groups := h1
  split at h1
  · rename_i hp
    cases h1
    rw [hp]
    refine ⟨exOut 1, exChain.run 0, ?_, ?_, ?_⟩
    · exact ⟨_, List.mem_singleton.2 rfl, ⟨["filter".toList], [20 + 1], false⟩, List.mem_cons_self, rfl, rfl, rfl⟩
    · exact ⟨_, List.mem_singleton.2 rfl, ⟨["filter.delta".toList], [30 + 1], false⟩, List.mem_cons_of_mem _ List.mem_cons_self, rfl, rfl, rfl⟩
    · exact ⟨_, List.mem_singleton.2 rfl, ⟨["revset.bin".toList], [10 + 1], false⟩, List.mem_cons_of_mem _ (List.mem_cons_of_mem _ List.mem_cons_self), rfl, rfl, (exOut 1).revset, rfl, fun k => Iff.rfl⟩
  · cases h1

theorem exState_recs : exOpsState.recs = [⟨some "i".toList, some false, none, some "20240101-0-default.filter".toList, exPub.nameOf 1 true, some "default".toList⟩,
    ⟨some "ii".toList, some true, some "i".toList, some "20240102-0-default.filter.delta".toList, exPub.nameOf 2 false, some "default".toList⟩] := by decide +kernel

def exRec0 : KRec := ⟨some "i".toList, some false, none, some "20240101-0-default.filter".toList, exPub.nameOf 1 true, some "default".toList⟩
def exRec1 : KRec := ⟨some "ii".toList, some true, some "i".toList, some "20240102-0-default.filter.delta".toList, exPub.nameOf 2 false, some "default".toList⟩

theorem exCarries0 : Carries "default".toList "20240101-0".toList exRec0 := Or.inl ⟨rfl, by decide +kernel⟩

theorem exCarries1 : Carries "default".toList "20240102-0".toList exRec1 := Or.inr ⟨rfl, by decide +kernel⟩

theorem exSlug : ∀ c ∈ "default".toList, c ≠ '-' := by decide +kernel

theorem exState_perm : [exRec0, exRec1].Perm (recordsOf "default".toList exOpsState.recs) := by
  have : recordsOf "default".toList exOpsState.recs = [exRec0, exRec1] := by decide +kernel
  rw [this]

theorem exState_chain : IsChain [exRec0, exRec1] := ⟨rfl, rfl, "i".toList, rfl, rfl, rfl, rfl, "ii".toList, rfl, trivial⟩

theorem exFile0 : objGet exOpsState.bucket (fileOf "20240101-0".toList exRec0) = some [20] := by decide +kernel

theorem exFile1 : objGet exOpsState.bucket (fileOf "20240102-0".toList exRec1) = some [31] := by decide +kernel

theorem exCard0 : exCard [20] = some ⟨(exOut 0).filter, exCov 0⟩ := rfl

theorem exCard1 : exCard [31] = some ⟨(exOut 1).deltaFilter, exCov 0⟩ := rfl

theorem exState_cards : ClientCards exCard exOpsState.bucket "default".toList [exRec0, exRec1] [⟨(exOut 0).filter, exCov 0⟩, ⟨(exOut 1).deltaFilter, exCov 0⟩] := by
  intro c
  constructor
  · intro hc
    rcases List.mem_cons.1 hc with rfl | hc
    · exact ⟨exRec0, List.mem_cons_self, _, exCarries0, _, exFile0, exCard0⟩
    · rw [List.mem_singleton.1 hc]
      exact ⟨exRec1, List.mem_cons_of_mem _ List.mem_cons_self, _, exCarries1, _, exFile1, exCard1⟩
  · rintro ⟨r, hr, run, hcar, bytes, hb, hcd⟩
    rcases List.mem_cons.1 hr with rfl | hr
    · rw [attachment_unique exSlug (carries_attachment hcar) (carries_attachment exCarries0), exFile0, Option.some.injEq] at hb
      rw [← hb, exCard0, Option.some.injEq] at hcd
      rw [← hcd]
      exact List.mem_cons_self
    · rw [List.mem_singleton.1 hr] at hcar hb
      rw [attachment_unique exSlug (carries_attachment hcar) (carries_attachment exCarries1), exFile1, Option.some.injEq] at hb
      rw [← hb, exCard1, Option.some.injEq] at hcd
      rw [← hcd]
      exact List.mem_cons_of_mem _ List.mem_cons_self

theorem exState_generates (y : Text) (a : GenRun) (prev : Option Bytes) (h : MadeBy exOpsState y a prev) : Generates exDec exCard exBuild exContains (fun l => l) a (exInputOf a) [] (exCov 0) := by
  rcases exMade h with ⟨_, rfl⟩ | ⟨_, rfl⟩
  · exact exGen1_generates
  · exact exGen0_generates

/-- The runs of the example chain. -/
theorem exState_runs (runs : List Text) (h : CarryAll "default".toList runs [exRec0, exRec1]) : runs = ["20240101-0".toList, "20240102-0".toList] := by
  cases runs with
  | nil => exact h.elim
  | cons x rest =>
    cases rest with
    | nil => exact h.2.elim
    | cons y rest =>
      cases rest with
      | nil => rw [attachment_unique exSlug (carries_attachment h.1) (carries_attachment exCarries0), attachment_unique exSlug (carries_attachment h.2.1) (carries_attachment exCarries1)]
      | cons z zs => exact h.2.2.elim

/-- The certificate with serial 2 is revoked in the second run: it is answered Revoked from the published filters. -/
example : clientQuery (fun _ => List.replicate 32 7) (fun d => some ⟨[9], d⟩) (fun _ => true) (cardHas exEnrolls exContains) [⟨(exOut 0).filter, exCov 0⟩, ⟨(exOut 1).deltaFilter, exCov 0⟩] exInter (exClientCert 500 [2]) = .revoked := by
  refine C82_revoked_partial exDec exCard exBuild exContains exEnrolls exEnrolls_input (fun l => l) exInputOf (fun _ => []) (fun _ => exCov 0) (fun _ => List.replicate 32 7) (fun d => some ⟨[9], d⟩) (fun _ => true) exInter exOpsState exState_reach
    (fun y a prev _ => exState_generates y a prev) "default".toList exSlug [exRec0, exRec1] exState_perm exState_chain _ exState_cards (exClientCert 500 [2]) [5] (by decide) rfl ?_ ?_
  · intro runs z hruns hz a prev hm
    rw [exState_runs runs hruns] at hz
    have hz : "20240102-0".toList = z := by simpa using hz
    subst hz
    rcases exMade hm with ⟨_, rfl⟩ | ⟨e, _⟩
    · rw [exInputOf_1]
      exact ⟨⟨_, List.mem_singleton.2 rfl, rfl, _, List.mem_singleton.2 rfl, by decide⟩, ⟨_, List.mem_singleton.2 rfl, rfl, _, rfl, 4, by decide, trivial⟩⟩
    · exact absurd e (by decide +kernel)
  · intro _ _ _ _ _ _ _ _ _
    exact ⟨([1], 500), List.mem_singleton.2 rfl, 0, 1000, if_pos rfl, by decide, by decide⟩

/-- The two runs follow each other, and the delta of the second was computed against the revocation set of the first. -/
theorem exState_next : Next exOpsState.bucket "20240101-0".toList "20240102-0".toList ∧ ∀ a prev, MadeBy exOpsState "20240102-0".toList a prev → prev = some [10] := by
  obtain ⟨x, runs, _, hcar, hst⟩ := C81_runs exOpsState exState_reach "default".toList exSlug _ exState_perm exState_chain
  have e := exState_runs _ hcar
  injection e with e1 e2
  subst e1 e2
  refine ⟨hst.1, fun a prev hm => ?_⟩
  have := C81_given exOpsState exState_reach _ _ hst.1 a prev hm
  rcases exMade hm with ⟨_, rfl⟩ | ⟨e, _⟩
  · rw [(this.1 rfl).1]
    decide +kernel
  · exact absurd e (by decide +kernel)

/-! A certificate with an SCT that no run covers. -/

theorem exUncovered : ¬ Covers (exCov 0) (exClientCert 1500 [3]).scts := by
  rintro ⟨t, ht, lo, hi, h1, h2, h3⟩
  rw [List.mem_singleton.1 ht] at h1 h3
  have h1 : some (0, 1000) = some (lo, hi) := h1
  cases h1
  exact absurd h3 (by decide)

theorem exState_unrevoked (runs : List Text) (_ : CarryAll "default".toList runs [exRec0, exRec1]) (y : Text) (_ : y ∈ runs) (a : GenRun) (prev : Option Bytes) (hm : MadeBy exOpsState y a prev) :
    ¬RevokedIn .all (exInputOf a) (List.replicate 32 7) (exClientCert 1500 [3]).serial := by
  rcases exMade hm with ⟨_, rfl⟩ | ⟨_, rfl⟩
  · rw [exInputOf_1]
    rintro ⟨i, hi, _, l, hl, c, hc, _⟩
    rw [List.mem_singleton.1 hi] at hl
    cases hl
    revert hc
    simp [exClientCert]
  · rw [exInputOf_0]
    rintro ⟨i, hi, _, l, hl, c, hc, _⟩
    rw [List.mem_singleton.1 hi] at hl
    cases hl
    revert hc
    simp [exClientCert]

example : clientQuery (fun _ => List.replicate 32 7) (fun d => some ⟨[9], d⟩) (fun _ => true) (cardHas exEnrolls exContains) [⟨(exOut 0).filter, exCov 0⟩, ⟨(exOut 1).deltaFilter, exCov 0⟩] exInter (exClientCert 1500 [3]) ≠ .revoked :=
  C82_not_revoked exDec exCard exBuild exContains exEnrolls exEnrolls_input (fun l => l) exInputOf (fun _ => []) (fun _ => exCov 0) (fun _ => List.replicate 32 7) (fun d => some ⟨[9], d⟩) (fun _ => true) exInter exOpsState exState_reach
    (fun y a prev _ => exState_generates y a prev) "default".toList exSlug [exRec0, exRec1] exState_perm exState_chain _ exState_cards (exClientCert 1500 [3]) [5] (by decide) exState_unrevoked (fun _ _ _ _ _ _ _ h => absurd h exUncovered)

/-- It is answered NotCovered. (An example for Good is in Props/System.lean.) -/
example : clientQuery (fun _ => List.replicate 32 7) (fun d => some ⟨[9], d⟩) (fun _ => true) (cardHas exEnrolls exContains) [⟨(exOut 0).filter, exCov 0⟩, ⟨(exOut 1).deltaFilter, exCov 0⟩] exInter (exClientCert 1500 [3]) = .notCovered :=
  (C82_good exDec exCard exBuild exContains exEnrolls exEnrolls_input (fun l => l) exInputOf (fun _ => []) (fun _ => exCov 0) (fun _ => List.replicate 32 7) (fun d => some ⟨[9], d⟩) (fun _ => true) exInter exOpsState exState_reach
    (fun y a prev _ => exState_generates y a prev) "default".toList exSlug [exRec0, exRec1] exState_perm exState_chain _ exState_cards (exClientCert 1500 [3]) [5] (by decide) rfl exState_unrevoked (fun _ _ _ _ _ _ _ h => absurd h exUncovered)).2
    (fun _ _ _ _ _ _ _ => exUncovered)

/-! ### each theorem applied -/

example := C81_files exOpsState exState_reach "20240102-0".toList exState_next.1.2.1
example := C81_deltas_present .now (fun c => some c.length) "clubcard-all".toList "filter.delta".toList exSecond.bucket (sortRecs (recordsOf "default".toList exSecond.recs)) 1000 ["20240102-0".toList] (by decide +kernel)
  "20240102-0".toList List.mem_cons_self

end Verif.Props
