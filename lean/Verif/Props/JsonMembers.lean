import Verif.Props.Json
/-!
C103: members that the programs do not know.
-/
namespace Verif.Spec

/-- The letters A to Z in lower case. -/
def inLower (c : Char) : Char := if 'A' ≤ c ∧ c ≤ 'Z' then Char.ofNat (c.toNat + 32) else c

/-- A name that differs from all of these in more than case. -/
def Foreign (names : List Text) (n : Text) : Prop := ∀ k ∈ names, k.map inLower ≠ n.map inLower

/-- The same list of objects, one of which has a further member of this name. -/
def Further (n : Text) (a b : JVal) : Prop := ∃ pre post ms ms' v, a = .arr (pre ++ .obj (ms ++ ms') :: post) ∧ b = .arr (pre ++ .obj (ms ++ (n, v) :: ms') :: post)

end Verif.Spec

namespace Verif.Props
open Verif.Spec

theorem lowerChar_eq : lowerChar = inLower := by
  funext c
  have h1 : 'A' ≤ c ↔ 65 ≤ c.toNat := by rw [Char.le_def, UInt32.le_iff_toNat_le]; rfl
  have h2 : c ≤ 'Z' ↔ c.toNat ≤ 90 := by rw [Char.le_def, UInt32.le_iff_toNat_le]; rfl
  unfold lowerChar inLower
  by_cases h : 65 ≤ c.toNat ∧ c.toNat ≤ 90
  · rw [if_pos h, if_pos ⟨h1.2 h.1, h2.2 h.2⟩]
  · rw [if_neg h, if_neg (fun h' => h ⟨h1.1 h'.1, h2.1 h'.2⟩)]

theorem fieldFor_foreign {names : List Text} {n : Text} (h : Foreign names n) : fieldFor names n = none := by
  unfold fieldFor
  rw [if_neg (fun hm => h n hm rfl)]
  rw [lowerChar_eq]
  exact List.find?_eq_none.2 (fun k hk => by simpa using h k hk)

theorem setAll_foreign {S : Type} {set : S → Text × JVal → Option S} {m : Text × JVal} (hm : ∀ s, set s m = some s) (ms ms' : List (Text × JVal)) : ∀ s, setAll set s (ms ++ m :: ms') = setAll set s (ms ++ ms') := by
  induction ms with
  | nil =>
    intro s
    show (match set s m with | some s1 => setAll set s1 ms' | none => none) = _
    rw [hm]
    rfl
  | cons x rest ih =>
    intro s
    show (match set s x with | some s1 => setAll set s1 (rest ++ m :: ms') | none => none) = (match set s x with | some s1 => setAll set s1 (rest ++ ms') | none => none)
    cases set s x with
    | none => rfl
    | some s1 => exact ih s1

theorem mapM_replace {α β : Type} (g : α → Option β) {a b : α} (h : g a = g b) (pre post : List α) : (pre ++ a :: post).mapM g = (pre ++ b :: post).mapM g := by
  rw [List.mapM_append, List.mapM_append, List.mapM_cons, List.mapM_cons, h]

theorem logSet_foreign (rt : Text → Option (Int × Nat)) {n : Text} (h : Foreign logNames n) (v : JVal) (s : LogRead) : LogRead.set rt s (n, v) = some s := by
  unfold LogRead.set
  rw [fieldFor_foreign h]

theorem issuerSet_foreign {n : Text} (h : Foreign issuerNames n) (v : JVal) (s : IssuerRead) : IssuerRead.set s (n, v) = some s := by
  unfold IssuerRead.set
  rw [fieldFor_foreign h]

theorem serdeField_foreign {n k : Text} (h : n ≠ k) (ms ms' : List (Text × JVal)) (v : JVal) : serdeField (ms ++ (n, v) :: ms') k = serdeField (ms ++ ms') k := by
  unfold serdeField
  have e : (ms ++ (n, v) :: ms').filter (fun m => decide (m.1 = k)) = (ms ++ ms').filter (fun m => decide (m.1 = k)) := by
    rw [List.filter_append, List.filter_append, List.filter_cons_of_neg (by simpa using h)]
  rw [e]

theorem dictGet_foreign {n k : Text} (h : n ≠ k) (ms ms' : List (Text × JVal)) (v : JVal) : dictGet (ms ++ (n, v) :: ms') k = dictGet (ms ++ ms') k := by
  unfold dictGet
  have e : (ms ++ (n, v) :: ms').reverse = ms'.reverse ++ (n, v) :: ms.reverse := by simp
  have e2 : (ms ++ ms').reverse = ms'.reverse ++ ms.reverse := by simp
  rw [e, e2, List.find?_append, List.find?_append, List.find?_cons_of_neg (by simpa using h)]

/-- **C103, further members.** If the entries get further members, of names that are not in use, all programs read what they read before. -/
theorem C103_further (R : Readers) (t t' : Text) (a b : JVal) (n : Text) (ha : R.json t = some a) (hb : R.json t' = some b) (hf : Further n a b) :
    (Foreign ["LogID".toList, "MMD".toList, "ShortURL".toList, "MinEntry".toList, "MaxEntry".toList, "MinTimestamp".toList, "MaxTimestamp".toList, "LastUpdateTime".toList] n → readStates R t' = readStates R t) ∧
    (Foreign ["uniqueID".toList, "pubKeyHash".toList, "subject".toList, "pem".toList, "usesPartitionedCrls".toList] n → readIssuers R t' = readIssuers R t) ∧
    (n ≠ "uniqueID".toList → n ≠ "pem".toList → readRecords R t' = readRecords R t) ∧
    (n ∉ ["pem".toList, "attachment".toList, "pubKeyHash".toList, "derHash".toList, "subject".toList, "id".toList] → pyEntries R t' = pyEntries R t) := by
  obtain ⟨pre, post, ms, ms', v, rfl, rfl⟩ := hf
  unfold readStates readIssuers readRecords pyEntries
  rw [ha, hb]
  refine ⟨fun h => ?_, fun h => ?_, fun h1 h2 => ?_, fun h => ?_⟩
  · exact mapM_replace (asStruct (LogRead.set R.time) LogRead.zero) (a := .obj (ms ++ (n, v) :: ms')) (b := .obj (ms ++ ms')) (setAll_foreign (logSet_foreign R.time h v) ms ms' _) pre post
  · exact mapM_replace (asStruct IssuerRead.set ⟨[], [], [], [], false⟩) (a := .obj (ms ++ (n, v) :: ms')) (b := .obj (ms ++ ms')) (setAll_foreign (issuerSet_foreign h v) ms ms' _) pre post
  · refine mapM_replace asRecord ?_ pre post
    unfold asRecord
    dsimp only
    rw [serdeField_foreign h1, serdeField_foreign h2]
  · refine mapM_replace pyEntry ?_ pre post
    have hne : ∀ k ∈ ["pem".toList, "attachment".toList, "pubKeyHash".toList, "derHash".toList, "subject".toList, "id".toList], dictGet (ms ++ (n, v) :: ms') k = dictGet (ms ++ ms') k :=
      fun k hk => dictGet_foreign (fun e => h (by rw [e]; exact hk)) ms ms' v
    unfold pyEntry
    dsimp only
    rw [hne _ (by simp), hne _ (by simp), hne _ (by simp), hne _ (by simp), hne _ (by simp), hne _ (by simp)]

/-- A reader that knows two texts. -/
def exMemberReaders : Readers :=
  { json := fun t => if t = ['a'] then some (.arr [.obj [("uniqueID".toList, .str ['u']), ("pem".toList, .str ['p'])]]) else
      if t = ['b'] then some (.arr [.obj [("uniqueID".toList, .str ['u']), ("color".toList, .str ['x']), ("pem".toList, .str ['p'])]]) else none,
    time := fun _ => none }

example : readIssuers exMemberReaders ['a'] = some [⟨['u'], [], [], ['p'], false⟩] ∧ readRecords exMemberReaders ['a'] = some [(['u'], ['p'])] := by decide +kernel

example : readIssuers exMemberReaders ['b'] = readIssuers exMemberReaders ['a'] :=
  (C103_further exMemberReaders ['a'] ['b'] _ _ "color".toList rfl rfl ⟨[], [], [("uniqueID".toList, .str ['u'])], [("pem".toList, .str ['p'])], .str ['x'], rfl, rfl⟩).2.1 (by unfold Foreign; decide +kernel)

end Verif.Props
