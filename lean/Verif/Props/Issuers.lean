import Verif.Model.Issuers
import Verif.Props.Download
/-!
Properties C51 to C54, C78 and C79: CRL URLs, issuers, settings.
-/
namespace Verif.Props

/-! ### maps -/

theorem assocGet_put_self {β : Type} (m : List (Text × β)) (k : Text) (v : β) : assocGet (assocPut m k v) k = some v := by
  induction m with
  | nil => simp [assocPut, assocGet]
  | cons e rest ih =>
    unfold assocPut
    split
    · simp [assocGet]
    · rename_i h
      unfold assocGet at ih ⊢
      rw [List.find?_cons_of_neg (by simpa using h)]
      exact ih

theorem assocGet_put_ne {β : Type} (m : List (Text × β)) (k j : Text) (v : β) (h : j ≠ k) : assocGet (assocPut m k v) j = assocGet m j := by
  induction m with
  | nil => simp [assocPut, assocGet, Ne.symm h]
  | cons e rest ih =>
    unfold assocPut
    split
    · rename_i he
      unfold assocGet
      rw [List.find?_cons_of_neg (by simpa using Ne.symm h), List.find?_cons_of_neg (by rw [he]; simpa using Ne.symm h)]
    · unfold assocGet at ih ⊢
      by_cases hj : e.1 = j
      · rw [List.find?_cons_of_pos (by simpa using hj), List.find?_cons_of_pos (by simpa using hj)]
      · rw [List.find?_cons_of_neg (by simpa using hj), List.find?_cons_of_neg (by simpa using hj)]
        exact ih

theorem mem_foldl_setInsert (l : List Text) (x : Text) : ∀ s, x ∈ l.foldl setInsert s ↔ x ∈ s ∨ x ∈ l := by
  induction l with
  | nil => intro s; simp
  | cons y ys ih =>
    intro s
    rw [List.foldl_cons, ih]
    unfold setInsert
    by_cases hc : s.contains y = true
    · rw [if_pos hc]
      have : y ∈ s := by simpa using hc
      constructor
      · rintro (h | h)
        · exact Or.inl h
        · exact Or.inr (by simp [h])
      · rintro (h | h)
        · exact Or.inl h
        · rcases List.mem_cons.1 h with rfl | h
          · exact Or.inl this
          · exact Or.inr h
    · rw [if_neg hc]
      rw [List.mem_append, List.mem_singleton, List.mem_cons]
      exact or_assoc

/-! ### C51: merging -/

/-- Specification: the map has the URL `u` for issuer `i`. -/
def HasUrl (m : IssuerCrlMap) (i u : Text) : Prop := ∃ s, assocGet m i = some s ∧ u ∈ s

/-- Specification: the map has an entry for issuer `i`. -/
def HasIssuer (m : IssuerCrlMap) (i : Text) : Prop := ∃ s, assocGet m i = some s

/-- Specification: two maps are equal, as maps from issuers to sets. -/
def SameMap (a b : IssuerCrlMap) : Prop := (∀ i, HasIssuer a i ↔ HasIssuer b i) ∧ ∀ i u, HasUrl a i u ↔ HasUrl b i u

theorem hasUrl_mergeOne (m : IssuerCrlMap) (e : Text × List Text) (i u : Text) :
    HasUrl (mergeOne m e) i u ↔ HasUrl m i u ∨ (e.1 = i ∧ u ∈ e.2) := by
  unfold HasUrl mergeOne
  by_cases h : i = e.1
  · subst h
    rw [assocGet_put_self]
    constructor
    · rintro ⟨s, hs, hu⟩
      rw [← Option.some.inj hs, mem_foldl_setInsert] at hu
      rcases hu with hu | hu
      · cases hg : assocGet m e.1 with
        | none => rw [hg] at hu; cases hu
        | some s' => rw [hg] at hu; exact Or.inl ⟨s', rfl, hu⟩
      · exact Or.inr ⟨rfl, hu⟩
    · rintro (⟨s, hs, hu⟩ | ⟨_, hu⟩)
      · refine ⟨_, rfl, ?_⟩
        rw [mem_foldl_setInsert, hs]
        exact Or.inl hu
      · refine ⟨_, rfl, ?_⟩
        rw [mem_foldl_setInsert]
        exact Or.inr hu
  · rw [assocGet_put_ne _ _ _ _ h]
    constructor
    · exact Or.inl
    · rintro (h' | ⟨h', _⟩)
      · exact h'
      · exact absurd h'.symm h

theorem hasIssuer_mergeOne (m : IssuerCrlMap) (e : Text × List Text) (i : Text) : HasIssuer (mergeOne m e) i ↔ HasIssuer m i ∨ e.1 = i := by
  unfold HasIssuer mergeOne
  by_cases h : i = e.1
  · subst h
    rw [assocGet_put_self]
    exact ⟨fun _ => Or.inr rfl, fun _ => ⟨_, rfl⟩⟩
  · rw [assocGet_put_ne _ _ _ _ h]
    exact ⟨Or.inl, fun h' => h'.elim id (fun e => absurd e.symm h)⟩

theorem assocGet_mem {β : Type} {m : List (Text × β)} {i : Text} {v : β} (h : assocGet m i = some v) : (i, v) ∈ m := by
  unfold assocGet at h
  obtain ⟨e, he, hv⟩ := Option.map_eq_some_iff.1 h
  have h1 := List.find?_some he
  have h2 := List.mem_of_find?_eq_some he
  have : e.1 = i := by simpa using h1
  rw [← this, ← hv]
  exact h2

theorem assocGet_of_mem {β : Type} {m : List (Text × β)} (hn : (m.map Prod.fst).Nodup) {i : Text} {v : β} (h : (i, v) ∈ m) : assocGet m i = some v := by
  induction m with
  | nil => cases h
  | cons e rest ih =>
    rw [List.map_cons, List.nodup_cons] at hn
    rcases List.mem_cons.1 h with rfl | h
    · simp [assocGet]
    · have hne : e.1 ≠ i := fun he => hn.1 (he ▸ List.mem_map.2 ⟨(i, v), h, rfl⟩)
      unfold assocGet at ih ⊢
      rw [List.find?_cons_of_neg (by simpa using hne)]
      exact ih hn.2 h

theorem hasUrl_merge_raw (b : IssuerCrlMap) (i u : Text) : ∀ a, HasUrl (crlMerge a b) i u ↔ HasUrl a i u ∨ ∃ e ∈ b, e.1 = i ∧ u ∈ e.2 := by
  induction b with
  | nil => intro a; simp [crlMerge]
  | cons e rest ih =>
    intro a
    have := ih (mergeOne a e)
    unfold crlMerge at this ⊢
    rw [List.foldl_cons, this, hasUrl_mergeOne]
    simp only [List.mem_cons]
    constructor
    · rintro ((h | h) | ⟨x, hx, h⟩)
      · exact Or.inl h
      · exact Or.inr ⟨e, Or.inl rfl, h⟩
      · exact Or.inr ⟨x, Or.inr hx, h⟩
    · rintro (h | ⟨x, rfl | hx, h⟩)
      · exact Or.inl (Or.inl h)
      · exact Or.inl (Or.inr h)
      · exact Or.inr ⟨x, hx, h⟩

theorem hasIssuer_merge_raw (b : IssuerCrlMap) (i : Text) : ∀ a, HasIssuer (crlMerge a b) i ↔ HasIssuer a i ∨ ∃ e ∈ b, e.1 = i := by
  induction b with
  | nil => intro a; simp [crlMerge]
  | cons e rest ih =>
    intro a
    have := ih (mergeOne a e)
    unfold crlMerge at this ⊢
    rw [List.foldl_cons, this, hasIssuer_mergeOne]
    simp only [List.mem_cons]
    constructor
    · rintro ((h | h) | ⟨x, hx, h⟩)
      · exact Or.inl h
      · exact Or.inr ⟨e, Or.inl rfl, h⟩
      · exact Or.inr ⟨x, Or.inr hx, h⟩
    · rintro (h | ⟨x, rfl | hx, h⟩)
      · exact Or.inl (Or.inl h)
      · exact Or.inl (Or.inr h)
      · exact Or.inr ⟨x, hx, h⟩

/-- The keys of a map. -/
theorem hasIssuer_iff_mem {m : IssuerCrlMap} (hn : (m.map Prod.fst).Nodup) (i : Text) : HasIssuer m i ↔ ∃ e ∈ m, e.1 = i := by
  constructor
  · rintro ⟨s, hs⟩; exact ⟨(i, s), assocGet_mem hs, rfl⟩
  · rintro ⟨e, he, rfl⟩; exact ⟨e.2, assocGet_of_mem hn he⟩

theorem hasUrl_iff_mem {m : IssuerCrlMap} (hn : (m.map Prod.fst).Nodup) (i u : Text) : HasUrl m i u ↔ ∃ e ∈ m, e.1 = i ∧ u ∈ e.2 := by
  constructor
  · rintro ⟨s, hs, hu⟩; exact ⟨(i, s), assocGet_mem hs, rfl, hu⟩
  · rintro ⟨e, he, rfl, hu⟩; exact ⟨e.2, assocGet_of_mem hn he, hu⟩

/-- **C51.** Merging gives for each issuer the union of the URLs; no URL and no issuer is dropped and none is added. -/
theorem C51_union (a b : IssuerCrlMap) (hb : (b.map Prod.fst).Nodup) (i u : Text) :
    (HasUrl (crlMerge a b) i u ↔ HasUrl a i u ∨ HasUrl b i u) ∧ (HasIssuer (crlMerge a b) i ↔ HasIssuer a i ∨ HasIssuer b i) := by
  rw [hasUrl_merge_raw, hasIssuer_merge_raw, hasUrl_iff_mem hb, hasIssuer_iff_mem hb]
  exact ⟨Iff.rfl, Iff.rfl⟩

theorem keys_assocPut {β : Type} (m : List (Text × β)) (k : Text) (v : β) (hn : (m.map Prod.fst).Nodup) : ((assocPut m k v).map Prod.fst).Nodup := by
  have hkeys : ∀ m : List (Text × β), ∀ x, x ∈ (assocPut m k v).map Prod.fst ↔ x ∈ m.map Prod.fst ∨ x = k := by
    intro m
    induction m with
    | nil => intro x; simp [assocPut]
    | cons e rest ih =>
      intro x
      unfold assocPut
      split
      · rename_i h
        rw [List.map_cons, List.map_cons, List.mem_cons, List.mem_cons, h]
        constructor
        · rintro (h1 | h1)
          · exact Or.inr h1
          · exact Or.inl (Or.inr h1)
        · rintro ((h1 | h1) | h1)
          · exact Or.inl h1
          · exact Or.inr h1
          · exact Or.inl h1
      · rw [List.map_cons, List.map_cons, List.mem_cons, List.mem_cons, ih]
        exact or_assoc.symm
  induction m with
  | nil => simp [assocPut]
  | cons e rest ih =>
    rw [List.map_cons, List.nodup_cons] at hn
    unfold assocPut
    split
    · rename_i h
      rw [List.map_cons, List.nodup_cons]
      exact ⟨by rw [← h]; exact hn.1, hn.2⟩
    · rename_i h
      rw [List.map_cons, List.nodup_cons]
      refine ⟨?_, ih hn.2⟩
      rw [hkeys]
      rintro (h1 | h1)
      · exact hn.1 h1
      · exact h h1

/-- The result is again a map. -/
theorem C51_keys (a b : IssuerCrlMap) (ha : (a.map Prod.fst).Nodup) : ((crlMerge a b).map Prod.fst).Nodup := by
  induction b generalizing a with
  | nil => exact ha
  | cons e rest ih => exact ih _ (keys_assocPut _ _ _ ha)

/-- **C51.** Merging is commutative, associative and idempotent. -/
theorem C51_laws (a b c : IssuerCrlMap) (ha : (a.map Prod.fst).Nodup) (hb : (b.map Prod.fst).Nodup) (hc : (c.map Prod.fst).Nodup) :
    SameMap (crlMerge a b) (crlMerge b a) ∧ SameMap (crlMerge (crlMerge a b) c) (crlMerge a (crlMerge b c)) ∧ SameMap (crlMerge a a) a := by
  have hbc := C51_keys b c hb
  refine ⟨⟨fun i => ?_, fun i u => ?_⟩, ⟨fun i => ?_, fun i u => ?_⟩, ⟨fun i => ?_, fun i u => ?_⟩⟩
  · rw [(C51_union a b hb i []).2, (C51_union b a ha i []).2]; exact or_comm
  · rw [(C51_union a b hb i u).1, (C51_union b a ha i u).1]; exact or_comm
  · rw [(C51_union _ c hc i []).2, (C51_union a b hb i []).2, (C51_union a _ hbc i []).2, (C51_union b c hc i []).2]; exact or_assoc
  · rw [(C51_union _ c hc i u).1, (C51_union a b hb i u).1, (C51_union a _ hbc i u).1, (C51_union b c hc i u).1]; exact or_assoc
  · rw [(C51_union a a ha i []).2]; exact or_self_iff
  · rw [(C51_union a a ha i u).1]; exact or_self_iff

example : crlMerge [(['a'], [['x']])] [(['b'], [['y']]), (['a'], [['x'], ['z']])] = [(['a'], [['x'], ['z']]), (['b'], [['y']])] ∧
    (([(['b'], [['y']]), (['a'], [['x'], ['z']])] : IssuerCrlMap).map Prod.fst).Nodup := by decide

/-! ### C52: the URLs of a record -/

theorem dropWhile_all {p : Char → Bool} {x : Text} (hx : ∀ c ∈ x, p c = true) (t : Text) : (x ++ t).dropWhile p = t.dropWhile p := by
  induction x with
  | nil => rfl
  | cons c cs ih =>
    rw [List.cons_append, List.dropWhile_cons, if_pos (hx c (by simp))]
    exact ih (fun d hd => hx d (by simp [hd]))

/-- The text neither begins nor ends with a character of `p`, and is not empty. -/
def CleanEdges (p : Char → Bool) (t : Text) : Prop := (∃ c r, t = c :: r ∧ p c = false) ∧ ∃ r c, t = r ++ [c] ∧ p c = false

theorem trimBoth_clean {p : Char → Bool} {x core y : Text} (hx : ∀ c ∈ x, p c = true) (hy : ∀ c ∈ y, p c = true) (hc : CleanEdges p core) :
    trimBoth p (x ++ (core ++ y)) = core := by
  obtain ⟨⟨c, r, h1, h2⟩, ⟨r', c', h3, h4⟩⟩ := hc
  unfold trimBoth
  rw [dropWhile_all hx, h1, List.cons_append, List.dropWhile_cons, if_neg (by simp [h2]), ← List.cons_append, ← h1, List.reverse_append,
    dropWhile_all (by intro d hd; exact hy d (List.mem_reverse.1 hd)), h3, List.reverse_append]
  simp [h4]

theorem trimBoth_nil_of_all {p : Char → Bool} {x : Text} (hx : ∀ c ∈ x, p c = true) : trimBoth p x = [] := by
  unfold trimBoth
  have := dropWhile_all hx []
  rw [List.append_nil] at this
  rw [this]
  rfl

/-- Pieces joined by commas. -/
def joinComma : List Text → Text
  | [] => []
  | [p] => p
  | p :: q :: ps => p ++ ',' :: joinComma (q :: ps)

theorem splitComma_append {p : Text} (hp : ',' ∉ p) (t : Text) : splitComma (p ++ ',' :: t) = p :: splitComma t := by
  induction p with
  | nil => simp [splitComma]
  | cons c cs ih =>
    have hc : c ≠ ',' := fun e => hp (by simp [e])
    rw [List.cons_append, splitComma, if_neg hc, ih (fun h => hp (by simp [h]))]

theorem splitComma_single {p : Text} (hp : ',' ∉ p) : splitComma p = [p] := by
  induction p with
  | nil => rfl
  | cons c cs ih =>
    have hc : c ≠ ',' := fun e => hp (by simp [e])
    rw [splitComma, if_neg hc, ih (fun h => hp (by simp [h]))]

theorem splitComma_join (ps : List Text) (hne : ps ≠ []) (h : ∀ p ∈ ps, ',' ∉ p) : splitComma (joinComma ps) = ps := by
  induction ps with
  | nil => exact absurd rfl hne
  | cons p rest ih =>
    cases rest with
    | nil => exact splitComma_single (h p (by simp))
    | cons q qs =>
      rw [joinComma, splitComma_append (h p (by simp)), ih (by simp) (fun x hx => h x (by simp [hx]))]

theorem join_first {q : Char → Bool} (p : Text) (ps : List Text) (h : ∃ c r, p = c :: r ∧ q c = false) : ∃ c r, joinComma (p :: ps) = c :: r ∧ q c = false := by
  obtain ⟨c, r, h1, h2⟩ := h
  cases ps with
  | nil => exact ⟨c, r, h1, h2⟩
  | cons p' ps' => exact ⟨c, r ++ ',' :: joinComma (p' :: ps'), by rw [joinComma, h1, List.cons_append], h2⟩

theorem join_last {q : Char → Bool} (ps : List Text) (hne : ps ≠ []) (h : ∀ p ∈ ps, ∃ r c, p = r ++ [c] ∧ q c = false) : ∃ r c, joinComma ps = r ++ [c] ∧ q c = false := by
  induction ps with
  | nil => exact absurd rfl hne
  | cons p rest ih =>
    cases rest with
    | nil => exact h p (by simp)
    | cons p' ps' =>
      obtain ⟨r, c, h1, h2⟩ := ih (by simp) (fun x hx => h x (by simp [hx]))
      exact ⟨p ++ ',' :: r, c, by rw [joinComma, h1]; simp, h2⟩

/-- A JSON array of strings as CCADB has it: white space before and after each string, and around the array. -/
def renderArray (pre : Text) (els : List (Text × Text × Text)) (post : Text) : Text :=
  pre ++ (('[' :: joinComma (els.map (fun e => e.1 ++ ('"' :: (e.2.1 ++ '"' :: e.2.2)))) ++ [']']) ++ post)

/-- What is assumed of the elements: white space around, and a URL that is not empty and has no quotes and no commas. -/
def PlainElement (sp : Char → Bool) (e : Text × Text × Text) : Prop :=
  (∀ c ∈ e.1, sp c = true) ∧ (∀ c ∈ e.2.2, sp c = true) ∧ e.2.1 ≠ [] ∧ '"' ∉ e.2.1 ∧ ',' ∉ e.2.1

theorem cleanEdges_of_notMem {q : Char} {u : Text} (hne : u ≠ []) (h : q ∉ u) : CleanEdges (fun c => c == q) u := by
  refine ⟨?_, ?_⟩
  · cases u with
    | nil => exact absurd rfl hne
    | cons c r => exact ⟨c, r, rfl, by simpa using fun (e : c = q) => h (by simp [e])⟩
  · refine ⟨u.dropLast, u.getLast hne, (List.dropLast_concat_getLast hne).symm, ?_⟩
    have hm := List.getLast_mem hne
    have : u.getLast hne ≠ q := fun e => h (e ▸ hm)
    simpa using this

theorem unquote_plain {sp : Char → Bool} (hq : sp '"' = false) {e : Text × Text × Text} (he : PlainElement sp e) :
    unquote sp (e.1 ++ ('"' :: (e.2.1 ++ '"' :: e.2.2))) = e.2.1 := by
  obtain ⟨h1, h2, h3, h4, h5⟩ := he
  unfold unquote
  have e1 : e.1 ++ ('"' :: (e.2.1 ++ '"' :: e.2.2)) = e.1 ++ (('"' :: e.2.1 ++ ['"']) ++ e.2.2) := by simp
  rw [e1, trimBoth_clean (core := '"' :: e.2.1 ++ ['"']) h1 h2 ⟨⟨'"', e.2.1 ++ ['"'], rfl, hq⟩, ⟨'"' :: e.2.1, '"', rfl, hq⟩⟩]
  have e2 : '"' :: e.2.1 ++ ['"'] = ['"'] ++ (e.2.1 ++ ['"']) := by simp
  rw [e2, trimBoth_clean (by simp) (by simp) (cleanEdges_of_notMem h3 h4)]

theorem jsonPieces_render (sp : Char → Bool) (hq : sp '"' = false) (hl : sp '[' = false) (hr : sp ']' = false) (hcm : sp ',' = false)
    (pre post : Text) (hpre : ∀ c ∈ pre, sp c = true) (hpost : ∀ c ∈ post, sp c = true) (els : List (Text × Text × Text)) (hels : ∀ e ∈ els, PlainElement sp e) :
    jsonPieces sp (renderArray pre els post) = els.map (fun e => e.2.1) := by
  unfold jsonPieces renderArray
  rw [trimBoth_clean (core := '[' :: joinComma (els.map (fun e => e.1 ++ ('"' :: (e.2.1 ++ '"' :: e.2.2)))) ++ [']']) hpre hpost ⟨⟨'[', _, rfl, hl⟩, ⟨_, ']', rfl, hr⟩⟩]
  by_cases hne : els = []
  · subst hne
    rw [trimBoth_nil_of_all (by simp [joinComma])]
    rfl
  · have hspace : ∀ c, sp c = true → (c == '[' || c == ']') = false := by
      intro c hc
      rw [Bool.or_eq_false_iff]
      refine ⟨?_, ?_⟩
      · simpa using fun (e : c = '[') => by rw [e, hl] at hc; cases hc
      · simpa using fun (e : c = ']') => by rw [e, hr] at hc; cases hc
    have hedges : CleanEdges (fun c => c == '[' || c == ']') (joinComma (els.map (fun e => e.1 ++ ('"' :: (e.2.1 ++ '"' :: e.2.2))))) := by
      refine ⟨?_, ?_⟩
      · cases els with
        | nil => exact absurd rfl hne
        | cons e rest =>
          rw [List.map_cons]
          refine join_first _ _ ?_
          obtain ⟨h1, _⟩ := hels e (by simp)
          cases hp : e.1 with
          | nil => exact ⟨'"', _, rfl, by decide⟩
          | cons c r =>
            rw [List.cons_append]
            exact ⟨c, _, rfl, hspace c (h1 c (by rw [hp]; simp))⟩
      · refine join_last _ (by simpa using hne) ?_
        intro p hp
        obtain ⟨e, he, rfl⟩ := List.mem_map.1 hp
        obtain ⟨_, h2, _⟩ := hels e he
        by_cases hp' : e.2.2 = []
        · rw [hp']
          exact ⟨e.1 ++ '"' :: e.2.1, '"', by simp, by decide⟩
        · refine ⟨e.1 ++ '"' :: (e.2.1 ++ '"' :: e.2.2.dropLast), e.2.2.getLast hp', ?_, hspace _ (h2 _ (List.getLast_mem hp'))⟩
          have := List.dropLast_concat_getLast hp'
          simp [this]
    have e1 : ∀ t : Text, '[' :: t ++ [']'] = ['['] ++ (t ++ [']']) := fun t => by simp
    rw [e1, trimBoth_clean (by simp) (by simp) hedges, splitComma_join _ (by simpa using hne), List.map_map]
    · have : els.map (unquote sp ∘ fun e => e.1 ++ ('"' :: (e.2.1 ++ '"' :: e.2.2))) = els.map (fun e => e.2.1) :=
        List.map_congr_left (fun e he => unquote_plain hq (hels e he))
      rw [this, List.filter_eq_self]
      intro p hp
      obtain ⟨e, he, rfl⟩ := List.mem_map.1 hp
      simpa using (hels e he).2.2.1
    · intro p hp hm
      obtain ⟨e, he, rfl⟩ := List.mem_map.1 hp
      obtain ⟨h1, h2, _, _, h5⟩ := hels e he
      simp only [List.mem_append, List.mem_cons] at hm
      have hns : ∀ t : Text, (∀ c ∈ t, sp c = true) → ',' ∉ t := fun t ht hm => by rw [ht ',' hm] at hcm; cases hcm
      rcases hm with hm | hm | hm | hm | hm
      · exact hns _ h1 hm
      · cases hm
      · exact h5 hm
      · cases hm
      · exact hns _ h2 hm

/-- Specification: the text is a URL with scheme http or https, and `v` is its canonical text. -/
def HttpUrl (parse : UrlParse) (t v : Text) : Prop := ∃ scheme, parse t = some (scheme, v) ∧ (scheme = "http".toList ∨ scheme = "https".toList)

theorem mem_acceptUrl (parse : UrlParse) (t v : Text) : v ∈ acceptUrl parse t ↔ HttpUrl parse t v := by
  unfold acceptUrl HttpUrl
  cases h : parse t with
  | none => simp
  | some x =>
    obtain ⟨scheme, s⟩ := x
    dsimp only
    split
    · rename_i hs
      constructor
      · intro hv
        rw [List.mem_singleton] at hv
        exact ⟨scheme, by rw [hv], hs⟩
      · rintro ⟨sch, e, _⟩
        cases e
        simp
    · rename_i hs
      constructor
      · intro hv; cases hv
      · rintro ⟨sch, e, he⟩
        cases e
        exact absurd he hs

/-- **C52 (URLs without commas).** The URLs taken from a record are exactly the http(s) ones among the full CRL and the elements of the JSON array; and the issuer counts as using partitioned CRLs iff the array
has an element. `sp` is `unicode.IsSpace`, `parse` is `url.Parse`. Missing: URLs with commas, which are split (`C52_comma_fails`). -/
theorem C52_exact_partial (sp : Char → Bool) (hq : sp '"' = false) (hl : sp '[' = false) (hr : sp ']' = false) (hcm : sp ',' = false) (parse : UrlParse)
    (full : Text) (a b : Text) (ha : ∀ c ∈ a, sp c = true) (hb : ∀ c ∈ b, sp c = true)
    (hfull : full = [] ∨ (CleanEdges sp full ∧ CleanEdges (fun c => c == '"') full))
    (pre post : Text) (hpre : ∀ c ∈ pre, sp c = true) (hpost : ∀ c ∈ post, sp c = true) (els : List (Text × Text × Text)) (hels : ∀ e ∈ els, PlainElement sp e) :
    (∀ v, v ∈ (decodeCrls sp parse (a ++ (full ++ b)) (renderArray pre els post)).1 ↔
      (full ≠ [] ∧ HttpUrl parse full v) ∨ ∃ e ∈ els, HttpUrl parse e.2.1 v) ∧
    ((decodeCrls sp parse (a ++ (full ++ b)) (renderArray pre els post)).2 = true ↔ els ≠ []) := by
  have hun : unquote sp (a ++ (full ++ b)) = full := by
    unfold unquote
    rcases hfull with rfl | ⟨h1, h2⟩
    · rw [List.nil_append, trimBoth_nil_of_all (p := sp) (by
        intro c hc
        rcases List.mem_append.1 hc with h | h
        · exact ha c h
        · exact hb c h)]
      rfl
    · rw [trimBoth_clean ha hb h1]
      have := trimBoth_clean (x := []) (y := []) (p := fun c => c == '"') (by simp) (by simp) h2
      simpa using this
  unfold decodeCrls
  rw [hun, jsonPieces_render sp hq hl hr hcm pre post hpre hpost els hels]
  refine ⟨fun v => ?_, by simp⟩
  dsimp only
  rw [List.mem_append]
  refine or_congr ?_ ?_
  · by_cases hf : full = []
    · simp [hf]
    · rw [if_pos hf, mem_acceptUrl]
      exact ⟨fun h => ⟨hf, h⟩, fun h => h.2⟩
  · rw [List.mem_flatten]
    constructor
    · rintro ⟨l, hl', hv⟩
      rw [List.map_map] at hl'
      obtain ⟨e, he, rfl⟩ := List.mem_map.1 hl'
      exact ⟨e, he, (mem_acceptUrl parse _ v).1 hv⟩
    · rintro ⟨e, he, hv⟩
      refine ⟨acceptUrl parse e.2.1, ?_, (mem_acceptUrl parse _ v).2 hv⟩
      rw [List.map_map]
      exact List.mem_map.2 ⟨e, he, rfl⟩

/-- A simple stand-in for `url.Parse`: whatever begins with "http:" or "ldap:". -/
def exParse : UrlParse := fun t =>
  if "http:".toList.isPrefixOf t then some ("http".toList, t) else if "ldap:".toList.isPrefixOf t then some ("ldap".toList, t) else none

def exSpace (c : Char) : Bool := c == ' ' || c == '\n'

example : renderArray [] [([], "http:a".toList, []), ([' '], "ldap:b".toList, []), ([' '], "http:c".toList, [])] ['\n'] = "[\"http:a\", \"ldap:b\", \"http:c\"]\n".toList ∧
    decodeCrls exSpace exParse " \"http:d\"".toList "[\"http:a\", \"ldap:b\", \"http:c\"]\n".toList = (["http:d".toList, "http:a".toList, "http:c".toList], true) := by decide +kernel

/-- **C52 fails for a URL with a comma**, which is legal in a URL: the array is split in the middle of the URL, and a URL that was not listed is used instead of the listed one. -/
theorem C52_comma_fails :
    decodeCrls exSpace exParse [] "[\"http://h/a,b.crl\"]".toList = (["http://h/a".toList], true) ∧
    HttpUrl exParse "http://h/a,b.crl".toList "http://h/a,b.crl".toList ∧ renderArray [] [([], "http://h/a,b.crl".toList, [])] [] = "[\"http://h/a,b.crl\"]".toList := by
  refine ⟨by decide +kernel, ⟨"http".toList, by decide +kernel, Or.inl rfl⟩, by decide⟩

/-! #### several certificates -/

theorem insert_crls (m : MozIssuers) (c : IssCert) (urls : List Text) (p : Bool) : (m.insert c urls p).crls = mergeOne m.crls (c.issuer, urls) := rfl

/-- **C52.** Several certificates of one issuer contribute the union of their URLs, in whatever order they are inserted. -/
theorem C52_union (l : List (IssCert × List Text × Bool)) (i u : Text) :
    HasUrl (MozIssuers.empty.insertAll l).crls i u ↔ ∃ e ∈ l, e.1.issuer = i ∧ u ∈ e.2.1 := by
  have key : ∀ (l : List (IssCert × List Text × Bool)) (m : MozIssuers), HasUrl (m.insertAll l).crls i u ↔ HasUrl m.crls i u ∨ ∃ e ∈ l, e.1.issuer = i ∧ u ∈ e.2.1 := by
    intro l
    induction l with
    | nil => intro m; simp [MozIssuers.insertAll]
    | cons e rest ih =>
      intro m
      have := ih (m.insert e.1 e.2.1 e.2.2)
      unfold MozIssuers.insertAll at this ⊢
      rw [List.foldl_cons, this, insert_crls, hasUrl_mergeOne]
      simp only [List.mem_cons]
      constructor
      · rintro ((h | h) | ⟨x, hx, h⟩)
        · exact Or.inl h
        · exact Or.inr ⟨e, Or.inl rfl, h⟩
        · exact Or.inr ⟨x, Or.inr hx, h⟩
      · rintro (h | ⟨x, rfl | hx, h⟩)
        · exact Or.inl (Or.inl h)
        · exact Or.inl (Or.inr h)
        · exact Or.inr ⟨x, hx, h⟩
  rw [key l MozIssuers.empty]
  constructor
  · rintro (⟨s, h, _⟩ | h)
    · simp [MozIssuers.empty, assocGet] at h
    · exact h
  · exact Or.inr

/-- **C52 fails for the partition flag.** It is the one of the certificate that happens to be inserted first: the same two certificates give different answers in different orders (and Go's map iteration is in
random order). -/
theorem C52_partition_order_fails :
    let x : IssCert × List Text × Bool := (⟨['i'], ['1'], 0⟩, [], false)
    let y : IssCert × List Text × Bool := (⟨['i'], ['2'], 1⟩, [['u'], ['v']], true)
    ((assocGet (MozIssuers.empty.insertAll [x, y]).issuers ['i']).map IssuerData.partitioned) = some false ∧
    ((assocGet (MozIssuers.empty.insertAll [y, x]).issuers ['i']).map IssuerData.partitioned) = some true := by decide

example : HasUrl (MozIssuers.empty.insertAll [(⟨['i'], ['1'], 0⟩, [['u']], false), (⟨['i'], ['2'], 1⟩, [['v']], true)]).crls ['i'] ['v'] := by
  rw [C52_union]
  exact ⟨_, List.mem_cons_of_mem _ (List.mem_singleton.2 rfl), rfl, by simp⟩

/-! ### C53: the saved list -/

/-- A map of issuers as `InsertIssuer` makes them. -/
def GoodIssuers (l : List (Text × IssuerData)) : Prop := (l.map Prod.fst).Nodup ∧ ∀ e ∈ l, e.2.certs ≠ [] ∧ ∀ c ∈ e.2.certs, c.issuer = e.1

theorem mem_assocPut {β : Type} {m : List (Text × β)} {k : Text} {v : β} {e : Text × β} (h : e ∈ assocPut m k v) : e = (k, v) ∨ e ∈ m := by
  induction m with
  | nil => simpa [assocPut] using h
  | cons x rest ih =>
    unfold assocPut at h
    split at h
    · rcases List.mem_cons.1 h with h | h
      · exact Or.inl h
      · exact Or.inr (by simp [h])
    · rcases List.mem_cons.1 h with h | h
      · exact Or.inr (by simp [h])
      · rcases ih h with h | h
        · exact Or.inl h
        · exact Or.inr (by simp [h])

theorem goodIssuers_insert (m : MozIssuers) (c : IssCert) (urls : List Text) (p : Bool) (h : GoodIssuers m.issuers) : GoodIssuers (m.insert c urls p).issuers := by
  unfold MozIssuers.insert
  dsimp only
  split
  · rename_i v hv
    refine ⟨keys_assocPut _ _ _ h.1, ?_⟩
    intro e he
    rcases mem_assocPut he with rfl | he
    · refine ⟨by simp, ?_⟩
      intro d hd
      rcases List.mem_append.1 hd with hd | hd
      · exact (h.2 _ (assocGet_mem hv)).2 d hd
      · rw [List.mem_singleton.1 hd]
    · exact h.2 e he
  · refine ⟨keys_assocPut _ _ _ h.1, ?_⟩
    intro e he
    rcases mem_assocPut he with rfl | he
    · exact ⟨by simp, by simp⟩
    · exact h.2 e he

theorem goodIssuers_insertAll (l : List (IssCert × List Text × Bool)) : ∀ m : MozIssuers, GoodIssuers m.issuers → GoodIssuers (m.insertAll l).issuers := by
  induction l with
  | nil => intro m h; exact h
  | cons e rest ih => intro m h; exact ih _ (goodIssuers_insert m e.1 e.2.1 e.2.2 h)

theorem loadRecords_append (unpem : Text → Option IssCert) (a b : List EnrolledIssuer) : ∀ m, loadRecords unpem (a ++ b) m = (loadRecords unpem a m).bind (loadRecords unpem b) := by
  induction a with
  | nil => intro m; rfl
  | cons r rest ih =>
    intro m
    rw [List.cons_append]
    unfold loadRecords
    cases unpem r.pem with
    | none => rfl
    | some c => exact ih _

theorem assocPut_new {β : Type} (m : List (Text × β)) (k : Text) (v : β) (h : k ∉ m.map Prod.fst) : assocPut m k v = m ++ [(k, v)] := by
  induction m with
  | nil => rfl
  | cons e rest ih =>
    unfold assocPut
    rw [if_neg (fun he => h (by simp [he])), ih (fun hm => h (by simp only [List.map_cons, List.mem_cons]; exact Or.inr hm))]
    rfl

theorem assocPut_last {β : Type} (m : List (Text × β)) (k : Text) (v w : β) (h : k ∉ m.map Prod.fst) : assocPut (m ++ [(k, v)]) k w = m ++ [(k, w)] := by
  induction m with
  | nil => simp [assocPut]
  | cons e rest ih =>
    rw [List.cons_append, assocPut, if_neg (fun he => h (by simp [he])), ih (fun hm => h (by simp only [List.map_cons, List.mem_cons]; exact Or.inr hm))]
    rfl

theorem assocGet_last {β : Type} (m : List (Text × β)) (k : Text) (v : β) (h : k ∉ m.map Prod.fst) : assocGet (m ++ [(k, v)]) k = some v := by
  have := assocGet_put_self m k v
  rwa [assocPut_new m k v h] at this

theorem assocGet_none {β : Type} (m : List (Text × β)) (k : Text) (h : k ∉ m.map Prod.fst) : assocGet m k = none := by
  cases hg : assocGet m k with
  | none => rfl
  | some v => exact absurd (List.mem_map.2 ⟨(k, v), assocGet_mem hg, rfl⟩) h

theorem load_one_issuer (pem : IssCert → Text) (unpem : Text → Option IssCert) (hpem : ∀ c, unpem (pem c) = some c) (i : Text) (p : Bool) (cs : List IssCert) :
    ∀ (m : MozIssuers) (ds : List IssCert) (done : List (Text × IssuerData)), i ∉ done.map Prod.fst → m.issuers = done ++ [(i, ⟨ds, p⟩)] → (∀ c ∈ cs, c.issuer = i) →
      ∃ m', loadRecords unpem (cs.map (fun c => { pem := pem c, partitioned := p })) m = some m' ∧ m'.issuers = done ++ [(i, ⟨ds ++ cs, p⟩)] := by
  induction cs with
  | nil => intro m ds done _ hm _; exact ⟨m, rfl, by rw [List.append_nil]; exact hm⟩
  | cons c rest ih =>
    intro m ds done hi hm hc
    rw [List.map_cons]
    unfold loadRecords
    dsimp only
    rw [hpem]
    dsimp only
    have hci := hc c (by simp)
    have hins : (m.insert c [] p).issuers = done ++ [(i, ⟨ds ++ [c], p⟩)] := by
      unfold MozIssuers.insert
      dsimp only
      rw [hci, hm, assocGet_last _ _ _ hi]
      dsimp only
      rw [assocPut_last _ _ _ _ hi]
    obtain ⟨m', h1, h2⟩ := ih (m.insert c [] p) (ds ++ [c]) done hi hins (fun d hd => hc d (by simp [hd]))
    exact ⟨m', h1, by rw [h2]; simp⟩

theorem load_saved (pem : IssCert → Text) (unpem : Text → Option IssCert) (hpem : ∀ c, unpem (pem c) = some c) (l : List (Text × IssuerData)) :
    ∀ (m : MozIssuers), GoodIssuers (m.issuers ++ l) →
      ∃ m', loadRecords unpem ((l.map (fun e => e.2.certs.map (fun c => ({ pem := pem c, partitioned := e.2.partitioned } : EnrolledIssuer)))).flatten) m = some m' ∧ m'.issuers = m.issuers ++ l := by
  induction l with
  | nil => intro m _; exact ⟨m, rfl, by simp⟩
  | cons e rest ih =>
    intro m hg
    obtain ⟨i, ⟨cs, p⟩⟩ := e
    have hi : i ∉ m.issuers.map Prod.fst := by
      intro hm
      have := hg.1
      rw [List.map_append, List.nodup_append] at this
      exact this.2.2 i hm i (by simp) rfl
    obtain ⟨hne, hcs⟩ := hg.2 (i, ⟨cs, p⟩) (by simp)
    dsimp only at hne hcs
    rw [List.map_cons, List.flatten_cons, loadRecords_append]
    dsimp only
    cases cs with
    | nil => exact absurd rfl hne
    | cons c cs' =>
      have hci := hcs c (by simp)
      have hins : (m.insert c [] p).issuers = m.issuers ++ [(i, ⟨[c], p⟩)] := by
        unfold MozIssuers.insert
        dsimp only
        rw [hci, assocGet_none _ _ hi]
        dsimp only
        rw [assocPut_new _ _ _ hi]
      obtain ⟨m1, h1, h2⟩ := load_one_issuer pem unpem hpem i p cs' (m.insert c [] p) [c] m.issuers hi hins (fun d hd => hcs d (by simp [hd]))
      have h1' : loadRecords unpem ((c :: cs').map (fun c => ({ pem := pem c, partitioned := p } : EnrolledIssuer))) m = some m1 := by
        rw [List.map_cons]
        unfold loadRecords
        dsimp only
        rw [hpem]
        exact h1
      rw [h1']
      obtain ⟨m', h3, h4⟩ := ih m1 (by rw [h2]; simpa using hg)
      refine ⟨m', h3, ?_⟩
      rw [h4, h2]
      simp

/-- **C53.** The list saved by aggregate-crls and loaded by aggregate-known gives back the same issuers, with the same certificates and flags, in whatever order the map was iterated: an issuer is in the program
afterwards iff it was before. `pem` and `unpem` are PEM encoding and decoding. -/
theorem C53_round_trip (pem : IssCert → Text) (unpem : Text → Option IssCert) (hpem : ∀ c, unpem (pem c) = some c) (inserted : List (IssCert × List Text × Bool)) :
    ∃ m', loadRecords unpem (savedRecords pem (MozIssuers.empty.insertAll inserted)) MozIssuers.empty = some m' ∧
      m'.issuers = (MozIssuers.empty.insertAll inserted).issuers ∧
      ∀ i, m'.inProgram i = true ↔ ∃ e ∈ inserted, e.1.issuer = i := by
  have hg : GoodIssuers (MozIssuers.empty.insertAll inserted).issuers := goodIssuers_insertAll inserted _ ⟨by simp [MozIssuers.empty], by simp [MozIssuers.empty]⟩
  obtain ⟨m', h1, h2⟩ := load_saved pem unpem hpem (MozIssuers.empty.insertAll inserted).issuers MozIssuers.empty (by simpa [MozIssuers.empty] using hg)
  have h2 : m'.issuers = (MozIssuers.empty.insertAll inserted).issuers := h2
  refine ⟨m', h1, h2, ?_⟩
  intro i
  unfold MozIssuers.inProgram
  rw [h2]
  have key : ∀ (l : List (IssCert × List Text × Bool)) (m : MozIssuers),
      ((assocGet (m.insertAll l).issuers i).isSome = true ↔ (assocGet m.issuers i).isSome = true ∨ ∃ e ∈ l, e.1.issuer = i) := by
    intro l
    induction l with
    | nil => intro m; simp [MozIssuers.insertAll]
    | cons e rest ih =>
      intro m
      have hstep : (assocGet (m.insert e.1 e.2.1 e.2.2).issuers i).isSome = true ↔ (assocGet m.issuers i).isSome = true ∨ e.1.issuer = i := by
        unfold MozIssuers.insert
        dsimp only
        by_cases he : i = e.1.issuer
        · subst he
          split <;> simp [assocGet_put_self]
        · split
          · rw [assocGet_put_ne _ _ _ _ he]; simp [Ne.symm he]
          · rw [assocGet_put_ne _ _ _ _ he]; simp [Ne.symm he]
      have := ih (m.insert e.1 e.2.1 e.2.2)
      unfold MozIssuers.insertAll at this ⊢
      rw [List.foldl_cons, this, hstep]
      simp only [List.mem_cons]
      constructor
      · rintro ((h | h) | ⟨x, hx, h⟩)
        · exact Or.inl h
        · exact Or.inr ⟨e, Or.inl rfl, h⟩
        · exact Or.inr ⟨x, Or.inr hx, h⟩
      · rintro (h | ⟨x, rfl | hx, h⟩)
        · exact Or.inl (Or.inl h)
        · exact Or.inl (Or.inr h)
        · exact Or.inr ⟨x, hx, h⟩
  rw [key inserted MozIssuers.empty]
  simp [MozIssuers.empty, assocGet]

/-- There are such encodings, and there are lists with several certificates. -/
example : ∃ (pem : IssCert → Text) (unpem : Text → Option IssCert), unpem (pem ⟨['i'], ['1'], 0⟩) = some ⟨['i'], ['1'], 0⟩ ∧
    ((loadRecords unpem (savedRecords pem (MozIssuers.empty.insertAll [(⟨['i'], ['1'], 0⟩, [['u']], true), (⟨['i'], ['1'], 0⟩, [], false)])) MozIssuers.empty).map (fun m => m.issuers)) =
      some [(['i'], ⟨[⟨['i'], ['1'], 0⟩, ⟨['i'], ['1'], 0⟩], true⟩)] :=
  ⟨fun _ => [], fun _ => some ⟨['i'], ['1'], 0⟩, by decide⟩

/-- **C53 (saving).** If success is reported, the file was opened and closed without error, and unless the encoder failed unnoticed it holds the records of all issuers; without opening, the old file stays. -/
theorem C53_saving (pem : IssCert → Text) (m : MozIssuers) (opens encodes closes : Bool) (old : Option (List EnrolledIssuer)) :
    ((saveIssuersList pem m opens encodes closes old).2 = true → opens = true ∧ closes = true ∧ (encodes = true → (saveIssuersList pem m opens encodes closes old).1 = some (savedRecords pem m))) ∧
    (opens = false → saveIssuersList pem m opens encodes closes old = (old, false)) := by
  cases opens <;> cases encodes <;> cases closes <;> simp [saveIssuersList]

example : (saveIssuersList (fun _ => []) MozIssuers.empty true true true none).2 = true ∧ (saveIssuersList (fun _ => []) MozIssuers.empty true true false none).2 = false := ⟨rfl, rfl⟩

/-- **C53 fails on a write error**: `SaveIssuersList` returns nil although the JSON text is incomplete. -/
theorem C53_encode_error_fails (pem : IssCert → Text) (m : MozIssuers) (old : Option (List EnrolledIssuer)) :
    saveIssuersList pem m true false true old = (none, true) := rfl

/-! ### C54: settings -/

/-- **C54.** A number or flag: the value in the environment if it parses, else the one in the file if it parses, else the default. -/
theorem C54_parsed {α : Type} (pe pf : Text → Option α) (env file : Option Text) (dflt v : α) :
    confParsed pe pf env file dflt = v ↔
      (∃ t, env = some t ∧ pe t = some v) ∨
      ((∀ t, env = some t → pe t = none) ∧ ((∃ t, file = some t ∧ pf t = some v) ∨ ((∀ t, file = some t → pf t = none) ∧ v = dflt))) := by
  have hb : ∀ (o : Option Text) (p : Text → Option α), (o.bind p = none ↔ ∀ t, o = some t → p t = none) := by
    intro o p
    cases o <;> simp
  have hs : ∀ (o : Option Text) (p : Text → Option α) (w : α), (o.bind p = some w ↔ ∃ t, o = some t ∧ p t = some w) := by
    intro o p w
    cases o <;> simp
  rw [← hs, ← hb, ← hs, ← hb]
  unfold confParsed
  cases env.bind pe with
  | some w => simp
  | none =>
    cases file.bind pf with
    | some w => simp
    | none => simp [eq_comm]

/-- **C54.** A text: the value in the environment if set, even if empty, else the one in the file if not empty, else the default. -/
theorem C54_string (env file : Option Text) (dflt v : Text) :
    confString env file dflt = v ↔ env = some v ∨ (env = none ∧ ((file = some v ∧ v ≠ []) ∨ ((file = none ∨ file = some []) ∧ v = dflt))) := by
  unfold confString
  cases env with
  | some w => simp
  | none =>
    cases file with
    | none => simp [eq_comm]
    | some w =>
      cases w with
      | nil => simp [eq_comm]
      | cons c r =>
        simp only [List.length_cons, Nat.zero_lt_succ, gt_iff_lt, if_true, reduceCtorEq, false_or, true_and, Option.some.injEq, false_and, or_false]
        constructor
        · rintro rfl; exact ⟨rfl, by simp⟩
        · rintro ⟨h, _⟩; exact h

/-- **C54.** The batch size given on the command line overrides all; zero counts as not given. -/
theorem C54_batch_size (pe pf : Text → Option Nat) (env file : Option Text) (flag : Nat) :
    (0 < flag → confBatchSize pe pf env file flag = flag) ∧ (flag = 0 → confBatchSize pe pf env file flag = confParsed pe pf env file 4096) := by
  unfold confBatchSize
  exact ⟨fun h => if_pos h, fun h => if_neg (by omega)⟩

example : confParsed (fun t => if t = ['1'] then some 1 else none) (fun t => if t = ['2'] then some 2 else none) (some ['x']) (some ['2']) 3 = 2 ∧
    confString (some []) (some ['f']) ['d'] = [] ∧ confString none (some []) ['d'] = ['d'] := by decide

/-! ### C78: the report is complete -/

/-- **C78 (downloads).** If there is no local copy, or one that does not load, or one from twelve hours ago or earlier, then issuers are only loaded from the server's complete report, provided that the local copy is
a beginning of it (of any length). Missing: a younger local copy that is only the beginning of the report, left by an earlier run (`C78_truncated_fails`). -/
theorem C78_download_partial {α : Type} (load : Bytes → Option α) (content : Bytes) (attempts : Nat → DlAttempt) (now : Int) (file : Option LocalFile)
    (hold : ∀ f, file = some f → load f.data = none ∨ f.mtime + 12 ≤ now) (hp : PrefixFile content file)
    (hs : ∀ i ≤ 3, HonestDl content (fileBefore attempts file i) (attempts i)) (a : α) (h : (loadReport load attempts now file).2 = some a) :
    load content = some a := by
  have hdl : (if (downloadFileSync attempts (fun _ => false) 3 file).1 = .ok then
      ((downloadFileSync attempts (fun _ => false) 3 file).2.1, match (downloadFileSync attempts (fun _ => false) 3 file).2.1 with | some f => load f.data | none => none)
      else ((downloadFileSync attempts (fun _ => false) 3 file).2.1, none)).2 = some a := by
    unfold loadReport at h
    dsimp only at h
    cases hf : file with
    | none => rw [hf] at h; exact h
    | some f =>
      rw [hf] at h
      dsimp only at h
      cases hl : load f.data with
      | none => rw [hl] at h; exact h
      | some b =>
        rw [hl] at h
        dsimp only at h
        rcases hold f hf with hn | hn
        · rw [hl] at hn; cases hn
        · rw [if_neg (by omega)] at h
          exact h
  split at hdl
  · rename_i hok
    obtain ⟨f, h1, h2⟩ := C49_resume content attempts (fun _ => false) 3 file hp hs hok
    rw [h1] at hdl
    dsimp only at hdl
    rw [← h2]
    exact hdl
  · cases hdl

/-- A local copy less than twelve hours old that loads is used, and nothing is downloaded. -/
theorem C78_recent {α : Type} (load : Bytes → Option α) (attempts : Nat → DlAttempt) (now : Int) (f : LocalFile) (a : α) (hl : load f.data = some a) (hn : now < f.mtime + 12) :
    loadReport load attempts now (some f) = (some f, some a) := by
  unfold loadReport
  dsimp only
  rw [hl]
  dsimp only
  rw [if_pos (by omega)]

/-- A copy of twelve hours, the beginning of the new report: the rest is downloaded. -/
example :
    let at1 : Nat → DlAttempt := fun _ => ⟨some ⟨some 90, some 4, true⟩, .partial206 [3, 4] true (some 90), true, false, 100⟩
    (loadReport (fun b => some b) at1 112 (some ⟨[1, 2], 100⟩)).2 = some [1, 2, 3, 4] ∧ (loadReport (fun b => some b) at1 111 (some ⟨[1, 2], 100⟩)).2 = some [1, 2] := by decide

/-- **C78 fails.** Each byte is a row of the report here. A first run fails: all four attempts break off after two rows. The two rows stay in the report's file. A run one hour later finds a file that loads and
is less than 12 hours old, and uses these two rows, without an error. -/
theorem C78_truncated_fails :
    let cut : Nat → DlAttempt := fun _ => ⟨none, .ok200 [1, 2] false (some 0), true, false, 100⟩
    let first := loadReport (fun b => some b) cut 100 (some ⟨[1, 2, 3], 0⟩)
    let second := loadReport (fun b => some b) cut 101 first.1
    first.2 = none ∧ second.2 = some [1, 2] ∧
    ∀ i, HonestDl [1, 2, 3, 4] (some ⟨[1, 2, 3], 0⟩) (cut i) := by
  refine ⟨by decide, by decide, fun i => ⟨(fun h e => by cases e), ⟨⟨[3, 4], rfl⟩, (fun h => by cases h)⟩⟩⟩

/-! ### C79: what is loaded -/

/-- Specification: the report has the certificate as not revoked, or says nothing. -/
def Spec.NotRevoked (r : CcadbRow) : Prop := r.revoked = [] ∨ r.revoked = "Not Revoked".toList

theorem notRevoked_iff (r : CcadbRow) : notRevoked r = true ↔ Spec.NotRevoked r := by
  unfold notRevoked Spec.NotRevoked
  rw [decide_eq_true_iff]
  exact Or.comm

theorem usableRow_iff (r : CcadbRow) (c : IssCert) : usableRow r = some c ↔ r.short = false ∧ Spec.NotRevoked r ∧ r.cert = some c := by
  rw [← notRevoked_iff]
  unfold usableRow
  cases r.short <;> cases notRevoked r <;> simp

/-- The pool of roots used for chain building. -/
theorem C79_root_pool (rows : List CcadbRow) (c : IssCert) : c ∈ rootPool rows ↔
    ∃ r ∈ rows, r.short = false ∧ Spec.NotRevoked r ∧ r.cert = some c ∧ r.kind = "Root Certificate".toList := by
  induction rows with
  | nil => simp [rootPool]
  | cons r rest ih =>
    have hrest : (∃ q ∈ r :: rest, q.short = false ∧ Spec.NotRevoked q ∧ q.cert = some c ∧ q.kind = "Root Certificate".toList) ↔
        (usableRow r = some c ∧ r.kind = "Root Certificate".toList) ∨ c ∈ rootPool rest := by
      rw [ih, usableRow_iff]
      constructor
      · rintro ⟨q, hq, h1, h2, h3, h4⟩
        rcases List.mem_cons.1 hq with rfl | hq
        · exact Or.inl ⟨⟨h1, h2, h3⟩, h4⟩
        · exact Or.inr ⟨q, hq, h1, h2, h3, h4⟩
      · rintro (⟨⟨h1, h2, h3⟩, h4⟩ | ⟨q, hq, h⟩)
        · exact ⟨r, List.mem_cons_self, h1, h2, h3, h4⟩
        · exact ⟨q, List.mem_cons_of_mem _ hq, h⟩
    rw [hrest]
    generalize hR : rootPool rest = R
    unfold rootPool
    rw [hR]
    cases hu : usableRow r with
    | none =>
      dsimp only
      exact ⟨Or.inr, fun h => h.elim (fun h => by cases h.1) id⟩
    | some d =>
      dsimp only
      by_cases hk : r.kind = "Root Certificate".toList
      · rw [if_pos hk, List.mem_cons]
        exact ⟨fun h => h.elim (fun h => Or.inl ⟨by rw [h], hk⟩) Or.inr, fun h => h.elim (fun h => Or.inl (Option.some.inj h.1).symm) Or.inr⟩
      · rw [if_neg hk]
        exact ⟨Or.inr, fun h => h.elim (fun h => absurd h.2 hk) id⟩

/-- Specification: row `n` is the first usable row of an intermediate with that fingerprint, and has the certificate `c`. -/
def FirstRow (rows : List CcadbRow) (r : CcadbRow) (c : IssCert) : Prop :=
  ∃ pre post, rows = pre ++ r :: post ∧ r.short = false ∧ Spec.NotRevoked r ∧ r.cert = some c ∧ r.kind = "Intermediate Certificate".toList ∧
    ∀ q ∈ pre, ∀ d, q.short = false → Spec.NotRevoked q → q.cert = some d → q.kind = "Intermediate Certificate".toList → d.fp ≠ c.fp

theorem mem_intermediates (sp : Char → Bool) (parse : UrlParse) (rows : List CcadbRow) : ∀ (acc : List (IssCert × List Text × Bool)) (e : IssCert × List Text × Bool),
    e ∈ intermediates sp parse rows acc ↔ e ∈ acc ∨ ∃ r, FirstRow rows r e.1 ∧ e.2 = decodeCrls sp parse r.full r.json ∧ ∀ x ∈ acc, x.1.fp ≠ e.1.fp := by
  induction rows with
  | nil =>
    intro acc e
    unfold intermediates
    constructor
    · exact Or.inl
    · rintro (h | ⟨r, ⟨pre, post, h, _⟩, _⟩)
      · exact h
      · simp at h
  | cons r rest ih =>
    intro acc e
    -- the first row of a fingerprint, seen from the rest
    have hskip : (∀ d, ¬ (usableRow r = some d ∧ r.kind = "Intermediate Certificate".toList)) → ∀ r' c, FirstRow (r :: rest) r' c ↔ FirstRow rest r' c := by
      intro hno r' c
      constructor
      · rintro ⟨pre, post, h1, h2, h3, h4, h5, h6⟩
        cases pre with
        | nil =>
          rw [List.nil_append] at h1
          cases h1
          exact absurd ⟨(usableRow_iff r c).2 ⟨h2, h3, h4⟩, h5⟩ (hno c)
        | cons p ps =>
          rw [List.cons_append] at h1
          cases h1
          exact ⟨ps, post, rfl, h2, h3, h4, h5, fun q hq => h6 q (by simp [hq])⟩
      · rintro ⟨pre, post, rfl, h2, h3, h4, h5, h6⟩
        refine ⟨r :: pre, post, rfl, h2, h3, h4, h5, ?_⟩
        intro q hq d q1 q2 q3 q4
        rcases List.mem_cons.1 hq with rfl | hq
        · exact absurd ⟨(usableRow_iff q d).2 ⟨q1, q2, q3⟩, q4⟩ (hno d)
        · exact h6 q hq d q1 q2 q3 q4
    have hcons : ∀ c0, usableRow r = some c0 → r.kind = "Intermediate Certificate".toList → ∀ r' c,
        FirstRow (r :: rest) r' c ↔ (r' = r ∧ c = c0) ∨ (FirstRow rest r' c ∧ c0.fp ≠ c.fp) := by
      intro c0 hu hk r' c
      constructor
      · rintro ⟨pre, post, h1, h2, h3, h4, h5, h6⟩
        cases pre with
        | nil =>
          rw [List.nil_append] at h1
          cases h1
          have := (usableRow_iff r c).2 ⟨h2, h3, h4⟩
          rw [hu] at this
          exact Or.inl ⟨rfl, (Option.some.inj this).symm⟩
        | cons p ps =>
          rw [List.cons_append] at h1
          cases h1
          have hr := (usableRow_iff r c0).1 hu
          exact Or.inr ⟨⟨ps, post, rfl, h2, h3, h4, h5, fun q hq => h6 q (by simp [hq])⟩, h6 r (by simp) c0 hr.1 hr.2.1 hr.2.2 hk⟩
      · rintro (⟨rfl, rfl⟩ | ⟨⟨pre, post, rfl, h2, h3, h4, h5, h6⟩, hne⟩)
        · have hr := (usableRow_iff r' c).1 hu
          exact ⟨[], rest, rfl, hr.1, hr.2.1, hr.2.2, hk, (fun q hq => by cases hq)⟩
        · refine ⟨r :: pre, post, rfl, h2, h3, h4, h5, ?_⟩
          intro q hq d q1 q2 q3 q4
          rcases List.mem_cons.1 hq with rfl | hq
          · have := (usableRow_iff q d).2 ⟨q1, q2, q3⟩
            rw [hu] at this
            cases this
            exact hne
          · exact h6 q hq d q1 q2 q3 q4
    unfold intermediates
    cases hu : usableRow r with
    | none =>
      dsimp only
      rw [ih]
      simp only [hskip (fun d h => by rw [hu] at h; cases h.1)]
    | some c0 =>
      dsimp only
      by_cases hk : r.kind = "Intermediate Certificate".toList
      · rw [if_pos hk]
        by_cases hany : acc.any (fun e => decide (e.1.fp = c0.fp)) = true
        · rw [if_pos hany, ih]
          obtain ⟨x, hx, hxf⟩ := List.any_eq_true.1 hany
          have hxf : x.1.fp = c0.fp := by simpa using hxf
          refine or_congr Iff.rfl ?_
          constructor
          · rintro ⟨r', h1, h2, h3⟩
            exact ⟨r', (hcons c0 hu hk r' e.1).2 (Or.inr ⟨h1, hxf ▸ h3 x hx⟩), h2, h3⟩
          · rintro ⟨r', h1, h2, h3⟩
            rcases (hcons c0 hu hk r' e.1).1 h1 with ⟨_, he⟩ | ⟨h1, _⟩
            · exact absurd (he ▸ hxf) (h3 x hx)
            · exact ⟨r', h1, h2, h3⟩
        · rw [if_neg hany, ih]
          have hno : ∀ x ∈ acc, x.1.fp ≠ c0.fp := by
            intro x hx hxf
            exact hany (List.any_eq_true.2 ⟨x, hx, by simpa using hxf⟩)
          constructor
          · rintro (h | ⟨r', h1, h2, h3⟩)
            · rcases List.mem_append.1 h with h | h
              · exact Or.inl h
              · rw [List.mem_singleton.1 h]
                exact Or.inr ⟨r, (hcons c0 hu hk r c0).2 (Or.inl ⟨rfl, rfl⟩), rfl, hno⟩
            · exact Or.inr ⟨r', (hcons c0 hu hk r' e.1).2 (Or.inr ⟨h1, h3 _ (List.mem_append_right _ (List.mem_singleton.2 rfl))⟩), h2, fun x hx => h3 x (List.mem_append_left _ hx)⟩
          · rintro (h | ⟨r', h1, h2, h3⟩)
            · exact Or.inl (List.mem_append_left _ h)
            · rcases (hcons c0 hu hk r' e.1).1 h1 with ⟨rfl, he⟩ | ⟨h1, hne⟩
              · refine Or.inl (List.mem_append_right _ (List.mem_singleton.2 ?_))
                rw [← h2, ← he]
              · refine Or.inr ⟨r', h1, h2, ?_⟩
                intro x hx
                rcases List.mem_append.1 hx with hx | hx
                · exact h3 x hx
                · rw [List.mem_singleton.1 hx]; exact hne
      · rw [if_neg hk, ih]
        simp only [hskip (fun d h => hk h.2)]

/-- **C79.** The issuers loaded from the report are exactly those of certificates that have a row as an intermediate, not revoked, with all columns, and that chain to a root of the report; and the CRL URLs of an
issuer are exactly those in the first such row of each of its certificates. For any iteration order of Go's maps. -/
theorem C79_loaded (sp : Char → Bool) (parse : UrlParse) (chains : List IssCert → List IssCert → IssCert → Bool)
    (order : List (IssCert × List Text × Bool) → List (IssCert × List Text × Bool)) (horder : ∀ l x, x ∈ order l ↔ x ∈ l) (rows : List CcadbRow) (i u : Text) :
    HasUrl (loadFromDisk sp parse chains order rows).crls i u ↔
      ∃ r c, FirstRow rows r c ∧ chains (rootPool rows) ((intermediates sp parse rows []).map Prod.fst) c = true ∧ c.issuer = i ∧ u ∈ (decodeCrls sp parse r.full r.json).1 := by
  unfold loadFromDisk
  dsimp only
  rw [C52_union]
  constructor
  · rintro ⟨e, he, h1, h2⟩
    obtain ⟨he, hc⟩ := List.mem_filter.1 he
    rcases (mem_intermediates sp parse rows [] e).1 ((horder _ e).1 he) with h | ⟨r, hr, h3, _⟩
    · cases h
    · exact ⟨r, e.1, hr, hc, h1, h3 ▸ h2⟩
  · rintro ⟨r, c, hr, hc, h1, h2⟩
    refine ⟨(c, decodeCrls sp parse r.full r.json), List.mem_filter.2 ⟨(horder _ _).2 ?_, hc⟩, h1, h2⟩
    exact (mem_intermediates sp parse rows [] _).2 (Or.inr ⟨r, hr, rfl, (fun x hx => by cases hx)⟩)

/-- The pool of intermediates used for chain building: exactly the certificates with a usable row (fingerprints identify certificates). -/
theorem C79_intermediate_pool (sp : Char → Bool) (parse : UrlParse) (rows : List CcadbRow)
    (hfp : ∀ r ∈ rows, ∀ r' ∈ rows, ∀ c c', r.cert = some c → r'.cert = some c' → c.fp = c'.fp → c = c') (c : IssCert) :
    c ∈ (intermediates sp parse rows []).map Prod.fst ↔
      ∃ r ∈ rows, r.short = false ∧ Spec.NotRevoked r ∧ r.cert = some c ∧ r.kind = "Intermediate Certificate".toList := by
  constructor
  · intro h
    obtain ⟨e, he, rfl⟩ := List.mem_map.1 h
    rcases (mem_intermediates sp parse rows [] e).1 he with h | ⟨r, ⟨pre, post, h1, h2, h3, h4, h5, _⟩, _⟩
    · cases h
    · exact ⟨r, by rw [h1]; simp, h2, h3, h4, h5⟩
  · rintro ⟨r, hr, h2, h3, h4, h5⟩
    -- take the first row with this fingerprint
    have hex : ∀ l : List CcadbRow, (∃ r ∈ l, r.short = false ∧ Spec.NotRevoked r ∧ r.kind = "Intermediate Certificate".toList ∧ ∃ d, r.cert = some d ∧ d.fp = c.fp) →
        ∃ r d, FirstRow l r d ∧ d.fp = c.fp := by
      intro l
      induction l with
      | nil => rintro ⟨r, hr, _⟩; cases hr
      | cons q qs ih =>
        rintro ⟨r, hr, g1, g2, g3, d, g4, g5⟩
        by_cases hq : q.short = false ∧ Spec.NotRevoked q ∧ q.kind = "Intermediate Certificate".toList ∧ ∃ d, q.cert = some d ∧ d.fp = c.fp
        · obtain ⟨q1, q2, q3, d', q4, q5⟩ := hq
          exact ⟨q, d', ⟨[], qs, rfl, q1, q2, q4, q3, (fun x hx => by cases hx)⟩, q5⟩
        · rcases List.mem_cons.1 hr with rfl | hr
          · exact absurd ⟨g1, g2, g3, d, g4, g5⟩ hq
          · obtain ⟨r', d', ⟨pre, post, f1, f2, f3, f4, f5, f6⟩, f7⟩ := ih ⟨r, hr, g1, g2, g3, d, g4, g5⟩
            refine ⟨r', d', ⟨q :: pre, post, by rw [f1]; rfl, f2, f3, f4, f5, ?_⟩, f7⟩
            intro x hx dx x1 x2 x3 x4 hdx
            rcases List.mem_cons.1 hx with rfl | hx
            · exact hq ⟨x1, x2, x4, dx, x3, hdx.trans f7⟩
            · exact f6 x hx dx x1 x2 x3 x4 hdx
    obtain ⟨r', d, hF, hd⟩ := hex rows ⟨r, hr, h2, h3, h5, c, h4, rfl⟩
    have hF' := hF
    obtain ⟨pre, post, f1, f2, f3, f4, f5, f6⟩ := hF'
    have hdc : d = c := hfp r' (by rw [f1]; simp) r hr d c f4 h4 hd
    subst hdc
    exact List.mem_map.2 ⟨(d, decodeCrls sp parse r'.full r'.json), (mem_intermediates sp parse rows [] _).2 (Or.inr ⟨r', hF, rfl, (fun x hx => by cases hx)⟩), rfl⟩

def exRow (n : Nat) (kind revoked full : String) : CcadbRow := ⟨false, some ⟨['i'], [Char.ofNat (48 + n)], n⟩, kind.toList, revoked.toList, full.toList, []⟩

/-- A root, an intermediate with two rows, a revoked intermediate. -/
def exRows : List CcadbRow :=
  [exRow 0 "Root Certificate" "" "", exRow 1 "Intermediate Certificate" "Not Revoked" "http:a", exRow 1 "Intermediate Certificate" "" "http:b",
   exRow 2 "Intermediate Certificate" "Revoked" "http:c"]

example : (loadFromDisk exSpace exParse (fun roots _ _ => decide (roots ≠ [])) (fun l => l) exRows).crls = [(['i'], ["http:a".toList])] ∧
    (loadFromDisk exSpace exParse (fun roots _ _ => decide (roots ≠ [])) (fun l => l) exRows).inProgram ['i'] = true := by decide +kernel

/-- Of several rows of one certificate only the first counts: the CRL of the other one is not read. -/
theorem C79_duplicate_row_fails :
    (∃ r ∈ exRows, usableRow r = some ⟨['i'], ['1'], 1⟩ ∧ r.full = "http:b".toList) ∧
    ¬ HasUrl (loadFromDisk exSpace exParse (fun roots _ _ => decide (roots ≠ [])) (fun l => l) exRows).crls ['i'] "http:b".toList := by
  refine ⟨⟨exRow 1 "Intermediate Certificate" "" "http:b", by simp [exRows], by decide, rfl⟩, ?_⟩
  rintro ⟨s, hs, hu⟩
  have : (loadFromDisk exSpace exParse (fun roots _ _ => decide (roots ≠ [])) (fun l => l) exRows).crls = [(['i'], ["http:a".toList])] := by decide +kernel
  rw [this] at hs
  have : s = ["http:a".toList] := by
    have h : assocGet [(['i'], ["http:a".toList])] ['i'] = some ["http:a".toList] := by decide
    rw [h] at hs
    exact (Option.some.inj hs).symm
  rw [this] at hu
  revert hu
  decide

/-! ### each theorem applied -/

example : HasUrl (crlMerge [(['a'], [['x']])] [(['b'], [['y']]), (['a'], [['z']])]) ['a'] ['z'] :=
  (C51_union _ _ (by decide) ['a'] ['z']).1.2 (Or.inr ⟨[['z']], by decide, by decide⟩)
example := C51_keys [(['a'], [['x']]), (['c'], [])] [(['b'], [['y']]), (['a'], [['z']])] (by decide)
def exReportTries : Nat → DlAttempt
  | 0 => ⟨some ⟨some 90, some 4, true⟩, .partial206 [3, 4] true (some 90), true, false, 100⟩
  | _ => ⟨none, .fails, true, false, 100⟩

/-- A copy of twelve hours with the first two rows; the server sends the other two. -/
example : (fun b : Bytes => some b) [1, 2, 3, 4] = some [1, 2, 3, 4] :=
  C78_download_partial (fun b => some b) [1, 2, 3, 4] exReportTries 112 (some ⟨[1, 2], 100⟩)
    (fun f hf => by cases hf; exact Or.inr (by decide)) (fun f hf => by cases hf; exact ⟨[3, 4], rfl⟩)
    (fun i _ => match i with
      | 0 => ⟨(fun h e n hn => by cases e; cases hn; rfl), by decide, (fun f hf => by cases hf; exact ⟨⟨[], rfl⟩, fun _ => rfl⟩)⟩
      | _ + 1 => ⟨(fun h e => by cases e), trivial⟩) [1, 2, 3, 4] (by decide)
example : HasUrl (loadFromDisk exSpace exParse (fun roots _ _ => decide (roots ≠ [])) (fun l => l) exRows).crls ['i'] "http:a".toList :=
  (C79_loaded exSpace exParse (fun roots _ _ => decide (roots ≠ [])) (fun l => l) (fun _ _ => Iff.rfl) exRows ['i'] "http:a".toList).2
    ⟨exRow 1 "Intermediate Certificate" "Not Revoked" "http:a", ⟨['i'], ['1'], 1⟩,
      ⟨[exRow 0 "Root Certificate" "" ""], _, rfl, rfl, Or.inr rfl, rfl, rfl, fun x hx dx _ _ _ x4 _ => by
        rw [List.mem_singleton.1 hx] at x4
        exact absurd x4 (by decide)⟩, by decide +kernel, rfl, by decide +kernel⟩

end Verif.Props
