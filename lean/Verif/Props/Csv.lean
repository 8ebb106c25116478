import Verif.Spec.Csv
import Verif.Props.Pem
import Verif.Props.Issuers
import Verif.Props.Disclosed
/-!
C110: the CCADB report is read as it was written.
-/
namespace Verif.Props
open Verif.Spec

/-! ### line ends -/

theorem csvLines_spec : ∀ t : Text, LineEnds t (csvLines t)
  | [] => LineEnds.nil
  | [c] => by
    by_cases h : c = '\r'
    · subst h
      exact LineEnds.last
    · have : csvLines [c] = [c] := by unfold csvLines; split <;> simp_all [csvLines]
      rw [this]
      exact LineEnds.keep (fun e => absurd e h) LineEnds.nil
  | c :: d :: t => by
    by_cases h : c = '\r' ∧ d = '\n'
    · obtain ⟨rfl, rfl⟩ := h
      exact LineEnds.crlf (csvLines_spec t)
    · have : csvLines (c :: d :: t) = c :: csvLines (d :: t) := by
        rw [csvLines.eq_def]
        split <;> simp_all
      rw [this]
      refine LineEnds.keep (fun e => ⟨d, t, rfl, fun e' => h ⟨e, e'⟩⟩) (csvLines_spec (d :: t))

theorem lineEnds_unique : ∀ {t u u' : Text}, LineEnds t u → LineEnds t u' → u = u' := by
  intro t u u' h
  induction h generalizing u' with
  | nil => intro h'; cases h'; rfl
  | last =>
    intro h'
    cases h' with
    | last => rfl
    | keep hc _ =>
      obtain ⟨d, r, e, _⟩ := hc rfl
      cases e
  | crlf h ih =>
    intro h'
    cases h' with
    | crlf h' => rw [ih h']
    | keep hc _ =>
      obtain ⟨d, r, e, hd⟩ := hc rfl
      cases e
      exact absurd rfl hd
  | keep hc h ih =>
    intro h'
    cases h' with
    | last =>
      obtain ⟨d, r, e, _⟩ := hc rfl
      cases e
    | crlf h' =>
      obtain ⟨d, r, e, hd⟩ := hc rfl
      cases e
      exact absurd rfl hd
    | keep _ h' => rw [ih h']

/-! ### the machine -/

/-- All characters, without the end of the file. -/
def csvFeed : CsvState → Text → Option CsvState
  | s, [] => some s
  | s, c :: t => (csvStep s c).bind (fun s' => csvFeed s' t)

theorem csvFeed_append (s : CsvState) (a b : Text) : csvFeed s (a ++ b) = (csvFeed s a).bind (fun s' => csvFeed s' b) := by
  induction a generalizing s with
  | nil => rfl
  | cons c a ih =>
    show (csvStep s c).bind _ = ((csvStep s c).bind _).bind _
    cases csvStep s c with
    | none => rfl
    | some s' => exact ih s'

theorem csvRun_feed (s : CsvState) (t : Text) : csvRun s t = (csvFeed s t).bind csvEnd := by
  induction t generalizing s with
  | nil => rfl
  | cons c t ih =>
    unfold csvRun csvFeed
    cases csvStep s c with
    | none => rfl
    | some s' => exact ih s'

theorem csvRun_append (s : CsvState) (a b : Text) : csvRun s (a ++ b) = (csvFeed s a).bind (fun s' => csvRun s' b) := by
  rw [csvRun_feed, csvFeed_append]
  cases csvFeed s a with
  | none => rfl
  | some s' => exact (csvRun_feed s' b).symm

/-- The field has been read. -/
def FieldEnd (s : CsvState) : Prop := s.mode = .bare ∨ s.mode = .closing ∨ (s.mode = .start ∧ s.field = [] ∧ s.cur ≠ [])

theorem fieldEnd_comma {s : CsvState} (h : FieldEnd s ∨ (s.mode = .start ∧ s.field = [])) : csvStep s ',' = some s.comma := by
  unfold csvStep
  rcases h with (h | h | h) | h
  · rw [h]; rfl
  · rw [h]; rfl
  · rw [h.1]; rfl
  · rw [h.1]; rfl

theorem fieldEnd_newline {s : CsvState} (h : FieldEnd s) : csvStep s '\n' = some s.newline := by
  unfold csvStep
  rcases h with h | h | h
  · rw [h]; rfl
  · rw [h]; rfl
  · rw [h.1]
    simp [h.2.2]

theorem fieldEnd_end {s : CsvState} (h : FieldEnd s) : csvEnd s = some s.newline.done := by
  unfold csvEnd
  rcases h with h | h | h
  · rw [h]
  · rw [h]
  · rw [h.1]
    simp [h.2.2]

theorem feed_quoted (done : List (List Text)) (cur : List Text) (f : Text) : ∀ g : Text, csvFeed ⟨done, cur, g, .quoted⟩ (doubled f) = some ⟨done, cur, g ++ f, .quoted⟩ := by
  induction f with
  | nil => intro g; simp [doubled, csvFeed]
  | cons c f ih =>
    intro g
    have e : doubled (c :: f) = (if c = '"' then ['"', '"'] else [c]) ++ doubled f := rfl
    have e1 : csvFeed ⟨done, cur, g, .quoted⟩ (if c = '"' then ['"', '"'] else [c]) = some ⟨done, cur, g ++ [c], .quoted⟩ := by
      by_cases h : c = '"'
      · subst h; rfl
      · rw [if_neg h]
        simp [csvFeed, csvStep, h, CsvState.push]
    rw [e, csvFeed_append, e1, Option.bind_some, ih]
    simp

theorem feed_bare (done : List (List Text)) (cur : List Text) (f : Text) (h : ∀ c ∈ f, c ≠ '"' ∧ c ≠ ',' ∧ c ≠ '\n') : ∀ g : Text, csvFeed ⟨done, cur, g, .bare⟩ f = some ⟨done, cur, g ++ f, .bare⟩ := by
  induction f with
  | nil => intro g; simp [csvFeed]
  | cons c f ih =>
    intro g
    obtain ⟨h1, h2, h3⟩ := h c (by simp)
    have := ih (fun d hd => h d (by simp [hd])) (g ++ [c])
    simp [csvFeed, csvStep, h1, h2, h3, CsvState.push, this]

/-- A field. -/
theorem feed_field {w f : Text} (h : CsvField w f) (done : List (List Text)) (cur : List Text) :
    ∃ m, csvFeed ⟨done, cur, [], .start⟩ w = some ⟨done, cur, f, m⟩ ∧ (m = .bare ∨ m = .closing ∨ (m = .start ∧ f = [])) ∧ (w ≠ [] → m ≠ .start) := by
  cases h with
  | bare hf =>
    cases w with
    | nil => exact ⟨.start, rfl, Or.inr (Or.inr ⟨rfl, rfl⟩), fun h => absurd rfl h⟩
    | cons c f =>
      obtain ⟨h1, h2, h3⟩ := hf c (by simp)
      refine ⟨.bare, ?_, Or.inl rfl, fun _ h => by cases h⟩
      have := feed_bare done cur f (fun d hd => hf d (by simp [hd])) [c]
      simp [csvFeed, csvStep, h1, h2, h3, CsvState.push, this]
  | quoted f =>
    refine ⟨.closing, ?_, Or.inr (Or.inl rfl), fun _ h => by cases h⟩
    have : csvFeed ⟨done, cur, [], .start⟩ ('"' :: (doubled f ++ ['"'])) = csvFeed ⟨done, cur, [], .quoted⟩ (doubled f ++ ['"']) := rfl
    rw [this, csvFeed_append, feed_quoted]
    rfl

/-- A record. -/
theorem feed_record {w : Text} {r : List Text} (h : CsvRecord w r) : ∀ (done : List (List Text)) (cur : List Text), (cur ≠ [] ∨ w ≠ []) →
    ∃ s, csvFeed ⟨done, cur, [], .start⟩ w = some s ∧ FieldEnd s ∧ s.done = done ∧ s.cur ++ [s.field] = cur ++ r := by
  induction h with
  | @one w f hf =>
    intro done cur hw
    obtain ⟨m, h1, h2, h3⟩ := feed_field hf done cur
    refine ⟨_, h1, ?_, rfl, rfl⟩
    rcases h2 with h2 | h2 | ⟨h2, h4⟩
    · exact Or.inl h2
    · exact Or.inr (Or.inl h2)
    · rcases hw with hw | hw
      · exact Or.inr (Or.inr ⟨h2, h4, hw⟩)
      · exact absurd h2 (h3 hw)
  | @more w f w' fs hf _ ih =>
    intro done cur _
    obtain ⟨m, h1, h2, _⟩ := feed_field hf done cur
    obtain ⟨s, g1, g2, g3, g4⟩ := ih done (cur ++ [f]) (Or.inl (by simp))
    refine ⟨s, ?_, g2, g3, by rw [g4]; simp⟩
    rw [csvFeed_append, h1, Option.bind_some]
    show (csvStep ⟨done, cur, f, m⟩ ',').bind _ = _
    rw [fieldEnd_comma]
    · exact g1
    · rcases h2 with h2 | h2 | h2
      · exact Or.inl (Or.inl h2)
      · exact Or.inl (Or.inr (Or.inl h2))
      · exact Or.inr h2

theorem run_table {t : Text} {rs : List (List Text)} (h : CsvTable t rs) : ∀ done, csvRun ⟨done, [], [], .start⟩ t = some (done ++ rs) := by
  induction h with
  | nil => intro done; simp [csvRun, csvEnd]
  | blank _ ih => intro done; exact ih done
  | @row w t r rs hr hw _ ih =>
    intro done
    obtain ⟨s, h1, h2, h3, h4⟩ := feed_record hr done [] (Or.inr hw)
    rw [csvRun_append, h1, Option.bind_some]
    unfold csvRun
    rw [fieldEnd_newline h2]
    have : s.newline = ⟨done ++ [r], [], [], .start⟩ := by
      unfold CsvState.newline
      rw [h3, h4]
      rfl
    rw [this]
    dsimp only
    rw [ih]
    simp
  | @last w r hr hw =>
    intro done
    obtain ⟨s, h1, h2, h3, h4⟩ := feed_record hr done [] (Or.inr hw)
    rw [csvRun_feed, h1, Option.bind_some, fieldEnd_end h2]
    unfold CsvState.newline
    rw [h3, h4]
    rfl

/-! ### what is accepted -/

/-- Fields, each with a comma behind it. -/
inductive CsvBegun : Text → List Text → Prop
  | nil : CsvBegun [] []
  | more {u w f : Text} {fs : List Text} : CsvBegun u fs → CsvField w f → CsvBegun (u ++ (w ++ [','])) (fs ++ [f])

theorem begun_record {u : Text} {fs : List Text} (h : CsvBegun u fs) : ∀ {w : Text} {r : List Text}, CsvRecord w r → CsvRecord (u ++ w) (fs ++ r) := by
  induction h with
  | nil => intro w r hr; exact hr
  | @more u w f fs _ hf ih =>
    intro w' r hr
    have := ih (CsvRecord.more hf hr)
    simpa using this

/-- Lines, all of them ended. -/
def CsvLinesRead (u : Text) (done : List (List Text)) : Prop := ∀ {t : Text} {rs : List (List Text)}, CsvTable t rs → CsvTable (u ++ t) (done ++ rs)

/-- What has been read of the current field. -/
def FieldRead (s : CsvState) (w : Text) : Prop :=
  match s.mode with
  | .start => w = [] ∧ s.field = []
  | .bare => w = s.field ∧ s.field ≠ [] ∧ ∀ c ∈ s.field, c ≠ '"' ∧ c ≠ ',' ∧ c ≠ '\n'
  | .quoted => w = '"' :: doubled s.field
  | .closing => w = '"' :: (doubled s.field ++ ['"'])

/-- What has been read. -/
def ReadSoFar (u : Text) (s : CsvState) : Prop := ∃ a b w, u = a ++ (b ++ w) ∧ CsvLinesRead a s.done ∧ CsvBegun b s.cur ∧ FieldRead s w

theorem doubled_snoc (f : Text) (c : Char) : doubled (f ++ [c]) = doubled f ++ (if c = '"' then ['"', '"'] else [c]) := by
  unfold doubled
  rw [List.flatMap_append]
  simp

theorem fieldRead_field {s : CsvState} {w : Text} (h : FieldRead s w) (hm : s.mode ≠ .quoted) : CsvField w s.field := by
  unfold FieldRead at h
  cases hmode : s.mode with
  | start =>
    rw [hmode] at h
    obtain ⟨h1, h2⟩ := h
    rw [h1, h2]
    exact CsvField.bare (fun c hc => by cases hc)
  | bare =>
    rw [hmode] at h
    obtain ⟨h1, _, h2⟩ := h
    rw [h1]
    exact CsvField.bare h2
  | quoted => exact absurd hmode hm
  | closing =>
    rw [hmode] at h
    have h : w = _ := h
    rw [h]
    exact CsvField.quoted _

theorem begun_nil {b : Text} {cur : List Text} (h : CsvBegun b cur) (hc : cur = []) : b = [] := by
  cases h with
  | nil => rfl
  | more _ _ => simp at hc

theorem begun_ne {b : Text} {cur : List Text} (h : CsvBegun b cur) (hc : cur ≠ []) : b ≠ [] := by
  cases h with
  | nil => exact absurd rfl hc
  | more _ _ => simp

/-- The record that ends here is not an empty line. -/
theorem record_text_ne {s : CsvState} {b w : Text} (hb : CsvBegun b s.cur) (hw : FieldRead s w) (h : s.mode ≠ .start ∨ s.cur ≠ []) : b ++ w ≠ [] := by
  intro e
  obtain ⟨e1, e2⟩ := List.append_eq_nil_iff.1 e
  rcases h with h | h
  · unfold FieldRead at hw
    cases hm : s.mode with
    | start => exact h hm
    | bare => rw [hm] at hw; exact hw.2.1 (hw.1 ▸ e2)
    | quoted => rw [hm] at hw; rw [e2] at hw; cases hw
    | closing => rw [hm] at hw; rw [e2] at hw; cases hw
  · exact begun_ne hb h e1

theorem read_comma {u : Text} {s : CsvState} (h : ReadSoFar u s) (hm : s.mode ≠ .quoted) : ReadSoFar (u ++ [',']) s.comma := by
  obtain ⟨a, b, w, rfl, h1, h2, h3⟩ := h
  exact ⟨a, b ++ (w ++ [',']), [], by simp, h1, CsvBegun.more h2 (fieldRead_field h3 hm), rfl, rfl⟩

theorem read_newline {u : Text} {s : CsvState} (h : ReadSoFar u s) (hm : s.mode ≠ .quoted) (hne : s.mode ≠ .start ∨ s.cur ≠ []) : ReadSoFar (u ++ ['\n']) s.newline := by
  obtain ⟨a, b, w, rfl, h1, h2, h3⟩ := h
  have hr : CsvRecord (b ++ w) (s.cur ++ [s.field]) := begun_record h2 (CsvRecord.one (fieldRead_field h3 hm))
  refine ⟨a ++ (b ++ (w ++ ['\n'])), [], [], by simp, ?_, CsvBegun.nil, rfl, rfl⟩
  intro t rs ht
  have := h1 (CsvTable.row hr (record_text_ne h2 h3 hne) ht)
  have e1 : a ++ (b ++ (w ++ ['\n'])) ++ t = a ++ (b ++ w ++ '\n' :: t) := by simp
  have e2 : s.newline.done ++ rs = s.done ++ (s.cur ++ [s.field]) :: rs := by simp [CsvState.newline]
  rw [e1, e2]
  exact this

theorem read_step {u : Text} {s s' : CsvState} {c : Char} (h : ReadSoFar u s) (hs : csvStep s c = some s') : ReadSoFar (u ++ [c]) s' := by
  have h0 := h
  obtain ⟨a, b, w, rfl, h1, h2, h3⟩ := h
  unfold csvStep at hs
  cases hm : s.mode with
  | start =>
    rw [hm] at hs
    dsimp only at hs
    have h3' := h3
    unfold FieldRead at h3'
    rw [hm] at h3'
    obtain ⟨w1, w2⟩ := h3'
    split at hs
    · next hc =>
      cases hs
      subst hc
      refine ⟨a, b, w ++ ['"'], by simp, h1, h2, ?_⟩
      show w ++ ['"'] = '"' :: doubled s.field
      rw [w1, w2]
      rfl
    · next hc =>
      split at hs
      · next hc2 =>
        cases hs
        subst hc2
        exact read_comma h0 (by rw [hm]; simp)
      · next hc2 =>
        split at hs
        · next hc3 =>
          subst hc3
          split at hs
          · next hcur =>
            cases hs
            refine ⟨a ++ ['\n'], [], [], ?_, ?_, ?_, ?_⟩
            · rw [begun_nil h2 hcur, w1]
              simp
            · intro t rs ht
              have := h1 (CsvTable.blank ht)
              simpa using this
            · rw [hcur]
              exact CsvBegun.nil
            · unfold FieldRead
              rw [hm]
              exact ⟨rfl, w2⟩
          · next hcur =>
            cases hs
            exact read_newline h0 (by rw [hm]; simp) (Or.inr hcur)
        · next hc3 =>
          cases hs
          refine ⟨a, b, w ++ [c], by simp, h1, h2, ?_⟩
          show w ++ [c] = s.field ++ [c] ∧ s.field ++ [c] ≠ [] ∧ _
          rw [w1, w2]
          refine ⟨rfl, by simp, ?_⟩
          intro d hd
          have : d = c := by simpa [CsvState.push, w2] using hd
          rw [this]
          exact ⟨hc, hc2, hc3⟩
  | bare =>
    rw [hm] at hs
    dsimp only at hs
    have h3' := h3
    unfold FieldRead at h3'
    rw [hm] at h3'
    obtain ⟨w1, w2, w3⟩ := h3'
    split at hs
    · cases hs
    · next hc =>
      split at hs
      · next hc2 =>
        cases hs
        subst hc2
        exact read_comma h0 (by rw [hm]; simp)
      · next hc2 =>
        split at hs
        · next hc3 =>
          cases hs
          subst hc3
          exact read_newline h0 (by rw [hm]; simp) (Or.inl (by rw [hm]; simp))
        · next hc3 =>
          cases hs
          refine ⟨a, b, w ++ [c], by simp, h1, h2, ?_⟩
          refine ⟨by rw [w1]; rfl, by simp [CsvState.push], ?_⟩
          intro d hd
          rcases List.mem_append.1 (show d ∈ s.field ++ [c] from hd) with hd | hd
          · exact w3 d hd
          · rw [List.mem_singleton.1 hd]
            exact ⟨hc, hc2, hc3⟩
  | quoted =>
    rw [hm] at hs
    dsimp only at hs
    have h3' := h3
    unfold FieldRead at h3'
    rw [hm] at h3'
    have w1 : w = '"' :: doubled s.field := h3'
    split at hs
    · next hc =>
      cases hs
      subst hc
      refine ⟨a, b, w ++ ['"'], by simp, h1, h2, ?_⟩
      show w ++ ['"'] = '"' :: (doubled s.field ++ ['"'])
      rw [w1]
      rfl
    · next hc =>
      cases hs
      refine ⟨a, b, w ++ [c], by simp, h1, h2, ?_⟩
      show w ++ [c] = '"' :: doubled (s.field ++ [c])
      rw [w1, doubled_snoc, if_neg hc]
      rfl
  | closing =>
    rw [hm] at hs
    dsimp only at hs
    have h3' := h3
    unfold FieldRead at h3'
    rw [hm] at h3'
    have w1 : w = '"' :: (doubled s.field ++ ['"']) := h3'
    split at hs
    · next hc =>
      cases hs
      subst hc
      refine ⟨a, b, w ++ ['"'], by simp, h1, h2, ?_⟩
      show w ++ ['"'] = '"' :: doubled (s.field ++ ['"'])
      rw [w1, doubled_snoc, if_pos rfl]
      simp
    · next hc =>
      split at hs
      · next hc2 =>
        cases hs
        subst hc2
        exact read_comma h0 (by rw [hm]; simp)
      · next hc2 =>
        split at hs
        · next hc3 =>
          cases hs
          subst hc3
          exact read_newline h0 (by rw [hm]; simp) (Or.inl (by rw [hm]; simp))
        · cases hs

theorem read_feed : ∀ (t : Text) {u : Text} {s s' : CsvState}, ReadSoFar u s → csvFeed s t = some s' → ReadSoFar (u ++ t) s'
  | [], u, s, s', h, hf => by
    cases hf
    rw [List.append_nil]
    exact h
  | c :: t, u, s, s', h, hf => by
    unfold csvFeed at hf
    cases hs : csvStep s c with
    | none => rw [hs] at hf; cases hf
    | some s1 =>
      rw [hs] at hf
      have := read_feed t (read_step h hs) hf
      simpa using this

theorem read_init : ReadSoFar [] CsvState.init := ⟨[], [], [], rfl, fun h => h, CsvBegun.nil, rfl, rfl⟩

theorem read_end {u : Text} {s : CsvState} {rs : List (List Text)} (h : ReadSoFar u s) (he : csvEnd s = some rs) : CsvTable u rs := by
  obtain ⟨a, b, w, rfl, h1, h2, h3⟩ := h
  have hrec : s.mode ≠ .quoted → (s.mode ≠ .start ∨ s.cur ≠ []) → CsvTable (a ++ (b ++ w)) s.newline.done := by
    intro hm hne
    exact h1 (CsvTable.last (begun_record h2 (CsvRecord.one (fieldRead_field h3 hm))) (record_text_ne h2 h3 hne))
  unfold csvEnd at he
  cases hm : s.mode with
  | start =>
    rw [hm] at he
    dsimp only at he
    split at he
    · next hcur =>
      cases he
      unfold FieldRead at h3
      rw [hm] at h3
      rw [h3.1, begun_nil h2 hcur]
      have := h1 CsvTable.nil
      simpa using this
    · next hcur =>
      cases he
      exact hrec (by rw [hm]; simp) (Or.inr hcur)
  | bare =>
    rw [hm] at he
    cases he
    exact hrec (by rw [hm]; simp) (Or.inl (by rw [hm]; simp))
  | quoted => rw [hm] at he; cases he
  | closing =>
    rw [hm] at he
    cases he
    exact hrec (by rw [hm]; simp) (Or.inl (by rw [hm]; simp))

theorem csvRun_iff (t : Text) (rs : List (List Text)) : csvRun CsvState.init t = some rs ↔ CsvTable t rs := by
  constructor
  · intro h
    rw [csvRun_feed] at h
    cases hf : csvFeed CsvState.init t with
    | none => rw [hf] at h; cases h
    | some s =>
      rw [hf] at h
      exact read_end (read_feed t read_init hf) h
  · intro h
    exact run_table h []

/-- **C110 (the file).** A text is accepted as a report exactly if it says a table after RFC 4180 with records of equal length, and then the records are those of the table. So a text says at most one table. -/
theorem C110_reads (t : Text) (header : List Text) (rows : List (List Text)) : csvRecords t = some (header :: rows) ↔ SaysTable t header rows := by
  unfold csvRecords SaysTable
  constructor
  · intro h
    split at h
    · cases h
    · next h' rs e =>
      split at h
      · next ha =>
        cases h
        refine ⟨⟨_, csvLines_spec t, (csvRun_iff _ _).1 e⟩, fun r hr => ?_⟩
        exact of_decide_eq_true (List.all_eq_true.1 ha r hr)
      · cases h
    · cases h
  · rintro ⟨⟨u, hu, ht⟩, hl⟩
    rw [lineEnds_unique (csvLines_spec t) hu, (csvRun_iff _ _).2 ht]
    dsimp only
    rw [if_pos]
    exact List.all_eq_true.2 (fun r hr => decide_eq_true (hl r hr))

/-! ### what programs write -/

theorem writeField_spec (q : Text → Bool) (f : Text) : CsvField (writeField q f) f := by
  unfold writeField
  split
  · exact CsvField.quoted f
  · next h =>
    refine CsvField.bare (fun c hc => ⟨?_, ?_, ?_⟩)
    · rintro rfl; exact h (Or.inr (Or.inl hc))
    · rintro rfl; exact h (Or.inr (Or.inr (Or.inl hc)))
    · rintro rfl; exact h (Or.inr (Or.inr (Or.inr hc)))

theorem writeRecord_spec (q : Text → Bool) : ∀ r : List Text, r ≠ [] → CsvRecord (writeRecord q r) r
  | [], h => absurd rfl h
  | [f], _ => CsvRecord.one (writeField_spec q f)
  | f :: g :: fs, _ => CsvRecord.more (writeField_spec q f) (writeRecord_spec q (g :: fs) (by simp))

theorem doubled_no_cr {f : Text} (h : '\r' ∉ f) : '\r' ∉ doubled f := by
  unfold doubled
  rw [List.mem_flatMap]
  rintro ⟨c, hc, hm⟩
  split at hm
  · simp at hm
  · rw [List.mem_singleton] at hm
    exact h (hm ▸ hc)

theorem writeField_no_cr (q : Text → Bool) {f : Text} (h : '\r' ∉ f) : '\r' ∉ writeField q f := by
  unfold writeField
  split
  · intro hm
    rcases List.mem_cons.1 hm with hm | hm
    · exact absurd hm (by decide)
    · rcases List.mem_append.1 hm with hm | hm
      · exact doubled_no_cr h hm
      · exact absurd (List.mem_singleton.1 hm) (by decide)
  · exact h

theorem writeRecord_no_cr (q : Text → Bool) : ∀ r : List Text, (∀ f ∈ r, '\r' ∉ f) → '\r' ∉ writeRecord q r
  | [], _ => by simp [writeRecord]
  | [f], h => writeField_no_cr q (h f (by simp))
  | f :: g :: fs, h => by
    intro hm
    rcases List.mem_append.1 (show '\r' ∈ writeField q f ++ ',' :: writeRecord q (g :: fs) from hm) with hm | hm
    · exact writeField_no_cr q (h f (by simp)) hm
    · rcases List.mem_cons.1 hm with hm | hm
      · exact absurd hm (by decide)
      · exact writeRecord_no_cr q (g :: fs) (fun x hx => h x (by simp [hx])) hm

theorem lineEnds_prefix {a : Text} (h : '\r' ∉ a) {t u : Text} (ht : LineEnds t u) : LineEnds (a ++ t) (a ++ u) := by
  induction a with
  | nil => exact ht
  | cons c a ih =>
    refine LineEnds.keep (fun e => absurd (e ▸ List.mem_cons_self) h) (ih (fun hm => h (List.mem_cons_of_mem _ hm)))

theorem writeTable_spec (q : Text → Bool) : ∀ rs : List (List Text), (∀ r ∈ rs, r ≠ [] ∧ writeRecord q r ≠ [] ∧ ∀ f ∈ r, '\r' ∉ f) → ∃ u, LineEnds (writeTable q rs) u ∧ CsvTable u rs
  | [], _ => ⟨[], LineEnds.nil, CsvTable.nil⟩
  | r :: rs, h => by
    obtain ⟨u, h1, h2⟩ := writeTable_spec q rs (fun x hx => h x (by simp [hx]))
    obtain ⟨g1, g2, g3⟩ := h r (by simp)
    exact ⟨writeRecord q r ++ '\n' :: u, lineEnds_prefix (writeRecord_no_cr q r g3) (LineEnds.crlf h1), CsvTable.row (writeRecord_spec q r g1) g2 h2⟩

theorem writeRecord_ne (q : Text → Bool) : ∀ r : List Text, 2 ≤ r.length → writeRecord q r ≠ []
  | [], h => by simp at h
  | [_], h => by simp at h
  | f :: g :: fs, _ => by
    show writeField q f ++ ',' :: writeRecord q (g :: fs) ≠ []
    simp

/-- **C110 (written).** A table with at least two columns, written with quotes where they are needed and anywhere else, is read back as it was. Only carriage returns within fields are not kept (those before line feeds are dropped). -/
theorem C110_written (q : Text → Bool) (header : List Text) (rows : List (List Text)) (hc : 2 ≤ header.length) (hl : ∀ r ∈ rows, r.length = header.length) (hcr : ∀ r ∈ header :: rows, ∀ f ∈ r, '\r' ∉ f) :
    csvRecords (writeTable q (header :: rows)) = some (header :: rows) := by
  refine (C110_reads _ _ _).2 ⟨writeTable_spec q _ (fun r hr => ?_), hl⟩
  have h2 : 2 ≤ r.length := by
    rcases List.mem_cons.1 hr with rfl | hr
    · exact hc
    · rw [hl r hr]; exact hc
  refine ⟨fun e => ?_, writeRecord_ne q r h2, hcr r hr⟩
  rw [e] at h2
  simp at h2

/-! ### a file that is cut short -/

/-- From here the records become these. -/
def BecomesRecords (s : CsvState) (rs : List (List Text)) : Prop :=
  ∃ tail, rs = s.done ++ tail ∧ ((s.mode = .start ∧ s.cur = []) ∨ ∃ f fs tl, tail = (s.cur ++ f :: fs) :: tl ∧ s.field <+: f)

theorem becomes_newline {s : CsvState} {rs : List (List Text)} (h : BecomesRecords s.newline rs) : BecomesRecords s rs := by
  obtain ⟨tail, h1, _⟩ := h
  exact ⟨(s.cur ++ [s.field]) :: tail, by rw [h1]; simp [CsvState.newline], Or.inr ⟨s.field, [], tail, rfl, List.prefix_rfl⟩⟩

theorem becomes_comma {s : CsvState} {rs : List (List Text)} (h : BecomesRecords s.comma rs) : BecomesRecords s rs := by
  obtain ⟨tail, h1, h2⟩ := h
  refine ⟨tail, h1, ?_⟩
  rcases h2 with ⟨_, h2⟩ | ⟨f, fs, tl, h2, _⟩
  · simp [CsvState.comma] at h2
  · refine Or.inr ⟨s.field, f :: fs, tl, ?_, List.prefix_rfl⟩
    rw [h2]
    simp [CsvState.comma]

theorem becomes_field {s s' : CsvState} {rs : List (List Text)} (h : BecomesRecords s' rs) (hd : s'.done = s.done) (hc : s'.cur = s.cur) (hf : s.field <+: s'.field) (hm : s'.mode ≠ .start) : BecomesRecords s rs := by
  obtain ⟨tail, h1, h2⟩ := h
  refine ⟨tail, hd ▸ h1, ?_⟩
  rcases h2 with ⟨h2, _⟩ | ⟨f, fs, tl, h2, h3⟩
  · exact absurd h2 hm
  · exact Or.inr ⟨f, fs, tl, hc ▸ h2, hf.trans h3⟩

theorem becomes_step {s s' : CsvState} {c : Char} {rs : List (List Text)} (hs : csvStep s c = some s') (h : BecomesRecords s' rs) : BecomesRecords s rs := by
  have hp : s.field <+: s.field ++ [c] := List.prefix_append _ _
  unfold csvStep at hs
  cases hm : s.mode with
  | start =>
    rw [hm] at hs
    dsimp only at hs
    split at hs
    · cases hs; exact becomes_field h rfl rfl List.prefix_rfl (by simp)
    · split at hs
      · cases hs; exact becomes_comma h
      · split at hs
        · split at hs
          · cases hs; exact h
          · cases hs; exact becomes_newline h
        · cases hs; exact becomes_field h rfl rfl hp (by simp [CsvState.push])
  | bare =>
    rw [hm] at hs
    dsimp only at hs
    split at hs
    · cases hs
    · split at hs
      · cases hs; exact becomes_comma h
      · split at hs
        · cases hs; exact becomes_newline h
        · cases hs; exact becomes_field h rfl rfl hp (by simp [CsvState.push])
  | quoted =>
    rw [hm] at hs
    dsimp only at hs
    split at hs
    · cases hs; exact becomes_field h rfl rfl List.prefix_rfl (by simp)
    · cases hs; exact becomes_field h rfl rfl hp (by simp [CsvState.push])
  | closing =>
    rw [hm] at hs
    dsimp only at hs
    split at hs
    · cases hs; exact becomes_field h rfl rfl hp (by simp [CsvState.push])
    · split at hs
      · cases hs; exact becomes_comma h
      · split at hs
        · cases hs; exact becomes_newline h
        · cases hs

theorem becomes_end {s : CsvState} {rs : List (List Text)} (h : csvEnd s = some rs) : BecomesRecords s rs := by
  have hn : BecomesRecords s s.newline.done := ⟨[s.cur ++ [s.field]], rfl, Or.inr ⟨s.field, [], [], rfl, List.prefix_rfl⟩⟩
  unfold csvEnd at h
  cases hm : s.mode with
  | start =>
    rw [hm] at h
    dsimp only at h
    split at h
    · next hc => cases h; exact ⟨[], by simp, Or.inl ⟨hm, hc⟩⟩
    · cases h; exact hn
  | bare => rw [hm] at h; cases h; exact hn
  | quoted => rw [hm] at h; cases h
  | closing => rw [hm] at h; cases h; exact hn

theorem becomes_run : ∀ (t : Text) {s : CsvState} {rs : List (List Text)}, csvRun s t = some rs → BecomesRecords s rs
  | [], _, _, h => becomes_end h
  | c :: t, s, rs, h => by
    unfold csvRun at h
    cases hs : csvStep s c with
    | none => rw [hs] at h; cases h
    | some s' =>
      rw [hs] at h
      exact becomes_step hs (becomes_run t h)

theorem csvLines_prefix : ∀ (a b : Text), csvLines a <+: csvLines (a ++ b)
  | [], _ => List.nil_prefix
  | [c], b => by
    by_cases h : c = '\r'
    · subst h
      exact List.nil_prefix
    · have h1 : ∀ b, csvLines (c :: b) = c :: csvLines b := by
        intro b
        rw [csvLines.eq_def]
        split <;> simp_all
      rw [List.singleton_append, h1, h1]
      exact List.cons_prefix_cons.2 ⟨rfl, List.nil_prefix⟩
  | c :: d :: a, b => by
    by_cases h : c = '\r' ∧ d = '\n'
    · obtain ⟨rfl, rfl⟩ := h
      exact List.cons_prefix_cons.2 ⟨rfl, csvLines_prefix a b⟩
    · have h1 : ∀ a, csvLines (c :: d :: a) = c :: csvLines (d :: a) := by
        intro a
        rw [csvLines.eq_def]
        split <;> simp_all
      show csvLines (c :: d :: a) <+: csvLines (c :: d :: (a ++ b))
      rw [h1, h1]
      exact List.cons_prefix_cons.2 ⟨rfl, csvLines_prefix (d :: a) b⟩

/-- **C110 (cut short), partial.** The full statement would be that the beginning of a report is refused. It is refused, or has the first records of the report, and perhaps one more: a row whose last field is cut short, or a header that is.
Missing: that these are refused (`C110_cut_fails`). -/
theorem C110_cut_partial {a b : Text} {header : List Text} {rows : List (List Text)} (h : SaysTable (a ++ b) header rows) {rs : List (List Text)} (ha : csvRecords a = some rs) :
    ∃ k, rs = (header :: rows).take k ∨
      ∃ pre f f' fs, (header :: rows)[k]? = some (pre ++ f :: fs) ∧ f' <+: f ∧ rs = (header :: rows).take k ++ [pre ++ [f']] ∧ (k ≠ 0 → fs = []) := by
  obtain ⟨⟨u, hu, ht⟩, hl⟩ := h
  have e := lineEnds_unique hu (csvLines_spec (a ++ b))
  subst e
  obtain ⟨v, hv⟩ := csvLines_prefix a b
  have hrun := (csvRun_iff _ _).2 ht
  rw [← hv, csvRun_append] at hrun
  unfold csvRecords at ha
  rw [csvRun_feed] at ha
  cases hf : csvFeed CsvState.init (csvLines a) with
  | none => rw [hf] at hrun; cases hrun
  | some s =>
    rw [hf] at hrun ha
    obtain ⟨tail, b1, b2⟩ := becomes_run v hrun
    have hnl : ∀ f fs tl, tail = (s.cur ++ f :: fs) :: tl → s.field <+: f → rs = s.done ++ [s.cur ++ [s.field]] → (∀ r ∈ rs.drop 1, ∀ h0 ∈ rs.head?, r.length = h0.length) →
        ∃ k, rs = (header :: rows).take k ∨ ∃ pre f f' fs, (header :: rows)[k]? = some (pre ++ f :: fs) ∧ f' <+: f ∧ rs = (header :: rows).take k ++ [pre ++ [f']] ∧ (k ≠ 0 → fs = []) := by
      intro f fs tl e1 e2 e3 e4
      refine ⟨s.done.length, Or.inr ⟨s.cur, f, s.field, fs, ?_, e2, ?_, ?_⟩⟩
      · rw [b1, e1]
        simp
      · rw [b1, List.take_left', e3]
        rfl
      · intro hk
        cases hd : s.done with
        | nil => rw [hd] at hk; exact absurd rfl hk
        | cons h0 ds =>
          rw [hd] at b1 e3
          have hh : h0 = header := by
            have := congrArg List.head? b1
            simpa using this.symm
          have l1 : (s.cur ++ [s.field]).length = header.length := by
            rw [← hh]
            exact e4 _ (by rw [e3]; simp) h0 (by rw [e3]; simp)
          have l2 : (s.cur ++ f :: fs).length = header.length := by
            refine hl _ ?_
            have : rows = ds ++ tail := by
              have := congrArg (List.drop 1) b1
              simpa using this
            rw [this, e1]
            simp
          rw [← l2] at l1
          simp only [List.length_append, List.length_cons, List.length_nil] at l1
          exact List.eq_nil_of_length_eq_zero (by omega)
    rw [Option.bind_some] at ha
    cases he : csvEnd s with
    | none => rw [he] at ha; cases ha
    | some rs' =>
      rw [he] at ha
      have hrs : rs' = rs ∧ ∀ r ∈ rs.drop 1, ∀ h0 ∈ rs.head?, r.length = h0.length := by
        cases rs' with
        | nil => cases ha
        | cons h0 rs0 =>
          dsimp only at ha
          split at ha
          · next hall =>
            cases ha
            refine ⟨rfl, fun r hr h1 h2 => ?_⟩
            cases h2
            exact of_decide_eq_true (List.all_eq_true.1 hall r hr)
          · cases ha
      obtain ⟨rfl, hlen⟩ := hrs
      unfold csvEnd at he
      have hfin : s.newline.done = s.done ++ [s.cur ++ [s.field]] := rfl
      rcases b2 with ⟨b2, b3⟩ | ⟨f, fs, tl, b2, b3⟩
      · rw [b2, if_pos b3] at he
        cases he
        exact ⟨s.done.length, Or.inl (by rw [b1, List.take_left'] ; rfl)⟩
      · cases hm : s.mode with
        | start =>
          rw [hm] at he
          dsimp only at he
          split at he
          · cases he
            exact ⟨s.done.length, Or.inl (by rw [b1, List.take_left'] ; rfl)⟩
          · cases he
            exact hnl f fs tl b2 b3 hfin hlen
        | bare => rw [hm] at he; cases he; exact hnl f fs tl b2 b3 hfin hlen
        | quoted => rw [hm] at he; cases he
        | closing => rw [hm] at he; cases he; exact hnl f fs tl b2 b3 hfin hlen

/-! ### the issuers of the report -/

theorem columnOf_isSome (header : List Text) (name : Text) : (columnOf header name).isSome = true ↔ name ∈ header := by
  unfold columnOf
  constructor
  · intro h
    cases hg : (header.zipIdx.filter (fun p => decide (p.1 = name))).getLast? with
    | none => rw [hg] at h; cases h
    | some p =>
      have hm := List.mem_of_getLast? hg
      obtain ⟨h1, h2⟩ := List.mem_filter.1 hm
      have := List.fst_mem_of_mem_zipIdx h1
      rw [of_decide_eq_true h2] at this
      exact this
  · intro h
    obtain ⟨i, hi⟩ := List.mem_iff_getElem?.1 h
    have hm : (name, i) ∈ header.zipIdx.filter (fun p => decide (p.1 = name)) := List.mem_filter.2 ⟨List.mem_zipIdx_iff_getElem?.2 hi, by simp⟩
    cases hg : (header.zipIdx.filter (fun p => decide (p.1 = name))).getLast? with
    | none =>
      rw [List.getLast?_eq_none_iff] at hg
      rw [hg] at hm
      cases hm
    | some p => rfl

theorem columnOf_spec {header : List Text} {name : Text} {i : Nat} (h : columnOf header name = some i) : header[i]? = some name := by
  unfold columnOf at h
  cases hg : (header.zipIdx.filter (fun p => decide (p.1 = name))).getLast? with
  | none => rw [hg] at h; cases h
  | some p =>
    rw [hg] at h
    cases h
    obtain ⟨h1, h2⟩ := List.mem_filter.1 (List.mem_of_getLast? hg)
    have := List.mem_zipIdx_iff_getElem?.1 h1
    rw [of_decide_eq_true h2] at this
    exact this

theorem inColumn_rowField {header row : List Text} {name : Text} (hn : name ∈ header) (hl : row.length = header.length) : InColumn header row name (rowField header row name) := by
  unfold rowField
  cases hc : columnOf header name with
  | none =>
    have := (columnOf_isSome header name).2 hn
    rw [hc] at this
    cases this
  | some i =>
    have h1 := columnOf_spec hc
    have hi : i < row.length := by
      rw [hl]
      exact (List.getElem?_eq_some_iff.1 h1).1
    dsimp only
    rw [List.getElem?_eq_getElem hi]
    refine List.mem_iff_getElem?.2 ⟨i, ?_⟩
    rw [List.getElem?_zip_eq_some]
    exact ⟨h1, List.getElem?_eq_getElem hi⟩

theorem eraseDups_length_le : ∀ (n : Nat) (l : List Text), l.length ≤ n → l.eraseDups.length ≤ l.length
  | _, [], _ => by simp
  | 0, _ :: _, h => by simp at h
  | n + 1, a :: l, h => by
    rw [List.eraseDups_cons, List.length_cons, List.length_cons]
    have h1 := List.length_filter_le (fun b => !b == a) l
    have h2 := eraseDups_length_le n (l.filter (fun b => !b == a)) (by rw [List.length_cons] at h; omega)
    omega

theorem csvRow_says (cert : Bytes → Option IssCert) {header row : List Text} (hl : row.length = header.length) (hreq : ∀ n ∈ requiredColumns, n ∈ header) : RowSays cert header row (csvRow cert header row) := by
  refine ⟨?_, inColumn_rowField (hreq kindColumn (by simp [requiredColumns])) hl, inColumn_rowField (hreq revokedColumn (by simp [requiredColumns])) hl, inColumn_rowField (hreq fullColumn (by simp [requiredColumns])) hl,
    inColumn_rowField (hreq jsonColumn (by simp [requiredColumns])) hl, _, inColumn_rowField (hreq pemColumn (by simp [requiredColumns])) hl, ?_⟩
  · have := eraseDups_length_le header.length header (Nat.le_refl _)
    exact decide_eq_false (by omega)
  · intro raw ha
    exact pemToCertificate_of cert rfl (C105_read ha).1

/-- **C110 (refused).** The report is refused exactly if it does not say a table with the five columns. -/
theorem C110_refused (cert : Bytes → Option IssCert) (sp : Char → Bool) (parse : UrlParse) (chains : List IssCert → List IssCert → IssCert → Bool)
    (order : List (IssCert × List Text × Bool) → List (IssCert × List Text × Bool)) (t : Text) :
    loadText cert sp parse chains order t = none ↔ ¬ ∃ header rows, SaysTable t header rows ∧
      ∀ n ∈ ["X.509_Certificate_PEM".toList, "RecordType.Name".toList, "Revocation_Status__c".toList, "Full_CRL_Issued_By_This_CA".toList, "JSON_Array_of_Partitioned_CRLs".toList], n ∈ header := by
  have hall : ∀ header, requiredColumns.all (fun n => (columnOf header n).isSome) = true ↔ ∀ n ∈ requiredColumns, n ∈ header := by
    intro header
    rw [List.all_eq_true]
    exact ⟨fun h n hn => (columnOf_isSome header n).1 (h n hn), fun h n hn => (columnOf_isSome header n).2 (h n hn)⟩
  unfold loadText
  constructor
  · rintro h ⟨header, rows, h1, h2⟩
    rw [(C110_reads t header rows).2 h1] at h
    dsimp only at h
    rw [if_pos ((hall header).2 h2)] at h
    cases h
  · intro h
    split
    · next header rows e =>
      rw [if_neg]
      intro hr
      exact h ⟨header, rows, (C110_reads t header rows).1 e, (hall header).1 hr⟩
    · rfl

/-- **C110 (loaded).** From a report with the five columns, in any order and among others, come the issuers and CRLs of exactly its rows, each with the values in the columns of these names, and the certificate that its armour stands for. -/
theorem C110_loaded (cert : Bytes → Option IssCert) (sp : Char → Bool) (parse : UrlParse) (chains : List IssCert → List IssCert → IssCert → Bool)
    (order : List (IssCert × List Text × Bool) → List (IssCert × List Text × Bool)) {t : Text} {header : List Text} {rows : List (List Text)} (h : SaysTable t header rows)
    (hreq : ∀ n ∈ ["X.509_Certificate_PEM".toList, "RecordType.Name".toList, "Revocation_Status__c".toList, "Full_CRL_Issued_By_This_CA".toList, "JSON_Array_of_Partitioned_CRLs".toList], n ∈ header) :
    ∃ says : List CcadbRow, says.length = rows.length ∧ (∀ (k : Nat) (r : List Text) (c : CcadbRow), rows[k]? = some r → says[k]? = some c → RowSays cert header r c) ∧
      loadText cert sp parse chains order t = some (loadFromDisk sp parse chains order says) := by
  refine ⟨rows.map (csvRow cert header), by simp, ?_, ?_⟩
  · intro k r c h1 h2
    rw [List.getElem?_map, h1] at h2
    cases h2
    exact csvRow_says cert (h.2 r (List.mem_of_getElem? h1)) hreq
  · unfold loadText
    rw [(C110_reads t header rows).2 h]
    dsimp only
    rw [if_pos]
    rw [List.all_eq_true]
    exact fun n hn => (columnOf_isSome header n).2 (hreq n hn)

theorem inColumn_unique {header row : List Text} {name v v' : Text} (hn : header.Nodup) (h : InColumn header row name v) (h' : InColumn header row name v') : v = v' := by
  obtain ⟨i, hi⟩ := List.mem_iff_getElem?.1 h
  obtain ⟨j, hj⟩ := List.mem_iff_getElem?.1 h'
  rw [List.getElem?_zip_eq_some] at hi hj
  have e : i = j := by
    obtain ⟨li, ei⟩ := List.getElem?_eq_some_iff.1 hi.1
    obtain ⟨lj, ej⟩ := List.getElem?_eq_some_iff.1 hj.1
    rcases Nat.lt_trichotomy i j with hlt | heq | hgt
    · exact absurd (ei.trans ej.symm) (List.pairwise_iff_getElem.1 hn i j li lj hlt)
    · exact heq
    · exact absurd (ej.trans ei.symm) (List.pairwise_iff_getElem.1 hn j i lj li hgt)
  subst e
  exact Option.some.inj (hi.2.symm.trans hj.2)

/-- **C110 (columns).** The order of the columns does not matter, nor do other columns: two reports that have the same values in the five columns give the same issuers. -/
theorem C110_columns (cert : Bytes → Option IssCert) (sp : Char → Bool) (parse : UrlParse) (chains : List IssCert → List IssCert → IssCert → Bool)
    (order : List (IssCert × List Text × Bool) → List (IssCert × List Text × Bool)) {t t' : Text} {header header' : List Text} {rows rows' : List (List Text)}
    (h : SaysTable t header rows) (h' : SaysTable t' header' rows') (hn : header.Nodup) (hlen : rows.length = rows'.length)
    (hreq : ∀ n ∈ ["X.509_Certificate_PEM".toList, "RecordType.Name".toList, "Revocation_Status__c".toList, "Full_CRL_Issued_By_This_CA".toList, "JSON_Array_of_Partitioned_CRLs".toList],
      n ∈ header ∧ n ∈ header' ∧ ∀ (k : Nat) (r r' : List Text) (v : Text), rows[k]? = some r → rows'[k]? = some r' → InColumn header' r' n v → InColumn header r n v) :
    loadText cert sp parse chains order t = loadText cert sp parse chains order t' := by
  have hf : ∀ n ∈ requiredColumns, ∀ (k : Nat) (r r' : List Text), rows[k]? = some r → rows'[k]? = some r' → rowField header r n = rowField header' r' n := by
    intro n hn' k r r' e e'
    obtain ⟨a1, a2, a3⟩ := hreq n hn'
    exact inColumn_unique hn (inColumn_rowField a1 (h.2 r (List.mem_of_getElem? e))) (a3 k r r' _ e e' (inColumn_rowField a2 (h'.2 r' (List.mem_of_getElem? e'))))
  have hrows : rows.map (csvRow cert header) = rows'.map (csvRow cert header') := by
    refine List.ext_getElem? (fun k => ?_)
    rw [List.getElem?_map, List.getElem?_map]
    cases e : rows[k]? with
    | none =>
      have : rows'[k]? = none := by
        rw [List.getElem?_eq_none_iff] at e ⊢
        omega
      rw [this]
      rfl
    | some r =>
      have hk : k < rows'.length := by
        have := (List.getElem?_eq_some_iff.1 e).1
        omega
      have e' : rows'[k]? = some rows'[k] := List.getElem?_eq_getElem hk
      rw [e']
      have hs : (csvRow cert header r).short = (csvRow cert header' rows'[k]).short := by
        rw [(csvRow_says cert (h.2 r (List.mem_of_getElem? e)) (fun n hn => (hreq n hn).1)).complete, (csvRow_says cert (h'.2 _ (List.mem_of_getElem? e')) (fun n hn => (hreq n hn).2.1)).complete]
      show some _ = some _
      have f1 := hf pemColumn (by simp [requiredColumns]) k _ _ e e'
      have f2 := hf kindColumn (by simp [requiredColumns]) k _ _ e e'
      have f3 := hf revokedColumn (by simp [requiredColumns]) k _ _ e e'
      have f4 := hf fullColumn (by simp [requiredColumns]) k _ _ e e'
      have f5 := hf jsonColumn (by simp [requiredColumns]) k _ _ e e'
      unfold csvRow at hs ⊢
      dsimp only at hs
      rw [f1, f2, f3, f4, f5, hs]
  have hall : ∀ hd : List Text, (∀ n ∈ requiredColumns, n ∈ hd) → requiredColumns.all (fun n => (columnOf hd n).isSome) = true := by
    intro hd hh
    rw [List.all_eq_true]
    exact fun n hn => (columnOf_isSome hd n).2 (hh n hn)
  unfold loadText
  rw [(C110_reads t header rows).2 h, (C110_reads t' header' rows').2 h']
  dsimp only
  rw [if_pos (hall header (fun n hn => (hreq n hn).1)), if_pos (hall header' (fun n hn => (hreq n hn).2.1)), hrows]

/-- **C110 (disclosed).** From the text of the report to the CRLs: the ones of an issuer are those disclosed in the rows. -/
theorem C110_disclosed (cert : Bytes → Option IssCert) (sp : Char → Bool) (hsp : Spec.Spaces sp) (parse : UrlParse) (chains : List IssCert → List IssCert → IssCert → Bool)
    (order : List (IssCert × List Text × Bool) → List (IssCert × List Text × Bool)) (horder : ∀ l x, x ∈ order l ↔ x ∈ l) {t : Text} {header : List Text} {rows : List (List Text)} (h : SaysTable t header rows)
    (hreq : ∀ n ∈ ["X.509_Certificate_PEM".toList, "RecordType.Name".toList, "Revocation_Status__c".toList, "Full_CRL_Issued_By_This_CA".toList, "JSON_Array_of_Partitioned_CRLs".toList], n ∈ header) :
    ∃ (says : List CcadbRow) (m : MozIssuers), says.length = rows.length ∧ (∀ (k : Nat) (r : List Text) (c : CcadbRow), rows[k]? = some r → says[k]? = some c → RowSays cert header r c) ∧
      loadText cert sp parse chains order t = some m ∧
      (Spec.WellFormed sp says → ∀ i v, HasUrl m.crls i v ↔ Spec.Discloses sp parse (Spec.Chained sp parse chains says) says i v) := by
  obtain ⟨says, h1, h2, h3⟩ := C110_loaded cert sp parse chains order h hreq
  exact ⟨says, _, h1, h2, h3, fun hw i v => hasUrl_iff_discloses sp hsp parse chains order horder says hw i v⟩

/-! ### what a cut report gives -/

/-- A report of one row, with the armour of the octet 0 as its certificate. -/
def exReport : Text := "X.509_Certificate_PEM,RecordType.Name,Revocation_Status__c,JSON_Array_of_Partitioned_CRLs,Full_CRL_Issued_By_This_CA\r\n\"-----BEGIN CERTIFICATE-----\r\nAA==\r\n-----END CERTIFICATE-----\",Intermediate Certificate,,\"[\"\"http:b\"\"]\",http:a1\r\n".toList

def exCert (bs : Bytes) : Option IssCert := if bs = [0] then some ⟨['i'], ['f'], 0⟩ else none

/-- The CRLs that are loaded. -/
def exCrls (t : Text) : Option IssuerCrlMap := (loadText exCert exSpace exParse (fun _ _ _ => true) (fun l => l) t).map MozIssuers.crls

example : exCrls exReport = some [(['i'], ["http:a1".toList, "http:b".toList])] := by decide +kernel

/-- A report cut within the last field of a row is accepted, with another URL than was disclosed. -/
theorem C110_cut_fails : exCrls (exReport.take (exReport.length - 3)) = some [(['i'], ["http:a".toList, "http:b".toList])] := by decide +kernel

/-- A report that ends after its header is accepted too, and there are no issuers. -/
theorem C110_empty_fails (cert : Bytes → Option IssCert) (sp : Char → Bool) (parse : UrlParse) (chains : List IssCert → List IssCert → IssCert → Bool) {t : Text} {header : List Text} (h : SaysTable t header [])
    (hreq : ∀ n ∈ ["X.509_Certificate_PEM".toList, "RecordType.Name".toList, "Revocation_Status__c".toList, "Full_CRL_Issued_By_This_CA".toList, "JSON_Array_of_Partitioned_CRLs".toList], n ∈ header) :
    loadText cert sp parse chains (fun l => l) t = some ⟨[], []⟩ := by
  obtain ⟨says, h1, _, h3⟩ := C110_loaded cert sp parse chains (fun l => l) h hreq
  rw [h3, List.eq_nil_of_length_eq_zero h1]
  rfl

example : exCrls (exReport.take 118) = some [] := by decide +kernel

/-- A report with a byte order mark in front is refused if the first column is one of the five: the mark becomes part of its name. -/
theorem C110_bom_fails : exCrls ('\uFEFF' :: exReport) = none := by decide +kernel

/-! ### the hypotheses can be met -/

/-- The header of the report. -/
def exHeader : List Text := ["X.509_Certificate_PEM".toList, "RecordType.Name".toList, "Revocation_Status__c".toList, "JSON_Array_of_Partitioned_CRLs".toList, "Full_CRL_Issued_By_This_CA".toList]

/-- Its row. -/
def exLine : List Text := ["-----BEGIN CERTIFICATE-----\nAA==\n-----END CERTIFICATE-----".toList, "Intermediate Certificate".toList, [], "[\"http:b\"]".toList, "http:a1".toList]

theorem exReport_says : SaysTable exReport exHeader [exLine] := (C110_reads _ _ _).1 (by decide +kernel)

theorem exHeader_required : ∀ n ∈ ["X.509_Certificate_PEM".toList, "RecordType.Name".toList, "Revocation_Status__c".toList, "Full_CRL_Issued_By_This_CA".toList, "JSON_Array_of_Partitioned_CRLs".toList], n ∈ exHeader := by decide +kernel

/-- The report has a table, so it is not refused. -/
example : loadText exCert exSpace exParse (fun _ _ _ => true) (fun l => l) exReport ≠ none := fun e => (C110_refused _ _ _ _ _ _).1 e ⟨_, _, exReport_says, exHeader_required⟩

/-- The row as the loop sees it. -/
example : (csvRow exCert exHeader exLine).cert = some ⟨['i'], ['f'], 0⟩ ∧ (csvRow exCert exHeader exLine).full = "http:a1".toList := by decide +kernel

/-- Quotes are read. -/
example : csvRecords "a,b\nx,\"y,\"\"\"\n".toList = some [["a".toList, "b".toList], ["x".toList, "y,\"".toList]] := by decide +kernel

/-- The same columns in another order, and one more. -/
def exHeader' : List Text := ["Full_CRL_Issued_By_This_CA".toList, "RecordType.Name".toList, "Name".toList, "Revocation_Status__c".toList, "JSON_Array_of_Partitioned_CRLs".toList, "X.509_Certificate_PEM".toList]
def exLine' : List Text := ["http:a1".toList, "Intermediate Certificate".toList, "n".toList, [], "[\"http:b\"]".toList, "-----BEGIN CERTIFICATE-----\nAA==\n-----END CERTIFICATE-----".toList]

theorem exOther_says : SaysTable (writeTable (fun _ => true) [exHeader', exLine']) exHeader' [exLine'] := (C110_reads _ _ _).1 (C110_written _ _ _ (by decide +kernel) (by decide +kernel) (by decide +kernel))

example : loadText exCert exSpace exParse (fun _ _ _ => true) (fun l => l) exReport = loadText exCert exSpace exParse (fun _ _ _ => true) (fun l => l) (writeTable (fun _ => true) [exHeader', exLine']) := by
  refine C110_columns _ _ _ _ _ exReport_says exOther_says (by decide +kernel) rfl (fun n hn => ⟨exHeader_required n hn, (by revert n hn; decide +kernel), ?_⟩)
  intro k r r' v e e' hv
  cases k with
  | succ k => cases e
  | zero =>
    cases e
    cases e'
    have hall : ∀ n ∈ ["X.509_Certificate_PEM".toList, "RecordType.Name".toList, "Revocation_Status__c".toList, "Full_CRL_Issued_By_This_CA".toList, "JSON_Array_of_Partitioned_CRLs".toList],
        ∀ p ∈ exHeader'.zip exLine', p.1 = n → p ∈ exHeader.zip exLine := by decide +kernel
    exact hall n hn (n, v) hv rfl

/-- Quotes, a comma and a line feed in fields. -/
example : writeTable (fun _ => false) [["a".toList, "b".toList], ["x,\ny".toList, "\"".toList]] = "a,b\r\n\"x,\ny\",\"\"\"\"\r\n".toList := by decide +kernel

/-- A report and its beginning. -/
example : SaysTable ("a,b\nx,".toList ++ "y\nz,w".toList) ["a".toList, "b".toList] [["x".toList, "y".toList], ["z".toList, "w".toList]] ∧ csvRecords "a,b\nx,".toList = some [["a".toList, "b".toList], ["x".toList, []]] :=
  ⟨(C110_reads _ _ _).1 (by decide +kernel), by decide +kernel⟩

example := C110_written (fun _ => false) ["a".toList, "b".toList] [["x,\ny".toList, "\"".toList]] (by decide) (by decide) (by decide +kernel)
example := C110_cut_partial (a := "a,b\nx,".toList) (b := "y\nz,w".toList) ((C110_reads _ ["a".toList, "b".toList] [["x".toList, "y".toList], ["z".toList, "w".toList]]).1 (by decide +kernel))
  (show csvRecords _ = some [["a".toList, "b".toList], ["x".toList, []]] by decide +kernel)
example := C110_loaded exCert exSpace exParse (fun _ _ _ => true) (fun l => l) exReport_says exHeader_required

end Verif.Props
