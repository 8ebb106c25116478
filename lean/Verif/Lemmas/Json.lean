import Verif.Spec.Json
/-!
The grammar of JSON is unambiguous.
-/
namespace Verif
open Verif.Spec

/-- Two ways to split a list into a part with a property and a rest that does not begin with it. -/
theorem span_split {P : Char → Prop} : ∀ {a a' x x' : Text}, (∀ c ∈ a, P c) → (∀ c ∈ a', P c) → (∀ c, x.head? = some c → ¬ P c) → (∀ c, x'.head? = some c → ¬ P c) →
    a ++ x = a' ++ x' → a = a' ∧ x = x'
  | [], [], _, _, _, _, _, _, h => ⟨rfl, h⟩
  | [], c :: a', x, x', _, h2, h3, _, h => by
    refine absurd (h2 c List.mem_cons_self) (h3 c ?_)
    rw [List.nil_append] at h
    rw [h]; rfl
  | c :: a, [], x, x', h1, _, _, h4, h => by
    refine absurd (h1 c List.mem_cons_self) (h4 c ?_)
    rw [List.nil_append] at h
    rw [← h]; rfl
  | c :: a, c' :: a', x, x', h1, h2, h3, h4, h => by
    rw [List.cons_append, List.cons_append, List.cons.injEq] at h
    obtain ⟨h5, h6⟩ := span_split (fun d hd => h1 d (List.mem_cons_of_mem _ hd)) (fun d hd => h2 d (List.mem_cons_of_mem _ hd)) h3 h4 h.2
    exact ⟨by rw [h.1, h5], h6⟩

/-- A character of white space. -/
def WsChar (c : Char) : Prop := c = ' ' ∨ c = '\t' ∨ c = '\n' ∨ c = '\r'

/-- A character that occurs in numbers. -/
def NumChar (c : Char) : Prop := (∃ n, Digit c n) ∨ c = '-' ∨ c = '+' ∨ c = '.' ∨ c = 'e' ∨ c = 'E'

/-- A character with which no value begins. -/
def EndChar (c : Char) : Prop := WsChar c ∨ c = ']' ∨ c = '}' ∨ c = ',' ∨ c = ':'

theorem char_eq {c d : Char} (h : c.toNat = d.toNat) : c = d := Char.ext (UInt32.toNat_inj.1 h)

theorem digit_not_end {c : Char} {n : Nat} (h : Digit c n) : ¬ EndChar c := by
  obtain ⟨h1, h2⟩ := h
  rintro ((rfl | rfl | rfl | rfl) | rfl | rfl | rfl | rfl) <;> simp at h2 <;> omega

theorem not_numChar_of_end {c : Char} (h : EndChar c) : ¬ NumChar c := by
  rintro (⟨n, hn⟩ | h1)
  · exact digit_not_end hn h
  · rcases h with (rfl | rfl | rfl | rfl) | rfl | rfl | rfl | rfl <;> simp at h1

theorem ws_end {w : Text} (h : Ws w) {x : Text} (hx : ∀ c, x.head? = some c → EndChar c) : ∀ c, (w ++ x).head? = some c → EndChar c := by
  cases w with
  | nil => exact hx
  | cons d w =>
    intro c hc
    cases hc
    exact .inl (h d List.mem_cons_self)

/-! ### strings -/

theorem hexDigit_unique {c : Char} {m n : Nat} (h : HexDigit c m) (h' : HexDigit c n) : m = n := by
  unfold HexDigit at h h'
  omega

theorem hex4_unique {t t' x x' : Text} {m n : Nat} (h : Hex4 t m) (h' : Hex4 t' n) (e : t ++ x = t' ++ x') : m = n ∧ t = t' ∧ x = x' := by
  obtain ⟨a, b, c, d, w, x1, y, z, rfl, h1, h2, h3, h4, rfl⟩ := h
  obtain ⟨a', b', c', d', w', x1', y', z', rfl, h1', h2', h3', h4', rfl⟩ := h'
  simp only [List.cons_append, List.nil_append, List.cons.injEq] at e
  obtain ⟨rfl, rfl, rfl, rfl, e⟩ := e
  rw [hexDigit_unique h1 h1', hexDigit_unique h2 h2', hexDigit_unique h3 h3', hexDigit_unique h4 h4']
  exact ⟨rfl, rfl, e⟩

theorem escape_not_u {c : Char} (h : Escape 'u' c) : False := by
  unfold Escape at h
  simp at h

theorem escape_unique {x c c' : Char} (h : Escape x c) (h' : Escape x c') : c = c' := by
  unfold Escape at h h'
  rcases h with ⟨rfl, h⟩ | ⟨rfl, h⟩ | ⟨rfl, h⟩ | ⟨rfl, h⟩ | ⟨rfl, h⟩ | ⟨rfl, h⟩ | ⟨rfl, h⟩ | ⟨rfl, h⟩ <;> simp at h' <;>
    first
      | rw [h, h']
      | exact char_eq (by rw [h, h'])

theorem char_not_surrogate (c : Char) : ¬ (55296 ≤ c.toNat ∧ c.toNat < 57344) := by
  have hc : c.toNat = c.val.toNat := rfl
  rcases c.valid with h | h <;> omega

/-- Strings are read in one way only. -/
theorem chars_unique {s t : Text} (h : Chars s t) : ∀ {s' t' r r' : Text}, Chars s' t' → t ++ '"' :: r = t' ++ '"' :: r' → s = s' ∧ t = t' ∧ r = r' := by
  induction h with
  | nil =>
    intro s' t' r r' h' e
    cases h' with
    | nil => simpa using e
    | plain _ h2 _ _ => simp only [List.nil_append, List.cons_append, List.cons.injEq] at e; exact absurd e.1.symm h2
    | escape => simp at e
    | hex => simp at e
    | pair => simp at e
  | @plain c s t h1 h2 h3 _ ih =>
    intro s' t' r r' h' e
    cases h' with
    | nil => simp only [List.nil_append, List.cons_append, List.cons.injEq] at e; exact absurd e.1 h2
    | @plain c' s1 t1 _ _ _ h4 =>
      simp only [List.cons_append, List.cons.injEq] at e
      obtain ⟨rfl, rfl, h5⟩ := ih h4 e.2
      rw [e.1]
      exact ⟨rfl, rfl, h5⟩
    | escape => simp only [List.cons_append, List.cons.injEq] at e; exact absurd e.1 h3
    | hex => simp only [List.cons_append, List.cons.injEq] at e; exact absurd e.1 h3
    | pair => simp only [List.cons_append, List.cons.injEq] at e; exact absurd e.1 h3
  | @escape x c s t h1 _ ih =>
    intro s' t' r r' h' e
    cases h' with
    | nil => simp at e
    | plain _ _ h3 _ => simp only [List.cons_append, List.cons.injEq] at e; exact absurd e.1.symm h3
    | escape h4 h5 =>
      simp only [List.cons_append, List.cons.injEq, true_and] at e
      obtain ⟨rfl, e⟩ := e
      obtain ⟨rfl, rfl, h6⟩ := ih h5 e
      rw [escape_unique h1 h4]
      exact ⟨rfl, rfl, h6⟩
    | hex => simp only [List.cons_append, List.cons.injEq, true_and] at e; rw [e.1] at h1; exact (escape_not_u h1).elim
    | pair => simp only [List.cons_append, List.cons.injEq, true_and] at e; rw [e.1] at h1; exact (escape_not_u h1).elim
  | @hex c h s t h1 _ ih =>
    intro s' t' r r' h' e
    cases h' with
    | nil => simp at e
    | plain _ _ h3 _ => simp only [List.cons_append, List.cons.injEq] at e; exact absurd e.1.symm h3
    | escape h4 _ => simp only [List.cons_append, List.cons.injEq, true_and] at e; rw [← e.1] at h4; exact (escape_not_u h4).elim
    | hex h4 h5 =>
      simp only [List.cons_append, List.cons.injEq, true_and, List.append_assoc] at e
      obtain ⟨h6, rfl, e2⟩ := hex4_unique h1 h4 e
      obtain ⟨rfl, rfl, h7⟩ := ih h5 e2
      rw [char_eq h6]
      exact ⟨rfl, rfl, h7⟩
    | pair h4 h5 h6 =>
      simp only [List.cons_append, List.cons.injEq, true_and, List.append_assoc] at e
      obtain ⟨h8, _, _⟩ := hex4_unique h1 h4 e
      exact absurd ⟨by omega, by omega⟩ (char_not_surrogate c)
  | @pair c hi lo s t m n h1 h2 h3 h4 h5 h6 h7 _ ih =>
    intro s' t' r r' h' e
    cases h' with
    | nil => simp at e
    | plain _ _ h8 _ => simp only [List.cons_append, List.cons.injEq] at e; exact absurd e.1.symm h8
    | escape h8 _ => simp only [List.cons_append, List.cons.injEq, true_and] at e; rw [← e.1] at h8; exact (escape_not_u h8).elim
    | @hex c' _ _ _ h8 _ =>
      simp only [List.cons_append, List.cons.injEq, true_and, List.append_assoc] at e
      obtain ⟨h9, _, _⟩ := hex4_unique h1 h8 e
      exact absurd ⟨by omega, by omega⟩ (char_not_surrogate c')
    | pair k1 _ _ k4 _ _ k7 k8 =>
      simp only [List.cons_append, List.cons.injEq, true_and, List.append_assoc] at e
      obtain ⟨rfl, rfl, e2⟩ := hex4_unique h1 k1 e
      simp only [List.cons.injEq, true_and] at e2
      obtain ⟨rfl, rfl, e3⟩ := hex4_unique h4 k4 e2
      obtain ⟨rfl, rfl, h10⟩ := ih k8 e3
      rw [char_eq (h7.trans k7.symm)]
      exact ⟨rfl, rfl, h10⟩

theorem string_unique {s s' t t' r r' : Text} (h : IsString s t) (h' : IsString s' t') (e : t ++ r = t' ++ r') : s = s' ∧ t = t' ∧ r = r' := by
  obtain ⟨u, rfl, hu⟩ := h
  obtain ⟨u', rfl, hu'⟩ := h'
  simp only [List.cons_append, List.append_assoc, List.nil_append, List.cons.injEq, true_and] at e
  obtain ⟨rfl, rfl, h3⟩ := chars_unique hu hu' e
  exact ⟨rfl, rfl, h3⟩

/-! ### numbers -/

theorem digits_numChar {t : Text} (h : Digits t) : ∀ c ∈ t, NumChar c := fun c hc => .inl (h.2 c hc)

theorem number_chars {t : Text} (h : IsNumber t) : (∀ c ∈ t, NumChar c) ∧ ∃ c u, t = c :: u ∧ ((∃ n, Digit c n) ∨ c = '-') := by
  obtain ⟨m, i, f, e, rfl, hm, hi, hf, he⟩ := h
  have hi1 : ∀ c ∈ i, ∃ n, Digit c n := by
    rcases hi with rfl | hi
    · intro c hc
      rw [List.mem_singleton] at hc
      subst hc
      exact ⟨0, by decide, rfl⟩
    · exact hi.1.2
  constructor
  · intro c hc
    rcases List.mem_append.1 hc with hc | hc
    · rcases hm with rfl | rfl
      · cases hc
      · rw [List.mem_singleton] at hc
        exact .inr (.inl hc)
    · rcases List.mem_append.1 hc with hc | hc
      · exact .inl (hi1 c hc)
      · rcases List.mem_append.1 hc with hc | hc
        · rcases hf with rfl | ⟨d, rfl, hd⟩
          · cases hc
          · rcases List.mem_cons.1 hc with rfl | hc
            · exact .inr (.inr (.inr (.inl rfl)))
            · exact digits_numChar hd c hc
        · rcases he with rfl | ⟨x, s, d, rfl, hx, hs, hd⟩
          · cases hc
          · rcases List.mem_cons.1 hc with rfl | hc
            · exact .inr (.inr (.inr (.inr hx)))
            · rcases List.mem_append.1 hc with hc | hc
              · rcases hs with rfl | rfl | rfl
                · cases hc
                · rw [List.mem_singleton] at hc
                  exact .inr (.inr (.inl hc))
                · rw [List.mem_singleton] at hc
                  exact .inr (.inl hc)
              · exact digits_numChar hd c hc
  · rcases hm with rfl | rfl
    · cases i with
      | nil =>
        rcases hi with hi | hi
        · cases hi
        · exact absurd rfl hi.1.1
      | cons c i => exact ⟨c, _, rfl, .inl (hi1 c List.mem_cons_self)⟩
    · exact ⟨'-', _, rfl, .inr rfl⟩

/-! ### values -/

/-- The character with which a value begins. -/
theorem json_start {p : Piece} {t : Text} (h : Json p t) : ∀ v, p = .val v → ∃ c u, t = c :: u ∧ ¬ EndChar c := by
  have hd : ∀ {c : Char}, (c = 'n' ∨ c = 't' ∨ c = 'f' ∨ c = '-' ∨ c = '"' ∨ c = '[' ∨ c = '{') → ¬ EndChar c := by
    rintro c (rfl | rfl | rfl | rfl | rfl | rfl | rfl) <;> unfold EndChar WsChar <;> decide
  cases h with
  | null => intro _ _; exact ⟨_, _, rfl, hd (by simp)⟩
  | true => intro _ _; exact ⟨_, _, rfl, hd (by simp)⟩
  | false => intro _ _; exact ⟨_, _, rfl, hd (by simp)⟩
  | num hn =>
    intro _ _
    obtain ⟨_, c, u, rfl, ⟨n, h2⟩ | h2⟩ := number_chars hn
    · exact ⟨_, _, rfl, digit_not_end h2⟩
    · exact ⟨_, _, rfl, hd (by simp [h2])⟩
  | str hs =>
    intro _ _
    obtain ⟨u, rfl, _⟩ := hs
    exact ⟨_, _, rfl, hd (by simp)⟩
  | arr0 _ => intro _ _; exact ⟨_, _, rfl, hd (by simp)⟩
  | arr _ => intro _ _; exact ⟨_, _, rfl, hd (by simp)⟩
  | obj0 _ => intro _ _; exact ⟨_, _, rfl, hd (by simp)⟩
  | obj _ => intro _ _; exact ⟨_, _, rfl, hd (by simp)⟩
  | elem => intro _ h; cases h
  | elems => intro _ h; cases h
  | member => intro _ h; cases h
  | members => intro _ h; cases h

/-- What may follow a piece. -/
def Stop : Piece → Text → Prop
  | .val (.num _), r => ∀ c, r.head? = some c → ¬ NumChar c
  | .val _, _ => True
  | .elems _, r => ∃ u, r = ']' :: u
  | .members _, r => ∃ u, r = '}' :: u

/-- The same kind of piece. -/
def Same : Piece → Piece → Prop
  | .val _, .val _ => True
  | .elems _, .elems _ => True
  | .members _, .members _ => True
  | _, _ => False

theorem stop_of_end {v : JVal} {r : Text} (h : ∀ c, r.head? = some c → EndChar c) : Stop (.val v) r := by
  cases v <;> first | trivial | exact fun c hc => not_numChar_of_end (h c hc)

theorem ws_split {a a' x x' : Text} (h : Ws a) (h' : Ws a') (hx : ∀ c, x.head? = some c → ¬ WsChar c) (hx' : ∀ c, x'.head? = some c → ¬ WsChar c) (e : a ++ x = a' ++ x') : a = a' ∧ x = x' :=
  span_split (P := WsChar) h h' hx hx' e

theorem string_head {s x : Text} (h : IsString s x) (r : Text) : ∀ c, (x ++ r).head? = some c → ¬ WsChar c := by
  obtain ⟨u, rfl, _⟩ := h
  intro c hc
  cases hc
  unfold WsChar
  decide

theorem json_head {v : JVal} {x : Text} (h : Json (.val v) x) (r : Text) : ∀ c, (x ++ r).head? = some c → ¬ WsChar c := by
  obtain ⟨d, u, rfl, hd⟩ := json_start h v rfl
  intro c hc
  cases hc
  exact fun hw => hd (.inl hw)

theorem cons_head {d : Char} (hd : ¬ WsChar d) (r : Text) : ∀ c, (d :: r).head? = some c → ¬ WsChar c := by
  intro c hc
  cases hc
  exact hd

theorem comma_ws : ¬ WsChar ',' := by unfold WsChar; decide
theorem colon_ws : ¬ WsChar ':' := by unfold WsChar; decide
theorem bracket_ws : ¬ WsChar ']' := by unfold WsChar; decide
theorem brace_ws : ¬ WsChar '}' := by unfold WsChar; decide

theorem cons_end {d : Char} (hd : EndChar d) (r : Text) : ∀ c, (d :: r).head? = some c → EndChar c := by
  intro c hc
  cases hc
  exact hd

theorem comma_end : EndChar ',' := by unfold EndChar; simp
theorem bracket_end : EndChar ']' := by unfold EndChar; simp
theorem brace_end : EndChar '}' := by unfold EndChar; simp

/-- A value does not begin like the end of an array or object behind white space. -/
theorem not_close {w a x y : Text} {d : Char} (hw : Ws w) (ha : Ws a) (hd : ¬ WsChar d) (hx : ∀ c, x.head? = some c → ¬ WsChar c ∧ c ≠ d) (e : w ++ d :: y = a ++ x) : False := by
  obtain ⟨_, h2⟩ := ws_split hw ha (cons_head hd y) (fun c hc => (hx c hc).1) e
  exact (hx d (by rw [← h2]; rfl)).2 rfl

theorem json_head_ne {v : JVal} {x : Text} (h : Json (.val v) x) (r : Text) (d : Char) (hd : EndChar d) : ∀ c, (x ++ r).head? = some c → ¬ WsChar c ∧ c ≠ d := by
  obtain ⟨d', u, rfl, hd'⟩ := json_start h v rfl
  intro c hc
  cases hc
  exact ⟨fun hw => hd' (.inl hw), fun h => hd' (h ▸ hd)⟩

theorem string_head_ne {s x : Text} (h : IsString s x) (r : Text) : ∀ c, (x ++ r).head? = some c → ¬ WsChar c ∧ c ≠ '}' := by
  obtain ⟨u, rfl, _⟩ := h
  intro c hc
  cases hc
  unfold WsChar
  decide

theorem elems_not_close {l : List JVal} {t w r y : Text} (h : Json (.elems l) t) (hw : Ws w) (e : w ++ ']' :: y = t ++ r) : False := by
  cases h with
  | elem ha hv hb =>
    rw [List.append_assoc, List.append_assoc] at e
    exact not_close hw ha bracket_ws (json_head_ne hv _ _ bracket_end) e
  | elems ha hv hb _ =>
    rw [List.append_assoc, List.append_assoc] at e
    exact not_close hw ha bracket_ws (json_head_ne hv _ _ bracket_end) e

theorem members_not_close {l : List (Text × JVal)} {t w r y : Text} (h : Json (.members l) t) (hw : Ws w) (e : w ++ '}' :: y = t ++ r) : False := by
  cases h with
  | member ha hk _ _ _ _ =>
    rw [List.append_assoc, List.append_assoc] at e
    exact not_close hw ha brace_ws (string_head_ne hk _) e
  | members ha hk _ _ _ _ _ =>
    rw [List.append_assoc, List.append_assoc] at e
    exact not_close hw ha brace_ws (string_head_ne hk _) e

/-- The first character of a number. -/
theorem number_first {t r : Text} {d : Char} {u : Text} (h : IsNumber t) (hd : d = 'n' ∨ d = 't' ∨ d = 'f' ∨ d = '"' ∨ d = '[' ∨ d = '{') (e : t ++ r = d :: u) : False := by
  obtain ⟨_, c, v, rfl, h2⟩ := number_chars h
  rw [List.cons_append, List.cons.injEq] at e
  rw [e.1] at h2
  rcases h2 with ⟨n, h3, h4⟩ | h2
  · rcases hd with rfl | rfl | rfl | rfl | rfl | rfl <;> simp at h4 <;> omega
  · rcases hd with rfl | rfl | rfl | rfl | rfl | rfl <;> simp at h2

/-- Pieces of JSON are read in one way only. -/
theorem json_unique {p : Piece} {t : Text} (h : Json p t) : ∀ {p' : Piece} {t' r r' : Text}, Json p' t' → Same p p' → Stop p r → Stop p' r' → t ++ r = t' ++ r' → p = p' ∧ t = t' ∧ r = r' := by
  induction h with
  | null =>
    intro p' t' r r' h' hs _ _ e
    cases h' with
    | null => simpa using e
    | num hn => exact (number_first hn (by simp) e.symm).elim
    | str hx => obtain ⟨u, rfl, _⟩ := hx; simp at e
    | elem => cases hs
    | elems => cases hs
    | member => cases hs
    | members => cases hs
    | _ => simp at e
  | true =>
    intro p' t' r r' h' hs _ _ e
    cases h' with
    | true => simpa using e
    | num hn => exact (number_first hn (by simp) e.symm).elim
    | str hx => obtain ⟨u, rfl, _⟩ := hx; simp at e
    | elem => cases hs
    | elems => cases hs
    | member => cases hs
    | members => cases hs
    | _ => simp at e
  | false =>
    intro p' t' r r' h' hs _ _ e
    cases h' with
    | false => simpa using e
    | num hn => exact (number_first hn (by simp) e.symm).elim
    | str hx => obtain ⟨u, rfl, _⟩ := hx; simp at e
    | elem => cases hs
    | elems => cases hs
    | member => cases hs
    | members => cases hs
    | _ => simp at e
  | num hn =>
    intro p' t' r r' h' hs h1 h2 e
    cases h' with
    | num hn' =>
      obtain ⟨rfl, h3⟩ := span_split (number_chars hn).1 (number_chars hn').1 h1 h2 e
      exact ⟨rfl, rfl, h3⟩
    | str hx => obtain ⟨u, rfl, _⟩ := hx; exact (number_first hn (by simp) e).elim
    | elem => cases hs
    | elems => cases hs
    | member => cases hs
    | members => cases hs
    | _ => exact (number_first hn (by simp) e).elim
  | str hx =>
    intro p' t' r r' h' hs _ _ e
    cases h' with
    | str hx' =>
      obtain ⟨rfl, rfl, h3⟩ := string_unique hx hx' e
      exact ⟨rfl, rfl, h3⟩
    | num hn => obtain ⟨u, rfl, _⟩ := hx; exact (number_first hn (by simp) e.symm).elim
    | elem => cases hs
    | elems => cases hs
    | member => cases hs
    | members => cases hs
    | _ => obtain ⟨u, rfl, _⟩ := hx; simp at e
  | @arr0 w hw =>
    intro p' t' r r' h' hs _ _ e
    cases h' with
    | num hn => exact (number_first hn (by simp) e.symm).elim
    | str hx => obtain ⟨u, rfl, _⟩ := hx; simp at e
    | arr0 hw' =>
      simp only [List.cons_append, List.append_assoc, List.nil_append, List.cons.injEq, true_and] at e
      obtain ⟨rfl, h3⟩ := ws_split hw hw' (cons_head bracket_ws _) (cons_head bracket_ws _) e
      rw [List.cons.injEq] at h3
      exact ⟨rfl, rfl, h3.2⟩
    | arr hl =>
      simp only [List.cons_append, List.append_assoc, List.nil_append, List.cons.injEq, true_and] at e
      exact (elems_not_close hl hw e).elim
    | elem => cases hs
    | elems => cases hs
    | member => cases hs
    | members => cases hs
    | _ => simp at e
  | @arr l t hl ih =>
    intro p' t' r r' h' hs _ _ e
    cases h' with
    | num hn => exact (number_first hn (by simp) e.symm).elim
    | str hx => obtain ⟨u, rfl, _⟩ := hx; simp at e
    | arr0 hw' =>
      simp only [List.cons_append, List.append_assoc, List.nil_append, List.cons.injEq, true_and] at e
      exact (elems_not_close hl hw' e.symm).elim
    | arr hl' =>
      simp only [List.cons_append, List.append_assoc, List.nil_append, List.cons.injEq, true_and] at e
      obtain ⟨h3, rfl, h4⟩ := ih hl' trivial ⟨_, rfl⟩ ⟨_, rfl⟩ e
      cases h3
      rw [List.cons.injEq] at h4
      exact ⟨rfl, rfl, h4.2⟩
    | elem => cases hs
    | elems => cases hs
    | member => cases hs
    | members => cases hs
    | _ => simp at e
  | @obj0 w hw =>
    intro p' t' r r' h' hs _ _ e
    cases h' with
    | num hn => exact (number_first hn (by simp) e.symm).elim
    | str hx => obtain ⟨u, rfl, _⟩ := hx; simp at e
    | obj0 hw' =>
      simp only [List.cons_append, List.append_assoc, List.nil_append, List.cons.injEq, true_and] at e
      obtain ⟨rfl, h3⟩ := ws_split hw hw' (cons_head brace_ws _) (cons_head brace_ws _) e
      rw [List.cons.injEq] at h3
      exact ⟨rfl, rfl, h3.2⟩
    | obj hl =>
      simp only [List.cons_append, List.append_assoc, List.nil_append, List.cons.injEq, true_and] at e
      exact (members_not_close hl hw e).elim
    | elem => cases hs
    | elems => cases hs
    | member => cases hs
    | members => cases hs
    | _ => simp at e
  | @obj l t hl ih =>
    intro p' t' r r' h' hs _ _ e
    cases h' with
    | num hn => exact (number_first hn (by simp) e.symm).elim
    | str hx => obtain ⟨u, rfl, _⟩ := hx; simp at e
    | obj0 hw' =>
      simp only [List.cons_append, List.append_assoc, List.nil_append, List.cons.injEq, true_and] at e
      exact (members_not_close hl hw' e.symm).elim
    | obj hl' =>
      simp only [List.cons_append, List.append_assoc, List.nil_append, List.cons.injEq, true_and] at e
      obtain ⟨h3, rfl, h4⟩ := ih hl' trivial ⟨_, rfl⟩ ⟨_, rfl⟩ e
      cases h3
      rw [List.cons.injEq] at h4
      exact ⟨rfl, rfl, h4.2⟩
    | elem => cases hs
    | elems => cases hs
    | member => cases hs
    | members => cases hs
    | _ => simp at e
  | @elem v a t b ha hv hb ih =>
    intro p' t' r r' h' hs h1 h2 e
    obtain ⟨r, rfl⟩ := h1
    cases h' with
    | @elem v' a' t' b' ha' hv' hb' =>
      obtain ⟨r', rfl⟩ := h2
      simp only [List.append_assoc] at e
      obtain ⟨rfl, e2⟩ := ws_split ha ha' (json_head hv _) (json_head hv' _) e
      obtain ⟨h3, rfl, e3⟩ := ih hv' trivial (stop_of_end (ws_end hb (cons_end bracket_end _))) (stop_of_end (ws_end hb' (cons_end bracket_end _))) e2
      cases h3
      obtain ⟨rfl, e4⟩ := ws_split hb hb' (cons_head bracket_ws _) (cons_head bracket_ws _) e3
      exact ⟨rfl, rfl, e4⟩
    | @elems v' l' a' t' b' u' ha' hv' hb' hl' =>
      simp only [List.append_assoc, List.cons_append] at e
      obtain ⟨rfl, e2⟩ := ws_split ha ha' (json_head hv _) (json_head hv' _) e
      obtain ⟨h3, rfl, e3⟩ := ih hv' trivial (stop_of_end (ws_end hb (cons_end bracket_end _))) (stop_of_end (ws_end hb' (cons_end comma_end _))) e2
      obtain ⟨_, e4⟩ := ws_split hb hb' (cons_head bracket_ws _) (cons_head comma_ws _) e3
      simp at e4
    | member => cases hs
    | members => cases hs
    | _ => cases hs
  | @elems v l a t b u ha hv hb hl ih1 ih2 =>
    intro p' t' r r' h' hs h1 h2 e
    cases h' with
    | @elem v' a' t' b' ha' hv' hb' =>
      obtain ⟨r', rfl⟩ := h2
      simp only [List.append_assoc, List.cons_append] at e
      obtain ⟨rfl, e2⟩ := ws_split ha ha' (json_head hv _) (json_head hv' _) e
      obtain ⟨h3, rfl, e3⟩ := ih1 hv' trivial (stop_of_end (ws_end hb (cons_end comma_end _))) (stop_of_end (ws_end hb' (cons_end bracket_end _))) e2
      obtain ⟨_, e4⟩ := ws_split hb hb' (cons_head comma_ws _) (cons_head bracket_ws _) e3
      simp at e4
    | @elems v' l' a' t' b' u' ha' hv' hb' hl' =>
      simp only [List.append_assoc, List.cons_append] at e
      obtain ⟨rfl, e2⟩ := ws_split ha ha' (json_head hv _) (json_head hv' _) e
      obtain ⟨h3, rfl, e3⟩ := ih1 hv' trivial (stop_of_end (ws_end hb (cons_end comma_end _))) (stop_of_end (ws_end hb' (cons_end comma_end _))) e2
      cases h3
      obtain ⟨rfl, e4⟩ := ws_split hb hb' (cons_head comma_ws _) (cons_head comma_ws _) e3
      rw [List.cons.injEq] at e4
      obtain ⟨h5, rfl, e5⟩ := ih2 hl' trivial h1 h2 e4.2
      cases h5
      exact ⟨rfl, rfl, e5⟩
    | member => cases hs
    | members => cases hs
    | _ => cases hs
  | @member k v a x b c t d ha hk hb hc hv hd ih =>
    intro p' t' r r' h' hs h1 h2 e
    obtain ⟨r, rfl⟩ := h1
    cases h' with
    | @member k' v' a' x' b' c' t' d' ha' hk' hb' hc' hv' hd' =>
      obtain ⟨r', rfl⟩ := h2
      simp only [List.append_assoc, List.cons_append] at e
      obtain ⟨rfl, e2⟩ := ws_split ha ha' (string_head hk _) (string_head hk' _) e
      obtain ⟨rfl, rfl, e3⟩ := string_unique hk hk' e2
      obtain ⟨rfl, e4⟩ := ws_split hb hb' (cons_head colon_ws _) (cons_head colon_ws _) e3
      rw [List.cons.injEq] at e4
      obtain ⟨rfl, e5⟩ := ws_split hc hc' (json_head hv _) (json_head hv' _) e4.2
      obtain ⟨h3, rfl, e6⟩ := ih hv' trivial (stop_of_end (ws_end hd (cons_end brace_end _))) (stop_of_end (ws_end hd' (cons_end brace_end _))) e5
      cases h3
      obtain ⟨rfl, e7⟩ := ws_split hd hd' (cons_head brace_ws _) (cons_head brace_ws _) e6
      exact ⟨rfl, rfl, e7⟩
    | @members k' v' l' a' x' b' c' t' d' u' ha' hk' hb' hc' hv' hd' hl' =>
      simp only [List.append_assoc, List.cons_append] at e
      obtain ⟨rfl, e2⟩ := ws_split ha ha' (string_head hk _) (string_head hk' _) e
      obtain ⟨rfl, rfl, e3⟩ := string_unique hk hk' e2
      obtain ⟨rfl, e4⟩ := ws_split hb hb' (cons_head colon_ws _) (cons_head colon_ws _) e3
      rw [List.cons.injEq] at e4
      obtain ⟨rfl, e5⟩ := ws_split hc hc' (json_head hv _) (json_head hv' _) e4.2
      obtain ⟨h3, rfl, e6⟩ := ih hv' trivial (stop_of_end (ws_end hd (cons_end brace_end _))) (stop_of_end (ws_end hd' (cons_end comma_end _))) e5
      obtain ⟨_, e7⟩ := ws_split hd hd' (cons_head brace_ws _) (cons_head comma_ws _) e6
      simp at e7
    | elem => cases hs
    | elems => cases hs
    | _ => cases hs
  | @members k v l a x b c t d u ha hk hb hc hv hd hl ih1 ih2 =>
    intro p' t' r r' h' hs h1 h2 e
    cases h' with
    | @member k' v' a' x' b' c' t' d' ha' hk' hb' hc' hv' hd' =>
      obtain ⟨r', rfl⟩ := h2
      simp only [List.append_assoc, List.cons_append] at e
      obtain ⟨rfl, e2⟩ := ws_split ha ha' (string_head hk _) (string_head hk' _) e
      obtain ⟨rfl, rfl, e3⟩ := string_unique hk hk' e2
      obtain ⟨rfl, e4⟩ := ws_split hb hb' (cons_head colon_ws _) (cons_head colon_ws _) e3
      rw [List.cons.injEq] at e4
      obtain ⟨rfl, e5⟩ := ws_split hc hc' (json_head hv _) (json_head hv' _) e4.2
      obtain ⟨h3, rfl, e6⟩ := ih1 hv' trivial (stop_of_end (ws_end hd (cons_end comma_end _))) (stop_of_end (ws_end hd' (cons_end brace_end _))) e5
      obtain ⟨_, e7⟩ := ws_split hd hd' (cons_head comma_ws _) (cons_head brace_ws _) e6
      simp at e7
    | @members k' v' l' a' x' b' c' t' d' u' ha' hk' hb' hc' hv' hd' hl' =>
      simp only [List.append_assoc, List.cons_append] at e
      obtain ⟨rfl, e2⟩ := ws_split ha ha' (string_head hk _) (string_head hk' _) e
      obtain ⟨rfl, rfl, e3⟩ := string_unique hk hk' e2
      obtain ⟨rfl, e4⟩ := ws_split hb hb' (cons_head colon_ws _) (cons_head colon_ws _) e3
      rw [List.cons.injEq] at e4
      obtain ⟨rfl, e5⟩ := ws_split hc hc' (json_head hv _) (json_head hv' _) e4.2
      obtain ⟨h3, rfl, e6⟩ := ih1 hv' trivial (stop_of_end (ws_end hd (cons_end comma_end _))) (stop_of_end (ws_end hd' (cons_end comma_end _))) e5
      cases h3
      obtain ⟨rfl, e7⟩ := ws_split hd hd' (cons_head comma_ws _) (cons_head comma_ws _) e6
      rw [List.cons.injEq] at e7
      obtain ⟨h5, rfl, e8⟩ := ih2 hl' trivial h1 h2 e7.2
      cases h5
      exact ⟨rfl, rfl, e8⟩
    | elem => cases hs
    | elems => cases hs
    | _ => cases hs

end Verif
