import Verif.Model.Pem
import Verif.Spec.Pem
import Verif.Lemmas.Serial
import Verif.Lemmas.Text
/-!
Lemmas about base64 and textual armour.
-/
namespace Verif
open Verif.Spec

/-! ### base64 -/

theorem alphabet64_digit : ∀ n < 64, alphabet64[n]? = some (b64Digit false n) := by decide

theorem digit64_eq {d : Nat} {c : Char} (h : Digit64 d c) : d < 64 ∧ c = b64Digit false d := by
  have hd : d < 64 := by
    have := (List.getElem?_eq_some_iff.1 h).1
    have e : alphabet64.length = 64 := by decide
    omega
  refine ⟨hd, ?_⟩
  have := alphabet64_digit d hd
  unfold Digit64 at h
  rw [this] at h
  exact (Option.some.inj h).symm

theorem digit64_of {d : Nat} (h : d < 64) : Digit64 d (b64Digit false d) := alphabet64_digit d h

theorem base64_encode {bs : Bytes} {t : Text} (h : Base64 bs t) : t = b64Encode false bs := by
  induction h with
  | nil => rfl
  | @one a d e x y hx hy hn =>
    obtain ⟨hd, rfl⟩ := digit64_eq hx
    obtain ⟨he, rfl⟩ := digit64_eq hy
    simp only [numB, List.length_cons, List.length_nil] at hn
    have ha := a.toNat_lt
    unfold b64Encode
    dsimp only
    have e1 : a.toNat * 65536 / 262144 = d := by omega
    have e2 : a.toNat * 65536 / 4096 % 64 = e := by omega
    rw [e1, e2]
  | @two a b d e f x y z hx hy hz hn =>
    obtain ⟨hd, rfl⟩ := digit64_eq hx
    obtain ⟨he, rfl⟩ := digit64_eq hy
    obtain ⟨hf, rfl⟩ := digit64_eq hz
    simp only [numB, List.length_cons, List.length_nil] at hn
    have ha := a.toNat_lt
    have hb := b.toNat_lt
    unfold b64Encode
    dsimp only
    have e1 : (a.toNat * 65536 + b.toNat * 256) / 262144 = d := by omega
    have e2 : (a.toNat * 65536 + b.toNat * 256) / 4096 % 64 = e := by omega
    have e3 : (a.toNat * 65536 + b.toNat * 256) / 64 % 64 = f := by omega
    rw [e1, e2, e3]
  | @three a b c d e f g x y z w bs t hx hy hz hw hn _ ih =>
    obtain ⟨hd, rfl⟩ := digit64_eq hx
    obtain ⟨he, rfl⟩ := digit64_eq hy
    obtain ⟨hf, rfl⟩ := digit64_eq hz
    obtain ⟨hg, rfl⟩ := digit64_eq hw
    simp only [numB, List.length_cons, List.length_nil] at hn
    have ha := a.toNat_lt
    have hb := b.toNat_lt
    have hc := c.toNat_lt
    unfold b64Encode
    dsimp only
    have e1 : (a.toNat * 65536 + b.toNat * 256 + c.toNat) / 262144 = d := by omega
    have e2 : (a.toNat * 65536 + b.toNat * 256 + c.toNat) / 4096 % 64 = e := by omega
    have e3 : (a.toNat * 65536 + b.toNat * 256 + c.toNat) / 64 % 64 = f := by omega
    have e4 : (a.toNat * 65536 + b.toNat * 256 + c.toNat) % 64 = g := by omega
    rw [e1, e2, e3, e4, ih]

theorem encode_base64 : ∀ bs : Bytes, Base64 bs (b64Encode false bs)
  | [] => Base64.nil
  | [a] => by
    have ha := a.toNat_lt
    unfold b64Encode
    dsimp only
    exact Base64.one (digit64_of (by omega)) (digit64_of (by omega)) (by simp only [numB, List.length_cons, List.length_nil]; omega)
  | [a, b] => by
    have ha := a.toNat_lt
    have hb := b.toNat_lt
    unfold b64Encode
    dsimp only
    exact Base64.two (digit64_of (by omega)) (digit64_of (by omega)) (digit64_of (by omega))
      (by simp only [numB, List.length_cons, List.length_nil]; omega)
  | a :: b :: c :: rest => by
    have ha := a.toNat_lt
    have hb := b.toNat_lt
    have hc := c.toNat_lt
    unfold b64Encode
    dsimp only
    exact Base64.three (digit64_of (by omega)) (digit64_of (by omega)) (digit64_of (by omega)) (digit64_of (by omega))
      (by simp only [numB, List.length_cons, List.length_nil]; omega) (encode_base64 rest)

/-- What every character of base64 satisfies. -/
def Safe64 (c : Char) : Prop :=
  isB64 c = true ∧ c ≠ '-' ∧ c ≠ ':' ∧ c ≠ '\n' ∧ c ≠ '\r' ∧ isSpacing c = false ∧ isAsciiSpace c = false ∧ c.toNat < 128

instance (c : Char) : Decidable (Safe64 c) := by unfold Safe64; infer_instance

theorem safe_digit : ∀ n < 64, Safe64 (b64Digit false n) := by decide

theorem safe_pad : Safe64 '=' := by decide

theorem digit_safe {d : Nat} {c : Char} (h : Digit64 d c) : Safe64 c := by
  obtain ⟨hd, rfl⟩ := digit64_eq h
  exact safe_digit d hd

theorem base64_safe {bs : Bytes} {t : Text} (h : Base64 bs t) : ∀ c ∈ t, Safe64 c := by
  induction h with
  | nil => intro c hc; cases hc
  | one hx hy _ =>
    intro c hc
    simp only [List.mem_cons, List.not_mem_nil, or_false] at hc
    rcases hc with rfl | rfl | rfl | rfl
    · exact digit_safe hx
    · exact digit_safe hy
    · exact safe_pad
    · exact safe_pad
  | two hx hy hz _ =>
    intro c hc
    simp only [List.mem_cons, List.not_mem_nil, or_false] at hc
    rcases hc with rfl | rfl | rfl | rfl
    · exact digit_safe hx
    · exact digit_safe hy
    · exact digit_safe hz
    · exact safe_pad
  | three hx hy hz hw _ _ ih =>
    intro c hc
    simp only [List.mem_cons] at hc
    rcases hc with rfl | rfl | rfl | rfl | hc
    · exact digit_safe hx
    · exact digit_safe hy
    · exact digit_safe hz
    · exact digit_safe hw
    · exact ih c hc

/-! ### lines -/

theorem lineEnd_chars {e : Text} (h : LineEnd e) : ∀ c ∈ e, c = '\n' ∨ c = '\r' := by
  rcases h with rfl | rfl
  · intro c hc
    simp only [List.mem_cons, List.not_mem_nil, or_false] at hc
    exact Or.inl hc
  · intro c hc
    simp only [List.mem_cons, List.not_mem_nil, or_false] at hc
    exact hc.symm

theorem inLines_chars {b t : Text} (h : InLines b t) : ∀ c ∈ t, c ∈ b ∨ c = '\n' ∨ c = '\r' := by
  induction h with
  | nil => intro c hc; cases hc
  | cons _ he _ ih =>
    intro c hc
    rcases List.mem_append.1 hc with hc | hc
    · rcases List.mem_append.1 hc with hc | hc
      · exact Or.inl (List.mem_append_left _ hc)
      · exact Or.inr (lineEnd_chars he c hc)
    · rcases ih c hc with h | h
      · exact Or.inl (List.mem_append_right _ h)
      · exact Or.inr h

theorem inLines_filter (p : Char → Bool) (hn : p '\n' = false) (hr : p '\r' = false) {b t : Text} (h : InLines b t) :
    (∀ c ∈ b, p c = true) → t.filter p = b := by
  induction h with
  | nil => intro _; rfl
  | @cons l t e u _ he _ ih =>
    intro hb
    have h1 : l.filter p = l := List.filter_eq_self.2 (fun c hc => hb c (List.mem_append_left _ hc))
    have h2 : e.filter p = [] := by
      rcases he with rfl | rfl
      · simp [List.filter, hn]
      · simp [List.filter, hn, hr]
    rw [List.filter_append, List.filter_append, h1, h2, ih (fun c hc => hb c (List.mem_append_right _ hc)), List.append_nil]

theorem inLines_last {b t : Text} (h : InLines b t) : (b = [] ∧ t = []) ∨ ∃ pre, t = pre ++ ['\n'] := by
  induction h with
  | nil => exact Or.inl ⟨rfl, rfl⟩
  | @cons l t e u _ he _ ih =>
    right
    rcases ih with ⟨_, rfl⟩ | ⟨pre, rfl⟩
    · rcases he with rfl | rfl
      · exact ⟨l, by simp⟩
      · exact ⟨l ++ ['\r'], by simp⟩
    · exact ⟨l ++ e ++ pre, by simp⟩

theorem dropCR_snoc (l : Text) : dropCR (l ++ ['\r']) = l := by
  unfold dropCR
  simp

theorem splitLines_ended (l e rest : Text) (h : '\n' ∉ l) (hr : '\r' ∉ l) (he : LineEnd e) : splitLines (l ++ e ++ rest) = l :: splitLines rest := by
  rcases he with rfl | rfl
  · rw [List.append_assoc]
    exact splitLines_line l rest h hr
  · have e1 : l ++ ['\r', '\n'] ++ rest = (l ++ ['\r']) ++ '\n' :: rest := by simp
    rw [e1]
    unfold splitLines
    rw [splitLinesAux_line (l ++ ['\r']) rest [] (by simp [h])]
    rw [List.reverse_nil, List.nil_append, dropCR_snoc]
    rfl

theorem trimEnd_self (p : Char → Bool) (l : Text) (h : ∀ c ∈ l, p c = false) : (l.reverse.dropWhile p).reverse = l := by
  have : l.reverse.dropWhile p = l.reverse := by
    cases hl : l.reverse with
    | nil => rfl
    | cons c r =>
      have hc : p c = false := h c (List.mem_reverse.1 (by rw [hl]; exact List.mem_cons_self))
      rw [List.dropWhile_cons, hc]
      rfl
  rw [this, List.reverse_reverse]

theorem rustData_cons (l e u : Text) (h : ∀ c ∈ l, Safe64 c) (he : LineEnd e) : rustData (l ++ e ++ u) = l ++ rustData u := by
  unfold rustData
  rw [splitLines_ended l e u (fun hm => (h _ hm).2.2.2.1 rfl) (fun hm => (h _ hm).2.2.2.2.1 rfl) he]
  rw [List.map_cons, List.flatten_cons, trimEnd_self _ l (fun c hc => (h c hc).2.2.2.2.2.2.1)]

theorem inLines_rustData {b t : Text} (h : InLines b t) : (∀ c ∈ b, Safe64 c) → rustData t = b := by
  induction h with
  | nil => intro _; rfl
  | @cons l t e u _ he _ ih =>
    intro hb
    rw [rustData_cons l e u (fun c hc => hb c (List.mem_append_left _ hc)) he, ih (fun c hc => hb c (List.mem_append_right _ hc))]

theorem inLines_head {b t : Text} (h : InLines b t) : (∀ c ∈ b, Safe64 c) → t = [] ∨ ∃ c r, t = c :: r ∧ Safe64 c := by
  intro hb
  cases h with
  | nil => exact Or.inl rfl
  | @cons l t e u hl he _ =>
    cases l with
    | nil => exact absurd rfl hl
    | cons c l => exact Or.inr ⟨c, l ++ e ++ u, by simp, hb c (by simp)⟩

/-! ### searching -/

theorem cutAt_nil (pat : Text) (h : pat ≠ []) : cutAt pat [] = none := by
  unfold cutAt
  rw [if_neg h]

theorem cutAt_cons (pat : Text) (c : Char) (t : Text) :
    cutAt pat (c :: t) = if pat.isPrefixOf (c :: t) then some ([], (c :: t).drop pat.length) else (cutAt pat t).map (fun p => (c :: p.1, p.2)) := rfl

theorem cutAt_here (p : Char) (ps t : Text) : cutAt (p :: ps) ((p :: ps) ++ t) = some ([], t) := by
  have h : (p :: ps).isPrefixOf ((p :: ps) ++ t) = true := List.isPrefixOf_iff_prefix.2 (List.prefix_append _ _)
  rw [List.cons_append] at h ⊢
  rw [cutAt_cons, if_pos h]
  congr 2
  rw [← List.cons_append, List.drop_left]

/-- The first character of what is looked for does not occur before. -/
theorem cutAt_fresh (p : Char) (ps pre t : Text) (h : p ∉ pre) : cutAt (p :: ps) (pre ++ (p :: ps) ++ t) = some (pre, t) := by
  induction pre with
  | nil => exact cutAt_here p ps t
  | cons c pre ih =>
    have hc : p ≠ c := fun e => h (by rw [e]; exact List.mem_cons_self)
    have hp : ¬ (p :: ps).isPrefixOf (c :: (pre ++ (p :: ps) ++ t)) = true := by
      intro hh
      exact hc (List.cons_prefix_cons.1 (List.isPrefixOf_iff_prefix.1 hh)).1
    rw [List.cons_append, List.cons_append, cutAt_cons, if_neg hp, ih (fun hm => h (List.mem_cons_of_mem _ hm))]
    rfl

/-- What is looked for does not occur before, and its first character occurs in it once. -/
theorem cutAt_first (p : Char) (ps pre t : Text) (hp : p ∉ ps) (h : ∀ a b, pre ≠ a ++ (p :: ps) ++ b) :
    cutAt (p :: ps) (pre ++ (p :: ps) ++ t) = some (pre, t) := by
  induction pre with
  | nil => exact cutAt_here p ps t
  | cons c pre ih =>
    have hn : ¬ (p :: ps).isPrefixOf (c :: (pre ++ (p :: ps) ++ t)) = true := by
      intro hh
      obtain ⟨r, hr⟩ := List.isPrefixOf_iff_prefix.1 hh
      have hr' : (p :: ps) ++ r = (c :: pre) ++ ((p :: ps) ++ t) := by rw [hr]; simp
      rcases List.append_eq_append_iff.1 hr' with ⟨a, h1, h2⟩ | ⟨a, h1, h2⟩
      · exact h [] a (by rw [h1]; simp)
      · cases a with
        | nil => exact h [] [] (by rw [List.append_nil] at h1; rw [← h1]; simp)
        | cons x a =>
          have hx : x = p := by
            simp only [List.cons_append, List.cons.injEq] at h2
            exact h2.1.symm
          subst hx
          simp only [List.cons_append, List.cons.injEq] at h1
          exact hp (by rw [h1.2]; simp)
    rw [List.cons_append, List.cons_append, cutAt_cons, if_neg hn, ih (fun a b e => h (c :: a) b (by rw [e]; simp))]
    rfl

theorem cutAt_sound (pat : Text) : ∀ (t : Text) (p : Text × Text), cutAt pat t = some p → t = p.1 ++ pat ++ p.2
  | [], p, h => by
    unfold cutAt at h
    split at h
    · rename_i e
      injection h with h
      rw [← h, e]
      rfl
    · cases h
  | c :: t, p, h => by
    rw [cutAt_cons] at h
    split at h
    · rename_i hp
      obtain ⟨r, hr⟩ := List.isPrefixOf_iff_prefix.1 hp
      injection h with h
      rw [← h, ← hr, List.drop_left]
      rfl
    · cases hc : cutAt pat t with
      | none => rw [hc] at h; cases h
      | some q =>
        rw [hc] at h
        injection h with h
        have := cutAt_sound pat t q hc
        rw [← h, this]
        rfl

theorem cutAt_none (pat : Text) (t a b : Text) (h : cutAt pat t = none) : t ≠ a ++ pat ++ b := by
  induction t generalizing a with
  | nil =>
    intro e
    unfold cutAt at h
    split at h
    · cases h
    · rename_i hn
      have e' := e.symm
      rw [List.append_eq_nil_iff, List.append_eq_nil_iff] at e'
      exact hn e'.1.2
  | cons c t ih =>
    intro e
    rw [cutAt_cons] at h
    split at h
    · cases h
    · rename_i hp
      cases a with
      | nil => exact hp (List.isPrefixOf_iff_prefix.2 ⟨b, by rw [e]; rfl⟩)
      | cons x a =>
        simp only [List.cons_append, List.cons.injEq] at e
        cases hc : cutAt pat t with
        | none => exact ih a hc e.2
        | some q => rw [hc] at h; cases h

/-! ### lines of Go's decoder -/

theorem pemLine_ended (l e rest : Text) (h : '\n' ∉ l) (hr : '\r' ∉ l) (he : LineEnd e) (hb : ∀ c, l.getLast? = some c → isBlank c = false) :
    pemLine (l ++ e ++ rest) = (l, rest) := by
  have hcut : ∃ m, cutAt ['\n'] (l ++ e ++ rest) = some (m, rest) ∧ dropCR m = l := by
    rcases he with rfl | rfl
    · refine ⟨l, ?_, dropCR_eq_self hr⟩
      exact cutAt_fresh '\n' [] l rest h
    · refine ⟨l ++ ['\r'], ?_, dropCR_snoc l⟩
      have := cutAt_fresh '\n' [] (l ++ ['\r']) rest (by simp [h])
      have e1 : l ++ ['\r', '\n'] ++ rest = l ++ ['\r'] ++ ['\n'] ++ rest := by simp
      rw [e1]
      exact this
  obtain ⟨m, hm, hd⟩ := hcut
  have ht : trimBlanks l = l := by
    unfold trimBlanks
    have : l.reverse.dropWhile isBlank = l.reverse := by
      cases hl : l.reverse with
      | nil => rfl
      | cons c r =>
        have hc : isBlank c = false := hb c (by rw [← List.head?_reverse, hl]; rfl)
        rw [List.dropWhile_cons, hc]
        rfl
    rw [this, List.reverse_reverse]
  unfold pemLine
  rw [hm]
  dsimp only
  rw [hd, ht]

theorem pemLine_nil : pemLine [] = ([], []) := rfl

theorem pemLine_end (f post : Text) (h : LineEnd f) : (pemLine (f ++ post)).1 = [] := by
  have := pemLine_ended [] f post (by simp) (by simp) h (by simp)
  rw [List.nil_append] at this
  rw [this]

theorem trimBlanks_sound (t : Text) : ∃ j, t = trimBlanks t ++ j := by
  refine ⟨(t.reverse.takeWhile isBlank).reverse, ?_⟩
  unfold trimBlanks
  rw [← List.reverse_append, List.takeWhile_append_dropWhile, List.reverse_reverse]

theorem dropCR_sound (t : Text) : ∃ j, t = dropCR t ++ j := by
  unfold dropCR
  split
  · rename_i h
    refine ⟨['\r'], ?_⟩
    have hne : t ≠ [] := by intro e; rw [e] at h; cases h
    rw [List.getLast?_eq_some_getLast hne] at h
    have := List.dropLast_concat_getLast hne
    rw [Option.some.inj h] at this
    exact this.symm
  · exact ⟨[], by simp⟩

theorem pemLine_sound (t : Text) : ∃ j, t = (pemLine t).1 ++ j ++ (pemLine t).2 := by
  unfold pemLine
  split
  · obtain ⟨j, hj⟩ := trimBlanks_sound t
    exact ⟨j, by simpa using hj⟩
  · rename_i p hp
    have h1 := cutAt_sound _ _ _ hp
    obtain ⟨j, hj⟩ := dropCR_sound p.1
    obtain ⟨k, hk⟩ := trimBlanks_sound (dropCR p.1)
    refine ⟨k ++ j ++ ['\n'], ?_⟩
    dsimp only
    have e : p.1 = trimBlanks (dropCR p.1) ++ k ++ j := by rw [← hk, ← hj]
    calc t = p.1 ++ ['\n'] ++ p.2 := h1
      _ = (trimBlanks (dropCR p.1) ++ k ++ j) ++ ['\n'] ++ p.2 := by rw [← e]
      _ = _ := by simp

end Verif
