import Verif.Spec.Config
import Verif.Props.Issuers
import Verif.Props.Known
import Verif.Props.Crls
import Verif.Props.Ingest
import Verif.Model.Worker
import Verif.Model.Tiled
/-!
# C112: settings
-/
namespace Verif.Props
open Verif.Spec

/-! ### digits -/

theorem digitOf_iff (c : Char) (d : Nat) (hd : d < 10) : digitOf c = some d ↔ "0123456789".toList[d]? = some c := by
  constructor
  · intro h
    unfold digitOf at h
    split at h
    · rename_i hr
      have e : c.toNat - 48 = d := by simpa using h
      have h1 : 48 ≤ c.toNat := hr.1
      have hc : c = Char.ofNat (48 + d) := by
        rw [show 48 + d = c.toNat by omega, Char.ofNat_toNat]
      subst hc
      match d, hd with
      | 0, _ => rfl | 1, _ => rfl | 2, _ => rfl | 3, _ => rfl | 4, _ => rfl
      | 5, _ => rfl | 6, _ => rfl | 7, _ => rfl | 8, _ => rfl | 9, _ => rfl
    · split at h
      · rename_i hr
        have e : c.toNat - 87 = d := by simpa using h
        have h1 : 97 ≤ c.toNat := hr.1
        omega
      · split at h
        · rename_i hr
          have e : c.toNat - 55 = d := by simpa using h
          have h1 : 65 ≤ c.toNat := hr.1
          omega
        · cases h
  · intro h
    match d, hd with
    | 0, _ | 1, _ | 2, _ | 3, _ | 4, _ | 5, _ | 6, _ | 7, _ | 8, _ | 9, _ =>
      have hc := (Option.some.inj h).symm
      subst hc
      decide

theorem digit_ne_underscore {c : Char} {d : Nat} (h : "0123456789".toList[d]? = some c) : c ≠ '_' := by
  rintro rfl
  exact absurd (List.mem_of_getElem? h) (by decide)

theorem digit_ne_sign {c : Char} {d : Nat} (h : "0123456789".toList[d]? = some c) : c ≠ '+' ∧ c ≠ '-' := by
  constructor
  · rintro rfl
    exact absurd (List.mem_of_getElem? h) (by decide)
  · rintro rfl
    exact absurd (List.mem_of_getElem? h) (by decide)

theorem numLoop_append (b : Nat) (us : Bool) (u : Text) : ∀ (t : Text) (n m : Nat), numLoop b us n t = some m → numLoop b us n (t ++ u) = numLoop b us m u := by
  intro t
  induction t with
  | nil => intro n m h; simp only [numLoop, Option.some.injEq] at h; subst h; rfl
  | cons c cs ih =>
    intro n m h
    simp only [List.cons_append, numLoop] at h ⊢
    split at h
    · rename_i hc; rw [if_pos hc]; exact ih _ _ h
    · rename_i hc
      rw [if_neg hc]
      split at h
      · cases h
      · rename_i d hd
        split at h
        · rename_i hb
          simp only [if_pos hb]
          exact ih _ _ h
        · cases h

theorem numLoop_digit (b : Nat) (hb : b ≤ 10) (us : Bool) (n : Nat) {c : Char} {d : Nat} (h : "0123456789".toList[d]? = some c) (hd : d < b) (cs : Text) :
    numLoop b us n (c :: cs) = numLoop b us (b * n + d) cs := by
  have h1 : ¬ (c = '_' ∧ us = true) := fun h2 => digit_ne_underscore h h2.1
  rw [numLoop, if_neg h1, (digitOf_iff c d (by omega)).2 h]
  exact if_pos hd

theorem numLoop_of_numeral (b : Nat) (hb : b ≤ 10) (us : Bool) {t : Text} {n : Nat} (h : Numeral b t n) : numLoop b us 0 t = some n := by
  induction h with
  | one c d hc hd => rw [numLoop_digit b hb us 0 hc hd]; simp [numLoop]
  | more t n c d _ hc hd ih => rw [numLoop_append b us [c] t 0 n ih, numLoop_digit b hb us n hc hd]; rfl

theorem numeral_extend (b : Nat) (hb : b ≤ 10) : ∀ (t p : Text) (n m : Nat), Numeral b p n → numLoop b false n t = some m → Numeral b (p ++ t) m := by
  intro t
  induction t with
  | nil => intro p n m hp h; simp only [numLoop, Option.some.injEq] at h; subst h; simpa using hp
  | cons c cs ih =>
    intro p n m hp h
    simp only [numLoop] at h
    split at h
    · rename_i hc; cases hc.2
    · split at h
      · cases h
      · rename_i d hd
        split at h
        · rename_i hdb
          have := ih (p ++ [c]) _ m (Numeral.more p n c d hp ((digitOf_iff c d (by omega)).1 hd) hdb) h
          simpa using this
        · cases h

theorem numeral_of_numLoop (b : Nat) (hb : b ≤ 10) {t : Text} {n : Nat} (ht : t ≠ []) (h : numLoop b false 0 t = some n) : Numeral b t n := by
  match t, ht with
  | c :: cs, _ =>
    simp only [numLoop] at h
    split at h
    · rename_i hc; cases hc.2
    · split at h
      · cases h
      · rename_i d hd
        split at h
        · rename_i hdb
          have e : b * 0 + d = d := by simp
          rw [e] at h
          exact numeral_extend b hb cs [c] d n (Numeral.one c d ((digitOf_iff c d (by omega)).1 hd) hdb) h
        · cases h

theorem numeral_ne_nil {b : Nat} {t : Text} {n : Nat} (h : Numeral b t n) : t ≠ [] := by
  cases h <;> simp

theorem numeral_mem {b : Nat} {t : Text} {n : Nat} (h : Numeral b t n) : ∀ c ∈ t, c ∈ "0123456789".toList := by
  induction h with
  | one c d hc _ => intro x hx; rw [List.mem_singleton.1 hx]; exact List.mem_of_getElem? hc
  | more t n c d _ hc _ ih =>
    intro x hx
    rcases List.mem_append.1 hx with hx | hx
    · exact ih x hx
    · rw [List.mem_singleton.1 hx]; exact List.mem_of_getElem? hc

theorem numeral_no_underscore {b : Nat} {t : Text} {n : Nat} (h : Numeral b t n) : t.contains '_' = false := by
  rw [Bool.eq_false_iff]
  intro hc
  exact absurd (numeral_mem h '_' (by simpa using hc)) (by decide)

theorem splitSign_numeral {b : Nat} {t : Text} {n : Nat} (h : Numeral b t n) : splitSign t = (false, t) := by
  match t, numeral_ne_nil h with
  | c :: r, _ =>
    have hm := numeral_mem h c (by simp)
    have h1 : c ≠ '+' := by rintro rfl; exact absurd hm (by decide)
    have h2 : c ≠ '-' := by rintro rfl; exact absurd hm (by decide)
    simp only [splitSign, if_neg h1, if_neg h2]

/-! ### numbers in the environment -/

/-- **C112: a number in the environment.** A text for a setting that counts something is taken exactly if it is a number written in decimal digits that fits 64 bits, and for that number. -/
theorem C112_env_number (t : Text) (n : Nat) : parseUint false 64 t = some n ↔ Numeral 10 t n ∧ n < 2 ^ 64 := by
  unfold parseUint
  by_cases ht : t = []
  · subst ht
    simp only [if_true]
    constructor
    · intro h; cases h
    · intro h; exact absurd rfl (numeral_ne_nil h.1)
  · rw [if_neg ht]
    simp only [Bool.false_eq_true, if_false, false_and]
    constructor
    · intro h
      split at h
      · cases h
      · rename_i m hm
        split at h
        · rename_i hb
          have e : m = n := by simpa using h
          subst e
          exact ⟨numeral_of_numLoop 10 (by omega) ht hm, hb⟩
        · cases h
    · rintro ⟨h, hb⟩
      rw [numLoop_of_numeral 10 (by omega) false h]
      exact if_pos hb

theorem parseUint32 (t : Text) (n : Nat) : parseUint false 32 t = some n ↔ Numeral 10 t n ∧ n < 2 ^ 32 := by
  unfold parseUint
  by_cases ht : t = []
  · subst ht
    simp only [if_true]
    constructor
    · intro h; cases h
    · intro h; exact absurd rfl (numeral_ne_nil h.1)
  · rw [if_neg ht]
    simp only [Bool.false_eq_true, if_false, false_and]
    constructor
    · intro h
      split at h
      · cases h
      · rename_i m hm
        split at h
        · rename_i hb
          have e : m = n := by simpa using h
          subst e
          exact ⟨numeral_of_numLoop 10 (by omega) ht hm, hb⟩
        · cases h
    · rintro ⟨h, hb⟩
      rw [numLoop_of_numeral 10 (by omega) false h]
      exact if_pos hb

/-- **C112: a number with a sign in the environment.** -/
theorem C112_env_signed (t : Text) (z : Int) :
    parseInt false 32 t = some z ↔
      (∃ n : Nat, (Numeral 10 t n ∨ ∃ r, t = '+' :: r ∧ Numeral 10 r n) ∧ n < 2 ^ 31 ∧ z = n) ∨
      (∃ (n : Nat) (r : Text), t = '-' :: r ∧ Numeral 10 r n ∧ n ≤ 2 ^ 31 ∧ z = -(n : Int)) := by
  constructor
  · intro h
    unfold parseInt at h
    split at h
    · cases h
    · rename_i n hn
      obtain ⟨hnum, -⟩ := (parseUint32 _ _).1 hn
      match t, hnum, h with
      | [], hnum, h => exact absurd rfl (numeral_ne_nil hnum)
      | c :: r, hnum, h =>
        by_cases hp : c = '+'
        · subst hp
          have e : splitSign ('+' :: r) = (false, r) := rfl
          rw [e] at hnum h
          simp only [Bool.false_eq_true, if_false] at h
          split at h
          · rename_i hb
            exact Or.inl ⟨n, Or.inr ⟨r, rfl, hnum⟩, hb, (Option.some.inj h).symm⟩
          · cases h
        · by_cases hm : c = '-'
          · subst hm
            have e : splitSign ('-' :: r) = (true, r) := rfl
            rw [e] at hnum h
            simp only [if_true] at h
            split at h
            · rename_i hb
              exact Or.inr ⟨n, r, rfl, hnum, hb, (Option.some.inj h).symm⟩
            · cases h
          · have e : splitSign (c :: r) = (false, c :: r) := by simp only [splitSign, if_neg hp, if_neg hm]
            rw [e] at hnum h
            simp only [Bool.false_eq_true, if_false] at h
            split at h
            · rename_i hb
              exact Or.inl ⟨n, Or.inl hnum, hb, (Option.some.inj h).symm⟩
            · cases h
  · rintro (⟨n, h1, h2, rfl⟩ | ⟨n, r, rfl, h1, h2, rfl⟩)
    · have h3 : n < 2 ^ (32 - 1) := h2
      have h4 : n < 2 ^ 32 := Nat.lt_trans h2 (by decide)
      rcases h1 with h1 | ⟨r, rfl, h1⟩
      · unfold parseInt
        rw [splitSign_numeral h1, (parseUint32 t n).2 ⟨h1, h4⟩]
        simp only [Bool.false_eq_true, if_false, if_pos h3]
      · unfold parseInt
        have e : splitSign ('+' :: r) = (false, r) := rfl
        rw [e, (parseUint32 r n).2 ⟨h1, h4⟩]
        simp only [Bool.false_eq_true, if_false, if_pos h3]
    · have h3 : n ≤ 2 ^ (32 - 1) := h2
      have h4 : n < 2 ^ 32 := Nat.lt_of_le_of_lt h2 (by decide)
      unfold parseInt
      have e : splitSign ('-' :: r) = (true, r) := rfl
      rw [e, (parseUint32 r n).2 ⟨h1, h4⟩]
      simp only [if_true, if_pos h3]

/-! ### the same text in the file -/

theorem basePrefix_plain {t : Text} {n : Nat} (h : Numeral 10 t n) (hz : NoLeadingZero t) (hne : t ≠ ['0']) : basePrefix t = (10, t) := by
  rcases hz with hz | hz
  · exact absurd hz hne
  · match t, numeral_ne_nil h with
    | c :: r, _ =>
      have h1 : c ≠ '0' := by rintro rfl; exact hz rfl
      simp only [basePrefix, if_neg h1]

theorem parseUint_any_plain {t : Text} {n : Nat} (h : Numeral 10 t n) (hz : NoLeadingZero t) (hb : n < 2 ^ 64) : parseUint true 64 t = some n := by
  by_cases hne : t = ['0']
  · subst hne
    have hn := numLoop_of_numeral 10 (by omega) false h
    have e : n = 0 := by
      have h0 : numLoop 10 false 0 ['0'] = some 0 := by decide
      exact (Option.some.inj (h0.symm.trans hn)).symm
    subst e
    decide +kernel
  · unfold parseUint
    rw [if_neg (numeral_ne_nil h), basePrefix_plain h hz hne]
    simp only [if_true]
    rw [numLoop_of_numeral 10 (by omega) true h]
    have h2 : ¬ (True ∧ t.contains '_' = true ∧ underscoreOK t = false) := by
      rw [numeral_no_underscore h]; simp
    simp only [if_pos hb, if_neg h2]

/-- **C112 (partial): the same in the environment and in the file.** A decimal number without zeros in front, and any word for a truth value that is taken in the environment, mean the same in both places. -/
theorem C112_same_partial :
    (∀ (t : Text) (n : Nat), Numeral 10 t n → NoLeadingZero t → n < 2 ^ 64 → parseUint false 64 t = some n ∧ parseUint true 64 t = some n) ∧
    (∀ (t : Text) (n : Nat), Numeral 10 t n → NoLeadingZero t → n < 2 ^ 31 →
      parseInt false 32 t = some (n : Int) ∧ parseInt true 64 t = some (n : Int) ∧
      parseInt false 32 ('-' :: t) = some (-(n : Int)) ∧ parseInt true 64 ('-' :: t) = some (-(n : Int))) ∧
    (∀ (t : Text) (b : Bool), parseBoolEnv t = some b → parseBoolFile t = some b) := by
  refine ⟨fun t n h hz hb => ⟨(C112_env_number t n).2 ⟨h, hb⟩, parseUint_any_plain h hz hb⟩, fun t n h hz hb => ?_, fun t b h => ?_⟩
  · have h63 : n < 2 ^ (64 - 1) := Nat.lt_trans hb (by decide)
    have h64 : n < 2 ^ 64 := Nat.lt_trans hb (by decide)
    have hs := splitSign_numeral h
    have hm : splitSign ('-' :: t) = (true, t) := rfl
    refine ⟨(C112_env_signed t n).2 (Or.inl ⟨n, Or.inl h, hb, rfl⟩), ?_, (C112_env_signed _ _).2 (Or.inr ⟨n, t, rfl, h, by omega, rfl⟩), ?_⟩
    · unfold parseInt
      rw [hs, parseUint_any_plain h hz h64]
      simp only [Bool.false_eq_true, if_false, if_pos h63]
    · unfold parseInt
      rw [hm, parseUint_any_plain h hz h64]
      simp only [if_true, if_pos (Nat.le_of_lt h63)]
  · unfold parseBoolEnv at h
    unfold parseBoolFile
    split at h
    · rename_i h1
      rw [if_pos (Or.inl h1)]; exact h
    · split at h
      · rename_i h1 h2
        have hn : ¬ (t ∈ trueWords ∨ t ∈ ["YES".toList, "yes".toList, "Yes".toList, "y".toList, "ON".toList, "on".toList, "On".toList]) := by
          rintro (h3 | h3)
          · exact h1 h3
          · revert h3 h2
            have : ∀ w ∈ falseWords, w ∉ ["YES".toList, "yes".toList, "Yes".toList, "y".toList, "ON".toList, "on".toList, "On".toList] := by decide +kernel
            intro h2 h3
            exact this t h2 h3
        rw [if_neg hn, if_pos (Or.inl h2)]; exact h
      · cases h

/-- A number of the example. -/
theorem numeral_4096 : Numeral 10 "4096".toList 4096 :=
  Numeral.more "409".toList 409 '6' 6 (Numeral.more "40".toList 40 '9' 9 (Numeral.more "4".toList 4 '0' 0 (Numeral.one '4' 4 rfl (by omega)) rfl (by omega)) rfl (by omega)) rfl (by omega)

example : parseUint false 64 "4096".toList = some 4096 ∧ parseUint true 64 "4096".toList = some 4096 :=
  C112_same_partial.1 _ _ numeral_4096 (Or.inr (by decide)) (by decide)

/-- **C112 fails: a zero in front.** Digits behind a zero are decimal in the environment and octal in the file. -/
theorem C112_octal_fails :
    (∀ (t : Text) (m n : Nat), Numeral 8 t m → Numeral 10 t n → m < 2 ^ 64 → n < 2 ^ 64 →
      parseUint false 64 ('0' :: t) = some n ∧ parseUint true 64 ('0' :: t) = some m) ∧
    parseUint false 64 "010".toList = some 10 ∧ parseUint true 64 "010".toList = some 8 ∧ parseUint false 64 "1_000".toList = none ∧ parseUint true 64 "1_000".toList = some 1000 := by
  refine ⟨fun t m n hm hn h1 h2 => ⟨?_, ?_⟩, by decide +kernel, by decide +kernel, by decide +kernel, by decide +kernel⟩
  · unfold parseUint
    rw [if_neg (by simp)]
    simp only [Bool.false_eq_true, if_false, false_and]
    rw [numLoop_digit 10 (by omega) false 0 (c := '0') (d := 0) rfl (by omega), show 10 * 0 + 0 = 0 from rfl, numLoop_of_numeral 10 (by omega) false hn]
    exact if_pos h2
  · have hb : basePrefix ('0' :: t) = (8, t) := by
      simp only [basePrefix, if_true]
      unfold afterZero
      split
      · rename_i p c r
        have hp := numeral_mem hm p (by simp)
        have hx : ∀ x : Char, x ∉ "0123456789".toList → p ≠ x := fun x hx e => hx (e ▸ hp)
        rw [if_neg (by rintro (h | h) <;> exact absurd h (hx _ (by decide))), if_neg (by rintro (h | h) <;> exact absurd h (hx _ (by decide))),
          if_neg (by rintro (h | h) <;> exact absurd h (hx _ (by decide)))]
      · rfl
    unfold parseUint
    rw [if_neg (by simp), hb]
    simp only [if_true]
    rw [numLoop_of_numeral 8 (by omega) true hm]
    have hu : ('0' :: t).contains '_' = false := by
      rw [List.contains_cons, numeral_no_underscore hm]; decide
    have h3 : ¬ (True ∧ ('0' :: t).contains '_' = true ∧ underscoreOK ('0' :: t) = false) := by rw [hu]; simp
    simp only [if_pos h1, if_neg h3]

theorem underscoreLoop_digits : ∀ (t u : Text) (i : Char), (∀ c ∈ t, c ∈ "0123456789".toList) → t ≠ [] → underscoreLoop false i (t ++ u) = underscoreLoop false '0' u := by
  intro t
  induction t with
  | nil => intro u i _ h; exact absurd rfl h
  | cons c cs ih =>
    intro u i hc _
    have hd : '0' ≤ c ∧ c ≤ '9' := by
      have : ∀ x ∈ "0123456789".toList, '0' ≤ x ∧ x ≤ '9' := by decide
      exact this c (hc c (by simp))
    rw [List.cons_append, underscoreLoop, if_pos (Or.inl hd)]
    match hcs : cs with
    | [] => rfl
    | x :: xs => exact ih u '0' (fun y hy => hc y (List.mem_cons_of_mem _ hy)) (by simp)

theorem underscoreOK_plain (c : Char) (t : Text) (h : c ≠ '0') : underscoreOK (c :: t) = underscoreLoop false '^' (c :: t) := by
  unfold underscoreOK
  match t with
  | [] => rfl
  | p :: r =>
    dsimp only
    rw [if_neg (fun h' => h h'.1), if_neg (fun h' => h h'.1)]

theorem parseUint_any_nonzero (c : Char) (t : Text) (h : c ≠ '0') :
    parseUint true 64 (c :: t) = match numLoop 10 true 0 (c :: t) with
      | none => none
      | some n => if n < 2 ^ 64 then (if (c :: t).contains '_' = true ∧ underscoreLoop false '^' (c :: t) = false then none else some n) else none := by
  unfold parseUint
  rw [if_neg (by simp), underscoreOK_plain c t h]
  have e : basePrefix (c :: t) = (10, c :: t) := by simp only [basePrefix, if_neg h]
  rw [e]
  simp only [if_true, true_and]
  rfl

theorem parseUint_env_underscore (t : Text) (h : '_' ∈ t) : parseUint false 64 t = none := by
  match hq : parseUint false 64 t with
  | none => rfl
  | some n => exact absurd (numeral_mem ((C112_env_number t n).1 hq).1 '_' h) (by decide)

theorem underscoreLoop_ends (t u : Text) (h : ∀ c ∈ t, c ∈ "0123456789".toList) (i : Char) (ht : t ≠ []) :
    underscoreLoop false i (t ++ '_' :: u) = underscoreLoop false '_' u := by
  rw [underscoreLoop_digits t _ i h ht, underscoreLoop, if_neg (by decide), if_pos rfl, if_pos rfl]

/-- **C112 fails: underscores.** A decimal number with one underscore between two of its digits is that number in the file and nothing in the environment. Two underscores in a row, and one at the beginning or the end, are refused in both places. -/
theorem C112_underscore_fails (a b : Text) (m n k : Nat) (ha : Numeral 10 a m) (hz : a.head? ≠ some '0') (hb : Numeral 10 b n) (hk : Numeral 10 (a ++ b) k) (h64 : k < 2 ^ 64) :
    (parseUint true 64 (a ++ '_' :: b) = some k ∧ parseUint false 64 (a ++ '_' :: b) = none) ∧
    (parseUint true 64 (a ++ '_' :: '_' :: b) = none ∧ parseUint false 64 (a ++ '_' :: '_' :: b) = none) ∧
    (parseUint true 64 (a ++ ['_']) = none ∧ parseUint false 64 (a ++ ['_']) = none) ∧
    (parseUint true 64 ('_' :: a) = none ∧ parseUint false 64 ('_' :: a) = none) := by
  have hma := numeral_mem ha
  have hmb := numeral_mem hb
  have hbn := numeral_ne_nil hb
  have hka : numLoop 10 true m b = some k := by
    have := numLoop_append 10 true b a 0 m (numLoop_of_numeral 10 (by omega) true ha)
    rw [← this]
    exact numLoop_of_numeral 10 (by omega) true hk
  obtain ⟨c, r, rfl⟩ : ∃ c r, a = c :: r := by
    match a, numeral_ne_nil ha with
    | c :: r, _ => exact ⟨c, r, rfl⟩
  have hc : c ≠ '0' := by rintro rfl; exact hz rfl
  have hskip : ∀ u, numLoop 10 true m ('_' :: u) = numLoop 10 true m u := fun u => by rw [numLoop, if_pos ⟨rfl, rfl⟩]
  have hnum : ∀ u, numLoop 10 true 0 (c :: r ++ u) = numLoop 10 true m u := fun u => numLoop_append 10 true u (c :: r) 0 m (numLoop_of_numeral 10 (by omega) true ha)
  refine ⟨⟨?_, parseUint_env_underscore _ (by simp)⟩, ⟨?_, parseUint_env_underscore _ (by simp)⟩, ⟨?_, parseUint_env_underscore _ (by simp)⟩, ⟨?_, parseUint_env_underscore _ (by simp)⟩⟩
  · rw [List.cons_append, parseUint_any_nonzero c _ hc, ← List.cons_append, hnum, hskip, hka]
    have e : underscoreLoop false '^' (c :: r ++ '_' :: b) = true := by
      rw [underscoreLoop_ends (c :: r) b hma '^' (by simp)]
      have := underscoreLoop_digits b [] '_' hmb hbn
      rw [List.append_nil] at this
      rw [this]; rfl
    rw [e]
    simp only [if_pos h64]
    simp
  · rw [List.cons_append, parseUint_any_nonzero c _ hc, ← List.cons_append, hnum, hskip, hskip, hka]
    have e : underscoreLoop false '^' (c :: r ++ '_' :: '_' :: b) = false := by
      rw [underscoreLoop_ends (c :: r) _ hma '^' (by simp), underscoreLoop, if_neg (by decide), if_pos rfl, if_neg (by decide)]
    rw [e]
    simp
  · rw [List.cons_append, parseUint_any_nonzero c _ hc, ← List.cons_append, hnum, hskip]
    have e : underscoreLoop false '^' (c :: r ++ ['_']) = false := by
      rw [underscoreLoop_ends (c :: r) _ hma '^' (by simp)]; rfl
    rw [e]
    simp [numLoop]
  · rw [parseUint_any_nonzero '_' _ (by decide)]
    have e : underscoreLoop false '^' ('_' :: c :: r) = false := by
      rw [underscoreLoop, if_neg (by decide), if_pos rfl, if_neg (by decide)]
    rw [e]
    split
    · rfl
    · simp

/-- 12_34. -/
example : ∃ k, Numeral 10 ("12".toList ++ "34".toList) k ∧ k = 1234 ∧ parseUint true 64 "12_34".toList = some k ∧ parseUint true 64 "1__2".toList = none :=
  ⟨1234, Numeral.more "123".toList 123 '4' 4 (Numeral.more "12".toList 12 '3' 3 (Numeral.more "1".toList 1 '2' 2 (Numeral.one '1' 1 rfl (by omega)) rfl (by omega)) rfl (by omega)) rfl (by omega),
    rfl, by decide +kernel, by decide +kernel⟩

/-- What the parser needs to know of a hexadecimal digit. -/
def HexOk (c : Char) (d : Nat) : Prop :=
  digitOf c = some d ∧ d < 16 ∧ c ≠ '_' ∧ (('0' ≤ c ∧ c ≤ '9') ∨ (true = true ∧ (('a' ≤ c ∧ c ≤ 'f') ∨ ('A' ≤ c ∧ c ≤ 'F'))))

instance (c : Char) (d : Nat) : Decidable (HexOk c d) := by unfold HexOk; infer_instance

theorem hexDigit_ok {c : Char} {d : Nat} (h : HexSign c d) : HexOk c d := by
  have key : ∀ l : Text, l.length = 16 → (∀ i, i < 16 → ∀ x, x ∈ l[i]? → HexOk x i) → l[d]? = some c → HexOk c d := by
    intro l hl ha hx
    have hd : d < l.length := Classical.byContradiction fun hn => by rw [List.getElem?_eq_none (by omega)] at hx; cases hx
    exact ha d (by omega) c hx
  rcases h with h | h
  · exact key _ rfl (by decide +kernel) h
  · exact key _ rfl (by decide +kernel) h

theorem hexNumeral_loop {t : Text} {n : Nat} (h : HexNumeral t n) : ∀ u, numLoop 16 true 0 (t ++ u) = numLoop 16 true n u := by
  have hdig : ∀ (c : Char) (d m : Nat) (u : Text), HexSign c d → numLoop 16 true m (c :: u) = numLoop 16 true (16 * m + d) u := by
    intro c d m u hc
    obtain ⟨h1, h2, h3, _⟩ := hexDigit_ok hc
    rw [numLoop, if_neg (fun h => h3 h.1), h1]
    exact if_pos h2
  induction h with
  | one c d hc => intro u; exact (hdig c d 0 u hc).trans (by simp)
  | more t n c d _ hc ih => intro u; rw [List.append_assoc, ih]; exact hdig c d n u hc
  | gap t n c d _ hc ih =>
    intro u
    rw [List.append_assoc, ih]
    show numLoop 16 true n ('_' :: c :: u) = _
    rw [numLoop, if_pos ⟨rfl, rfl⟩]
    exact hdig c d n u hc

theorem hexNumeral_underscores {t : Text} {n : Nat} (h : HexNumeral t n) : ∀ i u, underscoreLoop true i (t ++ u) = underscoreLoop true '0' u := by
  have hdig : ∀ (c : Char) (d : Nat) (i : Char) (u : Text), HexSign c d → underscoreLoop true i (c :: u) = underscoreLoop true '0' u := by
    intro c d i u hc
    rw [underscoreLoop]
    exact if_pos (hexDigit_ok hc).2.2.2
  induction h with
  | one c d hc => intro i u; exact hdig c d i u hc
  | more t n c d _ hc ih => intro i u; rw [List.append_assoc, ih]; exact hdig c d '0' u hc
  | gap t n c d _ hc ih =>
    intro i u
    rw [List.append_assoc, ih]
    show underscoreLoop true '0' ('_' :: c :: u) = _
    rw [underscoreLoop, if_neg (by decide), if_pos rfl, if_pos rfl]
    exact hdig c d '_' u hc

theorem hexNumeral_ne_nil {t : Text} {n : Nat} (h : HexNumeral t n) : t ≠ [] := by cases h <;> simp

/-- **C112 fails: hexadecimal numbers.** Behind "0x" or "0X", with or without an underscore between the digits or before the first, a hexadecimal number is that number in the file and nothing in the environment. -/
theorem C112_hex_fails (t : Text) (n : Nat) (h : HexNumeral t n) (h64 : n < 2 ^ 64) :
    ∀ x ∈ ['x', 'X'], ∀ u, u = t ∨ u = '_' :: t → parseUint true 64 ('0' :: x :: u) = some n ∧ parseUint false 64 ('0' :: x :: u) = none := by
  intro x hx u hu
  have hx9 : x ∉ "0123456789".toList := by
    simp only [List.mem_cons, List.not_mem_nil, or_false] at hx
    rcases hx with rfl | rfl <;> decide
  constructor
  · have hne : u ≠ [] := by rcases hu with rfl | rfl <;> simp [hexNumeral_ne_nil h]
    have hbase : basePrefix ('0' :: x :: u) = (16, u) := by
      obtain ⟨c, r, rfl⟩ : ∃ c r, u = c :: r := by
        match u, hne with
        | c :: r, _ => exact ⟨c, r, rfl⟩
      simp only [List.mem_cons, List.not_mem_nil, or_false] at hx
      rcases hx with rfl | rfl <;> rfl
    have hnum : numLoop 16 true 0 u = some n := by
      have := hexNumeral_loop h []
      rw [List.append_nil] at this
      rcases hu with rfl | rfl
      · exact this
      · rw [numLoop, if_pos ⟨rfl, rfl⟩]; exact this
    have hok : underscoreOK ('0' :: x :: u) = true := by
      have e : underscoreOK ('0' :: x :: u) = underscoreLoop true '0' u := by
        simp only [List.mem_cons, List.not_mem_nil, or_false] at hx
        exact if_pos ⟨rfl, hx⟩
      have := fun i => hexNumeral_underscores h i []
      rw [List.append_nil] at this
      rw [e]
      rcases hu with rfl | rfl
      · rw [this]; rfl
      · rw [underscoreLoop, if_neg (by decide), if_pos rfl, if_pos rfl, this]; rfl
    unfold parseUint
    rw [if_neg (by simp), hbase]
    simp only [if_true, hnum, if_pos h64, hok]
    simp
  · match hq : parseUint false 64 ('0' :: x :: u) with
    | none => rfl
    | some n => exact absurd (numeral_mem ((C112_env_number _ n).1 hq).1 x (by simp)) hx9

/-- 0x_Fa_9. -/
example : parseUint true 64 "0x_Fa_9".toList = some 4009 ∧ parseUint false 64 "0x_Fa_9".toList = none :=
  C112_hex_fails "Fa_9".toList 4009 (HexNumeral.gap "Fa".toList 250 '9' 9 (HexNumeral.more "F".toList 15 'a' 10 (HexNumeral.one 'F' 15 (Or.inr rfl)) (Or.inl rfl)) (Or.inl rfl)) (by decide)
    'x' (by decide) _ (Or.inr rfl)

theorem numeral_underscores {b : Nat} {t : Text} {n : Nat} (h : Numeral b t n) : ∀ i, underscoreLoop false i t = true := by
  have hd : ∀ c ∈ "0123456789".toList, '0' ≤ c ∧ c ≤ '9' := by decide
  have key : ∀ (t : Text), (∀ c ∈ t, c ∈ "0123456789".toList) → underscoreLoop false '0' t = true := by
    intro t
    induction t with
    | nil => intro _; rfl
    | cons c cs ih =>
      intro ht
      rw [underscoreLoop, if_pos (Or.inl (hd c (ht c (List.mem_cons_self ..))))]
      exact ih fun x hx => ht x (List.mem_cons_of_mem _ hx)
  intro i
  match t, numeral_ne_nil h, numeral_mem h with
  | c :: cs, _, hm =>
    rw [underscoreLoop, if_pos (Or.inl (hd c (hm c (List.mem_cons_self ..))))]
    exact key cs fun x hx => hm x (List.mem_cons_of_mem _ hx)

/-- **C112 fails: binary and octal numbers.** The same with "0b" and "0o", with or without an underscore before the first digit. -/
theorem C112_bases_fails (base : Nat) (t : Text) (n : Nat) (h : Numeral base t n) (h64 : n < 2 ^ 64) (xs : List Char) (hb : base = 2 ∧ xs = ['b', 'B'] ∨ base = 8 ∧ xs = ['o', 'O']) :
    ∀ x ∈ xs, ∀ u, u = t ∨ u = '_' :: t → parseUint true 64 ('0' :: x :: u) = some n ∧ parseUint false 64 ('0' :: x :: u) = none := by
  intro x hx u hu
  have hx9 : x ∉ "0123456789".toList := by
    rcases hb with ⟨_, rfl⟩ | ⟨_, rfl⟩ <;> simp only [List.mem_cons, List.not_mem_nil, or_false] at hx <;> rcases hx with rfl | rfl <;> decide
  constructor
  · have hne : u ≠ [] := by rcases hu with rfl | rfl <;> simp [numeral_ne_nil h]
    have hbase : basePrefix ('0' :: x :: u) = (base, u) := by
      obtain ⟨c, r, rfl⟩ : ∃ c r, u = c :: r := by
        match u, hne with
        | c :: r, _ => exact ⟨c, r, rfl⟩
      rcases hb with ⟨rfl, rfl⟩ | ⟨rfl, rfl⟩ <;> simp only [List.mem_cons, List.not_mem_nil, or_false] at hx <;> rcases hx with rfl | rfl <;> rfl
    have hnum : numLoop base true 0 u = some n := by
      have := numLoop_of_numeral base (by rcases hb with ⟨rfl, _⟩ | ⟨rfl, _⟩ <;> decide) true h
      rcases hu with rfl | rfl
      · exact this
      · rw [numLoop, if_pos ⟨rfl, rfl⟩]; exact this
    have hok : underscoreOK ('0' :: x :: u) = true := by
      have e : underscoreOK ('0' :: x :: u) = underscoreLoop false '0' u := by
        rcases hb with ⟨rfl, rfl⟩ | ⟨rfl, rfl⟩ <;> simp only [List.mem_cons, List.not_mem_nil, or_false] at hx <;> rcases hx with rfl | rfl <;> rfl
      rw [e]
      rcases hu with rfl | rfl
      · exact numeral_underscores h '0'
      · rw [underscoreLoop, if_neg (by decide), if_pos rfl, if_pos rfl]; exact numeral_underscores h '_'
    unfold parseUint
    rw [if_neg (by simp), hbase]
    simp only [if_true, hnum, if_pos h64, hok]
    simp
  · match hq : parseUint false 64 ('0' :: x :: u) with
    | none => rfl
    | some n => exact absurd (numeral_mem ((C112_env_number _ n).1 hq).1 x (by simp)) hx9

/-- 0b10 and 0O_17. -/
example : parseUint true 64 "0b10".toList = some 2 ∧ parseUint true 64 "0O_17".toList = some 15 :=
  ⟨(C112_bases_fails 2 "10".toList 2 (Numeral.more "1".toList 1 '0' 0 (Numeral.one '1' 1 rfl (by omega)) rfl (by omega)) (by decide) _ (Or.inl ⟨rfl, rfl⟩) 'b' (by decide) _ (Or.inl rfl)).1,
    (C112_bases_fails 8 "17".toList 15 (Numeral.more "1".toList 1 '7' 7 (Numeral.one '1' 1 rfl (by omega)) rfl (by omega)) (by decide) _ (Or.inr ⟨rfl, rfl⟩) 'O' (by decide) _ (Or.inr rfl)).1⟩

/-- **C112 fails: words.** "yes", "on", "no" and "off" are truth values in the file and nothing in the environment, where a number of threads that needs more than 32 bits is nothing either. -/
theorem C112_words_fails :
    (∀ t ∈ ["YES".toList, "yes".toList, "Yes".toList, "y".toList, "ON".toList, "on".toList, "On".toList], parseBoolEnv t = none ∧ parseBoolFile t = some true) ∧
    (∀ t ∈ ["NO".toList, "no".toList, "No".toList, "n".toList, "OFF".toList, "off".toList, "Off".toList], parseBoolEnv t = none ∧ parseBoolFile t = some false) ∧
    parseInt false 32 "2147483648".toList = none ∧ parseInt true 64 "2147483648".toList = some 2147483648 := by
  refine ⟨by decide +kernel, by decide +kernel, by decide +kernel, by decide +kernel⟩

/-! ### texts that are no numbers -/

/-- **C112 fails: what cannot be read is passed over.** A text in the environment that is no number is the same as none: the program goes on with the file or the default and says nothing. -/
theorem C112_ignored_fails (env file : Texts) (arg : Option Text) (t : Text) :
    ((∀ n, ¬ (Numeral 10 t n ∧ n < 2 ^ 64)) → ∀ key ∈ ["batchSize".toList, "pollingDelay".toList, "remoteSettingsUpdateInterval".toList],
      initSettings (withText env key (some t)) file arg = initSettings (withText env key none) file arg) ∧
    ((∀ n r, ¬ Numeral 10 t n ∧ (t = '+' :: r ∨ t = '-' :: r → ¬ Numeral 10 r n)) → ∀ key ∈ ["numThreads".toList, "statsdPort".toList],
      initSettings (withText env key (some t)) file arg = initSettings (withText env key none) file arg) := by
  constructor
  · intro h
    have hp : parseUint false 64 t = none := by
      match hq : parseUint false 64 t with
      | none => rfl
      | some n => exact absurd ((C112_env_number t n).1 hq) (h n)
    intro key hk
    simp only [List.mem_cons, List.not_mem_nil, or_false] at hk
    unfold initSettings
    cases flagBatchSize arg with
    | none => rfl
    | some fl =>
      rcases hk with rfl | rfl | rfl <;>
        simp [confBatchSize, confUint64, confInt, confBool, confParsed, withText, hp]
  · intro h
    have hp : parseInt false 32 t = none := by
      match hq : parseInt false 32 t with
      | none => rfl
      | some z =>
        rcases (C112_env_signed t z).1 hq with ⟨n, h1 | ⟨r, h1, h2⟩, -⟩ | ⟨n, r, h1, h2, -⟩
        · exact absurd h1 (h n []).1
        · exact absurd h2 ((h n r).2 (Or.inl h1))
        · exact absurd h2 ((h n r).2 (Or.inr h1))
    intro key hk
    simp only [List.mem_cons, List.not_mem_nil, or_false] at hk
    unfold initSettings
    cases flagBatchSize arg with
    | none => rfl
    | some fl =>
      rcases hk with rfl | rfl <;>
        simp [confBatchSize, confUint64, confInt, confBool, confParsed, withText, hp]

/-- "4k" is no number: the hypothesis holds, and the default is used. -/
example : (∀ n, ¬ (Numeral 10 "4k".toList n ∧ n < 2 ^ 64)) ∧
    (initSettings (withText (fun _ => none) "batchSize".toList (some "4k".toList)) (fun _ => none) none).map Settings.batchSize = some 4096 := by
  refine ⟨fun n h => ?_, by decide +kernel⟩
  exact absurd (numeral_mem h.1 'k' (by decide)) (by decide)

/-! ### settings that work -/

theorem confParsed_holds {α : Type} (pe pf : Text → Option α) (val : Nat → α) (hi : Nat) (h : ∀ (t : Text) (n : Nat), Numeral 10 t n → NoLeadingZero t → n ≤ hi → pe t = some (val n) ∧ pf t = some (val n))
    (env file : Option Text) (lo dflt : Nat) (h1 : PlainNumbers env lo hi) (h2 : PlainNumbers file lo hi) (hl : lo ≤ dflt) (hd : dflt ≤ hi) :
    ∃ n, confParsed pe pf env file (val dflt) = val n ∧ InForce env file dflt n ∧ lo ≤ n ∧ n ≤ hi := by
  unfold confParsed
  match env with
  | some t =>
    obtain ⟨n, hn, hz, ha, hb⟩ := h1 t rfl
    refine ⟨n, ?_, Or.inl ⟨t, rfl, hn⟩, ha, hb⟩
    rw [Option.bind_some, (h t n hn hz hb).1]
  | none =>
    match file with
    | some t =>
      obtain ⟨n, hn, hz, ha, hb⟩ := h2 t rfl
      refine ⟨n, ?_, Or.inr (Or.inl ⟨rfl, t, rfl, hn⟩), ha, hb⟩
      rw [Option.bind_some, (h t n hn hz hb).2]
      rfl
    | none => exact ⟨dflt, rfl, Or.inr (Or.inr ⟨rfl, rfl, rfl⟩), hl, hd⟩

theorem asInt64_seconds (i : Nat) (h : i ≤ 3153600000) : asInt64 (asInt64 (i : Int) * 1000000000) = (i : Int) * 1000000000 := by
  have e : asInt64 (i : Int) = i := by unfold asInt64; omega
  rw [e]
  unfold asInt64
  omega

/-- **C112 (partial): settings that work.** If every text given for the number of threads, the batch size and the two waiting times is a plain decimal number in a sensible range, in the environment, in the file and on the command line,
then the programs start, and with settings they can work with: each is the number in the environment, else the one in the file, else the default, and the batch size on the command line is above all of them. -/
theorem C112_usable_partial (env file : Texts) (arg : Option Text)
    (hf : PlainNumbers arg 1 1000000000)
    (hb : PlainNumbers (env "batchSize".toList) 1 1000000000 ∧ PlainNumbers (file "batchSize".toList) 1 1000000000)
    (ht : PlainNumbers (env "numThreads".toList) 1 2147483647 ∧ PlainNumbers (file "numThreads".toList) 1 2147483647)
    (hp : PlainNumbers (env "pollingDelay".toList) 1 3153600000 ∧ PlainNumbers (file "pollingDelay".toList) 1 3153600000)
    (hi : PlainNumbers (env "remoteSettingsUpdateInterval".toList) 1 3153600000 ∧ PlainNumbers (file "remoteSettingsUpdateInterval".toList) 1 3153600000) :
    ∃ s, initSettings env file arg = some s ∧ Usable s ∧
      (∀ t, arg = some t → Numeral 10 t s.batchSize) ∧
      (arg = none → InForce (env "batchSize".toList) (file "batchSize".toList) 4096 s.batchSize) ∧
      InForce (env "numThreads".toList) (file "numThreads".toList) 1 s.workers ∧
      InForce (env "pollingDelay".toList) (file "pollingDelay".toList) 600 s.pollingDelay ∧
      InForce (env "remoteSettingsUpdateInterval".toList) (file "remoteSettingsUpdateInterval".toList) 3600 s.updateInterval ∧
      s.updateWait = (s.updateInterval : Int) * 1000000000 := by
  have hu : ∀ (hi : Nat), hi < 2 ^ 64 → ∀ (t : Text) (n : Nat), Numeral 10 t n → NoLeadingZero t → n ≤ hi → parseUint false 64 t = some (id n) ∧ parseUint true 64 t = some (id n) :=
    fun hi hh t n h hz hn => C112_same_partial.1 t n h hz (Nat.lt_of_le_of_lt hn hh)
  have hn : ∀ (t : Text) (n : Nat), Numeral 10 t n → NoLeadingZero t → n ≤ 2147483647 → parseInt false 32 t = some (n : Int) ∧ parseInt true 64 t = some (n : Int) :=
    fun t n h hz hn => ⟨(C112_same_partial.2.1 t n h hz (Nat.lt_of_le_of_lt hn (by decide))).1, (C112_same_partial.2.1 t n h hz (Nat.lt_of_le_of_lt hn (by decide))).2.1⟩
  obtain ⟨fl, hfl, hfp, hfn⟩ : ∃ fl, flagBatchSize arg = some fl ∧ (∀ t, arg = some t → Numeral 10 t fl ∧ 1 ≤ fl ∧ fl ≤ 1000000000) ∧ (arg = none → fl = 0) := by
    match arg with
    | none => exact ⟨0, rfl, (fun t h => by cases h), fun _ => rfl⟩
    | some t =>
      obtain ⟨n, h1, h2, h3, h4⟩ := hf t rfl
      refine ⟨n, parseUint_any_plain h1 h2 (Nat.lt_of_le_of_lt h4 (by decide)), ?_, fun h => by cases h⟩
      intro t' e
      cases e
      exact ⟨h1, h3, h4⟩
  obtain ⟨b, eb, hb1, hb2, hb3⟩ := confParsed_holds (parseUint false 64) (parseUint true 64) id 1000000000 (hu _ (by decide)) _ _ 1 4096 hb.1 hb.2 (by omega) (by omega)
  obtain ⟨n, en, hn1, hn2, hn3⟩ := confParsed_holds (parseInt false 32) (parseInt true 64) (fun n => (n : Int)) 2147483647 hn _ _ 1 1 ht.1 ht.2 (by omega) (by omega)
  obtain ⟨d, ed, hd1, hd2, hd3⟩ := confParsed_holds (parseUint false 64) (parseUint true 64) id 3153600000 (hu _ (by decide)) _ _ 1 600 hp.1 hp.2 (by omega) (by omega)
  obtain ⟨i, ei, hi1, hi2, hi3⟩ := confParsed_holds (parseUint false 64) (parseUint true 64) id 3153600000 (hu _ (by decide)) _ _ 1 3600 hi.1 hi.2 (by omega) (by omega)
  have ebs : arg = none → confBatchSize (parseUint false 64) (parseUint true 64) (env "batchSize".toList) (file "batchSize".toList) fl = b := by
    intro h
    rw [(C54_batch_size _ _ _ _ _).2 (hfn h)]
    exact eb
  have ebf : ∀ t, arg = some t → confBatchSize (parseUint false 64) (parseUint true 64) (env "batchSize".toList) (file "batchSize".toList) fl = fl := by
    intro t h
    exact (C54_batch_size _ _ _ _ _).1 (hfp t h).2.1
  have en' : confInt env file "numThreads".toList 1 = (n : Int) := en
  have ed' : confUint64 env file "pollingDelay".toList 600 = d := ed
  have ei' : confUint64 env file "remoteSettingsUpdateInterval".toList 3600 = i := ei
  unfold initSettings
  rw [hfl]
  refine ⟨_, rfl, ⟨?_, ?_, ?_, ?_⟩, ?_, ?_, ?_, ?_, ?_, ?_⟩
  · show 1 ≤ confInt env file "numThreads".toList 1
    rw [en']; omega
  · show 1 ≤ confBatchSize _ _ _ _ _ ∧ confBatchSize _ _ _ _ _ ≤ 1000000000
    by_cases ha : arg = none
    · rw [ebs ha]; exact ⟨hb2, hb3⟩
    · obtain ⟨t, ht⟩ := Option.ne_none_iff_exists'.1 ha
      rw [ebf t ht]; exact (hfp t ht).2
  · show 1 ≤ confUint64 env file "pollingDelay".toList 600 ∧ confUint64 env file "pollingDelay".toList 600 ≤ 3153600000
    rw [ed']; exact ⟨hd2, hd3⟩
  · show 1 ≤ confUint64 env file "remoteSettingsUpdateInterval".toList 3600 ∧ confUint64 env file "remoteSettingsUpdateInterval".toList 3600 ≤ 3153600000
    rw [ei']; exact ⟨hi2, hi3⟩
  · intro t h
    show Numeral 10 t (confBatchSize _ _ _ _ _)
    rw [ebf t h]; exact (hfp t h).1
  · intro h
    show InForce _ _ _ (confBatchSize _ _ _ _ _)
    rw [ebs h]; exact hb1
  · show InForce _ _ _ (confInt env file "numThreads".toList 1).toNat
    rw [en', Int.toNat_natCast]; exact hn1
  · show InForce _ _ _ (confUint64 env file "pollingDelay".toList 600)
    rw [ed']; exact hd1
  · show InForce _ _ _ (confUint64 env file "remoteSettingsUpdateInterval".toList 3600)
    rw [ei']; exact hi1
  · show asInt64 (asInt64 ((confUint64 env file "remoteSettingsUpdateInterval".toList 3600 : Nat) : Int) * 1000000000) = ((confUint64 env file "remoteSettingsUpdateInterval".toList 3600 : Nat) : Int) * 1000000000
    rw [ei']
    exact asInt64_seconds i hi3

theorem wordDec (t : Text) (b : Bool) : parseBoolEnv t = some b ↔ TruthWord t b := by
  have ht : ∀ x : String, t = x.toList ↔ String.ofList t = x := by
    intro x
    constructor
    · rintro rfl; simp
    · rintro rfl; simp
  unfold parseBoolEnv TruthWord trueWords falseWords
  simp only [List.mem_cons, List.not_mem_nil, or_false, Prod.mk.injEq, ht]
  generalize String.ofList t = x
  constructor
  · intro h
    split at h
    · rename_i h1
      cases h
      rcases h1 with rfl | rfl | rfl | rfl | rfl | rfl <;> simp
    · split at h
      · rename_i h1
        cases h
        rcases h1 with rfl | rfl | rfl | rfl | rfl | rfl <;> simp
      · cases h
  · rintro (⟨rfl, rfl⟩ | ⟨rfl, rfl⟩ | ⟨rfl, rfl⟩ | ⟨rfl, rfl⟩ | ⟨rfl, rfl⟩ | ⟨rfl, rfl⟩ | ⟨rfl, rfl⟩ | ⟨rfl, rfl⟩ | ⟨rfl, rfl⟩ | ⟨rfl, rfl⟩ | ⟨rfl, rfl⟩ | ⟨rfl, rfl⟩) <;> decide

theorem confBool_inForce (env file : Texts) (key : Text) (dflt : Bool) (h1 : ∀ t, env key = some t → ∃ b, TruthWord t b) (h2 : ∀ t, file key = some t → ∃ b, TruthWord t b) :
    InForceBool (env key) (file key) dflt (confBool env file key dflt) := by
  unfold confBool confParsed
  generalize env key = e at *
  generalize file key = f at *
  match e with
  | some t =>
    obtain ⟨b, hb⟩ := h1 t rfl
    rw [Option.bind_some, (wordDec t b).2 hb]
    exact Or.inl ⟨t, rfl, hb⟩
  | none =>
    match f with
    | some t =>
      obtain ⟨b, hb⟩ := h2 t rfl
      rw [Option.bind_some, C112_same_partial.2.2 t b ((wordDec t b).2 hb)]
      exact Or.inr (Or.inl ⟨rfl, t, rfl, hb⟩)
    | none => exact Or.inr (Or.inr ⟨rfl, rfl, rfl⟩)

/-- **C112 (partial): the other settings.** The two truth values, if every text given for them is one of the usual words, the port, if it is a plain number, and the timeout of Redis are the ones in the environment, else the ones in the file, else the defaults. -/
theorem C112_others_partial (env file : Texts) (s : Settings) (arg : Option Text) (hs : initSettings env file arg = some s) :
    (∀ t, parseBoolEnv t = some true ↔ TruthWord t true) ∧ (∀ t, parseBoolEnv t = some false ↔ TruthWord t false) ∧
    ((∀ t, env "runForever".toList = some t ∨ file "runForever".toList = some t → ∃ b, TruthWord t b) →
      InForceBool (env "runForever".toList) (file "runForever".toList) false s.runForever) ∧
    ((∀ t, env "logExpiredEntries".toList = some t ∨ file "logExpiredEntries".toList = some t → ∃ b, TruthWord t b) →
      InForceBool (env "logExpiredEntries".toList) (file "logExpiredEntries".toList) false s.logExpiredEntries) ∧
    (PlainNumbers (env "statsdPort".toList) 1 65535 → PlainNumbers (file "statsdPort".toList) 1 65535 →
      ∃ n : Nat, s.statsdPort = (n : Int) ∧ InForce (env "statsdPort".toList) (file "statsdPort".toList) 8125 n) ∧
    (∀ t, env "redisTimeout".toList = some t → s.redisTimeout = t) ∧
    (∀ t, env "redisTimeout".toList = none → file "redisTimeout".toList = some t → t ≠ [] → s.redisTimeout = t) ∧
    (env "redisTimeout".toList = none → file "redisTimeout".toList = none → s.redisTimeout = "5s".toList) := by
  unfold initSettings at hs
  split at hs
  · cases hs
  · have e := (Option.some.inj hs).symm
    subst e
    refine ⟨fun t => wordDec t true, fun t => wordDec t false, fun h => ?_, fun h => ?_, fun h1 h2 => ?_, fun t h => ?_, fun t h1 h2 h3 => ?_, fun h1 h2 => ?_⟩
    · exact confBool_inForce env file _ false (fun t ht => h t (Or.inl ht)) (fun t ht => h t (Or.inr ht))
    · exact confBool_inForce env file _ false (fun t ht => h t (Or.inl ht)) (fun t ht => h t (Or.inr ht))
    · obtain ⟨n, en, hn, _⟩ := confParsed_holds (parseInt false 32) (parseInt true 64) (fun n => (n : Int)) 65535
        (fun t n h hz hn => ⟨(C112_same_partial.2.1 t n h hz (Nat.lt_of_le_of_lt hn (by decide))).1, (C112_same_partial.2.1 t n h hz (Nat.lt_of_le_of_lt hn (by decide))).2.1⟩)
        _ _ 1 8125 h1 h2 (by omega) (by omega)
      exact ⟨n, en, hn⟩
    · exact (C54_string _ _ _ _).2 (Or.inl h)
    · exact (C54_string _ _ _ _).2 (Or.inr ⟨h1, Or.inl ⟨h2, h3⟩⟩)
    · exact (C54_string _ _ _ _).2 (Or.inr ⟨h1, Or.inr ⟨Or.inl h2, rfl⟩⟩)

example : TruthWord "True".toList true ∧ (initSettings (fun k => if k = "runForever".toList then some "True".toList else none) (fun _ => none) none).map Settings.runForever = some true := by
  refine ⟨?_, by decide +kernel⟩
  unfold TruthWord
  decide

/-- Nothing is given. -/
example : ∃ s, initSettings (fun _ => none) (fun _ => none) none = some s ∧ Usable s ∧ s.workers = 1 ∧ s.batchSize = 4096 := by
  refine ⟨_, rfl, ?_, ?_, ?_⟩
  · constructor <;> decide +kernel
  · decide +kernel
  · decide +kernel

/-- The threads in the environment, the batch size in the file: the hypotheses hold. -/
theorem plain_none (a b : Nat) : PlainNumbers none a b := fun t h => by cases h

theorem plain_16 : PlainNumbers (some "16".toList) 1 2147483647 := by
  intro t h
  cases h
  exact ⟨16, Numeral.more "1".toList 1 '6' 6 (Numeral.one '1' 1 rfl (by omega)) rfl (by omega), Or.inr (by decide), by omega, by omega⟩

theorem plain_4096 : PlainNumbers (some "4096".toList) 1 1000000000 := by
  intro t h
  cases h
  exact ⟨4096, numeral_4096, Or.inr (by decide), by omega, by omega⟩

/-- `C112_usable_partial` where a thread number is given in the environment and a batch size in the file. -/
example := C112_usable_partial (fun k => if k = "numThreads".toList then some "16".toList else none) (fun k => if k = "batchSize".toList then some "4096".toList else none) none
  (plain_none _ _) ⟨plain_none _ _, plain_4096⟩ ⟨plain_16, plain_none _ _⟩ ⟨plain_none _ _, plain_none _ _⟩ ⟨plain_none _ _, plain_none _ _⟩

/-! ### settings that do not -/

theorem agg_no_workers (file : Text → Text → Option Text) : ∀ (acts : List KAct) (a : Agg), a.workers = [] → KAct.signal ∉ acts →
    (a.run file acts).workers = [] ∧ (a.run file acts).files = a.files ∧ (a.run file acts).cancelled = a.cancelled := by
  intro acts
  induction acts with
  | nil => intro a h _; exact ⟨h, rfl, rfl⟩
  | cons x xs ih =>
    intro a h hs
    have hs' : KAct.signal ∉ xs := fun hx => hs (List.mem_cons_of_mem _ hx)
    have hstep : (a.step file x).workers = [] ∧ (a.step file x).files = a.files ∧ (a.step file x).cancelled = a.cancelled := by
      cases x with
      | tick now =>
        simp only [Agg.step]
        split
        · exact ⟨h, rfl, rfl⟩
        · exact ⟨h, rfl, rfl⟩
      | signal => exact absurd (List.mem_cons_self ..) hs
      | mkdirFails k => simp [Agg.step, h]
      | take k o => simp [Agg.step, h]
      | date k r o => simp [Agg.step, h]
    obtain ⟨h1, h2, h3⟩ := ih _ hstep.1 hs'
    exact ⟨h1, h2.trans hstep.2.1, h3.trans hstep.2.2⟩

theorem crl_no_workers (disk : Text → Option CrlFile) : ∀ (acts : List CrlAct) (a : CrlAgg), a.workers = [] →
    (a.run disk acts).workers = [] ∧ (a.run disk acts).files = a.files ∧ (a.run disk acts).fatal = a.fatal ∧ (a.run disk acts).audit = a.audit := by
  intro acts
  induction acts with
  | nil => intro a h; exact ⟨h, rfl, rfl, rfl⟩
  | cons x xs ih =>
    intro a h
    have hstep : (a.step disk x).workers = [] ∧ (a.step disk x).files = a.files ∧ (a.step disk x).fatal = a.fatal ∧ (a.step disk x).audit = a.audit := by
      unfold CrlAgg.step
      split
      · exact ⟨h, rfl, rfl, rfl⟩
      · cases x with
        | signal => exact ⟨h, rfl, rfl, rfl⟩
        | take k => simp [h]
        | next k o => simp [h]
    obtain ⟨h1, h2, h3, h4⟩ := ih _ hstep.1
    exact ⟨h1, h2.trans hstep.2.1, h3.trans hstep.2.2.1, h4.trans hstep.2.2.2⟩

/-- **C112 fails: nobody to do the work.** With `numThreads` zero or negative, in the environment, the programs start. Whatever is stored and whatever the server publishes, `aggregate-known` writes the coverage and
no file of known certificates and succeeds, and `aggregate-crls` writes no list of revocations and no line of its report and succeeds. -/
theorem C112_no_workers_fails (env file : Texts) (t : Text) (n : Nat) (he : env "numThreads".toList = some t)
    (ht : (Numeral 10 t n ∧ n = 0) ∨ (∃ r, t = '-' :: r ∧ Numeral 10 r n ∧ n ≤ 2 ^ 31)) :
    ∃ s, initSettings env file none = some s ∧
      (∀ (enrolled : Text → Bool) (dirs : List DirEntry) (bin : Text → Text → Option Text) (sts : List CTLogState) (out : List IssuerDates) (q : List IssuerDates)
          (files : Text → Option Text) (t0 : Int) (acts : List KAct),
        listStorageBins dirs = some out → buildQueue enrolled out = some q → KAct.signal ∉ acts →
        ∃ a, aggregateKnown enrolled dirs bin (some sts) s.workers files t0 acts = some (sts, a) ∧ a.files = files) ∧
      (∀ (disk : Text → Option CrlFile) (units : List CrlUnit) (files : Text → Option Text) (acts : List CrlAct),
        ((CrlAgg.init units s.workers files).run disk acts).returned = true ∧ ((CrlAgg.init units s.workers files).run disk acts).files = files ∧
        ((CrlAgg.init units s.workers files).run disk acts).audit = []) := by
  obtain ⟨z, hz, hle⟩ : ∃ z : Int, parseInt false 32 t = some z ∧ z ≤ 0 := by
    rcases ht with ⟨h1, rfl⟩ | ⟨r, rfl, h1, h2⟩
    · exact ⟨0, (C112_env_signed t 0).2 (Or.inl ⟨0, Or.inl h1, by decide, rfl⟩), by omega⟩
    · exact ⟨-(n : Int), (C112_env_signed _ _).2 (Or.inr ⟨n, r, rfl, h1, h2, rfl⟩), by omega⟩
  refine ⟨_, rfl, ?_, ?_⟩
  all_goals
    have hw : Settings.workers { batchSize := confBatchSize (parseUint false 64) (parseUint true 64) (env "batchSize".toList) (file "batchSize".toList) 0
                                 numThreads := confInt env file "numThreads".toList 1
                                 logExpiredEntries := confBool env file "logExpiredEntries".toList false
                                 runForever := confBool env file "runForever".toList false
                                 pollingDelay := confUint64 env file "pollingDelay".toList 600
                                 updateInterval := confUint64 env file "remoteSettingsUpdateInterval".toList 3600
                                 redisTimeout := confString (env "redisTimeout".toList) (file "redisTimeout".toList) "5s".toList
                                 statsdPort := confInt env file "statsdPort".toList 8125 } = 0 := by
      show (confInt env file "numThreads".toList 1).toNat = 0
      have e : confInt env file "numThreads".toList 1 = z := by
        unfold confInt confParsed
        rw [he, Option.bind_some, hz]
      rw [e]; omega
    rw [hw]
  · intro enrolled dirs bin sts out q files t0 acts h1 h2 h3
    obtain ⟨g1, g2, g3⟩ := agg_no_workers bin acts (Agg.init q 0 files t0) rfl h3
    refine ⟨(Agg.init q 0 files t0).run bin acts, ?_, g2⟩
    unfold aggregateKnown
    rw [h1]
    dsimp only
    rw [h2]
    dsimp only
    have hs : ((Agg.init q 0 files t0).run bin acts).success = true := by
      unfold Agg.success
      rw [g1, g3]; rfl
    rw [if_pos hs]
  · intro disk units files acts
    obtain ⟨g1, g2, g3, g4⟩ := crl_no_workers disk acts (CrlAgg.init units 0 files) rfl
    refine ⟨?_, g2, g4⟩
    unfold CrlAgg.returned
    rw [g1, g3]; rfl

/-- Both ways of writing it. -/
example : (Numeral 10 "0".toList 0 ∧ 0 = 0) ∧ (∃ r, "-1".toList = '-' :: r ∧ Numeral 10 r 1 ∧ 1 ≤ 2 ^ 31) ∧
    (initSettings (withText (fun _ => none) "numThreads".toList (some "-1".toList)) (fun _ => none) none).map Settings.workers = some 0 :=
  ⟨⟨Numeral.one '0' 0 rfl (by omega), rfl⟩, ⟨"1".toList, rfl, Numeral.one '1' 1 rfl (by omega), by decide⟩, by decide +kernel⟩

/-- **C112 fails: jobs of no entries.** With `batchSize` zero in the environment ct-fetch starts. It dies when it fills in older entries of a log, and at the first entry of a tiled log; a job for newer entries
has a range whose end is before its beginning. -/
theorem C112_batch_zero_fails (env file : Texts) (t : Text) (he : env "batchSize".toList = some t) (ht : Numeral 10 t 0) :
    ∃ s, initSettings env file none = some s ∧ initSettings env file (some "0".toList) = some s ∧
      (∀ (e : Env) (now : Nat) (w : WState) (h : TreeHead) (u : Nat) (proof : Option (List Bytes)) (rs : List Resp),
        3 < h.treeSize → w.lastUpdate = some u → 0 < w.minEntry → h.treeSize ≤ w.maxEntry → w.maxEntry < 2 ^ 64 →
        runWorkerE e s.batchSize now w (some h) proof rs = ([], .crashed)) ∧
      (∀ (w : TNet) (now : Nat) (v : TVars) (st st1 : Issuers) (e : SunEntry) (tm : Nat) (es : List (SunEntry × Nat)) (o : Outcome),
        storeSunEntry w st tm e = (o, st1) → o ≠ .fatal → o ≠ .retry → (loopTiled w s.batchSize now v st ((e, tm) :: es)).2.2.2 = some .crashed) ∧
      (∀ (now : Nat) (w : WState) (h : TreeHead) (u : Nat), 3 < h.treeSize → w.lastUpdate = some u → w.maxEntry < h.treeSize → h.treeSize < 2 ^ 64 →
        jobRange s.batchSize w h.treeSize (chooseTask s.batchSize now w (some h)) = some (w.maxEntry + 1, w.maxEntry)) := by
  have hz : parseUint false 64 t = some 0 := (C112_env_number t 0).2 ⟨ht, by decide⟩
  have h0 : flagBatchSize (some "0".toList) = some 0 := by decide +kernel
  have hbz : confBatchSize (parseUint false 64) (parseUint true 64) (env "batchSize".toList) (file "batchSize".toList) 0 = 0 := by
    rw [(C54_batch_size _ _ _ _ _).2 rfl]
    unfold confParsed
    rw [he, Option.bind_some, hz]
  refine ⟨_, rfl, by unfold initSettings; rw [h0], ?_, ?_, ?_⟩
  all_goals dsimp only; rw [hbz]
  · intro e now w h u proof rs h3 hu hm hs hx
    have ha : add64 w.maxEntry 0 = w.maxEntry := by
      unfold add64
      omega
    have htask : chooseTask 0 now w (some h) = .backfill := by
      unfold chooseTask
      dsimp only
      rw [if_neg (by omega), hu]
      dsimp only
      rw [ha, if_neg (by omega), if_pos hm]
    unfold runWorkerE
    dsimp only
    rw [htask, if_pos ⟨rfl, rfl⟩]
  · intro w now v st st1 e tm es o h1 h2 h3
    unfold loopTiled
    rw [h1]
    cases o with
    | fatal => exact absurd rfl h2
    | retry => exact absurd rfl h3
    | skip => rfl
    | store i => rfl
  · intro now w h u h3 hu hm hx
    have ha : add64 w.maxEntry 0 = w.maxEntry := by
      unfold add64
      omega
    have htask : chooseTask 0 now w (some h) = .update := by
      unfold chooseTask
      dsimp only
      rw [if_neg (by omega), hu]
      dsimp only
      rw [ha, if_pos hm]
    rw [htask]
    unfold jobRange rawRange
    dsimp only
    rw [ha]
    have e1 : add64 w.maxEntry 1 = w.maxEntry + 1 := by unfold add64; omega
    have e2 : sub64 h.treeSize 1 = h.treeSize - 1 := by unfold sub64; omega
    rw [e1, e2, if_neg (by omega)]

/-- The state of a log that is behind in both directions, and one that has been read to its end. -/
example : (3 < (⟨150, 0⟩ : TreeHead).treeSize ∧ (⟨20, 99, 0, 0, some 7⟩ : WState).maxEntry < 150) ∧ jobRange 0 ⟨20, 99, 0, 0, some 7⟩ 150 (chooseTask 0 1000 ⟨20, 99, 0, 0, some 7⟩ (some ⟨150, 0⟩)) = some (100, 99) ∧
    chooseTask 0 1000 ⟨20, 150, 0, 0, some 7⟩ (some ⟨150, 0⟩) = .backfill := by decide

/-- **C112: jobs of too many entries.** A batch size above 2^48 ends ct-fetch when it starts. With every other one the last entry of a job is computed without wrapping around, for every log of less than 2^63 entries. -/
theorem C112_batch_huge (size : Nat) (h1 : 1 ≤ size) (s : Settings) :
    (2 ^ 48 < s.batchSize → s.queueMade size = false) ∧
    (s.queueMade size = true → ∀ w : WState, w.maxEntry < 2 ^ 63 → add64 w.maxEntry s.batchSize = w.maxEntry + s.batchSize) := by
  have hm : s.batchSize ≤ s.batchSize * size := Nat.le_mul_of_pos_right _ h1
  unfold Settings.queueMade
  constructor
  · intro h
    exact decide_eq_false (by omega)
  · intro h w hw
    have h2 : s.batchSize * size ≤ 281474976710656 := of_decide_eq_true h
    unfold add64
    omega

example : (initSettings (withText (fun _ => none) "batchSize".toList (some "18446744073709551615".toList)) (fun _ => none) none).map (fun s => s.queueMade 56) = some false ∧
    (initSettings (fun _ => none) (fun _ => none) none).map (fun s => s.queueMade 56) = some true := by decide +kernel

/-- **C112 fails: no time to wait.** With `pollingDelay` zero ct-fetch reports that it is unhealthy a nanosecond after every sign of life of its workers; with `remoteSettingsUpdateInterval` zero, or a number of seconds whose
nanoseconds do not fit, it asks for the list of logs without a pause. -/
theorem C112_no_pause_fails :
    (∀ (t now : Int), t < now → health 0 (some t) now = 500) ∧
    (∀ s : Settings, s.updateInterval = 0 → s.updateWait = 0) ∧
    (∀ s : Settings, 9223372037 ≤ s.updateInterval → s.updateInterval ≤ 18446744073 → s.updateWait < 0) := by
  refine ⟨fun t now h => ?_, fun s h => ?_, fun s h1 h2 => ?_⟩
  · have e : asInt64 (2 * asInt64 ((0 : Nat) : Int) * 1000000000) = 0 := by decide
    simp only [health, e]
    rw [if_pos (by omega)]
  · unfold Settings.updateWait
    rw [h]; decide
  · unfold Settings.updateWait
    have e : asInt64 (s.updateInterval : Int) = s.updateInterval := by unfold asInt64; omega
    rw [e]
    unfold asInt64
    have h3 : (9223372037 : Int) * 1000000000 ≤ (s.updateInterval : Int) * 1000000000 := by omega
    have h4 : (s.updateInterval : Int) * 1000000000 ≤ 18446744073 * 1000000000 := by omega
    generalize (s.updateInterval : Int) * 1000000000 = x at *
    omega

example : ∃ s, initSettings (fun k => if k = "pollingDelay".toList ∨ k = "remoteSettingsUpdateInterval".toList then some "0".toList else none) (fun _ => none) none = some s ∧
    s.pollingDelay = 0 ∧ s.updateInterval = 0 := ⟨_, rfl, by decide +kernel, by decide +kernel⟩

end Verif.Props
