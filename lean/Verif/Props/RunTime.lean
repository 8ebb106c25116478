import Verif.Spec.RunTime
import Verif.Props.PublisherMain
import Verif.Props.Operations
import Verif.Props.Json
import Verif.Props.Time
/-!
Property C118: the time of a run, from the clock to the names of records.
-/
namespace Verif.Props
open Verif.Spec

/-! ### the calendar -/

/-- A date as a number of eight digits. -/
def dayNumber (c : Civil) : Int := c.year * 10000 + c.month * 100 + c.day

theorem monthLength_le (y m : Int) : monthLength y m ≤ 31 := by
  unfold monthLength
  split
  · split <;> omega
  · split <;> omega

theorem dayNumber_next (n : Int) : dayNumber (civilOfDays n) < dayNumber (civilOfDays (n + 1)) := by
  have hv := civilOfDays_valid n
  rw [civilOfDays_succ]
  revert hv
  generalize civilOfDays n = c
  intro hv
  obtain ⟨v1, v2, v3, v4⟩ := hv
  have := monthLength_le c.year c.month
  unfold nextDay dayNumber
  split
  · dsimp only; omega
  · split
    · dsimp only; omega
    · dsimp only; omega

theorem dayNumber_lt (n : Int) (k : Nat) : dayNumber (civilOfDays n) < dayNumber (civilOfDays (n + (k + 1 : Nat))) := by
  induction k with
  | zero => exact dayNumber_next n
  | succ k ih =>
    have := dayNumber_next (n + (k + 1 : Nat))
    rw [show n + ((k + 1 + 1 : Nat) : Int) = n + (k + 1 : Nat) + 1 by omega]
    omega

theorem dayNumber_mono {a b : Int} (h : a ≤ b) : dayNumber (civilOfDays a) ≤ dayNumber (civilOfDays b) := by
  by_cases e : a = b
  · rw [e]; exact Int.le_refl _
  · obtain ⟨k, hk⟩ : ∃ k : Nat, b = a + (k + 1 : Nat) := ⟨(b - a - 1).toNat, by omega⟩
    rw [hk]
    exact Int.le_of_lt (dayNumber_lt a k)

theorem last_day : civilOfDays 2932896 = ⟨9999, 12, 31⟩ := by decide

theorem first_year {c : Civil} (hv : Valid c) (h : dayNumber ⟨1, 1, 1⟩ ≤ dayNumber c) : 1 ≤ c.year := by
  obtain ⟨v1, v2, v3, v4⟩ := hv
  have := monthLength_le c.year c.month
  unfold dayNumber at h
  dsimp only at h
  omega

theorem year_le {n : Int} (h : n ≤ 2932896) : (civilOfDays n).year ≤ 9999 := by
  have h1 := dayNumber_mono h
  have hv := civilOfDays_valid n
  rw [last_day] at h1
  obtain ⟨v1, v2, v3, v4⟩ := hv
  unfold dayNumber at h1
  dsimp only at h1
  omega

theorem year_ge {n : Int} (h : 0 ≤ n) : 1970 ≤ (civilOfDays n).year := by
  have h1 := dayNumber_mono h
  have hv := civilOfDays_valid n
  rw [civilOfDays_zero] at h1
  have := monthLength_le (civilOfDays n).year (civilOfDays n).month
  obtain ⟨v1, v2, v3, v4⟩ := hv
  unfold dayNumber at h1
  dsimp only at h1
  omega

theorem yearOf_bounds {t : Nat} (h : t < endOfTime) : 1970 ≤ yearOf t ∧ yearOf t ≤ 9999 := by
  unfold endOfTime at h
  exact ⟨year_ge (by omega), year_le (by omega)⟩

/-! ### writing -/

/-- Date and time of day, for any second. -/
def isoInt (n : Int) : Text :=
  formatDay n ++ 'T' :: (dec2 ((n % 86400).toNat / 3600) ++ ':' :: (dec2 ((n % 86400).toNat / 60 % 60) ++ ':' :: dec2 ((n % 86400).toNat % 60)))

theorem isoSeconds_eq (t : Nat) : isoSeconds t = isoInt t := by
  unfold isoSeconds isoInt
  have h : ((t : Int) % 86400).toNat = t % 86400 := by omega
  rw [h, show t % 86400 / 60 % 60 = t % 3600 / 60 by omega, show t % 86400 % 60 = t % 60 by omega]

theorem isoInt_rfc {n : Int} {z : Text} {off : Int} (h0 : 0 ≤ yearOf n) (h1 : yearOf n ≤ 9999) (hz : Offset z off) : Rfc3339 (isoInt n ++ z) (n - off * 60) 0 := by
  unfold yearOf at h0 h1
  have hv := civilOfDays_valid (n / 86400)
  have hm := monthLength_le (civilOfDays (n / 86400)).year (civilOfDays (n / 86400)).month
  obtain ⟨v1, v2, v3, v4⟩ := hv
  have hr := Int.emod_nonneg n (show (86400 : Int) ≠ 0 by decide)
  have hr' := Int.emod_lt_of_pos n (show (0 : Int) < 86400 by decide)
  refine ⟨dec4 (civilOfDays (n / 86400)).year.toNat, dec2 (civilOfDays (n / 86400)).month.toNat, dec2 (civilOfDays (n / 86400)).day.toNat, dec2 ((n % 86400).toNat / 3600), dec2 ((n % 86400).toNat / 60 % 60),
    dec2 ((n % 86400).toNat % 60), [], z, _, _, _, _, _, _, off, n / 86400, ?_, rfl, rfl, rfl, rfl, rfl, rfl,
    fixed_dec4 (by omega), fixed_dec2 (by omega), fixed_dec2 (by omega), fixed_dec2 (by omega), fixed_dec2 (by omega), fixed_dec2 (by omega), .inl ⟨rfl, rfl⟩, hz, by omega, by omega, by omega, ?_, ?_⟩
  · unfold isoInt formatDay
    simp only [List.append_assoc, List.cons_append, List.nil_append]
  · have : (⟨((civilOfDays (n / 86400)).year.toNat : Int), ((civilOfDays (n / 86400)).month.toNat : Int), ((civilOfDays (n / 86400)).day.toNat : Int)⟩ : Civil) = civilOfDays (n / 86400) := by
      rw [Int.toNat_of_nonneg h0, Int.toNat_of_nonneg (by omega), Int.toNat_of_nonneg (by omega)]
    rw [this]
    exact onDay_civil _
  · omega

theorem offset_zero : Offset "+00:00".toList 0 :=
  .inr ⟨'+', ['0', '0'], ['0', '0'], 0, 0, rfl, rfl, rfl, ⟨fun c hc => ⟨0, by simp at hc; subst hc; exact ⟨by decide, rfl⟩⟩, rfl⟩, ⟨fun c hc => ⟨0, by simp at hc; subst hc; exact ⟨by decide, rfl⟩⟩, rfl⟩, by decide, by decide, .inl ⟨rfl, rfl⟩⟩

/-- **C118.** What is written for a second before the year 10000 says that second: the file of the run as a time in UTC, and the time in the names of records. -/
theorem C118_written (t : Nat) (h : t < endOfTime) : DateAndTime (isoSeconds t) 'T' t ∧ Rfc3339 (isoUtc t) t 0 := by
  obtain ⟨y0, y1⟩ := yearOf_bounds h
  refine ⟨⟨formatDay t, _, rfl, length_formatDay t, rfl, ?_⟩, ?_⟩
  · have := isoInt_rfc (n := t) (z := ['Z']) (by omega) y1 (.inl ⟨rfl, rfl⟩)
    rw [← isoSeconds_eq] at this
    simpa [isoSeconds] using this
  · have := isoInt_rfc (n := t) (by omega) y1 offset_zero
    rw [← isoSeconds_eq] at this
    simpa [isoUtc] using this

/-! ### reading -/

theorem clockSeconds_some {t : Text} {n : Nat} (h : clockSeconds t = some n) : n < 86400 ∧ t = dec2 (n / 3600) ++ ':' :: (dec2 (n / 60 % 60) ++ ':' :: dec2 (n % 60)) := by
  unfold clockSeconds at h
  split at h
  · split at h
    · rename_i a b c d e f x y z hx hy hz
      split at h
      · rename_i hb
        cases h
        obtain ⟨e1, _⟩ := num2_some hx
        obtain ⟨e2, _⟩ := num2_some hy
        obtain ⟨e3, _⟩ := num2_some hz
        refine ⟨by omega, ?_⟩
        rw [show (x * 3600 + y * 60 + z) / 3600 = x by omega, show (x * 3600 + y * 60 + z) / 60 % 60 = y by omega, show (x * 3600 + y * 60 + z) % 60 = z by omega, ← e1, ← e2, ← e3]
        rfl
      · cases h
    · cases h
  · cases h

theorem clockSeconds_dec {h m s : Nat} (hh : h < 24) (hm : m < 60) (hs : s < 60) : clockSeconds (dec2 h ++ ':' :: (dec2 m ++ ':' :: dec2 s)) = some (h * 3600 + m * 60 + s) := by
  simp only [dec2, List.cons_append, List.nil_append, clockSeconds]
  rw [num2_dec2 _ (by omega), num2_dec2 _ (by omega), num2_dec2 _ (by omega)]
  dsimp only
  rw [if_pos ⟨hh, hm, hs⟩]

theorem digit_decVal {c : Char} {k : Nat} (h : Digit c k) : decVal c = some k := by
  unfold decVal
  have := h.1
  have := h.2
  rw [if_pos (by omega)]
  simp only [Option.some.injEq]
  omega

theorem fixed_two {t : Text} {n : Nat} (h : Fixed t n) (hl : t.length = 2) : ∃ a b, t = [a, b] ∧ num2 a b = some n := by
  match t, hl with
  | [a, b], _ =>
    obtain ⟨hd, e⟩ := h
    obtain ⟨x, hx⟩ := hd a (by simp)
    obtain ⟨y, hy⟩ := hd b (by simp)
    refine ⟨a, b, rfl, ?_⟩
    unfold num2
    rw [digit_decVal hx, digit_decVal hy]
    simp only [Option.some.injEq]
    have := hx.2
    have := hy.2
    simp only [List.foldl] at e
    omega

theorem fixed_four {t : Text} {n : Nat} (h : Fixed t n) (hl : t.length = 4) : ∃ a b c d, t = [a, b, c, d] ∧ num4 a b c d = some n := by
  match t, hl with
  | [a, b, c, d], _ =>
    obtain ⟨hd, e⟩ := h
    obtain ⟨x, hx⟩ := hd a (by simp)
    obtain ⟨y, hy⟩ := hd b (by simp)
    obtain ⟨z, hz⟩ := hd c (by simp)
    obtain ⟨w, hw⟩ := hd d (by simp)
    refine ⟨a, b, c, d, rfl, ?_⟩
    unfold num4 num2
    rw [digit_decVal hx, digit_decVal hy, digit_decVal hz, digit_decVal hw]
    simp only [Option.some.injEq]
    have := hx.2
    have := hy.2
    have := hz.2
    have := hw.2
    simp only [List.foldl] at e
    omega

theorem isOffset_iff (z : Text) : isOffset z = true ↔ z = [] ∨ (z ≠ ['Z'] ∧ ∃ off, Offset z off) := by
  constructor
  · intro h
    unfold isOffset at h
    split at h
    · exact .inl rfl
    · rename_i s a b c d
      split at h
      · rename_i x y hx hy
        simp only [Bool.and_eq_true, Bool.or_eq_true, decide_eq_true_eq] at h
        obtain ⟨hs, hh, hm⟩ := h
        obtain ⟨e1, _⟩ := num2_some hx
        obtain ⟨e2, _⟩ := num2_some hy
        refine .inr ⟨by simp, ?_⟩
        have f1 : Fixed [a, b] x := by rw [e1]; exact fixed_dec2 (by omega)
        have f2 : Fixed [c, d] y := by rw [e2]; exact fixed_dec2 (by omega)
        rcases hs with rfl | rfl
        · exact ⟨_, .inr ⟨_, _, _, _, _, rfl, rfl, rfl, f1, f2, hh, hm, .inl ⟨rfl, rfl⟩⟩⟩
        · exact ⟨_, .inr ⟨_, _, _, _, _, rfl, rfl, rfl, f1, f2, hh, hm, .inr ⟨rfl, rfl⟩⟩⟩
      · cases h
    · cases h
  · intro h
    rcases h with rfl | ⟨hz, off, ⟨rfl, _⟩ | ⟨s, h, m, hh, mm, rfl, l1, l2, f1, f2, b1, b2, hs⟩⟩
    · rfl
    · exact absurd rfl hz
    · obtain ⟨a, b, rfl, n1⟩ := fixed_two f1 l1
      obtain ⟨c, d, rfl, n2⟩ := fixed_two f2 l2
      simp only [List.cons_append, List.nil_append, isOffset]
      rw [n1, n2]
      simp only [Bool.and_eq_true, Bool.or_eq_true, decide_eq_true_eq]
      exact ⟨by rcases hs with ⟨h, _⟩ | ⟨h, _⟩ <;> simp [h], b1, b2⟩

theorem first_day : civilOfDays (-719162) = ⟨1, 1, 1⟩ := by decide

theorem year_pos_iff (n : Int) : firstSecond ≤ n ↔ 1 ≤ yearOf n := by
  unfold firstSecond yearOf
  constructor
  · intro h
    have h1 := dayNumber_mono (show (-719162 : Int) ≤ n / 86400 by omega)
    rw [first_day] at h1
    exact first_year (civilOfDays_valid _) h1
  · intro h
    by_cases hn : -719162 ≤ n / 86400
    · omega
    · exfalso
      obtain ⟨k, hk⟩ : ∃ k : Nat, (-719162 : Int) = n / 86400 + (k + 1 : Nat) := ⟨(-719162 - n / 86400 - 1).toNat, by omega⟩
      have h1 := dayNumber_lt (n / 86400) k
      rw [← hk, first_day] at h1
      obtain ⟨v1, v2, v3, v4⟩ := civilOfDays_valid (n / 86400)
      unfold dayNumber at h1
      dsimp only at h1
      omega

theorem take4_formatDay (n : Int) : (formatDay n).take 4 = dec4 (yearOf n).toNat := by
  unfold formatDay yearOf
  rfl

theorem dec4_zero {n : Nat} (h : n < 10000) : dec4 n = "0000".toList ↔ n = 0 := by
  constructor
  · intro e
    have h1 := num4_dec4 n h
    unfold dec4 at e
    simp only [String.reduceToList, List.cons.injEq, and_true] at e
    obtain ⟨e1, e2, e3, e4⟩ := e
    rw [e1, e2, e3, e4] at h1
    have h2 : num4 '0' '0' '0' '0' = some 0 := by decide
    rw [h2] at h1
    exact (Option.some.inj h1).symm
  · rintro rfl
    decide

theorem formatDay_congr {a b : Int} (h : a / 86400 = b / 86400) : formatDay a = formatDay b := by
  unfold formatDay
  rw [h]

/-- The parts of a text that says a date and a time of day. -/
theorem dateAndTime_iff (u : Text) (x : Char) (n : Int) : DateAndTime u x n ↔ 0 ≤ yearOf n ∧ yearOf n ≤ 9999 ∧
    u = formatDay n ++ x :: (dec2 ((n % 86400).toNat / 3600) ++ ':' :: (dec2 ((n % 86400).toNat / 60 % 60) ++ ':' :: dec2 ((n % 86400).toNat % 60))) := by
  constructor
  · rintro ⟨d, c, rfl, ld, lc, y, mo, dd, h, mi, s, fr, z, yy, mm, ddn, hh, nn, ss, off, day, ht, l1, l2, l3, l4, l5, l6, f1, f2, f3, f4, f5, f6, _, hz, b1, b2, b3, hday, hsec⟩
    obtain ⟨y1, y2, y3, y4, rfl, q1⟩ := fixed_four f1 l1
    obtain ⟨m1, m2, rfl, q2⟩ := fixed_two f2 l2
    obtain ⟨d1, d2, rfl, q3⟩ := fixed_two f3 l3
    obtain ⟨h1, h2, rfl, q4⟩ := fixed_two f4 l4
    obtain ⟨i1, i2, rfl, q5⟩ := fixed_two f5 l5
    obtain ⟨s1, s2, rfl, q6⟩ := fixed_two f6 l6
    obtain ⟨e1, g1⟩ := num4_some q1
    obtain ⟨e2, _⟩ := num2_some q2
    obtain ⟨e3, _⟩ := num2_some q3
    obtain ⟨e4, _⟩ := num2_some q4
    obtain ⟨e5, _⟩ := num2_some q5
    obtain ⟨e6, _⟩ := num2_some q6
    have hsplit : d ++ 'T' :: (c ++ ['Z']) = ([y1, y2, y3, y4] ++ '-' :: ([m1, m2] ++ '-' :: [d1, d2])) ++ 'T' :: (([h1, h2] ++ ':' :: ([i1, i2] ++ ':' :: [s1, s2])) ++ (fr ++ z)) := by
      rw [ht]
      simp only [List.cons_append, List.nil_append]
    obtain ⟨rfl, h'⟩ := List.append_inj hsplit (by simp [ld])
    obtain ⟨rfl, h''⟩ := List.append_inj (List.cons.inj h').2 (by simp [lc])
    have hz0 : off = 0 := by
      rcases hz with ⟨_, h0⟩ | ⟨s, h, m, _, _, rfl, k1, k2, _⟩
      · exact h0
      · exfalso
        have := congrArg List.length h''
        simp [k1, k2] at this
    subst hz0
    have hv : Valid ⟨yy, mm, ddn⟩ := by
      obtain ⟨f, _, g, e⟩ := hday
      rw [← e]
      exact (g day).1
    have hciv : civilOfDays day = ⟨yy, mm, ddn⟩ := onDay_unique (onDay_civil day) hday
    have hn : n / 86400 = day := by omega
    have hr : (n % 86400).toNat = hh * 3600 + nn * 60 + ss := by omega
    have hy : yearOf n = yy := by
      unfold yearOf
      rw [hn, hciv]
    refine ⟨by omega, by omega, ?_⟩
    rw [hr, show (hh * 3600 + nn * 60 + ss) / 3600 = hh by omega, show (hh * 3600 + nn * 60 + ss) / 60 % 60 = nn by omega, show (hh * 3600 + nn * 60 + ss) % 60 = ss by omega, ← e4, ← e5, ← e6]
    unfold formatDay
    dsimp only
    rw [hn, hciv]
    dsimp only
    rw [Int.toNat_natCast, Int.toNat_natCast, Int.toNat_natCast, ← e1, ← e2, ← e3]
    simp only [List.cons_append, List.nil_append]
  · rintro ⟨h0, h1, rfl⟩
    refine ⟨formatDay n, _, rfl, length_formatDay n, rfl, ?_⟩
    have := isoInt_rfc (n := n) (z := ['Z']) h0 h1 (.inl ⟨rfl, rfl⟩)
    simpa [isoInt] using this

/-- **C118.** What the publisher reads from a text is what its date and its time of day say in UTC. There is no year 0, any character may stand between date and time, and an offset behind them is left out of account. -/
theorem C118_reads (s : Text) (n : Int) :
    fromIso s = some n ↔ ∃ u x z, s = u ++ z ∧ DateAndTime u x n ∧ u.take 4 ≠ "0000".toList ∧ (z = [] ∨ (z ≠ ['Z'] ∧ ∃ off, Offset z off)) := by
  constructor
  · intro h
    unfold fromIso at h
    split at h
    · rename_i d x rest hd hx
      split at h
      · rename_i c hc
        split at h
        · rename_i hb
          cases h
          obtain ⟨e1, hmod, y0, y1⟩ := parseDay_some hd
          obtain ⟨hc1, e2⟩ := clockSeconds_some hc
          have hdiv : (d + c) / 86400 = d / 86400 := by omega
          have hrest : ((d + (c : Int)) % 86400).toNat = c := by omega
          have hyear : yearOf (d + c) = yearOf d := by
            unfold yearOf
            rw [hdiv]
          have hu : s.take 10 ++ x :: rest.take 8 = formatDay (d + c) ++ x :: (dec2 (((d + (c : Int)) % 86400).toNat / 3600) ++ ':' :: (dec2 (((d + (c : Int)) % 86400).toNat / 60 % 60) ++ ':' :: dec2 (((d + (c : Int)) % 86400).toNat % 60))) := by
            rw [hrest, e1, e2, formatDay_congr hdiv]
          refine ⟨s.take 10 ++ x :: rest.take 8, x, rest.drop 8, ?_, (dateAndTime_iff _ x _).2 ⟨by omega, by omega, hu⟩, ?_, (isOffset_iff _).1 hb.1⟩
          · rw [List.append_assoc, List.cons_append, List.take_append_drop, ← hx, List.take_append_drop]
          · rw [hu, List.take_append_of_le_length (by rw [length_formatDay]; omega), take4_formatDay, ne_eq, dec4_zero (by omega)]
            have := (year_pos_iff d).1 hb.2
            omega
        · cases h
      · cases h
    · cases h
  · rintro ⟨u, x, z, rfl, hu, h0, hz⟩
    obtain ⟨y0, y1, rfl⟩ := (dateAndTime_iff u x n).1 hu
    rw [List.take_append_of_le_length (by rw [length_formatDay]; omega), take4_formatDay, ne_eq, dec4_zero (by omega)] at h0
    have hp := (year_pos_iff n).2 (by omega)
    have hr := Int.emod_nonneg n (show (86400 : Int) ≠ 0 by decide)
    have hr' := Int.emod_lt_of_pos n (show (0 : Int) < 86400 by decide)
    unfold fromIso
    rw [List.append_assoc, List.take_append_of_le_length (by rw [length_formatDay]; omega), List.take_of_length_le (by rw [length_formatDay]; omega),
      List.drop_append_of_le_length (by rw [length_formatDay]; omega), List.drop_of_length_le (by rw [length_formatDay]; omega), parseDay_formatDay n y0 y1]
    simp only [List.nil_append, List.cons_append]
    rw [List.take_append_of_le_length (by simp [dec2]), List.take_of_length_le (by simp [dec2]), clockSeconds_dec (by omega) (by omega) (by omega)]
    dsimp only
    rw [List.drop_append_of_le_length (by simp [dec2]), List.drop_of_length_le (by simp [dec2]), List.nil_append, if_pos ⟨(isOffset_iff z).2 hz, by unfold firstSecond at hp ⊢; omega⟩]
    simp only [Option.some.injEq]
    omega

/-! ### back again -/

theorem decDigit_ne (k : Nat) (c : Char) (h : 57 < c.toNat) : decDigit (k % 10) ≠ c := by
  intro e
  have := decDigit_toNat (Nat.mod_lt k (show 10 > 0 by decide))
  rw [e] at this
  omega

theorem isoUtc_noZ (t : Nat) : ∀ c ∈ isoUtc t, c ≠ 'Z' := by
  intro c hc
  have key : ∀ k, decDigit (k % 10) ≠ 'Z' := fun k => decDigit_ne k 'Z' (by decide)
  simp only [isoUtc, isoSeconds, formatDay, dec4, dec2, List.cons_append, List.nil_append, String.reduceToList, List.mem_cons, List.not_mem_nil, or_false] at hc
  rcases hc with h | h | h | h | h | h | h | h | h | h | h | h | h | h | h | h | h | h | h | h | h | h | h | h | h
  all_goals (subst h; first | exact key _ | decide)

theorem beforeZDash_append (u w : Text) (h : ∀ c ∈ u, c ≠ 'Z') : beforeZDash (u ++ 'Z' :: '-' :: w) = u := by
  induction u with
  | nil => rfl
  | cons c u ih =>
    have hc : c ≠ 'Z' := h c List.mem_cons_self
    have h1 := ih (fun d hd => h d (List.mem_cons_of_mem _ hd))
    rw [List.cons_append]
    unfold beforeZDash
    split
    · rename_i e
      exact absurd (List.cons.inj e).1 hc
    · rename_i e
      cases e
      rw [h1]
    · rename_i e
      cases e

/-- **C118.** The time is read back from the file of the run and from the names of the records. -/
theorem C118_read_back (t : Nat) (h : t < endOfTime) (full : Bool) : fromIso (isoSeconds t) = some (t : Int) ∧ timeOfRecord (recordName t full) = some (t : Int) := by
  obtain ⟨h1, _⟩ := C118_written t h
  have h4 : (isoSeconds t).take 4 ≠ "0000".toList := by
    unfold isoSeconds
    obtain ⟨y0, y1⟩ := yearOf_bounds h
    rw [List.take_append_of_le_length (by rw [length_formatDay]; omega), take4_formatDay, ne_eq, dec4_zero (by omega)]
    omega
  refine ⟨(C118_reads _ _).2 ⟨isoSeconds t, 'T', [], (List.append_nil _).symm, h1, h4, .inl rfl⟩, ?_⟩
  unfold timeOfRecord
  have e : beforeZDash (recordName t full) = isoSeconds t ++ "+00:00".toList := by
    cases full
    · exact beforeZDash_append (isoUtc t) _ (isoUtc_noZ t)
    · exact beforeZDash_append (isoUtc t) _ (isoUtc_noZ t)
  rw [e]
  exact (C118_reads _ _).2 ⟨isoSeconds t, 'T', _, rfl, h1, h4, .inr ⟨by decide, 0, offset_zero⟩⟩

/-! ### the order of names -/

theorem textLt_prefix : ∀ (x y u v : Text), x.length = y.length → textLt x y = true → textLt (x ++ u) (y ++ v) = true
  | [], [], _, _, _, h => by simp [textLt] at h
  | [], _ :: _, _, _, hl, _ => by simp at hl
  | _ :: _, [], _, _, hl, _ => by simp at hl
  | a :: x, b :: y, u, v, hl, h => by
    simp only [List.cons_append, textLt] at h ⊢
    split
    · rfl
    · rename_i h1
      rw [if_neg h1] at h
      split
      · rename_i h2
        rw [if_pos h2] at h
        exact h
      · rename_i h2
        rw [if_neg h2] at h
        exact textLt_prefix x y u v (by simpa using hl) h

theorem fixed_chars {t : Text} {n : Nat} (h : Fixed t n) : ∀ c ∈ t, '0' ≤ c ∧ c ≤ '9' := by
  intro c hc
  obtain ⟨k, h1, h2⟩ := h.1 c hc
  constructor
  · show ('0' : Char).toNat ≤ c.toNat
    rw [h2, show ('0' : Char).toNat = 48 from rfl]
    omega
  · show c.toNat ≤ ('9' : Char).toNat
    rw [h2, show ('9' : Char).toNat = 57 from rfl]
    omega

theorem fixed_lt {x y u v : Text} {m n : Nat} (hx : Fixed x m) (hy : Fixed y n) (hl : x.length = y.length) (h : m < n) : textLt (x ++ u) (y ++ v) = true :=
  textLt_prefix x y u v hl ((textLt_iff_lt x y hl (fixed_chars hx) (fixed_chars hy)).2 (by
    have h1 := hx.2
    have h2 := hy.2
    unfold digitsNat
    omega))

theorem dec2_lt {m n : Nat} (u v : Text) (h : m < n) (hn : n < 100) : textLt (dec2 m ++ u) (dec2 n ++ v) = true := fixed_lt (fixed_dec2 (by omega)) (fixed_dec2 hn) rfl h

theorem dec4_lt {m n : Nat} (u v : Text) (h : m < n) (hn : n < 10000) : textLt (dec4 m ++ u) (dec4 n ++ v) = true := fixed_lt (fixed_dec4 (by omega)) (fixed_dec4 hn) rfl h

theorem textLt_cons (c : Char) (a b : Text) : textLt (c :: a) (c :: b) = textLt a b := textLt_append [c] a b

theorem formatDay_lt {a b : Int} (u v : Text) (ha : 0 ≤ a) (h : a / 86400 < b / 86400) (hb : yearOf b ≤ 9999) : textLt (formatDay a ++ u) (formatDay b ++ v) = true := by
  obtain ⟨k, hk⟩ : ∃ k : Nat, b / 86400 = a / 86400 + (k + 1 : Nat) := ⟨(b / 86400 - a / 86400 - 1).toNat, by omega⟩
  have h1 := dayNumber_lt (a / 86400) k
  rw [← hk] at h1
  have ya := year_ge (n := a / 86400) (by omega)
  have yb := year_ge (n := b / 86400) (by omega)
  have va := civilOfDays_valid (a / 86400)
  have vb := civilOfDays_valid (b / 86400)
  unfold yearOf at hb
  unfold formatDay
  dsimp only
  revert h1 ya yb va vb
  revert hb
  generalize civilOfDays (a / 86400) = c
  generalize civilOfDays (b / 86400) = c'
  intro hb h1 ya yb va vb
  obtain ⟨p1, p2, p3, p4⟩ := va
  obtain ⟨q1, q2, q3, q4⟩ := vb
  have m1 := monthLength_le c.year c.month
  have m2 := monthLength_le c'.year c'.month
  unfold dayNumber at h1
  simp only [List.append_assoc, List.cons_append]
  by_cases e1 : c.year.toNat = c'.year.toNat
  · rw [e1, textLt_append, textLt_cons]
    by_cases e2 : c.month.toNat = c'.month.toNat
    · rw [e2, textLt_append, textLt_cons]
      exact dec2_lt _ _ (by omega) (by omega)
    · exact dec2_lt _ _ (by omega) (by omega)
  · exact dec4_lt _ _ (by omega) (by omega)

theorem isoSeconds_lt {a b : Nat} (u v : Text) (h : a < b) (hb : b < endOfTime) : textLt (isoSeconds a ++ u) (isoSeconds b ++ v) = true := by
  unfold isoSeconds
  simp only [List.append_assoc, List.cons_append]
  by_cases hd : a / 86400 = b / 86400
  · rw [formatDay_congr (show (a : Int) / 86400 = (b : Int) / 86400 by omega), textLt_append, textLt_cons]
    by_cases e1 : a % 86400 / 3600 = b % 86400 / 3600
    · rw [e1, textLt_append, textLt_cons]
      by_cases e2 : a % 3600 / 60 = b % 3600 / 60
      · rw [e2, textLt_append, textLt_cons]
        exact dec2_lt _ _ (by omega) (by omega)
      · exact dec2_lt _ _ (by omega) (by omega)
    · exact dec2_lt _ _ (by omega) (by omega)
  · exact formatDay_lt _ _ (by omega) (by omega) (yearOf_bounds hb).2

/-- **C118.** Records sort by their names as by the times of their runs, whatever their kinds. This is what the properties of the publisher assume about names. -/
theorem C118_order (a b : Nat) (p q : Bool) (h : a < b) (hb : b < endOfTime) : textLt (recordName a p) (recordName b q) = true := by
  unfold recordName isoUtc
  rw [List.append_assoc, List.append_assoc]
  exact isoSeconds_lt _ _ h hb

theorem recordName_follows : NamesFollow recordName := C118_order

/-- **C118.** The date in the name of a run is the date of the day, in eight digits. -/
theorem C118_day (t : Nat) (h : t < endOfTime) :
    ∃ y m d yy mm dd, utcDay t = y ++ (m ++ d) ∧ y.length = 4 ∧ m.length = 2 ∧ d.length = 2 ∧ Fixed y yy ∧ Fixed m mm ∧ Fixed d dd ∧ OnDay (t / 86400) ⟨yy, mm, dd⟩ := by
  unfold endOfTime at h
  have y0 := year_ge (n := ((t / 86400 : Nat) : Int)) (by omega)
  have y1 := year_le (n := ((t / 86400 : Nat) : Int)) (by omega)
  obtain ⟨v1, v2, v3, v4⟩ := civilOfDays_valid ((t / 86400 : Nat) : Int)
  have hm := monthLength_le (civilOfDays ((t / 86400 : Nat) : Int)).year (civilOfDays ((t / 86400 : Nat) : Int)).month
  refine ⟨_, _, _, _, _, _, rfl, rfl, rfl, rfl, fixed_dec4 (by omega), fixed_dec2 (by omega), fixed_dec2 (by omega), ?_⟩
  rw [Int.toNat_of_nonneg (by omega), Int.toNat_of_nonneg (by omega), Int.toNat_of_nonneg (by omega)]
  exact onDay_civil _

theorem utcDay_number (t : Nat) (h : t < endOfTime) : (digitsNat (utcDay t) : Int) = dayNumber (civilOfDays (t / 86400)) ∧ IsDate (utcDay t) := by
  obtain ⟨y, m, d, yy, mm, dd, e, l1, l2, l3, f1, f2, f3, ho⟩ := C118_day t h
  rw [onDay_unique (onDay_civil _) ho, e]
  constructor
  · have h1 : digitsNat y = yy := f1.2.symm
    have h2 : digitsNat m = mm := f2.2.symm
    have h3 : digitsNat d = dd := f3.2.symm
    rw [digitsNat_append, digitsNat_append, List.length_append, l2, l3, h1, h2, h3]
    unfold dayNumber
    dsimp only
    omega
  · refine ⟨by simp [l1, l2, l3], ?_⟩
    intro c hc
    rcases List.mem_append.1 hc with hc | hc
    · exact fixed_chars f1 c hc
    · rcases List.mem_append.1 hc with hc | hc
      · exact fixed_chars f2 c hc
      · exact fixed_chars f3 c hc

theorem utcDay_mono {a b : Nat} (h : a ≤ b) (hb : b < endOfTime) : digitsNat (utcDay a) ≤ digitsNat (utcDay b) := by
  have h1 := (utcDay_number a (by omega)).1
  have h2 := (utcDay_number b hb).1
  have h3 := dayNumber_mono (show (a : Int) / 86400 ≤ (b : Int) / 86400 by omega)
  omega

/-! ### the runs in the bucket -/

theorem nameBefore_parse {a b : Text} (h : NameBefore a b) : ∃ k l, parseRun a = some k ∧ parseRun b = some l ∧ KeyLt k l := by
  obtain ⟨d, n, d', n', h1, h2, rfl, rfl, h3⟩ := h
  refine ⟨_, _, parseRun_runName h1 n, parseRun_runName h2 n', ?_⟩
  rcases h3 with h3 | ⟨rfl, h3⟩
  · exact .inl h3
  · exact .inr ⟨rfl, h3⟩

theorem keyLt_self (k : Nat × Nat) : ¬KeyLt k k := by
  unfold KeyLt
  omega

theorem keyLt_asymm {k l : Nat × Nat} (h : KeyLt k l) : ¬KeyLt l k := by
  unfold KeyLt at *
  omega

/-- The names of the runs and the times of their files, in order. -/
def RunOrder (f g : Text × Nat) : Prop := NameBefore f.1 g.1 ∧ f.2 < g.2

theorem zip_order : ∀ (names : List Text) (times : List Nat), names.Pairwise NameBefore → times.Pairwise (· < ·) → (names.zip times).Pairwise RunOrder
  | [], _, _, _ => by simp
  | _ :: _, [], _, _ => by simp
  | n :: names, t :: times, h1, h2 => by
    rw [List.zip_cons_cons]
    obtain ⟨a1, a2⟩ := List.pairwise_cons.1 h1
    obtain ⟨b1, b2⟩ := List.pairwise_cons.1 h2
    refine List.pairwise_cons.2 ⟨?_, zip_order names times a2 b2⟩
    intro f hf
    exact ⟨a1 _ (List.of_mem_zip hf).1, b1 _ (List.of_mem_zip hf).2⟩

theorem pairwise_three {α : Type} {R : α → α → Prop} : ∀ {l : List α}, l.Pairwise R → ∀ x ∈ l, ∀ y ∈ l, x = y ∨ R x y ∨ R y x
  | [], _, _, hx, _, _ => by cases hx
  | a :: l, h, x, hx, y, hy => by
    obtain ⟨h1, h2⟩ := List.pairwise_cons.1 h
    rcases List.mem_cons.1 hx with ex | hx'
    · rcases List.mem_cons.1 hy with ey | hy'
      · exact .inl (ex.trans ey.symm)
      · exact .inr (.inl (ex ▸ h1 y hy'))
    · rcases List.mem_cons.1 hy with ey | hy'
      · exact .inr (.inr (ey ▸ h1 x hx'))
      · exact pairwise_three h2 x hx' y hy'

theorem pairwise_last {α : Type} {R : α → α → Prop} : ∀ {l : List α} {z : α}, l.Pairwise R → l.getLast? = some z → ∀ x ∈ l, x = z ∨ R x z
  | [], _, _, h, _, _ => by cases h
  | [a], z, _, h, x, hx => by
    cases h
    exact .inl (List.mem_singleton.1 hx)
  | a :: b :: l, z, hp, h, x, hx => by
    obtain ⟨h1, h2⟩ := List.pairwise_cons.1 hp
    have h' : (b :: l).getLast? = some z := by rw [← h]; rfl
    rcases List.mem_cons.1 hx with rfl | hx
    · exact .inr (h1 z (List.mem_of_getLast? h'))
    · exact pairwise_last h2 h' x hx

theorem soundBucket_of (names : List Text) (times : List Nat) (hlen : names.length = times.length) (hn : names.Pairwise NameBefore) (ht : times.Pairwise (· < ·)) (hnd : ∀ x ∈ names, ∃ k, parseRun x = some k)
    (hlt : ∀ t ∈ times, t < endOfTime) (db : RunDb) (h : ReadFrom (names.zip (times.map isoSeconds)) db) : SoundBucket db := by
  have hids : db.ids = names := by rw [h.ids, List.map_fst_zip (by simp [hlen])]
  have hord := zip_order names times hn ht
  have htime : ∀ f ∈ names.zip times, db.time f.1 = some f.2 := by
    intro f hf
    have hf' : (f.1, isoSeconds f.2) ∈ names.zip (times.map isoSeconds) := by
      rw [List.zip_map_right]
      exact List.mem_map.2 ⟨f, hf, rfl⟩
    have h1 := h.time _ hf'
    rw [(C118_read_back f.2 (hlt _ (List.of_mem_zip hf).2) true).1] at h1
    cases hd : db.time f.1 with
    | none => rw [hd] at h1; cases h1
    | some v =>
      rw [hd] at h1
      simp only [Option.map_some, Option.some.injEq] at h1
      rw [Option.some.injEq]
      exact Int.ofNat.inj h1
  have hmem : ∀ x ∈ db.ids, ∃ q, (x, q) ∈ names.zip times := by
    intro x hx
    rw [hids, ← List.map_fst_zip (l₁ := names) (l₂ := times) (by omega)] at hx
    obtain ⟨f, hf, rfl⟩ := List.mem_map.1 hx
    exact ⟨f.2, hf⟩
  have hthree : ∀ x ∈ db.ids, ∀ y ∈ db.ids, x = y ∨ NameBefore x y ∨ NameBefore y x := by
    rw [hids]
    exact pairwise_three hn
  refine ⟨fun x hx => hnd x (hids ▸ hx), ⟨?_, ?_⟩, ?_, ?_, ?_, ?_⟩
  · rw [hids]
    refine List.Pairwise.imp ?_ hn
    intro a b hab e
    subst e
    obtain ⟨k, l, e1, e2, hk⟩ := nameBefore_parse hab
    rw [e1] at e2
    cases e2
    exact keyLt_self k hk
  · intro a ha b hb k hk hk'
    rcases hthree a ha b hb with h | h | h
    · exact h
    · exfalso
      obtain ⟨k1, l1, e1, e2, e3⟩ := nameBefore_parse h
      rw [hk] at e1
      rw [hk'] at e2
      cases e1
      cases e2
      exact keyLt_self _ e3
    · exfalso
      obtain ⟨k1, l1, e1, e2, e3⟩ := nameBefore_parse h
      rw [hk'] at e1
      rw [hk] at e2
      cases e1
      cases e2
      exact keyLt_self _ e3
  · intro x hx
    obtain ⟨q, hq⟩ := hmem x hx
    exact ⟨(h.complete x hx).1, (h.complete x hx).2, q, htime _ hq⟩
  · intro x hx y hy k l a b hk hl hkl ha hb
    obtain ⟨qx, hqx⟩ := hmem x hx
    obtain ⟨qy, hqy⟩ := hmem y hy
    have e1 := htime _ hqx
    have e2 := htime _ hqy
    dsimp only at e1 e2
    rw [ha] at e1
    rw [hb] at e2
    cases e1
    cases e2
    rcases pairwise_three hord _ hqx _ hqy with e | e | e
    · cases e
      rw [hk] at hl
      cases hl
      exact absurd hkl (keyLt_self _)
    · exact e.2
    · exfalso
      obtain ⟨k1, l1, c1, c2, c3⟩ := nameBefore_parse e.1
      dsimp only at c1 c2
      rw [hl] at c1
      rw [hk] at c2
      cases c1
      cases c2
      exact keyLt_asymm c3 hkl
  · intro x hx t h1
    obtain ⟨q, hq⟩ := hmem x hx
    have e1 := htime _ hq
    dsimp only at e1
    rw [h1] at e1
    cases e1
    exact hlt _ (List.of_mem_zip hq).2
  · intro newest hnew x hx
    rw [hids] at hnew hx
    rcases pairwise_last hn hnew x hx with rfl | e
    · obtain ⟨k, hk⟩ := hnd x hx
      exact ⟨k, k, hk, hk, keyLt_self k⟩
    · obtain ⟨k, l, e1, e2, e3⟩ := nameBefore_parse e
      exact ⟨k, l, e1, e2, keyLt_asymm e3⟩

theorem allocateAll_names : ∀ (days dirs loc names : List Text), allocateAll days dirs loc = some names → ∀ x ∈ names, ∃ d ∈ days, ∃ n, x = runName d n
  | [], _, _, names, h, x, hx => by
    cases h
    cases hx
  | today :: days, dirs, loc, names, h, x, hx => by
    unfold allocateAll at h
    split at h
    · cases h
    · rename_i name hname
      split at h
      · cases h
      · rename_i rest hrest
        cases h
        rcases List.mem_cons.1 hx with rfl | hx
        · unfold allocate at hname
          dsimp only at hname
          split at hname
          · cases hname
          · cases hname
            exact ⟨today, List.mem_cons_self, _, rfl⟩
        · obtain ⟨d, hd, n, e⟩ := allocateAll_names days _ _ rest hrest x hx
          exact ⟨d, List.mem_cons_of_mem _ hd, n, e⟩

/-- **C118 (partial).** Executions on a clock that does not go back, each writing its file in another second and uploading it, up to a million of them: every execution gets a name, the bucket lists the names in this order, and the
runs of the bucket are as the properties of the publisher assume: later runs have later times, and the last is the newest. Missing: as for C72, and two files in one second. -/
theorem C118_bucket_partial (clock : List (Nat × Nat)) (others : List Text) (hc : Clock clock) (hoth : ∀ x ∈ others, ¬LooksLikeRun x) (hlen : clock.length ≤ 1000000) :
    ∃ files, allocateTimed clock others = some files ∧ files.length = clock.length ∧ getRunIdentifiers (others ++ (files.map Prod.fst).map (· ++ ['/'])) = files.map Prod.fst ∧
      ∀ db, ReadFrom files db → SoundBucket db := by
  obtain ⟨h1, h2⟩ := hc
  obtain ⟨names, n1, n2, n3, n4⟩ := C72_history_partial others (clock.map (fun r => utcDay r.1)) hoth
    (by
      intro d hd
      obtain ⟨r, hr, rfl⟩ := List.mem_map.1 hd
      exact (utcDay_number r.1 (by have := h1 r hr; omega)).2)
    (by
      rw [List.pairwise_map]
      exact List.Pairwise.imp_of_mem (fun {a b} _ hb hab => utcDay_mono hab.1 (by have := h1 b hb; omega)) h2)
    (by simpa using hlen)
  rw [List.length_map] at n2
  have hz : names.zip (clock.map (fun r => isoSeconds r.2)) = names.zip ((clock.map Prod.snd).map isoSeconds) := by
    rw [List.map_map]
    rfl
  have hf : (names.zip (clock.map (fun r => isoSeconds r.2))).map Prod.fst = names := List.map_fst_zip (by simp [n2])
  refine ⟨names.zip (clock.map (fun r => isoSeconds r.2)), ?_, by simp [n2], by rw [hf]; exact n4, ?_⟩
  · unfold allocateTimed
    rw [n1]
  · intro db hdb
    rw [hz] at hdb
    refine soundBucket_of names (clock.map Prod.snd) (by simp [n2]) n3 ?_ ?_ ?_ db hdb
    · rw [List.pairwise_map]
      exact h2.imp (fun h => h.2)
    · intro x hx
      obtain ⟨d, hd, n, rfl⟩ := allocateAll_names _ _ _ names n1 x hx
      obtain ⟨r, hr, rfl⟩ := List.mem_map.1 hd
      exact ⟨_, parseRun_runName (utcDay_number r.1 (by have := h1 r hr; omega)).2 n⟩
    · intro t ht
      obtain ⟨r, hr, rfl⟩ := List.mem_map.1 ht
      exact (h1 r hr).2

/-- **C118 (partial).** `C102_repeat` without its assumptions about times and names: if the runs of the bucket were made on such a clock, their times are read from their files, and records get the names that the publisher gives them, a
second execution after one that has ended changes nothing. Missing: as above. -/
theorem C118_repeat_partial (clock : List (Nat × Nat)) (others : List Text) (hc : Clock clock) (hoth : ∀ x ∈ others, ¬LooksLikeRun x) (hlen : clock.length ≤ 1000000) (files : List (Text × Text)) (hf : allocateTimed clock others = some files)
    (e e' : PubWorld) (chs : List Channel) (s s' : PubServer) (slugs : (chs.map Channel.slug).Nodup) (dashless : ∀ ch ∈ chs, ∀ c ∈ ch.slug, c ≠ '-') (fresh : ∀ t, FreshIds (e.pub t).freshId)
    (hdb : ∀ ch ∈ chs, ch.enabled = true → ReadFrom files (e.db ch.slug)) (hnm : ∀ ch ∈ chs, ch.enabled = true → (e.pub ch.slug).nameOf = recordName ∧ 0 < ch.maxAge)
    (hold : ∀ ch ∈ chs, ch.enabled = true → NamedAfter recordName (e.db ch.slug) ch.slug s.filters.content)
    (hs : FiltersSound s.filters.content) (hl : LogsWell e s.logs.content) (h : publisherMain e chs false s = (none, s')) (hsame : SameInputs e e') : (publisherMain e' chs false s').2 = s' := by
  obtain ⟨files', f1, f2, f3, f4⟩ := C118_bucket_partial clock others hc hoth hlen
  rw [hf] at f1
  cases f1
  refine C102_repeat e e' chs s s' ⟨slugs, dashless, fresh, fun ch h1 h2 => f4 _ (hdb ch h1 h2)⟩ hs hl ?_ h hsame
  intro ch h1 h2
  obtain ⟨e1, e2⟩ := hnm ch h1 h2
  rw [e1]
  exact ⟨recordName_follows, hold ch h1 h2, e2⟩

/-! ### where it fails -/

/-- **C118 fails** for a file with an offset: it is read, and then replaced by that of UTC. The publisher takes two o'clock for the text below, which says midnight. (The file is always written without an offset.) -/
theorem C118_offset_fails : fromIso "2024-01-01T02:00:00+02:00".toList = some 1704074400 ∧ Rfc3339 "2024-01-01T02:00:00+02:00".toList 1704067200 0 := by
  refine ⟨by decide +kernel, ?_⟩
  have h := isoInt_rfc (n := 1704074400) (z := "+02:00".toList) (off := 120) (by decide +kernel) (by decide +kernel)
    (.inr ⟨'+', ['0', '2'], ['0', '0'], 2, 0, rfl, rfl, rfl, by rw [show ['0', '2'] = dec2 2 by decide]; exact fixed_dec2 (by decide), by rw [show ['0', '0'] = dec2 0 by decide]; exact fixed_dec2 (by decide),
      by decide, by decide, .inl ⟨rfl, rfl⟩⟩)
  rw [show isoInt 1704074400 ++ "+02:00".toList = "2024-01-01T02:00:00+02:00".toList by decide +kernel] at h
  exact h

/-- **C118 fails** for other programs: the name of a record looks like a time that ends in `Z`, but the zone is in it twice (`+00:00Z`), and no reader of RFC 3339 accepts it. -/
theorem C118_zone_fails (t : Nat) (sec : Int) (ns : Nat) : ¬Rfc3339 (isoUtc t ++ ['Z']) sec ns := by
  rintro ⟨y, mo, d, h, mi, s, fr, z, _, _, _, _, _, _, off, _, ht, l1, l2, l3, l4, l5, l6, _, _, _, _, _, _, hfr, hz, _⟩
  have e : isoUtc t ++ ['Z'] = isoSeconds t ++ "+00:00Z".toList := by
    unfold isoUtc
    rw [List.append_assoc]
    rfl
  have e2 : y ++ '-' :: (mo ++ '-' :: (d ++ 'T' :: (h ++ ':' :: (mi ++ ':' :: (s ++ (fr ++ z)))))) = (y ++ '-' :: (mo ++ '-' :: (d ++ 'T' :: (h ++ ':' :: (mi ++ ':' :: s))))) ++ (fr ++ z) := by
    simp only [List.append_assoc, List.cons_append]
  rw [e, e2] at ht
  have hr := (List.append_inj ht (by simp [isoSeconds, length_formatDay, dec2, l1, l2, l3, l4, l5, l6])).2
  rcases hfr with ⟨rfl, _⟩ | ⟨w, _, rfl, _⟩
  · rcases hz with ⟨rfl, _⟩ | ⟨_, h', m', _, _, rfl, k1, k2, _⟩
    · exact absurd hr (by decide)
    · have := congrArg List.length hr
      simp [k1, k2] at this
  · simp at hr

/-- **C118 fails** for times in one second: the name of the delta comes first, whichever record is newer. -/
theorem C118_same_second_fails (t : Nat) : textLt (recordName t false) (recordName t true) = true := by
  unfold recordName
  rw [textLt_append]
  decide

/-- **C118 fails** at midnight: the clock is read once for the name of the run and again, after the bucket was listed, for its file. The run below has the date of one day in its name and the next day in its file. -/
theorem C118_midnight_fails : allocateTimed [(1704067199, 1704067200)] [] = some [("20231231-0".toList, "2024-01-01T00:00:00".toList)] ∧ Clock [(1704067199, 1704067200)] := by
  refine ⟨by decide +kernel, ?_, by simp⟩
  intro r hr
  simp at hr
  subst hr
  decide

/-! ### examples -/

/-- A leap day, and the last second. -/
example : isoSeconds 1709209799 = "2024-02-29T12:29:59".toList ∧ recordName 1709209799 true = "2024-02-29T12:29:59+00:00Z-full".toList ∧ utcDay 1709209799 = "20240229".toList ∧
    isoSeconds 253402300799 = "9999-12-31T23:59:59".toList := by decide +kernel

/-- Texts that are read, and some that are not: no such day, no such hour, no seconds, the year 0. -/
example : fromIso "2024-02-29 12:29:59".toList = some 1709209799 ∧ fromIso "2024-02-29T12:29:59-11:30".toList = some 1709209799 ∧ fromIso "0001-01-01T00:00:00".toList = some (-62135596800) ∧
    fromIso "2023-02-29T12:29:59".toList = none ∧ fromIso "2024-02-29T24:00:00".toList = none ∧ fromIso "2024-02-29T12:29".toList = none ∧ fromIso "0000-12-31T00:00:00".toList = none ∧
    fromIso "2024-02-29T12:29:59+24:00".toList = none := by decide +kernel

example := C118_written 1709209799 (by decide)
example := C118_read_back 1709209799 (by decide) false
example := (C118_reads "2024-02-29 12:29:59-11:30".toList 1709209799).1 (by decide +kernel)
example := C118_order 1709209799 1709251200 true false (by decide) (by decide)
example := C118_day 1709209799 (by decide)

/-- Three runs: two on one day, the last over midnight. -/
def exClock : List (Nat × Nat) := [(1704067200, 1704067201), (1704110400, 1704110400), (1704153599, 1704153602)]

theorem exClock_clock : Clock exClock := by
  refine ⟨?_, by decide⟩
  intro r hr
  simp only [exClock, List.mem_cons, List.not_mem_nil, or_false] at hr
  rcases hr with rfl | rfl | rfl <;> decide

def exTimed : List (Text × Text) := [("20240101-0".toList, "2024-01-01T00:00:01".toList), ("20240101-1".toList, "2024-01-01T12:00:00".toList), ("20240101-2".toList, "2024-01-02T00:00:02".toList)]

theorem exTimed_eq : allocateTimed exClock ["latest/".toList] = some exTimed := by decide +kernel

theorem latest_noRun : ∀ x ∈ ["latest/".toList], ¬LooksLikeRun x := by
  intro x hx h
  obtain ⟨d, c, rest, hd, _, _, e⟩ := h
  rw [List.mem_singleton.1 hx] at e
  have := congrArg List.length e
  simp [hd.1] at this
  omega

def exTimedDb : RunDb :=
  ⟨exTimed.map Prod.fst, fun _ => true, fun _ => true, fun x => if x = "20240101-0".toList then some 1704067201 else if x = "20240101-1".toList then some 1704110400 else if x = "20240101-2".toList then some 1704153602 else none⟩

theorem exTimedDb_read : ReadFrom exTimed exTimedDb := by
  refine ⟨rfl, fun _ _ => ⟨rfl, rfl⟩, ?_⟩
  intro f hf
  simp only [exTimed, List.mem_cons, List.not_mem_nil, or_false] at hf
  rcases hf with rfl | rfl | rfl <;> decide +kernel

example : SoundBucket exTimedDb := by
  obtain ⟨files, h1, _, _, h4⟩ := C118_bucket_partial exClock ["latest/".toList] exClock_clock latest_noRun (by decide)
  rw [exTimed_eq] at h1
  cases h1
  exact h4 _ exTimedDb_read

/-- The publisher with the names that it gives, these runs, and no filters yet. -/
def exTimedWorld : PubWorld := { exWorld with pub := fun _ => { exPub with nameOf := recordName }, db := fun _ => exTimedDb }

def exTimedServer : PubServer := { exServer with filters := ⟨[], .signed, 0, some []⟩ }

def exTimedAfter : PubServer := (publisherMain exTimedWorld channels false exTimedServer).2

theorem exTimedMain : publisherMain exTimedWorld channels false exTimedServer = (none, exTimedAfter) := Prod.ext (by decide +kernel) rfl

example : exTimedAfter.filters.content.map (fun r => (r.channel, r.name)) = [(some "default".toList, "2024-01-02T00:00:02+00:00Z-full".toList), (some "compat".toList, "2024-01-02T00:00:02+00:00Z-full".toList)] := by decide +kernel

example : (publisherMain exTimedWorld channels false exTimedAfter).2 = exTimedAfter :=
  C118_repeat_partial exClock ["latest/".toList] exClock_clock latest_noRun (by decide) exTimed exTimed_eq exTimedWorld exTimedWorld channels exTimedServer exTimedAfter (by decide +kernel) (by decide +kernel) (fun _ => exFresh_fresh)
    (fun _ _ _ => exTimedDb_read) (fun ch h1 h2 => ⟨rfl, (exNames ch h1 h2).2.2⟩) (fun _ _ _ r hr => by cases hr) ⟨by simp [exTimedServer], fun c => ⟨(fun r hr => by cases hr), (fun r hr => by cases hr)⟩⟩
    ⟨exLogs_well.fresh, exLogs_well.ids, exLogs_well.enrolled, fun _ => rfl, fun _ => rfl, fun _ => rfl⟩ exTimedMain ⟨rfl, rfl, rfl, fun _ => rfl⟩

end Verif.Props
