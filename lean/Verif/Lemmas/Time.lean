import Verif.Spec.Calendar
/-! Lemmas about the civil calendar conversions. -/
namespace Verif
open Verif.Spec

theorem civil_bounds (doe : Int) (h0 : 0 ≤ doe) (h1 : doe < 146097) :
    let yoe := (doe - doe / 1460 + doe / 36524 - doe / 146096) / 365
    let doy := doe - (365 * yoe + yoe / 4 - yoe / 100)
    0 ≤ yoe ∧ yoe ≤ 399 ∧ 0 ≤ doy ∧ doy ≤ 365 ∧
      (doy = 365 → (yoe + 1) % 4 = 0 ∧ ((yoe + 1) % 100 ≠ 0 ∨ (yoe + 1) % 400 = 0)) := by
  intro yoe doy
  have hy : 0 ≤ yoe ∧ yoe ≤ 399 := by omega
  refine ⟨hy.1, hy.2, ?_⟩
  have hg : doe / 36524 = 0 ∨ doe / 36524 = 1 ∨ doe / 36524 = 2 ∨ doe / 36524 = 3 ∨ doe / 36524 = 4 := by omega
  have he : yoe / 100 = 0 ∨ yoe / 100 = 1 ∨ yoe / 100 = 2 ∨ yoe / 100 = 3 := by omega
  have hh : doe / 146096 = 0 ∨ doe / 146096 = 1 := by omega
  rcases hg with hg | hg | hg | hg | hg <;> rcases he with he | he | he | he <;> rcases hh with hh | hh <;>
    refine ⟨by omega, by omega, ?_⟩ <;> intro hd
  all_goals
    have hr : yoe % 4 = 0 ∨ yoe % 4 = 1 ∨ yoe % 4 = 2 ∨ yoe % 4 = 3 := by omega
    rcases hr with hr | hr | hr | hr
    · exfalso; have : doe / 1460 ≤ yoe / 4 := by omega
      omega
    · exfalso; have : doe / 1460 ≤ yoe / 4 := by omega
      omega
    · exfalso; have : doe / 1460 ≤ yoe / 4 := by omega
      omega
    · omega

/-- The parts computed by `civilOfDays`. -/
theorem civilOfDays_parts (n : Int) : ∃ era yoe doy mp : Int,
    0 ≤ yoe ∧ yoe ≤ 399 ∧ 0 ≤ doy ∧ doy ≤ 365 ∧
    (doy = 365 → (yoe + 1) % 4 = 0 ∧ ((yoe + 1) % 100 ≠ 0 ∨ (yoe + 1) % 400 = 0)) ∧
    n + 719468 = era * 146097 + (365 * yoe + yoe / 4 - yoe / 100 + doy) ∧
    mp = (5 * doy + 2) / 153 ∧
    civilOfDays n = { year := if mp < 10 then yoe + era * 400 else yoe + era * 400 + 1,
                      month := if mp < 10 then mp + 3 else mp - 9,
                      day := doy - (153 * mp + 2) / 5 + 1 } := by
  have h0 : 0 ≤ (n + 719468) % 146097 := Int.emod_nonneg _ (by decide)
  have h1 : (n + 719468) % 146097 < 146097 := Int.emod_lt_of_pos _ (by decide)
  have hera := Int.emod_add_mul_ediv (n + 719468) 146097
  obtain ⟨a, b, c, d, e⟩ := civil_bounds _ h0 h1
  refine ⟨(n + 719468) / 146097, _, _, _, a, b, c, d, e, by omega, rfl, ?_⟩
  unfold civilOfDays
  dsimp only
  generalize (n + 719468) % 146097 - (365 * (((n + 719468) % 146097 - (n + 719468) % 146097 / 1460 + (n + 719468) % 146097 / 36524 - (n + 719468) % 146097 / 146096) / 365) + ((n + 719468) % 146097 - (n + 719468) % 146097 / 1460 + (n + 719468) % 146097 / 36524 - (n + 719468) % 146097 / 146096) / 365 / 4 - ((n + 719468) % 146097 - (n + 719468) % 146097 / 1460 + (n + 719468) % 146097 / 36524 - (n + 719468) % 146097 / 146096) / 365 / 100) = doy at *
  by_cases hlt : (5 * doy + 2) / 153 < 10
  · simp only [hlt, if_true]
    rw [if_neg (by omega)]
  · simp only [hlt, if_false]
    rw [if_pos (by omega)]

theorem leap_iff (y : Int) : isLeap y ↔ y % 4 = 0 ∧ (y % 100 ≠ 0 ∨ y % 400 = 0) := by
  unfold isLeap; omega

theorem daysIn_eq_monthLength (y m : Int) : daysIn y m = monthLength y m := by
  unfold daysIn monthLength
  simp only [leap_iff]

/-- Converting a day number to a date and back. -/
theorem daysOfCivil_civilOfDays (n : Int) : daysOfCivil (civilOfDays n) = n := by
  obtain ⟨era, yoe, doy, mp, h1, h2, h3, h4, _, h6, h7, h8⟩ := civilOfDays_parts n
  rw [h8]
  unfold daysOfCivil
  dsimp only
  have e1 : (yoe + era * 400) / 400 = era := by omega
  have e2 : (yoe + era * 400) % 400 = yoe := by omega
  by_cases hlt : mp < 10
  · simp only [hlt, if_true]
    rw [if_neg (by omega), if_pos (by omega), e1, e2, show mp + 3 - 3 = mp by omega]
    omega
  · simp only [hlt, if_false]
    rw [if_pos (by omega), if_neg (by omega), show yoe + era * 400 + 1 - 1 = yoe + era * 400 by omega,
      e1, e2, show mp - 9 + 9 = mp by omega]
    omega

/-- The date of every day number exists. -/
theorem civilOfDays_valid (n : Int) : Valid (civilOfDays n) := by
  obtain ⟨era, yoe, doy, mp, h1, h2, h3, h4, h5, h6, h7, h8⟩ := civilOfDays_parts n
  rw [h8]
  unfold Valid
  dsimp only
  have hmp : 0 ≤ mp ∧ mp ≤ 11 := by omega
  by_cases hlt : mp < 10
  · simp only [hlt, if_true]
    refine ⟨by omega, by omega, by omega, ?_⟩
    unfold monthLength
    rw [if_neg (by omega)]
    split <;> omega
  · simp only [hlt, if_false]
    refine ⟨by omega, by omega, by omega, ?_⟩
    unfold monthLength
    simp only [leap_iff]
    split
    · split <;> omega
    · rw [if_neg (by omega)]; omega

/-- Days before year `y` (years starting in March). -/
def yearStart (y : Int) : Int := 365 * y + y / 4 - y / 100 + y / 400

theorem yearStart_succ (y : Int) : yearStart (y + 1) = yearStart y + 365 +
    (if (y + 1) % 4 = 0 ∧ ((y + 1) % 100 ≠ 0 ∨ (y + 1) % 400 = 0) then 1 else 0) := by
  unfold yearStart
  have a : (y + 1) / 4 = y / 4 + if (y + 1) % 4 = 0 then 1 else 0 := by split <;> omega
  have b : (y + 1) / 100 = y / 100 + if (y + 1) % 100 = 0 then 1 else 0 := by split <;> omega
  have c : (y + 1) / 400 = y / 400 + if (y + 1) % 400 = 0 then 1 else 0 := by split <;> omega
  rw [a, b, c]
  by_cases h4 : (y + 1) % 4 = 0
  · by_cases h100 : (y + 1) % 100 = 0
    · by_cases h400 : (y + 1) % 400 = 0
      · simp [h4, h100, h400]; omega
      · simp [h4, h100, h400]; omega
    · have h400 : (y + 1) % 400 ≠ 0 := by omega
      simp [h4, h100, h400]; omega
  · have h100 : (y + 1) % 100 ≠ 0 := by omega
    have h400 : (y + 1) % 400 ≠ 0 := by omega
    simp [h4, h100, h400]; omega

theorem yearStart_mono (y : Int) (k : Nat) : yearStart y ≤ yearStart (y + k) := by
  induction k with
  | zero => simp
  | succ k ih =>
    have := yearStart_succ (y + k)
    rw [show y + ((k + 1 : Nat) : Int) = y + k + 1 by omega, this]
    split <;> omega

theorem yearDoy_lt (y1 d1 y2 d2 : Int) (h1 : d1 ≤ 365) (h2 : 0 ≤ d2)
    (l1 : d1 = 365 → (y1 + 1) % 4 = 0 ∧ ((y1 + 1) % 100 ≠ 0 ∨ (y1 + 1) % 400 = 0))
    (e : yearStart y1 + d1 = yearStart y2 + d2) : ¬ y1 < y2 := by
  intro h
  have hs := yearStart_mono (y1 + 1) (y2 - y1 - 1).toNat
  rw [show y1 + 1 + ((y2 - y1 - 1).toNat : Int) = y2 by omega] at hs
  have := yearStart_succ y1
  by_cases hd : d1 = 365
  · rw [if_pos (l1 hd)] at this; omega
  · split at this <;> omega

theorem yearDoy_unique (y1 d1 y2 d2 : Int) (h1 : 0 ≤ d1 ∧ d1 ≤ 365) (h2 : 0 ≤ d2 ∧ d2 ≤ 365)
    (l1 : d1 = 365 → (y1 + 1) % 4 = 0 ∧ ((y1 + 1) % 100 ≠ 0 ∨ (y1 + 1) % 400 = 0))
    (l2 : d2 = 365 → (y2 + 1) % 4 = 0 ∧ ((y2 + 1) % 100 ≠ 0 ∨ (y2 + 1) % 400 = 0))
    (e : 365 * y1 + y1 / 4 - y1 / 100 + y1 / 400 + d1 = 365 * y2 + y2 / 4 - y2 / 100 + y2 / 400 + d2) :
    y1 = y2 ∧ d1 = d2 := by
  have e' : yearStart y1 + d1 = yearStart y2 + d2 := e
  have a := yearDoy_lt y1 d1 y2 d2 h1.2 h2.1 l1 e'
  have b := yearDoy_lt y2 d2 y1 d1 h2.2 h1.1 l2 e'.symm
  have hyy : y1 = y2 := by omega
  subst hyy
  exact ⟨rfl, by omega⟩

/-- The day number of the next day is the next number. -/
theorem daysOfCivil_nextDay (c : Civil) (h : Valid c) : daysOfCivil (nextDay c) = daysOfCivil c + 1 := by
  obtain ⟨y, m, d⟩ := c
  unfold Valid at h
  dsimp only at h
  unfold nextDay
  dsimp only
  split
  · unfold daysOfCivil
    dsimp only
    omega
  · rename_i hd
    have hm : m = 1 ∨ m = 2 ∨ m = 3 ∨ m = 4 ∨ m = 5 ∨ m = 6 ∨ m = 7 ∨ m = 8 ∨ m = 9 ∨ m = 10 ∨ m = 11 ∨ m = 12 := by omega
    unfold monthLength at hd h
    simp only [leap_iff] at hd h
    rcases hm with rfl | rfl | rfl | rfl | rfl | rfl | rfl | rfl | rfl | rfl | rfl | rfl <;>
      simp at hd h ⊢ <;> unfold daysOfCivil <;> simp
    case inr.inl =>
      split at hd <;> rename_i hl
      · rw [if_pos hl] at h
        omega
      · rw [if_neg hl] at h
        omega
    all_goals omega

theorem nextDay_valid (c : Civil) (h : Valid c) : Valid (nextDay c) := by
  obtain ⟨y, m, d⟩ := c
  unfold Valid at h ⊢
  dsimp only at h
  unfold nextDay
  dsimp only
  split
  · dsimp only; omega
  · split
    · dsimp only
      refine ⟨by omega, by omega, by omega, ?_⟩
      unfold monthLength; split
      · split <;> omega
      · split <;> omega
    · dsimp only
      unfold monthLength
      simp

theorem daysOfCivil_injective (a b : Civil) (ha : Valid a) (hb : Valid b) (h : daysOfCivil a = daysOfCivil b) : a = b := by
  obtain ⟨y, m, d⟩ := a
  obtain ⟨y', m', d'⟩ := b
  have key : ∀ (y m d : Int), Valid ⟨y, m, d⟩ → ∃ Y D, 0 ≤ D ∧ D ≤ 365 ∧
      (D = 365 → (Y + 1) % 4 = 0 ∧ ((Y + 1) % 100 ≠ 0 ∨ (Y + 1) % 400 = 0)) ∧
      daysOfCivil ⟨y, m, d⟩ = 365 * Y + Y / 4 - Y / 100 + Y / 400 + D - 719468 ∧
      Y = (if m ≤ 2 then y - 1 else y) ∧
      D = (153 * (if m > 2 then m - 3 else m + 9) + 2) / 5 + d - 1 := by
    intro y m d hv
    refine ⟨_, _, ?_, ?_, ?_, ?_, rfl, rfl⟩
    · unfold Valid at hv; dsimp only at hv; split <;> omega
    · unfold Valid monthLength at hv; dsimp only at hv
      split at hv
      · split at hv <;> split <;> omega
      · split at hv <;> split <;> omega
    · unfold Valid monthLength at hv; dsimp only at hv
      simp only [leap_iff] at hv
      split at hv
      · rename_i hm
        subst hm
        simp
        split at hv
        · rename_i hl; intro _; omega
        · omega
      · split at hv <;> split <;> split <;> omega
    · unfold daysOfCivil; dsimp only
      generalize (if m ≤ 2 then y - 1 else y) = Y
      generalize (if m > 2 then m - 3 else m + 9) = mp
      omega
  obtain ⟨Y, D, a1, a2, a3, a4, a5, a6⟩ := key y m d ha
  obtain ⟨Y', D', b1, b2, b3, b4, b5, b6⟩ := key y' m' d' hb
  have := yearDoy_unique Y D Y' D' ⟨a1, a2⟩ ⟨b1, b2⟩ a3 b3 (by omega)
  obtain ⟨hY, hD⟩ := this
  have hm1 : 1 ≤ m ∧ m ≤ 12 := ⟨ha.1, ha.2.1⟩
  have hm2 : 1 ≤ m' ∧ m' ≤ 12 := ⟨hb.1, hb.2.1⟩
  have hd1 : 1 ≤ d := ha.2.2.1
  have hd2 : 1 ≤ d' := hb.2.2.1
  have hmm : m = m' := by
    have u1 : d ≤ monthLength y m := ha.2.2.2
    have u2 : d' ≤ monthLength y' m' := hb.2.2.2
    unfold monthLength at u1 u2
    have c1 : m = 1 ∨ m = 2 ∨ m = 3 ∨ m = 4 ∨ m = 5 ∨ m = 6 ∨ m = 7 ∨ m = 8 ∨ m = 9 ∨ m = 10 ∨ m = 11 ∨ m = 12 := by omega
    rcases c1 with rfl | rfl | rfl | rfl | rfl | rfl | rfl | rfl | rfl | rfl | rfl | rfl <;>
      simp at u1 a6 a5 <;> (split at u2 <;> split at u2 <;> split at b6 <;> (try split at u1) <;> omega)
  subst hmm
  have hdd : d = d' := by omega
  have hyy : y = y' := by
    split at a5 <;> split at b5 <;> omega
  rw [hdd, hyy]

/-- Converting a date to its day number and back. -/
theorem civilOfDays_daysOfCivil (c : Civil) (h : Valid c) : civilOfDays (daysOfCivil c) = c :=
  daysOfCivil_injective _ _ (civilOfDays_valid _) h (daysOfCivil_civilOfDays _)

/-- The date after day `n` is the calendar's next date. -/
theorem civilOfDays_succ (n : Int) : civilOfDays (n + 1) = nextDay (civilOfDays n) := by
  have h := civilOfDays_valid n
  rw [← civilOfDays_daysOfCivil _ (nextDay_valid _ h), daysOfCivil_nextDay _ h, daysOfCivil_civilOfDays]

theorem civilOfDays_zero : civilOfDays 0 = ⟨1970, 1, 1⟩ := by decide

end Verif
