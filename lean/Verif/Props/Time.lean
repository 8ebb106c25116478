import Verif.Lemmas.Time
/-!
Properties C10, C11, C12: expiry dates.
-/
namespace Verif
open Verif.Spec

theorem decVal_decDigit (n : Nat) (h : n < 10) : decVal (decDigit n) = some n := by
  have : ∀ n : Fin 10, decVal (decDigit n.val) = some n.val := by decide
  exact this ⟨n, h⟩

theorem num2_dec2 (n : Nat) (h : n < 100) :
    num2 (decDigit (n / 10 % 10)) (decDigit (n % 10)) = some n := by
  unfold num2
  rw [decVal_decDigit _ (by omega), decVal_decDigit _ (by omega)]
  simp only [Option.some.injEq]
  omega

theorem num4_dec4 (n : Nat) (h : n < 10000) :
    num4 (decDigit (n / 1000 % 10)) (decDigit (n / 100 % 10)) (decDigit (n / 10 % 10)) (decDigit (n % 10)) = some n := by
  unfold num4 num2
  simp only [decVal_decDigit _ (Nat.mod_lt _ (show 0 < 10 by decide))]
  simp only [Option.some.injEq]
  omega

theorem length_formatDay (t : Int) : (formatDay t).length = 10 := by
  simp [formatDay, dec4, dec2]

/-- The year of a time, as `Time.Year`. -/
def yearOf (t : Int) : Int := (civilOfDays (t / 86400)).year

theorem parseDay_formatDay (t : Int) (h0 : 0 ≤ yearOf t) (h1 : yearOf t ≤ 9999) :
    parseDay (formatDay t) = some (t - t % 86400) := by
  have hv := civilOfDays_valid (t / 86400)
  have hr := daysOfCivil_civilOfDays (t / 86400)
  unfold yearOf at h0 h1
  revert hv hr h0 h1
  unfold formatDay
  dsimp only
  generalize civilOfDays (t / 86400) = c
  obtain ⟨y, m, d⟩ := c
  unfold Valid
  dsimp only
  intro h0 h1 hv hr
  have hd31 : d ≤ 31 := by
    have := hv.2.2.2
    unfold monthLength at this
    split at this
    · split at this <;> omega
    · split at this <;> omega
  simp only [dec4, dec2, List.cons_append, List.nil_append, parseDay]
  rw [num4_dec4 _ (by omega), num2_dec2 _ (by omega), num2_dec2 _ (by omega)]
  dsimp only
  rw [Int.toNat_of_nonneg h0, Int.toNat_of_nonneg (by omega : 0 ≤ m), Int.toNat_of_nonneg (by omega : 0 ≤ d),
    daysIn_eq_monthLength, if_pos (by refine ⟨by omega, by omega, by omega, hv.2.2.2⟩), hr]
  simp only [Option.some.injEq]
  omega

theorem parseHour_formatHour (t : Int) (h0 : 0 ≤ yearOf t) (h1 : yearOf t ≤ 9999) :
    parseHour (formatHour t) = some (t - t % 3600) := by
  unfold parseHour formatHour
  rw [List.take_append_of_le_length (by rw [length_formatDay]; decide),
    List.take_of_length_le (by rw [length_formatDay]; decide),
    List.drop_append_of_le_length (by rw [length_formatDay]; decide),
    List.drop_of_length_le (by rw [length_formatDay]; decide),
    parseDay_formatDay t h0 h1]
  simp only [List.nil_append, dec2, parseHourField]
  rw [num2_dec2 _ (by omega)]
  dsimp only
  rw [if_pos (by omega)]
  simp only [Option.some.injEq]
  omega

theorem length_formatHour (t : Int) : (formatHour t).length = 13 := by
  simp [formatHour, length_formatDay, dec2]

end Verif

namespace Verif.Props
open Verif Verif.Spec

/-- **C10 (calendar).** The dates written in identifiers follow the Gregorian calendar: day 0 is 1970-01-01, each
following day is the calendar's next date, and each preceding day the calendar's previous one. -/
theorem C10_calendar : civilOfDays 0 = ⟨1970, 1, 1⟩ ∧
    ∀ n : Int, Valid (civilOfDays n) ∧ civilOfDays (n + 1) = nextDay (civilOfDays n) :=
  ⟨civilOfDays_zero, fun n => ⟨civilOfDays_valid n, civilOfDays_succ n⟩⟩

example : civilOfDays 11016 = ⟨2000, 2, 29⟩ ∧ civilOfDays 11017 = ⟨2000, 3, 1⟩ := by decide

/-- **C10 (hour resolution).** The identifier of any instant in years 0 to 9999 parses to the start of its hour, at hour
resolution, and is accepted as the same bin. -/
theorem C10_hour_roundtrip (t : Int) (h0 : 0 ≤ yearOf t) (h1 : yearOf t ≤ 9999) :
    ∃ e, newExpDate (newExpDateFromTime t).id = some e ∧ e.date = t - t % 3600 ∧ e.hourResolution = true ∧
      e.id = (newExpDateFromTime t).id := by
  have hy : yearOf (t - t % 3600) = yearOf t := by
    unfold yearOf; rw [show (t - t % 3600) / 86400 = t / 86400 by omega]
  have hid : (newExpDateFromTime t).id = formatHour (t - t % 3600) := by
    simp [newExpDateFromTime, ExpDate.id]
  have hp := parseHour_formatHour (t - t % 3600) (by omega) (by omega)
  rw [show (t - t % 3600) - (t - t % 3600) % 3600 = t - t % 3600 by omega] at hp
  refine ⟨{ date := t - t % 3600, lastGood := (t - t % 3600) * 1000 + 3600000 - 1, hourResolution := true }, ?_, rfl, rfl, ?_⟩
  · rw [hid]
    unfold newExpDate
    rw [if_pos (by rw [length_formatHour]; decide), hp]
  · rw [hid]; rfl

example : 0 ≤ yearOf 1700000000 ∧ yearOf 1700000000 ≤ 9999 ∧
    (newExpDateFromTime 1700000000).id = "2023-11-14-22".toList := by decide +kernel

/-- **C10 (day resolution).** A legacy day identifier parses to that midnight, at day resolution. -/
theorem C10_day_roundtrip (t l : Int) (h0 : 0 ≤ yearOf t) (h1 : yearOf t ≤ 9999) (hd : t % 86400 = 0) :
    ∃ e, newExpDate (ExpDate.id ⟨t, l, false⟩) = some e ∧ e.date = t ∧ e.hourResolution = false ∧
      e.id = ExpDate.id ⟨t, l, false⟩ := by
  have hid : ExpDate.id ⟨t, l, false⟩ = formatDay t := by simp [ExpDate.id]
  have hp := parseDay_formatDay t h0 h1
  rw [hd, Int.sub_zero] at hp
  refine ⟨{ date := t, lastGood := t * 1000 + 86400000 - 1, hourResolution := false }, ?_, rfl, rfl, ?_⟩
  · rw [hid]
    unfold newExpDate
    rw [if_neg (by rw [length_formatDay]; decide), hp]
  · rw [hid]; simp [ExpDate.id]

example : 0 ≤ yearOf 1699920000 ∧ yearOf 1699920000 ≤ 9999 ∧ (1699920000 : Int) % 86400 = 0 ∧
    ExpDate.id ⟨1699920000, 0, false⟩ = "2023-11-14".toList := by decide +kernel

/-- **C10 (distinct).** Two certificates share an hour bin exactly when they expire in the same hour. -/
theorem C10_same_bin_iff (t u : Int) (h0 : 0 ≤ yearOf t) (h1 : yearOf t ≤ 9999) (h2 : 0 ≤ yearOf u) (h3 : yearOf u ≤ 9999) :
    (newExpDateFromTime t).id = (newExpDateFromTime u).id ↔ t / 3600 = u / 3600 := by
  constructor
  · intro h
    obtain ⟨e, he, hd, _⟩ := C10_hour_roundtrip t h0 h1
    obtain ⟨e', he', hd', _⟩ := C10_hour_roundtrip u h2 h3
    rw [h, he'] at he
    cases he
    omega
  · intro h
    have : t - t % 3600 = u - u % 3600 := by omega
    simp [newExpDateFromTime, ExpDate.id, this]

example : (newExpDateFromTime 1700000000).id = (newExpDateFromTime 1699999999).id ∧
    (newExpDateFromTime 1700000000).id ≠ (newExpDateFromTime 1700003600).id := by decide +kernel

theorem decVal_iff {c : Char} {n : Nat} : decVal c = some n ↔ n < 10 ∧ c = decDigit n := by
  unfold decVal
  constructor
  · intro h
    split at h
    · rename_i hc
      rw [Option.some.injEq] at h
      refine ⟨by omega, ?_⟩
      unfold decDigit
      rw [show 48 + n = c.toNat by omega, Char.ofNat_toNat]
    · cases h
  · rintro ⟨h, rfl⟩
    exact decVal_decDigit n h

theorem num2_some {a b : Char} {n : Nat} (h : num2 a b = some n) : [a, b] = dec2 n ∧ n < 100 := by
  unfold num2 at h
  split at h
  · rename_i x y h1 h2
    obtain ⟨p, rfl⟩ := decVal_iff.1 h1
    obtain ⟨q, rfl⟩ := decVal_iff.1 h2
    rw [Option.some.injEq] at h
    subst h
    unfold dec2
    rw [show (x * 10 + y) / 10 % 10 = x by omega, show (x * 10 + y) % 10 = y by omega]
    exact ⟨rfl, by omega⟩
  · cases h

theorem num4_some {a b c d : Char} {n : Nat} (h : num4 a b c d = some n) : [a, b, c, d] = dec4 n ∧ n < 10000 := by
  unfold num4 at h
  split at h
  · rename_i x y h1 h2
    obtain ⟨p, hp⟩ := num2_some h1
    obtain ⟨q, hq⟩ := num2_some h2
    rw [Option.some.injEq] at h
    subst h
    unfold dec2 at p q
    simp only [List.cons.injEq, and_true] at p q
    unfold dec4
    rw [p.1, p.2, q.1, q.2, show (x * 100 + y) / 1000 % 10 = x / 10 % 10 by omega, show (x * 100 + y) / 100 % 10 = x % 10 by omega, show (x * 100 + y) / 10 % 10 = y / 10 % 10 by omega,
      show (x * 100 + y) % 10 = y % 10 by omega]
    exact ⟨rfl, by omega⟩
  · cases h

/-- A text accepted as a day is the name of that day. -/
theorem parseDay_some {s : Text} {t : Int} (h : parseDay s = some t) : s = formatDay t ∧ t % 86400 = 0 ∧ 0 ≤ yearOf t ∧ yearOf t ≤ 9999 := by
  unfold parseDay at h
  split at h
  · rename_i a b c d e f g k
    split at h
    · rename_i y m dd h1 h2 h3
      obtain ⟨y1, y2⟩ := num4_some h1
      obtain ⟨m1, m2⟩ := num2_some h2
      obtain ⟨d1, d2⟩ := num2_some h3
      split at h
      · rename_i hv
        rw [Option.some.injEq] at h
        have hval : Valid ⟨y, m, dd⟩ := ⟨by dsimp only; omega, by dsimp only; omega, by dsimp only; omega, by dsimp only; rw [← daysIn_eq_monthLength]; exact hv.2.2.2⟩
        have hc := civilOfDays_daysOfCivil _ hval
        have hdiv : t / 86400 = daysOfCivil ⟨y, m, dd⟩ := by rw [← h, Int.mul_ediv_cancel _ (by decide)]
        refine ⟨?_, ?_, ?_, ?_⟩
        · unfold formatDay
          dsimp only
          rw [hdiv, hc]
          dsimp only
          rw [Int.toNat_natCast, Int.toNat_natCast, Int.toNat_natCast, ← y1, ← m1, ← d1]
          rfl
        · rw [← h]; exact Int.mul_emod_left _ _
        · unfold yearOf; rw [hdiv, hc]; dsimp only; omega
        · unfold yearOf; rw [hdiv, hc]; dsimp only; omega
      · cases h
    · cases h
  · cases h

/-- **C10 (accepted names).** A name is accepted only if it is the identifier of an expiry date, at the resolution it is read with; the one exception is an hour written with one digit instead of two. -/
theorem C10_accepted_names (s : Text) (e : ExpDate) (h : newExpDate s = some e) : 0 ≤ yearOf e.date ∧ yearOf e.date ≤ 9999 ∧
    (e.hourResolution = false → s = e.id ∧ e.date % 86400 = 0) ∧
    (e.hourResolution = true → (s = e.id ∨ ∃ day x, s = day ++ ['-', x] ∧ e.id = day ++ ['-', '0', x]) ∧ e.date % 3600 = 0) := by
  unfold newExpDate at h
  split at h
  · rename_i t ht
    rw [Option.some.injEq] at h
    subst h
    split at ht
    · unfold parseHour at ht
      split at ht
      · rename_i t0 rest h1 h2
        split at ht
        · rename_i hh h3
          obtain ⟨a, b, c, d⟩ := parseDay_some h1
          rw [Option.some.injEq] at ht
          have hs : s = formatDay t0 ++ '-' :: rest := by rw [← a, ← h2, List.take_append_drop]
          have h24 : hh < 24 ∧ (rest = dec2 hh ∨ ∃ x, rest = [x] ∧ dec2 hh = ['0', x]) := by
            unfold parseHourField at h3
            split at h3
            · rename_i x
              obtain ⟨hx, rfl⟩ := decVal_iff.1 h3
              refine ⟨by omega, Or.inr ⟨_, rfl, ?_⟩⟩
              unfold dec2
              rw [show hh / 10 % 10 = 0 by omega, show hh % 10 = hh by omega]
              rfl
            · split at h3
              · rename_i x hn
                split at h3
                · rw [Option.some.injEq] at h3
                  subst h3
                  exact ⟨by assumption, Or.inl (num2_some hn).1⟩
                · cases h3
              · cases h3
            · cases h3
          have hday : t / 86400 = t0 / 86400 := by omega
          have hf : formatHour t = formatDay t0 ++ '-' :: dec2 hh := by
            unfold formatHour formatDay
            rw [hday, show (t % 86400 / 3600).toNat = hh by omega]
          refine ⟨?_, ?_, (fun hc => by cases hc), fun _ => ⟨?_, by dsimp only; omega⟩⟩
          · unfold yearOf at c ⊢; dsimp only; rw [hday]; exact c
          · unfold yearOf at d ⊢; dsimp only; rw [hday]; exact d
          · simp only [ExpDate.id, if_pos]
            rw [hf, hs]
            rcases h24.2 with e | ⟨x, e1, e2⟩
            · left; rw [e]
            · right; exact ⟨formatDay t0, x, by rw [e1], by rw [e2]⟩
        · cases ht
      · cases ht
    · cases ht
  · split at h
    · rename_i t ht
      rw [Option.some.injEq] at h
      subst h
      obtain ⟨a, b, c, d⟩ := parseDay_some ht
      exact ⟨c, d, fun _ => ⟨by simpa [ExpDate.id] using a, b⟩, (fun hc => by cases hc)⟩
    · cases h

example : (newExpDate "2023-11-14-9".toList).map ExpDate.id = some "2023-11-14-09".toList ∧ newExpDate "2023-11-14-24".toList = none ∧ newExpDate "2023-02-29".toList = none := by decide +kernel

/-- **C11 (hour bins).** The expiry sweep of storage and the aggregator both parse the bin's name with `newExpDate` and
test `isExpiredAt`. If they find the bin of a certificate with NotAfter `t` (seconds) expired at `now`
(milliseconds), the certificate has expired: `now` is strictly later than `t`. -/
theorem C11_hour_bin_safe (t now : Int) (h0 : 0 ≤ yearOf t) (h1 : yearOf t ≤ 9999) (e : ExpDate)
    (he : newExpDate (newExpDateFromTime t).id = some e) (hexp : e.isExpiredAt now = true) : t * 1000 < now := by
  have hy : yearOf (t - t % 3600) = yearOf t := by
    unfold yearOf; rw [show (t - t % 3600) / 86400 = t / 86400 by omega]
  have hid : (newExpDateFromTime t).id = formatHour (t - t % 3600) := by
    simp [newExpDateFromTime, ExpDate.id]
  have hp := parseHour_formatHour (t - t % 3600) (by omega) (by omega)
  rw [show (t - t % 3600) - (t - t % 3600) % 3600 = t - t % 3600 by omega] at hp
  rw [hid] at he
  unfold newExpDate at he
  rw [if_pos (by rw [length_formatHour]; decide), hp] at he
  simp only [Option.some.injEq] at he
  subst he
  simp only [ExpDate.isExpiredAt, decide_eq_true_eq] at hexp
  omega

/-- **C11 (not kept for ever).** Conversely the bin is expired from one hour after the certificate's expiry on. -/
theorem C11_hour_bin_live (t now : Int) (h0 : 0 ≤ yearOf t) (h1 : yearOf t ≤ 9999) (e : ExpDate)
    (he : newExpDate (newExpDateFromTime t).id = some e) (hnow : t * 1000 + 3600000 ≤ now) :
    e.isExpiredAt now = true := by
  have hy : yearOf (t - t % 3600) = yearOf t := by
    unfold yearOf; rw [show (t - t % 3600) / 86400 = t / 86400 by omega]
  have hid : (newExpDateFromTime t).id = formatHour (t - t % 3600) := by
    simp [newExpDateFromTime, ExpDate.id]
  have hp := parseHour_formatHour (t - t % 3600) (by omega) (by omega)
  rw [show (t - t % 3600) - (t - t % 3600) % 3600 = t - t % 3600 by omega] at hp
  rw [hid] at he
  unfold newExpDate at he
  rw [if_pos (by rw [length_formatHour]; decide), hp] at he
  simp only [Option.some.injEq] at he
  subst he
  simp only [ExpDate.isExpiredAt, decide_eq_true_eq]
  omega

example : ∃ e, newExpDate (newExpDateFromTime 1700000000).id = some e ∧ e.isExpiredAt 1700002800000 = true ∧
    e.isExpiredAt 1700002799999 = false := by
  refine ⟨⟨1699999200, 1700002799999, true⟩, ?_, ?_, ?_⟩ <;> decide +kernel

/-- **C11 (legacy day bins).** The same for a day bin and any certificate expiring on that day. -/
theorem C11_day_bin_safe (t l now : Int) (h0 : 0 ≤ yearOf t) (h1 : yearOf t ≤ 9999) (e : ExpDate)
    (he : newExpDate (ExpDate.id ⟨t, l, false⟩) = some e) (hexp : e.isExpiredAt now = true) : t * 1000 < now := by
  have hid : ExpDate.id ⟨t, l, false⟩ = formatDay t := by simp [ExpDate.id]
  have hp := parseDay_formatDay t h0 h1
  rw [hid] at he
  unfold newExpDate at he
  rw [if_neg (by rw [length_formatDay]; decide), hp] at he
  simp only [Option.some.injEq] at he
  subst he
  simp only [ExpDate.isExpiredAt, decide_eq_true_eq] at hexp
  omega

example : ∃ e, newExpDate (ExpDate.id ⟨1700000000, 0, false⟩) = some e ∧ e.isExpiredAt 1700006400000 = true := by
  refine ⟨⟨1699920000, 1700006399999, false⟩, ?_, ?_⟩ <;> decide +kernel

/-- **C11 (guard).** The guard is needed: `isExpiredAt` on the date as first built from a certificate
(`newExpDateFromTime`, not parsed from a name) already says "expired" while the certificate is valid. Both callers
in the code use the parsed form. -/
theorem C11_unparsed_fails : ∃ t now : Int, (newExpDateFromTime t).isExpiredAt now = true ∧ now < t * 1000 :=
  ⟨1700000000, 1699999999000, by decide, by decide⟩

/-- **C12 fails.** Full statement: `∀ t, t ≤ (newExpDateFromTime t).expireTime` (the cache's expiry is not before
NotAfter). It is false: the expiry passed to the cache is NotAfter rounded down to the hour. -/
theorem C12_cache_expiry_fails : ∃ t : Int, (newExpDateFromTime t).expireTime < t := ⟨1700000000, by decide⟩

/-- **C12 (what holds).** The cache expires the bin in the hour of NotAfter: never an hour or more early, never late, and
exactly at NotAfter iff NotAfter is a whole hour. Missing: entries may vanish up to 3599 s early. -/
theorem C12_cache_expiry_partial (t : Int) :
    t - 3600 < (newExpDateFromTime t).expireTime ∧ (newExpDateFromTime t).expireTime ≤ t ∧
      ((newExpDateFromTime t).expireTime = t ↔ t % 3600 = 0) := by
  simp only [newExpDateFromTime, ExpDate.expireTime]
  omega

example : (newExpDateFromTime 1700000000).expireTime = 1699999200 := by decide

/-! ### each theorem applied -/

example : (1700000000 : Int) * 1000 < 1700002800000 := C11_hour_bin_safe 1700000000 1700002800000 (by decide) (by decide) ⟨1699999200, 1700002799999, true⟩ (by decide +kernel) (by decide +kernel)

end Verif.Props
