import Verif.Model.Json
import Verif.Lemmas.Json
import Verif.Lemmas.Time
import Verif.Props.Epoch
/-!
C103: the JSON documents that the programs hand to each other are read as they were written.
-/
namespace Verif.Spec

/-- Two lists whose elements belong to each other one by one. -/
inductive All2 {α β : Type} (R : α → β → Prop) : List α → List β → Prop where
  | nil : All2 R [] []
  | cons {a : α} {b : β} {l : List α} {m : List β} : R a b → All2 R l m → All2 R (a :: l) (b :: m)

/-- What remains of a Go string: an octet that is not UTF-8 becomes the replacement character U+FFFD. -/
def shown : Rune → Char
  | .ok c => c
  | .bad _ => Char.ofNat 65533

/-- What a field means in JSON: strings as they are shown, numbers in decimal digits, times as RFC 3339 says. -/
def Means : GoVal → JVal → Prop
  | .str s, j => j = .str (s.map shown)
  | .uint n, j => ∃ lit, j = .num lit ∧ lit ≠ [] ∧ Fixed lit n.toNat
  | .bool b, j => j = .bool b
  | .time t, j => ∃ x, j = .str x ∧ Rfc3339 x t.sec t.nsec

/-- An object with the names and values of a struct. -/
def Object (ms : List (Text × GoVal)) (j : JVal) : Prop := ∃ l, j = .obj l ∧ All2 (fun m x => x.1 = m.1 ∧ Means m.2 x.2) ms l

/-- Readers that follow the two RFCs where these say something: what they do with other texts is left open. -/
structure GoodReaders (R : Readers) : Prop where
  json : ∀ v t, JsonText v t → R.json t = some v
  time : ∀ t s n, Rfc3339 t s n → R.time t = some (s, n)

/-- A JSON value stands at the beginning of the text, whatever comes behind it. -/
def Begins (t : Text) : Prop := ∃ a v u b, t = a ++ (u ++ b) ∧ Ws a ∧ Json (.val v) u

/-- A log state as others see it. -/
def seenLog (s : LogMem) : LogRead :=
  ⟨s.logID.map shown, s.mmd.toNat, s.shortURL.map shown, s.minEntry.toNat, s.maxEntry.toNat, s.minTimestamp.toNat, s.maxTimestamp.toNat, s.lastUpdateTime.sec, s.lastUpdateTime.nsec⟩

/-- An enrolled issuer as others see it. -/
def seenIssuer (e : IssuerMem) : IssuerRead := ⟨e.uniqueID.map shown, e.pubKeyHash.map shown, e.subject.map shown, e.pem.map shown, e.partitioned⟩

/-- A time that Go can have: fewer than 10^9 nanoseconds. -/
def Proper (t : GoTime) : Prop := t.nsec < 1000000000

end Verif.Spec

namespace Verif.Props
open Verif.Spec

/-! ### times -/

theorem decDigit_toNat {k : Nat} (h : k < 10) : (decDigit k).toNat = 48 + k := by
  have : ∀ k : Fin 10, (decDigit k.1).toNat = 48 + k.1 := by decide
  exact this ⟨k, h⟩

theorem decDigit_digit {k : Nat} (h : k < 10) : Digit (decDigit k) k := ⟨h, decDigit_toNat h⟩

theorem fixed_dec2 {n : Nat} (h : n < 100) : Fixed (dec2 n) n := by
  refine ⟨?_, ?_⟩
  · intro c hc
    simp only [dec2, List.mem_cons, List.not_mem_nil, or_false] at hc
    rcases hc with rfl | rfl <;> exact ⟨_, decDigit_digit (Nat.mod_lt _ (by decide))⟩
  · simp only [dec2, List.foldl, decDigit_toNat (Nat.mod_lt (n / 10) (show 10 > 0 by decide)), decDigit_toNat (Nat.mod_lt n (show 10 > 0 by decide))]
    omega

theorem fixed_dec4 {n : Nat} (h : n < 10000) : Fixed (dec4 n) n := by
  refine ⟨?_, ?_⟩
  · intro c hc
    simp only [dec4, List.mem_cons, List.not_mem_nil, or_false] at hc
    rcases hc with rfl | rfl | rfl | rfl <;> exact ⟨_, decDigit_digit (Nat.mod_lt _ (by decide))⟩
  · have hm : ∀ k, (decDigit (k % 10)).toNat = 48 + k % 10 := fun k => decDigit_toNat (Nat.mod_lt _ (by decide))
    simp only [dec4, List.foldl, hm]
    omega

theorem fixed_dec9 {n : Nat} (h : n < 1000000000) : Fixed (dec9 n) n := by
  refine ⟨?_, ?_⟩
  · intro c hc
    simp only [dec9, List.mem_cons, List.not_mem_nil, or_false] at hc
    rcases hc with rfl | rfl | rfl | rfl | rfl | rfl | rfl | rfl | rfl <;> exact ⟨_, decDigit_digit (Nat.mod_lt _ (by decide))⟩
  · have hm : ∀ k, (decDigit (k % 10)).toNat = 48 + k % 10 := fun k => decDigit_toNat (Nat.mod_lt _ (by decide))
    simp only [dec9, List.foldl, hm]
    omega

theorem fixed_unique {t : Text} {m n : Nat} (h : Fixed t m) (h' : Fixed t n) : m = n := h.2.trans h'.2.symm

/-- Trailing zeros of a fraction have no value. -/
theorem strip_zeros : ∀ (r : Text) (n : Nat), Fixed r.reverse n → ∃ v k, Fixed (r.dropWhile (fun c => decide (c = '0'))).reverse v ∧
    n = v * 10 ^ k ∧ (r.dropWhile (fun c => decide (c = '0'))).length + k = r.length
  | [], n, h => ⟨n, 0, h, by simp, rfl⟩
  | c :: r, n, h => by
    by_cases hc : c = '0'
    · subst hc
      have h1 : Fixed r.reverse (n / 10) ∧ n = n / 10 * 10 := by
        obtain ⟨h1, h2⟩ := h
        rw [List.reverse_cons, List.foldl_append] at h2
        simp only [List.foldl] at h2
        have h3 : ('0' : Char).toNat - 48 = 0 := rfl
        rw [h3] at h2
        exact ⟨⟨fun c hc => h1 c (by rw [List.reverse_cons]; exact List.mem_append_left _ hc), by omega⟩, by omega⟩
      obtain ⟨v, k, h2, h3, h4⟩ := strip_zeros r (n / 10) h1.1
      refine ⟨v, k + 1, ?_, ?_, ?_⟩
      · simpa [List.dropWhile] using h2
      · rw [h1.2, h3, Nat.pow_succ, Nat.mul_assoc]
      · simp only [List.dropWhile, decide_true, List.length_cons]
        omega
    · refine ⟨n, 0, ?_, by simp, ?_⟩
      · simpa [List.dropWhile, hc] using h
      · simp [List.dropWhile, hc]

theorem fraction_fracText {ns : Nat} (h : ns < 1000000000) : Fraction (fracText ns) ns := by
  unfold fracText
  split
  · rename_i h0
    exact .inl ⟨rfl, h0⟩
  · rename_i h0
    obtain ⟨v, k, h1, h2, h3⟩ := strip_zeros (dec9 ns).reverse ns (by rw [List.reverse_reverse]; exact fixed_dec9 h)
    have h4 : (dec9 ns).reverse.length = 9 := by rw [List.length_reverse]; rfl
    refine .inr ⟨_, v, rfl, ?_, ?_, h1, ?_⟩
    · intro he
      rw [List.reverse_eq_nil_iff] at he
      rw [he] at h1
      have : v = 0 := h1.2
      rw [this, Nat.zero_mul] at h2
      exact h0 h2
    · rw [List.length_reverse]; omega
    · have : 9 - ((dec9 ns).reverse.dropWhile (fun c => decide (c = '0'))).length = k := by omega
      rw [List.length_reverse, this]
      exact h2

theorem offset_zoneText {off : Int} (h : off.natAbs < 1440) : Offset (zoneText off) off := by
  unfold zoneText
  split
  · rename_i h0
    exact .inl ⟨rfl, h0⟩
  · rename_i h0
    refine .inr ⟨_, dec2 (off.natAbs / 60), dec2 (off.natAbs % 60), off.natAbs / 60, off.natAbs % 60, rfl, rfl, rfl, fixed_dec2 (by omega), fixed_dec2 (by omega), by omega, by omega, ?_⟩
    split
    · exact .inr ⟨rfl, by omega⟩
    · exact .inl ⟨rfl, by omega⟩

theorem onDay_civil (d : Int) : OnDay d (civilOfDays d) := ⟨civilOfDays, civilOfDays_zero, fun k => ⟨civilOfDays_valid k, civilOfDays_succ k⟩, rfl⟩

theorem onDay_days {d : Int} {c : Civil} (h : OnDay d c) : d = daysOfCivil c := by
  obtain ⟨f, h0, hs, rfl⟩ := h
  have up : ∀ i : Nat, daysOfCivil (f (i : Int)) = i := by
    intro i
    induction i with
    | zero => exact (congrArg daysOfCivil h0).trans (by decide)
    | succ i ih =>
      have h1 : ((i + 1 : Nat) : Int) = (i : Int) + 1 := by omega
      rw [h1, (hs _).2, daysOfCivil_nextDay _ (hs _).1, ih]
  have down : ∀ i : Nat, daysOfCivil (f (-(i : Int))) = -i := by
    intro i
    induction i with
    | zero => exact (congrArg daysOfCivil h0).trans (by decide)
    | succ i ih =>
      have h1 := (hs (-((i + 1 : Nat) : Int))).2
      have h2 := daysOfCivil_nextDay _ (hs (-((i + 1 : Nat) : Int))).1
      rw [← h1] at h2
      have h3 : -((i + 1 : Nat) : Int) + 1 = -i := by omega
      rw [h3, ih] at h2
      omega
  have key : ∀ k : Int, daysOfCivil (f k) = k := by
    intro k
    rcases Int.eq_nat_or_neg k with ⟨i, rfl | rfl⟩
    · exact up i
    · exact down i
  exact (key d).symm

/-- There is one date for a day. -/
theorem onDay_unique {d : Int} {c c' : Civil} (h : OnDay d c) (h' : OnDay d c') : c = c' := by
  have h1 := onDay_days h
  have h2 := onDay_days h'
  obtain ⟨_, _, hs, rfl⟩ := h
  obtain ⟨_, _, hs', rfl⟩ := h'
  rw [← civilOfDays_daysOfCivil _ (hs d).1, ← civilOfDays_daysOfCivil _ (hs' d).1, ← h1, ← h2]

/-- What the encoder writes for a time names its instant. -/
theorem timeText_rfc {t : GoTime} {x : Text} (hp : Proper t) (h : timeText t = some x) : Rfc3339 x t.sec t.nsec := by
  unfold timeText at h
  dsimp only at h
  split at h
  · rename_i hy
    cases h
    have hv := civilOfDays_valid ((t.sec + t.off * 60) / 86400)
    have hm : monthLength (civilOfDays ((t.sec + t.off * 60) / 86400)).year (civilOfDays ((t.sec + t.off * 60) / 86400)).month ≤ 31 := by
      unfold monthLength
      split
      · split <;> omega
      · split <;> omega
    obtain ⟨v1, v2, v3, v4⟩ := hv
    have hr := Int.emod_nonneg (t.sec + t.off * 60) (show (86400 : Int) ≠ 0 by decide)
    have hr' := Int.emod_lt_of_pos (t.sec + t.off * 60) (show (0 : Int) < 86400 by decide)
    refine ⟨_, _, _, _, _, _, _, _, _, _, _, _, _, _, _, (t.sec + t.off * 60) / 86400, rfl, rfl, rfl, rfl, rfl, rfl, rfl,
      fixed_dec4 (by omega), fixed_dec2 (by omega), fixed_dec2 (by omega), fixed_dec2 (by omega), fixed_dec2 (by omega), fixed_dec2 (by omega), fraction_fracText hp, offset_zoneText hy.2.2,
      by omega, by omega, by omega, ?_, ?_⟩
    · have : (⟨((civilOfDays ((t.sec + t.off * 60) / 86400)).year.toNat : Int), ((civilOfDays ((t.sec + t.off * 60) / 86400)).month.toNat : Int), ((civilOfDays ((t.sec + t.off * 60) / 86400)).day.toNat : Int)⟩ : Civil) =
          civilOfDays ((t.sec + t.off * 60) / 86400) := by
        rw [Int.toNat_of_nonneg hy.1, Int.toNat_of_nonneg (by omega), Int.toNat_of_nonneg (by omega)]
      rw [this]
      exact onDay_civil _
    · omega
  · cases h

theorem fraction_chars {t : Text} {n : Nat} (h : Fraction t n) : ∀ c ∈ t, c = '.' ∨ ∃ k, Digit c k := by
  rcases h with ⟨rfl, _⟩ | ⟨d, v, rfl, _, _, hd, _⟩
  · intro c hc; cases hc
  · intro c hc
    rcases List.mem_cons.1 hc with rfl | hc
    · exact .inl rfl
    · exact .inr (hd.1 c hc)

theorem offset_head {t : Text} {o : Int} (h : Offset t o) : ∀ c, t.head? = some c → ¬ (c = '.' ∨ ∃ k, Digit c k) := by
  have hz : ∀ c : Char, c = 'Z' ∨ c = '+' ∨ c = '-' → ¬ (c = '.' ∨ ∃ k, Digit c k) := by
    rintro c (rfl | rfl | rfl) (h | ⟨k, h1, h2⟩) <;> simp at * <;> omega
  rcases h with ⟨rfl, _⟩ | ⟨s, h, m, hh, mm, rfl, _, _, _, _, _, _, h1⟩
  · intro c hc; cases hc; exact hz _ (by simp)
  · intro c hc
    cases hc
    rcases h1 with ⟨rfl, _⟩ | ⟨rfl, _⟩ <;> exact hz _ (by simp)

theorem fraction_unique {t : Text} {m n : Nat} (h : Fraction t m) (h' : Fraction t n) : m = n := by
  rcases h with ⟨rfl, rfl⟩ | ⟨d, v, rfl, _, _, hd, rfl⟩
  · rcases h' with ⟨_, rfl⟩ | ⟨_, _, h, _⟩
    · rfl
    · cases h
  · rcases h' with ⟨h, _⟩ | ⟨d', v', h, _, _, hd', rfl⟩
    · cases h
    · cases h
      rw [fixed_unique hd hd']

theorem offset_unique {t : Text} {a b : Int} (h : Offset t a) (h' : Offset t b) : a = b := by
  rcases h with ⟨rfl, rfl⟩ | ⟨s, h, m, hh, mm, rfl, l1, l2, f1, f2, _, _, e⟩
  · rcases h' with ⟨_, rfl⟩ | ⟨s', h', m', _, _, e', l1', _⟩
    · rfl
    · have h2 := congrArg List.length e'
      simp at h2
  · rcases h' with ⟨e', _⟩ | ⟨s', h', m', hh', mm', e', l1', l2', f1', f2', _, _, e2⟩
    · have h2 := congrArg List.length e'
      simp at h2
    · rw [List.cons.injEq] at e'
      obtain ⟨rfl, e'⟩ := e'
      obtain ⟨rfl, e3⟩ := List.append_inj e' (l1.trans l1'.symm)
      rw [List.cons.injEq] at e3
      obtain ⟨_, rfl⟩ := e3
      rw [fixed_unique f1 f1', fixed_unique f2 f2'] at e
      rcases e with ⟨rfl, rfl⟩ | ⟨rfl, rfl⟩
      · rcases e2 with ⟨_, rfl⟩ | ⟨h, _⟩
        · rfl
        · simp at h
      · rcases e2 with ⟨h, _⟩ | ⟨_, rfl⟩
        · simp at h
        · rfl

/-- **C103, dates.** A text names at most one instant. -/
theorem C103_one_instant (t : Text) (s s' : Int) (n n' : Nat) (h : Rfc3339 t s n) (h' : Rfc3339 t s' n') : s = s' ∧ n = n' := by
  obtain ⟨y, mo, d, hr, mi, sc, fr, z, yy, mm, dd, hh, nn, ss, off, day, rfl, l1, l2, l3, l4, l5, l6, f1, f2, f3, f4, f5, f6, g1, g2, _, _, _, o, rfl⟩ := h
  obtain ⟨y', mo', d', hr', mi', sc', fr', z', yy', mm', dd', hh', nn', ss', off', day', e, l1', l2', l3', l4', l5', l6', f1', f2', f3', f4', f5', f6', g1', g2', _, _, _, o', rfl⟩ := h'
  obtain ⟨rfl, e1⟩ := List.append_inj e (l1.trans l1'.symm)
  obtain ⟨rfl, e2⟩ := List.append_inj (List.cons.inj e1).2 (l2.trans l2'.symm)
  obtain ⟨rfl, e3⟩ := List.append_inj (List.cons.inj e2).2 (l3.trans l3'.symm)
  obtain ⟨rfl, e4⟩ := List.append_inj (List.cons.inj e3).2 (l4.trans l4'.symm)
  obtain ⟨rfl, e5⟩ := List.append_inj (List.cons.inj e4).2 (l5.trans l5'.symm)
  obtain ⟨rfl, e6⟩ := List.append_inj (List.cons.inj e5).2 (l6.trans l6'.symm)
  obtain ⟨rfl, rfl⟩ := span_split (P := fun c => c = '.' ∨ ∃ k, Digit c k) (fraction_chars g1) (fraction_chars g1') (offset_head g2) (offset_head g2') e6
  rw [fixed_unique f1 f1', fixed_unique f2 f2', fixed_unique f3 f3'] at o
  rw [onDay_days o, onDay_days o', fixed_unique f4 f4', fixed_unique f5 f5', fixed_unique f6 f6', offset_unique g2 g2']
  exact ⟨rfl, fraction_unique g1 g1'⟩

/-! ### strings and numbers -/

theorem hexDigit_means {n : Nat} (h : n < 16) : HexDigit (hexDigit n) n := by
  have : ∀ k : Fin 16, (k.1 < 10 ∧ (hexDigit k.1).toNat = 48 + k.1) ∨ (10 ≤ k.1 ∧ k.1 < 16 ∧ ((hexDigit k.1).toNat = 87 + k.1 ∨ (hexDigit k.1).toNat = 55 + k.1)) := by decide
  exact this ⟨n, h⟩

theorem hex4_means {n : Nat} (h : n < 65536) : Hex4 [hexDigit (n / 4096 % 16), hexDigit (n / 256 % 16), hexDigit (n / 16 % 16), hexDigit (n % 16)] n :=
  ⟨_, _, _, _, _, _, _, _, rfl, hexDigit_means (Nat.mod_lt _ (by decide)), hexDigit_means (Nat.mod_lt _ (by decide)), hexDigit_means (Nat.mod_lt _ (by decide)), hexDigit_means (Nat.mod_lt _ (by decide)), by omega⟩

theorem chars_escape (r : Rune) {s t : Text} (h : Chars s t) : Chars (shown r :: s) (escapeRune r ++ t) := by
  cases r with
  | bad b => exact .hex (hex4_means (by decide)) h
  | ok c =>
    show Chars (c :: s) (escapeChar c ++ t)
    unfold escapeChar
    split
    · rename_i hc
      rcases hc with rfl | rfl
      · exact .escape (.inl ⟨rfl, rfl⟩) h
      · exact .escape (.inr (.inl ⟨rfl, rfl⟩)) h
    · rename_i hq
      have hq1 : c ≠ '"' := fun e => hq (.inl e)
      have hq2 : c ≠ '\\' := fun e => hq (.inr e)
      split
      · rename_i hc; exact .escape (by simp [Escape, hc]) h
      · split
        · rename_i hc; exact .escape (by simp [Escape, hc]) h
        · split
          · rename_i hc; exact .escape (by simp [Escape, hc]) h
          · split
            · rename_i hc; exact .escape (by simp [Escape, hc]) h
            · split
              · rename_i hc; exact .escape (by simp [Escape, hc]) h
              · split
                · rename_i hc
                  refine .hex (hex4_means ?_) h
                  rcases hc with hc | rfl | rfl | rfl | hc | hc
                  · omega
                  · decide
                  · decide
                  · decide
                  · omega
                  · omega
                · rename_i hc
                  exact .plain (by omega) hq1 hq2 h

theorem string_goString (s : List Rune) : IsString (s.map shown) (goString s) := by
  refine ⟨_, rfl, ?_⟩
  induction s with
  | nil => exact .nil
  | cons r s ih => exact chars_escape r ih

theorem shown_ok (t : Text) : (t.map Rune.ok).map shown = t := by
  induction t with
  | nil => rfl
  | cons c t ih => rw [List.map_cons, List.map_cons, ih]; rfl

theorem digitsFrom_foldl : ∀ (t : Text) (acc : Nat), (∀ c ∈ t, ∃ k, Digit c k) → digitsFrom acc t = some (t.foldl (fun acc c => 10 * acc + (c.toNat - 48)) acc)
  | [], _, _ => rfl
  | c :: t, acc, h => by
    obtain ⟨k, hk, hc⟩ := h c List.mem_cons_self
    have : c = decDigit k := char_eq (by rw [hc, decDigit_toNat hk])
    rw [digitsFrom, this, decVal_decDigit k hk]
    dsimp only
    rw [List.foldl_cons, digitsFrom_foldl t _ (fun c hc => h c (List.mem_cons_of_mem _ hc)), decDigit_toNat hk]
    congr 2
    omega

theorem fixed_natText (n : Nat) : natText n ≠ [] ∧ Fixed (natText n) n := by
  obtain ⟨h1, h2, h3⟩ := natText_digits n
  have hd : ∀ c ∈ natText n, ∃ k, Digit c k := by
    intro c hc
    obtain ⟨k, hk, rfl⟩ := h3 c hc
    exact ⟨k, decDigit_digit hk⟩
  refine ⟨h1, hd, ?_⟩
  rw [digitsFrom_foldl _ _ hd] at h2
  exact (Option.some.inj h2).symm

theorem natText_head (n : Nat) (h : 0 < n) : (natText n).head? ≠ some '0' := by
  induction n using Nat.strongRecOn with
  | _ n ih =>
    rw [natText]
    split
    · rename_i h1
      intro hc
      have h2 := congrArg Char.toNat (Option.some.inj hc)
      rw [decDigit_toNat h1] at h2
      have : ('0' : Char).toNat = 48 := rfl
      omega
    · rename_i h1
      have h2 := ih (n / 10) (by omega) (by omega)
      have h3 := (fixed_natText (n / 10)).1
      cases hm : natText (n / 10) with
      | nil => exact absurd hm h3
      | cons c t => rw [hm] at h2; exact h2

theorem number_natText (n : Nat) : IsNumber (natText n) := by
  refine ⟨[], natText n, [], [], by simp, .inl rfl, ?_, .inl rfl, .inl rfl⟩
  by_cases h : n = 0
  · left; subst h; rw [natText]; rfl
  · right; exact ⟨⟨(fixed_natText n).1, (fixed_natText n).2.1⟩, natText_head n (by omega)⟩

/-- Characters that stand for themselves. -/
theorem chars_plain : ∀ (t : Text), (∀ c ∈ t, 32 ≤ c.toNat ∧ c ≠ '"' ∧ c ≠ '\\') → Chars t t
  | [], _ => .nil
  | c :: t, h => .plain (h c List.mem_cons_self).1 (h c List.mem_cons_self).2.1 (h c List.mem_cons_self).2.2 (chars_plain t (fun d hd => h d (List.mem_cons_of_mem _ hd)))

/-- A character of a date. -/
def DateChar (c : Char) : Prop := (∃ k, Digit c k) ∨ c = '-' ∨ c = ':' ∨ c = 'T' ∨ c = 'Z' ∨ c = '+' ∨ c = '.'

theorem dateChar_plain {c : Char} (h : DateChar c) : 32 ≤ c.toNat ∧ c ≠ '"' ∧ c ≠ '\\' := by
  rcases h with ⟨k, h1, h2⟩ | rfl | rfl | rfl | rfl | rfl | rfl
  · refine ⟨by omega, ?_, ?_⟩
    · rintro rfl
      have : ('"' : Char).toNat = 34 := rfl
      omega
    · rintro rfl
      have : ('\\' : Char).toNat = 92 := rfl
      omega
  all_goals decide

theorem rfc_chars {x : Text} {s : Int} {n : Nat} (h : Rfc3339 x s n) : ∀ c ∈ x, DateChar c := by
  obtain ⟨y, mo, d, hr, mi, sc, fr, z, yy, mm, dd, hh, nn, ss, off, day, rfl, l1, l2, l3, l4, l5, l6, f1, f2, f3, f4, f5, f6, g1, g2, _⟩ := h
  have hf : ∀ {t n}, Fixed t n → ∀ c ∈ t, DateChar c := fun h c hc => .inl (h.1 c hc)
  have hz : ∀ c ∈ z, DateChar c := by
    rcases g2 with ⟨rfl, _⟩ | ⟨sg, h, m, _, _, rfl, _, _, q1, q2, _, _, q3⟩
    · intro c hc
      rw [List.mem_singleton] at hc
      exact .inr (.inr (.inr (.inr (.inl hc))))
    · intro c hc
      rcases List.mem_cons.1 hc with rfl | hc
      · rcases q3 with ⟨rfl, _⟩ | ⟨rfl, _⟩
        · exact .inr (by simp)
        · exact .inr (by simp)
      · rcases List.mem_append.1 hc with hc | hc
        · exact hf q1 c hc
        · rcases List.mem_cons.1 hc with rfl | hc
          · exact .inr (by simp)
          · exact hf q2 c hc
  have ha : ∀ {u v : Text}, (∀ c ∈ u, DateChar c) → (∀ c ∈ v, DateChar c) → ∀ c ∈ u ++ v, DateChar c := fun h1 h2 c hc => (List.mem_append.1 hc).elim (h1 c) (h2 c)
  have hc : ∀ {e : Char} {v : Text}, DateChar e → (∀ c ∈ v, DateChar c) → ∀ c ∈ e :: v, DateChar c := fun h1 h2 c hc => (List.mem_cons.1 hc).elim (fun e => e ▸ h1) (h2 c)
  have hfr : ∀ c ∈ fr, DateChar c := fun c hc => (fraction_chars g1 c hc).elim (fun e => .inr (by simp [e])) .inl
  exact ha (hf f1) (hc (.inr (by simp)) (ha (hf f2) (hc (.inr (by simp)) (ha (hf f3) (hc (.inr (by simp)) (ha (hf f4) (hc (.inr (by simp)) (ha (hf f5) (hc (.inr (by simp)) (ha (hf f6) (ha hfr hz)))))))))))

/-! ### documents -/

/-- The fields of a struct have proper times. -/
def ProperVal : GoVal → Prop
  | .time t => Proper t
  | _ => True

theorem goVal_json {v : GoVal} {x : Text} (hp : ProperVal v) (h : goVal v = some x) : ∃ j, Means v j ∧ Json (.val j) x := by
  cases v with
  | str s => cases h; exact ⟨_, rfl, .str (string_goString s)⟩
  | uint n => cases h; exact ⟨_, ⟨_, rfl, fixed_natText _⟩, .num (number_natText _)⟩
  | bool b =>
    cases b
    · cases h; exact ⟨_, rfl, .false⟩
    · cases h; exact ⟨_, rfl, .true⟩
  | time t =>
    simp only [goVal, Option.map_eq_some_iff] at h
    obtain ⟨y, hy, rfl⟩ := h
    have hr := timeText_rfc hp hy
    exact ⟨_, ⟨y, rfl, hr⟩, .str ⟨y, rfl, chars_plain y (fun c hc => dateChar_plain (rfc_chars hr c hc))⟩⟩

theorem ws_nil : Ws [] := fun _ h => nomatch h

theorem goMembers_json : ∀ (ms : List (Text × GoVal)) (x : Text), (∀ m ∈ ms, ProperVal m.2) → goMembers ms = some x →
    ms = [] ∧ x = [] ∨ ∃ l, All2 (fun m y => y.1 = m.1 ∧ Means m.2 y.2) ms l ∧ Json (.members l) x
  | [], x, _, h => by cases h; exact .inl ⟨rfl, rfl⟩
  | [m], x, hp, h => by
    simp only [goMembers, goMember, Option.map_eq_some_iff] at h
    obtain ⟨y, hy, rfl⟩ := h
    obtain ⟨j, hj, hx⟩ := goVal_json (hp m List.mem_cons_self) hy
    have h1 := string_goString (m.1.map .ok)
    rw [shown_ok] at h1
    refine .inr ⟨[(m.1, j)], .cons ⟨rfl, hj⟩ .nil, ?_⟩
    have h2 := Json.member ws_nil h1 ws_nil ws_nil hx ws_nil
    simpa using h2
  | m :: m2 :: ms, x, hp, h => by
    simp only [goMembers] at h
    split at h
    · rename_i a b ha hb
      cases h
      rcases goMembers_json (m2 :: ms) b (fun n hn => hp n (List.mem_cons_of_mem _ hn)) hb with ⟨h, _⟩ | ⟨l, hl, hj⟩
      · cases h
      · simp only [goMember, Option.map_eq_some_iff] at ha
        obtain ⟨y, hy, rfl⟩ := ha
        obtain ⟨j, hm, hx⟩ := goVal_json (hp m List.mem_cons_self) hy
        have h1 := string_goString (m.1.map .ok)
        rw [shown_ok] at h1
        refine .inr ⟨(m.1, j) :: l, .cons ⟨rfl, hm⟩ hl, ?_⟩
        have h2 := Json.members ws_nil h1 ws_nil ws_nil hx ws_nil hj
        simpa using h2
    · cases h

theorem goStruct_json {ms : List (Text × GoVal)} {x : Text} (hp : ∀ m ∈ ms, ProperVal m.2) (h : goStruct ms = some x) : ∃ j, Object ms j ∧ Json (.val j) x := by
  simp only [goStruct, Option.map_eq_some_iff] at h
  obtain ⟨t, ht, rfl⟩ := h
  rcases goMembers_json ms t hp ht with ⟨rfl, rfl⟩ | ⟨l, hl, hj⟩
  · exact ⟨.obj [], ⟨[], rfl, .nil⟩, Json.obj0 ws_nil⟩
  · exact ⟨.obj l, ⟨l, rfl, hl⟩, Json.obj hj⟩

theorem goElems_json : ∀ (es : List (List (Text × GoVal))) (x : Text), (∀ e ∈ es, ∀ m ∈ e, ProperVal m.2) → goElems es = some x →
    es = [] ∧ x = [] ∨ ∃ l, All2 Object es l ∧ Json (.elems l) x
  | [], x, _, h => by cases h; exact .inl ⟨rfl, rfl⟩
  | [e], x, hp, h => by
    obtain ⟨j, hj, hx⟩ := goStruct_json (hp e List.mem_cons_self) h
    refine .inr ⟨[j], .cons hj .nil, ?_⟩
    have h2 := Json.elem ws_nil hx ws_nil
    simpa using h2
  | e :: e2 :: es, x, hp, h => by
    simp only [goElems] at h
    split at h
    · rename_i a b ha hb
      cases h
      rcases goElems_json (e2 :: es) b (fun n hn => hp n (List.mem_cons_of_mem _ hn)) hb with ⟨h, _⟩ | ⟨l, hl, hj⟩
      · cases h
      · obtain ⟨j, hm, hx⟩ := goStruct_json (hp e List.mem_cons_self) ha
        refine .inr ⟨j :: l, .cons hm hl, ?_⟩
        have h2 := Json.elems ws_nil hx ws_nil hj
        simpa using h2
    · cases h

theorem goSlice_json {es : List (List (Text × GoVal))} {x : Text} (hp : ∀ e ∈ es, ∀ m ∈ e, ProperVal m.2) (h : goSlice es = some x) :
    ∃ l u, All2 Object es l ∧ Json (.val (.arr l)) u ∧ x = u ++ ['\n'] := by
  simp only [goSlice, Option.map_eq_some_iff] at h
  obtain ⟨t, ht, rfl⟩ := h
  rcases goElems_json es t hp ht with ⟨rfl, rfl⟩ | ⟨l, hl, hj⟩
  · exact ⟨[], _, .nil, Json.arr0 ws_nil, rfl⟩
  · exact ⟨l, _, hl, Json.arr hj, by simp⟩

theorem ws_newline : Ws ['\n'] := by intro c hc; rw [List.mem_singleton] at hc; simp [hc]

/-! ### reading -/

theorem mapM_all2 {α β γ δ : Type} {P : α → β → Prop} {f : β → Option γ} {g : δ → γ} {h : δ → α} (hf : ∀ d b, P (h d) b → f b = some (g d)) :
    ∀ (l : List δ) (m : List β), All2 P (l.map h) m → m.mapM f = some (l.map g)
  | [], _, .nil => rfl
  | d :: l, _, .cons (b := b) (m := m) h1 h2 => by
    rw [List.mapM_cons, hf d b h1, mapM_all2 hf l m h2]
    rfl

theorem readUint {n : UInt64} {j : JVal} (h : Means (.uint n) j) (old : Nat) : asUint old j = some n.toNat := by
  obtain ⟨lit, rfl, h1, h2, h3⟩ := h
  have h4 := digitsFrom_foldl lit 0 h2
  rw [← h3] at h4
  exact parseUint64_of h1 h4 n.toNat_lt

theorem readLog {rt : Text → Option (Int × Nat)} (hrt : ∀ t s n, Rfc3339 t s n → rt t = some (s, n)) (s : LogMem) (j : JVal) (h : Object s.fields j) :
    asStruct (LogRead.set rt) LogRead.zero j = some (seenLog s) := by
  obtain ⟨l, rfl, h⟩ := h
  cases h with | cons h1 h =>
  cases h with | cons h2 h =>
  cases h with | cons h3 h =>
  cases h with | cons h4 h =>
  cases h with | cons h5 h =>
  cases h with | cons h6 h =>
  cases h with | cons h7 h =>
  cases h with | cons h8 h =>
  cases h
  rename_i b1 b2 b3 b4 b5 b6 b7 b8
  obtain ⟨k1, j1⟩ := b1; obtain ⟨k2, j2⟩ := b2; obtain ⟨k3, j3⟩ := b3; obtain ⟨k4, j4⟩ := b4
  obtain ⟨k5, j5⟩ := b5; obtain ⟨k6, j6⟩ := b6; obtain ⟨k7, j7⟩ := b7; obtain ⟨k8, j8⟩ := b8
  obtain ⟨rfl, m1⟩ := h1; obtain ⟨rfl, m2⟩ := h2; obtain ⟨rfl, m3⟩ := h3; obtain ⟨rfl, m4⟩ := h4
  obtain ⟨rfl, m5⟩ := h5; obtain ⟨rfl, m6⟩ := h6; obtain ⟨rfl, m7⟩ := h7; obtain ⟨rfl, m8⟩ := h8
  obtain ⟨x, rfl, hx⟩ := m8
  have e1 : ∀ (a : LogRead), LogRead.set rt a ("LogID".toList, j1) = (asText a.logID j1).map (fun x => { a with logID := x }) := fun _ => rfl
  have e2 : ∀ (a : LogRead), LogRead.set rt a ("MMD".toList, j2) = (asUint a.mmd j2).map (fun x => { a with mmd := x }) := fun _ => rfl
  have e3 : ∀ (a : LogRead), LogRead.set rt a ("ShortURL".toList, j3) = (asText a.shortURL j3).map (fun x => { a with shortURL := x }) := fun _ => rfl
  have e4 : ∀ (a : LogRead), LogRead.set rt a ("MinEntry".toList, j4) = (asUint a.minEntry j4).map (fun x => { a with minEntry := x }) := fun _ => rfl
  have e5 : ∀ (a : LogRead), LogRead.set rt a ("MaxEntry".toList, j5) = (asUint a.maxEntry j5).map (fun x => { a with maxEntry := x }) := fun _ => rfl
  have e6 : ∀ (a : LogRead), LogRead.set rt a ("MinTimestamp".toList, j6) = (asUint a.minTimestamp j6).map (fun x => { a with minTimestamp := x }) := fun _ => rfl
  have e7 : ∀ (a : LogRead), LogRead.set rt a ("MaxTimestamp".toList, j7) = (asUint a.maxTimestamp j7).map (fun x => { a with maxTimestamp := x }) := fun _ => rfl
  have e8 : ∀ (a : LogRead), LogRead.set rt a ("LastUpdateTime".toList, .str x) = (rt x).map (fun x => { a with sec := x.1, nsec := x.2 }) := fun _ => rfl
  cases (show j1 = _ from m1)
  cases (show j3 = _ from m3)
  simp only [asStruct, setAll, e1, e2, e3, e4, e5, e6, e7, e8, asText, Option.map_some, readUint m2, readUint m4, readUint m5, readUint m6, readUint m7, hrt _ _ _ hx]
  rfl

theorem readIssuer (e : IssuerMem) (j : JVal) (h : Object e.fields j) :
    asStruct IssuerRead.set ⟨[], [], [], [], false⟩ j = some (seenIssuer e) ∧ asRecord j = some (e.uniqueID.map shown, e.pem.map shown) ∧
      pyEntry j = some ⟨some (e.pem.map shown), none, some (e.pubKeyHash.map shown), none, true, none⟩ := by
  obtain ⟨l, rfl, h⟩ := h
  cases h with | cons h1 h =>
  cases h with | cons h2 h =>
  cases h with | cons h3 h =>
  cases h with | cons h4 h =>
  cases h with | cons h5 h =>
  cases h
  rename_i b1 b2 b3 b4 b5
  obtain ⟨k1, j1⟩ := b1; obtain ⟨k2, j2⟩ := b2; obtain ⟨k3, j3⟩ := b3; obtain ⟨k4, j4⟩ := b4; obtain ⟨k5, j5⟩ := b5
  obtain ⟨rfl, m1⟩ := h1; obtain ⟨rfl, m2⟩ := h2; obtain ⟨rfl, m3⟩ := h3; obtain ⟨rfl, m4⟩ := h4; obtain ⟨rfl, m5⟩ := h5
  cases (show j1 = _ from m1)
  cases (show j2 = _ from m2)
  cases (show j3 = _ from m3)
  cases (show j4 = _ from m4)
  cases (show j5 = _ from m5)
  exact ⟨rfl, rfl, rfl⟩

theorem log_proper {s : LogMem} (h : Proper s.lastUpdateTime) : ∀ m ∈ s.fields, ProperVal m.2 := by
  intro m hm
  simp only [LogMem.fields, List.mem_cons, List.not_mem_nil, or_false] at hm
  rcases hm with rfl | rfl | rfl | rfl | rfl | rfl | rfl | rfl <;> first | trivial | exact h

theorem issuer_proper (e : IssuerMem) : ∀ m ∈ e.fields, ProperVal m.2 := by
  intro m hm
  simp only [IssuerMem.fields, List.mem_cons, List.not_mem_nil, or_false] at hm
  rcases hm with rfl | rfl | rfl | rfl | rfl <;> trivial

theorem slice_text {es : List (List (Text × GoVal))} {x : Text} (hp : ∀ e ∈ es, ∀ m ∈ e, ProperVal m.2) (h : goSlice es = some x) : ∃ l, All2 Object es l ∧ JsonText (.arr l) x := by
  obtain ⟨l, u, h1, h2, rfl⟩ := goSlice_json hp h
  exact ⟨l, h1, [], u, _, rfl, ws_nil, h2, ws_newline⟩

/-- **C103, one meaning.** No text is JSON for two different values, not even for the same members in another order. -/
theorem C103_one_meaning (v w : JVal) (t : Text) (hv : JsonText v t) (hw : JsonText w t) : v = w := by
  obtain ⟨a, u, b, rfl, ha, hu, hb⟩ := hv
  obtain ⟨a', u', b', e, ha', hu', hb'⟩ := hw
  obtain ⟨rfl, e2⟩ := ws_split ha ha' (json_head hu b) (json_head hu' b') e
  have he : ∀ {b : Text}, Ws b → ∀ c, b.head? = some c → EndChar c := fun h c hc => .inl (h c (List.mem_of_mem_head? hc))
  have := (json_unique hu hu' trivial (stop_of_end (he hb)) (stop_of_end (he hb')) e2).1
  exact Piece.val.inj this

/-- **C103, log states.** What aggregate-known and `Commit` write to `ct-logs.json` is JSON: an array with an object for each log, in the same order, whose members have the names and the values of the fields and which are all the members there are. -/
theorem C103_states_text (l : List LogMem) (hp : ∀ s ∈ l, Proper s.lastUpdateTime) (x : Text) (h : statesText l = some x) :
    ∃ js, All2 Object (l.map LogMem.fields) js ∧ JsonText (.arr js) x := by
  refine slice_text ?_ h
  intro e he
  obtain ⟨s, hs, rfl⟩ := List.mem_map.1 he
  exact log_proper (hp s hs)

/-- **C103, log states read.** A reader that follows the RFCs gets from `ct-logs.json` the states that were written, from Redis the state that was written. -/
theorem C103_states (R : Readers) (hR : GoodReaders R) (l : List LogMem) (hp : ∀ s ∈ l, Proper s.lastUpdateTime) :
    (∀ x, statesText l = some x → readStates R x = some (l.map seenLog)) ∧ (∀ s ∈ l, ∀ x, stateText s = some x → readState R x = some (seenLog s)) := by
  refine ⟨fun x h => ?_, fun s hs x h => ?_⟩
  · obtain ⟨js, h1, h2⟩ := C103_states_text l hp x h
    show (R.json x).bind _ = _
    rw [hR.json _ _ h2]
    exact mapM_all2 (g := seenLog) (readLog hR.time) l js h1
  · obtain ⟨j, h1, h2⟩ := goStruct_json (log_proper (hp s hs)) h
    show (R.json x).bind _ = _
    rw [hR.json j x ⟨[], x, [], by simp, ws_nil, h2, ws_nil⟩]
    exact readLog hR.time s j h1

/-- **C103, enrolled issuers.** From `enrolled.json` the other programs of the pipeline get the issuers that were written, the client their identifiers and certificates, and the publisher entries with certificate, key hash and subject, but without attachment, hash of the certificate and record identifier. -/
theorem C103_issuers (R : Readers) (hR : GoodReaders R) (l : List IssuerMem) (x : Text) (h : issuersText l = some x) :
    readIssuers R x = some (l.map seenIssuer) ∧ readRecords R x = some (l.map (fun e => (e.uniqueID.map shown, e.pem.map shown))) ∧
      pyEntries R x = some (l.map (fun e => ⟨some (e.pem.map shown), none, some (e.pubKeyHash.map shown), none, true, none⟩)) := by
  have hp : ∀ e ∈ l.map IssuerMem.fields, ∀ m ∈ e, ProperVal m.2 := by
    intro e he
    obtain ⟨i, _, rfl⟩ := List.mem_map.1 he
    exact issuer_proper i
  obtain ⟨js, h1, h2⟩ := slice_text hp h
  unfold readIssuers readRecords pyEntries
  rw [hR.json _ _ h2]
  exact ⟨mapM_all2 (g := seenIssuer) (fun e j h => (readIssuer e j h).1) l js h1, mapM_all2 (fun e j h => (readIssuer e j h).2.1) l js h1,
    mapM_all2 (fun e j h => (readIssuer e j h).2.2) l js h1⟩

theorem goMembers_some : ∀ (ms : List (Text × GoVal)), (∀ m ∈ ms, (goVal m.2).isSome) → (goMembers ms).isSome
  | [], _ => rfl
  | [m], h => by
    obtain ⟨y, hy⟩ := Option.isSome_iff_exists.1 (h m List.mem_cons_self)
    simp [goMembers, goMember, hy]
  | m :: m2 :: ms, h => by
    obtain ⟨y, hy⟩ := Option.isSome_iff_exists.1 (h m List.mem_cons_self)
    obtain ⟨z, hz⟩ := Option.isSome_iff_exists.1 (goMembers_some (m2 :: ms) (fun n hn => h n (List.mem_cons_of_mem _ hn)))
    simp [goMembers, goMember, hy, hz]

theorem goElems_some : ∀ (es : List (List (Text × GoVal))), (∀ e ∈ es, (goStruct e).isSome) → (goElems es).isSome
  | [], _ => rfl
  | [e], h => h e List.mem_cons_self
  | e :: e2 :: es, h => by
    obtain ⟨y, hy⟩ := Option.isSome_iff_exists.1 (h e List.mem_cons_self)
    obtain ⟨z, hz⟩ := Option.isSome_iff_exists.1 (goElems_some (e2 :: es) (fun n hn => h n (List.mem_cons_of_mem _ hn)))
    simp [goElems, hy, hz]

theorem log_some {s : LogMem} (h : (timeText s.lastUpdateTime).isSome) : (goStruct s.fields).isSome := by
  have : (goMembers s.fields).isSome := by
    apply goMembers_some
    intro m hm
    simp only [LogMem.fields, List.mem_cons, List.not_mem_nil, or_false] at hm
    rcases hm with rfl | rfl | rfl | rfl | rfl | rfl | rfl | rfl <;> first | rfl | simpa [goVal] using h
  simpa [goStruct] using this

/-- **C103, always written.** The issuers can always be written; the states can whenever the local dates of the updates are in the years 0 to 9999 and no zone is a day or more away from UTC. -/
theorem C103_written (l : List LogMem) (m : List IssuerMem)
    (hy : ∀ s ∈ l, ∃ c, OnDay ((s.lastUpdateTime.sec + s.lastUpdateTime.off * 60) / 86400) c ∧ 0 ≤ c.year ∧ c.year ≤ 9999 ∧ s.lastUpdateTime.off.natAbs < 1440) :
    (statesText l).isSome ∧ (issuersText m).isSome := by
  constructor
  · have : (goElems (l.map LogMem.fields)).isSome := by
      apply goElems_some
      intro e he
      obtain ⟨s, hs, rfl⟩ := List.mem_map.1 he
      obtain ⟨c, hc, h1⟩ := hy s hs
      have h2 := onDay_days hc
      have h3 := onDay_unique hc (onDay_civil _)
      subst h3
      apply log_some
      unfold timeText
      dsimp only
      rw [if_pos h1]
      rfl
    simpa [statesText, goSlice] using this
  · have : (goElems (m.map IssuerMem.fields)).isSome := by
      apply goElems_some
      intro e he
      obtain ⟨i, hi, rfl⟩ := List.mem_map.1 he
      have : (goMembers i.fields).isSome := by
        apply goMembers_some
        intro m hm
        simp only [IssuerMem.fields, List.mem_cons, List.not_mem_nil, or_false] at hm
        rcases hm with rfl | rfl | rfl | rfl | rfl <;> first | rfl | (cases i.partitioned <;> rfl)
      simpa [goStruct] using this
    simpa [issuersText, goSlice] using this

theorem cut_arr {l : List JVal} {u p r : Text} (hu : Json (.val (.arr l)) u) (e : p ++ r = u ++ ['\n']) (h : Begins p) : r = [] ∨ r = ['\n'] := by
  obtain ⟨a, v, w, b, rfl, ha, hw⟩ := h
  have e1 : a ++ (w ++ (b ++ r)) = [] ++ (u ++ ['\n']) := by simpa using e
  obtain ⟨rfl, e2⟩ := ws_split ha ws_nil (json_head hw (b ++ r)) (json_head hu ['\n']) e1
  have hs : Stop (.val v) (b ++ r) := by
    cases v with
    | num lit =>
      exfalso
      cases hw with | num hn =>
      cases hu with
      | arr0 _ => exact number_first hn (by simp) e2
      | arr _ => exact number_first hn (by simp) e2
    | _ => trivial
  obtain ⟨_, _, e3⟩ := json_unique hw hu trivial hs trivial e2
  cases b with
  | nil => exact .inr e3
  | cons c b => rw [List.cons_append, List.cons.injEq, List.append_eq_nil_iff] at e3; exact .inl e3.2.2

/-- **C103, cut short.** If only a part of the document is in the file, because a program was ended or the disk was full, then no value can be read from it unless at most the line feed at its end is missing: not even a value with something behind it. -/
theorem C103_cut (l : List LogMem) (hp : ∀ s ∈ l, Proper s.lastUpdateTime) (m : List IssuerMem) (p r : Text) (h : statesText l = some (p ++ r) ∨ issuersText m = some (p ++ r)) (hb : Begins p) :
    r = [] ∨ r = ['\n'] := by
  rcases h with h | h
  · obtain ⟨js, u, _, h2, e⟩ := goSlice_json (fun e he => by obtain ⟨s, hs, rfl⟩ := List.mem_map.1 he; exact log_proper (hp s hs)) h
    exact cut_arr h2 e hb
  · obtain ⟨js, u, _, h2, e⟩ := goSlice_json (fun e he => by obtain ⟨s, hs, rfl⟩ := List.mem_map.1 he; exact issuer_proper s) h
    exact cut_arr h2 e hb

/-- **C103, other octets.** A subject with an octet that is not UTF-8 does not survive: two lists that differ in it are written as the same text. -/
theorem C103_octets_fails : ∃ a b : IssuerMem, a.subject ≠ b.subject ∧ issuersText [a] = issuersText [b] ∧ (issuersText [a]).isSome :=
  ⟨⟨[], [], [.bad 233], [], false⟩, ⟨[], [], [.bad 228], [], false⟩, by decide, by decide +kernel, by decide +kernel⟩

/-- **C103 (another case).** The Go programs also take a member whose name differs in case, the last one counts; the client takes only the exact name. None of the programs writes such a document. -/
theorem C103_case_fails (R : Readers) (t a b : Text)
    (h : R.json t = some (.arr [.obj [("uniqueID".toList, .str []), ("pem".toList, .str a), ("PEM".toList, .str b)]])) :
    readIssuers R t = some [⟨[], [], [], b, false⟩] ∧ readRecords R t = some [([], a)] ∧ (pyEntries R t).map (fun l => l.map RawInter.pem) = some [some a] := by
  refine ⟨?_, ?_, ?_⟩
  · unfold readIssuers
    rw [h]
    rfl
  · unfold readRecords
    rw [h]
    rfl
  · unfold pyEntries
    rw [h]
    rfl

/-- **C103 (null).** The Go programs read the text `null` without an error, as a log state that begins at entry 0 and as empty lists, and `null` among the issuers as an issuer without identifier and certificate;
the client and the publisher refuse all of it. None of the programs writes such a document. -/
theorem C103_null_fails (R : Readers) (hR : GoodReaders R) :
    readState R "null".toList = some ⟨[], 0, [], 0, 0, 0, 0, -62135596800, 0⟩ ∧ readStates R "null".toList = some [] ∧ readIssuers R "null".toList = some [] ∧
    readRecords R "null".toList = none ∧ pyEntries R "null".toList = none ∧
    ∀ t, JsonText (.arr [.null]) t → readStates R t = some [⟨[], 0, [], 0, 0, 0, 0, -62135596800, 0⟩] ∧ readIssuers R t = some [⟨[], [], [], [], false⟩] ∧ readRecords R t = none ∧ pyEntries R t = none := by
  have h : R.json "null".toList = some .null := hR.json _ _ ⟨[], "null".toList, [], rfl, (fun c hc => by cases hc), .null, (fun c hc => by cases hc)⟩
  unfold readState readStates readIssuers readRecords pyEntries
  rw [h]
  refine ⟨rfl, rfl, rfl, rfl, rfl, fun t ht => ?_⟩
  rw [hR.json _ _ ht]
  exact ⟨rfl, rfl, rfl, rfl⟩

/-! ### examples -/

/-- A reader as in `C103_case_fails`. -/
example : (⟨fun _ => some (.arr [.obj [("uniqueID".toList, .str []), ("pem".toList, .str ['a']), ("PEM".toList, .str ['b'])]]), fun _ => none⟩ : Readers).json [] =
    some (.arr [.obj [("uniqueID".toList, .str []), ("pem".toList, .str ['a']), ("PEM".toList, .str ['b'])]]) := rfl

/-- Readers as the theorems want them exist, since no text has two meanings. -/
theorem goodReaders_exist : ∃ R : Readers, GoodReaders R := by
  classical
  refine ⟨⟨fun t => if h : ∃ v, JsonText v t then some h.choose else none, fun t => if h : ∃ p : Int × Nat, Rfc3339 t p.1 p.2 then some h.choose else none⟩, ?_, ?_⟩
  · intro v t h
    have h1 : ∃ v, JsonText v t := ⟨v, h⟩
    show (if h : ∃ v, JsonText v t then some h.choose else none) = some v
    rw [dif_pos h1, C103_one_meaning _ _ _ h1.choose_spec h]
  · intro t s n h
    have h1 : ∃ p : Int × Nat, Rfc3339 t p.1 p.2 := ⟨(s, n), h⟩
    show (if h : ∃ p : Int × Nat, Rfc3339 t p.1 p.2 then some h.choose else none) = some (s, n)
    rw [dif_pos h1]
    have := C103_one_instant t _ s _ n h1.choose_spec h
    exact congrArg some (Prod.ext this.1 this.2)

/-- A log, last visited on 29 February 2024 at 23:30:05.12 in a zone one and a half hours behind UTC. -/
def exampleLog : LogMem := ⟨"a\"b".toList.map .ok, 86400, "ct.example/<1>".toList.map .ok, 0, 18446744073709551615, 7, 8, ⟨1709254805, 120000000, -90⟩⟩

/-- An issuer with an octet in its subject that is not UTF-8. -/
def exampleIssuer : IssuerMem := ⟨"u=".toList.map .ok, "k".toList.map .ok, [.ok 'é', .bad 233], "-----\n".toList.map .ok, true⟩

/-- Readers as in `C103_null_fails`, and a text of a list with `null`. -/
example : ∃ R : Readers, readState R "null".toList = some LogRead.zero := goodReaders_exist.elim (fun R hR => ⟨R, (C103_null_fails R hR).1⟩)

example : stateText exampleLog =
    some "{\"LogID\":\"a\\\"b\",\"MMD\":86400,\"ShortURL\":\"ct.example/\\u003c1\\u003e\",\"MinEntry\":0,\"MaxEntry\":18446744073709551615,\"MinTimestamp\":7,\"MaxTimestamp\":8,\"LastUpdateTime\":\"2024-02-29T23:30:05.12-01:30\"}".toList := by
  decide +kernel

example : issuersText [exampleIssuer, exampleIssuer] =
    some "[{\"uniqueID\":\"u=\",\"pubKeyHash\":\"k\",\"subject\":\"é\\ufffd\",\"pem\":\"-----\\n\",\"usesPartitionedCrls\":true},{\"uniqueID\":\"u=\",\"pubKeyHash\":\"k\",\"subject\":\"é\\ufffd\",\"pem\":\"-----\\n\",\"usesPartitionedCrls\":true}]\n".toList := by
  decide +kernel

example : Proper exampleLog.lastUpdateTime ∧ (stateText exampleLog).isSome ∧ statesText [exampleLog] = (stateText exampleLog).map (fun x => '[' :: (x ++ [']', '\n'])) := by
  refine ⟨by unfold Proper; decide, by decide +kernel, by decide +kernel⟩

/-- The log is read as it was written. -/
example (R : Readers) (hR : GoodReaders R) (x : Text) (h : statesText [exampleLog] = some x) :
    readStates R x = some [⟨"a\"b".toList, 86400, "ct.example/<1>".toList, 0, 18446744073709551615, 7, 8, 1709254805, 120000000⟩] :=
  (C103_states R hR [exampleLog] (fun s hs => by rw [List.mem_singleton] at hs; subst hs; unfold Proper; decide)).1 x h

/-- So is the issuer, but for the octet. -/
example (R : Readers) (hR : GoodReaders R) (x : Text) (h : issuersText [exampleIssuer] = some x) :
    readIssuers R x = some [⟨"u=".toList, "k".toList, ['é', Char.ofNat 65533], "-----\n".toList, true⟩] ∧ readRecords R x = some [("u=".toList, "-----\n".toList)] :=
  ⟨(C103_issuers R hR [exampleIssuer] x h).1, (C103_issuers R hR [exampleIssuer] x h).2.1⟩

/-- The date of the log is in the years that can be written. -/
example : ∃ c, OnDay ((exampleLog.lastUpdateTime.sec + exampleLog.lastUpdateTime.off * 60) / 86400) c ∧ 0 ≤ c.year ∧ c.year ≤ 9999 ∧ exampleLog.lastUpdateTime.off.natAbs < 1440 :=
  ⟨_, onDay_civil _, by decide, by decide, by decide⟩

/-- In the year 10000 it is not. -/
example : timeText ⟨253402300800, 0, 0⟩ = none ∧ timeText ⟨253402300800, 0, -1⟩ = some "9999-12-31T23:59:00-00:01".toList := by decide +kernel

/-- A text without the line feed begins with a value, a text without the bracket does not. -/
example : Begins "[]".toList ∧ ¬ Begins "[".toList := by
  constructor
  · exact ⟨[], _, ['[', ']'], [], rfl, ws_nil, Json.arr0 ws_nil⟩
  · intro h
    have := C103_cut [] (fun _ h => nomatch h) [] "[".toList "]\n".toList (.inl rfl) h
    revert this
    decide

/-- Two ways to write the same value. -/
example : JsonText (.arr [.str ['a'], .num ['1']]) "[\"a\",1]".toList ∧ JsonText (.arr [.str ['a'], .num ['1']]) " [\"\\u0061\", 1 ]".toList := by
  have hn : IsNumber ['1'] := ⟨[], ['1'], [], [], rfl, .inl rfl, .inr ⟨⟨by simp, fun c hc => ⟨1, by rw [List.mem_singleton] at hc; subst hc; exact ⟨by decide, rfl⟩⟩⟩, by decide⟩, .inl rfl, .inl rfl⟩
  have hs : Ws [' '] := by intro c hc; rw [List.mem_singleton] at hc; exact .inl hc
  constructor
  · exact ⟨[], _, [], rfl, ws_nil, .arr (Json.elems ws_nil (.str ⟨['a'], rfl, .plain (by decide) (by decide) (by decide) .nil⟩) ws_nil (Json.elem (t := ['1']) ws_nil (.num hn) ws_nil)), ws_nil⟩
  · exact ⟨[' '], _, [], rfl, hs, .arr (Json.elems ws_nil (.str ⟨"\\u0061".toList, rfl, .hex (h := "0061".toList) (hex4_means (n := 97) (by decide)) .nil⟩) ws_nil (Json.elem (t := ['1']) hs (.num hn) hs)), ws_nil⟩

/-- A date, written with two offsets: the same instant. -/
example : Rfc3339 "2024-02-29T23:30:05.12-01:30".toList 1709254805 120000000 ∧ Rfc3339 "2024-03-01T01:00:05.12Z".toList 1709254805 120000000 :=
  ⟨timeText_rfc (t := ⟨1709254805, 120000000, -90⟩) (by unfold Proper; decide) (by decide +kernel), timeText_rfc (t := ⟨1709254805, 120000000, 0⟩) (by unfold Proper; decide) (by decide +kernel)⟩

/-! ### each theorem applied -/

example := C103_one_instant "2024-02-29T23:30:05.12-01:30".toList 1709254805 1709254805 120000000 120000000
  (timeText_rfc (t := ⟨1709254805, 120000000, -90⟩) (by unfold Proper; decide) (by decide +kernel)) (timeText_rfc (t := ⟨1709254805, 120000000, -90⟩) (by unfold Proper; decide) (by decide +kernel))
example := C103_one_meaning (.arr []) (.arr []) "[]".toList ⟨[], _, [], rfl, ws_nil, Json.arr0 ws_nil, ws_nil⟩ ⟨[], _, [], rfl, ws_nil, Json.arr0 ws_nil, ws_nil⟩
example (x : Text) (h : statesText [exampleLog] = some x) := C103_states_text [exampleLog] (fun s hs => by rw [List.mem_singleton] at hs; subst hs; unfold Proper; decide) x h
example : (statesText [exampleLog]).isSome ∧ (issuersText [exampleIssuer]).isSome := C103_written [exampleLog] [exampleIssuer] (fun s hs => by
  rw [List.mem_singleton] at hs
  subst hs
  exact ⟨_, onDay_civil _, by decide, by decide, by decide⟩)

end Verif.Props
