import Verif.Spec.Duration
/-!
Property C116: a duration in a setting means what it says, or the program ends.
-/
namespace Verif.Props
open Verif.Spec

/-! ### digits and units -/

theorem isDigit_iff (c : Char) : isDigit c = true ↔ 48 ≤ c.toNat ∧ c.toNat ≤ 57 := by
  unfold isDigit
  rw [Bool.and_eq_true, decide_eq_true_eq, decide_eq_true_eq, Char.le_def, Char.le_def, UInt32.le_iff_toNat_le, UInt32.le_iff_toNat_le]
  exact Iff.rfl

theorem isDigit_false {c : Char} (h : ¬ (48 ≤ c.toNat ∧ c.toNat ≤ 57)) : isDigit c = false := by
  cases hd : isDigit c
  · rfl
  · exact absurd ((isDigit_iff c).1 hd) h

/-- A text that `p` does not go on with. -/
def Stops (p : Char → Bool) (t : Text) : Prop := ∀ c r, t = c :: r → p c = false

theorem span_eq (p : Char → Bool) (b : Text) (hb : Stops p b) : ∀ a : Text, (∀ c ∈ a, p c = true) → (a ++ b).takeWhile p = a ∧ (a ++ b).dropWhile p = b
  | [], _ => by
    cases b with
    | nil => exact ⟨rfl, rfl⟩
    | cons c r =>
      have := hb c r rfl
      simp [this]
  | c :: a, h => by
    have hc := h c (List.mem_cons_self ..)
    have ih := span_eq p b hb a (fun d hd => h d (List.mem_cons_of_mem _ hd))
    simp [hc, ih.1, ih.2]

theorem takeWhile_all' (p : Char → Bool) (t : Text) : ∀ c ∈ t.takeWhile p, p c = true := by
  induction t with
  | nil => intro c hc; simp at hc
  | cons d t ih =>
    intro c hc
    by_cases hd : p d = true
    · simp only [List.takeWhile_cons, hd, if_true, List.mem_cons] at hc
      rcases hc with rfl | hc
      · exact hd
      · exact ih c hc
    · simp [hd] at hc

theorem dropWhile_stops (p : Char → Bool) (t : Text) : Stops p (t.dropWhile p) := by
  induction t with
  | nil => intro c r h; simp at h
  | cons d t ih =>
    by_cases hd : p d = true
    · simp only [List.dropWhile_cons, hd, if_true]
      exact ih
    · intro c r h
      simp only [List.dropWhile_cons, hd] at h
      simp at h
      rw [← h.1]
      simpa using hd

theorem leadingInt_digits (r : Text) (hr : Stops isDigit r) : ∀ (w : Text) (x : Nat), OnlyDigits w → x ≤ 2 ^ 63 →
    leadingInt x (w ++ r) = if x * 10 ^ w.length + decimal w ≤ 2 ^ 63 then some (x * 10 ^ w.length + decimal w, r) else none
  | [], x, _, hx => by
    have h0 : x * 10 ^ ([] : Text).length + decimal [] = x := by simp [decimal]
    rw [h0, if_pos hx, List.nil_append]
    cases r with
    | nil => rfl
    | cons c r =>
      have := hr c r rfl
      simp [leadingInt, this]
  | c :: w, x, hd, hx => by
    have hc := hd c (List.mem_cons_self ..)
    have hcd := (isDigit_iff c).2 hc
    have hval : x * 10 ^ (c :: w).length + decimal (c :: w) = (x * 10 + (c.toNat - 48)) * 10 ^ w.length + decimal w := by
      rw [List.length_cons, Nat.pow_succ, decimal, Nat.add_mul, Nat.mul_comm (10 ^ w.length) 10, ← Nat.mul_assoc, Nat.add_assoc]
    rw [hval]
    have hp : 1 ≤ 10 ^ w.length := Nat.one_le_pow _ _ (by decide)
    have hge : x * 10 + (c.toNat - 48) ≤ (x * 10 + (c.toNat - 48)) * 10 ^ w.length := Nat.le_mul_of_pos_right _ hp
    simp only [List.cons_append, leadingInt, hcd, if_true]
    by_cases h1 : x > 9223372036854775808 / 10
    · rw [if_pos h1, if_neg (by omega)]
    · rw [if_neg h1]
      by_cases h2 : x * 10 + (c.toNat - 48) > 9223372036854775808
      · rw [if_pos h2, if_neg (by omega)]
      · rw [if_neg h2]
        exact leadingInt_digits r hr w _ (fun d hd' => hd d (List.mem_cons_of_mem _ hd')) (by omega)

theorem unitOf_iff (u : Text) (n : Nat) : unitOf u = some n ↔ (u, n) ∈ durationUnits := by
  constructor
  · intro h
    unfold unitOf at h
    repeat' split at h
    all_goals try cases h
    all_goals first
      | (rename_i hu; rcases hu with rfl | rfl | rfl <;> decide +kernel)
      | (rename_i hu; subst hu; decide +kernel)
  · intro h
    have : ∀ e ∈ durationUnits, unitOf e.1 = some e.2 := by decide +kernel
    exact this _ h

theorem unit_facts : ∀ e ∈ durationUnits, e.1 ≠ [] ∧ 0 < e.2 ∧ e.1.all (fun c => !(endsUnit c)) = true := by decide +kernel

theorem any_nonzero : ∀ f : Text, OnlyDigits f → f.any (fun c => decide (c ≠ '0')) = decide (decimal f ≠ 0)
  | [], _ => rfl
  | c :: f, h => by
    have hc := h c (List.mem_cons_self ..)
    have ih := any_nonzero f (fun d hd => h d (List.mem_cons_of_mem _ hd))
    rw [List.any_cons, ih, decimal]
    have hp : 0 < 10 ^ f.length := Nat.pow_pos (by decide)
    by_cases h0 : c = '0'
    · subst h0
      simp
    · have hne : c.toNat ≠ 48 := fun e => h0 (Char.ext (UInt32.toNat.inj e))
      have hpos : 0 < (c.toNat - 48) * 10 ^ f.length := Nat.mul_pos (by omega) hp
      have : (c.toNat - 48) * 10 ^ f.length + decimal f ≠ 0 := by omega
      simp only [ne_eq, h0, not_false_eq_true, decide_true, Bool.true_or, this]

theorem endsUnit_digit {c : Char} (h : isDigit c = true) : endsUnit c = true := by
  unfold endsUnit
  rw [h, Bool.or_true]

theorem endsUnit_false {c : Char} (h : endsUnit c = false) : c ≠ '.' ∧ isDigit c = false := by
  unfold endsUnit at h
  rw [Bool.or_eq_false_iff] at h
  exact ⟨by simpa using h.1, h.2⟩

/-! ### one number with its unit -/

theorem leadingFraction_none {t : Text} (h : ∀ r, t ≠ '.' :: r) : leadingFraction t = ([], t) := by
  unfold leadingFraction
  split
  · rename_i r
    exact absurd rfl (h r)
  · rfl

theorem durTurn_part (frac : Text → Nat → Nat) (p : DurationPart) (hp : p.Good) (rest : Text) (hrest : Stops (fun c => !(endsUnit c)) rest) :
    durTurn frac (p.text ++ rest) = if p.value frac ≤ 2 ^ 63 then some (p.value frac, rest) else none := by
  obtain ⟨whole, fraction, unit, nanos⟩ := p
  obtain ⟨hw, hf, hs, hu⟩ := hp
  simp only at hw hf hs hu
  obtain ⟨hu1, hu2, hu3⟩ := unit_facts _ hu
  have hu3' : ∀ c ∈ unit, endsUnit c = false := fun c hc => by simpa using List.all_eq_true.1 hu3 c hc
  have hunit : ∀ c r, unit ++ rest = c :: r → endsUnit c = false := by
    intro c r h
    cases unit with
    | nil => exact absurd rfl hu1
    | cons a b =>
      rw [List.cons_append] at h
      have := (List.cons.inj h).1
      rw [← this]
      exact hu3' a (List.mem_cons_self ..)
  have hspan := span_eq (fun c => !(endsUnit c)) rest hrest unit (fun c hc => by simp [hu3' c hc])
  -- what follows the first digits
  have key : ∀ (s1 f : Text), Stops isDigit s1 → leadingFraction s1 = (f, unit ++ rest) → OnlyDigits f → (whole ≠ [] ∨ f ≠ []) →
      durTurn frac (whole ++ s1) = if decimal whole * nanos + (if decimal f = 0 then 0 else frac f nanos) ≤ 2 ^ 63 then some (decimal whole * nanos + (if decimal f = 0 then 0 else frac f nanos), rest) else none := by
    intro s1 f hst hlf hdf hsome
    unfold durTurn
    rw [leadingInt_digits s1 hst whole 0 hw (by decide)]
    simp only [Nat.zero_mul, Nat.zero_add]
    by_cases hsmall : decimal whole ≤ 2 ^ 63
    · rw [if_pos hsmall]
      simp only [hlf]
      have hno : ¬ (s1.length = (whole ++ s1).length ∧ f = []) := by
        rintro ⟨h1, h2⟩
        rcases hsome with h | h
        · rw [List.length_append] at h1
          exact h (List.length_eq_zero_iff.1 (by omega))
        · exact h h2
      rw [if_neg hno, hspan.1, (unitOf_iff unit nanos).2 hu, hspan.2, any_nonzero f hdf]
      simp only
      have hdiv : decimal whole > 9223372036854775808 / nanos ↔ decimal whole * nanos > 9223372036854775808 := Nat.div_lt_iff_lt_mul hu2
      have hif : (if decide (decimal f ≠ 0) = true then frac f nanos else 0) = (if decimal f = 0 then 0 else frac f nanos) := by
        by_cases h0 : decimal f = 0 <;> simp [h0]
      rw [hif]
      by_cases hbig : decimal whole * nanos > 9223372036854775808
      · rw [if_pos (hdiv.2 hbig), if_neg (by omega)]
      · rw [if_neg (fun h => hbig (hdiv.1 h))]
        by_cases hv : decimal whole * nanos + (if decimal f = 0 then 0 else frac f nanos) ≤ 2 ^ 63
        · rw [if_pos hv, if_neg (by omega)]
        · rw [if_neg hv, if_pos (by omega)]
    · rw [if_neg hsmall]
      have : decimal whole ≤ decimal whole * nanos := Nat.le_mul_of_pos_right _ hu2
      rw [if_neg (by omega)]
  cases fraction with
  | none =>
    have ht : DurationPart.text ⟨whole, none, unit, nanos⟩ ++ rest = whole ++ (unit ++ rest) := by simp [DurationPart.text, pointText]
    have hv : DurationPart.value frac ⟨whole, none, unit, nanos⟩ = decimal whole * nanos + (if decimal [] = 0 then 0 else frac [] nanos) := by simp [DurationPart.value, decimal]
    rw [ht, hv]
    refine key (unit ++ rest) [] (fun c r h => (endsUnit_false (hunit c r h)).2) (leadingFraction_none (fun r h => (endsUnit_false (hunit _ r h)).1 rfl)) (fun c hc => by cases hc) ?_
    rcases hs with h | ⟨f, h, _⟩
    · exact Or.inl h
    · cases h
  | some f =>
    have ht : DurationPart.text ⟨whole, some f, unit, nanos⟩ ++ rest = whole ++ ('.' :: (f ++ (unit ++ rest))) := by simp [DurationPart.text, pointText]
    have hv : DurationPart.value frac ⟨whole, some f, unit, nanos⟩ = decimal whole * nanos + (if decimal f = 0 then 0 else frac f nanos) := rfl
    rw [ht, hv]
    have hsp := span_eq isDigit (unit ++ rest) (fun c r h => (endsUnit_false (hunit c r h)).2) f (fun c hc => (isDigit_iff c).2 (hf f rfl c hc))
    refine key _ f (fun c r h => ?_) ?_ (hf f rfl) ?_
    · have := (List.cons.inj h).1
      rw [← this]
      decide
    · show (_, _) = _
      rw [hsp.1, hsp.2]
    · rcases hs with h | ⟨g, h, hg⟩
      · exact Or.inl h
      · cases h
        exact Or.inr hg

theorem durTurn_some (frac : Text → Nat → Nat) (t : Text) (v : Nat) (rest : Text) (h : durTurn frac t = some (v, rest)) :
    ∃ p : DurationPart, p.Good ∧ t = p.text ++ rest ∧ v = p.value frac ∧ Stops (fun c => !(endsUnit c)) rest := by
  -- the four pieces of the text
  have hw : OnlyDigits (t.takeWhile isDigit) := fun c hc => (isDigit_iff c).1 (takeWhile_all' _ _ c hc)
  have ht : t = t.takeWhile isDigit ++ t.dropWhile isDigit := (List.takeWhile_append_dropWhile (p := isDigit) (l := t)).symm
  have hst := dropWhile_stops isDigit t
  have hli := leadingInt_digits _ hst (t.takeWhile isDigit) 0 hw (by decide)
  rw [← ht] at hli
  simp only [Nat.zero_mul, Nat.zero_add] at hli
  generalize hgw : t.takeWhile isDigit = whole at *
  generalize hgs : t.dropWhile isDigit = s1 at *
  have hfrac : ∃ fraction : Option Text, s1 = pointText fraction ++ (leadingFraction s1).2 ∧ (leadingFraction s1).1 = fraction.getD [] ∧ ∀ f, fraction = some f → OnlyDigits f := by
    by_cases hdot : ∃ r, s1 = '.' :: r
    · obtain ⟨r, rfl⟩ := hdot
      refine ⟨some (r.takeWhile isDigit), ?_, rfl, ?_⟩
      · show _ = '.' :: (r.takeWhile isDigit ++ r.dropWhile isDigit)
        rw [List.takeWhile_append_dropWhile]
      · intro f hf
        cases hf
        exact fun c hc => (isDigit_iff c).1 (takeWhile_all' _ _ c hc)
    · rw [leadingFraction_none (fun r hr => hdot ⟨r, hr⟩)]
      exact ⟨none, rfl, rfl, fun f hf => by cases hf⟩
  obtain ⟨fraction, hs1, hf1, hfd⟩ := hfrac
  unfold durTurn at h
  rw [hli] at h
  by_cases hsmall : decimal whole ≤ 2 ^ 63
  · rw [if_pos hsmall] at h
    simp only at h
    by_cases hno : s1.length = t.length ∧ (leadingFraction s1).1 = []
    · rw [if_pos hno] at h; cases h
    · rw [if_neg hno] at h
      cases hun : unitOf ((leadingFraction s1).2.takeWhile (fun c => !(endsUnit c))) with
      | none => rw [hun] at h; cases h
      | some nanos =>
        rw [hun] at h
        simp only at h
        have hmem := (unitOf_iff _ _).1 hun
        have hgood : DurationPart.Good ⟨whole, fraction, (leadingFraction s1).2.takeWhile (fun c => !(endsUnit c)), nanos⟩ := by
          refine ⟨hw, hfd, ?_, hmem⟩
          by_cases h0 : whole = []
          · right
            have hlen : s1.length = t.length := by rw [ht, h0, List.nil_append]
            have hne : (leadingFraction s1).1 ≠ [] := fun he => hno ⟨hlen, he⟩
            rw [hf1] at hne
            cases fraction with
            | none => exact absurd rfl hne
            | some f => exact ⟨f, rfl, hne⟩
          · exact Or.inl h0
        have hstop := dropWhile_stops (fun c => !(endsUnit c)) (leadingFraction s1).2
        have htext : t = DurationPart.text ⟨whole, fraction, (leadingFraction s1).2.takeWhile (fun c => !(endsUnit c)), nanos⟩ ++ (leadingFraction s1).2.dropWhile (fun c => !(endsUnit c)) := by
          have h1 : (leadingFraction s1).2.takeWhile (fun c => !(endsUnit c)) ++ (leadingFraction s1).2.dropWhile (fun c => !(endsUnit c)) = (leadingFraction s1).2 := List.takeWhile_append_dropWhile
          show t = (whole ++ pointText fraction ++ _) ++ _
          rw [List.append_assoc, h1, List.append_assoc, ← hs1, ← ht]
        have hturn := durTurn_part frac _ hgood _ hstop
        rw [← htext] at hturn
        have h' : durTurn frac t = some (v, rest) := by
          unfold durTurn
          rw [hli, if_pos hsmall]
          simp only
          rw [if_neg hno, hun]
          exact h
        rw [h'] at hturn
        split at hturn
        · simp only [Option.some.injEq, Prod.mk.injEq] at hturn
          exact ⟨_, hgood, by rw [hturn.2]; exact htext, hturn.1, by rw [hturn.2]; exact hstop⟩
        · cases hturn
  · rw [if_neg hsmall] at h; cases h

/-! ### sequences -/

theorem part_begins (p : DurationPart) (hp : p.Good) : ∃ c r, p.text = c :: r ∧ endsUnit c = true ∧ r ≠ [] := by
  obtain ⟨whole, fraction, unit, nanos⟩ := p
  obtain ⟨hw, hf, hs, hu⟩ := hp
  simp only at hw hf hs hu
  have hu1 := (unit_facts _ hu).1
  cases whole with
  | cons c w =>
    refine ⟨c, _, rfl, endsUnit_digit ((isDigit_iff c).2 (hw c (List.mem_cons_self ..))), ?_⟩
    intro h
    exact hu1 (List.append_eq_nil_iff.1 h).2
  | nil =>
    rcases hs with h | ⟨f, rfl, hf0⟩
    · exact absurd rfl h
    · exact ⟨'.', f ++ unit, rfl, rfl, fun h => hu1 (List.append_eq_nil_iff.1 h).2⟩

theorem text_stops (ps : List DurationPart) (hg : ∀ p ∈ ps, p.Good) : Stops (fun c => !(endsUnit c)) (durationText ps) := by
  cases ps with
  | nil => intro c r h; cases h
  | cons p ps =>
    obtain ⟨c, r, ht, hc, _⟩ := part_begins p (hg p (List.mem_cons_self ..))
    intro d s h
    have h2 : durationText (p :: ps) = c :: (r ++ durationText ps) := by
      show p.text ++ durationText ps = _
      rw [ht]; rfl
    rw [h2] at h
    rw [← (List.cons.inj h).1]
    show (!(endsUnit c)) = false
    rw [hc]; rfl

theorem durLoop_parts (frac : Text → Nat → Nat) : ∀ (ps : List DurationPart) (n d : Nat), (∀ p ∈ ps, p.Good) → (durationText ps).length ≤ n → d + durationTotal frac ps ≤ 2 ^ 63 →
    durLoop frac n d (durationText ps) = some (d + durationTotal frac ps)
  | [], n, d, _, _, _ => by cases n <;> rfl
  | p :: ps, n, d, hg, hn, hd => by
    have hp := hg p (List.mem_cons_self ..)
    have hps : ∀ q ∈ ps, q.Good := fun q hq => hg q (List.mem_cons_of_mem _ hq)
    obtain ⟨c, r, ht, hc, hr⟩ := part_begins p hp
    have htot : durationTotal frac (p :: ps) = p.value frac + durationTotal frac ps := by simp [durationTotal]
    have htxt : durationText (p :: ps) = p.text ++ durationText ps := rfl
    have hturn := durTurn_part frac p hp _ (text_stops ps hps)
    rw [htot] at hd ⊢
    rw [if_pos (by omega)] at hturn
    rw [htxt] at hn ⊢
    rw [ht, List.cons_append] at hn hturn ⊢
    cases n with
    | zero => simp at hn
    | succ n =>
      rw [durLoop, hturn]
      simp only
      have hmod : (d + p.value frac) % 18446744073709551616 = d + p.value frac := Nat.mod_eq_of_lt (by omega)
      rw [hmod, if_neg (by omega), durLoop_parts frac ps n (d + p.value frac) hps (by simp at hn; omega) (by omega), Nat.add_assoc]

theorem durLoop_some (frac : Text → Nat → Nat) : ∀ (n d : Nat) (t : Text) (e : Nat), d ≤ 2 ^ 63 → durLoop frac n d t = some e →
    ∃ ps : List DurationPart, (∀ p ∈ ps, p.Good) ∧ t = durationText ps ∧ e = (d + durationTotal frac ps) % 2 ^ 64 ∧ e ≤ 2 ^ 63 := by
  intro n
  induction n with
  | zero =>
    intro d t e hd h
    cases t with
    | nil =>
      cases h
      exact ⟨[], (fun p hp => by cases hp), rfl, by rw [show durationTotal frac [] = 0 from rfl, Nat.add_zero, Nat.mod_eq_of_lt (by omega)], hd⟩
    | cons c t => cases h
  | succ n ih =>
    intro d t e hd h
    cases t with
    | nil =>
      cases h
      exact ⟨[], (fun p hp => by cases hp), rfl, by rw [show durationTotal frac [] = 0 from rfl, Nat.add_zero, Nat.mod_eq_of_lt (by omega)], hd⟩
    | cons c t =>
      rw [durLoop] at h
      cases ht : durTurn frac (c :: t) with
      | none => rw [ht] at h; cases h
      | some q =>
        obtain ⟨v, rest⟩ := q
        rw [ht] at h
        simp only at h
        split at h
        · cases h
        · rename_i hle
          obtain ⟨p, hp, hp1, hp2, _⟩ := durTurn_some frac _ _ _ ht
          obtain ⟨ps, g1, g2, g3, g4⟩ := ih _ _ _ (by omega) h
          refine ⟨p :: ps, ?_, ?_, ?_, g4⟩
          · intro q hq
            rcases List.mem_cons.1 hq with rfl | hq
            · exact hp
            · exact g1 q hq
          · rw [hp1, g2]; rfl
          · have htot : durationTotal frac (p :: ps) = p.value frac + durationTotal frac ps := by simp [durationTotal]
            rw [g3, htot, hp2]
            show ((d + _) % 2 ^ 64 + _) % 2 ^ 64 = _
            rw [Nat.mod_add_mod, Nat.add_assoc]

/-! ### the whole text -/

theorem durationText_facts (ps : List DurationPart) (hne : ps ≠ []) (hg : ∀ p ∈ ps, p.Good) :
    durationText ps ≠ ['0'] ∧ durationText ps ≠ [] ∧ durSign (durationText ps) = (false, durationText ps) := by
  cases ps with
  | nil => exact absurd rfl hne
  | cons p ps =>
    obtain ⟨c, r, ht, hc, hr⟩ := part_begins p (hg p (List.mem_cons_self ..))
    have h2 : durationText (p :: ps) = c :: (r ++ durationText ps) := by
      show p.text ++ durationText ps = _
      rw [ht]; rfl
    rw [h2]
    refine ⟨fun h => hr (List.append_eq_nil_iff.1 (List.cons.inj h).2).1, fun h => (by cases h), ?_⟩
    have h1 : c ≠ '-' := fun h => by subst h; exact absurd hc (by decide)
    have h3 : c ≠ '+' := fun h => by subst h; exact absurd hc (by decide)
    unfold durSign
    split
    · rename_i heq; exact absurd (List.cons.inj heq).1 h1
    · rename_i heq; exact absurd (List.cons.inj heq).1 h3
    · rfl

/-- Every text of the documented form whose duration fits into 63 bits is taken for that duration. -/
theorem C116_accepts (frac : Text → Nat → Nat) (t : Text) (d : Int) (h : MeansDuration frac t d) : parseDuration frac t = some d := by
  cases h with
  | zero sign hs =>
    simp only [List.mem_cons, List.not_mem_nil, or_false] at hs
    rcases hs with rfl | rfl | rfl <;> rfl
  | plus sign hs ps hne hg hr =>
    obtain ⟨f1, f2, f3⟩ := durationText_facts ps hne hg
    have hsig : durSign (sign ++ durationText ps) = (false, durationText ps) := by
      simp only [List.mem_cons, List.not_mem_nil, or_false] at hs
      rcases hs with rfl | rfl
      · exact f3
      · rfl
    unfold parseDuration
    rw [hsig]
    simp only
    rw [if_neg f1, if_neg f2, durLoop_parts frac ps _ 0 hg (Nat.le_refl _) (by omega)]
    simp only [Nat.zero_add, Bool.false_eq_true, if_false]
    rw [if_neg (by omega)]
  | minus ps hne hg hr =>
    obtain ⟨f1, f2, f3⟩ := durationText_facts ps hne hg
    have hsig : durSign ("-".toList ++ durationText ps) = (true, durationText ps) := rfl
    unfold parseDuration
    rw [hsig]
    simp only
    rw [if_neg f1, if_neg f2, durLoop_parts frac ps _ 0 hg (Nat.le_refl _) (by omega)]
    simp only [Nat.zero_add, if_true]

theorem durSign_text (t : Text) : ∃ sign ∈ ["".toList, "+".toList, "-".toList], t = sign ++ (durSign t).2 ∧ ((durSign t).1 = true ↔ sign = "-".toList) := by
  unfold durSign
  split
  · exact ⟨"-".toList, by decide +kernel, rfl, ⟨fun _ => rfl, fun _ => rfl⟩⟩
  · exact ⟨"+".toList, by decide +kernel, rfl, ⟨fun h => (by cases h), fun h => absurd h (by decide +kernel)⟩⟩
  · exact ⟨"".toList, by decide +kernel, rfl, ⟨fun h => (by cases h), fun h => absurd h (by decide +kernel)⟩⟩

/-- Nothing else is accepted, except sequences whose sum is 2^64 nanoseconds (584 years) or more. -/
theorem C116_only_partial (frac : Text → Nat → Nat) (t : Text) (d : Int) (h : parseDuration frac t = some d) :
    MeansDuration frac t d ∨ ∃ sign ∈ ["".toList, "+".toList, "-".toList], ∃ ps : List DurationPart, (∀ p ∈ ps, p.Good) ∧ t = sign ++ durationText ps ∧ 2 ^ 64 ≤ durationTotal frac ps := by
  obtain ⟨sign, hs, ht, hneg⟩ := durSign_text t
  unfold parseDuration at h
  simp only at h
  by_cases h0 : (durSign t).2 = ['0']
  · rw [if_pos h0] at h
    cases h
    left
    rw [ht, h0]
    exact MeansDuration.zero sign hs
  · rw [if_neg h0] at h
    by_cases h1 : (durSign t).2 = []
    · rw [if_pos h1] at h; cases h
    · rw [if_neg h1] at h
      cases hl : durLoop frac (durSign t).2.length 0 (durSign t).2 with
      | none => rw [hl] at h; cases h
      | some e =>
        rw [hl] at h
        simp only at h
        obtain ⟨ps, hg, htx, he, hle⟩ := durLoop_some frac _ 0 _ e (by decide) hl
        rw [Nat.zero_add] at he
        by_cases hbig : 2 ^ 64 ≤ durationTotal frac ps
        · exact Or.inr ⟨sign, hs, ps, hg, by rw [← htx]; exact ht, hbig⟩
        · left
          rw [Nat.mod_eq_of_lt (by omega)] at he
          have hne : ps ≠ [] := fun hn => h1 (by rw [htx, hn]; rfl)
          by_cases hb : (durSign t).1 = true
          · rw [if_pos hb] at h
            cases h
            rw [ht, hneg.1 hb, htx, he]
            exact MeansDuration.minus ps hne hg (by omega)
          · rw [if_neg hb] at h
            split at h
            · cases h
            · rename_i hlt
              cases h
              have hs' : sign ∈ ["".toList, "+".toList] := by
                simp only [List.mem_cons, List.not_mem_nil, or_false] at hs ⊢
                rcases hs with hs | hs | hs
                · exact Or.inl hs
                · exact Or.inr hs
                · exact absurd (hneg.2 hs) hb
              rw [ht, htx, he]
              exact MeansDuration.plus sign hs' ps hne hg (by omega)

/-- A text has one meaning at most. -/
theorem C116_unambiguous (frac : Text → Nat → Nat) (t : Text) (d e : Int) (h1 : MeansDuration frac t d) (h2 : MeansDuration frac t e) : d = e := by
  have := C116_accepts frac t d h1
  rw [C116_accepts frac t e h2] at this
  exact (Option.some.inj this).symm

/-- The parts of a text are determined by it, as far as the sum is concerned. -/
theorem total_unique (frac : Text → Nat → Nat) : ∀ (ps qs : List DurationPart), (∀ p ∈ ps, p.Good) → (∀ q ∈ qs, q.Good) → (∀ p ∈ ps, p.value frac ≤ 2 ^ 63) → durationText ps = durationText qs →
    durationTotal frac ps = durationTotal frac qs
  | [], [], _, _, _, _ => rfl
  | [], q :: qs, _, hq, _, h => absurd h.symm (durationText_facts (q :: qs) (by simp) hq).2.1
  | p :: ps, [], hp, _, _, h => absurd h (durationText_facts (p :: ps) (by simp) hp).2.1
  | p :: ps, q :: qs, hp, hq, hv, h => by
    have hp' : ∀ x ∈ ps, x.Good := fun x hx => hp x (List.mem_cons_of_mem _ hx)
    have hq' : ∀ x ∈ qs, x.Good := fun x hx => hq x (List.mem_cons_of_mem _ hx)
    have h1 := durTurn_part frac p (hp p (List.mem_cons_self ..)) _ (text_stops ps hp')
    have h2 := durTurn_part frac q (hq q (List.mem_cons_self ..)) _ (text_stops qs hq')
    rw [if_pos (hv p (List.mem_cons_self ..))] at h1
    have he : p.text ++ durationText ps = q.text ++ durationText qs := h
    rw [he, h2] at h1
    split at h1
    · simp only [Option.some.injEq, Prod.mk.injEq] at h1
      have ih := total_unique frac ps qs hp' hq' (fun x hx => hv x (List.mem_cons_of_mem _ hx)) h1.2.symm
      have t1 : durationTotal frac (p :: ps) = p.value frac + durationTotal frac ps := by simp [durationTotal]
      have t2 : durationTotal frac (q :: qs) = q.value frac + durationTotal frac qs := by simp [durationTotal]
      rw [t1, t2, ih, h1.1]
    · cases h1

/-- A number without a point, with its unit. -/
def wholePart (w u : Text) (n : Nat) : DurationPart := ⟨w, none, u, n⟩

theorem wholePart_good (w u : Text) (n : Nat) (h0 : w ≠ []) (h1 : w.all isDigit = true) (h2 : (u, n) ∈ durationUnits) : (wholePart w u n).Good :=
  ⟨fun c hc => (isDigit_iff c).1 (List.all_eq_true.1 h1 c hc), (fun f hf => by cases hf), Or.inl h0, h2⟩

/-- 2^63 nanoseconds, twice, and five seconds. -/
def exWrap : List DurationPart := [wholePart "9223372036854775808".toList "ns".toList 1, wholePart "9223372036854775808".toList "ns".toList 1, wholePart "5".toList "s".toList (10 ^ 9)]

theorem exWrap_good : ∀ p ∈ exWrap, p.Good := by
  intro p hp
  simp only [exWrap, List.mem_cons, List.not_mem_nil, or_false] at hp
  rcases hp with rfl | rfl | rfl
  · exact wholePart_good _ _ _ (by decide +kernel) (by decide +kernel) (by decide +kernel)
  · exact wholePart_good _ _ _ (by decide +kernel) (by decide +kernel) (by decide +kernel)
  · exact wholePart_good _ _ _ (by decide +kernel) (by decide +kernel) (by decide +kernel)

/-- Sums are computed with 64 bits and the check is for more than 2^63: twice 2^63 nanoseconds are nothing, so that this text, of more than 584 years, is taken for five seconds. -/
theorem C116_wrap_fails (frac : Text → Nat → Nat) :
    parseDuration frac "9223372036854775808ns9223372036854775808ns5s".toList = some 5000000000 ∧ ∀ d, ¬ MeansDuration frac "9223372036854775808ns9223372036854775808ns5s".toList d := by
  have htext : "9223372036854775808ns9223372036854775808ns5s".toList = durationText exWrap := by decide +kernel
  have v1 : (wholePart "9223372036854775808".toList "ns".toList 1).value frac = 9223372036854775808 := by
    have : decimal "9223372036854775808".toList = 9223372036854775808 := by decide +kernel
    simp only [DurationPart.value, wholePart, this]
  have v2 : (wholePart "5".toList "s".toList (10 ^ 9)).value frac = 5000000000 := by
    have : decimal "5".toList = 5 := by decide +kernel
    simp only [DurationPart.value, wholePart, this]
  have htot : durationTotal frac exWrap = 18446744078709551616 := by
    simp only [durationTotal, exWrap, List.map_cons, List.map_nil, List.sum_cons, List.sum_nil, v1, v2, Nat.reduceAdd]
  rw [htext]
  obtain ⟨f1, f2, f3⟩ := durationText_facts exWrap (by simp [exWrap]) exWrap_good
  have hvals : ∀ p ∈ exWrap, p.value frac ≤ 2 ^ 63 := by
    intro p hp
    simp only [exWrap, List.mem_cons, List.not_mem_nil, or_false] at hp
    rcases hp with rfl | rfl | rfl
    · rw [v1]; decide
    · rw [v1]; decide
    · rw [v2]; decide
  constructor
  · have g : ∀ p ∈ exWrap, p.Good := exWrap_good
    have step : ∀ (n d : Nat) (p : DurationPart) (ps : List DurationPart), p.Good → (∀ q ∈ ps, q.Good) → p.value frac ≤ 2 ^ 63 → (d + p.value frac) % 18446744073709551616 ≤ 9223372036854775808 →
        durLoop frac (n + 1) d (durationText (p :: ps)) = durLoop frac n ((d + p.value frac) % 18446744073709551616) (durationText ps) := by
      intro n d p ps hp hps hv hd
      obtain ⟨c, r, ht, _, _⟩ := part_begins p hp
      have hturn := durTurn_part frac p hp _ (text_stops ps hps)
      rw [if_pos hv] at hturn
      show durLoop frac (n + 1) d (p.text ++ durationText ps) = _
      rw [ht, List.cons_append] at hturn ⊢
      rw [durLoop, hturn]
      simp only
      rw [if_neg (by omega)]
    have hlen : (durationText exWrap).length = 41 + 1 + 1 + 1 := by decide +kernel
    unfold parseDuration
    rw [f3]
    simp only
    rw [if_neg f1, if_neg f2, hlen]
    have m1 := exWrap_good (wholePart "9223372036854775808".toList "ns".toList 1) (by simp [exWrap])
    have m2 := exWrap_good (wholePart "5".toList "s".toList (10 ^ 9)) (by simp [exWrap])
    unfold exWrap
    rw [step _ _ _ _ m1 (fun q hq => exWrap_good q (List.mem_cons_of_mem _ hq)) (by rw [v1]; decide) (by rw [v1]; decide)]
    rw [step _ _ _ _ m1 (fun q hq => exWrap_good q (List.mem_cons_of_mem _ (List.mem_cons_of_mem _ hq))) (by rw [v1]; decide) (by rw [v1]; decide)]
    rw [step _ _ _ _ m2 (fun q hq => by cases hq) (by rw [v2]; decide) (by rw [v1, v2]; decide)]
    rw [v1, v2]
    rfl
  · intro d hm
    have bad : ∀ ps : List DurationPart, (∀ p ∈ ps, p.Good) → durationText exWrap = durationText ps → durationTotal frac ps ≤ 2 ^ 63 → False := by
      intro ps hg he hr
      have := total_unique frac exWrap ps exWrap_good hg hvals he
      rw [htot] at this
      omega
    have hhead : (durationText exWrap).head? = some '9' := by decide +kernel
    generalize hT : durationText exWrap = T at hm bad hhead f1
    cases hm with
    | zero sign hs =>
      simp only [List.mem_cons, List.not_mem_nil, or_false] at hs
      rcases hs with rfl | rfl | rfl
      · exact f1 rfl
      · exact absurd hhead (by decide +kernel)
      · exact absurd hhead (by decide +kernel)
    | plus sign hs ps hne hg hr =>
      simp only [List.mem_cons, List.not_mem_nil, or_false] at hs
      rcases hs with rfl | rfl
      · exact bad ps hg rfl (by omega)
      · exact absurd hhead (fun h => absurd (Option.some.inj h) (by decide))
    | minus ps hne hg hr => exact absurd hhead (fun h => absurd (Option.some.inj h) (by decide))

/-! ### the settings -/

/-- Without a host for statistics a program begins only with a period that is a positive duration; with any other text it ends at once. -/
theorem C116_period (frac : Text → Nat → Nat) (period : Text) :
    (∀ d, MeansDuration frac period d → (prepareTelemetry frac [] period = .begins ↔ 0 < d)) ∧
    (prepareTelemetry frac [] period = .begins → (∃ d, 0 < d ∧ MeansDuration frac period d) ∨ ∃ sign ∈ ["".toList, "+".toList, "-".toList], ∃ ps : List DurationPart, (∀ p ∈ ps, p.Good) ∧ period = sign ++ durationText ps ∧ 2 ^ 64 ≤ durationTotal frac ps) := by
  have hmain : ∀ d, parseDuration frac period = some d → (prepareTelemetry frac [] period = .begins ↔ 0 < d) := by
    intro d h
    unfold prepareTelemetry
    rw [if_neg (fun h => h rfl), h]
    simp only
    by_cases hd : d ≤ 0
    · rw [if_pos hd]
      exact ⟨fun h => (by cases h), fun h => absurd h (by omega)⟩
    · rw [if_neg hd]
      exact ⟨fun _ => by omega, fun _ => rfl⟩
  refine ⟨fun d hm => hmain d (C116_accepts frac period d hm), fun hb => ?_⟩
  cases hp : parseDuration frac period with
  | none =>
    unfold prepareTelemetry at hb
    rw [if_neg (fun h => h rfl), hp] at hb
    cases hb
  | some d =>
    rcases C116_only_partial frac period d hp with hm | hm
    · exact Or.inl ⟨d, (hmain d hp).1 hb, hm⟩
    · exact Or.inr hm

/-- With a host the period is not looked at: what is no duration is passed over in silence. -/
theorem C116_host_fails (frac : Text → Nat → Nat) (host period : Text) (h : host ≠ []) : prepareTelemetry frac host period = .begins := by
  unfold prepareTelemetry
  rw [if_pos h]

/-- A positive duration is the timeout for Redis; a text that is no duration ends the program. -/
theorem C116_timeout_partial (frac : Text → Nat → Nat) (t : Text) :
    (∀ d, MeansDuration frac t d → 0 < d → redisTimeoutOf frac t = some (some d)) ∧
    ((∀ d, ¬ MeansDuration frac t d) → (∀ sign ∈ ["".toList, "+".toList, "-".toList], ∀ ps : List DurationPart, (∀ p ∈ ps, p.Good) → t = sign ++ durationText ps → durationTotal frac ps < 2 ^ 64) → redisTimeoutOf frac t = none) := by
  constructor
  · intro d hm hd
    unfold redisTimeoutOf
    rw [C116_accepts frac t d hm]
    simp only [redisWait]
    rw [if_neg (by omega), if_neg (by omega)]
  · intro hno hsmall
    unfold redisTimeoutOf
    cases hp : parseDuration frac t with
    | none => rfl
    | some d =>
      rcases C116_only_partial frac t d hp with hm | ⟨sign, hs, ps, hg, ht, hbig⟩
      · exact absurd hm (hno d)
      · exact absurd (hsmall sign hs ps hg ht) (by omega)

/-- A timeout of zero is one of three seconds, and with one below zero the programs wait for Redis for ever. -/
theorem C116_timeout_fails (frac : Text → Nat → Nat) (t : Text) :
    (MeansDuration frac t 0 → redisTimeoutOf frac t = some (some 3000000000)) ∧ (∀ d, MeansDuration frac t d → d < 0 → redisTimeoutOf frac t = some none) := by
  constructor
  · intro hm
    unfold redisTimeoutOf
    rw [C116_accepts frac t 0 hm]
    rfl
  · intro d hm hd
    unfold redisTimeoutOf
    rw [C116_accepts frac t d hm]
    simp only [redisWait]
    rw [if_neg (by omega), if_pos hd]

/-! ### defaults and examples -/

theorem means_whole (frac : Text → Nat → Nat) (w u : Text) (n : Nat) (h0 : w ≠ []) (h1 : w.all isDigit = true) (h2 : (u, n) ∈ durationUnits) (h3 : decimal w * n < 2 ^ 63) : MeansDuration frac (w ++ u) (decimal w * n : Nat) := by
  have hv : durationTotal frac [wholePart w u n] = decimal w * n := by simp [durationTotal, DurationPart.value, wholePart]
  have ht : "".toList ++ durationText [wholePart w u n] = w ++ u := by simp [durationText, DurationPart.text, pointText, wholePart]
  have := MeansDuration.plus (frac := frac) "".toList (by decide +kernel) [wholePart w u n] (by simp) (fun p hp => by
    rw [List.mem_singleton] at hp
    rw [hp]
    exact wholePart_good w u n h0 h1 h2) (by rw [hv]; exact h3)
  rw [hv, ht] at this
  exact this

/-- Without settings the timeout is five seconds and the period ten minutes. -/
theorem C116_defaults (frac : Text → Nat → Nat) (none' : Texts) (h : ∀ k, none' k = none) :
    (initSettings none' none' none).map (fun s => redisTimeoutOf frac s.redisTimeout) = some (some (some (5 * 10 ^ 9))) ∧ parseDuration frac (statsPeriod none' none') = some (600 * 10 ^ 9) := by
  have e1 : (initSettings none' none' none).map (fun s => s.redisTimeout) = some "5s".toList := by
    simp only [initSettings, flagBatchSize, h, Option.map_some]
    rfl
  have e2 : statsPeriod none' none' = "10m".toList := by
    simp only [statsPeriod, h]
    rfl
  have m1 := means_whole frac "5".toList "s".toList (10 ^ 9) (by decide +kernel) (by decide +kernel) (by decide +kernel) (by decide +kernel)
  have m2 := means_whole frac "10".toList "m".toList (60 * 10 ^ 9) (by decide +kernel) (by decide +kernel) (by decide +kernel) (by decide +kernel)
  have d1 : decimal "5".toList = 5 := by decide +kernel
  have d2 : decimal "10".toList = 10 := by decide +kernel
  rw [d1] at m1
  rw [d2] at m2
  constructor
  · have r := (C116_timeout_partial frac _).1 _ m1 (by decide)
    have : (initSettings none' none' none).map (fun s => redisTimeoutOf frac s.redisTimeout) = ((initSettings none' none' none).map (fun s => s.redisTimeout)).map (redisTimeoutOf frac) := by
      rw [Option.map_map]; rfl
    rw [this, e1]
    exact congrArg some r
  · rw [e2]
    exact C116_accepts frac _ _ m2

/-- A stand-in for the floating point numbers. -/
def exFrac (f : Text) (n : Nat) : Nat := decimal f * n / 10 ^ f.length

def exPart : DurationPart := ⟨"1".toList, some "5".toList, "h".toList, 3600 * 10 ^ 9⟩

theorem exPart_good : exPart.Good :=
  ⟨fun c hc => (isDigit_iff c).1 (List.all_eq_true.1 (by decide +kernel : exPart.whole.all isDigit = true) c hc), (fun f hf => by
    cases hf
    exact fun c hc => (isDigit_iff c).1 (List.all_eq_true.1 (by decide +kernel : ("5".toList : Text).all isDigit = true) c hc)), Or.inl (by decide +kernel), by decide +kernel⟩

/-- `1.5h10m` -/
theorem exDuration : MeansDuration exFrac "1.5h10m".toList 6000000000000 := by
  have := MeansDuration.plus (frac := exFrac) "".toList (by decide +kernel) [exPart, wholePart "10".toList "m".toList (60 * 10 ^ 9)] (by simp) (fun p hp => by
    simp only [List.mem_cons, List.not_mem_nil, or_false] at hp
    rcases hp with rfl | rfl
    · exact exPart_good
    · exact wholePart_good _ _ _ (by decide +kernel) (by decide +kernel) (by decide +kernel)) (by decide +kernel)
  have ht : "".toList ++ durationText [exPart, wholePart "10".toList "m".toList (60 * 10 ^ 9)] = "1.5h10m".toList := by decide +kernel
  have hv : durationTotal exFrac [exPart, wholePart "10".toList "m".toList (60 * 10 ^ 9)] = 6000000000000 := by decide +kernel
  rw [ht, hv] at this
  exact this

example : parseDuration exFrac "1.5h10m".toList = some 6000000000000 := C116_accepts _ _ _ exDuration
example := C116_only_partial exFrac "1.5h10m".toList 6000000000000 (by decide +kernel)
example := C116_unambiguous exFrac _ _ _ exDuration exDuration
/-- What is refused: no unit, an unknown unit, no digits, white space, two signs, nothing, too large. -/
example : ["15".toList, "1d".toList, ".s".toList, " 5s".toList, "--5s".toList, "".toList, "9223372036854775808ns".toList, "3000000h".toList].map (parseDuration exFrac) = List.replicate 8 none := by decide +kernel
example : ["0".toList, "-0".toList, "-9223372036854775808ns".toList, "+1m".toList, "1µs".toList, "5.s".toList, ".5s".toList].map (parseDuration exFrac) =
    [some 0, some 0, some (-9223372036854775808), some 60000000000, some 1000, some 5000000000, some 500000000] := by decide +kernel
example := ((C116_period exFrac "1.5h10m".toList).1 _ exDuration).2 (by decide)
example := (C116_period exFrac "1.5h10m".toList).2 (by decide +kernel)
example : prepareTelemetry exFrac [] "0s".toList = .panicked ∧ prepareTelemetry exFrac [] "15".toList = .fatal := by decide +kernel
example := C116_host_fails exFrac "h".toList "nonsense".toList (by decide +kernel)
example := (C116_timeout_partial exFrac "1.5h10m".toList).1 _ exDuration (by decide)
example := (C116_timeout_fails exFrac "-0".toList).1 (MeansDuration.zero "-".toList (by decide +kernel))
/-- An empty text. -/
example : redisTimeoutOf exFrac [] = none :=
  (C116_timeout_partial exFrac []).2 (fun d hm => absurd (C116_accepts exFrac _ d hm) (fun h => nomatch h)) (fun sign _ ps hg he => by
    cases ps with
    | nil => decide
    | cons p ps => exact absurd (List.append_eq_nil_iff.1 he.symm).2 (durationText_facts (p :: ps) (by simp) hg).2.1)
/-- `-5s` -/
example : redisTimeoutOf exFrac "-5s".toList = some none :=
  (C116_timeout_fails exFrac "-5s".toList).2 _ (MeansDuration.minus (frac := exFrac) [wholePart "5".toList "s".toList (10 ^ 9)] (by simp) (fun p hp => by
    rw [List.mem_singleton] at hp
    rw [hp]
    exact wholePart_good _ _ _ (by decide +kernel) (by decide +kernel) (by decide +kernel)) (by decide +kernel)) (by decide +kernel)
example := C116_defaults exFrac (fun _ => none) (fun _ => rfl)

end Verif.Props
