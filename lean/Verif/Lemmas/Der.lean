import Verif.Model.Der
import Verif.Spec.Der
/-!
The element headers that the decoder accepts are those of the specification.
-/
namespace Verif
open Verif.Spec

theorem numB_snoc (B : Nat) (ds : List Nat) (d : Nat) : numB B (ds ++ [d]) = numB B ds * B + d := by
  induction ds with
  | nil => simp [numB]
  | cons a r ih =>
    simp only [List.cons_append, numB, ih, List.length_append, List.length_cons, List.length_nil, Nat.zero_add, Nat.pow_succ]
    rw [Nat.add_mul, Nat.mul_assoc]
    omega

theorem numB_append (B : Nat) (xs ys : List Nat) : numB B (xs ++ ys) = numB B xs * B ^ ys.length + numB B ys := by
  induction xs with
  | nil => simp [numB]
  | cons a r ih =>
    simp only [List.cons_append, numB, ih, List.length_append, Nat.pow_add]
    rw [Nat.add_mul, Nat.mul_assoc]
    omega

theorem numB_lt {B : Nat} : ∀ (ds : List Nat), (∀ d ∈ ds, d < B) → numB B ds < B ^ ds.length := by
  intro ds
  induction ds with
  | nil => intro _; simp [numB]
  | cons a r ih =>
    intro h
    have h1 := ih (fun d hd => h d (List.mem_cons_of_mem _ hd))
    have h2 : a + 1 ≤ B := h a List.mem_cons_self
    have h3 : (a + 1) * B ^ r.length ≤ B * B ^ r.length := Nat.mul_le_mul_right _ h2
    simp only [numB, List.length_cons, Nat.pow_succ]
    rw [Nat.add_mul, Nat.one_mul] at h3
    rw [Nat.mul_comm (B ^ r.length) B]
    omega

/-- A leading non-zero digit makes the number at least a power of the base. -/
theorem numB_ge {B : Nat} {d : Nat} (hd : d ≠ 0) (ds : List Nat) : B ^ ds.length ≤ numB B (d :: ds) := by
  simp only [numB]
  have : 1 * B ^ ds.length ≤ d * B ^ ds.length := Nat.mul_le_mul_right _ (by omega)
  omega

/-! ### length octets -/

/-- The value so far does not matter to how many octets are read, only whether it gets too large. -/
theorem lengthLoop_sound : ∀ (n : Nat) (bs : Bytes) (acc m : Nat) (rest : Bytes), lengthLoop n bs acc = some (m, rest) →
    ∃ ds, bs = ds ++ rest ∧ ds.length = n ∧ m = acc * 256 ^ n + numB 256 (ds.map UInt8.toNat) ∧ (ds = [] ∨ m < 2147483648) ∧
      (acc = 0 → ds.head? ≠ some 0) := by
  intro n
  induction n with
  | zero =>
    intro bs acc m rest h
    simp only [lengthLoop, Option.some.injEq, Prod.mk.injEq] at h
    exact ⟨[], by simp [h.2], rfl, by simp [numB, h.1], Or.inl rfl, fun _ => by simp⟩
  | succ n ih =>
    intro bs acc m rest h
    cases bs with
    | nil => simp [lengthLoop] at h
    | cons b bs =>
      unfold lengthLoop at h
      split at h
      · cases h
      · rename_i h1
        split at h
        · cases h
        · rename_i h2
          obtain ⟨ds, e, hl, hm, hlt, _⟩ := ih _ _ _ _ h
          have hb := b.toNat_lt
          refine ⟨b :: ds, by rw [e]; rfl, by simp [hl], ?_, Or.inr ?_, ?_⟩
          · rw [hm]
            simp only [List.map_cons, numB, List.length_map, hl, Nat.pow_succ]
            rw [Nat.add_mul, Nat.mul_assoc, Nat.mul_comm 256 (256 ^ n)]
            omega
          · rcases hlt with rfl | hlt
            · simp only [List.length_nil] at hl
              subst hl
              simp only [List.map_nil, numB, Nat.pow_zero] at hm
              omega
            · exact hlt
          · intro h0 hh
            simp only [List.head?_cons, Option.some.injEq] at hh
            subst hh
            subst h0
            exact h2 (by simp)

theorem lengthLoop_complete : ∀ (ds rest : Bytes) (acc : Nat), acc * 256 ^ ds.length + numB 256 (ds.map UInt8.toNat) < 2147483648 →
    (acc = 0 → ds.head? ≠ some 0) →
    lengthLoop ds.length (ds ++ rest) acc = some (acc * 256 ^ ds.length + numB 256 (ds.map UInt8.toNat), rest) := by
  intro ds
  induction ds with
  | nil => intro rest acc _ _; simp [lengthLoop, numB]
  | cons b ds ih =>
    intro rest acc h h0
    have hb := b.toNat_lt
    have hpos : 0 < 256 ^ ds.length := Nat.pow_pos (by omega)
    have e : acc * 256 ^ (ds.length + 1) + numB 256 ((b :: ds).map UInt8.toNat) = (acc * 256 + b.toNat) * 256 ^ ds.length + numB 256 (ds.map UInt8.toNat) := by
      simp only [List.map_cons, numB, List.length_map, Nat.pow_succ]
      rw [Nat.add_mul, Nat.mul_assoc, Nat.mul_comm 256 (256 ^ ds.length)]
      omega
    simp only [List.length_cons, List.cons_append] at h ⊢
    rw [e] at h ⊢
    have h1 : ¬ acc ≥ 8388608 := by
      intro hge
      have : (acc * 256 + b.toNat) * 1 ≤ (acc * 256 + b.toNat) * 256 ^ ds.length := Nat.mul_le_mul_left _ hpos
      omega
    have h2 : ¬ acc * 256 + b.toNat = 0 := by
      intro hz
      have ha : acc = 0 := by omega
      have hb0 : b = 0 := by
        apply UInt8.toNat_inj.1
        simp only [UInt8.toNat_zero]
        omega
      exact h0 ha (by rw [hb0]; rfl)
    unfold lengthLoop
    rw [if_neg h1, if_neg h2]
    exact ih rest _ h (fun hz => absurd hz h2)

theorem parseLength_iff (bs : Bytes) (n : Nat) (rest : Bytes) :
    parseLength bs = some (n, rest) ↔ n < 2147483648 ∧ ∃ ls, LengthOctets n ls ∧ bs = ls ++ rest := by
  constructor
  · intro h
    cases bs with
    | nil => simp [parseLength] at h
    | cons b bs =>
      unfold parseLength at h
      dsimp only at h
      split at h
      · rename_i hb
        simp only [Option.some.injEq, Prod.mk.injEq] at h
        obtain ⟨h1, h2⟩ := h
        exact ⟨by omega, [b], Or.inl ⟨by omega, b, rfl, h1⟩, by rw [h2]; rfl⟩
      · split at h
        · cases h
        · rename_i hb hb'
          cases hl : lengthLoop (b.toNat - 128) bs 0 with
          | none => rw [hl] at h; cases h
          | some p =>
            obtain ⟨m, r⟩ := p
            rw [hl] at h
            dsimp only at h
            split at h
            · cases h
            · rename_i hm
              simp only [Option.some.injEq, Prod.mk.injEq] at h
              obtain ⟨h1, h2⟩ := h
              subst h1
              subst h2
              obtain ⟨ds, e, hlen, hv, hlt, hh⟩ := lengthLoop_sound _ _ _ _ _ hl
              have hne : ds ≠ [] := by
                intro hd
                rw [hd] at hlen
                simp only [List.length_nil] at hlen
                omega
              refine ⟨hlt.resolve_left hne, b :: ds, Or.inr ⟨by omega, b, ds, rfl, by omega, hh rfl, ?_⟩, by rw [e]; rfl⟩
              rw [hv]
              simp
  · rintro ⟨hn, ls, hL, e⟩
    subst e
    rcases hL with ⟨h1, b, rfl, hb⟩ | ⟨h1, k, ds, rfl, hk, hh, hv⟩
    · simp only [List.cons_append, List.nil_append, parseLength]
      rw [if_pos (by omega), hb]
    · simp only [List.cons_append, parseLength]
      have hne : ds ≠ [] := by
        intro hd
        rw [hd] at hv
        simp only [List.map_nil, numB] at hv
        omega
      have hpos : 0 < ds.length := List.length_pos_iff.2 hne
      rw [if_neg (by omega), if_neg (by omega)]
      have e : k.toNat - 128 = ds.length := by omega
      have hc := lengthLoop_complete ds rest 0 (by rw [hv]; omega) (fun _ => hh)
      rw [e, hc]
      simp only [Nat.zero_mul, Nat.zero_add, hv]
      rw [if_neg (by omega)]

/-! ### base 128 -/

theorem base128Loop_sound : ∀ (bs : Bytes) (shifted acc n : Nat) (rest : Bytes), base128Loop bs shifted acc = some (n, rest) →
    ∃ hi lo, bs = hi ++ lo :: rest ∧ lo.toNat < 128 ∧ (∀ b ∈ hi, 128 ≤ b.toNat) ∧ (shifted = 0 → (hi ++ [lo]).head? ≠ some 0x80) ∧
      n = acc * 128 ^ (hi.length + 1) + numB 128 ((hi ++ [lo]).map (fun b => b.toNat % 128)) ∧ n < 2147483648 := by
  intro bs
  induction bs with
  | nil => intro shifted acc n rest h; simp [base128Loop] at h
  | cons b bs ih =>
    intro shifted acc n rest h
    unfold base128Loop at h
    split at h
    · cases h
    · split at h
      · cases h
      · rename_i h1 h2
        split at h
        · rename_i h3
          split at h
          · cases h
          · rename_i h4
            simp only [Option.some.injEq, Prod.mk.injEq] at h
            obtain ⟨h5, h6⟩ := h
            refine ⟨[], b, by rw [h6]; rfl, h3, by simp, ?_, ?_, by omega⟩
            · intro hs hh
              simp only [List.nil_append, List.head?_cons, Option.some.injEq] at hh
              exact h2 ⟨hs, hh⟩
            · simp [numB, ← h5]
        · rename_i h3
          obtain ⟨hi, lo, e, hlo, hhi, _, hn, hlt⟩ := ih _ _ _ _ h
          refine ⟨b :: hi, lo, by rw [e]; rfl, hlo, ?_, ?_, ?_, hlt⟩
          · intro x hx
            rcases List.mem_cons.1 hx with rfl | hx
            · omega
            · exact hhi x hx
          · intro hs hh
            simp only [List.cons_append, List.head?_cons, Option.some.injEq] at hh
            exact h2 ⟨hs, hh⟩
          · rw [hn]
            simp only [List.cons_append, List.map_cons, numB, List.length_map, List.length_append, List.length_cons, List.length_nil, Nat.zero_add]
            rw [Nat.pow_succ 128 (hi.length + 1), Nat.add_mul, Nat.mul_assoc, Nat.mul_comm 128 (128 ^ (hi.length + 1))]
            omega

theorem base128Loop_complete : ∀ (hi : Bytes) (lo : UInt8) (rest : Bytes) (shifted acc : Nat), lo.toNat < 128 → (∀ b ∈ hi, 128 ≤ b.toNat) →
    (shifted = 0 → (hi ++ [lo]).head? ≠ some 0x80) → shifted + hi.length < 5 →
    acc * 128 ^ (hi.length + 1) + numB 128 ((hi ++ [lo]).map (fun b => b.toNat % 128)) < 2147483648 →
    base128Loop (hi ++ lo :: rest) shifted acc =
      some (acc * 128 ^ (hi.length + 1) + numB 128 ((hi ++ [lo]).map (fun b => b.toNat % 128)), rest) := by
  intro hi
  induction hi with
  | nil =>
    intro lo rest shifted acc hlo _ hh hs hlt
    simp only [List.nil_append, List.map_cons, List.map_nil, numB, List.length_nil, Nat.zero_add, Nat.pow_one, Nat.pow_zero, Nat.mul_one, Nat.add_zero,
      List.head?_cons, ne_eq, Option.some.injEq] at hlt hh hs ⊢
    unfold base128Loop
    rw [if_neg (by omega), if_neg (by rintro ⟨h1, h2⟩; exact hh h1 h2), if_pos hlo, if_neg (by omega)]
  | cons b hi ih =>
    intro lo rest shifted acc hlo hhi hh hs hlt
    have e : acc * 128 ^ ((b :: hi).length + 1) + numB 128 (((b :: hi) ++ [lo]).map (fun b => b.toNat % 128)) =
        (acc * 128 + b.toNat % 128) * 128 ^ (hi.length + 1) + numB 128 ((hi ++ [lo]).map (fun b => b.toNat % 128)) := by
      simp only [List.cons_append, List.map_cons, numB, List.length_map, List.length_append, List.length_cons, List.length_nil, Nat.zero_add]
      rw [Nat.pow_succ 128 (hi.length + 1), Nat.add_mul, Nat.mul_assoc, Nat.mul_comm 128 (128 ^ (hi.length + 1))]
      omega
    rw [e] at hlt ⊢
    have hb := hhi b List.mem_cons_self
    simp only [List.cons_append]
    unfold base128Loop
    simp only [List.length_cons] at hs
    rw [if_neg (by omega), if_neg ?_, if_neg (by omega)]
    · exact ih lo rest (shifted + 1) _ hlo (fun x hx => hhi x (List.mem_cons_of_mem _ hx)) (fun h => by omega) (by omega) hlt
    · rintro ⟨h1, h2⟩
      exact hh h1 (by rw [h2]; rfl)

theorem base128_iff (bs : Bytes) (n : Nat) (rest : Bytes) :
    base128Loop bs 0 0 = some (n, rest) ↔ n < 2147483648 ∧ ∃ ts, Base128 n ts ∧ bs = ts ++ rest := by
  constructor
  · intro h
    obtain ⟨hi, lo, e, hlo, hhi, hh, hn, hlt⟩ := base128Loop_sound _ _ _ _ _ h
    refine ⟨hlt, hi ++ [lo], ⟨hi, lo, rfl, hlo, hhi, hh rfl, ?_⟩, by rw [e]; simp⟩
    rw [hn]
    simp
  · rintro ⟨hlt, ts, ⟨hi, lo, rfl, hlo, hhi, hh, hn⟩, rfl⟩
    have hlen : hi.length < 5 := by
      cases hi with
      | nil => simp
      | cons b hi' =>
        have hb := hhi b List.mem_cons_self
        have hb0 : b ≠ 0x80 := by
          intro hb0
          exact hh (by rw [hb0]; rfl)
        have hd : b.toNat % 128 ≠ 0 := by
          intro hz
          apply hb0
          apply UInt8.toNat_inj.1
          have := b.toNat_lt
          show b.toNat = 128
          omega
        have hge := numB_ge (B := 128) hd ((hi' ++ [lo]).map (fun b => b.toNat % 128))
        rw [show (b.toNat % 128 :: (hi' ++ [lo]).map (fun b => b.toNat % 128)) = ((b :: hi') ++ [lo]).map (fun b => b.toNat % 128) from rfl, hn] at hge
        simp only [List.length_map, List.length_append, List.length_cons, List.length_nil, Nat.zero_add] at hge ⊢
        by_cases hc : hi'.length + 1 < 5
        · exact hc
        · have : 128 ^ 5 ≤ 128 ^ (hi'.length + 1) := Nat.pow_le_pow_right (by omega) (by omega)
          have h5 : (128 : Nat) ^ 5 = 34359738368 := by decide
          omega
    have := base128Loop_complete hi lo rest 0 0 hlo hhi (fun _ => hh) (by omega) (by rw [hn]; simpa using hlt)
    simp only [Nat.zero_mul, Nat.zero_add, hn] at this
    simpa using this

/-! ### headers -/

theorem parseTagLen_iff (bs : Bytes) (t : TagLen) (rest : Bytes) :
    parseTagLen bs = some (t, rest) ↔ t.tag < 2147483648 ∧ t.length < 2147483648 ∧
      ∃ id ls, Identifier t.cls t.tag t.compound id ∧ LengthOctets t.length ls ∧ bs = id ++ ls ++ rest := by
  constructor
  · intro h
    cases bs with
    | nil => simp [parseTagLen] at h
    | cons b bs =>
      unfold parseTagLen at h
      dsimp only at h
      cases h1 : parseTagNumber (b.toNat % 32) bs with
      | none => rw [h1] at h; cases h
      | some p =>
        obtain ⟨tg, r1⟩ := p
        rw [h1] at h
        dsimp only at h
        cases h2 : parseLength r1 with
        | none => rw [h2] at h; cases h
        | some q =>
          obtain ⟨n, r2⟩ := q
          rw [h2] at h
          simp only [Option.some.injEq, Prod.mk.injEq] at h
          obtain ⟨ht, hr⟩ := h
          subst hr
          subst ht
          obtain ⟨hn, ls, hL, e⟩ := (parseLength_iff _ _ _).1 h2
          have hb := b.toNat_lt
          have hbit : (if (b.toNat / 32 % 2 == 1) = true then 32 else 0) = 32 * (b.toNat / 32 % 2) := by
            rcases Nat.mod_two_eq_zero_or_one (b.toNat / 32) with h | h <;> simp [h]
          unfold parseTagNumber at h1
          split at h1
          · rename_i h31
            cases h3 : base128Loop bs 0 0 with
            | none => rw [h3] at h1; cases h1
            | some p =>
              obtain ⟨v, r3⟩ := p
              rw [h3] at h1
              dsimp only at h1
              split at h1
              · cases h1
              · rename_i hge
                simp only [Option.some.injEq, Prod.mk.injEq] at h1
                obtain ⟨hv, hr⟩ := h1
                subst hv
                subst hr
                obtain ⟨hlt, ts, hB, e2⟩ := (base128_iff _ _ _).1 h3
                refine ⟨hlt, hn, b :: ts, ls, ⟨by dsimp only; omega, Or.inr ⟨by dsimp only; omega, b, ts, rfl, ?_, hB⟩⟩, hL, ?_⟩
                · dsimp only
                  rw [hbit]
                  omega
                · rw [e2, e]
                  simp
          · rename_i h31
            simp only [Option.some.injEq, Prod.mk.injEq] at h1
            obtain ⟨hv, hr⟩ := h1
            subst hv
            subst hr
            refine ⟨by dsimp only; omega, hn, [b], ls, ⟨by dsimp only; omega, Or.inl ⟨by dsimp only; omega, b, rfl, ?_⟩⟩, hL, ?_⟩
            · dsimp only
              rw [hbit]
              omega
            · rw [e]
              simp
  · rintro ⟨htag, hlen, id, ls, hI, hL, rfl⟩
    obtain ⟨cls, comp, tag, n⟩ := t
    dsimp only at *
    obtain ⟨hc, hI⟩ := hI
    have hPL := (parseLength_iff (ls ++ rest) n rest).2 ⟨hlen, ls, hL, rfl⟩
    rcases hI with ⟨h31, b, rfl, hb⟩ | ⟨h31, b, ts, rfl, hb, hB⟩
    · simp only [List.cons_append, List.nil_append]
      unfold parseTagLen parseTagNumber
      dsimp only
      have e1 : b.toNat % 32 = tag := by cases comp <;> simp at hb <;> omega
      have e2 : b.toNat / 64 = cls := by cases comp <;> simp at hb <;> omega
      have e3 : (b.toNat / 32 % 2 == 1) = comp := by
        cases comp
        · simp at hb ⊢
          omega
        · simp at hb ⊢
          omega
      rw [e1, if_neg (by omega)]
      dsimp only
      rw [hPL, e2, e3]
    · simp only [List.cons_append]
      unfold parseTagLen parseTagNumber
      dsimp only
      have e1 : b.toNat % 32 = 31 := by cases comp <;> simp at hb <;> omega
      have e2 : b.toNat / 64 = cls := by cases comp <;> simp at hb <;> omega
      have e3 : (b.toNat / 32 % 2 == 1) = comp := by
        cases comp
        · simp at hb ⊢
          omega
        · simp at hb ⊢
          omega
      have h3 := (base128_iff (ts ++ (ls ++ rest)) tag (ls ++ rest)).2 ⟨htag, ts, hB, rfl⟩
      rw [e1, if_pos rfl, List.append_assoc, h3]
      dsimp only
      rw [if_neg (by omega)]
      dsimp only
      rw [hPL, e2, e3]

theorem rawField_iff (bs c rest : Bytes) :
    rawField bs = some (c, rest) ↔ c.length < 2147483648 ∧ ∃ cls tag k w, tag < 2147483648 ∧ Element cls tag k c w ∧ bs = w ++ rest := by
  unfold rawField
  constructor
  · intro h
    cases h1 : parseTagLen bs with
    | none => rw [h1] at h; cases h
    | some p =>
      obtain ⟨t, r⟩ := p
      rw [h1] at h
      dsimp only at h
      split at h
      · cases h
      · rename_i hle
        simp only [Option.some.injEq, Prod.mk.injEq] at h
        obtain ⟨hc, hr⟩ := h
        obtain ⟨ht, hl, id, ls, hI, hL, e⟩ := (parseTagLen_iff _ _ _).1 h1
        have hcl : c.length = t.length := by
          rw [← hc, List.length_take]
          omega
        refine ⟨by omega, t.cls, t.tag, t.compound, id ++ ls ++ c, ht, ⟨id, ls, hI, by rw [hcl]; exact hL, rfl⟩, ?_⟩
        rw [e, ← hc, ← hr]
        simp only [List.append_assoc, List.take_append_drop]
  · rintro ⟨hl, cls, tag, k, w, ht, ⟨id, ls, hI, hL, rfl⟩, rfl⟩
    have h1 := (parseTagLen_iff (id ++ ls ++ (c ++ rest)) ⟨cls, k, tag, c.length⟩ (c ++ rest)).2 ⟨ht, hl, id, ls, hI, hL, rfl⟩
    rw [List.append_assoc (id ++ ls) c rest, h1]
    dsimp only
    rw [if_neg (by rw [List.length_append]; omega)]
    simp

/-- The tag and the form of a kind. -/
def Kind.is (k : Kind) (tag : Nat) (constructed : Bool) : Prop :=
  match k with
  | .boolean => tag = 1 ∧ constructed = false
  | .integer => tag = 2 ∧ constructed = false
  | .octetString => tag = 4 ∧ constructed = false
  | .oid => tag = 6 ∧ constructed = false
  | .enumerated => tag = 10 ∧ constructed = false
  | .sequence => tag = 16 ∧ constructed = true
  | .time => (tag = 23 ∨ tag = 24) ∧ constructed = false

theorem Kind.matches_iff (k : Kind) (t : TagLen) : k.matches t = true ↔ t.cls = 0 ∧ k.is t.tag t.compound := by
  cases k <;> simp [Kind.matches, Kind.is]

theorem Kind.is_lt {k : Kind} {tag : Nat} {c : Bool} (h : k.is tag c) : tag < 31 := by
  cases k <;> simp only [Kind.is] at h <;> omega

theorem typedField_some (k : Kind) (opt : Bool) (bs : Bytes) (tag : Nat) (c rest : Bytes) :
    typedField k opt bs = some (some (tag, c), rest) ↔
      c.length < 2147483648 ∧ ∃ f w, k.is tag f ∧ Element 0 tag f c w ∧ bs = w ++ rest := by
  unfold typedField
  constructor
  · intro h
    split at h
    · cases opt <;> simp at h
    · cases h1 : parseTagLen bs with
      | none => rw [h1] at h; cases h
      | some p =>
        obtain ⟨t, r⟩ := p
        rw [h1] at h
        dsimp only at h
        split at h
        · rename_i hm
          split at h
          · cases h
          · rename_i hle
            simp only [Option.some.injEq, Prod.mk.injEq] at h
            obtain ⟨⟨htag, hc⟩, hr⟩ := h
            obtain ⟨_, hl, id, ls, hI, hL, e⟩ := (parseTagLen_iff _ _ _).1 h1
            obtain ⟨hm0, hm1⟩ := (Kind.matches_iff k t).1 hm
            have hcl : c.length = t.length := by
              rw [← hc, List.length_take]
              omega
            refine ⟨by omega, t.compound, id ++ ls ++ c, htag ▸ hm1, ⟨id, ls, ?_, by rw [hcl]; exact hL, rfl⟩, ?_⟩
            · rw [← hm0, ← htag]
              exact hI
            · rw [e, ← hc, ← hr]
              simp only [List.append_assoc, List.take_append_drop]
        · cases opt <;> simp at h
  · rintro ⟨hl, f, w, hk, ⟨id, ls, hI, hL, rfl⟩, rfl⟩
    have h1 := (parseTagLen_iff (id ++ ls ++ (c ++ rest)) ⟨0, f, tag, c.length⟩ (c ++ rest)).2
      ⟨by have := Kind.is_lt hk; dsimp only; omega, hl, id, ls, hI, hL, rfl⟩
    have hne : id ++ ls ++ (c ++ rest) ≠ [] := by
      intro he
      rw [he] at h1
      simp [parseTagLen] at h1
    rw [List.append_assoc (id ++ ls) c rest, if_neg hne, h1]
    dsimp only
    rw [if_pos ((Kind.matches_iff k _).2 ⟨rfl, hk⟩), if_neg (by rw [List.length_append]; omega)]
    simp

/-- An optional field is absent when there is nothing left or the next element is of another kind. -/
theorem typedField_absent (k : Kind) (bs : Bytes) (cls tag : Nat) (f : Bool) (c w rest : Bytes) (he : Element cls tag f c w) (hb : bs = w ++ rest)
    (ht : tag < 2147483648) (hl : c.length < 2147483648) (hk : ¬ (cls = 0 ∧ k.is tag f)) : typedField k true bs = some (none, bs) := by
  obtain ⟨id, ls, hI, hL, rfl⟩ := he
  have h1 := (parseTagLen_iff (id ++ ls ++ (c ++ rest)) ⟨cls, f, tag, c.length⟩ (c ++ rest)).2 ⟨ht, hl, id, ls, hI, hL, rfl⟩
  have hne : id ++ ls ++ (c ++ rest) ≠ [] := by
    intro he
    rw [he] at h1
    simp [parseTagLen] at h1
  unfold typedField
  rw [hb, List.append_assoc (id ++ ls) c rest, if_neg hne, h1]
  dsimp only
  have hm : ¬ k.matches ⟨cls, f, tag, c.length⟩ = true := by
    rw [Kind.matches_iff]
    exact hk
  rw [if_neg hm, if_pos rfl]

theorem typedField_none_rest {k : Kind} {bs rest : Bytes} (h : typedField k true bs = some (none, rest)) : rest = bs := by
  unfold typedField at h
  split at h
  · rename_i hb
    simp only [if_true, Option.some.injEq, Prod.mk.injEq] at h
    rw [hb, ← h.2]
  · cases h1 : parseTagLen bs with
    | none => rw [h1] at h; cases h
    | some p =>
      obtain ⟨t, r⟩ := p
      rw [h1] at h
      dsimp only at h
      split at h
      · split at h <;> simp at h
      · simp only [if_true, Option.some.injEq, Prod.mk.injEq] at h
        exact h.2.symm

theorem typedField_required {k : Kind} {bs rest : Bytes} : typedField k false bs ≠ some (none, rest) := by
  intro h
  unfold typedField at h
  split at h
  · simp at h
  · cases h1 : parseTagLen bs with
    | none => rw [h1] at h; cases h
    | some p =>
      obtain ⟨t, r⟩ := p
      rw [h1] at h
      dsimp only at h
      split at h
      · split at h <;> simp at h
      · simp at h

theorem element_pos {cls tag : Nat} {f : Bool} {c w : Bytes} (h : Element cls tag f c w) : c.length < w.length := by
  obtain ⟨id, ls, hI, _, rfl⟩ := h
  have : 0 < id.length := by
    rcases hI.2 with ⟨_, b, rfl, _⟩ | ⟨_, b, ts, rfl, _⟩ <;> simp
  simp only [List.length_append]
  omega

end Verif
