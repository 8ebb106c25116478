import Verif.Lemmas.Der
/-!
Two's complement integers and object identifiers: the decoder and the specification agree.
-/
namespace Verif
open Verif.Spec

theorem beValue_foldl (bs : Bytes) : ∀ acc, bs.foldl (fun n b => n * 256 + b.toNat) acc = acc * 256 ^ bs.length + numB 256 (bs.map UInt8.toNat) := by
  induction bs with
  | nil => intro acc; simp [numB]
  | cons b bs ih =>
    intro acc
    simp only [List.foldl_cons, ih, List.map_cons, numB, List.length_map, List.length_cons, Nat.pow_succ]
    rw [Nat.add_mul, Nat.mul_assoc, Nat.mul_comm 256 (256 ^ bs.length)]
    omega

theorem beValue_eq (bs : Bytes) : beValue bs = numB 256 (bs.map UInt8.toNat) := by
  unfold beValue
  rw [beValue_foldl]
  simp

theorem num256_lt (bs : Bytes) : numB 256 (bs.map UInt8.toNat) < 256 ^ bs.length := by
  have := numB_lt (B := 256) (bs.map UInt8.toNat) (by
    intro d hd
    obtain ⟨b, _, rfl⟩ := List.mem_map.1 hd
    exact b.toNat_lt)
  simpa using this

/-- Numbers of the same length with the same value have the same digits. -/
theorem num256_inj : ∀ (xs ys : Bytes), xs.length = ys.length → numB 256 (xs.map UInt8.toNat) = numB 256 (ys.map UInt8.toNat) → xs = ys := by
  intro xs
  induction xs with
  | nil =>
    intro ys hl _
    cases ys with
    | nil => rfl
    | cons y ys => simp at hl
  | cons x xs ih =>
    intro ys hl h
    cases ys with
    | nil => simp at hl
    | cons y ys =>
      simp only [List.length_cons, Nat.add_right_cancel_iff] at hl
      simp only [List.map_cons, numB, List.length_map, hl] at h
      have h1 := num256_lt xs
      have h2 := num256_lt ys
      rw [hl] at h1
      generalize 256 ^ ys.length = p at h h1 h2
      have hx : x.toNat = y.toNat := by
        have e1 : (x.toNat * p + numB 256 (xs.map UInt8.toNat)) / p = x.toNat := by
          rw [Nat.mul_comm, Nat.mul_add_div (by omega), Nat.div_eq_of_lt h1, Nat.add_zero]
        have e2 : (y.toNat * p + numB 256 (ys.map UInt8.toNat)) / p = y.toNat := by
          rw [Nat.mul_comm, Nat.mul_add_div (by omega), Nat.div_eq_of_lt h2, Nat.add_zero]
        rw [← e1, ← e2, h]
      rw [hx] at h
      have hr := ih ys hl (by omega)
      rw [UInt8.toNat_inj.1 hx, hr]

/-- The octets determine the integer: what `checkInteger` accepts, with the value `twosValue`, is the specification. -/
theorem twos_iff (v : Int) (bs : Bytes) : TwosComplement v bs ↔ checkInteger bs = true ∧ twosValue bs = v := by
  cases bs with
  | nil => simp [TwosComplement, checkInteger]
  | cons b rest =>
    have hval : twosValue (b :: rest) = (numB 256 ((b :: rest).map UInt8.toNat) : Int) - (if b.toNat < 128 then 0 else (256 ^ (b :: rest).length : Nat)) := by
      unfold twosValue
      rw [beValue_eq]
      dsimp only
      split <;> simp
    have hmin : checkInteger (b :: rest) = true ↔
        ∀ c, rest.head? = some c → ¬ (b = 0 ∧ c.toNat < 128) ∧ ¬ (b = 0xff ∧ 128 ≤ c.toNat) := by
      cases rest with
      | nil => simp [checkInteger]
      | cons c rest =>
        simp only [checkInteger, List.head?_cons, Option.some.injEq, Bool.not_eq_true', Bool.or_eq_false_iff]
        constructor
        · rintro ⟨h1, h2⟩ _ rfl
          refine ⟨?_, ?_⟩
          · rintro ⟨h3, h4⟩
            simp [h3, h4] at h1
          · rintro ⟨h3, h4⟩
            simp [h3, h4] at h2
        · intro h
          obtain ⟨h1, h2⟩ := h c rfl
          refine ⟨?_, ?_⟩
          · cases hx : (b == 0 && decide (c.toNat < 128)) with
            | false => rfl
            | true =>
              simp only [Bool.and_eq_true, beq_iff_eq, decide_eq_true_eq] at hx
              exact absurd hx h1
          · cases hx : (b == 0xff && decide (128 ≤ c.toNat)) with
            | false => rfl
            | true =>
              simp only [Bool.and_eq_true, beq_iff_eq, decide_eq_true_eq] at hx
              exact absurd hx h2
    rw [hmin, hval]
    constructor
    · rintro ⟨b', r', e, hv, hm⟩
      cases e
      exact ⟨hm, hv.symm⟩
    · rintro ⟨hm, hv⟩
      exact ⟨b, rest, rfl, hv.symm, hm⟩

/-- The range of `n` octets of two's complement, without the range of fewer octets. -/
theorem twos_range {v : Int} {bs : Bytes} (h : TwosComplement v bs) :
    -(128 * 256 ^ (bs.length - 1) : Nat) ≤ v ∧ v < (128 * 256 ^ (bs.length - 1) : Nat) ∧
    (2 ≤ bs.length → v < -(128 * 256 ^ (bs.length - 2) : Nat) ∨ (128 * 256 ^ (bs.length - 2) : Nat) ≤ v) := by
  obtain ⟨b, rest, rfl, hv, hm⟩ := h
  have hb := b.toNat_lt
  have hr := num256_lt rest
  simp only [List.map_cons, numB, List.length_map, List.length_cons, Nat.add_sub_cancel, Nat.pow_succ] at hv ⊢
  have hlow : 128 ≤ b.toNat → 128 * 256 ^ rest.length ≤ b.toNat * 256 ^ rest.length := fun h => Nat.mul_le_mul_right _ h
  have hhigh : b.toNat < 128 → (b.toNat + 1) * 256 ^ rest.length ≤ 128 * 256 ^ rest.length := fun h => Nat.mul_le_mul_right _ h
  have hmax : (b.toNat + 1) * 256 ^ rest.length ≤ 256 * 256 ^ rest.length := Nat.mul_le_mul_right _ (by omega)
  rw [Nat.add_mul, Nat.one_mul] at hhigh hmax
  refine ⟨?_, ?_, ?_⟩
  · by_cases h : b.toNat < 128
    · rw [if_pos h] at hv; omega
    · rw [if_neg h] at hv; have := hlow (by omega); omega
  · by_cases h : b.toNat < 128
    · rw [if_pos h] at hv; have := hhigh h; omega
    · rw [if_neg h] at hv; omega
  · intro h2
    cases rest with
    | nil => simp at h2
    | cons c rest =>
      obtain ⟨m1, m2⟩ := hm c rfl
      have hc := c.toNat_lt
      have hr' := num256_lt rest
      have h256 : ∀ x, x * 256 ^ (rest.length + 1) = (x * 256) * 256 ^ rest.length := by
        intro x
        rw [Nat.pow_succ, Nat.mul_assoc, Nat.mul_comm 256]
      simp only [List.map_cons, numB, List.length_map, List.length_cons, h256] at hv hr ⊢
      have hsub : rest.length + 1 + 1 - 2 = rest.length := by omega
      rw [hsub]
      have h257 : 256 ^ (rest.length + 1) * 256 = 65536 * 256 ^ rest.length := by
        rw [Nat.pow_succ, Nat.mul_assoc, Nat.mul_comm]
      rw [h257] at hv
      generalize numB 256 (rest.map UInt8.toNat) = n at hv hr'
      have e : b.toNat * 256 * 256 ^ rest.length + (c.toNat * 256 ^ rest.length + n) = (b.toNat * 256 + c.toNat) * 256 ^ rest.length + n := by
        rw [Nat.add_mul]; omega
      rw [e] at hv
      by_cases h : b.toNat < 128
      · rw [if_pos h] at hv
        right
        have : 128 ≤ b.toNat * 256 + c.toNat := by
          by_cases h0 : b.toNat = 0
          · have hb0 : b = 0 := UInt8.toNat_inj.1 (by rw [h0]; rfl)
            have : ¬ c.toNat < 128 := fun hc' => m1 ⟨hb0, hc'⟩
            omega
          · omega
        have := Nat.mul_le_mul_right (256 ^ rest.length) this
        omega
      · rw [if_neg h] at hv
        left
        have : b.toNat * 256 + c.toNat + 1 ≤ 65536 - 128 := by
          by_cases h0 : b.toNat = 255
          · have hb0 : b = 0xff := UInt8.toNat_inj.1 (by rw [h0]; rfl)
            have : ¬ 128 ≤ c.toNat := fun hc' => m2 ⟨hb0, hc'⟩
            omega
          · omega
        have := Nat.mul_le_mul_right (256 ^ rest.length) this
        rw [Nat.add_mul, Nat.one_mul, Nat.sub_mul] at this
        have hle : 128 * 256 ^ rest.length ≤ 65536 * 256 ^ rest.length := Nat.mul_le_mul_right _ (by omega)
        omega

/-- An integer has one encoding. -/
theorem twos_unique {v : Int} {xs ys : Bytes} (hx : TwosComplement v xs) (hy : TwosComplement v ys) : xs = ys := by
  have key : ∀ (xs ys : Bytes), TwosComplement v xs → TwosComplement v ys → ¬ xs.length < ys.length := by
    intro xs ys hx hy hlt
    obtain ⟨x1, x2, _⟩ := twos_range hx
    obtain ⟨_, _, y3⟩ := twos_range hy
    have hx0 : 1 ≤ xs.length := by
      obtain ⟨b, r, rfl, _⟩ := hx
      simp
    have hp : 256 ^ (xs.length - 1) ≤ 256 ^ (ys.length - 2) := Nat.pow_le_pow_right (by omega) (by omega)
    have := y3 (by omega)
    omega
  have hl : xs.length = ys.length := by
    have := key xs ys hx hy
    have := key ys xs hy hx
    omega
  apply num256_inj xs ys hl
  obtain ⟨b, r, rfl, hv, _⟩ := hx
  obtain ⟨b', r', rfl, hv', _⟩ := hy
  have n1 := num256_lt (b :: r)
  have n2 := num256_lt (b' :: r')
  rw [hl] at hv n1
  generalize numB 256 ((b :: r).map UInt8.toNat) = a at *
  generalize numB 256 ((b' :: r').map UInt8.toNat) = a' at *
  generalize 256 ^ (b' :: r').length = p at *
  split at hv <;> split at hv' <;> omega

theorem parseInt32_iff (bs : Bytes) (v : Int) : parseInt32 bs = some v ↔ TwosComplement v bs ∧ -2147483648 ≤ v ∧ v ≤ 2147483647 := by
  unfold parseInt32 parseInt64
  constructor
  · intro h
    cases hc : checkInteger bs with
    | false => rw [hc] at h; simp at h
    | true =>
      rw [hc] at h
      by_cases h8 : bs.length > 8
      · simp [h8] at h
      · simp only [if_true, h8, if_false] at h
        split at h
        · cases h
        · rename_i hr
          simp only [Option.some.injEq] at h
          subst h
          exact ⟨(twos_iff _ _).2 ⟨hc, rfl⟩, by omega, by omega⟩
  · rintro ⟨ht, h1, h2⟩
    obtain ⟨hc, hv⟩ := (twos_iff _ _).1 ht
    have h8 : ¬ bs.length > 8 := by
      intro h8
      have h3 := (twos_range ht).2.2 (by omega)
      have hp : 256 ^ 7 ≤ 256 ^ (bs.length - 2) := Nat.pow_le_pow_right (by omega) (by omega)
      have h5 : (256 : Nat) ^ 7 = 72057594037927936 := by decide
      omega
    rw [hc, if_pos rfl, if_neg h8, hv]
    dsimp only
    rw [if_neg (by omega)]

/-- The value of an extension is read as the specification says, whatever follows it. -/
theorem parseEnumerated_iff (value : Bytes) (v : Int) (hl : value.length < 2147483648) :
    parseEnumerated value = some v ↔ EnumValue v value ∧ -2147483648 ≤ v ∧ v ≤ 2147483647 := by
  unfold parseEnumerated
  constructor
  · intro h
    cases h1 : typedField .enumerated false value with
    | none => rw [h1] at h; cases h
    | some p =>
      obtain ⟨o, rest⟩ := p
      rw [h1] at h
      cases o with
      | none => exact absurd h1 typedField_required
      | some q =>
        obtain ⟨tag, c⟩ := q
        dsimp only at h
        obtain ⟨ht, hr⟩ := (parseInt32_iff c v).1 h
        obtain ⟨_, f, w, hk, he, e⟩ := (typedField_some _ _ _ _ _ _).1 h1
        simp only [Kind.is] at hk
        obtain ⟨rfl, rfl⟩ := hk
        exact ⟨⟨c, w, rest, ht, he, e⟩, hr⟩
  · rintro ⟨⟨c, e, more, ht, he, rfl⟩, hr⟩
    have hp := element_pos he
    have h1 := (typedField_some .enumerated false (e ++ more) 10 c more).2
      ⟨by rw [List.length_append] at hl; omega, false, e, ⟨rfl, rfl⟩, he, rfl⟩
    rw [h1]
    exact (parseInt32_iff c v).2 ⟨ht, hr⟩

/-! ### object identifiers -/

theorem base128_pos {n : Nat} {ts : Bytes} (h : Base128 n ts) : 0 < ts.length := by
  obtain ⟨hi, lo, rfl, _⟩ := h
  simp

theorem oidLoop_complete : ∀ (vs : List Nat) (bs : Bytes) (fuel : Nat), Concat Base128 vs bs → (∀ n ∈ vs, n < 2147483648) → bs.length ≤ fuel →
    oidLoop fuel bs = some vs := by
  intro vs
  induction vs with
  | nil =>
    intro bs fuel h _ _
    simp only [Concat] at h
    subst h
    cases fuel <;> simp [oidLoop]
  | cons n vs ih =>
    intro bs fuel h hf hl
    obtain ⟨x, y, hx, hy, rfl⟩ := h
    have hx0 := base128_pos hx
    rw [List.length_append] at hl
    cases fuel with
    | zero => omega
    | succ fuel =>
      unfold oidLoop
      have hne : x ++ y ≠ [] := by
        intro h
        have := congrArg List.length h
        simp only [List.length_append, List.length_nil] at this
        omega
      rw [if_neg hne, (base128_iff (x ++ y) n y).2 ⟨hf n List.mem_cons_self, x, hx, rfl⟩]
      dsimp only
      rw [ih y fuel hy (fun m hm => hf m (List.mem_cons_of_mem _ hm)) (by omega)]

theorem parseOid_complete {arcs : List Nat} {c : Bytes} (h : OidContent arcs c) (hf : OidFits arcs) : parseOid c = some arcs := by
  obtain ⟨a, b, more, rfl, ha, hb, hc⟩ := h
  unfold parseOid
  simp only [OidFits] at hf
  rw [oidLoop_complete _ c c.length hc (by
    intro n hn
    rcases List.mem_cons.1 hn with rfl | hn
    · exact hf.1
    · exact hf.2 n hn) (Nat.le_refl _)]
  dsimp only
  have : oidSplit (a * 40 + b) = [a, b] := by
    unfold oidSplit
    by_cases h2 : a < 2
    · have := hb h2
      have h80 : a * 40 + b < 80 := by omega
      rw [if_pos h80]
      have e1 : (a * 40 + b) / 40 = a := by omega
      have e2 : (a * 40 + b) % 40 = b := by omega
      rw [e1, e2]
    · have h80 : ¬ a * 40 + b < 80 := by omega
      rw [if_neg h80]
      have e1 : a = 2 := by omega
      subst e1
      have e2 : 2 * 40 + b - 80 = b := by omega
      rw [e2]
  rw [this]
  rfl

end Verif
