import Verif.Model.Merkle
import Verif.Spec.Merkle
/-! Lemmas about the Merkle tree hash and the streaming verifier. -/
namespace Verif
open Verif.Spec

/-! ### `split` is the largest power of two below `n` -/

theorem split_spec (n : Nat) (h : 2 ≤ n) : split n < n ∧ n ≤ 2 * split n := by
  refine ⟨split_lt n h, ?_⟩
  have := Nat.lt_log2_self (n := n - 1)
  unfold split
  rw [Nat.pow_succ] at this
  omega

theorem split_eq (n k : Nat) (h1 : 2 ^ k < n) (h2 : n ≤ 2 ^ (k + 1)) : split n = 2 ^ k := by
  unfold split
  have : Nat.log2 (n - 1) = k := by
    rw [Nat.log2_eq_iff (by have := Nat.two_pow_pos k; omega)]
    omega
  rw [this]

theorem split_isPow (n : Nat) : ∃ k, split n = 2 ^ k := ⟨_, rfl⟩

theorem prevPow2_eq_split (n : Nat) (h : 2 ≤ n) : prevPow2 n = split n := by
  unfold prevPow2 split len64
  rw [if_pos (by omega), if_neg (by omega)]
  simp

/-! ### `mth` -/

theorem mth_nil (H : Bytes → Bytes) : mth H [] = H [] := by rw [mth]

theorem mth_singleton (H : Bytes → Bytes) (x : Bytes) : mth H [x] = leafHash H x := by rw [mth]; rfl

theorem mth_split (H : Bytes → Bytes) (d : List Bytes) (h : 2 ≤ d.length) :
    mth H d = pairHash H (mth H (d.take (split d.length))) (mth H (d.drop (split d.length))) := by
  match d, h with
  | a :: b :: r, _ => rw [mth]; rfl

theorem mth_append (H : Bytes → Bytes) (xs ys : List Bytes) (k : Nat) (h1 : xs.length = 2 ^ k) (h2 : 0 < ys.length)
    (h3 : ys.length ≤ 2 ^ k) : mth H (xs ++ ys) = pairHash H (mth H xs) (mth H ys) := by
  have hs : split (xs ++ ys).length = xs.length := by
    rw [split_eq _ k (by simp; omega) (by rw [List.length_append, Nat.pow_succ]; omega), h1]
  have := Nat.two_pow_pos k
  rw [mth_split H _ (by simp; omega), hs]
  simp

/-! ### trailing zeros -/

theorem trailingZerosAux_spec (fuel n : Nat) (hn : 0 < n) (hf : n ≤ fuel) :
    2 ^ trailingZerosAux fuel n ∣ n ∧ ¬ 2 ^ (trailingZerosAux fuel n + 1) ∣ n := by
  induction fuel generalizing n with
  | zero => omega
  | succ fuel ih =>
    unfold trailingZerosAux
    split
    · simp; omega
    · have h2 : n = 2 * (n / 2) := by omega
      obtain ⟨a, b⟩ := ih (n / 2) (by omega) (by omega)
      constructor
      · rw [Nat.pow_succ, Nat.mul_comm]
        conv => rhs; rw [h2]
        exact Nat.mul_dvd_mul_left 2 a
      · intro hd
        apply b
        rw [Nat.pow_succ, Nat.mul_comm] at hd
        rw [h2] at hd
        exact Nat.dvd_of_mul_dvd_mul_left (show 0 < 2 by decide) (by rwa [show 2 * (n / 2) / 2 = n / 2 by omega] at hd)

theorem trailingZeros_spec (n : Nat) (hn : 0 < n) :
    2 ^ trailingZeros n ∣ n ∧ ¬ 2 ^ (trailingZeros n + 1) ∣ n := trailingZerosAux_spec n n hn (Nat.le_refl _)

theorem pow_dvd_mono {a b n : Nat} (h : a ≤ b) (hd : 2 ^ b ∣ n) : 2 ^ a ∣ n :=
  Nat.dvd_trans (Nat.pow_dvd_pow 2 h) hd

theorem trailingZeros_unique (n k : Nat) (hn : 0 < n) (h1 : 2 ^ k ∣ n) (h2 : ¬ 2 ^ (k + 1) ∣ n) : trailingZeros n = k := by
  obtain ⟨a, b⟩ := trailingZeros_spec n hn
  rcases Nat.lt_trichotomy (trailingZeros n) k with h | h | h
  · exact absurd (pow_dvd_mono h h1) b
  · exact h
  · exact absurd (pow_dvd_mono h a) h2

/-! ### the stack invariant -/

/-- `st` (top first) holds the tree hashes of the binary decomposition of the leaves `xs`. -/
inductive IsStack (H : Bytes → Bytes) : List Bytes → List Bytes → Prop where
  | nil : IsStack H [] []
  | cons (st xs ys : List Bytes) (k : Nat) (h : IsStack H st xs) (hlen : ys.length = 2 ^ k) (hdvd : 2 ^ (k + 1) ∣ xs.length) :
      IsStack H (mth H ys :: st) (xs ++ ys)

theorem dvd_add_pow (k n : Nat) (h : 2 ^ (k + 1) ∣ n) : 2 ^ k ∣ n + 2 ^ k ∧ ¬ 2 ^ (k + 1) ∣ n + 2 ^ k := by
  constructor
  · exact Nat.dvd_add (pow_dvd_mono (Nat.le_succ k) h) (Nat.dvd_refl _)
  · intro hd
    have := (Nat.dvd_add_right h).1 hd
    have := Nat.le_of_dvd (Nat.two_pow_pos k) this
    have := Nat.two_pow_pos k
    rw [Nat.pow_succ] at *
    omega

/-- An odd multiple of `2^k` plus `2^k` is a multiple of `2^(k+1)`. -/
theorem odd_block (k n m : Nat) (h : 2 ^ (k + 1) ∣ n) (hm : 2 ^ k ∣ n + 2 ^ m) (hm2 : ¬ 2 ^ (k + 1) ∣ n + 2 ^ m) : m = k := by
  rcases Nat.lt_trichotomy m k with hlt | heq | hgt
  · have : 2 ^ k ∣ 2 ^ m := (Nat.dvd_add_right (pow_dvd_mono (Nat.le_succ k) h)).1 hm
    have := Nat.le_of_dvd (Nat.two_pow_pos m) this
    have := Nat.pow_lt_pow_right (a := 2) (by decide) hlt
    omega
  · exact heq
  · exact absurd (Nat.dvd_add h (Nat.pow_dvd_pow 2 hgt)) hm2

/-- Pushing a complete subtree and merging as often as the trailing zeros say restores the invariant. -/
theorem mergeStack_push (H : Bytes → Bytes) : ∀ (j : Nat) (st xs ys : List Bytes) (k : Nat), IsStack H st xs →
    ys.length = 2 ^ k → 2 ^ k ∣ xs.length → trailingZeros (xs.length + 2 ^ k) = k + j →
    ∃ st', mergeStack H j (mth H ys :: st) = some st' ∧ IsStack H st' (xs ++ ys) := by
  intro j
  induction j with
  | zero =>
    intro st xs ys k hst hlen hdvd htz
    refine ⟨_, rfl, IsStack.cons st xs ys k hst hlen ?_⟩
    have hp := Nat.two_pow_pos k
    obtain ⟨_, b⟩ := trailingZeros_spec (xs.length + 2 ^ k) (by omega)
    rw [htz, Nat.add_zero] at b
    -- xs.length is an even multiple of 2^k, otherwise the sum would be divisible by 2^(k+1)
    obtain ⟨c, hc⟩ := hdvd
    rw [hc] at b ⊢
    by_cases hev : c % 2 = 0
    · refine ⟨c / 2, ?_⟩
      rw [Nat.pow_succ, Nat.mul_assoc]
      congr 1; omega
    · exfalso; apply b
      refine ⟨(c + 1) / 2, ?_⟩
      rw [Nat.pow_succ, Nat.mul_assoc]
      have : 2 * ((c + 1) / 2) = c + 1 := by omega
      rw [this, Nat.mul_succ]
  | succ j ih =>
    intro st xs ys k hst hlen hdvd htz
    have hp := Nat.two_pow_pos k
    obtain ⟨a, _⟩ := trailingZeros_spec (xs.length + 2 ^ k) (by omega)
    rw [htz] at a
    have a1 : 2 ^ (k + 1) ∣ xs.length + 2 ^ k := pow_dvd_mono (by omega) a
    have hnd : ¬ 2 ^ (k + 1) ∣ xs.length := fun hd => (dvd_add_pow k _ hd).2 a1
    cases hst with
    | nil => exact absurd (Nat.dvd_zero _) hnd
    | cons st0 xs0 ys0 m h0 hl0 hd0 =>
      rw [List.length_append, hl0] at hdvd hnd htz
      have hmk : m = k := by
        rcases Nat.lt_trichotomy m k with hlt | heq | hgt
        · exact absurd (pow_dvd_mono hlt hdvd) (dvd_add_pow m _ hd0).2
        · exact heq
        · exfalso; apply hnd
          exact Nat.dvd_add (pow_dvd_mono (by omega) hd0) (Nat.pow_dvd_pow 2 hgt)
      subst hmk
      have hsum : xs0.length + 2 ^ m + 2 ^ m = xs0.length + 2 ^ (m + 1) := by rw [Nat.pow_succ]; omega
      rw [hsum] at htz
      obtain ⟨st', e, hs⟩ := ih st0 xs0 (ys0 ++ ys) (m + 1) h0
        (by rw [List.length_append, hl0, hlen, Nat.pow_succ]; omega) hd0 (by omega)
      refine ⟨st', ?_, by rw [List.append_assoc]; exact hs⟩
      rw [mergeStack, ← mth_append H ys0 ys m hl0 (by omega) (by omega)]
      exact e

/-- Merging everything gives the tree hash of all leaves. -/
theorem mergeStack_all (H : Bytes → Bytes) (st xs : List Bytes) (hst : IsStack H st xs) :
    ∀ (ys : List Bytes) (m : Nat), 0 < ys.length → ys.length ≤ 2 ^ m → 2 ^ m ∣ xs.length →
    mergeStack H st.length (mth H ys :: st) = some [mth H (xs ++ ys)] := by
  induction hst with
  | nil => intro ys m _ _ _; simp [mergeStack]
  | cons st0 xs0 ys0 k h0 hl0 hd0 ih =>
    intro ys m hpos hle hdvd
    rw [List.length_append, hl0] at hdvd
    have hmk : m ≤ k := by
      rcases Nat.lt_or_ge k m with hlt | hge
      · exact absurd (pow_dvd_mono hlt hdvd) (dvd_add_pow k _ hd0).2
      · exact hge
    have hpw := Nat.pow_le_pow_right (n := 2) (by decide) hmk
    rw [List.length_cons, mergeStack, ← mth_append H ys0 ys k hl0 hpos (by omega), List.append_assoc]
    apply ih (ys0 ++ ys) (k + 1)
    · rw [List.length_append]; omega
    · rw [List.length_append, hl0, Nat.pow_succ]; omega
    · exact hd0

/-- State of the verifier after consuming `xs`. -/
def VerifierInv (H : Bytes → Bytes) (t : Subtree) (v : Verifier) (xs : List Bytes) : Prop :=
  v.subtree = t ∧ v.numConsumed = xs.length ∧
  (xs.length < t.size → IsStack H v.stack xs) ∧
  (xs.length = t.size → v.stack = [mth H xs]) ∧
  (t.size ≤ xs.length → v.stack.length = 1)

theorem mergeStack_len (H : Bytes → Bytes) : ∀ (n : Nat) (st : List Bytes), st.length = n + 1 →
    ∃ x, mergeStack H n st = some [x] := by
  intro n
  induction n with
  | zero =>
    intro st h
    match st, h with
    | [x], _ => exact ⟨x, rfl⟩
  | succ n ih =>
    intro st h
    match st, h with
    | r :: l :: st, h =>
      simp only [mergeStack]
      apply ih
      simp at h ⊢
      omega

theorem consume_inv (H : Bytes → Bytes) (t : Subtree) (ht : 0 < t.size) (v : Verifier) (xs : List Bytes) (d : Bytes)
    (h : VerifierInv H t v xs) : ∃ v', v.consume H d = some v' ∧ VerifierInv H t v' (xs ++ [d]) := by
  obtain ⟨h1, h2, h3, h4, h5⟩ := h
  unfold Verifier.consume
  dsimp only
  have hst : (if v.numConsumed = 0 then [] else v.stack) = v.stack ∨ xs.length = 0 := by
    by_cases e : v.numConsumed = 0
    · right; omega
    · left; simp [e]
  have hst' : (if v.numConsumed = 0 then [] else v.stack) = v.stack := by
    rcases hst with e | e
    · exact e
    · have hs := h3 (by omega)
      have : xs = [] := List.length_eq_zero_iff.1 e
      subst this
      have hnil : v.stack = [] := by
        generalize v.stack = s at hs
        generalize hx : ([] : List Bytes) = x0 at hs
        cases hs with
        | nil => rfl
        | cons st0 xs0 ys0 k _ hl _ =>
          have := Nat.two_pow_pos k
          have e2 := congrArg List.length hx
          rw [List.length_append] at e2
          simp only [List.length_nil] at e2
          omega
      simp [hnil]
  rw [hst', h1, h2]
  by_cases hge : xs.length + 1 ≥ t.size
  · rw [if_pos hge]
    by_cases heq : xs.length + 1 = t.size
    · have hs := h3 (by omega)
      have hm := mergeStack_all H v.stack xs hs [d] 0 (by simp) (by simp) (by simp)
      rw [mth_singleton] at hm
      simp only [List.length_cons, Nat.add_sub_cancel, hm]
      refine ⟨_, rfl, rfl, by simp, ?_, ?_, ?_⟩
      · intro hlt; simp at hlt; omega
      · intro _; rfl
      · intro _; rfl
    · have hl := h5 (by omega)
      obtain ⟨x, hx⟩ := mergeStack_len H v.stack.length (leafHash H d :: v.stack) (by simp)
      simp only [List.length_cons, Nat.add_sub_cancel, hx]
      refine ⟨_, rfl, rfl, by simp, ?_, ?_, ?_⟩
      · intro hlt; simp at hlt; omega
      · intro he; simp at he; omega
      · intro _; rfl
  · rw [if_neg hge]
    have hs := h3 (by omega)
    obtain ⟨st', e, hs'⟩ := mergeStack_push H (trailingZeros (xs.length + 1)) v.stack xs [d] 0 hs (by simp) (by simp)
      (by simp)
    rw [mth_singleton] at e
    simp only [e]
    refine ⟨_, rfl, rfl, by simp, fun _ => hs', ?_, ?_⟩
    · intro he; simp at he; omega
    · intro he; simp at he; omega

theorem consumeAll_inv (H : Bytes → Bytes) (t : Subtree) (ht : 0 < t.size) (ds : List Bytes) :
    ∀ (v : Verifier) (xs : List Bytes), VerifierInv H t v xs →
      ∃ v', v.consumeAll H ds = some v' ∧ VerifierInv H t v' (xs ++ ds) := by
  induction ds with
  | nil => intro v xs h; exact ⟨v, rfl, by simpa using h⟩
  | cons d ds ih =>
    intro v xs h
    obtain ⟨v1, e1, h1⟩ := consume_inv H t ht v xs d h
    obtain ⟨v2, e2, h2⟩ := ih v1 _ h1
    refine ⟨v2, ?_, by simpa using h2⟩
    simp only [Verifier.consumeAll, e1, e2]

theorem newVerifier_inv (H : Bytes → Bytes) (t : Subtree) (ht : 0 < t.size) : VerifierInv H t (newVerifier t) [] := by
  refine ⟨rfl, rfl, fun _ => IsStack.nil, ?_, ?_⟩
  · intro h; simp at h; omega
  · intro h; simp at h; omega

theorem length_mth (H : Bytes → Bytes) (n : Nat) (hH : ∀ x, (H x).length = n) (d : List Bytes) : (mth H d).length = n := by
  match d with
  | [] => rw [mth_nil]; exact hH _
  | [x] => rw [mth_singleton]; exact hH _
  | a :: b :: r => rw [mth_split H _ (by simp)]; exact hH _

/-! ### subtree ranges -/

theorem size_two_le {first last : Nat} (h : first < last) : 2 ≤ (Subtree.mk [] first last).size := by
  unfold Subtree.size; dsimp only; omega

theorem and_pred_eq_zero (n : Nat) (hn : 0 < n) : n &&& (n - 1) = 0 ↔ ∃ k, n = 2 ^ k := by
  induction n using Nat.strongRecOn with
  | _ n ih =>
    by_cases hodd : n % 2 = 1
    · by_cases h1 : n = 1
      · subst h1; simp; exact ⟨0, rfl⟩
      · have hbit : (n &&& (n - 1)).testBit (Nat.log2 n) = true := by
          rw [Nat.testBit_and]
          have hl : 1 ≤ Nat.log2 n := by
            rw [Nat.le_log2 (by omega)]; omega
          have : n - 1 = 2 * (n / 2) := by omega
          have hn2 : n = 2 * (n / 2) + 1 := by omega
          obtain ⟨j, hj⟩ : ∃ j, Nat.log2 n = j + 1 := ⟨Nat.log2 n - 1, by omega⟩
          rw [hj, Nat.testBit_succ, Nat.testBit_succ, show (n - 1) / 2 = n / 2 by omega, Bool.and_self,
            ← Nat.testBit_succ]
          change n.testBit (j + 1) = true
          rw [← hj]
          exact Nat.testBit_log2 (by omega)
        constructor
        · intro h; rw [h] at hbit; simp at hbit
        · rintro ⟨k, hk⟩
          exfalso
          cases k with
          | zero => omega
          | succ k => rw [Nat.pow_succ] at hk; omega
    · have h2 : n = 2 * (n / 2) := by omega
      have ih' := ih (n / 2) (by omega) (by omega)
      have key : n &&& (n - 1) = 2 * (n / 2 &&& (n / 2 - 1)) := by
        apply Nat.eq_of_testBit_eq
        intro i
        cases i with
        | zero =>
          rw [Nat.testBit_and, Nat.testBit_zero, Nat.testBit_zero, Nat.testBit_zero]
          have : n % 2 = 0 := by omega
          simp [this]
        | succ i =>
          rw [Nat.testBit_and, Nat.testBit_succ, Nat.testBit_succ, Nat.testBit_succ, show (n - 1) / 2 = n / 2 - 1 by omega,
            ← Nat.testBit_and, Nat.mul_div_cancel_left _ (by decide)]
      rw [key]
      constructor
      · intro h
        obtain ⟨k, hk⟩ := ih'.1 (by omega)
        exact ⟨k + 1, by rw [Nat.pow_succ]; omega⟩
      · rintro ⟨k, hk⟩
        cases k with
        | zero => omega
        | succ k =>
          rw [Nat.pow_succ] at hk
          have := ih'.2 ⟨k, by omega⟩
          omega

end Verif
