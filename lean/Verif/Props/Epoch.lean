import Verif.Model.Epoch
import Verif.Props.Commit
import Verif.Props.Storage
import Verif.Props.Time
/-!
Property C89: the epoch file and the end of a commit.
-/
namespace Verif.Spec

/-- The number a text of decimal digits stands for, most significant first. -/
def decimalValue : Text → Nat
  | [] => 0
  | c :: cs => (c.toNat - 48) * 10 ^ cs.length + decimalValue cs

/-- Decimal digits only, at least one. -/
def Decimal (t : Text) : Prop := t ≠ [] ∧ ∀ c ∈ t, '0' ≤ c ∧ c ≤ '9'

/-- The consistency condition of the two epochs. -/
def EpochsMatch (cache disk : Nat) : Prop := cache = disk + 1 ∨ cache = 0 ∧ disk = 0

end Verif.Spec

namespace Verif
open Verif.Spec

theorem digitsFrom_append (s t : Text) : ∀ acc, digitsFrom acc (s ++ t) = (digitsFrom acc s).bind (fun a => digitsFrom a t) := by
  induction s with
  | nil => intro acc; rfl
  | cons c s ih =>
    intro acc
    simp only [List.cons_append, digitsFrom]
    cases decVal c with
    | none => rfl
    | some v => exact ih _

theorem natText_digits (n : Nat) : natText n ≠ [] ∧ digitsFrom 0 (natText n) = some n ∧ ∀ c ∈ natText n, ∃ k, k < 10 ∧ c = decDigit k := by
  induction n using Nat.strongRecOn with
  | _ n ih =>
    unfold natText
    split
    · rename_i h
      refine ⟨by simp, by simp [digitsFrom, decVal_decDigit n h], fun c hc => ⟨n, h, by simpa using hc⟩⟩
    · rename_i h
      obtain ⟨a, b, c⟩ := ih (n / 10) (by omega)
      refine ⟨by simp, ?_, ?_⟩
      · rw [digitsFrom_append, b]
        simp only [Option.bind_some, digitsFrom, decVal_decDigit (n % 10) (by omega)]
        congr 1
        omega
      · intro x hx
        rcases List.mem_append.1 hx with hx | hx
        · exact c x hx
        · exact ⟨n % 10, by omega, by simpa using hx⟩

theorem natText_prefix (n : Nat) (p : Text) (hp : p <+: natText n) (hne : p ≠ []) :
    ∃ m, digitsFrom 0 p = some m ∧ m ≤ n ∧ (p ≠ natText n → m < n) := by
  induction n using Nat.strongRecOn generalizing p with
  | _ n ih =>
    by_cases he : p = natText n
    · exact ⟨n, by rw [he]; exact (natText_digits n).2.1, Nat.le_refl _, fun h => absurd he h⟩
    · rw [natText] at hp
      split at hp
      · rename_i h
        exfalso
        apply he
        rw [natText, if_pos h]
        obtain ⟨r, hr⟩ := hp
        cases p with
        | nil => exact absurd rfl hne
        | cons c p =>
          rw [List.cons_append, List.cons.injEq, List.append_eq_nil_iff] at hr
          rw [hr.1, hr.2.1]
      · rename_i h
        have hp' : p <+: natText (n / 10) := by
          rcases List.prefix_concat_iff.1 hp with e | e
          · exfalso
            apply he
            rw [natText, if_neg h]
            exact e
          · exact e
        obtain ⟨m, h1, h2, _⟩ := ih (n / 10) (by omega) p hp' hne
        exact ⟨m, h1, by omega, fun _ => by omega⟩

theorem digit_plain {t : Text} (h : ∀ c ∈ t, ∃ k, k < 10 ∧ c = decDigit k) : '\n' ∉ t ∧ '\r' ∉ t := by
  have hd : ∀ k : Fin 10, decDigit k.val ≠ '\n' ∧ decDigit k.val ≠ '\r' := by decide
  constructor
  · intro hm
    obtain ⟨k, hk, e⟩ := h _ hm
    exact (hd ⟨k, hk⟩).1 e.symm
  · intro hm
    obtain ⟨k, hk, e⟩ := h _ hm
    exact (hd ⟨k, hk⟩).2 e.symm

theorem length_natText (n : Nat) (k : Nat) (h : n < 10 ^ k) (hk : 1 ≤ k) : (natText n).length ≤ k := by
  induction k generalizing n with
  | zero => omega
  | succ k ih =>
    unfold natText
    split
    · simp
    · rename_i hn
      rw [List.length_append]
      have hk1 : 1 ≤ k := by
        cases k with
        | zero => simp at h; omega
        | succ k => omega
      have := ih (n / 10) (by rw [Nat.pow_succ] at h; omega) hk1
      simp only [List.length_singleton]
      omega

theorem length_natText64 (n : Nat) (h : n < 2 ^ 64) : (natText n).length ≤ 20 := length_natText n 20 (by omega) (by omega)

theorem parseUint64_of {t : Text} {m : Nat} (hne : t ≠ []) (h : digitsFrom 0 t = some m) (hm : m < 2 ^ 64) : parseUint64 t = some m := by
  cases t with
  | nil => exact absurd rfl hne
  | cons c cs =>
    unfold parseUint64
    dsimp only
    rw [h]
    dsimp only
    rw [if_pos hm]

theorem put_fold (cs : Text) : ∀ w : BufW, w.err = false → w.buf.length + cs.length ≤ bufSize →
    cs.foldl (BufW.put bufSize) w = { w with buf := w.buf ++ cs } := by
  induction cs with
  | nil => intro w _ _; simp
  | cons c cs ih =>
    intro w he hl
    rw [List.length_cons] at hl
    have : w.put bufSize c = { w with buf := w.buf ++ [c] } := by
      unfold BufW.put
      rw [he]
      simp only [Bool.false_eq_true, if_false]
      rw [if_neg (by omega)]
    rw [List.foldl_cons, this, ih { w with buf := w.buf ++ [c] } he (by simp only [List.length_append, List.length_singleton]; omega)]
    simp

theorem epochFlushed_eq (room e : Nat) (he : e < 2 ^ 64) : epochFlushed room e = (epochText e).take room := by
  have hl : (epochText e).length ≤ 21 := by
    unfold epochText
    rw [List.length_append]
    have := length_natText64 e he
    simp only [List.length_singleton]
    omega
  unfold epochFlushed
  rw [put_fold _ _ rfl (by simp only [List.length_nil, Nat.zero_add]; exact Nat.le_trans hl (by decide))]
  unfold BufW.flush
  simp only [List.nil_append, Bool.false_eq_true, if_false]
  split
  · rename_i h; rw [List.take_of_length_le h]
  · rfl

theorem readEpoch_plain {t : Text} (h : ∀ c ∈ t, ∃ k, k < 10 ∧ c = decDigit k) (hl : t.length ≤ 20) (hne : t ≠ []) :
    readEpoch (some t) = parseUint64 t ∧ readEpoch (some (t ++ ['\n'])) = parseUint64 t := by
  obtain ⟨a, b⟩ := digit_plain h
  have hm : ¬ maxScanToken ≤ t.length := by unfold maxScanToken; omega
  constructor
  · unfold readEpoch
    dsimp only
    rw [splitLines_open t a b hne]
    dsimp only
    rw [if_neg hm]
  · unfold readEpoch
    dsimp only
    rw [show t ++ ['\n'] = t ++ '\n' :: [] from rfl, splitLines_line t [] a b]
    dsimp only
    rw [if_neg hm]

end Verif

namespace Verif.Props
open Verif Verif.Spec

/-- **C89 (read back).** The epoch that a commit writes is the epoch that is read; a missing or empty file means 0. -/
theorem C89_read_back (e : Nat) (he : e < 2 ^ 64) : readEpoch (some (epochText e)) = some e ∧ readEpoch none = some 0 ∧ readEpoch (some []) = some 0 := by
  obtain ⟨a, b, c⟩ := natText_digits e
  refine ⟨?_, rfl, rfl⟩
  unfold epochText
  rw [(readEpoch_plain c (length_natText64 e he) a).2, parseUint64_of a b he]

/-- **C89 (what is read).** An epoch that is read from one line of text is the number that line stands for: it consists of digits only, and the number fits. -/
theorem C89_read_exact (t : Text) (hn : '\n' ∉ t) (hr : '\r' ∉ t) (hl : t.length < 65536) (e : Nat) :
    readEpoch (some t) = some e ↔ (t = [] ∧ e = 0) ∨ (Decimal t ∧ decimalValue t = e ∧ e < 2 ^ 64) := by
  have hdv : ∀ c : Char, decVal c = if '0' ≤ c ∧ c ≤ '9' then some (c.toNat - 48) else none := by
    intro c
    rfl
  have hdig : ∀ (t : Text) (acc : Nat), digitsFrom acc t =
      if ∀ c ∈ t, '0' ≤ c ∧ c ≤ '9' then some (acc * 10 ^ t.length + decimalValue t) else none := by
    intro t
    induction t with
    | nil => intro acc; simp [digitsFrom, decimalValue]
    | cons c t ih =>
      intro acc
      unfold digitsFrom
      rw [hdv]
      by_cases hc : '0' ≤ c ∧ c ≤ '9'
      · rw [if_pos hc]
        dsimp only
        rw [ih]
        by_cases ht : ∀ c ∈ t, '0' ≤ c ∧ c ≤ '9'
        · rw [if_pos ht, if_pos (by intro x hx; rcases List.mem_cons.1 hx with e | e; exact e ▸ hc; exact ht x e)]
          rw [decimalValue, List.length_cons, Nat.pow_succ, Nat.add_mul, Nat.mul_assoc, Nat.mul_comm 10, Nat.add_assoc]
        · rw [if_neg ht, if_neg (fun h => ht (fun x hx => h x (List.mem_cons_of_mem _ hx)))]
      · rw [if_neg hc, if_neg (fun h => hc (h c List.mem_cons_self))]
  cases t with
  | nil => simp [readEpoch, splitLines_nil, Decimal, eq_comm]
  | cons c t =>
    unfold readEpoch
    dsimp only
    rw [splitLines_open _ hn hr (by simp)]
    dsimp only
    rw [if_neg (by unfold maxScanToken; omega)]
    unfold parseUint64 Decimal
    dsimp only
    rw [hdig]
    by_cases hc : ∀ x ∈ c :: t, '0' ≤ x ∧ x ≤ '9'
    · rw [if_pos hc]
      dsimp only
      rw [Nat.zero_mul, Nat.zero_add]
      constructor
      · intro h
        split at h
        · rename_i hlt
          rw [Option.some.injEq] at h
          exact Or.inr ⟨⟨by simp, hc⟩, h, h ▸ hlt⟩
        · cases h
      · rintro (⟨h, _⟩ | ⟨_, h, hlt⟩)
        · cases h
        · rw [h, if_pos hlt]
    · rw [if_neg hc]
      dsimp only
      constructor
      · intro h; cases h
      · rintro (⟨h, _⟩ | ⟨h, _⟩)
        · cases h
        · exact absurd h.2 hc

/-- **C89 (cut).** If the disk fills up while the epoch is written, what replaces the epoch file reads as a number that is not larger, and as the right one only if all
digits were written (or it is 0). -/
theorem C89_cut (room e : Nat) (he : e < 2 ^ 64) :
    ∃ m, readEpoch (some (epochFlushed room e)) = some m ∧ m ≤ e ∧ (m = e ↔ (natText e).length ≤ room ∨ e = 0) := by
  rw [epochFlushed_eq room e he]
  obtain ⟨hne, hd, hc⟩ := natText_digits e
  have hl := length_natText64 e he
  by_cases hr : (natText e).length ≤ room
  · refine ⟨e, ?_, Nat.le_refl _, by simp [hr]⟩
    have : (epochText e).take room = natText e ∨ (epochText e).take room = natText e ++ ['\n'] := by
      unfold epochText
      by_cases h : room = (natText e).length
      · left; rw [h, List.take_left]
      · right; rw [List.take_of_length_le]; rw [List.length_append, List.length_singleton]; omega
    rcases this with h | h
    · rw [h, (readEpoch_plain hc hl hne).1, parseUint64_of hne hd he]
    · rw [h, (readEpoch_plain hc hl hne).2, parseUint64_of hne hd he]
  · have ht : (epochText e).take room = (natText e).take room := by
      unfold epochText
      rw [List.take_append_of_le_length (by omega)]
    rw [ht]
    by_cases h0 : (natText e).take room = []
    · refine ⟨0, by rw [h0]; rfl, Nat.zero_le _, ?_⟩
      constructor
      · intro h; exact Or.inr h.symm
      · rintro (h | h)
        · exact absurd h hr
        · exact h.symm
    · have hpre : (natText e).take room <+: natText e := List.take_prefix _ _
      obtain ⟨m, h1, h2, h3⟩ := natText_prefix e _ hpre h0
      have hlt : m < e := h3 (by
        intro h
        have := congrArg List.length h
        rw [List.length_take] at this
        omega)
      refine ⟨m, ?_, h2, ?_⟩
      · rw [(readEpoch_plain (fun c hcm => hc c (hpre.subset hcm)) (by rw [List.length_take]; omega) h0).1, parseUint64_of h0 h1 (by omega)]
      · constructor
        · intro h; omega
        · rintro (h | h)
          · exact absurd h hr
          · omega

/-- **C89 (end of a commit).** Full statement: if the epochs match before and `Commit` returns `nil`, they match afterwards. It is proved when the epoch was written
completely and Redis counts once if it says so and otherwise not at all. Missing: see `C89_flush_ignored_fails`, `C89_lost_answer_fails` and
`C89_counted_again_fails`. -/
theorem C89_success_partial (env : EpochEnv) (e d : Nat) (file : Option Text) (he : e < 2 ^ 64) (hd : readEpoch file = some d) (hm : EpochsMatch e d)
    (hroom : (natText e).length ≤ env.room) (hincr : env.incrs = if env.incrOK then 1 else 0) (hok : (epochTail env e file).2.2 = true) :
    ∃ d', readEpoch (epochTail env e file).2.1 = some d' ∧ EpochsMatch (epochTail env e file).1 d' := by
  unfold epochTail at hok ⊢
  cases h1 : env.tempOK with
  | false => simp only [Bool.false_eq_true, if_false]; exact ⟨d, hd, hm⟩
  | true =>
    rw [h1] at hok
    rw [hincr] at hok ⊢
    cases h2 : env.incrOK with
    | false => simp only [Bool.false_eq_true, if_false, if_true, Nat.add_zero]; exact ⟨d, hd, hm⟩
    | true =>
      rw [h2] at hok
      cases h3 : env.replaceOK with
      | false => rw [h3] at hok; simp at hok
      | true =>
        simp only [if_true]
        obtain ⟨m, hr, _, hi⟩ := C89_cut env.room e he
        have := hi.2 (Or.inl hroom)
        subst this
        exact ⟨m, hr, Or.inl rfl⟩

/-- **C89 (detected).** However the end of a commit goes: either the epochs match afterwards or they do not match, and then the epoch that is read makes every further
commit refuse to start until ct-fetch has restored the cache (C34_disagreement_repaired); in no case is the epoch file unreadable. -/
theorem C89_always_readable (env : EpochEnv) (e d : Nat) (file : Option Text) (he : e < 2 ^ 64) (hd : readEpoch file = some d) (hm : EpochsMatch e d)
    (hincr : env.incrOK = true → 0 < env.incrs) :
    ∃ d', readEpoch (epochTail env e file).2.1 = some d' ∧ (d' = d ∨ d' ≤ e) ∧
      (EpochsMatch (epochTail env e file).1 d' ∨ (d' + 1 < (epochTail env e file).1)) := by
  unfold epochTail
  have hc := C89_cut env.room e he
  obtain ⟨m, hr, hle, hi⟩ := hc
  unfold EpochsMatch at hm ⊢
  cases env.tempOK with
  | false => simp only [Bool.false_eq_true, if_false]; exact ⟨d, hd, Or.inl rfl, Or.inl hm⟩
  | true =>
    simp only [if_true]
    cases hok : env.incrOK with
    | false => simp only [Bool.false_eq_true, if_false]; exact ⟨d, hd, Or.inl rfl, by omega⟩
    | true =>
      have := hincr hok
      cases env.replaceOK with
      | false => simp only [Bool.false_eq_true, if_false, if_true]; exact ⟨d, hd, Or.inl rfl, by omega⟩
      | true => simp only [if_true]; exact ⟨m, hr, Or.inr hle, by omega⟩

/-- **C89 fails (ignored flush).** The comment at line 632 says that a failed replacement is the one case with inconsistent epochs. It is not: the disk is full when the
epoch is flushed, the empty file replaces the old one, and `Commit` returns `nil`. -/
theorem C89_flush_ignored_fails :
    ∃ env : EpochEnv, env.tempOK = true ∧ env.incrs = 1 ∧ env.incrOK = true ∧ env.replaceOK = true ∧
      ∃ e d file, readEpoch file = some d ∧ EpochsMatch e d ∧ (epochTail env e file).2.2 = true ∧
        ∃ d', readEpoch (epochTail env e file).2.1 = some d' ∧ ¬ EpochsMatch (epochTail env e file).1 d' := by
  refine ⟨⟨true, 0, 1, true, true⟩, rfl, rfl, rfl, rfl, 12, 11, some (epochText 11), (C89_read_back 11 (by omega)).1, Or.inl rfl, rfl, 0, ?_, ?_⟩
  · show readEpoch (some (epochFlushed 0 12)) = some 0
    rw [epochFlushed_eq 0 12 (by omega)]
    rfl
  · show ¬ (13 = 0 + 1 ∨ 13 = 0 ∧ 0 = 0)
    omega

/-- **C89 fails (lost answer).** Redis counts but the answer is lost: `Commit` returns `nil` with inconsistent epochs. -/
theorem C89_lost_answer_fails :
    ∃ env : EpochEnv, env.tempOK = true ∧ env.incrs = 1 ∧ env.incrOK = false ∧
      ∃ e d file, readEpoch file = some d ∧ EpochsMatch e d ∧ (epochTail env e file).2.2 = true ∧
        ∃ d', readEpoch (epochTail env e file).2.1 = some d' ∧ ¬ EpochsMatch (epochTail env e file).1 d' := by
  refine ⟨⟨true, 100, 1, false, true⟩, rfl, rfl, rfl, 12, 11, some (epochText 11), (C89_read_back 11 (by omega)).1, Or.inl rfl, rfl, 11,
    (C89_read_back 11 (by omega)).1, ?_⟩
  show ¬ (13 = 11 + 1 ∨ 13 = 0 ∧ 11 = 0)
  omega

/-- **C89 fails (counted again).** Nothing fails that anybody reports: the first answer of Redis is lost, the client asks again and is answered. Then the cache's epoch
is ahead by more than one, at whatever epoch this happens, although `Commit` has written everything and returns `nil`; no further commit starts until ct-fetch is
started again. -/
theorem C89_counted_again_fails (env : EpochEnv) (e : Nat) (file : Option Text) (he : e < 2 ^ 64) (hroom : (natText e).length ≤ env.room) (h1 : env.tempOK = true)
    (h2 : env.incrOK = true) (h3 : env.replaceOK = true) (hincr : 2 ≤ env.incrs) :
    (epochTail env e file).2.2 = true ∧ readEpoch (epochTail env e file).2.1 = some e ∧ ¬ EpochsMatch (epochTail env e file).1 e ∧
      epochsAgree (epochTail env e file).1 e = false := by
  obtain ⟨m, hr, _, hi⟩ := C89_cut env.room e he
  have hm := hi.2 (Or.inl hroom)
  subst hm
  unfold epochTail
  rw [h1, h2, h3]
  have hne : ¬ EpochsMatch (m + env.incrs) m := by
    unfold EpochsMatch
    omega
  refine ⟨rfl, hr, hne, ?_⟩
  cases h : epochsAgree (m + env.incrs) m with
  | false => exact h
  | true =>
    exfalso
    unfold epochsAgree at h
    simp at h
    omega

/-- **C89 fails (a lost cache that nobody notices).** Full statement: once two commits have completed, the loss of the cache is noticed
(`C34_reset_detected_partial`). It is false with the ignored flush: after the disk was full once, at any epoch, an empty cache matches, and ct-fetch starts with no log
states although there is stored coverage. -/
theorem C89_reset_unnoticed_fails (e : Nat) (he : e < 2 ^ 64) (file : Option Text) (stored : List CTLogState) :
    let env : EpochEnv := ⟨true, 0, 1, true, true⟩
    (epochTail env e file).2.2 = true ∧ readEpoch (epochTail env e file).2.1 = some 0 ∧ EpochsMatch 0 0 ∧
      ∀ lockFree n, (ensureConsistent { logs := [], epoch := 0 } 0 (some stored) lockFree n).logs = [] := by
  refine ⟨rfl, ?_, Or.inr ⟨rfl, rfl⟩, fun _ _ => rfl⟩
  show readEpoch (some (epochFlushed 0 e)) = some 0
  rw [epochFlushed_eq 0 e he]
  rfl

example : (epochText 18446744073709551615) = "18446744073709551615\n".toList ∧ (18446744073709551615 : Nat) < 2 ^ 64 := by
  constructor
  · simp [epochText, natText, decDigit]
  · omega

/-- The digits of 1207 cut after two: read as 12. -/
example : ∃ m, readEpoch (some (epochFlushed 2 1207)) = some m ∧ m = 12 := by
  refine ⟨12, ?_, rfl⟩
  rw [epochFlushed_eq 2 1207 (by omega)]
  have : (epochText 1207).take 2 = "12".toList := by simp [epochText, natText, decDigit]
  rw [this]
  decide +kernel

/-- The hypotheses of the theorems about the end of a commit, at the very first commit and later. -/
example : readEpoch none = some 0 ∧ EpochsMatch 0 0 ∧ readEpoch (some "11\n".toList) = some 11 ∧ EpochsMatch 12 11 := by
  refine ⟨rfl, Or.inr ⟨rfl, rfl⟩, by decide +kernel, Or.inl rfl⟩

example : readEpoch (some "x1".toList) = none ∧ readEpoch (some "18446744073709551616".toList) = none ∧ readEpoch (some "+1".toList) = none := by decide +kernel

/-! ### each theorem applied -/

theorem natText_11 : natText 11 = "11".toList := by simp [natText, decDigit]

example := C89_read_back 18446744073709551615 (by decide)
example := C89_read_exact "011".toList (by decide) (by decide) (by decide) 11
example := C89_cut 2 1207 (by decide)
example := C89_success_partial ⟨true, 3, 1, true, true⟩ 11 10 (some "10\n".toList) (by decide) (by decide +kernel) (Or.inl rfl) (by rw [natText_11]; decide) rfl rfl
example := C89_counted_again_fails ⟨true, 3, 2, true, true⟩ 11 (some "10\n".toList) (by decide) (by rw [natText_11]; decide) rfl rfl rfl (by decide)
example := C89_always_readable ⟨true, 3, 3, true, true⟩ 11 10 (some "10\n".toList) (by decide) (by decide +kernel) (Or.inl rfl) (fun _ => by decide)
example := C89_always_readable ⟨true, 1, 1, false, true⟩ 11 10 (some "10\n".toList) (by decide) (by decide +kernel) (Or.inl rfl) (fun h => by cases h)

end Verif.Props
