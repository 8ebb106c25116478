import Verif.Model.Text
/-! Lemmas about hexadecimal, lines and byte order. -/
namespace Verif

theorem hexVal_hexDigit {n : Nat} (h : n < 16) : hexVal (hexDigit n) = some n := by
  have : ∀ n : Fin 16, hexVal (hexDigit n.val) = some n.val := by decide
  exact this ⟨n, h⟩

theorem hexDigit_ne_newline {n : Nat} (h : n < 16) : hexDigit n ≠ '\n' ∧ hexDigit n ≠ '\r' ∧ hexDigit n ≠ '@'
    ∧ hexDigit n ≠ '+' ∧ hexDigit n ≠ '"' ∧ hexDigit n ≠ '-' ∧ hexDigit n ≠ ':' := by
  have : ∀ n : Fin 16, hexDigit n.val ≠ '\n' ∧ hexDigit n.val ≠ '\r' ∧ hexDigit n.val ≠ '@'
    ∧ hexDigit n.val ≠ '+' ∧ hexDigit n.val ≠ '"' ∧ hexDigit n.val ≠ '-' ∧ hexDigit n.val ≠ ':' := by decide
  exact this ⟨n, h⟩

/-- Characters of hexadecimal text. -/
def IsHexChar (c : Char) : Prop := ∃ n, n < 16 ∧ c = hexDigit n

theorem isHexChar_of_mem_hexEncode {bs : Bytes} {c : Char} (h : c ∈ hexEncode bs) : IsHexChar c := by
  induction bs with
  | nil => simp [hexEncode] at h
  | cons b bs ih =>
    simp only [hexEncode, List.mem_cons] at h
    have hb : b.toNat < 256 := b.toNat_lt
    rcases h with h | h | h
    · exact ⟨_, by omega, h⟩
    · exact ⟨_, by omega, h⟩
    · exact ih h

theorem hexDecode_hexEncode (bs : Bytes) : hexDecode (hexEncode bs) = some bs := by
  induction bs with
  | nil => rfl
  | cons b bs ih =>
    have hb : b.toNat < 256 := b.toNat_lt
    simp only [hexEncode, hexDecode, ih, hexVal_hexDigit (show b.toNat / 16 < 16 by omega),
      hexVal_hexDigit (show b.toNat % 16 < 16 by omega)]
    congr 2
    rw [show b.toNat / 16 * 16 + b.toNat % 16 = b.toNat by omega]
    exact UInt8.ofNat_toNat

theorem hexEncode_injective {a b : Bytes} (h : hexEncode a = hexEncode b) : a = b := by
  have := hexDecode_hexEncode a
  rw [h, hexDecode_hexEncode] at this
  exact (Option.some.inj this).symm

theorem length_hexEncode (bs : Bytes) : (hexEncode bs).length = 2 * bs.length := by
  induction bs with
  | nil => rfl
  | cons b bs ih => simp [hexEncode, ih]; omega

theorem hexEncode_append (a b : Bytes) : hexEncode (a ++ b) = hexEncode a ++ hexEncode b := by
  induction a with
  | nil => rfl
  | cons x a ih => simp [hexEncode, ih]

theorem dropCR_eq_self {l : Text} (h : '\r' ∉ l) : dropCR l = l := by
  unfold dropCR
  split
  · rename_i hl
    exact absurd (List.mem_of_getLast? hl) h
  · rfl

theorem splitLinesAux_line (l : Text) (rest acc : Text) (h : '\n' ∉ l) :
    splitLinesAux (l ++ '\n' :: rest) acc = dropCR (acc.reverse ++ l) :: splitLines rest := by
  induction l generalizing acc with
  | nil => simp [splitLinesAux, splitLines]
  | cons c cs ih =>
    have hc : c ≠ '\n' := fun e => h (by simp [e])
    have hcs : '\n' ∉ cs := fun e => h (by simp [e])
    simp only [List.cons_append, splitLinesAux, hc, if_false]
    rw [ih _ hcs]
    simp

theorem splitLines_line (l rest : Text) (h : '\n' ∉ l) (hr : '\r' ∉ l) :
    splitLines (l ++ '\n' :: rest) = l :: splitLines rest := by
  have := splitLinesAux_line l rest [] h
  simpa [splitLines, dropCR_eq_self hr] using this

theorem splitLines_nil : splitLines [] = [] := rfl

theorem splitLinesAux_open (l acc : Text) (h : '\n' ∉ l) (hne : acc.reverse ++ l ≠ []) : splitLinesAux l acc = [dropCR (acc.reverse ++ l)] := by
  induction l generalizing acc with
  | nil =>
    cases acc with
    | nil => exact absurd rfl hne
    | cons a acc => simp [splitLinesAux]
  | cons c cs ih =>
    have hc : c ≠ '\n' := fun e => h (by simp [e])
    have hcs : '\n' ∉ cs := fun e => h (by simp [e])
    simp only [splitLinesAux, hc, if_false]
    rw [ih _ hcs (by simp)]
    simp

/-- A last line without line end is a line. -/
theorem splitLines_open (l : Text) (h : '\n' ∉ l) (hr : '\r' ∉ l) (hne : l ≠ []) : splitLines l = [l] := by
  have := splitLinesAux_open l [] h (by simpa using hne)
  simpa [splitLines, dropCR_eq_self hr] using this

/-- Lines joined with a newline after each one. -/
def joinLines (ls : List Text) : Text := (ls.map (fun l => l ++ ['\n'])).flatten

theorem joinLines_cons (l : Text) (ls : List Text) : joinLines (l :: ls) = l ++ '\n' :: joinLines ls := by
  simp [joinLines]

theorem joinLines_append (a b : List Text) : joinLines (a ++ b) = joinLines a ++ joinLines b := by
  simp [joinLines]

theorem splitLines_joinLines (ls : List Text) (h : ∀ l ∈ ls, '\n' ∉ l ∧ '\r' ∉ l) :
    splitLines (joinLines ls) = ls := by
  induction ls with
  | nil => rfl
  | cons l ls ih =>
    rw [joinLines_cons, splitLines_line _ _ (h l (by simp)).1 (h l (by simp)).2,
      ih (fun l' hl' => h l' (by simp [hl']))]

theorem splitLines_joinLines_open (ls : List Text) (t : Text) (h : ∀ l ∈ ls, '\n' ∉ l ∧ '\r' ∉ l) (ht : '\n' ∉ t) (hr : '\r' ∉ t) (hne : t ≠ []) :
    splitLines (joinLines ls ++ t) = ls ++ [t] := by
  induction ls with
  | nil => exact splitLines_open t ht hr hne
  | cons l ls ih =>
    rw [joinLines_cons, List.append_assoc, List.cons_append, splitLines_line _ _ (h l (by simp)).1 (h l (by simp)).2,
      ih (fun l' hl' => h l' (by simp [hl']))]
    rfl

theorem hexEncode_clean (bs : Bytes) : '\n' ∉ hexEncode bs ∧ '\r' ∉ hexEncode bs ∧ '@' ∉ hexEncode bs := by
  refine ⟨fun h => ?_, fun h => ?_, fun h => ?_⟩ <;>
  · obtain ⟨n, hn, e⟩ := isHexChar_of_mem_hexEncode h
    have := hexDigit_ne_newline hn
    rw [← e] at this
    simp at this

/-! ### numbers in hexadecimal -/

theorem hexToNatAux_append (a b : Text) (acc : Nat) :
    hexToNatAux (a ++ b) acc = (hexToNatAux a acc).bind (fun x => hexToNatAux b x) := by
  induction a generalizing acc with
  | nil => rfl
  | cons c cs ih =>
    simp only [List.cons_append, hexToNatAux]
    cases hexVal c with
    | none => rfl
    | some d => exact ih _

theorem hexToNatAux_zeros (k : Nat) : hexToNatAux (List.replicate k '0') 0 = some 0 := by
  induction k with
  | zero => rfl
  | succ k ih =>
    have : hexVal '0' = some 0 := by decide
    simp [List.replicate_succ, hexToNatAux, this, ih]

theorem hexToNatAux_natToHexAux (fuel n : Nat) (acc : Text) (h : n < fuel) :
    hexToNatAux (natToHexAux fuel n acc) 0 = hexToNatAux acc n := by
  induction fuel generalizing n acc with
  | zero => omega
  | succ fuel ih =>
    have hd : hexVal (hexDigit (n % 16)) = some (n % 16) := hexVal_hexDigit (Nat.mod_lt _ (by decide))
    simp only [natToHexAux]
    split
    · rename_i h0
      simp only [hexToNatAux, hd]
      congr 1; omega
    · rw [ih (n / 16) _ (by omega)]
      simp only [hexToNatAux, hd]
      congr 1; omega

theorem hexToNat_natToHex (n : Nat) : hexToNatAux (natToHex n) 0 = some n := by
  unfold natToHex
  rw [hexToNatAux_natToHexAux _ _ _ (Nat.lt_succ_self n)]
  rfl

theorem natToHexAux_chars (fuel n : Nat) (acc : Text) (h : ∀ c ∈ acc, IsHexChar c) :
    ∀ c ∈ natToHexAux fuel n acc, IsHexChar c := by
  induction fuel generalizing n acc with
  | zero => simpa [natToHexAux] using h
  | succ fuel ih =>
    have h' : ∀ c ∈ hexDigit (n % 16) :: acc, IsHexChar c := by
      intro c hc
      rcases List.mem_cons.1 hc with rfl | hc
      · exact ⟨_, Nat.mod_lt _ (by decide), rfl⟩
      · exact h c hc
    simp only [natToHexAux]
    split
    · exact h'
    · exact ih _ _ h'

theorem natToHex_chars (n : Nat) : ∀ c ∈ natToHex n, IsHexChar c :=
  natToHexAux_chars _ _ _ (by simp)

theorem isHexChar_zero : IsHexChar '0' := ⟨0, by decide, by decide⟩

theorem padZeros_chars (w : Nat) (t : Text) (h : ∀ c ∈ t, IsHexChar c) : ∀ c ∈ padZeros w t, IsHexChar c := by
  intro c hc
  rcases List.mem_append.1 hc with hc | hc
  · rw [List.eq_of_mem_replicate hc]; exact isHexChar_zero
  · exact h c hc

theorem natToHexAux_ne_nil (fuel n : Nat) (acc : Text) (h : 0 < fuel ∨ acc ≠ []) : natToHexAux fuel n acc ≠ [] := by
  induction fuel generalizing n acc with
  | zero => simpa [natToHexAux] using h
  | succ fuel ih =>
    simp only [natToHexAux]
    split
    · simp
    · exact ih _ _ (Or.inr (by simp))

theorem natToHex_ne_nil (n : Nat) : natToHex n ≠ [] := natToHexAux_ne_nil _ _ _ (Or.inl (by omega))

theorem parseHexU64_pad (w n : Nat) (h : n < 2 ^ 64) : parseHexU64 (padZeros w (natToHex n)) = some n := by
  have hch := padZeros_chars w _ (natToHex_chars n)
  have hne : padZeros w (natToHex n) ≠ [] := by
    intro e; exact natToHex_ne_nil n (List.append_eq_nil_iff.1 e).2
  have hv : hexToNatAux (padZeros w (natToHex n)) 0 = some n := by
    unfold padZeros
    rw [hexToNatAux_append, hexToNatAux_zeros]
    exact hexToNat_natToHex n
  generalize padZeros w (natToHex n) = t at *
  have hplus : dropPlus t = t := by
    cases t with
    | nil => rfl
    | cons c cs =>
      obtain ⟨k, hk, e⟩ := hch c (by simp)
      have := (hexDigit_ne_newline hk).2.2.2.1
      rw [← e] at this
      simp [dropPlus, this]
  unfold parseHexU64
  rw [hplus]
  simp [hne, hv, h]

/-! ### byte order -/

theorem bytesLe_refl (a : Bytes) : bytesLe a a = true := by
  induction a with
  | nil => rfl
  | cons x a ih => simp [bytesLe, ih]

theorem bytesLe_total (a b : Bytes) : (bytesLe a b || bytesLe b a) = true := by
  induction a generalizing b with
  | nil => simp [bytesLe]
  | cons x a ih =>
    cases b with
    | nil => simp [bytesLe]
    | cons y b =>
      simp only [bytesLe]
      have ih' := ih b
      by_cases h1 : x < y
      · simp [h1]
      · by_cases h2 : x = y
        · subst h2; simpa using ih'
        · have : y < x := by
            rcases UInt8.lt_or_lt_of_ne h2 with h | h
            · exact absurd h h1
            · exact h
          simp [this]

theorem bytesLe_antisymm {a b : Bytes} (h1 : bytesLe a b = true) (h2 : bytesLe b a = true) : a = b := by
  induction a generalizing b with
  | nil => cases b with
    | nil => rfl
    | cons y b => simp [bytesLe] at h2
  | cons x a ih =>
    cases b with
    | nil => simp [bytesLe] at h1
    | cons y b =>
      simp only [bytesLe] at h1 h2
      by_cases hxy : x = y
      · subst hxy
        simp [UInt8.lt_irrefl] at h1 h2
        rw [ih h1 h2]
      · by_cases hlt : x < y
        · have : ¬ y < x := fun h => UInt8.lt_irrefl _ (UInt8.lt_trans h hlt)
          simp [this, Ne.symm hxy] at h2
        · simp [hlt, hxy] at h1

theorem bytesLe_trans {a b c : Bytes} (h1 : bytesLe a b = true) (h2 : bytesLe b c = true) : bytesLe a c = true := by
  induction a generalizing b c with
  | nil => rfl
  | cons x a ih =>
    cases b with
    | nil => simp [bytesLe] at h1
    | cons y b =>
      cases c with
      | nil => simp [bytesLe] at h2
      | cons z c =>
        simp only [bytesLe] at h1 h2 ⊢
        by_cases hxy : x < y
        · by_cases hyz : y < z
          · simp [UInt8.lt_trans hxy hyz]
          · by_cases e : y = z
            · subst e; simp [hxy]
            · simp [hyz, e] at h2
        · by_cases e : x = y
          · subst e
            simp [UInt8.lt_irrefl] at h1
            by_cases hyz : x < z
            · simp [hyz]
            · by_cases e : x = z
              · subst e
                simp [UInt8.lt_irrefl] at h2 ⊢
                exact ih h1 h2
              · simp [hyz, e] at h2
          · simp [hxy, e] at h1

end Verif
