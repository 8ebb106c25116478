import Verif.Model.SerialFile
import Verif.Lemmas.Text
/-! Lemmas for serials, cached entries, base64 and deduplication. -/
namespace Verif

/-! ### little endian -/

theorem length_putUint64LE (t : UInt64) : (putUint64LE t).length = 8 := by simp [putUint64LE]

theorem uint64LE_putUint64LE (t : UInt64) : uint64LE (putUint64LE t) = t.toNat := by
  have ht : t.toNat < 2 ^ 64 := t.toNat_lt
  have e : ∀ n, n < 256 → (UInt8.ofNat n).toNat = n := by
    intro n hn; simp; omega
  simp only [putUint64LE, show List.range 8 = [0, 1, 2, 3, 4, 5, 6, 7] from rfl, List.map, uint64LE]
  simp only [e _ (Nat.mod_lt _ (show 256 > 0 by decide))]
  simp only [Nat.reducePow, Nat.div_one] at ht ⊢
  omega

theorem take8_newMember (t : UInt64) (l s : Bytes) : (newMember t l s).take 8 = putUint64LE t := by
  unfold newMember
  rw [List.append_assoc, List.take_left' (length_putUint64LE t)]

theorem drop8_newMember (t : UInt64) (l s : Bytes) : (newMember t l s).drop 8 = l ++ s := by
  unfold newMember
  rw [List.append_assoc, List.drop_left' (length_putUint64LE t)]

theorem entryTimestamp_newMember (t : UInt64) (l s : Bytes) : entryTimestamp (newMember t l s) = t.toNat := by
  rw [entryTimestamp, take8_newMember, uint64LE_putUint64LE]

theorem entryLogId_newMember (t : UInt64) (l s : Bytes) (hl : l.length = 32) :
    entryLogId (newMember t l s) = l := by
  rw [entryLogId, drop8_newMember, List.take_left' hl]

theorem length_newMember (t : UInt64) (l s : Bytes) (hl : l.length = 32) :
    (newMember t l s).length = 40 + s.length := by
  simp [newMember, length_putUint64LE, hl]; omega

theorem asSerial_newMember (t : UInt64) (l s : Bytes) (hl : l.length = 32) : asSerial (newMember t l s) = s := by
  have h := length_newMember t l s hl
  unfold asSerial
  rw [if_neg (by omega)]
  unfold newMember
  rw [List.drop_left' (by simp [length_putUint64LE, hl])]

/-! ### base64 -/

theorem b64Val_b64Digit (url : Bool) {n : Nat} (h : n < 64) : b64Val url (b64Digit url n) = some n := by
  have : ∀ (u : Bool) (n : Fin 64), b64Val u (b64Digit u n.val) = some n.val := by decide
  exact this url ⟨n, h⟩

theorem b64Digit_ne_pad (url : Bool) {n : Nat} (h : n < 64) : b64Digit url n ≠ '=' := by
  have : ∀ (u : Bool) (n : Fin 64), b64Digit u n.val ≠ '=' := by decide
  exact this url ⟨n, h⟩

theorem b64Digit_ne_colon (url : Bool) {n : Nat} (h : n < 64) : b64Digit url n ≠ ':' := by
  have : ∀ (u : Bool) (n : Fin 64), b64Digit u n.val ≠ ':' := by decide
  exact this url ⟨n, h⟩

theorem b64Decode_b64Encode (url : Bool) (bs : Bytes) : b64Decode url (b64Encode url bs) = some bs := by
  fun_induction b64Encode url bs with
  | case1 => rfl
  | case2 a n =>
    have ha : a.toNat < 256 := a.toNat_lt
    simp only [b64Decode, b64Val_b64Digit url (show n / 262144 < 64 by omega),
      b64Val_b64Digit url (show n / 4096 % 64 < 64 by omega)]
    rw [show (n / 262144 * 64 + n / 4096 % 64) / 16 = a.toNat by omega, UInt8.ofNat_toNat]
  | case3 a b n =>
    have ha : a.toNat < 256 := a.toNat_lt
    have hb : b.toNat < 256 := b.toNat_lt
    rw [b64Decode]
    · simp only [b64Val_b64Digit url (show n / 262144 < 64 by omega),
        b64Val_b64Digit url (show n / 4096 % 64 < 64 by omega),
        b64Val_b64Digit url (show n / 64 % 64 < 64 by omega)]
      rw [show (n / 262144 * 4096 + n / 4096 % 64 * 64 + n / 64 % 64) / 1024 = a.toNat by omega,
        show (n / 262144 * 4096 + n / 4096 % 64 * 64 + n / 64 % 64) / 4 % 256 = b.toNat by omega,
        UInt8.ofNat_toNat, UInt8.ofNat_toNat]
    · intro e; exact absurd e (b64Digit_ne_pad url (by omega))
  | case4 a b c rest n ih =>
    have ha : a.toNat < 256 := a.toNat_lt
    have hb : b.toNat < 256 := b.toNat_lt
    have hc : c.toNat < 256 := c.toNat_lt
    rw [b64Decode]
    · simp only [b64Val_b64Digit url (show n / 262144 < 64 by omega),
        b64Val_b64Digit url (show n / 4096 % 64 < 64 by omega),
        b64Val_b64Digit url (show n / 64 % 64 < 64 by omega),
        b64Val_b64Digit url (show n % 64 < 64 by omega), ih]
      rw [show (n / 262144 * 262144 + n / 4096 % 64 * 4096 + n / 64 % 64 * 64 + n % 64) / 65536 = a.toNat by omega,
        show (n / 262144 * 262144 + n / 4096 % 64 * 4096 + n / 64 % 64 * 64 + n % 64) / 256 % 256 = b.toNat by omega,
        show (n / 262144 * 262144 + n / 4096 % 64 * 4096 + n / 64 % 64 * 64 + n % 64) % 256 = c.toNat by omega,
        UInt8.ofNat_toNat, UInt8.ofNat_toNat, UInt8.ofNat_toNat]
    · intro e _; exact absurd e (b64Digit_ne_pad url (by omega))
    · intro e _; exact absurd e (b64Digit_ne_pad url (by omega))

theorem b64Encode_injective {url : Bool} {a b : Bytes} (h : b64Encode url a = b64Encode url b) : a = b := by
  have := b64Decode_b64Encode url a
  rw [h, b64Decode_b64Encode] at this
  exact (Option.some.inj this).symm

theorem length_b64Encode (url : Bool) (bs : Bytes) : (b64Encode url bs).length = (bs.length + 2) / 3 * 4 := by
  fun_induction b64Encode url bs with
  | case1 => rfl
  | case2 => simp
  | case3 => simp
  | case4 a b c rest n ih => simp [ih]; omega

theorem colon_not_mem_b64Encode (url : Bool) (bs : Bytes) : ':' ∉ b64Encode url bs := by
  fun_induction b64Encode url bs with
  | case1 => simp
  | case2 a n =>
    have ha : a.toNat < 256 := a.toNat_lt
    have h1 := b64Digit_ne_colon url (show n / 262144 < 64 by omega)
    have h2 := b64Digit_ne_colon url (show n / 4096 % 64 < 64 by omega)
    simp [Ne.symm h1, Ne.symm h2]
  | case3 a b n =>
    have ha : a.toNat < 256 := a.toNat_lt
    have hb : b.toNat < 256 := b.toNat_lt
    have h1 := b64Digit_ne_colon url (show n / 262144 < 64 by omega)
    have h2 := b64Digit_ne_colon url (show n / 4096 % 64 < 64 by omega)
    have h3 := b64Digit_ne_colon url (show n / 64 % 64 < 64 by omega)
    simp [Ne.symm h1, Ne.symm h2, Ne.symm h3]
  | case4 a b c rest n ih =>
    have ha : a.toNat < 256 := a.toNat_lt
    have hb : b.toNat < 256 := b.toNat_lt
    have hc : c.toNat < 256 := c.toNat_lt
    have h1 := b64Digit_ne_colon url (show n / 262144 < 64 by omega)
    have h2 := b64Digit_ne_colon url (show n / 4096 % 64 < 64 by omega)
    have h3 := b64Digit_ne_colon url (show n / 64 % 64 < 64 by omega)
    have h4 := b64Digit_ne_colon url (show n % 64 < 64 by omega)
    simp [Ne.symm h1, Ne.symm h2, Ne.symm h3, Ne.symm h4, ih]

/-! ### deduplication -/

theorem bytesLe_iff (a b : Bytes) : bytesLe a b = true ↔ ¬ b < a := by
  induction a generalizing b with
  | nil => simp [bytesLe]
  | cons x a ih =>
    cases b with
    | nil => simp [bytesLe]
    | cons y b =>
      simp only [bytesLe, List.cons_lt_cons_iff]
      by_cases h1 : x < y
      · have h2 : ¬ y < x := fun h => UInt8.lt_irrefl _ (UInt8.lt_trans h h1)
        have h3 : y ≠ x := fun h => UInt8.lt_irrefl x (h ▸ h1)
        simp [h1, h2, h3]
      · by_cases h2 : x = y
        · subst h2; simp [ih, UInt8.lt_irrefl]
        · have h3 : y < x := by
            rcases UInt8.lt_or_lt_of_ne h2 with h | h
            · exact absurd h h1
            · exact h
          simp [h1, h2, h3]

theorem dedupLoop_spec (s0 : List Serial) (hs : s0.Pairwise (fun a b => bytesLe a b = true)) :
    ∀ (fuel : Nat) (s : List Serial) (i e : Nat),
      1 ≤ e → e ≤ i → i + fuel = s0.length → s.length = s0.length →
      (∀ j, i - 1 ≤ j → s[j]? = s0[j]?) →
      (s.take e).Pairwise (fun a b => bytesLe a b = true ∧ a ≠ b) →
      (∀ x, x ∈ s.take e ↔ x ∈ s0.take i) →
      let r := dedupLoop fuel s i e
      (r.1.take r.2).Pairwise (fun a b => bytesLe a b = true ∧ a ≠ b) ∧
      (∀ x, x ∈ r.1.take r.2 ↔ x ∈ s0) := by
  intro fuel
  induction fuel with
  | zero =>
    intro s i e _ _ hi _ _ hp hm
    simp only [dedupLoop]
    refine ⟨hp, fun x => ?_⟩
    rw [hm x, List.take_of_length_le (by omega)]
  | succ fuel ih =>
    intro s i e h1 hei hi hlen hagree hp hm
    have hilt : i < s0.length := by omega
    have hi1 : i - 1 < s0.length := by omega
    simp only [dedupLoop]
    have ei : s[i]? = s0[i]? := hagree i (by omega)
    have ei1 : s[i - 1]? = s0[i - 1]? := hagree (i - 1) (by omega)
    rw [ei, ei1]
    have htake : s0.take (i + 1) = s0.take i ++ [s0[i]] := by
      rw [List.take_add_one]; simp [List.getElem?_eq_getElem hilt]
    have hprev : s0[i - 1] ∈ s0.take i := by
      rw [List.mem_take_iff_getElem]
      exact ⟨i - 1, by omega, rfl⟩
    split
    · rename_i heq
      have heq' : s0[i] = s0[i - 1] := by
        rw [List.getElem?_eq_getElem hilt, List.getElem?_eq_getElem hi1] at heq
        exact Option.some.inj heq
      apply ih s (i + 1) e h1 (by omega) (by omega) hlen
      · intro j hj; exact hagree j (by omega)
      · exact hp
      · intro x
        rw [hm x, htake]
        simp only [List.mem_append, List.mem_singleton]
        constructor
        · exact Or.inl
        · rintro (h | h)
          · exact h
          · rw [h, heq']; exact hprev
    · rename_i hne
      have hne' : s0[i] ≠ s0[i - 1] := by
        intro h; apply hne
        rw [List.getElem?_eq_getElem hilt, List.getElem?_eq_getElem hi1, h]
      have hget : (s0[i]?).getD [] = s0[i] := by simp [List.getElem?_eq_getElem hilt]
      rw [hget]
      have helt : e < s.length := by omega
      have htk : (s.set e s0[i]).take (e + 1) = s.take e ++ [s0[i]] := by
        rw [List.take_add_one, List.take_set_of_le (Nat.le_refl e)]
        simp [helt]
      apply ih (s.set e s0[i]) (i + 1) (e + 1) (by omega) (by omega) (by omega) (by simpa using hlen)
      · intro j hj
        rw [List.getElem?_set]
        split
        · rename_i hej
          have : j = i := by omega
          subst this
          simp
        · exact hagree j (by omega)
      · rw [htk, List.pairwise_append]
        refine ⟨hp, by simp, ?_⟩
        intro a ha b hb
        rw [List.mem_singleton.1 hb]
        have ha' := (hm a).1 ha
        obtain ⟨k, hk, rfl⟩ := List.mem_take_iff_getElem.1 ha'
        have hle : bytesLe s0[k] s0[i - 1] = true := by
          rcases Nat.lt_or_ge k (i - 1) with h | h
          · exact List.pairwise_iff_getElem.1 hs k (i - 1) (by omega) hi1 h
          · have : k = i - 1 := by omega
            subst this; exact bytesLe_refl _
        have hle2 : bytesLe s0[i - 1] s0[i] = true :=
          List.pairwise_iff_getElem.1 hs (i - 1) i hi1 hilt (by omega)
        refine ⟨bytesLe_trans hle hle2, ?_⟩
        intro heq
        apply hne'
        rw [heq] at hle
        exact bytesLe_antisymm hle hle2
      · intro x
        rw [htk, htake]
        simp only [List.mem_append, hm x]

theorem insertSerial_perm (x : Serial) (l : List Serial) : (insertSerial x l).Perm (x :: l) := by
  induction l with
  | nil => exact List.Perm.refl _
  | cons y ys ih =>
    simp only [insertSerial]
    split
    · exact List.Perm.refl _
    · exact (List.Perm.cons y ih).trans (List.Perm.swap x y ys)

theorem sortSerials_perm (l : List Serial) : (sortSerials l).Perm l := by
  induction l with
  | nil => exact List.Perm.refl _
  | cons x xs ih => exact (insertSerial_perm x _).trans (List.Perm.cons x ih)

theorem insertSerial_sorted (x : Serial) (l : List Serial) (h : l.Pairwise (fun a b => bytesLe a b = true)) :
    (insertSerial x l).Pairwise (fun a b => bytesLe a b = true) := by
  induction l with
  | nil => simp [insertSerial]
  | cons y ys ih =>
    rw [List.pairwise_cons] at h
    simp only [insertSerial]
    split
    · rename_i hxy
      rw [List.pairwise_cons, List.pairwise_cons]
      refine ⟨?_, h⟩
      intro z hz
      rcases List.mem_cons.1 hz with rfl | hz
      · exact hxy
      · exact bytesLe_trans hxy (h.1 z hz)
    · rename_i hxy
      rw [List.pairwise_cons]
      refine ⟨?_, ih h.2⟩
      intro z hz
      rcases List.mem_cons.1 ((insertSerial_perm x ys).mem_iff.1 hz) with rfl | hz
      · have := bytesLe_total z y
        simpa [hxy] using this
      · exact h.1 z hz

theorem sortSerials_sorted (l : List Serial) : (sortSerials l).Pairwise (fun a b => bytesLe a b = true) := by
  induction l with
  | nil => simp [sortSerials]
  | cons x xs ih => exact insertSerial_sorted x _ ih

theorem dedup_spec (s : List Serial) :
    (dedup s).Pairwise (fun a b => bytesLe a b = true ∧ a ≠ b) ∧ (∀ x, x ∈ dedup s ↔ x ∈ s) := by
  unfold dedup
  split
  · rename_i h
    refine ⟨?_, fun x => Iff.rfl⟩
    match s, h with
    | [], _ => simp
    | [a], _ => simp
  · rename_i h
    have hs := sortSerials_sorted s
    have hlen : (sortSerials s).length = s.length := (sortSerials_perm s).length_eq
    have := dedupLoop_spec _ hs ((sortSerials s).length - 1) (sortSerials s) 1 1
      (by omega) (by omega) (by omega) rfl (fun _ _ => rfl)
      (by rw [List.take_one]; cases (sortSerials s).head? <;> simp)
      (fun x => Iff.rfl)
    refine ⟨this.1, fun x => ?_⟩
    rw [this.2 x]
    exact (sortSerials_perm s).mem_iff

theorem mem_dedup (s : List Serial) (x : Serial) : x ∈ dedup s ↔ x ∈ s := (dedup_spec s).2 x

end Verif
