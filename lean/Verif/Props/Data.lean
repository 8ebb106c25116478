import Verif.Lemmas.Serial
/-!
Properties C01–C08, C13, C61: data encodings and decision logic on single records.
-/
namespace Verif.Props
open Verif

/-! ### C01 cached entries -/

/-- C01: what is read back from a cached entry is what was put in. -/
theorem C01_member_roundtrip (t : UInt64) (logId : Bytes) (s : Serial) (h : logId.length = 32) :
    asSerial (newMember t logId s) = s ∧
    entryTimestamp (newMember t logId s) = t.toNat ∧
    entryLogId (newMember t logId s) = logId :=
  ⟨asSerial_newMember t logId s h, entryTimestamp_newMember t logId s, entryLogId_newMember t logId s h⟩

/-- C01: different entries have different cached values. -/
theorem C01_member_injective (t t' : UInt64) (l l' : Bytes) (s s' : Serial)
    (h : l.length = 32) (h' : l'.length = 32) (e : newMember t l s = newMember t' l' s') :
    t = t' ∧ l = l' ∧ s = s' := by
  obtain ⟨a1, a2, a3⟩ := C01_member_roundtrip t l s h
  obtain ⟨b1, b2, b3⟩ := C01_member_roundtrip t' l' s' h'
  rw [e] at a1 a2 a3
  refine ⟨UInt64.toNat_inj.1 (a2.symm.trans b2), a3.symm.trans b3, a1.symm.trans b1⟩

example : asSerial (newMember 1700000000000 (List.replicate 32 7) [1, 2, 3]) = [1, 2, 3] :=
  (C01_member_roundtrip _ _ _ (by decide)).1

/-! ### C02 coverage decision -/

/-- Specification: the entry's log is listed and the entry is not newer than the newest seen timestamp
minus the maximum merge delay (in milliseconds), never below zero. Plain integers. -/
def CoveredSpec (logs : List CTLogState) (logId : Bytes) (ts : Nat) : Prop :=
  ∃ st ∈ logs, st.keyID = some logId ∧
    (ts : Int) ≤ max 0 ((st.maxTimestamp.toNat : Int) - 1000 * (st.mmd.toNat : Int))

theorem coverageCutoff_toNat (st : CTLogState) (h : st.mmd.toNat * 1000 < 2 ^ 64) :
    st.coverageCutoff.toNat = st.maxTimestamp.toNat - st.mmd.toNat * 1000 := by
  have hm : (st.mmd * 1000).toNat = st.mmd.toNat * 1000 := by
    rw [UInt64.toNat_mul]
    exact Nat.mod_eq_of_lt h
  unfold CTLogState.coverageCutoff
  simp only []
  split
  · rename_i hlt
    have := UInt64.lt_iff_toNat_lt.1 hlt
    simp
    omega
  · rename_i hlt
    have hle : st.mmd * 1000 ≤ st.maxTimestamp := by
      rw [UInt64.le_iff_toNat_le]
      have : ¬ st.maxTimestamp.toNat < (st.mmd * 1000).toNat := fun h => hlt (UInt64.lt_iff_toNat_lt.2 h)
      omega
    rw [UInt64.toNat_sub_of_le _ _ hle, hm]

theorem foldl_cutoff (logs : List CTLogState) (m : CutoffMap) (id : Bytes) :
    (logs.foldl cutoffStep m) id
    = match (logs.reverse.find? (fun st => st.keyID = some id)) with
      | some st => some st.coverageCutoff
      | none => m id := by
  induction logs generalizing m with
  | nil => rfl
  | cons st logs ih =>
    rw [List.foldl_cons, ih]
    rw [List.reverse_cons, List.find?_append]
    cases hf : logs.reverse.find? (fun st => decide (st.keyID = some id)) with
    | some st' => simp
    | none =>
      cases hk : st.keyID with
      | none => simp [List.find?, hk, cutoffStep]
      | some k =>
        by_cases e : id = k
        · subst e; simp [List.find?, hk, cutoffStep]
        · have : ¬ k = id := fun h => e h.symm
          simp [List.find?, hk, e, this, cutoffStep]

/-- C02: covered iff listed and old enough, for lists in which each log occurs once and merge delays below 2^64 ms. The full statement leaves out both assumptions; it is false for larger delays (`C02_wraparound_fails`), and
`C02_exact` says what is computed in general. -/
theorem C02_covered_iff_partial (logs : List CTLogState) (t : UInt64) (logId : Bytes) (s : Serial)
    (hid : logId.length = 32)
    (hdistinct : logs.Pairwise (fun a b => a.keyID = none ∨ a.keyID ≠ b.keyID))
    (hmmd : ∀ st ∈ logs, st.mmd.toNat * 1000 < 2 ^ 64) :
    isCovered (newCoverageCutoffMap logs) (newMember t logId s) = true ↔ CoveredSpec logs logId t.toNat := by
  have hlen := length_newMember t logId s hid
  unfold isCovered
  rw [if_neg (by omega), entryLogId_newMember t logId s hid, entryTimestamp_newMember]
  unfold newCoverageCutoffMap
  rw [foldl_cutoff]
  have huniq : ∀ a ∈ logs, ∀ b ∈ logs, a.keyID = some logId → b.keyID = some logId → a = b := by
    clear hmmd
    induction logs with
    | nil => simp
    | cons x xs ih =>
      rw [List.pairwise_cons] at hdistinct
      intro a ha b hb ea eb
      rcases List.mem_cons.1 ha with rfl | ha <;> rcases List.mem_cons.1 hb with rfl | hb
      · rfl
      · rcases hdistinct.1 b hb with h | h
        · rw [ea] at h; cases h
        · exact absurd (ea.trans eb.symm) h
      · rename_i ha'
        rcases hdistinct.1 a ha' with h | h
        · rw [eb] at h; cases h
        · exact absurd (eb.trans ea.symm) h
      · exact ih hdistinct.2 a ha b hb ea eb
  cases hf : logs.reverse.find? (fun st => decide (st.keyID = some logId)) with
  | none =>
    have hno := List.find?_eq_none.1 hf
    simp only [Bool.false_eq_true, false_iff]
    rintro ⟨st, hst, hk, _⟩
    exact hno st (by simpa using hst) (by simpa using hk)
  | some st =>
    have hst : st ∈ logs := by simpa using List.mem_of_find?_eq_some hf
    have hk : st.keyID = some logId := by simpa using List.find?_some hf
    simp only [decide_eq_true_eq]
    rw [coverageCutoff_toNat st (hmmd st hst)]
    constructor
    · intro h
      exact ⟨st, hst, hk, by omega⟩
    · rintro ⟨st', hst', hk', h⟩
      have := huniq st' hst' st hst hk' hk
      subst this
      omega

/-- What follows in `logs` has no state of this log. -/
def LastOf (logs : List CTLogState) (logId : Bytes) (st : CTLogState) : Prop :=
  ∃ pre post, logs = pre ++ st :: post ∧ st.keyID = some logId ∧ ∀ x ∈ post, x.keyID ≠ some logId

theorem coverageCutoff_wrapped (st : CTLogState) : st.coverageCutoff.toNat = st.maxTimestamp.toNat - 1000 * st.mmd.toNat % 2 ^ 64 := by
  have hm : (st.mmd * 1000).toNat = 1000 * st.mmd.toNat % 2 ^ 64 := by
    rw [UInt64.toNat_mul, Nat.mul_comm]
    rfl
  unfold CTLogState.coverageCutoff
  simp only []
  split
  · rename_i hlt
    have := UInt64.lt_iff_toNat_lt.1 hlt
    rw [hm] at this
    simp
    omega
  · rename_i hlt
    have hle : st.mmd * 1000 ≤ st.maxTimestamp := by
      rw [UInt64.le_iff_toNat_le]
      have : ¬ st.maxTimestamp.toNat < (st.mmd * 1000).toNat := fun h => hlt (UInt64.lt_iff_toNat_lt.2 h)
      omega
    rw [UInt64.toNat_sub_of_le _ _ hle, hm]

theorem lastOf_unique {logs : List CTLogState} {id : Bytes} {a b : CTLogState} (ha : LastOf logs id a) (hb : LastOf logs id b) : a = b := by
  obtain ⟨p, q, e, ka, hq⟩ := ha
  obtain ⟨p', q', e', kb, hq'⟩ := hb
  rw [e] at e'
  rcases List.append_eq_append_iff.1 e' with ⟨c, h1, h2⟩ | ⟨c, h1, h2⟩
  · cases c with
    | nil => simp at h2; exact h2.1
    | cons x c =>
      simp only [List.cons_append, List.cons.injEq] at h2
      exact absurd kb (hq b (by rw [h2.2]; simp))
  · cases c with
    | nil => simp at h2; exact h2.1.symm
    | cons x c =>
      simp only [List.cons_append, List.cons.injEq] at h2
      exact absurd ka (hq' a (by rw [h2.2]; simp))

theorem lastOf_find (logs : List CTLogState) (id : Bytes) :
    match logs.reverse.find? (fun st => decide (st.keyID = some id)) with
    | some st => LastOf logs id st
    | none => ∀ st ∈ logs, st.keyID ≠ some id := by
  induction logs with
  | nil => simp
  | cons x xs ih =>
    rw [List.reverse_cons, List.find?_append]
    cases hf : xs.reverse.find? (fun st => decide (st.keyID = some id)) with
    | some st =>
      rw [hf] at ih
      obtain ⟨p, q, e, k, hq⟩ := ih
      simp only [Option.some_or]
      exact ⟨x :: p, q, by rw [e]; rfl, k, hq⟩
    | none =>
      rw [hf] at ih
      simp only [Option.none_or]
      by_cases hk : x.keyID = some id
      · simp only [List.find?, hk, decide_true]
        exact ⟨[], xs, rfl, hk, ih⟩
      · simp only [List.find?, hk, decide_false]
        intro st hst
        rcases List.mem_cons.1 hst with rfl | h
        · exact hk
        · exact ih st h

/-- **C02 (exact).** Without assumptions: covered iff the last state listed for the entry's log has a newest seen timestamp that is later by the merge delay in milliseconds, reduced modulo 2^64 (or the entry's timestamp is 0). -/
theorem C02_exact (logs : List CTLogState) (t : UInt64) (logId : Bytes) (s : Serial) (hid : logId.length = 32) :
    isCovered (newCoverageCutoffMap logs) (newMember t logId s) = true ↔
      ∃ st, LastOf logs logId st ∧ (t.toNat : Int) ≤ max 0 ((st.maxTimestamp.toNat : Int) - ((1000 * st.mmd.toNat % 2 ^ 64 : Nat) : Int)) := by
  have hlen := length_newMember t logId s hid
  unfold isCovered
  rw [if_neg (by omega), entryLogId_newMember t logId s hid, entryTimestamp_newMember]
  unfold newCoverageCutoffMap
  rw [foldl_cutoff]
  have hl := lastOf_find logs logId
  cases hf : logs.reverse.find? (fun st => decide (st.keyID = some logId)) with
  | none =>
    rw [hf] at hl
    simp only [Bool.false_eq_true, false_iff]
    rintro ⟨st, ⟨p, q, e, k, _⟩, _⟩
    exact hl st (by rw [e]; simp) k
  | some st =>
    rw [hf] at hl
    simp only [decide_eq_true_eq]
    rw [coverageCutoff_wrapped]
    constructor
    · intro h
      exact ⟨st, hl, by omega⟩
    · rintro ⟨st', hl', h⟩
      have := lastOf_unique hl' hl
      subst this
      omega

/-- C02: an entry of a log that is not listed is never covered (no assumption on the list). -/
theorem C02_unknown_log_not_covered (logs : List CTLogState) (t : UInt64) (logId : Bytes) (s : Serial)
    (hid : logId.length = 32) (hno : ∀ st ∈ logs, st.keyID ≠ some logId) :
    isCovered (newCoverageCutoffMap logs) (newMember t logId s) = false := by
  have hlen := length_newMember t logId s hid
  unfold isCovered
  rw [if_neg (by omega), entryLogId_newMember t logId s hid]
  unfold newCoverageCutoffMap
  rw [foldl_cutoff]
  have : logs.reverse.find? (fun st => decide (st.keyID = some logId)) = none := by
    rw [List.find?_eq_none]
    intro st hst
    simpa using hno st (by simpa using hst)
  rw [this]

/-- A log id used in examples: 32 zero bytes. -/
def exLogId : Bytes := List.replicate 32 0

/-- A log state used in examples. -/
def exLog (mmd maxTs : UInt64) : CTLogState :=
  { logID := b64Encode false exLogId, mmd := mmd, shortURL := [], minEntry := 0, maxEntry := 9,
    minTimestamp := 0, maxTimestamp := maxTs, lastUpdateTime := some 0 }

theorem exLog_keyID (a b : UInt64) : (exLog a b).keyID = some exLogId := by
  have h := b64Decode_b64Encode false exLogId
  unfold CTLogState.keyID exLog
  simp only [h]
  rfl

/-- The hypotheses of `C02_covered_iff_partial` hold for a real log (one day of merge delay): an entry one day
older than the newest is covered, a newer one is not. -/
example : isCovered (newCoverageCutoffMap [exLog 86400 1700000000000]) (newMember 1699913600000 exLogId [5]) = true
    ∧ ¬ isCovered (newCoverageCutoffMap [exLog 86400 1700000000000]) (newMember 1699913600001 exLogId [5]) = true := by
  constructor
  · rw [C02_covered_iff_partial _ _ _ _ (by decide) (by simp) (by decide)]
    exact ⟨_, List.mem_singleton.2 rfl, exLog_keyID _ _, by decide⟩
  · rw [C02_covered_iff_partial _ _ _ _ (by decide) (by simp) (by decide)]
    rintro ⟨st, hst, _, h⟩
    rw [List.mem_singleton.1 hst] at h
    revert h; decide

/-- `C02_exact` for a log that is listed twice: the second state counts. -/
example : isCovered (newCoverageCutoffMap [exLog 86400 1700000000000, exLog 0 5]) (newMember 6 exLogId [5]) = false
    ∧ isCovered (newCoverageCutoffMap [exLog 86400 1700000000000, exLog 0 5]) (newMember 5 exLogId [5]) = true := by
  have hl : LastOf [exLog 86400 1700000000000, exLog 0 5] exLogId (exLog 0 5) := ⟨[exLog 86400 1700000000000], [], rfl, exLog_keyID _ _, by simp⟩
  constructor
  · rw [Bool.eq_false_iff]
    intro h
    obtain ⟨st, h1, h2⟩ := (C02_exact _ _ _ _ (by decide)).1 h
    rw [lastOf_unique h1 hl] at h2
    revert h2; decide
  · exact (C02_exact _ _ _ _ (by decide)).2 ⟨_, hl, by decide⟩

/-- C02 fails without the bound on the merge delay: with `MMD = 18446744073709552` seconds the product wraps
to 384 ms and an entry that is not covered is reported as covered. -/
theorem C02_wraparound_fails :
    isCovered (newCoverageCutoffMap [exLog 18446744073709552 1700000000000]) (newMember 1699999999000 exLogId [5]) = true
    ∧ ¬ CoveredSpec [exLog 18446744073709552 1700000000000] exLogId 1699999999000 := by
  constructor
  · unfold isCovered
    rw [if_neg (by rw [length_newMember _ _ _ (by decide)]; omega), entryLogId_newMember _ _ _ (by decide),
      entryTimestamp_newMember]
    unfold newCoverageCutoffMap
    rw [foldl_cutoff]
    simp only [List.reverse_cons, List.reverse_nil, List.nil_append, List.find?, exLog_keyID, decide_true]
    decide
  · rintro ⟨st, hst, _, h⟩
    rw [List.mem_singleton.1 hst] at h
    revert h; decide

/-! ### C03 deduplication -/

/-- C03: the deduplicated list is strictly ascending in the byte order of `List UInt8`. -/
theorem C03_dedup_ascending (s : List Serial) : (dedup s).Pairwise (· < ·) := by
  refine (dedup_spec s).1.imp ?_
  rintro a b ⟨h, hne⟩
  apply Decidable.byContradiction
  intro hlt
  exact hne (bytesLe_antisymm h ((bytesLe_iff b a).2 hlt))

/-- C03: it has the same elements. -/
theorem C03_dedup_same_set (s : List Serial) (x : Serial) : x ∈ dedup s ↔ x ∈ s := mem_dedup s x

/-- C03: no repeats. -/
theorem C03_dedup_nodup (s : List Serial) : (dedup s).Nodup :=
  (dedup_spec s).1.imp (fun h => h.2)

example : dedup [[3], [1, 0], [3], [1], [3]] = [[1], [1, 0], [3]] := by decide

/-! ### C08 text forms of serials -/

/-- C08: hexadecimal text decodes to the same serial. -/
theorem C08_hex_roundtrip (s : Serial) : newSerialFromHex (hexEncode s) = some s := hexDecode_hexEncode s

/-- C08: different serials have different hexadecimal text. -/
theorem C08_hex_injective (a b : Serial) (h : hexEncode a = hexEncode b) : a = b := hexEncode_injective h

/-- Small letters for capital ones. -/
def Spec.lower (c : Char) : Char := if 65 ≤ c.toNat ∧ c.toNat ≤ 90 then Char.ofNat (c.toNat + 32) else c

theorem hexVal_iff (c : Char) (n : Nat) : hexVal c = some n ↔ n < 16 ∧ Spec.lower c = hexDigit n := by
  by_cases hc : c.toNat < 128
  · have key : ∀ k : Fin 128, ∀ n : Fin 16, hexVal (Char.ofNat k.val) = some n.val ↔ Spec.lower (Char.ofNat k.val) = hexDigit n.val := by decide +kernel
    have hlt : ∀ k : Fin 128, ∀ n, hexVal (Char.ofNat k.val) = some n → n < 16 := by
      intro k n h
      have : ∀ k : Fin 128, (hexVal (Char.ofNat k.val)).all (fun n => decide (n < 16)) = true := by decide +kernel
      have := this k
      rw [h] at this
      simpa using this
    have hk := key ⟨c.toNat, hc⟩
    have hl := hlt ⟨c.toNat, hc⟩
    dsimp only at hk hl
    rw [Char.ofNat_toNat] at hk hl
    constructor
    · intro h
      exact ⟨hl n h, (hk ⟨n, hl n h⟩).1 h⟩
    · rintro ⟨h1, h2⟩
      exact (hk ⟨n, h1⟩).2 h2
  · have h1 : hexVal c = none := by
      unfold hexVal
      dsimp only
      rw [if_neg (by omega), if_neg (by omega), if_neg (by omega)]
    have h2 : Spec.lower c = c := by
      unfold Spec.lower
      rw [if_neg (by omega)]
    rw [h1, h2]
    constructor
    · intro h; cases h
    · rintro ⟨h, rfl⟩
      have : ∀ n : Fin 16, (hexDigit n.val).toNat < 128 := by decide
      exact absurd (this ⟨n, h⟩) hc

/-- **C08 (exact).** A text is accepted as the hexadecimal form of a serial iff it is the canonical one up to the case of the letters. -/
theorem C08_hex_exact (t : Text) (s : Serial) : newSerialFromHex t = some s ↔ t.map Spec.lower = hexEncode s := by
  unfold newSerialFromHex
  induction s generalizing t with
  | nil =>
    match t with
    | [] => simp [hexDecode, hexEncode]
    | [a] => simp [hexDecode, hexEncode]
    | a :: b :: rest =>
      rw [hexDecode]
      constructor
      · intro h
        split at h <;> cases h
      · intro h; cases h
  | cons x s ih =>
    match t with
    | [] => simp [hexDecode, hexEncode]
    | [a] => simp [hexDecode, hexEncode]
    | a :: b :: rest =>
      rw [hexDecode, hexEncode]
      simp only [List.map_cons, List.cons.injEq]
      have hx := x.toNat_lt
      constructor
      · intro h
        split at h
        · rename_i p q r h1 h2 h3
          rw [Option.some.injEq, List.cons.injEq] at h
          obtain ⟨rfl, rfl⟩ := h
          obtain ⟨p1, p2⟩ := (hexVal_iff _ _).1 h1
          obtain ⟨q1, q2⟩ := (hexVal_iff _ _).1 h2
          rw [UInt8.toNat_ofNat_of_lt' (by show _ < 256; omega), p2, q2]
          exact ⟨by congr 1; omega, by congr 1; omega, (ih rest).1 h3⟩
        · cases h
      · rintro ⟨h1, h2, h3⟩
        rw [(hexVal_iff a (x.toNat / 16)).2 ⟨by omega, h1⟩, (hexVal_iff b (x.toNat % 16)).2 ⟨by omega, h2⟩, (ih rest).2 h3]
        dsimp only
        rw [show x.toNat / 16 * 16 + x.toNat % 16 = x.toNat by omega, UInt8.ofNat_toNat]

example : newSerialFromHex "0AfF".toList = some [10, 255] ∧ newSerialFromHex "0Ag0".toList = none := by decide

/-- C08: JSON text decodes to the same serial. -/
theorem C08_json_roundtrip (s : Serial) : serialUnmarshalJSON (serialMarshalJSON s) = some s := by
  unfold serialUnmarshalJSON serialMarshalJSON
  rw [if_neg]
  · simp [hexDecode_hexEncode]
  · have : ('"' :: (hexEncode s ++ ['"'])) = ('"' :: hexEncode s) ++ ['"'] := rfl
    rw [this, List.getLast?_concat]
    simp

/-- **C08 (exact).** A JSON text is accepted iff it is a string with both quotes whose content is the hexadecimal form. (Go's JSON decoder never hands over fewer than two characters here.) -/
theorem C08_json_exact (t : Text) (s : Serial) (h2 : 2 ≤ t.length) : serialUnmarshalJSON t = some s ↔ ∃ body, t = '"' :: (body ++ ['"']) ∧ body.map Spec.lower = hexEncode s := by
  unfold serialUnmarshalJSON
  constructor
  · intro h
    split at h
    · cases h
    · rename_i hq
      rw [not_or, Decidable.not_not, Decidable.not_not] at hq
      obtain ⟨q1, q2⟩ := hq
      cases t with
      | nil => cases q1
      | cons a rest =>
        rw [List.head?_cons, Option.some.injEq] at q1
        subst q1
        have hr : rest ≠ [] := by intro e; rw [e] at h2; simp at h2
        rw [List.getLast?_cons_of_ne_nil hr] at q2
        obtain ⟨body, hbody⟩ := List.getLast?_eq_some_iff.1 q2
        subst hbody
        rw [List.drop_succ_cons, List.drop_zero, List.dropLast_concat] at h
        exact ⟨body, rfl, (C08_hex_exact body s).1 h⟩
  · rintro ⟨body, rfl, hb⟩
    have e : ('"' :: (body ++ ['"'])).getLast? = some '"' := by
      rw [show ('"' :: (body ++ ['"'])) = ('"' :: body) ++ ['"'] from rfl, List.getLast?_concat]
    rw [if_neg (by rw [e]; simp)]
    rw [List.drop_succ_cons, List.drop_zero, List.dropLast_concat]
    exact (C08_hex_exact body s).2 hb

/-- C08: different serials have different JSON text. -/
theorem C08_json_injective (a b : Serial) (h : serialMarshalJSON a = serialMarshalJSON b) : a = b := by
  have := C08_json_roundtrip a
  rw [h, C08_json_roundtrip] at this
  exact (Option.some.inj this).symm

example : serialMarshalJSON [0x0a, 0xff] = "\"0aff\"".toList := by decide

/-! ### C04 serial files -/

theorem writeSerialList_eq (u : Int) (serials : List Serial) :
    writeSerialList u serials = joinLines (serialListExpiryLine u :: serials.map hexEncode) := by
  rw [joinLines_cons]
  simp [writeSerialList, joinLines, Function.comp_def]

theorem fmt016x_chars (u : Int) : ∀ c ∈ fmt016x u, IsHexChar c ∨ c = '-' := by
  intro c hc
  cases u with
  | ofNat n => exact Or.inl (padZeros_chars _ _ (natToHex_chars n) c hc)
  | negSucc n =>
    rcases List.mem_cons.1 hc with h | h
    · exact Or.inr h
    · exact Or.inl (padZeros_chars _ _ (natToHex_chars _) c h)

theorem expiryLine_clean (u : Int) : '\n' ∉ serialListExpiryLine u ∧ '\r' ∉ serialListExpiryLine u := by
  constructor <;>
  · intro h
    rcases List.mem_cons.1 h with h | h
    · revert h; decide
    · rcases fmt016x_chars u _ h with ⟨n, hn, e⟩ | h
      · have := hexDigit_ne_newline hn
        rw [← e] at this; simp at this
      · revert h; decide

theorem splitLines_writeSerialList (u : Int) (serials : List Serial) :
    splitLines (writeSerialList u serials) = serialListExpiryLine u :: serials.map hexEncode := by
  rw [writeSerialList_eq]
  apply splitLines_joinLines
  intro l hl
  rcases List.mem_cons.1 hl with rfl | hl
  · exact expiryLine_clean u
  · obtain ⟨s, _, rfl⟩ := List.mem_map.1 hl
    exact ⟨(hexEncode_clean s).1, (hexEncode_clean s).2.1⟩

theorem decodeLines_map (serials : List Serial) : decodeLines (serials.map hexEncode) = some serials := by
  induction serials with
  | nil => rfl
  | cons s ss ih => simp [decodeLines, newSerialFromHex, hexDecode_hexEncode, ih]

theorem natToHexAux_length (fuel n : Nat) (acc : Text) (k : Nat) (hk : 1 ≤ k) (h : n < 16 ^ k) :
    (natToHexAux fuel n acc).length ≤ acc.length + k := by
  induction fuel generalizing n acc k with
  | zero => simp [natToHexAux]
  | succ fuel ih =>
    simp only [natToHexAux]
    split
    · simp; omega
    · rename_i hne
      match k, hk with
      | 1, _ => simp at h; omega
      | k + 2, _ =>
        have : n / 16 < 16 ^ (k + 1) := by
          rw [Nat.pow_succ 16 (k+1)] at h
          omega
        have := ih (n / 16) (hexDigit (n % 16) :: acc) (k + 1) (by omega) this
        simp only [List.length_cons] at this
        omega

theorem natToHex_length (n : Nat) (h : n < 2 ^ 64) : (natToHex n).length ≤ 16 := by
  have := natToHexAux_length (n + 1) n [] 16 (by omega) (by simpa using h)
  simpa [natToHex] using this

theorem fmt016x_length (u : Int) (h : -2 ^ 63 ≤ u ∧ u < 2 ^ 63) : (fmt016x u).length ≤ 17 := by
  cases u with
  | ofNat n =>
    have := natToHex_length n (by have := h.2; simp at this; omega)
    simp [fmt016x, padZeros]; omega
  | negSucc n =>
    have h1 := h.1
    have := natToHex_length (n + 1) (by omega)
    simp [fmt016x, padZeros]; omega

theorem fmt016x_injective {u v : Int} (h : fmt016x u = fmt016x v) : u = v := by
  have hval : ∀ w n, hexToNatAux (padZeros w (natToHex n)) 0 = some n := by
    intro w n
    unfold padZeros
    rw [hexToNatAux_append, hexToNatAux_zeros]
    exact hexToNat_natToHex n
  have hdash : ∀ w n (r : Text), padZeros w (natToHex n) ≠ '-' :: r := by
    intro w n r e
    obtain ⟨k, hk, e'⟩ := padZeros_chars w _ (natToHex_chars n) '-' (by rw [e]; simp)
    have := hexDigit_ne_newline hk
    rw [← e'] at this; simp at this
  cases u with
  | ofNat n =>
    cases v with
    | ofNat m =>
      have h1 := hval 16 n
      have h2 := hval 16 m
      simp only [fmt016x] at h
      rw [h, h2] at h1
      rw [Option.some.inj h1]
    | negSucc m => exact absurd h (hdash _ _ _)
  | negSucc n =>
    cases v with
    | ofNat m => exact absurd h.symm (hdash _ _ _)
    | negSucc m =>
      have h1 := hval 15 (n + 1)
      have h2 := hval 15 (m + 1)
      simp only [fmt016x] at h
      rw [(List.cons.inj h).2, h2] at h1
      have := Option.some.inj h1
      rw [show n = m by omega]

theorem scanLines_writeSerialList (u : Int) (serials : List Serial)
    (hu : -2 ^ 63 ≤ u ∧ u < 2 ^ 63) (hs : ∀ s ∈ serials, s.length < 32768) :
    scanLines (writeSerialList u serials) = some (serialListExpiryLine u :: serials.map hexEncode) := by
  unfold scanLines
  simp only [splitLines_writeSerialList]
  rw [if_neg]
  simp only [List.any_eq_true, decide_eq_true_eq, not_exists, not_and]
  intro l hl
  unfold maxScanToken
  rcases List.mem_cons.1 hl with rfl | hl
  · have := fmt016x_length u hu
    simp [serialListExpiryLine]; omega
  · obtain ⟨s, hs', rfl⟩ := List.mem_map.1 hl
    rw [length_hexEncode]
    have := hs s hs'
    omega

/-- C04 (for serials below 32 KiB): the file reads back as the list written. The missing part, arbitrarily
long serials, is false: see `C04_long_serial_fails`. -/
theorem C04_file_roundtrip_partial (u : Int) (serials : List Serial)
    (hu : -2 ^ 63 ≤ u ∧ u < 2 ^ 63) (hs : ∀ s ∈ serials, s.length < 32768) :
    readSerialsFromStorage u (some (writeSerialList u serials)) = .ok serials := by
  unfold readSerialsFromStorage
  simp only [scanLines_writeSerialList u serials hu hs, ne_eq, not_true_eq_false, if_false, decodeLines_map]

/-- C04: reading it for another expiry is an error. -/
theorem C04_wrong_expiry_refused (u v : Int) (serials : List Serial) (huv : u ≠ v) :
    readSerialsFromStorage v (some (writeSerialList u serials)) = .error := by
  unfold readSerialsFromStorage scanLines
  simp only [splitLines_writeSerialList]
  split
  · rfl
  · have : serialListExpiryLine u ≠ serialListExpiryLine v := by
      intro e
      exact huv (fmt016x_injective (List.cons.inj e).2)
    rename_i heq
    split at heq
    · cases heq
    · cases heq
  · rename_i heq
    split at heq
    · cases heq
    · have := Option.some.inj heq
      have hl := (List.cons.inj this).1
      rw [if_pos]
      rw [← hl]
      intro e
      exact huv (fmt016x_injective (List.cons.inj e).2)

/-- C04: a missing file reads as no serials. -/
theorem C04_missing_file (u : Int) : readSerialsFromStorage u none = .ok [] := rfl

example : readSerialsFromStorage 1700000000 (some (writeSerialList 1700000000 [[1], [], [255, 0]])) = .ok [[1], [], [255, 0]] :=
  C04_file_roundtrip_partial _ _ (by decide) (by decide)

theorem decodeLines_snoc (serials : List Serial) (t : Text) : decodeLines (serials.map hexEncode ++ [t]) = (newSerialFromHex t).map (fun s => serials ++ [s]) := by
  induction serials with
  | nil =>
    simp only [List.map_nil, List.nil_append, decodeLines]
    cases newSerialFromHex t <;> rfl
  | cons s ss ih =>
    simp only [List.map_cons, List.cons_append, decodeLines, ih]
    rw [show newSerialFromHex (hexEncode s) = some s from hexDecode_hexEncode s]
    cases newSerialFromHex t <;> rfl

theorem hexDecode_take (s : Serial) : ∀ k, k ≤ 2 * s.length → hexDecode ((hexEncode s).take k) = if k % 2 = 0 then some (s.take (k / 2)) else none := by
  induction s with
  | nil => intro k hk; have : k = 0 := by simpa using hk
           subst this; rfl
  | cons x s ih =>
    intro k hk
    match k with
    | 0 => rfl
    | 1 => rfl
    | k + 2 =>
      have hx := x.toNat_lt
      have hk' : k ≤ 2 * s.length := by simp at hk; omega
      rw [hexEncode, List.take_succ_cons, List.take_succ_cons, hexDecode, hexVal_hexDigit (by omega), hexVal_hexDigit (by omega), ih k hk']
      have e1 : (k + 2) % 2 = k % 2 := by omega
      have e2 : (k + 2) / 2 = k / 2 + 1 := by omega
      rw [e1, e2]
      by_cases h : k % 2 = 0
      · rw [if_pos h, if_pos h]
        dsimp only
        rw [show x.toNat / 16 * 16 + x.toNat % 16 = x.toNat by omega, UInt8.ofNat_toNat, List.take_succ_cons]
      · rw [if_neg h, if_neg h]

/-- **C04.** Reading a file that was cut behind its first line: a cut between lines goes unnoticed; a cut within the last line is an error if it is after an odd number of digits, and otherwise a shorter serial is read in its place. -/
theorem C04_cut_file (u : Int) (serials : List Serial) (s : Serial) (k : Nat) (hk : k ≤ 2 * s.length) (hu : -2 ^ 63 ≤ u ∧ u < 2 ^ 63) (hs : ∀ x ∈ serials, x.length < 32768) (hl : s.length < 32768) :
    readSerialsFromStorage u (some (writeSerialList u serials ++ (hexEncode s).take k)) =
      if k = 0 then .ok serials else if k % 2 = 0 then .ok (serials ++ [s.take (k / 2)]) else .error := by
  by_cases h0 : k = 0
  · subst h0
    rw [if_pos rfl, List.take_zero, List.append_nil]
    exact C04_file_roundtrip_partial u serials hu hs
  · rw [if_neg h0]
    have hlen : ((hexEncode s).take k).length = k := by rw [List.length_take, length_hexEncode]; omega
    have hne : (hexEncode s).take k ≠ [] := by intro e; rw [e] at hlen; exact h0 hlen.symm
    obtain ⟨c1, c2, _⟩ := hexEncode_clean s
    have hsplit : splitLines (writeSerialList u serials ++ (hexEncode s).take k) = serialListExpiryLine u :: (serials.map hexEncode ++ [(hexEncode s).take k]) := by
      rw [writeSerialList_eq, splitLines_joinLines_open _ _ ?_ (fun h => c1 (List.mem_of_mem_take h)) (fun h => c2 (List.mem_of_mem_take h)) hne]
      · rfl
      · intro l hl
        rcases List.mem_cons.1 hl with rfl | hl
        · exact expiryLine_clean u
        · obtain ⟨x, _, rfl⟩ := List.mem_map.1 hl
          exact ⟨(hexEncode_clean x).1, (hexEncode_clean x).2.1⟩
    have hscan : scanLines (writeSerialList u serials ++ (hexEncode s).take k) = some (serialListExpiryLine u :: (serials.map hexEncode ++ [(hexEncode s).take k])) := by
      unfold scanLines
      simp only [hsplit]
      rw [if_neg]
      simp only [List.any_eq_true, decide_eq_true_eq, not_exists, not_and]
      intro l hl'
      unfold maxScanToken
      rcases List.mem_cons.1 hl' with rfl | hl'
      · have := fmt016x_length u hu
        simp [serialListExpiryLine]; omega
      · rcases List.mem_append.1 hl' with hl' | hl'
        · obtain ⟨x, hx, rfl⟩ := List.mem_map.1 hl'
          rw [length_hexEncode]
          have := hs x hx
          omega
        · rw [List.mem_singleton.1 hl', hlen]; omega
    unfold readSerialsFromStorage
    simp only [hscan, ne_eq, not_true_eq_false, if_false, decodeLines_snoc]
    unfold newSerialFromHex
    rw [hexDecode_take s k hk]
    by_cases h2 : k % 2 = 0
    · rw [if_pos h2, if_pos h2]; rfl
    · rw [if_neg h2, if_neg h2]; rfl

example : readSerialsFromStorage 1700000000 (some (writeSerialList 1700000000 [[1]] ++ (hexEncode [7, 8, 9]).take 4)) = .ok [[1], [7, 8]] :=
  C04_cut_file 1700000000 [[1]] [7, 8, 9] 4 (by decide) (by decide) (by decide) (by decide)

/-- **C04 fails for cut files.** A file of one certificate that was cut in the middle is read without error, as that of another serial. -/
theorem C04_cut_fails : ∃ (u : Int) (s : Serial) (n : Nat), readSerialsFromStorage u (some ((writeSerialList u [s]).take n)) = .ok [[7]] ∧ s ≠ [7] :=
  ⟨1700000000, [7, 8], 20, by decide +kernel, by decide⟩

/-- C04 fails for serials of 32768 bytes or more: they are written, but the file can not be read back. -/
theorem C04_long_serial_fails (u : Int) (serials : List Serial) (s : Serial) (hs : s ∈ serials)
    (hlen : 32768 ≤ s.length) :
    readSerialsFromStorage u (some (writeSerialList u serials)) = .error := by
  have hnone : scanLines (writeSerialList u serials) = none := by
    unfold scanLines
    simp only [splitLines_writeSerialList]
    rw [if_pos]
    simp only [List.any_eq_true, decide_eq_true_eq]
    refine ⟨hexEncode s, List.mem_cons_of_mem _ (List.mem_map.2 ⟨s, hs, rfl⟩), ?_⟩
    rw [length_hexEncode]
    unfold maxScanToken
    omega
  unfold readSerialsFromStorage
  simp only [hnone]

example (n : Nat) (h : 32768 ≤ n) : ∃ s : Serial, 32768 ≤ s.length := ⟨List.replicate n 1, by simpa using h⟩

/-! ### C05 known files, Go to Rust -/

theorem knownSerials_block (u : Nat) (hu : u < 2 ^ 64) (serials : List Serial) (rest : List Text) (d : Nat) :
    knownSerials (serialListExpiryLine u :: serials.map hexEncode ++ rest) d
      = (knownSerials rest u).map (fun r => serials.map (fun s => (u, hexEncode s)) ++ r) := by
  have hbody : knownSerials (serials.map hexEncode ++ rest) u
      = (knownSerials rest u).map (fun r => serials.map (fun s => (u, hexEncode s)) ++ r) := by
    induction serials with
    | nil => simp
    | cons s ss ih =>
      simp only [List.map_cons, List.cons_append, knownSerials]
      rw [if_neg, ih]
      · cases knownSerials rest u <;> simp
      · intro h
        exact (hexEncode_clean s).2.2 (List.mem_of_head? h)
  simp only [List.cons_append, knownSerials]
  have hhead : (serialListExpiryLine (u : Int)).head? = some '@' := rfl
  have htail : parseHexU64 (serialListExpiryLine (u : Int)).tail = some u := parseHexU64_pad 16 u hu
  rw [if_pos hhead, htail]
  exact hbody

/-- C05: the known file made of any blocks is read by the filter builder as exactly the pairs written.
The serials appear as hexadecimal text, which `C08_hex_roundtrip` decodes. -/
theorem C05_known_file_roundtrip (blocks : List (Nat × List Serial)) (h : ∀ b ∈ blocks, b.1 < 2 ^ 64) :
    readKnownFile (blocks.map (fun b => writeSerialList (b.1 : Int) b.2)).flatten
      = some (blocks.map (fun b => b.2.map (fun s => (b.1, hexEncode s)))).flatten := by
  have hlines : splitLines (blocks.map (fun b => writeSerialList (b.1 : Int) b.2)).flatten
      = (blocks.map (fun b => serialListExpiryLine (b.1 : Int) :: b.2.map hexEncode)).flatten := by
    have : (blocks.map (fun b => writeSerialList (b.1 : Int) b.2)).flatten
        = joinLines (blocks.map (fun b => serialListExpiryLine (b.1 : Int) :: b.2.map hexEncode)).flatten := by
      clear h
      induction blocks with
      | nil => rfl
      | cons b bs ih =>
        rw [List.map_cons, List.flatten_cons, ih, List.map_cons, List.flatten_cons, joinLines_append,
          writeSerialList_eq]
    rw [this]
    apply splitLines_joinLines
    intro l hl
    obtain ⟨ls, hls, hl⟩ := List.mem_flatten.1 hl
    obtain ⟨b, _, rfl⟩ := List.mem_map.1 hls
    rcases List.mem_cons.1 hl with rfl | hl
    · exact expiryLine_clean _
    · obtain ⟨s, _, rfl⟩ := List.mem_map.1 hl
      exact ⟨(hexEncode_clean s).1, (hexEncode_clean s).2.1⟩
  unfold readKnownFile
  rw [hlines]
  clear hlines
  have gen : ∀ d, knownSerials (blocks.map (fun b => serialListExpiryLine (b.1 : Int) :: b.2.map hexEncode)).flatten d
      = some (blocks.map (fun b => b.2.map (fun s => (b.1, hexEncode s)))).flatten := by
    induction blocks with
    | nil => intro d; rfl
    | cons b bs ih =>
      intro d
      simp only [List.map_cons, List.flatten_cons]
      rw [knownSerials_block b.1 (h b (by simp)), ih (fun b' hb' => h b' (by simp [hb']))]
      simp
  exact gen 0

example : readKnownFile ((writeSerialList 3600 [[1], [2, 3]]) ++ writeSerialList 7200 [[1]])
    = some [(3600, "01".toList), (3600, "0203".toList), (7200, "01".toList)] := by
  have := C05_known_file_roundtrip [(3600, [[1], [2, 3]]), (7200, [[1]])] (by decide)
  simpa [hexEncode, hexDigit] using this

/-- C05 needs a non-negative expiry: the header of a date before 1970 makes the filter builder panic. -/
theorem C05_negative_expiry_fails : readKnownFile (writeSerialList (-3600) [[1]]) = none := by
  unfold readKnownFile
  rw [splitLines_writeSerialList]
  decide

theorem parseHexU64_big (w n : Nat) (h : ¬ n < 2 ^ 64) : parseHexU64 (padZeros w (natToHex n)) = none := by
  have hch := padZeros_chars w _ (natToHex_chars n)
  have hv : hexToNatAux (padZeros w (natToHex n)) 0 = some n := by
    unfold padZeros
    rw [hexToNatAux_append, hexToNatAux_zeros]
    exact hexToNat_natToHex n
  generalize padZeros w (natToHex n) = t at *
  have hplus : dropPlus t = t := by
    cases t with
    | nil => rfl
    | cons c cs =>
      obtain ⟨k, hk, e⟩ := hch c (by simp)
      have := (hexDigit_ne_newline hk).2.2.2.1
      rw [← e] at this
      simp [dropPlus, this]
  unfold parseHexU64
  rw [hplus]
  by_cases hn : t = []
  · simp [hn]
  · simp only [if_neg hn, hv, if_neg h]

/-- C05: the filter builder stops at exactly the expiry dates before 1970 or beyond 64 bits; it never takes them for another date. -/
theorem C05_expiry_limits (u : Int) (serials : List Serial) : readKnownFile (writeSerialList u serials) = none ↔ u < 0 ∨ 2 ^ 64 ≤ u := by
  by_cases hu : u < 0 ∨ 2 ^ 64 ≤ u
  · refine ⟨fun _ => hu, fun _ => ?_⟩
    unfold readKnownFile
    rw [splitLines_writeSerialList]
    have hhead : (serialListExpiryLine u).head? = some '@' := rfl
    have htail : parseHexU64 (serialListExpiryLine u).tail = none := by
      cases u with
      | ofNat n => exact parseHexU64_big 16 n (fun h => by have : (Int.ofNat n) = (n : Int) := rfl; omega)
      | negSucc n => rfl
    unfold knownSerials
    rw [if_pos hhead, htail]
  · refine ⟨fun h => ?_, fun h => absurd h hu⟩
    obtain ⟨n, rfl⟩ := Int.eq_ofNat_of_zero_le (show 0 ≤ u by omega)
    have hr := C05_known_file_roundtrip [(n, serials)] (by simp; omega)
    simp only [List.map_cons, List.map_nil, List.flatten_cons, List.flatten_nil, List.append_nil] at hr
    rw [hr] at h
    cases h

example : readKnownFile (writeSerialList (2 ^ 64) [[1]]) = none ∧ readKnownFile (writeSerialList (2 ^ 64 - 1) [[1]]) ≠ none :=
  ⟨(C05_expiry_limits _ _).2 (by decide), fun h => absurd ((C05_expiry_limits _ _).1 h) (by decide)⟩

/-! ### C61 reason sets -/

/-- Specification: the RFC 5280 reason codes admitted by each reason set (7 is unused; 0 is "unspecified"). -/
def codesOf : ReasonSet → Nat → Prop
  | .all, _ => True
  | .specified, c => c ∈ [1, 2, 3, 4, 5, 6, 8, 9, 10]
  | .priority, c => c ∈ [1, 5, 9]

/-- C61: a reason byte is kept iff it belongs to the reason set. -/
theorem C61_skip_iff (rs : ReasonSet) (c : UInt8) :
    skipReason rs (Reason.ofCode c.toNat) = false ↔ codesOf rs c.toNat := by
  have hc : c.toNat < 256 := c.toNat_lt
  generalize c.toNat = n at hc
  cases rs with
  | all => simp [skipReason, codesOf]
  | specified =>
    simp only [codesOf]
    have : ∀ n : Fin 256, skipReason .specified (Reason.ofCode n.val) = false ↔ n.val ∈ [1, 2, 3, 4, 5, 6, 8, 9, 10] := by
      decide +kernel
    exact this ⟨n, hc⟩
  | priority =>
    simp only [codesOf]
    have : ∀ n : Fin 256, skipReason .priority (Reason.ofCode n.val) = false ↔ n.val ∈ [1, 5, 9] := by
      decide +kernel
    exact this ⟨n, hc⟩

/-- C61: priority is within specified, which is within all. -/
theorem C61_nested (r : Reason) :
    (skipReason .priority r = false → skipReason .specified r = false) ∧
    (skipReason .specified r = false → skipReason .all r = false) := by
  cases r <;> decide

/-- C61: codes without a meaning of their own count as unspecified. -/
theorem C61_unknown_is_unspecified (c : Nat) (h : c = 7 ∨ 10 < c) : Reason.ofCode c = .unspecified := by
  unfold Reason.ofCode
  repeat' split
  all_goals first | rfl | omega

example : skipReason .priority (Reason.ofCode 1) = false ∧ skipReason .specified (Reason.ofCode 7) = true := by decide

/-! ### C06 revoked files, Go to Rust -/

theorem decodeReason_hexEncode (c : UInt8) : decodeReason (hexEncode [c]) = some (Reason.ofCode c.toNat) := by
  have hc : c.toNat < 256 := c.toNat_lt
  have h1 := hexDigit_ne_newline (show c.toNat / 16 < 16 by omega)
  unfold decodeReason
  have hp : dropPlus (hexEncode [c]) = hexEncode [c] := by simp [dropPlus, hexEncode, h1.2.2.2.1]
  simp only [hp]
  have hv : hexToNatAux (hexEncode [c]) 0 = some c.toNat := by
    simp only [hexEncode, hexToNatAux, hexVal_hexDigit (show c.toNat / 16 < 16 by omega),
      hexVal_hexDigit (show c.toNat % 16 < 16 by omega)]
    congr 1; omega
  rw [if_neg (by simp [hexEncode]), hv]
  simp [hc]

theorem revokedEntries_map (rs : ReasonSet) (l : List (Serial × UInt8)) :
    revokedEntries rs (l.map (fun p => hexEncode [p.2] ++ hexEncode p.1))
      = some ((l.filter (fun p => !skipReason rs (Reason.ofCode p.2.toNat))).map
          (fun p => (hexEncode p.1, Reason.ofCode p.2.toNat))) := by
  induction l with
  | nil => rfl
  | cons p l ih =>
    have hlen : (hexEncode [p.2]).length = 2 := by simp [length_hexEncode]
    simp only [List.map_cons, revokedEntries, ih]
    rw [if_neg (by simp [hlen]), List.take_left' hlen, List.drop_left' hlen, decodeReason_hexEncode]
    cases hsk : skipReason rs (Reason.ofCode p.2.toNat) <;> simp [hsk]

theorem splitLines_storeRevoked (l : List (Serial × UInt8)) :
    splitLines (storeRevokedCertificateList l) = l.map (fun p => hexEncode [p.2] ++ hexEncode p.1) := by
  have : storeRevokedCertificateList l = joinLines (l.map (fun p => hexEncode [p.2] ++ hexEncode p.1)) := by
    simp [storeRevokedCertificateList, joinLines, Function.comp_def]
  rw [this]
  apply splitLines_joinLines
  intro t ht
  obtain ⟨p, _, rfl⟩ := List.mem_map.1 ht
  rw [← hexEncode_append]
  exact ⟨(hexEncode_clean _).1, (hexEncode_clean _).2.1⟩

/-- C06: reading a revoked file never panics and yields, in order, the written revocations whose reason the reason
set keeps. -/
theorem C06_revoked_file_roundtrip (rs : ReasonSet) (l : List (Serial × UInt8)) :
    readRevokedFile rs (storeRevokedCertificateList l)
      = some ((l.filter (fun p => !skipReason rs (Reason.ofCode p.2.toNat))).map
          (fun p => (hexEncode p.1, Reason.ofCode p.2.toNat))) := by
  unfold readRevokedFile
  rw [splitLines_storeRevoked, revokedEntries_map]

/-- C06: a serial is read as revoked iff it was written with an admitted reason code. -/
theorem C06_revoked_serial_iff (rs : ReasonSet) (l : List (Serial × UInt8)) (s : Serial) :
    (∃ entries, readRevokedFile rs (storeRevokedCertificateList l) = some entries ∧
        ∃ r, (hexEncode s, r) ∈ entries)
      ↔ ∃ c, (s, c) ∈ l ∧ codesOf rs c.toNat := by
  rw [C06_revoked_file_roundtrip]
  constructor
  · rintro ⟨_, he, r, hr⟩
    rw [← Option.some.inj he] at hr
    obtain ⟨p, hp, e⟩ := List.mem_map.1 hr
    have hp' := List.mem_filter.1 hp
    have hs : p.1 = s := hexEncode_injective (congrArg Prod.fst e)
    refine ⟨p.2, ?_, ?_⟩
    · rw [← hs]; exact hp'.1
    · rw [← C61_skip_iff]; simpa using hp'.2
  · rintro ⟨c, hc, hcode⟩
    refine ⟨_, rfl, Reason.ofCode c.toNat, List.mem_map.2 ⟨(s, c), List.mem_filter.2 ⟨hc, ?_⟩, rfl⟩⟩
    rw [← C61_skip_iff] at hcode
    simp [hcode]

example : readRevokedFile .priority (storeRevokedCertificateList [([1, 2], 1), ([3], 0)])
    = some [("0102".toList, .keyCompromise)] := by
  rw [C06_revoked_file_roundtrip]; decide

/-! ### C07 reason extraction -/

/-- Specification of a CRL entry's reason: the value of its only reason extension, zero if it has none, nothing if
it is repeated, malformed or not a byte. -/
def ReasonSpec (exts : List CrlExtension) (r : Int) : Prop :=
  (exts.filter (·.isReason) = [] ∧ r = 0) ∨
  (∃ e, exts.filter (·.isReason) = [e] ∧ e.value = some r ∧ 0 ≤ r ∧ r ≤ 255)

theorem reasonLoop_seen (exts : List CrlExtension) (code r : Int) :
    reasonLoop exts true code = some r ↔ exts.filter (·.isReason) = [] ∧ r = code := by
  induction exts with
  | nil => simp [reasonLoop, eq_comm]
  | cons e es ih =>
    simp only [reasonLoop]
    cases he : e.isReason
    · simpa [he] using ih
    · simp [he]

theorem reasonLoop_unseen (exts : List CrlExtension) (code r : Int) :
    reasonLoop exts false code = some r ↔
      (exts.filter (·.isReason) = [] ∧ r = code) ∨ (∃ e, exts.filter (·.isReason) = [e] ∧ e.value = some r) := by
  induction exts with
  | nil => simp [reasonLoop, eq_comm]
  | cons e es ih =>
    simp only [reasonLoop]
    cases he : e.isReason
    · simpa [he] using ih
    · cases hv : e.value with
      | none =>
        simp only [if_true, Bool.false_eq_true, if_false, List.filter_cons, he]
        constructor
        · intro h; cases h
        · rintro (⟨h, _⟩ | ⟨e', h, h'⟩)
          · cases h
          · have := (List.cons.inj h).1
            subst this
            rw [hv] at h'; cases h'
      | some v =>
        simp only [if_true, Bool.false_eq_true, if_false, reasonLoop_seen, List.filter_cons, he]
        constructor
        · rintro ⟨h, rfl⟩
          exact Or.inr ⟨e, by rw [h], hv⟩
        · rintro (⟨h, _⟩ | ⟨e', h, h'⟩)
          · cases h
          · have h1 := List.cons.inj h
            rw [← h1.1, hv] at h'
            exact ⟨h1.2, (Option.some.inj h').symm⟩

/-- C07: a reason is extracted iff the specification gives one, and it is that one. -/
theorem C07_reason_iff (exts : List CrlExtension) (r : Int) : crlReason exts = some r ↔ ReasonSpec exts r := by
  unfold crlReason ReasonSpec
  constructor
  · intro h
    cases hl : reasonLoop exts false 0 with
    | none => rw [hl] at h; cases h
    | some code =>
      rw [hl] at h
      simp only at h
      split at h
      · cases h
      · rename_i hr
        have hcode := Option.some.inj h
        subst hcode
        rcases (reasonLoop_unseen exts 0 code).1 hl with h1 | ⟨e, h1, h2⟩
        · exact Or.inl h1
        · exact Or.inr ⟨e, h1, h2, by omega, by omega⟩
  · intro h
    have hl : reasonLoop exts false 0 = some r := by
      rw [reasonLoop_unseen]
      rcases h with h | ⟨e, h1, h2, _⟩
      · exact Or.inl h
      · exact Or.inr ⟨e, h1, h2⟩
    rw [hl]
    simp only
    rw [if_neg]
    rcases h with ⟨_, h⟩ | ⟨e, _, _, h1, h2⟩ <;> omega

/-- C07: the byte stored with the serial is the reason itself, not a truncation of it. -/
theorem C07_reason_byte (s : Serial) (exts : List CrlExtension) (s' : Serial) (c : UInt8) :
    serialAndReason s exts = some (s', c) ↔ s' = s ∧ ReasonSpec exts c.toNat := by
  unfold serialAndReason
  constructor
  · intro h
    cases hr : crlReason exts with
    | none => rw [hr] at h; cases h
    | some r =>
      rw [hr] at h
      have h := Option.some.inj h
      have h1 := congrArg Prod.fst h
      have h2 := congrArg Prod.snd h
      simp only at h1 h2
      have spec := (C07_reason_iff exts r).1 hr
      have hb : 0 ≤ r ∧ r ≤ 255 := by
        rcases spec with ⟨_, h⟩ | ⟨e, _, _, h1, h2⟩ <;> omega
      have : (c.toNat : Int) = r := by
        rw [← h2]
        simp only [toUint8]
        have : (r % 256).toNat < 256 := by omega
        simp; omega
      rw [this]
      exact ⟨h1.symm, spec⟩
  · rintro ⟨rfl, h⟩
    rw [(C07_reason_iff exts c.toNat).2 h]
    simp only [toUint8]
    have hc : c.toNat < 256 := c.toNat_lt
    rw [show ((c.toNat : Int) % 256).toNat = c.toNat by omega, UInt8.ofNat_toNat]

example : crlReason [⟨false, none⟩, ⟨true, some 1⟩] = some 1 ∧ crlReason [⟨true, some 257⟩] = none
    ∧ crlReason [⟨true, some 1⟩, ⟨true, some 1⟩] = none := by decide

/-! ### C13 filter keys -/

/-- C13: equal filter keys mean equal issuer and equal serial. -/
theorem C13_key_injective (i i' : Bytes) (s s' : Serial) (h : i.length = 32) (h' : i'.length = 32)
    (e : crliteKey i s = crliteKey i' s') : i = i' ∧ s = s' :=
  List.append_inj e (h.trans h'.symm)

/-- C13: an issuer's file name decodes to its 32-byte identifier, so no two issuers share a file. -/
theorem C13_issuer_name_roundtrip (d : Bytes) (h : d.length = 32) : decodeIssuer (issuerID d) = some d := by
  unfold decodeIssuer issuerID
  rw [b64Decode_b64Encode]
  simp [h]

/-- C13: different issuers have different file names. -/
theorem C13_issuer_name_injective (d d' : Bytes) (e : issuerID d = issuerID d') : d = d' := b64Encode_injective e

example : crliteKey (List.replicate 32 1) [2] ≠ crliteKey (List.replicate 32 1) [3] := by
  intro e
  have := (C13_key_injective _ _ _ _ (by decide) (by decide) e).2
  revert this; decide

/-! ### each theorem applied -/

example := C08_hex_injective [10, 255] [10, 255] rfl
example := C08_json_exact "\"0AfF\"".toList [10, 255] (by decide)
example := C04_wrong_expiry_refused 1700000000 1700003600 [[1], [255, 0]] (by decide)
example := C13_issuer_name_roundtrip (List.replicate 32 7) (by decide)

end Verif.Props
