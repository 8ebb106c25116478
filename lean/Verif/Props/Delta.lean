import Verif.Props.Filter
/-!
Properties C58, C59, C60 and C62: deltas, revocation sets and stashes.
-/
namespace Verif.Props
open Verif.Spec

/-! ### C58 -/

theorem ofCode_code (r : Reason) : Reason.ofCode r.code.toNat = r := by cases r <;> decide

theorem deltaLoop_spec (issuer : Bytes) (prev : List Bytes) (rev : List (Text × Reason)) (l : List (Nat × Text)) (hl : HexList l) :
    ∃ dl keys, deltaLoop issuer prev rev l = some (storeRevokedCertificateList dl, keys) ∧ dl.length ≤ l.length ∧
      (∀ s c, (s, c) ∈ dl ↔ ∃ r, hexEncode s ∈ l.map Prod.snd ∧ reasonOf rev (hexEncode s) = some r ∧ c = r.code ∧ crliteKey issuer s ∉ prev) ∧
      ∀ k, k ∈ keys ↔ ∃ s, hexEncode s ∈ l.map Prod.snd ∧ hexEncode s ∈ rev.map Prod.fst ∧ k = crliteKey issuer s := by
  induction l with
  | nil => exact ⟨[], [], rfl, by simp, by simp, by simp⟩
  | cons e rest ih =>
    obtain ⟨s, hs⟩ := hl e (by simp)
    obtain ⟨dl, keys, h1, hlen, h2, h3⟩ := ih (fun x hx => hl x (by simp [hx]))
    obtain ⟨n, t⟩ := e
    dsimp only at hs
    subst hs
    unfold deltaLoop
    cases hr : reasonOf rev (hexEncode s) with
    | none =>
      have hm : hexEncode s ∉ rev.map Prod.fst := by
        intro hx
        obtain ⟨r, h'⟩ := (reasonOf_iff rev _).2 hx
        rw [hr] at h'; cases h'
      dsimp only
      refine ⟨dl, keys, h1, by rw [List.length_cons]; omega, ?_, ?_⟩
      · intro s' c
        rw [h2]
        refine exists_congr (fun r => ?_)
        constructor
        · rintro ⟨ha, hb⟩
          exact ⟨by simp only [List.map_cons, List.mem_cons]; exact Or.inr ha, hb⟩
        · rintro ⟨ha, hb⟩
          rw [List.map_cons, List.mem_cons] at ha
          rcases ha with ha | ha
          · dsimp only at ha; rw [ha, hr] at hb; cases hb.1
          · exact ⟨ha, hb⟩
      · intro k
        rw [h3]
        refine exists_congr (fun s' => ?_)
        constructor
        · rintro ⟨ha, hb⟩
          exact ⟨by simp only [List.map_cons, List.mem_cons]; exact Or.inr ha, hb⟩
        · rintro ⟨ha, hb⟩
          rw [List.map_cons, List.mem_cons] at ha
          rcases ha with ha | ha
          · dsimp only at ha; rw [ha] at hb; exact absurd hb.1 hm
          · exact ⟨ha, hb⟩
    | some r =>
      have hm : hexEncode s ∈ rev.map Prod.fst := (reasonOf_iff rev _).1 ⟨r, hr⟩
      dsimp only
      rw [hexDecode_hexEncode, h1]
      dsimp only
      have hkeys : ∀ k, k ∈ crliteKey issuer s :: keys ↔ ∃ s', hexEncode s' ∈ ((n, hexEncode s) :: rest).map Prod.snd ∧ hexEncode s' ∈ rev.map Prod.fst ∧ k = crliteKey issuer s' := by
        intro k
        rw [List.mem_cons, h3]
        constructor
        · rintro (rfl | ⟨s', ha, hb⟩)
          · exact ⟨s, by simp, hm, rfl⟩
          · exact ⟨s', by simp only [List.map_cons, List.mem_cons]; exact Or.inr ha, hb⟩
        · rintro ⟨s', ha, hb, hc⟩
          rw [List.map_cons, List.mem_cons] at ha
          rcases ha with ha | ha
          · rw [hexEncode_injective ha] at hc; exact Or.inl hc
          · exact Or.inr ⟨s', ha, hb, hc⟩
      by_cases hp : crliteKey issuer s ∈ prev
      · rw [if_pos hp]
        refine ⟨dl, _, rfl, by rw [List.length_cons]; omega, ?_, hkeys⟩
        intro s' c
        rw [h2]
        refine exists_congr (fun r' => ?_)
        constructor
        · rintro ⟨ha, hb⟩
          exact ⟨by simp only [List.map_cons, List.mem_cons]; exact Or.inr ha, hb⟩
        · rintro ⟨ha, hb⟩
          rw [List.map_cons, List.mem_cons] at ha
          rcases ha with ha | ha
          · rw [hexEncode_injective ha] at hb; exact absurd hp hb.2.2
          · exact ⟨ha, hb⟩
      · rw [if_neg hp]
        refine ⟨(s, r.code) :: dl, _, ?_, by rw [List.length_cons, List.length_cons]; omega, ?_, hkeys⟩
        · simp [storeRevokedCertificateList]
        · intro s' c
          rw [List.mem_cons, h2]
          constructor
          · rintro (h | ⟨r', ha, hb⟩)
            · cases h; exact ⟨r, by simp, hr, rfl, hp⟩
            · exact ⟨r', by simp only [List.map_cons, List.mem_cons]; exact Or.inr ha, hb⟩
          · rintro ⟨r', ha, hb, hc, hd⟩
            rw [List.map_cons, List.mem_cons] at ha
            rcases ha with ha | ha
            · have := hexEncode_injective ha
              subst this
              rw [hr] at hb
              cases hb
              left
              rw [hc]
            · exact Or.inr ⟨r', ha, hb, hc, hd⟩

/-- The previous set as used: empty if it could not be read. -/
def prevSet : Option (List Bytes) → List Bytes
  | some p => p
  | none => []

theorem deltaPairs_spec (rs : ReasonSet) (prev : List Bytes) (w : RunInput) (hw : ∀ i ∈ w, i.digest.length = 32 ∧ ∀ b ∈ i.known, b.1 < 2 ^ 64) :
    ∃ (dl : RunIssuer → List (Serial × UInt8)) (revset : List Bytes),
      deltaPairs rs prev (w.map (fun i => (issuerID i.digest, i.revokedText, i.knownText))) =
        some (pairedDir (w.map (fun i => { i with revoked := i.revoked.map (fun _ => dl i) })), revset) ∧
      (∀ i ∈ w, (dl i).length ≤ i.size) ∧
      (∀ i ∈ w, ∀ s c, (s, c) ∈ dl i ↔ ∃ r, hexEncode s ∈ (knownEntries i).map Prod.snd ∧ reasonOf (revEntries rs i) (hexEncode s) = some r ∧ c = r.code ∧ crliteKey i.digest s ∉ prev) ∧
      ∀ k, k ∈ revset ↔ ∃ i ∈ w, ∃ s, hexEncode s ∈ (knownEntries i).map Prod.snd ∧ hexEncode s ∈ (revEntries rs i).map Prod.fst ∧ k = crliteKey i.digest s := by
  let out : RunIssuer → List (Serial × UInt8) := fun i => Classical.choose (deltaLoop_spec i.digest prev (revEntries rs i) (knownEntries i) (hexList_known i))
  have hout : ∀ i, ∃ keys, deltaLoop i.digest prev (revEntries rs i) (knownEntries i) = some (storeRevokedCertificateList (out i), keys) ∧ (out i).length ≤ (knownEntries i).length ∧
      (∀ s c, (s, c) ∈ out i ↔ ∃ r, hexEncode s ∈ (knownEntries i).map Prod.snd ∧ reasonOf (revEntries rs i) (hexEncode s) = some r ∧ c = r.code ∧ crliteKey i.digest s ∉ prev) ∧
      ∀ k, k ∈ keys ↔ ∃ s, hexEncode s ∈ (knownEntries i).map Prod.snd ∧ hexEncode s ∈ (revEntries rs i).map Prod.fst ∧ k = crliteKey i.digest s :=
    fun i => Classical.choose_spec (deltaLoop_spec i.digest prev (revEntries rs i) (knownEntries i) (hexList_known i))
  refine ⟨out, (?_ : ∃ revset, _)⟩
  have key : ∀ w : RunInput, (∀ i ∈ w, i.digest.length = 32 ∧ ∀ b ∈ i.known, b.1 < 2 ^ 64) → ∃ revset,
      deltaPairs rs prev (w.map (fun i => (issuerID i.digest, i.revokedText, i.knownText))) =
        some (pairedDir (w.map (fun i => { i with revoked := i.revoked.map (fun _ => out i) })), revset) ∧
      ∀ k, k ∈ revset ↔ ∃ i ∈ w, ∃ s, hexEncode s ∈ (knownEntries i).map Prod.snd ∧ hexEncode s ∈ (revEntries rs i).map Prod.fst ∧ k = crliteKey i.digest s := by
    intro w
    induction w with
    | nil => intro _; exact ⟨[], rfl, by simp⟩
    | cons i rest ih =>
      intro hw
      obtain ⟨revset, h1, h2⟩ := ih (fun j hj => hw j (by simp [hj]))
      rw [List.map_cons, List.map_cons, pairedDir_cons]
      cases hr : i.revoked with
      | none =>
        have ht : i.revokedText = none := by unfold RunIssuer.revokedText; rw [hr]; rfl
        rw [ht]
        unfold deltaPairs
        refine ⟨revset, ?_, ?_⟩
        · rw [h1]; rfl
        · intro k
          rw [h2]
          constructor
          · rintro ⟨j, hj, h⟩; exact ⟨j, by simp [hj], h⟩
          · rintro ⟨j, hj, s, ha, hb, hc⟩
            rcases List.mem_cons.1 hj with rfl | hj
            · unfold revEntries at hb; rw [hr] at hb; cases hb
            · exact ⟨j, hj, s, ha, hb, hc⟩
      | some l =>
        have ht : i.revokedText = some (storeRevokedCertificateList l) := by unfold RunIssuer.revokedText; rw [hr]; rfl
        have hread := read_revoked rs i
        rw [ht] at hread ⊢
        obtain ⟨keys, k1, _, k2, k3⟩ := hout i
        have hr' : readRevokedFile rs (storeRevokedCertificateList l) = some (revEntries rs i) := hread
        unfold deltaPairs
        rw [C13_issuer_name_roundtrip _ (hw i (by simp)).1, hr', read_known i (hw i (by simp)).2]
        dsimp only
        rw [k1, h1]
        refine ⟨keys ++ revset, rfl, ?_⟩
        intro k
        rw [List.mem_append, k3, h2]
        constructor
        · rintro (⟨s, h⟩ | ⟨j, hj, h⟩)
          · exact ⟨i, by simp, s, h⟩
          · exact ⟨j, by simp [hj], h⟩
        · rintro ⟨j, hj, h⟩
          rcases List.mem_cons.1 hj with rfl | hj
          · exact Or.inl h
          · exact Or.inr ⟨j, hj, h⟩
  obtain ⟨revset, h1, h2⟩ := key w hw
  exact ⟨revset, h1, fun i _ => by rw [← length_knownEntries]; exact (hout i).choose_spec.2.1, fun i _ => (hout i).choose_spec.2.2.1, h2⟩

theorem reasonOf_mem {rev : List (Text × Reason)} {s : Text} {r : Reason} (h : reasonOf rev s = some r) : (s, r) ∈ rev := by
  unfold reasonOf at h
  have := assocGet_mem h
  exact List.mem_reverse.1 this

theorem mem_revEntries_pair {rs : ReasonSet} {i : RunIssuer} {s : Serial} {r : Reason} (h : (hexEncode s, r) ∈ revEntries rs i) :
    ∃ l, i.revoked = some l ∧ ∃ c, (s, c) ∈ l ∧ codesOf rs c.toNat ∧ r = Reason.ofCode c.toNat := by
  unfold revEntries at h
  cases hr : i.revoked with
  | none => rw [hr] at h; cases h
  | some l =>
    rw [hr] at h
    dsimp only at h
    obtain ⟨p, hp, he⟩ := List.mem_map.1 h
    obtain ⟨hp, hk⟩ := List.mem_filter.1 hp
    rw [Prod.mk.injEq] at he
    have : p.1 = s := hexEncode_injective he.1
    exact ⟨l, rfl, p.2, by rw [← this]; exact hp, (C61_skip_iff rs p.2).1 (by simpa using hk), he.2.symm⟩

/-- **C58.** For any previous set, readable or not, the delta directory and the revocation set are written; the revocation set is exactly the known revoked certificates. The delta directory is the revoked directory
of an input `w'` with the same known certificates, in which exactly those issuers have a file that have one now, and in which the revoked certificates are exactly the known revoked ones that are not in the previous
set (all of them, if it is unreadable), each with a reason it has now. -/
theorem C58_delta (rs : ReasonSet) (prev : Option (List Bytes)) (w : RunInput) (extra : Dir) (h : GoodInput w extra) :
    ∃ w' revset, writeRevsetAndDelta rs prev (revokedDir w extra) (knownDir w) = some (revokedDir w' [], revset) ∧
      (∀ k, k ∈ revset ↔ ∃ d s, KnownIn w d s ∧ RevokedIn rs w d s ∧ k = crliteKey d s) ∧
      knownDir w' = knownDir w ∧ GoodInput w' [] ∧ (∀ d s, KnownIn w' d s ↔ KnownIn w d s) ∧
      (∀ d, (∃ i ∈ w', i.digest = d ∧ i.revoked ≠ none) ↔ ∃ i ∈ w, i.digest = d ∧ i.revoked ≠ none) ∧
      (∀ d s, RevokedIn rs w' d s ↔ KnownIn w d s ∧ RevokedIn rs w d s ∧ crliteKey d s ∉ prevSet prev) ∧
      (∀ d s, RevokedIn .all w' d s ↔ RevokedIn rs w' d s) ∧
      ∀ i' ∈ w', ∀ l', i'.revoked = some l' → ∀ s c, (s, c) ∈ l' → ∃ i ∈ w, i.digest = i'.digest ∧ l'.length ≤ i.size ∧ ∃ l, i.revoked = some l ∧ ∃ c0, (s, c0) ∈ l ∧ Reason.ofCode c.toNat = Reason.ofCode c0.toNat := by
  obtain ⟨dl, revset, h1, hsize, h2, h3⟩ := deltaPairs_spec rs (prevSet prev) w h.2.1
  have hrev : ∀ i ∈ w, ∀ s, (∃ l, (i.revoked.map (fun _ => dl i)) = some l ∧ ∃ c, (s, c) ∈ l ∧ codesOf rs c.toNat) ↔
      (∃ b ∈ i.known, s ∈ b.2) ∧ (∃ l, i.revoked = some l ∧ ∃ c, (s, c) ∈ l ∧ codesOf rs c.toNat) ∧ crliteKey i.digest s ∉ prevSet prev := by
    intro i hi s
    constructor
    · rintro ⟨l, hl, c, hc, hk⟩
      obtain ⟨l0, hl0, rfl⟩ := Option.map_eq_some_iff.1 hl
      obtain ⟨r, ha, hb, _, hd⟩ := (h2 i hi s c).1 hc
      obtain ⟨s', he, hkn⟩ := (mem_knownEntries i _).1 ha
      rw [← hexEncode_injective he] at hkn
      exact ⟨hkn, (mem_revEntries rs i s).1 ((reasonOf_iff _ _).1 ⟨r, hb⟩), hd⟩
    · rintro ⟨hkn, hrv, hd⟩
      obtain ⟨r, hr⟩ := (reasonOf_iff _ _).2 ((mem_revEntries rs i s).2 hrv)
      obtain ⟨l0, hl0, c0, _, hk0, hrc⟩ := mem_revEntries_pair (reasonOf_mem hr)
      refine ⟨dl i, by rw [hl0]; rfl, r.code, (h2 i hi s _).2 ⟨r, (mem_knownEntries i _).2 ⟨s, rfl, hkn⟩, hr, rfl, hd⟩, ?_⟩
      rw [← C61_skip_iff, ofCode_code, hrc, C61_skip_iff]
      exact hk0
  refine ⟨w.map (fun i => { i with revoked := i.revoked.map (fun _ => dl i) }), revset, ?_, ?_, ?_, ?_, ?_, ?_, ?_, ?_, ?_⟩
  · unfold writeRevsetAndDelta
    rw [pairs_eq w extra h]
    have : revokedDir (w.map (fun i => { i with revoked := i.revoked.map (fun _ => dl i) })) [] = pairedDir (w.map (fun i => { i with revoked := i.revoked.map (fun _ => dl i) })) := List.append_nil _
    rw [this]
    cases prev <;> exact h1
  · intro k
    rw [h3]
    constructor
    · rintro ⟨i, hi, s, ha, hb, hc⟩
      obtain ⟨s', he, hkn⟩ := (mem_knownEntries i _).1 ha
      rw [← hexEncode_injective he] at hkn
      exact ⟨i.digest, s, ⟨i, hi, rfl, hkn⟩, (revoked_unique h hi s).2 ((mem_revEntries rs i s).1 hb), hc⟩
    · rintro ⟨d, s, ⟨i, hi, rfl, hkn⟩, hr, rfl⟩
      exact ⟨i, hi, s, (mem_knownEntries i _).2 ⟨s, rfl, hkn⟩, (mem_revEntries rs i s).2 ((revoked_unique h hi s).1 hr), rfl⟩
  · unfold knownDir
    rw [List.map_map]
    rfl
  · refine ⟨?_, ?_, by simp⟩
    · rw [List.map_map]; exact h.1
    · intro i hi
      obtain ⟨j, hj, rfl⟩ := List.mem_map.1 hi
      exact h.2.1 j hj
  · intro d s
    constructor
    · rintro ⟨i, hi, h4⟩
      obtain ⟨j, hj, rfl⟩ := List.mem_map.1 hi
      exact ⟨j, hj, h4⟩
    · rintro ⟨i, hi, h4⟩
      exact ⟨_, List.mem_map.2 ⟨i, hi, rfl⟩, h4⟩
  · intro d
    constructor
    · rintro ⟨i, hi, hd, hne⟩
      obtain ⟨j, hj, rfl⟩ := List.mem_map.1 hi
      exact ⟨j, hj, hd, fun e => hne (by dsimp only; rw [e]; rfl)⟩
    · rintro ⟨i, hi, hd, hne⟩
      refine ⟨_, List.mem_map.2 ⟨i, hi, rfl⟩, hd, fun e => hne (Option.map_eq_none_iff.1 e)⟩
  · intro d s
    constructor
    · rintro ⟨i', hi', hd, hl⟩
      obtain ⟨i, hi, rfl⟩ := List.mem_map.1 hi'
      obtain ⟨ha, hb, hc⟩ := (hrev i hi s).1 hl
      dsimp only at hd
      subst hd
      exact ⟨⟨i, hi, rfl, ha⟩, (revoked_unique h hi s).2 hb, hc⟩
    · rintro ⟨⟨i, hi, rfl, ha⟩, hb, hc⟩
      exact ⟨_, List.mem_map.2 ⟨i, hi, rfl⟩, rfl, (hrev i hi s).2 ⟨ha, (revoked_unique h hi s).1 hb, hc⟩⟩
  · intro d s
    constructor
    · rintro ⟨i', hi', hd, l, hl, c, hc, _⟩
      obtain ⟨i, hi, rfl⟩ := List.mem_map.1 hi'
      dsimp only at hl
      obtain ⟨l0, hl0, rfl⟩ := Option.map_eq_some_iff.1 hl
      refine ⟨_, List.mem_map.2 ⟨i, hi, rfl⟩, hd, dl i, hl, c, hc, ?_⟩
      obtain ⟨r, _, hb, hcc, _⟩ := (h2 i hi s c).1 hc
      obtain ⟨_, _, c0, _, hk0, hrc⟩ := mem_revEntries_pair (reasonOf_mem hb)
      rw [hcc, ← C61_skip_iff, ofCode_code, hrc, C61_skip_iff]
      exact hk0
    · rintro ⟨i', hi', hd, l, hl, c, hc, _⟩
      exact ⟨i', hi', hd, l, hl, c, hc, trivial⟩
  · intro i' hi' l' hl' s c hc
    obtain ⟨i, hi, rfl⟩ := List.mem_map.1 hi'
    dsimp only at hl'
    obtain ⟨l0, hl0, rfl⟩ := Option.map_eq_some_iff.1 hl'
    obtain ⟨r, _, hb, hcc, _⟩ := (h2 i hi s c).1 hc
    obtain ⟨l, hl, c0, hc0, _, hrc⟩ := mem_revEntries_pair (reasonOf_mem hb)
    exact ⟨i, hi, rfl, hsize i hi, l, hl, c0, hc0, by rw [hcc, ofCode_code]; exact hrc⟩

example : writeRevsetAndDelta .all (some [List.replicate 32 7 ++ [3]]) (revokedDir exInput exExtra) (knownDir exInput) =
    some ([(issuerID (List.replicate 32 7), "0102\n0102\n".toList)], [List.replicate 32 7 ++ [2], List.replicate 32 7 ++ [2], List.replicate 32 7 ++ [3]]) := by decide +kernel

/-! ### C59 -/

/-- A history of runs: run `n` has the input `W n` with the further revoked files `X n`, reads the revocation set of run `n - 1` (run 0 reads any), and writes the delta directory `D n` and the set `R n`. -/
structure RunHistory (rs : ReasonSet) where
  W : Nat → RunInput
  X : Nat → Dir
  D : Nat → Dir
  R : Nat → List Bytes
  first : Option (List Bytes)
  good : ∀ n, GoodInput (W n) (X n)
  run0 : writeRevsetAndDelta rs first (revokedDir (W 0) (X 0)) (knownDir (W 0)) = some (D 0, R 0)
  run : ∀ n, writeRevsetAndDelta rs (some (R n)) (revokedDir (W (n + 1)) (X (n + 1))) (knownDir (W (n + 1))) = some (D (n + 1), R (n + 1))

theorem RunHistory.mem_R {rs : ReasonSet} (H : RunHistory rs) (n : Nat) (k : Bytes) : k ∈ H.R n ↔ ∃ d s, KnownIn (H.W n) d s ∧ RevokedIn rs (H.W n) d s ∧ k = crliteKey d s := by
  cases n with
  | zero =>
    obtain ⟨w', revset, h1, h2, _⟩ := C58_delta rs H.first (H.W 0) (H.X 0) (H.good 0)
    rw [H.run0, Option.some.injEq, Prod.mk.injEq] at h1
    rw [h1.2]
    exact h2 k
  | succ n =>
    obtain ⟨w', revset, h1, h2, _⟩ := C58_delta rs (some (H.R n)) (H.W (n + 1)) (H.X (n + 1)) (H.good (n + 1))
    rw [H.run n, Option.some.injEq, Prod.mk.injEq] at h1
    rw [h1.2]
    exact h2 k

theorem knownIn_length {w : RunInput} {extra : Dir} (h : GoodInput w extra) {d : Bytes} {s : Serial} (hk : KnownIn w d s) : d.length = 32 := by
  obtain ⟨i, hi, rfl, _⟩ := hk
  exact (h.2.1 i hi).1

/-- **C59.** After any number of runs, a certificate known and revoked in the last run is among the keys included in the full filter of run 0 or in the delta filter of some later run, however the inputs change from
run to run: certificates may become known, expire, be revoked, unrevoked and revoked again. -/
theorem C59_complete (rs : ReasonSet) (H : RunHistory rs) (n : Nat) (d : Bytes) (s : Serial) (hk : KnownIn (H.W n) d s) (hr : RevokedIn rs (H.W n) d s) :
    (∃ keys, includeAllClubcard rs (revokedDir (H.W 0) (H.X 0)) (knownDir (H.W 0)) = some keys ∧ crliteKey d s ∈ keys) ∨
    ∃ m, 1 ≤ m ∧ m ≤ n ∧ ∃ keys, includeAllClubcard rs (H.D m) (knownDir (H.W m)) = some keys ∧ crliteKey d s ∈ keys := by
  induction n with
  | zero =>
    obtain ⟨keys, h1, _, _, h2⟩ := C56_included rs (H.W 0) (H.X 0) (H.good 0)
    exact Or.inl ⟨keys, h1, (h2 _).2 ⟨d, s, hk, hr, rfl⟩⟩
  | succ n ih =>
    by_cases hp : crliteKey d s ∈ H.R n
    · obtain ⟨d', s', hk', hr', he⟩ := (H.mem_R n _).1 hp
      obtain ⟨rfl, rfl⟩ := C13_key_injective d d' s s' (knownIn_length (H.good (n + 1)) hk) (knownIn_length (H.good n) hk') he
      rcases ih hk' hr' with h | ⟨m, h1, h2, h3⟩
      · exact Or.inl h
      · exact Or.inr ⟨m, h1, by omega, h3⟩
    · obtain ⟨w', revset, h1, _, h3, h4, h5, _, h6, _⟩ := C58_delta rs (some (H.R n)) (H.W (n + 1)) (H.X (n + 1)) (H.good (n + 1))
      rw [H.run n, Option.some.injEq, Prod.mk.injEq] at h1
      have hD : H.D (n + 1) = revokedDir w' [] := h1.1
      obtain ⟨keys, k1, _, _, k2⟩ := C56_included rs w' [] h4
      refine Or.inr ⟨n + 1, by omega, by omega, keys, ?_, (k2 _).2 ⟨d, s, (h5 d s).2 hk, (h6 d s).2 ⟨hk, hr, hp⟩, rfl⟩⟩
      rw [hD, ← h3]; exact k1

/-- The converse: what is in a delta was known and revoked in that run. -/
theorem C59_sound (rs : ReasonSet) (H : RunHistory rs) (n : Nat) (keys : List Bytes) (h : includeAllClubcard rs (H.D (n + 1)) (knownDir (H.W (n + 1))) = some keys) (k : Bytes) (hk : k ∈ keys) :
    k ∉ H.R n ∧ ∃ d s, KnownIn (H.W (n + 1)) d s ∧ RevokedIn rs (H.W (n + 1)) d s ∧ k = crliteKey d s := by
  obtain ⟨w', revset, h1, _, h3, h4, h5, _, h6, _⟩ := C58_delta rs (some (H.R n)) (H.W (n + 1)) (H.X (n + 1)) (H.good (n + 1))
  rw [H.run n, Option.some.injEq, Prod.mk.injEq] at h1
  have hD : H.D (n + 1) = revokedDir w' [] := h1.1
  obtain ⟨keys', k1, _, _, k2⟩ := C56_included rs w' [] h4
  rw [hD, ← h3, k1] at h
  cases h
  obtain ⟨d, s, _, hr, rfl⟩ := (k2 k).1 hk
  obtain ⟨ha, hb, hc⟩ := (h6 d s).1 hr
  exact ⟨hc, d, s, ha, hb, rfl⟩

/-- Successive runs of the whole program: run `n` gets the revocation set written by run `n - 1`. -/
structure RunChain {F : Type} (build : List Bytes → List (Bytes × Bool) → Option F) (contains : F → Bytes → Bool) (order : List Text → List Text) (rs : ReasonSet) where
  W : Nat → RunInput
  X : Nat → Dir
  out : Nat → RunOut F
  first : Option (List Bytes)
  good : ∀ n, GoodInput (W n) (X n)
  run0 : createRun build contains order rs rs first (revokedDir (W 0) (X 0)) (knownDir (W 0)) = some (out 0)
  run : ∀ n, createRun build contains order rs rs (some (out n).revset) (revokedDir (W (n + 1)) (X (n + 1))) (knownDir (W (n + 1))) = some (out (n + 1))

theorem createRun_some {F : Type} {build : List Bytes → List (Bytes × Bool) → Option F} {contains : F → Bytes → Bool} {order : List Text → List Text} {rs drs : ReasonSet} {prev : Option (List Bytes)}
    {revoked known : Dir} {o : RunOut F} (h : createRun build contains order rs drs prev revoked known = some o) :
    createClubcard build contains rs revoked known = some o.filter ∧ writeRevsetAndDelta drs prev revoked known = some (o.deltaDir, o.revset) ∧
      writeStash order drs o.deltaDir = some o.stash ∧ createClubcard build contains drs o.deltaDir known = some o.deltaFilter := by
  unfold createRun at h
  split at h
  · rename_i f dir revset h1 h2
    split at h
    · rename_i st df h3 h4
      cases h
      exact ⟨h1, h2, h3, h4⟩
    · cases h
  · cases h

def RunChain.history {F : Type} {build : List Bytes → List (Bytes × Bool) → Option F} {contains : F → Bytes → Bool} {order : List Text → List Text} {rs : ReasonSet} (C : RunChain build contains order rs) : RunHistory rs where
  W := C.W
  X := C.X
  D := fun n => (C.out n).deltaDir
  R := fun n => (C.out n).revset
  first := C.first
  good := C.good
  run0 := (createRun_some C.run0).2.1
  run := fun n => (createRun_some (C.run n)).2.1

/-- What the delta filter of a run answers on the certificates known in that run: revoked exactly for the newly revoked ones. -/
theorem C59_delta_filter {F : Type} (build : List Bytes → List (Bytes × Bool) → Option F) (contains : F → Bytes → Bool) (order : List Text → List Text) (rs : ReasonSet) (C : RunChain build contains order rs)
    (n : Nat) (d : Bytes) (s : Serial) (hk : KnownIn (C.W (n + 1)) d s) :
    contains (C.out (n + 1)).deltaFilter (crliteKey d s) = true ↔ RevokedIn rs (C.W (n + 1)) d s ∧ ¬ (KnownIn (C.W n) d s ∧ RevokedIn rs (C.W n) d s) := by
  obtain ⟨w', revset, h1, _, h3, h4, h5, _, h6, _⟩ := C58_delta rs (some (C.out n).revset) (C.W (n + 1)) (C.X (n + 1)) (C.good (n + 1))
  obtain ⟨_, k2, _, k4⟩ := createRun_some (C.run n)
  rw [k2, Option.some.injEq, Prod.mk.injEq] at h1
  rw [h1.1, ← h3] at k4
  rw [C56_written_filter_exact build contains rs w' [] h4 _ k4 d s ((h5 d s).2 hk), h6]
  have hR := C.history.mem_R n (crliteKey d s)
  have hlen := knownIn_length (C.good (n + 1)) hk
  constructor
  · rintro ⟨_, hr, hp⟩
    exact ⟨hr, fun h => hp (hR.2 ⟨d, s, h.1, h.2, rfl⟩)⟩
  · rintro ⟨hr, hp⟩
    refine ⟨hk, hr, fun hm => hp ?_⟩
    obtain ⟨d', s', a, b, e⟩ := hR.1 hm
    obtain ⟨rfl, rfl⟩ := C13_key_injective d d' s s' hlen (knownIn_length (C.good n) a) e
    exact ⟨a, b⟩

/-- **C59.** The same for the filters that are written, whatever the filter library does: a certificate known and revoked in the last run is answered by the full filter of the first run or by the delta filter of some
later one. -/
theorem C59_filters {F : Type} (build : List Bytes → List (Bytes × Bool) → Option F) (contains : F → Bytes → Bool) (order : List Text → List Text) (rs : ReasonSet) (C : RunChain build contains order rs)
    (n : Nat) (d : Bytes) (s : Serial) (hk : KnownIn (C.W n) d s) (hr : RevokedIn rs (C.W n) d s) :
    contains (C.out 0).filter (crliteKey d s) = true ∨ ∃ m, 1 ≤ m ∧ m ≤ n ∧ KnownIn (C.W m) d s ∧ contains (C.out m).deltaFilter (crliteKey d s) = true := by
  induction n with
  | zero => exact Or.inl ((C56_written_filter_exact build contains rs _ _ (C.good 0) _ (createRun_some C.run0).1 d s hk).2 hr)
  | succ n ih =>
    by_cases hp : KnownIn (C.W n) d s ∧ RevokedIn rs (C.W n) d s
    · rcases ih hp.1 hp.2 with h | ⟨m, h1, h2, h3⟩
      · exact Or.inl h
      · exact Or.inr ⟨m, h1, by omega, h3⟩
    · exact Or.inr ⟨n + 1, by omega, by omega, hk, (C59_delta_filter build contains order rs C n d s hk).2 ⟨hr, hp⟩⟩

/-- A history: the certificate with serial 2 is revoked from the second run on. -/
def exW : Nat → RunInput
  | 0 => [⟨List.replicate 32 7, [(100, [[1], [2]])], some [([1], 1)]⟩]
  | _ => [⟨List.replicate 32 7, [(100, [[1], [2]])], some [([1], 1), ([2], 4)]⟩]

theorem exW_good (n : Nat) : GoodInput (exW n) [] := by
  cases n with
  | zero =>
    refine ⟨by decide, ?_, by simp⟩
    intro i hi
    simp only [exW, List.mem_cons, List.not_mem_nil, or_false] at hi
    subst hi
    exact ⟨by decide, by decide⟩
  | succ n =>
    show GoodInput (exW 1) []
    refine ⟨by decide, ?_, by simp⟩
    intro i hi
    simp only [exW, List.mem_cons, List.not_mem_nil, or_false] at hi
    subst hi
    exact ⟨by decide, by decide⟩

def exHistory : RunHistory .all where
  W := exW
  X := fun _ => []
  D := fun n => match n with
    | 0 => [(issuerID (List.replicate 32 7), "0101\n".toList)]
    | 1 => [(issuerID (List.replicate 32 7), "0402\n".toList)]
    | _ => [(issuerID (List.replicate 32 7), [])]
  R := fun n => match n with
    | 0 => [List.replicate 32 7 ++ [1]]
    | _ => [List.replicate 32 7 ++ [1], List.replicate 32 7 ++ [2]]
  first := none
  good := exW_good
  run0 := by decide +kernel
  run := fun n => by
    cases n with
    | zero => decide +kernel
    | succ n =>
      show writeRevsetAndDelta .all (some [List.replicate 32 7 ++ [1], List.replicate 32 7 ++ [2]]) (revokedDir (exW 2) []) (knownDir (exW 2)) =
        some ([(issuerID (List.replicate 32 7), [])], [List.replicate 32 7 ++ [1], List.replicate 32 7 ++ [2]])
      decide +kernel

example : KnownIn (exHistory.W 5) (List.replicate 32 7) [2] ∧ RevokedIn .all (exHistory.W 5) (List.replicate 32 7) [2] :=
  ⟨⟨_, List.mem_singleton.2 rfl, rfl, _, List.mem_singleton.2 rfl, by decide⟩, ⟨_, List.mem_singleton.2 rfl, rfl, _, rfl, 4, by decide, trivial⟩⟩

/-- A filter library that simply lists the included keys. -/
def exBuild (inc : List Bytes) (_ : List (Bytes × Bool)) : Option (List Bytes) := some inc

def exContains (f : List Bytes) (k : Bytes) : Bool := f.contains k

/-- The outputs of the first run, the second, and all later ones. -/
def exOut : Nat → RunOut (List Bytes)
  | 0 => ⟨[List.replicate 32 7 ++ [1]], [List.replicate 32 7 ++ [1]], [(issuerID (List.replicate 32 7), "0101\n".toList)], [List.replicate 32 7 ++ [1]], [1, 0, 0, 0, 32] ++ List.replicate 32 7 ++ [1, 1]⟩
  | 1 => ⟨[List.replicate 32 7 ++ [1], List.replicate 32 7 ++ [2]], [List.replicate 32 7 ++ [2]], [(issuerID (List.replicate 32 7), "0402\n".toList)],
      [List.replicate 32 7 ++ [1], List.replicate 32 7 ++ [2]], [1, 0, 0, 0, 32] ++ List.replicate 32 7 ++ [1, 2]⟩
  | _ => ⟨[List.replicate 32 7 ++ [1], List.replicate 32 7 ++ [2]], [], [(issuerID (List.replicate 32 7), [])], [List.replicate 32 7 ++ [1], List.replicate 32 7 ++ [2]], []⟩

/-- Runs of the whole program on the example inputs. -/
def exChain : RunChain exBuild exContains (fun l => l) .all where
  W := exW
  X := fun _ => []
  out := exOut
  first := none
  good := exW_good
  run0 := by decide +kernel
  run := fun n =>
    match n with
    | 0 => by decide +kernel
    | 1 => by decide +kernel
    | n + 2 => (by decide +kernel : createRun exBuild exContains (fun l => l) .all .all (some (exOut 2).revset) (revokedDir (exW 3) []) (knownDir (exW 3)) = some (exOut 3))

/-! ### C60 -/

/-- The runs of the priority channel beside a history of the all-reasons channel: same inputs, and the delta is taken against the all-reasons set of the previous run (workflow/2-generate_mlbf:86-97 always downloads
latest/revset.bin, which workflow/3-upload_mlbf_to_storage:71-77 takes from clubcard-all). -/
structure PriorityRuns (H : RunHistory .all) where
  D : Nat → Dir
  R : Nat → List Bytes
  run : ∀ n, writeRevsetAndDelta .priority (some (H.R n)) (revokedDir (H.W (n + 1)) (H.X (n + 1))) (knownDir (H.W (n + 1))) = some (D (n + 1), R (n + 1))

/-- **C60 (no reason changes into the priority set).** If every certificate revoked in a run and revoked for a priority reason in the next one has a priority reason in both, full filter and deltas of the priority
channel are complete. Missing: changes of the reason (`C60_reason_change_fails`). -/
theorem C60_complete_partial (H : RunHistory .all) (P : PriorityRuns H)
    (hstable : ∀ n d s, KnownIn (H.W n) d s → RevokedIn .all (H.W n) d s → RevokedIn .priority (H.W (n + 1)) d s → RevokedIn .priority (H.W n) d s)
    (n : Nat) (d : Bytes) (s : Serial) (hk : KnownIn (H.W n) d s) (hr : RevokedIn .priority (H.W n) d s) :
    (∃ keys, includeAllClubcard .priority (revokedDir (H.W 0) (H.X 0)) (knownDir (H.W 0)) = some keys ∧ crliteKey d s ∈ keys) ∨
    ∃ m, 1 ≤ m ∧ m ≤ n ∧ ∃ keys, includeAllClubcard .priority (P.D m) (knownDir (H.W m)) = some keys ∧ crliteKey d s ∈ keys := by
  induction n with
  | zero =>
    obtain ⟨keys, h1, _, _, h2⟩ := C56_included .priority (H.W 0) (H.X 0) (H.good 0)
    exact Or.inl ⟨keys, h1, (h2 _).2 ⟨d, s, hk, hr, rfl⟩⟩
  | succ n ih =>
    by_cases hp : crliteKey d s ∈ H.R n
    · obtain ⟨d', s', hk', hr', he⟩ := (H.mem_R n _).1 hp
      obtain ⟨rfl, rfl⟩ := C13_key_injective d d' s s' (knownIn_length (H.good (n + 1)) hk) (knownIn_length (H.good n) hk') he
      rcases ih hk' (hstable n d s hk' hr' hr) with h | ⟨m, h1, h2, h3⟩
      · exact Or.inl h
      · exact Or.inr ⟨m, h1, by omega, h3⟩
    · obtain ⟨w', revset, h1, _, h3, h4, h5, _, h6, _⟩ := C58_delta .priority (some (H.R n)) (H.W (n + 1)) (H.X (n + 1)) (H.good (n + 1))
      rw [P.run n, Option.some.injEq, Prod.mk.injEq] at h1
      have hD : P.D (n + 1) = revokedDir w' [] := h1.1
      obtain ⟨keys, k1, _, _, k2⟩ := C56_included .priority w' [] h4
      refine Or.inr ⟨n + 1, by omega, by omega, keys, ?_, (k2 _).2 ⟨d, s, (h5 d s).2 hk, (h6 d s).2 ⟨hk, hr, hp⟩, rfl⟩⟩
      rw [hD, ← h3]; exact k1

/-- The priority runs beside the example history: its deltas are empty, since serial 2 is revoked for another reason. -/
def exPriority : PriorityRuns exHistory where
  D := fun _ => [(issuerID (List.replicate 32 7), [])]
  R := fun _ => [List.replicate 32 7 ++ [1]]
  run := fun n => by
    cases n with
    | zero => decide +kernel
    | succ n =>
      show writeRevsetAndDelta .priority (some [List.replicate 32 7 ++ [1], List.replicate 32 7 ++ [2]]) (revokedDir (exW 2) []) (knownDir (exW 2)) = _
      decide +kernel

/-- Serial 1 meets the conditions of the theorem in every run: it is revoked for key compromise throughout, and no other certificate has a priority reason. -/
example : ∀ n, KnownIn (exHistory.W n) (List.replicate 32 7) [1] ∧ RevokedIn .priority (exHistory.W n) (List.replicate 32 7) [1] := by
  intro n
  cases n with
  | zero => exact ⟨⟨_, List.mem_singleton.2 rfl, rfl, _, List.mem_singleton.2 rfl, by decide⟩, ⟨_, List.mem_singleton.2 rfl, rfl, _, rfl, 1, by decide, List.mem_cons_self⟩⟩
  | succ n => exact ⟨⟨_, List.mem_singleton.2 rfl, rfl, _, List.mem_singleton.2 rfl, by decide⟩, ⟨_, List.mem_singleton.2 rfl, rfl, _, rfl, 1, by decide, List.mem_cons_self⟩⟩

/-- A certificate is revoked as superseded, and one run later as key compromise. -/
def exUpgrade : Nat → RunInput
  | 0 => [⟨List.replicate 32 7, [(100, [[1]])], some [([1], 4)]⟩]
  | _ => [⟨List.replicate 32 7, [(100, [[1]])], some [([1], 1)]⟩]

/-- **C60 fails when the reason changes**, for instance from superseded to key compromise: the certificate is in no priority filter, neither the full one of the first run nor the delta of the second, although it is
now revoked for a priority reason; the all-reasons set of the first run has it. -/
theorem C60_reason_change_fails :
    includeAllClubcard .priority (revokedDir (exUpgrade 0) []) (knownDir (exUpgrade 0)) = some [] ∧
    (∃ d revset, writeRevsetAndDelta .all none (revokedDir (exUpgrade 0) []) (knownDir (exUpgrade 0)) = some (d, revset) ∧
      writeRevsetAndDelta .priority (some revset) (revokedDir (exUpgrade 1) []) (knownDir (exUpgrade 1)) = some ([(issuerID (List.replicate 32 7), [])], [List.replicate 32 7 ++ [1]])) ∧
    includeAllClubcard .priority [(issuerID (List.replicate 32 7), [])] (knownDir (exUpgrade 1)) = some [] ∧
    KnownIn (exUpgrade 1) (List.replicate 32 7) [1] ∧ RevokedIn .priority (exUpgrade 1) (List.replicate 32 7) [1] := by
  refine ⟨by decide +kernel, ⟨[(issuerID (List.replicate 32 7), "0401\n".toList)], [List.replicate 32 7 ++ [1]], by decide +kernel, by decide +kernel⟩, by decide +kernel, ?_, ?_⟩
  · exact ⟨_, List.mem_singleton.2 rfl, rfl, _, List.mem_singleton.2 rfl, by decide⟩
  · exact ⟨_, List.mem_singleton.2 rfl, rfl, _, rfl, 1, by decide, List.mem_cons_self⟩

/-! ### C62 -/

/-- Specification: decoding `n` serials with one-byte lengths, following the grammar in the comment of `write_stash` (main.rs:627-640). -/
def decodeSerials : Nat → Bytes → Option (List Bytes × Bytes)
  | 0, b => some ([], b)
  | _ + 1, [] => none
  | n + 1, len :: b =>
    if len.toNat ≤ b.length then
      match decodeSerials n (b.drop len.toNat) with
      | some (l, r) => some (b.take len.toNat :: l, r)
      | none => none
    else none

/-- Specification: decoding a stash; the first argument bounds the number of entries. -/
def decodeStash : Nat → Bytes → Option (List (Bytes × List Bytes))
  | _, [] => some []
  | 0, _ :: _ => none
  | f + 1, a :: b :: c :: d :: n :: rest =>
    if n.toNat ≤ rest.length then
      match decodeSerials (a.toNat + 256 * b.toNat + 65536 * c.toNat + 16777216 * d.toNat) (rest.drop n.toNat) with
      | some (l, r) =>
        match decodeStash f r with
        | some es => some ((rest.take n.toNat, l) :: es)
        | none => none
      | none => none
    else none
  | _ + 1, _ :: _ => none

theorem decodeSerials_stash (l : List Serial) (hl : ∀ s ∈ l, s.length < 256) (tail : Bytes) :
    ∃ b, stashSerials (l.map hexEncode) = some b ∧ decodeSerials l.length (b ++ tail) = some (l, tail) := by
  induction l with
  | nil => exact ⟨[], rfl, rfl⟩
  | cons s rest ih =>
    obtain ⟨b, h1, h2⟩ := ih (fun x hx => hl x (by simp [hx]))
    have hlen := hl s (by simp)
    rw [List.map_cons]
    unfold stashSerials
    rw [hexDecode_hexEncode, h1]
    refine ⟨_, rfl, ?_⟩
    have htn : (UInt8.ofNat s.length).toNat = s.length := by rw [UInt8.toNat_ofNat']; omega
    have he : UInt8.ofNat s.length :: s ++ b ++ tail = UInt8.ofNat s.length :: (s ++ (b ++ tail)) := by simp
    rw [he, List.length_cons]
    unfold decodeSerials
    rw [htn, if_pos (by simp), List.drop_left, h2, List.take_left]

theorem u32_decode (n : Nat) (h : n < 4294967296) :
    (UInt8.ofNat (n % 256)).toNat + 256 * (UInt8.ofNat (n / 256 % 256)).toNat + 65536 * (UInt8.ofNat (n / 65536 % 256)).toNat + 16777216 * (UInt8.ofNat (n / 16777216 % 256)).toNat = n := by
  rw [UInt8.toNat_ofNat', UInt8.toNat_ofNat', UInt8.toNat_ofNat', UInt8.toNat_ofNat']
  omega

theorem nodup_foldl_setInsert (l : List Text) : ∀ s : List Text, s.Nodup → (l.foldl setInsert s).Nodup := by
  induction l with
  | nil => intro s h; exact h
  | cons x xs ih =>
    intro s h
    refine ih _ ?_
    unfold setInsert
    by_cases hc : s.contains x = true
    · rw [if_pos hc]; exact h
    · rw [if_neg hc, List.nodup_append]
      refine ⟨h, by simp, ?_⟩
      intro a ha b hb hab
      rw [List.mem_singleton.1 hb] at hab
      exact hc (by rw [← hab]; simpa using ha)

theorem length_foldl_setInsert_le (l : List Text) : ∀ s : List Text, (l.foldl setInsert s).length ≤ s.length + l.length := by
  induction l with
  | nil => intro s; simp
  | cons x xs ih =>
    intro s
    rw [List.foldl_cons]
    have := ih (setInsert s x)
    have h2 : (setInsert s x).length ≤ s.length + 1 := by
      unfold setInsert
      split
      · omega
      · simp
    rw [List.length_cons]; omega

theorem map_hexEncode_of (l : List Text) (h : ∀ t ∈ l, ∃ s, t = hexEncode s) : ∃ ss : List Serial, l = ss.map hexEncode := by
  induction l with
  | nil => exact ⟨[], rfl⟩
  | cons t ts ih =>
    obtain ⟨s, rfl⟩ := h t (by simp)
    obtain ⟨ss, hs⟩ := ih (fun x hx => h x (by simp [hx]))
    exact ⟨s :: ss, by rw [hs]; rfl⟩

/-- **C62.** The stash decodes to exactly the revoked certificates of the delta directory: one entry per issuer, each serial once. For serials shorter than 256 bytes and fewer than 2^32 per issuer, and any iteration
order of the sets. -/
theorem C62_stash (order : List Text → List Text) (horder : ∀ l, (order l).Perm l) (rs : ReasonSet) (w : RunInput) (h : GoodInput w [])
    (hshort : ∀ i ∈ w, ∀ l, i.revoked = some l → l.length < 4294967296 ∧ ∀ e ∈ l, e.1.length < 256) :
    ∃ stash entries, writeStash order rs (revokedDir w []) = some stash ∧ decodeStash stash.length stash = some entries ∧
      (entries.map Prod.fst).Nodup ∧ (∀ e ∈ entries, e.2.Nodup) ∧ ∀ d s, (∃ l, (d, l) ∈ entries ∧ s ∈ l) ↔ RevokedIn rs w d s := by
  have hdir : revokedDir w [] = pairedDir w := List.append_nil _
  rw [hdir]
  have hn := h.1
  have hl := h.2.1
  clear h hdir
  -- a slightly stronger statement, for any larger bound
  have key : ∃ stash entries, writeStash order rs (pairedDir w) = some stash ∧ (∀ f, stash.length ≤ f → decodeStash f stash = some entries) ∧
      (entries.map Prod.fst).Nodup ∧ (∀ d ∈ entries.map Prod.fst, d ∈ w.map RunIssuer.digest) ∧ (∀ e ∈ entries, e.2.Nodup) ∧ ∀ d s, (∃ l, (d, l) ∈ entries ∧ s ∈ l) ↔ RevokedIn rs w d s := by
    induction w with
    | nil =>
      refine ⟨[], [], rfl, fun f _ => by cases f <;> rfl, by simp, by simp, by simp, ?_⟩
      intro d s
      constructor
      · rintro ⟨l, hl, _⟩; cases hl
      · rintro ⟨i, hi, _⟩; cases hi
    | cons i rest ih =>
      rw [List.map_cons, List.nodup_cons] at hn
      obtain ⟨stash, entries, h1, h2, h3, h4, h5, h6⟩ := ih (fun j hj => hshort j (by simp [hj])) hn.2 (fun j hj => hl j (by simp [hj]))
      have hcons : ∀ d s, RevokedIn rs (i :: rest) d s ↔ (i.digest = d ∧ ∃ l, i.revoked = some l ∧ ∃ c, (s, c) ∈ l ∧ codesOf rs c.toNat) ∨ RevokedIn rs rest d s := by
        intro d s
        constructor
        · rintro ⟨j, hj, h⟩
          rcases List.mem_cons.1 hj with rfl | hj
          · exact Or.inl h
          · exact Or.inr ⟨j, hj, h⟩
        · rintro (h | ⟨j, hj, h⟩)
          · exact ⟨i, by simp, h⟩
          · exact ⟨j, by simp [hj], h⟩
      rw [pairedDir_cons]
      cases hr : i.revoked with
      | none =>
        have ht : i.revokedText = none := by unfold RunIssuer.revokedText; rw [hr]; rfl
        rw [ht]
        refine ⟨stash, entries, h1, h2, h3, fun d hd => List.mem_cons_of_mem _ (h4 d hd), h5, ?_⟩
        intro d s
        rw [h6, hcons]
        constructor
        · exact Or.inr
        · rintro (⟨_, l, hl, _⟩ | h)
          · rw [hr] at hl; cases hl
          · exact h
      | some l =>
        have ht : i.revokedText = some (storeRevokedCertificateList l) := by unfold RunIssuer.revokedText; rw [hr]; rfl
        rw [ht]
        dsimp only
        have hread := read_revoked rs i
        rw [ht] at hread
        have hread : readRevokedFile rs (storeRevokedCertificateList l) = some (revEntries rs i) := hread
        have hdigest := (hl i (by simp)).1
        -- the set of serials and its order
        generalize hset : ((revEntries rs i).map Prod.fst).foldl setInsert [] = set
        have hmem : ∀ t, t ∈ set ↔ t ∈ (revEntries rs i).map Prod.fst := by
          intro t
          rw [← hset, mem_foldl_setInsert]
          simp
        have hnd : set.Nodup := by rw [← hset]; exact nodup_foldl_setInsert _ _ (by simp)
        have hlen : set.length < 4294967296 := by
          have a := length_foldl_setInsert_le ((revEntries rs i).map Prod.fst) []
          rw [hset] at a
          have b : (revEntries rs i).length ≤ l.length := by
            unfold revEntries
            rw [hr]
            dsimp only
            rw [List.length_map]
            exact List.length_filter_le _ _
          have c := (hshort i (by simp) l hr).1
          simp at a
          omega
        have hentry : ∀ x, stashEntry order rs (issuerID i.digest) (storeRevokedCertificateList l) = x ↔
            (if set = [] then some [] else match stashSerials (order set) with
              | some b => some (u32LE set.length ++ UInt8.ofNat i.digest.length :: i.digest ++ b)
              | none => none) = x := by
          intro x
          unfold stashEntry
          rw [C13_issuer_name_roundtrip _ hdigest, hread]
          dsimp only
          rw [hset]
          exact Iff.rfl
        have hrevd : ∀ s, (∃ c, (s, c) ∈ l ∧ codesOf rs c.toNat) ↔ hexEncode s ∈ set := by
          intro s
          rw [hmem, mem_revEntries]
          constructor
          · intro h; exact ⟨l, hr, h⟩
          · rintro ⟨l', hl', h⟩
            rw [hr] at hl'; cases hl'; exact h
        by_cases hempty : set = []
        · have he := (hentry (some [])).2 (if_pos hempty)
          refine ⟨stash, entries, ?_, h2, h3, fun d hd => List.mem_cons_of_mem _ (h4 d hd), h5, ?_⟩
          · unfold writeStash
            rw [he, h1]
            rfl
          · intro d s
            rw [h6, hcons]
            constructor
            · exact Or.inr
            · rintro (⟨_, l', hl', h⟩ | h)
              · rw [hr] at hl'
                cases hl'
                have := (hrevd s).1 h
                rw [hempty] at this; cases this
              · exact h
        · obtain ⟨ss, hss⟩ := map_hexEncode_of (order set) (by
            intro t ht
            have ht : t ∈ set := (horder set).mem_iff.1 ht
            rw [hmem] at ht
            unfold revEntries at ht
            rw [hr] at ht
            dsimp only at ht
            rw [List.map_map] at ht
            obtain ⟨p, _, rfl⟩ := List.mem_map.1 ht
            exact ⟨p.1, rfl⟩)
          have hmems : ∀ s, s ∈ ss ↔ hexEncode s ∈ set := by
            intro s
            rw [← (horder set).mem_iff, hss]
            constructor
            · intro h; exact List.mem_map.2 ⟨s, h, rfl⟩
            · intro h
              obtain ⟨s', h', e⟩ := List.mem_map.1 h
              rw [← hexEncode_injective e]; exact h'
          have hsslen : ss.length = set.length := by
            have := (horder set).length_eq
            rw [hss, List.length_map] at this
            exact this
          obtain ⟨b, b1, b2⟩ := decodeSerials_stash ss (by
            intro s hs
            obtain ⟨c, hc, _⟩ := (hrevd s).2 ((hmems s).1 hs)
            exact (hshort i (by simp) l hr).2 (s, c) hc) stash
          have he := (hentry (some (u32LE set.length ++ UInt8.ofNat i.digest.length :: i.digest ++ b))).2 (by rw [if_neg hempty, hss, b1])
          refine ⟨u32LE set.length ++ UInt8.ofNat i.digest.length :: i.digest ++ b ++ stash, (i.digest, ss) :: entries, ?_, ?_, ?_, ?_, ?_, ?_⟩
          · unfold writeStash
            rw [he, h1]
          · intro f hf
            cases f with
            | zero => simp [u32LE] at hf
            | succ f =>
              have e1 : u32LE set.length ++ UInt8.ofNat i.digest.length :: i.digest ++ b ++ stash =
                  UInt8.ofNat (set.length % 256) :: UInt8.ofNat (set.length / 256 % 256) :: UInt8.ofNat (set.length / 65536 % 256) :: UInt8.ofNat (set.length / 16777216 % 256) ::
                    UInt8.ofNat i.digest.length :: (i.digest ++ (b ++ stash)) := by simp [u32LE]
              have htn : (UInt8.ofNat i.digest.length).toNat = i.digest.length := by rw [UInt8.toNat_ofNat']; omega
              rw [e1]
              unfold decodeStash
              rw [htn, if_pos (by simp), List.drop_left, u32_decode _ hlen, ← hsslen, b2]
              dsimp only
              rw [h2 f (by rw [e1] at hf; simp at hf; omega), List.take_left]
          · rw [List.map_cons, List.nodup_cons]
            exact ⟨fun hm => hn.1 (h4 _ hm), h3⟩
          · intro d hd
            rw [List.map_cons, List.mem_cons] at hd
            rcases hd with rfl | hd
            · simp
            · exact List.mem_cons_of_mem _ (h4 d hd)
          · intro e hm
            rcases List.mem_cons.1 hm with rfl | hm
            · have : (ss.map hexEncode).Nodup := by rw [← hss]; exact (horder set).nodup_iff.2 hnd
              exact List.Pairwise.of_map hexEncode (fun a b hab e => hab (congrArg hexEncode e)) this
            · exact h5 e hm
          · intro d s
            rw [hcons, ← h6]
            constructor
            · rintro ⟨l', hm, hs⟩
              rcases List.mem_cons.1 hm with hm | hm
              · cases hm
                exact Or.inl ⟨rfl, l, hr, (hrevd s).2 ((hmems s).1 hs)⟩
              · exact Or.inr ⟨l', hm, hs⟩
            · rintro (⟨rfl, l', hl', h⟩ | ⟨l', hm, hs⟩)
              · rw [hr] at hl'
                cases hl'
                exact ⟨ss, by simp, (hmems s).2 ((hrevd s).1 h)⟩
              · exact ⟨l', by simp [hm], hs⟩
  obtain ⟨stash, entries, h1, h2, h3, _, h5, h6⟩ := key
  exact ⟨stash, entries, h1, h2 _ (Nat.le_refl _), h3, h5, h6⟩

/-- **C62.** The stash of a run holds exactly the newly revoked certificates. -/
theorem C62_run (order : List Text → List Text) (horder : ∀ l, (order l).Perm l) (rs : ReasonSet) (prev : Option (List Bytes)) (w : RunInput) (extra : Dir) (h : GoodInput w extra)
    (dir : Dir) (revset : List Bytes) (hw : writeRevsetAndDelta rs prev (revokedDir w extra) (knownDir w) = some (dir, revset))
    (hshort : ∀ i ∈ w, i.size < 4294967296 ∧ ∀ l, i.revoked = some l → ∀ e ∈ l, e.1.length < 256) :
    ∃ stash entries, writeStash order rs dir = some stash ∧ decodeStash stash.length stash = some entries ∧
      ∀ d s, (∃ l, (d, l) ∈ entries ∧ s ∈ l) ↔ KnownIn w d s ∧ RevokedIn rs w d s ∧ crliteKey d s ∉ prevSet prev := by
  obtain ⟨w', revset', h1, _, _, h4, _, _, h6, _, h8⟩ := C58_delta rs prev w extra h
  rw [hw, Option.some.injEq, Prod.mk.injEq] at h1
  have hD : dir = revokedDir w' [] := h1.1
  obtain ⟨stash, entries, k1, k2, _, _, k3⟩ := C62_stash order horder rs w' h4 (by
    intro i' hi' l' hl'
    constructor
    · cases l' with
      | nil => simp
      | cons e es =>
        obtain ⟨i, hi, _, hle, _⟩ := h8 i' hi' _ hl' e.1 e.2 (by simp)
        have := (hshort i hi).1
        omega
    · intro e he
      obtain ⟨i, hi, _, _, l, hl, c0, hc0, _⟩ := h8 i' hi' _ hl' e.1 e.2 he
      exact (hshort i hi).2 l hl (e.1, c0) hc0)
  exact ⟨stash, entries, by rw [hD]; exact k1, k2, fun d s => by rw [k3, h6]⟩

example : (writeStash (fun l => l) .all [(issuerID (List.replicate 32 7), "0102\n0403ff\n0102\n".toList)]).bind (fun b => decodeStash b.length b) = some [(List.replicate 32 7, [[2], [3, 255]])] := by
  decide +kernel

/-- **C62 fails for a serial of 256 bytes**: the length byte is 0, and the stash no longer decodes. (Such serials break X.509's limit of 20 bytes, but neither program checks it.) -/
theorem C62_long_serial_fails :
    (writeStash (fun l => l) .all [(issuerID (List.replicate 32 7), storeRevokedCertificateList [(List.replicate 256 1, 0)])]).bind (fun b => decodeStash b.length b) = none := by
  decide +kernel

/-! ### each theorem applied -/

theorem exW_known (n : Nat) (d s : Bytes) (hd : d = List.replicate 32 7) (hs : s = [2]) : KnownIn (exW (n + 1)) d s ∧ RevokedIn .all (exW (n + 1)) d s := by
  subst hd hs
  exact ⟨⟨_, List.mem_singleton.2 rfl, rfl, _, List.mem_singleton.2 rfl, by decide⟩, ⟨_, List.mem_singleton.2 rfl, rfl, _, rfl, 4, by decide, trivial⟩⟩

example := C59_complete .all exHistory 5 (List.replicate 32 7) [2] (exW_known 4 _ _ rfl rfl).1 (exW_known 4 _ _ rfl rfl).2
example := C59_sound .all exHistory 0 [List.replicate 32 7 ++ [2]] (by decide +kernel) (List.replicate 32 7 ++ [2]) List.mem_cons_self
example := C59_delta_filter exBuild exContains (fun l => l) .all exChain 0 (List.replicate 32 7) [2] (exW_known 0 _ _ rfl rfl).1
example := C62_stash (fun l => l) (fun l => List.Perm.refl l) .all (exW 1) (exW_good 1) (by decide)

end Verif.Props
