import Verif.Spec.Run
import Verif.Props.Issuers
/-!
Properties C56 to C60 and C62: what goes into filters, deltas and stashes.
-/
namespace Verif.Props
open Verif.Spec

/-! ### reading the directories -/

/-- The entries read from a known file. -/
def knownEntries (i : RunIssuer) : List (Nat × Text) := (i.known.map (fun b => b.2.map (fun s => (b.1, hexEncode s)))).flatten

/-- The entries read from a revoked file. -/
def revEntries (rs : ReasonSet) (i : RunIssuer) : List (Text × Reason) :=
  match i.revoked with
  | none => []
  | some l => (l.filter (fun p => !skipReason rs (Reason.ofCode p.2.toNat))).map (fun p => (hexEncode p.1, Reason.ofCode p.2.toNat))

theorem assocGet_append {β : Type} (a b : List (Text × β)) (k : Text) (h : assocGet a k = none) : assocGet (a ++ b) k = assocGet b k := by
  unfold assocGet at h ⊢
  rw [Option.map_eq_none_iff] at h
  rw [List.find?_append, h, Option.none_or]

theorem assocGet_append_left {β : Type} (a b : List (Text × β)) (k : Text) (v : β) (h : assocGet a k = some v) : assocGet (a ++ b) k = some v := by
  unfold assocGet at h ⊢
  obtain ⟨e, he, hv⟩ := Option.map_eq_some_iff.1 h
  rw [List.find?_append, he, Option.some_or, Option.map_some, hv]

theorem assocGet_cons_ne {β : Type} (e : Text × β) (l : List (Text × β)) (k : Text) (h : e.1 ≠ k) : assocGet (e :: l) k = assocGet l k := by
  unfold assocGet
  rw [List.find?_cons_of_neg (by simpa using h)]

theorem assocGet_cons_self {β : Type} (v : β) (l : List (Text × β)) (k : Text) : assocGet ((k, v) :: l) k = some v := by
  unfold assocGet
  rw [List.find?_cons_of_pos (by simp)]
  rfl

/-- The part of the revoked directory that has a partner in the known directory. -/
def pairedDir (w : RunInput) : Dir := w.filterMap (fun i => i.revokedText.map (fun t => (issuerID i.digest, t)))

theorem pairedDir_cons (i : RunIssuer) (w : RunInput) :
    pairedDir (i :: w) = (match i.revokedText with | none => pairedDir w | some t => (issuerID i.digest, t) :: pairedDir w) := by
  unfold pairedDir
  cases h : i.revokedText with
  | none => simp [h]
  | some t => simp [h]

theorem pairedDir_names {w : RunInput} {k : Text} {v : Text} (h : assocGet (pairedDir w) k = some v) : ∃ i ∈ w, issuerID i.digest = k := by
  have := assocGet_mem h
  unfold pairedDir at this
  obtain ⟨i, hi, he⟩ := List.mem_filterMap.1 this
  cases ht : i.revokedText with
  | none => rw [ht] at he; cases he
  | some t =>
    rw [ht] at he
    cases he
    exact ⟨i, hi, rfl⟩

theorem pairedDir_get (w : RunInput) (hn : (w.map RunIssuer.digest).Nodup) (i : RunIssuer) (hi : i ∈ w) : assocGet (pairedDir w) (issuerID i.digest) = i.revokedText := by
  induction w with
  | nil => cases hi
  | cons j rest ih =>
    rw [List.map_cons, List.nodup_cons] at hn
    rw [pairedDir_cons]
    rcases List.mem_cons.1 hi with rfl | hi
    · cases h : i.revokedText with
      | none =>
        dsimp only
        cases hg : assocGet (pairedDir rest) (issuerID i.digest) with
        | none => rfl
        | some v =>
          obtain ⟨k, hk, he⟩ := pairedDir_names hg
          exact absurd (List.mem_map.2 ⟨k, hk, C13_issuer_name_injective _ _ he⟩) hn.1
      | some t => exact assocGet_cons_self _ _ _
    · have hne : issuerID j.digest ≠ issuerID i.digest := fun e => hn.1 (List.mem_map.2 ⟨i, hi, (C13_issuer_name_injective _ _ e).symm⟩)
      cases h : j.revokedText with
      | none => exact ih hn.2 hi
      | some t => rw [assocGet_cons_ne _ _ _ hne]; exact ih hn.2 hi

theorem pairs_eq (w : RunInput) (extra : Dir) (h : GoodInput w extra) :
    listIssuerFilePairs (revokedDir w extra) (knownDir w) = w.map (fun i => (issuerID i.digest, i.revokedText, i.knownText)) := by
  unfold listIssuerFilePairs knownDir
  rw [List.map_map]
  refine List.map_congr_left (fun i hi => ?_)
  have hg : assocGet (revokedDir w extra) (issuerID i.digest) = i.revokedText := by
    have h1 := pairedDir_get w h.1 i hi
    show assocGet (pairedDir w ++ extra) _ = _
    cases ht : i.revokedText with
    | some t => rw [ht] at h1; exact assocGet_append_left _ _ _ _ h1
    | none =>
      rw [ht] at h1
      rw [assocGet_append _ _ _ h1]
      cases hx : assocGet extra (issuerID i.digest) with
      | none => rfl
      | some v => exact absurd rfl (h.2.2 _ (assocGet_mem hx) i hi)
  simp only [Function.comp]
  rw [hg]

theorem read_known (i : RunIssuer) (h : ∀ b ∈ i.known, b.1 < 2 ^ 64) : readKnownFile i.knownText = some (knownEntries i) := C05_known_file_roundtrip i.known h

theorem read_revoked (rs : ReasonSet) (i : RunIssuer) : revokedOf rs i.revokedText = some (revEntries rs i) := by
  unfold revokedOf RunIssuer.revokedText revEntries
  cases i.revoked with
  | none => rfl
  | some l => exact C06_revoked_file_roundtrip rs l

theorem mem_knownEntries (i : RunIssuer) (t : Text) : t ∈ (knownEntries i).map Prod.snd ↔ ∃ s, t = hexEncode s ∧ ∃ b ∈ i.known, s ∈ b.2 := by
  unfold knownEntries
  constructor
  · intro h
    obtain ⟨e, he, rfl⟩ := List.mem_map.1 h
    obtain ⟨l, hl, he⟩ := List.mem_flatten.1 he
    obtain ⟨b, hb, rfl⟩ := List.mem_map.1 hl
    obtain ⟨s, hs, rfl⟩ := List.mem_map.1 he
    exact ⟨s, rfl, b, hb, hs⟩
  · rintro ⟨s, rfl, b, hb, hs⟩
    exact List.mem_map.2 ⟨(b.1, hexEncode s), List.mem_flatten.2 ⟨_, List.mem_map.2 ⟨b, hb, rfl⟩, List.mem_map.2 ⟨s, hs, rfl⟩⟩, rfl⟩

theorem mem_revEntries (rs : ReasonSet) (i : RunIssuer) (s : Serial) :
    hexEncode s ∈ (revEntries rs i).map Prod.fst ↔ ∃ l, i.revoked = some l ∧ ∃ c, (s, c) ∈ l ∧ codesOf rs c.toNat := by
  unfold revEntries
  cases hr : i.revoked with
  | none => simp
  | some l =>
    dsimp only
    constructor
    · intro h
      obtain ⟨e, he, h1⟩ := List.mem_map.1 h
      obtain ⟨p, hp, rfl⟩ := List.mem_map.1 he
      obtain ⟨hp, hk⟩ := List.mem_filter.1 hp
      have : p.1 = s := hexEncode_injective h1
      refine ⟨l, rfl, p.2, by rw [← this]; exact hp, (C61_skip_iff rs p.2).1 (by simpa using hk)⟩
    · rintro ⟨l', e, c, hc, hk⟩
      cases e
      refine List.mem_map.2 ⟨(hexEncode s, Reason.ofCode c.toNat), List.mem_map.2 ⟨(s, c), List.mem_filter.2 ⟨hc, ?_⟩, rfl⟩, rfl⟩
      have := (C61_skip_iff rs c).2 hk
      simpa using this

/-! ### the loops -/

/-- All entries are hexadecimal texts. -/
def HexList (l : List (Nat × Text)) : Prop := ∀ e ∈ l, ∃ s, e.2 = hexEncode s

theorem hexList_known (i : RunIssuer) : HexList (knownEntries i) := by
  intro e he
  obtain ⟨s, hs, _⟩ := (mem_knownEntries i e.2).1 (List.mem_map.2 ⟨e, he, rfl⟩)
  exact ⟨s, hs⟩

theorem key_inj {issuer : Bytes} {s s' : Serial} (h : crliteKey issuer s = crliteKey issuer s') : s = s' := List.append_cancel_left h

theorem includeLoop_spec (issuer : Bytes) (l : List (Nat × Text)) (hl : HexList l) : ∀ set, ∃ keys, includeLoop issuer set l = some keys ∧
    (∀ k, k ∈ keys ↔ ∃ s, hexEncode s ∈ set ∧ hexEncode s ∈ l.map Prod.snd ∧ k = crliteKey issuer s) ∧ keys.Nodup := by
  induction l with
  | nil => intro set; exact ⟨[], rfl, by simp, by simp⟩
  | cons e rest ih =>
    intro set
    obtain ⟨s, hs⟩ := hl e (by simp)
    have ih := ih (fun x hx => hl x (by simp [hx]))
    obtain ⟨n, t⟩ := e
    dsimp only at hs
    subst hs
    unfold includeLoop
    by_cases hm : hexEncode s ∈ set
    · rw [if_pos hm, hexDecode_hexEncode]
      obtain ⟨keys, h1, h2, h3⟩ := ih (set.filter (fun x => decide (x ≠ hexEncode s)))
      rw [h1]
      refine ⟨crliteKey issuer s :: keys, rfl, ?_, ?_⟩
      · intro k
        rw [List.mem_cons, h2]
        constructor
        · rintro (rfl | ⟨s', ha, hb, hc⟩)
          · exact ⟨s, hm, by simp, rfl⟩
          · exact ⟨s', (List.mem_filter.1 ha).1, by simp only [List.map_cons, List.mem_cons]; exact Or.inr hb, hc⟩
        · rintro ⟨s', ha, hb, hc⟩
          by_cases he : s' = s
          · subst he; exact Or.inl hc
          · refine Or.inr ⟨s', List.mem_filter.2 ⟨ha, by simpa using fun e => he (hexEncode_injective e)⟩, ?_, hc⟩
            rw [List.map_cons, List.mem_cons] at hb
            rcases hb with hb | hb
            · exact absurd (hexEncode_injective hb) he
            · exact hb
      · rw [List.nodup_cons]
        refine ⟨?_, h3⟩
        rw [h2]
        rintro ⟨s', ha, _, hc⟩
        have := key_inj hc
        subst this
        have := (List.mem_filter.1 ha).2
        simp at this
    · rw [if_neg hm]
      obtain ⟨keys, h1, h2, h3⟩ := ih set
      refine ⟨keys, h1, ?_, h3⟩
      intro k
      rw [h2]
      constructor
      · rintro ⟨s', ha, hb, hc⟩
        exact ⟨s', ha, by simp only [List.map_cons, List.mem_cons]; exact Or.inr hb, hc⟩
      · rintro ⟨s', ha, hb, hc⟩
        rw [List.map_cons, List.mem_cons] at hb
        rcases hb with hb | hb
        · dsimp only at hb; rw [hb] at ha; exact absurd ha hm
        · exact ⟨s', ha, hb, hc⟩

theorem statusLoop_spec (issuer : Bytes) (set : List Text) (l : List (Nat × Text)) (hl : HexList l) : ∃ st, statusLoop issuer set l = some st ∧ st.length = l.length ∧
    ∀ k b, (k, b) ∈ st ↔ ∃ s, hexEncode s ∈ l.map Prod.snd ∧ k = crliteKey issuer s ∧ (b = true ↔ hexEncode s ∈ set) := by
  induction l with
  | nil => exact ⟨[], rfl, rfl, by simp⟩
  | cons e rest ih =>
    obtain ⟨s, hs⟩ := hl e (by simp)
    obtain ⟨st, h1, h0, h2⟩ := ih (fun x hx => hl x (by simp [hx]))
    obtain ⟨n, t⟩ := e
    dsimp only at hs
    subst hs
    unfold statusLoop
    rw [hexDecode_hexEncode, h1]
    refine ⟨_, rfl, by simp [h0], ?_⟩
    intro k b
    rw [List.mem_cons, h2]
    constructor
    · rintro (h | ⟨s', ha, hb, hc⟩)
      · cases h; exact ⟨s, by simp, rfl, by simp⟩
      · exact ⟨s', by simp only [List.map_cons, List.mem_cons]; exact Or.inr ha, hb, hc⟩
    · rintro ⟨s', ha, hb, hc⟩
      rw [List.map_cons, List.mem_cons] at ha
      rcases ha with ha | ha
      · have := hexEncode_injective ha
        subst this
        left
        rw [hb, Prod.mk.injEq]
        refine ⟨rfl, ?_⟩
        by_cases hm : hexEncode s' ∈ set
        · rw [hc.2 hm]; exact (decide_eq_true hm).symm
        · have : b = false := by
            cases hb' : b with
            | false => rfl
            | true => exact absurd (hc.1 hb') hm
          rw [this]
          exact (decide_eq_false hm).symm
      · exact Or.inr ⟨s', ha, hb, hc⟩

theorem excludeLoop_spec (issuer : Bytes) (set : List Text) (l : List (Nat × Text)) (hl : HexList l) : ∃ keys, excludeLoop issuer set l = some keys ∧
    keys.length = (l.filter (fun e => decide (e.2 ∉ set))).length ∧
    ∀ k, k ∈ keys ↔ ∃ s, hexEncode s ∉ set ∧ hexEncode s ∈ l.map Prod.snd ∧ k = crliteKey issuer s := by
  induction l with
  | nil => exact ⟨[], rfl, rfl, by simp⟩
  | cons e rest ih =>
    obtain ⟨s, hs⟩ := hl e (by simp)
    obtain ⟨keys, h1, h0, h2⟩ := ih (fun x hx => hl x (by simp [hx]))
    obtain ⟨n, t⟩ := e
    dsimp only at hs
    subst hs
    unfold excludeLoop
    by_cases hm : hexEncode s ∈ set
    · rw [if_pos hm]
      refine ⟨keys, h1, by rw [List.filter_cons_of_neg (by simpa using hm)]; exact h0, ?_⟩
      intro k
      rw [h2]
      constructor
      · rintro ⟨s', ha, hb, hc⟩
        exact ⟨s', ha, by simp only [List.map_cons, List.mem_cons]; exact Or.inr hb, hc⟩
      · rintro ⟨s', ha, hb, hc⟩
        rw [List.map_cons, List.mem_cons] at hb
        rcases hb with hb | hb
        · dsimp only at hb; rw [hb] at ha; exact absurd hm ha
        · exact ⟨s', ha, hb, hc⟩
    · rw [if_neg hm, hexDecode_hexEncode, h1]
      refine ⟨_, rfl, by rw [List.filter_cons_of_pos (by simpa using hm)]; simp [h0], ?_⟩
      intro k
      rw [List.mem_cons, h2]
      constructor
      · rintro (rfl | ⟨s', ha, hb, hc⟩)
        · exact ⟨s, hm, by simp, rfl⟩
        · exact ⟨s', ha, by simp only [List.map_cons, List.mem_cons]; exact Or.inr hb, hc⟩
      · rintro ⟨s', ha, hb, hc⟩
        rw [List.map_cons, List.mem_cons] at hb
        rcases hb with hb | hb
        · rw [hexEncode_injective hb] at hc; exact Or.inl hc
        · exact Or.inr ⟨s', ha, hb, hc⟩

theorem forPairs_some {α : Type} {f : Text → Option Text → Text → Option (List α)} : ∀ {l : List (Text × Option Text × Text)} {out : List α}, forPairs f l = some out →
    ∀ i r k, (i, r, k) ∈ l → ∃ a, f i r k = some a ∧ ∀ x ∈ a, x ∈ out := by
  intro l
  induction l with
  | nil => intro out _ i r k h; cases h
  | cons p l ih =>
    obtain ⟨i', r', k'⟩ := p
    intro out h i r k hm
    rw [forPairs] at h
    split at h
    · rename_i a b ha hb
      rw [Option.some.injEq] at h
      subst h
      rcases List.mem_cons.1 hm with e | hm
      · cases e
        exact ⟨a, ha, fun x hx => List.mem_append_left _ hx⟩
      · obtain ⟨a', h1, h2⟩ := ih hb i r k hm
        exact ⟨a', h1, fun x hx => List.mem_append_right _ (h2 x hx)⟩
    · cases h

theorem statusLoop_some {issuer : Bytes} {set : List Text} : ∀ {l : List (Nat × Text)} {out : List (Bytes × Bool)}, statusLoop issuer set l = some out →
    ∀ d s, (d, s) ∈ l → ∃ b, hexDecode s = some b ∧ (crliteKey issuer b, decide (s ∈ set)) ∈ out := by
  intro l
  induction l with
  | nil => intro out _ d s h; cases h
  | cons p l ih =>
    obtain ⟨d', s'⟩ := p
    intro out h d s hm
    rw [statusLoop] at h
    split at h
    · rename_i b r hb hr
      rw [Option.some.injEq] at h
      subst h
      rcases List.mem_cons.1 hm with e | hm
      · cases e
        exact ⟨b, hb, List.mem_cons_self⟩
      · obtain ⟨b', h1, h2⟩ := ih hr d s hm
        exact ⟨b', h1, List.mem_cons_of_mem _ h2⟩
    · cases h

/-- **C56 (any directories).** Whatever is in the two directories, if a filter is written, then every known file and every revoked file beside one could be read to the end, and the filter answers for every line of every known file
according to the revoked file of the same name. -/
theorem C56_written_filter {F : Type} (build : List Bytes → List (Bytes × Bool) → Option F) (contains : F → Bytes → Bool) (rs : ReasonSet) (revoked known : Dir) (f : F)
    (h : createClubcard build contains rs revoked known = some f) (name text : Text) (hk : (name, text) ∈ known) :
    ∃ issuer entries, decodeIssuer name = some issuer ∧ readKnownFile text = some entries ∧
      (∀ t, assocGet revoked name = some t → readRevokedFile rs t ≠ none) ∧
      ∀ d s, (d, s) ∈ entries → ∃ b, hexDecode s = some b ∧
        (contains f (crliteKey issuer b) = true ↔ ∃ t rev, assocGet revoked name = some t ∧ readRevokedFile rs t = some rev ∧ s ∈ rev.map Prod.fst) := by
  unfold createClubcard at h
  split at h
  · rename_i inc st hinc hst
    split at h
    · rename_i g hb
      split at h
      · rename_i hck
        rw [Option.some.injEq] at h
        subst h
        unfold checkAll at hck
        rw [hst] at hck
        dsimp only at hck
        rw [List.all_eq_true] at hck
        obtain ⟨a, h1, h2⟩ := forPairs_some hst name (assocGet revoked name) text (List.mem_map.2 ⟨_, hk, rfl⟩)
        unfold statusOne at h1
        split at h1
        · rename_i issuer rev entries e1 e2 e3
          refine ⟨issuer, entries, e1, e3, ?_, ?_⟩
          · intro t ht hn
            rw [ht] at e2
            rw [show revokedOf rs (some t) = readRevokedFile rs t from rfl, hn] at e2
            cases e2
          · intro d s hs
            obtain ⟨b, b1, b2⟩ := statusLoop_some h1 d s hs
            refine ⟨b, b1, ?_⟩
            have hq := hck _ (h2 _ b2)
            rw [beq_iff_eq] at hq
            dsimp only at hq
            rw [hq, decide_eq_true_eq]
            cases hr : assocGet revoked name with
            | none =>
              rw [hr] at e2
              rw [← Option.some.inj e2]
              simp
            | some t =>
              rw [hr] at e2
              rw [show revokedOf rs (some t) = readRevokedFile rs t from rfl] at e2
              constructor
              · intro hm; exact ⟨t, rev, rfl, e2, hm⟩
              · rintro ⟨t', rev', e, e', hm⟩
                cases e
                rw [e2, Option.some.injEq] at e'
                rw [e']
                exact hm
        · cases h1
      · cases h
    · cases h
  · cases h

theorem forPairs_map {α : Type} (f : Text → Option Text → Text → Option (List α)) (w : RunInput) (vals : RunIssuer → List α)
    (h : ∀ i ∈ w, f (issuerID i.digest) i.revokedText i.knownText = some (vals i)) :
    forPairs f (w.map (fun i => (issuerID i.digest, i.revokedText, i.knownText))) = some (w.map vals).flatten := by
  induction w with
  | nil => rfl
  | cons i rest ih =>
    rw [List.map_cons, forPairs, h i (by simp), ih (fun j hj => h j (by simp [hj]))]
    rfl

/-- The keys included for one issuer. -/
def incKeys (rs : ReasonSet) (i : RunIssuer) : List Bytes := (includeLoop i.digest ((revEntries rs i).map Prod.fst) (knownEntries i)).getD []

theorem incKeys_spec (rs : ReasonSet) (i : RunIssuer) :
    includeLoop i.digest ((revEntries rs i).map Prod.fst) (knownEntries i) = some (incKeys rs i) ∧ (incKeys rs i).Nodup ∧
    ∀ k, k ∈ incKeys rs i ↔ ∃ s, (∃ l, i.revoked = some l ∧ ∃ c, (s, c) ∈ l ∧ codesOf rs c.toNat) ∧ (∃ b ∈ i.known, s ∈ b.2) ∧ k = crliteKey i.digest s := by
  obtain ⟨keys, h1, h2, h3⟩ := includeLoop_spec i.digest (knownEntries i) (hexList_known i) ((revEntries rs i).map Prod.fst)
  have he : incKeys rs i = keys := by unfold incKeys; rw [h1]; rfl
  rw [he]
  refine ⟨h1, h3, fun k => ?_⟩
  rw [h2]
  refine exists_congr (fun s => ?_)
  rw [mem_revEntries, mem_knownEntries]
  refine and_congr_right (fun _ => and_congr_left (fun _ => ?_))
  constructor
  · rintro ⟨s', e, h⟩
    rw [hexEncode_injective e]; exact h
  · intro h; exact ⟨s, rfl, h⟩

theorem incKeys_no_revoked (rs : ReasonSet) (i : RunIssuer) (h : i.revoked = none) : incKeys rs i = [] := by
  cases hk : incKeys rs i with
  | nil => rfl
  | cons k ks =>
    have := (incKeys_spec rs i).2.2 k
    rw [hk] at this
    obtain ⟨s, ⟨l, hl, _⟩, _⟩ := this.1 (by simp)
    rw [h] at hl; cases hl

theorem includeOne_eq (rs : ReasonSet) (i : RunIssuer) (h : i.digest.length = 32 ∧ ∀ b ∈ i.known, b.1 < 2 ^ 64) :
    includeOne rs (issuerID i.digest) i.revokedText i.knownText = some (incKeys rs i) := by
  unfold includeOne
  rw [C13_issuer_name_roundtrip _ h.1, read_revoked, read_known i h.2]
  exact (incKeys_spec rs i).1

theorem includeAllClubcard_eq (rs : ReasonSet) (w : RunInput) (extra : Dir) (h : GoodInput w extra) :
    includeAllClubcard rs (revokedDir w extra) (knownDir w) = some (w.map (incKeys rs)).flatten := by
  unfold includeAllClubcard
  rw [pairs_eq w extra h]
  exact forPairs_map _ w _ (fun i hi => includeOne_eq rs i (h.2.1 i hi))

theorem includeAllCascade_eq (rs : ReasonSet) (w : RunInput) (extra : Dir) (h : GoodInput w extra) :
    includeAllCascade rs (revokedDir w extra) (knownDir w) = some (w.map (incKeys rs)).flatten := by
  unfold includeAllCascade
  rw [pairs_eq w extra h]
  refine forPairs_map _ w _ (fun i hi => ?_)
  have hone := includeOne_eq rs i (h.2.1 i hi)
  unfold includeOneCascade
  cases ht : i.revokedText with
  | none =>
    have : i.revoked = none := by
      unfold RunIssuer.revokedText at ht
      exact Option.map_eq_none_iff.1 ht
    rw [incKeys_no_revoked rs i this]
  | some t => rw [ht] at hone; exact hone

theorem mem_flatten_incKeys (rs : ReasonSet) (w : RunInput) (extra : Dir) (h : GoodInput w extra) (k : Bytes) :
    k ∈ (w.map (incKeys rs)).flatten ↔ ∃ d s, KnownIn w d s ∧ RevokedIn rs w d s ∧ k = crliteKey d s := by
  constructor
  · intro hk
    obtain ⟨l, hl, hk⟩ := List.mem_flatten.1 hk
    obtain ⟨i, hi, rfl⟩ := List.mem_map.1 hl
    obtain ⟨s, ⟨l, h1, h2⟩, h3, h4⟩ := ((incKeys_spec rs i).2.2 k).1 hk
    exact ⟨i.digest, s, ⟨i, hi, rfl, h3⟩, ⟨i, hi, rfl, l, h1, h2⟩, h4⟩
  · rintro ⟨d, s, ⟨i, hi, hd, hs⟩, ⟨j, hj, hd', l, hl, hc⟩, rfl⟩
    have : i = j := by
      have hn := h.1
      clear h
      induction w with
      | nil => cases hi
      | cons x rest ih =>
        rw [List.map_cons, List.nodup_cons] at hn
        rcases List.mem_cons.1 hi with rfl | hi'
        · rcases List.mem_cons.1 hj with rfl | hj'
          · rfl
          · exact absurd (List.mem_map.2 ⟨j, hj', hd'.trans hd.symm⟩) hn.1
        · rcases List.mem_cons.1 hj with rfl | hj'
          · exact absurd (List.mem_map.2 ⟨i, hi', hd.trans hd'.symm⟩) hn.1
          · exact ih hi' hj' hn.2
    subst this
    refine List.mem_flatten.2 ⟨_, List.mem_map.2 ⟨i, hi, rfl⟩, ((incKeys_spec rs i).2.2 _).2 ⟨s, ⟨l, hl, hc⟩, hs, by rw [hd]⟩⟩

theorem nodup_flatten_incKeys (rs : ReasonSet) (w : RunInput) (hn : (w.map RunIssuer.digest).Nodup) (hlen : ∀ i ∈ w, i.digest.length = 32) : ((w.map (incKeys rs)).flatten).Nodup := by
  induction w with
  | nil => simp
  | cons i rest ih =>
    rw [List.map_cons, List.nodup_cons] at hn
    rw [List.map_cons, List.flatten_cons, List.nodup_append]
    refine ⟨(incKeys_spec rs i).2.1, ih hn.2 (fun j hj => hlen j (by simp [hj])), ?_⟩
    intro a ha b hb hab
    obtain ⟨l, hl, hb⟩ := List.mem_flatten.1 hb
    obtain ⟨j, hj, rfl⟩ := List.mem_map.1 hl
    obtain ⟨s, _, _, h1⟩ := ((incKeys_spec rs i).2.2 a).1 ha
    obtain ⟨s', _, _, h2⟩ := ((incKeys_spec rs j).2.2 b).1 hb
    have := C13_key_injective i.digest j.digest s s' (hlen i (by simp)) (hlen j (by simp [hj])) (by rw [← h1, ← h2, hab])
    exact hn.1 (List.mem_map.2 ⟨j, hj, this.1.symm⟩)

/-- Revoked serials of one issuer, decided on the entries read. -/
theorem revoked_unique {rs : ReasonSet} {w : RunInput} {extra : Dir} (h : GoodInput w extra) {i : RunIssuer} (hi : i ∈ w) (s : Serial) :
    RevokedIn rs w i.digest s ↔ ∃ l, i.revoked = some l ∧ ∃ c, (s, c) ∈ l ∧ codesOf rs c.toNat := by
  constructor
  · rintro ⟨j, hj, hd, hl⟩
    have : j = i := by
      have hn := h.1
      clear h
      induction w with
      | nil => cases hi
      | cons x rest ih =>
        rw [List.map_cons, List.nodup_cons] at hn
        rcases List.mem_cons.1 hi with rfl | hi'
        · rcases List.mem_cons.1 hj with rfl | hj'
          · rfl
          · exact absurd (List.mem_map.2 ⟨j, hj', hd⟩) hn.1
        · rcases List.mem_cons.1 hj with rfl | hj'
          · exact absurd (List.mem_map.2 ⟨i, hi', hd.symm⟩) hn.1
          · exact ih hi' hj' hn.2
    rw [← this]; exact hl
  · intro hl; exact ⟨i, hi, rfl, hl⟩

/-! ### C56 -/

/-- **C56.** On the files the Go programs write, with any further revoked files, the builders do not panic; the included keys (of either filter type) are exactly the known revoked certificates, each once. -/
theorem C56_included (rs : ReasonSet) (w : RunInput) (extra : Dir) (h : GoodInput w extra) :
    ∃ keys, includeAllClubcard rs (revokedDir w extra) (knownDir w) = some keys ∧ includeAllCascade rs (revokedDir w extra) (knownDir w) = some keys ∧ keys.Nodup ∧
      ∀ k, k ∈ keys ↔ ∃ d s, KnownIn w d s ∧ RevokedIn rs w d s ∧ k = crliteKey d s :=
  ⟨_, includeAllClubcard_eq rs w extra h, includeAllCascade_eq rs w extra h, nodup_flatten_incKeys rs w h.1 (fun i hi => (h.2.1 i hi).1), mem_flatten_incKeys rs w extra h⟩

theorem mem_statusVals {rs : ReasonSet} {w : RunInput} {extra : Dir} (h : GoodInput w extra) :
    ∃ st, statusAll rs (revokedDir w extra) (knownDir w) = some st ∧
      ∀ k b, (k, b) ∈ st ↔ ∃ d s, KnownIn w d s ∧ k = crliteKey d s ∧ (b = true ↔ RevokedIn rs w d s) := by
  let vals : RunIssuer → List (Bytes × Bool) := fun i => (statusLoop i.digest ((revEntries rs i).map Prod.fst) (knownEntries i)).getD []
  have hv : ∀ i, statusLoop i.digest ((revEntries rs i).map Prod.fst) (knownEntries i) = some (vals i) ∧
      ∀ k b, (k, b) ∈ vals i ↔ ∃ s, (∃ x ∈ i.known, s ∈ x.2) ∧ k = crliteKey i.digest s ∧ (b = true ↔ ∃ l, i.revoked = some l ∧ ∃ c, (s, c) ∈ l ∧ codesOf rs c.toNat) := by
    intro i
    obtain ⟨st, h1, _, h2⟩ := statusLoop_spec i.digest ((revEntries rs i).map Prod.fst) (knownEntries i) (hexList_known i)
    have he : vals i = st := by show (statusLoop _ _ _).getD [] = st; rw [h1]; rfl
    rw [he]
    refine ⟨h1, fun k b => ?_⟩
    rw [h2]
    refine exists_congr (fun s => ?_)
    rw [mem_revEntries, mem_knownEntries]
    refine and_congr_left (fun _ => ?_)
    constructor
    · rintro ⟨s', e, h⟩
      rw [hexEncode_injective e]; exact h
    · intro h; exact ⟨s, rfl, h⟩
  refine ⟨(w.map vals).flatten, ?_, ?_⟩
  · unfold statusAll
    rw [pairs_eq w extra h]
    refine forPairs_map _ w _ (fun i hi => ?_)
    unfold statusOne
    rw [C13_issuer_name_roundtrip _ (h.2.1 i hi).1, read_revoked, read_known i (h.2.1 i hi).2]
    exact (hv i).1
  · intro k b
    constructor
    · intro hk
      obtain ⟨l, hl, hk⟩ := List.mem_flatten.1 hk
      obtain ⟨i, hi, rfl⟩ := List.mem_map.1 hl
      obtain ⟨s, h1, h2, h3⟩ := ((hv i).2 k b).1 hk
      exact ⟨i.digest, s, ⟨i, hi, rfl, h1⟩, h2, by rw [revoked_unique h hi]; exact h3⟩
    · rintro ⟨d, s, ⟨i, hi, rfl, hs⟩, hk, hb⟩
      refine List.mem_flatten.2 ⟨_, List.mem_map.2 ⟨i, hi, rfl⟩, ((hv i).2 k b).2 ⟨s, hs, hk, ?_⟩⟩
      rw [← revoked_unique h hi]; exact hb

/-- **C56.** The clubcard builder gets every known certificate with exactly its status. -/
theorem C56_status (rs : ReasonSet) (w : RunInput) (extra : Dir) (h : GoodInput w extra) :
    ∃ st, statusAll rs (revokedDir w extra) (knownDir w) = some st ∧
      ∀ k b, (k, b) ∈ st ↔ ∃ d s, KnownIn w d s ∧ k = crliteKey d s ∧ (b = true ↔ RevokedIn rs w d s) := mem_statusVals h

theorem excludeVals {rs : ReasonSet} {w : RunInput} {extra : Dir} (h : GoodInput w extra) :
    ∃ vals : RunIssuer → List Bytes, excludeAllCascade rs (revokedDir w extra) (knownDir w) = some (w.map vals).flatten ∧
      (∀ i, (vals i).length = ((knownEntries i).filter (fun e => decide (e.2 ∉ (revEntries rs i).map Prod.fst))).length) ∧
      ∀ i k, k ∈ vals i ↔ ∃ s, (¬ ∃ l, i.revoked = some l ∧ ∃ c, (s, c) ∈ l ∧ codesOf rs c.toNat) ∧ (∃ x ∈ i.known, s ∈ x.2) ∧ k = crliteKey i.digest s := by
  let vals : RunIssuer → List Bytes := fun i => (excludeLoop i.digest ((revEntries rs i).map Prod.fst) (knownEntries i)).getD []
  have hv : ∀ i, excludeLoop i.digest ((revEntries rs i).map Prod.fst) (knownEntries i) = some (vals i) ∧
      (vals i).length = ((knownEntries i).filter (fun e => decide (e.2 ∉ (revEntries rs i).map Prod.fst))).length ∧
      ∀ k, k ∈ vals i ↔ ∃ s, (¬ ∃ l, i.revoked = some l ∧ ∃ c, (s, c) ∈ l ∧ codesOf rs c.toNat) ∧ (∃ x ∈ i.known, s ∈ x.2) ∧ k = crliteKey i.digest s := by
    intro i
    obtain ⟨keys, h1, h0, h2⟩ := excludeLoop_spec i.digest ((revEntries rs i).map Prod.fst) (knownEntries i) (hexList_known i)
    have he : vals i = keys := by show (excludeLoop _ _ _).getD [] = keys; rw [h1]; rfl
    rw [he]
    refine ⟨h1, h0, fun k => ?_⟩
    rw [h2]
    refine exists_congr (fun s => ?_)
    rw [mem_revEntries, mem_knownEntries]
    refine and_congr_right (fun _ => and_congr_left (fun _ => ?_))
    constructor
    · rintro ⟨s', e, h⟩
      rw [hexEncode_injective e]; exact h
    · intro h; exact ⟨s, rfl, h⟩
  refine ⟨vals, ?_, fun i => (hv i).2.1, fun i => (hv i).2.2⟩
  unfold excludeAllCascade
  rw [pairs_eq w extra h]
  refine forPairs_map _ w _ (fun i hi => ?_)
  unfold excludeOne
  rw [C13_issuer_name_roundtrip _ (h.2.1 i hi).1, read_revoked, read_known i (h.2.1 i hi).2]
  exact (hv i).1

/-- **C56.** The cascade builder excludes exactly the known certificates that are not revoked. -/
theorem C56_excluded (rs : ReasonSet) (w : RunInput) (extra : Dir) (h : GoodInput w extra) :
    ∃ keys, excludeAllCascade rs (revokedDir w extra) (knownDir w) = some keys ∧
      ∀ k, k ∈ keys ↔ ∃ d s, KnownIn w d s ∧ ¬ RevokedIn rs w d s ∧ k = crliteKey d s := by
  obtain ⟨vals, h1, _, h2⟩ := excludeVals (rs := rs) h
  refine ⟨_, h1, fun k => ?_⟩
  constructor
  · intro hk
    obtain ⟨l, hl, hk⟩ := List.mem_flatten.1 hk
    obtain ⟨i, hi, rfl⟩ := List.mem_map.1 hl
    obtain ⟨s, h3, h4, h5⟩ := (h2 i k).1 hk
    exact ⟨i.digest, s, ⟨i, hi, rfl, h4⟩, by rw [revoked_unique h hi]; exact h3, h5⟩
  · rintro ⟨d, s, ⟨i, hi, rfl, hs⟩, hr, rfl⟩
    refine List.mem_flatten.2 ⟨_, List.mem_map.2 ⟨i, hi, rfl⟩, (h2 i _).2 ⟨s, ?_, hs, rfl⟩⟩
    rw [← revoked_unique h hi]; exact hr

/-- **C56.** Whatever the filter library does: a filter that is written answers exactly on all known certificates, because the program checks each of them before writing. -/
theorem C56_written_filter_exact {F : Type} (build : List Bytes → List (Bytes × Bool) → Option F) (contains : F → Bytes → Bool) (rs : ReasonSet) (w : RunInput) (extra : Dir)
    (h : GoodInput w extra) (f : F) (hf : createClubcard build contains rs (revokedDir w extra) (knownDir w) = some f) (d : Bytes) (s : Serial) (hk : KnownIn w d s) :
    contains f (crliteKey d s) = true ↔ RevokedIn rs w d s := by
  obtain ⟨st, h1, h2⟩ := mem_statusVals (rs := rs) h
  obtain ⟨inc, h3, _⟩ := C56_included rs w extra h
  unfold createClubcard at hf
  rw [h3, h1] at hf
  dsimp only at hf
  split at hf
  · rename_i f' hb
    split at hf
    · rename_i hc
      cases hf
      unfold checkAll at hc
      rw [h1] at hc
      dsimp only at hc
      rw [List.all_eq_true] at hc
      have key : ∀ b, (b = true ↔ RevokedIn rs w d s) → contains f (crliteKey d s) = b := by
        intro b hb
        simpa using hc (crliteKey d s, b) ((h2 _ b).2 ⟨d, s, hk, rfl, hb⟩)
      constructor
      · intro hct
        refine Classical.byContradiction (fun hn => ?_)
        have := key false ⟨(fun e => by cases e), fun e => absurd e hn⟩
        rw [hct] at this; cases this
      · intro hr
        exact key true ⟨fun _ => hr, fun _ => rfl⟩
    · cases hf
  · cases hf

/-! #### an example input -/

/-- Two issuers. The first has serials 1, 2 (twice) and 3; 2 is revoked for key compromise, 3 for superseded, 9 is revoked but not known. The second has no revoked file. -/
def exInput : RunInput :=
  [⟨List.replicate 32 7, [(100, [[1], [2]]), (200, [[2], [3]])], some [([2], 1), ([3], 4), ([9], 0)]⟩, ⟨List.replicate 32 8, [(100, [[5]])], none⟩]

def exExtra : Dir := [("other".toList, "00ff\n".toList)]

theorem exInput_good : GoodInput exInput exExtra := by
  refine ⟨by decide, ?_, ?_⟩
  · intro i hi
    simp only [exInput, List.mem_cons, List.not_mem_nil, or_false] at hi
    rcases hi with rfl | rfl <;> exact ⟨by decide, by decide⟩
  · intro e he i hi
    simp only [exInput, exExtra, List.mem_cons, List.not_mem_nil, or_false] at hi he
    subst he
    rcases hi with rfl | rfl <;> decide +kernel

example : includeAllClubcard .all (revokedDir exInput exExtra) (knownDir exInput) = some [List.replicate 32 7 ++ [2], List.replicate 32 7 ++ [3]] ∧
    includeAllClubcard .priority (revokedDir exInput exExtra) (knownDir exInput) = some [List.replicate 32 7 ++ [2]] ∧
    (excludeAllCascade .all (revokedDir exInput exExtra) (knownDir exInput)) = some [List.replicate 32 7 ++ [1], List.replicate 32 8 ++ [5]] := by decide +kernel

/-- A filter of this kind is written: `contains` looks the key up in the list of included keys. -/
example : createClubcard (fun inc _ => some inc) (fun f k => decide (k ∈ f)) .all (revokedDir exInput exExtra) (knownDir exInput) = some [List.replicate 32 7 ++ [2], List.replicate 32 7 ++ [3]] := by decide +kernel

/-! ### C57 -/

theorem includeLoop_congr (issuer : Bytes) (l : List (Nat × Text)) : ∀ set set', (∀ x, x ∈ set ↔ x ∈ set') → includeLoop issuer set l = includeLoop issuer set' l := by
  induction l with
  | nil => intro _ _ _; rfl
  | cons e rest ih =>
    intro set set' h
    obtain ⟨n, s⟩ := e
    unfold includeLoop
    by_cases hm : s ∈ set
    · rw [if_pos hm, if_pos ((h s).1 hm), ih _ (set'.filter (fun x => decide (x ≠ s))) (fun x => by simp only [List.mem_filter, h])]
    · rw [if_neg hm, if_neg (fun hx => hm ((h s).2 hx)), ih _ _ h]

theorem assocGet_isSome_iff {β : Type} (l : List (Text × β)) (k : Text) : (∃ v, assocGet l k = some v) ↔ k ∈ l.map Prod.fst := by
  constructor
  · rintro ⟨v, hv⟩
    exact List.mem_map.2 ⟨(k, v), assocGet_mem hv, rfl⟩
  · intro h
    obtain ⟨e, he, rfl⟩ := List.mem_map.1 h
    unfold assocGet
    cases hf : l.find? (fun x => decide (x.1 = e.1)) with
    | none =>
      have := List.find?_eq_none.1 hf e he
      simp at this
    | some x => exact ⟨x.2, rfl⟩

theorem reasonOf_iff (rev : List (Text × Reason)) (s : Text) : (∃ r, reasonOf rev s = some r) ↔ s ∈ rev.map Prod.fst := by
  unfold reasonOf
  rw [assocGet_isSome_iff, List.map_reverse, List.mem_reverse]

theorem countLoop_spec (issuer : Bytes) (rev : List (Text × Reason)) (l : List (Nat × Text)) (hl : HexList l) : ∀ (set : List Text) (ok : Nat) (rsn : List Reason) (keys : List Bytes),
    includeLoop issuer ((rev.map Prod.fst).filter (fun x => decide (x ∉ set))) l = some keys →
    (countLoop rev l set ok rsn).1.length = set.length + keys.length ∧
    (countLoop rev l set ok rsn).2.1 = ok + (l.filter (fun e => decide (e.2 ∉ rev.map Prod.fst))).length ∧
    (countLoop rev l set ok rsn).2.2.length = rsn.length + (l.filter (fun e => decide (e.2 ∈ rev.map Prod.fst))).length := by
  induction l with
  | nil =>
    intro set ok rsn keys h
    unfold includeLoop at h
    cases h
    simp [countLoop]
  | cons e rest ih =>
    intro set ok rsn keys h
    obtain ⟨s, hs⟩ := hl e (by simp)
    have ih := ih (fun x hx => hl x (by simp [hx]))
    obtain ⟨n, t⟩ := e
    dsimp only at hs
    subst hs
    unfold countLoop
    cases hr : reasonOf rev (hexEncode s) with
    | some r =>
      have hm : hexEncode s ∈ rev.map Prod.fst := (reasonOf_iff rev _).1 ⟨r, hr⟩
      dsimp only
      rw [List.filter_cons_of_neg (by simpa using hm), List.filter_cons_of_pos (by simpa using hm)]
      unfold includeLoop at h
      by_cases hset : hexEncode s ∈ set
      · rw [if_neg (by simp [List.mem_filter, hset])] at h
        have hins : setInsert set (hexEncode s) = set := by unfold setInsert; rw [if_pos (by simpa using hset)]
        rw [hins]
        obtain ⟨h1, h2, h3⟩ := ih set ok (rsn ++ [r]) keys h
        refine ⟨h1, h2, ?_⟩
        rw [h3]; simp; omega
      · rw [if_pos (List.mem_filter.2 ⟨hm, by simpa using hset⟩), hexDecode_hexEncode] at h
        have hins : setInsert set (hexEncode s) = set ++ [hexEncode s] := by unfold setInsert; rw [if_neg (by simpa using hset)]
        rw [hins]
        cases hrec : includeLoop issuer (((rev.map Prod.fst).filter (fun x => decide (x ∉ set))).filter (fun x => decide (x ≠ hexEncode s))) rest with
        | none => rw [hrec] at h; cases h
        | some ks =>
          rw [hrec] at h
          dsimp only at h
          cases h
          have hc := includeLoop_congr issuer rest (((rev.map Prod.fst).filter (fun x => decide (x ∉ set))).filter (fun x => decide (x ≠ hexEncode s)))
            ((rev.map Prod.fst).filter (fun x => decide (x ∉ set ++ [hexEncode s]))) (by
              intro x
              simp only [List.mem_filter, decide_eq_true_eq, List.mem_append, List.mem_singleton, not_or]
              exact and_assoc)
          rw [hrec] at hc
          obtain ⟨h1, h2, h3⟩ := ih (set ++ [hexEncode s]) ok (rsn ++ [r]) ks hc.symm
          refine ⟨?_, h2, ?_⟩
          · rw [h1]; simp; omega
          · rw [h3]; simp; omega
    | none =>
      have hm : hexEncode s ∉ rev.map Prod.fst := by
        intro hx
        obtain ⟨r, h'⟩ := (reasonOf_iff rev _).2 hx
        rw [hr] at h'; cases h'
      dsimp only
      rw [List.filter_cons_of_pos (by simpa using hm), List.filter_cons_of_neg (by simpa using hm)]
      unfold includeLoop at h
      rw [if_neg (fun hx => hm (List.mem_filter.1 hx).1)] at h
      obtain ⟨h1, h2, h3⟩ := ih set (ok + 1) rsn keys h
      refine ⟨h1, ?_, h3⟩
      rw [h2]; simp; omega

theorem length_knownEntries (i : RunIssuer) : (knownEntries i).length = i.size := by
  unfold knownEntries RunIssuer.size
  rw [List.length_flatten, List.map_map]
  congr 1
  exact List.map_congr_left (fun b _ => by simp)

theorem filter_split {α : Type} (p : α → Bool) (l : List α) : (l.filter p).length + (l.filter (fun x => !p x)).length = l.length := by
  induction l with
  | nil => rfl
  | cons x xs ih =>
    by_cases h : p x = true
    · rw [List.filter_cons_of_pos h, List.filter_cons_of_neg (by simp [h]), List.length_cons, List.length_cons]; omega
    · rw [List.filter_cons_of_neg h, List.filter_cons_of_pos (by simpa using h), List.length_cons, List.length_cons]; omega

/-- **C57.** The counted number of revoked certificates is exactly the number of keys included, and the counted number of others exactly the number of keys excluded, repeats of the known files included; together
with the reasons counted they make up all known entries. So the capacity of a cascade is never exceeded. -/
theorem C57_counts (rs : ReasonSet) (w : RunInput) (extra : Dir) (h : GoodInput w extra) :
    ∃ c inc exc, countAll rs (revokedDir w extra) (knownDir w) = some c ∧ includeAllCascade rs (revokedDir w extra) (knownDir w) = some inc ∧
      excludeAllCascade rs (revokedDir w extra) (knownDir w) = some exc ∧
      c.revoked = inc.length ∧ c.ok = exc.length ∧ c.reasons.length + c.ok = (w.map RunIssuer.size).sum := by
  obtain ⟨vals, he, hlen, _⟩ := excludeVals (rs := rs) h
  refine (?_ : ∃ c inc exc, _)
  have key : ∀ w' : RunInput, (∀ i ∈ w', i.digest.length = 32 ∧ ∀ b ∈ i.known, b.1 < 2 ^ 64) →
      ∃ c, countPairs rs (w'.map (fun i => (issuerID i.digest, i.revokedText, i.knownText))) = some c ∧
        c.revoked = ((w'.map (incKeys rs)).flatten).length ∧ c.ok = ((w'.map vals).flatten).length ∧ c.reasons.length + c.ok = (w'.map RunIssuer.size).sum := by
    intro w'
    induction w' with
    | nil => intro _; exact ⟨_, rfl, rfl, rfl, rfl⟩
    | cons i rest ih =>
      intro hw
      obtain ⟨c, h1, h2, h3, h4⟩ := ih (fun j hj => hw j (by simp [hj]))
      have hp : countPair rs i.revokedText i.knownText = some (countOne (revEntries rs i) (knownEntries i)) := by
        unfold countPair
        rw [read_revoked, read_known i (hw i (by simp)).2]
      rw [List.map_cons, countPairs, hp, h1]
      obtain ⟨k1, k2, k3⟩ := countLoop_spec i.digest (revEntries rs i) (knownEntries i) (hexList_known i) [] 0 [] (incKeys rs i) (by
        have := (incKeys_spec rs i).1
        rw [← this]
        congr 1
        rw [List.filter_eq_self]
        simp)
      have hs := filter_split (fun e : Nat × Text => decide (e.2 ∈ (revEntries rs i).map Prod.fst)) (knownEntries i)
      have hs' : (fun e : Nat × Text => !decide (e.2 ∈ (revEntries rs i).map Prod.fst)) = (fun e : Nat × Text => decide (e.2 ∉ (revEntries rs i).map Prod.fst)) := by
        funext e; simp
      rw [hs', length_knownEntries] at hs
      refine ⟨_, rfl, ?_, ?_, ?_⟩
      · show (countLoop _ _ _ _ _).1.length + c.revoked = _
        rw [List.map_cons, List.flatten_cons, List.length_append, k1, h2]; simp
      · show (countLoop _ _ _ _ _).2.1 + c.ok = _
        rw [List.map_cons, List.flatten_cons, List.length_append, k2, h3, hlen]; simp
      · show ((countLoop _ _ _ _ _).2.2 ++ c.reasons).length + ((countLoop _ _ _ _ _).2.1 + c.ok) = _
        rw [List.map_cons, List.sum_cons, List.length_append, k2, k3, ← h4, ← hs]
        simp only [List.length_nil]
        omega
  obtain ⟨c, h1, h2, h3, h4⟩ := key w h.2.1
  refine ⟨c, _, _, ?_, includeAllCascade_eq rs w extra h, he, h2, h3, h4⟩
  unfold countAll
  rw [pairs_eq w extra h]
  exact h1

example : countAll .all (revokedDir exInput exExtra) (knownDir exInput) = some ⟨2, 2, [.keyCompromise, .keyCompromise, .superseded]⟩ := by decide +kernel

theorem clubcardLoop_eq (issuer : Bytes) (known : List (Nat × Text)) : ∀ (set : List Text) (n : Nat),
    clubcardLoop issuer set n known = (includeLoop issuer set known).map (fun keys => (keys, n + known.length)) := by
  induction known with
  | nil => intro set n; rfl
  | cons p known ih =>
    intro set n
    obtain ⟨e, s⟩ := p
    simp only [clubcardLoop, includeLoop, List.length_cons]
    split
    · rw [ih]
      cases hexDecode s <;> cases includeLoop issuer (set.filter (fun x => decide (x ≠ s))) known <;> simp [Nat.add_comm, Nat.add_left_comm]
    · rw [ih, show n + 1 + known.length = n + (known.length + 1) by omega]

theorem includeLoop_length (issuer : Bytes) (known : List (Nat × Text)) : ∀ (set : List Text) (keys : List Bytes),
    includeLoop issuer set known = some keys → keys.length ≤ known.length := by
  induction known with
  | nil => intro set keys h; simp only [includeLoop, Option.some.injEq] at h; subst h; simp
  | cons p known ih =>
    intro set keys h
    obtain ⟨e, s⟩ := p
    simp only [includeLoop] at h
    split at h
    · split at h
      · rename_i b r hb hr
        simp only [Option.some.injEq] at h
        subst h
        simpa using ih _ _ hr
      · cases h
    · simpa using Nat.le_succ_of_le (ih _ _ h)

theorem statusLoop_length (issuer : Bytes) (set : List Text) (known : List (Nat × Text)) : ∀ st : List (Bytes × Bool),
    statusLoop issuer set known = some st → st.length = known.length := by
  induction known with
  | nil => intro st h; simp only [statusLoop, Option.some.injEq] at h; subst h; rfl
  | cons p known ih =>
    intro st h
    obtain ⟨e, s⟩ := p
    simp only [statusLoop] at h
    split at h
    · rename_i b r hb hr
      simp only [Option.some.injEq] at h
      subst h
      simpa using ih _ hr
    · cases h

/-- **C57 (clubcard).** For each issuer the clubcard gets the same revoked keys as a cascade would, and the size of the universe announced with them is the number of keys that it gets in the second pass, which is never less than
the number of revoked ones. -/
theorem C57_universe (rs : ReasonSet) (i : Text) (r : Option Text) (k : Text) (keys : List Bytes) (n : Nat) (h : clubcardOne rs i r k = some (keys, n)) :
    includeOne rs i r k = some keys ∧ keys.length ≤ n ∧ ∀ st, statusOne rs i r k = some st → st.length = n := by
  unfold clubcardOne at h
  split at h
  · rename_i issuer rev known hi hr hk
    rw [clubcardLoop_eq, Option.map_eq_some_iff] at h
    obtain ⟨ks, hks, e⟩ := h
    simp only [Prod.mk.injEq] at e
    obtain ⟨rfl, rfl⟩ := e
    refine ⟨by simp only [includeOne, hi, hr, hk]; exact hks, ?_, fun st hst => ?_⟩
    · simpa using includeLoop_length issuer known _ _ hks
    · simp only [statusOne, hi, hr, hk] at hst
      simpa using statusLoop_length issuer _ known st hst
  · cases h

example : clubcardOne .all (issuerID (List.replicate 32 7)) (some (storeRevokedCertificateList [([2], 1), ([3], 4), ([9], 0)]))
    (writeSerialList 100 [[1], [2]] ++ writeSerialList 200 [[2], [3]]) = some ([List.replicate 32 7 ++ [2], List.replicate 32 7 ++ [3]], 4) := by decide +kernel
example := C57_universe .all (issuerID (List.replicate 32 7)) (some (storeRevokedCertificateList [([2], 1), ([3], 4), ([9], 0)])) (writeSerialList 100 [[1], [2]] ++ writeSerialList 200 [[2], [3]])
  [List.replicate 32 7 ++ [2], List.replicate 32 7 ++ [3]] 4 (by decide +kernel)

/-- **C57 fails (repeats).** The universe announced for a clubcard counts a certificate once per expiry bin in which it is listed: here 4 for three certificates. -/
theorem C57_repeats_fails : ∃ (i k : Text) (keys : List Bytes) (st : List (Bytes × Bool)), clubcardOne .all i none k = some (keys, 4) ∧ statusOne .all i none k = some st ∧
    (st.map Prod.fst).eraseDups.length = 3 :=
  ⟨issuerID (List.replicate 32 7), writeSerialList 100 [[1], [2]] ++ writeSerialList 200 [[2], [3]], [],
    [(List.replicate 32 7 ++ [1], false), (List.replicate 32 7 ++ [2], false), (List.replicate 32 7 ++ [2], false), (List.replicate 32 7 ++ [3], false)],
    by decide +kernel, by decide +kernel, by decide +kernel⟩

/-- The histogram of reasons counts repeats of a serial in the known file, unlike the number of revoked certificates in the same line of the report: here 3 against 2. -/
theorem C57_histogram_fails : ∃ c, countAll .all (revokedDir exInput exExtra) (knownDir exInput) = some c ∧ c.reasons.length ≠ c.revoked :=
  ⟨⟨2, 2, [.keyCompromise, .keyCompromise, .superseded]⟩, by decide +kernel, by decide⟩

/-! ### each theorem applied -/

example := C56_written_filter (fun inc _ => some inc) (fun f k => decide (k ∈ f)) .all (revokedDir exInput exExtra) (knownDir exInput) [List.replicate 32 7 ++ [2], List.replicate 32 7 ++ [3]] (by decide +kernel)
  _ _ (show ((knownDir exInput)[0]'(by decide)) ∈ knownDir exInput from List.getElem_mem _)
example := C56_included .all exInput exExtra exInput_good
example := C56_status .all exInput exExtra exInput_good
example := C56_excluded .all exInput exExtra exInput_good

end Verif.Props
