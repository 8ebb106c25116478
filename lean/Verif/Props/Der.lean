import Verif.Lemmas.DerInt
import Verif.Props.Crls
/-!
Property C100: serial numbers and reasons, from the bytes of certificates and CRLs.
-/
namespace Verif.Props
open Verif.Spec

/-! ### reading what the specification writes -/

theorem seq_field {body w rest : Bytes} (opt : Bool) (h : Element 0 16 true body w) (hl : w.length < 2147483648) :
    typedField .sequence opt (w ++ rest) = some (some (16, body), rest) :=
  (typedField_some .sequence opt (w ++ rest) 16 body rest).2 ⟨by have := element_pos h; omega, true, w, ⟨rfl, rfl⟩, h, rfl⟩

/-- Members that are sequences, each read as `g` says, are read one after the other. -/
theorem sequenceOf_complete {α β : Type} (P : α → Bytes → Prop) (elem : Bytes → Option β) (g : α → β) (l : List α)
    (hP : ∀ a ∈ l, ∀ w, P a w → w.length < 2147483648 → ∃ c, Element 0 16 true c w ∧ elem c = some (g a)) :
    ∀ (body : Bytes) (fuel : Nat), Concat P l body → body.length < 2147483648 → body.length ≤ fuel →
      ∃ cs, sequenceOf fuel body = some cs ∧ allSome elem cs = some (l.map g) := by
  induction l with
  | nil =>
    intro body fuel h _ _
    simp only [Concat] at h
    subst h
    refine ⟨[], ?_, rfl⟩
    cases fuel <;> simp [sequenceOf]
  | cons a l ih =>
    intro body fuel h hl hf
    obtain ⟨x, y, hx, hy, rfl⟩ := h
    rw [List.length_append] at hl hf
    obtain ⟨c, hc, he⟩ := hP a List.mem_cons_self x hx (by omega)
    have hpos := element_pos hc
    cases fuel with
    | zero => omega
    | succ fuel =>
      obtain ⟨cs, h1, h2⟩ := ih (fun b hb => hP b (List.mem_cons_of_mem _ hb)) y fuel hy (by omega) (by omega)
      refine ⟨c :: cs, ?_, ?_⟩
      · unfold sequenceOf
        have hne : x ++ y ≠ [] := by
          intro h
          have := congrArg List.length h
          simp only [List.length_append, List.length_nil] at this
          omega
        rw [if_neg hne, seq_field false hc (by omega)]
        dsimp only
        rw [h1]
      · unfold allSome
        rw [he]
        dsimp only
        rw [h2]
        rfl

/-- What may follow an optional `SEQUENCE OF`: nothing, or an element with another tag. -/
def EndOrOther (post : Bytes) : Prop :=
  post = [] ∨ ∃ c w rest, Element 2 0 true c w ∧ c.length < 2147483648 ∧ post = w ++ rest

theorem optionalSlice_complete {α β : Type} (P : α → Bytes → Prop) (elem : Bytes → Option β) (g : α → β) (l : List α)
    (hP : ∀ a ∈ l, ∀ w, P a w → w.length < 2147483648 → ∃ c, Element 0 16 true c w ∧ elem c = some (g a))
    (x post : Bytes) (h : OptionalSeq P l x) (hl : x.length < 2147483648) (hp : EndOrOther post) : optionalSlice elem (x ++ post) = some (l.map g) := by
  unfold optionalSlice
  rcases h with ⟨rfl, rfl⟩ | ⟨body, hb, he⟩
  · have : typedField .sequence true ([] ++ post) = some (none, post) := by
      rcases hp with rfl | ⟨c, w, rest, hc, hcl, rfl⟩
      · rfl
      · exact typedField_absent .sequence (w ++ rest) 2 0 true c w rest hc rfl (by omega) hcl (by simp)
    rw [this]
    rfl
  · rw [seq_field true he hl]
    dsimp only
    have hpos := element_pos he
    obtain ⟨cs, h1, h2⟩ := sequenceOf_complete P elem g l hP body body.length hb (by omega) (Nat.le_refl _)
    rw [h1]
    exact h2

theorem timeField_complete (timeOk : Bool → Bytes → Bool) (opt : Bool) (t rest : Bytes) (h : TimeBytes timeOk t) (hl : t.length < 2147483648) :
    timeField timeOk opt (t ++ rest) = some rest := by
  obtain ⟨g, c, hok, he⟩ := h
  have hpos := element_pos he
  unfold timeField
  have := (typedField_some .time opt (t ++ rest) (if g then 24 else 23) c rest).2
    ⟨by omega, false, t, ⟨by cases g <;> simp, rfl⟩, he, rfl⟩
  rw [this]
  cases g <;> simp [hok]

/-- What `Reason` sees of an extension. -/
def extOf (e : Ext) : CrlExtension := ⟨e.oid == reasonOid, parseEnumerated e.value⟩

theorem parseExtension_complete (e : Ext) (w : Bytes) (h : ExtBytes e w) (hf : OidFits e.oid) (hl : w.length < 2147483648) :
    ∃ c, Element 0 16 true c w ∧ parseExtension c = some (extOf e) := by
  obtain ⟨c, o, cr, v, ho, heo, hcr, hev, hw⟩ := h
  refine ⟨_, hw, ?_⟩
  have hpos := element_pos hw
  have hposo := element_pos heo
  have hposv := element_pos hev
  simp only [List.length_append] at hpos
  unfold parseExtension
  rw [List.append_assoc, (typedField_some .oid false (o ++ (cr ++ v)) 6 c (cr ++ v)).2 ⟨by omega, false, o, ⟨rfl, rfl⟩, heo, rfl⟩]
  dsimp only
  rw [parseOid_complete ho hf]
  dsimp only
  have hv : ∀ b, typedField .octetString b v = some (some (4, e.value), []) := by
    intro b
    have := (typedField_some .octetString b (v ++ []) 4 e.value []).2 ⟨by omega, false, v, ⟨rfl, rfl⟩, hev, rfl⟩
    rw [List.append_nil] at this
    exact this
  have hcrit : ∃ b, criticalField (cr ++ v) = some (b, v) := by
    unfold criticalField
    cases hc : e.critical with
    | none =>
      rw [hc] at hcr
      simp only [CriticalBytes] at hcr
      subst hcr
      rw [List.nil_append, typedField_absent .boolean v 0 4 false e.value v [] hev (by simp) (by omega) (by omega) (by simp [Kind.is])]
      exact ⟨false, rfl⟩
    | some b =>
      rw [hc] at hcr
      simp only [CriticalBytes] at hcr
      rw [(typedField_some .boolean true (cr ++ v) 1 _ v).2 ⟨by simp, false, cr, ⟨rfl, rfl⟩, hcr, rfl⟩]
      cases b
      · exact ⟨false, rfl⟩
      · exact ⟨true, rfl⟩
  obtain ⟨b, hb⟩ := hcrit
  rw [hb]
  dsimp only
  rw [hv]
  rfl

theorem parseRevoked_complete (timeOk : Bool → Bytes → Bool) (r : Revoked) (w : Bytes) (h : RevokedBytes timeOk r w) (hf : ∀ e ∈ r.exts, OidFits e.oid)
    (hl : w.length < 2147483648) : ∃ c, Element 0 16 true c w ∧ parseRevoked timeOk c = some (r.serial, r.exts.map extOf) := by
  obtain ⟨s, t, x, hs, ht, hx, hw⟩ := h
  refine ⟨_, hw, ?_⟩
  have hpos := element_pos hw
  have hposs := element_pos hs
  simp only [List.length_append] at hpos
  unfold parseRevoked
  rw [List.append_assoc, (rawField_iff (s ++ (t ++ x)) r.serial (t ++ x)).2 ⟨by omega, 0, 2, false, s, by omega, hs, rfl⟩]
  dsimp only
  rw [timeField_complete timeOk false t x ht (by omega)]
  dsimp only
  have := optionalSlice_complete ExtBytes parseExtension extOf r.exts
    (fun e he w hw hl => parseExtension_complete e w hw (hf e he) hl) x [] hx (by omega) (Or.inl rfl)
  rw [List.append_nil] at this
  rw [this]

/-- The next update is there or not. -/
theorem nextUpdate_complete (timeOk : Bool → Bytes → Bool) (t2 rv ex : Bytes) (h : t2 = [] ∨ TimeBytes timeOk t2) {α : Type} (P : α → Bytes → Prop) (rs : List α)
    (hr : OptionalSeq P rs rv) (he : EndOrOther ex) (hl : (t2 ++ (rv ++ ex)).length < 2147483648) :
    timeField timeOk true (t2 ++ (rv ++ ex)) = some (rv ++ ex) := by
  rcases h with rfl | h
  · unfold timeField
    have : typedField .time true ([] ++ (rv ++ ex)) = some (none, rv ++ ex) := by
      rw [List.nil_append]
      rcases hr with ⟨_, rfl⟩ | ⟨body, _, hb⟩
      · rw [List.nil_append]
        rcases he with rfl | ⟨c, w, rest, hc, hcl, rfl⟩
        · rfl
        · exact typedField_absent .time (w ++ rest) 2 0 true c w rest hc rfl (by omega) hcl (by simp)
      · have := element_pos hb
        simp only [List.length_append, List.length_nil] at hl
        exact typedField_absent .time (rv ++ ex) 0 16 true body rv ex hb rfl (by omega) (by omega) (by simp [Kind.is])
    rw [this]
  · exact timeField_complete timeOk true t2 (rv ++ ex) h (by rw [List.length_append] at hl; omega)

/-- Every list of RFC 5280 is decoded into its entries. -/
theorem decode_complete (timeOk : Bool → Bytes → Bool) (rs : List Revoked) (whole : Bytes) (h : CrlBytes timeOk rs whole)
    (hf : ∀ r ∈ rs, ∀ e ∈ r.exts, OidFits e.oid) (hl : whole.length < 2147483648) :
    decodeRawTbs timeOk whole = some (rs.map (fun r => (r.serial, r.exts.map extOf))) := by
  obtain ⟨v, sg, nm, t1, t2, rv, ex, hv, ⟨csg, hsg⟩, ⟨cnm, hnm⟩, ht1, ht2, hrv, hex, hw⟩ := h
  have hpos := element_pos hw
  have hpsg := element_pos hsg
  have hpnm := element_pos hnm
  simp only [List.length_append] at hpos
  have hE : EndOrOther ex := by
    rcases hex with rfl | ⟨c, hc⟩
    · exact Or.inl rfl
    · have := element_pos hc
      exact Or.inr ⟨c, ex, [], hc, by omega, by simp⟩
  unfold decodeRawTbs
  have h0 := seq_field (rest := []) false hw hl
  rw [List.append_nil] at h0
  rw [h0]
  dsimp only
  unfold parseTbsFields
  simp only [List.append_assoc]
  have hver : versionField (v ++ (sg ++ (nm ++ (t1 ++ (t2 ++ (rv ++ ex)))))) = some (sg ++ (nm ++ (t1 ++ (t2 ++ (rv ++ ex))))) := by
    unfold versionField
    rcases hv with rfl | hv
    · rw [List.nil_append, typedField_absent .integer _ 0 16 true csg sg _ hsg rfl (by omega) (by omega) (by simp [Kind.is])]
    · rw [(typedField_some .integer true (v ++ (sg ++ (nm ++ (t1 ++ (t2 ++ (rv ++ ex)))))) 2 [1] _).2 ⟨by simp, false, v, ⟨rfl, rfl⟩, hv, rfl⟩]
      rfl
  rw [hver]
  dsimp only
  rw [(rawField_iff (sg ++ (nm ++ (t1 ++ (t2 ++ (rv ++ ex))))) csg _).2 ⟨by omega, 0, 16, true, sg, by omega, hsg, rfl⟩]
  dsimp only
  rw [(rawField_iff (nm ++ (t1 ++ (t2 ++ (rv ++ ex)))) cnm _).2 ⟨by omega, 0, 16, true, nm, by omega, hnm, rfl⟩]
  dsimp only
  rw [timeField_complete timeOk false t1 _ ht1 (by omega)]
  dsimp only
  rw [nextUpdate_complete timeOk t2 rv ex ht2 (RevokedBytes timeOk) rs hrv hE (by simp only [List.length_append]; omega)]
  dsimp only
  exact optionalSlice_complete (RevokedBytes timeOk) (parseRevoked timeOk) (fun r => (r.serial, r.exts.map extOf)) rs
    (fun r hr w hw hl => parseRevoked_complete timeOk r w hw (hf r hr) hl) rv ex hrv (by omega) hE

/-! ### the reasons -/

theorem concat_mem {α : Type} {P : α → Bytes → Prop} : ∀ {l : List α} {body : Bytes}, Concat P l body → ∀ a ∈ l, ∃ w, P a w ∧ w.length ≤ body.length := by
  intro l
  induction l with
  | nil => intro body _ a ha; cases ha
  | cons b l ih =>
    intro body h a ha
    obtain ⟨x, y, hx, hy, rfl⟩ := h
    rcases List.mem_cons.1 ha with rfl | ha
    · exact ⟨x, hx, by simp⟩
    · obtain ⟨w, h1, h2⟩ := ih hy a ha
      exact ⟨w, h1, by simp only [List.length_append]; omega⟩

theorem optionalSeq_mem {α : Type} {P : α → Bytes → Prop} {l : List α} {x : Bytes} (h : OptionalSeq P l x) : ∀ a ∈ l, ∃ w, P a w ∧ w.length ≤ x.length := by
  intro a ha
  rcases h with ⟨rfl, _⟩ | ⟨body, hb, he⟩
  · cases ha
  · obtain ⟨w, h1, h2⟩ := concat_mem hb a ha
    exact ⟨w, h1, by have := element_pos he; omega⟩

theorem value_short {timeOk : Bool → Bytes → Bool} {r : Revoked} {w : Bytes} (h : RevokedBytes timeOk r w) {e : Ext} (he : e ∈ r.exts) : e.value.length < w.length := by
  obtain ⟨s, t, x, _, _, hx, hw⟩ := h
  obtain ⟨w', ⟨c, o, cr, v, _, _, _, hv, hw'⟩, hle⟩ := optionalSeq_mem hx e he
  have h1 := element_pos hv
  have h2 := element_pos hw'
  have h3 := element_pos hw
  simp only [List.length_append] at h2 h3
  omega

theorem filter_singleton {α : Type} (p : α → Bool) (e : α) : ∀ (l : List α), l.filter p = [e] ↔
    ∃ pre post, l = pre ++ e :: post ∧ p e = true ∧ ∀ x ∈ pre ++ post, p x = false := by
  intro l
  constructor
  · intro h
    induction l with
    | nil => cases h
    | cons a l ih =>
      rw [List.filter_cons] at h
      split at h
      · rename_i hp
        obtain ⟨rfl, h2⟩ := List.cons.inj h
        refine ⟨[], l, rfl, hp, ?_⟩
        intro x hx
        have := (List.filter_eq_nil_iff.1 h2) x (by simpa using hx)
        simpa using this
      · rename_i hp
        obtain ⟨pre, post, rfl, h1, h2⟩ := ih h
        refine ⟨a :: pre, post, rfl, h1, ?_⟩
        intro x hx
        rcases List.mem_cons.1 hx with rfl | hx
        · simpa using hp
        · exact h2 x hx
  · rintro ⟨pre, post, rfl, h1, h2⟩
    rw [List.filter_append, List.filter_cons, if_pos h1]
    have e1 : pre.filter p = [] := List.filter_eq_nil_iff.2 (fun x hx => by simp [h2 x (List.mem_append_left _ hx)])
    have e2 : post.filter p = [] := List.filter_eq_nil_iff.2 (fun x hx => by simp [h2 x (List.mem_append_right _ hx)])
    rw [e1, e2]
    rfl

theorem filter_extOf (exts : List Ext) : (exts.map extOf).filter (·.isReason) = (exts.filter (fun e => e.oid == reasonOid)).map extOf := by
  rw [List.filter_map]
  rfl

/-- The reason that is extracted is the reason of the specification. -/
theorem reason_bytes (exts : List Ext) (hl : ∀ e ∈ exts, e.value.length < 2147483648) (code : UInt8) :
    ReasonSpec (exts.map extOf) code.toNat ↔ EntryReason exts code.toNat := by
  have hcode := code.toNat_lt
  unfold ReasonSpec EntryReason
  rw [filter_extOf]
  have hoid : ∀ e : Ext, (e.oid == reasonOid) = true ↔ e.oid = [2, 5, 29, 21] := fun e => by
    rw [beq_iff_eq]
    exact Iff.rfl
  constructor
  · rintro (⟨h1, h2⟩ | ⟨e, h1, h2, h3, h4⟩)
    · refine Or.inl ⟨?_, by omega⟩
      intro e he hr
      have := List.filter_eq_nil_iff.1 (List.map_eq_nil_iff.1 h1) e he
      exact this ((hoid e).2 hr)
    · right
      have hlen : (exts.filter (fun e => e.oid == reasonOid)).length = 1 := by
        have := congrArg List.length h1
        simpa using this
      obtain ⟨e', he'⟩ := List.length_eq_one_iff.1 hlen
      rw [he'] at h1
      simp only [List.map_cons, List.map_nil, List.cons.injEq, and_true] at h1
      obtain ⟨pre, post, h5, h6, h7⟩ := (filter_singleton _ e' exts).1 he'
      refine ⟨pre, e', post, h5, (hoid e').1 h6, ?_, ?_⟩
      · intro x hx hr
        have := h7 x hx
        rw [(hoid x).2 hr] at this
        cases this
      · rw [← h1] at h2
        exact ((parseEnumerated_iff e'.value code.toNat (hl e' (by rw [h5]; simp))).1 h2).1
  · rintro (⟨h1, h2⟩ | ⟨pre, e, post, h1, h2, h3, h4⟩)
    · refine Or.inl ⟨?_, by omega⟩
      rw [List.map_eq_nil_iff, List.filter_eq_nil_iff]
      intro e he hr
      exact h1 e he ((hoid e).1 hr)
    · right
      refine ⟨extOf e, ?_, ?_, by omega, by omega⟩
      · have : exts.filter (fun e => e.oid == reasonOid) = [e] := by
          rw [filter_singleton]
          refine ⟨pre, post, h1, (hoid e).2 h2, ?_⟩
          intro x hx
          cases hb : x.oid == reasonOid with
          | false => rfl
          | true => exact absurd ((hoid x).1 hb) (h3 x hx)
        rw [this]
        rfl
      · exact (parseEnumerated_iff e.value code.toNat (hl e (by rw [h1]; simp))).2 ⟨h4, by omega, by omega⟩

/-! ### C100 -/

/-- C100: from a list of RFC 5280 exactly its entries are recorded, in its order, each with the octets of its serial number and its reason. -/
theorem C100_list_read (timeOk : Bool → Bytes → Bool) (rs : List Revoked) (whole : Bytes) (h : CrlBytes timeOk rs whole)
    (hf : ∀ r ∈ rs, ∀ e ∈ r.exts, OidFits e.oid) (hl : whole.length < 2147483648) (l : List (Serial × UInt8)) :
    processCrlBytes timeOk whole = some l ↔ l.length = rs.length ∧
      ∀ (i : Nat) (r : Revoked) (p : Serial × UInt8), rs[i]? = some r → l[i]? = some p → p.1 = r.serial ∧ EntryReason r.exts p.2.toNat := by
  have hshort : ∀ r ∈ rs, ∀ e ∈ r.exts, e.value.length < 2147483648 := by
    intro r hr e he
    obtain ⟨v, sg, nm, t1, t2, rv, ex, _, _, _, _, _, hrv, _, hw⟩ := h
    obtain ⟨w, h1, h2⟩ := optionalSeq_mem hrv r hr
    have h3 := value_short h1 he
    have h4 := element_pos hw
    simp only [List.length_append] at h4
    omega
  unfold processCrlBytes
  rw [decode_complete timeOk rs whole h hf hl]
  dsimp only
  rw [processEntries_iff, List.map_map]
  have hone : ∀ r ∈ rs, ∀ p : Serial × UInt8, serialAndReason r.serial (r.exts.map extOf) = some p ↔ p.1 = r.serial ∧ EntryReason r.exts p.2.toNat := by
    intro r hr p
    obtain ⟨s, c⟩ := p
    rw [C07_reason_byte, reason_bytes r.exts (hshort r hr) c]
  constructor
  · intro he
    have hlen : l.length = rs.length := by
      have := congrArg List.length he
      simpa using this.symm
    refine ⟨hlen, ?_⟩
    intro i r p hr hp
    have := congrArg (fun x => x[i]?) he
    simp only [List.getElem?_map, hr, hp, Option.map_some, Function.comp_apply, Option.some.injEq] at this
    exact (hone r (List.mem_of_getElem? hr) p).1 this
  · rintro ⟨hlen, he⟩
    apply List.ext_getElem?
    intro i
    simp only [List.getElem?_map]
    cases hr : rs[i]? with
    | none =>
      have : l[i]? = none := by
        rw [List.getElem?_eq_none_iff] at hr ⊢
        omega
      rw [this]
      rfl
    | some r =>
      cases hp : l[i]? with
      | none =>
        rw [List.getElem?_eq_none_iff] at hp
        have := (List.getElem?_eq_some_iff.1 hr).1
        omega
      | some p =>
        simp only [Option.map_some, Function.comp_apply, Option.some.injEq]
        exact (hone r (List.mem_of_getElem? hr) p).2 (he i r p hr hp)

/-- C100: a list is rejected as a whole exactly when the reason of one of its entries cannot be had. -/
theorem C100_rejected (timeOk : Bool → Bytes → Bool) (rs : List Revoked) (whole : Bytes) (h : CrlBytes timeOk rs whole)
    (hf : ∀ r ∈ rs, ∀ e ∈ r.exts, OidFits e.oid) (hl : whole.length < 2147483648) :
    processCrlBytes timeOk whole = none ↔ ∃ r ∈ rs, ∀ code : UInt8, ¬ EntryReason r.exts code.toNat := by
  constructor
  · intro hn
    apply Classical.byContradiction
    intro hc
    have hall : ∀ r ∈ rs, ∃ code : UInt8, EntryReason r.exts code.toNat := by
      intro r hr
      apply Classical.byContradiction
      intro hne
      exact hc ⟨r, hr, fun code hcode => hne ⟨code, hcode⟩⟩
    have : ∃ l : List (Serial × UInt8), l.length = rs.length ∧
        ∀ (i : Nat) (r : Revoked) (p : Serial × UInt8), rs[i]? = some r → l[i]? = some p → p.1 = r.serial ∧ EntryReason r.exts p.2.toNat := by
      clear hn hc h hf hl
      induction rs with
      | nil => exact ⟨[], rfl, by simp⟩
      | cons r rs ih =>
        obtain ⟨l, h1, h2⟩ := ih (fun r hr => hall r (List.mem_cons_of_mem _ hr))
        obtain ⟨code, hcode⟩ := hall r List.mem_cons_self
        refine ⟨(r.serial, code) :: l, by simp [h1], ?_⟩
        intro i r' p hr hp
        cases i with
        | zero =>
          simp only [List.getElem?_cons_zero, Option.some.injEq] at hr hp
          subst hr
          subst hp
          exact ⟨rfl, hcode⟩
        | succ i =>
          simp only [List.getElem?_cons_succ] at hr hp
          exact h2 i r' p hr hp
    obtain ⟨l, hl'⟩ := this
    rw [(C100_list_read timeOk rs whole h hf hl l).2 hl'] at hn
    cases hn
  · rintro ⟨r, hr, hno⟩
    cases hp : processCrlBytes timeOk whole with
    | none => rfl
    | some l =>
      obtain ⟨hlen, he⟩ := (C100_list_read timeOk rs whole h hf hl l).1 hp
      obtain ⟨i, hi⟩ := List.mem_iff_getElem?.1 hr
      have hlt := (List.getElem?_eq_some_iff.1 hi).1
      have : l[i]? = some l[i] := List.getElem?_eq_getElem (by omega)
      exact absurd (he i r _ hi this).2 (hno _)

/-- C100: the serial taken from a certificate is the content octets of its serial number. -/
theorem C100_certificate_read (serial whole : Bytes) (h : CertBytes serial whole) (hl : whole.length < 2147483648) :
    newSerialFromTbs whole = some serial := by
  obtain ⟨v, s, more, hv, hs, hne, hw⟩ := h
  have hpos := element_pos hw
  have hps := element_pos hs
  simp only [List.length_append] at hpos
  unfold newSerialFromTbs
  have h0 := seq_field (rest := []) false hw hl
  rw [List.append_nil] at h0
  rw [h0]
  dsimp only
  have hskip : skipVersion (v ++ s ++ more) = some (s ++ more) := by
    unfold skipVersion
    rcases hv with rfl | ⟨w, hwi, hv⟩
    · obtain ⟨id, ls, hI, hL, rfl⟩ := hs
      have h1 := (parseTagLen_iff (id ++ ls ++ (serial ++ more)) ⟨0, false, 2, serial.length⟩ (serial ++ more)).2
        ⟨by dsimp only; omega, by dsimp only; omega, id, ls, hI, hL, rfl⟩
      have hne' : id ++ ls ++ (serial ++ more) ≠ [] := by
        intro he
        rw [he] at h1
        simp [parseTagLen] at h1
      rw [List.nil_append, List.append_assoc (id ++ ls) serial more, if_neg hne', h1]
      dsimp only
      rw [if_neg (by simp [hne]), if_neg (by omega)]
    · have hpw := element_pos hwi
      have hpv := element_pos hv
      obtain ⟨id, ls, hI, hL, rfl⟩ := hv
      have h1 := (parseTagLen_iff (id ++ ls ++ (w ++ (s ++ more))) ⟨2, true, 0, w.length⟩ (w ++ (s ++ more))).2
        ⟨by dsimp only; omega, by dsimp only; omega, id, ls, hI, hL, rfl⟩
      have hne' : id ++ ls ++ (w ++ (s ++ more)) ≠ [] := by
        intro he
        rw [he] at h1
        simp [parseTagLen] at h1
      have hne2 : w ++ (s ++ more) ≠ [] := by
        intro he
        have := congrArg List.length he
        simp only [List.length_append, List.length_nil] at this
        omega
      have ea : id ++ ls ++ w ++ s ++ more = id ++ ls ++ (w ++ (s ++ more)) := by simp only [List.append_assoc]
      rw [ea, if_neg hne', h1]
      dsimp only
      rw [if_neg hne2, if_pos ⟨rfl, rfl, Or.inr rfl⟩, if_neg (by rw [List.length_append]; omega)]
      simp
  rw [hskip]
  dsimp only
  rw [(rawField_iff (s ++ more) serial more).2 ⟨by omega, 0, 2, false, s, by omega, hs, rfl⟩]

/-- C100: a certificate is recorded as revoked, with a reason, exactly when the list has an entry for the number of the certificate with that reason. -/
theorem C100_same_number_partial (timeOk : Bool → Bytes → Bool) (n : Int) (serial cert : Bytes) (hc : CertBytes serial cert) (hn : TwosComplement n serial)
    (hcl : cert.length < 2147483648) (rs : List Revoked) (whole : Bytes) (h : CrlBytes timeOk rs whole)
    (hf : ∀ r ∈ rs, ∀ e ∈ r.exts, OidFits e.oid) (hl : whole.length < 2147483648) (l : List (Serial × UInt8)) (hp : processCrlBytes timeOk whole = some l) :
    ∃ s, newSerialFromTbs cert = some s ∧
      ∀ code : UInt8, (s, code) ∈ l ↔ ∃ r ∈ rs, TwosComplement n r.serial ∧ EntryReason r.exts code.toNat := by
  refine ⟨serial, C100_certificate_read serial cert hc hcl, ?_⟩
  obtain ⟨hlen, he⟩ := (C100_list_read timeOk rs whole h hf hl l).1 hp
  have huniq : ∀ (r : Revoked) (a b : UInt8), EntryReason r.exts a.toNat → EntryReason r.exts b.toNat → r ∈ rs → a = b := by
    intro r a b ha hb hr
    have hshort : ∀ e ∈ r.exts, e.value.length < 2147483648 := by
      intro e he
      obtain ⟨v, sg, nm, t1, t2, rv, ex, _, _, _, _, _, hrv, _, hw⟩ := h
      obtain ⟨w, h1, h2⟩ := optionalSeq_mem hrv r hr
      have h3 := value_short h1 he
      have h4 := element_pos hw
      simp only [List.length_append] at h4
      omega
    have h1 := (C07_reason_byte r.serial (r.exts.map extOf) r.serial a).2 ⟨rfl, (reason_bytes r.exts hshort a).2 ha⟩
    have h2 := (C07_reason_byte r.serial (r.exts.map extOf) r.serial b).2 ⟨rfl, (reason_bytes r.exts hshort b).2 hb⟩
    rw [h1] at h2
    simpa using h2
  intro code
  constructor
  · intro hm
    obtain ⟨i, hi⟩ := List.mem_iff_getElem?.1 hm
    have hlt := (List.getElem?_eq_some_iff.1 hi).1
    have hr : rs[i]? = some rs[i] := List.getElem?_eq_getElem (by omega)
    obtain ⟨h1, h2⟩ := he i _ _ hr hi
    exact ⟨rs[i], List.mem_of_getElem? hr, by rw [← h1]; exact hn, h2⟩
  · rintro ⟨r, hr, hrn, hrc⟩
    obtain ⟨i, hi⟩ := List.mem_iff_getElem?.1 hr
    have hlt := (List.getElem?_eq_some_iff.1 hi).1
    have hli : l[i]? = some l[i] := List.getElem?_eq_getElem (by omega)
    obtain ⟨h1, h2⟩ := he i r _ hi hli
    have hcode := huniq r _ _ h2 hrc hr
    have : l[i] = (serial, code) := by
      rw [Prod.ext_iff]
      exact ⟨by rw [h1]; exact twos_unique hrn hn, hcode⟩
    rw [← this]
    exact List.mem_of_getElem? hli

/-- Specification of what any octets at all may give: an entry is a `SEQUENCE` that starts with an element whose content is the serial. -/
def EntryAt (p : Serial × UInt8) (w : Bytes) : Prop :=
  ∃ inner s more cls tag f, Element 0 16 true inner w ∧ Element cls tag f p.1 s ∧ inner = s ++ more

theorem sequenceOf_sound : ∀ (fuel : Nat) (bs : Bytes) (cs : List Bytes), sequenceOf fuel bs = some cs → Concat (fun c w => Element 0 16 true c w) cs bs := by
  intro fuel
  induction fuel with
  | zero =>
    intro bs cs h
    unfold sequenceOf at h
    split at h
    · rename_i hb
      simp only [Option.some.injEq] at h
      subst h
      exact hb
    · cases h
  | succ fuel ih =>
    intro bs cs h
    unfold sequenceOf at h
    split at h
    · rename_i hb
      simp only [Option.some.injEq] at h
      subst h
      exact hb
    · cases h1 : typedField .sequence false bs with
      | none => rw [h1] at h; cases h
      | some p =>
        obtain ⟨o, rest⟩ := p
        rw [h1] at h
        cases o with
        | none => cases h
        | some q =>
          obtain ⟨tag, c⟩ := q
          dsimp only at h
          cases h2 : sequenceOf fuel rest with
          | none => rw [h2] at h; cases h
          | some cs' =>
            rw [h2] at h
            simp only [Option.some.injEq] at h
            subst h
            obtain ⟨_, f, w, hk, he, e⟩ := (typedField_some _ _ _ _ _ _).1 h1
            obtain ⟨rfl, rfl⟩ := hk
            exact ⟨w, rest, he, ih rest cs' h2, e⟩

theorem entries_sound (timeOk : Bool → Bytes → Bool) : ∀ (cs : List Bytes) (body : Bytes) (es : List (Serial × List CrlExtension)) (l : List (Serial × UInt8)),
    Concat (fun c w => Element 0 16 true c w) cs body → allSome (parseRevoked timeOk) cs = some es → processEntries es = some l → Concat EntryAt l body := by
  intro cs
  induction cs with
  | nil =>
    intro body es l h1 h2 h3
    simp only [allSome, Option.some.injEq] at h2
    subst h2
    simp only [processEntries, Option.some.injEq] at h3
    subst h3
    exact h1
  | cons c cs ih =>
    intro body es l h1 h2 h3
    obtain ⟨x, y, hx, hy, rfl⟩ := h1
    unfold allSome at h2
    cases hc : parseRevoked timeOk c with
    | none => rw [hc] at h2; cases h2
    | some e =>
      rw [hc] at h2
      dsimp only at h2
      cases hcs : allSome (parseRevoked timeOk) cs with
      | none => rw [hcs] at h2; cases h2
      | some es' =>
        rw [hcs] at h2
        simp only [Option.some.injEq] at h2
        subst h2
        obtain ⟨s, exts⟩ := e
        unfold processEntries at h3
        cases hr : serialAndReason s exts with
        | none => rw [hr] at h3; cases h3
        | some p =>
          rw [hr] at h3
          dsimp only at h3
          cases hl : processEntries es' with
          | none => rw [hl] at h3; cases h3
          | some l' =>
            rw [hl] at h3
            simp only [Option.some.injEq] at h3
            subst h3
            refine ⟨x, y, ?_, ih y es' l' hy hcs hl, rfl⟩
            have hp : p.1 = s := by
              obtain ⟨s', code⟩ := p
              exact ((C07_reason_byte s exts s' code).1 hr).1
            unfold parseRevoked at hc
            cases hraw : rawField c with
            | none => rw [hraw] at hc; cases hc
            | some q =>
              obtain ⟨s', rest⟩ := q
              rw [hraw] at hc
              dsimp only at hc
              have hs : s' = s := by
                split at hc
                · cases hc
                · split at hc
                  · cases hc
                  · simp only [Option.some.injEq, Prod.mk.injEq] at hc
                    exact hc.1
              subst hs
              obtain ⟨_, cls, tag, k, w, _, he, e⟩ := (rawField_iff _ _ _).1 hraw
              exact ⟨c, w, rest, cls, tag, k, hx, by rw [hp]; exact he, e⟩

theorem timeField_suffix {timeOk : Bool → Bytes → Bool} {opt : Bool} {bs rest : Bytes} (h : timeField timeOk opt bs = some rest) : ∃ pre, bs = pre ++ rest := by
  unfold timeField at h
  cases h1 : typedField .time opt bs with
  | none => rw [h1] at h; cases h
  | some p =>
    obtain ⟨o, r⟩ := p
    rw [h1] at h
    cases o with
    | none =>
      simp only [Option.some.injEq] at h
      subst h
      cases opt with
      | false => exact absurd h1 typedField_required
      | true => exact ⟨[], by rw [typedField_none_rest h1]; rfl⟩
    | some q =>
      obtain ⟨tag, c⟩ := q
      dsimp only at h
      split at h
      · simp only [Option.some.injEq] at h
        subst h
        obtain ⟨_, f, w, _, _, e⟩ := (typedField_some _ _ _ _ _ _).1 h1
        exact ⟨w, e⟩
      · cases h

theorem versionField_suffix {bs rest : Bytes} (h : versionField bs = some rest) : ∃ pre, bs = pre ++ rest := by
  unfold versionField at h
  cases h1 : typedField .integer true bs with
  | none => rw [h1] at h; cases h
  | some p =>
    obtain ⟨o, r⟩ := p
    rw [h1] at h
    cases o with
    | none =>
      simp only [Option.some.injEq] at h
      subst h
      exact ⟨[], by rw [typedField_none_rest h1]; rfl⟩
    | some q =>
      obtain ⟨tag, c⟩ := q
      dsimp only at h
      split at h
      · cases h
      · simp only [Option.some.injEq] at h
        subst h
        obtain ⟨_, f, w, _, _, e⟩ := (typedField_some _ _ _ _ _ _).1 h1
        exact ⟨w, e⟩

/-- C100: whatever the octets are, nothing is recorded that is not in them: the recorded serials are those of entries that stand one after the other in the octets. -/
theorem C100_only_listed (timeOk : Bool → Bytes → Bool) (data : Bytes) (l : List (Serial × UInt8)) (h : processCrlBytes timeOk data = some l) :
    l = [] ∨ ∃ pre body post, data = pre ++ body ++ post ∧ Concat EntryAt l body := by
  unfold processCrlBytes at h
  cases h0 : decodeRawTbs timeOk data with
  | none => rw [h0] at h; cases h
  | some es =>
    rw [h0] at h
    dsimp only at h
    unfold decodeRawTbs at h0
    cases h1 : typedField .sequence false data with
    | none => rw [h1] at h0; cases h0
    | some p =>
      obtain ⟨o, rest⟩ := p
      rw [h1] at h0
      cases o with
      | none => cases h0
      | some q =>
        obtain ⟨tag, content⟩ := q
        dsimp only at h0
        obtain ⟨_, f, w, _, ⟨id, ls, _, _, rfl⟩, rfl⟩ := (typedField_some _ _ _ _ _ _).1 h1
        unfold parseTbsFields at h0
        cases h2 : versionField content with
        | none => rw [h2] at h0; cases h0
        | some r1 =>
          rw [h2] at h0
          dsimp only at h0
          cases h3 : rawField r1 with
          | none => rw [h3] at h0; cases h0
          | some q2 =>
            obtain ⟨c2, r2⟩ := q2
            rw [h3] at h0
            dsimp only at h0
            cases h4 : rawField r2 with
            | none => rw [h4] at h0; cases h0
            | some q3 =>
              obtain ⟨c3, r3⟩ := q3
              rw [h4] at h0
              dsimp only at h0
              cases h5 : timeField timeOk false r3 with
              | none => rw [h5] at h0; cases h0
              | some r4 =>
                rw [h5] at h0
                dsimp only at h0
                cases h6 : timeField timeOk true r4 with
                | none => rw [h6] at h0; cases h0
                | some r5 =>
                  rw [h6] at h0
                  dsimp only at h0
                  obtain ⟨p1, rfl⟩ := versionField_suffix h2
                  obtain ⟨_, _, _, _, w2, _, _, rfl⟩ := (rawField_iff _ _ _).1 h3
                  obtain ⟨_, _, _, _, w3, _, _, rfl⟩ := (rawField_iff _ _ _).1 h4
                  obtain ⟨p4, rfl⟩ := timeField_suffix h5
                  obtain ⟨p5, rfl⟩ := timeField_suffix h6
                  unfold optionalSlice at h0
                  cases h7 : typedField .sequence true r5 with
                  | none => rw [h7] at h0; cases h0
                  | some q7 =>
                    obtain ⟨o7, r7⟩ := q7
                    rw [h7] at h0
                    cases o7 with
                    | none =>
                      simp only [Option.some.injEq] at h0
                      subst h0
                      simp only [processEntries, Option.some.injEq] at h
                      exact Or.inl h.symm
                    | some q8 =>
                      obtain ⟨tag8, body⟩ := q8
                      dsimp only at h0
                      obtain ⟨_, f8, w8, _, ⟨id8, ls8, _, _, rfl⟩, rfl⟩ := (typedField_some _ _ _ _ _ _).1 h7
                      cases h9 : sequenceOf body.length body with
                      | none => rw [h9] at h0; cases h0
                      | some cs =>
                        rw [h9] at h0
                        dsimp only at h0
                        right
                        refine ⟨id ++ ls ++ p1 ++ w2 ++ w3 ++ p4 ++ p5 ++ id8 ++ ls8, body, r7 ++ rest, ?_,
                          entries_sound timeOk cs body es l (sequenceOf_sound _ _ _ h9) h0 h⟩
                        simp only [List.append_assoc]

/-! ### exceptions -/

/-- Every content counts as a time in the examples. -/
def anyTime (_ : Bool) (_ : Bytes) : Bool := true

/-- The list to be signed with the given content of `revokedCertificates`, without times that matter and with empty names. -/
def sampleList (revoked : Bytes) : Bytes :=
  let content := [0x02, 0x01, 0x01, 0x30, 0x00, 0x30, 0x00, 0x17, 0x00] ++ [0x30, UInt8.ofNat revoked.length] ++ revoked
  [0x30, UInt8.ofNat content.length] ++ content

/-- An entry with serial number 1 and no extensions. -/
def plainEntry : Bytes := [0x30, 0x05, 0x02, 0x01, 0x01, 0x17, 0x00]

/-- An entry with serial number 7 and a critical `certificateIssuer` extension with an empty value. -/
def foreignEntry : Bytes :=
  [0x30, 0x13, 0x02, 0x01, 0x07, 0x17, 0x00, 0x30, 0x0c, 0x30, 0x0a, 0x06, 0x03, 0x55, 0x1d, 0x1d, 0x01, 0x01, 0xff, 0x04, 0x00]

theorem short_element (tag : Nat) (f : Bool) (content : Bytes) (h : tag < 31) (hl : content.length < 128) :
    Element 0 tag f content ([UInt8.ofNat ((if f then 32 else 0) + tag), UInt8.ofNat content.length] ++ content) := by
  refine ⟨[UInt8.ofNat ((if f then 32 else 0) + tag)], [UInt8.ofNat content.length], ⟨by omega, Or.inl ⟨h, _, rfl, ?_⟩⟩, Or.inl ⟨hl, _, rfl, ?_⟩, rfl⟩
  · rw [UInt8.toNat_ofNat']
    cases f <;> simp <;> omega
  · rw [UInt8.toNat_ofNat']
    omega

theorem sampleList_bytes (r : Revoked) (w : Bytes) (h : RevokedBytes anyTime r w) (hl : w.length < 100) : CrlBytes anyTime [r] (sampleList w) :=
  ⟨[0x02, 0x01, 0x01], [0x30, 0x00], [0x30, 0x00], [0x17, 0x00], [], [0x30, UInt8.ofNat w.length] ++ w, [],
    Or.inr (short_element 2 false [1] (by decide) (by decide)), ⟨[], short_element 16 true [] (by decide) (by decide)⟩,
    ⟨[], short_element 16 true [] (by decide) (by decide)⟩, ⟨false, [], rfl, short_element 23 false [] (by decide) (by decide)⟩, Or.inl rfl,
    Or.inr ⟨w, ⟨w, [], h, rfl, by simp⟩, short_element 16 true w (by decide) (by omega)⟩, Or.inl rfl, by
      have := short_element 16 true ([0x02, 0x01, 0x01, 0x30, 0x00, 0x30, 0x00, 0x17, 0x00] ++ [0x30, UInt8.ofNat w.length] ++ w) (by decide)
        (by simp only [List.length_append, List.length_cons, List.length_nil]; omega)
      simpa [sampleList] using this⟩

theorem plainEntry_bytes : RevokedBytes anyTime ⟨[1], []⟩ plainEntry :=
  ⟨[0x02, 0x01, 0x01], [0x17, 0x00], [], short_element 2 false [1] (by decide) (by decide), ⟨false, [], rfl, short_element 23 false [] (by decide) (by decide)⟩,
    Or.inl ⟨rfl, rfl⟩, short_element 16 true [0x02, 0x01, 0x01, 0x17, 0x00] (by decide) (by decide)⟩

theorem foreignEntry_bytes : RevokedBytes anyTime ⟨[7], [⟨[2, 5, 29, 29], some true, []⟩]⟩ foreignEntry := by
  have hx : ExtBytes ⟨[2, 5, 29, 29], some true, []⟩ [0x30, 0x0a, 0x06, 0x03, 0x55, 0x1d, 0x1d, 0x01, 0x01, 0xff, 0x04, 0x00] :=
    ⟨[0x55, 0x1d, 0x1d], [0x06, 0x03, 0x55, 0x1d, 0x1d], [0x01, 0x01, 0xff], [0x04, 0x00],
      ⟨2, 5, [29, 29], rfl, by decide, by decide, [0x55], [0x1d, 0x1d], ⟨[], 0x55, rfl, by decide, by simp, by decide, by decide⟩,
        ⟨[0x1d], [0x1d], ⟨[], 0x1d, rfl, by decide, by simp, by decide, by decide⟩, ⟨[0x1d], [], ⟨[], 0x1d, rfl, by decide, by simp, by decide, by decide⟩, rfl, rfl⟩, rfl⟩, rfl⟩,
      short_element 6 false [0x55, 0x1d, 0x1d] (by decide) (by decide), short_element 1 false [0xff] (by decide) (by decide),
      short_element 4 false [] (by decide) (by decide), short_element 16 true [0x06, 0x03, 0x55, 0x1d, 0x1d, 0x01, 0x01, 0xff, 0x04, 0x00] (by decide) (by decide)⟩
  exact ⟨[0x02, 0x01, 0x07], [0x17, 0x00], [0x30, 0x0c, 0x30, 0x0a, 0x06, 0x03, 0x55, 0x1d, 0x1d, 0x01, 0x01, 0xff, 0x04, 0x00],
    short_element 2 false [7] (by decide) (by decide), ⟨false, [], rfl, short_element 23 false [] (by decide) (by decide)⟩,
    Or.inr ⟨[0x30, 0x0a, 0x06, 0x03, 0x55, 0x1d, 0x1d, 0x01, 0x01, 0xff, 0x04, 0x00], ⟨_, [], hx, rfl, rfl⟩,
      short_element 16 true [0x30, 0x0a, 0x06, 0x03, 0x55, 0x1d, 0x1d, 0x01, 0x01, 0xff, 0x04, 0x00] (by decide) (by decide)⟩,
    short_element 16 true (([0x02, 0x01, 0x07] ++ [0x17, 0x00]) ++ [0x30, 0x0c, 0x30, 0x0a, 0x06, 0x03, 0x55, 0x1d, 0x1d, 0x01, 0x01, 0xff, 0x04, 0x00]) (by decide) (by decide)⟩

/-- An entry with serial number 7 and the reason keyCompromise. -/
def reasonEntry : Bytes :=
  [0x30, 0x13, 0x02, 0x01, 0x07, 0x17, 0x00, 0x30, 0x0c, 0x30, 0x0a, 0x06, 0x03, 0x55, 0x1d, 0x15, 0x04, 0x03, 0x0a, 0x01, 0x01]

theorem reasonEntry_bytes : RevokedBytes anyTime ⟨[7], [⟨[2, 5, 29, 21], none, [0x0a, 0x01, 0x01]⟩]⟩ reasonEntry := by
  have hx : ExtBytes ⟨[2, 5, 29, 21], none, [0x0a, 0x01, 0x01]⟩ [0x30, 0x0a, 0x06, 0x03, 0x55, 0x1d, 0x15, 0x04, 0x03, 0x0a, 0x01, 0x01] :=
    ⟨[0x55, 0x1d, 0x15], [0x06, 0x03, 0x55, 0x1d, 0x15], [], [0x04, 0x03, 0x0a, 0x01, 0x01],
      ⟨2, 5, [29, 21], rfl, by decide, by decide, [0x55], [0x1d, 0x15], ⟨[], 0x55, rfl, by decide, by simp, by decide, by decide⟩,
        ⟨[0x1d], [0x15], ⟨[], 0x1d, rfl, by decide, by simp, by decide, by decide⟩, ⟨[0x15], [], ⟨[], 0x15, rfl, by decide, by simp, by decide, by decide⟩, rfl, rfl⟩, rfl⟩, rfl⟩,
      short_element 6 false [0x55, 0x1d, 0x15] (by decide) (by decide), rfl,
      short_element 4 false [0x0a, 0x01, 0x01] (by decide) (by decide),
      short_element 16 true [0x06, 0x03, 0x55, 0x1d, 0x15, 0x04, 0x03, 0x0a, 0x01, 0x01] (by decide) (by decide)⟩
  exact ⟨[0x02, 0x01, 0x07], [0x17, 0x00], [0x30, 0x0c, 0x30, 0x0a, 0x06, 0x03, 0x55, 0x1d, 0x15, 0x04, 0x03, 0x0a, 0x01, 0x01],
    short_element 2 false [7] (by decide) (by decide), ⟨false, [], rfl, short_element 23 false [] (by decide) (by decide)⟩,
    Or.inr ⟨[0x30, 0x0a, 0x06, 0x03, 0x55, 0x1d, 0x15, 0x04, 0x03, 0x0a, 0x01, 0x01], ⟨_, [], hx, rfl, rfl⟩,
      short_element 16 true [0x30, 0x0a, 0x06, 0x03, 0x55, 0x1d, 0x15, 0x04, 0x03, 0x0a, 0x01, 0x01] (by decide) (by decide)⟩,
    short_element 16 true (([0x02, 0x01, 0x07] ++ [0x17, 0x00]) ++ [0x30, 0x0c, 0x30, 0x0a, 0x06, 0x03, 0x55, 0x1d, 0x15, 0x04, 0x03, 0x0a, 0x01, 0x01]) (by decide) (by decide)⟩

/-- The hypotheses of `C100_list_read`, `C100_rejected` and `C100_only_listed` hold of a list with one entry, which is recorded with its reason. -/
example : ∃ (rs : List Revoked) (whole : Bytes), CrlBytes anyTime rs whole ∧ (∀ r ∈ rs, ∀ e ∈ r.exts, OidFits e.oid) ∧ whole.length < 2147483648 ∧
    (∃ r ∈ rs, EntryReason r.exts 1) ∧ processCrlBytes anyTime whole = some [([7], 1)] := by
  refine ⟨_, _, sampleList_bytes _ _ reasonEntry_bytes (by decide), ?_, by decide, ⟨_, List.mem_cons_self, ?_⟩, by decide +kernel⟩
  · intro r hr e he
    rw [List.mem_singleton] at hr
    subst hr
    rw [List.mem_singleton] at he
    subst he
    exact ⟨by decide, by decide⟩
  · exact Or.inr ⟨[], _, [], rfl, rfl, by simp, [1], [0x0a, 0x01, 0x01], [], ⟨1, [], rfl, by decide, by simp⟩, short_element 10 false [1] (by decide) (by decide), rfl⟩

/-- A list with an entry that has the extension twice is rejected. -/
example : processCrlBytes anyTime (sampleList [0x30, 0x1f, 0x02, 0x01, 0x07, 0x17, 0x00, 0x30, 0x18,
    0x30, 0x0a, 0x06, 0x03, 0x55, 0x1d, 0x15, 0x04, 0x03, 0x0a, 0x01, 0x01, 0x30, 0x0a, 0x06, 0x03, 0x55, 0x1d, 0x15, 0x04, 0x03, 0x0a, 0x01, 0x01]) = none := by decide +kernel

/-- The hypotheses of `C100_certificate_read` hold of a certificate with an explicit version. -/
example : CertBytes [7] [0x30, 0x08, 0xa0, 0x03, 0x02, 0x01, 0x02, 0x02, 0x01, 0x07] ∧
    newSerialFromTbs [0x30, 0x08, 0xa0, 0x03, 0x02, 0x01, 0x02, 0x02, 0x01, 0x07] = some [7] :=
  ⟨⟨[0xa0, 0x03, 0x02, 0x01, 0x02], [0x02, 0x01, 0x07], [],
    Or.inr ⟨[0x02, 0x01, 0x02], short_element 2 false [2] (by decide) (by decide), [0xa0], [0x03],
      ⟨by decide, Or.inl ⟨by decide, _, rfl, by decide⟩⟩, Or.inl ⟨by decide, _, rfl, rfl⟩, rfl⟩,
    short_element 2 false [7] (by decide) (by decide), by decide, short_element 16 true [0xa0, 0x03, 0x02, 0x01, 0x02, 0x02, 0x01, 0x07] (by decide) (by decide)⟩, by decide⟩

/-- The hypotheses of `C100_same_number_partial` hold of that certificate and that list. -/
example : ∃ (serial cert : Bytes) (rs : List Revoked) (whole : Bytes), CertBytes serial cert ∧ TwosComplement 7 serial ∧ CrlBytes anyTime rs whole ∧
    processCrlBytes anyTime whole = some [([7], 1)] ∧ newSerialFromTbs cert = some [7] :=
  ⟨[7], [0x30, 0x03, 0x02, 0x01, 0x07], _, _,
    ⟨[], [0x02, 0x01, 0x07], [], Or.inl rfl, short_element 2 false [7] (by decide) (by decide), by decide, short_element 16 true [0x02, 0x01, 0x07] (by decide) (by decide)⟩,
    ⟨7, [], rfl, by decide, by simp⟩, sampleList_bytes _ _ reasonEntry_bytes (by decide), by decide +kernel, by decide⟩

/-- C100: what C46 calls the revocations that a downloaded list has are those read from its octets. -/
theorem C100_downloaded (timeOk : Bool → Bytes → Bool) (disk : Text → Option CrlFile) (u : UrlPath) (path : Text) (c : CrlFile) (whole : Bytes) (hu : u.path = some path)
    (hd : disk path = some c) (hs : c.sigOK = true) (he : c.entries = decodeRawTbs timeOk whole) (l : List (Serial × UInt8)) :
    CrlLists disk u l ↔ processCrlBytes timeOk whole = some l := by
  unfold CrlLists processCrlBytes
  rw [← he]
  constructor
  · rintro ⟨p, c', es, h1, h2, _, h4, h5⟩
    rw [hu] at h1
    cases h1
    rw [hd] at h2
    cases h2
    rw [h4]
    exact (processEntries_iff es l).2 h5
  · intro h
    cases hes : c.entries with
    | none => rw [hes] at h; cases h
    | some es =>
      rw [hes] at h
      exact ⟨path, c, es, hu, hd, hs, hes, (processEntries_iff es l).1 h⟩

example : ∃ (disk : Text → Option CrlFile) (u : UrlPath) (c : CrlFile), u.path = some ['p'] ∧ disk ['p'] = some c ∧ c.sigOK = true ∧
    c.entries = decodeRawTbs anyTime (sampleList reasonEntry) ∧ CrlLists disk u [([7], 1)] :=
  ⟨fun _ => some ⟨true, decodeRawTbs anyTime (sampleList reasonEntry), none, 0⟩, ⟨['u'], some ['p']⟩, _, rfl, rfl, rfl, rfl,
    (C100_downloaded anyTime _ _ ['p'] _ (sampleList reasonEntry) rfl rfl rfl rfl _).2 (by decide +kernel)⟩

/-- C100 fails for serial numbers that are not in DER: the number 1 written in two octets in the certificate is not found although the list revokes the number 1. -/
theorem C100_padded_serial_fails : ∃ (cert whole : Bytes) (s : Serial) (rs : List Revoked),
    CertBytes [0, 1] cert ∧ numB 256 ([0, 1].map UInt8.toNat) = 1 ∧
    CrlBytes anyTime rs whole ∧ (∃ r ∈ rs, TwosComplement 1 r.serial) ∧
    newSerialFromTbs cert = some s ∧ ∃ l, processCrlBytes anyTime whole = some l ∧ s ∉ l.map Prod.fst := by
  refine ⟨[0x30, 0x04, 0x02, 0x02, 0x00, 0x01], sampleList plainEntry, [0, 1], [⟨[1], []⟩], ?_, by decide,
    sampleList_bytes _ _ plainEntry_bytes (by decide), ?_, by decide, [([1], 0)], by decide, by decide⟩
  · exact ⟨[], [0x02, 0x02, 0x00, 0x01], [], Or.inl rfl, short_element 2 false [0, 1] (by decide) (by decide), by decide,
      short_element 16 true [0x02, 0x02, 0x00, 0x01] (by decide) (by decide)⟩
  · exact ⟨⟨[1], []⟩, by simp, 1, [], rfl, by decide, by simp⟩

/-- C100 fails for indirect lists: an entry whose critical `certificateIssuer` extension says that it is about another issuer's certificate is recorded
like every other entry. RFC 5280 5.3 forbids the use of a list with a critical entry extension that is not processed. -/
theorem C100_foreign_entry_fails : ∃ (whole : Bytes) (rs : List Revoked),
    CrlBytes anyTime rs whole ∧ (∃ r ∈ rs, r.serial = [7] ∧ ∃ e ∈ r.exts, e.oid = [2, 5, 29, 29] ∧ e.critical = some true) ∧
    processCrlBytes anyTime whole = some [([7], 0)] :=
  ⟨sampleList foreignEntry, _, sampleList_bytes _ _ foreignEntry_bytes (by decide), ⟨_, List.mem_cons_self, rfl, _, List.mem_cons_self, rfl, rfl⟩, by decide +kernel⟩

/-! ### each theorem applied -/

theorem reasonEntry_fits : ∀ r ∈ [(⟨[7], [⟨[2, 5, 29, 21], none, [0x0a, 0x01, 0x01]⟩]⟩ : Revoked)], ∀ e ∈ r.exts, OidFits e.oid := by
  intro r hr e he
  rw [List.mem_singleton] at hr
  subst hr
  rw [List.mem_singleton] at he
  subst he
  exact ⟨by decide, by decide⟩

example := C100_list_read anyTime _ _ (sampleList_bytes _ _ reasonEntry_bytes (by decide)) reasonEntry_fits (by decide) [([7], 1)]
example := C100_rejected anyTime _ _ (sampleList_bytes _ _ reasonEntry_bytes (by decide)) reasonEntry_fits (by decide)

end Verif.Props
