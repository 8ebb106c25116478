import Verif.Lemmas.X509
import Verif.Props.Der
import Verif.Props.Query
import Verif.Props.Leaf
/-!
Property C108: what the client reads of a certificate.
-/
namespace Verif.Props
open Verif.Spec

/-! ### the extensions -/

theorem skipCritical_complete {cr : Option Bool} {bs : Bytes} (h : CriticalBytes cr bs) {c w : Bytes} (hw : Element 0 4 false c w) (hc : c.length < 2 ^ 64) (rest : Bytes) :
    skipCritical (bs ++ (w ++ rest)) = w ++ rest := by
  unfold skipCritical
  cases cr with
  | none =>
    simp only [CriticalBytes] at h
    subst h
    rw [List.nil_append, expect_other hw (by decide) hc rest (by decide)]
  | some b =>
    simp only [CriticalBytes] at h
    rw [expect_complete h (by decide) (by show (1 : Nat) < 2 ^ 64; decide)]
    rfl

theorem readExt_complete {e : Ext} {c o cr v : Bytes} (ho : Element 0 6 false c o) (hcr : CriticalBytes e.critical cr) (hv : Element 0 4 false e.value v) (hl : (o ++ cr ++ v).length < 2 ^ 64) :
    readExt (o ++ cr ++ v) = some ⟨c, e.value⟩ := by
  have p1 := element_pos ho
  have p2 := element_pos hv
  simp only [List.length_append] at hl
  unfold readExt
  rw [List.append_assoc, expect_complete ho (by decide) (by omega)]
  dsimp only
  have h1 := skipCritical_complete hcr hv (by omega) []
  have h2 := expect_complete hv (by decide) (by omega) []
  rw [List.append_nil] at h1 h2
  rw [h1, h2]
  rfl

theorem readExts_complete : ∀ (exts : List Ext) (body : Bytes) (fuel : Nat), Concat ExtBytes exts body → body.length ≤ fuel → body.length < 2 ^ 64 →
    ∃ xs, readExts fuel body = some xs ∧ ExtsMatch exts xs := by
  intro exts
  induction exts with
  | nil =>
    intro body fuel h _ _
    simp only [Concat] at h
    subst h
    exact ⟨[], by cases fuel <;> rfl, .nil⟩
  | cons e exts ih =>
    intro body fuel h hf hl
    obtain ⟨x, y, ⟨c, o, cr, v, hc, ho, hcr, hv, hx⟩, hy, rfl⟩ := h
    have p := element_pos hx
    rw [List.length_append] at hf hl
    cases fuel with
    | zero => omega
    | succ fuel =>
      obtain ⟨xs, h1, h2⟩ := ih y fuel hy (by omega) (by omega)
      refine ⟨⟨c, e.value⟩ :: xs, ?_, .cons e _ exts xs hc rfl h2⟩
      have hne := element_ne hx y
      obtain ⟨b, bs, hb⟩ := List.exists_cons_of_ne_nil hne
      rw [hb]
      unfold readExts
      rw [← hb, expect_complete hx (by decide) (by omega)]
      dsimp only
      rw [readExt_complete ho hcr hv (by omega), h1]

theorem extField_complete {exts : List Ext} {bs : Bytes} (h : ExtensionsBytes exts bs) (hl : bs.length < 2 ^ 64) : ∃ xs, extField bs = some xs ∧ ExtsMatch exts xs := by
  rcases h with ⟨rfl, rfl⟩ | ⟨body, inner, hb, hi, hw⟩
  · exact ⟨[], if_pos rfl, .nil⟩
  · have p1 := element_pos hi
    have p2 := element_pos hw
    obtain ⟨xs, h1, h2⟩ := readExts_complete exts body body.length hb (Nat.le_refl _) (by omega)
    refine ⟨xs, ?_, h2⟩
    have e1 := expect_complete hw (by decide) (by omega) []
    have e2 := expect_complete hi (by decide) (by omega) []
    have hne := element_ne hw []
    rw [List.append_nil] at e1 e2 hne
    unfold extField
    rw [if_neg hne, e1]
    dsimp only
    rw [e2]
    dsimp only
    rw [if_pos ⟨rfl, rfl⟩, h1]

/-- The timestamp extensions as written are those as read. -/
theorem match_filter {exts : List Ext} {xs : List CertExt} (h : ExtsMatch exts xs) :
    ExtsMatch (exts.filter (fun e => decide (e.oid = sctArcs))) (xs.filter (fun x => decide (x.oid = sctOid))) := by
  induction h with
  | nil => exact .nil
  | cons e x es xs ho hv _ ih =>
    by_cases hs : e.oid = sctArcs
    · rw [List.filter_cons_of_pos (by simpa using hs), List.filter_cons_of_pos (by simpa using (sctOid_iff ho).2 hs)]
      exact .cons e x _ _ ho hv ih
    · rw [List.filter_cons_of_neg (by simpa using hs), List.filter_cons_of_neg (by simpa using fun h => hs ((sctOid_iff ho).1 h))]
      exact ih

theorem filter_none {exts : List Ext} (h : ∀ e ∈ exts, e.oid ≠ sctArcs) : exts.filter (fun e => decide (e.oid = sctArcs)) = [] := by
  rw [List.filter_eq_nil_iff]
  intro e he
  simpa using h e he

theorem certScts_one {exts pre post : List Ext} {e : Ext} {xs : List CertExt} (h : ExtsMatch exts xs) (hx : exts = pre ++ e :: post) (he : e.oid = sctArcs) (ho : ∀ x ∈ pre ++ post, x.oid ≠ sctArcs) :
    certScts xs = sctList e.value := by
  have hm := match_filter h
  rw [hx, List.filter_append, List.filter_cons_of_pos (by simpa using he), filter_none (fun x hx => ho x (List.mem_append_left _ hx)),
    filter_none (fun x hx => ho x (List.mem_append_right _ hx)), List.nil_append] at hm
  unfold certScts
  cases hf : xs.filter (fun x => decide (x.oid = sctOid)) with
  | nil => rw [hf] at hm; cases hm
  | cons x rest =>
    rw [hf] at hm
    cases hm with
    | cons _ _ _ _ _ hv hr =>
      cases hr
      dsimp only
      rw [hv]

theorem certScts_complete {exts : List Ext} {xs : List CertExt} (h : ExtsMatch exts xs) {l : List (Bytes × Nat)} (hs : ExtScts exts l) (hl : ∀ e ∈ exts, e.value.length < 2 ^ 64) : certScts xs = l := by
  rcases hs with ⟨h0, rfl⟩ | ⟨pre, e, post, hx, he, ho, hv⟩
  · have hm := match_filter h
    rw [filter_none h0] at hm
    unfold certScts
    cases hf : xs.filter (fun x => decide (x.oid = sctOid)) with
    | nil => rfl
    | cons x rest => rw [hf] at hm; cases hm
  · rw [certScts_one h hx he ho]
    exact sctList_complete hv (hl e (by rw [hx]; simp))

theorem certScts_several {exts : List Ext} {xs : List CertExt} (h : ExtsMatch exts xs) {a b c : List Ext} {e1 e2 : Ext} (hx : exts = a ++ e1 :: (b ++ e2 :: c)) (h1 : e1.oid = sctArcs) (h2 : e2.oid = sctArcs) : certScts xs = [] := by
  have hm := match_filter h
  rw [hx, List.filter_append, List.filter_cons_of_pos (by simpa using h1), List.filter_append, List.filter_cons_of_pos (by simpa using h2)] at hm
  have hlen : ∀ {es : List Ext} {xs : List CertExt}, ExtsMatch es xs → es.length = xs.length := by
    intro es xs h
    induction h with
    | nil => rfl
    | cons _ _ _ _ _ _ _ ih => rw [List.length_cons, List.length_cons, ih]
  have hn := hlen hm
  simp only [List.length_append, List.length_cons] at hn
  unfold certScts
  split
  · rename_i x hf
    rw [hf] at hn
    simp only [List.length_cons, List.length_nil] at hn
    omega
  · rfl

/-! ### the certificate -/

theorem optField_uids {X : X509World} {u1 u2 ex : Bytes} {exts : List Ext} (h1 : UidBytes X 1 u1) (h2 : UidBytes X 2 u2) (hx : ExtensionsBytes exts ex) (hl : (u1 ++ (u2 ++ ex)).length < 2 ^ 64) :
    optField 1 X.uidOk (u1 ++ (u2 ++ ex)) = some (u2 ++ ex) ∧ optField 2 X.uidOk (u2 ++ ex) = some ex := by
  simp only [List.length_append] at hl
  have hex : ∀ tag : Nat, tag ≠ 3 → optField tag X.uidOk ex = some ex := by
    intro tag ht
    rcases hx with ⟨_, rfl⟩ | ⟨_, inner, _, _, hw⟩
    · exact optField_nil _ _
    · have p := element_pos hw
      have := optField_absent (tag' := tag) (ok := X.uidOk) hw (by decide) (by omega) (fun h => ht h.symm) []
      rw [List.append_nil] at this
      exact this
  have hu2 : optField 2 X.uidOk (u2 ++ ex) = some ex := by
    rcases h2 with rfl | ⟨c, f, hok, hw⟩
    · exact hex 2 (by decide)
    · have p := element_pos hw
      exact optField_present hw (by decide) (by omega) hok ex
  refine ⟨?_, hu2⟩
  rcases h1 with rfl | ⟨c, f, hok, hw⟩
  · rw [List.nil_append]
    rcases h2 with rfl | ⟨c, f, hok, hw⟩
    · exact hex 1 (by decide)
    · have p := element_pos hw
      exact optField_absent hw (by decide) (by omega) (by decide) ex
  · have p := element_pos hw
    exact optField_present hw (by decide) (by omega) hok _

theorem readTbs_complete {X : X509World} {f : CertFields} {tbs : Bytes} (h : TbsBytes X f tbs) (hl : tbs.length < 2 ^ 64) :
    ∃ c xs, Element 0 16 true c tbs ∧ readTbs X c = some ⟨f.issuer, f.subject, f.spki, f.serial, f.valid, xs⟩ ∧ ExtsMatch f.exts xs := by
  obtain ⟨v, s, ac, a, nc, vc, va, sc, kc, u1, u2, ex, hv, _, hs, ha, hac, hn, hnc, hva, hvc, hsu, hsc, hk, hkc, hu1, hu2, hex, hw⟩ := h
  have pw := element_pos hw
  simp only [List.length_append] at pw
  have p1 := element_pos hs
  have p2 := element_pos ha
  have p3 := element_pos hn
  have p4 := element_pos hva
  have p5 := element_pos hsu
  have p6 := element_pos hk
  obtain ⟨xs, hxs, hm⟩ := extField_complete hex (by omega)
  obtain ⟨q1, q2⟩ := optField_uids hu1 hu2 hex (by simp only [List.length_append]; omega)
  refine ⟨_, xs, hw, ?_, hm⟩
  unfold readTbs
  have hver : optField 0 X.versionOk (v ++ (s ++ (a ++ (f.issuer ++ (va ++ (f.subject ++ (f.spki ++ (u1 ++ (u2 ++ ex))))))))) = some (s ++ (a ++ (f.issuer ++ (va ++ (f.subject ++ (f.spki ++ (u1 ++ (u2 ++ ex)))))))) := by
    rcases hv with rfl | ⟨w, _, hv, hok⟩
    · exact optField_absent hs (by decide) (by omega) (by decide) _
    · have p := element_pos hv
      exact optField_present hv (by decide) (by omega) hok _
  rw [hver, Option.bind_some, expect_complete hs (by decide) (by omega), Option.bind_some]
  dsimp only
  rw [seqField_complete ha (by omega) hac, Option.bind_some, seqField_complete hn (by omega) hnc, Option.bind_some, expect_complete hva (by decide) (by omega), Option.bind_some]
  dsimp only
  rw [hvc, Option.bind_some, seqField_complete hsu (by omega) hsc, Option.bind_some, seqField_complete hk (by omega) hkc, Option.bind_some, q1, Option.bind_some, q2, Option.bind_some, hxs, Option.map_some,
    upTo_app, upTo_app, upTo_app]

/-- **C108 (the fields).** A certificate is read as it was written, whatever follows it. -/
theorem C108_read (X : X509World) (f : CertFields) (tbs whole more : Bytes) (h : CertificateBytes X f tbs whole) (hl : whole.length < 2 ^ 64) :
    ∃ xs, readCert X (whole ++ more) = some ⟨f.issuer, f.subject, f.spki, f.serial, f.valid, xs⟩ ∧ ExtsMatch f.exts xs := by
  obtain ⟨ac, a, gc, g, ht, ha, hac, hg, hgc, hw⟩ := h
  have pw := element_pos hw
  simp only [List.length_append] at pw
  have p1 := element_pos ha
  have p2 := element_pos hg
  obtain ⟨c, xs, hc, hr, hm⟩ := readTbs_complete ht (by omega)
  have p3 := element_pos hc
  refine ⟨xs, ?_, hm⟩
  unfold readCert
  rw [expect_complete hw (by decide) (by simp only [List.length_append]; omega), Option.bind_some]
  dsimp only
  rw [expect_complete hc (by decide) (by omega), Option.bind_some]
  dsimp only
  rw [hr, Option.bind_some, seqField_complete ha (by omega) hac, Option.bind_some]
  have e := expect_complete hg (by decide) (by omega) []
  rw [List.append_nil] at e
  rw [e, Option.bind_some]
  exact if_pos hgc

theorem ext_value_lt {exts : List Ext} {body : Bytes} (h : Concat ExtBytes exts body) : ∀ e ∈ exts, e.value.length < body.length := by
  induction exts generalizing body with
  | nil => intro e he; cases he
  | cons e exts ih =>
    obtain ⟨x, y, ⟨c, o, cr, v, _, _, _, hv, hx⟩, hy, rfl⟩ := h
    intro e' he'
    have p1 := element_pos hv
    have p2 := element_pos hx
    simp only [List.length_append] at p2
    rw [List.length_append]
    rcases List.mem_cons.1 he' with rfl | he'
    · omega
    · have := ih hy e' he'
      omega

theorem value_lt {X : X509World} {f : CertFields} {tbs whole : Bytes} (h : CertificateBytes X f tbs whole) : ∀ e ∈ f.exts, e.value.length < whole.length := by
  obtain ⟨_, _, _, _, ⟨v, s, ac, a, nc, vc, va, sc, kc, u1, u2, ex, _, _, _, _, _, _, _, _, _, _, _, _, _, _, _, hex, hw⟩, _, _, _, _, hW⟩ := h
  have p1 := element_pos hw
  have p2 := element_pos hW
  simp only [List.length_append] at p1 p2
  intro e he
  rcases hex with ⟨h0, _⟩ | ⟨body, inner, hb, hi, hx⟩
  · rw [h0] at he; cases he
  · have p3 := element_pos hi
    have p4 := element_pos hx
    have := ext_value_lt hb e he
    omega

/-- **C108 (the certificate asked about).** Of a certificate with at most one timestamp extension, the client takes the issuer's name, the serial number, the timestamps with their logs and the validity as they were written. -/
theorem C108_client (X : X509World) (f : CertFields) (tbs whole more : Bytes) (h : CertificateBytes X f tbs whole) (hl : whole.length < 2 ^ 64) (l : List (Bytes × Nat)) (hs : ExtScts f.exts l) :
    readClient X (whole ++ more) = some ⟨f.issuer, f.serial, l, f.valid⟩ := by
  obtain ⟨xs, h1, h2⟩ := C108_read X f tbs whole more h hl
  unfold readClient
  rw [h1, Option.map_some, certScts_complete h2 hs (fun e he => by have := value_lt h e he; omega)]

/-- **C108 (the certificate of an issuer).** Name and key are taken as they were written. -/
theorem C108_issuer (X : X509World) (f : CertFields) (tbs whole more : Bytes) (h : CertificateBytes X f tbs whole) (hl : whole.length < 2 ^ 64) : readIssuer X (whole ++ more) = some ⟨f.subject, f.spki⟩ := by
  obtain ⟨xs, h1, _⟩ := C108_read X f tbs whole more h hl
  unfold readIssuer
  rw [h1]
  rfl

/-- **C108 (one serial number).** The serial number that the client asks for is the one that `ct-fetch` recorded, whether the log has the certificate or a precertificate with the same serial number. -/
theorem C108_same_serial (X : X509World) (f : CertFields) (tbs whole more : Bytes) (h : CertificateBytes X f tbs whole) (hl : whole.length < 2147483648) :
    newSerialFromTbs tbs = some f.serial ∧ (∀ pre, CertBytes f.serial pre → pre.length < 2147483648 → newSerialFromTbs pre = some f.serial) ∧ (readCert X (whole ++ more)).map ParsedCert.serial = some f.serial := by
  have hsmall : tbs.length < 2147483648 := by
    obtain ⟨_, _, _, _, _, _, _, _, _, hW⟩ := h
    have := element_pos hW
    simp only [List.length_append] at this
    omega
  have hc : CertBytes f.serial tbs := by
    obtain ⟨_, _, _, _, ⟨v, s, ac, a, nc, vc, va, sc, kc, u1, u2, ex, hv, hne, hs, _, _, _, _, _, _, _, _, _, _, _, _, _, hw⟩, _⟩ := h
    refine ⟨v, s, a ++ (f.issuer ++ (va ++ (f.subject ++ (f.spki ++ (u1 ++ (u2 ++ ex)))))), ?_, hs, hne, by rw [List.append_assoc]; exact hw⟩
    rcases hv with hv | ⟨w, h1, h2, _⟩
    · exact Or.inl hv
    · exact Or.inr ⟨w, h1, h2⟩
  obtain ⟨xs, h1, _⟩ := C108_read X f tbs whole more h (by omega)
  exact ⟨C100_certificate_read f.serial tbs hc hsmall, fun pre hp hpl => C100_certificate_read f.serial pre hp hpl, by rw [h1]; rfl⟩

/-! ### one serial number, whatever the octets -/

/-- An element with a tag number of 31 or above is not read. -/
theorem elem_high {cls tag : Nat} {f : Bool} {c w : Bytes} (h : Element cls tag f c w) (ht : 31 ≤ tag) (rest : Bytes) : elem (w ++ rest) = none := by
  obtain ⟨id, ls, ⟨_, h | ⟨_, b, ts, rfl, hb, _⟩⟩, _, rfl⟩ := h
  · omega
  · unfold elem
    simp only [List.cons_append]
    rw [if_pos]
    rw [hb]
    split <;> omega

theorem expect_some_elem {cls tag cls' tag' : Nat} {f f' : Bool} {c w : Bytes} (h : Element cls tag f c w) (hc : c.length < 2 ^ 64) (rest : Bytes) {p : Bytes × Bytes}
    (he : expect cls' tag' f' (w ++ rest) = some p) : p = (c, rest) ∧ cls = cls' ∧ tag = tag' ∧ f = f' := by
  unfold expect at he
  by_cases ht : tag < 31
  · rw [elem_complete h ht hc] at he
    dsimp only at he
    split at he
    · rename_i hx
      exact ⟨(Option.some.inj he).symm, hx.1, hx.2.1, hx.2.2⟩
    · cases he
  · rw [elem_high h (by omega)] at he
    cases he

/-- What `optField` leaves of octets that begin with an element. -/
theorem optField_elem {cls tag tag' : Nat} {f : Bool} {ok : Bytes → Bool} {c w : Bytes} (h : Element cls tag f c w) (hc : c.length < 2 ^ 64) (rest : Bytes) {b : Bytes} (he : optField tag' ok (w ++ rest) = some b) :
    (tag = tag' ∧ cls = 2 ∧ b = rest) ∨ (tag ≠ tag' ∧ b = w ++ rest) := by
  have hne : w ++ rest ≠ [] := by
    have := element_pos h
    intro h0
    have := congrArg List.length h0
    simp only [List.length_append, List.length_nil] at this
    omega
  unfold optField optTagged at he
  rw [if_neg hne] at he
  by_cases ht : tag < 31
  · rw [elem_complete h ht hc] at he
    dsimp only at he
    by_cases h1 : tag = tag'
    · rw [if_neg (not_not_intro h1)] at he
      by_cases h2 : cls = 2
      · rw [if_neg (not_not_intro h2)] at he
        dsimp only at he
        split at he
        · exact Or.inl ⟨h1, h2, (Option.some.inj he).symm⟩
        · cases he
      · rw [if_pos h2] at he
        cases he
    · rw [if_pos h1] at he
      exact Or.inr ⟨h1, (Option.some.inj he).symm⟩
  · rw [elem_high h (by omega)] at he
    cases he

theorem readTbs_serial {X : X509World} {bs : Bytes} {c : ParsedCert} (h : readTbs X bs = some c) : ∃ b1 p, optField 0 X.versionOk bs = some b1 ∧ expect 0 2 false b1 = some p ∧ c.serial = p.1 := by
  unfold readTbs at h
  obtain ⟨b1, h1, h⟩ := Option.bind_eq_some_iff.1 h
  obtain ⟨p, h2, h⟩ := Option.bind_eq_some_iff.1 h
  refine ⟨b1, p, h1, h2, ?_⟩
  obtain ⟨b2, _, h⟩ := Option.bind_eq_some_iff.1 h
  obtain ⟨b3, _, h⟩ := Option.bind_eq_some_iff.1 h
  obtain ⟨v, _, h⟩ := Option.bind_eq_some_iff.1 h
  obtain ⟨valid, _, h⟩ := Option.bind_eq_some_iff.1 h
  obtain ⟨b4, _, h⟩ := Option.bind_eq_some_iff.1 h
  obtain ⟨b5, _, h⟩ := Option.bind_eq_some_iff.1 h
  obtain ⟨b6, _, h⟩ := Option.bind_eq_some_iff.1 h
  obtain ⟨b7, _, h⟩ := Option.bind_eq_some_iff.1 h
  obtain ⟨exts, _, rfl⟩ := Option.map_eq_some_iff.1 h
  rfl

/-- **C108 (both readers).** Whatever the octets of a certificate are, if the Go side takes a serial number from the part to be signed and the query program reads the certificate, the serial numbers are the same. The version must not be
a primitive element, which the Go side would take for the serial number. -/
theorem C108_agree (X : X509World) (tbs rest whole more : Bytes) (hw : Element 0 16 true (tbs ++ rest) whole) (hl : whole.length < 2 ^ 64) (s : Serial) (hs : newSerialFromTbs tbs = some s) (c : ParsedCert) (hc : readCert X (whole ++ more) = some c)
    (hv : ∀ body w, Element 0 16 true body w → w <+: tbs → ¬ PrimitiveVersion body) : c.serial = s := by
  have pw := element_pos hw
  unfold newSerialFromTbs at hs
  split at hs
  case h_2 => cases hs
  rename_i tag content r ht
  obtain ⟨hcl, f, w, hk, he, rfl⟩ := (typedField_some _ _ _ _ _ _).1 ht
  obtain ⟨rfl, rfl⟩ := hk
  unfold readCert at hc
  rw [expect_complete hw (by decide) (by omega), Option.bind_some] at hc
  dsimp only at hc
  rw [List.append_assoc, expect_complete he (by decide) (by omega), Option.bind_some] at hc
  dsimp only at hc
  obtain ⟨c', hc', hc⟩ := Option.bind_eq_some_iff.1 hc
  obtain ⟨_, _, hc⟩ := Option.bind_eq_some_iff.1 hc
  obtain ⟨_, _, hc⟩ := Option.bind_eq_some_iff.1 hc
  have hcc : c' = c := by
    split at hc
    · exact Option.some.inj hc
    · cases hc
  subst hcc
  obtain ⟨b1, p, h1, h2, h3⟩ := readTbs_serial hc'
  rw [h3]
  split at hs
  · cases hs
  rename_i rest' hskip
  split at hs
  · cases hs
  rename_i s' r' hraw
  cases hs
  obtain ⟨hsl, cls, tg, k, w2, _, he2, rfl⟩ := (rawField_iff _ _ _).1 hraw
  unfold skipVersion at hskip
  split at hskip
  · exfalso
    have := element_pos he2
    have e := congrArg List.length (Option.some.inj hskip)
    simp only [List.length_append, List.length_nil] at e
    omega
  split at hskip
  · cases hskip
  rename_i t rt hpt
  split at hskip
  · cases hskip
  split at hskip
  · rename_i hm
    split at hskip
    · cases hskip
    rename_i hlen
    obtain ⟨_, htl, id, ls, hid, hls, rfl⟩ := (parseTagLen_iff _ _ _).1 hpt
    have hel : Element t.cls t.tag t.compound (rt.take t.length) (id ++ ls ++ rt.take t.length) :=
      ⟨id, ls, hid, by rw [List.length_take, Nat.min_eq_left (by omega)]; exact hls, rfl⟩
    have e : id ++ ls ++ rt = (id ++ ls ++ rt.take t.length) ++ (w2 ++ r') := by
      rw [← Option.some.inj hskip, List.append_assoc (id ++ ls), List.take_append_drop]
    rw [e] at h1
    have htk : (rt.take t.length).length < 2 ^ 64 := by
      rw [List.length_take]
      omega
    rcases optField_elem hel htk _ h1 with ⟨_, _, rfl⟩ | ⟨hne, _⟩
    · obtain ⟨rfl, _⟩ := expect_some_elem he2 (by omega) _ h2
      rfl
    · exact absurd hm.2.1 hne
  · rename_i hm
    have e := Option.some.inj hskip
    subst e
    rcases optField_elem he2 (by omega) _ h1 with ⟨rfl, rfl, _⟩ | ⟨_, rfl⟩
    · exfalso
      have hpt' : parseTagLen (w2 ++ r') = some (⟨2, k, 0, s.length⟩, s ++ r') := by
        obtain ⟨id, ls, hid, hls, rfl⟩ := he2
        exact (parseTagLen_iff _ _ _).2 ⟨by show (0 : Nat) < 2147483648; decide, hsl, id, ls, hid, hls, by rw [List.append_assoc (id ++ ls)]⟩
      rw [hpt] at hpt'
      cases hpt'
      refine hv _ w he ⟨r, rfl⟩ ⟨s, w2, r', ?_, ?_, rfl⟩
      · rintro rfl
        exact hm ⟨rfl, rfl, Or.inl rfl⟩
      · cases k with
        | false => exact he2
        | true => exact absurd ⟨rfl, rfl, Or.inr rfl⟩ hm
    · obtain ⟨rfl, _⟩ := expect_some_elem he2 (by omega) _ h2
      rfl

/-! ### timestamps that are not read -/

theorem tlsNum_be {n k : Nat} (h : k < 256 ^ n) : TlsNum n k (beBytes n k) := by
  have hlen := beBytes_length n k
  refine ⟨hlen, ?_⟩
  have h1 := readBE_beBytes_lt h []
  have h2 := readBE_num (beBytes n k) [] 0
  rw [hlen, h1, Nat.zero_mul, Nat.zero_add] at h2
  simp only [Option.some.injEq, Prod.mk.injEq, and_true] at h2
  exact h2.symm

theorem readOpaque_sound {n : Nat} {b a r : Bytes} (h : readOpaque n 0 b = some (a, r)) : ∃ w, TlsVector n a w ∧ b = w ++ r := by
  obtain ⟨h1, _, h2⟩ := readOpaque_some h
  exact ⟨beBytes n a.length ++ a, ⟨_, tlsNum_be h1, rfl⟩, by rw [h2, List.append_assoc]⟩

theorem readSct_sound {b : Bytes} {s : Bytes × Nat} (h : readSct b = some s) : ∃ p q, b = p ++ q ∧ SctBytes s p := by
  unfold readSct at h
  split at h
  · cases h
  rename_i v b
  split at h
  · cases h
  rename_i id b1 h1
  split at h
  · cases h
  rename_i ts b2 h2
  split at h
  · cases h
  rename_i e b3 h3
  split at h
  · cases h
  rename_i alg b4 h4
  obtain ⟨⟨g, q⟩, h5, h6⟩ := Option.map_eq_some_iff.1 h
  subst h6
  obtain ⟨l1, rfl⟩ := readN_some h1
  obtain ⟨k2, rfl⟩ := readBE_zero_some h2
  obtain ⟨x, hx, rfl⟩ := readOpaque_sound h3
  obtain ⟨l4, rfl⟩ := readN_some h4
  obtain ⟨z, hz, rfl⟩ := readOpaque_sound h5
  match alg, l4 with
  | [a1, a2], _ =>
    refine ⟨v :: (id ++ (beBytes 8 ts ++ (x ++ (a1 :: a2 :: z)))), q, by simp [List.append_assoc], l1, v, a1, a2, beBytes 8 ts, e, x, g, z, tlsNum_be k2, hx, hz, rfl⟩

theorem sctLoop_blocked {bs : Bytes} (h : NoSct bs) (fuel : Nat) : sctLoop fuel bs = [] := by
  cases fuel with
  | zero => rfl
  | succ fuel =>
    unfold sctLoop
    split
    · rfl
    · rename_i c rest hc
      split
      · rfl
      · rename_i s hs
        exfalso
        obtain ⟨w, hw, rfl⟩ := readOpaque_sound hc
        obtain ⟨p, q, rfl, hp⟩ := readSct_sound hs
        exact h s w rest rfl ⟨_, p, q, hw, rfl, hp⟩

/-- **C108 (a damaged timestamp).** The timestamps after one that cannot be read are not seen: the list `l` followed by octets that do not begin with a timestamp is read as `l`, whatever these octets hold. -/
theorem C108_damaged_fails (X : X509World) (f : CertFields) (tbs whole more : Bytes) (h : CertificateBytes X f tbs whole) (hl : whole.length < 2 ^ 64) (pre post : List Ext) (e : Ext) (hx : f.exts = pre ++ e :: post) (he : e.oid = sctArcs)
    (ho : ∀ x ∈ pre ++ post, x.oid ≠ sctArcs) (l : List (Bytes × Nat)) (body rest inner : Bytes) (hb : Concat SerializedSct l body) (hr : NoSct rest) (hi : TlsVector 2 (body ++ rest) inner) (hv : Element 0 4 false inner e.value) :
    readClient X (whole ++ more) = some ⟨f.issuer, f.serial, l, f.valid⟩ := by
  obtain ⟨xs, h1, h2⟩ := C108_read X f tbs whole more h hl
  unfold readClient
  rw [h1, Option.map_some, certScts_one h2 hx he ho]
  have hvl := value_lt h e (by rw [hx]; simp)
  have p := element_pos hv
  have e1 := expect_complete hv (by decide) (by omega) []
  have e2 := readOpaque_complete hi []
  rw [List.append_nil] at e1 e2
  have : sctList e.value = l := by
    unfold sctList
    rw [e1]
    dsimp only
    rw [e2]
    dsimp only
    rw [sctLoop_concat l body rest _ hb (by rw [List.length_append]; exact Nat.le_refl _), sctLoop_blocked hr, List.append_nil]
  rw [this]

/-- **C108 (two extensions).** With two timestamp extensions the client sees no timestamps. -/
theorem C108_duplicate_fails (X : X509World) (f : CertFields) (tbs whole more : Bytes) (h : CertificateBytes X f tbs whole) (hl : whole.length < 2 ^ 64) (a b c : List Ext) (e1 e2 : Ext) (hx : f.exts = a ++ e1 :: (b ++ e2 :: c))
    (h1 : e1.oid = sctArcs) (h2 : e2.oid = sctArcs) : readClient X (whole ++ more) = some ⟨f.issuer, f.serial, [], f.valid⟩ := by
  obtain ⟨xs, g1, g2⟩ := C108_read X f tbs whole more h hl
  unfold readClient
  rw [g1, Option.map_some, certScts_several g2 hx h1 h2]

/-- **C108 (what is not seen does not count).** If no filter covers a timestamp that the client sees, the answer is not Revoked, whatever the filters hold. With `C108_damaged_fails` and `C108_duplicate_fails` this is so for certificates with covered timestamps that are not seen. -/
theorem C108_unseen_fails {G : Type} (contains enrolls : G → Bytes → Bool) (sha : Bytes → Bytes) (parse : Bytes → Option IssuerCert) (verifies : Bytes → Bool) (filters : List (Card G)) (m : Intermediates) (c : ClientCert)
    (h : ∀ k ∈ filters, ¬ Covers k.coverage c.scts) : clientQuery sha parse verifies (cardHas enrolls contains) filters m c ≠ .revoked := by
  intro hc
  obtain ⟨spki, _, _, k, hk, hh⟩ := (C63_revoked_iff _ _ _ _ _ _ _).1 hc
  unfold cardHas at hh
  rw [if_neg (fun hs => h k hk ((covers_iff _ _).1 hs))] at hh
  cases hh

/-- **C108 (names in octets).** An issuer whose certificate has its name in other octets than the certificate asked about is not found, even if the names are the same for RFC 5280 7.1: the answer is NotEnrolled. -/
theorem C108_name_fails {F : Type} (X : X509World) (sha : Bytes → Bytes) (verifies : Bytes → Bool) (has : F → Bytes → Bytes → List (Bytes × Nat) → QStatus) (filters : List F) (pem : Text → Option Bytes) (recs : List Text) (f : CertFields)
    (tbs whole : Bytes) (h : CertificateBytes X f tbs whole) (hl : whole.length < 2 ^ 64) (hn : ∀ r ∈ recs, ∀ der, pem r = some der → ∃ fi itbs, CertificateBytes X fi itbs der ∧ der.length < 2 ^ 64 ∧ fi.subject ≠ f.issuer) :
    (readClient X whole).map (clientQuery sha (readIssuer X) verifies has filters (fromEnrolled pem (readIssuer X) recs)) = some .notEnrolled := by
  obtain ⟨xs, h1, _⟩ := C108_read X f tbs whole [] h hl
  rw [List.append_nil] at h1
  unfold readClient
  rw [h1, Option.map_some, Option.map_some]
  have hnone : lookupSpki (readIssuer X) verifies (fromEnrolled pem (readIssuer X) recs) f.issuer = none := by
    cases hk : lookupSpki (readIssuer X) verifies (fromEnrolled pem (readIssuer X) recs) f.issuer with
    | none => rfl
    | some k =>
      obtain ⟨r, hr, der, c, hp, hc, hs, _⟩ := (C63_enrolled pem (readIssuer X) verifies recs f.issuer).1 k hk
      obtain ⟨fi, itbs, hi, hil, hne⟩ := hn r hr der hp
      have := C108_issuer X fi itbs der [] hi hil
      rw [List.append_nil, hc] at this
      cases this
      exact absurd hs hne
  unfold clientQuery
  rw [hnone]

/-! ### from the logs and CRLs to the exit status -/

/-- **C108, from the octets of a certificate to the exit status.** Full statement: without `hcov`. Proved: if the octets of a certificate and of its issuer's certificate, which is enrolled, are as in RFC 5280, the issuer's key is the only one that verifies the certificate,
the certificate is valid now, known and revoked in run `n`, and the database has the filters of the runs up to `n`, then the exit status is 1, provided each of these runs that knew it as revoked covered one of its timestamps. Missing: as in `C74_revoked_partial`. -/
theorem C108_end_to_end_partial {G : Type} {build : List Bytes → List (Bytes × Bool) → Option G} {contains : G → Bytes → Bool} {enrolls : G → Bytes → Bool} (he : EnrollsInput build enrolls) {order : List Text → List Text} {rs : ReasonSet}
    (C : RunChain build contains order rs) (cov : Nat → Coverage) (X : X509World) (W : QueryWorld (Card G)) (hW : W.has = cardHas enrolls contains) (hWp : W.parse = readClient X) (hWi : W.parseIssuer = readIssuer X) (update : Option Instance)
    (chan : ClientChannel) (fs : Files) (db : LoadedDb (Card G)) (hr : Ready W update chan fs db) (n : Nat) (hcards : ∀ k ∈ C.cards cov n, k ∈ db.filters)
    (recs : List Text) (hlook : ∀ verifies dn, lookupSpki W.parseIssuer verifies db.inters dn = lookupSpki W.parseIssuer verifies (fromEnrolled W.pem W.parseIssuer recs) dn)
    (f fi : CertFields) (tbs der itbs ider : Bytes) (h : CertificateBytes X f tbs der) (hl : der.length < 2 ^ 64) (hi : CertificateBytes X fi itbs ider) (hil : ider.length < 2 ^ 64) (r : Text) (hrm : r ∈ recs) (hrp : W.pem r = some ider)
    (hname : fi.subject = f.issuer) (hver : ∀ k, W.verifies der k = true ↔ k = fi.spki) (l : List (Bytes × Nat)) (hs : ExtScts f.exts l) (hv : f.valid = true)
    (hk : KnownIn (C.W n) (W.sha fi.spki) f.serial) (hrev : RevokedIn rs (C.W n) (W.sha fi.spki) f.serial)
    (hcov : ∀ m ≤ n, KnownIn (C.W m) (W.sha fi.spki) f.serial → RevokedIn rs (C.W m) (W.sha fi.spki) f.serial → Covers (cov m) l) :
    (∀ files name input, name ∈ files → W.file name = some (some input) → FileHolds input der → (W.main update chan (.x509 files) fs).1 = 1) ∧
    ∀ hosts i host, hosts[i]? = some host → Served W i host der → (W.main update chan (.https hosts) fs).1 = 1 := by
  have hc := C108_client X f tbs der [] h hl l hs
  rw [List.append_nil] at hc
  have hic := C108_issuer X fi itbs ider [] hi hil
  rw [List.append_nil] at hic
  have hfound : lookupSpki W.parseIssuer (W.verifies der) db.inters f.issuer = some fi.spki := by
    rw [hlook]
    obtain ⟨h1, h2⟩ := C63_enrolled W.pem W.parseIssuer (W.verifies der) recs f.issuer
    obtain ⟨k, hk⟩ := h2 ⟨r, hrm, ider, ⟨fi.subject, fi.spki⟩, hrp, by rw [hWi]; exact hic, hname, (hver _).2 rfl⟩
    obtain ⟨_, _, _, _, _, _, _, _, hvk⟩ := h1 k hk
    rw [hk, (hver k).1 hvk]
  exact C107_end_to_end_partial he C cov W hW update chan fs db hr n hcards der fi.spki ⟨f.issuer, f.serial, l, f.valid⟩ (by rw [hWp]; exact hc) hfound hv hk hrev hcov

/-! ### examples -/

/-- An element with one octet of tag and one of length. -/
def exEl (tag : Nat) (f : Bool) (c : Bytes) : Bytes := [UInt8.ofNat ((if f then 32 else 0) + tag), UInt8.ofNat c.length] ++ c

theorem exEl_element (tag : Nat) (f : Bool) (c : Bytes) (h : tag < 31) (hl : c.length < 128) : Element 0 tag f c (exEl tag f c) := short_element tag f c h hl

theorem exEl_length (tag : Nat) (f : Bool) (c : Bytes) : (exEl tag f c).length = c.length + 2 := by
  unfold exEl
  rw [List.length_append]
  show 2 + c.length = _
  omega

theorem exContext_element (c : Bytes) (hl : c.length < 128) : Element 2 3 true c ([163, UInt8.ofNat c.length] ++ c) := by
  refine ⟨[163], [UInt8.ofNat c.length], ⟨by decide, Or.inl ⟨by decide, _, rfl, by decide⟩⟩, Or.inl ⟨hl, _, rfl, ?_⟩, rfl⟩
  rw [UInt8.toNat_ofNat']
  omega

/-- A world in which everything inside the other fields is acceptable and the validity is its first octet. -/
def exX : X509World :=
  { versionOk := fun w => w == [2, 1, 2]
    algOk := fun _ => true
    nameOk := fun _ => true
    validity := fun c => some (c == [1])
    keyOk := fun c => !c.isEmpty
    uidOk := fun _ => true
    sigOk := fun c => c == [0] }

/-- What is to be signed, with the serial number `sn`, the issuer's name `dn` and the extensions `body`. -/
def exTbs (sn dn body : Bytes) : Bytes :=
  exEl 16 true ([160, 3, 2, 1, 2] ++ (exEl 2 false sn ++ (exEl 16 true [] ++ (dn ++ (exEl 16 true [1] ++ (exEl 16 true [] ++ (exEl 16 true [5] ++ ([] ++ ([] ++ ([163, UInt8.ofNat (exEl 16 true body).length] ++ exEl 16 true body))))))))))

def exCertificate (sn dn body : Bytes) : Bytes := exEl 16 true (exTbs sn dn body ++ (exEl 16 true [] ++ exEl 3 false [0]))

/-- The fields of such a certificate. -/
def exFields (sn dn : Bytes) (exts : List Ext) : CertFields := ⟨sn, dn, true, exEl 16 true [], exEl 16 true [5], exts⟩

theorem exCertificate_bytes (b : UInt8) (sn nc : Bytes) (exts : List Ext) (body : Bytes) (h : Concat ExtBytes exts body) (hl : sn.length + nc.length + body.length < 95) :
    CertificateBytes exX (exFields (b :: sn) (exEl 16 true nc) exts) (exTbs (b :: sn) (exEl 16 true nc) body) (exCertificate (b :: sn) (exEl 16 true nc) body) ∧ (exCertificate (b :: sn) (exEl 16 true nc) body).length < 128 := by
  have hb := exEl_length 16 true body
  have hn := exEl_length 16 true nc
  have ht : (exTbs (b :: sn) (exEl 16 true nc) body).length = sn.length + nc.length + body.length + 26 := by
    unfold exTbs
    simp only [exEl_length, List.length_append, List.length_cons, List.length_nil]
    omega
  refine ⟨⟨[], exEl 16 true [], [0], exEl 3 false [0], ⟨[160, 3, 2, 1, 2], exEl 2 false (b :: sn), [], exEl 16 true [], nc, [1], exEl 16 true [1], [], [5], [], [],
    [163, UInt8.ofNat (exEl 16 true body).length] ++ exEl 16 true body, ?_, List.cons_ne_nil _ _, exEl_element _ _ (b :: sn) (by decide) (by simp only [List.length_cons]; omega), exEl_element _ _ _ (by decide) (by decide), rfl,
    exEl_element _ _ _ (by decide) (by omega), rfl, exEl_element _ _ _ (by decide) (by decide), rfl, exEl_element _ _ _ (by decide) (by decide), rfl, exEl_element _ _ _ (by decide) (by decide), rfl, Or.inl rfl, Or.inl rfl,
    Or.inr ⟨body, exEl 16 true body, h, exEl_element _ _ _ (by decide) (by omega), exContext_element _ (by omega)⟩, exEl_element _ _ _ (by decide) ?_⟩,
    exEl_element _ _ _ (by decide) (by decide), rfl, exEl_element _ _ _ (by decide) (by decide), rfl, exEl_element _ _ _ (by decide) ?_⟩, ?_⟩
  · refine Or.inr ⟨[2, 1, 2], short_element 2 false [2] (by decide) (by decide), ⟨[160], [3], ⟨by decide, Or.inl ⟨by decide, _, rfl, by decide⟩⟩, Or.inl ⟨by decide, _, rfl, by decide⟩, rfl⟩, rfl⟩
  · simp only [exEl_length, List.length_append, List.length_cons, List.length_nil, exFields]
    omega
  · simp only [exEl_length, List.length_append, List.length_cons, List.length_nil, ht]
    omega
  · unfold exCertificate
    simp only [exEl_length, List.length_append, List.length_cons, List.length_nil, ht]
    omega

/-- A timestamp of 500 by the log 1. -/
def exSct : Bytes := 0 :: (List.replicate 32 1 ++ ([0, 0, 0, 0, 0, 0, 1, 244] ++ ([0, 0] ++ (4 :: 3 :: [0, 0]))))

theorem exSct_bytes : SerializedSct (List.replicate 32 1, 500) ([0, 47] ++ exSct) :=
  ⟨exSct, ⟨by decide, 0, 4, 3, [0, 0, 0, 0, 0, 0, 1, 244], [], [0, 0], [], [0, 0], ⟨rfl, by decide⟩, ⟨[0, 0], ⟨rfl, by decide⟩, rfl⟩, ⟨[0, 0], ⟨rfl, by decide⟩, rfl⟩, rfl⟩, ⟨[0, 47], ⟨rfl, by decide⟩, rfl⟩⟩

/-- The timestamp extension with the value `v`. -/
def exSctExt (v : Bytes) : Bytes := exEl 16 true (exEl 6 false [0x2b, 6, 1, 4, 1, 0xd6, 0x79, 2, 4, 2] ++ [] ++ exEl 4 false v)

theorem exSctExt_bytes (v : Bytes) (h : v.length < 100) : ExtBytes ⟨sctArcs, none, v⟩ (exSctExt v) := by
  refine ⟨[0x2b, 6, 1, 4, 1, 0xd6, 0x79, 2, 4, 2], exEl 6 false [0x2b, 6, 1, 4, 1, 0xd6, 0x79, 2, 4, 2], [], exEl 4 false v, sctOid_content, exEl_element _ _ _ (by decide) (by decide), rfl, exEl_element _ _ v (by decide) (by omega), exEl_element _ _ _ (by decide) ?_⟩
  · simp only [exEl_length, List.length_append, List.length_cons, List.length_nil]
    omega

/-- The value of the extension with one timestamp. -/
def exSctValue : Bytes := exEl 4 false ([0, 49] ++ ([0, 47] ++ exSct))

theorem exSctValue_bytes : SctValue [(List.replicate 32 1, 500)] exSctValue :=
  ⟨[0, 47] ++ exSct, [0, 49] ++ ([0, 47] ++ exSct), ⟨_, [], exSct_bytes, rfl, by simp⟩, ⟨[0, 49], ⟨rfl, by decide⟩, rfl⟩, exEl_element _ _ _ (by decide) (by decide)⟩

theorem exCertificate_one : CertificateBytes exX (exFields [2] (exEl 16 true [9]) [⟨sctArcs, none, exSctValue⟩]) (exTbs [2] (exEl 16 true [9]) (exSctExt exSctValue)) (exCertificate [2] (exEl 16 true [9]) (exSctExt exSctValue)) :=
  (exCertificate_bytes 2 [] [9] [⟨sctArcs, none, exSctValue⟩] (exSctExt exSctValue) ⟨_, [], exSctExt_bytes _ (by decide), rfl, by simp⟩ (by decide)).1

theorem exScts : ExtScts [⟨sctArcs, none, exSctValue⟩] [(List.replicate 32 1, 500)] := Or.inr ⟨[], _, [], rfl, rfl, (fun x hx => by cases hx), exSctValue_bytes⟩

/-- The hypotheses of `C108_read`, `C108_client` and `C108_same_serial` hold of a certificate with a timestamp. -/
example : readClient exX (exCertificate [2] (exEl 16 true [9]) (exSctExt exSctValue) ++ [1, 2]) = some ⟨exEl 16 true [9], [2], [(List.replicate 32 1, 500)], true⟩ ∧ newSerialFromTbs (exTbs [2] (exEl 16 true [9]) (exSctExt exSctValue)) = some [2] :=
  ⟨C108_client exX _ _ _ _ exCertificate_one (by decide) _ exScts, (C108_same_serial exX _ _ _ [] exCertificate_one (by decide)).1⟩

/-- The reader computes this as well, and refuses a certificate with another version, without its last octet, and with a validity that is not read. -/
example : (readClient exX (exCertificate [2] (exEl 16 true [9]) (exSctExt exSctValue))).map (fun c => decide ((c.issuerDN : List UInt8) = exEl 16 true [9]) && decide ((c.serial : List UInt8) = [2]) && decide ((c.scts : List (List UInt8 × Nat)) = [(List.replicate 32 1, 500)]) && c.valid) = some true ∧
    (readClient { exX with versionOk := fun _ => false } (exCertificate [2] (exEl 16 true [9]) (exSctExt exSctValue))).isNone = true ∧ (readClient exX (exCertificate [2] (exEl 16 true [9]) (exSctExt exSctValue)).dropLast).isNone = true ∧
    (readClient { exX with validity := fun _ => none } (exCertificate [2] (exEl 16 true [9]) (exSctExt exSctValue))).isNone = true := by
  refine ⟨?_, ?_, ?_, ?_⟩ <;> decide +kernel

/-- The certificate of an issuer, which has no timestamps. -/
example : readIssuer exX (exCertificate [2] (exEl 16 true [1]) []) = some ⟨exEl 16 true [], exEl 16 true [5]⟩ := by
  have := C108_issuer exX _ _ _ [] (exCertificate_bytes 2 [] [1] [] [] rfl (by decide)).1 (by decide)
  rw [List.append_nil] at this
  exact this

/-- The octets of a timestamp that has one octet, followed by a timestamp that could be read. -/
def exDamaged : Bytes := [0, 1, 5] ++ ([0, 47] ++ exSct)

theorem exDamaged_none : NoSct exDamaged := by
  rintro s p q h ⟨c, a, b, ⟨l, ⟨hl, hn⟩, rfl⟩, rfl, hs, v, h1, h2, t, e, x, y, z, _, _, _, rfl⟩
  match l, hl with
  | [u, w], _ =>
    simp only [exDamaged, List.cons_append, List.nil_append, List.append_assoc, List.cons.injEq] at h
    obtain ⟨rfl, rfl, _⟩ := h
    have e1 : numB 256 (List.map UInt8.toNat [0, 1]) = 1 := by decide
    rw [e1] at hn
    simp only [List.length_append, List.length_cons] at hn
    omega

/-- A timestamp hidden by a damaged one. -/
example : readClient exX (exCertificate [2] (exEl 16 true [9]) (exSctExt (exEl 4 false ([0, 52] ++ ([] ++ exDamaged))))) = some ⟨exEl 16 true [9], [2], [], true⟩ := by
  have hc := (exCertificate_bytes 2 [] [9] [⟨sctArcs, none, exEl 4 false ([0, 52] ++ ([] ++ exDamaged))⟩] (exSctExt (exEl 4 false ([0, 52] ++ ([] ++ exDamaged)))) ⟨_, [], exSctExt_bytes _ (by decide), rfl, by simp⟩ (by decide)).1
  have := C108_damaged_fails exX _ _ _ [] hc (by decide) [] [] _ rfl rfl (fun x hx => by cases hx) [] [] exDamaged _ rfl exDamaged_none ⟨[0, 52], ⟨rfl, by decide⟩, rfl⟩ (exEl_element 4 false ([0, 52] ++ ([] ++ exDamaged)) (by decide) (by decide))
  rw [List.append_nil] at this
  exact this

/-- A second, empty, extension hides the timestamp of the first; with the first alone the certificate of run 1 is revoked, with both it is not covered. -/
example : readClient exX (exCertificate [2] (exEl 16 true [9]) (exSctExt exSctValue ++ exSctExt [])) = some ⟨exEl 16 true [9], [2], [], true⟩ := by
  have hc := (exCertificate_bytes 2 [] [9] [⟨sctArcs, none, exSctValue⟩, ⟨sctArcs, none, []⟩] (exSctExt exSctValue ++ exSctExt [])
    ⟨_, exSctExt [], exSctExt_bytes _ (by decide), ⟨_, [], exSctExt_bytes _ (by decide), rfl, by simp⟩, rfl⟩ (by decide)).1
  have := C108_duplicate_fails exX _ _ _ [] hc (by decide) [] [] [] _ _ rfl rfl rfl
  rw [List.append_nil] at this
  exact this

/-- The hypothesis of `C108_unseen_fails` holds of a certificate without timestamps. -/
example (filters : List (Card (List Bytes))) : clientQuery id (readIssuer exX) (fun _ => true) (cardHas exEnrolls exContains) filters exInter ⟨exEl 16 true [9], [2], [], true⟩ ≠ .revoked :=
  C108_unseen_fails exContains exEnrolls id (readIssuer exX) (fun _ => true) filters exInter _ (fun k _ h => by obtain ⟨s, hs, _⟩ := h; cases hs)

/-- The hypotheses of `C108_name_fails` hold of an issuer with an empty name and a certificate with the issuer's name [9]. -/
example : (readClient exX (exCertificate [2] (exEl 16 true [9]) (exSctExt exSctValue))).map (clientQuery id (readIssuer exX) (fun _ => true) (cardHas exEnrolls exContains) [] (fromEnrolled (fun _ => some (exCertificate [2] (exEl 16 true [1]) [])) (readIssuer exX) [[]])) = some .notEnrolled :=
  C108_name_fails exX id (fun _ => true) _ [] (fun _ => some (exCertificate [2] (exEl 16 true [1]) [])) [[]] _ _ _ exCertificate_one (by decide) (fun r _ der h => by
    cases h
    exact ⟨_, _, (exCertificate_bytes 2 [] [1] [] [] rfl (by decide)).1, by decide, by show exEl 16 true [] ≠ exEl 16 true [9]; decide⟩)

/-- Log 1 with an identifier of 32 octets. -/
def exCovX (_ : Nat) : Coverage := fun l => if l = List.replicate 32 1 then some (0, 1000) else none

def exXIssuer : Bytes := exCertificate [2] (exEl 16 true [1]) []

def exXCert : Bytes := exCertificate [2] (exEl 16 true []) (exSctExt exSctValue)

/-- A world in which certificates are read from their octets. -/
def exXQuery : QueryWorld (Card (List Bytes)) :=
  { exQ with
    pem := fun _ => some exXIssuer
    parseIssuer := readIssuer exX
    sha := fun _ => List.replicate 32 7
    verifies := fun _ k => k == exEl 16 true [5]
    parse := readClient exX
    file := fun _ => some (some exXCert)
    fromBytes := fun b => (exChain.cards exCovX 1)[(b.headD 9).toNat]?
    has := cardHas exEnrolls exContains }

def exXFiles : Files := [("20240102-0-default.delta".toList, [1]), ("20240101-0-default.filter".toList, [0]), (interName, binMap (fromEnrolled (fun _ => some exXIssuer) (readIssuer exX) [[]]))]

theorem exXCert_bytes : CertificateBytes exX (exFields [2] (exEl 16 true []) [⟨sctArcs, none, exSctValue⟩]) (exTbs [2] (exEl 16 true []) (exSctExt exSctValue)) exXCert :=
  (exCertificate_bytes 2 [] [] [⟨sctArcs, none, exSctValue⟩] (exSctExt exSctValue) ⟨_, [], exSctExt_bytes _ (by decide), rfl, by simp⟩ (by decide)).1

/-- The runs of `exChain` reach the exit status by way of the octets of the certificates. -/
example : (exXQuery.main none .default (.x509 ["file".toList]) exXFiles).1 = 1 := by
  refine (C108_end_to_end_partial exEnrolls_input exChain exCovX exX exXQuery rfl rfl rfl none .default exXFiles
    ⟨[⟨(exChain.out 1).deltaFilter, exCovX 1⟩, ⟨(exChain.out 0).filter, exCovX 0⟩], fromEnrolled (fun _ => some exXIssuer) (readIssuer exX) [[]]⟩ ⟨rfl, _, exXFiles, Or.inl ⟨rfl, rfl⟩, ?_⟩ 1 ?_
    [[]] (fun _ _ => rfl) _ _ _ exXCert _ exXIssuer exXCert_bytes (by decide) (exCertificate_bytes 2 [] [1] [] [] rfl (by decide)).1 (by decide) [] (List.mem_singleton.2 rfl) rfl rfl (fun k => beq_iff_eq) _ exScts rfl
    ⟨_, List.mem_singleton.2 rfl, rfl, _, List.mem_singleton.2 rfl, by decide⟩ ⟨_, List.mem_singleton.2 rfl, rfl, _, rfl, 4, by decide, trivial⟩
    (fun _ _ _ _ => ⟨(List.replicate 32 1, 500), List.mem_singleton.2 rfl, 0, 1000, if_pos rfl, by decide, by decide⟩)).1 ["file".toList] "file".toList exXCert (List.mem_singleton.2 rfl) rfl (Or.inl ⟨?_, rfl⟩)
  · rfl
  · intro k hk
    rcases (exChain.mem_cards exCovX 1 k).1 hk with rfl | ⟨m, hm, rfl⟩
    · exact List.mem_cons_of_mem _ List.mem_cons_self
    · have : m = 0 := by omega
      subst this
      exact List.mem_cons_self
  · rintro ⟨a, b, h⟩
    have : '-' ∈ octetText exXCert := by rw [h]; simp
    exact absurd this (by decide +kernel)

/-- The hypotheses of `C108_agree` hold of the certificate above. -/
example : ([2] : Bytes) = [2] := by
  obtain ⟨xs, h, _⟩ := C108_read exX _ _ _ [] exCertificate_one (by decide)
  exact C108_agree exX (exTbs [2] (exEl 16 true [9]) (exSctExt exSctValue)) (exEl 16 true [] ++ exEl 3 false [0]) _ [] (exEl_element 16 true _ (by decide) (by decide)) (by decide) [2] (by decide +kernel) _ h
    (fun body w hw hp => by
      obtain ⟨q, hq⟩ := hp
      have hlen := congrArg List.length hq
      have e0 : (exTbs [2] (exEl 16 true [9]) (exSctExt exSctValue)).length = 96 := by decide
      rw [List.length_append, e0] at hlen
      have e := expect_complete hw (by decide) (by have := element_pos hw; omega) q
      rw [hq] at e
      have e2 : (expect 0 16 true (exTbs [2] (exEl 16 true [9]) (exSctExt exSctValue))).map (fun p => p.1.head?) = some (some 160) := by decide +kernel
      rw [e] at e2
      rintro ⟨c, v, r, _, ⟨id, ls, ⟨_, ⟨_, b, rfl, hb⟩ | ⟨h31, _⟩⟩, _, rfl⟩, rfl⟩
      · cases e2
        revert hb
        decide
      · omega)

/-- Without the condition on the version the readers differ: here the Go side, whose parser of certificates would have refused the certificate before, takes the version for the serial number. -/
example : newSerialFromTbs (exEl 16 true ([0x80, 3, 2, 1, 2] ++ exEl 2 false [7])) = some [2, 1, 2] ∧
    (readCert { exX with versionOk := fun _ => true } (exEl 16 true (exEl 16 true ([0x80, 3, 2, 1, 2] ++ exEl 2 false [7] ++ exEl 16 true [] ++ exEl 16 true [] ++ exEl 16 true [] ++ exEl 16 true [] ++ exEl 16 true [5]) ++ exEl 16 true [] ++ exEl 3 false [0]))).map ParsedCert.serial = some [7] := by
  decide +kernel

end Verif.Props
