import Verif.Props.X509
/-!
C108: what the query program accepts as a certificate.
-/
namespace Verif.Props
open Verif.Spec

theorem elemLen_sound {bs rest : Bytes} {n : Nat} (h : elemLen bs = some (n, rest)) : ∃ ls, LooseLength n ls ∧ bs = ls ++ rest := by
  unfold elemLen at h
  split at h
  · cases h
  rename_i b r
  split at h
  · cases h
    rename_i hb
    exact ⟨[b], Or.inl ⟨hb, b, rfl, rfl⟩, rfl⟩
  rename_i hb
  split at h
  · cases h
  rename_i hne
  split at h
  · cases h
  rename_i m r' hm
  split at h
  case isFalse => cases h
  rename_i hlt
  simp only [Option.some.injEq, Prod.mk.injEq] at h
  obtain ⟨rfl, rfl⟩ := h
  have hz := readBE_zero_some hm
  have hk := hz.1
  rw [hz.2]
  have hlen := beBytes_length (b.toNat - 128) m
  have hb256 := b.toNat_lt
  refine ⟨b :: beBytes (b.toNat - 128) m, Or.inr ⟨b, _, rfl, by omega, by omega, by omega, ?_, hlt⟩, rfl⟩
  exact (tlsNum_be hk).2

theorem elem_sound {bs rest : Bytes} {e : Elem} (h : elem bs = some (e, rest)) : ∃ w, LooseElement e.cls e.tag e.constructed e.content w ∧ bs = w ++ rest := by
  unfold elem at h
  split at h
  · cases h
  rename_i b r
  split at h
  · cases h
  rename_i h31
  split at h
  · cases h
  rename_i n r1 hn
  split at h
  · cases h
  rename_i c r2 hc
  cases h
  obtain ⟨ls, hls, rfl⟩ := elemLen_sound hn
  obtain ⟨hlen, rfl⟩ := readN_some hc
  have hb256 := b.toNat_lt
  refine ⟨b :: (ls ++ c), ⟨by dsimp only; omega, by dsimp only; omega, b, ls, ?_, by dsimp only; rw [hlen]; exact hls, rfl⟩, by simp⟩
  dsimp only
  by_cases hx : b.toNat / 32 % 2 = 1
  · rw [decide_eq_true hx, if_pos rfl]
    omega
  · rw [decide_eq_false hx, if_neg (by decide)]
    omega

theorem expect_sound {cls tag : Nat} {f : Bool} {bs c rest : Bytes} (h : expect cls tag f bs = some (c, rest)) : ∃ w, LooseElement cls tag f c w ∧ bs = w ++ rest := by
  unfold expect at h
  split at h
  · cases h
  rename_i e r he
  split at h
  case isFalse => cases h
  rename_i hx
  cases h
  obtain ⟨w, hw, e⟩ := elem_sound he
  rw [hx.1, hx.2.1, hx.2.2] at hw
  exact ⟨w, hw, e⟩

theorem seqField_sound {ok : Bytes → Bool} {bs rest : Bytes} (h : seqField ok bs = some rest) : ∃ w, LooseSeq ok w ∧ bs = w ++ rest := by
  unfold seqField at h
  split at h
  · cases h
  rename_i c r he
  split at h
  case isFalse => cases h
  rename_i hok
  cases h
  obtain ⟨w, hw, e⟩ := expect_sound he
  exact ⟨w, ⟨c, hw, hok⟩, e⟩

theorem optField_sound {tag : Nat} {ok : Bytes → Bool} {bs rest : Bytes} (h : optField tag ok bs = some rest) : ∃ w, LooseOpt tag ok w ∧ bs = w ++ rest := by
  unfold optField optTagged at h
  split at h
  · cases h
  · rename_i r hr
    cases h
    refine ⟨[], Or.inl rfl, ?_⟩
    split at hr
    · cases hr; rfl
    · split at hr
      · cases hr
      · split at hr
        · cases hr; rfl
        · split at hr <;> cases hr
  · rename_i c r hr
    split at h
    case isFalse => cases h
    rename_i hok
    cases h
    split at hr
    · cases hr
    · split at hr
      · cases hr
      · rename_i e r' he
        split at hr
        · cases hr
        · rename_i htag
          split at hr
          · cases hr
          · rename_i hcls
            cases hr
            obtain ⟨w, hw, e'⟩ := elem_sound he
            rw [Decidable.of_not_not htag, Decidable.of_not_not hcls] at hw
            exact ⟨w, Or.inr ⟨_, _, hw, hok⟩, e'⟩

theorem skipCritical_sound (bs : Bytes) : ∃ cr, (cr = [] ∨ ∃ b, LooseElement 0 1 false [b] cr) ∧ bs = cr ++ skipCritical bs := by
  unfold skipCritical
  split
  · exact ⟨[], Or.inl rfl, rfl⟩
  · rename_i c rest hc
    split
    · rename_i hl
      obtain ⟨w, hw, e⟩ := expect_sound hc
      match c, hl with
      | [b], _ => exact ⟨w, Or.inr ⟨b, hw⟩, e⟩
    · exact ⟨[], Or.inl rfl, rfl⟩

theorem readExts_sound : ∀ (fuel : Nat) (bs : Bytes) (xs : List CertExt), readExts fuel bs = some xs → Concat LooseExt xs bs := by
  intro fuel
  induction fuel with
  | zero =>
    intro bs xs h
    cases bs with
    | nil => unfold readExts at h; cases h; rfl
    | cons b bs => unfold readExts at h; cases h
  | succ fuel ih =>
    intro bs xs h
    cases bs with
    | nil => unfold readExts at h; cases h; rfl
    | cons b bs =>
      unfold readExts at h
      split at h
      · cases h
      rename_i c rest hc
      split at h
      case h_2 => cases h
      rename_i e l he hl
      cases h
      obtain ⟨w, hw, e1⟩ := expect_sound hc
      refine ⟨w, rest, ?_, ih rest l hl, e1⟩
      unfold readExt at he
      split at he
      · cases he
      rename_i oid r ho
      obtain ⟨⟨v, more⟩, hv, rfl⟩ := Option.map_eq_some_iff.1 he
      obtain ⟨o, ho', rfl⟩ := expect_sound ho
      obtain ⟨cr, hcr, e2⟩ := skipCritical_sound r
      obtain ⟨v', hv', e3⟩ := expect_sound hv
      rw [e3] at e2
      subst e2
      exact ⟨o, cr, v', more, ho', hcr, hv', hw⟩

theorem extField_sound {bs : Bytes} {xs : List CertExt} (h : extField bs = some xs) : LooseExtensions xs bs := by
  unfold extField at h
  split at h
  · rename_i hb
    cases h
    exact Or.inl ⟨rfl, hb⟩
  split at h
  · cases h
  rename_i c rest hc
  split at h
  · cases h
  rename_i l rest2 hl
  split at h
  case isFalse => cases h
  rename_i hx
  obtain ⟨rfl, rfl⟩ := hx
  obtain ⟨w, hw, rfl⟩ := expect_sound hc
  obtain ⟨w2, hw2, rfl⟩ := expect_sound hl
  rw [List.append_nil] at *
  exact Or.inr ⟨l, w2, readExts_sound _ _ _ h, hw2, hw⟩

/-- **C108 (what is accepted).** Whatever is read as a certificate has the fields of RFC 5280 in their order, with the contents that the program goes on with: nothing is skipped, taken from elsewhere or made up. -/
theorem C108_accepts (X : X509World) (der : Bytes) (p : ParsedCert) (h : readCert X der = some p) : ∃ whole more, der = whole ++ more ∧ LooseCertificate X p whole := by
  unfold readCert at h
  obtain ⟨⟨w, more⟩, hw, h⟩ := Option.bind_eq_some_iff.1 h
  obtain ⟨⟨t, b⟩, ht, h⟩ := Option.bind_eq_some_iff.1 h
  obtain ⟨p', hp, h⟩ := Option.bind_eq_some_iff.1 h
  obtain ⟨b', ha, h⟩ := Option.bind_eq_some_iff.1 h
  obtain ⟨⟨gc, extra⟩, hg, h⟩ := Option.bind_eq_some_iff.1 h
  split at h
  case isFalse => cases h
  rename_i hsig
  cases h
  obtain ⟨whole, hw', rfl⟩ := expect_sound hw
  obtain ⟨tbs, ht', rfl⟩ := expect_sound ht
  obtain ⟨a, ha', rfl⟩ := seqField_sound ha
  obtain ⟨g, hg', rfl⟩ := expect_sound hg
  refine ⟨whole, more, rfl, ?_⟩
  unfold readTbs at hp
  obtain ⟨b1, h1, hp⟩ := Option.bind_eq_some_iff.1 hp
  obtain ⟨⟨sn, r1⟩, h2, hp⟩ := Option.bind_eq_some_iff.1 hp
  obtain ⟨b2, h3, hp⟩ := Option.bind_eq_some_iff.1 hp
  obtain ⟨b3, h4, hp⟩ := Option.bind_eq_some_iff.1 hp
  obtain ⟨⟨vc, r2⟩, h5, hp⟩ := Option.bind_eq_some_iff.1 hp
  obtain ⟨valid, h6, hp⟩ := Option.bind_eq_some_iff.1 hp
  obtain ⟨b4, h7, hp⟩ := Option.bind_eq_some_iff.1 hp
  obtain ⟨b5, h8, hp⟩ := Option.bind_eq_some_iff.1 hp
  obtain ⟨b6, h9, hp⟩ := Option.bind_eq_some_iff.1 hp
  obtain ⟨b7, h10, hp⟩ := Option.bind_eq_some_iff.1 hp
  obtain ⟨exts, h11, rfl⟩ := Option.map_eq_some_iff.1 hp
  obtain ⟨v, k1, rfl⟩ := optField_sound h1
  obtain ⟨s, k2, rfl⟩ := expect_sound h2
  obtain ⟨alg, k3, rfl⟩ := seqField_sound h3
  obtain ⟨iss, k4, rfl⟩ := seqField_sound h4
  obtain ⟨va, k5, rfl⟩ := expect_sound h5
  obtain ⟨sub, k7, rfl⟩ := seqField_sound h7
  obtain ⟨key, k8, rfl⟩ := seqField_sound h8
  obtain ⟨u1, k9, rfl⟩ := optField_sound h9
  obtain ⟨u2, k10, rfl⟩ := optField_sound h10
  have k11 := extField_sound h11
  simp only [upTo_app]
  exact ⟨tbs, a, g, gc, extra, v, s, alg, vc, va, u1, u2, b7, hw', ha', hg', hsig, ht', k1, k2, k3, k4, k5, h6, k7, k8, k9, k10, k11⟩

/-! ### the timestamps -/

theorem loose_pos {s : Bytes × Nat} {p : Bytes} (h : LooseSct s p) : 2 ≤ p.length := by
  obtain ⟨c, _, _, ⟨l, ⟨hl, _⟩, rfl⟩, _⟩ := h
  rw [List.length_append]
  omega

theorem sctLoop_sound : ∀ (fuel : Nat) (b : Bytes), ∃ body rest, b = body ++ rest ∧ Concat LooseSct (sctLoop fuel b) body ∧ (b.length ≤ fuel → NoSct rest) := by
  intro fuel
  induction fuel with
  | zero =>
    intro b
    refine ⟨[], b, rfl, rfl, fun hb s p q e hs => ?_⟩
    have := loose_pos hs
    have e := congrArg List.length e
    rw [List.length_append] at e
    omega
  | succ fuel ih =>
    intro b
    unfold sctLoop
    split
    · rename_i hn
      refine ⟨[], b, rfl, rfl, fun _ s p q e hs => ?_⟩
      obtain ⟨c, _, _, hv, _⟩ := hs
      rw [e, readOpaque_complete hv] at hn
      cases hn
    · rename_i c rest hc
      obtain ⟨w, hw, rfl⟩ := readOpaque_sound hc
      split
      · rename_i hn
        refine ⟨[], w ++ rest, rfl, rfl, fun _ s p q e hs => ?_⟩
        obtain ⟨c', p', q', hv, rfl, hs⟩ := hs
        have h2 := readOpaque_complete hv q
        rw [← e, hc] at h2
        cases h2
        rw [readSct_complete hs] at hn
        cases hn
      · rename_i s hs
        obtain ⟨body, rest', rfl, h1, h2⟩ := ih rest
        obtain ⟨p', q', rfl, hp⟩ := readSct_sound hs
        refine ⟨w ++ body, rest', by rw [List.append_assoc], ⟨w, body, ⟨_, p', q', hw, rfl, hp⟩, h1, rfl⟩, fun hb => h2 ?_⟩
        have : 2 ≤ w.length := by
          obtain ⟨l, ⟨hl, _⟩, rfl⟩ := hw
          rw [List.length_append]
          omega
        rw [List.length_append] at hb
        omega

/-- **C108 (what is seen).** The timestamps that the client sees are those at the front of the value of the only timestamp extension, up to the first that cannot be read: none is made up. -/
theorem C108_seen (X : X509World) (der : Bytes) (c : ClientCert) (h : readClient X der = some c) :
    ∃ p whole more, der = whole ++ more ∧ LooseCertificate X p whole ∧ c = ⟨p.issuer, p.serial, c.scts, p.valid⟩ ∧
      (c.scts = [] ∨ ∃ pre e post body rest inner tail v more, p.exts = pre ++ e :: post ∧ OidContent sctArcs e.oid ∧ (∀ x ∈ pre ++ post, ¬ OidContent sctArcs x.oid) ∧
        e.value = v ++ more ∧ LooseElement 0 4 false (inner ++ tail) v ∧ TlsVector 2 (body ++ rest) inner ∧ Concat LooseSct c.scts body ∧ NoSct rest) := by
  unfold readClient at h
  obtain ⟨p, hp, rfl⟩ := Option.map_eq_some_iff.1 h
  obtain ⟨whole, more, h1, h2⟩ := C108_accepts X der p hp
  refine ⟨p, whole, more, h1, h2, rfl, ?_⟩
  dsimp only
  unfold certScts
  split
  case h_2 => exact Or.inl rfl
  rename_i e he
  have hoid : ∀ x : CertExt, decide (x.oid = sctOid) = true ↔ OidContent sctArcs x.oid := by
    intro x
    rw [decide_eq_true_iff]
    constructor
    · intro h
      rw [h]
      exact sctOid_content
    · intro h
      exact oid_unique h sctOid_content
  obtain ⟨pre, post, k1, k2, k3, k4⟩ := List.filter_eq_cons_iff.1 he
  unfold sctList
  split
  · exact Or.inl rfl
  rename_i cc tl hc
  split
  · exact Or.inl rfl
  rename_i l tail hl
  obtain ⟨v, hv, e1⟩ := expect_sound hc
  obtain ⟨inner, hi, rfl⟩ := readOpaque_sound hl
  obtain ⟨body, rest, rfl, h3, h4⟩ := sctLoop_sound l.length l
  refine Or.inr ⟨pre, e, post, body, rest, inner, tail, v, tl, k1, (hoid e).1 k3, fun x hx => ?_, e1, hv, hi, h3, h4 (Nat.le_refl _)⟩
  rcases List.mem_append.1 hx with hx | hx
  · exact fun ho => k2 x hx ((hoid x).2 ho)
  · exact fun ho => List.filter_eq_nil_iff.1 k4 x hx ((hoid x).2 ho)

/-- The certificate of the examples is accepted. -/
example : ∃ p, readCert exX (exCertificate [2] (exEl 16 true [9]) (exSctExt exSctValue)) = some p := by
  obtain ⟨xs, h, _⟩ := C108_read exX _ _ _ [] exCertificate_one (by decide)
  rw [List.append_nil] at h
  exact ⟨_, h⟩

/-! ### each theorem applied -/

example : ∃ p whole more, exCertificate [2] (exEl 16 true [9]) (exSctExt exSctValue) = whole ++ more ∧ LooseCertificate exX p whole := by
  obtain ⟨xs, h, _⟩ := C108_read exX _ _ _ [] exCertificate_one (by decide)
  rw [List.append_nil] at h
  obtain ⟨whole, more, h1, h2⟩ := C108_accepts exX _ _ h
  exact ⟨_, whole, more, h1, h2⟩

end Verif.Props
