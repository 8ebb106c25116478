import Verif.Model.Inters
import Verif.Props.Collections
import Verif.Lemmas.Serial
/-!
Property C90: intermediate records and the text by which they are compared.
-/
namespace Verif.Spec

/-- The intermediate is this certificate: hash of the key, subject, hash of the certificate. -/
def Describes (sha : Bytes → Bytes) (c : PemCert) (i : Inter) : Prop := i.spki = sha c.spki ∧ i.subject = c.subject ∧ i.der = sha c.der

/-- What a base64 field that may use either alphabet stands for. -/
def StandsFor (t : Text) (h : Bytes) : Prop := ∃ u, b64Decode false u = some h ∧ u.length = t.length ∧
  ∀ (k : Nat) (a b : Char), t[k]? = some a → u[k]? = some b → b = (if a = '-' then '+' else if a = '_' then '/' else a)

/-- An optional declared hash agrees with the certificate. -/
def Agrees (declared : Option Text) (h : Bytes) : Prop := ∀ t, declared = some t → StandsFor t h

end Verif.Spec

namespace Verif
open Verif.Spec

/-! ### base 85 -/

theorem b85Digit_index : ∀ n : Fin 85, b85Alphabet.idxOf (b85Digit n.val) = n.val := by decide +kernel

theorem b85Digit_inj {m n : Nat} (hm : m < 85) (hn : n < 85) (h : b85Digit m = b85Digit n) : m = n := by
  have a := b85Digit_index ⟨m, hm⟩
  have b := b85Digit_index ⟨n, hn⟩
  dsimp only at a b
  rw [h, b] at a
  exact a.symm

theorem b85Block_inj {a b c d a' b' c' d' : UInt8} (h : b85Block a b c d = b85Block a' b' c' d') : a = a' ∧ b = b' ∧ c = c' ∧ d = d' := by
  unfold b85Block at h
  have ha := a.toNat_lt; have hb := b.toNat_lt; have hc := c.toNat_lt; have hd := d.toNat_lt
  have ha' := a'.toNat_lt; have hb' := b'.toNat_lt; have hc' := c'.toNat_lt; have hd' := d'.toNat_lt
  dsimp only at h
  simp only [List.cons.injEq, and_true] at h
  obtain ⟨h1, h2, h3, h4, h5⟩ := h
  have e1 := b85Digit_inj (by omega) (by omega) h1
  have e2 := b85Digit_inj (by omega) (by omega) h2
  have e3 := b85Digit_inj (by omega) (by omega) h3
  have e4 := b85Digit_inj (by omega) (by omega) h4
  have e5 := b85Digit_inj (by omega) (by omega) h5
  have e : ((a.toNat * 256 + b.toNat) * 256 + c.toNat) * 256 + d.toNat = ((a'.toNat * 256 + b'.toNat) * 256 + c'.toNat) * 256 + d'.toNat := by omega
  clear e1 e2 e3 e4 e5 h1 h2 h3 h4 h5
  refine ⟨UInt8.toNat_inj.1 ?_, UInt8.toNat_inj.1 ?_, UInt8.toNat_inj.1 ?_, UInt8.toNat_inj.1 ?_⟩ <;> omega

theorem length_b85Encode (k : Nat) : ∀ bs : Bytes, bs.length = 4 * k → (b85Encode bs).length = 5 * k := by
  induction k with
  | zero =>
    intro bs h
    have : bs = [] := List.length_eq_zero_iff.1 (by omega)
    subst this
    rfl
  | succ k ih =>
    intro bs h
    match bs, h with
    | a :: b :: c :: d :: rest, h =>
      simp only [List.length_cons] at h
      rw [b85Encode, List.length_append, ih rest (by omega)]
      show 5 + 5 * k = _
      omega

theorem b85Encode_inj (k : Nat) : ∀ bs bs' : Bytes, bs.length = 4 * k → bs'.length = 4 * k → b85Encode bs = b85Encode bs' → bs = bs' := by
  induction k with
  | zero =>
    intro bs bs' h h' _
    rw [List.length_eq_zero_iff.1 (show bs.length = 0 by omega), List.length_eq_zero_iff.1 (show bs'.length = 0 by omega)]
  | succ k ih =>
    intro bs bs' h h' e
    match bs, bs', h, h', e with
    | a :: b :: c :: d :: rest, a' :: b' :: c' :: d' :: rest', h, h', e =>
      simp only [List.length_cons] at h h'
      rw [b85Encode, b85Encode] at e
      obtain ⟨e1, e2⟩ := List.append_inj e (by simp [b85Block])
      obtain ⟨r1, r2, r3, r4⟩ := b85Block_inj e1
      rw [r1, r2, r3, r4, ih rest rest' (by omega) (by omega) e2]

/-! ### repr -/

theorem ofNat_small (n : Fin 256) : (Char.ofNat n.val).toNat = n.val := by
  have h := n.isLt
  unfold Char.ofNat
  rw [dif_pos (show Nat.isValidChar n.val from Or.inl (by omega))]
  rfl

theorem byteChar_inj {a b : UInt8} (h : Char.ofNat a.toNat = Char.ofNat b.toNat) : a = b := by
  have ha := ofNat_small ⟨a.toNat, a.toNat_lt⟩
  have hb := ofNat_small ⟨b.toNat, b.toNat_lt⟩
  dsimp only at ha hb
  rw [h, hb] at ha
  exact UInt8.toNat_inj.1 ha.symm

/-- Reads one hexadecimal digit. -/
def unHex (c : Char) : Nat := if c.toNat < 58 then c.toNat - 48 else c.toNat - 87

theorem unHex_reprHex : ∀ n : Fin 16, unHex (reprHex n.val) = n.val := by decide +kernel

/-- Reads what follows a backslash. -/
def unEsc : Text → Option (UInt8 × Text)
  | [] => none
  | c :: r =>
    if c = 't' then some (9, r)
    else if c = 'n' then some (10, r)
    else if c = 'r' then some (13, r)
    else if c = 'x' then
      match r with
      | a :: b :: r => some (UInt8.ofNat (unHex a * 16 + unHex b), r)
      | _ => none
    else some (UInt8.ofNat c.toNat, r)

/-- Reads one byte of a `repr`. -/
def unRepr : Text → Option (UInt8 × Text)
  | [] => none
  | c :: r => if c = '\\' then unEsc r else some (UInt8.ofNat c.toNat, r)

theorem unRepr_reprByte {q : UInt8} (hq : q = 34 ∨ q = 39) (b : UInt8) (r : Text) : unRepr (reprByte q b ++ r) = some (b, r) := by
  have hb := b.toNat_lt
  unfold reprByte
  split
  · rename_i h
    have : b = 34 ∨ b = 39 ∨ b = 92 := by
      rcases h with h | h
      · rcases hq with e | e
        · left; rw [h, e]
        · right; left; rw [h, e]
      · right; right; exact h
    rcases this with e | e | e <;> subst e <;> rfl
  · split
    · rename_i h; subst h; rfl
    · split
      · rename_i h; subst h; rfl
      · split
        · rename_i h; subst h; rfl
        · split
          · have h1 := unHex_reprHex ⟨b.toNat / 16, by omega⟩
            have h2 := unHex_reprHex ⟨b.toNat % 16, by omega⟩
            dsimp only at h1 h2
            show some (UInt8.ofNat (unHex (reprHex (b.toNat / 16)) * 16 + unHex (reprHex (b.toNat % 16))), r) = some (b, r)
            rw [h1, h2, show b.toNat / 16 * 16 + b.toNat % 16 = b.toNat by omega, UInt8.ofNat_toNat]
          · rename_i h _ _ _ _
            have hne : Char.ofNat b.toNat ≠ '\\' := by
              intro e
              have : b = 92 := byteChar_inj (b := 92) e
              exact h (Or.inr this)
            show unRepr (Char.ofNat b.toNat :: r) = _
            unfold unRepr
            dsimp only
            rw [if_neg hne]
            have := ofNat_small ⟨b.toNat, hb⟩
            dsimp only at this
            rw [this, UInt8.ofNat_toNat]

theorem reprBody_inj {q : UInt8} (hq : q = 34 ∨ q = 39) : ∀ (bs bs' : Bytes), bs.length = bs'.length →
    bs.flatMap (reprByte q) = bs'.flatMap (reprByte q) → bs = bs' := by
  intro bs
  induction bs with
  | nil => intro bs' hl _; exact (List.length_eq_zero_iff.1 hl.symm).symm
  | cons b bs ih =>
    intro bs' hl h
    cases bs' with
    | nil => cases hl
    | cons b' bs' =>
      rw [List.flatMap_cons, List.flatMap_cons] at h
      have e := congrArg unRepr h
      rw [unRepr_reprByte hq, unRepr_reprByte hq, Option.some.injEq, Prod.mk.injEq] at e
      rw [e.1, ih bs' (by simpa using hl) e.2]

theorem reprQuote_cases (bs : Bytes) : reprQuote bs = 34 ∨ reprQuote bs = 39 := by
  unfold reprQuote
  split
  · exact Or.inl rfl
  · exact Or.inr rfl

/-- Every `q` in the text is preceded by a backslash; `p` says whether what comes before the text is one. -/
def guarded (q : Char) : Bool → Text → Bool
  | _, [] => true
  | p, c :: cs => (decide (c ≠ q) || p) && guarded q (decide (c = '\\')) cs

theorem guarded_mono (q : Char) (t : Text) (h : guarded q false t = true) (p : Bool) : guarded q p t = true := by
  cases t with
  | nil => rfl
  | cons c cs =>
    simp only [guarded, Bool.or_false, Bool.and_eq_true, Bool.or_eq_true] at h ⊢
    exact ⟨Or.inl h.1, h.2⟩

theorem reprHex_ne : ∀ n : Fin 16, reprHex n.val ≠ '"' ∧ reprHex n.val ≠ '\'' ∧ reprHex n.val ≠ '\\' := by decide +kernel

theorem guarded_plain {q c : Char} {t : Text} (hc : c ≠ q) (ht : guarded q false t = true) (p : Bool) : guarded q p (c :: t) = true := by
  unfold guarded
  rw [Bool.and_eq_true, Bool.or_eq_true, decide_eq_true_eq]
  exact ⟨Or.inl hc, guarded_mono q t ht _⟩

theorem guarded_esc {q c : Char} {t : Text} (hq : '\\' ≠ q) (ht : guarded q false t = true) (p : Bool) : guarded q p ('\\' :: c :: t) = true := by
  unfold guarded
  rw [Bool.and_eq_true, Bool.or_eq_true, decide_eq_true_eq]
  refine ⟨Or.inl hq, ?_⟩
  unfold guarded
  rw [Bool.and_eq_true, Bool.or_eq_true]
  exact ⟨Or.inr rfl, guarded_mono q t ht _⟩

theorem guarded_reprByte {q : UInt8} (hq : q = 34 ∨ q = 39) (b : UInt8) (t : Text) (ht : guarded (Char.ofNat q.toNat) false t = true) (p : Bool) :
    guarded (Char.ofNat q.toNat) p (reprByte q b ++ t) = true := by
  have hb := b.toNat_lt
  have hbs : '\\' ≠ Char.ofNat q.toNat := by rcases hq with e | e <;> subst e <;> decide
  unfold reprByte
  split
  · exact guarded_esc hbs ht p
  · split
    · exact guarded_esc hbs ht p
    · split
      · exact guarded_esc hbs ht p
      · split
        · exact guarded_esc hbs ht p
        · split
          · have hh : ∀ n : Nat, n < 16 → reprHex n ≠ Char.ofNat q.toNat := by
              intro n hn
              have := reprHex_ne ⟨n, hn⟩
              rcases hq with e | e <;> subst e
              · exact this.1
              · exact this.2.1
            exact guarded_esc hbs (guarded_plain (hh _ (by omega)) (guarded_plain (hh _ (by omega)) ht _) _) p
          · rename_i h _ _ _ _
            exact guarded_plain (fun e => h (Or.inl (byteChar_inj e))) ht p

theorem guarded_body {q : UInt8} (hq : q = 34 ∨ q = 39) (bs : Bytes) : guarded (Char.ofNat q.toNat) false (bs.flatMap (reprByte q)) = true := by
  induction bs with
  | nil => rfl
  | cons b bs ih => rw [List.flatMap_cons]; exact guarded_reprByte hq b _ ih _

theorem guarded_inside (q c : Char) (u v : Text) : ∀ p, guarded q p (u ++ c :: q :: v) = true → c = '\\' := by
  induction u with
  | nil =>
    intro p h
    simp only [List.nil_append, guarded, Bool.and_eq_true, Bool.or_eq_true, decide_eq_true_eq, ne_eq, not_true_eq_false, false_or] at h
    exact h.2.1
  | cons d u ih =>
    intro p h
    rw [List.cons_append, guarded, Bool.and_eq_true] at h
    exact ih _ h.2

/-- The `repr` of one hash does not end with a dash and the `repr` of another. -/
theorem bytesRepr_no_tail (bs bs' : Bytes) (a : Text) (h : bytesRepr bs = a ++ '-' :: bytesRepr bs') : False := by
  have hq := reprQuote_cases bs
  have hq' := reprQuote_cases bs'
  unfold bytesRepr at h
  generalize hbody : bs.flatMap (reprByte (reprQuote bs)) = body at h
  generalize bs'.flatMap (reprByte (reprQuote bs')) = body' at h
  have hg := guarded_body hq bs
  rw [hbody] at hg
  -- the same quotation mark
  have hlast := congrArg List.getLast? h
  rw [show 'b' :: Char.ofNat (reprQuote bs).toNat :: (body ++ [Char.ofNat (reprQuote bs).toNat]) =
      ('b' :: Char.ofNat (reprQuote bs).toNat :: body) ++ [Char.ofNat (reprQuote bs).toNat] by simp,
    show a ++ '-' :: 'b' :: Char.ofNat (reprQuote bs').toNat :: (body' ++ [Char.ofNat (reprQuote bs').toNat]) =
      (a ++ '-' :: 'b' :: Char.ofNat (reprQuote bs').toNat :: body') ++ [Char.ofNat (reprQuote bs').toNat] by simp,
    List.getLast?_concat, List.getLast?_concat, Option.some.injEq] at hlast
  rw [← hlast] at h
  match a, h with
  | [], h => rw [List.nil_append, List.cons.injEq] at h; exact absurd h.1 (by decide)
  | [x], h =>
    rw [List.cons_append, List.nil_append, List.cons.injEq, List.cons.injEq] at h
    rcases hq with e | e <;> rw [e] at h <;> exact absurd h.2.1 (by decide)
  | x :: y :: a, h =>
    rw [List.cons_append, List.cons_append, List.cons.injEq, List.cons.injEq] at h
    obtain ⟨_, _, h⟩ := h
    have h' : body = a ++ '-' :: 'b' :: Char.ofNat (reprQuote bs).toNat :: body' := by
      have : body ++ [Char.ofNat (reprQuote bs).toNat] = (a ++ '-' :: 'b' :: Char.ofNat (reprQuote bs).toNat :: body') ++ [Char.ofNat (reprQuote bs).toNat] := by
        rw [h]; simp
      exact List.append_cancel_right this
    rw [h', show a ++ '-' :: 'b' :: Char.ofNat (reprQuote bs).toNat :: body' = (a ++ ['-']) ++ 'b' :: Char.ofNat (reprQuote bs).toNat :: body' by simp] at hg
    exact absurd (guarded_inside _ _ _ _ _ hg) (by decide)

theorem bytesRepr_inj {bs bs' : Bytes} (hl : bs.length = bs'.length) (h : bytesRepr bs = bytesRepr bs') : bs = bs' := by
  unfold bytesRepr at h
  rw [List.cons.injEq, List.cons.injEq] at h
  obtain ⟨_, hq, hb⟩ := h
  have hq := byteChar_inj hq
  rw [← hq] at hb
  exact reprBody_inj (reprQuote_cases bs) bs bs' hl (List.append_cancel_right hb)

/-! ### records -/

theorem standsFor_iff (t : Text) (h : Bytes) : pyB64Decode t = some h ↔ StandsFor t h := by
  unfold pyB64Decode StandsFor
  constructor
  · intro e
    refine ⟨_, e, by simp, fun k a b ha hb => ?_⟩
    rw [List.getElem?_map, ha, Option.map_some, Option.some.injEq] at hb
    exact hb.symm
  · rintro ⟨u, hu, hl, hk⟩
    have : u = t.map altChar := by
      apply List.ext_getElem?
      intro k
      rw [List.getElem?_map]
      cases ha : t[k]? with
      | none =>
        rw [List.getElem?_eq_none_iff] at ha
        rw [List.getElem?_eq_none_iff.2 (by omega)]
        rfl
      | some a =>
        obtain ⟨hlt, _⟩ := List.getElem?_eq_some_iff.1 ha
        have hb : u[k]? = some u[k] := List.getElem?_eq_getElem (by omega)
        rw [hb, hk k a _ ha hb]
        first | done | rfl
    rw [← this]
    exact hu

theorem altChar_b64Digit (url : Bool) (n : Nat) (hn : n < 64) : altChar (b64Digit url n) = b64Digit false n := by
  have h : ∀ n : Fin 64, altChar (b64Digit true n.val) = b64Digit false n.val ∧ altChar (b64Digit false n.val) = b64Digit false n.val := by decide +kernel
  cases url with
  | true => exact (h ⟨n, hn⟩).1
  | false => exact (h ⟨n, hn⟩).2

theorem map_altChar_b64 (url : Bool) (bs : Bytes) : (b64Encode url bs).map altChar = b64Encode false bs := by
  have heq : altChar '=' = '=' := by decide
  induction bs using b64Encode.induct with
  | case1 => rfl
  | case2 a =>
    have := a.toNat_lt
    simp only [b64Encode, List.map_cons, List.map_nil, heq]
    rw [altChar_b64Digit _ _ (by omega), altChar_b64Digit _ _ (by omega)]
  | case3 a b =>
    have := a.toNat_lt
    have := b.toNat_lt
    simp only [b64Encode, List.map_cons, List.map_nil, heq]
    rw [altChar_b64Digit _ _ (by omega), altChar_b64Digit _ _ (by omega), altChar_b64Digit _ _ (by omega)]
  | case4 a b c rest ih =>
    have := a.toNat_lt
    have := b.toNat_lt
    have := c.toNat_lt
    simp only [b64Encode, List.map_cons]
    rw [altChar_b64Digit _ _ (by omega), altChar_b64Digit _ _ (by omega), altChar_b64Digit _ _ (by omega), altChar_b64Digit _ _ (by omega), ih]

theorem pyB64Decode_encode (url : Bool) (bs : Bytes) : pyB64Decode (b64Encode url bs) = some bs := by
  unfold pyB64Decode
  rw [map_altChar_b64, b64Decode_b64Encode]

theorem setPem_ok {env : PemEnv} {pk dh : Option Bytes} {pem : Text} {i : Inter} (h : setPem env pk dh pem = .ok i) :
    ∃ c, env.loadPem pem = some c ∧ Describes env.sha c i ∧ (∀ h, dh = some h → h ≠ [] → h = i.der) ∧ (∀ h, pk = some h → h ≠ [] → h = i.spki) := by
  unfold setPem at h
  split at h
  · split at h
    · cases h
    · rename_i c hc
      split at h
      · cases h
      · rename_i h1
        split at h
        · cases h
        · rename_i h2
          rw [Parsed.ok.injEq] at h
          subst h
          refine ⟨c, hc, ⟨rfl, rfl, rfl⟩, ?_, ?_⟩
          · intro x hx hne
            rw [hx] at h1
            simp only [contradicts, decide_eq_true_eq, not_and] at h1
            by_cases e : x = env.sha c.der
            · exact e
            · exact absurd e (h1 hne)
          · intro x hx hne
            rw [hx] at h2
            simp only [contradicts, decide_eq_true_eq, not_and] at h2
            by_cases e : x = env.sha c.spki
            · exact e
            · exact absurd e (h2 hne)
  · cases h

theorem hashField_some {f : Option Text} {x : Option Bytes} (h : hashField f = some x) :
    (f = none ∧ x = none) ∨ ∃ t b, f = some t ∧ x = some b ∧ StandsFor t b ∧ (b ≠ [] → b.length = 32) := by
  cases f with
  | none =>
    unfold hashField at h
    rw [Option.some.injEq] at h
    exact Or.inl ⟨rfl, h.symm⟩
  | some t =>
    unfold hashField at h
    dsimp only at h
    split at h
    · cases h
    · rename_i b hb
      split at h
      · cases h
      · rename_i hn
        rw [Option.some.injEq] at h
        refine Or.inr ⟨t, b, rfl, h.symm, (standsFor_iff _ _).1 hb, fun hne => ?_⟩
        by_cases e : b.length = 32
        · exact e
        · exact absurd ⟨hne, e⟩ hn

theorem hashField_agrees {f : Option Text} {x : Option Bytes} {a : Bytes} (h : hashField f = some x) (hx : ∀ b, x = some b → b ≠ [] → b = a)
    (hne : ∀ t, f = some t → t ≠ []) : Agrees f a := by
  intro t ht
  rcases hashField_some h with ⟨e, _⟩ | ⟨t', b, e1, e2, hs, _⟩
  · rw [e] at ht; cases ht
  · rw [e1, Option.some.injEq] at ht
    subst ht
    have : b ≠ [] := by
      intro e
      rw [e, ← standsFor_iff, pyB64Decode] at hs
      have hm : t'.map altChar ≠ [] := by
        intro h0
        exact hne t' e1 (List.map_eq_nil_iff.1 h0)
      revert hs
      generalize t'.map altChar = u at hm
      intro hs
      unfold b64Decode at hs
      split at hs
      · exact hm rfl
      · split at hs <;> cases hs
      · split at hs <;> cases hs
      · split at hs <;> cases hs
      · cases hs
    rw [hx b e2 this] at hs
    exact hs

end Verif

namespace Verif

/-- The record of `Collections` that a raw record is. -/
def RawInter.toRec (env : PemEnv) (r : RawInter) : InterRec := ⟨r.id.getD [], match parseRemote env r with | .ok i => some i | _ => none⟩

/-- The entry of `Collections` that a raw local entry is. -/
def RawInter.toEntry (env : PemEnv) (r : RawInter) : Option Inter := match parseLocal env r with | .ok i => some i | _ => none

end Verif

namespace Verif.Props
open Verif Verif.Spec

/-- **C90 (the comparison is exact).** The text by which intermediates are compared is different for different triples of key hash, subject and certificate hash, whatever
the subjects contain. -/
theorem C90_unique_id (i j : Inter) (h1 : i.spki.length = 32) (h2 : j.spki.length = 32) (h3 : i.der.length = 32) (h4 : j.der.length = 32) :
    uniqueId i = uniqueId j ↔ i = j := by
  constructor
  · intro h
    unfold uniqueId at h
    obtain ⟨a, b⟩ := List.append_inj h (by rw [length_b85Encode 8 _ h1, length_b85Encode 8 _ h2])
    have hs := b85Encode_inj 8 _ _ h1 h2 a
    rw [List.cons.injEq] at b
    have hsd : i.subject = j.subject ∧ bytesRepr i.der = bytesRepr j.der := by
      rcases List.append_eq_append_iff.1 b.2 with ⟨x, e1, e2⟩ | ⟨x, e1, e2⟩
      · cases x with
        | nil => simp only [List.append_nil, List.nil_append, List.cons.injEq] at e1 e2; exact ⟨e1.symm, e2.2⟩
        | cons c x => rw [List.cons_append, List.cons.injEq] at e2; exact (bytesRepr_no_tail _ _ _ e2.2).elim
      · cases x with
        | nil => simp only [List.append_nil, List.nil_append, List.cons.injEq] at e1 e2; exact ⟨e1, e2.2.symm⟩
        | cons c x => rw [List.cons_append, List.cons.injEq] at e2; exact (bytesRepr_no_tail _ _ _ e2.2).elim
    have hd := bytesRepr_inj (by rw [h3, h4]) hsd.2
    obtain ⟨s, u, d⟩ := i
    obtain ⟨s', u', d'⟩ := j
    rw [Inter.mk.injEq]
    exact ⟨hs, hsd.1, hd⟩
  · intro h; rw [h]

/-- **C90 (local entries).** An entry of enrolled.json that is accepted is the certificate in it, and a hash that is declared and not empty is that certificate's. -/
theorem C90_local (env : PemEnv) (r : RawInter) (i : Inter) (h : parseLocal env r = .ok i) :
    ∃ pem c, r.pem = some pem ∧ env.loadPem pem = some c ∧ Describes env.sha c i ∧
      ((∀ t, r.pubKeyHash = some t → t ≠ []) → Agrees r.pubKeyHash (env.sha c.spki)) ∧
      ((∀ t, r.derHash = some t → t ≠ []) → Agrees r.derHash (env.sha c.der)) := by
  unfold parseLocal at h
  split at h
  · rename_i pem hp ha
    unfold parsePem at h
    split at h
    · split at h
      · rename_i pk dh h1 h2
        obtain ⟨c, hc, hd, ed, es⟩ := setPem_ok h
        refine ⟨pem, c, hp, hc, hd, fun hn => ?_, fun hn => ?_⟩
        · rw [← hd.1]; exact hashField_agrees h1 es hn
        · rw [← hd.2.2]; exact hashField_agrees h2 ed hn
      · cases h
    · cases h
  · unfold parseAttached at h
    split at h
    · split at h
      · split at h
        · split at h <;> cases h
        · cases h
      · cases h
    · cases h
  · cases h

/-- **C90 (fields of local entries).** An entry of enrolled.json that is accepted declares a key hash and a subject, and has no attachment. -/
theorem C90_local_fields (env : PemEnv) (r : RawInter) (i : Inter) (h : parseLocal env r = .ok i) : r.pubKeyHash.isSome = true ∧ r.hasSubject = true ∧ r.attachment = none := by
  unfold parseLocal at h
  split at h
  · rename_i pem hp ha
    unfold parsePem at h
    split at h
    · rename_i hb
      rw [Bool.and_eq_true] at hb
      exact ⟨hb.1, hb.2, ha⟩
    · cases h
  · unfold parseAttached at h
    split at h
    · split at h
      · split at h
        · split at h <;> cases h
        · cases h
      · cases h
    · cases h
  · cases h

/-- **C90 (what the aggregator writes is accepted).** An entry as aggregate-crls writes it (C53), with the URL-safe base64 of the key hash, is accepted. -/
theorem C90_local_accepted (env : PemEnv) (hsha : ∀ b, (env.sha b).length = 32) (r : RawInter) (pem : Text) (c : PemCert) (hm : env.marked pem = true)
    (hc : env.loadPem pem = some c) (hp : r.pem = some pem) (ha : r.attachment = none) (hs : r.hasSubject = true)
    (hk : r.pubKeyHash = some (b64Encode true (env.sha c.spki))) (hd : r.derHash = none) :
    ∃ i, parseLocal env r = .ok i ∧ Describes env.sha c i := by
  refine ⟨⟨env.sha c.spki, c.subject, env.sha c.der⟩, ?_, rfl, rfl, rfl⟩
  unfold parseLocal parsePem
  rw [hp, ha, hk, hs, hd]
  simp only [Option.isSome_some, Bool.and_true, if_true, hashField, pyB64Decode_encode, hsha, ne_eq, not_true_eq_false, and_false, if_false]
  unfold setPem
  rw [if_pos hm, hc]
  simp [contradicts]

/-- **C90 (records).** A record that is accepted is the certificate in its attachment, and a declared hash that is not empty is that certificate's. So a record whose
attachment was exchanged for another certificate is not accepted. -/
theorem C90_remote (env : PemEnv) (r : RawInter) (i : Inter) (h : parseRemote env r = .ok i) :
    ∃ a pem c t, r.attachment = some a ∧ env.fetch a.location = some pem ∧ env.loadPem pem = some c ∧ Describes env.sha c i ∧ r.derHash = some t ∧
      (t ≠ [] → StandsFor t (env.sha c.der)) ∧ ((∀ t, r.pubKeyHash = some t → t ≠ []) → Agrees r.pubKeyHash (env.sha c.spki)) := by
  unfold parseRemote at h
  split at h
  · rename_i a hp ha
    unfold parseAttached at h
    split at h
    · rename_i hsome
      split at h
      · rename_i pk dh h1 h2
        split at h
        · split at h
          · unfold downloadPem at h
            split at h
            · rename_i pem hf
              obtain ⟨c, hc, hd, ed, es⟩ := setPem_ok h
              rw [Bool.and_eq_true] at hsome
              obtain ⟨t, ht⟩ := Option.isSome_iff_exists.1 hsome.1
              refine ⟨a, pem, c, t, ha, hf, hc, hd, ht, fun hn => ?_, fun hn => ?_⟩
              · rw [← hd.2.2]
                exact hashField_agrees h2 ed (fun t' ht' => by rw [ht, Option.some.injEq] at ht'; exact ht' ▸ hn) t ht
              · rw [← hd.1]; exact hashField_agrees h1 es hn
            · cases h
          · cases h
        · cases h
      · cases h
    · cases h
  · unfold noAttachment at h
    split at h
    · cases h
    · rename_i hx; exact absurd h (hx i)
  · cases h

/-- **C90 (fields of records).** A record that is accepted has an id, no certificate of its own, and an attachment with all fields and a hash of 64 characters. -/
theorem C90_remote_fields (env : PemEnv) (r : RawInter) (i : Inter) (h : parseRemote env r = .ok i) :
    r.pem = none ∧ r.id.isSome = true ∧ ∃ a, r.attachment = some a ∧ a.complete = true ∧ a.hash.length = 64 := by
  unfold parseRemote at h
  split at h
  · rename_i a hp ha
    unfold parseAttached at h
    split at h
    · rename_i hsome
      rw [Bool.and_eq_true] at hsome
      split at h
      · split at h
        · rename_i hc
          split at h
          · rename_i hl
            exact ⟨hp, hsome.2, a, ha, hc, hl⟩
          · cases h
        · cases h
      · cases h
    · cases h
  · unfold noAttachment at h
    split at h
    · cases h
    · rename_i hx; exact absurd h (hx i)
  · cases h

/-- **C90 (read back).** The record that `add_to_kinto` creates, with the attachment it uploads, is read back as the same intermediate. -/
theorem C90_read_back (env : PemEnv) (hsha : ∀ b, (env.sha b).length = 32) (pem : Text) (c : PemCert) (hm : env.marked pem = true)
    (hc : env.loadPem pem = some c) (i : Inter) (hi : Describes env.sha c i) (loc hash id : Text) (hh : hash.length = 64) (hf : env.fetch loc = some pem) :
    parseRemote env { pem := none, attachment := some ⟨true, hash, loc⟩, pubKeyHash := none, derHash := some (writtenDerHash i), hasSubject := false, id := some id } = .ok i := by
  obtain ⟨s, u, d⟩ := i
  obtain ⟨e1, e2, e3⟩ := hi
  dsimp only at e1 e2 e3
  subst e1 e2 e3
  unfold parseRemote parseAttached
  simp only [Option.isSome_some, Bool.and_true, if_true, hashField, writtenDerHash, pyB64Decode_encode, hsha, ne_eq, not_true_eq_false, and_false, if_false, hh,
    downloadPem, hf]
  unfold setPem
  rw [if_pos hm, hc]
  simp [contradicts]

/-- **C90 (no update is ever needed).** Records with the same comparison text have the same `derHash`, so `update_kinto` is never called: the simplification of
`Collections`. -/
theorem C90_no_update (env envL : PemEnv) (hsha : ∀ b, (env.sha b).length = 32) (hs : envL.sha = env.sha) (l r : RawInter) (i j : Inter) (hl : parseLocal envL l = .ok i)
    (hr : parseRemote env r = .ok j) (h : uniqueId i = uniqueId j) : i = j := by
  obtain ⟨_, c, _, _, d1, _⟩ := C90_local envL l i hl
  obtain ⟨_, _, c', _, _, _, _, d2, _⟩ := C90_remote env r j hr
  rw [hs] at d1
  exact (C90_unique_id i j (by rw [d1.1, hsha]) (by rw [d2.1, hsha]) (by rw [d1.2.2, hsha]) (by rw [d2.2.2, hsha])).1 h

/-- **C90 (what is submitted for review).** Full statement: if review is requested, every record of the collection declares the hash of the certificate of one local entry,
and every accepted local entry has such a record. Missing: a record whose declared hash is empty (`C90_empty_hash_fails`). -/
theorem C90_review_partial (env : InterEnv) (penv : PemEnv) (locals : List RawInter) (noop : Bool) (st : List InterRec)
    (raws : List RawInter) (h : publishInters env (locals.map (RawInter.toEntry penv)) noop st = (true, raws.map (RawInter.toRec penv)))
    (hne : ∀ r ∈ raws, r.derHash ≠ some []) :
    (∀ r ∈ raws, ∃ l ∈ locals, ∃ pem c t, l.pem = some pem ∧ penv.loadPem pem = some c ∧ r.derHash = some t ∧ StandsFor t (penv.sha c.der)) ∧
    (∀ l ∈ locals, ∀ i, parseLocal penv l = .ok i → ∃ r ∈ raws, ∃ pem c t, l.pem = some pem ∧ penv.loadPem pem = some c ∧ r.derHash = some t ∧
      StandsFor t (penv.sha c.der)) := by
  obtain ⟨a, b, _⟩ := C70_review env _ noop st _ h
  have link : ∀ (r l : RawInter) (i : Inter), r ∈ raws → parseRemote penv r = .ok i → parseLocal penv l = .ok i →
      ∃ pem c t, l.pem = some pem ∧ penv.loadPem pem = some c ∧ r.derHash = some t ∧ StandsFor t (penv.sha c.der) := by
    intro r l i hr h1 h2
    obtain ⟨_, _, c', t, _, _, _, d', ht, hst, _⟩ := C90_remote penv r i h1
    obtain ⟨pem, c, hp, hc, d, _, _⟩ := C90_local penv l i h2
    have : t ≠ [] := by intro e; rw [e] at ht; exact hne r hr ht
    refine ⟨pem, c, t, hp, hc, ht, ?_⟩
    rw [← d.2.2, d'.2.2]
    exact hst this
  have ofRec : ∀ {r : RawInter} {i : Inter}, (RawInter.toRec penv r).entry = some i → parseRemote penv r = .ok i := by
    intro r i e
    unfold RawInter.toRec at e
    dsimp only at e
    split at e
    · rename_i x hx; rw [Option.some.injEq] at e; rw [hx, e]
    · cases e
  have ofEntry : ∀ {l : RawInter} {i : Inter}, RawInter.toEntry penv l = some i → parseLocal penv l = .ok i := by
    intro l i e
    unfold RawInter.toEntry at e
    split at e
    · rename_i x hx; rw [Option.some.injEq] at e; rw [hx, e]
    · cases e
  constructor
  · intro r hr
    obtain ⟨i, e, hm⟩ := a _ (List.mem_map_of_mem hr)
    obtain ⟨l, hl, el⟩ := List.mem_map.1 hm
    exact ⟨l, hl, link r l i hr (ofRec e) (ofEntry el)⟩
  · intro l hl i hi
    obtain ⟨x, hx, e⟩ := b i (List.mem_map.2 ⟨l, hl, by unfold RawInter.toEntry; rw [hi]⟩)
    obtain ⟨r, hr, er⟩ := List.mem_map.1 hx
    subst er
    exact ⟨r, hr, link r l i hr (ofRec e) hi⟩

/-- **C90 fails (empty hash).** A record whose `derHash` is the empty string is accepted whatever its attachment is: the empty string counts as absent. It compares equal to the
local entry, so it is never corrected, and review is requested with it. -/
theorem C90_empty_hash_fails (env : PemEnv) (pem : Text) (c : PemCert) (hm : env.marked pem = true) (hc : env.loadPem pem = some c) (loc hash id : Text)
    (hh : hash.length = 64) (hf : env.fetch loc = some pem) :
    parseRemote env { pem := none, attachment := some ⟨true, hash, loc⟩, pubKeyHash := none, derHash := some [], hasSubject := false, id := some id } =
      .ok ⟨env.sha c.spki, c.subject, env.sha c.der⟩ := by
  unfold parseRemote parseAttached
  simp only [Option.isSome_some, Bool.and_true, if_true, hashField, pyB64Decode, List.map_nil, b64Decode, ne_eq, not_true_eq_false, false_and, if_false, hh, downloadPem, hf]
  unfold setPem
  rw [if_pos hm, hc]
  simp [contradicts]

/-- **C90 fails (broken attachment).** Full statement: a record that is not usable is removed (C70). It is false when the attachment has no PEM markers, or a field of the
attachment is missing: `asciiPemToBinaryDer`, whose result is not used, raises an exception that is not caught, and nothing is published at all. -/
theorem C90_unmarked_fails (env : PemEnv) (pem : Text) (hm : env.marked pem = false) (r : RawInter) (a : RawAttachment) (hp : r.pem = none)
    (ha : r.attachment = some a) (hf : env.fetch a.location = some pem) (ht : ∃ t, r.derHash = some t ∧ (hashField (some t)).isSome = true) (hk : r.pubKeyHash = none)
    (hi : r.id.isSome = true) (hh : a.hash.length = 64) :
    parseRemote env r = .dies := by
  obtain ⟨t, ht, hs⟩ := ht
  obtain ⟨x, hx⟩ := Option.isSome_iff_exists.1 hs
  unfold parseRemote parseAttached
  rw [hp, ha, ht, hk, hi]
  dsimp only
  rw [hx]
  simp only [Option.isSome_some, Bool.and_true, if_true, hashField, hh, downloadPem, hf, setPem, hm, Bool.false_eq_true, if_false]
  split <;> rfl

/-- **C90 (what is removed).** A record with the fields that the publisher writes counts as broken, so that it is removed, exactly if its attachment was downloaded and is not the certificate of the declared hash. A download that fails
removes nothing: it stops the publisher. -/
theorem C90_removed (env : PemEnv) (r : RawInter) (a : RawAttachment) (t : Text) (h : Bytes) (hp : r.pem = none) (ha : r.attachment = some a) (ht : r.derHash = some t) (hst : StandsFor t h) (h32 : h.length = 32)
    (hk : r.pubKeyHash = none) (hi : r.id.isSome = true) (hc : a.complete = true) (hh : a.hash.length = 64) :
    (parseRemote env r = .bad ↔ ∃ pem, env.fetch a.location = some pem ∧ env.marked pem = true ∧ ∀ c, env.loadPem pem = some c → env.sha c.der ≠ h) ∧
    (env.fetch a.location = none → parseRemote env r = .dies) := by
  have hne : h ≠ [] := by intro e; rw [e] at h32; cases h32
  have hf : hashField (some t) = some (some h) := by
    unfold hashField
    dsimp only
    rw [(standsFor_iff t h).2 hst]
    dsimp only
    rw [if_neg (fun e => e.2 h32)]
  have key : parseRemote env r = downloadPem env a none (some h) := by
    unfold parseRemote
    rw [hp, ha]
    dsimp only
    unfold parseAttached
    rw [ht, hk, hi, hf, hc]
    simp only [Option.isSome_some, Bool.and_true, if_true, hashField, hh]
  rw [key]
  unfold downloadPem
  cases hfe : env.fetch a.location with
  | none =>
    dsimp only
    refine ⟨⟨(fun h => by cases h), ?_⟩, fun _ => rfl⟩
    rintro ⟨pem, e, _⟩
    cases e
  | some pem =>
    dsimp only
    refine ⟨?_, (fun h => by cases h)⟩
    unfold setPem
    by_cases hm : env.marked pem = true
    · rw [if_pos hm]
      cases hl : env.loadPem pem with
      | none =>
        dsimp only
        refine ⟨fun _ => ⟨pem, rfl, hm, fun c hc => ?_⟩, fun _ => rfl⟩
        rw [hl] at hc
        cases hc
      | some c =>
        dsimp only
        by_cases hd : h = env.sha c.der
        · have h1 : contradicts (some h) (env.sha c.der) = false := by
            unfold contradicts
            exact decide_eq_false (fun e => e.2 hd)
          rw [h1]
          simp only [Bool.false_eq_true, if_false, contradicts]
          refine ⟨(fun e => by cases e), ?_⟩
          rintro ⟨pem', e, _, h3⟩
          cases e
          exact absurd hd.symm (h3 c hl)
        · have h1 : contradicts (some h) (env.sha c.der) = true := by
            unfold contradicts
            exact decide_eq_true ⟨hne, hd⟩
          rw [h1, if_pos rfl]
          refine ⟨fun _ => ⟨pem, rfl, hm, fun c' hc' => ?_⟩, fun _ => rfl⟩
          rw [hl, Option.some.injEq] at hc'
          rw [← hc']
          exact fun e => hd e.symm
    · rw [if_neg hm]
      refine ⟨(fun e => by cases e), ?_⟩
      rintro ⟨pem', e, h2, _⟩
      cases e
      exact absurd h2 hm

/-- A certificate, a hash function with 32-byte values and an attachment. -/
def pemEx : PemEnv where
  sha := fun b => (b ++ List.replicate 32 39).take 32
  loadPem := fun t => if t = "PEM".toList then some ⟨[34, 45, 98, 39], [7], "CN=a-b'x".toList⟩ else none
  marked := fun t => t != "???".toList
  fetch := fun l => if l = "/a".toList then some "PEM".toList else some "???".toList

/-- The hypotheses are met, and a certificate hash with both quotation marks, a dash and a `b` in it. -/
example : (∀ b, (pemEx.sha b).length = 32) ∧ pemEx.marked "PEM".toList = true ∧ (pemEx.loadPem "PEM".toList).isSome = true ∧ pemEx.fetch "/a".toList = some "PEM".toList ∧
    pemEx.marked "???".toList = false := by
  refine ⟨fun b => ?_, by decide, by decide, by decide, by decide⟩
  show ((b ++ List.replicate 32 39).take 32).length = 32
  rw [List.length_take, List.length_append, List.length_replicate]
  omega

example : String.ofList (bytesRepr [34, 45, 98, 39, 92, 9, 200]) = "b'\"-b\\'\\\\\\t\\xc8'" ∧ String.ofList (bytesRepr [45, 98, 39]) = "b\"-b'\"" := by decide +kernel

example : String.ofList (b85Encode [0, 1, 2, 3, 255, 254, 253, 252]) = "009C6|Ni~_" := by decide +kernel

/-- A record that the publisher wrote, one whose attachment was exchanged, and one with an attachment that is no PEM text. -/
example :
    parseRemote pemEx ⟨none, some ⟨true, List.replicate 64 'a', "/a".toList⟩, none, some (b64Encode false (pemEx.sha [34, 45, 98, 39])), false, some "id".toList⟩ =
      .ok ⟨pemEx.sha [7], "CN=a-b'x".toList, pemEx.sha [34, 45, 98, 39]⟩ ∧
    parseRemote pemEx ⟨none, some ⟨true, List.replicate 64 'a', "/a".toList⟩, none, some (b64Encode false (pemEx.sha [1])), false, some "id".toList⟩ = .bad ∧
    parseRemote pemEx ⟨none, some ⟨true, List.replicate 64 'a', "/b".toList⟩, none, some (b64Encode false (pemEx.sha [1])), false, some "id".toList⟩ = .dies := by decide +kernel

/-- The one whose attachment was exchanged is removed. -/
example : parseRemote pemEx ⟨none, some ⟨true, List.replicate 64 'a', "/a".toList⟩, none, some (b64Encode false (pemEx.sha [1])), false, some "id".toList⟩ = .bad :=
  (C90_removed pemEx _ _ _ (pemEx.sha [1]) rfl rfl rfl ((standsFor_iff _ _).1 (pyB64Decode_encode false _)) (by decide) rfl rfl rfl (by decide)).1.2
    ⟨"PEM".toList, rfl, by decide, fun c hc => by
      have hc : some (⟨[34, 45, 98, 39], [7], "CN=a-b'x".toList⟩ : PemCert) = some c := hc
      cases hc
      decide⟩

example : parseLocal pemEx ⟨some "PEM".toList, none, some (b64Encode true (pemEx.sha [7])), none, true, none⟩ =
      .ok ⟨pemEx.sha [7], "CN=a-b'x".toList, pemEx.sha [34, 45, 98, 39]⟩ := by decide +kernel

/-! ### the alphabet -/

/-- The character is one of the 64 digits, of either alphabet, or padding. -/
def B64Char (c : Char) : Prop := c ∈ "ABCDEFGHIJKLMNOPQRSTUVWXYZabcdefghijklmnopqrstuvwxyz0123456789+/-_=".toList

theorem b64Val_char {c : Char} {v : Nat} (h : b64Val false c = some v) : B64Char c ∧ v < 64 := by
  unfold b64Val at h
  dsimp only at h
  have hc : c = Char.ofNat c.toNat := (Char.ofNat_toNat c).symm
  generalize hn : c.toNat = n at h hc
  have key : ∀ k : Fin 128, (65 ≤ k.val ∧ k.val ≤ 90) ∨ (97 ≤ k.val ∧ k.val ≤ 122) ∨ (48 ≤ k.val ∧ k.val ≤ 57) → Char.ofNat k.val ∈ "ABCDEFGHIJKLMNOPQRSTUVWXYZabcdefghijklmnopqrstuvwxyz0123456789+/-_=".toList := by decide +kernel
  unfold B64Char
  by_cases h1 : 65 ≤ n ∧ n ≤ 90
  · rw [if_pos h1] at h
    cases h
    rw [hc]
    exact ⟨key ⟨n, by omega⟩ (Or.inl h1), by omega⟩
  rw [if_neg h1] at h
  by_cases h2 : 97 ≤ n ∧ n ≤ 122
  · rw [if_pos h2] at h
    cases h
    rw [hc]
    exact ⟨key ⟨n, by omega⟩ (Or.inr (Or.inl h2)), by omega⟩
  rw [if_neg h2] at h
  by_cases h3 : 48 ≤ n ∧ n ≤ 57
  · rw [if_pos h3] at h
    cases h
    rw [hc]
    exact ⟨key ⟨n, by omega⟩ (Or.inr (Or.inr h3)), by omega⟩
  rw [if_neg h3] at h
  simp only [Bool.false_eq_true, if_false] at h
  by_cases h4 : c = '+'
  · rw [if_pos h4] at h; cases h; rw [h4]; decide +kernel
  rw [if_neg h4] at h
  by_cases h5 : c = '/'
  · rw [if_pos h5] at h; cases h; rw [h5]; decide +kernel
  rw [if_neg h5] at h
  cases h

theorem b64Decode_chars (n : Nat) : ∀ t : Text, t.length ≤ n → ∀ h, b64Decode false t = some h → ∀ c ∈ t, B64Char c := by
  have hpad : B64Char '=' := by unfold B64Char; decide +kernel
  induction n with
  | zero =>
    intro t ht h _ c hc
    rw [List.length_eq_zero_iff.1 (Nat.le_zero.1 ht)] at hc
    cases hc
  | succ n ih =>
    intro t ht h hd c hc
    unfold b64Decode at hd
    split at hd
    · cases hc
    · next a b =>
      split at hd
      · next x y h1 h2 =>
        simp only [List.mem_cons, List.not_mem_nil, or_false] at hc
        rcases hc with rfl | rfl | rfl | rfl
        · exact (b64Val_char h1).1
        · exact (b64Val_char h2).1
        · exact hpad
        · exact hpad
      · cases hd
    · next a b d _ =>
      split at hd
      · next x y z h1 h2 h3 =>
        simp only [List.mem_cons, List.not_mem_nil, or_false] at hc
        rcases hc with rfl | rfl | rfl | rfl
        · exact (b64Val_char h1).1
        · exact (b64Val_char h2).1
        · exact (b64Val_char h3).1
        · exact hpad
      · cases hd
    · next a b d e rest _ _ =>
      split at hd
      · next x y z w r h1 h2 h3 h4 h5 =>
        simp only [List.mem_cons] at hc
        rcases hc with rfl | rfl | rfl | rfl | hc
        · exact (b64Val_char h1).1
        · exact (b64Val_char h2).1
        · exact (b64Val_char h3).1
        · exact (b64Val_char h4).1
        · refine ih rest ?_ r h5 c hc
          simp only [List.length_cons] at ht
          omega
      · cases hd
    · cases hd

/-- **C90.** A hash field with a character outside of the two base64 alphabets is an error; nothing is skipped. -/
theorem C90_alphabet (t : Text) (h : Bytes) (hd : StandsFor t h) : ∀ c ∈ t, B64Char c := by
  rw [← standsFor_iff] at hd
  intro c hc
  have h1 := b64Decode_chars _ _ (Nat.le_refl _) _ hd (altChar c) (List.mem_map.2 ⟨c, hc, rfl⟩)
  unfold altChar at h1
  by_cases e1 : c = '-'
  · rw [e1]; unfold B64Char; decide +kernel
  rw [if_neg e1] at h1
  by_cases e2 : c = '_'
  · rw [e2]; unfold B64Char; decide +kernel
  rw [if_neg e2] at h1
  exact h1

example : StandsFor "-_8=".toList [251, 255] := by rw [← standsFor_iff]; decide +kernel

/-! ### each theorem applied -/

theorem pemEx_len : ∀ b, (pemEx.sha b).length = 32 := by
  intro b
  show ((b ++ List.replicate 32 39).take 32).length = 32
  rw [List.length_take, List.length_append, List.length_replicate]
  omega

def pemExInter : Inter := ⟨pemEx.sha [7], "CN=a-b'x".toList, pemEx.sha [34, 45, 98, 39]⟩
def pemExLocal : RawInter := ⟨some "PEM".toList, none, some (b64Encode true (pemEx.sha [7])), none, true, none⟩
def pemExRemote : RawInter := ⟨none, some ⟨true, List.replicate 64 'a', "/a".toList⟩, none, some (b64Encode false (pemEx.sha [34, 45, 98, 39])), false, some "id".toList⟩

theorem pemExLocal_ok : parseLocal pemEx pemExLocal = .ok pemExInter := by decide +kernel
theorem pemExRemote_ok : parseRemote pemEx pemExRemote = .ok pemExInter := by decide +kernel

example : pemExInter ≠ ⟨pemEx.sha [7], "CN=a-b'".toList, pemEx.sha [34, 45, 98, 39]⟩ :=
  fun e => absurd ((C90_unique_id pemExInter ⟨pemEx.sha [7], "CN=a-b'".toList, pemEx.sha [34, 45, 98, 39]⟩ (pemEx_len _) (pemEx_len _) (pemEx_len _) (pemEx_len _)).2 e) (by decide +kernel)
example := C90_local pemEx pemExLocal pemExInter pemExLocal_ok
example := C90_local_fields pemEx pemExLocal pemExInter pemExLocal_ok
example := C90_local_accepted pemEx pemEx_len pemExLocal "PEM".toList ⟨[34, 45, 98, 39], [7], "CN=a-b'x".toList⟩ (by decide) rfl rfl rfl rfl rfl rfl
example := C90_remote pemEx pemExRemote pemExInter pemExRemote_ok
example := C90_remote_fields pemEx pemExRemote pemExInter pemExRemote_ok
example := C90_read_back pemEx pemEx_len "PEM".toList ⟨[34, 45, 98, 39], [7], "CN=a-b'x".toList⟩ (by decide) rfl pemExInter ⟨rfl, rfl, rfl⟩ "/a".toList (List.replicate 64 'a') "id".toList (by decide) rfl
example := C90_no_update pemEx pemEx pemEx_len rfl pemExLocal pemExRemote pemExInter pemExInter pemExLocal_ok pemExRemote_ok rfl
example := C90_review_partial exInterEnv pemEx [pemExLocal] false [] [{ pemExRemote with id := some (List.replicate 10 'f') }] (by decide +kernel)
  (fun r hr => by rw [List.mem_singleton.1 hr]; decide +kernel)
example := C90_empty_hash_fails pemEx "PEM".toList ⟨[34, 45, 98, 39], [7], "CN=a-b'x".toList⟩ (by decide) rfl "/a".toList (List.replicate 64 'a') "id".toList (by decide) rfl
example := C90_unmarked_fails pemEx "???".toList (by decide) ⟨none, some ⟨true, List.replicate 64 'a', "/b".toList⟩, none, some (b64Encode false (pemEx.sha [1])), false, some "id".toList⟩
  ⟨true, List.replicate 64 'a', "/b".toList⟩ rfl rfl rfl ⟨_, rfl, by decide +kernel⟩ rfl rfl (by decide)
example : ∀ c ∈ "-_8=".toList, B64Char c := C90_alphabet _ [251, 255] (by rw [← standsFor_iff]; decide +kernel)

end Verif.Props
