import Verif.Model.Client
import Verif.Props.Issuers
/-!
Properties C63, C64, C65 and C80: the client.
-/
namespace Verif.Props

/-! ### C63 -/

/-- The answers by precedence, from the facts whether some filter says revoked, good, or not enrolled. -/
def precedence (rev good notEnr : Prop) [Decidable rev] [Decidable good] [Decidable notEnr] : QStatus :=
  if rev then .revoked else if good then .good else if notEnr then .notEnrolled else .notCovered

theorem queryLoop_eq {F : Type} (has : F → QStatus) (l : List F) (g c : Bool) :
    queryLoop has l g c = precedence (∃ f ∈ l, has f = .revoked) (g = true ∨ ∃ f ∈ l, has f = .good) (c = true ∨ ∃ f ∈ l, has f = .notEnrolled) := by
  induction l generalizing g c with
  | nil => cases g <;> cases c <;> simp [queryLoop, precedence]
  | cons f rest ih =>
    unfold queryLoop
    cases h : has f with
    | revoked => simp [precedence, h]
    | good => dsimp only; rw [ih]; simp [precedence, h]
    | notEnrolled => dsimp only; rw [ih]; simp [precedence, h]
    | expired => dsimp only; rw [ih]; simp [precedence, h]
    | notCovered => dsimp only; rw [ih]; simp [precedence, h]

section
variable {F : Type} (sha : Bytes → Bytes) (parse : Bytes → Option IssuerCert) (verifies : Bytes → Bool) (has : F → Bytes → Bytes → List (Bytes × Nat) → QStatus)

/-- **C63.** Revoked iff the issuer is found, the certificate is valid now and some filter says revoked. -/
theorem C63_revoked_iff (filters : List F) (m : Intermediates) (c : ClientCert) :
    clientQuery sha parse verifies has filters m c = .revoked ↔
      ∃ spki, lookupSpki parse verifies m c.issuerDN = some spki ∧ c.valid = true ∧ ∃ f ∈ filters, has f (sha spki) c.serial c.scts = .revoked := by
  unfold clientQuery
  cases hl : lookupSpki parse verifies m c.issuerDN with
  | none => simp
  | some spki =>
    dsimp only
    cases hv : c.valid with
    | false => simp
    | true =>
      rw [if_pos rfl, queryLoop_eq]
      simp only [Option.some.injEq, true_and, exists_eq_left']
      unfold precedence
      constructor
      · intro h
        split at h
        · assumption
        · split at h
          · cases h
          · split at h <;> cases h
      · intro h
        rw [if_pos h]

/-- **C63.** All answers: not enrolled without an issuer, expired outside the validity period, else by precedence over the answers of the filters. -/
theorem C63_answers (filters : List F) (m : Intermediates) (c : ClientCert) :
    (lookupSpki parse verifies m c.issuerDN = none → clientQuery sha parse verifies has filters m c = .notEnrolled) ∧
    ∀ spki, lookupSpki parse verifies m c.issuerDN = some spki →
      (c.valid = false → clientQuery sha parse verifies has filters m c = .expired) ∧
      (c.valid = true → clientQuery sha parse verifies has filters m c =
        precedence (∃ f ∈ filters, has f (sha spki) c.serial c.scts = .revoked) (∃ f ∈ filters, has f (sha spki) c.serial c.scts = .good) (∃ f ∈ filters, has f (sha spki) c.serial c.scts = .notEnrolled)) := by
  unfold clientQuery
  constructor
  · intro h; rw [h]
  · intro spki h
    rw [h]
    dsimp only
    constructor
    · intro hv; rw [hv]; rfl
    · intro hv
      rw [if_pos hv, queryLoop_eq]
      simp [precedence]

/-- **C63.** The answer depends only on which filters there are, not on their order or number. -/
theorem C63_order (l1 l2 : List F) (hsame : ∀ f, f ∈ l1 ↔ f ∈ l2) (m : Intermediates) (c : ClientCert) :
    clientQuery sha parse verifies has l1 m c = clientQuery sha parse verifies has l2 m c := by
  unfold clientQuery
  cases lookupSpki parse verifies m c.issuerDN with
  | none => rfl
  | some spki =>
    dsimp only
    by_cases hv : c.valid = true
    · rw [if_pos hv, if_pos hv, queryLoop_eq, queryLoop_eq]
      simp [precedence, hsame]
    · rw [if_neg hv, if_neg hv]

/-- **C63.** More filters never turn Revoked into something else. -/
theorem C63_monotone (l1 l2 : List F) (hsub : ∀ f, f ∈ l1 → f ∈ l2) (m : Intermediates) (c : ClientCert) (h : clientQuery sha parse verifies has l1 m c = .revoked) :
    clientQuery sha parse verifies has l2 m c = .revoked := by
  rw [C63_revoked_iff] at h ⊢
  obtain ⟨spki, h1, h2, f, hf, h3⟩ := h
  exact ⟨spki, h1, h2, f, hsub f hf, h3⟩

end

theorem interGet_push (m : Intermediates) (name der k : Bytes) :
    ∀ d, (∃ l, interGet (interPush m name der) k = some l ∧ d ∈ l) ↔ (∃ l, interGet m k = some l ∧ d ∈ l) ∨ (k = name ∧ d = der) := by
  intro d
  induction m with
  | nil =>
    unfold interPush
    by_cases h : name = k
    · subst h; simp [interGet]
    · have h' : ¬ k = name := fun e => h e.symm
      simp [interGet, h, h']
  | cons e rest ih =>
    unfold interPush
    by_cases h : e.1 = name
    · rw [if_pos h]
      by_cases hk : name = k
      · subst hk
        simp [interGet, h]
      · have h' : ¬ k = name := fun e => hk e.symm
        have h2 : ¬ e.1 = k := by rw [h]; exact hk
        simp [interGet, hk, h', h2]
    · rw [if_neg h]
      by_cases hk : e.1 = k
      · have h' : ¬ k = name := by rw [← hk]; exact h
        simp [interGet, hk, h']
      · have e1 : interGet (e :: interPush rest name der) k = interGet (interPush rest name der) k := by simp [interGet, hk]
        have e2 : interGet (e :: rest) k = interGet rest k := by simp [interGet, hk]
        rw [e1, e2]
        exact ih

theorem fromEnrolled_mem (pem : Text → Option Bytes) (parse : Bytes → Option IssuerCert) (recs : List Text) (m : Intermediates) (k d : Bytes) :
    (∃ l, interGet (recs.foldl (enrollOne pem parse) m) k = some l ∧ d ∈ l) ↔
      (∃ l, interGet m k = some l ∧ d ∈ l) ∨ ∃ r ∈ recs, pem r = some d ∧ ∃ c, parse d = some c ∧ c.subject = k := by
  induction recs generalizing m with
  | nil => simp
  | cons r rest ih =>
    rw [List.foldl_cons, ih]
    have hstep : (∃ l, interGet (enrollOne pem parse m r) k = some l ∧ d ∈ l) ↔ (∃ l, interGet m k = some l ∧ d ∈ l) ∨ (pem r = some d ∧ ∃ c, parse d = some c ∧ c.subject = k) := by
      unfold enrollOne
      cases hp : pem r with
      | none => simp
      | some der =>
        dsimp only
        cases hc : parse der with
        | none =>
          dsimp only
          constructor
          · exact Or.inl
          · rintro (h | ⟨h, c, h2, _⟩)
            · exact h
            · cases h; rw [hc] at h2; cases h2
        | some c =>
          dsimp only
          rw [interGet_push]
          constructor
          · rintro (h | ⟨h1, h2⟩)
            · exact Or.inl h
            · subst h2; exact Or.inr ⟨rfl, c, hc, h1.symm⟩
          · rintro (h | ⟨h, c', h2, h3⟩)
            · exact Or.inl h
            · cases h
              rw [hc] at h2
              cases h2
              exact Or.inr ⟨h3.symm, rfl⟩
    rw [hstep]
    constructor
    · rintro ((h | h) | ⟨r', hr', h⟩)
      · exact Or.inl h
      · exact Or.inr ⟨r, by simp, h⟩
      · exact Or.inr ⟨r', by simp [hr'], h⟩
    · rintro (h | ⟨r', hr', h⟩)
      · exact Or.inl (Or.inl h)
      · rcases List.mem_cons.1 hr' with rfl | hr'
        · exact Or.inl (Or.inr h)
        · exact Or.inr ⟨r', hr', h⟩

theorem findSpki_some (parse : Bytes → Option IssuerCert) (verifies : Bytes → Bool) (l : List Bytes) (k : Bytes) (h : findSpki parse verifies l = some k) :
    ∃ der ∈ l, ∃ c, parse der = some c ∧ c.spki = k ∧ verifies k = true := by
  induction l with
  | nil => cases h
  | cons d rest ih =>
    unfold findSpki at h
    cases hp : parse d with
    | none =>
      rw [hp] at h
      obtain ⟨der, hd, h⟩ := ih h
      exact ⟨der, by simp [hd], h⟩
    | some c =>
      rw [hp] at h
      dsimp only at h
      by_cases hv : verifies c.spki = true
      · rw [if_pos hv] at h
        cases h
        exact ⟨d, by simp, c, hp, rfl, hv⟩
      · rw [if_neg hv] at h
        obtain ⟨der, hd, h⟩ := ih h
        exact ⟨der, by simp [hd], h⟩

theorem findSpki_none (parse : Bytes → Option IssuerCert) (verifies : Bytes → Bool) (l : List Bytes) (h : findSpki parse verifies l = none) :
    ∀ der ∈ l, ∀ c, parse der = some c → verifies c.spki = false := by
  induction l with
  | nil => intro _ h; cases h
  | cons d rest ih =>
    unfold findSpki at h
    intro der hd c hc
    cases hp : parse d with
    | none =>
      rw [hp] at h
      rcases List.mem_cons.1 hd with rfl | hd
      · rw [hp] at hc; cases hc
      · exact ih h der hd c hc
    | some c' =>
      rw [hp] at h
      dsimp only at h
      by_cases hv : verifies c'.spki = true
      · rw [if_pos hv] at h; cases h
      · rw [if_neg hv] at h
        rcases List.mem_cons.1 hd with rfl | hd
        · rw [hp] at hc; cases hc; simpa using hv
        · exact ih h der hd c hc

/-- **C63 (enrolled).** The issuer is found iff some record of the enrolled list is a certificate with the issuer's name whose key verifies the certificate; the key found is that of such a record. Records that do not
parse do not matter. -/
theorem C63_enrolled (pem : Text → Option Bytes) (parse : Bytes → Option IssuerCert) (verifies : Bytes → Bool) (recs : List Text) (dn : Bytes) :
    (∀ k, lookupSpki parse verifies (fromEnrolled pem parse recs) dn = some k → ∃ r ∈ recs, ∃ der c, pem r = some der ∧ parse der = some c ∧ c.subject = dn ∧ c.spki = k ∧ verifies k = true) ∧
    ((∃ r ∈ recs, ∃ der c, pem r = some der ∧ parse der = some c ∧ c.subject = dn ∧ verifies c.spki = true) → ∃ k, lookupSpki parse verifies (fromEnrolled pem parse recs) dn = some k) := by
  have hmem := fromEnrolled_mem pem parse recs []
  unfold lookupSpki fromEnrolled
  constructor
  · intro k h
    cases hg : interGet (recs.foldl (enrollOne pem parse) []) dn with
    | none => rw [hg] at h; cases h
    | some l =>
      rw [hg] at h
      obtain ⟨der, hd, c, hc, hk, hv⟩ := findSpki_some parse verifies l k h
      rcases (hmem dn der).1 ⟨l, hg, hd⟩ with ⟨l', h', _⟩ | ⟨r, hr, hp, c', hc', hs⟩
      · cases h'
      · rw [hc] at hc'; cases hc'
        exact ⟨r, hr, der, c, hp, hc, hs, hk, hv⟩
  · rintro ⟨r, hr, der, c, hp, hc, hs, hv⟩
    obtain ⟨l, hg, hd⟩ := (hmem dn der).2 (Or.inr ⟨r, hr, hp, c, hc, hs⟩)
    rw [hg]
    dsimp only
    cases hf : findSpki parse verifies l with
    | some k => exact ⟨k, rfl⟩
    | none =>
      have := findSpki_none parse verifies l hf der hd c hc
      rw [hv] at this; cases this

/-- Two filters, one saying good and one revoked. -/
example : clientQuery (F := QStatus) (fun b => b) (fun d => some ⟨[1], d⟩) (fun k => k == [5]) (fun f _ _ _ => f) [.good, .revoked, .notCovered]
    (fromEnrolled (fun t => some (t.map (fun c => UInt8.ofNat c.toNat))) (fun d => some ⟨[1], d⟩) [[Char.ofNat 4], [Char.ofNat 5]]) ⟨[1], [9], [], true⟩ = .revoked := by decide +kernel

example : clientQuery (F := QStatus) (fun b => b) (fun d => some ⟨[1], d⟩) (fun k => k == [5]) (fun f _ _ _ => f) [.good, .notEnrolled]
    (fromEnrolled (fun t => some (t.map (fun c => UInt8.ofNat c.toNat))) (fun d => some ⟨[1], d⟩) [[Char.ofNat 4], [Char.ofNat 5]]) ⟨[1], [9], [], true⟩ = .good := by decide +kernel

/-! ### C65 -/

theorem textLt_irrefl (a : Text) : textLt a a = false := by
  induction a with
  | nil => rfl
  | cons x xs ih => simp [textLt, ih]

theorem textLt_trans : ∀ (a b c : Text), textLt a b = true → textLt b c = true → textLt a c = true
  | [], b, [], h1, h2 => by cases b <;> simp [textLt] at h1 h2
  | [], _, _ :: _, _, _ => rfl
  | _ :: _, [], _, h1, _ => by simp [textLt] at h1
  | _ :: _, _ :: _, [], _, h2 => by simp [textLt] at h2
  | x :: a, y :: b, z :: c, h1, h2 => by
    unfold textLt at h1 h2 ⊢
    by_cases h3 : x.toNat < y.toNat
    · by_cases h4 : y.toNat < z.toNat
      · rw [if_pos (by omega)]
      · rw [if_neg h4] at h2
        by_cases h5 : z.toNat < y.toNat
        · rw [if_pos h5] at h2; cases h2
        · rw [if_pos (by omega)]
    · rw [if_neg h3] at h1
      by_cases h5 : y.toNat < x.toNat
      · rw [if_pos h5] at h1; cases h1
      · rw [if_neg h5] at h1
        by_cases h4 : y.toNat < z.toNat
        · rw [if_pos (by omega)]
        · rw [if_neg h4] at h2
          by_cases h6 : z.toNat < y.toNat
          · rw [if_pos h6] at h2; cases h2
          · rw [if_neg h6] at h2
            rw [if_neg (by omega), if_neg (by omega)]
            exact textLt_trans a b c h1 h2

theorem toNat_inj {a b : Char} (h : a.toNat = b.toNat) : a = b := Char.ext (UInt32.toNat_inj.1 h)

theorem textLt_total : ∀ (a b : Text), textLt a b = false → textLt b a = false → a = b
  | [], [], _, _ => rfl
  | [], _ :: _, h, _ => by simp [textLt] at h
  | _ :: _, [], _, h => by simp [textLt] at h
  | x :: a, y :: b, h1, h2 => by
    unfold textLt at h1 h2
    by_cases h3 : x.toNat < y.toNat
    · rw [if_pos h3] at h1; cases h1
    · rw [if_neg h3] at h1
      by_cases h4 : y.toNat < x.toNat
      · rw [if_pos h4] at h2; cases h2
      · rw [if_neg h4] at h1 h2
        rw [if_neg h3] at h2
        rw [toNat_inj (show x.toNat = y.toNat by omega), textLt_total a b h1 h2]

/-- Value of a string of digits. -/
def digitsNat (t : Text) : Nat := t.foldl (fun a c => 10 * a + (c.toNat - 48)) 0

theorem digits_foldl (t : Text) (acc : Nat) : t.foldl (fun a c => 10 * a + (c.toNat - 48)) acc = acc * 10 ^ t.length + digitsNat t := by
  unfold digitsNat
  induction t generalizing acc with
  | nil => simp
  | cons c t ih =>
    rw [List.foldl_cons, ih, List.foldl_cons, ih (10 * 0 + (c.toNat - 48)), List.length_cons, Nat.pow_succ]
    rw [show (10 * acc + (c.toNat - 48)) * 10 ^ t.length = acc * (10 ^ t.length * 10) + (c.toNat - 48) * 10 ^ t.length by
      rw [Nat.add_mul, Nat.mul_comm 10 acc, Nat.mul_assoc, Nat.mul_comm 10 (10 ^ t.length)]]
    rw [show 10 * 0 + (c.toNat - 48) = c.toNat - 48 by omega]
    omega

theorem digitsNat_cons (c : Char) (t : Text) : digitsNat (c :: t) = (c.toNat - 48) * 10 ^ t.length + digitsNat t := by
  unfold digitsNat
  rw [List.foldl_cons, digits_foldl]
  rw [show 10 * 0 + (c.toNat - 48) = c.toNat - 48 by omega]
  rfl

theorem digit_range {c : Char} (h : '0' ≤ c ∧ c ≤ '9') : 48 ≤ c.toNat ∧ c.toNat ≤ 57 := ⟨h.1, h.2⟩

theorem digitsNat_lt (t : Text) (h : ∀ c ∈ t, '0' ≤ c ∧ c ≤ '9') : digitsNat t < 10 ^ t.length := by
  induction t with
  | nil => simp [digitsNat]
  | cons c t ih =>
    rw [digitsNat_cons, List.length_cons, Nat.pow_succ]
    have h1 := ih (fun x hx => h x (by simp [hx]))
    have h2 := digit_range (h c (by simp))
    have h3 : (c.toNat - 48) * 10 ^ t.length ≤ 9 * 10 ^ t.length := Nat.mul_le_mul_right _ (by omega)
    omega

/-- For digit strings of equal length, string order is numeric order. -/
theorem textLt_iff_lt (a b : Text) (hl : a.length = b.length) (ha : ∀ c ∈ a, '0' ≤ c ∧ c ≤ '9') (hb : ∀ c ∈ b, '0' ≤ c ∧ c ≤ '9') : textLt a b = true ↔ digitsNat a < digitsNat b := by
  induction a generalizing b with
  | nil =>
    cases b with
    | nil => simp [textLt]
    | cons _ _ => simp at hl
  | cons x a ih =>
    cases b with
    | nil => simp at hl
    | cons y b =>
      have hl' : a.length = b.length := by simpa using hl
      have ih := ih b hl' (fun c hc => ha c (by simp [hc])) (fun c hc => hb c (by simp [hc]))
      have hx := digit_range (ha x (by simp))
      have hy := digit_range (hb y (by simp))
      have la := digitsNat_lt a (fun c hc => ha c (by simp [hc]))
      have lb := digitsNat_lt b (fun c hc => hb c (by simp [hc]))
      rw [digitsNat_cons, digitsNat_cons, ← hl']
      rw [← hl'] at lb
      unfold textLt
      by_cases h1 : x.toNat < y.toNat
      · rw [if_pos h1]
        have h2 : (x.toNat - 48 + 1) * 10 ^ a.length ≤ (y.toNat - 48) * 10 ^ a.length := Nat.mul_le_mul_right _ (by omega)
        rw [Nat.add_mul] at h2
        simp only [true_iff]
        omega
      · rw [if_neg h1]
        by_cases h3 : y.toNat < x.toNat
        · rw [if_pos h3]
          have h2 : (y.toNat - 48 + 1) * 10 ^ a.length ≤ (x.toNat - 48) * 10 ^ a.length := Nat.mul_le_mul_right _ (by omega)
          rw [Nat.add_mul] at h2
          constructor
          · intro h; cases h
          · intro h; omega
        · rw [if_neg h3, ih]
          have : x.toNat = y.toNat := by omega
          rw [this]
          omega

theorem extractRunId_date {n : Text} {r : Text × Nat} (h : extractRunId n = some r) : r.1.length = 8 ∧ ∀ c ∈ r.1, '0' ≤ c ∧ c ≤ '9' := by
  unfold extractRunId at h
  dsimp only at h
  split at h
  · cases h
  · split at h
    · cases h
    · split at h
      · rename_i hd
        cases h
        refine ⟨hd.1, ?_⟩
        intro c hc
        have := List.all_eq_true.1 hd.2 c hc
        simpa using this
      · cases h

/-- Numeric order of runs: by date, then by revision. -/
def RunBefore (a b : Text × Nat) : Prop := digitsNat a.1 < digitsNat b.1 ∨ (digitsNat a.1 = digitsNat b.1 ∧ a.2 < b.2)

theorem runLt_iff {a b : Text × Nat} (ha : a.1.length = 8 ∧ ∀ c ∈ a.1, '0' ≤ c ∧ c ≤ '9') (hb : b.1.length = 8 ∧ ∀ c ∈ b.1, '0' ≤ c ∧ c ≤ '9') : runLt a b = true ↔ RunBefore a b := by
  have h1 := textLt_iff_lt a.1 b.1 (by rw [ha.1, hb.1]) ha.2 hb.2
  have h2 := textLt_iff_lt b.1 a.1 (by rw [ha.1, hb.1]) hb.2 ha.2
  unfold runLt RunBefore
  by_cases h3 : textLt a.1 b.1 = true
  · rw [if_pos h3]; simp [h1.1 h3]
  · rw [if_neg h3]
    by_cases h4 : textLt b.1 a.1 = true
    · rw [if_pos h4]
      have := h2.1 h4
      constructor
      · intro h; cases h
      · rintro (h | h) <;> omega
    · rw [if_neg h4]
      have n1 : ¬ digitsNat a.1 < digitsNat b.1 := fun h => h3 (h1.2 h)
      have n2 : ¬ digitsNat b.1 < digitsNat a.1 := fun h => h4 (h2.2 h)
      simp only [decide_eq_true_eq]
      omega

theorem latestRun_spec (names : List Text) (init : Option (Text × Nat)) (hinit : ∀ r, init = some r → r.1.length = 8 ∧ ∀ c ∈ r.1, '0' ≤ c ∧ c ≤ '9') :
    (latestRun names init = none ↔ init = none ∧ ∀ n ∈ names, extractRunId n = none) ∧
    ∀ r, latestRun names init = some r → (init = some r ∨ ∃ n ∈ names, extractRunId n = some r) ∧ (∀ q, init = some q → ¬ RunBefore r q) ∧ ∀ n ∈ names, ∀ q, extractRunId n = some q → ¬ RunBefore r q := by
  have irrefl : ∀ r : Text × Nat, ¬ RunBefore r r := by
    intro r h
    unfold RunBefore at h
    omega
  have trans : ∀ a b c : Text × Nat, ¬ RunBefore a b → ¬ RunBefore b c → ¬ RunBefore a c := by
    intro a b c
    unfold RunBefore
    omega
  induction names generalizing init with
  | nil =>
    unfold latestRun
    refine ⟨by simp, ?_⟩
    intro r hr
    refine ⟨Or.inl hr, ?_, by simp⟩
    intro q hq
    rw [hr] at hq; cases hq; exact irrefl r
  | cons n rest ih =>
    unfold latestRun
    cases he : extractRunId n with
    | none =>
      dsimp only
      obtain ⟨i1, i2⟩ := ih init hinit
      refine ⟨by rw [i1]; simp [he], ?_⟩
      intro r hr
      obtain ⟨a, b, c⟩ := i2 r hr
      refine ⟨?_, b, ?_⟩
      · rcases a with a | ⟨m, hm, a⟩
        · exact Or.inl a
        · exact Or.inr ⟨m, by simp [hm], a⟩
      · intro m hm q hq
        rcases List.mem_cons.1 hm with rfl | hm
        · rw [he] at hq; cases hq
        · exact c m hm q hq
    | some r0 =>
      have hr0 := extractRunId_date he
      dsimp only
      cases init with
      | none =>
        dsimp only
        obtain ⟨i1, i2⟩ := ih (some r0) (fun r h => by cases h; exact hr0)
        refine ⟨by rw [i1]; simp [he], ?_⟩
        intro r hr
        obtain ⟨a, b, c⟩ := i2 r hr
        refine ⟨?_, (fun q h => by cases h), ?_⟩
        · rcases a with a | ⟨m, hm, a⟩
          · cases a; exact Or.inr ⟨n, by simp, he⟩
          · exact Or.inr ⟨m, by simp [hm], a⟩
        · intro m hm q hq
          rcases List.mem_cons.1 hm with rfl | hm
          · rw [he] at hq; cases hq; exact b _ rfl
          · exact c m hm q hq
      | some c0 =>
        have hc0 := hinit c0 rfl
        dsimp only
        have hmax : (runMax c0 r0 = c0 ∨ runMax c0 r0 = r0) ∧ ¬ RunBefore (runMax c0 r0) c0 ∧ ¬ RunBefore (runMax c0 r0) r0 := by
          unfold runMax
          by_cases h : runLt r0 c0 = true
          · rw [if_pos h]
            have := (runLt_iff hr0 hc0).1 h
            refine ⟨Or.inl rfl, irrefl c0, ?_⟩
            unfold RunBefore at this ⊢
            omega
          · rw [if_neg h]
            refine ⟨Or.inr rfl, fun h' => h ((runLt_iff hr0 hc0).2 h'), irrefl r0⟩
        obtain ⟨i1, i2⟩ := ih (some (runMax c0 r0)) (fun r h => by
          cases h
          rcases hmax.1 with h | h <;> rw [h] <;> assumption)
        refine ⟨by rw [i1]; simp, ?_⟩
        intro r hr
        obtain ⟨a, b, c⟩ := i2 r hr
        have hb := b _ rfl
        refine ⟨?_, ?_, ?_⟩
        · rcases a with a | ⟨m, hm, a⟩
          · rw [Option.some.injEq] at a
            rw [← a]
            rcases hmax.1 with h | h
            · rw [h]; exact Or.inl rfl
            · rw [h]; exact Or.inr ⟨n, by simp, he⟩
          · exact Or.inr ⟨m, by simp [hm], a⟩
        · intro q hq
          cases hq
          exact trans _ _ _ hb hmax.2.1
        · intro m hm q hq
          rcases List.mem_cons.1 hm with rfl | hm
          · rw [he] at hq; cases hq; exact trans _ _ _ hb hmax.2.2
          · exact c m hm q hq

/-- **C65.** The run whose intermediates are fetched is the latest, by date and then revision as numbers, among the run identifiers in the file names; there is none only if no name has one. -/
theorem C65_latest (names : List Text) :
    (latestRun names none = none ↔ ∀ n ∈ names, extractRunId n = none) ∧
    ∀ r, latestRun names none = some r → (∃ n ∈ names, extractRunId n = some r) ∧ ∀ n ∈ names, ∀ q, extractRunId n = some q → ¬ RunBefore r q := by
  obtain ⟨h1, h2⟩ := latestRun_spec names none (fun r h => by cases h)
  refine ⟨by rw [h1]; simp, ?_⟩
  intro r hr
  obtain ⟨a, _, c⟩ := h2 r hr
  rcases a with a | a
  · cases a
  · exact ⟨a, c⟩

theorem digitsNat_inj (a b : Text) (hl : a.length = b.length) (ha : ∀ c ∈ a, '0' ≤ c ∧ c ≤ '9') (hb : ∀ c ∈ b, '0' ≤ c ∧ c ≤ '9') (h : digitsNat a = digitsNat b) : a = b := by
  refine textLt_total a b ?_ ?_
  · cases hx : textLt a b with
    | false => rfl
    | true => have := (textLt_iff_lt a b hl ha hb).1 hx; omega
  · cases hx : textLt b a with
    | false => rfl
    | true => have := (textLt_iff_lt b a hl.symm hb ha).1 hx; omega

/-- **C65.** The order in which the directory is listed does not matter. -/
theorem C65_order (l1 l2 : List Text) (hsame : ∀ n, n ∈ l1 ↔ n ∈ l2) : latestRun l1 none = latestRun l2 none := by
  obtain ⟨a1, a2⟩ := C65_latest l1
  obtain ⟨b1, b2⟩ := C65_latest l2
  cases h1 : latestRun l1 none with
  | none => exact (b1.2 (fun n hn => a1.1 h1 n ((hsame n).2 hn))).symm
  | some r =>
    cases h2 : latestRun l2 none with
    | none =>
      rw [a1.2 (fun n hn => b1.1 h2 n ((hsame n).1 hn))] at h1
      cases h1
    | some q =>
      obtain ⟨⟨n, hn, hr⟩, hmax⟩ := a2 r h1
      obtain ⟨⟨m, hm, hq⟩, hmax'⟩ := b2 q h2
      have e1 := hmax m ((hsame m).2 hm) q hq
      have e2 := hmax' n ((hsame n).1 hn) r hr
      have dr := extractRunId_date hr
      have dq := extractRunId_date hq
      unfold RunBefore at e1 e2
      have hd : digitsNat r.1 = digitsNat q.1 := by omega
      have hrev : r.2 = q.2 := by omega
      have := digitsNat_inj r.1 q.1 (by rw [dr.1, dq.1]) dr.2 dq.2 hd
      rw [Option.some.injEq]
      exact Prod.ext this hrev

/-- An unsigned 32 bit number in decimal, as Rust reads it: at least one digit, possibly after a plus sign. -/
def IsU32 (num : Text) (n : Nat) : Prop := ∃ ds, (num = ds ∨ num = '+' :: ds) ∧ ds ≠ [] ∧ (∀ c ∈ ds, '0' ≤ c ∧ c ≤ '9') ∧ digitsNat ds = n ∧ n < 2 ^ 32

theorem plus_not_digit : ¬ ('0' ≤ '+' ∧ '+' ≤ '9') := by decide

theorem minus_not_digit : ¬ ('0' ≤ '-' ∧ '-' ≤ '9') := by decide

theorem parseU32_body {t : Text} {n : Nat} {ds : Text} (hd : dropPlus t = ds) :
    parseU32 t = some n ↔ ds ≠ [] ∧ (∀ c ∈ ds, '0' ≤ c ∧ c ≤ '9') ∧ digitsNat ds = n ∧ n < 2 ^ 32 := by
  unfold parseU32
  dsimp only
  rw [hd]
  by_cases h1 : ds = []
  · rw [if_pos h1]; simp [h1]
  · rw [if_neg h1]
    by_cases h2 : ds.all (fun c => decide ('0' ≤ c ∧ c ≤ '9')) = true
    · rw [if_pos h2]
      have h2' : ∀ c ∈ ds, '0' ≤ c ∧ c ≤ '9' := fun c hc => by have := List.all_eq_true.1 h2 c hc; simpa using this
      change (if digitsNat ds < 2 ^ 32 then some (digitsNat ds) else none) = some n ↔ _
      by_cases h3 : digitsNat ds < 2 ^ 32
      · rw [if_pos h3]
        constructor
        · intro h; cases h; exact ⟨h1, h2', rfl, h3⟩
        · rintro ⟨_, _, h, _⟩; rw [h]
      · rw [if_neg h3]
        constructor
        · intro h; cases h
        · rintro ⟨_, _, h, h'⟩; rw [h] at h3; exact absurd h' h3
    · rw [if_neg h2]
      constructor
      · intro h; cases h
      · rintro ⟨_, h, _⟩
        exact absurd (List.all_eq_true.2 (fun c hc => by simpa using h c hc)) h2

theorem parseU32_iff (t : Text) (n : Nat) : parseU32 t = some n ↔ IsU32 t n := by
  by_cases hp : ∃ r, t = '+' :: r
  · obtain ⟨r, rfl⟩ := hp
    rw [parseU32_body (ds := r) rfl]
    constructor
    · rintro ⟨a, b⟩; exact ⟨r, Or.inr rfl, a, b⟩
    · rintro ⟨ds, e, a, b, c⟩
      rcases e with e | e
      · exact absurd (b '+' (by rw [← e]; simp)) plus_not_digit
      · cases e; exact ⟨a, b, c⟩
  · have hb : dropPlus t = t := by
      unfold dropPlus
      split
      · rename_i hh
        cases t with
        | nil => cases hh
        | cons c r => rw [List.head?_cons, Option.some.injEq] at hh; exact absurd ⟨r, by rw [hh]⟩ hp
      · rfl
    rw [parseU32_body hb]
    constructor
    · rintro ⟨a, b⟩; exact ⟨t, Or.inl rfl, a, b⟩
    · rintro ⟨ds, e, a, b, c⟩
      rcases e with e | e
      · rw [e]; exact ⟨a, b, c⟩
      · exact absurd ⟨ds, e⟩ hp

theorem takeWhile_sep {a b : Text} (ha : ∀ c ∈ a, c ≠ '-') (hb : b = [] ∨ ∃ r, b = '-' :: r) : (a ++ b).takeWhile (· ≠ '-') = a ∧ (a ++ b).dropWhile (· ≠ '-') = b := by
  induction a with
  | nil =>
    rcases hb with rfl | ⟨r, rfl⟩ <;> simp
  | cons c a ih =>
    have := ih (fun x hx => ha x (by simp [hx]))
    have hc : c ≠ '-' := ha c (by simp)
    simp only [List.cons_append, List.takeWhile_cons, List.dropWhile_cons, decide_eq_true hc, if_true]
    exact ⟨by rw [this.1], this.2⟩

theorem dropWhile_sep (t : Text) : t.dropWhile (· ≠ '-') = [] ∨ ∃ r, t.dropWhile (· ≠ '-') = '-' :: r := by
  induction t with
  | nil => exact Or.inl rfl
  | cons c t ih =>
    by_cases hc : c = '-'
    · right; exact ⟨t, by simp [hc]⟩
    · rw [List.dropWhile_cons, if_pos (by simpa using hc)]; exact ih

/-- **C65 (names).** A file name gives a run exactly if it begins with eight digits, a dash and a 32 bit number that ends at the next dash or the end of the name. -/
theorem C65_names (name date : Text) (rev : Nat) :
    extractRunId name = some (date, rev) ↔ ∃ num rest, name = date ++ '-' :: (num ++ rest) ∧ (rest = [] ∨ ∃ r, rest = '-' :: r) ∧ date.length = 8 ∧ (∀ c ∈ date, '0' ≤ c ∧ c ≤ '9') ∧ IsU32 num rev := by
  constructor
  · intro h
    have hd := extractRunId_date h
    unfold extractRunId at h
    dsimp only at h
    have e1 : name.takeWhile (· ≠ '-') ++ name.dropWhile (· ≠ '-') = name := List.takeWhile_append_dropWhile
    split at h
    · cases h
    · rename_i x rest hx
      rcases dropWhile_sep name with hy | ⟨r, hy⟩
      · rw [hx] at hy; cases hy
      · rw [hx] at hy
        cases hy
        split at h
        · cases h
        · rename_i rv hp
          split at h
          · rw [Option.some.injEq, Prod.mk.injEq] at h
            obtain ⟨h1, h2⟩ := h
            refine ⟨rest.takeWhile (· ≠ '-'), rest.dropWhile (· ≠ '-'), ?_, dropWhile_sep rest, hd.1, hd.2, ?_⟩
            · rw [List.takeWhile_append_dropWhile, ← h1, ← hx, e1]
            · rw [← h2]; exact (parseU32_iff _ _).1 hp
          · cases h
  · rintro ⟨num, rest, rfl, hr, hl, hd, hn⟩
    have nd : ∀ c ∈ date, c ≠ '-' := fun c hc e => minus_not_digit (e ▸ hd c hc)
    have nn : ∀ c ∈ num, c ≠ '-' := by
      intro c hc e
      obtain ⟨ds, e', _, b, _⟩ := hn
      rcases e' with e' | e'
      · rw [e'] at hc; exact minus_not_digit (e ▸ b c hc)
      · rw [e'] at hc
        rcases List.mem_cons.1 hc with h | h
        · rw [e] at h; exact absurd h (by decide)
        · exact minus_not_digit (e ▸ b c h)
    obtain ⟨t1, t2⟩ := takeWhile_sep nd (b := '-' :: (num ++ rest)) (Or.inr ⟨_, rfl⟩)
    obtain ⟨t3, _⟩ := takeWhile_sep nn hr
    unfold extractRunId
    rw [t1, t2]
    dsimp only
    rw [t3, (parseU32_iff _ _).2 hn]
    dsimp only
    rw [if_pos ⟨hl, List.all_eq_true.2 (fun c hc => by simpa using hd c hc)⟩]

example : extractRunId "20240102-4294967295-default.filter".toList = some ("20240102".toList, 4294967295) ∧ extractRunId "20240102-4294967296-default.filter".toList = none ∧
    extractRunId "20240102-+7".toList = some ("20240102".toList, 7) := by decide +kernel

/-- Revisions are compared as numbers. -/
example : latestRun ["20240102-9-default.filter".toList, "20240102-10-default.filter.delta".toList, "20231231-77-default.filter".toList, "crlite.intermediates".toList] none = some ("20240102".toList, 10) := by decide +kernel

/-- **C65 fails to look at filters only**: a file that is no filter decides if its name looks like a later run (the comment says "among downloaded filter files"). -/
theorem C65_stray_fails : latestRun ["20240102-9-default.filter".toList, "20990101-0-notes.txt".toList] none = some ("20990101".toList, 0) ∧ isFilterFile "20990101-0-notes.txt".toList = false := by decide +kernel

/-! ### C64 -/

theorem assocGet_filter_true {β : Type} (p : Text → Bool) (m : List (Text × β)) (n : Text) (h : p n = true) : assocGet (m.filter (fun e => p e.1)) n = assocGet m n := by
  induction m with
  | nil => rfl
  | cons e rest ih =>
    rw [List.filter_cons]
    by_cases he : e.1 = n
    · rw [if_pos (by rw [he]; exact h)]
      simp [assocGet, he]
    · have e2 : assocGet (e :: rest) n = assocGet rest n := by simp [assocGet, he]
      rw [e2]
      by_cases hp : p e.1 = true
      · rw [if_pos hp]
        have e3 : assocGet (e :: rest.filter (fun e => p e.1)) n = assocGet (rest.filter (fun e => p e.1)) n := by simp [assocGet, he]
        rw [e3]; exact ih
      · rw [if_neg hp]; exact ih

theorem assocGet_filter_false {β : Type} (p : Text → Bool) (m : List (Text × β)) (n : Text) (h : p n = false) : assocGet (m.filter (fun e => p e.1)) n = none := by
  refine assocGet_none _ _ ?_
  intro hm
  obtain ⟨e, he, rfl⟩ := List.mem_map.1 hm
  have := (List.mem_filter.1 he).2
  rw [h] at this; cases this

theorem fetchFilter_spec (env : UpdateEnv) (want : Bytes) (r : FilterRec) (fs fs' : Files) (h : fetchFilter env want r fs = (true, fs')) :
    ∃ b, fs' = assocPut fs r.filename b ∧ want = env.sha b := by
  unfold fetchFilter at h
  split at h
  · cases h
  · rename_i b _
    split at h
    · rename_i hw
      split at h
      · cases h; exact ⟨b, rfl, hw⟩
      · cases h
    · cases h

theorem updateOne_spec (env : UpdateEnv) (r : FilterRec) (fs fs' : Files) (h : updateOne env r fs = (true, fs')) :
    (∃ c, assocGet fs' r.filename = some c ∧ hexDecode r.hash = some (env.sha c)) ∧ (∀ n, n ≠ r.filename → assocGet fs' n = assocGet fs n) ∧ ((fs.map Prod.fst).Nodup → (fs'.map Prod.fst).Nodup) := by
  unfold updateOne at h
  split at h
  · cases h
  · rename_i want hw
    have fetched : fetchFilter env want r fs = (true, fs') →
        (∃ c, assocGet fs' r.filename = some c ∧ hexDecode r.hash = some (env.sha c)) ∧ (∀ n, n ≠ r.filename → assocGet fs' n = assocGet fs n) ∧ ((fs.map Prod.fst).Nodup → (fs'.map Prod.fst).Nodup) := by
      intro h
      obtain ⟨b, rfl, hb⟩ := fetchFilter_spec env want r fs fs' h
      exact ⟨⟨b, assocGet_put_self _ _ _, by rw [hw, hb]⟩, fun n hn => assocGet_put_ne _ _ _ _ hn, fun hn => keys_assocPut _ _ _ hn⟩
    split at h
    · rename_i c hc
      split at h
      · rename_i hd
        cases h
        exact ⟨⟨c, hc, by rw [hw, hd]⟩, fun n _ => rfl, fun hn => hn⟩
      · exact fetched h
    · exact fetched h

theorem updateLoop_spec (env : UpdateEnv) (l : List FilterRec) (fs fs' : Files) (h : updateLoop env l fs = (true, fs')) (hsame : ∀ r1 ∈ l, ∀ r2 ∈ l, r1.filename = r2.filename → hexDecode r1.hash = hexDecode r2.hash) :
    (∀ r ∈ l, ∃ c, assocGet fs' r.filename = some c ∧ hexDecode r.hash = some (env.sha c)) ∧ (∀ n, n ∉ l.map FilterRec.filename → assocGet fs' n = assocGet fs n) ∧
      ((fs.map Prod.fst).Nodup → (fs'.map Prod.fst).Nodup) := by
  induction l generalizing fs with
  | nil =>
    unfold updateLoop at h
    cases h
    exact ⟨by simp, fun _ _ => rfl, fun h => h⟩
  | cons r rest ih =>
    unfold updateLoop at h
    cases ho : updateOne env r fs with
    | mk ok fs1 =>
      rw [ho] at h
      cases ok with
      | false => cases h
      | true =>
        obtain ⟨⟨c, hc, hh⟩, h2, h3⟩ := updateOne_spec env r fs fs1 ho
        obtain ⟨i1, i2, i3⟩ := ih fs1 h (fun a ha b hb => hsame a (by simp [ha]) b (by simp [hb]))
        refine ⟨?_, ?_, fun hn => i3 (h3 hn)⟩
        · intro r' hr'
          rcases List.mem_cons.1 hr' with rfl | hr'
          · by_cases hm : r'.filename ∈ rest.map FilterRec.filename
            · obtain ⟨r2, hr2, he⟩ := List.mem_map.1 hm
              obtain ⟨c2, hc2, hh2⟩ := i1 r2 hr2
              refine ⟨c2, by rw [← he]; exact hc2, ?_⟩
              rw [← hsame r2 (by simp [hr2]) r' (by simp) he]; exact hh2
            · exact ⟨c, by rw [i2 _ hm]; exact hc, hh⟩
          · exact i1 r' hr'
        · intro n hn
          rw [List.map_cons, List.mem_cons, not_or] at hn
          rw [i2 n hn.2, h2 n hn.1]

/-- The records of a channel. -/
def listedOf (chan : ClientChannel) (recs : List FilterRec) : List FilterRec := recs.filter (fun r => decide (r.channel = chan))

/-- A file of the directory itself, not of another one. -/
def Spec.Direct (n : Text) : Prop := '/' ∉ n

/-- The name of a filter: something, then `.delta` or `.filter`. -/
def Spec.FilterName (n : Text) : Prop := ∃ s, s ≠ [] ∧ (n = s ++ ".delta".toList ∨ n = s ++ ".filter".toList)

theorem inDir_iff (n : Text) : inDir n = true ↔ Spec.Direct n := by
  unfold inDir Spec.Direct
  simp

theorem fileExtension_iff (n e : Text) (he : '.' ∉ e) : fileExtension n = some e ↔ ∃ s, s ≠ [] ∧ n = s ++ '.' :: e := by
  unfold fileExtension
  have happ := List.takeWhile_append_dropWhile (p := fun c => decide (c ≠ '.')) (l := n.reverse)
  constructor
  · intro h
    generalize hd : n.reverse.dropWhile (fun c => decide (c ≠ '.')) = d at h happ
    generalize n.reverse.takeWhile (fun c => decide (c ≠ '.')) = t at h happ
    match d, h, happ, hd with
    | x :: y :: z, h, happ, hd =>
      rw [Option.some.injEq] at h
      have hx : x = '.' := by
        have := List.head_dropWhile_not (fun c => decide (c ≠ '.')) (l := n.reverse) (by rw [hd]; exact List.cons_ne_nil _ _)
        simp only [hd, List.head_cons] at this
        simpa using this
      refine ⟨(y :: z).reverse, by simp, ?_⟩
      have := congrArg List.reverse happ
      rw [List.reverse_reverse, List.reverse_append, List.reverse_cons, h, hx] at this
      rw [← this, List.append_assoc]
      rfl
  · rintro ⟨s, hs, rfl⟩
    have hrev : (s ++ '.' :: e).reverse = e.reverse ++ '.' :: s.reverse := by simp
    have hall : ∀ c ∈ e.reverse, (fun c => decide (c ≠ '.')) c = true := by
      intro c hc
      have : c ≠ '.' := fun h => he (by rw [← h]; exact List.mem_reverse.1 hc)
      simpa using this
    rw [hrev, List.dropWhile_append_of_pos hall, List.takeWhile_append_of_pos hall, List.dropWhile_cons_of_neg (by simp), List.takeWhile_cons_of_neg (by simp)]
    cases hr : s.reverse with
    | nil => exact absurd (List.reverse_eq_nil_iff.1 hr) hs
    | cons a b => simp

theorem isFilterFile_iff (n : Text) : isFilterFile n = true ↔ Spec.FilterName n := by
  have h1 := fileExtension_iff n "delta".toList (by decide +kernel)
  have h2 := fileExtension_iff n "filter".toList (by decide +kernel)
  have e1 : ".delta".toList = '.' :: "delta".toList := by decide +kernel
  have e2 : ".filter".toList = '.' :: "filter".toList := by decide +kernel
  unfold isFilterFile Spec.FilterName
  rw [Bool.or_eq_true, decide_eq_true_iff, decide_eq_true_iff, h1, h2, e1, e2]
  constructor
  · rintro (⟨s, hs, h⟩ | ⟨s, hs, h⟩)
    · exact ⟨s, hs, Or.inl h⟩
    · exact ⟨s, hs, Or.inr h⟩
  · rintro ⟨s, hs, h | h⟩
    · exact Or.inl ⟨s, hs, h⟩
    · exact Or.inr ⟨s, hs, h⟩

/-- **C64 (removals succeed, equal names have equal digests).** After a successful update, whatever was there before (for instance files cut short by a crash), a filter file is in the directory iff it is listed; each
listed file has the listed digest; no other file is changed. Missing: `C64_remove_fails`, `C64_duplicate_fails`, `C64_escape_fails`. -/
theorem C64_exact_partial (env : UpdateEnv) (chan : ClientChannel) (raw : List RawFilterRec) (fs fs' : Files) (h : updateDb env chan raw fs = (true, fs')) (recs : List FilterRec) (hrecs : parseRecords raw = some recs)
    (hrem : ∀ n, env.removable n = true) (hsame : ∀ r1 ∈ listedOf chan recs, ∀ r2 ∈ listedOf chan recs, r1.filename = r2.filename → hexDecode r1.hash = hexDecode r2.hash) :
    (∀ n, Spec.Direct n → Spec.FilterName n → (assocGet fs' n ≠ none ↔ ∃ r ∈ listedOf chan recs, r.filename = n)) ∧
    (∀ r ∈ listedOf chan recs, ∃ c, assocGet fs' r.filename = some c ∧ hexDecode r.hash = some (env.sha c)) ∧
    (∀ n, (¬ Spec.Direct n ∨ ¬ Spec.FilterName n) → (∀ r ∈ listedOf chan recs, r.filename ≠ n) → assocGet fs' n = assocGet fs n) ∧
    ((listedOf chan recs).filter (fun r => !r.incremental)).length = 1 ∧ ((fs.map Prod.fst).Nodup → (fs'.map Prod.fst).Nodup) := by
  unfold updateDb at h
  rw [hrecs] at h
  dsimp only at h
  change (if ((listedOf chan recs).filter (fun r => !r.incremental)).length = 1 then updateLoop env (listedOf chan recs) (removeStale env ((listedOf chan recs).map FilterRec.filename) fs) else (false, fs)) = (true, fs') at h
  generalize listedOf chan recs = l at h hsame
  by_cases hone : (l.filter (fun r => !r.incremental)).length = 1
  · rw [if_pos hone] at h
    obtain ⟨h1, h2, h3⟩ := updateLoop_spec env l _ fs' h hsame
    refine ⟨?_, h1, ?_, hone, ?_⟩
    · intro n hd hf
      rw [← inDir_iff] at hd
      rw [← isFilterFile_iff] at hf
      constructor
      · intro hne
        by_cases hm : n ∈ l.map FilterRec.filename
        · obtain ⟨r, hr, he⟩ := List.mem_map.1 hm
          exact ⟨r, hr, he⟩
        · refine absurd ?_ hne
          rw [h2 n hm]
          refine assocGet_filter_false (fun n => !(inDir n && isFilterFile n && !(l.map FilterRec.filename).contains n && env.removable n)) fs n ?_
          simp only [hd, hf, hrem, Bool.and_true, Bool.true_and, Bool.not_not]
          simpa using hm
      · rintro ⟨r, hr, rfl⟩
        obtain ⟨c, hc, _⟩ := h1 r hr
        rw [hc]
        exact fun e => by cases e
    · intro n hn hno
      rw [h2 n (by
        intro hm
        obtain ⟨r, hr, he⟩ := List.mem_map.1 hm
        exact hno r hr he)]
      refine assocGet_filter_true (fun n => !(inDir n && isFilterFile n && !(l.map FilterRec.filename).contains n && env.removable n)) fs n ?_
      rw [← inDir_iff, ← isFilterFile_iff, Bool.not_eq_true, Bool.not_eq_true] at hn
      rcases hn with hn | hn <;> simp [hn]
    · intro hnd
      refine h3 ?_
      exact List.Nodup.sublist (List.Sublist.map _ List.filter_sublist) hnd
  · rw [if_neg hone] at h
    cases h

/-- **C64.** With none or several full filters for the channel the update fails and changes nothing. -/
theorem C64_one_full (env : UpdateEnv) (chan : ClientChannel) (raw : List RawFilterRec) (fs : Files) (recs : List FilterRec) (hrecs : parseRecords raw = some recs)
    (hn : ((listedOf chan recs).filter (fun r => !r.incremental)).length ≠ 1) : updateDb env chan raw fs = (false, fs) := by
  unfold updateDb
  rw [hrecs]
  exact if_neg hn

theorem loadFilters_spec {F : Type} (fromBytes : Bytes → Option F) (fs : Files) (l : List (Text × F)) (h : loadFilters fromBytes fs = some l) (e : Text × F) :
    e ∈ l ↔ ∃ c, (e.1, c) ∈ fs ∧ inDir e.1 = true ∧ isFilterFile e.1 = true ∧ fromBytes c = some e.2 := by
  induction fs generalizing l with
  | nil => unfold loadFilters at h; cases h; simp
  | cons x rest ih =>
    unfold loadFilters at h
    by_cases hx : (inDir x.1 && isFilterFile x.1) = true
    · rw [if_pos hx] at h
      rw [Bool.and_eq_true] at hx
      split at h
      · rename_i f l' hf hl
        cases h
        rw [List.mem_cons, ih l' hl]
        constructor
        · rintro (rfl | ⟨c, hc, hr⟩)
          · exact ⟨x.2, by simp, hx.1, hx.2, hf⟩
          · exact ⟨c, by simp [hc], hr⟩
        · rintro ⟨c, hc, h1, h2, h3⟩
          rcases List.mem_cons.1 hc with hc | hc
          · left
            rw [← hc] at hf
            dsimp only at hf
            rw [hf, Option.some.injEq] at h3
            rw [← hc]
            exact Prod.ext rfl h3.symm
          · exact Or.inr ⟨c, hc, h1, h2, h3⟩
      · cases h
    · rw [if_neg hx] at h
      rw [ih l h]
      constructor
      · rintro ⟨c, hc, hr⟩; exact ⟨c, by simp [hc], hr⟩
      · rintro ⟨c, hc, h1, h2, h3⟩
        rcases List.mem_cons.1 hc with hc | hc
        · rw [← hc] at hx
          exact absurd (by simp [h1, h2]) hx
        · exact ⟨c, hc, h1, h2, h3⟩

/-- **C64 (the filters loaded).** After such an update, the filters loaded are exactly the listed ones, each read from bytes with the listed digest. -/
theorem C64_loaded_partial {F : Type} (fromBytes : Bytes → Option F) (env : UpdateEnv) (chan : ClientChannel) (raw : List RawFilterRec) (fs fs' : Files) (hnd : (fs.map Prod.fst).Nodup)
    (h : updateDb env chan raw fs = (true, fs')) (recs : List FilterRec) (hrecs : parseRecords raw = some recs) (hrem : ∀ n, env.removable n = true)
    (hsame : ∀ r1 ∈ listedOf chan recs, ∀ r2 ∈ listedOf chan recs, r1.filename = r2.filename → hexDecode r1.hash = hexDecode r2.hash)
    (hnames : ∀ r ∈ listedOf chan recs, Spec.Direct r.filename ∧ Spec.FilterName r.filename) (l : List (Text × F)) (hl : loadFilters fromBytes fs' = some l) :
    (∀ e ∈ l, ∃ r ∈ listedOf chan recs, r.filename = e.1 ∧ ∃ c, hexDecode r.hash = some (env.sha c) ∧ fromBytes c = some e.2) ∧
    ∀ r ∈ listedOf chan recs, ∃ f, (r.filename, f) ∈ l ∧ ∃ c, hexDecode r.hash = some (env.sha c) ∧ fromBytes c = some f := by
  obtain ⟨h1, h2, _, _, h5⟩ := C64_exact_partial env chan raw fs fs' h recs hrecs hrem hsame
  have hnd' := h5 hnd
  have hspec := loadFilters_spec fromBytes fs' l hl
  constructor
  · intro e he
    obtain ⟨c, hc, hd, hf, hb⟩ := (hspec e).1 he
    have hg := assocGet_of_mem hnd' hc
    obtain ⟨r, hr, hn⟩ := (h1 e.1 ((inDir_iff _).1 hd) ((isFilterFile_iff _).1 hf)).1 (by rw [hg]; exact fun e => by cases e)
    obtain ⟨c', hc', hh⟩ := h2 r hr
    rw [hn, hg] at hc'
    cases hc'
    exact ⟨r, hr, hn, c, hh, hb⟩
  · intro r hr
    obtain ⟨c, hc, hh⟩ := h2 r hr
    have hm := assocGet_mem hc
    -- the file parses, since loading succeeded
    have key : ∀ (fs : Files) (l : List (Text × F)), loadFilters fromBytes fs = some l → (r.filename, c) ∈ fs → ∃ f, fromBytes c = some f := by
      intro fs
      induction fs with
      | nil => intro l _ h; cases h
      | cons x rest ih =>
        intro l hl hm
        unfold loadFilters at hl
        by_cases hx : (inDir x.1 && isFilterFile x.1) = true
        · rw [if_pos hx] at hl
          split at hl
          · rename_i f l' hf hl'
            rcases List.mem_cons.1 hm with hm | hm
            · rw [← hm] at hf; exact ⟨f, hf⟩
            · exact ih l' hl' hm
          · cases hl
        · rw [if_neg hx] at hl
          rcases List.mem_cons.1 hm with hm | hm
          · rw [← hm] at hx
            exact absurd (by simp [(inDir_iff _).2 (hnames r hr).1, (isFilterFile_iff _).2 (hnames r hr).2]) hx
          · exact ih l hl hm
    obtain ⟨f, hf⟩ := key fs' l hl hm
    exact ⟨f, (hspec _).2 ⟨c, hm, (inDir_iff _).2 (hnames r hr).1, (isFilterFile_iff _).2 (hnames r hr).2, hf⟩, c, hh, hf⟩

/-- A world in which SHA-256 is replaced by the first byte, and downloads give the last character of the location. -/
def exEnv : UpdateEnv := ⟨fun _ => true, fun l => l.getLast?.map (fun c => [UInt8.ofNat (c.toNat - 48)]), fun _ => none, fun b => b.take 1⟩

/-- A stale filter and a corrupted one are replaced, a good one is kept. -/
example : updateDb exEnv .default
    [⟨"01".toList, "a.filter".toList, "x1".toList, false, none⟩, ⟨"02".toList, "b.delta".toList, "x2".toList, true, some "default".toList⟩, ⟨"05".toList, "c.filter".toList, "x5".toList, false, some "compat".toList⟩]
    [("old.filter".toList, [9]), ("a.filter".toList, [7]), ("b.delta".toList, [2, 2]), ("notes".toList, [1])] =
    (true, [("a.filter".toList, [1]), ("b.delta".toList, [2, 2]), ("notes".toList, [1])]) := by decide +kernel

/-- **C64 fails when a removal fails**: the stale filter stays, and the update counts as successful. -/
theorem C64_remove_fails :
    updateDb { exEnv with removable := fun _ => false } .default [⟨"01".toList, "a.filter".toList, "x1".toList, false, none⟩] [("old.filter".toList, [9])] =
      (true, [("old.filter".toList, [9]), ("a.filter".toList, [1])]) := by decide +kernel

/-- **C64 fails for two records with one file name**: the first ends up without its digest. -/
theorem C64_duplicate_fails :
    updateDb exEnv .default [⟨"01".toList, "a.filter".toList, "x1".toList, false, none⟩, ⟨"02".toList, "a.filter".toList, "x2".toList, true, none⟩] [] = (true, [("a.filter".toList, [2])]) := by decide +kernel

/-- **C64 fails for names with slashes**: the file is written outside the directory, where it replaces what is there. -/
theorem C64_escape_fails :
    updateDb exEnv .default [⟨"01".toList, "../profile.filter".toList, "x1".toList, false, none⟩] [("../profile.filter".toList, [9])] = (true, [("../profile.filter".toList, [1])]) ∧
    inDir "../profile.filter".toList = false := by decide +kernel

/-! ### C80 -/

/-- **C80 fails**: one record of a channel the client does not know, such as the publisher's "experimental+deltas" (moz_kinto_publisher/main.py:38, 55-68), makes every update fail, whatever the other records are. -/
theorem C80_unknown_channel_fails (env : UpdateEnv) (chan : ClientChannel) (before after : List RawFilterRec) (fs : Files) (hash filename location : Text) (incremental : Bool) :
    updateDb env chan (before ++ ⟨hash, filename, location, incremental, some "experimental+deltas".toList⟩ :: after) fs = (false, fs) := by
  have key : parseRecords (before ++ ⟨hash, filename, location, incremental, some "experimental+deltas".toList⟩ :: after) = none := by
    induction before with
    | nil =>
      have : parseChannel (some "experimental+deltas".toList) = none := by decide +kernel
      rw [List.nil_append]
      unfold parseRecords
      dsimp only
      rw [this]
    | cons r rest ih =>
      rw [List.cons_append]
      unfold parseRecords
      rw [ih]
      split
      · rename_i h; cases h
      · rfl
  unfold updateDb
  rw [key]

/-- **C80 (known channels).** If all records are for channels the client knows, records of the other channel do not matter. -/
theorem C80_other_channel_partial (env : UpdateEnv) (chan : ClientChannel) (raw raw' : List RawFilterRec) (recs recs' : List FilterRec) (h : parseRecords raw = some recs) (h' : parseRecords raw' = some recs')
    (hsame : listedOf chan recs = listedOf chan recs') (fs : Files) : updateDb env chan raw fs = updateDb env chan raw' fs := by
  unfold updateDb
  rw [h, h']
  change (if ((listedOf chan recs).filter (fun r => !r.incremental)).length = 1 then updateLoop env (listedOf chan recs) (removeStale env ((listedOf chan recs).map FilterRec.filename) fs) else (false, fs)) = _
  rw [hsame]
  rfl

example : updateDb exEnv .default [⟨"01".toList, "a.filter".toList, "x1".toList, false, none⟩, ⟨"zz".toList, "q".toList, [], false, some "compat".toList⟩] [] =
    updateDb exEnv .default [⟨"01".toList, "a.filter".toList, "x1".toList, false, none⟩] [] := by decide +kernel

/-! ### each theorem applied -/

example := C63_order (F := QStatus) (fun b => b) (fun d => some ⟨[1], d⟩) (fun k => k == [5]) (fun f _ _ _ => f) [.good, .revoked] [.revoked, .good, .revoked] (fun f => by cases f <;> decide) [([1], [[5]])] ⟨[1], [9], [], true⟩
example := C63_monotone (F := QStatus) (fun b => b) (fun d => some ⟨[1], d⟩) (fun k => k == [5]) (fun f _ _ _ => f) [.good, .revoked] [.revoked, .notCovered, .good] (by decide) [([1], [[5]])] ⟨[1], [9], [], true⟩ (by decide +kernel)
example := C65_order ["20240102-9-default.filter".toList, "20240102-10-default.filter.delta".toList] ["20240102-10-default.filter.delta".toList, "20240102-9-default.filter".toList] (fun _ => (List.Perm.swap _ _ _).mem_iff)
example := C64_exact_partial exEnv .default
  [⟨"01".toList, "a.filter".toList, "x1".toList, false, none⟩, ⟨"02".toList, "b.delta".toList, "x2".toList, true, some "default".toList⟩, ⟨"05".toList, "c.filter".toList, "x5".toList, false, some "compat".toList⟩]
  [("old.filter".toList, [9]), ("a.filter".toList, [7]), ("b.delta".toList, [2, 2]), ("notes".toList, [1])] _
  (show _ = (true, [("a.filter".toList, [1]), ("b.delta".toList, [2, 2]), ("notes".toList, [1])]) by decide +kernel) _ rfl (fun _ => rfl) (by decide +kernel)
example := C64_one_full exEnv .default [⟨"01".toList, "a.filter".toList, "x1".toList, false, none⟩, ⟨"02".toList, "b.filter".toList, "x2".toList, false, none⟩] [("old.filter".toList, [9])] _ rfl (by decide +kernel)

end Verif.Props
