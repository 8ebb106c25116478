import Verif.Spec.X509
import Verif.Lemmas.DerInt
/-!
Elements, vectors and object identifiers are read as they were written.
-/
namespace Verif.Props
open Verif.Spec

/-! ### elements -/

theorem readBE_num (ds rest : Bytes) (acc : Nat) : readBE ds.length acc (ds ++ rest) = some (acc * 256 ^ ds.length + numB 256 (ds.map UInt8.toNat), rest) := by
  induction ds generalizing acc with
  | nil => simp [readBE, numB]
  | cons d ds ih =>
    rw [List.length_cons, List.cons_append, readBE, ih, Option.some.injEq, Prod.mk.injEq]
    refine ⟨?_, rfl⟩
    rw [List.map_cons, numB, List.length_map, Nat.pow_succ, Nat.add_mul, Nat.mul_assoc, Nat.mul_comm 256 (256 ^ ds.length)]
    omega

theorem elemLen_complete {n : Nat} {ls : Bytes} (h : LengthOctets n ls) (hn : n < 2 ^ 64) (rest : Bytes) : elemLen (ls ++ rest) = some (n, rest) := by
  rcases h with ⟨h1, b, rfl, hb⟩ | ⟨h1, k, ds, rfl, hk, hd, hv⟩
  · show (if b.toNat < 128 then some (b.toNat, rest) else _) = _
    rw [if_pos (by omega), hb]
  · have hne : ds ≠ [] := by
      rintro rfl
      simp [numB] at hv
      omega
    have hlen : ds.length ≤ 8 := by
      obtain ⟨d, ds, rfl⟩ := List.exists_cons_of_ne_nil hne
      have h0 : d.toNat ≠ 0 := by
        intro h
        apply hd
        have : d = 0 := UInt8.toNat_inj.1 h
        rw [this]
        rfl
      have := numB_ge (B := 256) h0 (ds.map UInt8.toNat)
      rw [← List.map_cons, hv, List.length_map] at this
      apply Classical.byContradiction
      intro hc
      rw [List.length_cons] at hc
      have h8 : 256 ^ 8 ≤ 256 ^ ds.length := Nat.pow_le_pow_right (by decide) (by omega)
      have e : (256 : Nat) ^ 8 = 2 ^ 64 := by decide
      omega
    have hpos : 0 < ds.length := List.length_pos_iff.2 hne
    show (if k.toNat < 128 then some (k.toNat, ds ++ rest) else if k.toNat = 128 ∨ k.toNat = 255 then none else _) = _
    rw [if_neg (by omega), if_neg (by omega)]
    have e : k.toNat - 128 = ds.length := by omega
    have e2 : readBE ds.length 0 (ds.append rest) = some (n, rest) := by
      have := readBE_num ds rest 0
      rw [Nat.zero_mul, Nat.zero_add, hv] at this
      exact this
    rw [e, e2]
    exact if_pos hn

theorem readN_app (a rest : Bytes) : readN a.length (a ++ rest) = some (a, rest) := by
  unfold readN
  rw [if_neg (by rw [List.length_append]; omega), List.take_left' rfl, List.drop_left' rfl]

theorem elem_complete {cls tag : Nat} {f : Bool} {c w : Bytes} (h : Element cls tag f c w) (ht : tag < 31) (hc : c.length < 2 ^ 64) (rest : Bytes) :
    elem (w ++ rest) = some (⟨cls, f, tag, c⟩, rest) := by
  obtain ⟨id, ls, ⟨hcls, hid⟩, hl, rfl⟩ := h
  rcases hid with ⟨_, b, rfl, hb⟩ | ⟨h31, _⟩
  · have e1 : b.toNat % 32 = tag := by
      rw [hb]
      cases f <;> simp <;> omega
    have e2 : b.toNat / 64 = cls := by
      rw [hb]
      cases f <;> simp <;> omega
    have e3 : decide (b.toNat / 32 % 2 = 1) = f := by
      rw [hb]
      cases f
      · rw [decide_eq_false_iff_not]
        simp
        omega
      · rw [decide_eq_true_iff]
        simp
        omega
    have e : [b] ++ ls ++ c ++ rest = b :: (ls ++ (c ++ rest)) := by simp
    rw [e]
    unfold elem
    dsimp only
    rw [e1, if_neg (by omega), elemLen_complete hl hc]
    dsimp only
    rw [readN_app]
    dsimp only
    rw [e2, e3]
  · omega

theorem expect_complete {cls tag : Nat} {f : Bool} {c w : Bytes} (h : Element cls tag f c w) (ht : tag < 31) (hc : c.length < 2 ^ 64) (rest : Bytes) :
    expect cls tag f (w ++ rest) = some (c, rest) := by
  unfold expect
  rw [elem_complete h ht hc]
  exact if_pos ⟨rfl, rfl, rfl⟩

theorem expect_other {cls tag cls' tag' : Nat} {f f' : Bool} {c w : Bytes} (h : Element cls tag f c w) (ht : tag < 31) (hc : c.length < 2 ^ 64) (rest : Bytes)
    (hne : ¬ (cls = cls' ∧ tag = tag' ∧ f = f')) : expect cls' tag' f' (w ++ rest) = none := by
  unfold expect
  rw [elem_complete h ht hc]
  exact if_neg hne

theorem seqField_complete {ok : Bytes → Bool} {c w : Bytes} (h : Element 0 16 true c w) (hc : c.length < 2 ^ 64) (hok : ok c = true) (rest : Bytes) : seqField ok (w ++ rest) = some rest := by
  unfold seqField
  rw [expect_complete h (by decide) hc]
  exact if_pos hok

theorem element_ne {cls tag : Nat} {f : Bool} {c w : Bytes} (h : Element cls tag f c w) (rest : Bytes) : w ++ rest ≠ [] := by
  have := element_pos h
  intro e
  have := congrArg List.length e
  rw [List.length_append, List.length_nil] at this
  omega

theorem optField_present {tag : Nat} {f : Bool} {ok : Bytes → Bool} {c w : Bytes} (h : Element 2 tag f c w) (ht : tag < 31) (hc : c.length < 2 ^ 64) (hok : ok c = true) (rest : Bytes) :
    optField tag ok (w ++ rest) = some rest := by
  unfold optField optTagged
  rw [if_neg (element_ne h rest), elem_complete h ht hc]
  dsimp only
  rw [if_neg (fun h => h rfl), if_neg (fun h => h rfl)]
  exact if_pos hok

theorem optField_absent {cls tag tag' : Nat} {f : Bool} {ok : Bytes → Bool} {c w : Bytes} (h : Element cls tag f c w) (ht : tag < 31) (hc : c.length < 2 ^ 64) (hne : tag ≠ tag') (rest : Bytes) :
    optField tag' ok (w ++ rest) = some (w ++ rest) := by
  unfold optField optTagged
  rw [if_neg (element_ne h rest), elem_complete h ht hc]
  dsimp only
  rw [if_pos hne]

theorem optField_nil (tag : Nat) (ok : Bytes → Bool) : optField tag ok [] = some [] := by
  unfold optField optTagged
  rw [if_pos rfl]

theorem upTo_app (w rest : Bytes) : upTo (w ++ rest) rest = w := by
  unfold upTo
  rw [List.length_append, Nat.add_sub_cancel]
  exact List.take_left' rfl

/-! ### vectors -/

theorem readOpaque_complete {n : Nat} {body bs : Bytes} (h : TlsVector n body bs) (rest : Bytes) : readOpaque n 0 (bs ++ rest) = some (body, rest) := by
  obtain ⟨l, ⟨hl, hv⟩, rfl⟩ := h
  unfold readOpaque
  rw [List.append_assoc, ← hl, readBE_num]
  dsimp only
  rw [Nat.zero_mul, Nat.zero_add, hv, if_neg (Nat.not_lt_zero _), readN_app]

theorem readSct_complete {s : Bytes × Nat} {bs : Bytes} (h : SctBytes s bs) (more : Bytes) : readSct (bs ++ more) = some s := by
  obtain ⟨h32, v, a, g, t, e, x, y, z, ⟨ht, hv⟩, hx, hz, rfl⟩ := h
  have e1 : v :: (s.1 ++ (t ++ (x ++ (a :: g :: z)))) ++ more = v :: (s.1 ++ (t ++ (x ++ (a :: g :: (z ++ more))))) := by simp [List.append_assoc]
  rw [e1]
  unfold readSct
  dsimp only
  rw [← h32, readN_app]
  dsimp only
  rw [← ht, readBE_num]
  dsimp only
  rw [readOpaque_complete hx]
  dsimp only
  have e2 : readN 2 (a :: g :: (z ++ more)) = some ([a, g], z ++ more) := readN_app [a, g] (z ++ more)
  rw [e2]
  dsimp only
  rw [readOpaque_complete hz, Nat.zero_mul, Nat.zero_add, hv]
  rfl

/-- Timestamps that can be read are read; then it depends on what follows. -/
theorem sctLoop_concat : ∀ (l : List (Bytes × Nat)) (body rest : Bytes) (fuel : Nat), Concat SerializedSct l body → body.length + rest.length ≤ fuel →
    sctLoop fuel (body ++ rest) = l ++ sctLoop (fuel - l.length) rest := by
  intro l
  induction l with
  | nil =>
    intro body rest fuel h _
    simp only [Concat] at h
    subst h
    rfl
  | cons s l ih =>
    intro body rest fuel h hf
    obtain ⟨x, y, ⟨c, hc, hx⟩, hy, rfl⟩ := h
    have hlx : 2 ≤ x.length := by
      obtain ⟨n, ⟨hn, _⟩, rfl⟩ := hx
      rw [List.length_append]
      omega
    rw [List.length_append] at hf
    cases fuel with
    | zero => omega
    | succ fuel =>
      rw [List.append_assoc]
      conv => lhs; unfold sctLoop
      rw [readOpaque_complete hx]
      dsimp only
      have hr := readSct_complete hc []
      rw [List.append_nil] at hr
      rw [hr]
      dsimp only
      rw [ih y rest fuel hy (by omega), List.length_cons, Nat.add_sub_add_right]
      rfl

theorem sctLoop_nil (fuel : Nat) : sctLoop fuel [] = [] := by
  cases fuel <;> rfl

theorem sctList_complete {l : List (Bytes × Nat)} {value : Bytes} (h : SctValue l value) (hv : value.length < 2 ^ 64) : sctList value = l := by
  obtain ⟨body, inner, hb, hi, he⟩ := h
  have hp := element_pos he
  unfold sctList
  have h1 := expect_complete he (by decide) (by omega) []
  rw [List.append_nil] at h1
  rw [h1]
  dsimp only
  have h2 := readOpaque_complete hi []
  rw [List.append_nil] at h2
  rw [h2]
  dsimp only
  have h3 := sctLoop_concat l body [] body.length hb (by simp)
  rw [List.append_nil] at h3
  rw [h3, sctLoop_nil, List.append_nil]

/-! ### object identifiers -/

theorem split128 : ∀ (hi hi' : Bytes) (lo lo' : UInt8) (y y' : Bytes), lo.toNat < 128 → lo'.toNat < 128 → (∀ b ∈ hi, 128 ≤ b.toNat) → (∀ b ∈ hi', 128 ≤ b.toNat) →
    hi ++ [lo] ++ y = hi' ++ [lo'] ++ y' → hi ++ [lo] = hi' ++ [lo'] ∧ y = y' := by
  intro hi hi' lo lo' y y' hlo hlo' hhi hhi' e
  induction hi generalizing hi' with
  | nil =>
    cases hi' with
    | nil =>
      simp only [List.nil_append, List.cons_append, List.cons.injEq] at e
      exact ⟨by rw [e.1], e.2⟩
    | cons a t =>
      simp only [List.nil_append, List.cons_append, List.cons.injEq] at e
      have := hhi' a List.mem_cons_self
      rw [← e.1] at this
      omega
  | cons b s ih =>
    cases hi' with
    | nil =>
      simp only [List.nil_append, List.cons_append, List.cons.injEq] at e
      have := hhi b List.mem_cons_self
      rw [e.1] at this
      omega
    | cons a t =>
      simp only [List.cons_append, List.cons.injEq] at e
      obtain ⟨h1, h2⟩ := ih t (fun c hc => hhi c (List.mem_cons_of_mem _ hc)) (fun c hc => hhi' c (List.mem_cons_of_mem _ hc)) e.2
      exact ⟨by rw [e.1]; simpa using h1, h2⟩

theorem base128_prefix {n m : Nat} {x x' y y' : Bytes} (h : Base128 n x) (h' : Base128 m x') (e : x ++ y = x' ++ y') : x = x' ∧ y = y' := by
  obtain ⟨hi, lo, rfl, hlo, hhi, _⟩ := h
  obtain ⟨hi', lo', rfl, hlo', hhi', _⟩ := h'
  exact split128 hi hi' lo lo' y y' hlo hlo' hhi hhi' e

theorem concat128_inj : ∀ (vs us : List Nat) (bs : Bytes), Concat Base128 vs bs → Concat Base128 us bs → vs = us := by
  intro vs
  induction vs with
  | nil =>
    intro us bs h h'
    simp only [Concat] at h
    subst h
    cases us with
    | nil => rfl
    | cons u us =>
      obtain ⟨x, y, hx, _, e⟩ := h'
      have := base128_pos hx
      have := congrArg List.length e
      rw [List.length_append, List.length_nil] at this
      omega
  | cons v vs ih =>
    intro us bs h h'
    obtain ⟨x, y, hx, hy, rfl⟩ := h
    cases us with
    | nil =>
      simp only [Concat] at h'
      have := base128_pos hx
      have := congrArg List.length h'
      rw [List.length_append, List.length_nil] at this
      omega
    | cons u us =>
      obtain ⟨x', y', hx', hy', e⟩ := h'
      obtain ⟨rfl, rfl⟩ := base128_prefix hx hx' e
      obtain ⟨_, _, _, _, _, _, h1⟩ := hx
      obtain ⟨_, _, _, _, _, _, h2⟩ := hx'
      rw [← h1, ← h2, ih us y hy hy']

/-- An object identifier is determined by its octets. -/
theorem oid_inj {a b : List Nat} {c : Bytes} (h : OidContent a c) (h' : OidContent b c) : a = b := by
  obtain ⟨a1, a2, more, rfl, ha, hb, hc⟩ := h
  obtain ⟨b1, b2, more', rfl, ha', hb', hc'⟩ := h'
  have := concat128_inj _ _ c hc hc'
  simp only [List.cons.injEq] at this
  obtain ⟨e, rfl⟩ := this
  have h1 : a1 = b1 := by omega
  subst h1
  have h2 : a2 = b2 := by omega
  rw [h2]

theorem numB_inj {B : Nat} : ∀ (xs ys : List Nat), xs.length = ys.length → (∀ x ∈ xs, x < B) → (∀ y ∈ ys, y < B) → numB B xs = numB B ys → xs = ys := by
  intro xs
  induction xs with
  | nil =>
    intro ys hl _ _ _
    cases ys with
    | nil => rfl
    | cons y ys => simp at hl
  | cons x xs ih =>
    intro ys hl hx hy h
    cases ys with
    | nil => simp at hl
    | cons y ys =>
      simp only [List.length_cons, Nat.add_right_cancel_iff] at hl
      simp only [numB, hl] at h
      have h1 := numB_lt (B := B) xs (fun d hd => hx d (List.mem_cons_of_mem _ hd))
      have h2 := numB_lt (B := B) ys (fun d hd => hy d (List.mem_cons_of_mem _ hd))
      rw [hl] at h1
      have hxy : x = y := by
        have p : 0 < B ^ ys.length := by omega
        have q1 : (x * B ^ ys.length + numB B xs) / B ^ ys.length = x := by
          rw [Nat.mul_comm, Nat.mul_add_div p, Nat.div_eq_of_lt h1, Nat.add_zero]
        have q2 : (y * B ^ ys.length + numB B ys) / B ^ ys.length = y := by
          rw [Nat.mul_comm, Nat.mul_add_div p, Nat.div_eq_of_lt h2, Nat.add_zero]
        rw [← q1, h, q2]
      subst hxy
      rw [ih ys hl (fun d hd => hx d (List.mem_cons_of_mem _ hd)) (fun d hd => hy d (List.mem_cons_of_mem _ hd)) (by omega)]

theorem base128_bounds {n : Nat} {ts : Bytes} (h : Base128 n ts) : n < 128 ^ ts.length ∧ (2 ≤ ts.length → 128 ^ (ts.length - 1) ≤ n) := by
  obtain ⟨hi, lo, rfl, hlo, hhi, hh, hv⟩ := h
  constructor
  · rw [← hv]
    have := numB_lt (B := 128) ((hi ++ [lo]).map (fun b => b.toNat % 128)) (by
      intro d hd
      obtain ⟨b, _, rfl⟩ := List.mem_map.1 hd
      omega)
    simpa using this
  · intro h2
    cases hi with
    | nil => simp at h2
    | cons b s =>
      have hb := hhi b List.mem_cons_self
      have hlt := b.toNat_lt
      have hne : b.toNat % 128 ≠ 0 := by
        intro h0
        apply hh
        have : b = 0x80 := UInt8.toNat_inj.1 (by
          show b.toNat = 128
          omega)
        rw [this]
        rfl
      have := numB_ge (B := 128) hne ((s ++ [lo]).map (fun b => b.toNat % 128))
      rw [← hv, List.cons_append, List.map_cons]
      simpa using this

theorem high_inj : ∀ (hi hi' : Bytes), hi.length = hi'.length → (∀ b ∈ hi, 128 ≤ b.toNat) → (∀ b ∈ hi', 128 ≤ b.toNat) →
    hi.map (fun b => b.toNat % 128) = hi'.map (fun b => b.toNat % 128) → hi = hi' := by
  intro hi hi' hl hhi hhi' e1
  induction hi generalizing hi' with
  | nil =>
    cases hi' with
    | nil => rfl
    | cons a t => simp at hl
  | cons b s ih =>
    cases hi' with
    | nil => simp at hl
    | cons a t =>
      simp only [List.map_cons, List.cons.injEq] at e1
      have h1 := hhi b List.mem_cons_self
      have h2 := hhi' a List.mem_cons_self
      have h3 := b.toNat_lt
      have h4 := a.toNat_lt
      have : b = a := UInt8.toNat_inj.1 (by omega)
      rw [this, ih t (by simpa using hl) (fun c hc => hhi c (List.mem_cons_of_mem _ hc)) (fun c hc => hhi' c (List.mem_cons_of_mem _ hc)) e1.2]

theorem base128_unique {n : Nat} {xs ys : Bytes} (hx : Base128 n xs) (hy : Base128 n ys) : xs = ys := by
  obtain ⟨bx1, bx2⟩ := base128_bounds hx
  obtain ⟨by1, by2⟩ := base128_bounds hy
  have px := base128_pos hx
  have py := base128_pos hy
  have hlen : xs.length = ys.length := by
    have key : ∀ {a b : Nat}, 0 < a → 0 < b → (2 ≤ b → 128 ^ (b - 1) ≤ n) → n < 128 ^ a → b ≤ a := by
      intro a b ha hb h1 h2
      apply Classical.byContradiction
      intro hc
      have := h1 (by omega)
      have h3 : 128 ^ a ≤ 128 ^ (b - 1) := Nat.pow_le_pow_right (by decide) (by omega)
      omega
    have l1 := key px py by2 bx1
    have l2 := key py px bx2 by1
    omega
  obtain ⟨hi, lo, rfl, hlo, hhi, _, hv⟩ := hx
  obtain ⟨hi', lo', rfl, hlo', hhi', _, hv'⟩ := hy
  have hd : ∀ (l : Bytes), ∀ d ∈ l.map (fun b => b.toNat % 128), d < 128 := by
    intro l d hd
    obtain ⟨b, _, rfl⟩ := List.mem_map.1 hd
    omega
  have hmap := numB_inj _ _ (by simpa using hlen) (hd _) (hd _) (hv.trans hv'.symm)
  rw [List.map_append, List.map_append] at hmap
  have hl : hi.length = hi'.length := by simpa using hlen
  obtain ⟨e1, e2⟩ := List.append_inj hmap (by simpa using hl)
  simp only [List.map_cons, List.map_nil, List.cons.injEq, and_true] at e2
  have elo : lo = lo' := UInt8.toNat_inj.1 (by omega)
  have ehi : hi = hi' := high_inj hi hi' hl hhi hhi' e1
  rw [elo, ehi]

theorem concat_unique : ∀ (vs : List Nat) (bs cs : Bytes), Concat Base128 vs bs → Concat Base128 vs cs → bs = cs := by
  intro vs
  induction vs with
  | nil =>
    intro bs cs h h'
    simp only [Concat] at h h'
    rw [h, h']
  | cons v vs ih =>
    rintro bs cs ⟨x, y, hx, hy, rfl⟩ ⟨x', y', hx', hy', rfl⟩
    rw [base128_unique hx hx', ih y y' hy hy']

/-- The octets of an object identifier are determined. -/
theorem oid_unique {a : List Nat} {b c : Bytes} (h : OidContent a b) (h' : OidContent a c) : b = c := by
  obtain ⟨a1, a2, more, rfl, _, _, hc⟩ := h
  obtain ⟨b1, b2, more', e, _, _, hc'⟩ := h'
  simp only [List.cons.injEq] at e
  obtain ⟨rfl, rfl, rfl⟩ := e
  exact concat_unique _ _ _ hc hc'

theorem sctOid_content : OidContent sctArcs sctOid := by
  refine ⟨1, 3, [6, 1, 4, 1, 11129, 2, 4, 2], rfl, by decide, by decide, ?_⟩
  have one : ∀ n : Nat, n < 128 → Base128 n [UInt8.ofNat n] := by
    intro n hn
    have e : (UInt8.ofNat n).toNat = n := by rw [UInt8.toNat_ofNat']; omega
    refine ⟨[], UInt8.ofNat n, rfl, by omega, (fun b hb => by cases hb), ?_, ?_⟩
    · intro h
      simp only [List.head?_cons, Option.some.injEq] at h
      have := congrArg UInt8.toNat h
      rw [e] at this
      have e80 : (0x80 : UInt8).toNat = 128 := rfl
      omega
    · simp only [List.map_cons, List.map_nil, numB, e]
      simp
      omega
  refine ⟨[0x2b], _, one 43 (by decide), ⟨[6], _, one 6 (by decide), ⟨[1], _, one 1 (by decide), ⟨[4], _, one 4 (by decide), ⟨[1], _, one 1 (by decide), ⟨[0xd6, 0x79], _, ?_, ⟨[2], _, one 2 (by decide), ⟨[4], _, one 4 (by decide), ⟨[2], [], one 2 (by decide), rfl, rfl⟩, rfl⟩, rfl⟩, rfl⟩, rfl⟩, rfl⟩, rfl⟩, rfl⟩, rfl⟩
  exact ⟨[0xd6], 0x79, rfl, by decide, by decide, by decide, by decide⟩

theorem sctOid_iff {a : List Nat} {c : Bytes} (h : OidContent a c) : c = sctOid ↔ a = sctArcs := by
  constructor
  · rintro rfl
    exact oid_inj h sctOid_content
  · rintro rfl
    exact oid_unique h sctOid_content

end Verif.Props
