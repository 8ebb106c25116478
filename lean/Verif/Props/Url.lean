import Verif.Model.Url
import Verif.Spec.Url
import Verif.Lemmas.Text
import Verif.Props.Download
/-!
C117: the URLs of CRLs.
-/
namespace Verif.Props
open Verif.Spec

/-! ### escapes -/

theorem octet_all {P : UInt8 → Prop} (h : ∀ n, n < 256 → P (UInt8.ofNat n)) (b : UInt8) : P b := by
  have := h b.toNat b.toNat_lt
  rwa [UInt8.ofNat_toNat] at this

/-- What is used about a hexadecimal digit. -/
def HexFacts (b : UInt8) (d : Nat) : Prop := unhexOctet b = some d ∧ b ≠ 38 ∧ b ≠ 59 ∧ b ≠ 61

instance (b : UInt8) (d : Nat) : Decidable (HexFacts b d) := by unfold HexFacts; infer_instance

theorem hexOctet_facts {b : UInt8} {d : Nat} (h : HexOctet b d) : HexFacts b d := by
  have key : ∀ d, d < 16 → (d < 10 → HexFacts (UInt8.ofNat (48 + d)) d) ∧ (10 ≤ d → HexFacts (UInt8.ofNat (55 + d)) d) ∧ (10 ≤ d → HexFacts (UInt8.ofNat (87 + d)) d) := by decide +kernel
  obtain ⟨hd, h⟩ := h
  have e : b = UInt8.ofNat b.toNat := UInt8.ofNat_toNat.symm
  rw [e]
  rcases h with ⟨h1, h2⟩ | ⟨h1, h2⟩ | ⟨h1, h2⟩
  · rw [h2]; exact (key d hd).1 h1
  · rw [h2]; exact (key d hd).2.1 h1
  · rw [h2]; exact (key d hd).2.2 h1

theorem unescape_octet {x y : UInt8} {d e : Nat} (hx : unhexOctet x = some d) (hy : unhexOctet y = some e) (r : Bytes) :
    queryUnescape (37 :: x :: y :: r) = (queryUnescape r).map (fun t => UInt8.ofNat (d * 16 + e) :: t) := by
  rw [queryUnescape]
  simp only [if_true, hx, hy]
  cases queryUnescape r <;> rfl

theorem unescape_other {b : UInt8} (hb : b ≠ 37) (r : Bytes) :
    queryUnescape (b :: r) = (queryUnescape r).map (fun t => (if b = 43 then 32 else b) :: t) := by
  rw [queryUnescape.eq_def]
  simp only [hb, if_false]
  cases queryUnescape r <;> rfl

theorem toNat_ne {b : UInt8} {n : Nat} (hn : n < 256) (h : b.toNat ≠ n) : b ≠ UInt8.ofNat n := by
  intro e
  apply h
  rw [e, UInt8.toNat_ofNat']
  exact Nat.mod_eq_of_lt hn

theorem escaped_read {t m : Bytes} (h : Escaped t m) : queryUnescape t = some m := by
  induction h with
  | nil => rfl
  | @plain b t m h1 h2 h3 h4 h5 _ ih =>
    have hp : b ≠ 43 := toNat_ne (n := 43) (by omega) h3
    rw [unescape_other (toNat_ne (n := 37) (by omega) h1), ih]
    simp [hp]
  | plus _ ih =>
    rw [unescape_other (by decide), ih]
    rfl
  | @octet x y d e o t m hx hy ho _ ih =>
    rw [unescape_octet (hexOctet_facts hx).1 (hexOctet_facts hy).1, ih]
    have : o = UInt8.ofNat (d * 16 + e) := by
      rw [show d * 16 + e = o.toNat by omega, UInt8.ofNat_toNat]
    rw [this]
    rfl

theorem escaped_clean {t m : Bytes} (h : Escaped t m) : ∀ b ∈ t, b ≠ 38 ∧ b ≠ 59 ∧ b ≠ 61 := by
  induction h with
  | nil => intro b hb; cases hb
  | plain h1 h2 h3 h4 h5 _ ih =>
    intro b hb
    rcases List.mem_cons.1 hb with rfl | hb
    · exact ⟨toNat_ne (n := 38) (by omega) h2, toNat_ne (n := 59) (by omega) h4, toNat_ne (n := 61) (by omega) h5⟩
    · exact ih b hb
  | plus _ ih =>
    intro b hb
    rcases List.mem_cons.1 hb with rfl | hb
    · decide
    · exact ih b hb
  | octet hx hy _ _ ih =>
    intro b hb
    rcases List.mem_cons.1 hb with rfl | hb
    · decide
    · rcases List.mem_cons.1 hb with rfl | hb
      · exact (hexOctet_facts hx).2
      · rcases List.mem_cons.1 hb with rfl | hb
        · exact (hexOctet_facts hy).2
        · exact ih b hb

theorem upperHex_octet : ∀ n, n < 16 → HexOctet (upperHex n) n := by
  unfold HexOctet
  decide +kernel

/-- An octet as `QueryEscape` writes it. -/
theorem escapeOctet_form (b : UInt8) :
    (b = 32 ∧ escapeOctet b = [43]) ∨ ((b.toNat ≠ 37 ∧ b.toNat ≠ 38 ∧ b.toNat ≠ 43 ∧ b.toNat ≠ 59 ∧ b.toNat ≠ 61) ∧ escapeOctet b = [b]) ∨
    escapeOctet b = [37, upperHex (b.toNat / 16), upperHex (b.toNat % 16)] := by
  unfold escapeOctet
  by_cases h : b = 32
  · exact Or.inl ⟨h, if_pos h⟩
  · rw [if_neg h]
    by_cases hp : queryPlain b = true
    · refine Or.inr (Or.inl ⟨?_, if_pos hp⟩)
      have key : ∀ n, n < 256 → queryPlain (UInt8.ofNat n) = true → n ≠ 37 ∧ n ≠ 38 ∧ n ≠ 43 ∧ n ≠ 59 ∧ n ≠ 61 := by decide +kernel
      have := key b.toNat b.toNat_lt
      rw [UInt8.ofNat_toNat] at this
      exact this hp
    · exact Or.inr (Or.inr (if_neg hp))

theorem escaped_written (bs : Bytes) : Escaped (queryEscape bs) bs := by
  induction bs with
  | nil => exact Escaped.nil
  | cons b bs ih =>
    show Escaped (escapeOctet b ++ queryEscape bs) (b :: bs)
    rcases escapeOctet_form b with ⟨rfl, h⟩ | ⟨⟨h1, h2, h3, h4, h5⟩, h⟩ | h
    · rw [h]; exact Escaped.plus ih
    · rw [h]; exact Escaped.plain h1 h2 h3 h4 h5 ih
    · rw [h]
      have hb := b.toNat_lt
      exact Escaped.octet (upperHex_octet _ (by omega)) (upperHex_octet _ (by omega)) (by omega) ih

/-! ### queries -/

theorem splitAmp_last {t : Bytes} (h : ∀ b ∈ t, b ≠ 38) : splitAmp t = [t] := by
  induction t with
  | nil => rfl
  | cons b t ih =>
    rw [splitAmp, if_neg (h b (List.mem_cons_self ..)), ih (fun x hx => h x (List.mem_cons_of_mem _ hx))]
    rfl

theorem splitAmp_more {t : Bytes} (q : Bytes) (h : ∀ b ∈ t, b ≠ 38) : splitAmp (t ++ 38 :: q) = t :: splitAmp q := by
  induction t with
  | nil => rw [List.nil_append, splitAmp, if_pos rfl]
  | cons b t ih =>
    rw [List.cons_append, splitAmp, if_neg (h b (List.mem_cons_self ..)), ih (fun x hx => h x (List.mem_cons_of_mem _ hx))]
    rfl

theorem cutEq_name {n : Bytes} (v : Bytes) (h : ∀ b ∈ n, b ≠ 61) : cutEq (n ++ 61 :: v) = (n, v) := by
  induction n with
  | nil => rw [List.nil_append, cutEq, if_pos rfl]
  | cons b n ih =>
    rw [List.cons_append, cutEq, if_neg (h b (List.mem_cons_self ..)), ih (fun x hx => h x (List.mem_cons_of_mem _ hx))]

theorem queryPair_read {n v a b : Bytes} (hn : Escaped n a) (hv : Escaped v b) : queryPair (n ++ 61 :: v) = some (a, b) := by
  have hs : (n ++ 61 :: v).contains 59 = false := by
    rw [Bool.eq_false_iff]
    intro hc
    have hm := List.contains_iff_mem.1 hc
    rcases List.mem_append.1 hm with h | h
    · exact (escaped_clean hn 59 h).2.1 rfl
    · rcases List.mem_cons.1 h with h | h
      · exact absurd h (by decide)
      · exact (escaped_clean hv 59 h).2.1 rfl
  unfold queryPair
  rw [hs, if_neg (by simp), if_neg (by simp), cutEq_name v (fun x hx => (escaped_clean hn x hx).2.2), escaped_read hn, escaped_read hv]

theorem pair_noAmp {n v a b : Bytes} (hn : Escaped n a) (hv : Escaped v b) : ∀ x ∈ n ++ 61 :: v, x ≠ 38 := by
  intro x hx
  rcases List.mem_append.1 hx with h | h
  · exact (escaped_clean hn x h).1
  · rcases List.mem_cons.1 h with rfl | h
    · decide
    · exact (escaped_clean hv x h).1

theorem form_read {q : Bytes} {ps : List (Bytes × Bytes)} (h : Form q ps) : queryPairs q = ps := by
  induction h with
  | one hn hv =>
    unfold queryPairs
    rw [splitAmp_last (pair_noAmp hn hv), List.filterMap_cons, queryPair_read hn hv]
    rfl
  | more hn hv _ ih =>
    unfold queryPairs at ih ⊢
    rw [splitAmp_more _ (pair_noAmp hn hv), List.filterMap_cons, queryPair_read hn hv, ih]

theorem form_written (ps : List (Bytes × Bytes)) (h : ps ≠ []) : Form (joinAmp (ps.map encodePair)) ps := by
  induction ps with
  | nil => exact absurd rfl h
  | cons p ps ih =>
    cases ps with
    | nil => exact Form.one (escaped_written p.1) (escaped_written p.2)
    | cons q ps => exact Form.more (escaped_written p.1) (escaped_written p.2) (ih (by simp))

theorem form_ne_nil {q : Bytes} {ps : List (Bytes × Bytes)} (h : Form q ps) : q ≠ [] ∧ ps ≠ [] := by
  cases h <;> simp

/-! ### names and values -/

theorem valuesAre_iff (n : Bytes) (ps : List (Bytes × Bytes)) : ∀ vs, ValuesAre n ps vs ↔ vs = valuesOf ps n := by
  induction ps with
  | nil =>
    intro vs
    exact ⟨fun h => by cases h; rfl, fun h => h ▸ ValuesAre.nil⟩
  | cons p ps ih =>
    intro vs
    obtain ⟨k, v⟩ := p
    by_cases hk : k = n
    · subst hk
      have e : valuesOf ((k, v) :: ps) k = v :: valuesOf ps k := by simp [valuesOf]
      rw [e]
      constructor
      · intro h
        cases h with
        | here h => rw [(ih _).1 h]
        | there hn _ => exact absurd rfl hn
      · rintro rfl
        exact ValuesAre.here ((ih _).2 rfl)
    · have e : valuesOf ((k, v) :: ps) n = valuesOf ps n := by simp [valuesOf, hk]
      rw [e]
      constructor
      · intro h
        cases h with
        | here h => exact absurd rfl hk
        | there _ h => exact (ih _).1 h
      · rintro rfl
        exact ValuesAre.there hk ((ih _).2 rfl)

theorem sameValues_iff (ps qs : List (Bytes × Bytes)) : SameValues ps qs ↔ ∀ n, valuesOf ps n = valuesOf qs n := by
  constructor
  · intro h n
    exact (valuesAre_iff n qs _).1 ((h n _).1 ((valuesAre_iff n ps _).2 rfl))
  · intro h n vs
    rw [valuesAre_iff, valuesAre_iff, h n]

/-- Names in increasing order, none twice. -/
def NamesSorted (l : List Bytes) : Prop := l.Pairwise (fun a b => bytesLe a b = true ∧ a ≠ b)

theorem mem_insertName (k x : Bytes) (l : List Bytes) : x ∈ insertName k l ↔ x = k ∨ x ∈ l := by
  induction l with
  | nil => simp [insertName]
  | cons y l ih =>
    unfold insertName
    split
    · rename_i h; subst h; simp
    · split
      · simp
      · rw [List.mem_cons, ih, List.mem_cons]
        constructor
        · rintro (h | h | h)
          · exact Or.inr (Or.inl h)
          · exact Or.inl h
          · exact Or.inr (Or.inr h)
        · rintro (h | h | h)
          · exact Or.inr (Or.inl h)
          · exact Or.inl h
          · exact Or.inr (Or.inr h)

theorem insertName_sorted (k : Bytes) (l : List Bytes) (h : NamesSorted l) : NamesSorted (insertName k l) := by
  induction l with
  | nil => exact List.pairwise_singleton _ _
  | cons y l ih =>
    have hy := List.pairwise_cons.1 h
    unfold insertName
    split
    · exact h
    · rename_i hk
      split
      · rename_i hle
        refine List.pairwise_cons.2 ⟨?_, h⟩
        intro z hz
        rcases List.mem_cons.1 hz with rfl | hz
        · exact ⟨hle, hk⟩
        · refine ⟨bytesLe_trans hle (hy.1 z hz).1, ?_⟩
          rintro rfl
          exact hk (bytesLe_antisymm hle (hy.1 _ hz).1)
      · rename_i hle
        refine List.pairwise_cons.2 ⟨?_, ih hy.2⟩
        intro z hz
        rcases (mem_insertName k z l).1 hz with rfl | hz
        · have := bytesLe_total y z
          rw [Bool.or_eq_true] at this
          rcases this with h' | h'
          · exact ⟨h', fun e => hk e.symm⟩
          · exact absurd h' hle
        · exact hy.1 z hz

theorem sortedNames_sorted (ps : List (Bytes × Bytes)) : NamesSorted (sortedNames ps) := by
  induction ps with
  | nil => exact List.Pairwise.nil
  | cons p ps ih => exact insertName_sorted _ _ ih

theorem mem_sortedNames (ps : List (Bytes × Bytes)) (n : Bytes) : n ∈ sortedNames ps ↔ valuesOf ps n ≠ [] := by
  induction ps with
  | nil => simp [sortedNames, valuesOf]
  | cons p ps ih =>
    rw [sortedNames, mem_insertName, ih]
    by_cases h : p.1 = n
    · simp [valuesOf, h]
    · have h' : n ≠ p.1 := fun e => h e.symm
      simp [valuesOf, h, h']

theorem namesSorted_ext {l m : List Bytes} (hl : NamesSorted l) (hm : NamesSorted m) (h : ∀ n, n ∈ l ↔ n ∈ m) : l = m := by
  induction l generalizing m with
  | nil =>
    cases m with
    | nil => rfl
    | cons y m => exact absurd ((h y).2 (List.mem_cons_self ..)) (by simp)
  | cons x l ih =>
    cases m with
    | nil => exact absurd ((h x).1 (List.mem_cons_self ..)) (by simp)
    | cons y m =>
      have hx := List.pairwise_cons.1 hl
      have hy := List.pairwise_cons.1 hm
      have e : x = y := by
        rcases List.mem_cons.1 ((h x).1 (List.mem_cons_self ..)) with e | h1
        · exact e
        · rcases List.mem_cons.1 ((h y).2 (List.mem_cons_self ..)) with e | h2
          · exact e.symm
          · exact bytesLe_antisymm (hx.1 y h2).1 (hy.1 x h1).1
      subst e
      rw [ih hx.2 hy.2]
      intro n
      constructor
      · intro hn
        rcases List.mem_cons.1 ((h n).1 (List.mem_cons_of_mem _ hn)) with e | h'
        · exact absurd e.symm (hx.1 n hn).2
        · exact h'
      · intro hn
        rcases List.mem_cons.1 ((h n).2 (List.mem_cons_of_mem _ hn)) with e | h'
        · exact absurd e.symm (hy.1 n hn).2
        · exact h'

theorem valuesOf_append (ps qs : List (Bytes × Bytes)) (n : Bytes) : valuesOf (ps ++ qs) n = valuesOf ps n ++ valuesOf qs n := by
  simp [valuesOf]

theorem valuesOf_pairsOf (ps : List (Bytes × Bytes)) (k n : Bytes) : valuesOf (pairsOf ps k) n = if k = n then valuesOf ps n else [] := by
  unfold pairsOf
  generalize hv : valuesOf ps k = vs
  have key : ∀ vs : List Bytes, valuesOf (vs.map (fun v => (k, v))) n = if k = n then vs else [] := by
    intro vs
    induction vs with
    | nil => simp [valuesOf]
    | cons v vs ih =>
      rw [List.map_cons, show ((k, v) :: vs.map (fun v => (k, v))) = [(k, v)] ++ vs.map (fun v => (k, v)) from rfl, valuesOf_append, ih]
      by_cases h : k = n <;> simp [valuesOf, h]
  rw [key vs]
  by_cases h : k = n
  · rw [if_pos h, if_pos h, ← hv, h]
  · rw [if_neg h, if_neg h]

theorem valuesOf_grouped (ps : List (Bytes × Bytes)) (n : Bytes) : ∀ ks : List Bytes, NamesSorted ks →
    valuesOf (ks.flatMap (pairsOf ps)) n = if n ∈ ks then valuesOf ps n else [] := by
  intro ks
  induction ks with
  | nil => intro _; simp [valuesOf]
  | cons k ks ih =>
    intro h
    have hk := List.pairwise_cons.1 h
    rw [List.flatMap_cons, valuesOf_append, valuesOf_pairsOf, ih hk.2]
    by_cases e : k = n
    · subst e
      have : k ∉ ks := fun hm => (hk.1 k hm).2 rfl
      simp [this]
    · have e' : n ≠ k := fun x => e x.symm
      simp [e, e']

/-- The pairs that `Encode` writes. -/
theorem grouped_values (ps : List (Bytes × Bytes)) (n : Bytes) : valuesOf ((sortedNames ps).flatMap (pairsOf ps)) n = valuesOf ps n := by
  rw [valuesOf_grouped ps n _ (sortedNames_sorted ps)]
  by_cases h : n ∈ sortedNames ps
  · rw [if_pos h]
  · rw [if_neg h]
    exact (Classical.byContradiction fun hn => h ((mem_sortedNames ps n).2 (fun e => hn e.symm)))

theorem grouped_ne_nil {ps : List (Bytes × Bytes)} (h : ps ≠ []) : (sortedNames ps).flatMap (pairsOf ps) ≠ [] := by
  intro e
  match ps, h with
  | p :: ps, _ =>
    have := grouped_values (p :: ps) p.1
    rw [e] at this
    simp [valuesOf] at this

theorem grouped_eq {ps qs : List (Bytes × Bytes)} (h : ∀ n, valuesOf ps n = valuesOf qs n) :
    (sortedNames ps).flatMap (pairsOf ps) = (sortedNames qs).flatMap (pairsOf qs) := by
  have e : sortedNames ps = sortedNames qs := namesSorted_ext (sortedNames_sorted ps) (sortedNames_sorted qs) (fun n => by rw [mem_sortedNames, mem_sortedNames, h n])
  have f : pairsOf ps = pairsOf qs := by
    funext k
    unfold pairsOf
    rw [h k]
  rw [e, f]

theorem encode_read (ps : List (Bytes × Bytes)) : queryPairs (encodeQuery ps) = (sortedNames ps).flatMap (pairsOf ps) := by
  by_cases h : ps = []
  · subst h; rfl
  · exact form_read (form_written _ (grouped_ne_nil h))

theorem encode_eq_iff (ps qs : List (Bytes × Bytes)) : encodeQuery ps = encodeQuery qs ↔ ∀ n, valuesOf ps n = valuesOf qs n := by
  constructor
  · intro h n
    have e : queryPairs (encodeQuery ps) = queryPairs (encodeQuery qs) := by rw [h]
    rw [encode_read, encode_read] at e
    rw [← grouped_values ps n, e, grouped_values]
  · intro h
    unfold encodeQuery
    rw [grouped_eq h]

/-! ### URLs -/

theorem cutOctet_none {c : UInt8} {t : Bytes} (h : ∀ b ∈ t, b ≠ c) : cutOctet c t = (t, none) := by
  induction t with
  | nil => rfl
  | cons b t ih => rw [cutOctet, if_neg (h b (List.mem_cons_self ..)), ih (fun x hx => h x (List.mem_cons_of_mem _ hx))]

theorem cutOctet_some {c : UInt8} {t : Bytes} (r : Bytes) (h : ∀ b ∈ t, b ≠ c) : cutOctet c (t ++ c :: r) = (t, some r) := by
  induction t with
  | nil => rw [List.nil_append, cutOctet, if_pos rfl]
  | cons b t ih => rw [List.cons_append, cutOctet, if_neg (h b (List.mem_cons_self ..)), ih (fun x hx => h x (List.mem_cons_of_mem _ hx))]

theorem cutOctet_fst (c : UInt8) (t : Bytes) : ∀ b ∈ (cutOctet c t).1, b ≠ c ∧ b ∈ t := by
  induction t with
  | nil => intro b hb; cases hb
  | cons x t ih =>
    intro b hb
    rw [cutOctet] at hb
    split at hb
    · cases hb
    · rename_i hx
      rcases List.mem_cons.1 hb with rfl | hb
      · exact ⟨hx, List.mem_cons_self ..⟩
      · exact ⟨(ih b hb).1, List.mem_cons_of_mem _ (ih b hb).2⟩

theorem cutOctet_snd (c : UInt8) (t : Bytes) : ∀ r, (cutOctet c t).2 = some r → ∀ b ∈ r, b ∈ t := by
  induction t with
  | nil => intro r h; cases h
  | cons x t ih =>
    intro r h b hb
    rw [cutOctet] at h
    split at h
    · injection h with h
      subst h
      exact List.mem_cons_of_mem _ hb
    · exact List.mem_cons_of_mem _ (ih r h b hb)

/-- What holds of URLs that were parsed. -/
structure Parsed (u : Url) : Prop where
  base : ∀ b ∈ u.base, b ≠ 63 ∧ b ≠ 35
  query : ∀ b ∈ u.rawQuery, b ≠ 35
  force : u.force = true → u.rawQuery = []

theorem parse_parsed {fixBase fixFragment : Bytes → Option Bytes} (g : GoodFix fixBase fixFragment) {t : Bytes} {u : Url} (h : parseUrl fixBase fixFragment t = some u) : Parsed u := by
  unfold parseUrl at h
  dsimp only at h
  split at h
  · cases h
  · split at h
    · rename_i base frag hb hf
      injection h with h
      subst h
      refine ⟨fun b hm => ⟨toNat_ne (n := 63) (by omega) (g.clean _ _ hb b hm).1, toNat_ne (n := 35) (by omega) (g.clean _ _ hb b hm).2.1⟩, ?_, ?_⟩
      · intro b hm
        dsimp only at hm
        cases hd : (cutOctet 63 (cutOctet 35 t).1).2 with
        | none => rw [hd] at hm; cases hm
        | some r =>
          rw [hd] at hm
          exact (cutOctet_fst 35 t b (cutOctet_snd _ _ r hd b hm)).1
      · intro hd
        dsimp only at hd ⊢
        rw [of_decide_eq_true hd]
        rfl
    · cases h

/-- The query with its question mark. -/
def markQuery (u : Url) : Bytes := if u.force = true ∨ u.rawQuery ≠ [] then 63 :: u.rawQuery else []

theorem string_cut {u : Url} (h : Parsed u) :
    cutOctet 35 u.string = (u.base ++ markQuery u, if u.fragment ≠ [] then some u.fragment else none) ∧
    cutOctet 63 (u.base ++ markQuery u) = (u.base, if u.force = true ∨ u.rawQuery ≠ [] then some u.rawQuery else none) := by
  have h1 : ∀ b ∈ u.base ++ markQuery u, b ≠ 35 := by
    intro b hb
    rcases List.mem_append.1 hb with hb | hb
    · exact (h.base b hb).2
    · unfold markQuery at hb
      split at hb
      · rcases List.mem_cons.1 hb with rfl | hb
        · decide
        · exact h.query b hb
      · cases hb
  have hs : u.string = (u.base ++ markQuery u) ++ (if u.fragment ≠ [] then 35 :: u.fragment else []) := rfl
  constructor
  · rw [hs]
    by_cases hf : u.fragment ≠ []
    · rw [if_pos hf, if_pos hf, cutOctet_some _ h1]
    · rw [if_neg hf, if_neg hf, List.append_nil, cutOctet_none h1]
  · unfold markQuery
    by_cases hq : u.force = true ∨ u.rawQuery ≠ []
    · rw [if_pos hq, if_pos hq, cutOctet_some _ (fun b hb => (h.base b hb).1)]
    · rw [if_neg hq, if_neg hq, List.append_nil, cutOctet_none (fun b hb => (h.base b hb).1)]

theorem string_injective {u v : Url} (hu : Parsed u) (hv : Parsed v) (h : u.string = v.string) : u = v := by
  obtain ⟨a1, a2⟩ := string_cut hu
  obtain ⟨b1, b2⟩ := string_cut hv
  rw [h, b1] at a1
  injection a1 with e1 e2
  rw [← e1, b2] at a2
  injection a2 with e3 e4
  have hfrag : u.fragment = v.fragment := by
    by_cases h1 : u.fragment = [] <;> by_cases h2 : v.fragment = [] <;> simp_all
  have hq : u.rawQuery = v.rawQuery ∧ u.force = v.force := by
    have fu := hu.force
    have fv := hv.force
    cases huf : u.force <;> cases hvf : v.force <;> by_cases h1 : u.rawQuery = [] <;> by_cases h2 : v.rawQuery = [] <;> simp_all
  obtain ⟨ub, uf, uq, ur⟩ := u
  obtain ⟨vb, vf, vq, vr⟩ := v
  simp only [Url.mk.injEq]
  exact ⟨e3.symm, hq.2, hq.1, hfrag⟩

/-- The URL that `normalizedUrlString` writes. -/
def normalUrl (u : Url) : Url := if u.rawQuery ≠ [] then { u with rawQuery := encodeQuery (queryPairs u.rawQuery) } else u

theorem normalizedUrl_eq (u : Url) : normalizedUrl u = (normalUrl u).string := by
  unfold normalizedUrl normalUrl
  split <;> rfl

theorem escapeOctet_safe (b : UInt8) : ∀ x ∈ escapeOctet b, 32 ≤ x.toNat ∧ x.toNat ≠ 127 ∧ x ≠ 35 := by
  have key : ∀ n, n < 256 → ∀ x ∈ escapeOctet (UInt8.ofNat n), 32 ≤ x.toNat ∧ x.toNat ≠ 127 ∧ x ≠ 35 := by decide +kernel
  exact octet_all (P := fun b => ∀ x ∈ escapeOctet b, 32 ≤ x.toNat ∧ x.toNat ≠ 127 ∧ x ≠ 35) key b

theorem encodePair_safe (p : Bytes × Bytes) : ∀ x ∈ encodePair p, 32 ≤ x.toNat ∧ x.toNat ≠ 127 ∧ x ≠ 35 := by
  have key : ∀ bs : Bytes, ∀ x ∈ queryEscape bs, 32 ≤ x.toNat ∧ x.toNat ≠ 127 ∧ x ≠ 35 := by
    intro bs x hx
    obtain ⟨b, _, hb⟩ := List.mem_flatMap.1 hx
    exact escapeOctet_safe b x hb
  intro x hx
  rcases List.mem_append.1 hx with h | h
  · exact key _ x h
  · rcases List.mem_cons.1 h with rfl | h
    · decide
    · exact key _ x h

theorem joinAmp_safe (l : List Bytes) (h : ∀ t ∈ l, ∀ x ∈ t, 32 ≤ x.toNat ∧ x.toNat ≠ 127 ∧ x ≠ 35) : ∀ x ∈ joinAmp l, 32 ≤ x.toNat ∧ x.toNat ≠ 127 ∧ x ≠ 35 := by
  induction l with
  | nil => intro x hx; cases hx
  | cons t l ih =>
    intro x hx
    rw [joinAmp] at hx
    split at hx
    · exact h t (List.mem_cons_self ..) x hx
    · rcases List.mem_append.1 hx with hx | hx
      · exact h t (List.mem_cons_self ..) x hx
      · rcases List.mem_cons.1 hx with rfl | hx
        · decide
        · exact ih (fun s hs => h s (List.mem_cons_of_mem _ hs)) x hx

theorem encodeQuery_safe (ps : List (Bytes × Bytes)) : ∀ x ∈ encodeQuery ps, 32 ≤ x.toNat ∧ x.toNat ≠ 127 ∧ x ≠ 35 := by
  apply joinAmp_safe
  intro t ht
  obtain ⟨p, _, rfl⟩ := List.mem_map.1 ht
  exact encodePair_safe p

theorem normalUrl_parsed {u : Url} (h : Parsed u) : Parsed (normalUrl u) := by
  unfold normalUrl
  split
  · rename_i hq
    exact ⟨h.base, fun b hb => (encodeQuery_safe _ b hb).2.2, fun hf => absurd (h.force hf) hq⟩
  · exact h

theorem normalUrl_same (u : Url) : (normalUrl u).base = u.base ∧ (normalUrl u).fragment = u.fragment ∧ (normalUrl u).force = u.force := by
  unfold normalUrl
  split <;> exact ⟨rfl, rfl, rfl⟩

theorem normalUrl_query {u : Url} {ps : List (Bytes × Bytes)} (h : QueryIs u.rawQuery ps) : (normalUrl u).rawQuery = encodeQuery ps := by
  rcases h with ⟨hq, rfl⟩ | hf
  · unfold normalUrl
    rw [if_neg (fun h => h hq), hq]
    rfl
  · unfold normalUrl
    rw [if_pos (form_ne_nil hf).1, form_read hf]

/-! ### C117 -/

/-- **C117 (meaning).** The query that is written has every name with its values in the order in which they came, and the names in increasing order. -/
theorem C117_meaning {q : Bytes} {ps : List (Bytes × Bytes)} (h : Form q ps) :
    ∃ qs, Form (encodeQuery (queryPairs q)) qs ∧ SameValues ps qs ∧ (qs.map Prod.fst).Pairwise (fun a b => bytesLe a b = true) := by
  rw [form_read h]
  refine ⟨_, form_written _ (grouped_ne_nil (form_ne_nil h).2), (sameValues_iff _ _).2 (fun n => (grouped_values ps n).symm), ?_⟩
  have key : ∀ ks : List Bytes, NamesSorted ks → ((ks.flatMap (pairsOf ps)).map Prod.fst).Pairwise (fun a b => bytesLe a b = true) := by
    intro ks
    induction ks with
    | nil => intro _; exact List.Pairwise.nil
    | cons k ks ih =>
      intro hk
      have hk' := List.pairwise_cons.1 hk
      rw [List.flatMap_cons, List.map_append, List.pairwise_append]
      have hfst : ∀ a k, a ∈ (pairsOf ps k).map Prod.fst → a = k := by
        intro a k ha
        obtain ⟨p, hp, rfl⟩ := List.mem_map.1 ha
        obtain ⟨v, _, rfl⟩ := List.mem_map.1 hp
        rfl
      refine ⟨?_, ih hk'.2, ?_⟩
      · apply List.Pairwise.imp_of_mem (R := fun _ _ => True)
        · intro a b ha hb _
          rw [hfst a k ha, hfst b k hb]
          exact bytesLe_refl k
        · exact List.pairwise_of_forall (fun _ _ => trivial)
      · intro a ha b hb
        rw [hfst a k ha]
        obtain ⟨p, hp, rfl⟩ := List.mem_map.1 hb
        obtain ⟨k', hk1, hk2⟩ := List.mem_flatMap.1 hp
        rw [hfst p.1 k' (List.mem_map.2 ⟨p, hk2, rfl⟩)]
        exact (hk'.1 k' hk1).1
  exact key _ (sortedNames_sorted ps)

/-- **C117 (the same URL).** Two URLs whose queries are pairs of names and values are taken for the same exactly when they differ at most in the order of different names and in the way octets are escaped.
Full statement: this holds of all URLs, with pairs or without. It does not: `C117_dropped_fails`. -/
theorem C117_same_partial {fixBase fixFragment : Bytes → Option Bytes} (g : GoodFix fixBase fixFragment) {s t : Bytes} {u v : Url} (hs : parseUrl fixBase fixFragment s = some u)
    (ht : parseUrl fixBase fixFragment t = some v) {ps qs : List (Bytes × Bytes)} (hp : QueryIs u.rawQuery ps) (hq : QueryIs v.rawQuery qs) :
    normalizedUrl u = normalizedUrl v ↔ u.base = v.base ∧ u.fragment = v.fragment ∧ u.force = v.force ∧ SameValues ps qs := by
  rw [normalizedUrl_eq, normalizedUrl_eq]
  have hu := normalUrl_parsed (parse_parsed g hs)
  have hv := normalUrl_parsed (parse_parsed g ht)
  obtain ⟨u1, u2, u3⟩ := normalUrl_same u
  obtain ⟨v1, v2, v3⟩ := normalUrl_same v
  have u4 := normalUrl_query hp
  have v4 := normalUrl_query hq
  rw [sameValues_iff, ← encode_eq_iff, ← u4, ← v4, ← u1, ← u2, ← u3, ← v1, ← v2, ← v3]
  constructor
  · intro h
    rw [string_injective hu hv h]
    exact ⟨rfl, rfl, rfl, rfl⟩
  · rintro ⟨h1, h2, h3, h4⟩
    unfold Url.string
    rw [h1, h2, h3, h4]

/-- **C117 (again).** A normalised URL is a URL, and normalising it again does not change it. -/
theorem C117_again {fixBase fixFragment : Bytes → Option Bytes} (g : GoodFix fixBase fixFragment) {t : Bytes} {u : Url} (h : parseUrl fixBase fixFragment t = some u) :
    ∃ v, parseUrl fixBase fixFragment (normalizedUrl u) = some v ∧ normalizedUrl v = normalizedUrl u := by
  have hp := parse_parsed g h
  have hn := normalUrl_parsed hp
  refine ⟨normalUrl u, ?_, ?_⟩
  · rw [normalizedUrl_eq]
    have hctl : (u.base ++ markQuery (normalUrl u)).any (fun b => decide (b.toNat < 32) || decide (b.toNat = 127)) = false ∧ fixBase u.base = some u.base ∧ fixFragment u.fragment = some u.fragment := by
      unfold parseUrl at h
      dsimp only at h
      split at h
      · cases h
      · rename_i hc
        split at h
        · rename_i base frag hb hf
          injection h with h
          have e1 : u.base = base := by rw [← h]
          have e2 : u.fragment = frag := by rw [← h]
          rw [e1, e2]
          refine ⟨?_, g.again _ _ hb, g.fragment _ _ hf⟩
          rw [List.any_eq_false]
          intro b hm
          have good : 32 ≤ b.toNat ∧ b.toNat ≠ 127 := by
            rcases List.mem_append.1 hm with hm | hm
            · exact (g.clean _ _ hb b hm).2.2
            · unfold markQuery at hm
              split at hm
              · rcases List.mem_cons.1 hm with rfl | hm
                · decide
                · unfold normalUrl at hm
                  split at hm
                  · exact ⟨(encodeQuery_safe _ b hm).1, (encodeQuery_safe _ b hm).2.1⟩
                  · rename_i hne
                    have : u.rawQuery = [] := Classical.byContradiction hne
                    rw [this] at hm
                    cases hm
              · cases hm
          have h1 : ¬ b.toNat < 32 := by omega
          simp [h1, good.2]
        · cases h
    obtain ⟨c1, c2⟩ := string_cut hn
    obtain ⟨n1, n2, n3⟩ := normalUrl_same u
    rw [n1] at c1 c2
    unfold parseUrl
    dsimp only
    rw [c1]
    dsimp only
    rw [c2, hctl.1]
    dsimp only
    have hfr : fixFragment ((if (normalUrl u).fragment ≠ [] then some (normalUrl u).fragment else none).getD []) = some u.fragment := by
      rw [n2]
      by_cases hf : u.fragment ≠ []
      · rw [if_pos hf]; exact hctl.2.2
      · rw [if_neg hf]
        have : u.fragment = [] := Classical.byContradiction hf
        rw [this]
        exact g.none
    rw [hctl.2.1, hfr, if_neg (by simp)]
    dsimp only
    congr 1
    have hforce := hn.force
    generalize normalUrl u = w at n1 n2 n3 hforce
    obtain ⟨wb, wf, wq, wr⟩ := w
    dsimp only at n1 n2 n3 hforce ⊢
    subst n1 n2
    by_cases hq : wq = []
    · subst hq
      cases wf <;> simp
    · have : wf = false := by
        cases wf
        · rfl
        · exact absurd (hforce rfl) hq
      subst this
      simp [hq]
  · unfold normalUrl
    by_cases hq : u.rawQuery ≠ []
    · rw [if_pos hq]
      unfold normalizedUrl
      rw [if_pos hq]
      dsimp only
      by_cases he : encodeQuery (queryPairs u.rawQuery) ≠ []
      · rw [if_pos he]
        have : encodeQuery (queryPairs (encodeQuery (queryPairs u.rawQuery))) = encodeQuery (queryPairs u.rawQuery) := by
          rw [encode_eq_iff, encode_read]
          exact grouped_values _
        rw [this]
      · rw [if_neg he]
    · rw [if_neg hq]

theorem consHead_append (b : UInt8) (l m : List Bytes) (h : l ≠ []) : consHead b (l ++ m) = consHead b l ++ m := by
  cases l with
  | nil => exact absurd rfl h
  | cons x l => rfl

theorem splitAmp_ne (q : Bytes) : splitAmp q ≠ [] := by
  induction q with
  | nil => intro h; cases h
  | cons b q ih =>
    rw [splitAmp]
    split
    · intro h; cases h
    · cases hs : splitAmp q with
      | nil => exact absurd hs ih
      | cons x l => intro h; cases h

theorem splitAmp_append (q j : Bytes) : splitAmp (q ++ 38 :: j) = splitAmp q ++ splitAmp j := by
  induction q with
  | nil => rfl
  | cons b q ih =>
    rw [List.cons_append, splitAmp, splitAmp, ih]
    split
    · rfl
    · exact consHead_append b _ _ (splitAmp_ne q)

theorem splitAmp_plain {j : Bytes} (h : (38 : UInt8) ∉ j) : splitAmp j = [j] := by
  induction j with
  | nil => rfl
  | cons b j ih =>
    have hb : b ≠ 38 := by
      rintro rfl
      exact h (List.mem_cons_self ..)
    rw [splitAmp, if_neg hb, ih (fun e => h (List.mem_cons_of_mem _ e))]
    rfl

theorem semicolon_dropped {j : Bytes} (h : (59 : UInt8) ∈ j) (ha : (38 : UInt8) ∉ j) : queryPairs j = [] := by
  unfold queryPairs queryPair
  rw [splitAmp_plain ha, List.filterMap_cons, if_pos (List.contains_iff_mem.2 h)]
  rfl

/-- **C117 (dropped).** A part of the query with a semicolon is lost: a URL with it is taken for the one without it; a URL with nothing else in its query is taken for one with an empty query. -/
theorem C117_dropped_fails (base q j frag : Bytes) (hq : q ≠ []) (h : (59 : UInt8) ∈ j) (ha : (38 : UInt8) ∉ j) :
    normalizedUrl ⟨base, false, q ++ 38 :: j, frag⟩ = normalizedUrl ⟨base, false, q, frag⟩ ∧ normalizedUrl ⟨base, false, j, frag⟩ = normalizedUrl ⟨base, false, [], frag⟩ := by
  have hj : j ≠ [] := by
    rintro rfl
    cases h
  have e : queryPairs (q ++ 38 :: j) = queryPairs q := by
    show (splitAmp (q ++ 38 :: j)).filterMap queryPair = (splitAmp q).filterMap queryPair
    rw [splitAmp_append, List.filterMap_append]
    have := semicolon_dropped h ha
    unfold queryPairs at this
    rw [this, List.append_nil]
  constructor
  · unfold normalizedUrl
    dsimp only
    rw [if_pos hq, if_pos (by simp), e]
  · unfold normalizedUrl
    dsimp only
    rw [if_pos hj, semicolon_dropped h ha]
    rfl

/-- The URL of a host's file with a query. -/
def sampleUrl (q : String) : Url := ⟨"http://c.example/a".toList.map (fun c => UInt8.ofNat c.toNat), false, q.toList.map (fun c => UInt8.ofNat c.toNat), []⟩

theorem sample_names (sha : Text → Bytes) (host path : Text) :
    makeFilenameFromUrl (fun t => t.map Char.toLower) sha ((sampleUrl "a;b").parts host path) = makeFilenameFromUrl (fun t => t.map Char.toLower) sha ((sampleUrl ";ab").parts host path) := by
  have hn : octetText (normalizedUrl (sampleUrl "a;b")) = octetText (normalizedUrl (sampleUrl ";ab")) := by decide +kernel
  have hr : readableName (fun t => t.map Char.toLower) ((sampleUrl "a;b").parts host path) = readableName (fun t => t.map Char.toLower) ((sampleUrl ";ab").parts host path) := by
    have e1 : ((sampleUrl "a;b").parts host path).rawQuery = ['a', ';', 'b'] := by
      show octetText (sampleUrl "a;b").rawQuery = _
      decide +kernel
    have e2 : ((sampleUrl ";ab").parts host path).rawQuery = [';', 'a', 'b'] := by
      show octetText (sampleUrl ";ab").rawQuery = _
      decide +kernel
    unfold readableName
    dsimp only
    rw [e1, e2, if_pos (by decide), if_pos (by decide)]
    simp only [List.map_append, List.filter_append]
    have : (List.map Char.toLower ['-', 'a', ';', 'b']).filter legalPathChar = (List.map Char.toLower ['-', ';', 'a', 'b']).filter legalPathChar := by decide +kernel
    rw [this]
    rfl
  unfold makeFilenameFromUrl
  rw [hr]
  show _ ++ '-' :: (hexEncode ((sha (octetText (normalizedUrl (sampleUrl "a;b")))).take 8) ++ _) = _ ++ '-' :: (hexEncode ((sha (octetText (normalizedUrl (sampleUrl ";ab")))).take 8) ++ _)
  rw [hn]

/-- **C117 (lost).** Two different URLs of an issuer can get the same file: the CRL that is downloaded first is overwritten, and the second one is processed for both URLs, whatever the hash function. -/
theorem C117_lost_fails : ∃ u v : Url, u.string ≠ v.string ∧ ∀ (sha : Text → Bytes) (host path : Text) (c d : CrlFile) (partitioned : Bool) (partition : List Text) (url : Text),
    ∃ a b, a = makeFilenameFromUrl (fun t => t.map Char.toLower) sha (u.parts host path) ∧ b = makeFilenameFromUrl (fun t => t.map Char.toLower) sha (v.parts host path) ∧
      treatCrl (afterWrites [(a, c), (b, d)]) partitioned partition ⟨url, some a⟩ = treatCrl (afterWrites [(b, d)]) partitioned partition ⟨url, some b⟩ := by
  refine ⟨sampleUrl "a;b", sampleUrl ";ab", by decide +kernel, fun sha host path c d partitioned partition url => ⟨_, _, rfl, rfl, ?_⟩⟩
  rw [sample_names]
  generalize makeFilenameFromUrl (fun t => t.map Char.toLower) sha ((sampleUrl ";ab").parts host path) = n
  have h : afterWrites [(n, c), (n, d)] n = afterWrites [(n, d)] n := by simp [afterWrites]
  unfold treatCrl loadCrl
  dsimp only
  rw [h]

/-- **C117 (separate files).** URLs with pairs that are not taken for the same get different files, unless the first eight octets of their SHA-256 hashes agree.
Full statement: this holds of all URLs that differ. It does not: `C117_lost_fails`. -/
theorem C117_files_partial {fixBase fixFragment : Bytes → Option Bytes} (g : GoodFix fixBase fixFragment) {s t : Bytes} {u v : Url} (hs : parseUrl fixBase fixFragment s = some u)
    (ht : parseUrl fixBase fixFragment t = some v) {ps qs : List (Bytes × Bytes)} (hp : QueryIs u.rawQuery ps) (hq : QueryIs v.rawQuery qs)
    (hd : ¬ (u.base = v.base ∧ u.fragment = v.fragment ∧ u.force = v.force ∧ SameValues ps qs)) (lower : Text → Text) (sha : Text → Bytes) (hlen : ∀ t, (sha t).length = 32)
    (hsha : normalizedUrl u ≠ normalizedUrl v → (sha (octetText (normalizedUrl u))).take 8 ≠ (sha (octetText (normalizedUrl v))).take 8) (h1 p1 h2 p2 : Text) :
    makeFilenameFromUrl lower sha (u.parts h1 p1) ≠ makeFilenameFromUrl lower sha (v.parts h2 p2) :=
  C55_distinct lower sha hlen _ _ (hsha (fun e => hd ((C117_same_partial g hs ht hp hq).1 e)))

/-- **C117 (not byte for byte).** A distribution point that names the URL with its parameters in another order, or escaped in another way, is taken for the URL that was fetched,
although the octets differ. -/
theorem C117_bytes_fails {fixBase fixFragment : Bytes → Option Bytes} (g : GoodFix fixBase fixFragment) {s t : Bytes} {u v : Url} (hs : parseUrl fixBase fixFragment s = some u)
    (ht : parseUrl fixBase fixFragment t = some v) {ps qs : List (Bytes × Bytes)} (hp : Form u.rawQuery ps) (hq : Form v.rawQuery qs)
    (h : u.base = v.base ∧ u.fragment = v.fragment ∧ SameValues ps qs) (c : CrlFile) (hc : c.idp = some [some (octetText (normalizedUrl v))]) :
    checkIdp c (octetText (normalizedUrl u)) [octetText (normalizedUrl u)] = true := by
  have hf : ∀ {w : Url} {rs}, Parsed w → Form w.rawQuery rs → w.force = false := by
    intro w rs hw hr
    cases hwf : w.force with
    | false => rfl
    | true => exact absurd (hw.force hwf) (form_ne_nil hr).1
  have e : normalizedUrl u = normalizedUrl v :=
    (C117_same_partial g hs ht (.inr hp) (.inr hq)).2 ⟨h.1, h.2.1, (hf (parse_parsed g hs) hp).trans (hf (parse_parsed g ht) hq).symm, h.2.2⟩
  unfold checkIdp
  rw [hc, e]
  simp [idpLoop]

/-! ### each theorem applied -/

/-- Parts without `?`, `#` and control characters stay as they are. -/
def plainBase (x : Bytes) : Option Bytes :=
  if x.all (fun b => decide (b.toNat ≠ 63 ∧ b.toNat ≠ 35 ∧ 32 ≤ b.toNat ∧ b.toNat ≠ 127)) then some x else none

theorem plain_good : GoodFix plainBase some := by
  have key : ∀ x y, plainBase x = some y → y = x ∧ x.all (fun b => decide (b.toNat ≠ 63 ∧ b.toNat ≠ 35 ∧ 32 ≤ b.toNat ∧ b.toNat ≠ 127)) = true := by
    intro x y h
    unfold plainBase at h
    split at h
    · rename_i hx
      injection h with h
      exact ⟨h.symm, hx⟩
    · cases h
  refine ⟨fun x y h b hb => ?_, fun x y h => ?_, fun x y h => ?_, rfl⟩
  · obtain ⟨rfl, hx⟩ := key x y h
    exact of_decide_eq_true (List.all_eq_true.1 hx b hb)
  · obtain ⟨rfl, _⟩ := key x y h
    exact h
  · injection h with h
    rfl

/-- x=1&y=+ and y=%20&x=1 -/
def queryA : Bytes := [120, 61, 49, 38, 121, 61, 43]
def queryB : Bytes := [121, 61, 37, 50, 48, 38, 120, 61, 49]

theorem queryA_form : Form queryA [([120], [49]), ([121], [32])] :=
  .more (n := [120]) (v := [49]) (q := [121, 61, 43]) (.plain (by decide) (by decide) (by decide) (by decide) (by decide) .nil) (.plain (by decide) (by decide) (by decide) (by decide) (by decide) .nil)
    (.one (n := [121]) (v := [43]) (.plain (by decide) (by decide) (by decide) (by decide) (by decide) .nil) (.plus .nil))

theorem queryB_form : Form queryB [([121], [32]), ([120], [49])] :=
  .more (n := [121]) (v := [37, 50, 48]) (q := [120, 61, 49]) (.plain (by decide) (by decide) (by decide) (by decide) (by decide) .nil)
    (.octet (d := 2) (e := 0) ⟨by decide, .inl (by decide)⟩ ⟨by decide, .inl (by decide)⟩ (by decide) .nil)
    (.one (n := [120]) (v := [49]) (.plain (by decide) (by decide) (by decide) (by decide) (by decide) .nil) (.plain (by decide) (by decide) (by decide) (by decide) (by decide) .nil))

theorem queryAB_same : SameValues [([120], [49]), ([121], [32])] [([121], [32]), ([120], [49])] := by
  rw [sameValues_iff]
  intro n
  by_cases h1 : n = [120] <;> by_cases h2 : n = [121] <;> simp_all [valuesOf, eq_comm]

/-- h/a?x=1&y=+, h/a?y=%20&x=1 and h/a? -/
def urlA : Bytes := [104, 47, 97, 63] ++ queryA
def urlB : Bytes := [104, 47, 97, 63] ++ queryB
def urlC : Bytes := [104, 47, 97, 63]

theorem urlA_parsed : parseUrl plainBase some urlA = some ⟨[104, 47, 97], false, queryA, []⟩ := by decide +kernel
theorem urlB_parsed : parseUrl plainBase some urlB = some ⟨[104, 47, 97], false, queryB, []⟩ := by decide +kernel
theorem urlC_parsed : parseUrl plainBase some urlC = some ⟨[104, 47, 97], true, [], []⟩ := by decide +kernel

example := C117_meaning queryA_form
example := C117_meaning queryB_form
example : normalizedUrl ⟨[104, 47, 97], false, queryA, []⟩ = normalizedUrl ⟨[104, 47, 97], false, queryB, []⟩ ∧ urlA ≠ urlB :=
  ⟨(C117_same_partial plain_good urlA_parsed urlB_parsed (.inr queryA_form) (.inr queryB_form)).2 ⟨rfl, rfl, rfl, queryAB_same⟩, by decide⟩
example : normalizedUrl ⟨[104, 47, 97], false, queryA, []⟩ ≠ normalizedUrl ⟨[104, 47, 97], true, [], []⟩ :=
  fun e => by have := ((C117_same_partial plain_good urlA_parsed urlC_parsed (.inr queryA_form) (.inl ⟨rfl, rfl⟩)).1 e).2.2.1; cases this
example := C117_again plain_good urlA_parsed
example := C117_again plain_good urlC_parsed
example := C117_dropped_fails [104] [120, 61, 49] [97, 59, 98] [] (by decide) (by decide) (by decide)
example := C117_lost_fails
example := C117_files_partial plain_good urlA_parsed urlC_parsed (.inr queryA_form) (.inl ⟨rfl, rfl⟩) (fun h => by cases h.2.2.1) id
  (fun t => UInt8.ofNat t.length :: List.replicate 31 0) (fun t => by simp) (fun _ => by decide +kernel) ['h'] ['/', 'a'] ['h'] ['/', 'a']
example := C117_bytes_fails plain_good urlA_parsed urlB_parsed queryA_form queryB_form ⟨rfl, rfl, queryAB_same⟩ ⟨true, some [], some [some (octetText (normalizedUrl ⟨[104, 47, 97], false, queryB, []⟩))], 0⟩ rfl

end Verif.Props
