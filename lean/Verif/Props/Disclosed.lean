import Verif.Props.Issuers
import Verif.Props.Flow
/-!
Property C86: from the CRLs disclosed in the CCADB report to the revoked files and to the client's answer.
-/
namespace Verif.Props
open Verif.Spec

/-! ### what the report discloses -/

/-- The CRL fields of a row say `full` and the array `urls`: white space around `full`; the array is written as JSON, or left out. No URL has a comma or a quote (see `C52_comma_fails`). -/
def Spec.CrlFields (sp : Char → Bool) (r : CcadbRow) (full : Text) (urls : List Text) : Prop :=
  (∃ a b, r.full = a ++ (full ++ b) ∧ (∀ c ∈ a, sp c = true) ∧ (∀ c ∈ b, sp c = true) ∧ (full = [] ∨ (CleanEdges sp full ∧ CleanEdges (fun c => c == '"') full))) ∧
  ((urls = [] ∧ ∀ c ∈ r.json, sp c = true) ∨
   ∃ pre els post, r.json = renderArray pre els post ∧ els.map (fun e => e.2.1) = urls ∧ (∀ c ∈ pre, sp c = true) ∧ (∀ c ∈ post, sp c = true) ∧ ∀ e ∈ els, PlainElement sp e)

/-- The report discloses the CRL `v` for issuer `i`: a certificate of the issuer that chains to a root has `v`, an http(s) URL, in its row (the first one, see `C79_duplicate_row_fails`). -/
def Spec.Discloses (sp : Char → Bool) (parse : UrlParse) (chained : IssCert → Prop) (rows : List CcadbRow) (i v : Text) : Prop :=
  ∃ r c full urls t, FirstRow rows r c ∧ chained c ∧ c.issuer = i ∧ Spec.CrlFields sp r full urls ∧ ((t = full ∧ full ≠ []) ∨ t ∈ urls) ∧ HttpUrl parse t v

/-- What is needed of `unicode.IsSpace`. -/
structure Spec.Spaces (sp : Char → Bool) : Prop where
  quote : sp '"' = false
  left : sp '[' = false
  right : sp ']' = false
  comma : sp ',' = false

theorem jsonPieces_blank (sp : Char → Bool) (t : Text) (h : ∀ c ∈ t, sp c = true) : jsonPieces sp t = [] := by
  have : trimBoth sp t = [] := by
    have := trimBoth_nil_of_all (p := sp) (x := t) h
    exact this
  unfold jsonPieces
  rw [this]
  rfl

theorem mem_decode (sp : Char → Bool) (hsp : Spec.Spaces sp) (parse : UrlParse) (r : CcadbRow) (full : Text) (urls : List Text) (hf : Spec.CrlFields sp r full urls) (v : Text) :
    v ∈ (decodeCrls sp parse r.full r.json).1 ↔ ∃ t, ((t = full ∧ full ≠ []) ∨ t ∈ urls) ∧ HttpUrl parse t v := by
  obtain ⟨⟨a, b, e1, ha, hb, hfull⟩, hj⟩ := hf
  have h : v ∈ (decodeCrls sp parse r.full r.json).1 ↔ (full ≠ [] ∧ HttpUrl parse full v) ∨ ∃ t ∈ urls, HttpUrl parse t v := by
    rcases hj with ⟨rfl, hj⟩ | ⟨pre, els, post, e2, rfl, hpre, hpost, hels⟩
    · have h0 := (C52_exact_partial sp hsp.quote hsp.left hsp.right hsp.comma parse full a b ha hb hfull [] [] (by simp) (by simp) [] (by simp)).1 v
      have hd : (decodeCrls sp parse r.full r.json).1 = (decodeCrls sp parse (a ++ (full ++ b)) (renderArray [] [] [])).1 := by
        unfold decodeCrls
        rw [e1, jsonPieces_blank sp r.json hj]
        have := jsonPieces_render sp hsp.quote hsp.left hsp.right hsp.comma [] [] (by simp) (by simp) [] (by simp)
        rw [this]
        rfl
      rw [hd, h0]
      simp
    · rw [e1, e2, (C52_exact_partial sp hsp.quote hsp.left hsp.right hsp.comma parse full a b ha hb hfull pre post hpre hpost els hels).1 v]
      refine or_congr Iff.rfl ⟨?_, ?_⟩
      · rintro ⟨e, he, h⟩; exact ⟨_, List.mem_map.2 ⟨e, he, rfl⟩, h⟩
      · rintro ⟨t, ht, h⟩
        obtain ⟨e, he, rfl⟩ := List.mem_map.1 ht
        exact ⟨e, he, h⟩
  rw [h]
  constructor
  · rintro (⟨h1, h2⟩ | ⟨t, ht, h2⟩)
    · exact ⟨full, Or.inl ⟨rfl, h1⟩, h2⟩
    · exact ⟨t, Or.inr ht, h2⟩
  · rintro ⟨t, ⟨rfl, h1⟩ | ht, h2⟩
    · exact Or.inl ⟨h1, h2⟩
    · exact Or.inr ⟨t, ht, h2⟩

/-- The rows of the report that matter have CRL fields as CCADB writes them. -/
def Spec.WellFormed (sp : Char → Bool) (rows : List CcadbRow) : Prop := ∀ r ∈ rows, ∃ full urls, Spec.CrlFields sp r full urls

/-- The verdict of chain building for the certificates of the report. -/
def Spec.Chained (sp : Char → Bool) (parse : UrlParse) (chains : List IssCert → List IssCert → IssCert → Bool) (rows : List CcadbRow) (c : IssCert) : Prop :=
  chains (rootPool rows) ((intermediates sp parse rows []).map Prod.fst) c = true

theorem hasUrl_iff_discloses (sp : Char → Bool) (hsp : Spec.Spaces sp) (parse : UrlParse) (chains : List IssCert → List IssCert → IssCert → Bool)
    (order : List (IssCert × List Text × Bool) → List (IssCert × List Text × Bool)) (horder : ∀ l x, x ∈ order l ↔ x ∈ l) (rows : List CcadbRow) (hw : Spec.WellFormed sp rows) (i v : Text) :
    HasUrl (loadFromDisk sp parse chains order rows).crls i v ↔ Spec.Discloses sp parse (Spec.Chained sp parse chains rows) rows i v := by
  rw [C79_loaded sp parse chains order horder rows i v]
  constructor
  · rintro ⟨r, c, hF, hc, hi, hv⟩
    have hr : r ∈ rows := by
      obtain ⟨pre, post, e, _⟩ := hF
      rw [e]; simp
    obtain ⟨full, urls, hf⟩ := hw r hr
    obtain ⟨t, ht, hh⟩ := (mem_decode sp hsp parse r full urls hf v).1 hv
    exact ⟨r, c, full, urls, t, hF, hc, hi, hf, ht, hh⟩
  · rintro ⟨r, c, full, urls, t, hF, hc, hi, hf, ht, hh⟩
    exact ⟨r, c, hF, hc, hi, (mem_decode sp hsp parse r full urls hf v).2 ⟨t, ht, hh⟩⟩

theorem insertAll_keys (l : List (IssCert × List Text × Bool)) : ∀ m : MozIssuers, (m.crls.map Prod.fst).Nodup → ((m.insertAll l).crls.map Prod.fst).Nodup := by
  induction l with
  | nil => intro m h; exact h
  | cons e rest ih =>
    intro m h
    have := ih (m.insert e.1 e.2.1 e.2.2) (by rw [insert_crls]; exact keys_assocPut _ _ _ h)
    unfold MozIssuers.insertAll at this ⊢
    rw [List.foldl_cons]
    exact this

theorem loadFromDisk_keys (sp : Char → Bool) (parse : UrlParse) (chains : List IssCert → List IssCert → IssCert → Bool)
    (order : List (IssCert × List Text × Bool) → List (IssCert × List Text × Bool)) (rows : List CcadbRow) : ((loadFromDisk sp parse chains order rows).crls.map Prod.fst).Nodup := by
  unfold loadFromDisk
  exact insertAll_keys _ _ (by simp [MozIssuers.empty])

/-! ### one run over the report -/

/-- What a run of aggregate-crls is given: the report, and how the downloads went. `norm` parses a URL once more and normalises it; `fetch i w` is where the file of the normalised URL `w` is after the downloads (`none`: nothing usable);
`disk` is what the files contain. -/
structure Spec.ReportRun where
  sp : Char → Bool
  spaces : Spec.Spaces sp
  parse : UrlParse
  norm : Text → Option Text
  /-- The text of a URL can be parsed again. -/
  stable : ∀ t v, HttpUrl parse t v → ∃ w, norm v = some w
  chains : List IssCert → List IssCert → IssCert → Bool
  order : List (IssCert × List Text × Bool) → List (IssCert × List Text × Bool)
  ordered : ∀ l x, x ∈ order l ↔ x ∈ l
  rows : List CcadbRow
  formed : Spec.WellFormed sp rows
  fetch : Text → Text → Option Text
  part : Text → Bool
  disk : Text → Option CrlFile

namespace Spec.ReportRun

/-- What the aggregator is given. -/
def units (R : Spec.ReportRun) : List CrlUnit :=
  crlUnits R.norm R.fetch R.part (loadFromDisk R.sp R.parse R.chains R.order R.rows).crls

def Discloses (R : Spec.ReportRun) (i v : Text) : Prop := Spec.Discloses R.sp R.parse (Spec.Chained R.sp R.parse R.chains R.rows) R.rows i v

/-- The CRL `v` of issuer `i` was fetched, verified, and lists `l`. -/
def Got (R : Spec.ReportRun) (i v : Text) (l : List (Serial × UInt8)) : Prop := ∃ w, R.norm v = some w ∧ CrlLists R.disk { url := w, path := R.fetch i w } l

theorem nodup (R : Spec.ReportRun) : (R.units.map CrlUnit.issuer).Nodup := (crlUnits_issuers _ _ _ _).nodup (loadFromDisk_keys _ _ _ _ _)

end Spec.ReportRun

/-- The issuers given to the aggregator, and their CRLs. -/
theorem unit_iff (R : Spec.ReportRun) (i : Text) :
    ((∃ u ∈ R.units, u.issuer = i) ↔ ∃ v, R.Discloses i v) ∧
    ∀ u ∈ R.units, u.issuer = i → ∀ p, p ∈ u.paths ↔ ∃ v w, R.Discloses i v ∧ R.norm v = some w ∧ p = { url := w, path := R.fetch i w } := by
  have hurl := hasUrl_iff_discloses R.sp R.spaces R.parse R.chains R.order R.ordered R.rows R.formed
  have hkeys := loadFromDisk_keys R.sp R.parse R.chains R.order R.rows
  have hin : ∀ urls, (i, urls) ∈ (loadFromDisk R.sp R.parse R.chains R.order R.rows).crls → ∀ x, x ∈ urls ↔ R.Discloses i x := by
    intro urls hm x
    have hget := assocGet_of_mem hkeys hm
    rw [show R.Discloses i x ↔ _ from (hurl i x).symm]
    constructor
    · intro h; exact ⟨urls, hget, h⟩
    · rintro ⟨s, hs, h⟩
      rw [hget] at hs
      rw [Option.some.inj hs]; exact h
  have hself : ∀ urls w, (i, urls) ∈ (loadFromDisk R.sp R.parse R.chains R.order R.rows).crls → (w ∈ parseUrls R.norm urls ↔ ∃ v, R.Discloses i v ∧ R.norm v = some w) := by
    intro urls w hm
    unfold parseUrls
    rw [List.mem_filterMap]
    constructor
    · rintro ⟨x, hx, e⟩; exact ⟨x, (hin urls hm x).1 hx, e⟩
    · rintro ⟨x, hx, e⟩; exact ⟨x, (hin urls hm x).2 hx, e⟩
  refine ⟨⟨?_, ?_⟩, ?_⟩
  · rintro ⟨u, hu, rfl⟩
    obtain ⟨e, he, hne, rfl⟩ := (crlUnits_mem _ _ _ _ u).1 hu
    obtain ⟨j, urls⟩ := e
    obtain ⟨w, hw⟩ := List.exists_mem_of_ne_nil _ hne
    obtain ⟨v, hv, _⟩ := (hself urls w he).1 hw
    exact ⟨v, hv⟩
  · rintro ⟨v, hv⟩
    obtain ⟨urls, hget, _⟩ := (hurl i v).2 hv
    have hm := assocGet_mem hget
    have hv2 := hv
    obtain ⟨_, _, _, _, t, _, _, _, _, _, hh⟩ := hv2
    obtain ⟨w, hw⟩ := R.stable t v hh
    have hv' := (hself urls w hm).2 ⟨v, hv, hw⟩
    exact ⟨_, (crlUnits_mem _ _ _ _ _).2 ⟨(i, urls), hm, List.ne_nil_of_mem hv', rfl⟩, rfl⟩
  · intro u hu hui p
    obtain ⟨e, he, _, rfl⟩ := (crlUnits_mem _ _ _ _ u).1 hu
    obtain ⟨j, urls⟩ := e
    dsimp only at hui ⊢
    subst hui
    rw [List.mem_map]
    constructor
    · rintro ⟨w, hw, rfl⟩
      obtain ⟨v, hv, e⟩ := (hself urls w he).1 hw
      exact ⟨v, w, hv, e, rfl⟩
    · rintro ⟨v, w, hv, e, rfl⟩; exact ⟨w, (hself urls w he).2 ⟨v, hv, e⟩, rfl⟩

theorem goodUnit_iff (R : Spec.ReportRun) (i : Text) (u : CrlUnit) (hu : u ∈ R.units) (hui : u.issuer = i) :
    ((∀ p ∈ u.paths, ∃ l, CrlLists R.disk p l) ↔ ∀ v, R.Discloses i v → ∃ l, R.Got i v l) ∧
    ∀ s (Q : UInt8 → Prop), (∃ p ∈ u.paths, ∃ l c, CrlLists R.disk p l ∧ (s, c) ∈ l ∧ Q c) ↔ ∃ v l c, R.Discloses i v ∧ R.Got i v l ∧ (s, c) ∈ l ∧ Q c := by
  have k2 := (unit_iff R i).2 u hu hui
  refine ⟨⟨?_, ?_⟩, fun s Q => ⟨?_, ?_⟩⟩
  · intro h v hv
    have hv2 := hv
    obtain ⟨_, _, _, _, t, _, _, _, _, _, hh⟩ := hv2
    obtain ⟨w, hw⟩ := R.stable t v hh
    obtain ⟨l, hl⟩ := h _ ((k2 _).2 ⟨v, w, hv, hw, rfl⟩)
    exact ⟨l, w, hw, hl⟩
  · intro h p hp
    obtain ⟨v, w, hv, hw, rfl⟩ := (k2 p).1 hp
    obtain ⟨l, w', hw', hl⟩ := h v hv
    rw [hw] at hw'
    rw [Option.some.inj hw']
    exact ⟨l, hl⟩
  · rintro ⟨p, hp, l, c, hl, hc⟩
    obtain ⟨v, w, hv, hw, rfl⟩ := (k2 p).1 hp
    exact ⟨v, l, c, hv, ⟨w, hw, hl⟩, hc⟩
  · rintro ⟨v, l, c, hv, ⟨w, hw, hl⟩, hc⟩
    exact ⟨_, (k2 _).2 ⟨v, w, hv, hw, rfl⟩, l, c, hl, hc⟩

/-- A serial is on the CRLs of issuer `i`, as the aggregator sees it, iff all CRLs disclosed for the issuer were got and one of them lists it. -/
theorem onCrl_iff (R : Spec.ReportRun) (rs : ReasonSet) (i : Text) (s : Serial) :
    (∃ u ∈ R.units, u.issuer = i ∧ Spec.OnCrl R.disk u rs s) ↔
      (∀ v, R.Discloses i v → ∃ l, R.Got i v l) ∧ ∃ v l c, R.Discloses i v ∧ R.Got i v l ∧ (s, c) ∈ l ∧ codesOf rs c.toNat := by
  obtain ⟨h1, _⟩ := unit_iff R i
  constructor
  · rintro ⟨u, hu, hui, hg, hl⟩
    obtain ⟨g1, g2⟩ := goodUnit_iff R i u hu hui
    exact ⟨g1.1 hg, (g2 s (fun c => codesOf rs c.toNat)).1 hl⟩
  · rintro ⟨hg, hl⟩
    obtain ⟨u, hu, hui⟩ := h1.2 (by obtain ⟨v, _, _, hv, _⟩ := hl; exact ⟨v, hv⟩)
    obtain ⟨g1, g2⟩ := goodUnit_iff R i u hu hui
    exact ⟨u, hu, hui, g1.2 hg, (g2 s (fun c => codesOf rs c.toNat)).2 hl⟩

/-- **C86 (partial).** After an uninterrupted run with no unnoticed write error an issuer has a revoked file iff the report discloses a CRL for it and every disclosed CRL was fetched, verified and decoded; and then the filter builder reads
from the file exactly the serials that one of these CRLs lists with a reason of the set. Missing: URLs that are not http(s), which are left out silently (`C86_other_scheme_fails`). -/
theorem C86_file_partial (R : Spec.ReportRun) (threads : Nat) (h1 : 1 ≤ threads) (acts : List CrlAct)
    (hr : ((CrlAgg.init R.units threads (fun _ => none)).run R.disk acts).returned = true)
    (hc : ((CrlAgg.init R.units threads (fun _ => none)).run R.disk acts).cancelled = false)
    (hs : ((CrlAgg.init R.units threads (fun _ => none)).run R.disk acts).silent = false) (i : Text) :
    ((∃ t, ((CrlAgg.init R.units threads (fun _ => none)).run R.disk acts).files i = some t) ↔
      (∃ v, R.Discloses i v) ∧ ∀ v, R.Discloses i v → ∃ l, R.Got i v l) ∧
    ∀ t, ((CrlAgg.init R.units threads (fun _ => none)).run R.disk acts).files i = some t → ∀ rs, ∃ entries, readRevokedFile rs t = some entries ∧
      ∀ s, (∃ r, (hexEncode s, r) ∈ entries) ↔ ∃ v l c, R.Discloses i v ∧ R.Got i v l ∧ (s, c) ∈ l ∧ codesOf rs c.toNat := by
  obtain ⟨k1, _⟩ := unit_iff R i
  by_cases hd : ∃ v, R.Discloses i v
  · obtain ⟨u, hu, hui⟩ := k1.2 hd
    obtain ⟨hgood, hlist⟩ := goodUnit_iff R i u hu hui
    have hfile : ∀ t, ((CrlAgg.init R.units threads (fun _ => none)).run R.disk acts).files i = some t → ∀ p ∈ u.paths, ∃ l, CrlLists R.disk p l := by
      intro t ht
      rw [← hui] at ht
      obtain ⟨ls, ⟨ps, e1, _, e3⟩, _⟩ := (C46_file_iff_partial R.disk R.units R.nodup threads h1 _ acts hr hc hs u hu rfl t).1 ht
      intro p hp
      rw [← e1] at hp
      obtain ⟨q, hq, rfl⟩ := List.mem_map.1 hp
      exact ⟨_, e3 q hq⟩
    have hread : ∀ rs s, (∀ p ∈ u.paths, ∃ l, CrlLists R.disk p l) → ∃ t entries, ((CrlAgg.init R.units threads (fun _ => none)).run R.disk acts).files i = some t ∧ readRevokedFile rs t = some entries ∧
        ((∃ r, (hexEncode s, r) ∈ entries) ↔ ∃ v l c, R.Discloses i v ∧ R.Got i v l ∧ (s, c) ∈ l ∧ codesOf rs c.toNat) := by
      intro rs s hg
      obtain ⟨t, entries, e1, e2, e3⟩ := C46_read_back_partial R.disk R.units R.nodup threads h1 _ acts hr hc hs u hu hg rs s
      exact ⟨t, entries, hui ▸ e1, e2, e3.trans (hlist s (fun c => codesOf rs c.toNat))⟩
    refine ⟨⟨?_, ?_⟩, ?_⟩
    · rintro ⟨t, ht⟩; exact ⟨hd, hgood.1 (hfile t ht)⟩
    · rintro ⟨_, h⟩
      obtain ⟨t, _, e, _⟩ := hread .all [] (hgood.2 h)
      exact ⟨t, e⟩
    · intro t ht rs
      obtain ⟨t0, entries, e1, e2, _⟩ := hread rs [] (hfile t ht)
      rw [ht] at e1
      rw [← Option.some.inj e1] at e2
      refine ⟨entries, e2, fun s => ?_⟩
      obtain ⟨t', entries', f1, f2, f3⟩ := hread rs s (hfile t ht)
      rw [ht] at f1
      rw [← Option.some.inj f1, e2] at f2
      rw [Option.some.inj f2]
      exact f3
  · have hnot : i ∉ R.units.map CrlUnit.issuer := by
      intro h
      obtain ⟨u, hu, e⟩ := List.mem_map.1 h
      exact hd (k1.1 ⟨u, hu, e⟩)
    have hnone := C46_no_other_files R.disk R.units threads (fun _ => none) acts i hnot
    refine ⟨⟨?_, fun h => absurd h.1 hd⟩, ?_⟩
    · rintro ⟨t, ht⟩
      rw [hnone] at ht
      cases ht
    · intro t ht
      rw [hnone] at ht
      cases ht

/-! ### an example, and a disclosed CRL that is left out -/

/-- A root; an intermediate with a full CRL; an intermediate with an array of two CRLs, one of them not http. -/
def dRows : List CcadbRow :=
  [⟨false, some ⟨['r'], ['0'], 0⟩, "Root Certificate".toList, [], [], []⟩,
   ⟨false, some ⟨['i'], ['1'], 1⟩, "Intermediate Certificate".toList, "Not Revoked".toList, " http:f".toList, []⟩,
   ⟨false, some ⟨['j'], ['2'], 2⟩, "Intermediate Certificate".toList, "Not Revoked".toList, [], "[\"http:a\", \"ldap:b\"]".toList⟩]

/-- The CRLs at the three places. -/
def dDisk : Text → Option CrlFile := fun p =>
  if p = "http:f".toList then some ⟨true, some [([1], []), ([2], [⟨true, some 1⟩])], none, 0⟩
  else if p = "http:a".toList then some ⟨true, some [([3], [⟨true, some 1⟩])], none, 0⟩
  else if p = "ldap:b".toList then some ⟨true, some [([4], [⟨true, some 1⟩])], none, 0⟩
  else none

theorem exSpace_spaces : Spec.Spaces exSpace := ⟨by decide, by decide, by decide, by decide⟩

theorem dFields_f : Spec.CrlFields exSpace ⟨false, some ⟨['i'], ['1'], 1⟩, "Intermediate Certificate".toList, "Not Revoked".toList, " http:f".toList, []⟩ "http:f".toList [] :=
  ⟨⟨[' '], [], by decide, by decide, by decide, Or.inr ⟨⟨⟨'h', _, rfl, by decide⟩, "http:".toList, 'f', by decide, by decide⟩, ⟨'h', _, rfl, by decide⟩, "http:".toList, 'f', by decide, by decide⟩⟩, Or.inl ⟨rfl, by decide⟩⟩

theorem dFields_ab : Spec.CrlFields exSpace ⟨false, some ⟨['j'], ['2'], 2⟩, "Intermediate Certificate".toList, "Not Revoked".toList, [], "[\"http:a\", \"ldap:b\"]".toList⟩ []
    ["http:a".toList, "ldap:b".toList] :=
  ⟨⟨[], [], rfl, by decide, by decide, Or.inl rfl⟩,
    Or.inr ⟨[], [([], "http:a".toList, []), ([' '], "ldap:b".toList, [])], [], by decide, by decide, by decide, by decide, by
      intro e he
      rcases List.mem_cons.1 he with rfl | he
      · exact ⟨by decide, by decide, by decide, by decide, by decide⟩
      · rw [List.mem_singleton.1 he]
        exact ⟨by decide, by decide, by decide, by decide, by decide⟩⟩⟩

theorem dRows_formed : Spec.WellFormed exSpace dRows := by
  intro r hr
  rcases List.mem_cons.1 hr with rfl | hr
  · exact ⟨[], [], ⟨[], [], rfl, by decide, by decide, Or.inl rfl⟩, Or.inl ⟨rfl, by decide⟩⟩
  · rcases List.mem_cons.1 hr with rfl | hr
    · exact ⟨_, _, dFields_f⟩
    · rw [List.mem_singleton.1 hr]
      exact ⟨_, _, dFields_ab⟩

def dRun : Spec.ReportRun where
  sp := exSpace
  spaces := exSpace_spaces
  parse := exParse
  norm := some
  stable := fun _ v _ => ⟨v, rfl⟩
  chains := fun _ _ _ => true
  order := fun l => l
  ordered := fun _ _ => Iff.rfl
  rows := dRows
  formed := dRows_formed
  fetch := fun _ v => some v
  part := fun _ => false
  disk := dDisk

def dActs : List CrlAct := [.take 0, .next 0 xSt, .next 0 xSt, .take 0, .next 0 xSt, .next 0 xSt, .take 0]

/-- The run ends, and both issuers have their files. -/
theorem dRun_ends : let a := (CrlAgg.init dRun.units 1 (fun _ => none)).run dRun.disk dActs
    a.returned = true ∧ a.cancelled = false ∧ a.silent = false ∧ a.files ['i'] = some "0001\n0102\n".toList ∧ a.files ['j'] = some "0103\n".toList := by decide +kernel

example : ∃ v l, dRun.Discloses ['i'] v ∧ dRun.Got ['i'] v l ∧ l ≠ [] :=
  ⟨"http:f".toList, [([1], 0), ([2], 1)],
    ⟨_, ⟨['i'], ['1'], 1⟩, _, _, "http:f".toList, ⟨[_], [_], rfl, rfl, Or.inr rfl, rfl, rfl, by
      intro q hq d _ _ h4 h5
      rw [List.mem_singleton.1 hq] at h4 h5
      exact absurd h5 (by decide)⟩, rfl, rfl, dFields_f, Or.inl ⟨rfl, by decide⟩, "http".toList, by decide, Or.inl rfl⟩,
    ⟨_, rfl, _, _, _, rfl, rfl, rfl, rfl, by decide⟩, by decide⟩

/-- **C86 fails for CRLs at other places than http(s).** The report discloses two CRLs for the partitions of issuer `j`. The one at an ldap URL is left out with a warning; the run ends normally, the file of the issuer is written from the
other one, and the certificate that the CRL left out lists as revoked is missing from it. -/
theorem C86_other_scheme_fails :
    let a := (CrlAgg.init dRun.units 1 (fun _ => none)).run dRun.disk dActs
    (∃ r ∈ dRun.rows, r.cert = some ⟨['j'], ['2'], 2⟩ ∧ Spec.CrlFields dRun.sp r [] ["http:a".toList, "ldap:b".toList]) ∧
    CrlLists dRun.disk ⟨"ldap:b".toList, some "ldap:b".toList⟩ [([4], 1)] ∧
    a.returned = true ∧ a.cancelled = false ∧ a.silent = false ∧ a.files ['j'] = some "0103\n".toList ∧ ∀ e ∈ a.audit, e.2.1 ≠ "ldap:b".toList := by
  refine ⟨⟨_, List.mem_cons_of_mem _ (List.mem_cons_of_mem _ (List.mem_singleton.2 rfl)), rfl, dFields_ab⟩, ⟨_, _, _, rfl, rfl, rfl, rfl, by decide⟩, ?_⟩
  decide +kernel

/-! ### the client's answer -/

section
variable {F : Type} (build : List Bytes → List (Bytes × Bool) → Option F) (contains : F → Bytes → Bool) (enrolls : F → Bytes → Bool) (he : EnrollsInput build enrolls) (order : List Text → List Text) (rs : ReasonSet)
  (C : RunChain build contains order rs) (cov : Nat → Coverage) (sha : Bytes → Bytes) (parse : Bytes → Option IssuerCert) (verifies : Bytes → Bool) (inter : Intermediates)
  {H : Bytes → Bytes} {mt : Meta} {w : World} {env : Env} (hid : ∀ log, (mt.id log).length = 32) (hH : ∀ x, (env.H x).length = 32) (K : ∀ m, Spec.KnownRun H mt w env (C.W m) (cov m)) (L : ∀ m, Spec.CrlRun (C.W m))
  (R : Nat → Spec.ReportRun) (hL : ∀ m, (L m).units = (R m).units ∧ (L m).disk = (R m).disk)

/-- In run `m` every CRL disclosed for issuer `i` was got, and one of them lists the serial with a reason of the set. -/
def Spec.ListedIn (R : Spec.ReportRun) (rs : ReasonSet) (i : Text) (s : Serial) : Prop :=
  (∀ v, R.Discloses i v → ∃ l, R.Got i v l) ∧ ∃ v l c, R.Discloses i v ∧ R.Got i v l ∧ (s, c) ∈ l ∧ codesOf rs c.toNat

include hL in
theorem reportListed_iff (m : Nat) (i : Text) (s : Serial) : (∃ u ∈ (L m).units, u.issuer = i ∧ Spec.OnCrl (L m).disk u rs s) ↔ Spec.ListedIn (R m) rs i s := by
  rw [(hL m).1, (hL m).2]
  exact onCrl_iff (R m) rs i s

include he hid hH hL in
/-- **C86 (Revoked, partial).** From the logs and the report to the client: a certificate of an enrolled issuer that run `n` covers and that is listed as revoked by a CRL disclosed for its issuer is answered Revoked, provided all CRLs disclosed
for the issuer could be used in run `n`, and the earlier runs that found it listed covered it too. -/
theorem C86_revoked_partial (n : Nat) (c : ClientCert) (spki : Bytes) (hl : lookupSpki parse verifies inter c.issuerDN = some spki) (hv : c.valid = true) (na : Nat) (hy : yearOf na ≤ 9999)
    (hen : (K n).enrolled (issuerID (sha spki)) = true) (hlive : (K n).a.clock < ((na / 3600 * 3600 : Nat) : Int) * 1000)
    (hs : Spec.HonestScts (cov n) (K n).sts H mt w env c.scts (sha spki) c.serial na) (hc : Covers (cov n) c.scts)
    (hcrl : Spec.ListedIn (R n) rs (issuerID (sha spki)) c.serial) (hbefore : ∀ m < n, Spec.ListedIn (R m) rs (issuerID (sha spki)) c.serial → Covers (cov m) c.scts) :
    clientQuery sha parse verifies (cardHas enrolls contains) (C.cards cov n) inter c = .revoked :=
  C83_revoked_partial build contains enrolls he order rs C cov sha parse verifies inter hid hH K L n c spki hl hv na hy hen hlive hs hc ((reportListed_iff build contains order rs C L R hL n _ _).2 hcrl)
    (fun m hm h => hbefore m hm ((reportListed_iff build contains order rs C L R hL m _ _).1 h))

include he hid hH hL in
/-- **C86 (not Revoked, partial).** A certificate of an enrolled issuer that no disclosed CRL listed as revoked in any of the runs is not answered Revoked. -/
theorem C86_not_revoked_partial (n : Nat) (c : ClientCert) (spki : Bytes) (hl : lookupSpki parse verifies inter c.issuerDN = some spki) (hv : c.valid = true) (na : Nat) (hy : yearOf na ≤ 9999)
    (hen : ∀ m ≤ n, (K m).enrolled (issuerID (sha spki)) = true) (hlive : ∀ m ≤ n, (K m).a.clock < ((na / 3600 * 3600 : Nat) : Int) * 1000)
    (hs : ∀ m ≤ n, Spec.HonestScts (cov m) (K m).sts H mt w env c.scts (sha spki) c.serial na)
    (hcrl : ∀ m ≤ n, ∀ v l k, (R m).Discloses (issuerID (sha spki)) v → (R m).Got (issuerID (sha spki)) v l → (c.serial, k) ∈ l → ¬ codesOf rs k.toNat) :
    clientQuery sha parse verifies (cardHas enrolls contains) (C.cards cov n) inter c ≠ .revoked :=
  (C83_not_revoked_partial build contains enrolls he order rs C cov sha parse verifies inter hid hH K L n c spki hl hv na hy hen hlive hs (fun m hm u hu h1 h2 => by
    obtain ⟨_, v, l, k, h3, h4, h5, h6⟩ := (reportListed_iff build contains order rs C L R hL m _ _).1 ⟨u, hu, h1, h2⟩
    exact hcrl m hm v l k h3 h4 h5 h6)).1

end

/-! ### each theorem applied -/

/-- The report: a root and the issuer of `fCert` with one CRL. -/
def fReportRow : CcadbRow := ⟨false, some ⟨issuerID fDigest, ['1'], 1⟩, "Intermediate Certificate".toList, "Not Revoked".toList, " http:f".toList, []⟩

def fReportRows : List CcadbRow := [⟨false, some ⟨['r'], ['0'], 0⟩, "Root Certificate".toList, [], [], []⟩, fReportRow]

theorem fReportRow_fields : Spec.CrlFields exSpace fReportRow "http:f".toList [] :=
  ⟨⟨[' '], [], by decide, by decide, by decide, Or.inr ⟨⟨⟨'h', _, rfl, by decide⟩, "http:".toList, 'f', by decide, by decide⟩, ⟨'h', _, rfl, by decide⟩, "http:".toList, 'f', by decide, by decide⟩⟩, Or.inl ⟨rfl, by decide⟩⟩

/-- The report and the downloads of run `n`: the CRL lists the certificate from the second run on. -/
def fReportRun (n : Nat) : Spec.ReportRun where
  sp := exSpace
  spaces := exSpace_spaces
  parse := exParse
  norm := fun _ => some ['u']
  stable := fun _ _ _ => ⟨['u'], rfl⟩
  chains := fun _ _ _ => true
  order := fun l => l
  ordered := fun _ _ => Iff.rfl
  rows := fReportRows
  formed := by
    intro r hr
    rcases List.mem_cons.1 hr with rfl | hr
    · exact ⟨[], [], ⟨[], [], rfl, by decide, by decide, Or.inl rfl⟩, Or.inl ⟨rfl, by decide⟩⟩
    · rw [List.mem_singleton.1 hr]
      exact ⟨_, _, fReportRow_fields⟩
  fetch := fun _ _ => some ['p']
  part := fun _ => false
  disk := fDisk n

theorem fReportRun_units (n : Nat) : (fReportRun n).units = [fUnit] := by
  show (fReportRun 0).units = [fUnit]
  decide +kernel

theorem fReportRun_matches : ∀ m, (fCrlRun m).units = (fReportRun m).units ∧ (fCrlRun m).disk = (fReportRun m).disk
  | 0 => ⟨(fReportRun_units 0).symm, rfl⟩
  | m + 1 => ⟨(fReportRun_units (m + 1)).symm, rfl⟩

theorem fReportRun_discloses (n : Nat) : (fReportRun n).Discloses (issuerID fDigest) "http:f".toList :=
  ⟨_, ⟨issuerID fDigest, ['1'], 1⟩, _, _, "http:f".toList, ⟨[⟨false, some ⟨['r'], ['0'], 0⟩, "Root Certificate".toList, [], [], []⟩], [], rfl, rfl, Or.inr rfl, rfl, rfl, by
      intro q hq d _ _ h4 h5
      rw [List.mem_singleton.1 hq] at h4 h5
      exact absurd h5 (by decide)⟩, rfl, rfl, fReportRow_fields, Or.inl ⟨rfl, by decide⟩, "http".toList, (by decide : exParse "http:f".toList = _), Or.inl rfl⟩

/-- From the report to the client: Revoked from the second run on. -/
example (n : Nat) : clientQuery (fun _ => fDigest) (fun d => some ⟨[9], d⟩) (fun _ => true) (cardHas exEnrolls exContains) (fChain.cards fCov (n + 1)) exInter fCert = .revoked :=
  C86_revoked_partial exBuild exContains exEnrolls exEnrolls_input (fun l => l) .all fChain fCov (fun _ => fDigest) (fun d => some ⟨[9], d⟩) (fun _ => true) exInter
    wMeta_id (fun _ => rfl) fKnownRun fCrlRun fReportRun fReportRun_matches (n + 1) fCert [5] (by decide) rfl 1700002800 (by decide +kernel) rfl (by show fAgg.clock < _; decide +kernel) (fHonest _) (fCovers _)
    ⟨fun _ _ => ⟨[([1, 2], 1)], _, rfl, _, _, _, rfl, rfl, rfl, rfl, rfl⟩, "http:f".toList, [([1, 2], 1)], 1, fReportRun_discloses _, ⟨_, rfl, _, _, _, rfl, rfl, rfl, rfl, rfl⟩, by decide, trivial⟩
    (fun _ _ _ => fCovers _)

/-- Not Revoked in the first run. -/
example : clientQuery (fun _ => fDigest) (fun d => some ⟨[9], d⟩) (fun _ => true) (cardHas exEnrolls exContains) (fChain.cards fCov 0) exInter fCert ≠ .revoked :=
  C86_not_revoked_partial exBuild exContains exEnrolls exEnrolls_input (fun l => l) .all fChain fCov (fun _ => fDigest) (fun d => some ⟨[9], d⟩) (fun _ => true) exInter
    wMeta_id (fun _ => rfl) fKnownRun fCrlRun fReportRun fReportRun_matches 0 fCert [5] (by decide) rfl 1700002800 (by decide +kernel) (fun _ _ => rfl) (fun _ _ => by show fAgg.clock < _; decide +kernel) (fun _ _ => fHonest _)
    (fun m hm v l k _ hg hk _ => by
      cases Nat.le_zero.1 hm
      obtain ⟨_, _, q, f, es, h1, h2, h3, h4, h5⟩ := hg
      cases h1
      cases h2
      cases h4
      cases l with
      | nil => cases hk
      | cons x y => cases h5)

end Verif.Props
