import Verif.Model.IssuersTool
import Verif.Props.World
/-!
C124: what get-mozilla-issuers prints and writes.
-/
namespace Verif.Spec
open Verif.Props

/-- `load` reads reports: the rows of the file, and what `LoadFromDisk` does with them, in some order of the map. -/
def ReadsReports (load : Bytes → Option MozIssuers) (rowsOf : Bytes → Option (List CcadbRow)) (sp : Char → Bool) (parse : UrlParse) (chains : List IssCert → List IssCert → IssCert → Bool) : Prop :=
  ∀ b, match rowsOf b with
    | none => load b = none
    | some rows => ∃ order : List (IssCert × List Text × Bool) → List (IssCert × List Text × Bool), (∀ l x, x ∈ order l ↔ x ∈ l) ∧ load b = some (loadFromDisk sp parse chains order rows)

/-- The certificates of the report that count: the first usable row with their fingerprint, and a chain to a root of the report. -/
def InReport (sp : Char → Bool) (parse : UrlParse) (chains : List IssCert → List IssCert → IssCert → Bool) (rows : List CcadbRow) (c : IssCert) : Prop :=
  (∃ r, FirstRow rows r c) ∧ Spec.Chained sp parse chains rows c

/-- The report that is used: the file that `-ccadb` names; otherwise the one that is there after `Load`, which is a copy less than twelve hours old or the end of a download (C78). -/
def ReportUsed (load : Bytes → Option MozIssuers) (w : ToolWorld) (f : ToolFlags) (l : LocalFile) : Prop :=
  (f.ccadb ≠ "<path>".toList ∧ w.disk f.ccadb = some l) ∨ (f.ccadb = "<path>".toList ∧ (loadReport load w.attempts w.now (w.disk w.report)).1 = some l)

/-- A file with a report. -/
def IsReport (rowsOf : Bytes → Option (List CcadbRow)) (l : LocalFile) : Prop := ∃ rows, rowsOf l.data = some rows

/-- The local copy is a report and less than twelve hours old. -/
def RecentCopy (rowsOf : Bytes → Option (List CcadbRow)) (w : ToolWorld) : Prop := ∃ l, w.disk w.report = some l ∧ IsReport rowsOf l ∧ w.now < l.mtime + 12

/-- There is a report: `-ccadb` names one; or without this flag there is a recent copy, or else the download ends with a report. -/
def HasReport (rowsOf : Bytes → Option (List CcadbRow)) (w : ToolWorld) (f : ToolFlags) : Prop :=
  (f.ccadb ≠ "<path>".toList ∧ ∃ l, w.disk f.ccadb = some l ∧ IsReport rowsOf l) ∨
  (f.ccadb = "<path>".toList ∧ (RecentCopy rowsOf w ∨
    ((downloadFileSync w.attempts (fun _ => false) 3 (w.disk w.report)).1 = .ok ∧ ∃ l, (downloadFileSync w.attempts (fun _ => false) 3 (w.disk w.report)).2.1 = some l ∧ IsReport rowsOf l)))

end Verif.Spec

namespace Verif.Props
open Verif.Spec

theorem firstIssuers_good (l : List (Text × IssuerData)) (h : ∀ e ∈ l, e.2.certs ≠ [] ∧ ∀ c ∈ e.2.certs, c.issuer = e.1) : firstIssuers l = some (l.map Prod.fst) := by
  induction l with
  | nil => rfl
  | cons e rest ih =>
    obtain ⟨h1, h2⟩ := h e List.mem_cons_self
    unfold firstIssuers
    rw [ih (fun x hx => h x (List.mem_cons_of_mem _ hx))]
    cases hc : e.2.certs with
    | nil => exact absurd hc h1
    | cons c cs =>
      have := h2 c (by rw [hc]; exact List.mem_cons_self)
      show some (c.issuer :: _) = _
      rw [this]
      rfl

theorem moz_good (sp : Char → Bool) (parse : UrlParse) (chains : List IssCert → List IssCert → IssCert → Bool) (order : List (IssCert × List Text × Bool) → List (IssCert × List Text × Bool)) (rows : List CcadbRow) :
    GoodIssuers (loadFromDisk sp parse chains order rows).issuers :=
  goodIssuers_insertAll _ _ ⟨by simp [MozIssuers.empty], by simp [MozIssuers.empty]⟩

theorem certIn_report {sp : Char → Bool} {parse : UrlParse} {chains : List IssCert → List IssCert → IssCert → Bool} {order : List (IssCert × List Text × Bool) → List (IssCert × List Text × Bool)} (ho : ∀ l x, x ∈ order l ↔ x ∈ l) (rows : List CcadbRow) (c : IssCert) :
    CertIn (loadFromDisk sp parse chains order rows) c ↔ InReport sp parse chains rows c := by
  unfold loadFromDisk
  dsimp only
  rw [certIn_insertAll]
  constructor
  · rintro (⟨i, v, hv, _⟩ | ⟨x, hx, rfl⟩)
    · cases hv
    · obtain ⟨h5, h6⟩ := List.mem_filter.1 hx
      rcases (mem_intermediates _ _ _ _ _).1 ((ho _ _).1 h5) with h5 | ⟨r, h7, _⟩
      · cases h5
      · exact ⟨⟨r, h7⟩, h6⟩
  · rintro ⟨⟨r, h5⟩, h6⟩
    exact Or.inr ⟨(c, decodeCrls sp parse r.full r.json), List.mem_filter.2 ⟨(ho _ _).2 ((mem_intermediates _ _ _ _ _).2 (Or.inr ⟨r, h5, rfl, fun x hx => by cases hx⟩)), h6⟩, rfl⟩

theorem mem_keys_iff {m : MozIssuers} (hg : GoodIssuers m.issuers) (i : Text) : i ∈ m.issuers.map Prod.fst ↔ ∃ c, CertIn m c ∧ c.issuer = i := by
  constructor
  · intro h
    obtain ⟨e, he, rfl⟩ := List.mem_map.1 h
    obtain ⟨h1, h2⟩ := hg.2 e he
    cases hc : e.2.certs with
    | nil => exact absurd hc h1
    | cons c cs =>
      have hm : c ∈ e.2.certs := by rw [hc]; exact List.mem_cons_self
      exact ⟨c, ⟨e.1, e.2, assocGet_of_mem hg.1 he, hm⟩, h2 c hm⟩
  · rintro ⟨c, ⟨i, v, hv, hc⟩, rfl⟩
    have := assocGet_mem hv
    rw [(hg.2 _ this).2 c hc]
    exact List.mem_map.2 ⟨_, this, rfl⟩

/-! ### the certificate of an issuer -/

/-- Each issuer with CRLs has certificates. -/
def CrlsHeld (m : MozIssuers) : Prop := ∀ e ∈ m.crls, ∃ v, assocGet m.issuers e.1 = some v

theorem insert_held (m : MozIssuers) (c : IssCert) (urls : List Text) (p : Bool) (h : CrlsHeld m) : CrlsHeld (m.insert c urls p) := by
  have key : ∀ i, (i = c.issuer ∨ ∃ v, assocGet m.issuers i = some v) → ∃ v, assocGet (m.insert c urls p).issuers i = some v := by
    intro i hi
    unfold MozIssuers.insert
    dsimp only
    by_cases he : i = c.issuer
    · subst he
      cases assocGet m.issuers c.issuer with
      | none => exact ⟨_, assocGet_put_self _ _ _⟩
      | some v => exact ⟨_, assocGet_put_self _ _ _⟩
    · obtain ⟨v, hv⟩ := hi.resolve_left he
      cases assocGet m.issuers c.issuer with
      | none => exact ⟨v, (assocGet_put_ne _ _ _ _ he).trans hv⟩
      | some _ => exact ⟨v, (assocGet_put_ne _ _ _ _ he).trans hv⟩
  intro e he
  rcases mem_assocPut he with rfl | he
  · exact key _ (Or.inl rfl)
  · exact key _ (Or.inr (h e he))

theorem insertAll_held (l : List (IssCert × List Text × Bool)) : ∀ m : MozIssuers, CrlsHeld m → CrlsHeld (m.insertAll l) := by
  induction l with
  | nil => intro m h; exact h
  | cons e rest ih => intro m h; exact ih _ (insert_held m e.1 e.2.1 e.2.2 h)

theorem crlUnits_key {norm : Text → Option Text} {fetch : Text → Text → Option Text} {part : Text → Bool} {m : List (Text × List Text)} {u : CrlUnit} (h : u ∈ crlUnits norm fetch part m) : ∃ e ∈ m, e.1 = u.issuer := by
  induction m with
  | nil => cases h
  | cons e rest ih =>
    obtain ⟨i, urls⟩ := e
    unfold crlUnits at h
    split at h
    · obtain ⟨x, hx, hy⟩ := ih h
      exact ⟨x, List.mem_cons_of_mem _ hx, hy⟩
    · rcases List.mem_cons.1 h with rfl | h
      · exact ⟨_, List.mem_cons_self, rfl⟩
      · obtain ⟨x, hx, hy⟩ := ih h
        exact ⟨x, List.mem_cons_of_mem _ hx, hy⟩

/-- **C79, the certificate of an issuer.** Whenever aggregate-crls checks the CRLs of an issuer, it finds a certificate for it, so it does not stop with an error there; the certificate has the key of this issuer and is one of the report that counts. -/
theorem C79_certificate (sp : Char → Bool) (parse : UrlParse) (chains : List IssCert → List IssCert → IssCert → Bool) (order : List (IssCert × List Text × Bool) → List (IssCert × List Text × Bool)) (ho : ∀ l x, x ∈ order l ↔ x ∈ l)
    (rows : List CcadbRow) (norm : Text → Option Text) (fetch : Text → Text → Option Text) (part : Text → Bool) (u : CrlUnit) (hu : u ∈ crlUnits norm fetch part (loadFromDisk sp parse chains order rows).crls) :
    ∃ c, (loadFromDisk sp parse chains order rows).certOf u.issuer = some c ∧ c.issuer = u.issuer ∧ InReport sp parse chains rows c := by
  obtain ⟨e, he, hi⟩ := crlUnits_key hu
  obtain ⟨v, hv⟩ := insertAll_held _ MozIssuers.empty (fun e he => by cases he) e he
  rw [hi] at hv
  have hv : assocGet (loadFromDisk sp parse chains order rows).issuers u.issuer = some v := hv
  obtain ⟨h1, h2⟩ := (moz_good sp parse chains order rows).2 _ (assocGet_mem hv)
  unfold MozIssuers.certOf
  rw [hv, Option.bind_some]
  cases hc : v.certs with
  | nil => exact absurd hc h1
  | cons c cs =>
    have hm : c ∈ v.certs := by rw [hc]; exact List.mem_cons_self
    exact ⟨c, rfl, h2 c hm, (certIn_report ho rows c).1 ⟨_, v, hv, hm⟩⟩

section
variable {load : Bytes → Option MozIssuers} {rowsOf : Bytes → Option (List CcadbRow)} {sp : Char → Bool} {parse : UrlParse} {chains : List IssCert → List IssCert → IssCert → Bool} (hl : ReadsReports load rowsOf sp parse chains)
  (pem : IssCert → Text) (w : ToolWorld) (f : ToolFlags) (old : Option (List EnrolledIssuer))

include hl in
theorem load_cases {b : Bytes} {m : MozIssuers} (h : load b = some m) : ∃ rows, rowsOf b = some rows ∧ GoodIssuers m.issuers ∧ ∀ c, CertIn m c ↔ InReport sp parse chains rows c := by
  have := hl b
  cases hr : rowsOf b with
  | none => rw [hr] at this; dsimp only at this; rw [this] at h; cases h
  | some rows =>
    rw [hr] at this
    obtain ⟨order, ho, he⟩ := this
    rw [he, Option.some.injEq] at h
    subst h
    exact ⟨rows, rfl, moz_good _ _ _ _ _, certIn_report ho rows⟩

theorem toolLoad_file {m : MozIssuers} (h : toolLoad load w f = some m) : ∃ l, ReportUsed load w f l ∧ load l.data = some m := by
  suffices hs : (f.ccadb ≠ "<path>".toList ∧ ∃ l, w.disk f.ccadb = some l ∧ load l.data = some m) ∨
      (f.ccadb = "<path>".toList ∧ ∃ l, (loadReport load w.attempts w.now (w.disk w.report)).1 = some l ∧ load l.data = some m) by
    rcases hs with ⟨h1, l, h2, h3⟩ | ⟨h1, l, h2, h3⟩
    · exact ⟨l, Or.inl ⟨h1, h2⟩, h3⟩
    · exact ⟨l, Or.inr ⟨h1, h2⟩, h3⟩
  unfold toolLoad at h
  by_cases hc : f.ccadb ≠ "<path>".toList
  · rw [if_pos hc] at h
    obtain ⟨l, h1, h2⟩ := Option.bind_eq_some_iff.1 h
    exact Or.inl ⟨hc, l, h1, h2⟩
  · rw [if_neg hc] at h
    refine Or.inr ⟨Classical.not_not.1 hc, ?_⟩
    have dl : ∀ x : Option LocalFile × Option MozIssuers, x = (if (downloadFileSync w.attempts (fun _ => false) 3 (w.disk w.report)).1 = .ok then
        ((downloadFileSync w.attempts (fun _ => false) 3 (w.disk w.report)).2.1, match (downloadFileSync w.attempts (fun _ => false) 3 (w.disk w.report)).2.1 with | some f => load f.data | none => none)
        else ((downloadFileSync w.attempts (fun _ => false) 3 (w.disk w.report)).2.1, none)) → x.2 = some m → ∃ l, x.1 = some l ∧ load l.data = some m := by
      rintro x rfl hx
      split at hx
      · dsimp only at hx
        split at hx
        · rename_i hok _ l hl
          rw [if_pos hok]
          exact ⟨l, hl, hx⟩
        · cases hx
      · cases hx
    cases hd : w.disk w.report with
    | none => rw [hd] at h dl; exact dl _ rfl h
    | some l =>
      rw [hd] at h dl
      unfold loadReport at h ⊢
      dsimp only at h ⊢
      cases hb : load l.data with
      | none => rw [hb] at h; exact dl _ rfl h
      | some a =>
        rw [hb] at h
        dsimp only at h ⊢
        by_cases ht : w.now - l.mtime < 12
        · rw [if_pos ht] at h ⊢
          exact ⟨l, rfl, hb.trans h⟩
        · rw [if_neg ht] at h ⊢
          exact dl _ rfl h

theorem toolMain_print {m : MozIssuers} (hm : toolLoad load w f = some m) (ho : f.out = "<stdout>".toList) : toolMain load pem w f old = toolPrint w.prints m old := by
  unfold toolMain
  rw [hm]
  exact if_pos ho

theorem toolMain_save {m : MozIssuers} (hm : toolLoad load w f = some m) (ho : f.out ≠ "<stdout>".toList) :
    toolMain load pem w f old = ⟨(saveIssuersList pem m w.opens w.encodes w.closes old).2, none, (saveIssuersList pem m w.opens w.encodes w.closes old).1⟩ := by
  unfold toolMain
  rw [hm]
  exact if_neg ho

theorem toolMain_none (hm : toolLoad load w f = none) : toolMain load pem w f old = ⟨false, none, old⟩ := by
  unfold toolMain
  rw [hm]

theorem toolPrint_good {m : MozIssuers} (hg : GoodIssuers m.issuers) (prints : Bool) : toolPrint prints m old = if prints then ⟨true, some (m.issuers.map Prod.fst), old⟩ else ⟨false, none, old⟩ := by
  unfold toolPrint
  rw [firstIssuers_good _ hg.2]

include hl in
/-- **C124, to standard output.** If the program exits with 0, it has printed each issuer of a certificate of the report that counts exactly once, and no other, and has written no file. -/
theorem C124_printed (ho : f.out = "<stdout>".toList) (hok : (toolMain load pem w f old).ok = true) : ∃ l rows ids, ReportUsed load w f l ∧ rowsOf l.data = some rows ∧ (toolMain load pem w f old).printed = some ids ∧ ids.Nodup ∧
    (∀ i, i ∈ ids ↔ ∃ c, InReport sp parse chains rows c ∧ c.issuer = i) ∧ (toolMain load pem w f old).file = old := by
  cases hm : toolLoad load w f with
  | none => rw [toolMain_none pem w f old hm] at hok; cases hok
  | some m =>
    obtain ⟨l, h1, h2⟩ := toolLoad_file w f hm
    obtain ⟨rows, h3, hg, h4⟩ := load_cases hl h2
    rw [toolMain_print pem w f old hm ho, toolPrint_good old hg] at hok ⊢
    cases hp : w.prints with
    | false => rw [hp] at hok; cases hok
    | true =>
      refine ⟨l, rows, _, h1, h3, rfl, hg.1, fun i => ?_, rfl⟩
      rw [mem_keys_iff hg]
      exact ⟨fun ⟨c, h5, h6⟩ => ⟨c, (h4 c).1 h5, h6⟩, fun ⟨c, h5, h6⟩ => ⟨c, (h4 c).2 h5, h6⟩⟩

include hl in
/-- **C124, to a file (partial).** If the program exits with 0, the file has one record for each certificate of the report that counts, and aggregate-known reads the same issuers from it as are printed to standard output. Full statement: without
`encodes` (`C124_encode_fails`). -/
theorem C124_written_partial (ho : f.out ≠ "<stdout>".toList) (he : w.encodes = true) (hok : (toolMain load pem w f old).ok = true) : ∃ l rows recs, ReportUsed load w f l ∧ rowsOf l.data = some rows ∧ (toolMain load pem w f old).file = some recs ∧
    (∀ t, t ∈ recs.map EnrolledIssuer.pem ↔ ∃ c, InReport sp parse chains rows c ∧ pem c = t) ∧
    ∀ unpem : Text → Option IssCert, (∀ c, unpem (pem c) = some c) → ∃ m', loadRecords unpem recs MozIssuers.empty = some m' ∧ ∀ i, m'.inProgram i = true ↔ ∃ c, InReport sp parse chains rows c ∧ c.issuer = i := by
  cases hm : toolLoad load w f with
  | none => rw [toolMain_none pem w f old hm] at hok; cases hok
  | some m =>
    obtain ⟨l, h1, h2⟩ := toolLoad_file w f hm
    obtain ⟨rows, h3, hg, h4⟩ := load_cases hl h2
    rw [toolMain_save pem w f old hm ho] at hok ⊢
    refine ⟨l, rows, _, h1, h3, ((C53_saving pem m w.opens w.encodes w.closes old).1 hok).2.2 he, fun t => ?_, fun unpem hu => ?_⟩
    · rw [mem_savedRecords pem m hg.1]
      exact ⟨fun ⟨c, h5, h6⟩ => ⟨c, (h4 c).1 h5, h6⟩, fun ⟨c, h5, h6⟩ => ⟨c, (h4 c).2 h5, h6⟩⟩
    · obtain ⟨m', h5, h6⟩ := load_saved pem unpem hu m.issuers MozIssuers.empty (by simpa [MozIssuers.empty] using hg)
      refine ⟨m', h5, fun i => ?_⟩
      have h6 : m'.issuers = m.issuers := h6
      have h7 : m'.inProgram i = true ↔ i ∈ m.issuers.map Prod.fst := by
        unfold MozIssuers.inProgram
        rw [h6, Option.isSome_iff_exists]
        constructor
        · rintro ⟨v, hv⟩
          exact List.mem_map.2 ⟨_, assocGet_mem hv, rfl⟩
        · intro h
          obtain ⟨e, he, rfl⟩ := List.mem_map.1 h
          exact ⟨e.2, assocGet_of_mem hg.1 he⟩
      rw [h7, mem_keys_iff hg]
      exact ⟨fun ⟨c, h5, h6⟩ => ⟨c, (h4 c).1 h5, h6⟩, fun ⟨c, h5, h6⟩ => ⟨c, (h4 c).2 h5, h6⟩⟩

include hl in
theorem isReport_iff (l : LocalFile) : IsReport rowsOf l ↔ ∃ m, load l.data = some m := by
  have h := hl l.data
  unfold IsReport
  cases hr : rowsOf l.data with
  | none =>
    rw [hr] at h
    dsimp only at h
    rw [h]
    exact ⟨(fun h => nomatch h), (fun h => nomatch h)⟩
  | some rows =>
    rw [hr] at h
    obtain ⟨order, _, he⟩ := h
    exact ⟨fun _ => ⟨_, he⟩, fun _ => ⟨_, rfl⟩⟩

include hl in
theorem toolLoad_iff : (∃ m, toolLoad load w f = some m) ↔ HasReport rowsOf w f := by
  unfold HasReport RecentCopy
  unfold toolLoad
  by_cases hc : f.ccadb ≠ "<path>".toList
  · rw [if_pos hc]
    constructor
    · rintro ⟨m, hm⟩
      obtain ⟨l, h1, h2⟩ := Option.bind_eq_some_iff.1 hm
      exact Or.inl ⟨hc, l, h1, (isReport_iff hl l).2 ⟨m, h2⟩⟩
    · rintro (⟨_, l, h1, h2⟩ | ⟨h1, _⟩)
      · obtain ⟨m, h3⟩ := (isReport_iff hl l).1 h2
        exact ⟨m, by rw [h1]; exact h3⟩
      · exact absurd h1 hc
  · rw [if_neg hc]
    have hc := Classical.not_not.1 hc
    have dl : ∀ x : Option LocalFile × Option MozIssuers, x = (if (downloadFileSync w.attempts (fun _ => false) 3 (w.disk w.report)).1 = .ok then
        ((downloadFileSync w.attempts (fun _ => false) 3 (w.disk w.report)).2.1, match (downloadFileSync w.attempts (fun _ => false) 3 (w.disk w.report)).2.1 with | some f => load f.data | none => none)
        else ((downloadFileSync w.attempts (fun _ => false) 3 (w.disk w.report)).2.1, none)) → ((∃ m, x.2 = some m) ↔
        ((downloadFileSync w.attempts (fun _ => false) 3 (w.disk w.report)).1 = .ok ∧ ∃ l, (downloadFileSync w.attempts (fun _ => false) 3 (w.disk w.report)).2.1 = some l ∧ IsReport rowsOf l)) := by
      rintro x rfl
      by_cases hok : (downloadFileSync w.attempts (fun _ => false) 3 (w.disk w.report)).1 = .ok
      · rw [if_pos hok]
        dsimp only
        cases (downloadFileSync w.attempts (fun _ => false) 3 (w.disk w.report)).2.1 with
        | none => exact ⟨(fun h => nomatch h), (fun h => nomatch h.2)⟩
        | some l =>
          constructor
          · intro h
            exact ⟨hok, l, rfl, (isReport_iff hl l).2 h⟩
          · rintro ⟨_, l', h1, h2⟩
            rw [Option.some.injEq] at h1
            subst h1
            exact (isReport_iff hl l).1 h2
      · rw [if_neg hok]
        exact ⟨(fun h => nomatch h), fun h => absurd h.1 hok⟩
    have goal : (∃ m, (loadReport load w.attempts w.now (w.disk w.report)).2 = some m) ↔ (∃ l, w.disk w.report = some l ∧ IsReport rowsOf l ∧ w.now < l.mtime + 12) ∨
        ((downloadFileSync w.attempts (fun _ => false) 3 (w.disk w.report)).1 = .ok ∧ ∃ l, (downloadFileSync w.attempts (fun _ => false) 3 (w.disk w.report)).2.1 = some l ∧ IsReport rowsOf l) := by
      cases hd : w.disk w.report with
      | none =>
        rw [hd] at dl
        rw [← dl _ rfl]
        exact ⟨Or.inr, fun h => h.resolve_left (fun h => nomatch h)⟩
      | some l =>
        rw [hd] at dl
        unfold loadReport
        dsimp only
        have hi := isReport_iff hl l
        cases hb : load l.data with
        | none =>
          rw [hb] at hi
          rw [← dl _ rfl]
          refine ⟨Or.inr, fun h => h.resolve_left ?_⟩
          rintro ⟨l', h1, h2, _⟩
          rw [Option.some.injEq] at h1
          subst h1
          exact nomatch hi.1 h2
        | some a =>
          dsimp only
          by_cases ht : w.now - l.mtime < 12
          · rw [if_pos ht]
            exact ⟨fun _ => Or.inl ⟨l, rfl, hi.2 ⟨a, hb⟩, by omega⟩, fun _ => ⟨a, rfl⟩⟩
          · rw [if_neg ht, ← dl _ rfl]
            refine ⟨Or.inr, fun h => h.resolve_left ?_⟩
            rintro ⟨l', h1, _, h2⟩
            rw [Option.some.injEq] at h1
            subst h1
            omega
    rw [goal]
    constructor
    · intro h
      exact Or.inr ⟨hc, h⟩
    · rintro (⟨h, _⟩ | ⟨_, h⟩)
      · exact absurd hc h
      · exact h

include hl in
/-- **C124, the exit status.** The program exits with 0 exactly if there is a report and its output can be printed, or opened and closed; it does not panic. Without a report it prints nothing and leaves the output file as it is. -/
theorem C124_exit : ((toolMain load pem w f old).ok = true ↔ HasReport rowsOf w f ∧ (if f.out = "<stdout>".toList then w.prints = true else w.opens = true ∧ w.closes = true)) ∧
    (¬ HasReport rowsOf w f → (toolMain load pem w f old).printed = none ∧ (toolMain load pem w f old).file = old) := by
  rw [← toolLoad_iff hl]
  cases hm : toolLoad load w f with
  | none =>
    rw [toolMain_none pem w f old hm]
    exact ⟨⟨(fun h => nomatch h), (fun h => nomatch h.1)⟩, fun _ => ⟨rfl, rfl⟩⟩
  | some m =>
    refine ⟨?_, fun h => absurd ⟨m, rfl⟩ h⟩
    obtain ⟨l, h1, h2⟩ := toolLoad_file w f hm
    obtain ⟨rows, h3, hg, h4⟩ := load_cases hl h2
    by_cases ho : f.out = "<stdout>".toList
    · rw [toolMain_print pem w f old hm ho, toolPrint_good old hg, if_pos ho]
      cases w.prints <;> simp
    · rw [toolMain_save pem w f old hm ho, if_neg ho]
      cases w.opens <;> cases w.closes <;> simp [saveIssuersList]

include hl in
/-- **C124, the server's report (partial).** Without `-ccadb`, if the local copy is not a recent report and the server answers honestly: what is printed are the issuers of the complete report of the server. Missing: a recent copy that is incomplete
(`C78_truncated_fails`). -/
theorem C124_server_partial (content : Bytes) (hold : ¬ RecentCopy rowsOf w) (hp : PrefixFile content (w.disk w.report)) (hs : ∀ i ≤ 3, HonestDl content (fileBefore w.attempts (w.disk w.report) i) (w.attempts i))
    (hc : f.ccadb = "<path>".toList) (ho : f.out = "<stdout>".toList) (hok : (toolMain load pem w f old).ok = true) :
    ∃ rows ids, rowsOf content = some rows ∧ (toolMain load pem w f old).printed = some ids ∧ ids.Nodup ∧ ∀ i, i ∈ ids ↔ ∃ c, InReport sp parse chains rows c ∧ c.issuer = i := by
  cases hm : toolLoad load w f with
  | none => rw [toolMain_none pem w f old hm] at hok; cases hok
  | some m =>
    have h1 : (loadReport load w.attempts w.now (w.disk w.report)).2 = some m := by
      unfold toolLoad at hm
      rw [if_neg (by rw [hc]; exact fun h => h rfl)] at hm
      exact hm
    have h2 := C78_download_partial load content w.attempts w.now (w.disk w.report) (by
      intro l hd
      cases hb : load l.data with
      | none => exact Or.inl rfl
      | some a =>
        refine Or.inr (Classical.not_not.1 (fun h => hold ⟨l, hd, (isReport_iff hl l).2 ⟨a, hb⟩, by omega⟩))) hp hs m h1
    obtain ⟨rows, h3, hg, h4⟩ := load_cases hl h2
    rw [toolMain_print pem w f old hm ho, toolPrint_good old hg] at hok ⊢
    cases hpr : w.prints with
    | false => rw [hpr] at hok; cases hok
    | true =>
      refine ⟨rows, _, h3, rfl, hg.1, fun i => ?_⟩
      rw [mem_keys_iff hg]
      exact ⟨fun ⟨c, h5, h6⟩ => ⟨c, (h4 c).1 h5, h6⟩, fun ⟨c, h5, h6⟩ => ⟨c, (h4 c).2 h5, h6⟩⟩

/-- **C124 fails.** If the records cannot be written, `SaveIssuersList` logs this and returns the result of `Close` (go/rootprogram/issuers.go:337-347): the program exits with 0, and the file is incomplete. -/
theorem C124_encode_fails {m : MozIssuers} (hm : toolLoad load w f = some m) (ho : f.out ≠ "<stdout>".toList) (h1 : w.opens = true) (h2 : w.encodes = false) (h3 : w.closes = true) :
    (toolMain load pem w f old).ok = true ∧ (toolMain load pem w f old).file = none := by
  rw [toolMain_save pem w f old hm ho, h1, h2, h3]
  exact ⟨rfl, rfl⟩

end

/-! ### examples -/

/-- A report with a root, two certificates of one issuer, a revoked one, and one of another issuer that does not chain. -/
def exToolRows : List CcadbRow :=
  [⟨false, some ⟨['r'], ['0'], 0⟩, "Root Certificate".toList, [], [], []⟩, ⟨false, some ⟨['a'], ['1'], 1⟩, "Intermediate Certificate".toList, "Not Revoked".toList, [], []⟩,
   ⟨false, some ⟨['a'], ['2'], 2⟩, "Intermediate Certificate".toList, [], [], []⟩, ⟨false, some ⟨['b'], ['3'], 3⟩, "Intermediate Certificate".toList, "Revoked".toList, [], []⟩,
   ⟨false, some ⟨['c'], ['4'], 4⟩, "Intermediate Certificate".toList, [], [], []⟩, ⟨false, some ⟨['d'], ['5'], 5⟩, "Intermediate Certificate".toList, [], [], []⟩]

def exToolChains (_ _ : List IssCert) (c : IssCert) : Bool := decide (c.raw ≠ 4)

def exToolRowsOf (b : Bytes) : Option (List CcadbRow) := if b = [1] then some exToolRows else none

def exToolLoad (b : Bytes) : Option MozIssuers := (exToolRowsOf b).map (loadFromDisk exSpace exParse exToolChains List.reverse)

theorem exToolReads : ReadsReports exToolLoad exToolRowsOf exSpace exParse exToolChains := by
  intro b
  unfold exToolLoad
  cases exToolRowsOf b with
  | none => rfl
  | some rows => exact ⟨List.reverse, fun _ _ => List.mem_reverse, rfl⟩

/-- Two reports on disk, one of which loads. -/
def exToolWorld : ToolWorld := ⟨fun p => if p = ['x'] then some ⟨[1], 0⟩ else if p = ['y'] then some ⟨[2], 0⟩ else none, ['t'], fun _ => ⟨none, .ok200 [1] true (some 0), true, false, 100⟩, 100, true, true, true, true⟩

example : (toolMain exToolLoad IssCert.fp exToolWorld { ccadb := ['x'] } none).printed = some [['d'], ['a']] := by decide +kernel

example : ∃ l rows ids, ReportUsed exToolLoad exToolWorld { ccadb := ['x'] } l ∧ exToolRowsOf l.data = some rows ∧ (toolMain exToolLoad IssCert.fp exToolWorld { ccadb := ['x'] } none).printed = some ids ∧ ids.Nodup ∧
    (∀ i, i ∈ ids ↔ ∃ c, InReport exSpace exParse exToolChains rows c ∧ c.issuer = i) ∧ (toolMain exToolLoad IssCert.fp exToolWorld { ccadb := ['x'] } none).file = none :=
  C124_printed exToolReads _ _ _ _ rfl (by decide +kernel)

/-- Without `-ccadb`, the report is downloaded. -/
example : ∃ l rows recs, ReportUsed exToolLoad exToolWorld { out := ['o'] } l ∧ exToolRowsOf l.data = some rows ∧ (toolMain exToolLoad IssCert.fp exToolWorld { out := ['o'] } none).file = some recs ∧ ∀ t, t ∈ recs.map EnrolledIssuer.pem ↔ ∃ c, InReport exSpace exParse exToolChains rows c ∧ c.fp = t := by
  obtain ⟨l, rows, recs, h1, h2, h3, h4, _⟩ := C124_written_partial exToolReads IssCert.fp exToolWorld { out := ['o'] } none (by decide) rfl (by decide +kernel)
  exact ⟨l, rows, recs, h1, h2, h3, h4⟩

example : ((toolMain exToolLoad IssCert.fp exToolWorld { out := ['o'] } none).file.map (List.map EnrolledIssuer.pem)) = some [['5'], ['2'], ['1']] := by decide +kernel

example : (toolMain exToolLoad IssCert.fp exToolWorld { ccadb := ['y'], out := ['o'] } (some [⟨['9'], false⟩])).ok = false := by decide +kernel

example : (toolMain exToolLoad IssCert.fp exToolWorld { ccadb := ['y'], out := ['o'] } (some [⟨['9'], false⟩])).file = some [⟨['9'], false⟩] :=
  ((C124_exit exToolReads _ _ _ _).2 (by rw [← toolLoad_iff exToolReads]; rintro ⟨m, hm⟩; exact nomatch hm)).2

example : (toolMain exToolLoad IssCert.fp { exToolWorld with encodes := false } { ccadb := ['x'], out := ['o'] } none).ok = true :=
  (C124_encode_fails (m := loadFromDisk exSpace exParse exToolChains List.reverse exToolRows) IssCert.fp _ _ none (by rfl) (by decide) rfl rfl rfl).1

example : (toolMain exToolLoad IssCert.fp exToolWorld { ccadb := ['x'] } none).ok = true := (C124_exit exToolReads _ _ _ _).1.2 ⟨Or.inl ⟨by decide, ⟨[1], 0⟩, rfl, exToolRows, rfl⟩, rfl⟩

example : ∃ rows ids, exToolRowsOf [1] = some rows ∧ (toolMain exToolLoad IssCert.fp exToolWorld {} none).printed = some ids ∧ ids.Nodup ∧ ∀ i, i ∈ ids ↔ ∃ c, InReport exSpace exParse exToolChains rows c ∧ c.issuer = i :=
  C124_server_partial exToolReads IssCert.fp exToolWorld {} none [1] (by rintro ⟨l, h, _⟩; exact nomatch h) (by intro l h; exact nomatch h) (fun i _ => ⟨(fun h e => by cases e), ⟨⟨[], rfl⟩, (fun _ => rfl)⟩⟩) rfl rfl (by decide +kernel)

/-- A report with the URL of a CRL: its unit has a certificate. -/
def exCertRows : List CcadbRow :=
  [⟨false, some ⟨['r'], ['0'], 0⟩, "Root Certificate".toList, [], [], []⟩, ⟨false, some ⟨['a'], ['1'], 1⟩, "Intermediate Certificate".toList, [], "http://h/a".toList, []⟩]

example : (crlUnits some (fun _ _ => none) (fun _ => false) (loadFromDisk exSpace exParse exToolChains List.reverse exCertRows).crls).map CrlUnit.issuer = [['a']] := by decide +kernel

example : ∀ u ∈ crlUnits some (fun _ _ => none) (fun _ => false) (loadFromDisk exSpace exParse exToolChains List.reverse exCertRows).crls,
    ∃ c, (loadFromDisk exSpace exParse exToolChains List.reverse exCertRows).certOf u.issuer = some c ∧ c.issuer = u.issuer ∧ InReport exSpace exParse exToolChains exCertRows c :=
  fun u hu => C79_certificate _ _ _ List.reverse (fun _ _ => List.mem_reverse) _ _ _ _ u hu

end Verif.Props
