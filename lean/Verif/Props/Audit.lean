import Verif.Model.Audit
import Verif.Props.Crls
import Verif.Props.Download
/-!
Property C87: the audit report names what could not be used.
-/
namespace Verif.Props

/-! ### the downloads -/

/-- The file is there and valid. -/
def Spec.ValidLocal (valid : Bytes → Bool) (f : Option LocalFile) : Prop := ∃ l, f = some l ∧ valid l.data = true

theorem validFile_iff (valid : Bytes → Bool) (f : Option LocalFile) : validFile valid f = true ↔ Spec.ValidLocal valid f := by
  unfold validFile Spec.ValidLocal
  cases f with
  | none => simp
  | some l => simp

/-- What the download left in the temporary file. -/
def Spec.downloaded (f : FetchIn) : Option LocalFile := (f.dl.getLast?).getD f.before.tmp

theorem verifying_acceptable (valid : Bytes → Bool) (f : FetchIn) :
    ((verifyingDownload valid f.before f.dl f.dlOK f.renames f.removes).2.1 = true ↔
      (f.dlOK = true ∧ Spec.ValidLocal valid (Spec.downloaded f) ∧ f.renames = true) ∨ Spec.ValidLocal valid f.before.final) ∧
    fetchedFile valid f = if f.dlOK = true ∧ validFile valid (Spec.downloaded f) = true ∧ f.renames = true then Spec.downloaded f else f.before.final := by
  rw [← validFile_iff, ← validFile_iff]
  unfold fetchedFile verifyingDownload Spec.downloaded
  cases f.dlOK
  · simp
  · cases hv : validFile valid ((f.dl.getLast?).getD f.before.tmp)
    · simp [hv]
    · cases f.renames <;> simp [hv]

/-- **C87 (downloads).** A CRL is given to the aggregation exactly if its directory could be made, it can be looked at, and either the download is valid and was renamed, or the old file is valid. -/
theorem C87_fetched (valid : Bytes → Bool) (path : Text) (f : FetchIn) :
    (fetchOne valid path f).1 = some path ↔ f.mkdirs = true ∧ f.stats = true ∧
      ((f.dlOK = true ∧ Spec.ValidLocal valid (Spec.downloaded f) ∧ f.renames = true) ∨ Spec.ValidLocal valid f.before.final) := by
  obtain ⟨h1, h2⟩ := verifying_acceptable valid f
  have hsome : (verifyingDownload valid f.before f.dl f.dlOK f.renames f.removes).2.1 = true → ∃ l, fetchedFile valid f = some l := by
    intro h
    rw [h2]
    split
    · rename_i hc
      obtain ⟨l, e, _⟩ := (validFile_iff valid _).1 hc.2.1
      exact ⟨l, e⟩
    · rename_i hc
      rcases h1.1 h with ⟨a, b, c⟩ | ⟨l, e, _⟩
      · exact absurd ⟨a, (validFile_iff valid _).2 b, c⟩ hc
      · exact ⟨l, e⟩
  unfold fetchOne
  rw [← h1]
  cases f.mkdirs
  · simp
  · cases hv : (verifyingDownload valid f.before f.dl f.dlOK f.renames f.removes).2.1
    · simp
    · obtain ⟨l, hl⟩ := hsome hv
      cases f.stats <;> simp [hl]

/-- **C87 (downloads, reported).** When the directory can be made, exactly the failed downloads and the downloads that are not valid are reported, whether or not an old file is then used. -/
theorem C87_download_reported (valid : Bytes → Bool) (path : Text) (f : FetchIn) (hm : f.mkdirs = true) :
    (FetchKind.failedDownload ∈ (fetchOne valid path f).2 ↔ f.dlOK = false) ∧
    (FetchKind.failedVerify ∈ (fetchOne valid path f).2 ↔ f.dlOK = true ∧ ¬ Spec.ValidLocal valid (Spec.downloaded f)) := by
  have hd : (FetchKind.failedDownload ∈ downloadAudit valid f ↔ f.dlOK = false) ∧ (FetchKind.failedVerify ∈ downloadAudit valid f ↔ f.dlOK = true ∧ ¬ Spec.ValidLocal valid (Spec.downloaded f)) := by
    rw [← validFile_iff]
    unfold downloadAudit Spec.downloaded
    cases f.dlOK
    · simp
    · cases validFile valid ((f.dl.getLast?).getD f.before.tmp) <;> simp
  unfold fetchOne
  rw [hm]
  simp only [Bool.not_true, Bool.false_eq_true, if_false]
  split
  · exact hd
  · split
    · exact hd
    · split
      · exact hd
      · refine ⟨?_, ?_⟩
        · rw [List.mem_append, hd.1]
          refine ⟨?_, Or.inl⟩
          rintro (h | h)
          · exact h
          · split at h
            · rw [List.mem_singleton] at h; cases h
            · cases h
        · rw [List.mem_append, hd.2]
          refine ⟨?_, Or.inl⟩
          rintro (h | h)
          · exact h
          · split at h
            · rw [List.mem_singleton] at h; cases h
            · cases h

/-- **C87 (old files).** A CRL is reported as old iff it is given to the aggregation and its file is older than 336 hours. -/
theorem C87_old_reported (valid : Bytes → Bool) (path : Text) (f : FetchIn) :
    FetchKind.old ∈ (fetchOne valid path f).2 ↔ (fetchOne valid path f).1 = some path ∧ ∃ l, f.now - l.mtime > 336 ∧
      ((f.dlOK = true ∧ Spec.ValidLocal valid (Spec.downloaded f) ∧ f.renames = true ∧ Spec.downloaded f = some l) ∨
       (¬ (f.dlOK = true ∧ Spec.ValidLocal valid (Spec.downloaded f) ∧ f.renames = true) ∧ f.before.final = some l)) := by
  obtain ⟨_, h2⟩ := verifying_acceptable valid f
  have hd : FetchKind.old ∉ downloadAudit valid f := by
    unfold downloadAudit
    split
    · simp
    · split <;> simp
  have hfile : ∀ l, fetchedFile valid f = some l ↔
      ((f.dlOK = true ∧ Spec.ValidLocal valid (Spec.downloaded f) ∧ f.renames = true ∧ Spec.downloaded f = some l) ∨
       (¬ (f.dlOK = true ∧ Spec.ValidLocal valid (Spec.downloaded f) ∧ f.renames = true) ∧ f.before.final = some l)) := by
    intro l
    rw [h2, ← validFile_iff]
    by_cases hc : f.dlOK = true ∧ validFile valid (Spec.downloaded f) = true ∧ f.renames = true
    · rw [if_pos hc]
      constructor
      · intro h; exact Or.inl ⟨hc.1, hc.2.1, hc.2.2, h⟩
      · rintro (⟨_, _, _, h⟩ | ⟨h, _⟩)
        · exact h
        · exact absurd hc h
    · rw [if_neg hc]
      constructor
      · intro h; exact Or.inr ⟨hc, h⟩
      · rintro (⟨a, b, c, _⟩ | ⟨_, h⟩)
        · exact absurd ⟨a, b, c⟩ hc
        · exact h
  simp only [← hfile]
  unfold fetchOne
  split
  · simp
  · split
    · simp [hd]
    · split
      · simp [hd]
      · cases hl : fetchedFile valid f with
        | none => simp [hd]
        | some l =>
          dsimp only
          rw [List.mem_append]
          constructor
          · rintro (h | h)
            · exact absurd h hd
            · split at h
              · rename_i hc; exact ⟨rfl, l, hc, rfl⟩
              · cases h
          · rintro ⟨_, l', hc, e⟩
            cases e
            rw [if_pos hc]
            exact Or.inr (List.mem_singleton.2 rfl)

/-- A valid file is 1; the download is 2. The old file is used; the failure is reported; 400 hours later it is also reported as old. -/
def xFetchIn (now : Int) : FetchIn := ⟨true, ⟨some ⟨[1], 0⟩, none⟩, [some ⟨[2], 5⟩], true, true, true, true, now⟩

example : fetchOne (fun b => decide (b = [1])) ['p'] (xFetchIn 5) = (some ['p'], [.failedVerify]) ∧ fetchOne (fun b => decide (b = [1])) ['p'] (xFetchIn 400) = (some ['p'], [.failedVerify, .old]) ∧
    fetchOne (fun b => decide (b = [2])) ['p'] (xFetchIn 5) = (some ['p'], []) ∧ fetchOne (fun b => decide (b = [3])) ['p'] (xFetchIn 5) = (none, [.failedVerify]) := by decide

/-! ### the aggregation -/

theorem crlAud_end (disk : Text → Option CrlFile) (units : List CrlUnit) (threads : Nat) (h1 : 1 ≤ threads)
    (files0 : Text → Option Text) (acts : List CrlAct) (hr : ((CrlAgg.init units threads files0).run disk acts).returned = true)
    (hc : ((CrlAgg.init units threads files0).run disk acts).cancelled = false) (i url : Text) (k : AuditKind) :
    (i, url, k) ∈ ((CrlAgg.init units threads files0).run disk acts).audit ↔
      ∃ u ∈ units, u.issuer = i ∧ ∃ p ∈ u.paths, p.url = url ∧ k ∈ (treatCrl disk u.partitioned u.partition p).audit := by
  have hlen := crlAgg_workers_length disk acts (CrlAgg.init units threads files0)
  have key : ∀ (acts : List CrlAct) (a : CrlAgg), CrlAud disk units a → CrlAud disk units (a.run disk acts) := by
    intro acts
    induction acts with
    | nil => intro a h; exact h
    | cons x xs ih => intro a h; exact ih _ (crlAud_step disk units a x h)
  have inv := key acts (CrlAgg.init units threads files0) ⟨fun u hu => hu, fun k u todo failed l hk => (by have := get_replicate hk; cases this),
    fun x hx => (by cases hx), fun _ _ u hu => Or.inl hu, fun _ k hk => (by have := get_replicate hk; cases this)⟩
  generalize (CrlAgg.init units threads files0).run disk acts = a at *
  unfold CrlAgg.returned at hr
  rw [Bool.and_eq_true, List.all_eq_true] at hr
  have hst : ∀ (k : Nat) (w : CWorker), a.workers[k]? = some w → w = .stopped := fun k w hw => by simpa using hr.2 w (List.mem_of_getElem? hw)
  have hlen : a.workers.length = threads := by rw [hlen]; simp [CrlAgg.init]
  have h0 : a.workers[0]? = some .stopped := by
    have h0 := List.getElem?_eq_getElem (l := a.workers) (i := 0) (by omega)
    rw [h0, hst 0 _ h0]
  constructor
  · intro hm; exact inv.sound _ hm
  · rintro ⟨u, hu, rfl, p, hp, rfl, hk⟩
    rcases inv.place hc (by simpa using hr.1) u hu with h2 | ⟨j, todo, failed, l, h2⟩ | h2
    · rw [inv.stopped hc 0 h0] at h2; cases h2
    · have := hst j _ h2; cases this
    · exact h2 p hp _ hk

/-- The file at the path is a CRL signed by the issuer. -/
def Spec.SignedAt (disk : Text → Option CrlFile) (path : Text) (c : CrlFile) : Prop := disk path = some c ∧ c.sigOK = true

theorem treat_kinds (disk : Text → Option CrlFile) (part : Bool) (partition : List Text) (p : UrlPath) :
    (AuditKind.failedVerify ∈ (treatCrl disk part partition p).audit ↔ ∃ path, p.path = some path ∧ ¬ ∃ c, Spec.SignedAt disk path c) ∧
    (AuditKind.failedProcess ∈ (treatCrl disk part partition p).audit ↔ (∃ path c, p.path = some path ∧ Spec.SignedAt disk path c) ∧ ¬ ∃ l, CrlLists disk p l) ∧
    (AuditKind.noRevocations ∈ (treatCrl disk part partition p).audit ↔ CrlLists disk p []) ∧
    ∀ n, (AuditKind.valid n ∈ (treatCrl disk part partition p).audit ↔ ∃ l, CrlLists disk p l ∧ l ≠ [] ∧ l.length = n) := by
  have hidp : ∀ c, ∀ k ∈ idpAudit part partition c p.url, k = .wrongIdp := by
    intro c k hk
    unfold idpAudit at hk
    split at hk
    · exact List.mem_singleton.1 hk
    · cases hk
  have hno : ∀ c k, k ≠ .wrongIdp → k ∉ idpAudit part partition c p.url := fun c k h hk => h (hidp c k hk)
  cases hp : p.path with
  | none =>
    have hn : ∀ l, ¬ CrlLists disk p l := by
      rintro l ⟨q, _, _, e, _⟩
      rw [hp] at e; cases e
    unfold treatCrl
    rw [hp]
    simp [hn]
  | some path =>
    unfold treatCrl loadCrl
    rw [hp]
    dsimp only
    cases hd : disk path with
    | none =>
      have hn : ∀ l, ¬ CrlLists disk p l := by
        rintro l ⟨q, c, _, e, e2, _⟩
        rw [hp] at e; cases e
        rw [hd] at e2; cases e2
      have hs : ∀ c, ¬ Spec.SignedAt disk path c := by
        rintro c ⟨e, _⟩
        rw [hd] at e; cases e
      simp [hn, hs]
    | some c =>
      dsimp only
      cases hsig : c.sigOK with
      | false =>
        have hn : ∀ l, ¬ CrlLists disk p l := by
          rintro l ⟨q, c', _, e, e2, e3, _⟩
          rw [hp] at e; cases e
          rw [hd] at e2; cases e2
          rw [hsig] at e3; cases e3
        have hs : ∀ c, ¬ Spec.SignedAt disk path c := by
          rintro c' ⟨e, e2⟩
          rw [hd] at e; cases e
          rw [hsig] at e2; cases e2
        simp [hn, hs]
      | true =>
        have hs : Spec.SignedAt disk path c := ⟨hd, hsig⟩
        have hl : ∀ l, CrlLists disk p l ↔ processCRL c = some l := by
          intro l
          unfold processCRL
          constructor
          · rintro ⟨q, c', es, e, e2, _, e4, e5⟩
            rw [hp] at e; cases e
            rw [hd] at e2; cases e2
            rw [e4]
            exact (processEntries_iff es l).2 e5
          · intro h
            cases hes : c.entries with
            | none => rw [hes] at h; cases h
            | some es =>
              rw [hes] at h
              exact ⟨path, c, es, hp, hd, hsig, hes, (processEntries_iff es l).1 h⟩
        simp only [if_true, hl]
        have hex : ∃ c, Spec.SignedAt disk path c := ⟨c, hs⟩
        have hex2 : ∃ q c, some path = some q ∧ Spec.SignedAt disk q c := ⟨path, c, rfl, hs⟩
        cases hpc : processCRL c with
        | none => simp [hno, hex]
        | some l =>
          dsimp only
          by_cases hz : l.length = 0
          · rw [if_pos hz]
            have : l = [] := List.length_eq_zero_iff.1 hz
            subst this
            simp [hno, hex]
          · rw [if_neg hz]
            have hne : l ≠ [] := fun e => hz (by rw [e]; rfl)
            simp [hno, hex, hne]
            exact fun n => eq_comm

/-- **C87 (aggregation).** After an uninterrupted run the report names, with issuer and URL, exactly the files that are not CRLs signed by the issuer, the signed CRLs that could not be decoded, the CRLs without revocations, and the CRLs
used with the number of their revocations. -/
theorem C87_aggregation_reported (disk : Text → Option CrlFile) (units : List CrlUnit) (threads : Nat) (h1 : 1 ≤ threads)
    (files0 : Text → Option Text) (acts : List CrlAct) (hr : ((CrlAgg.init units threads files0).run disk acts).returned = true)
    (hc : ((CrlAgg.init units threads files0).run disk acts).cancelled = false) (i url : Text) :
    ((i, url, AuditKind.failedVerify) ∈ ((CrlAgg.init units threads files0).run disk acts).audit ↔
      ∃ u ∈ units, u.issuer = i ∧ ∃ p ∈ u.paths, p.url = url ∧ ∃ path, p.path = some path ∧ ¬ ∃ c, Spec.SignedAt disk path c) ∧
    ((i, url, AuditKind.failedProcess) ∈ ((CrlAgg.init units threads files0).run disk acts).audit ↔
      ∃ u ∈ units, u.issuer = i ∧ ∃ p ∈ u.paths, p.url = url ∧ (∃ path c, p.path = some path ∧ Spec.SignedAt disk path c) ∧ ¬ ∃ l, CrlLists disk p l) ∧
    ((i, url, AuditKind.noRevocations) ∈ ((CrlAgg.init units threads files0).run disk acts).audit ↔
      ∃ u ∈ units, u.issuer = i ∧ ∃ p ∈ u.paths, p.url = url ∧ CrlLists disk p []) ∧
    ∀ n, ((i, url, AuditKind.valid n) ∈ ((CrlAgg.init units threads files0).run disk acts).audit ↔
      ∃ u ∈ units, u.issuer = i ∧ ∃ p ∈ u.paths, p.url = url ∧ ∃ l, CrlLists disk p l ∧ l ≠ [] ∧ l.length = n) := by
  have h := crlAud_end disk units threads h1 files0 acts hr hc i url
  refine ⟨?_, ?_, ?_, fun n => ?_⟩
  · rw [h]; simp only [(treat_kinds disk _ _ _).1]
  · rw [h]; simp only [(treat_kinds disk _ _ _).2.1]
  · rw [h]; simp only [(treat_kinds disk _ _ _).2.2.1]
  · rw [h]; simp only [(treat_kinds disk _ _ _).2.2.2 n]

example : let a := (CrlAgg.init xUnits 2 (fun _ => none)).run xDisk xActs
    a.returned = true ∧ a.cancelled = false ∧ (['b'], ['w'], AuditKind.failedVerify) ∈ a.audit ∧ (['a'], ['u'], AuditKind.valid 2) ∈ a.audit := by decide +kernel

/-! ### the report of a run -/

theorem fetchOne_path (valid : Bytes → Bool) (path : Text) (f : FetchIn) : (fetchOne valid path f).1 = none ∨ (fetchOne valid path f).1 = some path := by
  unfold fetchOne
  split
  · exact Or.inl rfl
  · split
    · exact Or.inl rfl
    · split
      · exact Or.inl rfl
      · split
        · exact Or.inl rfl
        · exact Or.inr rfl

theorem fetchAudits_mem (valid : Bytes → Bool) (pathOf : Text → Text → Text) (inp : Text → Text → FetchIn) (units : List CrlUnit) (i url : Text) (k : FetchKind) :
    (i, url, k) ∈ fetchAudits valid pathOf inp units ↔ ∃ u ∈ units, u.issuer = i ∧ ∃ p ∈ u.paths, p.url = url ∧ k ∈ (fetchOne valid (pathOf i url) (inp i url)).2 := by
  unfold fetchAudits
  rw [List.mem_flatten]
  constructor
  · rintro ⟨l, hl, hm⟩
    obtain ⟨u, hu, rfl⟩ := List.mem_map.1 hl
    obtain ⟨l', hl', hm⟩ := List.mem_flatten.1 hm
    obtain ⟨p, hp, rfl⟩ := List.mem_map.1 hl'
    obtain ⟨k', hk, e⟩ := List.mem_map.1 hm
    rw [Prod.mk.injEq, Prod.mk.injEq] at e
    obtain ⟨rfl, rfl, rfl⟩ := e
    exact ⟨u, hu, rfl, p, hp, rfl, hk⟩
  · rintro ⟨u, hu, rfl, p, hp, rfl, hk⟩
    exact ⟨_, List.mem_map.2 ⟨u, hu, rfl⟩, List.mem_flatten.2 ⟨_, List.mem_map.2 ⟨p, hp, rfl⟩, List.mem_map.2 ⟨k, hk, rfl⟩⟩⟩

/-- Some failure of the CRL at `url` of issuer `i` is in the report. -/
def Spec.FailureReported (dl : List (Text × Text × FetchKind)) (agg : List (Text × Text × AuditKind)) (i url : Text) : Prop :=
  (i, url, FetchKind.failedDownload) ∈ dl ∨ (i, url, FetchKind.failedVerify) ∈ dl ∨ (i, url, AuditKind.failedVerify) ∈ agg ∨ (i, url, AuditKind.failedProcess) ∈ agg

/-- **C87 (complete, partial).** After an uninterrupted run every CRL that could not be used is in the report as a failure, and every issuer that has no revoked file has such a CRL. Missing: directories that can not be made, failed renames, and
files that can not be looked at, none of which is reported (`C87_unreported_fails`), and URLs that can not be parsed. -/
theorem C87_complete_partial (disk : Text → Option CrlFile) (valid : Bytes → Bool) (pathOf : Text → Text → Text) (inp : Text → Text → FetchIn) (parse : Text → Option Text) (part : Text → Bool)
    (m : List (Text × List Text)) (hn : (m.map Prod.fst).Nodup) (threads : Nat) (h1 : 1 ≤ threads) (acts : List CrlAct)
    (hr : ((CrlAgg.init (fetchedUnits valid pathOf inp parse part m) threads (fun _ => none)).run disk acts).returned = true)
    (hc : ((CrlAgg.init (fetchedUnits valid pathOf inp parse part m) threads (fun _ => none)).run disk acts).cancelled = false)
    (hs : ((CrlAgg.init (fetchedUnits valid pathOf inp parse part m) threads (fun _ => none)).run disk acts).silent = false)
    (hio : ∀ i u, (inp i u).mkdirs = true ∧ (inp i u).renames = true ∧ (inp i u).stats = true) (u : CrlUnit) (hu : u ∈ fetchedUnits valid pathOf inp parse part m) :
    (∀ p ∈ u.paths, (¬ ∃ l, CrlLists disk p l) → Spec.FailureReported (fetchAudits valid pathOf inp (fetchedUnits valid pathOf inp parse part m))
      ((CrlAgg.init (fetchedUnits valid pathOf inp parse part m) threads (fun _ => none)).run disk acts).audit u.issuer p.url) ∧
    (((CrlAgg.init (fetchedUnits valid pathOf inp parse part m) threads (fun _ => none)).run disk acts).files u.issuer = none →
      ∃ p ∈ u.paths, Spec.FailureReported (fetchAudits valid pathOf inp (fetchedUnits valid pathOf inp parse part m))
        ((CrlAgg.init (fetchedUnits valid pathOf inp parse part m) threads (fun _ => none)).run disk acts).audit u.issuer p.url) := by
  have hrep : ∀ p ∈ u.paths, (¬ ∃ l, CrlLists disk p l) → Spec.FailureReported (fetchAudits valid pathOf inp (fetchedUnits valid pathOf inp parse part m))
      ((CrlAgg.init (fetchedUnits valid pathOf inp parse part m) threads (fun _ => none)).run disk acts).audit u.issuer p.url := by
    intro p hp hbad
    obtain ⟨e, _, _, hue⟩ := (crlUnits_mem parse _ part m u).1 hu
    have hpath : p.path = (fetchOne valid (pathOf u.issuer p.url) (inp u.issuer p.url)).1 := by
      have hp2 := hp
      rw [hue] at hp2
      obtain ⟨v, _, rfl⟩ := List.mem_map.1 hp2
      rw [hue]
    obtain ⟨k1, k2, _, _⟩ := C87_aggregation_reported disk _ threads h1 _ acts hr hc u.issuer p.url
    unfold Spec.FailureReported
    rcases fetchOne_path valid (pathOf u.issuer p.url) (inp u.issuer p.url) with hnone | hsome
    · obtain ⟨g1, g2⟩ := C87_download_reported valid (pathOf u.issuer p.url) (inp u.issuer p.url) (hio _ _).1
      cases hdl : (inp u.issuer p.url).dlOK with
      | false => exact Or.inl ((fetchAudits_mem _ _ _ _ _ _ _).2 ⟨u, hu, rfl, p, hp, rfl, g1.2 hdl⟩)
      | true =>
        refine Or.inr (Or.inl ((fetchAudits_mem _ _ _ _ _ _ _).2 ⟨u, hu, rfl, p, hp, rfl, g2.2 ⟨hdl, fun hv => ?_⟩⟩))
        have := (C87_fetched valid (pathOf u.issuer p.url) (inp u.issuer p.url)).2 ⟨(hio _ _).1, (hio _ _).2.2, Or.inl ⟨hdl, hv, (hio _ _).2.1⟩⟩
        rw [hnone] at this
        cases this
    · rw [hsome] at hpath
      by_cases hsig : ∃ c, Spec.SignedAt disk (pathOf u.issuer p.url) c
      · obtain ⟨c, hsig⟩ := hsig
        exact Or.inr (Or.inr (Or.inr (k2.2 ⟨u, hu, rfl, p, hp, rfl, ⟨_, c, hpath, hsig⟩, hbad⟩)))
      · exact Or.inr (Or.inr (Or.inl (k1.2 ⟨u, hu, rfl, p, hp, rfl, _, hpath, hsig⟩)))
  refine ⟨hrep, fun hf => ?_⟩
  by_cases hgood : ∀ p ∈ u.paths, ∃ l, CrlLists disk p l
  · obtain ⟨t, _, e, _⟩ := C46_read_back_partial disk (fetchedUnits valid pathOf inp parse part m) ((crlUnits_issuers _ _ _ _).nodup hn) threads h1 _ acts hr hc hs u hu hgood .all []
    rw [hf] at e
    cases e
  · have : ∃ p ∈ u.paths, ¬ ∃ l, CrlLists disk p l := by
      refine Classical.byContradiction fun hno => hgood fun p hp => Classical.byContradiction fun hb => hno ⟨p, hp, hb⟩
    obtain ⟨p, hp, hb⟩ := this
    exact ⟨p, hp, hrep p hp hb⟩

/-- The CRL at `u` can be downloaded, the one at `w` can not and there is no old file. -/
def xInp (_ u : Text) : FetchIn := if u = ['u'] then ⟨true, ⟨none, none⟩, [some ⟨[1], 5⟩], true, true, true, true, 6⟩ else ⟨true, ⟨none, none⟩, [], false, true, true, true, 6⟩

example : let units := fetchedUnits (fun _ => true) (fun _ _ => ['p']) xInp some (fun _ => false) [(['a'], [['u']]), (['b'], [['w']])]
    let a := (CrlAgg.init units 1 (fun _ => none)).run xDisk [.take 0, .next 0 xSt, .next 0 xSt, .take 0, .next 0 xSt, .next 0 xSt, .take 0]
    a.returned = true ∧ a.cancelled = false ∧ a.silent = false ∧ a.files ['b'] = none ∧ a.files ['a'] ≠ none ∧
    fetchAudits (fun _ => true) (fun _ _ => ['p']) xInp units = [(['b'], ['w'], .failedDownload)] ∧ (∀ i u, (xInp i u).mkdirs = true ∧ (xInp i u).renames = true ∧ (xInp i u).stats = true) := by
  refine ⟨by decide +kernel, by decide +kernel, by decide +kernel, by decide +kernel, by decide +kernel, by decide +kernel, fun i u => ?_⟩
  unfold xInp
  split <;> exact ⟨rfl, rfl, rfl⟩

/-- The valid download can not be renamed; there is no old file. -/
def xNoRename (_ _ : Text) : FetchIn := ⟨true, ⟨none, none⟩, [some ⟨[1], 5⟩], true, false, true, true, 6⟩

/-- The directory can not be made. -/
def xNoDir (_ _ : Text) : FetchIn := ⟨false, ⟨none, none⟩, [some ⟨[1], 5⟩], true, true, true, true, 6⟩

/-- **C87 fails for local errors.** The valid download can not be moved to its place, or the directory can not be made: the run ends normally, the issuer has no revoked file, and the report is empty. The comment at aggregate-crls.go:334 says that the
download has notified the auditor. -/
theorem C87_unreported_fails : ∀ inp, inp = xNoRename ∨ inp = xNoDir →
    let units := fetchedUnits (fun _ => true) (fun _ _ => ['p']) inp some (fun _ => false) [(['a'], [['u']])]
    let a := (CrlAgg.init units 1 (fun _ => none)).run xDisk [.take 0, .next 0 xSt, .next 0 xSt, .take 0]
    a.returned = true ∧ a.cancelled = false ∧ a.silent = false ∧ a.files ['a'] = none ∧ a.audit = [] ∧ fetchAudits (fun _ => true) (fun _ _ => ['p']) inp units = [] := by
  rintro inp (rfl | rfl) <;> decide +kernel

/-- `C87_download_reported` where the download is not valid, and where it failed. -/
example := C87_download_reported (fun b => decide (b = [1])) ['p'] (xFetchIn 5) rfl
example := C87_download_reported (fun _ => true) ['p'] (xInp ['b'] ['w']) rfl

example := C87_unreported_fails xNoDir (Or.inr rfl)

end Verif.Props
