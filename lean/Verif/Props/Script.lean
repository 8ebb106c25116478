import Verif.Model.Script
import Verif.Props.Build
import Verif.Props.System
import Verif.Props.Priority
/-!
Property C99: crlite-generate.sh as a whole. What the programs of one execution leave for each other, and the statements C82, C92 and C97 with the script in place of their conditions on runs.
-/
namespace Verif.Spec
open Verif.Props

/-- The libraries do what they should: files are read back as they were written, and the filter library covers at most what the coverage file says. -/
structure GoodLib {F : Type} (L : ScriptLib F) (card : Bytes → Option (Card F)) : Prop where
  card : ∀ f sts, card (L.writeCard f sts) = some ⟨f, L.coverage sts⟩
  revset : ∀ l, ∃ l', L.readRevset (L.writeRevset l) = some l' ∧ ∀ k, k ∈ l' ↔ k ∈ l
  pem : ∀ c, L.unpem (L.pem c) = some c
  coverage : ∀ sts id lo hi, L.coverage sts id = some (lo, hi) → ∃ c, newCoverageCutoffMap sts id = some c ∧ hi ≤ c.toNat

/-- The conditions under which the builder can read what the Go programs leave: at least one worker, no unnoticed write error (`C44_last_flush_fails`, `C46_last_flush_fails`), it is not the first day of 1970, issuers are named by the
SHA-256 of their keys, maps and directories give each of their entries. -/
structure ReadableScript {F : Type} (L : ScriptLib F) (e : Script) : Prop where
  one : 1 ≤ e.threads
  later : 86400000 ≤ e.t0
  crlLoud : e.crlAgg.silent = false
  knownLoud : ∀ recs sts a, e.inputs L = some (recs, sts, a) → a.silent = false
  ids : ∀ r ∈ e.rows, ∀ c, r.cert = some c → ∃ d : Bytes, d.length = 32 ∧ c.issuer = issuerID d
  ordered : ∀ l x, x ∈ e.certOrder l ↔ x ∈ l
  knownAll : ∀ recs sts a, e.inputs L = some (recs, sts, a) → ∀ n, n ∈ e.knownNames ↔ a.files n ≠ none
  revokedAll : ∀ n, e.revokedFiles n ≠ none → n ∈ e.revokedNames

/-- The run's folder: no file is found twice, and the files besides those of the two Go programs (one of them is `timestamp`, crlite-generate.sh:38) have other names. -/
structure TidyFolder (e : Script) : Prop where
  knownOnce : e.knownNames.Nodup
  stamped : ∃ f ∈ e.others, f.symlink = false
  once : ∀ f ∈ e.others, ∀ f' ∈ e.others, f.path = f'.path → f = f'
  apart : ∀ f ∈ e.others, ∃ n rest, f.path = n :: rest ∧
    n ∉ ["completed".toList, "clubcard-all".toList, "clubcard-priority".toList, "known".toList, "revoked".toList, "enrolled.json".toList, "ct-logs.json".toList]

/-- The builder's input, read from the directories that the Go programs leave. -/
structure InputOf {F : Type} (L : ScriptLib F) (e : Script) (W : RunInput) : Prop where
  good : GoodInput W []
  known : ∀ recs sts a, e.inputs L = some (recs, sts, a) → dirList a.files e.knownNames = knownDir W ∧ Spec.ReadsKnown W a.files
  revoked : ∀ i ∈ W, e.revokedFiles (issuerID i.digest) = i.revokedText

/-- The issuer is enrolled: a certificate of it, the first with its fingerprint among the usable intermediates of the report, chains to a root of the report. -/
def EnrolledIn (e : Script) (i : Text) : Prop := ∃ r c, FirstRow e.rows r c ∧ Spec.Chained e.sp e.urlParse e.chains e.rows c ∧ c.issuer = i

/-- The report of this execution discloses the CRL URL `v` for issuer `i`. -/
def DisclosedIn (e : Script) (i v : Text) : Prop := Spec.Discloses e.sp e.urlParse (Spec.Chained e.sp e.urlParse e.chains e.rows) e.rows i v

/-- The CRL `v` of issuer `i` was fetched, verified, and lists `l`. -/
def FetchedIn (e : Script) (i v : Text) (l : List (Serial × UInt8)) : Prop := ∃ u, e.norm v = some u ∧ CrlLists e.disk { url := u, path := e.fetch i u } l

/-- Every CRL disclosed for issuer `i` was got, and one of them lists the serial with a reason of the set. -/
def RevokedBy (e : Script) (rs : ReasonSet) (i : Text) (n : Serial) : Prop :=
  (∀ v, DisclosedIn e i v → ∃ l, FetchedIn e i v l) ∧ ∃ v l c, DisclosedIn e i v ∧ FetchedIn e i v l ∧ (n, c) ∈ l ∧ codesOf rs c.toNat

/-- The world of an execution: ct-fetch and earlier commits have led by the steps `acts` to the storage that aggregate-known reads, the clock has not gone back since; the published RFC 6962 logs have been fetched back to entry 0
(`C24_lower_edge_fails`); aggregate-crls was not interrupted (`C99_interrupted_fails`); the report is well formed. -/
structure ScriptWorld (H : Bytes → Bytes) (mt : Meta) (w : World) (env : Env) {F : Type} (L : ScriptLib F) (e : Script) (acts : List WAct) : Prop where
  allowed : WAllAllowed H mt w env Whole.init acts
  view : Spec.StorageView (Whole.init.run H mt env acts).db e.dirs e.file
  logs : e.ctlogs = (Whole.init.run H mt env acts).db.ctlogs
  after : (Whole.init.run H mt env acts).db.now ≤ e.t0
  back : ∀ recs sts a, e.inputs L = some (recs, sts, a) → ∀ st ∈ sts, w.tiled st.shortURL = false → st.minEntry = 0 ∧ st.lastUpdateTime ≠ none
  whole : e.crlAgg.cancelled = false
  crlOne : 1 ≤ e.crlThreads
  spaces : Spec.Spaces e.sp
  stable : ∀ t v, HttpUrl e.urlParse t v → ∃ u, e.norm v = some u
  formed : Spec.WellFormed e.sp e.rows

/-- The certificate of the issuer with key digest `d`, with serial `n`, expiry `na` and these SCTs is in the scope of the execution: its issuer is enrolled, its expiry hour has not begun when aggregate-known ends, its SCTs are honest. -/
def ScopeOf (H : Bytes → Bytes) (mt : Meta) (w : World) (env : Env) {F : Type} (L : ScriptLib F) (e : Script) (scts : List (Bytes × Nat)) (d : Bytes) (n : Serial) (na : Nat) : Prop :=
  EnrolledIn e (issuerID d) ∧ ∀ recs sts a, e.inputs L = some (recs, sts, a) → a.clock < ((na / 3600 * 3600 : Nat) : Int) * 1000 ∧ Spec.HonestScts (L.coverage sts) sts H mt w env scts d n na

/-- Execution number `n` is the last with this name. -/
def Executed (s : Ops) (y : Text) (n : Nat) : Prop := ∃ a prev, MadeBy s y a prev ∧ a.exec = n

/-- The states that executions of the script and runs of the publisher lead to. `E n` is the `n`-th execution; it may be stopped anywhere. Conditions on names, channels and records as in `GoodEvent`. -/
inductive ScriptReach {F : Type} (L : ScriptLib F) (E : Nat → Script) : Ops → Prop
  | init : ScriptReach L E Ops.init
  | generate (s : Ops) (n : Nat) (g : GenRun) (today : Text) (localDirs : List Text) : ScriptReach L E s → (E n).genRun L n = some g → IsDate today →
      (∀ d k, IsDate d → HasFolder s.bucket (runName d k) → Verif.Props.digitsNat d ≤ Verif.Props.digitsNat today) → nextIdx today (dirsOf s.bucket) < 1000000 → allocate today (dirsOf s.bucket) localDirs = some g.run →
      ScriptReach L E (s.step (.generate g))
  | write (s : Ops) : ScriptReach L E s → ScriptReach L E (s.step .write)
  | publish (s : Ops) (ages : ReadAges) (penv : PubEnv) (slug dir delta : Text) (parseTime : Bytes → Option Nat) (maxAge : Nat) (noop : Bool) : ScriptReach L E s → (∀ c ∈ slug, c ≠ '-') → FreshIds penv.freshId →
      ScriptReach L E (s.step (.publish ages penv slug dir delta parseTime maxAge noop))

end Verif.Spec

namespace Verif.Props
open Verif.Spec

/-! ### the programs with status 0 -/

theorem inputs_some {F : Type} {L : ScriptLib F} {e : Script} {recs : List EnrolledIssuer} {sts : List CTLogState} {a : Agg} (h : e.inputs L = some (recs, sts, a)) :
    e.interrupted = false ∧ e.crlAgg.returned = true ∧ recs = savedRecords L.pem e.moz ∧
      ∃ m, loadRecords L.unpem recs MozIssuers.empty = some m ∧ e.committed = true ∧ aggregateKnown m.inProgram e.dirs e.file e.ctlogs e.threads (fun _ => none) e.t0 e.kacts = some (sts, a) := by
  unfold Script.inputs at h
  split at h
  · cases h
  · rename_i saved hc
    split at h
    · rename_i saved' recs' sts' a' hk
      cases h
      unfold Script.crls at hc
      split at hc
      · cases hc
      · split at hc
        · cases hc
        · rename_i hi
          split at hc
          · rename_i hr
            dsimp only at hc
            split at hc
            · rename_i hok
              unfold saveIssuersList at hc
              split at hc
              · cases hc
              · dsimp only at hc
                split at hc
                · cases hc
                  unfold Script.known at hk
                  dsimp only at hk
                  split at hk
                  · cases hk
                  · rename_i m hm
                    split at hk
                    · rename_i hcm
                      exact ⟨by simpa using hi, hr, rfl, m, hm, hcm, hk⟩
                    · cases hk
                · cases hc
            · cases hc
          · cases hc
    · cases h

theorem assocGet_dirList (files : Text → Option Text) (n : Text) : ∀ names : List Text, assocGet (dirList files names) n = if n ∈ names then files n else none := by
  intro names
  induction names with
  | nil => rfl
  | cons x rest ih =>
    unfold dirList at ih ⊢
    rw [List.filterMap_cons]
    cases hx : files x with
    | none =>
      dsimp only [Option.map_none]
      rw [ih]
      by_cases hn : n = x
      · subst hn
        rw [if_pos List.mem_cons_self, hx]
        split <;> rfl
      · simp [hn]
    | some t =>
      dsimp only [Option.map_some]
      by_cases hn : n = x
      · subst hn
        unfold assocGet
        simp [hx]
      · have hs : ∀ l : Dir, assocGet ((x, t) :: l) n = assocGet l n := by
          intro l
          unfold assocGet
          rw [List.find?_cons_of_neg (by simpa using Ne.symm hn)]
        rw [hs, ih]
        simp [hn]

/-! ### what the Go programs leave -/

/-- The certificates of the report that aggregate-crls enrolls. -/
theorem moz_inserted (e : Script) : ∃ inserted, e.moz = MozIssuers.empty.insertAll inserted ∧
    ∀ x, x ∈ inserted ↔ x ∈ e.certOrder (intermediates e.sp e.urlParse e.rows []) ∧ e.chains (rootPool e.rows) ((intermediates e.sp e.urlParse e.rows []).map Prod.fst) x.1 = true :=
  ⟨_, rfl, fun _ => List.mem_filter⟩

/-- The issuers that aggregate-known reads are those of chained certificates of the report. -/
theorem enrolled_iff {F : Type} {L : ScriptLib F} (hpem : ∀ c, L.unpem (L.pem c) = some c) {e : Script} (ho : ∀ l x, x ∈ e.certOrder l ↔ x ∈ l) {m : MozIssuers}
    (h : loadRecords L.unpem (savedRecords L.pem e.moz) MozIssuers.empty = some m) (i : Text) :
    m.inProgram i = true ↔ ∃ r c, FirstRow e.rows r c ∧ e.chains (rootPool e.rows) ((intermediates e.sp e.urlParse e.rows []).map Prod.fst) c = true ∧ c.issuer = i := by
  obtain ⟨inserted, h1, h2⟩ := moz_inserted e
  rw [h1] at h
  obtain ⟨m', h3, _, h4⟩ := C53_round_trip L.pem L.unpem hpem inserted
  rw [h3, Option.some.injEq] at h
  rw [← h, h4]
  constructor
  · rintro ⟨x, hx, rfl⟩
    obtain ⟨h5, h6⟩ := (h2 x).1 hx
    rcases (mem_intermediates _ _ _ _ _).1 ((ho _ _).1 h5) with h5 | ⟨r, h7, _⟩
    · cases h5
    · exact ⟨r, x.1, h7, h6, rfl⟩
  · rintro ⟨r, c, h5, h6, rfl⟩
    exact ⟨(c, decodeCrls e.sp e.urlParse r.full r.json), (h2 _).2 ⟨(ho _ _).2 ((mem_intermediates _ _ _ _ _).2 (Or.inr ⟨r, h5, rfl, fun x hx => by cases hx⟩)), h6⟩, rfl⟩

/-- A text that the builder can read as a known file. -/
theorem known_text {enrolled : Text → Bool} {dirs : List DirEntry} {file : Text → Text → Option Text} {ctlogs : Option (List CTLogState)} {threads : Nat} (h1 : 1 ≤ threads) {t0 : Int} (ht : 86400000 ≤ t0) {acts : List KAct}
    {sts : List CTLogState} {a : Agg} (h : aggregateKnown enrolled dirs file ctlogs threads (fun _ => none) t0 acts = some (sts, a)) (hs : a.silent = false) {n : Text} {t : Text} (hn : a.files n = some t) :
    enrolled n = true ∧ ∃ bins : List (Nat × List Serial), t = (bins.map (fun b => writeSerialList (b.1 : Int) b.2)).flatten ∧ ∀ b ∈ bins, b.1 < 2 ^ 64 := by
  obtain ⟨_, out, hout, rfl, hok⟩ := aggregateKnown_some h
  obtain ⟨hnd, _, hiff⟩ := C40_listing_exact _ out hout
  by_cases hm : n ∈ (out.filter (fun u => enrolled u.1)).map Prod.fst
  · obtain ⟨u, hu, rfl⟩ := List.mem_map.1 hm
    have hu' := List.mem_filter.1 hu
    obtain ⟨bl, h2, h3⟩ := agg_success_holds file _ (nodup_filter_fst out _ hnd) threads h1 _ t0 acts hok hs u.1 u.2 hu
    rw [h3, Option.some.injEq] at hn
    have hb : ∀ p ∈ bl, 0 ≤ p.1.date ∧ p.1.date < 2 ^ 64 := by
      intro p hp
      obtain ⟨q1, q2, _⟩ := h2.complete.2 p hp
      obtain ⟨name, _, x, dt, _, hx⟩ := (hiff u.1 p.1).1 ⟨u.2, hu'.1, q1⟩
      have := newExpDate_bounds hx
      unfold ExpDate.isExpiredAt at q2
      rw [decide_eq_false_iff_not] at q2
      omega
    refine ⟨by simpa using hu'.2, bl.map (fun p => (p.1.date.toNat, p.2)), ?_, ?_⟩
    · rw [← hn]
      unfold blocksText
      rw [List.map_map]
      congr 1
      apply List.map_congr_left
      intro p hp
      have := (hb p hp).1
      show _ = writeSerialList ((p.1.date.toNat : Nat) : Int) p.2
      rw [Int.toNat_of_nonneg this]
    · intro b hbm
      obtain ⟨p, hp, rfl⟩ := List.mem_map.1 hbm
      have := hb p hp
      dsimp only
      omega
  · rw [C44_no_other_files file _ threads _ t0 acts n hm] at hn
    cases hn

/-- The files of the revoked directory are whole lists. -/
theorem revoked_text {e : Script} (hr : e.crlAgg.returned = true) (hs : e.crlAgg.silent = false) (n : Text) : ∃ r : Option (List (Serial × UInt8)), e.revokedFiles n = r.map storeRevokedCertificateList := by
  unfold Script.revokedFiles
  split
  · exact ⟨none, rfl⟩
  · by_cases hm : n ∈ e.units.map CrlUnit.issuer
    · obtain ⟨u, hu, rfl⟩ := List.mem_map.1 hm
      have hnd : (e.units.map CrlUnit.issuer).Nodup := (crlUnits_issuers _ _ _ _).nodup (loadFromDisk_keys _ _ _ _ _)
      have hf : e.crlAgg.fatal = false := by
        unfold CrlAgg.returned at hr
        cases hfa : e.crlAgg.fatal with
        | false => rfl
        | true => rw [hfa] at hr; simp at hr
      rcases C46_no_partial_file e.disk e.units hnd e.crlThreads (fun _ => none) e.crlActs hf hs u hu with h | ⟨ls, _, h⟩
      · exact ⟨none, h⟩
      · exact ⟨some ls.flatten, h⟩
    · exact ⟨none, C46_no_other_files e.disk e.units e.crlThreads (fun _ => none) e.crlActs n hm⟩

/-- Issuers with given names, texts and revocations. -/
theorem input_exists (files rev : Text → Option Text) : ∀ names : List Text,
    (∀ n ∈ names, ∃ i : RunIssuer, issuerID i.digest = n ∧ i.digest.length = 32 ∧ (∀ b ∈ i.known, b.1 < 2 ^ 64) ∧ files n = some i.knownText ∧ rev n = i.revokedText) →
    ∃ W : RunInput, W.map (fun i => issuerID i.digest) = names ∧ ∀ i ∈ W, i.digest.length = 32 ∧ (∀ b ∈ i.known, b.1 < 2 ^ 64) ∧ files (issuerID i.digest) = some i.knownText ∧ rev (issuerID i.digest) = i.revokedText := by
  intro names
  induction names with
  | nil => exact fun _ => ⟨[], rfl, fun i hi => by cases hi⟩
  | cons n rest ih =>
    intro h
    obtain ⟨W, h1, h2⟩ := ih (fun x hx => h x (List.mem_cons_of_mem _ hx))
    obtain ⟨i, rfl, h3⟩ := h n List.mem_cons_self
    refine ⟨i :: W, by rw [List.map_cons, h1], ?_⟩
    intro j hj
    rcases List.mem_cons.1 hj with rfl | hj
    · exact h3
    · exact h2 j hj

theorem dirList_map (files : Text → Option Text) : ∀ W : RunInput, (∀ i ∈ W, files (issuerID i.digest) = some i.knownText) → dirList files (W.map (fun i => issuerID i.digest)) = knownDir W := by
  intro W
  induction W with
  | nil => intro _; rfl
  | cons i rest ih =>
    intro h
    have h1 := ih (fun x hx => h x (List.mem_cons_of_mem _ hx))
    unfold dirList knownDir at *
    rw [List.map_cons, List.filterMap_cons, h i List.mem_cons_self, List.map_cons, ← h1]
    rfl

/-- **C99, the builder's input (partial).** If both Go programs end with status 0, the builder can read all that they leave, and finds it as it is: an issuer for each known file, with the bins in it, and with the revoked file if there is
one. Full statement: without the conditions of `ReadableScript` that name a counterexample. -/
theorem C99_inputs_partial {F : Type} (L : ScriptLib F) (hpem : ∀ c, L.unpem (L.pem c) = some c) (e : Script) (ht : TidyFolder e) (he : ReadableScript L e) (h : (e.inputs L).isSome = true) : ∃ W, InputOf L e W := by
  cases hi : e.inputs L with
  | none => rw [hi] at h; cases h
  | some x =>
    obtain ⟨recs, sts, a⟩ := x
    obtain ⟨h0, h1, rfl, m, h2, h3, h4⟩ := inputs_some hi
    have hloud := he.knownLoud _ _ _ hi
    have hall := he.knownAll _ _ _ hi
    obtain ⟨W, w1, w2⟩ := input_exists a.files e.revokedFiles e.knownNames (by
      intro n hn
      cases ht : a.files n with
      | none => exact absurd ht ((hall n).1 hn)
      | some t =>
        obtain ⟨k1, bins, k2, k3⟩ := known_text he.one he.later h4 hloud ht
        obtain ⟨r, c, ⟨pre, post, hrows, _, _, hc, _⟩, _, rfl⟩ := (enrolled_iff hpem he.ordered h2 n).1 k1
        obtain ⟨d, hd1, hd2⟩ := he.ids r (by rw [hrows]; exact List.mem_append_right _ List.mem_cons_self) c hc
        obtain ⟨rv, hrv⟩ := revoked_text h1 he.crlLoud c.issuer
        exact ⟨⟨d, bins, rv⟩, hd2.symm, hd1, k3, by rw [k2]; rfl, hrv⟩)
    refine ⟨W, ⟨?_, fun i hi => ⟨(w2 i hi).1, (w2 i hi).2.1⟩, fun x hx => by cases hx⟩, ?_, fun i hi => (w2 i hi).2.2.2⟩
    · have hn := ht.knownOnce
      rw [← w1, show (fun i : RunIssuer => issuerID i.digest) = issuerID ∘ RunIssuer.digest from rfl, ← List.map_map] at hn
      exact List.Pairwise.of_map issuerID (fun a b hab e => hab (by rw [e])) hn
    · intro recs' sts' a' hi'
      rw [hi, Option.some.injEq, Prod.mk.injEq, Prod.mk.injEq] at hi'
      obtain ⟨_, _, rfl⟩ := hi'
      refine ⟨?_, fun i hi => (w2 i hi).2.2.1, ?_⟩
      · rw [← w1]
        exact dirList_map a.files W (fun i hi => (w2 i hi).2.2.1)
      · intro name content hc
        have := (hall name).2 (by rw [hc]; simp)
        rw [← w1] at this
        obtain ⟨i, hi, rfl⟩ := List.mem_map.1 this
        exact ⟨i, hi, rfl⟩

/-! ### the builder -/

/-- The builder looks at the revoked directory only through the pairs. -/
theorem createRun_pairs {F : Type} (build : List Bytes → List (Bytes × Bool) → Option F) (contains : F → Bytes → Bool) (order : List Text → List Text) (rs drs : ReasonSet) (prev : Option (List Bytes)) {r r' known : Dir}
    (h : listIssuerFilePairs r known = listIssuerFilePairs r' known) : createRun build contains order rs drs prev r known = createRun build contains order rs drs prev r' known := by
  have h1 : ∀ rs, includeAllClubcard rs r known = includeAllClubcard rs r' known := by
    intro rs; unfold includeAllClubcard; rw [h]
  have h2 : ∀ rs, statusAll rs r known = statusAll rs r' known := by
    intro rs; unfold statusAll; rw [h]
  have h3 : ∀ rs, createClubcard build contains rs r known = createClubcard build contains rs r' known := by
    intro rs; unfold createClubcard checkAll; rw [h1, h2]
  have h4 : writeRevsetAndDelta drs prev r known = writeRevsetAndDelta drs prev r' known := by
    unfold writeRevsetAndDelta; rw [h]
  unfold createRun
  rw [h3, h4]

theorem deltaPairs_names {rs : ReasonSet} {prev : List Bytes} : ∀ {l : List (Text × Option Text × Text)} {dir : Dir} {keys : List Bytes}, deltaPairs rs prev l = some (dir, keys) → (dir.map Prod.fst).Sublist (l.map Prod.fst) := by
  intro l
  induction l with
  | nil =>
    intro dir keys h
    unfold deltaPairs at h
    cases h
    exact List.Sublist.refl _
  | cons x rest ih =>
    intro dir keys h
    obtain ⟨i, r, k⟩ := x
    cases r with
    | none =>
      unfold deltaPairs at h
      exact (ih h).cons i
    | some rt =>
      unfold deltaPairs at h
      split at h
      · split at h
        · rename_i hd
          cases h
          exact (ih hd).cons_cons i
        · cases h
      · cases h

theorem createRun_deltaNames {F : Type} {build : List Bytes → List (Bytes × Bool) → Option F} {contains : F → Bytes → Bool} {order : List Text → List Text} {rs drs : ReasonSet} {prev : Option (List Bytes)} {r known : Dir}
    {out : RunOut F} (h : createRun build contains order rs drs prev r known = some out) : (out.deltaDir.map Prod.fst).Sublist (known.map Prod.fst) := by
  unfold createRun at h
  split at h
  · rename_i hd
    split at h
    · cases h
      have := deltaPairs_names hd
      unfold listIssuerFilePairs at this
      rw [List.map_map] at this
      exact this
    · cases h
  · cases h

/-- What a call of `2-generate_mlbf` with status 0 leaves: nothing if the builder could not make its directory, else all the files of a run. -/
theorem make_cases {F : Type} {L : ScriptLib F} {e : Script} {rs : ReasonSet} {can : Bool} {sts : List CTLogState} {a : Agg} {prev : Option Bytes} {groups : List (List WalkFile)} (h : e.make L rs can sts a prev = some groups) :
    (can = false ∧ groups = []) ∨ (can = true ∧ ∃ r, createRun L.lib.clubcard L.lib.contains L.lib.order rs rs (prev.bind L.readRevset) (dirList e.revokedFiles e.revokedNames) (dirList a.files e.knownNames) = some r ∧
      groups = walkOut L sts (some ⟨some r.filter, some r.stash, some r.revset, some r.deltaDir, some r.deltaFilter⟩)) := by
  unfold Script.make at h
  dsimp only at h
  split at h
  · rename_i h0
    rw [Option.some.injEq] at h
    cases hc : can with
    | false =>
      left
      refine ⟨rfl, ?_⟩
      rw [← h, hc]
      rfl
    | true =>
      right
      rw [hc] at h h0
      obtain ⟨r, h1, h2⟩ := C96_done_partial L.lib (e.args L rs true a prev) (dirList a.files e.knownNames) (dirList e.revokedFiles e.revokedNames) rfl ⟨rfl, rfl, rfl, rfl, ⟨rfl, rfl⟩, Or.inl rfl⟩ h0
      exact ⟨rfl, r, h1, by rw [← h, h2]⟩
  · cases h

theorem mem_walkOut {F : Type} {L : ScriptLib F} {sts : List CTLogState} {r : RunOut F} {g : List WalkFile} {f : WalkFile}
    (hg : g ∈ walkOut L sts (some ⟨some r.filter, some r.stash, some r.revset, some r.deltaDir, some r.deltaFilter⟩)) (hf : f ∈ g) :
    f = ⟨["filter".toList], L.writeCard r.filter sts, false⟩ ∨ f = ⟨["filter.stash".toList], r.stash, false⟩ ∨ f = ⟨["revset.bin".toList], L.writeRevset r.revset, false⟩ ∨
      f = ⟨["filter.delta".toList], L.writeCard r.deltaFilter sts, false⟩ ∨ ∃ x ∈ r.deltaDir, f = ⟨["delta".toList, x.1], L.writeText x.2, false⟩ := by
  unfold walkOut at hg
  rcases List.mem_cons.1 hg with rfl | hg
  · unfold outFiles at hf
    rcases List.mem_append.1 hf with hf | hf
    · rcases List.mem_append.1 hf with hf | hf
      · rcases List.mem_append.1 hf with hf | hf
        · exact Or.inl (List.mem_singleton.1 hf)
        · exact Or.inr (Or.inl (List.mem_singleton.1 hf))
      · exact Or.inr (Or.inr (Or.inl (List.mem_singleton.1 hf)))
    · exact Or.inr (Or.inr (Or.inr (Or.inl (List.mem_singleton.1 hf))))
  · rw [List.mem_singleton.1 hg] at hf
    obtain ⟨x, hx, rfl⟩ := List.mem_map.1 hf
    exact Or.inr (Or.inr (Or.inr (Or.inr ⟨x, hx, rfl⟩)))

/-- What is in the file with this path below the output directory. -/
def outContent {F : Type} (L : ScriptLib F) (sts : List CTLogState) (r : RunOut F) (p : List Text) : Bytes :=
  if p = ["filter".toList] then L.writeCard r.filter sts
  else if p = ["filter.stash".toList] then r.stash
  else if p = ["revset.bin".toList] then L.writeRevset r.revset
  else if p = ["filter.delta".toList] then L.writeCard r.deltaFilter sts
  else L.writeText ((assocGet r.deltaDir (p.getLastD [])).getD [])

theorem walkOut_content {F : Type} {L : ScriptLib F} {sts : List CTLogState} {r : RunOut F} (hn : (r.deltaDir.map Prod.fst).Nodup) {g : List WalkFile} {f : WalkFile}
    (hg : g ∈ walkOut L sts (some ⟨some r.filter, some r.stash, some r.revset, some r.deltaDir, some r.deltaFilter⟩)) (hf : f ∈ g) : f = ⟨f.path, outContent L sts r f.path, false⟩ := by
  rcases mem_walkOut hg hf with rfl | rfl | rfl | rfl | ⟨x, hx, rfl⟩
  · unfold outContent
    rw [if_pos rfl]
  · unfold outContent
    dsimp only
    rw [if_neg (by decide), if_pos rfl]
  · unfold outContent
    dsimp only
    rw [if_neg (by decide), if_neg (by decide), if_pos rfl]
  · unfold outContent
    dsimp only
    rw [if_neg (by decide), if_neg (by decide), if_neg (by decide), if_pos rfl]
  · unfold outContent
    have hl : ∀ t : Text, ["delta".toList, x.1] ≠ [t] := by
      intro t h
      cases (congrArg List.length h)
    rw [if_neg (hl _), if_neg (hl _), if_neg (hl _), if_neg (hl _)]
    have := assocGet_of_mem hn (i := x.1) (v := x.2) hx
    rw [show ["delta".toList, x.1].getLastD [] = x.1 from rfl, this]
    rfl

/-- The files of a call, each once. -/
theorem walkOut_once {F : Type} {L : ScriptLib F} {sts : List CTLogState} {r : RunOut F} (hn : (r.deltaDir.map Prod.fst).Nodup) {g g' : List WalkFile} {f f' : WalkFile}
    (hg : g ∈ walkOut L sts (some ⟨some r.filter, some r.stash, some r.revset, some r.deltaDir, some r.deltaFilter⟩)) (hf : f ∈ g)
    (hg' : g' ∈ walkOut L sts (some ⟨some r.filter, some r.stash, some r.revset, some r.deltaDir, some r.deltaFilter⟩)) (hf' : f' ∈ g') (h : f.path = f'.path) : f = f' := by
  rw [walkOut_content hn hg hf, walkOut_content hn hg' hf', h]

/-! ### the execution -/

theorem genRun_some {F : Type} {L : ScriptLib F} {e : Script} {n : Nat} {g : GenRun} (h : e.genRun L n = some g) : ∃ recs sts a, e.inputs L = some (recs, sts, a) ∧
    g = { run := e.run, data := e.data L recs sts a, dlAll := e.dlAll, dlPrio := e.dlPrio, makeAll := e.make L .all e.makesAll sts a, makePrio := fun prev => (e.make L .priority e.makesPrio sts a prev).map List.flatten, exec := n } := by
  unfold Script.genRun at h
  split at h
  · cases h
  · rename_i recs sts a hi
    split at h
    · rw [Option.some.injEq] at h
      exact ⟨recs, sts, a, hi, h.symm⟩
    · cases h

/-- The files of the folder: those found there besides, and those of the two programs. -/
theorem mem_data {F : Type} {L : ScriptLib F} {e : Script} {recs : List EnrolledIssuer} {sts : List CTLogState} {a : Agg} {f : WalkFile} : f ∈ e.data L recs sts a ↔
    f ∈ e.others ∨ f = ⟨["enrolled.json".toList], L.writeList recs, false⟩ ∨ f = ⟨["ct-logs.json".toList], L.writeLogs sts, false⟩ ∨
      (∃ n ∈ e.knownNames, ∃ t, a.files n = some t ∧ f = ⟨["known".toList, n], L.writeText t, false⟩) ∨ ∃ n ∈ e.revokedNames, ∃ t, e.revokedFiles n = some t ∧ f = ⟨["revoked".toList, n], L.writeText t, false⟩ := by
  have key : ∀ (sub : Text) (files : Text → Option Text) (names : List Text), f ∈ subFiles L sub (dirList files names) ↔ ∃ n ∈ names, ∃ t, files n = some t ∧ f = ⟨[sub, n], L.writeText t, false⟩ := by
    intro sub files names
    unfold subFiles dirList
    rw [List.mem_map]
    constructor
    · rintro ⟨x, hx, rfl⟩
      obtain ⟨n, hn, hx⟩ := List.mem_filterMap.1 hx
      obtain ⟨t, ht, rfl⟩ := Option.map_eq_some_iff.1 hx
      exact ⟨n, hn, t, ht, rfl⟩
    · rintro ⟨n, hn, t, ht, rfl⟩
      exact ⟨(n, t), List.mem_filterMap.2 ⟨n, hn, by rw [ht]; rfl⟩, rfl⟩
  unfold Script.data
  rw [List.mem_append, List.mem_cons, List.mem_cons, List.mem_append, key, key]

/-- The name of a file or directory directly in the folder. -/
theorem data_head {F : Type} {L : ScriptLib F} {e : Script} (ht : TidyFolder e) {recs : List EnrolledIssuer} {sts : List CTLogState} {a : Agg} {f : WalkFile} (hf : f ∈ e.data L recs sts a) :
    ∃ n rest, f.path = n :: rest ∧ n ∉ ["completed".toList, "clubcard-all".toList, "clubcard-priority".toList] := by
  rcases mem_data.1 hf with h | rfl | rfl | ⟨n, _, t, _, rfl⟩ | ⟨n, _, t, _, rfl⟩
  · obtain ⟨n, rest, h1, h2⟩ := ht.apart f h
    exact ⟨n, rest, h1, fun hm => h2 (List.mem_append_left _ hm)⟩
  · exact ⟨_, _, rfl, by decide⟩
  · exact ⟨_, _, rfl, by decide⟩
  · exact ⟨_, _, rfl, by decide⟩
  · exact ⟨_, _, rfl, by decide⟩

theorem data_once {F : Type} {L : ScriptLib F} {e : Script} (ht : TidyFolder e) {recs : List EnrolledIssuer} {sts : List CTLogState} {a : Agg} {f f' : WalkFile} (hf : f ∈ e.data L recs sts a) (hf' : f' ∈ e.data L recs sts a)
    (h : f.path = f'.path) : f = f' := by
  have hother : ∀ x ∈ e.others, ∀ n rest, x.path = n :: rest → n ∈ ["known".toList, "revoked".toList, "enrolled.json".toList, "ct-logs.json".toList] → False := by
    intro x hx n rest hp hm
    obtain ⟨n', rest', h1, h2⟩ := ht.apart x hx
    rw [h1, List.cons.injEq] at hp
    rw [hp.1] at h2
    exact h2 (List.mem_append_right ["completed".toList, "clubcard-all".toList, "clubcard-priority".toList] hm)
  have hlen : ∀ t x y : Text, [t] ≠ [x, y] := by
    intro t x y h
    cases (congrArg List.length h)
  rcases mem_data.1 hf with h1 | rfl | rfl | ⟨n, hn, t, htx, rfl⟩ | ⟨n, hn, t, htx, rfl⟩ <;> rcases mem_data.1 hf' with h2 | rfl | rfl | ⟨n', hn', t', htx', rfl⟩ | ⟨n', hn', t', htx', rfl⟩ <;> try dsimp only at h
  · exact ht.once f h1 f' h2 h
  · exact (hother f h1 _ _ h (by decide)).elim
  · exact (hother f h1 _ _ h (by decide)).elim
  · exact (hother f h1 _ _ h (by decide)).elim
  · exact (hother f h1 _ _ h (by decide)).elim
  · exact (hother f' h2 _ _ h.symm (by decide)).elim
  · rfl
  · exact absurd h (by decide)
  · exact absurd h (hlen _ _ _)
  · exact absurd h (hlen _ _ _)
  · exact (hother f' h2 _ _ h.symm (by decide)).elim
  · exact absurd h (by decide)
  · rfl
  · exact absurd h (hlen _ _ _)
  · exact absurd h (hlen _ _ _)
  · exact (hother f' h2 _ _ h.symm (by decide)).elim
  · exact absurd h.symm (hlen _ _ _)
  · exact absurd h.symm (hlen _ _ _)
  · have hnn : n = n' := (List.cons.inj (List.cons.inj h).2).1
    rw [hnn, htx', Option.some.injEq] at htx
    rw [hnn, htx]
  · exact absurd (List.cons.inj h).1 (by decide)
  · exact (hother f' h2 _ _ h.symm (by decide)).elim
  · exact absurd h.symm (hlen _ _ _)
  · exact absurd h.symm (hlen _ _ _)
  · exact absurd (List.cons.inj h).1 (by decide)
  · have hnn : n = n' := (List.cons.inj (List.cons.inj h).2).1
    rw [hnn, htx', Option.some.injEq] at htx
    rw [hnn, htx]

theorem dirList_names (files : Text → Option Text) : ∀ names : List Text, ((dirList files names).map Prod.fst).Sublist names := by
  intro names
  induction names with
  | nil => exact List.Sublist.refl _
  | cons n rest ih =>
    unfold dirList at *
    rw [List.filterMap_cons]
    cases files n with
    | none => exact ih.cons n
    | some t => exact ih.cons_cons n

theorem make_once {F : Type} {L : ScriptLib F} {e : Script} (ht : TidyFolder e) {rs : ReasonSet} {can : Bool} {sts : List CTLogState} {a : Agg} {prev : Option Bytes} {groups : List (List WalkFile)} (h : e.make L rs can sts a prev = some groups) :
    ∀ g ∈ groups, ∀ f ∈ g, ∀ g' ∈ groups, ∀ f' ∈ g', f.path = f'.path → f = f' := by
  rcases make_cases h with ⟨_, rfl⟩ | ⟨_, r, h1, rfl⟩
  · intro g hg
    cases hg
  · intro g hg f hf g' hg' f' hf' hp
    exact walkOut_once ((ht.knownOnce.sublist (dirList_names _ _)).sublist (createRun_deltaNames h1)) hg hf hg' hf' hp

/-- An execution is one of those that C81, C82 and C92 are about. -/
theorem genRun_good {F : Type} {L : ScriptLib F} {e : Script} (ht : TidyFolder e) {n : Nat} {g : GenRun} (h : e.genRun L n = some g) (hr : g.run ≠ "latest".toList) : GoodGenRun g := by
  obtain ⟨recs, sts, a, _, rfl⟩ := genRun_some h
  refine ⟨?_, ?_, ?_, ?_, ?_⟩
  · obtain ⟨f, hf, hs⟩ := ht.stamped
    exact ⟨f, mem_data.2 (Or.inl hf), hs⟩
  · intro f hf hp
    obtain ⟨n, rest, h1, _⟩ := data_head ht hf
    rw [h1] at hp
    cases hp
  · intro f hf hp
    obtain ⟨n, rest, h1, h2⟩ := data_head ht hf
    rw [h1, List.cons.injEq] at hp
    exact h2 (by rw [hp.1]; exact List.mem_cons_self)
  · intro prev prev' groups prio h1 h2
    dsimp only at h1 h2
    obtain ⟨pg, h3, rfl⟩ := Option.map_eq_some_iff.1 h2
    refine ⟨hr, fun f hf f' hf' => data_once ht hf hf', make_once ht h1, ?_, ?_⟩
    · intro f hf f' hf'
      obtain ⟨g, hg, hf⟩ := List.mem_flatten.1 hf
      obtain ⟨g', hg', hf'⟩ := List.mem_flatten.1 hf'
      exact make_once ht h3 g hg f hf g' hg' f' hf'
    · intro f hf
      obtain ⟨n, rest, h4, h5⟩ := data_head ht hf
      refine ⟨?_, fun rest' => ⟨?_, ?_⟩⟩ <;> intro hp <;> rw [h4, List.cons.injEq] at hp <;> rw [hp.1] at h5 <;> revert h5 <;> decide
  · intro prev groups h1 hfilter
    dsimp only at h1
    rcases make_cases h1 with ⟨_, rfl⟩ | ⟨_, r, _, rfl⟩
    · obtain ⟨g, hg, _⟩ := hfilter
      cases hg
    · exact ⟨_, List.mem_cons_self, ⟨["revset.bin".toList], L.writeRevset r.revset, false⟩, by unfold outFiles; simp [fileIf], rfl, rfl⟩

theorem cover_eq {F : Type} {L : ScriptLib F} {e : Script} {recs : List EnrolledIssuer} {sts : List CTLogState} {a : Agg} (h : e.inputs L = some (recs, sts, a)) : e.cover L = L.coverage sts := by
  unfold Script.cover
  rw [h]

/-- The pairs that the builder finds are those of the input. -/
theorem input_pairs {F : Type} {L : ScriptLib F} {e : Script} {W : RunInput} (hW : InputOf L e W) (hall : ∀ n, e.revokedFiles n ≠ none → n ∈ e.revokedNames) {recs : List EnrolledIssuer} {sts : List CTLogState} {a : Agg} (h : e.inputs L = some (recs, sts, a)) :
    dirList a.files e.knownNames = knownDir W ∧ listIssuerFilePairs (dirList e.revokedFiles e.revokedNames) (knownDir W) = listIssuerFilePairs (revokedDir W []) (knownDir W) := by
  refine ⟨(hW.known _ _ _ h).1, ?_⟩
  rw [pairs_eq W [] hW.good]
  unfold listIssuerFilePairs knownDir
  rw [List.map_map]
  refine List.map_congr_left (fun i hi => ?_)
  simp only [Function.comp]
  rw [assocGet_dirList, ← hW.revoked i hi]
  split
  · rfl
  · rename_i hn
    cases hr : e.revokedFiles (issuerID i.digest) with
    | none => rfl
    | some t => exact absurd (hall _ (by rw [hr]; simp)) hn

theorem outFiles_mem {F : Type} {L : ScriptLib F} {sts : List CTLogState} {r : RunOut F} :
    let o := outFiles L sts ⟨some r.filter, some r.stash, some r.revset, some r.deltaDir, some r.deltaFilter⟩
    (⟨["filter".toList], L.writeCard r.filter sts, false⟩ : WalkFile) ∈ o ∧ (⟨["filter.delta".toList], L.writeCard r.deltaFilter sts, false⟩ : WalkFile) ∈ o ∧ (⟨["revset.bin".toList], L.writeRevset r.revset, false⟩ : WalkFile) ∈ o := by
  intro o
  refine ⟨?_, ?_, ?_⟩ <;> simp [o, outFiles, fileIf]

/-- **C99, the run for all reasons.** If the builder leaves a filter, it has made all files of the run, from the input that the Go programs have left, with their coverage. -/
theorem C99_generates {F : Type} (L : ScriptLib F) (card : Bytes → Option (Card F)) (hL : GoodLib L card) (e : Script) (he : ReadableScript L e) (W : RunInput) (hW : InputOf L e W) (n : Nat) (g : GenRun) (h : e.genRun L n = some g) :
    Generates L.readRevset card L.lib.clubcard L.lib.contains L.lib.order g W [] (e.cover L) := by
  obtain ⟨recs, sts, a, hi, rfl⟩ := genRun_some h
  obtain ⟨p1, p2⟩ := input_pairs hW he.revokedAll hi
  refine ⟨hW.good, ?_⟩
  intro prev groups h1 h2
  dsimp only at h1
  rcases make_cases h1 with ⟨_, rfl⟩ | ⟨_, r, h3, rfl⟩
  · obtain ⟨g, hg, _⟩ := h2
    cases hg
  · rw [p1, createRun_pairs _ _ _ _ _ _ p2] at h3
    rw [cover_eq hi]
    obtain ⟨o1, o2, o3⟩ := outFiles_mem (L := L) (sts := sts) (r := r)
    obtain ⟨l', hl1, hl2⟩ := hL.revset r.revset
    exact ⟨r, h3, ⟨_, List.mem_cons_self, _, o1, rfl, rfl, hL.card _ _⟩, ⟨_, List.mem_cons_self, _, o2, rfl, rfl, hL.card _ _⟩, ⟨_, List.mem_cons_self, _, o3, rfl, rfl, l', hl1, hl2⟩⟩

/-- **C99, the run for the priority reasons.** Likewise, if the builder could make its directory (`C99_priority_missing_fails`). -/
theorem C99_generates_priority {F : Type} (L : ScriptLib F) (card : Bytes → Option (Card F)) (hL : GoodLib L card) (e : Script) (he : ReadableScript L e) (hm : e.makesPrio = true) (W : RunInput) (hW : InputOf L e W) (n : Nat) (g : GenRun)
    (h : e.genRun L n = some g) : GeneratesPriority L.readRevset card L.lib.clubcard L.lib.contains L.lib.order g W [] (e.cover L) := by
  obtain ⟨recs, sts, a, hi, rfl⟩ := genRun_some h
  obtain ⟨p1, p2⟩ := input_pairs hW he.revokedAll hi
  intro prev prio h1
  dsimp only at h1
  obtain ⟨pg, h2, rfl⟩ := Option.map_eq_some_iff.1 h1
  rcases make_cases h2 with ⟨hn, _⟩ | ⟨_, r, h3, rfl⟩
  · rw [hm] at hn
    cases hn
  · rw [p1, createRun_pairs _ _ _ _ _ _ p2] at h3
    rw [cover_eq hi]
    obtain ⟨o1, o2, _⟩ := outFiles_mem (L := L) (sts := sts) (r := r)
    exact ⟨r, h3, ⟨_, List.mem_flatten.2 ⟨_, List.mem_cons_self, o1⟩, rfl, rfl, hL.card _ _⟩, ⟨_, List.mem_flatten.2 ⟨_, List.mem_cons_self, o2⟩, rfl, rfl, hL.card _ _⟩⟩

/-! ### over time -/

theorem scriptReach_ops {F : Type} {L : ScriptLib F} {E : Nat → Script} (ht : ∀ n, TidyFolder (E n)) {s : Ops} (h : ScriptReach L E s) : OpsReach s := by
  induction h with
  | init => exact OpsReach.init
  | generate s n g today localDirs _ hg hday hclock hnum hal ih =>
    have hr : g.run ≠ "latest".toList := by
      have hal' : g.run = runName today (nextIdx today (dirsOf s.bucket)) := by
        unfold allocate at hal
        dsimp only at hal
        split at hal
        · cases hal
        · rw [Option.some.injEq] at hal
          exact hal.symm
      exact isRun_not_latest ⟨today, _, hday, hnum, hal'⟩
    exact OpsReach.step _ _ ih ⟨genRun_good (ht n) hg hr, today, localDirs, hday, hclock, hnum, hal⟩
  | write s _ ih => exact OpsReach.step _ _ ih trivial
  | publish s ages penv slug dir delta parseTime maxAge noop _ hs hf ih => exact OpsReach.step _ _ ih ⟨hs, hf⟩

theorem scriptReach_made {F : Type} {L : ScriptLib F} {E : Nat → Script} {s : Ops} (h : ScriptReach L E s) : ∀ x ∈ s.made, (E x.2.1.exec).genRun L x.2.1.exec = some x.2.1 := by
  induction h with
  | init => intro x hx; cases hx
  | generate s n g today localDirs _ hg _ _ _ _ ih =>
    intro x hx
    rcases List.mem_cons.1 hx with rfl | hx
    · obtain ⟨_, _, _, _, e⟩ := genRun_some hg
      have he : g.exec = n := by rw [e]
      show (E g.exec).genRun L g.exec = some g
      rw [he]
      exact hg
    · exact ih x hx
  | write s _ ih =>
    intro x hx
    apply ih x
    unfold Ops.step at hx
    cases hp : s.pending with
    | nil => rw [hp] at hx; exact hx
    | cons o rest => rw [hp] at hx; exact hx
  | publish s ages penv slug dir delta parseTime maxAge noop _ _ _ ih => exact ih

theorem made_genRun {F : Type} {L : ScriptLib F} {E : Nat → Script} {s : Ops} (h : ScriptReach L E s) {y : Text} {a : GenRun} {prev : Option Bytes} (hm : MadeBy s y a prev) : (E a.exec).genRun L a.exec = some a :=
  scriptReach_made h _ (assocGet_mem hm)

/-- **C99, complete runs.** In the folder of a complete run, the list of issuers, the list of logs, the known and revoked files and the filters are of one execution, the last with this name, in which both Go programs ended with status 0:
they are what these programs and the builder have written; the filters were made from these known and revoked files, and
from the revocation set that the complete run before has uploaded (if this could be downloaded), and have the coverage of this list of logs. -/
theorem C99_complete_run {F : Type} (L : ScriptLib F) (E : Nat → Script) (ht : ∀ n, TidyFolder (E n)) (s : Ops) (h : ScriptReach L E s) (y : Text) (hy : Finished s.bucket y) :
    ∃ n recs sts a prev r, Executed s y n ∧ (E n).run = y ∧ (E n).inputs L = some (recs, sts, a) ∧ (∀ x, Next s.bucket x y → prev = if (E n).dlAll then revsetOf s.bucket x else none) ∧
      objGet s.bucket [y, "enrolled.json".toList] = some (L.writeList recs) ∧ objGet s.bucket [y, "ct-logs.json".toList] = some (L.writeLogs sts) ∧
      (∀ i ∈ (E n).knownNames, ∀ t, a.files i = some t → objGet s.bucket [y, "known".toList, i] = some (L.writeText t)) ∧
      (∀ i ∈ (E n).revokedNames, ∀ t, (E n).revokedFiles i = some t → objGet s.bucket [y, "revoked".toList, i] = some (L.writeText t)) ∧
      createRun L.lib.clubcard L.lib.contains L.lib.order .all .all (prev.bind L.readRevset) (dirList (E n).revokedFiles (E n).revokedNames) (dirList a.files (E n).knownNames) = some r ∧
      objGet s.bucket [y, "clubcard-all".toList, "filter".toList] = some (L.writeCard r.filter sts) ∧ objGet s.bucket [y, "clubcard-all".toList, "filter.delta".toList] = some (L.writeCard r.deltaFilter sts) := by
  have ho := scriptReach_ops ht h
  obtain ⟨a, prev, groups, hm, h1, h2, h3, h4⟩ := C81_files s ho y hy
  have hg := made_genRun h hm
  obtain ⟨recs, sts, ag, hi, hga⟩ := genRun_some hg
  have hb := bucketInv_inv (reach_bucketInv ho)
  obtain ⟨hl, hr⟩ := finished_iff.1 hy
  have hrun : a.run = y := (hb.files y a prev hl hr hm).2.1
  have hmake : a.makeAll = (E a.exec).make L .all (E a.exec).makesAll sts ag := by rw [hga]
  have hdata : a.data = (E a.exec).data L recs sts ag := by rw [hga]
  have hname : a.run = (E a.exec).run := by rw [hga]
  rw [hmake] at h1
  rw [hdata] at h3
  rcases make_cases h1 with ⟨_, rfl⟩ | ⟨_, r, h5, rfl⟩
  · obtain ⟨g, hg, _⟩ := h2
    cases hg
  · obtain ⟨o1, o2, _⟩ := outFiles_mem (L := L) (sts := sts) (r := r)
    have hdl : a.dlAll = (E a.exec).dlAll := by rw [hga]
    exact ⟨a.exec, recs, sts, ag, prev, r, ⟨a, prev, hm, rfl⟩, by rw [← hname, hrun], hi, fun x hn => (by
      obtain ⟨hx, _, hlt, hno⟩ := hn
      obtain ⟨hxl, hxr⟩ := finished_iff.1 hx
      rw [← hdl]
      exact hb.given x y a prev hxl hl hlt hno hxr hm), h3 _ (mem_data.2 (Or.inr (Or.inl rfl))) rfl, h3 _ (mem_data.2 (Or.inr (Or.inr (Or.inl rfl)))) rfl,
      fun i hin t htx => h3 _ (mem_data.2 (Or.inr (Or.inr (Or.inr (Or.inl ⟨i, hin, t, htx, rfl⟩))))) rfl, fun i hin t htx => h3 _ (mem_data.2 (Or.inr (Or.inr (Or.inr (Or.inr ⟨i, hin, t, htx, rfl⟩))))) rfl,
      h5, h4 _ List.mem_cons_self _ o1 rfl, h4 _ List.mem_cons_self _ o2 rfl⟩

/-- **C99, downloads cut off.** If there is a signal during the downloads, aggregate-crls ends with status 0, but the script stops before it uploads anything: aggregate-known needs the list of issuers. -/
theorem C99_download_interrupted {F : Type} (L : ScriptLib F) (e : Script) (n : Nat) (h : e.interrupted = true) : e.genRun L n = none := by
  cases hg : e.genRun L n with
  | none => rfl
  | some g =>
    obtain ⟨_, _, _, hi, _⟩ := genRun_some hg
    rw [(inputs_some hi).1] at h
    cases h

/-- **C99 fails (a list cut off).** If the disk is full while aggregate-crls writes the list of issuers, its status is 0 and the list is no JSON, and only the next program notices; only a failing `Close` shows in its own status. Either way
nothing is uploaded. -/
theorem C99_list_cut_fails {F : Type} (L : ScriptLib F) (e : Script) (n : Nat) (hb : e.begins = true) (hi : e.interrupted = false) (hr : e.crlAgg.returned = true) (ho : e.opens = true) :
    (e.encodes = false → e.closes = true → e.crls L = some none) ∧ (e.closes = false → e.crls L = none) ∧ (e.encodes = false ∨ e.closes = false → e.genRun L n = none) := by
  refine ⟨fun h1 h2 => by simp [Script.crls, saveIssuersList, hb, hi, hr, ho, h1, h2], fun h => by simp [Script.crls, saveIssuersList, hb, hi, hr, ho, h], fun h => ?_⟩
  cases h1 : e.encodes <;> cases h2 : e.closes <;> simp [Script.genRun, Script.inputs, Script.crls, saveIssuersList, hb, hi, hr, ho, h1, h2] at h ⊢

/-- **C99, what an upload needs.** An execution comes to its first upload exactly if the report was loaded, the downloads were not cut off, the workers of aggregate-crls ended, the list of issuers was written and could be loaded again, the
commit succeeded, aggregate-known ended well, and the commands behind it succeeded. -/
theorem C99_uploads_iff {F : Type} (L : ScriptLib F) (e : Script) (n : Nat) : (e.genRun L n).isSome = true ↔
    (e.begins = true ∧ e.interrupted = false ∧ e.crlAgg.returned = true ∧ e.opens = true ∧ e.encodes = true ∧ e.closes = true) ∧
      ∃ m, loadRecords L.unpem (savedRecords L.pem e.moz) MozIssuers.empty = some m ∧ e.committed = true ∧
        (aggregateKnown m.inProgram e.dirs e.file e.ctlogs e.threads (fun _ => none) e.t0 e.kacts).isSome = true ∧ e.goesOn = true := by
  constructor
  · intro h
    cases hg : e.genRun L n with
    | none => rw [hg] at h; cases h
    | some g =>
      obtain ⟨recs, sts, a, hi, _⟩ := genRun_some hg
      obtain ⟨h1, h2, rfl, m, h3, h4, h5⟩ := inputs_some hi
      have hb : e.begins = true := by
        cases hb : e.begins with
        | true => rfl
        | false => simp [Script.inputs, Script.crls, hb] at hi
      refine ⟨⟨hb, h1, h2, ?_⟩, m, h3, h4, by rw [h5]; rfl, ?_⟩
      · cases ho : e.opens <;> cases hen : e.encodes <;> cases hcl : e.closes <;> simp [Script.inputs, Script.crls, Script.known, saveIssuersList, h1, h2, hb, ho, hen, hcl] at hi ⊢
      · cases hgo : e.goesOn with
        | true => rfl
        | false => simp [Script.genRun, hi, hgo] at hg
  · rintro ⟨⟨h1, h2, h3, h4, h5, h6⟩, m, h7, h8, h9, h10⟩
    cases hk : aggregateKnown m.inProgram e.dirs e.file e.ctlogs e.threads (fun _ => none) e.t0 e.kacts with
    | none => rw [hk] at h9; cases h9
    | some x =>
      have hi : e.inputs L = some (savedRecords L.pem e.moz, x.1, x.2) := by
        simp [Script.inputs, Script.crls, Script.known, saveIssuersList, h1, h2, h3, h4, h5, h6, h7, h8, hk]
      simp [Script.genRun, hi, h10]

/-! ### from the logs and the report to the client -/

section
variable {H : Bytes → Bytes} {mt : Meta} {w : World} {env : Env} {F : Type} {L : ScriptLib F} {card : Bytes → Option (Card F)} (hL : GoodLib L card)

/-- The report that an execution reads. -/
def reportOf {e : Script} (he : ReadableScript L e) {acts : List WAct} (hw : ScriptWorld H mt w env L e acts) : Spec.ReportRun where
  sp := e.sp
  spaces := hw.spaces
  parse := e.urlParse
  norm := e.norm
  stable := hw.stable
  chains := e.chains
  order := e.certOrder
  ordered := he.ordered
  rows := e.rows
  formed := hw.formed
  fetch := e.fetch
  part := e.part
  disk := e.disk

/-- The Go programs of an execution, as C92 has them: nothing is assumed of what they leave. -/
def systemOf {e : Script} (he : ReadableScript L e) {W : RunInput} (hW : InputOf L e W) {acts : List WAct} (hw : ScriptWorld H mt w env L e acts) {recs : List EnrolledIssuer} {sts : List CTLogState} {a : Agg}
    (hi : e.inputs L = some (recs, sts, a)) {m : MozIssuers} (hm : aggregateKnown m.inProgram e.dirs e.file e.ctlogs e.threads (fun _ => none) e.t0 e.kacts = some (sts, a)) : SystemRun H mt w env W (e.cover L) where
  known :=
    { acts := acts, allowed := hw.allowed, enrolled := m.inProgram, dirs := e.dirs, file := e.file, view := hw.view, threads := e.threads, one := he.one, files := fun _ => none, t0 := e.t0, later := he.later,
      after := hw.after, kacts := e.kacts, sts := sts, a := a, result := by rw [← hw.logs]; exact hm, loud := he.knownLoud _ _ _ hi, reads := (hW.known _ _ _ hi).2,
      coverage := fun id lo hi' hc => by
        rw [cover_eq hi] at hc
        exact hL.coverage sts id lo hi' hc
      back := hw.back _ _ _ hi }
  crls :=
    { disk := e.disk, units := e.units, nodup := (crlUnits_issuers _ _ _ _).nodup (loadFromDisk_keys _ _ _ _ _), threads := e.crlThreads, one := hw.crlOne, acts := e.crlActs, returned := (inputs_some hi).2.1, whole := hw.whole,
      loud := he.crlLoud, reads := fun i hi' => by
        have := hW.revoked i hi'
        unfold Script.revokedFiles at this
        rw [(inputs_some hi).1] at this
        exact this }
  report := reportOf he hw
  same := ⟨rfl, rfl⟩

include hL in
theorem system_exists {e : Script} (he : ReadableScript L e) {W : RunInput} (hW : InputOf L e W) {acts : List WAct} (hw : ScriptWorld H mt w env L e acts) (hi : (e.inputs L).isSome = true) :
    ∃ R : SystemRun H mt w env W (e.cover L), (∀ scts d n na, ScopeOf H mt w env L e scts d n na → R.InScope scts d n na) ∧ (∀ i v, R.report.Discloses i v ↔ DisclosedIn e i v) ∧ ∀ i v l, R.report.Got i v l ↔ FetchedIn e i v l := by
  cases hx : e.inputs L with
  | none => rw [hx] at hi; cases hi
  | some x =>
    obtain ⟨recs, sts, a⟩ := x
    obtain ⟨_, _, rfl, m, h2, _, h4⟩ := inputs_some hx
    refine ⟨systemOf hL he hW hw hx h4, ?_, fun _ _ => Iff.rfl, fun _ _ _ => Iff.rfl⟩
    rintro scts d n na ⟨h5, h6⟩
    obtain ⟨h7, h8⟩ := h6 _ _ _ hx
    refine ⟨(enrolled_iff hL.pem he.ordered h2 _).2 h5, h7, ?_⟩
    have h9 : Spec.HonestScts (e.cover L) sts H mt w env scts d n na := by rw [cover_eq hx]; exact h8
    exact h9

end

/-- The input of an execution. -/
noncomputable def theInput {F : Type} (L : ScriptLib F) (e : Script) : RunInput := Classical.epsilon (fun W => InputOf L e W)

section
variable {F : Type} (L : ScriptLib F) (card : Bytes → Option (Card F)) (hL : GoodLib L card) (enrolls : F → Bytes → Bool) (he : EnrollsInput L.lib.clubcard enrolls) (sha : Bytes → Bytes) (parse : Bytes → Option IssuerCert)
  (verifies : Bytes → Bool) (inter : Intermediates) {H : Bytes → Bytes} {mt : Meta} {w : World} {env : Env} (hid : ∀ log, (mt.id log).length = 32) (hH : ∀ x, (env.H x).length = 32)
  (E : Nat → Script) (ht : ∀ n, TidyFolder (E n)) (s : Ops) (h : ScriptReach L E s)
  (hw : ∀ y n, Finished s.bucket y → Executed s y n → ReadableScript L (E n) ∧ ∃ acts, ScriptWorld H mt w env L (E n) acts)
  (slug : Text) (hs : ∀ c ∈ slug, c ≠ '-') (l : List KRec) (hl : l.Perm (recordsOf slug s.recs)) (hc : IsChain l) (cards : List (Card F))

include hL ht h hw in
omit he in
theorem made_input {y : Text} {a : GenRun} {prev : Option Bytes} (hf : Finished s.bucket y) (hm : MadeBy s y a prev) : InputOf L (E a.exec) (theInput L (E a.exec)) := by
  obtain ⟨_, _, _, hi, _⟩ := genRun_some (made_genRun h hm)
  exact Classical.epsilon_spec (C99_inputs_partial L hL.pem (E a.exec) (ht _) (hw y _ hf ⟨a, prev, hm, rfl⟩).1 (by rw [hi]; rfl))

include hL ht h hw in
omit he in
theorem made_generates {y : Text} {a : GenRun} {prev : Option Bytes} (hf : Finished s.bucket y) (hm : MadeBy s y a prev) :
    Generates L.readRevset card L.lib.clubcard L.lib.contains L.lib.order a (theInput L (E a.exec)) [] ((E a.exec).cover L) :=
  C99_generates L card hL (E a.exec) (hw y _ hf ⟨a, prev, hm, rfl⟩).1 _ (made_input L card hL E ht s h hw hf hm) _ a (made_genRun h hm)

include hL ht h hw in
omit he in
theorem made_system {y : Text} {a : GenRun} {prev : Option Bytes} (hf : Finished s.bucket y) (hm : MadeBy s y a prev) :
    ∃ R : SystemRun H mt w env (theInput L (E a.exec)) ((E a.exec).cover L), (∀ scts d n na, ScopeOf H mt w env L (E a.exec) scts d n na → R.InScope scts d n na) ∧ (∀ i v, R.report.Discloses i v ↔ DisclosedIn (E a.exec) i v) ∧
      ∀ i v l, R.report.Got i v l ↔ FetchedIn (E a.exec) i v l := by
  obtain ⟨h1, acts, h2⟩ := hw y _ hf ⟨a, prev, hm, rfl⟩
  obtain ⟨_, _, _, hi, _⟩ := genRun_some (made_genRun h hm)
  exact system_exists hL h1 (made_input L card hL E ht s h hw hf hm) h2 (by rw [hi]; rfl)

theorem listedIn_iff {H : Bytes → Bytes} {mt : Meta} {w : World} {env : Env} {W : RunInput} {cov : Coverage} {R : SystemRun H mt w env W cov} {e : Script} (h1 : ∀ i v, R.report.Discloses i v ↔ DisclosedIn e i v)
    (h2 : ∀ i v l, R.report.Got i v l ↔ FetchedIn e i v l) (rs : ReasonSet) (i : Text) (n : Serial) : Spec.ListedIn R.report rs i n ↔ RevokedBy e rs i n := by
  unfold Spec.ListedIn RevokedBy
  simp only [h1, h2]

include hL he hid hH ht h hw hs hl hc

/-- **C99, Revoked (partial).** For any sequence of executions of the script and runs of the publisher, stopped anywhere, from the logs and the CCADB reports that the executions meet to the client's answer: if the channel is a chain and a
client has its filters, then a certificate in the scope of the last run of the chain, that this run covers, and that a CRL disclosed for its issuer in that run lists as revoked, is answered Revoked, provided all CRLs disclosed for the issuer
could be used in that run, and the earlier runs of the chain that found it listed covered it too. In contrast to C92 nothing is assumed of what the programs leave for each other. Full statement: without the last condition
(`C74_known_elsewhere_fails`) and those of `ReadableScript` and `ScriptWorld` that name a counterexample. -/
theorem C99_revoked_partial (hcards : ClientCards card s.bucket slug l cards) (c : ClientCert) (spki : Bytes) (hlk : lookupSpki parse verifies inter c.issuerDN = some spki) (hv : c.valid = true) (na : Nat) (hy : yearOf na ≤ 9999)
    (hlast : ∀ runs z, CarryAll slug runs l → runs.getLast? = some z → ∀ n, Executed s z n → ScopeOf H mt w env L (E n) c.scts (sha spki) c.serial na ∧ Covers ((E n).cover L) c.scts ∧ RevokedBy (E n) .all (issuerID (sha spki)) c.serial)
    (hbefore : ∀ runs, CarryAll slug runs l → ∀ y ∈ runs, ∀ n, Executed s y n → RevokedBy (E n) .all (issuerID (sha spki)) c.serial → Covers ((E n).cover L) c.scts) :
    clientQuery sha parse verifies (cardHas enrolls L.lib.contains) cards inter c = .revoked := by
  refine C92_revoked_partial L.readRevset card L.lib.clubcard L.lib.contains enrolls he L.lib.order (fun a => theInput L (E a.exec)) (fun _ => []) (fun a => (E a.exec).cover L) sha parse verifies inter hid hH s (scriptReach_ops ht h)
    (fun y a prev hf hm => made_generates L card hL E ht s h hw hf hm) (fun y a prev hf hm => Classical.choose (made_system L card hL E ht s h hw hf hm)) slug hs l hl hc cards hcards c spki hlk hv na hy ?_ ?_
  · intro runs z hcar hz a prev hf hm
    obtain ⟨h1, h2, h3⟩ := Classical.choose_spec (made_system L card hL E ht s h hw hf hm)
    obtain ⟨k1, k2, k3⟩ := hlast runs z hcar hz a.exec ⟨a, prev, hm, rfl⟩
    exact ⟨h1 _ _ _ _ k1, k2, (listedIn_iff h2 h3 _ _ _).2 k3⟩
  · intro runs hcar y hy a prev hf hm hli
    obtain ⟨_, h2, h3⟩ := Classical.choose_spec (made_system L card hL E ht s h hw hf hm)
    exact hbefore runs hcar y hy a.exec ⟨a, prev, hm, rfl⟩ ((listedIn_iff h2 h3 _ _ _).1 hli)

/-- **C99, not Revoked (partial).** After any such history: a certificate in the scope of all runs of the chain, which no CRL disclosed for its issuer listed as revoked in any of them, is not answered Revoked. -/
theorem C99_not_revoked_partial (hcards : ClientCards card s.bucket slug l cards) (c : ClientCert) (spki : Bytes) (hlk : lookupSpki parse verifies inter c.issuerDN = some spki) (na : Nat) (hy : yearOf na ≤ 9999)
    (hscope : ∀ runs, CarryAll slug runs l → ∀ y ∈ runs, ∀ n, Executed s y n → ScopeOf H mt w env L (E n) c.scts (sha spki) c.serial na)
    (hcrl : ∀ runs, CarryAll slug runs l → ∀ y ∈ runs, ∀ n, Executed s y n → ∀ v t k, DisclosedIn (E n) (issuerID (sha spki)) v → FetchedIn (E n) (issuerID (sha spki)) v t → (c.serial, k) ∈ t → ¬ codesOf .all k.toNat) :
    clientQuery sha parse verifies (cardHas enrolls L.lib.contains) cards inter c ≠ .revoked := by
  refine C92_not_revoked_partial L.readRevset card L.lib.clubcard L.lib.contains enrolls he L.lib.order (fun a => theInput L (E a.exec)) (fun _ => []) (fun a => (E a.exec).cover L) sha parse verifies inter hid hH s (scriptReach_ops ht h)
    (fun y a prev hf hm => made_generates L card hL E ht s h hw hf hm) (fun y a prev hf hm => Classical.choose (made_system L card hL E ht s h hw hf hm)) slug hs l hl hc cards hcards c spki hlk na hy ?_ ?_
  · intro runs hcar y hy a prev hf hm
    exact (Classical.choose_spec (made_system L card hL E ht s h hw hf hm)).1 _ _ _ _ (hscope runs hcar y hy a.exec ⟨a, prev, hm, rfl⟩)
  · intro runs hcar y hy a prev hf hm v t k k1 k2
    obtain ⟨_, h2, h3⟩ := Classical.choose_spec (made_system L card hL E ht s h hw hf hm)
    exact hcrl runs hcar y hy a.exec ⟨a, prev, hm, rfl⟩ v t k ((h2 _ _).1 k1) ((h3 _ _ _).1 k2)

/-- **C99, Good (partial).** Such a certificate, if it is valid now, is answered Good if a run of the chain covers it, and NotCovered if none does. -/
theorem C99_good_partial (hcards : ClientCards card s.bucket slug l cards) (c : ClientCert) (spki : Bytes) (hlk : lookupSpki parse verifies inter c.issuerDN = some spki) (hv : c.valid = true) (na : Nat) (hy : yearOf na ≤ 9999)
    (hscope : ∀ runs, CarryAll slug runs l → ∀ y ∈ runs, ∀ n, Executed s y n → ScopeOf H mt w env L (E n) c.scts (sha spki) c.serial na)
    (hcrl : ∀ runs, CarryAll slug runs l → ∀ y ∈ runs, ∀ n, Executed s y n → ∀ v t k, DisclosedIn (E n) (issuerID (sha spki)) v → FetchedIn (E n) (issuerID (sha spki)) v t → (c.serial, k) ∈ t → ¬ codesOf .all k.toNat) :
    ((∀ runs, CarryAll slug runs l → ∃ y ∈ runs, ∀ n, Executed s y n → Covers ((E n).cover L) c.scts) → clientQuery sha parse verifies (cardHas enrolls L.lib.contains) cards inter c = .good) ∧
    ((∀ runs, CarryAll slug runs l → ∀ y ∈ runs, ∀ n, Executed s y n → ¬ Covers ((E n).cover L) c.scts) → clientQuery sha parse verifies (cardHas enrolls L.lib.contains) cards inter c = .notCovered) := by
  have key := C92_good_partial L.readRevset card L.lib.clubcard L.lib.contains enrolls he L.lib.order (fun a => theInput L (E a.exec)) (fun _ => []) (fun a => (E a.exec).cover L) sha parse verifies inter hid hH s (scriptReach_ops ht h)
    (fun y a prev hf hm => made_generates L card hL E ht s h hw hf hm) (fun y a prev hf hm => Classical.choose (made_system L card hL E ht s h hw hf hm)) slug hs l hl hc cards hcards c spki hlk hv na hy
    (fun runs hcar y hy a prev hf hm => (Classical.choose_spec (made_system L card hL E ht s h hw hf hm)).1 _ _ _ _ (hscope runs hcar y hy a.exec ⟨a, prev, hm, rfl⟩))
    (fun runs hcar y hy a prev hf hm v t k k1 k2 =>
      let hcs := Classical.choose_spec (made_system L card hL E ht s h hw hf hm)
      hcrl runs hcar y hy a.exec ⟨a, prev, hm, rfl⟩ v t k ((hcs.2.1 _ _).1 k1) ((hcs.2.2 _ _ _).1 k2))
  refine ⟨fun hcov => key.1 ?_, fun hcov => key.2 ?_⟩
  · intro runs hcar
    obtain ⟨y, hy, hcv⟩ := hcov runs hcar
    exact ⟨y, hy, fun a prev hm => hcv a.exec ⟨a, prev, hm, rfl⟩⟩
  · intro runs hcar y hy a prev hm
    exact hcov runs hcar y hy a.exec ⟨a, prev, hm, rfl⟩

end

/-! ### an example: the libraries -/

def unaryT (n : Nat) (rest : Text) : Text := List.replicate n '1' ++ '0' :: rest

def sPem (c : IssCert) : Text := unaryT c.raw (unaryT c.issuer.length (c.issuer ++ c.fp))

/-- The number at the beginning, and the rest. -/
def unaryD : Text → Nat × Text
  | [] => (0, [])
  | c :: t => if c = '1' then ((unaryD t).1 + 1, (unaryD t).2) else (0, t)

theorem unaryD_unaryT (n : Nat) (rest : Text) : unaryD (unaryT n rest) = (n, rest) := by
  induction n with
  | zero => rfl
  | succ n ih =>
    have h : unaryT (n + 1) rest = '1' :: unaryT n rest := rfl
    rw [h, unaryD, if_pos rfl, ih]

def sUnpem (t : Text) : Option IssCert :=
  let a := unaryD t
  let b := unaryD a.2
  some ⟨b.2.take b.1, b.2.drop b.1, a.1⟩

theorem sUnpem_sPem (c : IssCert) : sUnpem (sPem c) = some c := by
  unfold sUnpem sPem
  dsimp only
  rw [unaryD_unaryT]
  dsimp only
  rw [unaryD_unaryT]
  dsimp only
  rw [List.take_left, List.drop_left]

/-- Lists of keys: 1 before each byte, 0 after each key. -/
def sEncKey : Bytes → Bytes
  | [] => [0]
  | b :: rest => 1 :: b :: sEncKey rest

def sEnc (l : List Bytes) : Bytes := (l.map sEncKey).flatten

/-- `cur` is the beginning of the key that is being read. -/
def sDec : Bytes → Bytes → List Bytes
  | _, [] => []
  | cur, [_] => [cur]
  | cur, x :: y :: rest => if x = 0 then cur :: sDec [] (y :: rest) else sDec (cur ++ [y]) rest

theorem sDec_sEncKey (k : Bytes) : ∀ cur rest, sDec cur (sEncKey k ++ rest) = (cur ++ k) :: sDec [] rest := by
  induction k with
  | nil =>
    intro cur rest
    cases rest with
    | nil => simp [sEncKey, sDec]
    | cons y rest => simp [sEncKey, sDec]
  | cons b k ih =>
    intro cur rest
    show sDec cur (1 :: b :: (sEncKey k ++ rest)) = _
    rw [sDec, if_neg (by decide), ih, List.append_assoc]
    rfl

theorem sDec_sEnc (l : List Bytes) : sDec [] (sEnc l) = l := by
  induction l with
  | nil => rfl
  | cons k l ih =>
    show sDec [] (sEncKey k ++ sEnc l) = _
    rw [sDec_sEncKey, ih]
    rfl

/-- The coverage says that the log of the example is covered up to the cutoff. -/
def sCovered (sts : List CTLogState) : Bool :=
  match newCoverageCutoffMap sts (List.replicate 32 0) with
  | some c => decide (19000 ≤ c.toNat)
  | none => false

def sCoverage (b : Bool) : Coverage := if b then fCov 0 else fun _ => none

def sLib : ScriptLib (List Bytes) where
  lib := exLib
  coverage := fun sts => sCoverage (sCovered sts)
  writeCard := fun f sts => (if sCovered sts then 1 else 0) :: sEnc f
  writeRevset := sEnc
  readRevset := fun b => some (sDec [] b)
  writeLogs := fun _ => [2]
  writeList := fun _ => [3]
  writeText := fun t => t.map (fun c => UInt8.ofNat c.toNat)
  pem := sPem
  unpem := sUnpem

def sCard (b : Bytes) : Option (Card (List Bytes)) :=
  match b with
  | [] => none
  | x :: rest => some ⟨sDec [] rest, sCoverage (decide (x = 1))⟩

theorem sLib_good : GoodLib sLib sCard := by
  refine ⟨fun f sts => ?_, fun l => ⟨l, congrArg some (sDec_sEnc l), fun _ => Iff.rfl⟩, sUnpem_sPem, fun sts id lo hi h => ?_⟩
  · show some (Card.mk (sDec [] (sEnc f)) (sCoverage (decide ((if sCovered sts then (1 : UInt8) else 0) = 1)))) = some ⟨f, sCoverage (sCovered sts)⟩
    rw [sDec_sEnc]
    cases sCovered sts <;> rfl
  · have h : sCoverage (sCovered sts) id = some (lo, hi) := h
    unfold sCoverage at h
    split at h
    · rename_i hc
      unfold fCov at h
      split at h
      · rename_i hid
        cases h
        unfold sCovered at hc
        split at hc
        · rename_i c hm
          exact ⟨c, by rw [hid, hm], of_decide_eq_true hc⟩
        · cases hc
      · cases h
    · cases h

/-! Two executions: the certificate is listed in the CRL from the second on. -/

/-- The rows of the example of C92; the root has a key digest too. -/
def sRows : List CcadbRow :=
  [⟨false, some ⟨issuerID (List.replicate 32 5), ['0'], 0⟩, "Root Certificate".toList, [], [], []⟩,
   ⟨false, some ⟨issuerID fDigest, ['1'], 1⟩, "Intermediate Certificate".toList, "Not Revoked".toList, "http:f".toList, []⟩]

theorem sRows_formed : Spec.WellFormed exSpace sRows := by
  intro r hr
  rcases List.mem_cons.1 hr with rfl | hr
  · exact ⟨[], [], ⟨[], [], rfl, by decide, by decide, Or.inl rfl⟩, Or.inl ⟨rfl, by decide⟩⟩
  · rw [List.mem_singleton.1 hr]
    exact ⟨_, _, gFields⟩

def sScript (late : Bool) : Script where
  run := if late then "20240102-0".toList else "20240101-0".toList
  begins := true
  sp := exSpace
  urlParse := exParse
  chains := fun _ _ _ => true
  certOrder := fun l => l
  rows := sRows
  norm := some
  fetch := fun _ v => some v
  part := fun _ => false
  disk := gDisk (if late then 1 else 0)
  interrupted := false
  crlThreads := 1
  crlActs := gActs
  opens := true
  encodes := true
  closes := true
  committed := true
  dirs := fDirs
  file := fFile
  ctlogs := some [wState]
  threads := 1
  t0 := 1690000000000
  kacts := fActs
  goesOn := true
  knownNames := [issuerID fDigest]
  revokedNames := [issuerID fDigest]
  others := [⟨["timestamp".toList], [if late then 2 else 1], false⟩]
  dlAll := true
  dlPrio := true
  makesAll := true
  makesPrio := true

/-- Execution 0, and all later ones. -/
def sE (n : Nat) : Script := sScript (decide (n ≠ 0))

theorem sAgg {m : MozIssuers} (h6 : m.inProgram (issuerID fDigest) = true) {sts : List CTLogState} {a : Agg}
    (h7 : aggregateKnown m.inProgram fDirs fFile (some [wState]) 1 (fun _ => none) 1690000000000 fActs = some (sts, a)) : sts = [wState] ∧ a = fAgg := by
  have h8 : listStorageBins fDirs = some fQueue := by decide +kernel
  have h9 : buildQueue m.inProgram fQueue = some fQueue := by simp [buildQueue, fillQueue, queueCapacity, fQueue, h6]
  have h10 : fAgg.success = true := by decide +kernel
  unfold aggregateKnown at h7
  rw [h8] at h7
  dsimp only at h7
  rw [h9] at h7
  dsimp only at h7
  have h11 : some ([wState], fAgg) = some (sts, a) := (if_pos h10).symm.trans h7
  cases h11
  exact ⟨rfl, rfl⟩

theorem sInputs (b : Bool) : ∃ recs, (sScript b).inputs sLib = some (recs, [wState], fAgg) := by
  have h1 : ((sScript b).inputs sLib).isSome = true := by cases b <;> decide +kernel
  cases hx : (sScript b).inputs sLib with
  | none => rw [hx] at h1; cases h1
  | some x =>
    obtain ⟨recs, sts, a⟩ := x
    obtain ⟨_, _, rfl, m, h2, _, h4⟩ := inputs_some hx
    have h5 : (loadRecords sLib.unpem (savedRecords sLib.pem (sScript b).moz) MozIssuers.empty).map (fun m => m.inProgram (issuerID fDigest)) = some true := by cases b <;> decide +kernel
    rw [h2] at h5
    obtain ⟨rfl, rfl⟩ := sAgg (by simpa using h5) h4
    exact ⟨_, rfl⟩

theorem sInputs_eq {b : Bool} {recs : List EnrolledIssuer} {sts : List CTLogState} {a : Agg} (h : (sScript b).inputs sLib = some (recs, sts, a)) : sts = [wState] ∧ a = fAgg := by
  obtain ⟨_, h1⟩ := sInputs b
  rw [h1] at h
  cases h
  exact ⟨rfl, rfl⟩

theorem sIds {r : CcadbRow} (hr : r ∈ sRows) {c : IssCert} (hc : r.cert = some c) : ∃ d : Bytes, d.length = 32 ∧ c.issuer = issuerID d := by
  rcases List.mem_cons.1 hr with rfl | hr
  · cases hc
    exact ⟨List.replicate 32 5, List.length_replicate .., rfl⟩
  · rw [List.mem_singleton.1 hr] at hc
    cases hc
    exact ⟨fDigest, by decide, rfl⟩

theorem sKnown (n : Text) : n ∈ [issuerID fDigest] ↔ fAgg.files n ≠ none := by
  constructor
  · intro hn
    rw [List.mem_singleton.1 hn]
    decide +kernel
  · intro hn
    refine Classical.byContradiction fun hne => hn ?_
    exact C44_no_other_files fFile fQueue 1 (fun _ => none) 1690000000000 fActs n hne

theorem sUnits (b : Bool) : (sScript b).units.map CrlUnit.issuer = [issuerID fDigest] := by cases b <;> decide +kernel

theorem revoked_unit (e : Script) (n : Text) (hn : e.revokedFiles n ≠ none) : n ∈ e.units.map CrlUnit.issuer := by
  refine Classical.byContradiction fun hne => hn ?_
  unfold Script.revokedFiles
  split
  · rfl
  · exact C46_no_other_files e.disk e.units e.crlThreads (fun _ => none) e.crlActs n hne

theorem sRevoked (b : Bool) (n : Text) (hn : (sScript b).revokedFiles n ≠ none) : n ∈ [issuerID fDigest] := by
  rw [← sUnits b]
  exact revoked_unit _ n hn

theorem sLoud (b : Bool) : (sScript b).crlAgg.silent = false ∧ (sScript b).crlAgg.cancelled = false := by cases b <;> decide +kernel

theorem sReadable (b : Bool) : ReadableScript sLib (sScript b) where
  one := Nat.le_refl _
  later := by show (86400000 : Int) ≤ 1690000000000; decide
  crlLoud := (sLoud b).1
  knownLoud := by
    intro recs sts a h
    rw [(sInputs_eq h).2]
    decide +kernel
  ids := fun _ hr _ hc => sIds hr hc
  ordered := fun _ _ => Iff.rfl
  knownAll := by
    intro recs sts a h n
    rw [(sInputs_eq h).2]
    exact sKnown n
  revokedAll := sRevoked b

theorem sTidy (n : Nat) : TidyFolder (sE n) where
  knownOnce := by show [issuerID fDigest].Nodup; simp
  stamped := ⟨_, List.mem_singleton.2 rfl, rfl⟩
  once := by
    intro f hf f' hf' _
    rw [List.mem_singleton.1 hf, List.mem_singleton.1 hf']
  apart := by
    intro f hf
    rw [List.mem_singleton.1 hf]
    exact ⟨_, [], rfl, by decide +kernel⟩

theorem sWorld (b : Bool) : ScriptWorld wHash wMeta wWorld wEnv sLib (sScript b) wActs where
  allowed := wActs_allowed
  view := fView
  logs := by rw [wActs_result.1]; rfl
  after := by show _ ≤ (1690000000000 : Int); decide +kernel
  back := by
    intro recs sts a h st hs _
    rw [(sInputs_eq h).1] at hs
    rw [List.mem_singleton.1 hs]
    decide
  whole := (sLoud b).2
  crlOne := Nat.le_refl _
  spaces := exSpace_spaces
  stable := fun _ v _ => ⟨v, rfl⟩
  formed := sRows_formed

/-- What the builder reads. -/
example (b : Bool) : ∃ W, InputOf sLib (sScript b) W := by
  obtain ⟨_, h⟩ := sInputs b
  exact C99_inputs_partial sLib sUnpem_sPem (sScript b) (sTidy (if b then 1 else 0) |> fun t => by cases b <;> exact t) (sReadable b) (by rw [h]; rfl)

def sGen (n : Nat) : GenRun := ((sE n).genRun sLib n).getD exGen0

theorem sGen_eq (n : Nat) : (sE n).genRun sLib n = some (sGen n) := by
  have h : ((sE n).genRun sLib n).isSome = true := by
    obtain ⟨_, h⟩ := sInputs (decide (n ≠ 0))
    unfold Script.genRun sE
    rw [h]
    rfl
  unfold sGen
  cases hx : (sE n).genRun sLib n with
  | none => rw [hx] at h; cases h
  | some g => rfl

def sOps1 : Ops := ((List.replicate 21 OpsEvent.write).foldl Ops.step (Ops.init.step (.generate (sGen 0)))).step exPublish

def sOps2 : Ops := ((List.replicate 21 OpsEvent.write).foldl Ops.step (sOps1.step (.generate (sGen 1)))).step exPublish

theorem sGen_run : (sGen 0).run = "20240101-0".toList ∧ (sGen 1).run = "20240102-0".toList := by decide +kernel

theorem scriptReach_writes {F : Type} {L : ScriptLib F} {E : Nat → Script} (n : Nat) : ∀ s, ScriptReach L E s → ScriptReach L E ((List.replicate n OpsEvent.write).foldl Ops.step s) := by
  induction n with
  | zero => intro s h; exact h
  | succ n ih => intro s h; exact ih _ (ScriptReach.write s h)

theorem folder_days {b : List StoredObj} {today : Text} (h : ∀ o ∈ b, digitsNat ((o.path.headD []).take 8) ≤ digitsNat today) (d : Text) (k : Nat) (hd : IsDate d) (hf : HasFolder b (runName d k)) : digitsNat d ≤ digitsNat today := by
  obtain ⟨o, ho, x, rest, hp⟩ := hf
  have := h o ho
  rw [hp, List.headD_cons] at this
  unfold runName at this
  rw [List.take_append_of_le_length (by rw [hd.1]; exact Nat.le_refl _), List.take_of_length_le (by rw [hd.1]; exact Nat.le_refl _)] at this
  exact this

theorem sPublish {s : Ops} (h : ScriptReach sLib sE s) : ScriptReach sLib sE (s.step exPublish) := ScriptReach.publish s _ _ _ _ _ _ _ _ h exSlug exFresh_fresh

theorem sOps1_reach : ScriptReach sLib sE sOps1 :=
  sPublish (scriptReach_writes 21 _ (ScriptReach.generate _ 0 (sGen 0) "20240101".toList [] ScriptReach.init (sGen_eq 0) ⟨by decide +kernel, by decide +kernel⟩ (folder_days (fun _ ho => by cases ho)) (by decide +kernel) (by rw [sGen_run.1]; decide +kernel)))

theorem sOps2_reach : ScriptReach sLib sE sOps2 :=
  sPublish (scriptReach_writes 21 _ (ScriptReach.generate _ 1 (sGen 1) "20240102".toList [] sOps1_reach (sGen_eq 1) ⟨by decide +kernel, by decide +kernel⟩ (folder_days (by decide +kernel)) (by decide +kernel) (by rw [sGen_run.2]; decide +kernel)))

theorem sExec (n : Nat) : (sGen n).exec = n := by
  obtain ⟨_, _, _, _, h⟩ := genRun_some (sGen_eq n)
  rw [h]

theorem publish_made (s : Ops) : (s.step exPublish).made = s.made := rfl

theorem sMade1 {y : Text} {n : Nat} (h : Executed sOps1 y n) : y = "20240101-0".toList ∧ n = 0 := by
  obtain ⟨a, prev, hm, rfl⟩ := h
  have hm := assocGet_mem hm
  have h1 : sOps1.made = (Ops.init.step (.generate (sGen 0))).made := writes_made 21 _
  rw [h1] at hm
  rcases List.mem_cons.1 hm with e | hm
  · rw [Prod.mk.injEq, Prod.mk.injEq] at e
    rw [e.1, e.2.1, sExec]
    exact ⟨sGen_run.1, rfl⟩
  · cases hm

theorem sMade2 {y : Text} {n : Nat} (h : Executed sOps2 y n) : (y = "20240102-0".toList ∧ n = 1) ∨ (y = "20240101-0".toList ∧ n = 0) := by
  obtain ⟨a, prev, hm, rfl⟩ := h
  have hm := assocGet_mem hm
  have h2 : sOps1.made = (Ops.init.step (.generate (sGen 0))).made := writes_made 21 _
  unfold sOps2 at hm
  rw [publish_made, writes_made] at hm
  rcases List.mem_cons.1 hm with e | hm
  · rw [Prod.mk.injEq, Prod.mk.injEq] at e
    rw [e.1, e.2.1, sExec]
    exact Or.inl ⟨sGen_run.2, rfl⟩
  · have hm : (y, a, prev) ∈ sOps1.made := hm
    rw [h2] at hm
    rcases List.mem_cons.1 hm with e | hm
    · rw [Prod.mk.injEq, Prod.mk.injEq] at e
      rw [e.1, e.2.1, sExec]
      exact Or.inr ⟨sGen_run.1, rfl⟩
    · cases hm

theorem sConditions (n : Nat) : ReadableScript sLib (sE n) ∧ ∃ acts, ScriptWorld wHash wMeta wWorld wEnv sLib (sE n) acts := ⟨sReadable _, wActs, sWorld _⟩

/-- The runs of the builder. -/
example (n : Nat) : ∃ W, Generates sLib.readRevset sCard sLib.lib.clubcard sLib.lib.contains sLib.lib.order (sGen n) W [] ((sE n).cover sLib) ∧
    GeneratesPriority sLib.readRevset sCard sLib.lib.clubcard sLib.lib.contains sLib.lib.order (sGen n) W [] ((sE n).cover sLib) := by
  obtain ⟨_, h⟩ := sInputs (decide (n ≠ 0))
  obtain ⟨W, hW⟩ := C99_inputs_partial sLib sUnpem_sPem (sE n) (sTidy n) (sReadable _) (by unfold sE; rw [h]; rfl)
  exact ⟨W, C99_generates sLib sCard sLib_good _ (sReadable _) W hW n _ (sGen_eq n), C99_generates_priority sLib sCard sLib_good _ (sReadable _) rfl W hW n _ (sGen_eq n)⟩

/-- The files of the second run, and those that the publisher attaches. -/
def sFilter1 : Bytes := 1 :: sEnc [fDigest ++ [1, 2]]

theorem sOps2_file0 : objGet sOps2.bucket (fileOf "20240101-0".toList exRec0) = some [1] := by decide +kernel

theorem sOps2_file1 : objGet sOps2.bucket (fileOf "20240102-0".toList exRec1) = some sFilter1 := by decide +kernel

theorem sOps1_file0 : objGet sOps1.bucket (fileOf "20240101-0".toList exRec0) = some [1] := by decide +kernel

theorem sOps2_finished : Finished sOps2.bucket "20240102-0".toList := by
  have h : ∃ o ∈ sOps2.bucket, o.path = ["20240102-0".toList, "completed".toList] := by decide +kernel
  obtain ⟨o, ho, hp⟩ := h
  exact ⟨⟨⟨"20240102".toList, 0, ⟨by decide +kernel, by decide +kernel⟩, by decide, by decide +kernel⟩, o, ho, _, _, hp⟩, o, ho, hp⟩

/-- The second run is complete: it has the files of one execution. -/
example : ∃ recs, (sE 1).inputs sLib = some (recs, [wState], fAgg) ∧ objGet sOps2.bucket ["20240102-0".toList, "clubcard-all".toList, "filter".toList] = some sFilter1 := by
  obtain ⟨n, recs, sts, a, prev, r, h1, _, h2, _, _, _, _, _, _, h3, _⟩ := C99_complete_run sLib sE sTidy sOps2 sOps2_reach _ sOps2_finished
  rcases sMade2 h1 with ⟨_, rfl⟩ | ⟨h, _⟩
  · obtain ⟨rfl, rfl⟩ := sInputs_eq h2
    exact ⟨recs, h2, by decide +kernel⟩
  · exact absurd h (by decide +kernel)

/-- Had the disk been full, aggregate-crls would have said nothing. -/
example : ({ sScript true with encodes := false } : Script).crls sLib = some none ∧ ({ sScript true with closes := false } : Script).crls sLib = none :=
  ⟨(C99_list_cut_fails sLib { sScript true with encodes := false } 1 rfl rfl (by decide +kernel) rfl).1 rfl rfl, (C99_list_cut_fails sLib { sScript true with closes := false } 1 rfl rfl (by decide +kernel) rfl).2.1 rfl⟩

/-- Had the downloads been cut off, nothing would have been uploaded. -/
example : ({ sScript true with interrupted := true } : Script).genRun sLib 1 = none := C99_download_interrupted sLib _ 1 rfl

theorem sCards {b : List StoredObj} {l : List KRec} {cards : List (Card (List Bytes))} (h : ∀ c, c ∈ cards ↔ ∃ x ∈ l.zip cards, x.2 = c) (hlen : l.length = cards.length)
    (hz : ∀ x ∈ l.zip cards, ∃ run bytes, Carries "default".toList run x.1 ∧ objGet b (fileOf run x.1) = some bytes ∧ sCard bytes = some x.2) : ClientCards sCard b "default".toList l cards := by
  intro c
  constructor
  · intro hc
    obtain ⟨x, hx, rfl⟩ := (h c).1 hc
    obtain ⟨run, bytes, h1, h2, h3⟩ := hz x hx
    exact ⟨x.1, (List.of_mem_zip hx).1, run, h1, bytes, h2, h3⟩
  · rintro ⟨r, hr, run, hcar, bytes, hb, hcd⟩
    obtain ⟨k, hk, rfl⟩ := List.mem_iff_getElem.1 hr
    have hx : (l[k], cards[k]'(hlen ▸ hk)) ∈ l.zip cards := by
      rw [List.mem_iff_getElem]
      exact ⟨k, by rw [List.length_zip, ← hlen, Nat.min_self]; exact hk, by rw [List.getElem_zip]⟩
    obtain ⟨run', bytes', h1, h2, h3⟩ := hz _ hx
    dsimp only at h1 h2 h3
    rw [attachment_unique exSlug (carries_attachment hcar) (carries_attachment h1), h2, Option.some.injEq] at hb
    rw [← hb, h3, Option.some.injEq] at hcd
    rw [← hcd]
    exact List.getElem_mem _

theorem sOps2_cards : ClientCards sCard sOps2.bucket "default".toList [exRec0, exRec1] [⟨[], fCov 0⟩, ⟨[fDigest ++ [1, 2]], fCov 0⟩] := by
  refine sCards (fun c => ?_) rfl ?_
  · simp [eq_comm]
  · intro x hx
    rcases List.mem_cons.1 hx with rfl | hx
    · exact ⟨_, _, exCarries0, sOps2_file0, rfl⟩
    · rw [List.mem_singleton.1 hx]
      exact ⟨_, _, exCarries1, sOps2_file1, by
        show some (Card.mk (sDec [] (sEnc [fDigest ++ [1, 2]])) (fCov 0)) = _
        rw [sDec_sEnc]⟩

theorem sOps1_cards : ClientCards sCard sOps1.bucket "default".toList [exRec0] [⟨[], fCov 0⟩] := by
  refine sCards (fun c => ?_) rfl ?_
  · simp [eq_comm]
  · intro x hx
    rw [List.mem_singleton.1 hx]
    exact ⟨_, _, exCarries0, sOps1_file0, rfl⟩

theorem sOps2_perm : [exRec0, exRec1].Perm (recordsOf "default".toList sOps2.recs) := by
  have : recordsOf "default".toList sOps2.recs = [exRec0, exRec1] := by decide +kernel
  rw [this]

theorem sOps1_perm : [exRec0].Perm (recordsOf "default".toList sOps1.recs) := by
  have : recordsOf "default".toList sOps1.recs = [exRec0] := by decide +kernel
  rw [this]

theorem sFirst : FirstRow sRows ⟨false, some ⟨issuerID fDigest, ['1'], 1⟩, "Intermediate Certificate".toList, "Not Revoked".toList, "http:f".toList, []⟩ ⟨issuerID fDigest, ['1'], 1⟩ :=
  ⟨[_], [], rfl, rfl, Or.inr rfl, rfl, rfl, by
    intro q hq d _ _ h4 h5
    rw [List.mem_singleton.1 hq] at h4 h5
    exact absurd h5 (by decide)⟩

theorem sCover (b : Bool) : (sScript b).cover sLib = fCov 0 := by
  obtain ⟨_, h⟩ := sInputs b
  rw [cover_eq h]
  have h1 : sCovered [wState] = true := by decide +kernel
  show sCoverage (sCovered [wState]) = _
  rw [h1]
  rfl

theorem sScope (b : Bool) : ScopeOf wHash wMeta wWorld wEnv sLib (sScript b) fCert.scts fDigest fCert.serial 1700002800 := by
  refine ⟨⟨_, _, sFirst, rfl, rfl⟩, fun recs sts a h => ?_⟩
  have hc := cover_eq h
  rw [sCover] at hc
  obtain ⟨rfl, rfl⟩ := sInputs_eq h
  refine ⟨by decide +kernel, ?_⟩
  rw [← hc]
  exact fHonest 0

theorem sCovers (b : Bool) : Covers ((sScript b).cover sLib) fCert.scts := by
  rw [sCover]
  exact fCovers 0

theorem sDiscloses (b : Bool) : DisclosedIn (sScript b) (issuerID fDigest) "http:f".toList :=
  ⟨_, _, _, _, "http:f".toList, sFirst, rfl, rfl, gFields, Or.inl ⟨rfl, by decide⟩, "http".toList, (by decide : exParse "http:f".toList = some ("http".toList, "http:f".toList)), Or.inl rfl⟩

theorem sFetched (v : Text) : FetchedIn (sScript true) (issuerID fDigest) v [([1, 2], 1)] := ⟨v, rfl, v, _, _, rfl, rfl, rfl, rfl, rfl⟩

theorem sRevokedBy : RevokedBy (sScript true) .all (issuerID fDigest) [1, 2] := ⟨fun v _ => ⟨_, sFetched v⟩, "http:f".toList, [([1, 2], 1)], 1, sDiscloses _, sFetched _, List.mem_singleton.2 rfl, trivial⟩

/-- After the second execution and publication the certificate is answered Revoked. -/
example : clientQuery (fun _ => fDigest) (fun d => some ⟨[9], d⟩) (fun _ => true) (cardHas exEnrolls exContains) [⟨[], fCov 0⟩, ⟨[fDigest ++ [1, 2]], fCov 0⟩] exInter fCert = .revoked := by
  refine C99_revoked_partial sLib sCard sLib_good exEnrolls exEnrolls_input (fun _ => fDigest) (fun d => some ⟨[9], d⟩) (fun _ => true) exInter wMeta_id (fun _ => rfl) sE sTidy sOps2 sOps2_reach (fun _ n _ _ => sConditions n)
    "default".toList exSlug [exRec0, exRec1] sOps2_perm exState_chain _ sOps2_cards fCert [5] (by decide) rfl 1700002800 (by decide +kernel) ?_ ?_
  · intro runs z hruns hz n hn
    rw [exState_runs runs hruns] at hz
    have hz : "20240102-0".toList = z := by simpa using hz
    subst hz
    rcases sMade2 hn with ⟨_, rfl⟩ | ⟨e, _⟩
    · exact ⟨sScope true, sCovers true, sRevokedBy⟩
    · exact absurd e (by decide +kernel)
  · intro _ _ _ _ n _ _
    exact sCovers _

theorem sUnlisted {n : Nat} {y : Text} (h : Executed sOps1 y n) {v : Text} {t : List (Serial × UInt8)} {k : UInt8} (h2 : FetchedIn (sE n) (issuerID fDigest) v t) (h3 : (fCert.serial, k) ∈ t) : False := by
  rw [(sMade1 h).2] at h2
  obtain ⟨u, hu, p, f, l, e1, e2, e3, e4, e5⟩ := h2
  have e2 : some (⟨true, some [], none, 0⟩ : CrlFile) = some f := e2
  cases e2
  cases e4
  cases t with
  | nil => cases h3
  | cons x t => cases e5

/-- After the first it is answered Good. -/
example : clientQuery (fun _ => fDigest) (fun d => some ⟨[9], d⟩) (fun _ => true) (cardHas exEnrolls exContains) [⟨[], fCov 0⟩] exInter fCert ≠ .revoked :=
  C99_not_revoked_partial sLib sCard sLib_good exEnrolls exEnrolls_input (fun _ => fDigest) (fun d => some ⟨[9], d⟩) (fun _ => true) exInter wMeta_id (fun _ => rfl) sE sTidy sOps1 sOps1_reach (fun _ n _ _ => sConditions n)
    "default".toList exSlug [exRec0] sOps1_perm ⟨rfl, rfl, "i".toList, rfl, trivial⟩ _ sOps1_cards fCert [5] (by decide) 1700002800 (by decide +kernel) (fun _ _ _ _ _ _ => sScope _) (fun _ _ _ _ _ hn _ _ _ _ h2 h3 => (sUnlisted hn h2 h3).elim)

example : clientQuery (fun _ => fDigest) (fun d => some ⟨[9], d⟩) (fun _ => true) (cardHas exEnrolls exContains) [⟨[], fCov 0⟩] exInter fCert = .good :=
  (C99_good_partial sLib sCard sLib_good exEnrolls exEnrolls_input (fun _ => fDigest) (fun d => some ⟨[9], d⟩) (fun _ => true) exInter wMeta_id (fun _ => rfl) sE sTidy sOps1 sOps1_reach (fun _ n _ _ => sConditions n)
    "default".toList exSlug [exRec0] sOps1_perm ⟨rfl, rfl, "i".toList, rfl, trivial⟩ _ sOps1_cards fCert [5] (by decide) rfl 1700002800 (by decide +kernel) (fun _ _ _ _ _ _ => sScope _) (fun _ _ _ _ _ hn _ _ _ _ h2 h3 => (sUnlisted hn h2 h3).elim)).1
    (fun runs hc => by
      cases runs with
      | nil => exact hc.elim
      | cons y rest => exact ⟨y, List.mem_cons_self, fun _ _ => sCovers _⟩)

-- the example comes to its upload, and does not if a command behind aggregate-known fails
example : ((sScript true).genRun sLib 0).isSome = true ∧ ({ sScript true with goesOn := false }.genRun sLib 0).isSome = false := by decide +kernel

/-! ### what can go wrong -/

/-- The first worker has taken the issuer when the signal comes. -/
def sStopped : Script := { sScript true with run := "20240101-0".toList, others := [⟨["timestamp".toList], [1], false⟩], crlActs := [.take 0, .signal, .next 0 xSt], revokedNames := [] }

theorem sStopped_inputs : ∃ recs, sStopped.inputs sLib = some (recs, [wState], fAgg) := by
  have h1 : (sStopped.inputs sLib).isSome = true := by decide +kernel
  cases hx : sStopped.inputs sLib with
  | none => rw [hx] at h1; cases h1
  | some x =>
    obtain ⟨recs, sts, a⟩ := x
    obtain ⟨_, _, rfl, m, h2, _, h4⟩ := inputs_some hx
    have h5 : (loadRecords sLib.unpem (savedRecords sLib.pem sStopped.moz) MozIssuers.empty).map (fun m => m.inProgram (issuerID fDigest)) = some true := by decide +kernel
    rw [h2] at h5
    obtain ⟨rfl, rfl⟩ := sAgg (by simpa using h5) h4
    exact ⟨_, rfl⟩

theorem sStopped_readable : ReadableScript sLib sStopped where
  one := Nat.le_refl _
  later := by show (86400000 : Int) ≤ 1690000000000; decide
  crlLoud := by decide +kernel
  knownLoud := by
    intro recs sts a h
    obtain ⟨_, h1⟩ := sStopped_inputs
    rw [h1] at h
    cases h
    decide +kernel
  ids := fun _ hr _ hc => sIds hr hc
  ordered := fun _ _ => Iff.rfl
  knownAll := by
    intro recs sts a h n
    obtain ⟨_, h1⟩ := sStopped_inputs
    rw [h1] at h
    cases h
    exact sKnown n
  revokedAll := by
    intro n hn
    have h1 := revoked_unit _ _ hn
    have h2 : sStopped.units.map CrlUnit.issuer = [issuerID fDigest] := by decide +kernel
    rw [h2] at h1
    have h3 : sStopped.revokedFiles (issuerID fDigest) = none := by decide +kernel
    rw [List.mem_singleton.1 h1] at hn
    exact absurd h3 hn

theorem sStopped_tidy : TidyFolder sStopped where
  knownOnce := by show [issuerID fDigest].Nodup; simp
  stamped := ⟨_, List.mem_singleton.2 rfl, rfl⟩
  once := by
    intro f hf f' hf' _
    rw [List.mem_singleton.1 hf, List.mem_singleton.1 hf']
  apart := by
    intro f hf
    rw [List.mem_singleton.1 hf]
    exact ⟨_, [], rfl, by decide +kernel⟩

def sStoppedGen : GenRun := (sStopped.genRun sLib 0).getD exGen0

theorem sStoppedGen_eq : sStopped.genRun sLib 0 = some sStoppedGen := by
  have h : (sStopped.genRun sLib 0).isSome = true := by decide +kernel
  unfold sStoppedGen
  cases hx : sStopped.genRun sLib 0 with
  | none => rw [hx] at h; cases h
  | some g => rfl

def sOpsStopped : Ops := ((List.replicate 17 OpsEvent.write).foldl Ops.step (Ops.init.step (.generate sStoppedGen))).step exPublish

/-- **C99 fails after a signal during aggregation.** The signal comes when the worker has taken the issuer. aggregate-crls saves the list of issuers and ends with status 0 (aggregate-crls.go:564-582), and the script goes on: the run is
complete and published, and a certificate that is in its scope, covered, and listed in a fetched CRL is answered Good. -/
theorem C99_interrupted_fails :
    ∃ (e : Script) (s : Ops), ScriptReach sLib (fun _ => e) s ∧ TidyFolder e ∧ ReadableScript sLib e ∧ Executed s "20240101-0".toList 0 ∧ Finished s.bucket "20240101-0".toList ∧
      ScopeOf wHash wMeta wWorld wEnv sLib e fCert.scts fDigest fCert.serial 1700002800 ∧ Covers (e.cover sLib) fCert.scts ∧ RevokedBy e .all (issuerID fDigest) fCert.serial ∧
      [exRec0].Perm (recordsOf "default".toList s.recs) ∧ IsChain [exRec0] ∧ ClientCards sCard s.bucket "default".toList [exRec0] [⟨[], fCov 0⟩] ∧
      clientQuery (fun _ => fDigest) (fun d => some ⟨[9], d⟩) (fun _ => true) (cardHas exEnrolls exContains) [⟨[], fCov 0⟩] exInter fCert = .good := by
  obtain ⟨recs, hi⟩ := sStopped_inputs
  have hcov : sStopped.cover sLib = fCov 0 := by
    rw [cover_eq hi]
    have h1 : sCovered [wState] = true := by decide +kernel
    show sCoverage (sCovered [wState]) = _
    rw [h1]
    rfl
  have hfin : ∃ o ∈ sOpsStopped.bucket, o.path = ["20240101-0".toList, "completed".toList] := by decide +kernel
  obtain ⟨o, ho, hp⟩ := hfin
  have hrun : sStoppedGen.run = "20240101-0".toList := by decide +kernel
  have hperm : recordsOf "default".toList sOpsStopped.recs = [exRec0] := by decide +kernel
  have hfile : objGet sOpsStopped.bucket (fileOf "20240101-0".toList exRec0) = some [1] := by decide +kernel
  refine ⟨sStopped, sOpsStopped, ?_, sStopped_tidy, sStopped_readable, ?_, ?_, ?_, ?_, ?_, ?_, ⟨rfl, rfl, "i".toList, rfl, trivial⟩, ?_, ?_⟩
  · exact ScriptReach.publish _ _ _ _ _ _ _ _ _ (scriptReach_writes 17 _ (ScriptReach.generate _ 0 sStoppedGen "20240101".toList [] ScriptReach.init sStoppedGen_eq ⟨by decide +kernel, by decide +kernel⟩ (folder_days (fun _ ho => by cases ho))
      (by decide +kernel) (by rw [hrun]; decide +kernel))) exSlug exFresh_fresh
  · refine ⟨sStoppedGen, none, ?_, ?_⟩
    · unfold MadeBy sOpsStopped
      rw [publish_made, writes_made]
      show assocGet [(sStoppedGen.run, sStoppedGen, none)] _ = _
      rw [hrun]
      simp [assocGet]
    · obtain ⟨_, _, _, _, e⟩ := genRun_some sStoppedGen_eq
      rw [e]
  · exact ⟨⟨⟨"20240101".toList, 0, ⟨by decide +kernel, by decide +kernel⟩, by decide, by decide +kernel⟩, o, ho, _, _, hp⟩, o, ho, hp⟩
  · refine ⟨⟨_, _, sFirst, rfl, rfl⟩, fun recs sts a h => ?_⟩
    have hc := cover_eq h
    rw [hcov] at hc
    rw [hi] at h
    cases h
    refine ⟨by decide +kernel, ?_⟩
    rw [← hc]
    exact fHonest 0
  · rw [hcov]
    exact fCovers 0
  · have hf : ∀ v, FetchedIn sStopped (issuerID fDigest) v [([1, 2], 1)] := fun v => ⟨v, rfl, v, _, _, rfl, rfl, rfl, rfl, rfl⟩
    have hd : DisclosedIn sStopped (issuerID fDigest) "http:f".toList :=
      ⟨_, _, _, _, "http:f".toList, sFirst, rfl, rfl, gFields, Or.inl ⟨rfl, by decide⟩, "http".toList, (by decide : exParse "http:f".toList = some ("http".toList, "http:f".toList)), Or.inl rfl⟩
    exact ⟨fun v _ => ⟨_, hf v⟩, "http:f".toList, [([1, 2], 1)], 1, hd, hf _, List.mem_singleton.2 rfl, trivial⟩
  · rw [hperm]
  · refine sCards (fun c => ?_) rfl ?_
    · simp [eq_comm]
    · intro x hx
      rw [List.mem_singleton.1 hx]
      exact ⟨_, _, exCarries0, hfile, rfl⟩
  · decide +kernel

/-- The second execution of the example, whose builder cannot make the directory for the priority filter. -/
def sNoPrio : Script := { sScript true with run := "20240101-0".toList, others := [⟨["timestamp".toList], [1], false⟩], makesPrio := false }

def sNoPrioGen : GenRun := (sNoPrio.genRun sLib 0).getD exGen0

theorem sNoPrioGen_eq : sNoPrio.genRun sLib 0 = some sNoPrioGen := by
  have h : (sNoPrio.genRun sLib 0).isSome = true := by decide +kernel
  unfold sNoPrioGen
  cases hx : sNoPrio.genRun sLib 0 with
  | none => rw [hx] at h; cases h
  | some g => rfl

/-- **C99 fails for the priority filter.** The builder that cannot make its directory ends with status 0 (main.rs:776-786), so that the script marks the run complete; it has the files for all reasons but none for the priority reasons. -/
theorem C99_priority_missing_fails :
    ∃ (e : Script) (s : Ops), ScriptReach sLib (fun _ => e) s ∧ Finished s.bucket "20240101-0".toList ∧ (∃ b, objGet s.bucket ["20240101-0".toList, "clubcard-all".toList, "filter".toList] = some b) ∧
      ∀ f, objGet s.bucket ["20240101-0".toList, "clubcard-priority".toList, f] = none := by
  have hrun : sNoPrioGen.run = "20240101-0".toList := by decide +kernel
  have hfin : ∃ o ∈ ((List.replicate 16 OpsEvent.write).foldl Ops.step (Ops.init.step (.generate sNoPrioGen))).bucket, o.path = ["20240101-0".toList, "completed".toList] := by decide +kernel
  have hno : ∀ o ∈ ((List.replicate 16 OpsEvent.write).foldl Ops.step (Ops.init.step (.generate sNoPrioGen))).bucket, (o.path.drop 1).head? ≠ some "clubcard-priority".toList := by decide +kernel
  obtain ⟨o, ho, hp⟩ := hfin
  refine ⟨sNoPrio, (List.replicate 16 OpsEvent.write).foldl Ops.step (Ops.init.step (.generate sNoPrioGen)), ?_, ?_, ⟨1 :: sEnc [fDigest ++ [1, 2]], by decide +kernel⟩, ?_⟩
  · exact scriptReach_writes 16 _ (ScriptReach.generate _ 0 sNoPrioGen "20240101".toList [] ScriptReach.init sNoPrioGen_eq ⟨by decide +kernel, by decide +kernel⟩ (folder_days (fun _ ho => by cases ho)) (by decide +kernel) (by rw [hrun]; decide +kernel))
  · exact ⟨⟨⟨"20240101".toList, 0, ⟨by decide +kernel, by decide +kernel⟩, by decide, by decide +kernel⟩, o, ho, _, _, hp⟩, o, ho, hp⟩
  · intro f
    refine objGet_none.2 fun o ho hp => hno o ho ?_
    rw [hp]
    rfl

end Verif.Props
