import Verif.Props.Whole
import Verif.Props.Known
import Verif.Props.EndToEnd
import Verif.Props.Crls
/-!
Property C83: what a filter covers is in its known set. From the entries of the logs through ct-fetch, commits and aggregate-known to the client's answer.
-/
namespace Verif.Props
open Verif.Spec

/-! ### from storage to the known files -/

/-- `dirs` lists the storage directory of `db`, perhaps with other files, and `file` reads it. -/
structure Spec.StorageView (db : Db) (dirs : List DirEntry) (file : Text → Text → Option Text) : Prop where
  listed : ∀ b, db.files b ≠ none → ∃ dir ∈ dirs, dir.isDir = true ∧ dir.name = "issuer::".toList ++ b.issuer ∧
    serialCacheKeyID (newExpDateFromTime b.unix).id b.issuer ∈ dir.files
  content : ∀ b, b.unix % 3600 = 0 → 0 ≤ yearOf b.unix → yearOf b.unix ≤ 9999 → file b.issuer (newExpDateFromTime b.unix).id = db.files b

theorem decVal_le {c : Char} {n : Nat} (h : decVal c = some n) : n ≤ 9 := by
  unfold decVal at h
  split at h
  · rw [Option.some.injEq] at h; omega
  · cases h

theorem num2_le {a b : Char} {n : Nat} (h : num2 a b = some n) : n ≤ 99 := by
  unfold num2 at h
  split at h
  · rename_i x y h1 h2
    have := decVal_le h1
    have := decVal_le h2
    rw [Option.some.injEq] at h; omega
  · cases h

theorem num4_le {a b c d : Char} {n : Nat} (h : num4 a b c d = some n) : n ≤ 9999 := by
  unfold num4 at h
  split at h
  · rename_i x y h1 h2
    have := num2_le h1
    have := num2_le h2
    rw [Option.some.injEq] at h; omega
  · cases h

theorem parseDay_lt {s : Text} {t : Int} (h : parseDay s = some t) : t < 2 ^ 62 := by
  unfold parseDay at h
  split at h
  · split at h
    · rename_i y m dd h1 h2 h3
      split at h
      · have := num4_le h1
        have := num2_le h3
        rw [Option.some.injEq] at h
        rw [← h]
        unfold daysOfCivil
        dsimp only
        split <;> split <;> omega
      · cases h
    · cases h
  · cases h

theorem parseHourField_le {s : Text} {n : Nat} (h : parseHourField s = some n) : n ≤ 24 := by
  unfold parseHourField at h
  split at h
  · have := decVal_le h; omega
  · split at h
    · split at h
      · rw [Option.some.injEq] at h; omega
      · cases h
    · cases h
  · cases h

/-- A date in a file name is a 64-bit number, and its bin expires within a day. -/
theorem newExpDate_bounds {s : Text} {e : ExpDate} (h : newExpDate s = some e) : e.date < 2 ^ 64 ∧ e.date * 1000 ≤ e.lastGood ∧ e.lastGood < e.date * 1000 + 86400000 := by
  unfold newExpDate at h
  split at h
  · rename_i t ht
    split at ht
    · unfold parseHour at ht
      split at ht
      · rename_i t' rest h1 h2
        split at ht
        · rename_i n hn
          have := parseDay_lt h1
          have := parseHourField_le hn
          rw [Option.some.injEq] at ht h
          subst h
          dsimp only
          omega
        · cases ht
      · cases ht
    · cases ht
  · split at h
    · rename_i t ht
      have := parseDay_lt ht
      rw [Option.some.injEq] at h
      subst h
      dsimp only
      omega
    · cases h

theorem aggregateKnown_some {enrolled : Text → Bool} {dirs : List DirEntry} {file : Text → Text → Option Text} {ctlogs : Option (List CTLogState)} {threads : Nat}
    {files : Text → Option Text} {t0 : Int} {acts : List KAct} {sts : List CTLogState} {a : Agg}
    (h : aggregateKnown enrolled dirs file ctlogs threads files t0 acts = some (sts, a)) :
    ctlogs = some sts ∧ ∃ out, listStorageBins dirs = some out ∧ a = (Agg.init (out.filter (fun u => enrolled u.1)) threads files t0).run file acts ∧ a.success = true := by
  unfold aggregateKnown at h
  split at h
  · rename_i sts' out h2
    rw [C45_no_overflow enrolled dirs out h2] at h
    dsimp only at h
    split at h
    · rename_i hs
      rw [Option.some.injEq, Prod.mk.injEq] at h
      obtain ⟨rfl, rfl⟩ := h
      exact ⟨rfl, out, h2, rfl, hs⟩
    · cases h
  · cases h

theorem nodup_filter_fst (out : List IssuerDates) (p : IssuerDates → Bool) (h : (out.map Prod.fst).Nodup) : ((out.filter p).map Prod.fst).Nodup :=
  h.sublist (List.filter_sublist.map _)

/-- What is in storage, of an enrolled issuer and not expired, is in the issuer's known file. -/
theorem stored_is_known {db : Db} {dirs : List DirEntry} {file : Text → Text → Option Text} (hv : Spec.StorageView db dirs file) {enrolled : Text → Bool}
    {ctlogs : Option (List CTLogState)} {threads : Nat} (h1 : 1 ≤ threads) {files : Text → Option Text} {t0 : Int} (ht0 : 86400000 ≤ t0) {acts : List KAct} {sts : List CTLogState} {a : Agg}
    (h : aggregateKnown enrolled dirs file ctlogs threads files t0 acts = some (sts, a)) (hsil : a.silent = false) {d : Bytes} (he : enrolled (issuerID d) = true)
    {b : Bin} {s : Serial} (hb : b.issuer = issuerID d) (hu : b.unix % 3600 = 0) (hy0 : 0 ≤ yearOf b.unix) (hy1 : yearOf b.unix ≤ 9999) (hl : Live b a.clock) (hs : Stored db b s) :
    ∃ content entries, a.files (issuerID d) = some content ∧ readKnownFile content = some entries ∧ (b.unix.toNat, hexEncode s) ∈ entries := by
  obtain ⟨_, out, hout, rfl, hok⟩ := aggregateKnown_some h
  obtain ⟨l, hl1, hl2⟩ := hs
  have hf : db.files b ≠ none := by
    intro e
    rw [e] at hl1
    simp only [readSerialsFromStorage] at hl1
    cases hl1
    cases hl2
  obtain ⟨dir, hd1, hd2, hd3, hd4⟩ := hv.listed b hf
  obtain ⟨hnd, _, hiff⟩ := C40_listing_exact _ out hout
  obtain ⟨e, he1, he2, he3, he4⟩ := C10_hour_roundtrip b.unix hy0 hy1
  have hmem : serialCacheKeyID (newExpDateFromTime b.unix).id b.issuer ∈ storageNames dirs := by
    unfold storageNames
    rw [List.mem_flatMap]
    refine ⟨dir, ?_, ?_⟩
    · rw [List.mem_filter]
      refine ⟨hd1, ?_⟩
      rw [hd2, hd3]
      simp [hasPrefix]
    · rw [List.mem_filter]
      refine ⟨hd4, ?_⟩
      simp [hasPrefix, serialCacheKeyID, serialsWord]
  rw [hb] at hmem
  obtain ⟨ds, hds, hx⟩ := (hiff (issuerID d) e).2 ⟨_, hmem, _, _, (splitColons_iff _ _).1 (splitColons_binName _ _ (colon_not_mem_id _) (colon_not_mem_b64Encode _ _)), he1⟩
  have hq : (issuerID d, ds) ∈ out.filter (fun u => enrolled u.1) := List.mem_filter.2 ⟨hds, he⟩
  obtain ⟨content, entries, c1, c2, c3, _⟩ := C44_complete_partial file _ (nodup_filter_fst out _ hnd) threads h1 files t0 acts hok hsil _ ds hq (fun x hxm hxe => by
    obtain ⟨name, _, p, dt, _, hxp⟩ := (hiff (issuerID d) x).1 ⟨ds, hds, hxm⟩
    have := newExpDate_bounds hxp
    unfold ExpDate.isExpiredAt at hxe
    rw [decide_eq_false_iff_not] at hxe
    omega)
  have hed : e.date = b.unix := by rw [he2]; omega
  have hexp : e.isExpiredAt ((Agg.init (out.filter (fun u => enrolled u.1)) threads files t0).run file acts).clock = false := by
    unfold Live at hl
    unfold ExpDate.isExpiredAt
    rw [decide_eq_false_iff_not]
    have := (newExpDate_bounds he1).2.1
    omega
  obtain ⟨l', m1, m2⟩ := c3 e hx hexp
  rw [hed, he4, ← hb, hv.content b hu hy0 hy1, hl1] at m1
  cases m1
  refine ⟨content, entries, c1, c2, ?_⟩
  rw [← hed]
  exact m2 s hl2

/-! ### from the logs to storage -/

/-- The certificate that an RFC 6962 chain gives as issuer: the first one, or the second one if the first is a precertificate signing certificate (RFC 6962, section 3.1). -/
def Spec.ChainIssuer (chain : List (Option Cert)) (p : Cert) : Prop :=
  (∃ rest, chain = some p :: rest ∧ p.preIssuer = false) ∨ ∃ q rest, chain = some q :: some p :: rest ∧ q.preIssuer = true

/-- The same for a tiled log. -/
def Spec.FetchedIssuer (chain : List Fetched) (p : Cert) : Prop :=
  (∃ rest, chain = .cert p :: rest ∧ p.preIssuer = false) ∨ ∃ q rest, chain = .cert q :: .cert p :: rest ∧ q.preIssuer = true

/-- The leaf `input` of the log is the certificate with serial `s` and expiry `na` of the issuer whose key has digest `d`: whenever the log serves the leaf, it serves this certificate, with its chain, and it does so
before the certificate expires. -/
structure Spec.LeafOf (H : Bytes → Bytes) (w : World) (env : Env) (log : Text) (input : Bytes) (d : Bytes) (s : Serial) (na : Nat) : Prop where
  rfc : ∀ l e, w.L log l → l.input = input → env.parse l.input l.extra = some e →
    ∃ c p, e.cert = some c ∧ c.serial = s ∧ c.notAfter = na ∧ l.time ≤ na ∧ Spec.ChainIssuer e.chain p ∧ H p.key = d
  tiled : ∀ te, w.TL log te → te.input = input →
    ∃ c p, te.cert = some c ∧ c.serial = s ∧ c.notAfter = na ∧ te.time ≤ na ∧ Spec.FetchedIssuer te.chain p ∧ H p.key = d

theorem leafOf_item {H : Bytes → Bytes} {w : World} {env : Env} {log : Text} {i t : Nat} {input d : Bytes} {s : Serial} {na : Nat} {item : Option Item}
    (h : Spec.LeafOf H w env log input d s na) (he : EvOk w env log (.entry i input t item)) :
    ∃ it, item = some it ∧ it.serial = s ∧ it.notAfter = na ∧ H it.issuerKey = d := by
  rcases he with ⟨_, he⟩ | ⟨_, l, hl, ⟨e, hpe, _⟩, pos, hp⟩ | ⟨_, te, hte, pos, _, _, hp⟩
  · cases he
  · unfold leafEvent at hp
    rw [hpe] at hp
    simp only [Ev.entry.injEq] at hp
    obtain ⟨_, h3, _, h5⟩ := hp
    obtain ⟨c, p, k1, k2, k3, k4, k5, k6⟩ := h.rfc l e hl h3 hpe
    refine ⟨mkItem c p e.timestamp, ?_, k2, k3, k6⟩
    rw [← h5]
    unfold storeLogEntry
    rw [k1]
    dsimp only
    rw [if_neg (fun h => by omega)]
    rcases k5 with ⟨rest, k5, k7⟩ | ⟨q, rest, k5, k7⟩
    · rw [k5]; dsimp only; rw [k7]; rfl
    · rw [k5]; dsimp only; rw [k7]; rfl
  · simp only [Ev.entry.injEq] at hp
    obtain ⟨_, h3, _, h5⟩ := hp
    obtain ⟨c, p, k1, k2, k3, k4, k5, k6⟩ := h.tiled te hte h3.symm
    refine ⟨mkItem c p te.timestamp, ?_, k2, k3, k6⟩
    rw [h5]
    unfold storeTiledEntry
    rw [k1]
    dsimp only
    rw [if_neg (fun h => by omega)]
    rcases k5 with ⟨rest, k5, k7⟩ | ⟨q, rest, k5, k7⟩
    · rw [k5]; dsimp only; rw [k7]; rfl
    · rw [k5]; dsimp only; rw [k7]; rfl


/-- The certificate with serial `s` and expiry `na` of the issuer with key digest `d` is an entry with timestamp `t` of the log with identifier `id`, and the log keeps its promises (`MergeDelay`, `HonestTimes`). For
tiled logs it is not the first entry (`C25_tiled_fails`). -/
def Spec.Logged (H : Bytes → Bytes) (mt : Meta) (w : World) (env : Env) (id : Bytes) (t : Nat) (d : Bytes) (s : Serial) (na : Nat) : Prop :=
  ∃ log N ts merged tsOf x, mt.id log = id ∧ (∀ a, mt.id a = mt.id log → a = log) ∧ (mt.mmd log).toNat * 1000 < 2 ^ 64 ∧
    MergeDelay N ((mt.mmd log).toNat * 1000) ts merged ∧ HonestTimes w env log N ts merged tsOf ∧ x < N ∧ ts x = t ∧ (w.tiled log = true → 1 ≤ x) ∧
    ∀ input, w.G log x input → Spec.LeafOf H w env log input d s na

/-- The input `W` of the filter builder is what is in the known directory. -/
def Spec.ReadsKnown (W : RunInput) (files : Text → Option Text) : Prop :=
  (∀ i ∈ W, files (issuerID i.digest) = some i.knownText) ∧ ∀ name content, files name = some content → ∃ i ∈ W, issuerID i.digest = name

/-- A successful run of aggregate-known on a database that ct-fetch and commits have produced by the steps `acts`; the filter builder reads the known directory as `W` and the coverage as `cov`. -/
structure Spec.KnownRun (H : Bytes → Bytes) (mt : Meta) (w : World) (env : Env) (W : RunInput) (cov : Coverage) where
  acts : List WAct
  allowed : WAllAllowed H mt w env Whole.init acts
  enrolled : Text → Bool
  dirs : List DirEntry
  file : Text → Text → Option Text
  view : Spec.StorageView (Whole.init.run H mt env acts).db dirs file
  threads : Nat
  one : 1 ≤ threads
  files : Text → Option Text
  t0 : Int
  /-- it is not the first day of 1970 -/
  later : 86400000 ≤ t0
  /-- the clock has not gone back since the commit -/
  after : (Whole.init.run H mt env acts).db.now ≤ t0
  kacts : List KAct
  sts : List CTLogState
  a : Agg
  result : aggregateKnown enrolled dirs file (Whole.init.run H mt env acts).db.ctlogs threads files t0 kacts = some (sts, a)
  /-- no unnoticed write error (`C44_last_flush_fails`) -/
  loud : a.silent = false
  reads : Spec.ReadsKnown W a.files
  /-- the library covers at most what the coverage file says -/
  coverage : ∀ id lo hi, cov id = some (lo, hi) → ∃ c, newCoverageCutoffMap sts id = some c ∧ hi ≤ c.toNat
  /-- the published RFC 6962 logs have been fetched back to entry 0 (`C24_lower_edge_fails`) -/
  back : ∀ st ∈ sts, w.tiled st.shortURL = false → st.minEntry = 0 ∧ st.lastUpdateTime ≠ none

theorem aggregateKnown_clock {enrolled : Text → Bool} {dirs : List DirEntry} {file : Text → Text → Option Text} {ctlogs : Option (List CTLogState)} {threads : Nat}
    {files : Text → Option Text} {t0 : Int} {acts : List KAct} {sts : List CTLogState} {a : Agg}
    (h : aggregateKnown enrolled dirs file ctlogs threads files t0 acts = some (sts, a)) : t0 ≤ a.clock := by
  obtain ⟨_, out, hout, rfl, _⟩ := aggregateKnown_some h
  exact (aggOk_run acts _ (aggOk_init file _ (nodup_filter_fst out _ (C40_listing_exact _ out hout).1) threads files t0)).1

theorem yearOf_nonneg (n : Nat) : 0 ≤ yearOf (n : Int) := by
  have h1 : 0 ≤ ((n : Int) / 86400 + 719468) / 146097 := by omega
  have h2 : 0 ≤ ((n : Int) / 86400 + 719468) % 146097 := by omega
  unfold yearOf civilOfDays
  dsimp only
  generalize ((n : Int) / 86400 + 719468) / 146097 = era at *
  generalize ((n : Int) / 86400 + 719468) % 146097 = doe at *
  have h3 : 0 ≤ (doe - doe / 1460 + doe / 36524 - doe / 146096) / 365 := by
    apply Int.ediv_nonneg _ (by decide)
    have : doe / 1460 ≤ doe - doe / 146096 := by omega
    have : 0 ≤ doe / 36524 := by omega
    omega
  generalize (doe - doe / 1460 + doe / 36524 - doe / 146096) / 365 = yoe at *
  generalize hm : (if (5 * (doe - (365 * yoe + yoe / 4 - yoe / 100)) + 2) / 153 < 10 then (5 * (doe - (365 * yoe + yoe / 4 - yoe / 100)) + 2) / 153 + 3 else
    (5 * (doe - (365 * yoe + yoe / 4 - yoe / 100)) + 2) / 153 - 9) = m
  split <;> omega

theorem yearOf_hour (n : Nat) : yearOf ((n / 3600 * 3600 : Nat) : Int) = yearOf (n : Int) := by
  unfold yearOf
  rw [show ((n / 3600 * 3600 : Nat) : Int) / 86400 = (n : Int) / 86400 by omega]

/-- **C83 (covered is known, partial).** For every history of ct-fetch and commits, every following successful run of aggregate-known, and every certificate of an enrolled issuer whose expiry hour has not begun: if
the certificate is an entry of a log that keeps its promises, with a timestamp that the coverage written by this run covers, then the filter builder finds it among the known certificates. Full statement: without the
conditions in `Spec.KnownRun` and `Spec.Logged` that name a counterexample, and also for a timestamp that equals the cutoff (`hedge`; `C24_boundary_fails`). -/
theorem C83_covered_is_known_partial {H : Bytes → Bytes} {mt : Meta} {w : World} {env : Env} (hid : ∀ log, (mt.id log).length = 32) (hH : ∀ x, (env.H x).length = 32) {W : RunInput} {X : Dir}
    (hg : GoodInput W X) {cov : Coverage} (R : Spec.KnownRun H mt w env W cov) (id : Bytes) (t lo hi : Nat) (hcov : cov id = some (lo, hi)) (ht : t ≤ hi)
    (hedge : newCoverageCutoffMap R.sts id ≠ some (UInt64.ofNat t)) (d : Bytes) (s : Serial) (na : Nat) (hlog : Spec.Logged H mt w env id t d s na)
    (he : R.enrolled (issuerID d) = true) (hlive : R.a.clock < ((na / 3600 * 3600 : Nat) : Int) * 1000) (hy : yearOf na ≤ 9999) : KnownIn W d s := by
  obtain ⟨log, N, ts, merged, tsOf, x, rfl, huniq, hm, hd, hh, hx, rfl, htl, hleaf⟩ := hlog
  obtain ⟨c, hc, hhc⟩ := R.coverage _ _ _ hcov
  obtain ⟨hst, _⟩ := aggregateKnown_some R.result
  have hlt : ts x < c.toNat := by
    rcases Nat.lt_or_ge (ts x) c.toNat with h | h
    · exact h
    · have : ts x = c.toNat := by omega
      exfalso
      apply hedge
      rw [this, UInt64.ofNat_toNat]
      exact hc
  obtain ⟨input, item, h1, h2, h3⟩ := C41_published_partial H mt w env hid hH R.acts R.allowed log huniq N ts merged tsOf hm hd hh R.sts hst c hc x hx hlt
    (fun hw st hs hu => R.back st hs (by rw [hu]; exact hw)) htl
  have hi := winv_run hid hH R.acts _ (winv_init H mt w env) R.allowed
  obtain ⟨it, rfl, k1, k2, k3⟩ := leafOf_item (hleaf input h2) (hi.sys.seen log _ h1)
  have hclock := aggregateKnown_clock R.result
  have hstored := h3 it rfl { unix := ((na / 3600 * 3600 : Nat) : Int), issuer := issuerID d } ⟨by rw [k3]; rfl, by dsimp only; omega, by dsimp only; omega, by dsimp only; omega⟩
    (by have := R.after; unfold Live; dsimp only; omega)
  rw [k1] at hstored
  obtain ⟨content, entries, e1, e2, e3⟩ := stored_is_known R.view R.one R.later R.result R.loud he (b := { unix := ((na / 3600 * 3600 : Nat) : Int), issuer := issuerID d }) rfl (by dsimp only; omega)
    (by dsimp only; rw [yearOf_hour]; exact yearOf_nonneg na) (by dsimp only; rw [yearOf_hour]; exact hy) hlive hstored
  obtain ⟨i, hi1, hi2⟩ := R.reads.2 _ _ e1
  have e4 := R.reads.1 i hi1
  rw [hi2, e1] at e4
  rw [Option.some.inj e4, read_known i (hg.2.1 i hi1).2] at e2
  rw [← Option.some.inj e2] at e3
  obtain ⟨s', hs', hb⟩ := (mem_knownEntries i (hexEncode s)).1 (List.mem_map.2 ⟨_, e3, rfl⟩)
  rw [hexEncode_injective hs']
  exact ⟨i, hi1, b64Encode_injective hi2, hb⟩

/-! ### from the CRLs to the revoked files -/

/-- All CRLs of the issuer are good, and one of them lists the serial with a reason of the set. -/
def Spec.OnCrl (disk : Text → Option CrlFile) (u : CrlUnit) (rs : ReasonSet) (s : Serial) : Prop :=
  (∀ p ∈ u.paths, ∃ l, CrlLists disk p l) ∧ ∃ p ∈ u.paths, ∃ l c, CrlLists disk p l ∧ (s, c) ∈ l ∧ codesOf rs c.toNat

/-- A run of aggregate-crls that is not interrupted, starts with an empty directory, and meets no unnoticed write error (`C46_last_flush_fails`); the filter builder reads the revoked directory as that of `W`. -/
structure Spec.CrlRun (W : RunInput) where
  disk : Text → Option CrlFile
  units : List CrlUnit
  nodup : (units.map CrlUnit.issuer).Nodup
  threads : Nat
  one : 1 ≤ threads
  acts : List CrlAct
  returned : ((CrlAgg.init units threads (fun _ => none)).run disk acts).returned = true
  whole : ((CrlAgg.init units threads (fun _ => none)).run disk acts).cancelled = false
  loud : ((CrlAgg.init units threads (fun _ => none)).run disk acts).silent = false
  reads : ∀ i ∈ W, ((CrlAgg.init units threads (fun _ => none)).run disk acts).files (issuerID i.digest) = i.revokedText

theorem Spec.CrlRun.revoked_iff {W : RunInput} (R : Spec.CrlRun W) (rs : ReasonSet) (d : Bytes) (s : Serial) :
    RevokedIn rs W d s ↔ (∃ i ∈ W, i.digest = d) ∧ ∃ u ∈ R.units, u.issuer = issuerID d ∧ Spec.OnCrl R.disk u rs s := by
  have key : ∀ i ∈ W, hexEncode s ∈ (revEntries rs i).map Prod.fst ↔ ∃ u ∈ R.units, u.issuer = issuerID i.digest ∧ Spec.OnCrl R.disk u rs s := by
    intro i hi
    have hr := R.reads i hi
    have hre := read_revoked rs i
    rw [← hr] at hre
    constructor
    · intro hm
      by_cases hu : issuerID i.digest ∈ R.units.map CrlUnit.issuer
      · obtain ⟨u, hu, hui⟩ := List.mem_map.1 hu
        refine ⟨u, hu, hui, ?_⟩
        cases hf : ((CrlAgg.init R.units R.threads (fun _ => none)).run R.disk R.acts).files (issuerID i.digest) with
        | none =>
          rw [hf] at hre
          rw [← Option.some.inj hre] at hm
          cases hm
        | some t =>
          rw [← hui] at hf
          obtain ⟨ls, hls, _⟩ := (C46_file_iff_partial R.disk R.units R.nodup R.threads R.one _ R.acts R.returned R.whole R.loud u hu rfl t).1 hf
          have hg : ∀ p ∈ u.paths, ∃ l, CrlLists R.disk p l := by
            obtain ⟨ps, h1, _, h3⟩ := hls
            intro p hp
            rw [← h1] at hp
            obtain ⟨q, hq, rfl⟩ := List.mem_map.1 hp
            exact ⟨_, h3 q hq⟩
          obtain ⟨t', entries, k1, k2, k3⟩ := C46_read_back_partial R.disk R.units R.nodup R.threads R.one _ R.acts R.returned R.whole R.loud u hu hg rs s
          rw [← hui, k1] at hre
          have hre : readRevokedFile rs t' = some (revEntries rs i) := hre
          rw [k2] at hre
          obtain ⟨e, he1, he2⟩ := List.mem_map.1 hm
          refine ⟨hg, k3.1 ⟨e.2, ?_⟩⟩
          rw [Option.some.inj hre, ← he2]
          exact he1
      · rw [C46_no_other_files R.disk R.units R.threads _ R.acts _ hu] at hre
        rw [← Option.some.inj hre] at hm
        cases hm
    · rintro ⟨u, hu, hui, hg, hl⟩
      obtain ⟨t', entries, k1, k2, k3⟩ := C46_read_back_partial R.disk R.units R.nodup R.threads R.one _ R.acts R.returned R.whole R.loud u hu hg rs s
      rw [← hui, k1] at hre
      have hre : readRevokedFile rs t' = some (revEntries rs i) := hre
      rw [k2] at hre
      obtain ⟨r, hr⟩ := k3.2 hl
      rw [Option.some.inj hre] at hr
      exact List.mem_map.2 ⟨_, hr, rfl⟩
  constructor
  · rintro ⟨i, hi, rfl, h⟩
    exact ⟨⟨i, hi, rfl⟩, (key i hi).1 ((mem_revEntries rs i s).2 h)⟩
  · rintro ⟨⟨i, hi, rfl⟩, h⟩
    exact ⟨i, hi, rfl, (mem_revEntries rs i s).1 ((key i hi).2 h)⟩

/-! ### the client's answer -/

section
variable {F : Type} (build : List Bytes → List (Bytes × Bool) → Option F) (contains : F → Bytes → Bool) (enrolls : F → Bytes → Bool) (he : EnrollsInput build enrolls) (order : List Text → List Text) (rs : ReasonSet)
  (C : RunChain build contains order rs) (cov : Nat → Coverage) (sha : Bytes → Bytes) (parse : Bytes → Option IssuerCert) (verifies : Bytes → Bool) (inter : Intermediates)
  {H : Bytes → Bytes} {mt : Meta} {w : World} {env : Env} (hid : ∀ log, (mt.id log).length = 32) (hH : ∀ x, (env.H x).length = 32) (K : ∀ m, Spec.KnownRun H mt w env (C.W m) (cov m)) (L : ∀ m, Spec.CrlRun (C.W m))

/-- The SCTs of the certificate are honest: wherever run `m` covers one, the certificate is in that log with that timestamp, which is not exactly the cutoff. -/
def Spec.HonestScts (cov : Coverage) (sts : List CTLogState) (H : Bytes → Bytes) (mt : Meta) (w : World) (env : Env) (scts : List (Bytes × Nat)) (d : Bytes) (s : Serial) (na : Nat) : Prop :=
  ∀ t ∈ scts, ∀ lo hi, cov t.1 = some (lo, hi) → lo ≤ t.2 → t.2 ≤ hi → newCoverageCutoffMap sts t.1 ≠ some (UInt64.ofNat t.2) ∧ Spec.Logged H mt w env t.1 t.2 d s na

include hid hH in
omit he in
theorem covers_known (m : Nat) (scts : List (Bytes × Nat)) (d : Bytes) (s : Serial) (na : Nat) (hy : yearOf na ≤ 9999) (hen : (K m).enrolled (issuerID d) = true)
    (hlive : (K m).a.clock < ((na / 3600 * 3600 : Nat) : Int) * 1000) (hs : Spec.HonestScts (cov m) (K m).sts H mt w env scts d s na) (hc : Covers (cov m) scts) : KnownIn (C.W m) d s := by
  obtain ⟨t, ht, lo, hi, h1, h2, h3⟩ := hc
  obtain ⟨h4, h5⟩ := hs t ht lo hi h1 h2 h3
  exact C83_covered_is_known_partial hid hH (C.good m) (K m) t.1 t.2 lo hi h1 h3 h4 d s na h5 hen hlive hy

include he hid hH in
/-- **C83 (Revoked, partial).** From the logs and the CRLs to the client: for every sequence of runs of the whole system, a certificate of an enrolled issuer that run `n` covers and that is on a CRL of its issuer in run
`n` is answered Revoked from the filters of the runs up to `n`, provided the earlier runs in which it was on a CRL covered it too (see `C74_known_elsewhere_fails`). -/
theorem C83_revoked_partial (n : Nat) (c : ClientCert) (spki : Bytes) (hl : lookupSpki parse verifies inter c.issuerDN = some spki) (hv : c.valid = true) (na : Nat) (hy : yearOf na ≤ 9999)
    (hen : (K n).enrolled (issuerID (sha spki)) = true) (hlive : (K n).a.clock < ((na / 3600 * 3600 : Nat) : Int) * 1000)
    (hs : Spec.HonestScts (cov n) (K n).sts H mt w env c.scts (sha spki) c.serial na) (hc : Covers (cov n) c.scts)
    (hcrl : ∃ u ∈ (L n).units, u.issuer = issuerID (sha spki) ∧ Spec.OnCrl (L n).disk u rs c.serial)
    (hbefore : ∀ m < n, (∃ u ∈ (L m).units, u.issuer = issuerID (sha spki) ∧ Spec.OnCrl (L m).disk u rs c.serial) → Covers (cov m) c.scts) :
    clientQuery sha parse verifies (cardHas enrolls contains) (C.cards cov n) inter c = .revoked := by
  have hk := covers_known build contains order rs C cov hid hH K n c.scts (sha spki) c.serial na hy hen hlive hs hc
  have hd : ∃ i ∈ C.W n, i.digest = sha spki := by
    obtain ⟨i, hi, h, _⟩ := hk
    exact ⟨i, hi, h⟩
  refine C74_revoked_partial build contains enrolls he order rs C cov sha parse verifies inter n c spki hl hv hk (((L n).revoked_iff rs _ _).2 ⟨hd, hcrl⟩) (fun m hm _ hr => ?_)
  rcases Nat.lt_or_ge m n with h | h
  · exact hbefore m h (((L m).revoked_iff rs _ _).1 hr).2
  · rw [show m = n by omega]; exact hc

include he hid hH in
/-- **C83 (not Revoked, partial).** For every sequence of runs, a certificate of an enrolled issuer that was on no CRL in any of the runs is not answered Revoked; it is answered Good if one of the runs covers it, and
else NotCovered. -/
theorem C83_not_revoked_partial (n : Nat) (c : ClientCert) (spki : Bytes) (hl : lookupSpki parse verifies inter c.issuerDN = some spki) (hv : c.valid = true) (na : Nat) (hy : yearOf na ≤ 9999)
    (hen : ∀ m ≤ n, (K m).enrolled (issuerID (sha spki)) = true) (hlive : ∀ m ≤ n, (K m).a.clock < ((na / 3600 * 3600 : Nat) : Int) * 1000)
    (hs : ∀ m ≤ n, Spec.HonestScts (cov m) (K m).sts H mt w env c.scts (sha spki) c.serial na)
    (hcrl : ∀ m ≤ n, ∀ u ∈ (L m).units, u.issuer = issuerID (sha spki) → ¬ Spec.OnCrl (L m).disk u rs c.serial) :
    clientQuery sha parse verifies (cardHas enrolls contains) (C.cards cov n) inter c ≠ .revoked ∧
    ((∃ m ≤ n, Covers (cov m) c.scts) → clientQuery sha parse verifies (cardHas enrolls contains) (C.cards cov n) inter c = .good) ∧
    ((∀ m ≤ n, ¬ Covers (cov m) c.scts) → clientQuery sha parse verifies (cardHas enrolls contains) (C.cards cov n) inter c = .notCovered) :=
  C74_not_revoked build contains enrolls he order rs C cov sha parse verifies inter n c spki hl hv
    (fun m hm hr => by
      obtain ⟨u, hu, h1, h2⟩ := (((L m).revoked_iff rs _ _).1 hr).2
      exact hcrl m hm u hu h1 h2)
    (fun m hm hc => covers_known build contains order rs C cov hid hH K m c.scts (sha spki) c.serial na hy (hen m hm) (hlive m hm) (hs m hm) hc)

end

/-! ### an example -/

/-- Only bins with `T` have files or are being moved. -/
def Touched (T : Bin → Prop) (db : Db) : Prop :=
  (∀ b, db.files b ≠ none → T b) ∧ ∀ e st seen todo jobs, db.phase = .moving e st seen todo jobs → (∀ b ∈ todo, T b) ∧ ∀ j ∈ jobs, T j.bin

/-- All bins that a step lists have `T`. -/
def ListsOnly (T : Bin → Prop) : CAct → Prop
  | .listEnd bs => ∀ b ∈ bs, T b
  | _ => True

theorem touched_stage {T : Bin → Prop} {db : Db} {jobs : List Job} {k : Nat} {b : Bin} {st : Stage} {e : Nat} {ss : List CTLogState} {seen : List Cached} {todo : List Bin}
    (hf : ∀ b, db.files b ≠ none → T b) (ht : ∀ b ∈ todo, T b) (hj : ∀ j ∈ jobs, T j.bin) (hk : ∃ st', jobs[k]? = some { bin := b, stage := st' }) :
    Touched T { db with phase := .moving e ss seen todo (setStage jobs k b st) } := by
  refine ⟨hf, fun e' ss' seen' todo' jobs' h => ?_⟩
  cases h
  refine ⟨ht, fun j hjm => ?_⟩
  obtain ⟨st', hk⟩ := hk
  rcases List.mem_or_eq_of_mem_set hjm with h | h
  · exact hj j h
  · have := hj _ (List.mem_of_getElem? hk)
    rw [h]
    exact this

theorem touched_jobStep {T : Bin → Prop} {db : Db} {e : Nat} {ss : List CTLogState} {seen : List Cached} {todo : List Bin} {jobs : List Job} (h : Touched T db)
    (hp : db.phase = .moving e ss seen todo jobs) (a : CAct) : Touched T (db.jobStep e ss seen todo jobs a) := by
  obtain ⟨ht, hj⟩ := h.2 _ _ _ _ _ hp
  have hf := h.1
  cases a <;> simp only [Db.jobStep] <;> first | exact h | skip
  case jobStart b =>
    split
    · rename_i hb
      refine ⟨hf, fun e' ss' seen' todo' jobs' h => ?_⟩
      cases h
      refine ⟨fun b' hb' => ht b' (List.mem_of_mem_erase hb'), fun j hjm => ?_⟩
      rcases List.mem_append.1 hjm with h | h
      · exact hj j h
      · rw [List.mem_singleton.1 h]; exact ht b hb
    · exact h
  case jobListed k es =>
    split
    · rename_i b need hk
      split
      · split
        · exact touched_stage hf ht hj ⟨_, hk⟩
        · exact touched_stage hf ht hj ⟨_, hk⟩
      · exact h
    · exact h
  case jobRead k =>
    split
    · rename_i b es hk
      split <;> exact touched_stage hf ht hj ⟨_, hk⟩
    · exact h
  case jobWrite k =>
    split
    · rename_i b es l hk
      have hb : T b := hj _ (List.mem_of_getElem? hk)
      have := touched_stage (db := { db with files := fun b' => if b' = b then some (movedFile ss b es l) else db.files b' }) (e := e) (ss := ss) (seen := seen)
        (st := .wrote (coveredOf ss es)) (fun b' hb' => by
          dsimp only at hb'
          split at hb'
          · rename_i e; rw [e]; exact hb
          · exact hf b' hb') ht hj ⟨_, hk⟩
      exact this
    · exact h
  case jobRemove k xs =>
    split
    · exact ⟨hf, h.2⟩
    · exact h
  case jobFinish k =>
    split
    · rename_i b _ hk
      exact touched_stage hf ht hj ⟨_, hk⟩
    · exact h
  case jobFail k =>
    split
    · rename_i b _ hk
      exact touched_stage hf ht hj ⟨_, hk⟩
    · rename_i b _ hk
      exact touched_stage hf ht hj ⟨_, hk⟩
    · rename_i b _ _ hk
      exact touched_stage hf ht hj ⟨_, hk⟩
    · exact h
  case replaceLogs =>
    split
    · exact ⟨hf, fun _ _ _ _ _ h => by cases h⟩
    · exact h

theorem touched_commitStep {T : Bin → Prop} {db : Db} (h : Touched T db) (a : CAct) (ha : ListsOnly T a) : Touched T (db.commitStep a) := by
  unfold Db.commitStep
  split
  · split
    · split
      · exact ⟨h.1, fun _ _ _ _ _ h => by cases h⟩
      · exact h
    · exact h
  · split
    · split
      · exact ⟨h.1, fun _ _ _ _ _ h => by cases h⟩
      · exact ⟨h.1, fun _ _ _ _ _ h => by cases h⟩
    · split
      · exact ⟨h.1, fun _ _ _ _ _ h => by cases h⟩
      · exact h
    · exact h
  · split
    · exact ⟨h.1, fun _ _ _ _ _ h => by cases h⟩
    · exact h
  · split
    · split
      · refine ⟨h.1, fun _ _ _ _ _ h => ?_⟩
        cases h
        exact ⟨ha, fun j hj => by cases hj⟩
      · exact h
    · exact h
  · rename_i hp
    exact touched_jobStep h hp a
  · split
    · split
      · refine ⟨fun b' hb' => ?_, h.2⟩
        dsimp only at hb'
        split at hb'
        · exact absurd rfl hb'
        · exact h.1 b' hb'
      · exact h
    · exact ⟨h.1, fun _ _ _ _ _ h => by cases h⟩
    · exact h
  · split
    · exact ⟨h.1, fun _ _ _ _ _ h => by cases h⟩
    · exact ⟨h.1, h.2⟩
    · exact h

theorem touched_ensure {T : Bin → Prop} {db : Db} (h : Touched T db) : Touched T db.ensure := by
  unfold Db.ensure
  split
  · split
    · exact h
    · split
      · exact h
      · exact h
  · exact h

theorem touched_step {T : Bin → Prop} {db : Db} (h : Touched T db) (a : CAct) (ha : ListsOnly T a) : Touched T (db.step a) := by
  cases a <;> simp only [Db.step] <;> first | exact touched_commitStep h _ ha | exact touched_ensure h | exact ⟨h.1, fun _ _ _ _ _ h => by cases h⟩ | exact ⟨h.1, h.2⟩ | skip
  · split <;> exact h
  · split <;> exact h

theorem touched_run {T : Bin → Prop} (acts : List CAct) : ∀ db : Db, Touched T db → (∀ a ∈ acts, ListsOnly T a) → Touched T (db.run acts) := by
  induction acts with
  | nil => intro db h _; exact h
  | cons a as ih => intro db h ha; exact ih _ (touched_step h a (ha a (by simp))) (fun b hb => ha b (by simp [hb]))

theorem touched_whole {T : Bin → Prop} {H : Bytes → Bytes} {mt : Meta} {env : Env} (acts : List WAct) : ∀ v : Whole, Touched T v.db → (∀ c, .other c ∈ acts → ListsOnly T c) →
    Touched T (v.run H mt env acts).db := by
  induction acts with
  | nil => intro v h _; exact h
  | cons a as ih =>
    intro v h ha
    refine ih _ ?_ (fun c hc => ha c (by simp [hc]))
    cases a with
    | fetch a =>
      refine touched_run _ _ h (fun c hc => ?_)
      unfold dbActs at hc
      rcases List.mem_cons.1 hc with rfl | hc
      · trivial
      · split at hc
        · rw [List.mem_singleton.1 hc]; trivial
        · cases hc
    | other c =>
      simp only [Whole.step]
      split
      · exact touched_step h c (ha c (by simp))
      · exact h
    | restart => exact touched_step h .ensure trivial

/-- Every file in storage is of a bin that some commit listed. -/
theorem files_listed {H : Bytes → Bytes} {mt : Meta} {env : Env} (acts : List WAct) (b : Bin) (h : (Whole.init.run H mt env acts).db.files b ≠ none) :
    ∃ bs, .other (.listEnd bs) ∈ acts ∧ b ∈ bs := by
  refine (touched_whole (T := fun b => ∃ bs, WAct.other (.listEnd bs) ∈ acts ∧ b ∈ bs) acts Whole.init ⟨fun b h => absurd rfl h, fun _ _ _ _ _ h => by cases h⟩ (fun c hc => ?_)).1 b h
  cases c <;> first | trivial | skip
  rename_i bs
  exact fun b hb => ⟨bs, hc, hb⟩

/-- The digest of the issuer's key. -/
def fDigest : Bytes := wHash [9]

/-- The storage directory after `wActs`. -/
def fDirs : List DirEntry := [⟨"issuer::".toList ++ issuerID fDigest, true, [serialCacheKeyID (newExpDateFromTime 1700002800).id (issuerID fDigest)]⟩]

/-- Its contents. -/
def fFile (i d : Text) : Option Text :=
  if i = issuerID fDigest ∧ d = (newExpDateFromTime 1700002800).id then some (writeSerialList 1700002800 [[1, 2]]) else none

theorem fFiles (b : Bin) : (Whole.init.run wHash wMeta wEnv wActs).db.files b = if b = wBin then some (writeSerialList 1700002800 [[1, 2]]) else none := by
  split
  · rename_i h
    rw [h]
    decide +kernel
  · rename_i h
    cases hf : (Whole.init.run wHash wMeta wEnv wActs).db.files b with
    | none => rfl
    | some t =>
      obtain ⟨bs, h1, h2⟩ := files_listed (H := wHash) (mt := wMeta) (env := wEnv) wActs b (by rw [hf]; simp)
      simp [wActs] at h1
      subst h1
      exact absurd (List.mem_singleton.1 h2) h

theorem fView : Spec.StorageView (Whole.init.run wHash wMeta wEnv wActs).db fDirs fFile := by
  have hb : wBin = { unix := 1700002800, issuer := issuerID fDigest } := by decide +kernel
  constructor
  · intro b h
    rw [fFiles] at h
    split at h
    · rename_i e
      rw [e, hb]
      exact ⟨_, List.mem_singleton.2 rfl, rfl, rfl, List.mem_singleton.2 rfl⟩
    · exact absurd rfl h
  · intro b h1 h2 h3
    rw [fFiles, hb]
    unfold fFile
    have key : (b.issuer = issuerID fDigest ∧ (newExpDateFromTime b.unix).id = (newExpDateFromTime 1700002800).id) ↔ b = { unix := 1700002800, issuer := issuerID fDigest } := by
      constructor
      · rintro ⟨e1, e2⟩
        have := (C10_same_bin_iff b.unix 1700002800 h2 h3 (by decide +kernel) (by decide +kernel)).1 e2
        obtain ⟨u, i⟩ := b
        dsimp only at *
        subst e1
        rw [Bin.mk.injEq]
        exact ⟨by omega, rfl⟩
      · intro e
        rw [e]
        exact ⟨rfl, rfl⟩
    by_cases h : b = { unix := 1700002800, issuer := issuerID fDigest }
    · rw [if_pos h, if_pos (key.2 h)]
    · rw [if_neg h, if_neg (fun e => h (key.1 e))]

def fActs : List KAct := [.take 0 true, .date 0 false .fine, .date 0 false .fine, .take 0 true]

def fQueue : List IssuerDates := [(issuerID fDigest, [⟨1700002800, 1700006399999, true⟩])]

/-- The run of aggregate-known, in July 2023. -/
def fAgg : Agg := (Agg.init fQueue 1 (fun _ => none) 1690000000000).run fFile fActs

theorem fAgg_result : aggregateKnown (fun _ => true) fDirs fFile (some [wState]) 1 (fun _ => none) 1690000000000 fActs = some ([wState], fAgg) := by
  have h1 : listStorageBins fDirs = some fQueue := by decide +kernel
  have h2 : buildQueue (fun _ => true) fQueue = some fQueue := by decide +kernel
  have h3 : fAgg.success = true := by decide +kernel
  unfold aggregateKnown
  rw [h1]
  dsimp only
  rw [h2]
  dsimp only
  exact if_pos h3

/-- The certificate is revoked from the second run on. -/
def fW : Nat → RunInput
  | 0 => [⟨fDigest, [(1700002800, [[1, 2]])], some []⟩]
  | _ => [⟨fDigest, [(1700002800, [[1, 2]])], some [([1, 2], 1)]⟩]

theorem fW_good (n : Nat) : GoodInput (fW n) [] := by
  cases n with
  | zero =>
    refine ⟨by decide, ?_, by simp⟩
    intro i hi
    simp only [fW, List.mem_cons, List.not_mem_nil, or_false] at hi
    subst hi
    exact ⟨by decide, by decide⟩
  | succ n =>
    show GoodInput (fW 1) []
    refine ⟨by decide, ?_, by simp⟩
    intro i hi
    simp only [fW, List.mem_cons, List.not_mem_nil, or_false] at hi
    subst hi
    exact ⟨by decide, by decide⟩

theorem fW_issuer (n : Nat) : ∃ r, fW n = [⟨fDigest, [(1700002800, [[1, 2]])], r⟩] := by
  cases n with
  | zero => exact ⟨_, rfl⟩
  | succ n => exact ⟨_, rfl⟩

def fOut : Nat → RunOut (List Bytes)
  | 0 => ⟨[], [], [(issuerID fDigest, [])], [], []⟩
  | 1 => ⟨[fDigest ++ [1, 2]], [fDigest ++ [1, 2]], [(issuerID fDigest, "010102\n".toList)], [fDigest ++ [1, 2]], [1, 0, 0, 0, 32] ++ fDigest ++ [2, 1, 2]⟩
  | _ => ⟨[fDigest ++ [1, 2]], [], [(issuerID fDigest, [])], [fDigest ++ [1, 2]], []⟩

def fChain : RunChain exBuild exContains (fun l => l) .all where
  W := fW
  X := fun _ => []
  out := fOut
  first := none
  good := fW_good
  run0 := by decide +kernel
  run := fun n =>
    match n with
    | 0 => by decide +kernel
    | 1 => by decide +kernel
    | n + 2 => (by decide +kernel : createRun exBuild exContains (fun l => l) .all .all (some (fOut 2).revset) (revokedDir (fW 3) []) (knownDir (fW 3)) = some (fOut 3))

/-- The log is covered up to the cutoff. -/
def fCov (_ : Nat) : Coverage := fun l => if l = List.replicate 32 0 then some (0, 19000) else none

def fKnownRun (n : Nat) : Spec.KnownRun wHash wMeta wWorld wEnv (fW n) (fCov n) where
  acts := wActs
  allowed := wActs_allowed
  enrolled := fun _ => true
  dirs := fDirs
  file := fFile
  view := fView
  threads := 1
  one := Nat.le_refl _
  files := fun _ => none
  t0 := 1690000000000
  later := by decide
  after := by decide +kernel
  kacts := fActs
  sts := [wState]
  a := fAgg
  result := by rw [wActs_result.1]; exact fAgg_result
  loud := by decide +kernel
  reads := by
    obtain ⟨r, h⟩ := fW_issuer n
    rw [h]
    refine ⟨fun i hi => ?_, fun name content hn => ?_⟩
    · rw [List.mem_singleton.1 hi]
      show fAgg.files (issuerID fDigest) = some ([(1700002800, [[1, 2]])].map (fun b : Nat × List Serial => writeSerialList (b.1 : Int) b.2)).flatten
      decide +kernel
    · refine ⟨_, List.mem_singleton.2 rfl, Classical.byContradiction fun hne => ?_⟩
      have := C44_no_other_files fFile fQueue 1 (fun _ => none) 1690000000000 fActs name (fun hm => hne (List.mem_singleton.1 hm).symm)
      rw [show ((Agg.init fQueue 1 (fun _ => none) 1690000000000).run fFile fActs).files name = some content from hn] at this
      cases this
  coverage := by
    intro id lo hi h
    unfold fCov at h
    split at h
    · rename_i hid
      cases h
      rw [hid]
      exact ⟨_, wActs_result.2.1, Nat.le_refl _⟩
    · cases h
  back := by
    intro st hs _
    rw [List.mem_singleton.1 hs]
    decide

def fUnit : CrlUnit := ⟨issuerID fDigest, false, [⟨['u'], some ['p']⟩]⟩

def fDisk : Nat → Text → Option CrlFile
  | 0 => fun p => if p = ['p'] then some ⟨true, some [], some [some ['u']], 0⟩ else none
  | _ => fun p => if p = ['p'] then some ⟨true, some [([1, 2], [⟨true, some 1⟩])], some [some ['u']], 0⟩ else none

def fCrlRun : ∀ n, Spec.CrlRun (fW n)
  | 0 =>
    { disk := fDisk 0, units := [fUnit], nodup := by decide, threads := 1, one := Nat.le_refl _, acts := [.take 0, .next 0 xSt, .next 0 xSt, .take 0],
      returned := by decide +kernel, whole := by decide +kernel, loud := by decide +kernel, reads := by decide +kernel }
  | _ + 1 =>
    { disk := fDisk 1, units := [fUnit], nodup := by decide, threads := 1, one := Nat.le_refl _, acts := [.take 0, .next 0 xSt, .next 0 xSt, .take 0],
      returned := by decide +kernel, whole := by decide +kernel, loud := by decide +kernel,
      reads := (by decide +kernel : ∀ i ∈ fW 1, ((CrlAgg.init [fUnit] 1 (fun _ => none)).run (fDisk 1) [.take 0, .next 0 xSt, .next 0 xSt, .take 0]).files (issuerID i.digest) = i.revokedText) }

theorem wMeta_id (log : Text) : (wMeta.id log).length = 32 := by
  unfold wMeta
  dsimp only
  split <;> rfl

theorem fLogged : Spec.Logged wHash wMeta wWorld wEnv (List.replicate 32 0) 3000 fDigest [1, 2] 1700002800 := by
  refine ⟨['a'], 4, wTimes, wTimes, _, 2, rfl, ?_, by decide, w_mergeDelay, w_honest _, by decide, by decide, (fun h => by cases h), ?_⟩
  · intro a h
    unfold wMeta at h
    dsimp only at h
    split at h
    · assumption
    · exact absurd h (by decide)
  · intro input _
    refine ⟨?_, fun _ h => h.elim⟩
    intro l e hl _ he
    have hl : l.time = 1 := hl
    cases he
    exact ⟨wCert, wCert, rfl, rfl, rfl, by rw [hl]; decide, Or.inl ⟨[], rfl, rfl⟩, rfl⟩

theorem fHonest (n : Nat) : Spec.HonestScts (fCov n) [wState] wHash wMeta wWorld wEnv [(List.replicate 32 0, 3000)] fDigest [1, 2] 1700002800 := by
  intro t ht lo hi _ _ _
  rw [List.mem_singleton.1 ht]
  refine ⟨?_, fLogged⟩
  rw [wActs_result.2.1]
  decide

/-- The certificate as the client sees it. -/
def fCert : ClientCert := ⟨[9], [1, 2], [(List.replicate 32 0, 3000)], true⟩

theorem fCovers (n : Nat) : Covers (fCov n) fCert.scts := ⟨_, List.mem_singleton.2 rfl, 0, 19000, if_pos rfl, by decide, by decide⟩

/-- Entry 2 of the log is covered and known. -/
example (n : Nat) : KnownIn (fW n) fDigest [1, 2] :=
  C83_covered_is_known_partial wMeta_id (fun _ => rfl) (fW_good n) (fKnownRun n) (List.replicate 32 0) 3000 0 19000 (if_pos rfl) (by decide)
    (by show newCoverageCutoffMap [wState] _ ≠ _; rw [wActs_result.2.1]; decide) fDigest [1, 2] 1700002800 fLogged rfl (by show fAgg.clock < _; decide +kernel) (by decide +kernel)

/-- Revoked from the second run on. -/
example (n : Nat) : clientQuery (fun _ => fDigest) (fun d => some ⟨[9], d⟩) (fun _ => true) (cardHas exEnrolls exContains) (fChain.cards fCov (n + 1)) exInter fCert = .revoked :=
  C83_revoked_partial exBuild exContains exEnrolls exEnrolls_input (fun l => l) .all fChain fCov (fun _ => fDigest) (fun d => some ⟨[9], d⟩) (fun _ => true) exInter
    wMeta_id (fun _ => rfl) fKnownRun fCrlRun (n + 1) fCert [5] (by decide) rfl 1700002800 (by decide +kernel) rfl (by show fAgg.clock < _; decide +kernel) (fHonest _) (fCovers _)
    ⟨fUnit, List.mem_singleton.2 rfl, rfl,
      fun p hp => ⟨[([1, 2], 1)], by rw [List.mem_singleton.1 hp]; exact ⟨_, _, _, rfl, rfl, rfl, rfl, rfl⟩⟩,
      _, List.mem_singleton.2 rfl, [([1, 2], 1)], 1, ⟨_, _, _, rfl, rfl, rfl, rfl, rfl⟩, by decide, trivial⟩
    (fun _ _ _ => fCovers _)

/-- Good in the first run. -/
example : clientQuery (fun _ => fDigest) (fun d => some ⟨[9], d⟩) (fun _ => true) (cardHas exEnrolls exContains) (fChain.cards fCov 0) exInter fCert = .good :=
  (C83_not_revoked_partial exBuild exContains exEnrolls exEnrolls_input (fun l => l) .all fChain fCov (fun _ => fDigest) (fun d => some ⟨[9], d⟩) (fun _ => true) exInter
    wMeta_id (fun _ => rfl) fKnownRun fCrlRun 0 fCert [5] (by decide) rfl 1700002800 (by decide +kernel) (fun _ _ => rfl) (fun _ _ => by show fAgg.clock < _; decide +kernel) (fun _ _ => fHonest _)
    (fun m hm u hu _ h => by
      cases Nat.le_zero.1 hm
      obtain ⟨_, p, hp, l, c, ⟨q, f, es, h1, h2, h3, h4, h5⟩, h6, _⟩ := h
      rw [List.mem_singleton.1 hu] at hp
      rw [List.mem_singleton.1 hp] at h1
      cases h1
      cases h2
      cases h4
      cases l with
      | nil => cases h6
      | cons x y => cases h5)).2.1 ⟨0, Nat.le_refl _, fCovers _⟩

end Verif.Props
