import Verif.Props.Answers
import Verif.Props.Script
/-!
C122: everything together. From the logs, the CCADB reports and the CRLs that the executions of crlite-generate.sh meet, through the bucket, the publisher and Remote Settings, to the exit status of the query program.
-/
namespace Verif.Spec
open Verif.Props

/-- A usable certificate of the report of this execution, the first with its fingerprint, that chains to a root of the report, has this name and key. -/
def HeldBy {F G : Type} (W : QueryWorld G) (L : ScriptLib F) (e : Script) (dn spki : Bytes) : Prop :=
  ∃ r c, FirstRow e.rows r c ∧ Spec.Chained e.sp e.urlParse e.chains e.rows c ∧ ∃ der i, W.pem (L.pem c) = some der ∧ W.parseIssuer der = some i ∧ i.subject = dn ∧ i.spki = spki

/-- The program reads the lists of issuers from the bucket, as they were written (`C103_issuers`). -/
structure ReadsLists {F G : Type} (W : QueryWorld G) (L : ScriptLib F) (E : Nat → Script) (b : List StoredObj) : Prop where
  reads : ∃ readList : Bytes → Option (List Text), (∀ y, W.enrolled (issuersAt y) = (objGet b [y, "enrolled.json".toList]).bind readList) ∧
    ∀ n recs sts a, (E n).inputs L = some (recs, sts, a) → readList (L.writeList recs) = some (recs.map EnrolledIssuer.pem)

end Verif.Spec

namespace Verif.Props
open Verif.Spec

/-! ### which certificates are saved -/

/-- The certificate is in the map. -/
def CertIn (m : MozIssuers) (c : IssCert) : Prop := ∃ i v, assocGet m.issuers i = some v ∧ c ∈ v.certs

theorem certIn_insert (m : MozIssuers) (c0 : IssCert) (urls : List Text) (p : Bool) (c : IssCert) : CertIn (m.insert c0 urls p) c ↔ CertIn m c ∨ c = c0 := by
  unfold CertIn MozIssuers.insert
  dsimp only
  cases hg : assocGet m.issuers c0.issuer with
  | none =>
    dsimp only
    constructor
    · rintro ⟨i, v, hv, hc⟩
      by_cases hi : i = c0.issuer
      · subst hi
        rw [assocGet_put_self, Option.some.injEq] at hv
        subst hv
        exact Or.inr (List.mem_singleton.1 hc)
      · rw [assocGet_put_ne _ _ _ _ hi] at hv
        exact Or.inl ⟨i, v, hv, hc⟩
    · rintro (⟨i, v, hv, hc⟩ | rfl)
      · have hi : i ≠ c0.issuer := by
          rintro rfl
          rw [hg] at hv
          cases hv
        exact ⟨i, v, by rw [assocGet_put_ne _ _ _ _ hi]; exact hv, hc⟩
      · exact ⟨c.issuer, _, assocGet_put_self _ _ _, List.mem_singleton.2 rfl⟩
  | some w =>
    dsimp only
    constructor
    · rintro ⟨i, v, hv, hc⟩
      by_cases hi : i = c0.issuer
      · subst hi
        rw [assocGet_put_self, Option.some.injEq] at hv
        subst hv
        rcases List.mem_append.1 hc with hc | hc
        · exact Or.inl ⟨_, w, hg, hc⟩
        · exact Or.inr (List.mem_singleton.1 hc)
      · rw [assocGet_put_ne _ _ _ _ hi] at hv
        exact Or.inl ⟨i, v, hv, hc⟩
    · rintro (⟨i, v, hv, hc⟩ | rfl)
      · by_cases hi : i = c0.issuer
        · subst hi
          rw [hg, Option.some.injEq] at hv
          subst hv
          exact ⟨_, _, assocGet_put_self _ _ _, List.mem_append_left _ hc⟩
        · exact ⟨i, v, by rw [assocGet_put_ne _ _ _ _ hi]; exact hv, hc⟩
      · exact ⟨c.issuer, _, assocGet_put_self _ _ _, List.mem_append_right _ (List.mem_singleton.2 rfl)⟩

theorem certIn_insertAll (l : List (IssCert × List Text × Bool)) : ∀ (m : MozIssuers) (c : IssCert), CertIn (m.insertAll l) c ↔ CertIn m c ∨ ∃ e ∈ l, e.1 = c := by
  induction l with
  | nil =>
    intro m c
    exact ⟨Or.inl, fun h => h.elim id (fun ⟨_, h, _⟩ => by cases h)⟩
  | cons x rest ih =>
    intro m c
    have e : m.insertAll (x :: rest) = (m.insert x.1 x.2.1 x.2.2).insertAll rest := rfl
    rw [e, ih, certIn_insert]
    constructor
    · rintro ((h | rfl) | ⟨y, hy, rfl⟩)
      · exact Or.inl h
      · exact Or.inr ⟨x, List.mem_cons_self, rfl⟩
      · exact Or.inr ⟨y, List.mem_cons_of_mem _ hy, rfl⟩
    · rintro (h | ⟨y, hy, rfl⟩)
      · exact Or.inl (Or.inl h)
      · rcases List.mem_cons.1 hy with rfl | hy
        · exact Or.inl (Or.inr rfl)
        · exact Or.inr ⟨y, hy, rfl⟩

theorem mem_savedRecords (pem : IssCert → Text) (m : MozIssuers) (hn : (m.issuers.map Prod.fst).Nodup) (t : Text) : t ∈ (savedRecords pem m).map EnrolledIssuer.pem ↔ ∃ c, CertIn m c ∧ pem c = t := by
  unfold savedRecords CertIn
  constructor
  · intro h
    obtain ⟨x, hx, rfl⟩ := List.mem_map.1 h
    obtain ⟨l, hl, hx⟩ := List.mem_flatten.1 hx
    obtain ⟨e, he, rfl⟩ := List.mem_map.1 hl
    obtain ⟨c, hc, rfl⟩ := List.mem_map.1 hx
    exact ⟨c, ⟨e.1, e.2, assocGet_of_mem hn he, hc⟩, rfl⟩
  · rintro ⟨c, ⟨i, v, hv, hc⟩, rfl⟩
    refine List.mem_map.2 ⟨_, List.mem_flatten.2 ⟨_, List.mem_map.2 ⟨(i, v), assocGet_mem hv, rfl⟩, List.mem_map.2 ⟨c, hc, rfl⟩⟩, rfl⟩

/-- **C122, the list of issuers.** The list that aggregate-crls writes has the first usable certificates of the report that chain to a root, one record each, and no others. -/
theorem C122_saved (pem : IssCert → Text) (e : Script) (ho : ∀ l x, x ∈ e.certOrder l ↔ x ∈ l) (t : Text) :
    t ∈ (savedRecords pem e.moz).map EnrolledIssuer.pem ↔ ∃ r c, FirstRow e.rows r c ∧ Spec.Chained e.sp e.urlParse e.chains e.rows c ∧ pem c = t := by
  obtain ⟨inserted, h1, h2⟩ := moz_inserted e
  have hg : GoodIssuers e.moz.issuers := by
    rw [h1]
    exact goodIssuers_insertAll inserted _ ⟨by simp [MozIssuers.empty], by simp [MozIssuers.empty]⟩
  rw [mem_savedRecords _ _ hg.1, h1]
  constructor
  · rintro ⟨c, hc, rfl⟩
    rcases (certIn_insertAll _ _ _).1 hc with ⟨i, v, hv, _⟩ | ⟨x, hx, rfl⟩
    · cases hv
    · obtain ⟨h5, h6⟩ := (h2 x).1 hx
      rcases (mem_intermediates _ _ _ _ _).1 ((ho _ _).1 h5) with h5 | ⟨r, h7, _⟩
      · cases h5
      · exact ⟨r, x.1, h7, h6, rfl⟩
  · rintro ⟨r, c, h5, h6, rfl⟩
    exact ⟨c, (certIn_insertAll _ _ _).2 (Or.inr ⟨(c, decodeCrls e.sp e.urlParse r.full r.json), (h2 _).2 ⟨(ho _ _).2 ((mem_intermediates _ _ _ _ _).2 (Or.inr ⟨r, h5, rfl, fun x hx => by cases hx⟩)), h6⟩, rfl⟩), rfl⟩

/-! ### the issuers and the exit status -/

section
variable {F : Type} (L : ScriptLib F) (W : QueryWorld (Card F)) (hL : GoodLib L W.fromBytes) (enrolls : F → Bytes → Bool) (he : EnrollsInput L.lib.clubcard enrolls) (hW : W.has = cardHas enrolls L.lib.contains) (inst : Instance)
  {H : Bytes → Bytes} {mt : Meta} {w : World} {env : Env} (hid : ∀ log, (mt.id log).length = 32) (hH : ∀ x, (env.H x).length = 32)
  (E : Nat → Script) (ht : ∀ n, TidyFolder (E n)) (s : Ops) (h : ScriptReach L E s)
  (hw : ∀ y n, Finished s.bucket y → Executed s y n → ReadableScript L (E n) ∧ ∃ acts, ScriptWorld H mt w env L (E n) acts)
  (hlists : ReadsLists W L E s.bucket) (fs : Files) (db : LoadedDb (Card F))

include ht h hw hlists in
/-- The issuers that are served for a complete run are those of its report. -/
theorem enrolled_held {y : Text} (hy : Finished s.bucket y) : ∃ n enr, Executed s y n ∧ W.enrolled (issuersAt y) = some enr ∧ ∀ dn k, EnrolledAs W enr dn k ↔ HeldBy W L (E n) dn k := by
  obtain ⟨n, recs, sts, a, _, _, hn, _, hi, _, ho, _⟩ := C99_complete_run L E ht s h y hy
  obtain ⟨readList, h1, h2⟩ := hlists.reads
  refine ⟨n, recs.map EnrolledIssuer.pem, hn, ?_, ?_⟩
  · rw [h1, ho, Option.bind_some]
    exact h2 n recs sts a hi
  · intro dn k
    obtain ⟨_, _, rfl, _⟩ := inputs_some hi
    have key := C122_saved L.pem (E n) (hw y n hy hn).1.ordered
    constructor
    · rintro ⟨t, ht', der, i, h3, h4, h5, h6⟩
      obtain ⟨r, c, h7, h8, rfl⟩ := (key t).1 ht'
      exact ⟨r, c, h7, h8, der, i, h3, h4, h5, h6⟩
    · rintro ⟨r, c, h7, h8, der, i, h3, h4, h5, h6⟩
      exact ⟨_, (key _).2 ⟨r, c, h7, h8, rfl⟩, der, i, h3, h4, h5, h6⟩

include ht h hw hlists in
/-- **C122, the issuers (partial).** The query program, run with `--update`, has the issuers of the report of the newest published run: it finds a key for a certificate exactly among those of this report. Missing: `C64_remove_fails`, `C65_stray_fails`, and
what `ReadableScript` and `ScriptWorld` name. -/
theorem C122_issuers_partial {chan : ClientChannel} (hm : Mirrors W inst chan s fs) (hr : Ready W (some inst) chan fs db) (l : List KRec) (hl : l.Perm (recordsOf (channelName chan) s.recs)) (hc : IsChain l) (runs : List Text) (z : Text)
    (hruns : CarryAll (channelName chan) runs l) (hz : runs.getLast? = some z) (der dn : Bytes) : ∃ n, Executed s z n ∧ (∀ k, lookupSpki W.parseIssuer (W.verifies der) db.inters dn = some k → HeldBy W L (E n) dn k ∧ W.verifies der k = true) ∧
    ((∃ k, HeldBy W L (E n) dn k ∧ W.verifies der k = true) → ∃ k, lookupSpki W.parseIssuer (W.verifies der) db.inters dn = some k) := by
  have ho := scriptReach_ops ht h
  obtain ⟨enr, henr, hlook⟩ := C121_issuers_partial ho hm hr l hl hc runs z hruns hz
  obtain ⟨n, enr', hn, henr', hiff⟩ := enrolled_held L W E ht s h hw hlists (chain_finished ho (channelName_plain chan) hl hc hruns z (List.mem_of_getLast? hz))
  rw [henr, Option.some.injEq] at henr'
  subst henr'
  rw [hlook]
  obtain ⟨h1, h2⟩ := C63_enrolled W.pem W.parseIssuer (W.verifies der) enr dn
  refine ⟨n, hn, fun k hk => ?_, fun ⟨k, hk, hv⟩ => ?_⟩
  · obtain ⟨r, hr, d, c, e1, e2, e3, e4, e5⟩ := h1 k hk
    exact ⟨(hiff dn k).1 ⟨r, hr, d, c, e1, e2, e3, e4⟩, e5⟩
  · obtain ⟨r, hr, d, c, e1, e2, e3, rfl⟩ := (hiff dn k).2 hk
    exact h2 ⟨r, hr, d, c, e1, e2, e3, hv⟩

variable (hm : Mirrors W inst .default s fs) (hr : Ready W (some inst) .default fs db) (l : List KRec) (hl : l.Perm (recordsOf (channelName .default) s.recs)) (hc : IsChain l) (runs : List Text) (z : Text)
  (hruns : CarryAll (channelName .default) runs l) (hz : runs.getLast? = some z)

include hL he hW hid hH ht h hw hlists hm hr hl hc hruns hz

/-- **C122, Revoked (partial).** Any sequence of executions of the script and runs of the publisher, stopped anywhere, whose channel is a chain; Remote Settings and the bucket serve what they left. A certificate in the scope of the last run of
the chain, that this run covers and that a CRL disclosed for its issuer in that run lists as revoked, all those CRLs being usable; its issuer, the only one of its name that verifies it, is in the report of that run. Then the query program with
`--update` exits with 1 for files that hold it and hosts that present it, if the earlier runs of the chain that found it listed covered it too. Full statement: without the last condition (`C74_known_elsewhere_fails`), `removable` and `strays`
(`C64_remove_fails`, `C65_stray_fails`), and those of `ReadableScript` and `ScriptWorld` that name a counterexample. -/
theorem C122_revoked_partial (der spki : Bytes) (c : ClientCert) (hp : W.parse der = some c) (hv : c.valid = true) (hver : W.verifies der spki = true) (na : Nat) (hy : yearOf na ≤ 9999)
    (hiss : ∀ n, Executed s z n → HeldBy W L (E n) c.issuerDN spki ∧ ∀ k, HeldBy W L (E n) c.issuerDN k → W.verifies der k = true → k = spki)
    (hlast : ∀ n, Executed s z n → ScopeOf H mt w env L (E n) c.scts (W.sha spki) c.serial na ∧ Covers ((E n).cover L) c.scts ∧ RevokedBy (E n) .all (issuerID (W.sha spki)) c.serial)
    (hbefore : ∀ y ∈ runs, ∀ n, Executed s y n → RevokedBy (E n) .all (issuerID (W.sha spki)) c.serial → Covers ((E n).cover L) c.scts) :
    (∀ files f input, f ∈ files → W.file f = some (some input) → FileHolds input der → (W.main (some inst) .default (.x509 files) fs).1 = 1) ∧
    ∀ hosts i h, hosts[i]? = some h → Served W i h der → (W.main (some inst) .default (.https hosts) fs).1 = 1 := by
  have hs := channelName_plain .default
  have ho := scriptReach_ops ht h
  obtain ⟨n, hn, h1, h2⟩ := C122_issuers_partial L W inst E ht s h hw hlists fs db hm hr l hl hc runs z hruns hz der c.issuerDN
  obtain ⟨hi1, hi2⟩ := hiss n hn
  obtain ⟨k, hk⟩ := h2 ⟨spki, hi1, hver⟩
  obtain ⟨h3, h4⟩ := h1 k hk
  rw [hi2 k h3 h4] at hk
  have hcards := clientCards_perm (C121_filters_partial ho hm hr) hl
  refine reported hr (revokedCert_of hp ?_)
  rw [hW]
  refine C99_revoked_partial L W.fromBytes hL enrolls he W.sha W.parseIssuer (W.verifies der) db.inters hid hH E ht s h hw (channelName .default) hs l hl hc db.filters hcards c spki hk hv na hy ?_ ?_
  · intro runs' z' hruns' hz'
    rw [carryAll_unique hs l _ _ hruns' hruns, hz, Option.some.injEq] at hz'
    subst hz'
    exact hlast
  · intro runs' hruns'
    rw [carryAll_unique hs l _ _ hruns' hruns]
    exact hbefore

/-- **C122, not Revoked (partial).** Certificates in the scope of all runs of the chain, which no CRL disclosed for their issuer listed as revoked in any of them, whichever of the issuers in the report of the last run verifies them: the program exits
with 0 if each of the files holds one, and if each of the hosts presents one. -/
theorem C122_not_revoked_partial (clear : Bytes → Prop)
    (hno : ∀ der, clear der → ∀ c, W.parse der = some c → ∃ na : Nat, yearOf na ≤ 9999 ∧ ∀ m spki, Executed s z m → HeldBy W L (E m) c.issuerDN spki → W.verifies der spki = true →
      ∀ y ∈ runs, ∀ n, Executed s y n → ScopeOf H mt w env L (E n) c.scts (W.sha spki) c.serial na ∧
        ∀ v t k, DisclosedIn (E n) (issuerID (W.sha spki)) v → FetchedIn (E n) (issuerID (W.sha spki)) v t → (c.serial, k) ∈ t → ¬ codesOf .all k.toNat) :
    (∀ files, (∀ f ∈ files, ∃ input der, W.file f = some (some input) ∧ FileHolds input der ∧ clear der) → (W.main (some inst) .default (.x509 files) fs).1 = 0) ∧
    ∀ hosts, (∀ i h, hosts[i]? = some h → ∃ der, Served W i h der ∧ clear der) → (W.main (some inst) .default (.https hosts) fs).1 = 0 := by
  have hs := channelName_plain .default
  have ho := scriptReach_ops ht h
  have hcards := clientCards_perm (C121_filters_partial ho hm hr) hl
  refine passed hr (fun der hd => ?_)
  rintro ⟨c, hp, hsay⟩
  have hsay' := hsay
  obtain ⟨spki, hlk, _⟩ := hsay
  obtain ⟨m, hm', h1, _⟩ := C122_issuers_partial L W inst E ht s h hw hlists fs db hm hr l hl hc runs z hruns hz der c.issuerDN
  obtain ⟨h3, h4⟩ := h1 spki hlk
  obtain ⟨na, hy, hno'⟩ := hno der hd c hp
  have key := hno' m spki hm' h3 h4
  refine C99_not_revoked_partial L W.fromBytes hL enrolls he W.sha W.parseIssuer (W.verifies der) db.inters hid hH E ht s h hw (channelName .default) hs l hl hc db.filters hcards c spki hlk na hy ?_ ?_ ?_
  · intro runs' hruns' y hy n hn
    rw [carryAll_unique hs l _ _ hruns' hruns] at hy
    exact (key y hy n hn).1
  · intro runs' hruns' y hy n hn
    rw [carryAll_unique hs l _ _ hruns' hruns] at hy
    exact (key y hy n hn).2
  · rw [C63_revoked_iff, ← hW]
    exact hsay'

end

/-! ### examples -/

/-- The report's certificates are the list of issuers. -/
example : sPem ⟨issuerID fDigest, ['1'], 1⟩ ∈ (savedRecords sPem (sScript true).moz).map EnrolledIssuer.pem := (C122_saved sPem (sScript true) (fun _ _ => Iff.rfl) _).2 ⟨_, _, sFirst, rfl, rfl⟩

/-- The root's is not. -/
example : sPem ⟨issuerID (List.replicate 32 5), ['0'], 0⟩ ∉ (savedRecords sPem (sScript true).moz).map EnrolledIssuer.pem := by decide +kernel

/-- Digests: contents are their own, but the second filter has one of two octets, and the key of the issuer the one in the logs. -/
def sSha (b : Bytes) : Bytes := if b = [5] then fDigest else if b = sFilter1 then [0, 2] else if b = [0, 2] then sFilter1 else b

theorem sSha_eq {c bytes : Bytes} (hc : c = [99] ∨ c = [] ∨ c = [1] ∨ c = sFilter1) (h : sSha c = sSha bytes) : c = bytes := by
  have h5 : ∀ x, x ∈ [[99], [], [1], [0, 2]] → x ≠ fDigest ∧ x ≠ sFilter1 := by decide +kernel
  have h1 : sSha c ∈ ([[99], [], [1], [0, 2]] : List Bytes) ∧ (sSha c = [0, 2] → c = sFilter1) ∧ (sSha c ≠ [0, 2] → sSha c = c) := by
    rcases hc with rfl | rfl | rfl | rfl <;> decide +kernel
  obtain ⟨h1, h2, h3⟩ := h1
  rw [h] at h1 h2 h3
  have h6 := h5 _ h1
  unfold sSha at h1 h2 h3 h6
  by_cases e1 : bytes = [5]
  · rw [if_pos e1] at h6
    exact absurd rfl h6.1
  · rw [if_neg e1] at h1 h2 h3 h6
    by_cases e2 : bytes = sFilter1
    · rw [if_pos e2] at h2
      rw [h2 rfl, e2]
    · rw [if_neg e2] at h1 h2 h3 h6
      by_cases e3 : bytes = [0, 2]
      · rw [if_pos e3] at h6
        exact absurd rfl h6.2
      · rw [if_neg e3] at h3
        exact (h3 e3).symm

/-- The run in the address of a list of issuers. -/
def sRunIn (u : Text) : Text := ((u.drop "https://storage.googleapis.com/crlite-filters-prod/".toList.length).reverse.drop "/enrolled.json".toList.length).reverse

theorem sRunIn_issuersAt (y : Text) : sRunIn (issuersAt y) = y := by
  unfold sRunIn issuersAt
  rw [List.append_assoc, List.drop_left, List.reverse_append]
  have e : "/enrolled.json".toList.length = ("/enrolled.json".toList.reverse).length := (List.length_reverse).symm
  rw [e, List.drop_left, List.reverse_reverse]

/-- The list of issuers of both executions. -/
def sList : List Text := (savedRecords sPem (sScript true).moz).map EnrolledIssuer.pem

/-- The world of a client of this bucket. -/
def sAns (raw : List RawFilterRec) (b : List StoredObj) : QueryWorld (Card (List Bytes)) :=
  { exQ with
    records := fun _ => some raw
    attachment := fun u => if u.getLast? = some 'a' then some [1] else if u.getLast? = some 'b' then some sFilter1 else none
    enrolled := fun u => (objGet b [sRunIn u, "enrolled.json".toList]).bind (fun _ => some sList)
    pem := fun _ => some [5]
    parseIssuer := fun d => some ⟨[9], d⟩
    sha := sSha
    parse := fun d => if d = [0x30, 2, 0] then some fCert else none
    fromBytes := sCard
    has := cardHas exEnrolls exContains }

theorem sAns_lists (raw : List RawFilterRec) (b : List StoredObj) : ReadsLists (sAns raw b) sLib sE b := by
  refine ⟨fun _ => some sList, fun y => ?_, fun n recs sts a hi => ?_⟩
  · show (objGet b [sRunIn (issuersAt y), "enrolled.json".toList]).bind _ = _
    rw [sRunIn_issuersAt]
  · obtain ⟨_, _, rfl, _⟩ := inputs_some hi
    rfl

theorem sAns_enrolled {raw : List RawFilterRec} {b : List StoredObj} {u : Text} {enr : List Text} (h : (sAns raw b).enrolled u = some enr) : enr = sList := by
  obtain ⟨x, _, hx⟩ := Option.bind_eq_some_iff.1 h
  exact (Option.some.inj hx).symm

theorem sAns_small (raw : List RawFilterRec) (b : List StoredObj) (u : Text) (enr : List Text) (h : (sAns raw b).enrolled u = some enr) : SmallMap (fromEnrolled (sAns raw b).pem (sAns raw b).parseIssuer enr) := by
  rw [sAns_enrolled h]
  have e : fromEnrolled (fun _ => some [5]) (fun d => some (⟨[9], d⟩ : IssuerCert)) sList = [([9], [[5]])] := by decide +kernel
  show SmallMap (fromEnrolled (fun _ => some [5]) (fun d => some (⟨[9], d⟩ : IssuerCert)) sList)
  rw [e]
  refine ⟨by decide, fun x hx => ?_⟩
  rw [List.mem_singleton.1 hx]
  refine ⟨by decide, by decide, fun y hy => ?_⟩
  rw [List.mem_singleton.1 hy]
  decide

theorem sAns_fetch {raw : List RawFilterRec} {b : List StoredObj} {inst : Instance} {u : Text} {c : Bytes} (h : ((sAns raw b).updateEnv inst).fetch u = some c) : c = [1] ∨ c = sFilter1 := by
  change (if ((instanceUrls inst).1 ++ u).getLast? = some 'a' then some [1] else if ((instanceUrls inst).1 ++ u).getLast? = some 'b' then some sFilter1 else none) = some c at h
  by_cases h1 : ((instanceUrls inst).1 ++ u).getLast? = some 'a'
  · rw [if_pos h1] at h; exact Or.inl (Option.some.inj h).symm
  · rw [if_neg h1] at h
    by_cases h2 : ((instanceUrls inst).1 ++ u).getLast? = some 'b'
    · rw [if_pos h2] at h; exact Or.inr (Option.some.inj h).symm
    · rw [if_neg h2] at h; cases h

theorem sAns_honest (raw : List RawFilterRec) (b : List StoredObj) : NoForgery ((sAns raw b).updateEnv .prod) b exSrvFs := by
  rintro c (⟨n, hn⟩ | ⟨u, hu⟩) p bytes _ hd
  · exact sSha_eq (by rcases exSrv_fs hn with h | h <;> simp [h]) hd
  · exact sSha_eq (by rcases sAns_fetch hu with h | h <;> simp [h]) hd

/-- The records after the first publication, as served. -/
def sRaw1 : List RawFilterRec := [⟨"01".toList, "20240101-0-default.filter".toList, "a".toList, false, some "default".toList⟩]

/-- And after the second. -/
def sRaw2 : List RawFilterRec := sRaw1 ++ [⟨"0002".toList, "20240102-0-default.filter.delta".toList, "b".toList, true, some "default".toList⟩]

theorem sServed1 : ServedAll sSha sOps1.bucket .default [exRec0] sRaw1 := by
  refine ⟨⟨rfl, rfl, rfl, ?_⟩, trivial⟩
  intro _ run hcar
  rw [attachment_unique (channelName_plain .default) (carries_attachment hcar) (carries_attachment exCarries0)]
  exact ⟨[1], sOps1_file0, by decide +kernel⟩

theorem sServed2 : ServedAll sSha sOps2.bucket .default [exRec0, exRec1] sRaw2 := by
  refine ⟨⟨rfl, rfl, rfl, ?_⟩, ⟨rfl, rfl, rfl, ?_⟩, trivial⟩
  · intro _ run hcar
    rw [attachment_unique (channelName_plain .default) (carries_attachment hcar) (carries_attachment exCarries0)]
    exact ⟨[1], sOps2_file0, by decide +kernel⟩
  · intro _ run hcar
    rw [attachment_unique (channelName_plain .default) (carries_attachment hcar) (carries_attachment exCarries1)]
    exact ⟨sFilter1, sOps2_file1, by decide +kernel⟩

theorem sRecs : sOps1.recs = [exRec0] ∧ sOps2.recs = [exRec0, exRec1] := by decide +kernel

theorem sMirrors1 : Mirrors (sAns sRaw1 sOps1.bucket) .prod .default sOps1 exSrvFs where
  served := ⟨[exRec0], sRaw1, by rw [sRecs.1], rfl, sServed1⟩
  honest := sAns_honest _ _
  removable := fun _ => rfl
  names := by decide +kernel
  strays := exAns_strays
  small := sAns_small _ _

theorem sMirrors2 : Mirrors (sAns sRaw2 sOps2.bucket) .prod .default sOps2 exSrvFs where
  served := ⟨[exRec0, exRec1], sRaw2, by rw [sRecs.2], rfl, sServed2⟩
  honest := sAns_honest _ _
  removable := fun _ => rfl
  names := by decide +kernel
  strays := exAns_strays
  small := sAns_small _ _

/-- The directory after the updates. -/
def sFs1 : Files := [("20240101-0-default.filter".toList, [1]), (interName, binMap exInter)]

def sFs2 : Files := [("20240101-0-default.filter".toList, [1]), ("20240102-0-default.filter.delta".toList, sFilter1), (interName, binMap exInter)]

theorem sUpdate1 : (sAns sRaw1 sOps1.bucket).update .prod .default exSrvFs = (true, sFs1) := by decide +kernel

theorem sUpdate2 : (sAns sRaw2 sOps2.bucket).update .prod .default exSrvFs = (true, sFs2) := by decide +kernel

theorem sCard0 : sCard [1] = some ⟨[], fCov 0⟩ := rfl

theorem sCard1 : sCard sFilter1 = some ⟨[fDigest ++ [1, 2]], fCov 0⟩ := by
  show some (⟨sDec [] (sEnc [fDigest ++ [1, 2]]), sCoverage (decide ((1 : UInt8) = 1))⟩ : Card (List Bytes)) = _
  rw [sDec_sEnc]
  rfl

theorem sLoad1 : loadFilters sCard sFs1 = some [("20240101-0-default.filter".toList, ⟨[], fCov 0⟩)] :=
  loadFilters_served (n := "20240101-0-default.filter".toList) (b := [1]) (by decide +kernel) sCard0 (loadFilters_inters sCard (binMap exInter))

theorem sLoad2 : loadFilters sCard sFs2 = some [("20240101-0-default.filter".toList, ⟨[], fCov 0⟩), ("20240102-0-default.filter.delta".toList, ⟨[fDigest ++ [1, 2]], fCov 0⟩)] :=
  loadFilters_served (n := "20240101-0-default.filter".toList) (b := [1]) (by decide +kernel) sCard0
    (loadFilters_served (n := "20240102-0-default.filter.delta".toList) (b := sFilter1) (by decide +kernel) sCard1 (loadFilters_inters sCard (binMap exInter)))

/-- What the program has. -/
def sDb1 : LoadedDb (Card (List Bytes)) := ⟨[⟨[], fCov 0⟩], exInter⟩

def sDb2 : LoadedDb (Card (List Bytes)) := ⟨[⟨[], fCov 0⟩, ⟨[fDigest ++ [1, 2]], fCov 0⟩], exInter⟩

theorem sReady1 : Ready (sAns sRaw1 sOps1.bucket) (some .prod) .default exSrvFs sDb1 :=
  ⟨rfl, _, _, Or.inr ⟨.prod, rfl, sUpdate1⟩, load_of (W := sAns sRaw1 sOps1.bucket) sLoad1 (b := binMap exInter) (by decide +kernel) (by decide +kernel)⟩

theorem sReady2 : Ready (sAns sRaw2 sOps2.bucket) (some .prod) .default exSrvFs sDb2 :=
  ⟨rfl, _, _, Or.inr ⟨.prod, rfl, sUpdate2⟩, load_of (W := sAns sRaw2 sOps2.bucket) sLoad2 (b := binMap exInter) (by decide +kernel) (by decide +kernel)⟩

theorem sHeld (raw : List RawFilterRec) (b : List StoredObj) (n : Nat) (der : Bytes) : HeldBy (sAns raw b) sLib (sE n) [9] [5] ∧ ∀ k, HeldBy (sAns raw b) sLib (sE n) [9] k → (sAns raw b).verifies der k = true → k = [5] := by
  refine ⟨⟨_, _, sFirst, rfl, [5], ⟨[9], [5]⟩, rfl, rfl, rfl, rfl⟩, ?_⟩
  rintro k ⟨_, _, _, _, d, i, h1, h2, _, h4⟩ _
  have h1 : some [5] = some d := h1
  have h2 : some (⟨[9], d⟩ : IssuerCert) = some i := h2
  rw [← h4, ← Option.some.inj h2, ← Option.some.inj h1]

/-- The program knows the issuer of the report. -/
example : ∃ n, Executed sOps2 "20240102-0".toList n ∧ ∃ k, lookupSpki (sAns sRaw2 sOps2.bucket).parseIssuer ((sAns sRaw2 sOps2.bucket).verifies []) sDb2.inters [9] = some k := by
  obtain ⟨n, h1, _, h3⟩ := C122_issuers_partial sLib (sAns sRaw2 sOps2.bucket) .prod sE sTidy sOps2 sOps2_reach (fun _ n _ _ => sConditions n) (sAns_lists _ _) exSrvFs sDb2 sMirrors2 sReady2 [exRec0, exRec1] sOps2_perm exState_chain _ "20240102-0".toList exAns_carry rfl [] [9]
  exact ⟨n, h1, h3 ⟨[5], (sHeld _ _ n []).1, rfl⟩⟩

/-- After the second execution and publication: the program updates itself and exits with 1. -/
example : ((sAns sRaw2 sOps2.bucket).main (some .prod) .default (.x509 ["good".toList, "revoked".toList]) exSrvFs).1 = 1 := by
  refine (C122_revoked_partial sLib (sAns sRaw2 sOps2.bucket) sLib_good exEnrolls exEnrolls_input rfl .prod wMeta_id (fun _ => rfl) sE sTidy sOps2 sOps2_reach (fun _ n _ _ => sConditions n) (sAns_lists _ _) exSrvFs sDb2 sMirrors2 sReady2 [exRec0, exRec1] sOps2_perm
    exState_chain _ "20240102-0".toList exAns_carry rfl [0x30, 2, 0] [5] fCert rfl rfl rfl 1700002800 (by decide +kernel) (fun n _ => sHeld _ _ n _) ?_ (fun _ _ _ _ _ => sCovers _)).1 ["good".toList, "revoked".toList] "revoked".toList [0x30, 2, 0] (by decide)
    (by decide +kernel) (Or.inl ⟨exAns_plain 2, rfl⟩)
  intro n hn
  rcases sMade2 hn with ⟨_, rfl⟩ | ⟨e, _⟩
  · exact ⟨sScope true, sCovers true, sRevokedBy⟩
  · exact absurd e (by decide +kernel)

/-- After the first it exits with 0. -/
theorem sClear (files : List Text) (hosts : List Text) : (∀ f ∈ files, ∃ input der, (sAns sRaw1 sOps1.bucket).file f = some (some input) ∧ FileHolds input der ∧ der = [0x30, 2, 0]) →
    (∀ i h, hosts[i]? = some h → ∃ der, Served (sAns sRaw1 sOps1.bucket) i h der ∧ der = [0x30, 2, 0]) →
    ((sAns sRaw1 sOps1.bucket).main (some .prod) .default (.x509 files) exSrvFs).1 = 0 ∧ ((sAns sRaw1 sOps1.bucket).main (some .prod) .default (.https hosts) exSrvFs).1 = 0 := by
  obtain ⟨h1, h2⟩ := C122_not_revoked_partial sLib (sAns sRaw1 sOps1.bucket) sLib_good exEnrolls exEnrolls_input rfl .prod wMeta_id (fun _ => rfl) sE sTidy sOps1 sOps1_reach (fun _ n _ _ => sConditions n) (sAns_lists _ _) exSrvFs sDb1 sMirrors1 sReady1 [exRec0] sOps1_perm
    ⟨rfl, rfl, "i".toList, rfl, trivial⟩ ["20240101-0".toList] "20240101-0".toList ⟨exCarries0, trivial⟩ rfl (fun der => der = [0x30, 2, 0]) (by
      rintro der rfl c hp
      refine ⟨1700002800, by decide +kernel, ?_⟩
      intro m spki _ hheld hver y hy n hn
      have hc : c = fCert := (Option.some.inj hp).symm
      subst hc
      have hk : spki = [5] := (sHeld _ _ m _).2 spki hheld hver
      subst hk
      exact ⟨sScope _, fun v t k _ h2 h3 => (sUnlisted hn h2 h3).elim⟩)
  exact fun hf hh => ⟨h1 files hf, h2 hosts hh⟩

example : ((sAns sRaw1 sOps1.bucket).main (some .prod) .default (.x509 ["revoked".toList]) exSrvFs).1 = 0 :=
  (sClear ["revoked".toList] [] (fun f hf => by
    rw [List.mem_singleton.1 hf]
    exact ⟨[0x30, 2, 0], [0x30, 2, 0], by decide +kernel, Or.inl ⟨exAns_plain 2, rfl⟩, rfl⟩) (fun i h hi => by cases hi)).1

/-- The second address of this host presents the certificate, to the second attempt. -/
example : ((sAns sRaw1 sOps1.bucket).main (some .prod) .default (.https ["revoked.example".toList]) exSrvFs).1 = 0 := by
  refine (sClear [] ["revoked.example".toList] (fun f hf => by cases hf) (fun i h hi => ?_)).2
  cases i with
  | succ i => cases hi
  | zero =>
    have hi : "revoked.example".toList = h := Option.some.inj hi
    subst hi
    refine ⟨[0x30, 2, 0], ⟨"revoked.example".toList, 443, ["down".toList], "revoked".toList, [], Or.inl ⟨by decide +kernel, rfl, rfl⟩, by decide +kernel, ?_, Or.inr ⟨?_, by decide +kernel, _, rfl⟩⟩, rfl⟩
    · intro b hb i _ d hd
      rw [List.mem_singleton.1 hb] at hd
      have h : (none : Option Bytes) = some d := hd.1
      cases h
    · intro d hd
      have h : (none : Option Bytes) = some d := hd.1
      cases h

end Verif.Props
