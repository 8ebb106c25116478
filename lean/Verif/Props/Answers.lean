import Verif.Props.Served
import Verif.Props.Query
/-!
C121: the whole query program on what the publisher left. With `--update` it has the filters of the published chain and the issuers of the newest run of that chain; its exit status says whether the last run knew the certificate as revoked.
-/
namespace Verif.Spec

/-- Where the program looks for the issuers of a run (rust-query-crlite/src/main.rs:39-40). -/
def issuersAt (run : Text) : Text := "https://storage.googleapis.com/crlite-filters-prod/".toList ++ run ++ "/enrolled.json".toList

/-- A record of the list is a certificate with this name and key. -/
def EnrolledAs {F : Type} (W : QueryWorld F) (enr : List Text) (dn spki : Bytes) : Prop := ∃ r ∈ enr, ∃ der c, W.pem r = some der ∧ W.parseIssuer der = some c ∧ c.subject = dn ∧ c.spki = spki

/-- The instance serves the records of the publisher, and the bucket and the collection are those of the state. -/
structure Mirrors {F : Type} (W : QueryWorld F) (inst : Instance) (chan : ClientChannel) (s : Ops) (fs : Files) : Prop where
  served : ∃ recs raw, recs.Perm s.recs ∧ W.records (recordsAt inst) = some raw ∧ ServedAll W.sha s.bucket chan recs raw
  honest : NoForgery (W.updateEnv inst) s.bucket fs
  removable : ∀ n, W.removable n = true
  names : (fs.map Prod.fst).Nodup
  strays : ∀ e ∈ fs, extractRunId e.1 ≠ none → Verif.Props.Spec.FilterName e.1
  small : ∀ u recs, W.enrolled u = some recs → SmallMap (fromEnrolled W.pem W.parseIssuer recs)

end Verif.Spec

namespace Verif.Props
open Verif.Spec

/-! ### the newest run -/

theorem steps_last {b : List StoredObj} : ∀ (runs : List Text) (x z : Text), Steps (Next b) x runs → (x :: runs).getLast? = some z → ∀ y ∈ x :: runs, y = z ∨ NameBefore y z
  | [], x, z, _, hz, y, hy => by
    rw [List.getLast?_singleton, Option.some.injEq] at hz
    rw [List.mem_singleton.1 hy]
    exact Or.inl hz
  | w :: rest, x, z, hst, hz, y, hy => by
    rw [List.getLast?_cons_cons] at hz
    have ih := steps_last rest w z hst.2 hz
    rcases List.mem_cons.1 hy with rfl | hy
    · have hxw : NameBefore y w := hst.1.2.2.1
      rcases ih w List.mem_cons_self with rfl | h
      · exact Or.inr hxw
      · exact Or.inr (nameBefore_trans hxw h)
    · exact ih y hy

theorem isRun_url {run : Text} (slug ext : Text) (h : IsRun run) :
    ∃ d n, IsDate d ∧ run = runName d n ∧ extractRunId (run ++ '-' :: slug ++ ext) = some (d, n) := by
  obtain ⟨d, n, hd, hn, rfl⟩ := h
  refine ⟨d, n, hd, rfl, ?_⟩
  refine (C65_names _ _ _).2 ⟨Nat.toDigits 10 n, '-' :: slug ++ ext, ?_, Or.inr ⟨_, rfl⟩, hd.1, hd.2, Nat.toDigits 10 n, Or.inl rfl, Nat.toDigits_ne_nil, toDigits_dig n, digitsNat_toDigits n, by omega⟩
  unfold runName
  simp [List.append_assoc]

theorem carried_run {slug run : Text} {r : KRec} {n : Text} (hrun : IsRun run) (h : Carries slug run r) (hn : r.attachment = some n) : ∃ d k, IsDate d ∧ run = runName d k ∧ extractRunId n = some (d, k) := by
  rcases h with ⟨_, h⟩ | ⟨_, h⟩
  · rw [hn, Option.some.injEq] at h
    rw [h]
    exact isRun_url _ _ hrun
  · rw [hn, Option.some.injEq] at h
    rw [h]
    exact isRun_url _ _ hrun

theorem carryAll_unique {slug : Text} (hs : ∀ c ∈ slug, c ≠ '-') : ∀ (l : List KRec) (xs ys : List Text), CarryAll slug xs l → CarryAll slug ys l → xs = ys
  | [], [], [], _, _ => rfl
  | [], _ :: _, _, h, _ => h.elim
  | [], [], _ :: _, _, h => h.elim
  | _ :: _, [], _, h, _ => h.elim
  | _ :: _, _ :: _, [], _, h => h.elim
  | _ :: l, x :: xs, y :: ys, h, h' => by
    rw [attachment_unique hs (carries_attachment h.1) (carries_attachment h'.1), carryAll_unique hs l xs ys h.2 h'.2]

theorem enrolledUrl_run (d : Text) (n : Nat) : enrolledUrl (d, n) = issuersAt (runName d n) := by
  have e : (toString n).toList = Nat.toDigits 10 n := by
    show (Nat.repr n).toList = _
    unfold Nat.repr
    exact String.toList_ofList
  unfold enrolledUrl issuersAt runName
  rw [e]

section
variable {F : Type} {W : QueryWorld (Card F)} {inst : Instance} {chan : ClientChannel} {s : Ops} {fs : Files} {db : LoadedDb (Card F)}

/-- What the program did with `--update`. -/
theorem ready_update (hr : Ready W (some inst) chan fs db) : ∃ raw fs0 l, W.records (recordsAt inst) = some raw ∧ updateDb (W.updateEnv inst) chan raw fs = (true, fs0) ∧ loadFilters W.fromBytes fs0 = some l ∧ db.filters = l.map Prod.snd := by
  obtain ⟨_, fs1, fs2, hu, hl⟩ := hr
  rcases hu with ⟨h, _⟩ | ⟨i, hi, hu⟩
  · cases h
  cases hi
  unfold QueryWorld.update at hu
  rw [recordsAt_eq] at hu
  cases hraw : W.records (recordsAt inst) with
  | none => rw [hraw] at hu; cases hu
  | some raw =>
    rw [hraw] at hu
    dsimp only at hu
    cases hup : updateDb (W.updateEnv inst) chan raw fs with
    | mk ok fs0 =>
      rw [hup] at hu
      cases ok with
      | false => cases hu
      | true =>
        dsimp only at hu
        obtain ⟨run, enr, hrun, henr, rfl⟩ := updateInters_true hu
        unfold QueryWorld.load at hl
        rw [loadFilters_put _ _ _ _ interName_not_filter] at hl
        cases hlf : loadFilters W.fromBytes fs0 with
        | none => rw [hlf] at hl; cases hl
        | some l =>
          rw [hlf] at hl
          dsimp only at hl
          unfold QueryWorld.ensureInters at hl
          rw [assocGet_put_self] at hl
          dsimp only at hl
          rw [assocGet_put_self, Option.bind_some, Prod.mk.injEq] at hl
          obtain ⟨m, _, rfl⟩ := Option.map_eq_some_iff.1 hl.1
          exact ⟨raw, fs0, l, rfl, hup, hlf, rfl⟩

/-- **C121, the filters (partial).** With `--update`, if the program gets as far as its subcommand, its filters are those of the published runs of the channel. Missing: as in `C120_loaded_partial`. -/
theorem C121_filters_partial (h : OpsReach s) (hm : Mirrors W inst chan s fs) (hr : Ready W (some inst) chan fs db) :
    ClientCardsIn W.fromBytes s.bucket (channelDir chan) (channelName chan) (recordsOf (channelName chan) s.recs) db.filters := by
  obtain ⟨recs, raw, hrecs, hraw, hserve⟩ := hm.served
  obtain ⟨raw', fs0, l, hraw', hup, hload, hf⟩ := ready_update hr
  rw [hraw, Option.some.injEq] at hraw'
  subst hraw'
  rw [hf]
  exact C120_loaded_partial (env := W.updateEnv inst) h hrecs hserve hm.names hm.removable hm.honest hup hload

/-- **C121, the issuers (partial).** … and its issuers are those that are listed for the newest run of the chain. Full statement: without `removable` and `strays` in `Mirrors`. Missing: `C64_remove_fails`, `C65_stray_fails`. -/
theorem C121_issuers_partial (h : OpsReach s) (hm : Mirrors W inst chan s fs) (hr : Ready W (some inst) chan fs db) (l : List KRec) (hl : l.Perm (recordsOf (channelName chan) s.recs)) (hc : IsChain l) (runs : List Text) (z : Text)
    (hruns : CarryAll (channelName chan) runs l) (hz : runs.getLast? = some z) :
    ∃ enr, W.enrolled (issuersAt z) = some enr ∧ ∀ verifies dn, lookupSpki W.parseIssuer verifies db.inters dn = lookupSpki W.parseIssuer verifies (fromEnrolled W.pem W.parseIssuer enr) dn := by
  have hs := channelName_plain chan
  obtain ⟨recs, raw, hrecs, hraw, hserve⟩ := hm.served
  obtain ⟨raw', fl, run, enr, hraw', hfl, henr, hlook, hrest⟩ := C107_updated W inst chan fs db hr hm.names hm.removable hm.small
  rw [hraw, Option.some.injEq] at hraw'
  subst hraw'
  have hserve' : ServedAll (W.updateEnv inst).sha s.bucket chan recs raw := hserve
  obtain ⟨_, _, hnew⟩ := hrest (listed_same h hrecs hserve' hfl) (listed_names h hrecs hserve' hfl)
  obtain ⟨⟨f, hf, hfrun⟩, hmax⟩ := hnew hm.strays
  -- the runs of the chain
  obtain ⟨x, rest, hx, hcar, hst⟩ := C81_runs s h _ hs l hl hc
  have hlast : (x :: rest).getLast? = some z := by
    have : x :: rest = runs := by
      exact carryAll_unique hs l _ _ hcar hruns
    rw [this]
    exact hz
  have hfin := chain_finished h hs hl hc hcar
  have hmz : z ∈ x :: rest := List.mem_of_getLast? hlast
  -- the file of the latest run is that of a run of the chain
  obtain ⟨r, hrm, y, hyf, hycar, hya, _⟩ := listed_file h hrecs hserve' hfl f hf
  obtain ⟨y', hy', hcy'⟩ := (carryAll_mem _ l hcar).2 r (hl.mem_iff.2 hrm)
  have hyy : y = y' := attachment_unique hs (carries_attachment hycar) (carries_attachment hcy')
  subst hyy
  obtain ⟨d, k, hd, hyn, hdk⟩ := carried_run hyf.1.1 hycar hya
  rw [hfrun, Option.some.injEq] at hdk
  -- the record of the last run
  obtain ⟨rz, hrz, hczr⟩ := (carryAll_mem _ l hcar).1 z hmz
  obtain ⟨_, c2, _⟩ := listed_served recs raw fl hserve' hfl
  obtain ⟨g, hg, w, _, hw, _, e2, _, _⟩ := c2 rz ((served_mem hrecs rz).2 (hl.mem_iff.1 hrz))
  obtain ⟨d', k', hd', hzn, hdk'⟩ := carried_run (hfin z hmz).1.1 hczr (by rw [hw.filename, ← e2])
  have hno := hmax g hg (d', k') hdk'
  have hyz : y = z := by
    rcases steps_last rest x z hst hlast y hy' with e | hb
    · exact e
    · exfalso
      obtain ⟨a, i, b, j, ha, hb', ea, eb, hid⟩ := hb
      rw [hyn] at ea
      rw [hzn] at eb
      obtain ⟨rfl, rfl⟩ := runName_inj hd ha ea
      obtain ⟨rfl, rfl⟩ := runName_inj hd' hb' eb
      refine hno ?_
      rw [hdk]
      rcases hid with hid | ⟨rfl, hid⟩
      · exact Or.inl hid
      · exact Or.inr ⟨rfl, hid⟩
  refine ⟨enr, ?_, hlook⟩
  rw [← hyz, hyn, ← enrolledUrl_run, ← hdk]
  exact henr

end

/-! ### the exit status -/

/-- The issuer that the program finds is the one that verifies the certificate. -/
theorem known_issuer {F : Type} {W : QueryWorld F} {inters : Intermediates} {enr : List Text} {der dn spki : Bytes} (hlook : ∀ verifies dn, lookupSpki W.parseIssuer verifies inters dn = lookupSpki W.parseIssuer verifies (fromEnrolled W.pem W.parseIssuer enr) dn)
    (he : EnrolledAs W enr dn spki) (hv : W.verifies der spki = true) (honly : ∀ k, EnrolledAs W enr dn k → W.verifies der k = true → k = spki) : lookupSpki W.parseIssuer (W.verifies der) inters dn = some spki := by
  rw [hlook]
  obtain ⟨h1, h2⟩ := C63_enrolled W.pem W.parseIssuer (W.verifies der) enr dn
  obtain ⟨r, hr, d, c, e1, e2, e3, e4⟩ := he
  obtain ⟨k, hk⟩ := h2 ⟨r, hr, d, c, e1, e2, e3, by rw [e4]; exact hv⟩
  obtain ⟨r', hr', d', c', f1, f2, f3, f4, f5⟩ := h1 k hk
  rw [hk, honly k ⟨r', hr', d', c', f1, f2, f3, f4⟩ f5]

/-- What is revoked is reported. -/
theorem reported {F : Type} {W : QueryWorld F} {update : Option Instance} {chan : ClientChannel} {fs : Files} {db : LoadedDb F} (hr : Ready W update chan fs db) {der : Bytes} (h : RevokedCert W db der) :
    (∀ files f input, f ∈ files → W.file f = some (some input) → FileHolds input der → (W.main update chan (.x509 files) fs).1 = 1) ∧ ∀ hosts i h, hosts[i]? = some h → Served W i h der → (W.main update chan (.https hosts) fs).1 = 1 := by
  refine ⟨fun files f input hf hi hh => C107_revoked_file W update chan fs db hr files f hf input der hi hh h, fun hosts i host hi hs => ?_⟩
  refine exit_one_of_not_zero W update chan _ fs (fun h0 => ?_)
  obtain ⟨d, h1, h2⟩ := (C107_hosts W update chan fs db hr hosts).1 h0 i host hi
  rw [C107_served_unique W i host d der h1 hs] at h2
  exact h2 h

/-- What is not revoked is not reported. -/
theorem passed {F : Type} {W : QueryWorld F} {update : Option Instance} {chan : ClientChannel} {fs : Files} {db : LoadedDb F} (hr : Ready W update chan fs db) {clear : Bytes → Prop} (h : ∀ der, clear der → ¬ RevokedCert W db der) :
    (∀ files, (∀ f ∈ files, ∃ input der, W.file f = some (some input) ∧ FileHolds input der ∧ clear der) → (W.main update chan (.x509 files) fs).1 = 0) ∧
    ∀ hosts, (∀ i h, hosts[i]? = some h → ∃ der, Served W i h der ∧ clear der) → (W.main update chan (.https hosts) fs).1 = 0 := by
  refine ⟨fun files hf => ?_, fun hosts hh => ?_⟩
  · refine (C107_files_partial W update chan fs db hr files (fun f hff => ?_)).2.2 ?_
    · obtain ⟨input, der, h1, h2, _⟩ := hf f hff
      exact ⟨input, der, h1, h2⟩
    · intro f hff input der hi hd
      obtain ⟨input', der', h1, h2, h3⟩ := hf f hff
      rw [hi, Option.some.injEq, Option.some.injEq] at h1
      subst h1
      have e : der = der' := by rw [← queryOctets_holds hd, ← queryOctets_holds h2]
      rw [e]
      exact h der' h3
  · refine (C107_hosts W update chan fs db hr hosts).2 (fun i host hi => ?_)
    obtain ⟨der, h1, h2⟩ := hh i host hi
    exact ⟨der, h1, h der h2⟩

theorem revokedCert_of {F : Type} {W : QueryWorld F} {db : LoadedDb F} {der : Bytes} {c : ClientCert} (hp : W.parse der = some c) (h : clientQuery W.sha W.parseIssuer (W.verifies der) W.has db.filters db.inters c = .revoked) : RevokedCert W db der := by
  rw [C63_revoked_iff] at h
  exact ⟨c, hp, h⟩

section
variable {F : Type} (dec : Bytes → Option (List Bytes)) (build : List Bytes → List (Bytes × Bool) → Option F) (contains : F → Bytes → Bool) (enrolls : F → Bytes → Bool)
  (he : EnrollsInput build enrolls) (order : List Text → List Text) (V : GenRun → RunInput) (X : GenRun → Dir) (cov : GenRun → Coverage) (W : QueryWorld (Card F)) (hW : W.has = cardHas enrolls contains) (inst : Instance)
  (s : Ops) (h : OpsReach s) (hgen : ∀ y a prev, Finished s.bucket y → MadeBy s y a prev → Generates dec W.fromBytes build contains order a (V a) (X a) (cov a))
  (fs : Files) (db : LoadedDb (Card F))
include he hW h hgen

/-- **C121, Revoked (partial).** From the generation to the exit status: the last run of the published chain knew the certificate as revoked; its issuer, the only one of that name that verifies it, is listed for that run. The program, run with
`--update` on the channel with all reasons, exits with 1 if it is asked about a file that holds the certificate, or a host that presents it. Full statement: without `hcov`, `removable` and `strays`. Missing: `C74_known_elsewhere_fails`, `C64_remove_fails`, `C65_stray_fails`. -/
theorem C121_revoked_partial (hm : Mirrors W inst .default s fs) (hr : Ready W (some inst) .default fs db) (l : List KRec) (hl : l.Perm (recordsOf (channelName .default) s.recs)) (hc : IsChain l) (runs : List Text) (z : Text)
    (hruns : CarryAll (channelName .default) runs l) (hz : runs.getLast? = some z) (der spki : Bytes) (c : ClientCert) (hp : W.parse der = some c) (hv : c.valid = true)
    (hiss : ∀ enr, W.enrolled (issuersAt z) = some enr → EnrolledAs W enr c.issuerDN spki ∧ ∀ k, EnrolledAs W enr c.issuerDN k → W.verifies der k = true → k = spki) (hver : W.verifies der spki = true)
    (hkr : ∀ a prev, MadeBy s z a prev → KnownIn (V a) (W.sha spki) c.serial ∧ RevokedIn .all (V a) (W.sha spki) c.serial)
    (hcov : ∀ y ∈ runs, ∀ a prev, MadeBy s y a prev → KnownIn (V a) (W.sha spki) c.serial → RevokedIn .all (V a) (W.sha spki) c.serial → Covers (cov a) c.scts) :
    (∀ files f input, f ∈ files → W.file f = some (some input) → FileHolds input der → (W.main (some inst) .default (.x509 files) fs).1 = 1) ∧
    ∀ hosts i h, hosts[i]? = some h → Served W i h der → (W.main (some inst) .default (.https hosts) fs).1 = 1 := by
  have hs := channelName_plain .default
  obtain ⟨enr, henr, hlook⟩ := C121_issuers_partial h hm hr l hl hc runs z hruns hz
  obtain ⟨hi1, hi2⟩ := hiss enr henr
  have hlk := known_issuer hlook hi1 hver hi2
  have hcards := clientCards_perm (C121_filters_partial h hm hr) hl
  refine reported hr (revokedCert_of hp ?_)
  rw [hW]
  refine C82_revoked_partial dec W.fromBytes build contains enrolls he order V X cov W.sha W.parseIssuer (W.verifies der) db.inters s h hgen (channelName .default) hs l hl hc _ hcards c spki hlk hv ?_ ?_
  · intro runs' z' hruns' hz'
    rw [carryAll_unique hs l _ _ hruns' hruns, hz, Option.some.injEq] at hz'
    subst hz'
    exact hkr
  · intro runs' hruns'
    rw [carryAll_unique hs l _ _ hruns' hruns]
    exact hcov

/-- **C121, the channel with the priority reasons (partial).** Missing also: `C97_reason_change_fails`. -/
theorem C121_priority_partial (hgp : ∀ y a prev, Finished s.bucket y → MadeBy s y a prev → GeneratesPriority dec W.fromBytes build contains order a (V a) (X a) (cov a)) (hm : Mirrors W inst .compat s fs) (hr : Ready W (some inst) .compat fs db)
    (l : List KRec) (hl : l.Perm (recordsOf (channelName .compat) s.recs)) (hc : IsChain l) (runs : List Text) (z : Text)
    (hruns : CarryAll (channelName .compat) runs l) (hz : runs.getLast? = some z) (der spki : Bytes) (c : ClientCert) (hp : W.parse der = some c) (hv : c.valid = true)
    (hiss : ∀ enr, W.enrolled (issuersAt z) = some enr → EnrolledAs W enr c.issuerDN spki ∧ ∀ k, EnrolledAs W enr c.issuerDN k → W.verifies der k = true → k = spki) (hver : W.verifies der spki = true)
    (hstable : ReasonStable V s (W.sha spki) c.serial)
    (hkr : ∀ a prev, MadeBy s z a prev → KnownIn (V a) (W.sha spki) c.serial ∧ RevokedIn .priority (V a) (W.sha spki) c.serial)
    (hcov : ∀ y ∈ runs, ∀ a prev, MadeBy s y a prev → KnownIn (V a) (W.sha spki) c.serial → RevokedIn .priority (V a) (W.sha spki) c.serial → Covers (cov a) c.scts) :
    (∀ files f input, f ∈ files → W.file f = some (some input) → FileHolds input der → (W.main (some inst) .compat (.x509 files) fs).1 = 1) ∧
    ∀ hosts i h, hosts[i]? = some h → Served W i h der → (W.main (some inst) .compat (.https hosts) fs).1 = 1 := by
  have hs := channelName_plain .compat
  obtain ⟨enr, henr, hlook⟩ := C121_issuers_partial h hm hr l hl hc runs z hruns hz
  obtain ⟨hi1, hi2⟩ := hiss enr henr
  have hlk := known_issuer hlook hi1 hver hi2
  have hcards := clientCards_perm (C121_filters_partial h hm hr) hl
  refine reported hr (revokedCert_of hp ?_)
  rw [hW]
  refine C97_revoked_partial dec W.fromBytes build contains enrolls he order V X cov W.sha W.parseIssuer (W.verifies der) db.inters s h hgen hgp (channelName .compat) hs l hl hc _ hcards c spki hlk hv hstable ?_ ?_
  · intro runs' z' hruns' hz'
    rw [carryAll_unique hs l _ _ hruns' hruns, hz, Option.some.injEq] at hz'
    subst hz'
    exact hkr
  · intro runs' hruns'
    rw [carryAll_unique hs l _ _ hruns' hruns]
    exact hcov

/-- **C121, not Revoked (partial).** Certificates that no run of the chain found revoked, under any of their issuers that are listed for the last run, and that the runs that cover them know: the exit status is 0 if each of the files holds one, and if each of the hosts presents one. Missing: `C64_remove_fails`,
`C65_stray_fails`. -/
theorem C121_not_revoked_partial (hm : Mirrors W inst .default s fs) (hr : Ready W (some inst) .default fs db) (l : List KRec) (hl : l.Perm (recordsOf (channelName .default) s.recs)) (hc : IsChain l) (runs : List Text) (z : Text)
    (hruns : CarryAll (channelName .default) runs l) (hz : runs.getLast? = some z) (clear : Bytes → Prop)
    (hno : ∀ der, clear der → ∀ c, W.parse der = some c → ∀ enr spki, W.enrolled (issuersAt z) = some enr → EnrolledAs W enr c.issuerDN spki → W.verifies der spki = true →
      ∀ y ∈ runs, ∀ a prev, MadeBy s y a prev → ¬ RevokedIn .all (V a) (W.sha spki) c.serial ∧ (Covers (cov a) c.scts → KnownIn (V a) (W.sha spki) c.serial)) :
    (∀ files, (∀ f ∈ files, ∃ input der, W.file f = some (some input) ∧ FileHolds input der ∧ clear der) → (W.main (some inst) .default (.x509 files) fs).1 = 0) ∧
    ∀ hosts, (∀ i h, hosts[i]? = some h → ∃ der, Served W i h der ∧ clear der) → (W.main (some inst) .default (.https hosts) fs).1 = 0 := by
  have hs := channelName_plain .default
  obtain ⟨enr, henr, hlook⟩ := C121_issuers_partial h hm hr l hl hc runs z hruns hz
  have hcards := clientCards_perm (C121_filters_partial h hm hr) hl
  refine passed hr (fun der hd => ?_)
  rintro ⟨c, hp, hsay⟩
  have hsay' := hsay
  obtain ⟨spki, hlk, _⟩ := hsay
  have hlk' := hlk
  rw [hlook] at hlk
  obtain ⟨r, hr', d, c', e1, e2, e3, e4, e5⟩ := (C63_enrolled W.pem W.parseIssuer (W.verifies der) enr c.issuerDN).1 spki hlk
  have key := hno der hd c hp enr spki henr ⟨r, hr', d, c', e1, e2, e3, e4⟩ e5
  refine C82_not_revoked dec W.fromBytes build contains enrolls he order V X cov W.sha W.parseIssuer (W.verifies der) db.inters s h hgen (channelName .default) hs l hl hc _ hcards c spki hlk' ?_ ?_ ?_
  · intro runs' hruns' y hy a prev hma
    rw [carryAll_unique hs l _ _ hruns' hruns] at hy
    exact (key y hy a prev hma).1
  · intro runs' hruns' y hy a prev hma
    rw [carryAll_unique hs l _ _ hruns' hruns] at hy
    exact (key y hy a prev hma).2
  · rw [C63_revoked_iff, ← hW]
    exact hsay'

/-- **C121, not Revoked on the channel with the priority reasons (partial).** Certificates that no run of the chain found revoked for a priority reason, whatever other reasons it found. -/
theorem C121_priority_clear_partial (hgp : ∀ y a prev, Finished s.bucket y → MadeBy s y a prev → GeneratesPriority dec W.fromBytes build contains order a (V a) (X a) (cov a)) (hm : Mirrors W inst .compat s fs) (hr : Ready W (some inst) .compat fs db)
    (l : List KRec) (hl : l.Perm (recordsOf (channelName .compat) s.recs)) (hc : IsChain l) (runs : List Text) (z : Text)
    (hruns : CarryAll (channelName .compat) runs l) (hz : runs.getLast? = some z) (clear : Bytes → Prop)
    (hno : ∀ der, clear der → ∀ c, W.parse der = some c → ∀ enr spki, W.enrolled (issuersAt z) = some enr → EnrolledAs W enr c.issuerDN spki → W.verifies der spki = true →
      ∀ y ∈ runs, ∀ a prev, MadeBy s y a prev → ¬ RevokedIn .priority (V a) (W.sha spki) c.serial ∧ (Covers (cov a) c.scts → KnownIn (V a) (W.sha spki) c.serial)) :
    (∀ files, (∀ f ∈ files, ∃ input der, W.file f = some (some input) ∧ FileHolds input der ∧ clear der) → (W.main (some inst) .compat (.x509 files) fs).1 = 0) ∧
    ∀ hosts, (∀ i h, hosts[i]? = some h → ∃ der, Served W i h der ∧ clear der) → (W.main (some inst) .compat (.https hosts) fs).1 = 0 := by
  have hs := channelName_plain .compat
  obtain ⟨enr, henr, hlook⟩ := C121_issuers_partial h hm hr l hl hc runs z hruns hz
  have hcards := clientCards_perm (C121_filters_partial h hm hr) hl
  refine passed hr (fun der hd => ?_)
  rintro ⟨c, hp, hsay⟩
  have hsay' := hsay
  obtain ⟨spki, hlk, hv, _⟩ := hsay
  have hlk' := hlk
  rw [hlook] at hlk
  obtain ⟨r, hr', d, c', e1, e2, e3, e4, e5⟩ := (C63_enrolled W.pem W.parseIssuer (W.verifies der) enr c.issuerDN).1 spki hlk
  have key := hno der hd c hp enr spki henr ⟨r, hr', d, c', e1, e2, e3, e4⟩ e5
  refine (C97_good dec W.fromBytes build contains enrolls he order V X cov W.sha W.parseIssuer (W.verifies der) db.inters s h hgen hgp (channelName .compat) hs l hl hc _ hcards c spki hlk' hv ?_ ?_).2.2 ?_
  · intro runs' hruns' y hy a prev hma
    rw [carryAll_unique hs l _ _ hruns' hruns] at hy
    exact (key y hy a prev hma).1
  · intro runs' hruns' y hy a prev hma
    rw [carryAll_unique hs l _ _ hruns' hruns] at hy
    exact (key y hy a prev hma).2
  · rw [C63_revoked_iff, ← hW]
    exact hsay'

end

/-! ### examples -/

/-- The world of a client: one served list of records, two attachments, and the issuers of the second run. -/
def exAnsWorld (raw : List RawFilterRec) (one two : Bytes) (card : Bytes → Option (Card (List Bytes))) : QueryWorld (Card (List Bytes)) :=
  { exQ with
    records := fun _ => some raw
    attachment := fun u => if u.getLast? = some 'a' then some one else if u.getLast? = some 'b' then some two else none
    enrolled := fun u => if u = issuersAt "20240102-0".toList then some ["issuer".toList] else none
    pem := fun _ => some [5]
    parseIssuer := fun d => some ⟨[9], d⟩
    sha := exSrvSha
    parse := fun d => if d = [0x30, 2, 0] then some (exClientCert 500 [2]) else if d = [0x30, 3, 0] then some (exClientCert 1500 [3]) else none
    fromBytes := card
    has := cardHas exEnrolls exContains }

/-- The world of the default channel. -/
def exAns : QueryWorld (Card (List Bytes)) := exAnsWorld exSrvRaw [20] [31] exCard

/-- That of the other one. -/
def exAnsPr : QueryWorld (Card (List Bytes)) := exAnsWorld exSrvRawPr [40] [51] exPrCard

theorem exAns_fetch {raw : List RawFilterRec} {one two c : Bytes} {card : Bytes → Option (Card (List Bytes))} {inst : Instance} {u : Text} (h : ((exAnsWorld raw one two card).updateEnv inst).fetch u = some c) : c = one ∨ c = two := by
  change (if ((instanceUrls inst).1 ++ u).getLast? = some 'a' then some one else if ((instanceUrls inst).1 ++ u).getLast? = some 'b' then some two else none) = some c at h
  by_cases h1 : ((instanceUrls inst).1 ++ u).getLast? = some 'a'
  · rw [if_pos h1] at h; exact Or.inl (Option.some.inj h).symm
  · rw [if_neg h1] at h
    by_cases h2 : ((instanceUrls inst).1 ++ u).getLast? = some 'b'
    · rw [if_pos h2] at h; exact Or.inr (Option.some.inj h).symm
    · rw [if_neg h2] at h; cases h

theorem exAns_enrolled {raw : List RawFilterRec} {one two : Bytes} {card : Bytes → Option (Card (List Bytes))} {u : Text} {enr : List Text} (h : (exAnsWorld raw one two card).enrolled u = some enr) : enr = ["issuer".toList] := by
  change (if u = issuersAt "20240102-0".toList then some ["issuer".toList] else none) = some enr at h
  split at h
  · exact (Option.some.inj h).symm
  · cases h

theorem exAns_small {raw : List RawFilterRec} {one two : Bytes} {card : Bytes → Option (Card (List Bytes))} (u : Text) (enr : List Text) (h : (exAnsWorld raw one two card).enrolled u = some enr) :
    SmallMap (fromEnrolled (exAnsWorld raw one two card).pem (exAnsWorld raw one two card).parseIssuer enr) := by
  rw [exAns_enrolled h]
  have e : fromEnrolled (exAnsWorld raw one two card).pem (exAnsWorld raw one two card).parseIssuer ["issuer".toList] = [([9], [[5]])] := rfl
  rw [e]
  refine ⟨by decide, fun x hx => ?_⟩
  rw [List.mem_singleton.1 hx]
  refine ⟨by decide, by decide, fun y hy => ?_⟩
  rw [List.mem_singleton.1 hy]
  decide

theorem exAns_strays : ∀ e ∈ exSrvFs, extractRunId e.1 ≠ none → Spec.FilterName e.1 := by
  intro e he _
  rcases List.mem_cons.1 he with rfl | he
  · exact ⟨"20231231-0-default".toList, by decide, Or.inr (by decide +kernel)⟩
  · rw [List.mem_singleton.1 he]
    exact ⟨"20240101-0-default".toList, by decide, Or.inr (by decide +kernel)⟩

theorem exAns_mirrors : Mirrors exAns .prod .default exOpsState exSrvFs where
  served := ⟨[exRec0, exRec1], exSrvRaw, exSrv_perm, rfl, exSrv_served⟩
  honest := by
    rintro c (⟨n, hn⟩ | ⟨u, hu⟩) p bytes _ hd
    · exact exSrv_sha (by rcases exSrv_fs hn with h | h <;> simp [h]) hd
    · exact exSrv_sha (by rcases exAns_fetch hu with h | h <;> simp [h]) hd
  removable := fun _ => rfl
  names := by decide +kernel
  strays := exAns_strays
  small := exAns_small

theorem exAnsPr_mirrors : Mirrors exAnsPr .prod .compat exPrState exSrvFs where
  served := ⟨[exPrRec0, exPrRec1], exSrvRawPr, exSrvPr_perm, rfl, exSrvPr_served⟩
  honest := by
    rintro c (⟨n, hn⟩ | ⟨u, hu⟩) p bytes _ hd
    · exact exSrv_sha (by rcases exSrv_fs hn with h | h <;> simp [h]) hd
    · exact exSrv_sha (by rcases exAns_fetch hu with h | h <;> simp [h]) hd
  removable := fun _ => rfl
  names := by decide +kernel
  strays := exAns_strays
  small := exAns_small

/-- What the program has. -/
def exAnsDb : LoadedDb (Card (List Bytes)) := ⟨exSrvLoaded.map Prod.snd, exInter⟩

def exAnsDbPr : LoadedDb (Card (List Bytes)) := ⟨exSrvLoadedPr.map Prod.snd, exInter⟩

theorem exAns_update : exAns.update .prod .default exSrvFs = (true, exSrvFs' ++ [(interName, binMap exInter)]) := by decide +kernel

theorem exAnsPr_update : exAnsPr.update .prod .compat exSrvFs = (true, exSrvFsPr ++ [(interName, binMap exInter)]) := by decide +kernel

theorem loadFilters_inters {F : Type} (card : Bytes → Option F) (b : Bytes) : loadFilters card [(interName, b)] = some [] := by
  have h : ¬ (inDir interName && isFilterFile interName) = true := by decide +kernel
  rw [loadFilters, if_neg h]
  rfl

theorem load_of {F : Type} {W : QueryWorld F} {fs : Files} {l : List (Text × F)} {m : Intermediates} {b : Bytes} (h1 : loadFilters W.fromBytes fs = some l) (h2 : assocGet fs interName = some b) (h3 : unbinMap b = some m) :
    W.load fs = (some ⟨l.map Prod.snd, m⟩, fs) := by
  unfold QueryWorld.load QueryWorld.ensureInters
  rw [h1, h2]
  dsimp only
  rw [h2, Option.bind_some, h3]
  rfl

theorem exAns_load : loadFilters exCard (exSrvFs' ++ [(interName, binMap exInter)]) = some exSrvLoaded :=
  loadFilters_served (n := "20240101-0-default.filter".toList) (b := [20]) (by decide +kernel) exCard0
    (loadFilters_served (n := "20240102-0-default.filter.delta".toList) (b := [31]) (by decide +kernel) exCard1 (loadFilters_inters exCard (binMap exInter)))

theorem exAns_ready : Ready exAns (some .prod) .default exSrvFs exAnsDb :=
  ⟨rfl, _, _, Or.inr ⟨.prod, rfl, exAns_update⟩, load_of (W := exAns) exAns_load (b := binMap exInter) (by decide +kernel) (by decide +kernel)⟩

theorem exAnsPr_load : loadFilters exPrCard (exSrvFsPr ++ [(interName, binMap exInter)]) = some exSrvLoadedPr :=
  loadFilters_served (n := "20240101-0-compat.filter".toList) (b := [40]) (by decide +kernel) exPrCard0
    (loadFilters_served (n := "20240102-0-compat.filter.delta".toList) (b := [51]) (by decide +kernel) exPrCard1 (loadFilters_inters exPrCard (binMap exInter)))

theorem exAnsPr_ready : Ready exAnsPr (some .prod) .compat exSrvFs exAnsDbPr :=
  ⟨rfl, _, _, Or.inr ⟨.prod, rfl, exAnsPr_update⟩, load_of (W := exAnsPr) exAnsPr_load (b := binMap exInter) (by decide +kernel) (by decide +kernel)⟩

theorem exAns_carry : CarryAll (channelName .default) ["20240101-0".toList, "20240102-0".toList] [exRec0, exRec1] := ⟨exCarries0, exCarries1, trivial⟩

theorem exAnsPr_carry : CarryAll (channelName .compat) ["20240101-0".toList, "20240102-0".toList] [exPrRec0, exPrRec1] := ⟨exPrCarries0, exPrCarries1, trivial⟩

/-- The two filters were published. -/
example : ClientCardsIn exAns.fromBytes exOpsState.bucket (channelDir .default) (channelName .default) (recordsOf (channelName .default) exOpsState.recs) exAnsDb.filters := C121_filters_partial exState_reach exAns_mirrors exAns_ready

/-- The issuers are those of the second run. -/
example : ∃ enr, exAns.enrolled (issuersAt "20240102-0".toList) = some enr ∧ ∀ verifies dn, lookupSpki exAns.parseIssuer verifies exAnsDb.inters dn = lookupSpki exAns.parseIssuer verifies (fromEnrolled exAns.pem exAns.parseIssuer enr) dn :=
  C121_issuers_partial exState_reach exAns_mirrors exAns_ready [exRec0, exRec1] exState_perm exState_chain _ "20240102-0".toList exAns_carry rfl

theorem exAns_issuer {raw : List RawFilterRec} {one two : Bytes} {card : Bytes → Option (Card (List Bytes))} {u : Text} (enr : List Text) (h : (exAnsWorld raw one two card).enrolled u = some enr) (der : Bytes) :
    EnrolledAs (exAnsWorld raw one two card) enr [9] [5] ∧ ∀ k, EnrolledAs (exAnsWorld raw one two card) enr [9] k → (exAnsWorld raw one two card).verifies der k = true → k = [5] := by
  rw [exAns_enrolled h]
  refine ⟨⟨_, List.mem_singleton.2 rfl, [5], ⟨[9], [5]⟩, rfl, rfl, rfl, rfl⟩, ?_⟩
  rintro k ⟨r, _, d, c, h1, h2, _, h4⟩ _
  have h1 : some [5] = some d := h1
  have h2 : some (⟨[9], d⟩ : IssuerCert) = some c := h2
  rw [← h4, ← Option.some.inj h2, ← Option.some.inj h1]

theorem exAns_plain (x : UInt8) : ¬ HasMarker (octetText [0x30, x, 0]) := by
  rintro ⟨a, b, h⟩
  have := congrArg List.length h
  have e : (octetText [0x30, x, 0]).length = 3 := rfl
  rw [e, List.length_append, List.length_append] at this
  have e2 : "-----BEGIN ".toList.length = 11 := rfl
  omega

/-- The certificate that the second run found revoked: the program updates itself and exits with 1. -/
example : (exAns.main (some .prod) .default (.x509 ["good".toList, "revoked".toList]) exSrvFs).1 = 1 := by
  refine (C121_revoked_partial exDec exBuild exContains exEnrolls exEnrolls_input (fun l => l) exInputOf (fun _ => []) (fun _ => exCov 0) exAns rfl .prod exOpsState exState_reach (fun y a prev _ => exState_generates y a prev) exSrvFs exAnsDb exAns_mirrors exAns_ready
    [exRec0, exRec1] exState_perm exState_chain _ "20240102-0".toList exAns_carry rfl [0x30, 2, 0] [5] (exClientCert 500 [2]) rfl rfl (fun enr h => exAns_issuer enr h _) rfl ?_ ?_).1 ["good".toList, "revoked".toList] "revoked".toList [0x30, 2, 0] (by decide)
    (by decide +kernel) (Or.inl ⟨exAns_plain 2, rfl⟩)
  · intro a prev hm
    rcases exMade hm with ⟨_, rfl⟩ | ⟨e, _⟩
    · rw [exInputOf_1]
      exact ⟨⟨_, List.mem_singleton.2 rfl, rfl, _, List.mem_singleton.2 rfl, by decide⟩, ⟨_, List.mem_singleton.2 rfl, rfl, _, rfl, 4, by decide, trivial⟩⟩
    · exact absurd e (by decide +kernel)
  · intro _ _ _ _ _ _ _
    exact ⟨([1], 500), List.mem_singleton.2 rfl, 0, 1000, if_pos rfl, by decide, by decide⟩

/-- The other one alone: it exits with 0. -/
example : (exAns.main (some .prod) .default (.x509 ["good".toList]) exSrvFs).1 = 0 := by
  refine (C121_not_revoked_partial exDec exBuild exContains exEnrolls exEnrolls_input (fun l => l) exInputOf (fun _ => []) (fun _ => exCov 0) exAns rfl .prod exOpsState exState_reach (fun y a prev _ => exState_generates y a prev) exSrvFs exAnsDb exAns_mirrors exAns_ready
    [exRec0, exRec1] exState_perm exState_chain _ "20240102-0".toList exAns_carry rfl (fun der => der = [0x30, 3, 0]) ?_).1 ["good".toList] ?_
  · rintro der rfl c hp enr spki henr hiss hver y hy a prev hm
    have hc : c = exClientCert 1500 [3] := (Option.some.inj hp).symm
    subst hc
    have hk : spki = [5] := (exAns_issuer enr henr _).2 spki hiss hver
    subst hk
    exact ⟨exState_unrevoked _ exAns_carry y hy a prev hm, fun h => absurd h exUncovered⟩
  · intro f hf
    rw [List.mem_singleton.1 hf]
    exact ⟨[0x30, 3, 0], [0x30, 3, 0], by decide +kernel, Or.inl ⟨exAns_plain 3, rfl⟩, rfl⟩

/-- The channel with the priority reasons. -/
example : (exAnsPr.main (some .prod) .compat (.x509 ["revoked".toList]) exSrvFs).1 = 1 := by
  refine (C121_priority_partial exPrDec exBuild exContains exEnrolls exEnrolls_input (fun l => l) exPrInput (fun _ => []) (fun _ => exCov 0) exAnsPr rfl .prod exPrState exPrState_reach (fun y a prev _ => exPrState_generates y a prev) exSrvFs exAnsDbPr
    (fun y a prev _ => exPrState_priority y a prev) exAnsPr_mirrors exAnsPr_ready
    [exPrRec0, exPrRec1] exPrState_perm exPrState_chain _ "20240102-0".toList exAnsPr_carry rfl [0x30, 2, 0] [5] (exClientCert 500 [2]) rfl rfl (fun enr h => exAns_issuer enr h _) rfl ?_ (exPr_last [2] (Or.inr rfl) _ _ exAnsPr_carry rfl) (fun _ _ _ _ _ _ _ => exPr_covered [2])).1 ["revoked".toList] "revoked".toList [0x30, 2, 0] (by decide)
    (by decide +kernel) (Or.inl ⟨exAns_plain 2, rfl⟩)
  intro x y _ a prev a' prev' hm _ _ hr _
  rcases exPrMade hm with ⟨_, rfl⟩ | ⟨_, rfl⟩
  · rw [exPrInput_1]
    exact ⟨_, List.mem_singleton.2 rfl, rfl, _, rfl, 1, by decide, List.mem_cons_self⟩
  · rw [exPrInput_0] at hr
    obtain ⟨i, hi, _, l, hl, c, hc, _⟩ := hr
    rw [List.mem_singleton.1 hi] at hl
    cases hl
    revert hc
    simp [exClientCert]

/-- And there for the certificate that is not revoked. -/
example : (exAnsPr.main (some .prod) .compat (.x509 ["good".toList]) exSrvFs).1 = 0 := by
  refine (C121_priority_clear_partial exPrDec exBuild exContains exEnrolls exEnrolls_input (fun l => l) exPrInput (fun _ => []) (fun _ => exCov 0) exAnsPr rfl .prod exPrState exPrState_reach (fun y a prev _ => exPrState_generates y a prev) exSrvFs exAnsDbPr
    (fun y a prev _ => exPrState_priority y a prev) exAnsPr_mirrors exAnsPr_ready
    [exPrRec0, exPrRec1] exPrState_perm exPrState_chain _ "20240102-0".toList exAnsPr_carry rfl (fun der => der = [0x30, 3, 0]) ?_).1 ["good".toList] ?_
  · rintro der rfl c hp enr spki henr hiss hver y hy a prev hm
    have hc : c = exClientCert 1500 [3] := (Option.some.inj hp).symm
    subst hc
    have hk : spki = [5] := (exAns_issuer enr henr _).2 spki hiss hver
    subst hk
    refine ⟨?_, fun _ => exPr_known [3] (Or.inr (Or.inr rfl)) hm⟩
    rcases exPrMade hm with ⟨_, rfl⟩ | ⟨_, rfl⟩
    · rw [exPrInput_1]
      rintro ⟨i, hi, _, l, hl, c, hc, _⟩
      rw [List.mem_singleton.1 hi] at hl
      cases hl
      revert hc
      simp [exClientCert]
    · rw [exPrInput_0]
      rintro ⟨i, hi, _, l, hl, c, hc, _⟩
      rw [List.mem_singleton.1 hi] at hl
      cases hl
      revert hc
      simp [exClientCert]
  · intro f hf
    rw [List.mem_singleton.1 hf]
    exact ⟨[0x30, 3, 0], [0x30, 3, 0], by decide +kernel, Or.inl ⟨exAns_plain 3, rfl⟩, rfl⟩

end Verif.Props
