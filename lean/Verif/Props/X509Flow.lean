import Verif.Props.X509
import Verif.Props.Flow
/-!
C108 from the logs and the CRLs to the exit status of the query program: C83 for the runs, C107 for the program, C108 for the certificates.
-/
namespace Verif.Props
open Verif.Spec

section
variable {F : Type} (build : List Bytes → List (Bytes × Bool) → Option F) (contains : F → Bytes → Bool) (enrolls : F → Bytes → Bool) (he : EnrollsInput build enrolls) (order : List Text → List Text) (rs : ReasonSet)
  (C : RunChain build contains order rs) (cov : Nat → Coverage) {H : Bytes → Bytes} {mt : Meta} {w : World} {env : Env} (hid : ∀ log, (mt.id log).length = 32) (hH : ∀ x, (env.H x).length = 32)
  (K : ∀ m, Spec.KnownRun H mt w env (C.W m) (cov m)) (L : ∀ m, Spec.CrlRun (C.W m))
  (X : X509World) (W : QueryWorld (Card F)) (hW : W.has = cardHas enrolls contains) (hWp : W.parse = readClient X) (hWi : W.parseIssuer = readIssuer X) (update : Option Instance) (chan : ClientChannel) (fs : Files) (db : LoadedDb (Card F))
  (hr : Ready W update chan fs db) (recs : List Text) (hlook : ∀ verifies dn, lookupSpki W.parseIssuer verifies db.inters dn = lookupSpki W.parseIssuer verifies (fromEnrolled W.pem W.parseIssuer recs) dn)
  (f fi : CertFields) (tbs der itbs ider : Bytes) (h : CertificateBytes X f tbs der) (hl : der.length < 2 ^ 64) (hi : CertificateBytes X fi itbs ider) (hil : ider.length < 2 ^ 64) (r : Text) (hrm : r ∈ recs) (hrp : W.pem r = some ider)
  (hname : fi.subject = f.issuer) (hver : ∀ k, W.verifies der k = true ↔ k = fi.spki) (l : List (Bytes × Nat)) (hs : ExtScts f.exts l) (hv : f.valid = true)

include hWi hlook hi hil hrm hrp hname hver in
theorem issuer_found : lookupSpki W.parseIssuer (W.verifies der) db.inters f.issuer = some fi.spki := by
  have hic := C108_issuer X fi itbs ider [] hi hil
  rw [List.append_nil] at hic
  rw [hlook]
  obtain ⟨h1, h2⟩ := C63_enrolled W.pem W.parseIssuer (W.verifies der) recs f.issuer
  obtain ⟨k, hk⟩ := h2 ⟨r, hrm, ider, ⟨fi.subject, fi.spki⟩, hrp, by rw [hWi]; exact hic, hname, (hver _).2 rfl⟩
  obtain ⟨_, _, _, _, _, _, _, _, hvk⟩ := h1 k hk
  rw [hk, (hver k).1 hvk]

include hWp h hl hs in
theorem client_read : W.parse der = some ⟨f.issuer, f.serial, l, f.valid⟩ := by
  have hc := C108_client X f tbs der [] h hl l hs
  rw [List.append_nil] at hc
  rw [hWp]
  exact hc

include he hid hH L hW hWp hWi hr hlook h hl hi hil hrm hrp hname hver hs hv in
/-- **C108, from the logs and the CRLs to exit status 1.** Full statement: without `hbefore`. Proved: in every sequence of runs of the whole system, if the octets of a certificate and of its issuer's certificate are as in RFC 5280, its timestamps are honest and run `n` covers one of them, the issuer is
enrolled and the serial number is on one of its CRLs in run `n`, then the query program with the filters of the runs up to `n` exits with status 1 for this certificate, provided the earlier runs in which it was on a CRL covered it too. -/
theorem C108_logs_revoked_partial (n : Nat) (hcards : ∀ k ∈ C.cards cov n, k ∈ db.filters) (na : Nat) (hy : yearOf na ≤ 9999) (hen : (K n).enrolled (issuerID (W.sha fi.spki)) = true)
    (hlive : (K n).a.clock < ((na / 3600 * 3600 : Nat) : Int) * 1000) (hh : Spec.HonestScts (cov n) (K n).sts H mt w env l (W.sha fi.spki) f.serial na) (hc : Covers (cov n) l)
    (hcrl : ∃ u ∈ (L n).units, u.issuer = issuerID (W.sha fi.spki) ∧ Spec.OnCrl (L n).disk u rs f.serial)
    (hbefore : ∀ m < n, (∃ u ∈ (L m).units, u.issuer = issuerID (W.sha fi.spki) ∧ Spec.OnCrl (L m).disk u rs f.serial) → Covers (cov m) l) :
    (∀ files name input, name ∈ files → W.file name = some (some input) → FileHolds input der → (W.main update chan (.x509 files) fs).1 = 1) ∧
    ∀ hosts i host, hosts[i]? = some host → Served W i host der → (W.main update chan (.https hosts) fs).1 = 1 := by
  have hfound := issuer_found X W hWi db recs hlook f fi der itbs ider hi hil r hrm hrp hname hver
  have hp := client_read X W hWp f tbs der h hl l hs
  have key : RevokedCert W db der := by
    have := C83_revoked_partial build contains enrolls he order rs C cov W.sha W.parseIssuer (W.verifies der) db.inters hid hH K L n ⟨f.issuer, f.serial, l, f.valid⟩ fi.spki hfound hv na hy hen hlive hh hc hcrl hbefore
    rw [C63_revoked_iff] at this
    obtain ⟨spki', h1, h2, k, h3, h4⟩ := this
    exact ⟨_, hp, spki', h1, h2, k, hcards k h3, by rw [hW]; exact h4⟩
  refine ⟨fun files name input hf hi hh => C107_revoked_file W update chan fs db hr files name hf input der hi hh key, fun hosts i host hi hs => ?_⟩
  refine exit_one_of_not_zero W update chan _ fs (fun h0 => ?_)
  obtain ⟨d, h1, h2⟩ := (C107_hosts W update chan fs db hr hosts).1 h0 i host hi
  rw [C107_served_unique W i host d der h1 hs] at h2
  exact h2 key

include he hid hH L hW hWp hWi hr hlook h hl hi hil hrm hrp hname hver hs hv in
/-- **C108, from the logs and the CRLs to exit status 0.** If the serial number was on no CRL of the issuer in any of the runs whose filters are loaded, and the timestamps are honest, a file with the certificate gives exit status 0, and so does a host that serves it. -/
theorem C108_logs_clear (n : Nat) (hcards : ∀ k ∈ db.filters, k ∈ C.cards cov n) (na : Nat) (hy : yearOf na ≤ 9999) (hen : ∀ m ≤ n, (K m).enrolled (issuerID (W.sha fi.spki)) = true)
    (hlive : ∀ m ≤ n, (K m).a.clock < ((na / 3600 * 3600 : Nat) : Int) * 1000) (hh : ∀ m ≤ n, Spec.HonestScts (cov m) (K m).sts H mt w env l (W.sha fi.spki) f.serial na)
    (hcrl : ∀ m ≤ n, ∀ u ∈ (L m).units, u.issuer = issuerID (W.sha fi.spki) → ¬ Spec.OnCrl (L m).disk u rs f.serial) :
    (∀ name input, W.file name = some (some input) → FileHolds input der → (W.main update chan (.x509 [name]) fs).1 = 0) ∧
    ∀ host, Served W 0 host der → (W.main update chan (.https [host]) fs).1 = 0 := by
  have hfound := issuer_found X W hWi db recs hlook f fi der itbs ider hi hil r hrm hrp hname hver
  have hp := client_read X W hWp f tbs der h hl l hs
  have key : ¬ RevokedCert W db der := by
    rintro ⟨c, h1, spki', h2, h3, k, h4, h5⟩
    rw [hp] at h1
    cases h1
    refine (C83_not_revoked_partial build contains enrolls he order rs C cov W.sha W.parseIssuer (W.verifies der) db.inters hid hH K L n ⟨f.issuer, f.serial, l, f.valid⟩ fi.spki hfound hv na hy hen hlive hh hcrl).1 ?_
    rw [C63_revoked_iff]
    exact ⟨spki', h2, h3, k, hcards k h4, by rw [← hW]; exact h5⟩
  constructor
  · intro name input h1 h2
    refine (C107_files_partial W update chan fs db hr [name] (fun x hx => ?_)).2.2 (fun x hx i d h3 h4 => ?_)
    · rw [List.mem_singleton.1 hx]
      exact ⟨input, der, h1, h2⟩
    · rw [List.mem_singleton.1 hx, h1] at h3
      cases h3
      rw [← queryOctets_holds h4, queryOctets_holds h2]
      exact key
  · intro host hs
    rw [C107_hosts W update chan fs db hr]
    intro i x hx
    cases i with
    | zero => cases hx; exact ⟨der, hs, key⟩
    | succ i => cases hx

end

/-! ### examples -/

/-- A timestamp of 3000 by the log 0. -/
def fSct : Bytes := 0 :: (List.replicate 32 0 ++ ([0, 0, 0, 0, 0, 0, 11, 184] ++ ([0, 0] ++ (4 :: 3 :: [0, 0]))))

def fSctValue : Bytes := exEl 4 false ([0, 49] ++ ([0, 47] ++ fSct))

theorem fSctValue_bytes : SctValue [(List.replicate 32 0, 3000)] fSctValue :=
  ⟨[0, 47] ++ fSct, [0, 49] ++ ([0, 47] ++ fSct), ⟨_, [], ⟨fSct, ⟨by decide, 0, 4, 3, [0, 0, 0, 0, 0, 0, 11, 184], [], [0, 0], [], [0, 0], ⟨rfl, by decide⟩, ⟨[0, 0], ⟨rfl, by decide⟩, rfl⟩, ⟨[0, 0], ⟨rfl, by decide⟩, rfl⟩, rfl⟩,
    ⟨[0, 47], ⟨rfl, by decide⟩, rfl⟩⟩, rfl, by simp⟩, ⟨[0, 49], ⟨rfl, by decide⟩, rfl⟩, exEl_element _ _ _ (by decide) (by decide)⟩

/-- The certificate of entry 2 of the log of C83. -/
def fXCert : Bytes := exCertificate [1, 2] (exEl 16 true []) (exSctExt fSctValue)

theorem fXCert_bytes : CertificateBytes exX (exFields [1, 2] (exEl 16 true []) [⟨sctArcs, none, fSctValue⟩]) (exTbs [1, 2] (exEl 16 true []) (exSctExt fSctValue)) fXCert :=
  (exCertificate_bytes 1 [2] [] [⟨sctArcs, none, fSctValue⟩] (exSctExt fSctValue) ⟨_, [], exSctExt_bytes _ (by decide), rfl, by simp⟩ (by decide)).1

theorem fScts : ExtScts [⟨sctArcs, none, fSctValue⟩] [(List.replicate 32 0, 3000)] := Or.inr ⟨[], _, [], rfl, rfl, (fun x hx => by cases hx), fSctValue_bytes⟩

/-- A world with the filters of the runs of C83, of which the files have one octet. -/
def fXQuery : QueryWorld (Card (List Bytes)) :=
  { exXQuery with
    sha := fun _ => fDigest
    file := fun _ => some (some fXCert)
    fromBytes := fun b => (fChain.cards fCov 1)[(b.headD 9).toNat]? }

def fXInter : Intermediates := fromEnrolled (fun _ => some exXIssuer) (readIssuer exX) [[]]

/-- The database after the second run, and after the first. -/
def fXFiles : Files := [("20240102-0-default.delta".toList, [1]), ("20240101-0-default.filter".toList, [0]), (interName, binMap fXInter)]

def fXFirst : Files := [("20240101-0-default.filter".toList, [0]), (interName, binMap fXInter)]

theorem fXCert_plain : ¬ HasMarker (octetText fXCert) := by
  rintro ⟨a, b, h⟩
  have : '-' ∈ octetText fXCert := by rw [h]; simp
  exact absurd this (by decide +kernel)

/-- From the log and the CRL of C83 to the exit status: 1 after the second run. -/
example : (fXQuery.main none .default (.x509 ["file".toList]) fXFiles).1 = 1 := by
  refine (C108_logs_revoked_partial exBuild exContains exEnrolls exEnrolls_input (fun l => l) .all fChain fCov wMeta_id (fun _ => rfl) fKnownRun fCrlRun exX fXQuery rfl rfl rfl none .default fXFiles
    ⟨[⟨(fChain.out 1).deltaFilter, fCov 1⟩, ⟨(fChain.out 0).filter, fCov 0⟩], fXInter⟩ ⟨rfl, _, fXFiles, Or.inl ⟨rfl, rfl⟩, ?_⟩ [[]] (fun _ _ => rfl) _ _ _ fXCert _ exXIssuer fXCert_bytes (by decide)
    (exCertificate_bytes 2 [] [1] [] [] rfl (by decide)).1 (by decide) [] (List.mem_singleton.2 rfl) rfl rfl (fun k => beq_iff_eq) _ fScts rfl 1 ?_ 1700002800 (by decide +kernel) rfl (by show fAgg.clock < _; decide +kernel) (fHonest _) (fCovers _)
    ⟨fUnit, List.mem_singleton.2 rfl, rfl,
      fun p hp => ⟨[([1, 2], 1)], by rw [List.mem_singleton.1 hp]; exact ⟨_, _, _, rfl, rfl, rfl, rfl, rfl⟩⟩,
      _, List.mem_singleton.2 rfl, [([1, 2], 1)], 1, ⟨_, _, _, rfl, rfl, rfl, rfl, rfl⟩, by decide, trivial⟩
    (fun _ _ _ => fCovers _)).1 ["file".toList] "file".toList fXCert (List.mem_singleton.2 rfl) rfl (Or.inl ⟨fXCert_plain, rfl⟩)
  · rfl
  · intro k hk
    rcases (fChain.mem_cards fCov 1 k).1 hk with rfl | ⟨m, hm, rfl⟩
    · exact List.mem_cons_of_mem _ List.mem_cons_self
    · have : m = 0 := by omega
      subst this
      exact List.mem_cons_self

/-- After the first run, in which the CRL did not have it: 0. -/
example : (fXQuery.main none .default (.x509 ["file".toList]) fXFirst).1 = 0 := by
  refine (C108_logs_clear exBuild exContains exEnrolls exEnrolls_input (fun l => l) .all fChain fCov wMeta_id (fun _ => rfl) fKnownRun fCrlRun exX fXQuery rfl rfl rfl none .default fXFirst
    ⟨[⟨(fChain.out 0).filter, fCov 0⟩], fXInter⟩ ⟨rfl, _, fXFirst, Or.inl ⟨rfl, rfl⟩, ?_⟩ [[]] (fun _ _ => rfl) _ _ _ fXCert _ exXIssuer fXCert_bytes (by decide)
    (exCertificate_bytes 2 [] [1] [] [] rfl (by decide)).1 (by decide) [] (List.mem_singleton.2 rfl) rfl rfl (fun k => beq_iff_eq) _ fScts rfl 0 ?_ 1700002800 (by decide +kernel) (fun _ _ => rfl) (fun _ _ => by show fAgg.clock < _; decide +kernel)
    (fun _ _ => fHonest _) ?_).1 "file".toList fXCert rfl (Or.inl ⟨fXCert_plain, rfl⟩)
  · rfl
  · intro k hk
    rw [List.mem_singleton.1 hk]
    exact (fChain.mem_cards fCov 0 _).2 (Or.inl rfl)
  · intro m hm u hu _ h
    cases Nat.le_zero.1 hm
    obtain ⟨_, p, hp, l, c, ⟨q, f, es, h1, h2, h3, h4, h5⟩, h6, _⟩ := h
    rw [List.mem_singleton.1 hu] at hp
    rw [List.mem_singleton.1 hp] at h1
    cases h1
    cases h2
    cases h4
    cases l with
    | nil => cases h6
    | cons x y => cases h5

end Verif.Props
