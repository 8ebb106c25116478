import Verif.Model.Leaf
import Verif.Props.Fetch
/-!
Property C75: which part of an entry the log has committed to.
-/
namespace Verif.Spec

/-- A certificate in a list, with its length. -/
def certBytes (c : Bytes) : Bytes := beBytes 3 c.length ++ c

/-- A list of certificates, with its length (RFC 6962 section 4.6). -/
def chainBytes (cs : List Bytes) : Bytes := beBytes 3 (cs.map certBytes).flatten.length ++ (cs.map certBytes).flatten

/-- Certificates that fit the format. -/
def CertFits (c : Bytes) : Prop := 1 ≤ c.length ∧ c.length < 256 ^ 3

/-- A chain that fits the format. -/
def ChainFits (cs : List Bytes) : Prop := (∀ c ∈ cs, CertFits c) ∧ (cs.map certBytes).flatten.length < 256 ^ 3

/-- A body that fits the format. -/
def BodyFits : LeafBody → Prop
  | .x509 c => CertFits c
  | .precert k t => k.length = 32 ∧ CertFits t

end Verif.Spec

namespace Verif.Props
open Verif.Spec

theorem beBytes_length (n k : Nat) : (beBytes n k).length = n := by
  induction n with
  | zero => rfl
  | succ n ih => rw [beBytes, List.length_cons, ih]

theorem readBE_beBytes (n k acc : Nat) (rest : Bytes) : readBE n acc (beBytes n k ++ rest) = some (acc * 256 ^ n + k % 256 ^ n, rest) := by
  induction n generalizing acc with
  | zero => simp [beBytes, readBE, Nat.mod_one]
  | succ n ih =>
    rw [beBytes, List.cons_append, readBE, ih]
    have h1 : (UInt8.ofNat (k / 256 ^ n % 256)).toNat = k / 256 ^ n % 256 := by
      rw [UInt8.toNat_ofNat']
      omega
    rw [h1, Option.some.injEq, Prod.mk.injEq]
    refine ⟨?_, rfl⟩
    have h2 : k % 256 ^ (n + 1) = k % 256 ^ n + 256 ^ n * (k / 256 ^ n % 256) := by
      rw [Nat.pow_succ, Nat.mod_mul]
    rw [h2, Nat.pow_succ, Nat.add_mul, Nat.mul_assoc, Nat.mul_comm 256 (256 ^ n), Nat.mul_comm (k / 256 ^ n % 256) (256 ^ n)]
    omega

theorem readBE_beBytes_lt {n k : Nat} (h : k < 256 ^ n) (rest : Bytes) : readBE n 0 (beBytes n k ++ rest) = some (k, rest) := by
  rw [readBE_beBytes, Nat.mod_eq_of_lt h, Nat.zero_mul, Nat.zero_add]

theorem readN_append {k : Nat} (a rest : Bytes) (h : a.length = k) : readN k (a ++ rest) = some (a, rest) := by
  unfold readN
  rw [if_neg (by rw [List.length_append]; omega), List.take_left' h, List.drop_left' h]

theorem readOpaque_bytes {n lo : Nat} (a rest : Bytes) (h : a.length < 256 ^ n) (hlo : lo ≤ a.length) : readOpaque n lo (beBytes n a.length ++ (a ++ rest)) = some (a, rest) := by
  unfold readOpaque
  rw [readBE_beBytes_lt h]
  dsimp only
  rw [if_neg (by omega), readN_append a rest rfl]

theorem readCerts_bytes (cs : List Bytes) (h : ∀ c ∈ cs, CertFits c) : ∀ fuel, (cs.map certBytes).flatten.length ≤ fuel → readCerts fuel (cs.map certBytes).flatten = some cs := by
  induction cs with
  | nil =>
    intro fuel _
    cases fuel <;> rfl
  | cons c cs ih =>
    intro fuel hfuel
    obtain ⟨h1, h2⟩ := h c List.mem_cons_self
    have hflat : ((c :: cs).map certBytes).flatten = beBytes 3 c.length ++ (c ++ (cs.map certBytes).flatten) := by
      rw [List.map_cons, List.flatten_cons, certBytes, List.append_assoc]
    have hlen : ((c :: cs).map certBytes).flatten.length = 3 + (c.length + (cs.map certBytes).flatten.length) := by
      rw [hflat, List.length_append, List.length_append, beBytes_length]
    rw [hlen] at hfuel
    rw [hflat]
    cases fuel with
    | zero => omega
    | succ fuel =>
      have hro := readOpaque_bytes (n := 3) (lo := 1) c (cs.map certBytes).flatten h2 h1
      have hne : ∃ x t, beBytes 3 c.length ++ (c ++ (cs.map certBytes).flatten) = x :: t := ⟨_, _, rfl⟩
      obtain ⟨x, t, hxt⟩ := hne
      rw [hxt] at hro ⊢
      unfold readCerts
      rw [hro]
      dsimp only
      rw [ih (fun c hc => h c (List.mem_cons_of_mem _ hc)) fuel (by omega)]

theorem readChain_bytes {cs : List Bytes} (h : ChainFits cs) : readChain (chainBytes cs) = some cs := by
  unfold readChain chainBytes
  have := readOpaque_bytes (n := 3) (lo := 0) (cs.map certBytes).flatten [] h.2 (Nat.zero_le _)
  rw [List.append_nil] at this
  rw [this]
  dsimp only
  rw [if_pos rfl, readCerts_bytes cs h.1 _ (Nat.le_refl _)]

/-- The leaf format can be read back. -/
theorem parseLeaf_bytes {ts : Nat} {body : LeafBody} {ext : Bytes} (hts : ts < 2 ^ 64) (hb : BodyFits body) (he : ext.length < 65536) : parseLeaf (leafBytes ts body ext) = some (ts, body) := by
  unfold parseLeaf leafBytes
  dsimp only
  rw [if_neg (by decide), readBE_beBytes_lt (by simpa using hts)]
  dsimp only
  have hext : readOpaque 2 0 (beBytes 2 ext.length ++ ext) = some (ext, []) := by
    have := readOpaque_bytes (n := 2) (lo := 0) ext [] (by simpa using he) (Nat.zero_le _)
    rw [List.append_nil] at this
    exact this
  cases body with
  | x509 c =>
    unfold bodyBytes
    rw [List.append_assoc, readBE_beBytes_lt (by decide)]
    dsimp only
    rw [if_pos rfl, List.append_assoc, readOpaque_bytes c _ hb.2 hb.1]
    dsimp only
    rw [hext]
    dsimp only
    rw [if_pos rfl]
  | precert k t =>
    unfold bodyBytes
    rw [List.append_assoc, readBE_beBytes_lt (by decide)]
    dsimp only
    rw [if_neg (by decide), if_pos rfl, List.append_assoc, readN_append k _ hb.1]
    dsimp only
    rw [List.append_assoc, readOpaque_bytes t _ hb.2.2 hb.2.1]
    dsimp only
    rw [hext]
    dsimp only
    rw [if_pos rfl]

theorem beBytes_add (n a j : Nat) : beBytes n (a * 256 ^ n + j) = beBytes n j := by
  induction n generalizing a with
  | zero => rfl
  | succ n ih =>
    have hp : 0 < 256 ^ n := Nat.pow_pos (by decide)
    have e : a * 256 ^ (n + 1) + j = j + 256 ^ n * (a * 256) := by
      rw [Nat.pow_succ, Nat.mul_comm (256 ^ n) (a * 256), Nat.mul_assoc, Nat.mul_comm 256 (256 ^ n), Nat.add_comm]
    have h1 : (a * 256 ^ (n + 1) + j) / 256 ^ n % 256 = j / 256 ^ n % 256 := by
      rw [e, Nat.add_mul_div_left _ _ hp, Nat.add_mul_mod_self_right]
    have h2 : beBytes n (a * 256 ^ (n + 1) + j) = beBytes n j := by
      rw [← ih (a * 256), e, Nat.add_comm, Nat.mul_comm]
    rw [beBytes, beBytes, h1, h2]

theorem readBE_some {n acc k : Nat} {b r : Bytes} (h : readBE n acc b = some (k, r)) : ∃ j, j < 256 ^ n ∧ k = acc * 256 ^ n + j ∧ b = beBytes n j ++ r := by
  induction n generalizing acc b with
  | zero =>
    rw [readBE, Option.some.injEq, Prod.mk.injEq] at h
    exact ⟨0, by decide, by omega, h.2⟩
  | succ n ih =>
    cases b with
    | nil => cases h
    | cons x b =>
      rw [readBE] at h
      obtain ⟨j, h1, h2, h3⟩ := ih h
      have hx := x.toNat_lt
      have hp : 0 < 256 ^ n := Nat.pow_pos (by decide)
      refine ⟨x.toNat * 256 ^ n + j, ?_, ?_, ?_⟩
      · have : x.toNat * 256 ^ n + 256 ^ n ≤ 256 * 256 ^ n := by
          rw [← Nat.succ_mul]
          exact Nat.mul_le_mul_right _ hx
        rw [Nat.pow_succ, Nat.mul_comm (256 ^ n) 256]
        omega
      · rw [h2, Nat.add_mul, Nat.pow_succ, Nat.mul_comm (256 ^ n) 256, ← Nat.mul_assoc]
        omega
      · have hd : (x.toNat * 256 ^ n + j) / 256 ^ n % 256 = x.toNat := by
          rw [Nat.mul_comm, Nat.mul_add_div hp, Nat.div_eq_of_lt h1]
          omega
        rw [beBytes, beBytes_add, List.cons_append, ← h3, hd, UInt8.ofNat_toNat]

theorem readBE_zero_some {n k : Nat} {b r : Bytes} (h : readBE n 0 b = some (k, r)) : k < 256 ^ n ∧ b = beBytes n k ++ r := by
  obtain ⟨j, h1, h2, h3⟩ := readBE_some h
  have : k = j := by omega
  subst this
  exact ⟨h1, h3⟩

theorem readN_some {k : Nat} {b a r : Bytes} (h : readN k b = some (a, r)) : a.length = k ∧ b = a ++ r := by
  unfold readN at h
  split at h
  · cases h
  · rw [Option.some.injEq, Prod.mk.injEq] at h
    rw [← h.1, ← h.2]
    exact ⟨by rw [List.length_take]; omega, (List.take_append_drop _ _).symm⟩

theorem readOpaque_some {n lo : Nat} {b a r : Bytes} (h : readOpaque n lo b = some (a, r)) : a.length < 256 ^ n ∧ lo ≤ a.length ∧ b = beBytes n a.length ++ (a ++ r) := by
  unfold readOpaque at h
  split at h
  · cases h
  · rename_i k b' hk
    split at h
    · cases h
    · obtain ⟨h1, h2⟩ := readBE_zero_some hk
      obtain ⟨h3, h4⟩ := readN_some h
      rw [h3, h2, h4]
      exact ⟨h1, by omega, rfl⟩

/-- What is read as a leaf is a leaf, up to the byte of the version, and nothing else. -/
theorem parseLeaf_some {b : Bytes} {ts : Nat} {body : LeafBody} (h : parseLeaf b = some (ts, body)) :
    ∃ v ext, ts < 2 ^ 64 ∧ BodyFits body ∧ ext.length < 65536 ∧ b = v :: (leafBytes ts body ext).tail := by
  unfold parseLeaf at h
  split at h
  · rename_i v t b
    split at h
    · cases h
    · rename_i ht
      have ht : t = 0 := by
        have : t.toNat = 0 := by omega
        exact UInt8.toNat_inj.1 this
      split at h
      · cases h
      · rename_i ts' b1 h1
        obtain ⟨t1, t2⟩ := readBE_zero_some h1
        split at h
        · cases h
        · rename_i ty b2 h2
          obtain ⟨y1, y2⟩ := readBE_zero_some h2
          split at h
          · rename_i hy
            split at h
            · cases h
            · rename_i c b3 h3
              obtain ⟨c1, c2, c3⟩ := readOpaque_some h3
              split at h
              · cases h
              · rename_i ext rest h4
                obtain ⟨e1, _, e3⟩ := readOpaque_some h4
                split at h
                · rename_i hr
                  rw [Option.some.injEq, Prod.mk.injEq] at h
                  obtain ⟨rfl, rfl⟩ := h
                  refine ⟨v, ext, by simpa using t1, ⟨c2, c1⟩, by simpa using e1, ?_⟩
                  rw [hr, List.append_nil] at e3
                  rw [t2, y2, c3, e3, ht, hy]
                  simp [leafBytes, bodyBytes]
                · cases h
          · split at h
            · rename_i hy
              split at h
              · cases h
              · rename_i k b3 h3
                obtain ⟨k1, k2⟩ := readN_some h3
                split at h
                · cases h
                · rename_i c b4 h4
                  obtain ⟨c1, c2, c3⟩ := readOpaque_some h4
                  split at h
                  · cases h
                  · rename_i ext rest h5
                    obtain ⟨e1, _, e3⟩ := readOpaque_some h5
                    split at h
                    · rename_i hr
                      rw [Option.some.injEq, Prod.mk.injEq] at h
                      obtain ⟨rfl, rfl⟩ := h
                      refine ⟨v, ext, by simpa using t1, ⟨k1, c2, c1⟩, by simpa using e1, ?_⟩
                      rw [hr, List.append_nil] at e3
                      rw [t2, y2, k2, c3, e3, ht, hy]
                      simp [leafBytes, bodyBytes]
                    · cases h
            · cases h
  · cases h

/-- **C75 (accepted leaves).** An entry is accepted only if its leaf consists, byte for byte and with nothing behind it, of a timestamp, a certificate (or key digest and precertificate body) and extensions; timestamp and, for an X.509
entry, certificate of the entry are those. Only the first byte, the version, is not looked at. -/
theorem C75_accepted_leaves (pc : Bytes → Option Cert) (input extra : Bytes) (e : RawEntry) (h : rawEntryFromLeaf pc input extra = some e) :
    ∃ v body ext, e.timestamp < 2 ^ 64 ∧ BodyFits body ∧ ext.length < 65536 ∧ input = v :: (leafBytes e.timestamp body ext).tail ∧
      (e.precert = false → ∃ c, body = .x509 c ∧ e.cert = pc c) ∧ (e.precert = true → ∃ k t, body = .precert k t) := by
  unfold rawEntryFromLeaf at h
  split at h
  · cases h
  · rename_i ts c hp
    obtain ⟨v, ext, h1, h2, h3, h4⟩ := parseLeaf_some hp
    split at h
    · cases h
    · rw [Option.some.injEq] at h
      subst h
      exact ⟨v, _, ext, h1, h2, h3, h4, fun _ => ⟨c, rfl, rfl⟩, (fun e => by cases e)⟩
  · rename_i ts k t hp
    obtain ⟨v, ext, h1, h2, h3, h4⟩ := parseLeaf_some hp
    split at h
    · cases h
    · split at h
      · cases h
      · rw [Option.some.injEq] at h
        subst h
        exact ⟨v, _, ext, h1, h2, h3, h4, (fun e => by cases e), fun _ => ⟨k, t, rfl⟩⟩

example : (rawEntryFromLeaf (fun _ => none) (leafBytes 5 (.x509 [1, 2]) []) (chainBytes [])).isSome = true ∧
    rawEntryFromLeaf (fun _ => none) (leafBytes 5 (.x509 [1, 2]) [] ++ [0]) (chainBytes []) = none := by decide +kernel

/-- **C75 (partial).** For an X.509 entry, whatever extra data the server sends along, the serial, the expiry and the timestamp that are stored are those of the certificate in the leaf, which the log has committed to. Missing: the
issuer, and precertificates; see below. -/
theorem C75_x509_partial (pc : Bytes → Option Cert) (keep : Bool) (now ts : Nat) (c ext extra : Bytes) (hts : ts < 2 ^ 64) (hc : CertFits c) (he : ext.length < 65536) (e : RawEntry) (i : Item)
    (h : rawEntryFromLeaf pc (leafBytes ts (.x509 c) ext) extra = some e) (hs : storeLogEntry keep now e = .store i) : ∃ cert, pc c = some cert ∧ i.serial = cert.serial ∧ i.notAfter = cert.notAfter ∧ i.timestamp = ts := by
  unfold rawEntryFromLeaf at h
  rw [parseLeaf_bytes hts (show BodyFits (.x509 c) from hc) he] at h
  dsimp only at h
  cases hr : readChain extra with
  | none => rw [hr] at h; cases h
  | some chain =>
    rw [hr, Option.some.injEq] at h
    obtain ⟨cert, issuer, h1, _, _, h2⟩ := (C27_stored_iff keep now e i).1 hs
    rw [← h] at h1 h2
    exact ⟨cert, h1, by rw [h2], by rw [h2], by rw [h2]⟩

/-- **C75 (partial).** More generally: for one and the same leaf that is an X.509 entry, no two answers of a server lead to different serials, expiries or timestamps. -/
theorem C75_x509_determined_partial (pc : Bytes → Option Cert) (keep : Bool) (now now' : Nat) (input extra extra' : Bytes) (e e' : RawEntry) (i i' : Item) (h : rawEntryFromLeaf pc input extra = some e)
    (h' : rawEntryFromLeaf pc input extra' = some e') (hx : e.precert = false) (hs : storeLogEntry keep now e = .store i) (hs' : storeLogEntry keep now' e' = .store i') :
    i.serial = i'.serial ∧ i.notAfter = i'.notAfter ∧ i.timestamp = i'.timestamp := by
  unfold rawEntryFromLeaf at h h'
  cases hp : parseLeaf input with
  | none => rw [hp] at h; cases h
  | some r =>
    obtain ⟨ts, body⟩ := r
    rw [hp] at h h'
    cases body with
    | x509 c =>
      dsimp only at h h'
      cases hr : readChain extra with
      | none => rw [hr] at h; cases h
      | some ch =>
        cases hr' : readChain extra' with
        | none => rw [hr'] at h'; cases h'
        | some ch' =>
          rw [hr, Option.some.injEq] at h
          rw [hr', Option.some.injEq] at h'
          obtain ⟨x, y, a1, _, _, a2⟩ := (C27_stored_iff keep now e i).1 hs
          obtain ⟨x', y', b1, _, _, b2⟩ := (C27_stored_iff keep now' e' i').1 hs'
          rw [← h] at a1 a2
          rw [← h'] at b1 b2
          dsimp only at a1 b1
          rw [a1, Option.some.injEq] at b1
          rw [a2, b2, b1]
          exact ⟨rfl, rfl, rfl⟩
    | precert k t =>
      exfalso
      dsimp only at h
      cases hr : readOpaque 3 1 extra with
      | none => rw [hr] at h; cases h
      | some q =>
        rw [hr] at h
        dsimp only at h
        cases hr2 : readChain q.2 with
        | none => rw [hr2] at h; cases h
        | some ch =>
          rw [hr2, Option.some.injEq] at h
          rw [← h] at hx
          cases hx

/-- **C75 fails for precertificates.** For every precertificate entry of a log, and every certificate and issuer that the server likes to name, there are extra data with which the serial and expiry of that certificate are stored. -/
theorem C75_precert_fails (pc : Bytes → Option Cert) (keep : Bool) (now ts : Nat) (k tbs ext : Bytes) (hts : ts < 2 ^ 64) (hb : BodyFits (.precert k tbs)) (he : ext.length < 65536)
    (p q : Bytes) (hp : CertFits p) (hq : ChainFits [q]) (c issuer : Cert) (hc : pc p = some c) (hi : pc q = some issuer) (hpre : issuer.preIssuer = false) (hexp : now ≤ c.notAfter) :
    ∃ extra e, rawEntryFromLeaf pc (leafBytes ts (.precert k tbs) ext) extra = some e ∧ storeLogEntry keep now e = .store ⟨c.serial, c.notAfter, issuer.key, ts⟩ := by
  refine ⟨beBytes 3 p.length ++ (p ++ chainBytes [q]), ⟨ts, true, some c, [some issuer]⟩, ?_, ?_⟩
  · unfold rawEntryFromLeaf
    rw [parseLeaf_bytes hts hb he]
    dsimp only
    rw [readOpaque_bytes p _ hp.2 hp.1]
    dsimp only
    rw [readChain_bytes hq]
    dsimp only
    rw [hc, List.map_singleton, hi]
  · exact (C27_stored_iff keep now _ _).2 ⟨c, issuer, rfl, Or.inl hexp, Or.inl ⟨[], rfl, hpre⟩, rfl⟩

/-- **C75 fails for issuers.** The issuer is taken from the extra data also for X.509 entries: a server can have a certificate stored under any issuer. -/
theorem C75_issuer_fails (pc : Bytes → Option Cert) (keep : Bool) (now ts : Nat) (x ext : Bytes) (hts : ts < 2 ^ 64) (hb : BodyFits (.x509 x)) (he : ext.length < 65536)
    (q : Bytes) (hq : ChainFits [q]) (c issuer : Cert) (hc : pc x = some c) (hi : pc q = some issuer) (hpre : issuer.preIssuer = false) (hexp : now ≤ c.notAfter) :
    ∃ extra e, rawEntryFromLeaf pc (leafBytes ts (.x509 x) ext) extra = some e ∧ storeLogEntry keep now e = .store ⟨c.serial, c.notAfter, issuer.key, ts⟩ := by
  refine ⟨chainBytes [q], ⟨ts, false, some c, [some issuer]⟩, ?_, ?_⟩
  · unfold rawEntryFromLeaf
    rw [parseLeaf_bytes hts hb he]
    dsimp only
    rw [readChain_bytes hq]
    dsimp only
    rw [hc, List.map_singleton, hi]
  · exact (C27_stored_iff keep now _ _).2 ⟨c, issuer, rfl, Or.inl hexp, Or.inl ⟨[], rfl, hpre⟩, rfl⟩

/-- **C75.** The check of the Merkle tree does not notice: it is the same for two entries with the same leaf and different extra data. -/
theorem C75_verifier_blind (env : Env) (d : Download) (l l' : Leaf) (d1 d2 : Download) (hin : l.input = l'.input) (h1 : takeEntry env d l = some d1) (h2 : takeEntry env d l' = some d2) (e e' : RawEntry)
    (hp : env.parse l.input l.extra = some e) (hp' : env.parse l'.input l'.extra = some e') : d1.verifier = d2.verifier ∧ d1.index = d2.index := by
  unfold takeEntry at h1 h2
  rw [hp] at h1
  rw [hp'] at h2
  dsimp only at h1 h2
  rw [← hin] at h2
  cases hv : d.verifier.consume env.H l.input with
  | none =>
    exfalso
    rw [hv] at h1
    revert h1
    cases storeLogEntry env.keepExpired l.time e <;> (intro h1; cases h1)
  | some v =>
    rw [hv] at h1 h2
    have g1 : d1 = advance (noteTs d e.timestamp) v l := by
      revert h1
      cases storeLogEntry env.keepExpired l.time e <;> (intro h1; first | (cases h1; done) | (exact (Option.some.inj h1).symm))
    have g2 : d2 = advance (noteTs d e'.timestamp) v l' := by
      revert h2
      cases storeLogEntry env.keepExpired l'.time e' <;> (intro h2; first | (cases h2; done) | (exact (Option.some.inj h2).symm))
    rw [g1, g2]
    exact ⟨rfl, rfl⟩

/-! ### tiled logs -/

/-- A sunlight entry that fits the format. -/
def SunFits (e : SunEntry) : Prop := e.timestamp < 2 ^ 63 ∧ BodyFits e.body

/-- **C75 (partial), tiled logs.** Two X.509 entries with the same leaf lead to the same serial, expiry and timestamp. -/
theorem C75_tiled_x509_partial (pc : Bytes → Option Cert) (get get' : Bytes → Fetched) (keep : Bool) (now now' : Nat) (e e' : SunEntry) (hf : SunFits e) (hf' : SunFits e') (hleaf : sunLeaf e = sunLeaf e')
    (c : Bytes) (hx : e.body = .x509 c) (i i' : Item) (hs : storeTiledEntry keep (sunEntry pc get now e) = .store i) (hs' : storeTiledEntry keep (sunEntry pc get' now' e') = .store i') :
    i.serial = i'.serial ∧ i.notAfter = i'.notAfter ∧ i.timestamp = i'.timestamp := by
  have hext : ∀ n, (0 :: (beBytes 2 5 ++ beBytes 5 n) : Bytes).length < 65536 := by
    intro n
    rw [List.length_cons, List.length_append, beBytes_length, beBytes_length]
    decide
  have a := parseLeaf_bytes (ts := e.timestamp) (body := e.body) (ext := 0 :: (beBytes 2 5 ++ beBytes 5 e.index)) (Nat.lt_trans hf.1 (by decide)) hf.2 (hext e.index)
  have b := parseLeaf_bytes (ts := e'.timestamp) (body := e'.body) (ext := 0 :: (beBytes 2 5 ++ beBytes 5 e'.index)) (Nat.lt_trans hf'.1 (by decide)) hf'.2 (hext e'.index)
  unfold sunLeaf at hleaf
  rw [hleaf, b, Option.some.injEq, Prod.mk.injEq] at a
  have hx' : e'.body = .x509 c := by rw [a.2, hx]
  obtain ⟨x, y, g1, _, _, g2⟩ := (C27_tiled_stored_iff keep _ i).1 hs
  obtain ⟨x', y', k1, _, _, k2⟩ := (C27_tiled_stored_iff keep _ i').1 hs'
  unfold sunEntry at g1 g2 k1 k2
  rw [hx] at g1 g2
  rw [hx'] at k1 k2
  dsimp only at g1 g2 k1 k2
  rw [g1, Option.some.injEq] at k1
  rw [g2, k2, k1, a.1]
  exact ⟨rfl, rfl, rfl⟩

/-- **C75 fails for precertificates of tiled logs.** The precertificate and the fingerprints are in the tile, but not in the leaf: any certificate can be put there without a change of the leaf. -/
theorem C75_tiled_precert_fails (pc : Bytes → Option Cert) (get : Bytes → Fetched) (keep : Bool) (now : Nat) (e : SunEntry) (k t : Bytes) (hx : e.body = .precert k t) (p fp : Bytes) (c issuer : Cert) (hc : pc p = some c)
    (hi : get fp = .cert issuer) (hpre : issuer.preIssuer = false) (hexp : now ≤ c.notAfter) :
    ∃ e', sunLeaf e' = sunLeaf e ∧ storeTiledEntry keep (sunEntry pc get now e') = .store ⟨c.serial, c.notAfter, issuer.key, e.timestamp⟩ := by
  refine ⟨{ e with precert := p, chain := [fp] }, rfl, ?_⟩
  unfold sunEntry
  rw [hx]
  dsimp only
  refine (C27_tiled_stored_iff keep _ _).2 ⟨c, issuer, hc, Or.inl hexp, Or.inl ⟨[], ?_, hpre⟩, rfl⟩
  rw [List.map_singleton, hi]

/-! ### examples -/

/-- Toy certificates: one byte is a serial; 200 and more are issuers. -/
def toyParse (b : Bytes) : Option Cert := b.head?.map (fun x => ⟨[x], 100, [x], false⟩)

example : (rawEntryFromLeaf toyParse (leafBytes 50 (.x509 [7, 7]) [1]) (chainBytes [[200], [201]])).map (fun e => (e.timestamp, e.precert, e.cert, e.chain)) =
    some (50, false, some ⟨[7], 100, [7], false⟩, [some ⟨[200], 100, [200], false⟩, some ⟨[201], 100, [201], false⟩]) := by decide +kernel

/-- The hypotheses of `C75_precert_fails` are met: for a leaf of serial 7, serial 9 is stored under issuer 201. -/
example : ∃ extra e, rawEntryFromLeaf toyParse (leafBytes 50 (.precert (List.replicate 32 3) [7]) []) extra = some e ∧ storeLogEntry false 10 e = .store ⟨[9], 100, [201], 50⟩ :=
  C75_precert_fails toyParse false 10 50 (List.replicate 32 3) [7] [] (by decide) ⟨by decide, by decide, by decide⟩ (by decide) [9] [201] ⟨by decide, by decide⟩
    ⟨fun c hc => by rw [List.mem_singleton.1 hc]; exact ⟨by decide, by decide⟩, by decide⟩ ⟨[9], 100, [9], false⟩ ⟨[201], 100, [201], false⟩ rfl rfl rfl (by decide)

/-! ### each theorem applied -/

deriving instance DecidableEq for RawEntry

def toyX509 : RawEntry := ⟨50, false, some ⟨[7], 100, [7], false⟩, [some ⟨[200], 100, [200], false⟩]⟩

example := C75_x509_partial toyParse false 10 50 [7, 7] [1] (chainBytes [[200]]) (by decide) ⟨by decide, by decide⟩ (by decide) toyX509 ⟨[7], 100, [200], 50⟩ (by decide +kernel) (by decide +kernel)
/-- Other chains with the same leaf: the issuer differs. -/
example := C75_x509_determined_partial toyParse false 10 20 (leafBytes 50 (.x509 [7, 7]) [1]) (chainBytes [[200]]) (chainBytes [[201]]) toyX509 { toyX509 with chain := [some ⟨[201], 100, [201], false⟩] }
  ⟨[7], 100, [200], 50⟩ ⟨[7], 100, [201], 50⟩ (by decide +kernel) (by decide +kernel) rfl (by decide +kernel) (by decide +kernel)
example := C75_issuer_fails toyParse false 10 50 [7, 7] [1] (by decide) ⟨by decide, by decide⟩ (by decide) [201] ⟨fun c hc => by rw [List.mem_singleton.1 hc]; exact ⟨by decide, by decide⟩, by decide⟩
  ⟨[7], 100, [7], false⟩ ⟨[201], 100, [201], false⟩ rfl rfl rfl (by decide)

/-- The two answers differ in the chain; both are accepted and lead to the same verifier. -/
example := C75_verifier_blind ⟨toyHash, rawEntryFromLeaf toyParse, false⟩ ⟨0, 0, 0, newVerifier ⟨[], 0, 3⟩, []⟩ ⟨leafBytes 50 (.x509 [7, 7]) [1], chainBytes [[200]], 10⟩ ⟨leafBytes 50 (.x509 [7, 7]) [1], chainBytes [[201]], 10⟩
  _ _ rfl rfl rfl toyX509 { toyX509 with chain := [some ⟨[201], 100, [201], false⟩] } (by decide +kernel) (by decide +kernel)
/-- The issuer is the certificate that the server sends for the fingerprint. -/
example := C75_tiled_x509_partial toyParse (fun _ => .cert ⟨[200], 100, [200], false⟩) (fun _ => .cert ⟨[201], 100, [201], false⟩) false 10 20 ⟨50, .x509 [7, 7], 3, [], [[1]]⟩ ⟨50, .x509 [7, 7], 3, [], [[2]]⟩
  ⟨by decide, by decide, by decide⟩ ⟨by decide, by decide, by decide⟩ rfl [7, 7] rfl ⟨[7], 100, [200], 50⟩ ⟨[7], 100, [201], 50⟩ (by decide +kernel) (by decide +kernel)

end Verif.Props
