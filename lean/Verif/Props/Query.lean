import Verif.Spec.Query
import Verif.Props.Pem
import Verif.Props.Bincode
import Verif.Props.EndToEnd
import Verif.Props.Workflow
/-!
Property C107: the exit status of rust-query-crlite.
-/
namespace Verif.Props
open Verif.Spec

variable {F : Type}

theorem answer_revoked_iff (W : QueryWorld F) (db : LoadedDb F) (der : Bytes) (c : ClientCert) : W.answer db der c = .revoked ↔ SaysRevoked W db der c :=
  C63_revoked_iff W.sha W.parseIssuer (W.verifies der) W.has db.filters db.inters c

theorem judge_true_iff (W : QueryWorld F) (db : LoadedDb F) (der : Bytes) : W.judge db der = some true ↔ RevokedCert W db der := by
  unfold QueryWorld.judge RevokedCert
  cases W.parse der with
  | none =>
    constructor
    · intro h; cases h
    · rintro ⟨c, h, _⟩; cases h
  | some c =>
    dsimp only
    rw [Option.some.injEq, decide_eq_true_iff, answer_revoked_iff]
    constructor
    · intro h; exact ⟨c, rfl, h⟩
    · rintro ⟨c', h, h'⟩; cases h; exact h'

theorem judge_none_iff (W : QueryWorld F) (db : LoadedDb F) (der : Bytes) : W.judge db der = none ↔ W.parse der = none := by
  unfold QueryWorld.judge
  cases W.parse der with
  | none => exact ⟨fun _ => rfl, fun _ => rfl⟩
  | some c =>
    dsimp only
    constructor <;> (intro h; cases h)

theorem queryCerts_cons (W : QueryWorld F) (db : LoadedDb F) (found : Bool) (f : Text) (rest : List Text) :
    W.queryCerts db found (f :: rest) = W.queryCerts db (found || decide ((W.file f).bind (fun i => i.bind (fun b => W.judge db (queryOctets b))) = some true)) rest := by
  conv => lhs; unfold QueryWorld.queryCerts
  cases h1 : W.file f with
  | none => simp
  | some o =>
    cases o with
    | none => simp
    | some b =>
      rfl

theorem queryCerts_iff (W : QueryWorld F) (db : LoadedDb F) (files : List Text) (found : Bool) :
    W.queryCerts db found files = true ↔ found = true ∨ ∃ f ∈ files, ∃ input, W.file f = some (some input) ∧ RevokedCert W db (queryOctets input) := by
  induction files generalizing found with
  | nil =>
    unfold QueryWorld.queryCerts
    simp
  | cons f rest ih =>
    rw [queryCerts_cons, ih, Bool.or_eq_true, decide_eq_true_iff]
    have e : ((W.file f).bind (fun i => i.bind (fun b => W.judge db (queryOctets b))) = some true) ↔ ∃ input, W.file f = some (some input) ∧ RevokedCert W db (queryOctets input) := by
      cases h1 : W.file f with
      | none => simp
      | some o =>
        cases o with
        | none => simp
        | some b =>
          simp [Option.bind, ← judge_true_iff]
    rw [e]
    simp only [List.mem_cons, exists_eq_or_imp, or_assoc]

theorem main_ready {W : QueryWorld F} {update : Option Instance} {chan : ClientChannel} {fs : Files} {db : LoadedDb F} (h : Ready W update chan fs db) (cmd : QueryCmd) :
    (W.main update chan cmd fs).1 = exitOf (W.command db cmd) := by
  obtain ⟨h1, fs1, fs2, h2, h3⟩ := h
  have hl : (W.loadAndRun cmd fs1).1 = exitOf (W.command db cmd) := by
    unfold QueryWorld.loadAndRun
    rw [h3]
  unfold QueryWorld.main
  rw [if_pos h1]
  rcases h2 with ⟨rfl, rfl⟩ | ⟨inst, rfl, h2⟩
  · exact hl
  · dsimp only
    rw [h2]
    exact hl

theorem exitOf_range (o : Option Bool) : exitOf o = 0 ∨ exitOf o = 1 := by
  cases o with
  | none => exact Or.inr rfl
  | some b => cases b
              · exact Or.inl rfl
              · exact Or.inr rfl

theorem exitOf_zero (o : Option Bool) : exitOf o = 0 ↔ o = some false := by
  cases o with
  | none => constructor <;> (intro h; cases h)
  | some b => cases b <;> simp [exitOf]

/-- **C107, without a database.** If the directory cannot be made, the update does not succeed or the database does not load, the exit status is 1 and nothing is asked. In any case it is 0 or 1. -/
theorem C107_not_ready (W : QueryWorld F) (update : Option Instance) (chan : ClientChannel) (cmd : QueryCmd) (fs : Files) :
    ((¬ ∃ db, Ready W update chan fs db) → (W.main update chan cmd fs).1 = 1) ∧ ((W.main update chan cmd fs).1 = 0 ∨ (W.main update chan cmd fs).1 = 1) := by
  by_cases h : ∃ db, Ready W update chan fs db
  · refine ⟨fun hn => absurd h hn, ?_⟩
    obtain ⟨db, h⟩ := h
    rw [main_ready h]
    exact exitOf_range _
  · have key : (W.main update chan cmd fs).1 = 1 := by
      have hrun : ∀ fs1, (∀ db fs2, W.load fs1 ≠ (some db, fs2)) → (W.loadAndRun cmd fs1).1 = 1 := by
        intro fs1 hn
        unfold QueryWorld.loadAndRun
        cases hl : W.load fs1 with
        | mk o fs2 =>
          cases o with
          | none => rfl
          | some db => exact absurd hl (hn db fs2)
      unfold QueryWorld.main
      cases hd : W.dirOk with
      | false => rfl
      | true =>
        rw [if_pos rfl]
        cases update with
        | none =>
          exact hrun fs (fun db fs2 e => h ⟨db, hd, fs, fs2, Or.inl ⟨rfl, rfl⟩, e⟩)
        | some inst =>
          dsimp only
          cases hu : W.update inst chan fs with
          | mk ok fs1 =>
            cases ok with
            | false => rfl
            | true => exact hrun fs1 (fun db fs2 e => h ⟨db, hd, fs1, fs2, Or.inr ⟨inst, rfl, hu⟩, e⟩)
    exact ⟨fun _ => key, Or.inr key⟩

theorem queryOctets_armoured {input der : Bytes} {post : Text} (h : ArmouredFirst input der post) : queryOctets input = der := by
  obtain ⟨x, l, a, hx, ha, he⟩ := h
  unfold queryOctets
  have key : rustPem (octetText input) = some (l, der) := by
    obtain ⟨b64, e, body, f, h1, h2, h3, h4, rfl⟩ := armour_shape ha
    refine rust_block (x := x) (tail := f ++ post) ha.1 h1 h2 h3 ?_
    rw [he]
    rcases hx with rfl | ⟨y, rfl, hy⟩
    · have e1 : [] ++ (pemBegin ++ (l ++ pemDashes ++ e ++ (body ++ pemEnd ++ l ++ pemDashes ++ f))) ++ post = pemBegin ++ (l ++ pemDashes ++ (e ++ (body ++ pemEnd ++ (l ++ pemDashes ++ (f ++ post))))) := by simp
      rw [e1]
      exact cutAt_here '-' "----BEGIN ".toList _
    · have e1 : (y ++ ['\n']) ++ (pemBegin ++ (l ++ pemDashes ++ e ++ (body ++ pemEnd ++ l ++ pemDashes ++ f))) ++ post =
          y ++ '\n' :: (pemBegin ++ (l ++ pemDashes ++ (e ++ (body ++ pemEnd ++ (l ++ pemDashes ++ (f ++ post)))))) := by simp
      rw [e1]
      exact cutAt_newline pemBegin y _ (by decide) (by decide) (fun u v huv => hy ⟨u, v, huv⟩)
  rw [key]

theorem queryOctets_holds {input der : Bytes} (h : FileHolds input der) : queryOctets input = der := by
  rcases h with ⟨a, rfl⟩ | ⟨post, a, _⟩
  · exact ((C105_plain_partial _).1 a).2.2
  · exact queryOctets_armoured a

/-- **C107, certificates in files.** Full statement: for all files. Proved: if each of the files holds one certificate, plainly or armoured, the exit status is 1 if one of them is known to be revoked and 0 otherwise. Missing: files with more than one armoured
text (`C107_bundle_fails`), and files that cannot be read (`C107_skipped_fails`). -/
theorem C107_files_partial (W : QueryWorld F) (update : Option Instance) (chan : ClientChannel) (fs : Files) (db : LoadedDb F) (hr : Ready W update chan fs db) (files : List Text)
    (hf : ∀ f ∈ files, ∃ input der, W.file f = some (some input) ∧ FileHolds input der) :
    ((W.main update chan (.x509 files) fs).1 = 1 ↔ ∃ f ∈ files, ∃ input der, W.file f = some (some input) ∧ FileHolds input der ∧ RevokedCert W db der) ∧
    ((W.main update chan (.x509 files) fs).1 = 0 ↔ ∀ f ∈ files, ∀ input der, W.file f = some (some input) → FileHolds input der → ¬ RevokedCert W db der) := by
  rw [main_ready hr]
  have e : W.command db (.x509 files) = some (W.queryCerts db false files) := rfl
  have key : W.queryCerts db false files = true ↔ ∃ f ∈ files, ∃ input der, W.file f = some (some input) ∧ FileHolds input der ∧ RevokedCert W db der := by
    rw [queryCerts_iff]
    constructor
    · rintro (h | ⟨f, h1, input, h2, h3⟩)
      · cases h
      · obtain ⟨input', der, h4, h5⟩ := hf f h1
        rw [h2] at h4
        cases h4
        rw [queryOctets_holds h5] at h3
        exact ⟨f, h1, input, der, h2, h5, h3⟩
    · rintro ⟨f, h1, input, der, h2, h3, h4⟩
      rw [← queryOctets_holds h3] at h4
      exact Or.inr ⟨f, h1, input, h2, h4⟩
  rw [e]
  cases hq : W.queryCerts db false files with
  | true =>
    have := key.1 hq
    refine ⟨⟨fun _ => this, fun _ => rfl⟩, ⟨(fun h => by cases h), fun h => ?_⟩⟩
    obtain ⟨f, h1, input, der, h2, h3, h4⟩ := this
    exact absurd h4 (h f h1 input der h2 h3)
  | false =>
    have : ¬ _ := fun h => Bool.noConfusion (hq.symm.trans (key.2 h))
    exact ⟨⟨(fun h => by cases h), fun h => absurd h this⟩, ⟨fun _ f h1 input der h2 h3 h4 => this ⟨f, h1, input, der, h2, h3, h4⟩, fun _ => rfl⟩⟩

/-! ### hosts -/

theorem splitHost_colon (host p : Text) (hp : ':' ∉ p) : splitHost (host ++ ':' :: p) = (host, p) := by
  have hall : ∀ c ∈ p.reverse, decide (c ≠ ':') = true := by
    intro c hc
    rw [List.mem_reverse] at hc
    exact decide_eq_true (fun e => hp (e ▸ hc))
  have e : (host ++ ':' :: p).reverse = p.reverse ++ ':' :: host.reverse := by simp
  unfold splitHost
  rw [e, List.dropWhile_append_of_pos hall, List.takeWhile_append_of_pos hall]
  simp

theorem splitHost_plain (h : Text) (hc : ':' ∉ h) : splitHost h = (h, "443".toList) := by
  have : h.reverse.dropWhile (· ≠ ':') = [] := by
    have hall : ∀ c ∈ h.reverse, decide (c ≠ ':') = true := by
      intro c hm
      rw [List.mem_reverse] at hm
      exact decide_eq_true (fun e => hc (e ▸ hm))
    have := List.dropWhile_append_of_pos (l₂ := []) hall
    rw [List.append_nil] at this
    rw [this]
    rfl
  unfold splitHost
  rw [this]

theorem split_last (h : Text) (hc : ':' ∈ h) : ∃ host p, h = host ++ ':' :: p ∧ ':' ∉ p := by
  induction h with
  | nil => cases hc
  | cons c cs ih =>
    by_cases h' : ':' ∈ cs
    · obtain ⟨host, p, e, hp⟩ := ih h'
      exact ⟨c :: host, p, by rw [e]; rfl, hp⟩
    · rcases List.mem_cons.1 hc with e | e
      · exact ⟨[], cs, by rw [← e]; rfl, h'⟩
      · exact absurd e h'

theorem parseU16_iff (t : Text) (n : Nat) : parseU16 t = some n ↔ ∃ ds, (t = ds ∨ t = '+' :: ds) ∧ ds ≠ [] ∧ (∀ c ∈ ds, '0' ≤ c ∧ c ≤ '9') ∧ ds.foldl (fun a c => 10 * a + (c.toNat - 48)) 0 = n ∧ n < 65536 := by
  have hU := parseU32_iff t
  unfold parseU16
  constructor
  · intro h
    cases hp : parseU32 t with
    | none => rw [hp] at h; cases h
    | some m =>
      rw [hp] at h
      dsimp only at h
      split at h
      · cases h
        obtain ⟨ds, h1, h2, h3, h4, _⟩ := (hU n).1 hp
        exact ⟨ds, h1, h2, h3, h4, by assumption⟩
      · cases h
  · rintro ⟨ds, h1, h2, h3, h4, h5⟩
    rw [(hU n).2 ⟨ds, h1, h2, h3, h4, by omega⟩]
    exact if_pos h5

theorem hostPort_iff (h host : Text) (port : Nat) : HostPort h host port ↔ (splitHost h).1 = host ∧ parseU16 (splitHost h).2 = some port := by
  by_cases hc : ':' ∈ h
  · obtain ⟨a, p, rfl, hp⟩ := split_last h hc
    rw [splitHost_colon a p hp]
    dsimp only
    rw [parseU16_iff]
    constructor
    · rintro (⟨h1, _⟩ | ⟨p', ds, e, hp', h1, h2, h3, h4, h5⟩)
      · exact absurd hc h1
      · have := splitHost_colon host p' hp'
        rw [← e, splitHost_colon a p hp] at this
        rw [Prod.mk.injEq] at this
        obtain ⟨rfl, rfl⟩ := this
        exact ⟨rfl, ds, h1, h2, h3, h4, h5⟩
    · rintro ⟨rfl, ds, h1, h2, h3, h4, h5⟩
      exact Or.inr ⟨p, ds, rfl, hp, h1, h2, h3, h4, h5⟩
  · rw [splitHost_plain h hc]
    have h443 : parseU16 "443".toList = some 443 := by decide +kernel
    dsimp only
    rw [h443]
    constructor
    · rintro (⟨_, rfl, rfl⟩ | ⟨p', ds, e, _⟩)
      · exact ⟨rfl, rfl⟩
      · exact absurd (by rw [e]; simp) hc
    · rintro ⟨rfl, h⟩
      cases h
      exact Or.inl ⟨hc, rfl, rfl⟩

/-- **C107, hosts and ports.** A host alone is asked at port 443; with a port, at that port, whatever the host is made of. -/
theorem C107_host_port (h host : Text) (port : Nat) : HostPort h host port ↔ (splitHost h).1 = host ∧ parseU16 (splitHost h).2 = some port := hostPort_iff h host port

theorem queryAddr_some (W : QueryWorld F) (db : LoadedDb F) (k : Nat) (host addr : Text) (i : Nat) (r : Bool) :
    W.queryAddr db k host addr i = some r ↔ ∃ der, Reached W k host addr i der ∧ (r = true ↔ RevokedCert W db der) := by
  unfold QueryWorld.queryAddr Reached
  cases W.connect k host addr i with
  | none => simp
  | some der =>
    dsimp only
    constructor
    · intro h
      refine ⟨der, ⟨rfl, ?_⟩, ?_⟩
      · cases hp : W.parse der with
        | none => rw [(judge_none_iff W db der).2 hp] at h; cases h
        | some c => exact ⟨c, rfl⟩
      · rw [← judge_true_iff, h]
        simp
    · rintro ⟨d, ⟨e, c, hc⟩, hr⟩
      cases e
      cases hj : W.judge db der with
      | none => rw [judge_none_iff, hc] at hj; cases hj
      | some b =>
        rw [← judge_true_iff, hj] at hr
        cases b <;> cases r <;> simp at hr ⊢

theorem queryAddr_none (W : QueryWorld F) (db : LoadedDb F) (k : Nat) (host addr : Text) (i : Nat) : W.queryAddr db k host addr i = none ↔ ∀ der, ¬ Reached W k host addr i der := by
  unfold QueryWorld.queryAddr Reached
  cases W.connect k host addr i with
  | none => simp
  | some der =>
    dsimp only
    rw [judge_none_iff]
    constructor
    · rintro h d ⟨e, c, hc⟩
      cases e
      rw [h] at hc
      cases hc
    · intro h
      cases hp : W.parse der with
      | none => rfl
      | some c => exact absurd ⟨rfl, c, hp⟩ (h der)

theorem queryAddrs_cons (W : QueryWorld F) (db : LoadedDb F) (k : Nat) (host a : Text) (rest : List Text) :
    W.queryAddrs db k host (a :: rest) = (W.queryAddr db k host a 0).or ((W.queryAddr db k host a 1).or (W.queryAddrs db k host rest)) := by
  conv => lhs; unfold QueryWorld.queryAddrs
  cases W.queryAddr db k host a 0 with
  | some r => rfl
  | none =>
    dsimp only
    cases W.queryAddr db k host a 1 with
    | some r => rfl
    | none => rfl

theorem queryAddrs_some (W : QueryWorld F) (db : LoadedDb F) (k : Nat) (host : Text) (addrs : List Text) (r : Bool) :
    W.queryAddrs db k host addrs = some r ↔ ∃ before a after der, addrs = before ++ a :: after ∧ (∀ b ∈ before, ∀ i, i < 2 → ∀ d, ¬ Reached W k host b i d) ∧
      (Reached W k host a 0 der ∨ (∀ d, ¬ Reached W k host a 0 d) ∧ Reached W k host a 1 der) ∧ (r = true ↔ RevokedCert W db der) := by
  induction addrs with
  | nil =>
    unfold QueryWorld.queryAddrs
    constructor
    · intro h; cases h
    · rintro ⟨before, a, after, der, e, _⟩
      cases before <;> cases e
  | cons a rest ih =>
    rw [queryAddrs_cons]
    constructor
    · intro h
      cases h0 : W.queryAddr db k host a 0 with
      | some x =>
        rw [h0] at h
        cases h
        obtain ⟨der, h1, h2⟩ := (queryAddr_some W db k host a 0 r).1 h0
        exact ⟨[], a, rest, der, rfl, (fun b hb => by cases hb), Or.inl h1, h2⟩
      | none =>
        rw [h0, Option.none_or] at h
        have n0 := (queryAddr_none W db k host a 0).1 h0
        cases h1 : W.queryAddr db k host a 1 with
        | some x =>
          rw [h1] at h
          cases h
          obtain ⟨der, g1, g2⟩ := (queryAddr_some W db k host a 1 r).1 h1
          exact ⟨[], a, rest, der, rfl, (fun b hb => by cases hb), Or.inr ⟨n0, g1⟩, g2⟩
        | none =>
          rw [h1, Option.none_or] at h
          have n1 := (queryAddr_none W db k host a 1).1 h1
          obtain ⟨before, b, after, der, rfl, g1, g2, g3⟩ := ih.1 h
          refine ⟨a :: before, b, after, der, rfl, ?_, g2, g3⟩
          intro x hx i hi
          rcases List.mem_cons.1 hx with rfl | hx
          · have : i = 0 ∨ i = 1 := by omega
            rcases this with rfl | rfl
            · exact n0
            · exact n1
          · exact g1 x hx i hi
    · rintro ⟨before, b, after, der, e, g1, g2, g3⟩
      cases before with
      | nil =>
        cases e
        rcases g2 with g2 | ⟨g2, g4⟩
        · rw [(queryAddr_some W db k host a 0 r).2 ⟨der, g2, g3⟩]
          rfl
        · rw [(queryAddr_none W db k host a 0).2 g2, (queryAddr_some W db k host a 1 r).2 ⟨der, g4, g3⟩]
          rfl
      | cons x before =>
        cases e
        rw [(queryAddr_none W db k host a 0).2 (g1 a List.mem_cons_self 0 (by omega)), (queryAddr_none W db k host a 1).2 (g1 a List.mem_cons_self 1 (by omega))]
        exact ih.2 ⟨before, b, after, der, rfl, (fun y hy => g1 y (List.mem_cons_of_mem _ hy)), g2, g3⟩

theorem queryHost_some (W : QueryWorld F) (db : LoadedDb F) (k : Nat) (h : Text) (r : Bool) : W.queryHost db k h = some r ↔ ∃ der, Served W k h der ∧ (r = true ↔ RevokedCert W db der) := by
  unfold QueryWorld.queryHost Served
  constructor
  · intro hq
    cases hp : parseU16 (splitHost h).2 with
    | none => rw [hp] at hq; cases hq
    | some port =>
      rw [hp] at hq
      dsimp only at hq
      cases ha : W.resolve k (splitHost h).1 port with
      | none => rw [ha] at hq; cases hq
      | some addrs =>
        rw [ha] at hq
        obtain ⟨before, a, after, der, rfl, g1, g2, g3⟩ := (queryAddrs_some W db k _ addrs r).1 hq
        exact ⟨der, ⟨_, port, before, a, after, (hostPort_iff _ _ _).2 ⟨rfl, hp⟩, ha, g1, g2⟩, g3⟩
  · rintro ⟨der, ⟨host, port, before, a, after, hp, ha, g1, g2⟩, g3⟩
    obtain ⟨rfl, hq⟩ := (hostPort_iff _ _ _).1 hp
    rw [hq]
    dsimp only
    rw [ha]
    exact (queryAddrs_some W db k _ _ r).2 ⟨before, a, after, der, rfl, g1, g2, g3⟩

theorem queryHosts_cons (W : QueryWorld F) (db : LoadedDb F) (k : Nat) (found : Bool) (h : Text) (rest : List Text) :
    W.queryHosts db k found (h :: rest) = (W.queryHost db k h).bind (fun r => W.queryHosts db (k + 1) (if r then true else found) rest) := by
  conv => lhs; unfold QueryWorld.queryHosts
  cases W.queryHost db k h <;> rfl

theorem queryHosts_false (W : QueryWorld F) (db : LoadedDb F) (hosts : List Text) (k : Nat) (found : Bool) :
    W.queryHosts db k found hosts = some false ↔ found = false ∧ ∀ i h, hosts[i]? = some h → ∃ der, Served W (k + i) h der ∧ ¬ RevokedCert W db der := by
  induction hosts generalizing k found with
  | nil =>
    unfold QueryWorld.queryHosts
    simp
  | cons h rest ih =>
    rw [queryHosts_cons]
    constructor
    · intro hq
      cases hh : W.queryHost db k h with
      | none => rw [hh] at hq; cases hq
      | some r =>
        rw [hh] at hq
        obtain ⟨h1, h2⟩ := (ih (k + 1) _).1 hq
        have hr : r = false := by
          cases r
          · rfl
          · rw [if_pos rfl] at h1; cases h1
        subst hr
        refine ⟨h1, fun i x hx => ?_⟩
        cases i with
        | zero =>
          cases hx
          obtain ⟨der, g1, g2⟩ := (queryHost_some W db k h false).1 hh
          exact ⟨der, g1, fun hn => Bool.noConfusion (g2.2 hn)⟩
        | succ i =>
          obtain ⟨der, g⟩ := h2 i x hx
          exact ⟨der, by rwa [show k + (i + 1) = k + 1 + i by omega]⟩
    · rintro ⟨h1, h2⟩
      obtain ⟨der, g1, g2⟩ := h2 0 h rfl
      rw [(queryHost_some W db k h false).2 ⟨der, g1, ⟨fun e => Bool.noConfusion e, fun e => absurd e g2⟩⟩]
      refine (ih (k + 1) _).2 ⟨h1, fun i x hx => ?_⟩
      obtain ⟨der, g⟩ := h2 (i + 1) x hx
      exact ⟨der, by rwa [show k + 1 + i = k + (i + 1) by omega]⟩

/-- **C107, hosts.** The exit status is 0 exactly if every host was reached and the certificate it is judged by is not known to be revoked. -/
theorem C107_hosts (W : QueryWorld F) (update : Option Instance) (chan : ClientChannel) (fs : Files) (db : LoadedDb F) (hr : Ready W update chan fs db) (hosts : List Text) :
    (W.main update chan (.https hosts) fs).1 = 0 ↔ ∀ i h, hosts[i]? = some h → ∃ der, Served W i h der ∧ ¬ RevokedCert W db der := by
  rw [main_ready hr, exitOf_zero]
  have e : W.command db (.https hosts) = W.queryHosts db 0 false hosts := rfl
  rw [e, queryHosts_false]
  simp

/-- **C107, a reached host.** The certificate a host is judged by is determined. -/
theorem C107_served_unique (W : QueryWorld F) (k : Nat) (h : Text) (d1 d2 : Bytes) (h1 : Served W k h d1) (h2 : Served W k h d2) : d1 = d2 := by
  obtain ⟨host, port, before, a, after, hp, ha, g1, g2⟩ := h1
  obtain ⟨host', port', before', a', after', hp', ha', g1', g2'⟩ := h2
  obtain ⟨rfl, hq⟩ := (hostPort_iff _ _ _).1 hp
  obtain ⟨e, hq'⟩ := (hostPort_iff _ _ _).1 hp'
  subst e
  rw [hq] at hq'
  cases hq'
  rw [ha] at ha'
  rw [Option.some.injEq] at ha'
  have reach : ∀ {x : Text} {d : Bytes}, (Reached W k (splitHost h).1 x 0 d ∨ (∀ d, ¬ Reached W k (splitHost h).1 x 0 d) ∧ Reached W k (splitHost h).1 x 1 d) → ∃ i, i < 2 ∧ Reached W k (splitHost h).1 x i d := by
    rintro x d (h | ⟨_, h⟩)
    · exact ⟨0, by omega, h⟩
    · exact ⟨1, by omega, h⟩
  have hlen : before.length = before'.length := by
    rcases Nat.lt_trichotomy before.length before'.length with hl | hl | hl
    · have : a ∈ before' := by
        have : (before' ++ a' :: after')[before.length]? = some a := by rw [← ha']; simp
        rw [List.getElem?_append_left hl] at this
        exact List.mem_of_getElem? this
      obtain ⟨i, hi, hd⟩ := reach g2
      exact absurd hd (g1' a this i hi _)
    · exact hl
    · have : a' ∈ before := by
        have : (before ++ a :: after)[before'.length]? = some a' := by rw [ha']; simp
        rw [List.getElem?_append_left hl] at this
        exact List.mem_of_getElem? this
      obtain ⟨i, hi, hd⟩ := reach g2'
      exact absurd hd (g1 a' this i hi _)
  obtain ⟨_, e⟩ := List.append_inj ha' hlen
  rw [List.cons.injEq] at e
  obtain ⟨rfl, _⟩ := e
  rcases g2 with g2 | ⟨n2, g2⟩ <;> rcases g2' with g2' | ⟨n2', g2'⟩
  · exact Option.some.inj (g2.1.symm.trans g2'.1)
  · exact absurd g2 (n2' _)
  · exact absurd g2' (n2 _)
  · exact Option.some.inj (g2.1.symm.trans g2'.1)

/-! ### hosts files -/

theorem dropWhile_snoc (p : Char → Bool) (x : Text) (c : Char) (hc : p c = true) : ((x ++ [c]).dropWhile p).reverse.dropWhile p = (x.dropWhile p).reverse.dropWhile p := by
  induction x with
  | nil => simp [hc]
  | cons d x ih =>
    rw [List.cons_append, List.dropWhile_cons, List.dropWhile_cons]
    cases hd : p d with
    | true => simpa using ih
    | false =>
      rw [if_neg (by simp), if_neg (by simp)]
      have : (d :: (x ++ [c])).reverse = c :: (d :: x).reverse := by simp
      rw [this, List.dropWhile_cons, if_pos hc]

theorem isRustSpace_iff (c : Char) : isRustSpace c = true ↔ c.toNat ∈ whiteSpace := by
  unfold isRustSpace whiteSpace
  rw [decide_eq_true_iff]
  simp only [List.mem_cons, List.not_mem_nil, or_false]
  omega

theorem trim_dropCR (l : Text) : trimBoth isRustSpace (dropCR l) = trimBoth isRustSpace l := by
  unfold dropCR
  split
  · rename_i h
    have hl : l = l.dropLast ++ ['\r'] := by
      have hne : l ≠ [] := by rintro rfl; cases h
      rw [List.getLast?_eq_some_getLast hne] at h
      have := List.dropLast_concat_getLast hne
      rw [Option.some.inj h] at this
      exact this.symm
    unfold trimBoth
    conv => rhs; rw [hl]
    rw [dropWhile_snoc isRustSpace l.dropLast '\r' (by decide)]
  · rfl

theorem splitLines_any (l rest : Text) (h : '\n' ∉ l) : splitLines (l ++ '\n' :: rest) = dropCR l :: splitLines rest := by
  unfold splitLines
  rw [splitLinesAux_line l rest [] h]
  rfl

theorem trim_host {o : Option Text} {l : Text} (h : HostLine o l) :
    (match o with
    | some x => trimBoth isRustSpace l = x ∧ x ≠ [] ∧ x.head? ≠ some '#'
    | none => trimBoth isRustSpace l = [] ∨ (trimBoth isRustSpace l).head? = some '#') := by
  cases h with
  | host a x b ha hb hne hns hh =>
    dsimp only
    replace ha := fun c hc => (isRustSpace_iff c).2 (ha c hc)
    replace hb := fun c hc => (isRustSpace_iff c).2 (hb c hc)
    replace hns : ∀ c ∈ x, isRustSpace c = false := fun c hc => Bool.eq_false_iff.2 fun h => hns c hc ((isRustSpace_iff c).1 h)
    refine ⟨?_, hne, hh⟩
    rw [List.append_assoc]
    refine trimBoth_clean ha hb ⟨?_, ?_⟩
    · cases x with
      | nil => exact absurd rfl hne
      | cons c r => exact ⟨c, r, rfl, hns c List.mem_cons_self⟩
    · exact ⟨x.dropLast, x.getLast hne, (List.dropLast_concat_getLast hne).symm, hns _ (List.getLast_mem hne)⟩
  | blank a ha => exact Or.inl (trimBoth_nil_of_all fun c hc => (isRustSpace_iff c).2 (ha c hc))
  | comment a c ha =>
    refine Or.inr ?_
    unfold trimBoth
    rw [dropWhile_all fun c hc => (isRustSpace_iff c).2 (ha c hc), List.dropWhile_cons, if_neg (by decide)]
    have : ∀ y : Text, ((y ++ ['#']).dropWhile isRustSpace).reverse.head? = some '#' := by
      intro y
      induction y with
      | nil => decide
      | cons d y ih =>
        rw [List.cons_append, List.dropWhile_cons]
        split
        · exact ih
        · simp
    rw [List.reverse_cons]
    exact this c.reverse

theorem hostsOf_line {o : Option Text} {l l' : Text} (h : HostLine o l) (hl : trimBoth isRustSpace l' = trimBoth isRustSpace l) (rest : List Text) :
    ((l' :: rest).map (trimBoth isRustSpace)).filter (fun l => !(decide (l.head? = some '#') || decide (l = []))) =
      o.toList ++ (rest.map (trimBoth isRustSpace)).filter (fun l => !(decide (l.head? = some '#') || decide (l = []))) := by
  have ht := trim_host h
  rw [List.map_cons, List.filter_cons, hl]
  cases o with
  | some x =>
    dsimp only at ht
    obtain ⟨h1, h2, h3⟩ := ht
    rw [h1, if_pos (by simp [h2, h3])]
    rfl
  | none =>
    dsimp only at ht
    rw [if_neg]
    · rfl
    · rcases ht with ht | ht
      · rw [ht]; decide
      · rw [ht]; simp

theorem hostsOf_file {hs : List Text} {t : Text} (h : HostFile hs t) : hostsOf t = hs := by
  induction h with
  | done => rfl
  | last o l h1 h2 =>
    unfold hostsOf
    by_cases hne : l = []
    · subst hne
      have := hostsOf_line h1 rfl []
      cases o with
      | none => rfl
      | some x =>
        obtain ⟨g1, g2, _⟩ := trim_host h1
        exact absurd g1.symm g2
    · have e : splitLines l = [dropCR l] := by
        unfold splitLines
        rw [splitLinesAux_open l [] h2 (by simpa using hne)]
        rfl
      rw [e, hostsOf_line h1 (trim_dropCR l) []]
      simp
  | line o l hs t h1 h2 _ ih =>
    unfold hostsOf at ih ⊢
    rw [splitLines_any l t h2, hostsOf_line h1 (trim_dropCR l), ih]

/-- **C107, a hosts file.** For a hosts file that could be fetched, the exit status is 0 exactly if every host in it was reached and the certificate it is judged by is not known to be revoked; if it could not be fetched, it is 1. -/
theorem C107_signoff (W : QueryWorld F) (update : Option Instance) (chan : ClientChannel) (fs : Files) (db : LoadedDb F) (hr : Ready W update chan fs db) (url : Text) :
    (W.page url = none → (W.main update chan (.signoff url) fs).1 = 1) ∧
    ∀ b hs, W.page url = some b → HostFile hs (W.text b) →
      ((W.main update chan (.signoff url) fs).1 = 0 ↔ ∀ i h, hs[i]? = some h → ∃ der, Served W i h der ∧ ¬ RevokedCert W db der) := by
  have e : W.command db (.signoff url) = W.signoff db url := rfl
  constructor
  · intro hp
    rw [main_ready hr, e]
    unfold QueryWorld.signoff
    rw [hp]
    rfl
  · intro b hs hp hf
    have : (W.main update chan (.signoff url) fs).1 = (W.main update chan (.https hs) fs).1 := by
      rw [main_ready hr, main_ready hr, e]
      unfold QueryWorld.signoff
      rw [hp]
      dsimp only
      rw [hostsOf_file hf]
      rfl
    rw [this]
    exact C107_hosts W update chan fs db hr hs

/-- **C107, crt.sh.** For an answer that holds one certificate, the exit status is 1 if it is known to be revoked or not parsed and 0 otherwise; without answer it is 1. -/
theorem C107_crtsh (W : QueryWorld F) (update : Option Instance) (chan : ClientChannel) (fs : Files) (db : LoadedDb F) (hr : Ready W update chan fs db) (id : Text) :
    (W.page ("https://crt.sh/?d=".toList ++ id) = none → (W.main update chan (.crtsh id) fs).1 = 1) ∧
    ∀ input der, W.page ("https://crt.sh/?d=".toList ++ id) = some input → FileHolds input der →
      ((W.main update chan (.crtsh id) fs).1 = 0 ↔ W.parse der ≠ none ∧ ¬ RevokedCert W db der) := by
  have e : W.command db (.crtsh id) = W.queryCrtsh db id := rfl
  constructor
  · intro hp
    rw [main_ready hr, e]
    unfold QueryWorld.queryCrtsh
    rw [hp]
    rfl
  · intro input der hp hf
    rw [main_ready hr, e, exitOf_zero]
    unfold QueryWorld.queryCrtsh
    rw [hp]
    dsimp only
    rw [queryOctets_holds hf, Ne, ← judge_none_iff W db, ← judge_true_iff]
    rcases W.judge db der with _ | _ | _ <;> simp

/-! ### the database -/

theorem assocPut_fst_mem {β : Type} (m : List (Text × β)) (k : Text) (v : β) (n : Text) : n ∈ (assocPut m k v).map Prod.fst ↔ n = k ∨ n ∈ m.map Prod.fst := by
  induction m with
  | nil => simp [assocPut]
  | cons e rest ih =>
    unfold assocPut
    split
    · rename_i h
      simp [h]
    · rw [List.map_cons, List.mem_cons, ih, List.map_cons, List.mem_cons]
      constructor
      · rintro (h | h | h)
        · exact Or.inr (Or.inl h)
        · exact Or.inl h
        · exact Or.inr (Or.inr h)
      · rintro (h | h | h)
        · exact Or.inr (Or.inl h)
        · exact Or.inl h
        · exact Or.inr (Or.inr h)

theorem loadFilters_cons {G : Type} (fromBytes : Bytes → Option G) (e : Text × Bytes) (rest : Files) :
    loadFilters fromBytes (e :: rest) = if inDir e.1 && isFilterFile e.1 then (fromBytes e.2).bind (fun f => (loadFilters fromBytes rest).map (fun l => (e.1, f) :: l)) else loadFilters fromBytes rest := by
  conv => lhs; unfold loadFilters
  split
  · cases fromBytes e.2 with
    | none => rfl
    | some f => cases loadFilters fromBytes rest <;> rfl
  · rfl

theorem loadFilters_parses {G : Type} (fromBytes : Bytes → Option G) (fs : Files) (l : List (Text × G)) (h : loadFilters fromBytes fs = some l) (n : Text) (c : Bytes) (hc : (n, c) ∈ fs) (hd : inDir n = true) (hn : isFilterFile n = true) :
    ∃ f, fromBytes c = some f := by
  induction fs generalizing l with
  | nil => cases hc
  | cons e rest ih =>
    rw [loadFilters_cons] at h
    by_cases hx : (inDir e.1 && isFilterFile e.1) = true
    · rw [if_pos hx] at h
      obtain ⟨f, hf, h⟩ := Option.bind_eq_some_iff.1 h
      obtain ⟨l', hl', _⟩ := Option.map_eq_some_iff.1 h
      rcases List.mem_cons.1 hc with hc | hc
      · rw [← hc] at hf; exact ⟨f, hf⟩
      · exact ih l' hl' hc
    · rw [if_neg hx] at h
      rcases List.mem_cons.1 hc with hc | hc
      · rw [← hc] at hx
        exact absurd (by simp [hd, hn]) hx
      · exact ih l h hc

theorem loadFilters_put {G : Type} (fromBytes : Bytes → Option G) (fs : Files) (n : Text) (b : Bytes) (hn : isFilterFile n = false) : loadFilters fromBytes (assocPut fs n b) = loadFilters fromBytes fs := by
  induction fs with
  | nil =>
    unfold assocPut
    rw [loadFilters_cons]
    simp [hn]
  | cons e rest ih =>
    unfold assocPut
    split
    · rename_i h
      rw [loadFilters_cons, loadFilters_cons, h, hn]
      simp
    · rw [loadFilters_cons, loadFilters_cons, ih]

theorem writeInters_true {W : QueryWorld F} {b : Bytes} {fs fs' : Files} (h : W.writeInters b fs = (true, fs')) : fs' = assocPut fs interName b := by
  unfold QueryWorld.writeInters at h
  split at h
  · cases h; rfl
  · cases h

theorem updateInters_true {W : QueryWorld F} {fs fs' : Files} (h : W.updateInters fs = (true, fs')) :
    ∃ r recs, latestRun ((fs.map Prod.fst).filter inDir) none = some r ∧ W.enrolled (enrolledUrl r) = some recs ∧ fs' = assocPut fs interName (binMap (fromEnrolled W.pem W.parseIssuer recs)) := by
  unfold QueryWorld.updateInters at h
  split at h
  · cases h
  · rename_i r hr
    split at h
    · cases h
    · rename_i recs he
      exact ⟨r, recs, hr, he, writeInters_true h⟩

theorem interName_not_filter : isFilterFile interName = false := by decide +kernel

theorem recordsAt_eq (inst : Instance) : (instanceUrls inst).2 ++ "cert-revocations/records".toList = recordsAt inst := by cases inst <;> decide +kernel

theorem updateLoop_present (env : UpdateEnv) (l : List FilterRec) (fs fs' : Files) (h : updateLoop env l fs = (true, fs')) (n : Text) (hn : assocGet fs n ≠ none ∨ ∃ r ∈ l, r.filename = n) : assocGet fs' n ≠ none := by
  induction l generalizing fs with
  | nil =>
    unfold updateLoop at h
    cases h
    rcases hn with hn | ⟨r, hr, _⟩
    · exact hn
    · cases hr
  | cons r rest ih =>
    unfold updateLoop at h
    split at h
    · rename_i fs1 h1
      obtain ⟨⟨c, h2, _⟩, h3, _⟩ := updateOne_spec env r fs fs1 h1
      refine ih fs1 h ?_
      by_cases hx : n = r.filename
      · subst hx
        exact Or.inl (by rw [h2]; exact Option.some_ne_none _)
      · rcases hn with hn | ⟨r', hr, hn⟩
        · exact Or.inl (by rw [h3 n hx]; exact hn)
        · rcases List.mem_cons.1 hr with rfl | hr
          · exact absurd hn.symm hx
          · exact Or.inr ⟨r', hr, hn⟩
    · cases h

theorem updateLoop_works (env : UpdateEnv) (l : List FilterRec) (fs : Files) (hw : ∀ n, env.writeFails n = none) (hf : ∀ r ∈ l, ∃ c, env.fetch r.location = some c ∧ hexDecode r.hash = some (env.sha c)) : (updateLoop env l fs).1 = true := by
  induction l generalizing fs with
  | nil => rfl
  | cons r rest ih =>
    have one : ∃ fs', updateOne env r fs = (true, fs') := by
      obtain ⟨c, h1, h2⟩ := hf r List.mem_cons_self
      have hfetch : fetchFilter env (env.sha c) r fs = (true, assocPut fs r.filename c) := by
        unfold fetchFilter
        rw [h1]
        dsimp only
        rw [if_pos rfl, hw]
      unfold updateOne
      rw [h2]
      dsimp only
      split
      · split
        · exact ⟨_, rfl⟩
        · exact ⟨_, hfetch⟩
      · exact ⟨_, hfetch⟩
    obtain ⟨fs', h1⟩ := one
    unfold updateLoop
    rw [h1]
    exact ih fs' (fun r hr => hf r (List.mem_cons_of_mem _ hr))

/-- **C107 (an update works).** If the instance has one full filter for the channel, each listed filter with its listed hash is found at its place on the instance's host of attachments, some listed filter is named after a run, the bucket has the
issuers of all runs and files can be written, then `--update` succeeds. -/
theorem C107_update_works (W : QueryWorld F) (inst : Instance) (chan : ClientChannel) (fs : Files) (raw : List RawFilterRec) (recs : List FilterRec) (hraw : W.records (recordsAt inst) = some raw) (hrecs : parseRecords raw = some recs)
    (hone : ((listedOf chan recs).filter (fun r => !r.incremental)).length = 1) (hatt : ∀ r ∈ listedOf chan recs, ∃ c, W.attachment (attachmentAt inst r.location) = some c ∧ hexDecode r.hash = some (W.sha c))
    (hw : ∀ n, W.writeFails n = none) (hrun : ∃ r ∈ listedOf chan recs, Spec.Direct r.filename ∧ extractRunId r.filename ≠ none) (henr : ∀ run, W.enrolled (enrolledUrl run) ≠ none) : (W.update inst chan fs).1 = true := by
  have e2 : ∀ loc, (instanceUrls inst).1 ++ loc = attachmentAt inst loc := by
    intro loc
    have : (instanceUrls inst).1 = "https://".toList ++ (instanceHosts inst).1 ++ ['/'] := by cases inst <;> decide +kernel
    rw [this]
    unfold attachmentAt
    rw [List.append_assoc, List.append_assoc, List.append_assoc]
    rfl
  have hloop := updateLoop_works (W.updateEnv inst) (listedOf chan recs) (removeStale (W.updateEnv inst) ((listedOf chan recs).map FilterRec.filename) fs) hw
    (fun r hr => by
      obtain ⟨c, h1, h2⟩ := hatt r hr
      exact ⟨c, by rw [← e2] at h1; exact h1, h2⟩)
  unfold QueryWorld.update
  rw [recordsAt_eq, hraw]
  dsimp only
  have hdb : updateDb (W.updateEnv inst) chan raw fs = updateLoop (W.updateEnv inst) (listedOf chan recs) (removeStale (W.updateEnv inst) ((listedOf chan recs).map FilterRec.filename) fs) := by
    unfold updateDb
    rw [hrecs]
    exact if_pos hone
  rw [hdb]
  cases hx : updateLoop (W.updateEnv inst) (listedOf chan recs) (removeStale (W.updateEnv inst) ((listedOf chan recs).map FilterRec.filename) fs) with
  | mk ok fs' =>
    rw [hx] at hloop
    cases hloop
    dsimp only
    obtain ⟨r, hr, hd, hid⟩ := hrun
    have hin : r.filename ∈ (fs'.map Prod.fst).filter inDir := by
      refine List.mem_filter.2 ⟨?_, (inDir_iff _).2 hd⟩
      have := updateLoop_present _ _ _ _ hx r.filename (Or.inr ⟨r, hr, rfl⟩)
      cases hg : assocGet fs' r.filename with
      | none => exact absurd hg this
      | some c => exact List.mem_map.2 ⟨_, assocGet_mem hg, rfl⟩
    unfold QueryWorld.updateInters
    cases hl : latestRun ((fs'.map Prod.fst).filter inDir) none with
    | none => exact absurd ((C65_latest _).1.1 hl _ hin) hid
    | some run =>
      dsimp only
      cases he : W.enrolled (enrolledUrl run) with
      | none => exact absurd he (henr run)
      | some enr =>
        dsimp only
        unfold QueryWorld.writeInters
        rw [hw]

/-- **C107, after an update.** With `--update`, if the program gets as far as its subcommand: the loaded filters are exactly those that the instance's collection lists for the channel, with the listed hashes, and the issuers are found as in the
`enrolled.json` of the latest run of which there is a filter file. -/
theorem C107_updated (W : QueryWorld F) (inst : Instance) (chan : ClientChannel) (fs : Files) (db : LoadedDb F) (hr : Ready W (some inst) chan fs db) (hnd : (fs.map Prod.fst).Nodup) (hrem : ∀ n, W.removable n = true)
    (hsmall : ∀ u recs, W.enrolled u = some recs → SmallMap (fromEnrolled W.pem W.parseIssuer recs)) :
    ∃ raw recs run enr, W.records (recordsAt inst) = some raw ∧ parseRecords raw = some recs ∧ W.enrolled (enrolledUrl run) = some enr ∧
      (∀ verifies dn, lookupSpki W.parseIssuer verifies db.inters dn = lookupSpki W.parseIssuer verifies (fromEnrolled W.pem W.parseIssuer enr) dn) ∧
      ((∀ r1 ∈ listedOf chan recs, ∀ r2 ∈ listedOf chan recs, r1.filename = r2.filename → hexDecode r1.hash = hexDecode r2.hash) → (∀ r ∈ listedOf chan recs, Spec.Direct r.filename ∧ Spec.FilterName r.filename) →
        (∀ f ∈ db.filters, ∃ r ∈ listedOf chan recs, ∃ c, hexDecode r.hash = some (W.sha c) ∧ W.fromBytes c = some f) ∧
        (∀ r ∈ listedOf chan recs, ∃ f ∈ db.filters, ∃ c, hexDecode r.hash = some (W.sha c) ∧ W.fromBytes c = some f) ∧
        ((∀ e ∈ fs, extractRunId e.1 ≠ none → Spec.FilterName e.1) →
          (∃ r ∈ listedOf chan recs, extractRunId r.filename = some run) ∧ ∀ r ∈ listedOf chan recs, ∀ q, extractRunId r.filename = some q → ¬ RunBefore run q)) := by
  obtain ⟨_, fs1, fs2, hu, hl⟩ := hr
  rcases hu with ⟨h, _⟩ | ⟨i, hi, hu⟩
  · cases h
  cases hi
  unfold QueryWorld.update at hu
  rw [recordsAt_eq] at hu
  cases hraw : W.records (recordsAt inst) with
  | none => rw [hraw] at hu; cases hu
  | some raw =>
    rw [hraw] at hu
    dsimp only at hu
    cases hup : updateDb (W.updateEnv inst) chan raw fs with
    | mk ok fs0 =>
      rw [hup] at hu
      cases ok with
      | false => cases hu
      | true =>
        dsimp only at hu
        obtain ⟨run, enr, hrun, henr, rfl⟩ := updateInters_true hu
        have hparse : ∃ recs, parseRecords raw = some recs := by
          cases hp : parseRecords raw with
          | some recs => exact ⟨recs, rfl⟩
          | none =>
            unfold updateDb at hup
            rw [hp] at hup
            cases hup
        obtain ⟨recs, hrecs⟩ := hparse
        unfold QueryWorld.load at hl
        rw [loadFilters_put _ _ _ _ interName_not_filter] at hl
        cases hlf : loadFilters W.fromBytes fs0 with
        | none => rw [hlf] at hl; cases hl
        | some l =>
          rw [hlf] at hl
          dsimp only at hl
          unfold QueryWorld.ensureInters at hl
          rw [assocGet_put_self] at hl
          dsimp only at hl
          rw [assocGet_put_self, Option.bind_some] at hl
          rw [Prod.mk.injEq] at hl
          obtain ⟨hl, _⟩ := hl
          obtain ⟨m2, hm2, hlook⟩ := (C104_client W.pem W.parseIssuer enr _ (List.Perm.refl _) (hsmall _ enr henr) _ [] (List.append_nil _).symm).2 rfl
          rw [hm2] at hl
          cases hl
          refine ⟨raw, recs, run, enr, rfl, hrecs, henr, hlook, fun hsame hnames => ?_⟩
          obtain ⟨k1, k2⟩ := C64_loaded_partial W.fromBytes (W.updateEnv inst) chan raw fs fs0 hnd hup recs hrecs hrem hsame hnames l hlf
          refine ⟨?_, ?_, ?_⟩
          · intro f hf
            obtain ⟨e, he, rfl⟩ := List.mem_map.1 hf
            obtain ⟨r, h1, _, h2⟩ := k1 e he
            exact ⟨r, h1, h2⟩
          · intro r hr
            obtain ⟨f, h1, h2⟩ := k2 r hr
            exact ⟨f, List.mem_map.2 ⟨_, h1, rfl⟩, h2⟩
          · intro hstray
            obtain ⟨j1, j2, j3, _, j5⟩ := C64_exact_partial (W.updateEnv inst) chan raw fs fs0 hup recs hrecs hrem hsame
            obtain ⟨⟨n, hn, hnr⟩, hmax⟩ := (C65_latest _).2 run hrun
            have present : ∀ r ∈ listedOf chan recs, r.filename ∈ (fs0.map Prod.fst).filter inDir := by
              intro r hr
              obtain ⟨c, hc, _⟩ := j2 r hr
              rw [List.mem_filter]
              exact ⟨List.mem_map.2 ⟨_, assocGet_mem hc, rfl⟩, (inDir_iff _).2 (hnames r hr).1⟩
            refine ⟨?_, fun r hr q hq => hmax _ (present r hr) q hq⟩
            rw [List.mem_filter] at hn
            obtain ⟨hn1, hn2⟩ := hn
            have hd := (inDir_iff n).1 hn2
            obtain ⟨e, he, rfl⟩ := List.mem_map.1 hn1
            have hg := assocGet_of_mem (j5 hnd) he
            by_cases hlist : ∃ r ∈ listedOf chan recs, r.filename = e.1
            · obtain ⟨r, h1, h2⟩ := hlist
              exact ⟨r, h1, by rw [h2]; exact hnr⟩
            · exfalso
              have hnf : ¬ Spec.FilterName e.1 := fun hf => hlist ((j1 e.1 hd hf).1 (by rw [hg]; simp))
              have hsame2 := j3 e.1 (Or.inr hnf) (fun r hr he => hlist ⟨r, hr, he⟩)
              rw [hg] at hsame2
              exact hnf (hstray (e.1, e.2) (assocGet_mem hsame2.symm) (by rw [hnr]; simp))

/-- **C107 (the database).** Without `--update` the program gets as far as its subcommand only if every filter file of the directory can be read; it then has exactly these filters, and the issuers of the intermediates file or, if there is no such file,
of the `enrolled.json` of the latest run of which there is a file. -/
theorem C107_database (W : QueryWorld F) (chan : ClientChannel) (fs : Files) (db : LoadedDb F) (hr : Ready W none chan fs db)
    (hsmall : ∀ u recs, W.enrolled u = some recs → SmallMap (fromEnrolled W.pem W.parseIssuer recs)) :
    (∀ n c, (n, c) ∈ fs → Spec.Direct n → Spec.FilterName n → ∃ f ∈ db.filters, W.fromBytes c = some f) ∧
    (∀ f ∈ db.filters, ∃ n c, (n, c) ∈ fs ∧ Spec.Direct n ∧ Spec.FilterName n ∧ W.fromBytes c = some f) ∧
    (∀ c, assocGet fs "crlite.intermediates".toList = some c → unbinMap c = some db.inters) ∧
    (assocGet fs "crlite.intermediates".toList = none → ∃ run enr, W.enrolled (enrolledUrl run) = some enr ∧
      (∀ verifies dn, lookupSpki W.parseIssuer verifies db.inters dn = lookupSpki W.parseIssuer verifies (fromEnrolled W.pem W.parseIssuer enr) dn) ∧
      (∃ n c, (n, c) ∈ fs ∧ Spec.Direct n ∧ extractRunId n = some run) ∧ ∀ n c q, (n, c) ∈ fs → Spec.Direct n → extractRunId n = some q → ¬ RunBefore run q) := by
  obtain ⟨_, fs1, fs2, hu, hl⟩ := hr
  rcases hu with ⟨_, rfl⟩ | ⟨i, hi, _⟩
  case inr => cases hi
  unfold QueryWorld.load at hl
  cases hlf : loadFilters W.fromBytes fs1 with
  | none => rw [hlf] at hl; cases hl
  | some l =>
    rw [hlf] at hl
    dsimp only at hl
    have hspec := loadFilters_spec W.fromBytes fs1 l hlf
    have hfil : db.filters = l.map Prod.snd ∧ (∀ c, assocGet fs1 interName = some c → unbinMap c = some db.inters) ∧ (assocGet fs1 interName = none → ∃ run enr, latestRun ((fs1.map Prod.fst).filter inDir) none = some run ∧ W.enrolled (enrolledUrl run) = some enr ∧ unbinMap (binMap (fromEnrolled W.pem W.parseIssuer enr)) = some db.inters) := by
      cases hi : assocGet fs1 interName with
      | some c =>
        unfold QueryWorld.ensureInters at hl
        rw [hi] at hl
        dsimp only at hl
        rw [hi, Option.bind_some, Prod.mk.injEq] at hl
        obtain ⟨m, hm, rfl⟩ := Option.map_eq_some_iff.1 hl.1
        exact ⟨rfl, (fun c' h => by cases h; exact hm), (fun h => by cases h)⟩
      | none =>
        unfold QueryWorld.ensureInters at hl
        rw [hi] at hl
        dsimp only at hl
        cases hup : W.updateInters fs1 with
        | mk ok fs0 =>
          rw [hup] at hl
          cases ok with
          | false => cases hl
          | true =>
            obtain ⟨run, enr, hrun, henr, rfl⟩ := updateInters_true hup
            dsimp only at hl
            rw [assocGet_put_self, Option.bind_some, Prod.mk.injEq] at hl
            obtain ⟨m, hm, rfl⟩ := Option.map_eq_some_iff.1 hl.1
            exact ⟨rfl, (fun c' h => by cases h), fun _ => ⟨run, enr, hrun, henr, hm⟩⟩
    obtain ⟨hf, h1, h2⟩ := hfil
    refine ⟨?_, ?_, h1, ?_⟩
    · intro n c hc hd hn
      obtain ⟨f, hfb⟩ := loadFilters_parses W.fromBytes fs1 l hlf n c hc ((inDir_iff n).2 hd) ((isFilterFile_iff n).2 hn)
      exact ⟨f, by rw [hf]; exact List.mem_map.2 ⟨(n, f), (hspec (n, f)).2 ⟨c, hc, (inDir_iff n).2 hd, (isFilterFile_iff n).2 hn, hfb⟩, rfl⟩, hfb⟩
    · intro f hff
      rw [hf] at hff
      obtain ⟨e, he, rfl⟩ := List.mem_map.1 hff
      obtain ⟨c, hc, hd, hn, hb⟩ := (hspec e).1 he
      exact ⟨e.1, c, hc, (inDir_iff _).1 hd, (isFilterFile_iff _).1 hn, hb⟩
    · intro hi
      obtain ⟨run, enr, hrun, henr, hm⟩ := h2 hi
      obtain ⟨m2, hm2, hlook⟩ := (C104_client W.pem W.parseIssuer enr _ (List.Perm.refl _) (hsmall _ enr henr) _ [] (List.append_nil _).symm).2 rfl
      rw [hm2] at hm
      cases hm
      obtain ⟨⟨n, hn, hnr⟩, hmax⟩ := (C65_latest _).2 run hrun
      refine ⟨run, enr, henr, hlook, ?_, ?_⟩
      · rw [List.mem_filter] at hn
        obtain ⟨e, he, rfl⟩ := List.mem_map.1 hn.1
        exact ⟨e.1, e.2, he, (inDir_iff _).1 hn.2, hnr⟩
      · intro n c q hc hd hq
        exact hmax n (List.mem_filter.2 ⟨List.mem_map.2 ⟨_, hc, rfl⟩, (inDir_iff n).2 hd⟩) q hq

/-! ### from the logs and CRLs to the exit status -/

theorem exit_one_of_not_zero (W : QueryWorld F) (update : Option Instance) (chan : ClientChannel) (cmd : QueryCmd) (fs : Files) (h : (W.main update chan cmd fs).1 ≠ 0) : (W.main update chan cmd fs).1 = 1 :=
  (C107_not_ready W update chan cmd fs).2.resolve_left h

/-- A file with a revoked certificate gives exit status 1, whatever the other files are. -/
theorem C107_revoked_file (W : QueryWorld F) (update : Option Instance) (chan : ClientChannel) (fs : Files) (db : LoadedDb F) (hr : Ready W update chan fs db) (files : List Text) (f : Text) (hf : f ∈ files) (input der : Bytes)
    (hi : W.file f = some (some input)) (hh : FileHolds input der) (hrev : RevokedCert W db der) : (W.main update chan (.x509 files) fs).1 = 1 := by
  rw [main_ready hr]
  have : W.queryCerts db false files = true := (queryCerts_iff W db files false).2 (Or.inr ⟨f, hf, input, hi, by rw [queryOctets_holds hh]; exact hrev⟩)
  have e : W.command db (.x509 files) = some (W.queryCerts db false files) := rfl
  rw [e, this]
  rfl

/-- **C107, from the logs and CRLs to the exit status.** Full statement: without `hcov`. Proved: if the database has the filters of the runs up to `n`, then a certificate known and revoked in run `n`, valid now and with an enrolled issuer, makes the exit
status 1, whether it is in a file or served by a host, provided each of these runs that knew it as revoked covered one of its SCTs. Missing: as in `C74_revoked_partial`. -/
theorem C107_end_to_end_partial {G : Type} {build : List Bytes → List (Bytes × Bool) → Option G} {contains : G → Bytes → Bool} {enrolls : G → Bytes → Bool} (he : EnrollsInput build enrolls) {order : List Text → List Text} {rs : ReasonSet}
    (C : RunChain build contains order rs) (cov : Nat → Coverage) (W : QueryWorld (Card G)) (hW : W.has = cardHas enrolls contains) (update : Option Instance) (chan : ClientChannel) (fs : Files) (db : LoadedDb (Card G))
    (hr : Ready W update chan fs db) (n : Nat) (hcards : ∀ k ∈ C.cards cov n, k ∈ db.filters) (der spki : Bytes) (c : ClientCert) (hp : W.parse der = some c)
    (hl : lookupSpki W.parseIssuer (W.verifies der) db.inters c.issuerDN = some spki) (hv : c.valid = true) (hk : KnownIn (C.W n) (W.sha spki) c.serial) (hrev : RevokedIn rs (C.W n) (W.sha spki) c.serial)
    (hcov : ∀ m ≤ n, KnownIn (C.W m) (W.sha spki) c.serial → RevokedIn rs (C.W m) (W.sha spki) c.serial → Covers (cov m) c.scts) :
    (∀ files f input, f ∈ files → W.file f = some (some input) → FileHolds input der → (W.main update chan (.x509 files) fs).1 = 1) ∧
    ∀ hosts i h, hosts[i]? = some h → Served W i h der → (W.main update chan (.https hosts) fs).1 = 1 := by
  have key : RevokedCert W db der := by
    have := C74_revoked_partial build contains enrolls he order rs C cov W.sha W.parseIssuer (W.verifies der) db.inters n c spki hl hv hk hrev hcov
    rw [C63_revoked_iff] at this
    obtain ⟨spki', h1, h2, k, h3, h4⟩ := this
    exact ⟨c, hp, spki', h1, h2, k, hcards k h3, by rw [hW]; exact h4⟩
  refine ⟨fun files f input hf hi hh => C107_revoked_file W update chan fs db hr files f hf input der hi hh key, fun hosts i h hi hs => ?_⟩
  refine exit_one_of_not_zero W update chan _ fs (fun h0 => ?_)
  obtain ⟨d, h1, h2⟩ := (C107_hosts W update chan fs db hr hosts).1 h0 i h hi
  rw [C107_served_unique W i h d der h1 hs] at h2
  exact h2 key

/-! ### where the exit status misleads -/

/-- **C107 (nothing was looked at).** The exit status is 0 if the file does not exist, cannot be read, or is not a certificate. -/
theorem C107_skipped_fails (W : QueryWorld F) (update : Option Instance) (chan : ClientChannel) (fs : Files) (db : LoadedDb F) (hr : Ready W update chan fs db) (f : Text)
    (h : W.file f = none ∨ W.file f = some none ∨ ∃ input, W.file f = some (some input) ∧ W.parse (queryOctets input) = none) : (W.main update chan (.x509 [f]) fs).1 = 0 := by
  rw [main_ready hr, exitOf_zero]
  have e : W.command db (.x509 [f]) = some (W.queryCerts db false [f]) := rfl
  rw [e]
  cases hq : W.queryCerts db false [f] with
  | false => rfl
  | true =>
    exfalso
    rcases (queryCerts_iff W db [f] false).1 hq with h' | ⟨f', hf, input, h1, c, h2, _⟩
    · cases h'
    · rw [List.mem_singleton] at hf
      subst hf
      rcases h with h | h | ⟨i, h, h3⟩
      · rw [h1] at h; cases h
      · rw [h1] at h; cases h
      · rw [h1] at h
        cases h
        rw [h2] at h3
        cases h3

/-- **C107 (only the first armoured text).** Of a file with several armoured texts, such as a private key and its certificate, only the first is looked at: if that is not a revoked certificate the exit status is 0, whatever `post` is. -/
theorem C107_bundle_fails (W : QueryWorld F) (update : Option Instance) (chan : ClientChannel) (fs : Files) (db : LoadedDb F) (hr : Ready W update chan fs db) (f : Text) (input first : Bytes) (post : Text)
    (hf : W.file f = some (some input)) (ha : ArmouredFirst input first post) (hn : ¬ RevokedCert W db first) : (W.main update chan (.x509 [f]) fs).1 = 0 := by
  rw [main_ready hr, exitOf_zero]
  have e : W.command db (.x509 [f]) = some (W.queryCerts db false [f]) := rfl
  rw [e]
  cases hq : W.queryCerts db false [f] with
  | false => rfl
  | true =>
    exfalso
    rcases (queryCerts_iff W db [f] false).1 hq with h' | ⟨f', hf', i, h1, h2⟩
    · cases h'
    · rw [List.mem_singleton] at hf'
      subst hf'
      rw [hf] at h1
      cases h1
      rw [queryOctets_armoured ha] at h2
      exact hn h2

/-- **C107 (an unreachable host).** One host that is not reached makes the exit status 1, although no certificate need be revoked. -/
theorem C107_unreachable_fails (W : QueryWorld F) (update : Option Instance) (chan : ClientChannel) (fs : Files) (db : LoadedDb F) (hr : Ready W update chan fs db) (hosts : List Text) (i : Nat) (h : Text) (hi : hosts[i]? = some h)
    (hn : ∀ der, ¬ Served W i h der) : (W.main update chan (.https hosts) fs).1 = 1 := by
  refine exit_one_of_not_zero W update chan _ fs (fun h0 => ?_)
  obtain ⟨d, h1, _⟩ := (C107_hosts W update chan fs db hr hosts).1 h0 i h hi
  exact hn d h1

/-- **C107 (the other addresses).** A host whose first address serves a certificate that is not revoked gives exit status 0, whatever its other addresses serve. -/
theorem C107_second_address_fails (W : QueryWorld F) (update : Option Instance) (chan : ClientChannel) (fs : Files) (db : LoadedDb F) (hr : Ready W update chan fs db) (h host a : Text) (port : Nat) (others : List Text) (der : Bytes)
    (hp : HostPort h host port) (ha : W.resolve 0 host port = some (a :: others)) (hd : Reached W 0 host a 0 der) (hn : ¬ RevokedCert W db der) : (W.main update chan (.https [h]) fs).1 = 0 := by
  rw [C107_hosts W update chan fs db hr]
  intro i x hx
  cases i with
  | zero =>
    cases hx
    exact ⟨der, ⟨host, port, [], a, others, hp, ha, (fun b hb => by cases hb), Or.inl hd⟩, hn⟩
  | succ i => cases hx

/-! ### examples -/

/-- A file with the armour of [1, 2, 3] and then that of [0x30, 2, 0]. -/
def exBundle : Bytes := asciiOctets "-----BEGIN KEY-----\nAQID\n-----END KEY-----\n-----BEGIN CERTIFICATE-----\nMAIA\n-----END CERTIFICATE-----\n".toList

/-- A world: filters are lists of revoked serials; a certificate is the octet 0x30, its serial and a zero. -/
def exQ : QueryWorld Bytes :=
  { dirOk := true
    records := fun u => if u = (instanceUrls .stage).2 ++ "cert-revocations/records".toList then some [⟨"02".toList, "20240101-0-default.filter".toList, "x".toList, false, none⟩] else none
    attachment := fun _ => some [2]
    enrolled := fun u => if u = enrolledUrl ("20240101".toList, 0) then some ["production".toList] else none
    removable := fun _ => true
    writeFails := fun _ => none
    sha := id
    pem := fun t => if t = "production".toList then some [8] else some [5]
    parseIssuer := fun d => if d = [5] then some ⟨[9], d⟩ else some ⟨[7], d⟩
    verifies := fun _ _ => true
    parse := fun d => match d with
      | [0x30, s, 0] => some ⟨[9], [s], [], true⟩
      | _ => none
    fromBytes := some
    has := fun f _ s _ => if s.all f.contains then .revoked else .good
    file := fun n => if n = "revoked".toList then some (some [0x30, 2, 0]) else if n = "good".toList then some (some [0x30, 3, 0]) else if n = "bundle".toList then some (some exBundle) else
      if n = "unreadable".toList then some none else if n = "text".toList then some (some [65]) else none
    page := fun u => if u = "hosts".toList then some [1] else none
    text := fun _ => "# hosts\r\n good.example \r\n\ntwo.example:8443".toList
    resolve := fun _ h p => if h = "good.example".toList ∧ p = 443 then some ["good".toList] else if h = "two.example".toList ∧ p = 8443 then some ["good".toList, "revoked".toList] else
      if h = "revoked.example".toList then some ["down".toList, "revoked".toList] else none
    connect := fun _ _ a i => if a = "good".toList then some [0x30, 3, 0] else if a = "revoked".toList ∧ i = 1 then some [0x30, 2, 0] else none }

/-- The files of a database with one filter and one issuer. -/
def exQFiles : Files := [("20240101-0-default.filter".toList, [2]), (interName, binMap [([9], [[5]])])]

theorem exQ_ready : Ready exQ none .default exQFiles ⟨[[2]], [([9], [[5]])]⟩ := ⟨rfl, exQFiles, exQFiles, Or.inl ⟨rfl, rfl⟩, by decide +kernel⟩

/-- **C107 (the staging instance).** `--update stage` takes the filters from the staging instance but the issuers from the production bucket. Here the production run of the same name has other issuers: the filter of the staging instance has the certificate
as revoked, and with the issuer known the status would be 1, but it is 0. The development instance is the staging instance. -/
theorem C107_stage_fails :
    (exQ.main (some .stage) .default (.x509 ["revoked".toList]) []).1 = 0 ∧ (exQ.load (exQ.update .stage .default []).2).1 = some ⟨[[2]], [([7], [[8]])]⟩ ∧
    exitOf (exQ.command ⟨[[2]], [([9], [[5]])]⟩ (.x509 ["revoked".toList])) = 1 ∧ "https://storage.googleapis.com/crlite-filters-prod/".toList <+: enrolledUrl ("20240101".toList, 0) ∧
    instanceUrls .dev = instanceUrls .stage := by
  refine ⟨by decide +kernel, by decide +kernel, by decide +kernel, ?_, rfl⟩
  exact ⟨("20240101".toList ++ '-' :: (toString 0).toList) ++ "/enrolled.json".toList, (List.append_assoc _ _ _).symm⟩

/-- The exit status of each kind of query. -/
example :
    (exQ.main none .default (.x509 ["good".toList, "revoked".toList]) exQFiles).1 = 1 ∧ (exQ.main none .default (.x509 ["good".toList]) exQFiles).1 = 0 ∧
    (exQ.main none .default (.x509 ["missing".toList, "unreadable".toList, "text".toList]) exQFiles).1 = 0 ∧ (exQ.main none .default (.x509 ["bundle".toList]) exQFiles).1 = 0 ∧
    (exQ.main none .default (.https ["good.example".toList, "two.example:8443".toList]) exQFiles).1 = 0 ∧ (exQ.main none .default (.https ["revoked.example".toList]) exQFiles).1 = 1 ∧
    (exQ.main none .default (.https ["nowhere.example".toList, "good.example".toList]) exQFiles).1 = 1 ∧ (exQ.main none .default (.https ["good.example:65979".toList]) exQFiles).1 = 1 ∧
    (exQ.main none .default (.signoff "hosts".toList) exQFiles).1 = 0 ∧ (exQ.main none .default (.signoff "nothing".toList) exQFiles).1 = 1 ∧ (exQ.main none .default (.crtsh "7".toList) exQFiles).1 = 1 ∧
    (exQ.main none .default (.x509 ["good".toList]) []).1 = 1 ∧ (exQ.main (some .prod) .default (.x509 ["good".toList]) exQFiles).1 = 1 := by decide +kernel

example : HostPort "example.org:8443".toList "example.org".toList 8443 ∧ HostPort "[::1]:1".toList "[::1]".toList 1 ∧ HostPort "example.org".toList "example.org".toList 443 :=
  ⟨(C107_host_port _ _ _).2 (by decide +kernel), (C107_host_port _ _ _).2 (by decide +kernel), (C107_host_port _ _ _).2 (by decide +kernel)⟩

/-- The bundle: a key, then a certificate that is known to be revoked. -/
theorem exBundle_first : ArmouredFirst exBundle [1, 2, 3] "-----BEGIN CERTIFICATE-----\nMAIA\n-----END CERTIFICATE-----\n".toList ∧ ¬ RevokedCert exQ ⟨[[2]], [([9], [[5]])]⟩ [1, 2, 3] ∧
    Armour "CERTIFICATE".toList [0x30, 2, 0] "-----BEGIN CERTIFICATE-----\nMAIA\n-----END CERTIFICATE-----\n".toList ∧ RevokedCert exQ ⟨[[2]], [([9], [[5]])]⟩ [0x30, 2, 0] := by
  refine ⟨⟨[], "KEY".toList, "-----BEGIN KEY-----\nAQID\n-----END KEY-----\n".toList, Or.inl rfl, ?_, by decide +kernel⟩, ?_, ?_, ?_⟩
  · exact ⟨⟨by decide, by decide⟩, ['A', 'Q', 'I', 'D'], ['\n'], "AQID\n".toList, ['\n'],
      Base64.three (d := 0) (e := 16) (f := 8) (g := 3) (digit64_of (by decide)) (digit64_of (by decide)) (digit64_of (by decide)) (digit64_of (by decide)) (by decide) Base64.nil, Or.inl rfl,
      InLines.cons (l := ['A', 'Q', 'I', 'D']) (t := []) (e := ['\n']) (by decide) (Or.inl rfl) InLines.nil, Or.inr (Or.inl rfl), by decide⟩
  · rintro ⟨c, h, _⟩
    cases h
  · exact ⟨certLabel_label, ['M', 'A', 'I', 'A'], ['\n'], "MAIA\n".toList, ['\n'],
      Base64.three (d := 12) (e := 0) (f := 8) (g := 0) (digit64_of (by decide)) (digit64_of (by decide)) (digit64_of (by decide)) (digit64_of (by decide)) (by decide) Base64.nil, Or.inl rfl,
      InLines.cons (l := ['M', 'A', 'I', 'A']) (t := []) (e := ['\n']) (by decide) (Or.inl rfl) InLines.nil, Or.inr (Or.inl rfl), by decide⟩
  · exact ⟨_, rfl, [5], by decide +kernel, rfl, [2], List.mem_singleton.2 rfl, by decide +kernel⟩

/-- A hosts file with a comment, a blank line and an open last line. -/
theorem exHostFile : HostFile ["good.example".toList, "two.example:8443".toList] "# hosts\r\n good.example \r\n\ntwo.example:8443".toList :=
  HostFile.line none "# hosts\r".toList _ " good.example \r\n\ntwo.example:8443".toList (HostLine.comment [] " hosts\r".toList (fun c h => by cases h)) (by decide)
    (HostFile.line (some "good.example".toList) " good.example \r".toList _ "\ntwo.example:8443".toList (HostLine.host " ".toList "good.example".toList " \r".toList (by unfold Blank; decide +kernel) (by unfold Blank; decide +kernel) (by decide) (by decide +kernel) (by decide)) (by decide)
      (HostFile.line none [] _ "two.example:8443".toList (HostLine.blank [] (fun c h => by cases h)) (by decide)
        (HostFile.last (some "two.example:8443".toList) _ (HostLine.host [] "two.example:8443".toList [] (fun c h => by cases h) (fun c h => by cases h) (by decide) (by decide +kernel) (by decide)) (by decide))))

/-- The first attempts fail, the fourth succeeds. -/
example : Served exQ 0 "revoked.example".toList [0x30, 2, 0] ∧ RevokedCert exQ ⟨[[2]], [([9], [[5]])]⟩ [0x30, 2, 0] := by
  have down : ∀ i d, ¬ Reached exQ 0 "revoked.example".toList "down".toList i d := by
    rintro i d ⟨h, _⟩
    have e : exQ.connect 0 "revoked.example".toList "down".toList i = none := by
      show (if "down".toList = "good".toList then some [0x30, 3, 0] else if "down".toList = "revoked".toList ∧ i = 1 then some [0x30, 2, 0] else none) = none
      rw [if_neg (by decide), if_neg (fun h => absurd h.1 (by decide))]
    rw [e] at h
    cases h
  have first : ∀ d, ¬ Reached exQ 0 "revoked.example".toList "revoked".toList 0 d := by
    rintro d ⟨h, _⟩
    have e : exQ.connect 0 "revoked.example".toList "revoked".toList 0 = none := by decide +kernel
    rw [e] at h
    cases h
  refine ⟨⟨"revoked.example".toList, 443, ["down".toList], "revoked".toList, [], (C107_host_port _ _ _).2 (by decide +kernel), by decide +kernel, ?_, Or.inr ⟨first, by decide +kernel, _, rfl⟩⟩,
    _, rfl, [5], by decide +kernel, rfl, [2], List.mem_singleton.2 rfl, by decide +kernel⟩
  intro b hb i _ d
  rw [List.mem_singleton] at hb
  subst hb
  exact down i d

/-- An update from the staging instance into a directory with an old filter and the cards of another issuer. -/
def exQOld : Files := [("20230101-0-default.filter".toList, [77]), (interName, [1])]

theorem exQ_updated : Ready exQ (some .stage) .default exQOld ⟨[[2]], [([7], [[8]])]⟩ := ⟨rfl, (exQ.update .stage .default exQOld).2, _, Or.inr ⟨.stage, rfl, Prod.ext (by decide +kernel) rfl⟩, Prod.ext (by decide +kernel) rfl⟩

theorem exQ_small (u : Text) (recs : List Text) (h : exQ.enrolled u = some recs) : SmallMap (fromEnrolled exQ.pem exQ.parseIssuer recs) := by
  have hr : recs = ["production".toList] := by
    change (if u = enrolledUrl ("20240101".toList, 0) then some ["production".toList] else none) = some recs at h
    split at h
    · exact (Option.some.inj h).symm
    · cases h
  subst hr
  have e : fromEnrolled exQ.pem exQ.parseIssuer ["production".toList] = [([7], [[8]])] := by decide +kernel
  rw [e]
  refine ⟨by decide, fun x hx => ?_⟩
  rw [List.mem_singleton] at hx
  subst hx
  refine ⟨by decide, by decide, fun y hy => ?_⟩
  rw [List.mem_singleton] at hy
  subst hy
  decide

example : ∃ raw recs run enr, exQ.records (recordsAt .stage) = some raw ∧ parseRecords raw = some recs ∧ exQ.enrolled (enrolledUrl run) = some enr := by
  obtain ⟨raw, recs, run, enr, h1, h2, h3, _⟩ := C107_updated exQ .stage .default exQOld _ exQ_updated (by decide +kernel) (fun _ => rfl) exQ_small
  exact ⟨raw, recs, run, enr, h1, h2, h3⟩

theorem exQ_records : exQ.records (recordsAt .stage) = some [⟨"02".toList, "20240101-0-default.filter".toList, "x".toList, false, none⟩] := by
  rw [← recordsAt_eq]
  unfold exQ
  dsimp only
  rw [if_pos rfl]

/-- The hypotheses of `C107_update_works` hold of the staging instance if the bucket has the issuers of all runs. -/
example : ({ exQ with enrolled := fun _ => some [] }.update .stage .default exQOld).1 = true :=
  C107_update_works { exQ with enrolled := fun _ => some [] } .stage .default exQOld [⟨"02".toList, "20240101-0-default.filter".toList, "x".toList, false, none⟩] [⟨"02".toList, "20240101-0-default.filter".toList, "x".toList, false, .default⟩]
    exQ_records rfl (by decide +kernel)
    (fun r hr => ⟨[2], rfl, by
      rw [List.mem_singleton.1 (show r ∈ [(⟨"02".toList, "20240101-0-default.filter".toList, "x".toList, false, .default⟩ : FilterRec)] from hr)]
      decide +kernel⟩)
    (fun _ => rfl) ⟨_, List.mem_singleton.2 rfl, (inDir_iff _).1 (by decide +kernel), by decide +kernel⟩ (fun _ => Option.some_ne_none _)

/-- Without an intermediates file the issuers are fetched. -/
example : ∃ run enr, exQ.enrolled (enrolledUrl run) = some enr ∧ ∃ n c, (n, c) ∈ [("20240101-0-default.filter".toList, ([2] : Bytes))] ∧ extractRunId n = some run := by
  have hr : Ready exQ none .default [("20240101-0-default.filter".toList, [2])] ⟨[[2]], [([7], [[8]])]⟩ := ⟨rfl, _, (exQ.load [("20240101-0-default.filter".toList, [2])]).2, Or.inl ⟨rfl, rfl⟩, Prod.ext (by decide +kernel) rfl⟩
  obtain ⟨run, enr, h1, _, ⟨n, c, h2, _, h3⟩, _⟩ := (C107_database exQ .default _ _ hr exQ_small).2.2.2 (by decide +kernel)
  exact ⟨run, enr, h1, n, c, h2, h3⟩

/-- The world of the runs of `exChain`: the file of a filter has one octet, zero for that of the first run and one for the delta of the second. -/
def exQChain : QueryWorld (Card (List Bytes)) :=
  { exQ with
    parseIssuer := fun d => some ⟨[9], d⟩
    sha := fun _ => List.replicate 32 7
    parse := fun d => if d = [0x30, 2, 0] then some (exClientCert 500 [2]) else none
    fromBytes := fun b => (exChain.cards exCov 1)[(b.headD 9).toNat]?
    has := cardHas exEnrolls exContains }

/-- The files of the database. -/
def exQChainFiles : Files := [("20240102-0-default.delta".toList, [1]), ("20240101-0-default.filter".toList, [0]), (interName, binMap exInter)]

/-- The runs of `exChain` reach the exit status. -/
example : (exQChain.main none .default (.x509 ["good".toList, "revoked".toList]) exQChainFiles).1 = 1 := by
  refine (C107_end_to_end_partial exEnrolls_input exChain exCov exQChain rfl none .default exQChainFiles ⟨[⟨(exChain.out 1).deltaFilter, exCov 1⟩, ⟨(exChain.out 0).filter, exCov 0⟩], exInter⟩ ⟨rfl, _, exQChainFiles, Or.inl ⟨rfl, rfl⟩, ?_⟩ 1 ?_
    [0x30, 2, 0] [5] (exClientCert 500 [2]) rfl (by decide) rfl ⟨_, List.mem_singleton.2 rfl, rfl, _, List.mem_singleton.2 rfl, by decide⟩ ⟨_, List.mem_singleton.2 rfl, rfl, _, rfl, 4, by decide, trivial⟩
    (fun _ _ _ _ => ⟨([1], 500), List.mem_singleton.2 rfl, 0, 1000, if_pos rfl, by decide, by decide⟩)).1 ["good".toList, "revoked".toList] "revoked".toList [0x30, 2, 0] (by decide) (by decide +kernel) (Or.inl ⟨?_, rfl⟩)
  · rfl
  · intro k hk
    rcases (exChain.mem_cards exCov 1 k).1 hk with rfl | ⟨m, hm, rfl⟩
    · exact List.mem_cons_of_mem _ List.mem_cons_self
    · have : m = 0 := by omega
      subst this
      exact List.mem_cons_self
  · rintro ⟨a, b, h⟩
    have := congrArg List.length h
    have e : (octetText [0x30, 2, 0]).length = 3 := rfl
    rw [e, List.length_append, List.length_append] at this
    have e2 : "-----BEGIN ".toList.length = 11 := rfl
    omega

/-- **C107 (the run).** The names that the publisher gives to the filters and the stashes of a run lead back to the directory of that run in the bucket. -/
theorem C107_run_url (d : Text) (n : Nat) (hd : IsDate d) (hn : n < 2 ^ 32) (slug : Text) :
    (∃ r, extractRunId (runName d n ++ '-' :: slug ++ ".filter".toList) = some r ∧ extractRunId (runName d n ++ '-' :: slug ++ ".filter.delta".toList) = some r ∧
      enrolledUrl r = "https://storage.googleapis.com/crlite-filters-prod/".toList ++ runName d n ++ "/enrolled.json".toList) := by
  have key : ∀ ext : Text, extractRunId (runName d n ++ '-' :: slug ++ ext) = some (d, n) := by
    intro ext
    refine (C65_names _ _ _).2 ⟨Nat.toDigits 10 n, '-' :: slug ++ ext, ?_, Or.inr ⟨_, rfl⟩, hd.1, hd.2, Nat.toDigits 10 n, Or.inl rfl, Nat.toDigits_ne_nil, toDigits_dig n, digitsNat_toDigits n, hn⟩
    unfold runName
    simp [List.append_assoc]
  refine ⟨(d, n), key _, key _, ?_⟩
  have e : (toString n).toList = Nat.toDigits 10 n := by
    show (Nat.repr n).toList = _
    unfold Nat.repr
    exact String.toList_ofList
  unfold enrolledUrl runName
  rw [e]

/-- The stash of a run. -/
example : ∃ r, extractRunId ("20240102-12-default.filter.delta".toList) = some r ∧ enrolledUrl r = "https://storage.googleapis.com/crlite-filters-prod/20240102-12/enrolled.json".toList := by
  obtain ⟨r, _, h, hu⟩ := C107_run_url "20240102".toList 12 ⟨rfl, by decide⟩ (by decide) "default".toList
  exact ⟨r, h, hu⟩

/-! ### each theorem applied -/

/-- Three octets have no marker. -/
theorem exPlain (s : UInt8) : FileHolds [0x30, s, 0] [0x30, s, 0] := by
  refine Or.inl ⟨?_, rfl⟩
  rintro ⟨a, b, h⟩
  have := congrArg List.length h
  have e : (octetText [0x30, s, 0]).length = 3 := rfl
  rw [e, List.length_append, List.length_append] at this
  have e2 : "-----BEGIN ".toList.length = 11 := rfl
  omega

/-- The database of `exQFiles`. -/
def exQDb : LoadedDb Bytes := ⟨[[2]], [([9], [[5]])]⟩

theorem exQ_good3 : ¬ RevokedCert exQ exQDb [0x30, 3, 0] := by
  rintro ⟨c, h, spki, _, _, f, hf, hrev⟩
  cases h
  rw [List.mem_singleton.1 hf] at hrev
  have e : exQ.has [2] (exQ.sha spki) [3] [] = .good := by
    show (if ([3] : Bytes).all ([2] : Bytes).contains then QStatus.revoked else .good) = .good
    decide
  have := hrev.symm.trans e
  cases this

theorem exQ_revoked2 : RevokedCert exQ exQDb [0x30, 2, 0] := ⟨_, rfl, [5], by decide +kernel, rfl, [2], List.mem_singleton.2 rfl, by decide +kernel⟩

theorem exQ_holds : ∀ f ∈ ["good".toList, "revoked".toList], ∃ input der, exQ.file f = some (some input) ∧ FileHolds input der := by
  intro f hf
  rcases List.mem_cons.1 hf with rfl | hf
  · exact ⟨_, _, (by decide +kernel : exQ.file "good".toList = some (some [0x30, 3, 0])), exPlain 3⟩
  · rw [List.mem_singleton.1 hf]
    exact ⟨_, _, (by decide +kernel : exQ.file "revoked".toList = some (some [0x30, 2, 0])), exPlain 2⟩

example : (exQ.main none .default (.x509 ["good".toList, "revoked".toList]) exQFiles).1 = 1 :=
  (C107_files_partial exQ none .default exQFiles exQDb exQ_ready ["good".toList, "revoked".toList] exQ_holds).1.2
    ⟨"revoked".toList, List.mem_cons_of_mem _ List.mem_cons_self, [0x30, 2, 0], [0x30, 2, 0], by decide +kernel, exPlain 2, exQ_revoked2⟩

example : ∀ i h, ["good.example".toList, "two.example:8443".toList][i]? = some h → ∃ der, Served exQ i h der ∧ ¬ RevokedCert exQ exQDb der :=
  (C107_hosts exQ none .default exQFiles exQDb exQ_ready _).1 (by decide +kernel)

theorem exGood_reached (k : Nat) (host : Text) : Reached exQ k host "good".toList 0 [0x30, 3, 0] := ⟨rfl, _, rfl⟩

theorem exGood_served : Served exQ 0 "good.example".toList [0x30, 3, 0] :=
  ⟨"good.example".toList, 443, [], "good".toList, [], (C107_host_port _ _ _).2 (by decide +kernel), by decide +kernel, (fun _ hb => by cases hb), Or.inl (exGood_reached _ _)⟩

example (d : Bytes) (h : Served exQ 0 "good.example".toList d) : d = [0x30, 3, 0] := C107_served_unique exQ 0 "good.example".toList d _ h exGood_served

example : (exQ.main none .default (.https ["good.example".toList]) exQFiles).1 = 0 :=
  (C107_hosts exQ none .default exQFiles exQDb exQ_ready _).2 (fun i h hi => by
    cases i with
    | zero => cases hi; exact ⟨_, exGood_served, exQ_good3⟩
    | succ i => cases hi)

/-- The hosts file of the example. -/
example : (exQ.main none .default (.signoff "nothing".toList) exQFiles).1 = 1 ∧
    ∀ i h, ["good.example".toList, "two.example:8443".toList][i]? = some h → ∃ der, Served exQ i h der ∧ ¬ RevokedCert exQ exQDb der :=
  ⟨(C107_signoff exQ none .default exQFiles exQDb exQ_ready "nothing".toList).1 (by decide +kernel),
    ((C107_signoff exQ none .default exQFiles exQDb exQ_ready "hosts".toList).2 [1] _ (by decide +kernel) exHostFile).1 (by decide +kernel)⟩

/-- The same world with certificates at crt.sh. -/
def exQCrt : QueryWorld Bytes := { exQ with page := fun _ => some [0x30, 2, 0] }

example : (exQCrt.main none .default (.crtsh "7".toList) exQFiles).1 ≠ 0 := fun h =>
  (((C107_crtsh exQCrt none .default exQFiles exQDb ⟨rfl, exQFiles, exQFiles, Or.inl ⟨rfl, rfl⟩, by decide +kernel⟩ "7".toList).2 [0x30, 2, 0] [0x30, 2, 0] rfl (exPlain 2)).1 h).2 exQ_revoked2

example : (exQ.main none .default (.crtsh "7".toList) exQFiles).1 = 1 :=
  (C107_crtsh exQ none .default exQFiles exQDb exQ_ready "7".toList).1 (by decide +kernel)

example : (exQ.main none .default (.x509 ["missing".toList, "revoked".toList, "text".toList]) exQFiles).1 = 1 :=
  C107_revoked_file exQ none .default exQFiles exQDb exQ_ready _ "revoked".toList (List.mem_cons_of_mem _ List.mem_cons_self) [0x30, 2, 0] [0x30, 2, 0] (by decide +kernel) (exPlain 2) exQ_revoked2

/-- A missing file, one that cannot be read, and one that is no certificate. -/
example : (exQ.main none .default (.x509 ["missing".toList]) exQFiles).1 = 0 ∧ (exQ.main none .default (.x509 ["unreadable".toList]) exQFiles).1 = 0 ∧ (exQ.main none .default (.x509 ["text".toList]) exQFiles).1 = 0 :=
  ⟨C107_skipped_fails exQ none .default exQFiles exQDb exQ_ready _ (Or.inl (by decide +kernel)), C107_skipped_fails exQ none .default exQFiles exQDb exQ_ready _ (Or.inr (Or.inl (by decide +kernel))),
    C107_skipped_fails exQ none .default exQFiles exQDb exQ_ready _ (Or.inr (Or.inr ⟨[65], by decide +kernel, by decide +kernel⟩))⟩

example : (exQ.main none .default (.x509 ["bundle".toList]) exQFiles).1 = 0 :=
  C107_bundle_fails exQ none .default exQFiles exQDb exQ_ready "bundle".toList exBundle [1, 2, 3] _ (by decide +kernel) exBundle_first.1 exBundle_first.2.1

example : (exQ.main none .default (.https ["good.example".toList, "nowhere.example".toList]) exQFiles).1 = 1 :=
  C107_unreachable_fails exQ none .default exQFiles exQDb exQ_ready _ 1 "nowhere.example".toList rfl (by
    rintro der ⟨host, port, before, a, after, hp, hr, _⟩
    have hp := (C107_host_port _ _ _).1 hp
    obtain ⟨h1, h2⟩ := hp
    rw [show splitHost "nowhere.example".toList = ("nowhere.example".toList, "443".toList) by decide +kernel] at h1 h2
    rw [show parseU16 "443".toList = some 443 by decide +kernel] at h2
    cases h1
    cases h2
    rw [show exQ.resolve 1 "nowhere.example".toList 443 = none by decide +kernel] at hr
    cases hr)

/-- The second address would have served the revoked certificate. -/
example : (exQ.main none .default (.https ["two.example:8443".toList]) exQFiles).1 = 0 :=
  C107_second_address_fails exQ none .default exQFiles exQDb exQ_ready "two.example:8443".toList "two.example".toList "good".toList 8443 ["revoked".toList] [0x30, 3, 0] ((C107_host_port _ _ _).2 (by decide +kernel)) (by decide +kernel)
    (exGood_reached _ _) exQ_good3

end Verif.Props
