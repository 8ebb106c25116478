import Verif.Props.Operations
/-!
C97: what the channel with the priority reasons (`compat`, moz_kinto_publisher/main.py:80-91) answers, over any history of generations and publications. Its filters are made by the second call of 2-generate_mlbf
(containers/scripts/crlite-generate.sh:60-65) from the same inputs as those of the channel with all reasons, and its deltas against that channel's revocation set.
-/
namespace Verif.Spec

/-- The file that is published with a record of a run in a channel with this folder. -/
def fileIn (dir run : Text) (r : KRec) : List Text := if r.incremental = some true then [run, dir, "filter.delta".toList] else [run, dir, "filter".toList]

/-- What a client has that has downloaded the records of a channel with this folder. -/
def ClientCardsIn {F : Type} (card : Bytes → Option (Card F)) (b : List StoredObj) (dir slug : Text) (l : List KRec) (cards : List (Card F)) : Prop :=
  ∀ c, c ∈ cards ↔ ∃ r ∈ l, ∃ run, Carries slug run r ∧ ∃ bytes, objGet b (fileIn dir run r) = some bytes ∧ card bytes = some c

/-- The files that `makePrio` makes are those of a run of rust-create-cascade for the priority reasons with these inputs. (That a call which is refused makes none, and does not fail, is C96.) -/
def GeneratesPriority {F : Type} (dec : Bytes → Option (List Bytes)) (card : Bytes → Option (Card F)) (build : List Bytes → List (Bytes × Bool) → Option F) (contains : F → Bytes → Bool) (order : List Text → List Text)
    (a : GenRun) (w : RunInput) (x : Dir) (cov : Coverage) : Prop :=
  ∀ prev prio, a.makePrio prev = some prio → ∃ out, createRun build contains order .priority .priority (prev.bind dec) (revokedDir w x) (knownDir w) = some out ∧
    (∃ f ∈ prio, f.symlink = false ∧ f.path = ["filter".toList] ∧ card f.content = some ⟨out.filter, cov⟩) ∧
    (∃ f ∈ prio, f.symlink = false ∧ f.path = ["filter.delta".toList] ∧ card f.content = some ⟨out.deltaFilter, cov⟩)

end Verif.Spec

namespace Verif.Props
open Verif.Spec

/-- **C97, deltas.** The priority files of a complete run were made from what the last execution with this name was given: the revocation set, for all reasons, that the complete run before has uploaded, or none if that download failed. -/
theorem C97_given (s : Ops) (h : OpsReach s) (y : Text) (hy : Finished s.bucket y) :
    ∃ a prev prev' prio, MadeBy s y a prev ∧ a.makePrio prev' = some prio ∧ (∀ f ∈ prio, f.symlink = false → objGet s.bucket (y :: "clubcard-priority".toList :: f.path) = some f.content) ∧
      ∀ x, Next s.bucket x y → (a.dlPrio = true → prev' = revsetOf s.bucket x ∧ prev' ≠ none) ∧ (a.dlPrio = false → prev' = none) := by
  have hb := bucketInv_inv (reach_bucketInv h)
  obtain ⟨hl, hr⟩ := finished_iff.1 hy
  obtain ⟨a, prev, hm⟩ := hb.entry y hl
  obtain ⟨_, _, prev', groups, prio, _, h1, _, h3, _, _, h4⟩ := hb.files y a prev hl hr hm
  refine ⟨a, prev, prev', prio, hm, h1, h4, ?_⟩
  intro x hn
  obtain ⟨hx, _, hlt, hno⟩ := hn
  obtain ⟨hxl, hxr⟩ := finished_iff.1 hx
  have hg := h3 x hxl hlt hno hxr
  constructor
  · intro hd
    rw [hd, if_pos rfl] at hg
    refine ⟨hg, ?_⟩
    obtain ⟨a', prev'', groups', hm', e1, e2, _, e4⟩ := C81_files s h x hx
    obtain ⟨ax, px, hmx⟩ := hb.entry x hxl
    obtain ⟨hgood, _⟩ := hb.files x ax px hxl hxr hmx
    unfold MadeBy at hm'
    rw [hmx, Option.some.injEq, Prod.mk.injEq] at hm'
    obtain ⟨rfl, rfl⟩ := hm'
    obtain ⟨g, hgm, f, hf, hsl, hp⟩ := hgood.revset _ groups' e1 e2
    have hrev := e4 g hgm f hf hsl
    rw [hp] at hrev
    rw [hg]
    unfold revsetOf
    rw [hrev]
    intro e
    cases e
  · intro hd
    rw [hd] at hg
    exact hg

section
variable {F : Type} {dec : Bytes → Option (List Bytes)} {card : Bytes → Option (Card F)} {build : List Bytes → List (Bytes × Bool) → Option F} {contains : F → Bytes → Bool} {order : List Text → List Text}
  {W : GenRun → RunInput} {X : GenRun → Dir} {cov : GenRun → Coverage} {s : Ops}

/-- The priority filters of one run, on the certificates known to it. -/
theorem priority_answers {enrolls : F → Bytes → Bool} (he : EnrollsInput build enrolls) {rs : ReasonSet} {w : RunInput} {x : Dir} (hg : GoodInput w x) {prev : Option (List Bytes)} {out : RunOut F}
    (ho : createRun build contains order rs rs prev (revokedDir w x) (knownDir w) = some out) {d : Bytes} {n : Serial} (hk : KnownIn w d n) :
    enrolls out.filter d = true ∧ enrolls out.deltaFilter d = true ∧ (contains out.filter (crliteKey d n) = true ↔ RevokedIn rs w d n) ∧
    (contains out.deltaFilter (crliteKey d n) = true ↔ RevokedIn rs w d n ∧ crliteKey d n ∉ prevSet prev) := by
  obtain ⟨k1, k2, _, k4⟩ := createRun_some ho
  obtain ⟨w', revset, h1, _, h3, h4, h5, _, h6, _⟩ := C58_delta rs prev w x hg
  rw [k2, Option.some.injEq, Prod.mk.injEq] at h1
  rw [h1.1, ← h3] at k4
  refine ⟨enrolls_known he hg k1 hk, enrolls_known he h4 k4 ((h5 d n).2 hk), C56_written_filter_exact build contains rs _ _ hg _ k1 _ _ hk, ?_⟩
  rw [C56_written_filter_exact build contains rs w' [] h4 _ k4 d n ((h5 d n).2 hk), h6]
  exact ⟨fun h => h.2, fun h => ⟨hk, h⟩⟩

theorem priority_out (h : OpsReach s) (hgp : ∀ y a prev, Finished s.bucket y → MadeBy s y a prev → GeneratesPriority dec card build contains order a (W a) (X a) (cov a)) {y : Text} (hy : Finished s.bucket y) :
    ∃ a prev prev' out, MadeBy s y a prev ∧ createRun build contains order .priority .priority (prev'.bind dec) (revokedDir (W a) (X a)) (knownDir (W a)) = some out ∧
      (∃ bytes, objGet s.bucket [y, "clubcard-priority".toList, "filter".toList] = some bytes ∧ card bytes = some ⟨out.filter, cov a⟩) ∧
      (∃ bytes, objGet s.bucket [y, "clubcard-priority".toList, "filter.delta".toList] = some bytes ∧ card bytes = some ⟨out.deltaFilter, cov a⟩) ∧
      ∀ x, Next s.bucket x y → (a.dlPrio = true → prev' = revsetOf s.bucket x ∧ prev' ≠ none) ∧ (a.dlPrio = false → prev' = none) := by
  obtain ⟨a, prev, prev', prio, hm, h1, h2, h3⟩ := C97_given s h y hy
  obtain ⟨out, ho, ⟨f1, hf1, hs1, hp1, hc1⟩, f2, hf2, hs2, hp2, hc2⟩ := hgp y a prev hy hm prev' prio h1
  have e1 := h2 f1 hf1 hs1
  have e2 := h2 f2 hf2 hs2
  rw [hp1] at e1
  rw [hp2] at e2
  exact ⟨a, prev, prev', out, hm, ho, ⟨_, e1, hc1⟩, ⟨_, e2, hc2⟩, h3⟩

/-- The certificate is known to the run and revoked for a priority reason. -/
def KnownPriority (W : GenRun → RunInput) (s : Ops) (y : Text) (d : Bytes) (n : Serial) : Prop := ∀ a prev, MadeBy s y a prev → KnownIn (W a) d n ∧ RevokedIn .priority (W a) d n

/-- Between two consecutive runs the certificate does not go from revoked for another reason to revoked for a priority reason. -/
def ReasonStable (W : GenRun → RunInput) (s : Ops) (d : Bytes) (n : Serial) : Prop :=
  ∀ x y, Next s.bucket x y → ∀ a prev a' prev', MadeBy s x a prev → MadeBy s y a' prev' → KnownIn (W a) d n → RevokedIn .all (W a) d n → RevokedIn .priority (W a') d n → RevokedIn .priority (W a) d n

theorem steps_priority {enrolls : F → Bytes → Bool} (he : EnrollsInput build enrolls) (h : OpsReach s) (hgen : ∀ y a prev, Finished s.bucket y → MadeBy s y a prev → Generates dec card build contains order a (W a) (X a) (cov a))
    (hgp : ∀ y a prev, Finished s.bucket y → MadeBy s y a prev → GeneratesPriority dec card build contains order a (W a) (X a) (cov a)) (d : Bytes) (n : Serial) (hstable : ReasonStable W s d n)
    (runs : List Text) : ∀ x, Finished s.bucket x → Steps (Next s.bucket) x runs → KnownPriority W s ((x :: runs).getLast (by simp)) d n →
    KnownPriority W s x d n ∨ ∃ y ∈ runs, ∃ a prev bytes f, MadeBy s y a prev ∧ KnownIn (W a) d n ∧ RevokedIn .priority (W a) d n ∧ objGet s.bucket [y, "clubcard-priority".toList, "filter.delta".toList] = some bytes ∧
      card bytes = some ⟨f, cov a⟩ ∧ enrolls f d = true ∧ contains f (crliteKey d n) = true := by
  induction runs with
  | nil => intro x _ _ hkr; exact Or.inl hkr
  | cons y rest ih =>
    intro x hx hst hkr
    obtain ⟨hn, hst⟩ := hst
    rw [List.getLast_cons (by simp)] at hkr
    have hy := hn.2.1
    rcases ih y hy hst hkr with hkry | ⟨z, hz, hrest⟩
    · by_cases hkrx : KnownPriority W s x d n
      · exact Or.inl hkrx
      · right
        obtain ⟨a, prev, prev', out, hm, ho, _, ⟨bytes, hb, hc⟩, hgiven⟩ := priority_out h hgp hy
        obtain ⟨hk, hr⟩ := hkry a prev hm
        obtain ⟨_, a2, _, a4⟩ := priority_answers he (hgen y a prev hy hm).good ho hk
        refine ⟨y, by simp, a, prev, bytes, out.deltaFilter, hm, hk, hr, hb, hc, a2, a4.2 ⟨hr, ?_⟩⟩
        intro hmem
        apply hkrx
        obtain ⟨ax, prevx, outx, hmx, _, _, _, rb, l, hrb, hdec, hl⟩ := run_out h hgen hx
        obtain ⟨g1, g2⟩ := hgiven x hn
        cases hd : a.dlPrio with
        | false =>
          rw [g2 hd] at hmem
          cases hmem
        | true =>
          rw [(g1 hd).1, hrb, Option.bind_some, hdec] at hmem
          obtain ⟨d', n', hk', hr', e⟩ := (hl _).1 hmem
          obtain ⟨rfl, rfl⟩ := C13_key_injective d d' n n' (knownIn_length (hgen y a prev hy hm).good hk) (knownIn_length (hgen x ax prevx hx hmx).good hk') e
          have hp := hstable x y hn ax prevx a prev hmx hm hk' hr' hr
          intro a' prev' hm'
          unfold MadeBy at hmx hm'
          rw [hmx, Option.some.injEq, Prod.mk.injEq] at hm'
          obtain ⟨rfl, rfl⟩ := hm'
          exact ⟨hk', hp⟩
    · exact Or.inr ⟨z, by simp [hz], hrest⟩

end

section
variable {F : Type} (dec : Bytes → Option (List Bytes)) (card : Bytes → Option (Card F)) (build : List Bytes → List (Bytes × Bool) → Option F) (contains : F → Bytes → Bool) (enrolls : F → Bytes → Bool)
  (he : EnrollsInput build enrolls) (order : List Text → List Text) (W : GenRun → RunInput) (X : GenRun → Dir) (cov : GenRun → Coverage) (sha : Bytes → Bytes) (parse : Bytes → Option IssuerCert) (verifies : Bytes → Bool)
  (inter : Intermediates) (s : Ops) (h : OpsReach s) (hgen : ∀ y a prev, Finished s.bucket y → MadeBy s y a prev → Generates dec card build contains order a (W a) (X a) (cov a))
  (hgp : ∀ y a prev, Finished s.bucket y → MadeBy s y a prev → GeneratesPriority dec card build contains order a (W a) (X a) (cov a))
  (slug : Text) (hs : ∀ c ∈ slug, c ≠ '-') (l : List KRec) (hl : l.Perm (recordsOf slug s.recs)) (hc : IsChain l) (cards : List (Card F)) (hcards : ClientCardsIn card s.bucket "clubcard-priority".toList slug l cards)
include he h hgen hgp hs hl hc hcards

/-- **C97, Revoked (partial).** Full statement: without `hcov` and `hstable`. Proved: after any history of generations and publications, stopped anywhere, if the priority channel is a chain and a client has its filters, then a certificate that
is known and revoked for a priority reason in the last run of the chain, valid now and with a known issuer, is answered Revoked, provided each run of the chain that knew the certificate and found it so revoked also covered one of its SCTs,
and the certificate was not revoked for another reason before. Missing: runs that knew it from elsewhere (`C74_known_elsewhere_fails`) and changes of the reason (`C97_reason_change_fails`). -/
theorem C97_revoked_partial (c : ClientCert) (spki : Bytes) (hlk : lookupSpki parse verifies inter c.issuerDN = some spki) (hv : c.valid = true) (hstable : ReasonStable W s (sha spki) c.serial)
    (hkr : ∀ runs z, CarryAll slug runs l → runs.getLast? = some z → ∀ a prev, MadeBy s z a prev → KnownIn (W a) (sha spki) c.serial ∧ RevokedIn .priority (W a) (sha spki) c.serial)
    (hcov : ∀ runs, CarryAll slug runs l → ∀ y ∈ runs, ∀ a prev, MadeBy s y a prev → KnownIn (W a) (sha spki) c.serial → RevokedIn .priority (W a) (sha spki) c.serial → Covers (cov a) c.scts) :
    clientQuery sha parse verifies (cardHas enrolls contains) cards inter c = .revoked := by
  rw [C63_revoked_iff]
  refine ⟨spki, hlk, hv, ?_⟩
  obtain ⟨x, runs, hx, hcar, hst⟩ := C81_runs s h slug hs l hl hc
  have hlast : KnownPriority W s ((x :: runs).getLast (by simp)) (sha spki) c.serial := hkr (x :: runs) _ hcar (List.getLast?_eq_some_getLast (by simp))
  have hanswer : ∀ y ∈ x :: runs, ∀ a prev f, MadeBy s y a prev → KnownIn (W a) (sha spki) c.serial → RevokedIn .priority (W a) (sha spki) c.serial → enrolls f (sha spki) = true → contains f (crliteKey (sha spki) c.serial) = true →
      cardHas enrolls contains ⟨f, cov a⟩ (sha spki) c.serial c.scts = .revoked := by
    intro y hy a prev f hm hk hr h1 h2
    unfold cardHas
    rw [if_pos ((covers_iff _ _).2 (hcov (x :: runs) hcar y hy a prev hm hk hr)), if_pos h1, if_pos h2]
  cases l with
  | nil => exact hc.elim
  | cons r0 rest =>
    have hinc : ∀ l : List KRec, ∀ p, Linked p l → ∀ r ∈ l, r.incremental = some true := by
      intro l
      induction l with
      | nil => intro p _ r hr; cases hr
      | cons q qs ih =>
        intro p hlk r hr
        obtain ⟨e1, _, _, i, _, e2⟩ := hlk
        rcases List.mem_cons.1 hr with rfl | hr
        · exact e1
        · exact ih i e2 r hr
    obtain ⟨hfull, _, i, _, hlinked⟩ := hc
    rcases steps_priority (enrolls := enrolls) he h hgen hgp (sha spki) c.serial hstable runs x hx hst hlast with hkx | ⟨y, hy, a, prev, bytes, f, hm, hk, hrev, hb, hcd, h1, h2⟩
    · obtain ⟨a, prev, prev', out, hm, ho, ⟨bytes, hb, hcd⟩, _⟩ := priority_out h hgp hx
      obtain ⟨hk, hr⟩ := hkx a prev hm
      obtain ⟨a1, _, a3, _⟩ := priority_answers he (hgen x a prev hx hm).good ho hk
      refine ⟨⟨out.filter, cov a⟩, (hcards _).2 ⟨r0, by simp, x, hcar.1, bytes, ?_, hcd⟩, hanswer x (by simp) a prev _ hm hk hr a1 (a3.2 hr)⟩
      unfold fileIn
      rw [hfull, if_neg (by simp)]
      exact hb
    · obtain ⟨r, hr, hcy⟩ := (carryAll_mem runs rest hcar.2).1 y hy
      refine ⟨⟨f, cov a⟩, (hcards _).2 ⟨r, by simp [hr], y, hcy, bytes, ?_, hcd⟩, hanswer y (by simp [hy]) a prev f hm hk hrev h1 h2⟩
      unfold fileIn
      rw [hinc rest i hlinked r hr, if_pos rfl]
      exact hb

/-- What the filters answer on a certificate that no run of the chain found revoked for a priority reason. -/
theorem priority_chain_answers (c : ClientCert) (spki : Bytes)
    (hr : ∀ runs, CarryAll slug runs l → ∀ y ∈ runs, ∀ a prev, MadeBy s y a prev → ¬RevokedIn .priority (W a) (sha spki) c.serial)
    (hsure : ∀ runs, CarryAll slug runs l → ∀ y ∈ runs, ∀ a prev, MadeBy s y a prev → Covers (cov a) c.scts → KnownIn (W a) (sha spki) c.serial) :
    ∃ runs, CarryAll slug runs l ∧ (∀ f ∈ cards, ∃ y ∈ runs, ∃ a prev, MadeBy s y a prev ∧ f.coverage = cov a) ∧ (∀ y ∈ runs, ∃ a prev, MadeBy s y a prev ∧ ∃ f ∈ cards, f.coverage = cov a) ∧
      ∀ f ∈ cards, cardHas enrolls contains f (sha spki) c.serial c.scts = if c.scts.any (sctCovered f.coverage) then .good else .notCovered := by
  obtain ⟨x, runs, hx, hcar, hst⟩ := C81_runs s h slug hs l hl hc
  have hcard : ∀ y ∈ x :: runs, ∃ a prev prev' out, MadeBy s y a prev ∧ createRun build contains order .priority .priority prev' (revokedDir (W a) (X a)) (knownDir (W a)) = some out ∧
      ∀ r, ∃ bytes, objGet s.bucket (fileIn "clubcard-priority".toList y r) = some bytes ∧ (card bytes = some ⟨out.filter, cov a⟩ ∨ card bytes = some ⟨out.deltaFilter, cov a⟩) := by
    intro y hy
    obtain ⟨a, prev, prev', out, hm, ho, ⟨b1, hb1, hc1⟩, ⟨b2, hb2, hc2⟩, _⟩ := priority_out h hgp (steps_finished runs x hx hst y hy)
    refine ⟨a, prev, _, out, hm, ho, fun r => ?_⟩
    unfold fileIn
    split
    · exact ⟨b2, hb2, Or.inr hc2⟩
    · exact ⟨b1, hb1, Or.inl hc1⟩
  have hof : ∀ f ∈ cards, ∃ y ∈ x :: runs, ∃ a prev prev' out, MadeBy s y a prev ∧ createRun build contains order .priority .priority prev' (revokedDir (W a) (X a)) (knownDir (W a)) = some out ∧
      (f = ⟨out.filter, cov a⟩ ∨ f = ⟨out.deltaFilter, cov a⟩) := by
    intro f hf
    obtain ⟨r, hrl, run, hcr, bytes, hb, hcd⟩ := (hcards f).1 hf
    obtain ⟨y, hy, hcy⟩ := (carryAll_mem (x :: runs) l hcar).2 r hrl
    have hry : run = y := attachment_unique hs (carries_attachment hcr) (carries_attachment hcy)
    subst hry
    obtain ⟨a, prev, prev', out, hm, ho, hfile⟩ := hcard run hy
    obtain ⟨bytes', hb', hcd'⟩ := hfile r
    rw [hb, Option.some.injEq] at hb'
    rw [← hb', hcd, Option.some.injEq, Option.some.injEq] at hcd'
    exact ⟨run, hy, a, prev, prev', out, hm, ho, hcd'⟩
  refine ⟨x :: runs, hcar, ?_, ?_, ?_⟩
  · intro f hf
    obtain ⟨y, hy, a, prev, prev', out, hm, _, e⟩ := hof f hf
    refine ⟨y, hy, a, prev, hm, ?_⟩
    rcases e with rfl | rfl <;> rfl
  · intro y hy
    obtain ⟨a, prev, prev', out, hm, _, hfile⟩ := hcard y hy
    obtain ⟨r, hrl, hcy⟩ := (carryAll_mem (x :: runs) l hcar).1 y hy
    obtain ⟨bytes, hb, hcd⟩ := hfile r
    refine ⟨a, prev, hm, ?_⟩
    rcases hcd with hcd | hcd
    · exact ⟨_, (hcards _).2 ⟨r, hrl, y, hcy, bytes, hb, hcd⟩, rfl⟩
    · exact ⟨_, (hcards _).2 ⟨r, hrl, y, hcy, bytes, hb, hcd⟩, rfl⟩
  · intro f hf
    obtain ⟨y, hy, a, prev, prev', out, hm, ho, e⟩ := hof f hf
    have hfc : f.coverage = cov a := by rcases e with rfl | rfl <;> rfl
    unfold cardHas
    by_cases hcv : c.scts.any (sctCovered f.coverage) = true
    · rw [if_pos hcv, if_pos hcv]
      rw [hfc, covers_iff] at hcv
      have hk := hsure (x :: runs) hcar y hy a prev hm hcv
      have hnr := hr (x :: runs) hcar y hy a prev hm
      obtain ⟨a1, a2, a3, a4⟩ := priority_answers he (hgen y a prev (steps_finished runs x hx hst y hy) hm).good ho hk
      rcases e with rfl | rfl
      · rw [if_pos a1, if_neg (fun h => hnr (a3.1 h))]
      · rw [if_pos a2, if_neg (fun h => hnr (a4.1 h).1)]
    · rw [if_neg hcv, if_neg hcv]

/-- **C97, Good.** After any such history: a certificate that no run of the chain found revoked for a priority reason, known to every run of it that covers one of its SCTs, and valid now, is answered Good if a run of the chain covers one of its
SCTs, and NotCovered if none does; never Revoked. That it may be revoked for another reason is what this channel is for. -/
theorem C97_good (c : ClientCert) (spki : Bytes) (hlk : lookupSpki parse verifies inter c.issuerDN = some spki) (hv : c.valid = true)
    (hr : ∀ runs, CarryAll slug runs l → ∀ y ∈ runs, ∀ a prev, MadeBy s y a prev → ¬RevokedIn .priority (W a) (sha spki) c.serial)
    (hsure : ∀ runs, CarryAll slug runs l → ∀ y ∈ runs, ∀ a prev, MadeBy s y a prev → Covers (cov a) c.scts → KnownIn (W a) (sha spki) c.serial) :
    ((∀ runs, CarryAll slug runs l → ∃ y ∈ runs, ∀ a prev, MadeBy s y a prev → Covers (cov a) c.scts) → clientQuery sha parse verifies (cardHas enrolls contains) cards inter c = .good) ∧
    ((∀ runs, CarryAll slug runs l → ∀ y ∈ runs, ∀ a prev, MadeBy s y a prev → ¬ Covers (cov a) c.scts) → clientQuery sha parse verifies (cardHas enrolls contains) cards inter c = .notCovered) ∧
    clientQuery sha parse verifies (cardHas enrolls contains) cards inter c ≠ .revoked := by
  obtain ⟨runs, hcar, hof, hhas, key⟩ := priority_chain_answers dec card build contains enrolls he order W X cov sha s h hgen hgp slug hs l hl hc cards hcards c spki hr hsure
  have hans := ((C63_answers sha parse verifies (cardHas enrolls contains) cards inter c).2 spki hlk).2 hv
  have nrev : ¬ ∃ f ∈ cards, cardHas enrolls contains f (sha spki) c.serial c.scts = .revoked := by
    rintro ⟨f, hf, hk⟩
    rw [key f hf] at hk
    split at hk <;> cases hk
  have nenr : ¬ ∃ f ∈ cards, cardHas enrolls contains f (sha spki) c.serial c.scts = .notEnrolled := by
    rintro ⟨f, hf, hk⟩
    rw [key f hf] at hk
    split at hk <;> cases hk
  rw [hans]
  unfold precedence
  rw [if_neg nrev]
  refine ⟨?_, ?_, ?_⟩
  · intro hcov
    obtain ⟨y, hy, hcv⟩ := hcov runs hcar
    obtain ⟨a, prev, hm, f, hf, hfc⟩ := hhas y hy
    rw [if_pos]
    refine ⟨f, hf, ?_⟩
    rw [key f hf, if_pos]
    rw [hfc, covers_iff]
    exact hcv a prev hm
  · intro hno
    rw [if_neg, if_neg nenr]
    rintro ⟨f, hf, hk⟩
    obtain ⟨y, hy, a, prev, hm, hfc⟩ := hof f hf
    rw [key f hf, if_neg] at hk
    · cases hk
    · rw [hfc, covers_iff]
      exact hno runs hcar y hy a prev hm
  · rw [if_neg nenr]
    split
    · intro e; cases e
    · intro e; cases e

end
/-! #### an example: two generations, each followed by the publisher of the priority channel

In the first run the serial 1 is revoked for another reason; in the second run both serials are revoked for key compromise. -/

def exPrW : Nat → RunInput
  | 0 => [⟨List.replicate 32 7, [(100, [[1], [2], [3]])], some [([1], 4)]⟩]
  | _ => [⟨List.replicate 32 7, [(100, [[1], [2], [3]])], some [([1], 1), ([2], 1)]⟩]

theorem exPrW_good (n : Nat) : GoodInput (exPrW n) [] := by
  cases n with
  | zero =>
    refine ⟨by decide, ?_, by simp⟩
    intro i hi
    simp only [exPrW, List.mem_cons, List.not_mem_nil, or_false] at hi
    subst hi
    exact ⟨by decide, by decide⟩
  | succ n =>
    show GoodInput (exPrW 1) []
    refine ⟨by decide, ?_, by simp⟩
    intro i hi
    simp only [exPrW, List.mem_cons, List.not_mem_nil, or_false] at hi
    subst hi
    exact ⟨by decide, by decide⟩

/-- What rust-create-cascade makes for all reasons. -/
def exPrAll (n : Nat) : RunOut (List Bytes) :=
  (createRun exBuild exContains (fun l => l) .all .all (if n = 0 then none else some [List.replicate 32 7 ++ [1]]) (revokedDir (exPrW n) []) (knownDir (exPrW n))).getD ⟨[], [], [], [], []⟩

/-- What it makes for the priority reasons. -/
def exPrOut (n : Nat) : RunOut (List Bytes) :=
  (createRun exBuild exContains (fun l => l) .priority .priority (if n = 0 then none else some [List.replicate 32 7 ++ [1]]) (revokedDir (exPrW n) []) (knownDir (exPrW n))).getD ⟨[], [], [], [], []⟩

theorem exPrAll_0 : createRun exBuild exContains (fun l => l) .all .all none (revokedDir (exPrW 0) []) (knownDir (exPrW 0)) = some (exPrAll 0) := by decide +kernel

theorem exPrAll_1 : createRun exBuild exContains (fun l => l) .all .all (some [List.replicate 32 7 ++ [1]]) (revokedDir (exPrW 1) []) (knownDir (exPrW 1)) = some (exPrAll 1) := by decide +kernel

theorem exPrOut_0 : createRun exBuild exContains (fun l => l) .priority .priority none (revokedDir (exPrW 0) []) (knownDir (exPrW 0)) = some (exPrOut 0) := by decide +kernel

theorem exPrOut_1 : createRun exBuild exContains (fun l => l) .priority .priority (some [List.replicate 32 7 ++ [1]]) (revokedDir (exPrW 1) []) (knownDir (exPrW 1)) = some (exPrOut 1) := by decide +kernel

theorem exPrRevset_0 : (exPrAll 0).revset = [List.replicate 32 7 ++ [1]] := by decide +kernel

/-- `[10]`, `[11]` are revocation sets, `[20]`, `[21]` full filters, `[30]`, `[31]` deltas, `[40]`, `[41]` full priority filters, `[50]`, `[51]` priority deltas. -/
def exPrDec (b : Bytes) : Option (List Bytes) := if b = [10] then some (exPrAll 0).revset else if b = [11] then some (exPrAll 1).revset else none

def exPrCard (b : Bytes) : Option (Card (List Bytes)) :=
  if b = [20] then some ⟨(exPrAll 0).filter, exCov 0⟩ else if b = [21] then some ⟨(exPrAll 1).filter, exCov 0⟩ else if b = [30] then some ⟨(exPrAll 0).deltaFilter, exCov 0⟩
  else if b = [31] then some ⟨(exPrAll 1).deltaFilter, exCov 0⟩ else if b = [40] then some ⟨(exPrOut 0).filter, exCov 0⟩ else if b = [41] then some ⟨(exPrOut 1).filter, exCov 0⟩
  else if b = [50] then some ⟨(exPrOut 0).deltaFilter, exCov 0⟩ else if b = [51] then some ⟨(exPrOut 1).deltaFilter, exCov 0⟩ else none

def exPrFiles (n : UInt8) : List WalkFile := [⟨["filter".toList], [40 + n], false⟩, ⟨["filter.delta".toList], [50 + n], false⟩]

def exPrGen0 : GenRun := ⟨"20240101-0".toList, exGen0.data, true, true, fun p => if p = none then some (exGroups 0) else none, fun p => if p = none then some (exPrFiles 0) else none, 0⟩

def exPrGen1 : GenRun := ⟨"20240102-0".toList, exGen1.data, true, true, fun p => if p = some [10] then some (exGroups 1) else none, fun p => if p = some [10] then some (exPrFiles 1) else none, 0⟩

def exPrPublish : OpsEvent := .publish .now exPub "compat".toList "clubcard-priority".toList "filter.delta".toList exParseTime 100 false

theorem exPrGen0_good : GoodGenRun exPrGen0 := by
  refine ⟨⟨_, List.mem_cons_self, rfl⟩, by decide, by decide, ?_, ?_⟩
  · intro prev prev' groups prio h1 h2
    have h1 : (if prev = none then some (exGroups 0) else none) = some groups := h1
    have h2 : (if prev' = none then some (exPrFiles 0) else none) = some prio := h2
    split at h1
    · split at h2
      · cases h1
        cases h2
        exact ⟨by decide, by decide, by decide, by decide, fun f hf => ⟨exGen0_apart f hf, fun rest => exGen_names rest (exGen0_names f hf)⟩⟩
      · cases h2
    · cases h1
  · intro prev groups h1 _
    have h1 : (if prev = none then some (exGroups 0) else none) = some groups := h1
    split at h1
    · cases h1
      exact exGroups_revset 0
    · cases h1

theorem exPrGen1_good : GoodGenRun exPrGen1 := by
  refine ⟨⟨_, List.mem_cons_self, rfl⟩, by decide, by decide, ?_, ?_⟩
  · intro prev prev' groups prio h1 h2
    have h1 : (if prev = some [10] then some (exGroups 1) else none) = some groups := h1
    have h2 : (if prev' = some [10] then some (exPrFiles 1) else none) = some prio := h2
    split at h1
    · split at h2
      · cases h1
        cases h2
        exact ⟨by decide, by decide, by decide, by decide, fun f hf => ⟨exGen1_apart f hf, fun rest => exGen_names rest (exGen1_names f hf)⟩⟩
      · cases h2
    · cases h1
  · intro prev groups h1 _
    have h1 : (if prev = some [10] then some (exGroups 1) else none) = some groups := h1
    split at h1
    · cases h1
      exact exGroups_revset 1
    · cases h1

theorem exPrPublish_good (s : Ops) : GoodEvent s exPrPublish := ⟨by show ∀ c ∈ "compat".toList, c ≠ '-'; decide +kernel, exFresh_fresh⟩

def exPrFirst : Ops := (List.replicate 12 OpsEvent.write).foldl Ops.step (Ops.init.step (.generate exPrGen0))

def exPrSecond : Ops := (List.replicate 12 OpsEvent.write).foldl Ops.step ((exPrFirst.step exPrPublish).step (.generate exPrGen1))

def exPrState : Ops := exPrSecond.step exPrPublish

theorem exPrFirst_reach : OpsReach exPrFirst := by
  refine reach_writes 12 _ (OpsReach.step _ _ OpsReach.init ?_)
  exact generate_good exPrGen0_good "20240101".toList ⟨by decide +kernel, by decide +kernel⟩ (fun o ho => (by cases ho)) (by decide +kernel) (by decide +kernel)

theorem exPrState_reach : OpsReach exPrState := by
  refine OpsReach.step _ _ (reach_writes 12 _ (OpsReach.step _ _ (OpsReach.step _ _ exPrFirst_reach (exPrPublish_good _)) ?_)) (exPrPublish_good _)
  exact generate_good exPrGen1_good "20240102".toList ⟨by decide +kernel, by decide +kernel⟩ (by decide +kernel) (by decide +kernel) (by decide +kernel)

theorem exPrMade {y : Text} {a : GenRun} {prev : Option Bytes} (h : MadeBy exPrState y a prev) : (y = "20240102-0".toList ∧ a = exPrGen1) ∨ (y = "20240101-0".toList ∧ a = exPrGen0) := by
  have hm := assocGet_mem h
  have h1 : exPrState.made = ((exPrFirst.step exPrPublish).step (.generate exPrGen1)).made := writes_made 12 _
  have h2 : exPrFirst.made = (Ops.init.step (.generate exPrGen0)).made := writes_made 12 _
  rw [h1] at hm
  rcases List.mem_cons.1 hm with e | hm
  · rw [Prod.mk.injEq, Prod.mk.injEq] at e
    exact Or.inl ⟨e.1, e.2.1⟩
  · have hm : (y, a, prev) ∈ exPrFirst.made := hm
    rw [h2] at hm
    rcases List.mem_cons.1 hm with e | hm
    · rw [Prod.mk.injEq, Prod.mk.injEq] at e
      exact Or.inr ⟨e.1, e.2.1⟩
    · cases hm

def exPrInput (a : GenRun) : RunInput := if a.run = "20240101-0".toList then exPrW 0 else exPrW 1

theorem exPrInput_0 : exPrInput exPrGen0 = exPrW 0 := if_pos rfl

theorem exPrInput_1 : exPrInput exPrGen1 = exPrW 1 := if_neg (by decide +kernel)

theorem exPrState_generates (y : Text) (a : GenRun) (prev : Option Bytes) (h : MadeBy exPrState y a prev) : Generates exPrDec exPrCard exBuild exContains (fun l => l) a (exPrInput a) [] (exCov 0) := by
  rcases exPrMade h with ⟨_, rfl⟩ | ⟨_, rfl⟩
  · rw [exPrInput_1]
    refine ⟨exPrW_good 1, ?_⟩
    intro prev groups h1 _
    have h1 : (if prev = some [10] then some (exGroups 1) else none) = some groups := h1
    split at h1
    · rename_i hp
      cases h1
      rw [hp]
      refine ⟨exPrAll 1, ?_, ?_, ?_, ?_⟩
      · have := exPrAll_1
        rw [← exPrRevset_0] at this
        exact this
      · exact ⟨_, List.mem_singleton.2 rfl, ⟨["filter".toList], [20 + 1], false⟩, List.mem_cons_self, rfl, rfl, rfl⟩
      · exact ⟨_, List.mem_singleton.2 rfl, ⟨["filter.delta".toList], [30 + 1], false⟩, List.mem_cons_of_mem _ List.mem_cons_self, rfl, rfl, rfl⟩
      · exact ⟨_, List.mem_singleton.2 rfl, ⟨["revset.bin".toList], [10 + 1], false⟩, List.mem_cons_of_mem _ (List.mem_cons_of_mem _ List.mem_cons_self), rfl, rfl, (exPrAll 1).revset, rfl, fun k => Iff.rfl⟩
    · cases h1
  · rw [exPrInput_0]
    refine ⟨exPrW_good 0, ?_⟩
    intro prev groups h1 _
    have h1 : (if prev = none then some (exGroups 0) else none) = some groups := h1
    split at h1
    · rename_i hp
      cases h1
      rw [hp]
      refine ⟨exPrAll 0, exPrAll_0, ?_, ?_, ?_⟩
      · exact ⟨_, List.mem_singleton.2 rfl, ⟨["filter".toList], [20 + 0], false⟩, List.mem_cons_self, rfl, rfl, rfl⟩
      · exact ⟨_, List.mem_singleton.2 rfl, ⟨["filter.delta".toList], [30 + 0], false⟩, List.mem_cons_of_mem _ List.mem_cons_self, rfl, rfl, rfl⟩
      · exact ⟨_, List.mem_singleton.2 rfl, ⟨["revset.bin".toList], [10 + 0], false⟩, List.mem_cons_of_mem _ (List.mem_cons_of_mem _ List.mem_cons_self), rfl, rfl, (exPrAll 0).revset, rfl, fun k => Iff.rfl⟩
    · cases h1

theorem exPrState_priority (y : Text) (a : GenRun) (prev : Option Bytes) (h : MadeBy exPrState y a prev) : GeneratesPriority exPrDec exPrCard exBuild exContains (fun l => l) a (exPrInput a) [] (exCov 0) := by
  rcases exPrMade h with ⟨_, rfl⟩ | ⟨_, rfl⟩
  · rw [exPrInput_1]
    intro prev prio h1
    have h1 : (if prev = some [10] then some (exPrFiles 1) else none) = some prio := h1
    split at h1
    · rename_i hp
      cases h1
      rw [hp]
      refine ⟨exPrOut 1, ?_, ?_, ?_⟩
      · have := exPrOut_1
        rw [← exPrRevset_0] at this
        exact this
      · exact ⟨⟨["filter".toList], [40 + 1], false⟩, List.mem_cons_self, rfl, rfl, rfl⟩
      · exact ⟨⟨["filter.delta".toList], [50 + 1], false⟩, List.mem_cons_of_mem _ List.mem_cons_self, rfl, rfl, rfl⟩
    · cases h1
  · rw [exPrInput_0]
    intro prev prio h1
    have h1 : (if prev = none then some (exPrFiles 0) else none) = some prio := h1
    split at h1
    · rename_i hp
      cases h1
      rw [hp]
      refine ⟨exPrOut 0, exPrOut_0, ?_, ?_⟩
      · exact ⟨⟨["filter".toList], [40 + 0], false⟩, List.mem_cons_self, rfl, rfl, rfl⟩
      · exact ⟨⟨["filter.delta".toList], [50 + 0], false⟩, List.mem_cons_of_mem _ List.mem_cons_self, rfl, rfl, rfl⟩
    · cases h1

def exPrRec0 : KRec := ⟨some "i".toList, some false, none, some "20240101-0-compat.filter".toList, exPub.nameOf 1 true, some "compat".toList⟩
def exPrRec1 : KRec := ⟨some "ii".toList, some true, some "i".toList, some "20240102-0-compat.filter.delta".toList, exPub.nameOf 2 false, some "compat".toList⟩

theorem exPrCarries0 : Carries "compat".toList "20240101-0".toList exPrRec0 := Or.inl ⟨rfl, by decide +kernel⟩

theorem exPrCarries1 : Carries "compat".toList "20240102-0".toList exPrRec1 := Or.inr ⟨rfl, by decide +kernel⟩

theorem exPrSlug : ∀ c ∈ "compat".toList, c ≠ '-' := by decide +kernel

theorem exPrState_perm : [exPrRec0, exPrRec1].Perm (recordsOf "compat".toList exPrState.recs) := by
  have : recordsOf "compat".toList exPrState.recs = [exPrRec0, exPrRec1] := by decide +kernel
  rw [this]

theorem exPrState_chain : IsChain [exPrRec0, exPrRec1] := ⟨rfl, rfl, "i".toList, rfl, rfl, rfl, rfl, "ii".toList, rfl, trivial⟩

theorem exPrFile0 : objGet exPrState.bucket (fileIn "clubcard-priority".toList "20240101-0".toList exPrRec0) = some [40] := by decide +kernel

theorem exPrFile1 : objGet exPrState.bucket (fileIn "clubcard-priority".toList "20240102-0".toList exPrRec1) = some [51] := by decide +kernel

theorem exPrCard0 : exPrCard [40] = some ⟨(exPrOut 0).filter, exCov 0⟩ := rfl

theorem exPrCard1 : exPrCard [51] = some ⟨(exPrOut 1).deltaFilter, exCov 0⟩ := rfl

theorem exPrState_cards : ClientCardsIn exPrCard exPrState.bucket "clubcard-priority".toList "compat".toList [exPrRec0, exPrRec1] [⟨(exPrOut 0).filter, exCov 0⟩, ⟨(exPrOut 1).deltaFilter, exCov 0⟩] := by
  intro c
  constructor
  · intro hc
    rcases List.mem_cons.1 hc with rfl | hc
    · exact ⟨exPrRec0, List.mem_cons_self, _, exPrCarries0, _, exPrFile0, exPrCard0⟩
    · rw [List.mem_singleton.1 hc]
      exact ⟨exPrRec1, List.mem_cons_of_mem _ List.mem_cons_self, _, exPrCarries1, _, exPrFile1, exPrCard1⟩
  · rintro ⟨r, hr, run, hcar, bytes, hb, hcd⟩
    rcases List.mem_cons.1 hr with rfl | hr
    · rw [attachment_unique exPrSlug (carries_attachment hcar) (carries_attachment exPrCarries0), exPrFile0, Option.some.injEq] at hb
      rw [← hb, exPrCard0, Option.some.injEq] at hcd
      rw [← hcd]
      exact List.mem_cons_self
    · rw [List.mem_singleton.1 hr] at hcar hb
      rw [attachment_unique exPrSlug (carries_attachment hcar) (carries_attachment exPrCarries1), exPrFile1, Option.some.injEq] at hb
      rw [← hb, exPrCard1, Option.some.injEq] at hcd
      rw [← hcd]
      exact List.mem_cons_of_mem _ List.mem_cons_self

theorem exPrState_runs (runs : List Text) (h : CarryAll "compat".toList runs [exPrRec0, exPrRec1]) : runs = ["20240101-0".toList, "20240102-0".toList] := by
  cases runs with
  | nil => exact h.elim
  | cons x rest =>
    cases rest with
    | nil => exact h.2.elim
    | cons y rest =>
      cases rest with
      | nil => rw [attachment_unique exPrSlug (carries_attachment h.1) (carries_attachment exPrCarries0), attachment_unique exPrSlug (carries_attachment h.2.1) (carries_attachment exPrCarries1)]
      | cons z zs => exact h.2.2.elim

theorem exPr_covered (n : Serial) : Covers (exCov 0) (exClientCert 500 n).scts := ⟨([1], 500), List.mem_singleton.2 rfl, 0, 1000, if_pos rfl, by decide, by decide⟩

/-- Each serial is known to both runs. -/
theorem exPr_known (n : Serial) (hn : n = [1] ∨ n = [2] ∨ n = [3]) {y : Text} {a : GenRun} {prev : Option Bytes} (hm : MadeBy exPrState y a prev) : KnownIn (exPrInput a) (List.replicate 32 7) n := by
  rcases exPrMade hm with ⟨_, rfl⟩ | ⟨_, rfl⟩
  · rw [exPrInput_1]
    rcases hn with rfl | rfl | rfl <;> exact ⟨_, List.mem_singleton.2 rfl, rfl, _, List.mem_singleton.2 rfl, by decide⟩
  · rw [exPrInput_0]
    rcases hn with rfl | rfl | rfl <;> exact ⟨_, List.mem_singleton.2 rfl, rfl, _, List.mem_singleton.2 rfl, by decide⟩

/-- In the last run of the chain the serials 1 and 2 are revoked for key compromise. -/
theorem exPr_last (n : Serial) (hn : n = [1] ∨ n = [2]) (runs : List Text) (z : Text) (hruns : CarryAll "compat".toList runs [exPrRec0, exPrRec1]) (hz : runs.getLast? = some z) (a : GenRun) (prev : Option Bytes)
    (hm : MadeBy exPrState z a prev) : KnownIn (exPrInput a) (List.replicate 32 7) n ∧ RevokedIn .priority (exPrInput a) (List.replicate 32 7) n := by
  rw [exPrState_runs runs hruns] at hz
  have hz : "20240102-0".toList = z := by simpa using hz
  subst hz
  refine ⟨exPr_known n (by rcases hn with h | h <;> simp [h]) hm, ?_⟩
  rcases exPrMade hm with ⟨_, rfl⟩ | ⟨e, _⟩
  · rw [exPrInput_1]
    rcases hn with rfl | rfl <;> exact ⟨_, List.mem_singleton.2 rfl, rfl, _, rfl, 1, by decide, List.mem_cons_self⟩
  · exact absurd e (by decide +kernel)

/-- The serial 2 was not revoked before: it is answered Revoked from the published priority filters. -/
example : clientQuery (fun _ => List.replicate 32 7) (fun d => some ⟨[9], d⟩) (fun _ => true) (cardHas exEnrolls exContains) [⟨(exPrOut 0).filter, exCov 0⟩, ⟨(exPrOut 1).deltaFilter, exCov 0⟩] exInter (exClientCert 500 [2]) = .revoked := by
  refine C97_revoked_partial exPrDec exPrCard exBuild exContains exEnrolls exEnrolls_input (fun l => l) exPrInput (fun _ => []) (fun _ => exCov 0) (fun _ => List.replicate 32 7) (fun d => some ⟨[9], d⟩) (fun _ => true) exInter exPrState
    exPrState_reach (fun y a prev _ => exPrState_generates y a prev) (fun y a prev _ => exPrState_priority y a prev) "compat".toList exPrSlug [exPrRec0, exPrRec1] exPrState_perm exPrState_chain _ exPrState_cards (exClientCert 500 [2]) [5] (by decide) rfl ?_ ?_ ?_
  · intro x y _ a prev a' prev' hm _ _ hr _
    rcases exPrMade hm with ⟨_, rfl⟩ | ⟨_, rfl⟩
    · rw [exPrInput_1]
      exact ⟨_, List.mem_singleton.2 rfl, rfl, _, rfl, 1, by decide, List.mem_cons_self⟩
    · rw [exPrInput_0] at hr
      obtain ⟨i, hi, _, l, hl, c, hc, _⟩ := hr
      rw [List.mem_singleton.1 hi] at hl
      cases hl
      revert hc
      simp [exClientCert]
  · exact exPr_last [2] (Or.inr rfl)
  · intro _ _ _ _ _ _ _ _ _
    exact exPr_covered [2]

/-- **C97 fails when the reason changes.** Every generation has succeeded, the priority channel is a chain, the client has all its filters, all runs cover the certificate; the last run found it revoked for key compromise. But the run
before found it revoked for another reason, so it is in the revocation set against which the delta is made, and no priority filter has it: the client answers Good. -/
theorem C97_reason_change_fails : OpsReach exPrState ∧ [exPrRec0, exPrRec1].Perm (recordsOf "compat".toList exPrState.recs) ∧ IsChain [exPrRec0, exPrRec1] ∧
    ClientCardsIn exPrCard exPrState.bucket "clubcard-priority".toList "compat".toList [exPrRec0, exPrRec1] [⟨(exPrOut 0).filter, exCov 0⟩, ⟨(exPrOut 1).deltaFilter, exCov 0⟩] ∧
    (∀ y a prev, MadeBy exPrState y a prev → Generates exPrDec exPrCard exBuild exContains (fun l => l) a (exPrInput a) [] (exCov 0) ∧ GeneratesPriority exPrDec exPrCard exBuild exContains (fun l => l) a (exPrInput a) [] (exCov 0) ∧
      KnownIn (exPrInput a) (List.replicate 32 7) [1]) ∧
    (∀ runs z, CarryAll "compat".toList runs [exPrRec0, exPrRec1] → runs.getLast? = some z → ∀ a prev, MadeBy exPrState z a prev → RevokedIn .priority (exPrInput a) (List.replicate 32 7) [1]) ∧
    Covers (exCov 0) (exClientCert 500 [1]).scts ∧
    clientQuery (fun _ => List.replicate 32 7) (fun d => some ⟨[9], d⟩) (fun _ => true) (cardHas exEnrolls exContains) [⟨(exPrOut 0).filter, exCov 0⟩, ⟨(exPrOut 1).deltaFilter, exCov 0⟩] exInter (exClientCert 500 [1]) = .good :=
  ⟨exPrState_reach, exPrState_perm, exPrState_chain, exPrState_cards, fun y a prev hm => ⟨exPrState_generates y a prev hm, exPrState_priority y a prev hm, exPr_known [1] (Or.inl rfl) hm⟩,
    fun runs z h1 h2 a prev hm => (exPr_last [1] (Or.inl rfl) runs z h1 h2 a prev hm).2, exPr_covered [1], by decide +kernel⟩

/-- The serial 3 is never revoked: Good. -/
example : clientQuery (fun _ => List.replicate 32 7) (fun d => some ⟨[9], d⟩) (fun _ => true) (cardHas exEnrolls exContains) [⟨(exPrOut 0).filter, exCov 0⟩, ⟨(exPrOut 1).deltaFilter, exCov 0⟩] exInter (exClientCert 500 [3]) = .good := by
  refine (C97_good exPrDec exPrCard exBuild exContains exEnrolls exEnrolls_input (fun l => l) exPrInput (fun _ => []) (fun _ => exCov 0) (fun _ => List.replicate 32 7) (fun d => some ⟨[9], d⟩) (fun _ => true) exInter exPrState
    exPrState_reach (fun y a prev _ => exPrState_generates y a prev) (fun y a prev _ => exPrState_priority y a prev) "compat".toList exPrSlug [exPrRec0, exPrRec1] exPrState_perm exPrState_chain _ exPrState_cards (exClientCert 500 [3]) [5] (by decide) rfl ?_
    (fun _ _ _ _ _ _ hm _ => exPr_known [3] (Or.inr (Or.inr rfl)) hm)).1 ?_
  · intro _ _ _ _ a prev hm
    rcases exPrMade hm with ⟨_, rfl⟩ | ⟨_, rfl⟩
    · rw [exPrInput_1]
      rintro ⟨i, hi, _, l, hl, c, hc, _⟩
      rw [List.mem_singleton.1 hi] at hl
      cases hl
      revert hc
      simp [exClientCert]
    · rw [exPrInput_0]
      rintro ⟨i, hi, _, l, hl, c, hc, _⟩
      rw [List.mem_singleton.1 hi] at hl
      cases hl
      revert hc
      simp [exClientCert]
  · intro runs hruns
    rw [exPrState_runs runs hruns]
    exact ⟨_, List.mem_cons_self, fun _ _ _ => exPr_covered [3]⟩

/-! ### each theorem applied -/

example := C97_given exOpsState exState_reach "20240102-0".toList exState_next.1.2.1

end Verif.Props
