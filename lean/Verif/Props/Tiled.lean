import Verif.Lemmas.TiledRun
import Verif.Props.Fetch
/-! C101: following a tiled log. -/
namespace Verif.Props
open Verif Verif.Spec

/-- Any sequence of executions of `SyncLog` on one tiled log: jobs one after another with the cache of issuers passed on, cut off at any
message; after a cut the process starts again with an empty cache. A job begins with the state of a log never contacted or with a state
sent earlier. `A` says what the outside world and the job may be like. -/
inductive SunHistory (A : TNet → TJob → Prop) : List Ev → Issuers → Prop
  | start : SunHistory A [] noIssuers
  | job {evs : List Ev} {st : Issuers} {w : TNet} {j : TJob} : SunHistory A evs st → (j.s = newLog ∨ .state j.s ∈ evs) → A w j →
      SunHistory A (evs ++ (jobTiled w j st).1) (jobTiled w j st).2.2.1
  | cut {evs p : List Ev} {st : Issuers} {w : TNet} {j : TJob} : SunHistory A evs st → (j.s = newLog ∨ .state j.s ∈ evs) → A w j →
      p <+: (jobTiled w j st).1 → SunHistory A (evs ++ p) noIssuers

/-- A property of the cache that holds at the beginning and is kept by every request holds throughout a history. -/
theorem sunHistory_cache {A : TNet → TJob → Prop} {I : Issuers → Prop} (h0 : I noIssuers) (hk : ∀ w j, A w j → Keeps w I) {evs : List Ev}
    {st : Issuers} (h : SunHistory A evs st) : I st := by
  induction h with
  | start => exact h0
  | @job evs st w j _ _ ha ih => exact jobTiled_keeps (hk w j ha) j st ih
  | cut _ _ _ _ _ => exact h0

/-! ### the events are those of the simpler model -/

/-- **C101 (same messages).** With a positive batch size, the messages of a history are a history of `Verif.Model.Fetch`, so that the
theorems about tiled logs proved there (C21, C25, C26, C27, C75) are about these jobs too. -/
theorem C101_same_messages (keep : Bool) (evs : List Ev) (st : Issuers) (h : SunHistory (fun w j => w.keep = keep ∧ 0 < j.batch) evs st) :
    TiledHistory keep evs := by
  induction h with
  | start => exact .start
  | @job evs st w j _ hs ha ih =>
    obtain ⟨ts1, ts2, _, _, he⟩ := jobTiled_seen w j ha.2 st
    rw [ha.1] at he
    rw [he]
    exact .job ih hs (List.prefix_refl _)
  | @cut evs p st w j _ hs ha hp ih =>
    obtain ⟨ts1, ts2, _, _, he⟩ := jobTiled_seen w j ha.2 st
    rw [ha.1] at he
    rw [he] at hp
    exact .job ih hs hp

/-! ### issuers -/

/-- **C101 (recorded as the log says, partial).** If the log answers requests for an issuer with data that has the fingerprint asked for, then every
item sent for an entry is the record of an entry that the log's iterator yielded: serial, expiry, timestamp, and as issuer the
certificate with the fingerprint named in the chain (behind a precertificate signing certificate, the next one). What is missing: the
program does not check the fingerprint itself. -/
theorem C101_issuers_partial (H : Bytes → Bytes) (pc : Bytes → Option Cert) (content : Nat → SunEntry) (evs : List Ev) (st : Issuers)
    (h : SunHistory (fun w j => w.pc = pc ∧ HonestAnswers H w ∧ Consecutive content (j.s.maxEntry + 1) (j.es1 ++ j.es2)) evs st) :
    ∀ i input ts item, Ev.entry i input ts item ∈ evs →
      input = sunLeaf (content i) ∧ ts = (content i).timestamp ∧ ∀ x, item = some x → RecordOf pc (HasFingerprint H pc) (content i) x := by
  have one : ∀ {evs : List Ev} {st : Issuers} {w : TNet} {j : TJob},
      SunHistory (fun w j => w.pc = pc ∧ HonestAnswers H w ∧ Consecutive content (j.s.maxEntry + 1) (j.es1 ++ j.es2)) evs st →
      (w.pc = pc ∧ HonestAnswers H w ∧ Consecutive content (j.s.maxEntry + 1) (j.es1 ++ j.es2)) →
      ∀ i input ts item, Ev.entry i input ts item ∈ (jobTiled w j st).1 →
        input = sunLeaf (content i) ∧ ts = (content i).timestamp ∧ ∀ x, item = some x → RecordOf pc (HasFingerprint H pc) (content i) x := by
    intro evs st w j hist ha i input ts item hm
    have hst : CacheIs (HasFingerprint H pc) st :=
      sunHistory_cache (cacheIs_empty _) (fun w' j' ha' => by
        have := cacheIs_keeps (honest_answersAre ha'.2.1)
        rw [ha'.1] at this
        exact this) hist
    have haa := honest_answersAre ha.2.1
    rw [ha.1] at haa
    obtain ⟨n, e, t, h1, h2, h3, h4, h5⟩ := jobTiled_messages haa j st hst i input ts item hm
    have he := ha.2.2 n e t h1
    rw [← h2] at he
    subst he
    rw [ha.1] at h5
    exact ⟨h3, h4, h5⟩
  induction h with
  | start => intro i input ts item hm; cases hm
  | @job evs st w j hist hs ha ih =>
    intro i input ts item hm
    rcases List.mem_append.1 hm with hm | hm
    · exact ih i input ts item hm
    · exact one hist ha i input ts item hm
  | @cut evs p st w j hist hs ha hp ih =>
    intro i input ts item hm
    rcases List.mem_append.1 hm with hm | hm
    · exact ih i input ts item hm
    · exact one hist ha i input ts item (hp.subset hm)

/-- **C101 (asked once).** During one `SyncLog` no issuer is asked for again after the log has once answered with a certificate. -/
theorem C101_asked_once (pc : Bytes → Option Cert) (evs : List Ev) (st : Issuers) (h : SunHistory (fun w _ => w.pc = pc) evs st) :
    ∀ a b fp d, st.asked = a ++ (fp, some d) :: b → pc d ≠ none → ∀ x, (fp, x) ∉ b :=
  (sunHistory_cache (askedOnce_empty pc) (fun _ _ ha => askedOnce_keeps ha) h).2

/-! ### how jobs end -/

/-- **C101 (a truthful log is followed).** With a positive batch size and a log that contains only proper entries and answers requests
for an issuer with what has the fingerprint, or not at all: no job returns an error and none dies. So `SyncLog` goes on. -/
theorem C101_followed (H : Bytes → Bytes) (pc : Bytes → Option Cert) (evs : List Ev) (st : Issuers) (w : TNet) (j : TJob)
    (h : SunHistory (fun w _ => w.pc = pc ∧ HonestAnswers H w) evs st) (hw : w.pc = pc) (hh : HonestAnswers H w) (hb : 0 < j.batch)
    (hp : ∀ x ∈ j.es1 ++ j.es2, ProperEntry H pc x.1) :
    (jobTiled w j st).2.2.2 = .finished ∨ (jobTiled w j st).2.2.2 = .slept := by
  have hst : CacheIs (HasFingerprint H w.pc) st :=
    sunHistory_cache (cacheIs_empty _) (fun w' j' ha' => by
      have := cacheIs_keeps (honest_answersAre ha'.2)
      rw [ha'.1, ← hw] at this
      exact this) h
  subst hw
  have h1 := jobTiled_not_halted hh j st hst hp
  have h2 := jobTiled_not_crashed w j st hb
  cases hx : (jobTiled w j st).2.2.2
  · exact .inl rfl
  · exact .inr rfl
  · exact absurd hx h1
  · exact absurd hx h2

theorem syncTiled_append {H : Bytes → Bytes} {pc : Bytes → Option Cert} : ∀ (pre post : List (TNet × TJob)) (st : Issuers),
    CacheIs (HasFingerprint H pc) st →
    (∀ x ∈ pre, x.1.pc = pc ∧ HonestAnswers H x.1 ∧ 0 < x.2.batch ∧ ∀ y ∈ x.2.es1 ++ x.2.es2, ProperEntry H pc y.1) →
    syncTiled st (pre ++ post) = ((syncTiled st pre).1 ++ (syncTiled (syncTiled st pre).2 post).1, (syncTiled (syncTiled st pre).2 post).2) := by
  intro pre post
  induction pre with
  | nil => intro st _ _; rfl
  | cons x pre ih =>
    obtain ⟨w, j⟩ := x
    intro st hi hp
    obtain ⟨hw, hh, hb, hpr⟩ := hp (w, j) (List.mem_cons_self ..)
    simp only at hw hh hb hpr
    subst hw
    have h1 := jobTiled_not_halted hh j st hi hpr
    have h2 := jobTiled_not_crashed w j st hb
    have h3 := ih (jobTiled w j st).2.2.1 (jobTiled_keeps (cacheIs_keeps (honest_answersAre hh)) j st hi)
      (fun y hy => hp y (List.mem_cons_of_mem _ hy))
    rcases hq : jobTiled w j st with ⟨evs, s1, st1, x⟩
    rw [hq] at h1 h2 h3
    simp only [List.cons_append, syncTiled, hq]
    cases x with
    | halted => exact absurd rfl h1
    | crashed => exact absurd rfl h2
    | finished => simp only [h3, List.append_assoc]
    | slept => simp only [h3, List.append_assoc]

/-- **C101 (a truthful log is followed, all jobs).** Under the same conditions `SyncLog` never stops early: whatever jobs come after
others are carried out, with the cache that those left. -/
theorem C101_all_jobs (H : Bytes → Bytes) (pc : Bytes → Option Cert) (pre post : List (TNet × TJob))
    (hp : ∀ x ∈ pre, x.1.pc = pc ∧ HonestAnswers H x.1 ∧ 0 < x.2.batch ∧ ∀ y ∈ x.2.es1 ++ x.2.es2, ProperEntry H pc y.1) :
    syncTiled noIssuers (pre ++ post) =
      ((syncTiled noIssuers pre).1 ++ (syncTiled (syncTiled noIssuers pre).2 post).1, (syncTiled (syncTiled noIssuers pre).2 post).2) :=
  syncTiled_append pre post noIssuers (cacheIs_empty _) hp

/-- **C101 (an error is the end).** If a job returns an error or panics, `SyncLog` does nothing behind it: what jobs would have come next
makes no difference to the messages and the cache. -/
theorem C101_error_ends (pre post : List (TNet × TJob)) (w : TNet) (j : TJob) (st : Issuers)
    (h : (jobTiled w j (syncTiled st pre).2).2.2.2 = .halted ∨ (jobTiled w j (syncTiled st pre).2).2.2.2 = .crashed) :
    syncTiled st (pre ++ (w, j) :: post) = syncTiled st (pre ++ [(w, j)]) := by
  induction pre generalizing st with
  | nil =>
    have h' : (jobTiled w j st).2.2.2 = .halted ∨ (jobTiled w j st).2.2.2 = .crashed := h
    rcases hq : jobTiled w j st with ⟨evs, s1, st1, x⟩
    rw [hq] at h'
    simp only [List.nil_append, syncTiled, hq]
    rcases h' with h' | h' <;> simp only at h' <;> subst h' <;> rfl
  | cons y pre ih =>
    obtain ⟨w', j'⟩ := y
    rcases hq : jobTiled w' j' st with ⟨evs, s1, st1, x⟩
    simp only [syncTiled, hq] at h
    simp only [List.cons_append, syncTiled, hq]
    cases x with
    | halted => rfl
    | crashed => rfl
    | finished => simp only [ih st1 h]
    | slept => simp only [ih st1 h]

/-- **C101 fails (batch size 0).** With a batch size of 0 the process dies at the first entry that it processes. -/
theorem C101_zero_batch_fails (w : TNet) (j : TJob) (st : Issuers) (hb : j.batch = 0) (h : TreeHead) (hs : j.sth = some h)
    (hn : j.s.maxEntry < h.treeSize) (hsmall : h.treeSize < 18446744073709551616) (e : SunEntry) (t : Nat) (es : List (SunEntry × Nat))
    (hes : j.es1 = (e, t) :: es) (hok : ∃ o, (storeSunEntry w st t e).1 = o ∧ o ≠ .fatal ∧ o ≠ .retry) :
    (jobTiled w j st).2.2.2 = .crashed := by
  obtain ⟨o, ho, h1, h2⟩ := hok
  have hl : (loopTiled w j.batch j.now (startVars j.s) st j.es1).2.2.2 = some .crashed := by
    rw [hes, hb]
    rcases hq : storeSunEntry w st t e with ⟨o', st1⟩
    rw [hq] at ho
    simp only [loopTiled, hq]
    cases o' with
    | fatal => exact absurd ho.symm h1
    | retry => exact absurd ho.symm h2
    | skip => rfl
    | store i => rfl
  have hr : (readTiled w j.batch j.now (startVars j.s) st j.es1 j.err1).2.2.2 = some .crashed := by
    rcases readTiled_cases w j.batch j.now (startVars j.s) st j.es1 j.err1 with ⟨x, h3, h4⟩ | ⟨h3, _⟩
    · rw [h4]; exact hl
    · rw [hl] at h3; cases h3
  have hc : chooseTiled j.batch j.now j.s (some h) = .update := by
    unfold chooseTiled
    dsimp only
    have : add64 j.s.maxEntry j.batch = j.s.maxEntry := by
      rw [hb]
      exact add64_small (by omega) rfl
    rw [this, if_pos hn]
  unfold jobTiled
  rw [hs]
  dsimp only
  rw [hc]
  dsimp only
  rw [hr]
  rfl

/-! ### progress -/

/-- **C101 (progress is kept).** Whatever happens in a job with a positive batch size, the message for an entry at a multiple of
the batch size is followed at once by a state that claims everything up to it. So a job that has to stop loses fewer entries than one batch. -/
theorem C101_saved (w : TNet) (j : TJob) (st : Issuers) (hb : 0 < j.batch) : ∀ a b i input ts item,
    (jobTiled w j st).1 = a ++ .entry i input ts item :: b → i % j.batch = 0 → ∃ s b', b = .state s :: b' ∧ s.maxEntry = i :=
  jobTiled_saved w j hb st

/-- **C101 (the whole log, partial).** On a log of `n` entries that are all proper, whose issuers are all answered, and whose iterator
works, two jobs at least ten minutes apart are enough: afterwards the state claims the last entry of the log. What is missing: entry 0 is claimed
without having been read (`C25_tiled_fails`). -/
theorem C101_whole_log_partial (H : Bytes → Bytes) (content : Nat → SunEntry) (n : Nat) (w1 w2 : TNet) (j1 j2 : TJob)
    (h1 : SmoothJob H content n w1 j1) (h2 : SmoothJob H content n w2 j2) (hpc : w1.pc = w2.pc) (hs : j1.s.maxEntry < n)
    (hnext : j2.s = (jobTiled w1 j1 noIssuers).2.1) :
    (jobTiled w2 j2 (jobTiled w1 j1 noIssuers).2.2.1).2.1.maxEntry = n - 1 := by
  have s1 := jobTiled_smooth h1 (cacheIs_empty _) hs
  have hst : CacheIs (HasFingerprint H w2.pc) (jobTiled w1 j1 noIssuers).2.2.1 := by
    rw [← hpc]
    exact jobTiled_keeps (cacheIs_keeps (honest_answersAre h1.2.2.2.1)) j1 noIssuers (cacheIs_empty _)
  have hts := tileStop_ge (n := n) (start := j1.s.maxEntry + 1) hs
  have hs2 : j2.s.maxEntry < n := by
    rw [hnext]
    rcases s1.1 with h | ⟨h, _⟩ <;> rw [h] <;> omega
  have s2 := jobTiled_smooth h2 hst hs2
  rcases s2.1 with h | ⟨h, _⟩
  · exact h
  · rw [h]
    rcases s1.1 with h' | ⟨h', _⟩ <;> rw [← hnext] at h' <;> rw [h']
    · have : n - 1 + 1 = n := by omega
      rw [this]
      unfold tileStop
      rw [if_neg (by omega)]
    · have : tileStop n (j1.s.maxEntry + 1) - 1 + 1 = tileStop n (j1.s.maxEntry + 1) := by omega
      rw [this, tileStop_stop]

/-! ### what stops a log for good -/

/-- A log that has an entry which no job can get past is never claimed to that entry. -/
theorem sunHistory_below {A : TNet → TJob → Prop} {I : Issuers → Prop} {T : Nat → Prop} {content : Nat → SunEntry} {k : Nat} (hk : 1 ≤ k)
    (h0 : I noIssuers) (hA : ∀ w j, A w j → Keeps w I ∧ Blocks w I T (content k) ∧ (∀ x ∈ j.es1 ++ j.es2, T x.2) ∧
      Consecutive content (j.s.maxEntry + 1) (j.es1 ++ j.es2)) {evs : List Ev} {st : Issuers} (h : SunHistory A evs st) :
    ∀ s, .state s ∈ evs → s.maxEntry < k := by
  have one : ∀ {evs : List Ev} {st : Issuers} {w : TNet} {j : TJob}, SunHistory A evs st → A w j → (j.s = newLog ∨ .state j.s ∈ evs) →
      (∀ s, .state s ∈ evs → s.maxEntry < k) → ∀ s, .state s ∈ (jobTiled w j st).1 → s.maxEntry < k := by
    intro evs st w j hist ha hs ih
    obtain ⟨a1, a2, a3, a4⟩ := hA w j ha
    refine jobTiled_below a1 a2 j st (sunHistory_cache h0 (fun w j h => (hA w j h).1) hist) a3 a4 ?_
    rcases hs with hs | hs
    · rw [hs]; exact hk
    · exact ih _ hs
  induction h with
  | start => intro s hm; cases hm
  | @job evs st w j hist hs ha ih =>
    intro s hm
    rcases List.mem_append.1 hm with hm | hm
    · exact ih s hm
    · exact one hist ha hs ih s hm
  | @cut evs p st w j hist hs ha hp ih =>
    intro s hm
    rcases List.mem_append.1 hm with hm | hm
    · exact ih s hm
    · exact one hist ha hs ih s (hp.subset hm)

/-- **C101 fails (an unparsable certificate).** If the certificate of one entry cannot be parsed, then, however often the program is
restarted, no state ever claims that entry or any later one: the log is stopped for good. -/
theorem C101_unparsable_fails (content : Nat → SunEntry) (k : Nat) (hk : 1 ≤ k) (evs : List Ev) (st : Issuers)
    (h : SunHistory (fun w j => w.pc (certBytes (content k)) = none ∧ Consecutive content (j.s.maxEntry + 1) (j.es1 ++ j.es2)) evs st) :
    ∀ s, .state s ∈ evs → s.maxEntry < k := by
  refine sunHistory_below (content := content) (I := fun _ => True) (T := fun _ => True) hk trivial ?_ h
  rintro w j ⟨hn, hc⟩
  refine ⟨fun _ _ _ => trivial, ?_, fun _ _ => trivial, hc⟩
  intro st t o st1 _ _ hs
  cases hs with
  | noCert _ => exact .inl rfl
  | expired hc _ _ => rw [hn] at hc; cases hc
  | selfSigned hc _ _ => rw [hn] at hc; cases hc
  | firstFatal _ _ _ _ => exact .inl rfl
  | firstMissing _ _ _ _ => exact .inr rfl
  | direct hc _ _ _ _ => rw [hn] at hc; cases hc
  | lone _ _ _ _ _ => exact .inl rfl
  | secondFatal _ _ _ _ _ _ => exact .inl rfl
  | secondMissing _ _ _ _ _ _ => exact .inr rfl
  | behind hc _ _ _ _ _ => rw [hn] at hc; cases hc

/-- **C101 fails (a missing issuer).** If the log never answers the request for the first certificate of the chain of one
entry, then no state claims that entry or any later one as long as its certificate has not expired. -/
theorem C101_missing_issuer_fails (content : Nat → SunEntry) (k : Nat) (hk : 1 ≤ k) (f : Bytes) (rest : List Bytes)
    (hch : (content k).chain = f :: rest) (expiry : Nat) (evs : List Ev) (st : Issuers)
    (h : SunHistory (fun w j => (∀ n, w.ask n f = none) ∧ (∀ c, w.pc (certBytes (content k)) = some c → c.notAfter = expiry) ∧
      (∀ x ∈ j.es1 ++ j.es2, x.2 ≤ expiry) ∧ Consecutive content (j.s.maxEntry + 1) (j.es1 ++ j.es2)) evs st) :
    ∀ s, .state s ∈ evs → s.maxEntry < k := by
  refine sunHistory_below (content := content) (I := fun st => lookupCert st.map f = none) (T := fun t => t ≤ expiry) hk rfl ?_ h
  rintro w j ⟨hn, hx, ht, hc⟩
  have hk : Keeps w (fun st => lookupCert st.map f = none) := by
    intro st fp hi
    rcases getCertificate_cases w st fp with ⟨c, _, h⟩ | ⟨_, _, h⟩ | ⟨d, _, _, _, h⟩ | ⟨d, c, _, ha, _, h⟩ <;> rw [h]
    · exact hi
    · exact hi
    · exact hi
    · simp only [lookupCert]
      split
      · rename_i hf
        subst hf
        rw [hn] at ha
        cases ha
      · exact hi
  have hg : ∀ st, lookupCert st.map f = none → (getCertificate w st f).1 = .intermittent := by
    intro st hi
    rcases getCertificate_cases w st f with ⟨c, hl, _⟩ | ⟨_, _, h⟩ | ⟨d, _, ha, _, _⟩ | ⟨d, c, _, ha, _, _⟩
    · rw [hi] at hl; cases hl
    · rw [h]
    · rw [hn] at ha; cases ha
    · rw [hn] at ha; cases ha
  refine ⟨hk, ?_, ht, hc⟩
  intro st t o st1 hi htt hs
  have hne : ∀ {f' : Bytes} {l : List Bytes} {p : Cert}, (content k).chain = f' :: l → (getCertificate w st f').1 ≠ .cert p := by
    intro f' l p h1 h2
    rw [hch] at h1
    cases h1
    rw [hg st hi] at h2
    cases h2
  cases hs with
  | noCert _ => exact .inl rfl
  | expired hc h1 _ => have := hx _ hc; omega
  | selfSigned _ _ h1 => rw [hch] at h1; cases h1
  | firstFatal _ _ _ _ => exact .inl rfl
  | firstMissing _ _ _ _ => exact .inr rfl
  | direct _ _ h1 h2 _ => exact absurd h2 (hne h1)
  | lone _ _ _ _ _ => exact .inl rfl
  | secondFatal _ _ _ _ _ _ => exact .inl rfl
  | secondMissing _ _ _ _ _ _ => exact .inr rfl
  | behind _ _ h1 h2 _ _ => exact absurd h2 (hne h1)

/-! ### examples -/

/-- The index in a message for an entry. -/
def evIndex : Ev → Option Nat
  | .entry i _ _ _ => some i
  | .state _ => none

/-- Data that "parses" as a certificate: at least one byte, with the first byte as serial and key. -/
def tileParse : Bytes → Option Cert
  | [] => none
  | b :: _ => some { serial := [b], notAfter := 100, key := [b], preIssuer := b == 200 }

/-- A log with four entries; entry 2 is issued through a precertificate signing certificate. -/
def tileContent (k : Nat) : SunEntry :=
  if k = 2 then ⟨50 + k, .precert [5] [6], k, [12], [[200], [3]]⟩ else ⟨50 + k, .x509 [UInt8.ofNat (10 + k)], k, [], [[3]]⟩

/-- A log that answers requests for an issuer with the data whose fingerprint (in the example, the data itself) is asked for. -/
def tileNet : TNet := { pc := tileParse, ask := fun _ fp => some fp, keep := false }

def tileJob : TJob :=
  { s := newLog, batch := 2, now := 1000, sth := some ⟨4, 60⟩, es1 := [(tileContent 1, 10), (tileContent 2, 10), (tileContent 3, 10)], es2 := [],
    err1 := false, err2 := false }

example : (jobTiled tileNet tileJob noIssuers).2.2.2 = .finished ∧ (jobTiled tileNet tileJob noIssuers).2.1.maxEntry = 3 ∧
    (jobTiled tileNet tileJob noIssuers).2.2.1.asked = [([3], some [3]), ([200], some [200])] := by decide +kernel

theorem tileJob_consecutive : Consecutive tileContent (tileJob.s.maxEntry + 1) (tileJob.es1 ++ tileJob.es2) := by
  intro n e t h
  rcases n with _ | _ | _ | n
  · cases h; rfl
  · cases h; rfl
  · cases h; rfl
  · cases h

theorem tileNet_honest : HonestAnswers id tileNet := by
  intro n fp d h
  cases h
  rfl

/-- The hypotheses of `C101_issuers_partial` and of `C101_same_messages` are met by a history that records certificates. -/
example : SunHistory (fun w j => w.pc = tileParse ∧ HonestAnswers id w ∧ Consecutive tileContent (j.s.maxEntry + 1) (j.es1 ++ j.es2))
      ([] ++ (jobTiled tileNet tileJob noIssuers).1) (jobTiled tileNet tileJob noIssuers).2.2.1 ∧
    SunHistory (fun w j => w.keep = false ∧ 0 < j.batch) ([] ++ (jobTiled tileNet tileJob noIssuers).1) (jobTiled tileNet tileJob noIssuers).2.2.1 ∧
    Ev.entry 2 (sunLeaf (tileContent 2)) 52 (some ⟨[12], 100, [3], 52⟩) ∈ (jobTiled tileNet tileJob noIssuers).1 :=
  ⟨.job .start (.inl rfl) ⟨rfl, tileNet_honest, tileJob_consecutive⟩, .job .start (.inl rfl) ⟨rfl, by decide⟩, by decide +kernel⟩

theorem tileContent_proper (k : Nat) (hk : k < 4) : ProperEntry id tileParse (tileContent k) := by
  rcases k with _ | _ | _ | _ | k
  · refine ⟨⟨_, .inl ⟨_, rfl, rfl⟩⟩, fun fp hf d hd => ?_, fun fp hf c hc => ?_⟩
    · cases List.mem_singleton.1 hf
      rw [show d = [3] from hd]
      exact fun h => by cases h
    · cases hf
      obtain ⟨d, h1, h2⟩ := hc
      rw [show d = [3] from h1] at h2
      cases h2; rfl
  · refine ⟨⟨_, .inl ⟨_, rfl, rfl⟩⟩, fun fp hf d hd => ?_, fun fp hf c hc => ?_⟩
    · cases List.mem_singleton.1 hf
      rw [show d = [3] from hd]
      exact fun h => by cases h
    · cases hf
      obtain ⟨d, h1, h2⟩ := hc
      rw [show d = [3] from h1] at h2
      cases h2; rfl
  · refine ⟨⟨_, .inr ⟨_, _, rfl, rfl⟩⟩, fun fp hf d hd => ?_, fun fp hf c hc => ?_⟩
    · rcases List.mem_cons.1 hf with h | h
      · rw [show d = fp from hd, h]
        exact fun h => by cases h
      · rw [show d = fp from hd, List.mem_singleton.1 h]
        exact fun h => by cases h
    · cases hf
  · refine ⟨⟨_, .inl ⟨_, rfl, rfl⟩⟩, fun fp hf d hd => ?_, fun fp hf c hc => ?_⟩
    · cases List.mem_singleton.1 hf
      rw [show d = [3] from hd]
      exact fun h => by cases h
    · cases hf
      obtain ⟨d, h1, h2⟩ := hc
      rw [show d = [3] from h1] at h2
      cases h2; rfl
  · omega

/-- The hypotheses of `C101_followed` are met. -/
example : (∀ x ∈ tileJob.es1 ++ tileJob.es2, ProperEntry id tileParse x.1) ∧ 0 < tileJob.batch ∧
    SunHistory (fun w _ => w.pc = tileParse ∧ HonestAnswers id w) [] noIssuers := by
  refine ⟨?_, by decide, .start⟩
  intro x hx
  rcases List.mem_cons.1 hx with h | hx
  · rw [h]; exact tileContent_proper 1 (by decide)
  · rcases List.mem_cons.1 hx with h | hx
    · rw [h]; exact tileContent_proper 2 (by decide)
    · rcases List.mem_cons.1 hx with h | hx
      · rw [h]; exact tileContent_proper 3 (by decide)
      · cases hx

/-- The hypotheses of `C101_all_jobs` are met by a job that sends messages. -/
example : (tileNet.pc = tileParse ∧ HonestAnswers id tileNet ∧ 0 < tileJob.batch) ∧
    (syncTiled noIssuers [(tileNet, tileJob), (tileNet, tileJob)]).1.length = 10 := ⟨⟨rfl, tileNet_honest, by decide⟩, by decide +kernel⟩

/-- The hypotheses of `C101_whole_log_partial` are met: both jobs are smooth. -/
example : SmoothJob id tileContent 4 tileNet tileJob ∧
    SmoothJob id tileContent 4 tileNet { tileJob with s := (jobTiled tileNet tileJob noIssuers).2.1, now := 2000, es1 := [] } := by
  have ha : ∀ k, k < 4 → Answered id tileNet (tileContent k) := fun k hk => ⟨tileContent_proper k hk, fun fp _ n h => by cases h⟩
  have hempty : ∀ start, Consecutive tileContent start [] := by intro start n e t h; cases h
  refine ⟨⟨⟨_, rfl, rfl⟩, by decide, by decide, tileNet_honest, ha, rfl, rfl, ⟨tileJob_consecutive, rfl⟩, ⟨hempty _, rfl⟩, fun t h => by cases h⟩,
    ⟨_, rfl, rfl⟩, by decide, by decide, tileNet_honest, ha, rfl, rfl, ⟨hempty _, ?_⟩, ⟨hempty _, ?_⟩, ?_⟩
  · decide +kernel
  · decide +kernel
  · have hl : (jobTiled tileNet tileJob noIssuers).2.1.lastUpdate = some 1000 := by decide +kernel
    intro t ht
    change (jobTiled tileNet tileJob noIssuers).2.1.lastUpdate = some t at ht
    rw [hl] at ht
    cases ht
    decide

/-- The hypotheses of `C101_saved` are met by a job that passes a multiple of the batch size. -/
example : (jobTiled tileNet tileJob noIssuers).1.map evIndex = [some 1, some 2, none, some 3, none] := by decide +kernel

/-- A log whose entry 2 cannot be parsed. -/
def brokenContent (k : Nat) : SunEntry := if k = 2 then ⟨52, .x509 [], 2, [], [[3]]⟩ else tileContent k

def brokenJob : TJob :=
  { s := newLog, batch := 2, now := 1000, sth := some ⟨4, 60⟩, es1 := [(brokenContent 1, 10), (brokenContent 2, 10), (brokenContent 3, 10)],
    es2 := [], err1 := false, err2 := false }

theorem brokenJob_consecutive : Consecutive brokenContent (brokenJob.s.maxEntry + 1) (brokenJob.es1 ++ brokenJob.es2) := by
  intro n e t h
  rcases n with _ | _ | _ | n
  · cases h; rfl
  · cases h; rfl
  · cases h; rfl
  · cases h

/-- The hypotheses of `C101_unparsable_fails` are met, and the job ends with an error; with a batch size of 1 it has claimed entry 1. -/
example : SunHistory (fun w j => w.pc (certBytes (brokenContent 2)) = none ∧ Consecutive brokenContent (j.s.maxEntry + 1) (j.es1 ++ j.es2))
      ([] ++ (jobTiled tileNet { brokenJob with batch := 1 } noIssuers).1) (jobTiled tileNet { brokenJob with batch := 1 } noIssuers).2.2.1 ∧
    (jobTiled tileNet { brokenJob with batch := 1 } noIssuers).2.2.2 = .halted ∧
    (jobTiled tileNet { brokenJob with batch := 1 } noIssuers).1.map evIndex = [some 1, none] :=
  ⟨.job .start (.inl rfl) ⟨rfl, brokenJob_consecutive⟩, by decide +kernel, by decide +kernel⟩

/-- The hypothesis of `C101_error_ends` is met by such a job behind a job that went well; the job behind it would have sent messages. -/
example : (jobTiled tileNet { brokenJob with batch := 1 } (syncTiled noIssuers [(tileNet, tileJob)]).2).2.2.2 = .halted ∧
    (syncTiled noIssuers [(tileNet, tileJob), (tileNet, { brokenJob with batch := 1 })]).1.length = 7 ∧
    (jobTiled tileNet tileJob noIssuers).1.length = 5 := by decide +kernel

/-- A log that has lost one issuer. -/
def lossyNet : TNet := { pc := tileParse, ask := fun _ fp => if fp = [200] then none else some fp, keep := false }

/-- The hypotheses of `C101_missing_issuer_fails` are met; the job ends with sleeping. -/
example : SunHistory (fun w j => (∀ n, w.ask n [200] = none) ∧ (∀ c, w.pc (certBytes (tileContent 2)) = some c → c.notAfter = 100) ∧
      (∀ x ∈ j.es1 ++ j.es2, x.2 ≤ 100) ∧ Consecutive tileContent (j.s.maxEntry + 1) (j.es1 ++ j.es2))
      ([] ++ (jobTiled lossyNet tileJob noIssuers).1) (jobTiled lossyNet tileJob noIssuers).2.2.1 ∧
    (jobTiled lossyNet tileJob noIssuers).2.2.2 = .slept := by
  refine ⟨.job .start (.inl rfl) ⟨fun n => rfl, fun c hc => ?_, ?_, tileJob_consecutive⟩, by decide +kernel⟩
  · cases hc; rfl
  · decide

/-- The hypotheses of `C101_zero_batch_fails` are met. -/
example : (storeSunEntry tileNet noIssuers 10 (tileContent 1)).1 = .store ⟨[11], 100, [3], 51⟩ ∧
    (jobTiled tileNet { tileJob with batch := 0 } noIssuers).2.2.2 = .crashed := by decide +kernel

/-- A log that answers the first request with another issuer. -/
def wrongNet : TNet := { pc := tileParse, ask := fun n fp => if n = 0 then some [77] else some fp, keep := false }

/-- The hypothesis of `C101_asked_once` is met, with requests that were answered. -/
example : SunHistory (fun w _ => w.pc = tileParse) ([] ++ (jobTiled wrongNet tileJob noIssuers).1) (jobTiled wrongNet tileJob noIssuers).2.2.1 ∧
    (jobTiled wrongNet tileJob noIssuers).2.2.1.asked = [([3], some [77]), ([200], some [200])] :=
  ⟨.job .start (.inl rfl) rfl, by decide +kernel⟩

/-- The first job of the example below: a log of two entries. -/
def wrongJob : TJob :=
  { s := newLog, batch := 2, now := 1000, sth := some ⟨2, 60⟩, es1 := [(tileContent 1, 10)], es2 := [], err1 := false, err2 := false }

/-- The second job: two more entries, and a log that answers honestly. -/
def laterJob : TJob :=
  { s := (jobTiled wrongNet wrongJob noIssuers).2.1, batch := 2, now := 2000, sth := some ⟨4, 70⟩,
    es1 := [(tileContent 2, 20), (tileContent 3, 20)], es2 := [], err1 := false, err2 := false }

/-- **C101 fails (the fingerprint is not checked).** A log that once answers a request for an issuer with another certificate has
its entries with that fingerprint recorded under the other issuer, also in later jobs of the same `SyncLog` in which it answers
honestly: here in the second job, on an honest log, entry 3 is recorded under the key `[77]`, which is not its issuer's. -/
theorem C101_fingerprint_fails : ∃ evs st w j, SunHistory (fun w _ => w.pc = tileParse) evs st ∧ .state j.s ∈ evs ∧ w.pc = tileParse ∧
    HonestAnswers id w ∧ Consecutive tileContent (j.s.maxEntry + 1) (j.es1 ++ j.es2) ∧ (∀ x ∈ j.es1 ++ j.es2, ProperEntry id tileParse x.1) ∧
    Ev.entry 3 (sunLeaf (tileContent 3)) 53 (some ⟨[13], 100, [77], 53⟩) ∈ (jobTiled w j st).1 ∧
    ¬ RecordOf tileParse (HasFingerprint id tileParse) (tileContent 3) ⟨[13], 100, [77], 53⟩ := by
  refine ⟨[] ++ (jobTiled wrongNet wrongJob noIssuers).1, (jobTiled wrongNet wrongJob noIssuers).2.2.1, tileNet, laterJob,
    .job .start (.inl rfl) rfl, ?_, rfl, tileNet_honest, ?_, ?_, by decide +kernel, ?_⟩
  · decide +kernel
  · have hm : laterJob.s.maxEntry = 1 := by decide +kernel
    rw [hm]
    intro n e t h
    rcases n with _ | _ | n
    · cases h; rfl
    · cases h; rfl
    · cases h
  · intro x hx
    rcases List.mem_cons.1 hx with h | hx
    · rw [h]; exact tileContent_proper 2 (by decide)
    · rcases List.mem_cons.1 hx with h | hx
      · rw [h]; exact tileContent_proper 3 (by decide)
      · cases hx
  · rintro ⟨c, i, _, hi, _, _, hk, _⟩
    rcases hi with ⟨f, rest, hch, ⟨d, hd, hp⟩, _⟩ | ⟨f, g, rest, p, hch, _, _, _⟩
    · cases hch
      rw [show d = [3] from hd] at hp
      cases hp
      cases hk
    · cases hch

/-! ### each theorem applied -/

example : TiledHistory false ([] ++ (jobTiled tileNet tileJob noIssuers).1) :=
  C101_same_messages false _ _ (.job .start (.inl rfl) ⟨rfl, by decide⟩)

/-- The record of entry 2, a precertificate. -/
example : RecordOf tileParse (HasFingerprint id tileParse) (tileContent 2) ⟨[12], 100, [3], 52⟩ :=
  (C101_issuers_partial id tileParse tileContent ([] ++ (jobTiled tileNet tileJob noIssuers).1) _ (.job .start (.inl rfl) ⟨rfl, tileNet_honest, tileJob_consecutive⟩)
    2 (sunLeaf (tileContent 2)) 52 (some ⟨[12], 100, [3], 52⟩) (by decide +kernel)).2.2 _ rfl

/-- The wrong answer to the first request stays. -/
example (x : Option Bytes) : (([3] : Bytes), x) ∉ [(([200] : Bytes), some ([200] : Bytes))] :=
  C101_asked_once tileParse ([] ++ (jobTiled wrongNet tileJob noIssuers).1) _ (.job .start (.inl rfl) rfl) [] _ [3] [77] (by decide +kernel) (by decide +kernel) x

example : (jobTiled tileNet tileJob noIssuers).2.2.2 = .finished ∨ (jobTiled tileNet tileJob noIssuers).2.2.2 = .slept :=
  C101_followed id tileParse [] noIssuers tileNet tileJob .start rfl tileNet_honest (by decide) (by
    intro x hx
    rcases List.mem_cons.1 hx with h | hx
    · rw [h]; exact tileContent_proper 1 (by decide)
    · rcases List.mem_cons.1 hx with h | hx
      · rw [h]; exact tileContent_proper 2 (by decide)
      · rcases List.mem_cons.1 hx with h | hx
        · rw [h]; exact tileContent_proper 3 (by decide)
        · cases hx)

example : ∀ s, .state s ∈ [] ++ (jobTiled tileNet { brokenJob with batch := 1 } noIssuers).1 → s.maxEntry < 2 :=
  C101_unparsable_fails brokenContent 2 (by decide) _ _ (.job .start (.inl rfl) ⟨rfl, brokenJob_consecutive⟩)

end Verif.Props
