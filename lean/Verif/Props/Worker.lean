import Verif.Model.Worker
import Verif.Props.Progress
/-!
C98: no answer of a log makes its worker panic, and what ends a worker.
-/
namespace Verif.Spec

/-- The answers of a log that tells the truth but may fail: to the requests for the entries of these ranges, one after the other, beginning with entry `i` of the first range. The log may ask to wait, fail (which ends the job), or
send any number of the entries asked for, even none. -/
inductive Truthful (srv : Nat → Leaf) : List Subtree → Nat → List Resp → Prop
  | noRanges (i : Nat) (rs : List Resp) : Truthful srv [] i rs
  | noAnswer (ts : List Subtree) (i : Nat) : Truthful srv ts i []
  | nextRange {t : Subtree} {ts : List Subtree} {i j : Nat} {rs : List Resp} : t.last < i → (∀ u ∈ ts.head?, j = u.first) → Truthful srv ts j rs → Truthful srv (t :: ts) i rs
  | busy {t : Subtree} {ts : List Subtree} {i : Nat} {rs : List Resp} : i ≤ t.last → Truthful srv (t :: ts) i rs → Truthful srv (t :: ts) i (.tooMany :: rs)
  | failure {t : Subtree} {ts : List Subtree} {i : Nat} {rs : List Resp} : i ≤ t.last → Truthful srv (t :: ts) i (.failed :: rs)
  | piece {t : Subtree} {ts : List Subtree} {i k : Nat} {rs : List Resp} : i ≤ t.last → i + k ≤ t.last + 1 → Truthful srv (t :: ts) (i + k) rs →
      Truthful srv (t :: ts) i (.entries ((List.range k).map (fun m => srv (i + m))) :: rs)

/-- A tree head of size `n` that covers what is below the range kept, for a state whose range does not begin at entry 1, 2 or 3; numbers stay below 2^64. -/
def FairHead (batch n : Nat) (s : WState) : Prop :=
  n + batch < 18446744073709551616 ∧ (s.lastUpdate = none ∨ s.maxEntry + batch < 18446744073709551616 ∧ s.minEntry ≤ n ∧ (s.minEntry = 0 ∨ 3 < s.minEntry))

end Verif.Spec

namespace Verif.Props
open Verif.Spec

/-! #### the same events -/

theorem checkClaimE_true (v : Verifier) : v.checkClaimE = some true ↔ v.checkClaim = true := by
  unfold Verifier.checkClaimE Verifier.checkClaim
  split
  · simp
  · split
    · simp
    · cases v.stack.getLast? with
      | none => simp
      | some b => simp

theorem takeEntryE_eq (env : Env) (d : Download) (l : Leaf) :
    (∃ d', takeEntry env d l = some d' ∧ takeEntryE env d l = (d', .complete)) ∨ (takeEntry env d l = none ∧ (takeEntryE env d l = (d, .error) ∨ takeEntryE env d l = (d, .panic))) := by
  unfold takeEntry takeEntryE
  cases env.parse l.input l.extra with
  | none => exact Or.inl ⟨_, rfl, rfl⟩
  | some e =>
    dsimp only
    cases storeLogEntry env.keepExpired l.time e with
    | fatal => exact Or.inr ⟨rfl, Or.inl rfl⟩
    | retry => exact Or.inr ⟨rfl, Or.inl rfl⟩
    | skip =>
      dsimp only
      cases d.verifier.consume env.H l.input with
      | none => exact Or.inr ⟨rfl, Or.inr rfl⟩
      | some v => exact Or.inl ⟨_, rfl, rfl⟩
    | store i =>
      dsimp only
      cases d.verifier.consume env.H l.input with
      | none => exact Or.inr ⟨rfl, Or.inr rfl⟩
      | some v => exact Or.inl ⟨_, rfl, rfl⟩

theorem takeEntriesE_eq (env : Env) (ls : List Leaf) : ∀ d, ∃ d' e, takeEntriesE env d ls = (d', e) ∧ takeEntries env d ls = (d', decide (e = .complete)) ∧ e ≠ .waiting := by
  induction ls with
  | nil => intro d; exact ⟨d, .complete, rfl, rfl, by decide⟩
  | cons l ls ih =>
    intro d
    unfold takeEntriesE takeEntries
    rcases takeEntryE_eq env d l with ⟨d', h1, h2⟩ | ⟨h1, h2 | h2⟩
    · rw [h1, h2]; exact ih d'
    · rw [h1, h2]; exact ⟨d, .error, rfl, rfl, by decide⟩
    · rw [h1, h2]; exact ⟨d, .panic, rfl, rfl, by decide⟩

theorem downloadE_eq (env : Env) (last : Nat) (rs : List Resp) : ∀ d, ∃ d' e rs', downloadE env last d rs = (d', e, rs') ∧ download env last d rs = (d', decide (e = .complete), rs') := by
  induction rs with
  | nil =>
    intro d
    refine ⟨d, _, [], rfl, ?_⟩
    unfold download
    by_cases h : last < d.index
    · simp [h]
    · simp [h]
  | cons r rs ih =>
    intro d
    unfold downloadE download
    by_cases h : last < d.index
    · rw [if_pos h, if_pos h]; exact ⟨d, .complete, _, rfl, rfl⟩
    · rw [if_neg h, if_neg h]
      cases r with
      | tooMany => exact ih d
      | failed => exact ⟨d, .error, rs, rfl, rfl⟩
      | entries ls =>
        dsimp only
        obtain ⟨d', e, h1, h2, h3⟩ := takeEntriesE_eq env ls d
        rw [h1, h2]
        cases e with
        | complete => exact ih d'
        | error => exact ⟨d', .error, rs, rfl, rfl⟩
        | panic => exact ⟨d', .panic, rs, rfl, rfl⟩
        | waiting => exact absurd rfl h3

theorem runSubtreesE_events (env : Env) (now : Nat) (task : Task) (ts : List Subtree) : ∀ s rs, (runSubtreesE env now task s ts rs).1 = runSubtrees env now task s ts rs := by
  induction ts with
  | nil => intro s rs; rfl
  | cons t ts ih =>
    intro s rs
    unfold runSubtreesE runSubtrees
    obtain ⟨d, e, rs', h1, h2⟩ := downloadE_eq env t.last rs (newDownload t)
    rw [h1, h2]
    cases e with
    | error => rfl
    | panic => rfl
    | waiting => rfl
    | complete =>
      unfold settle
      dsimp only
      by_cases hc : d.verifier.checkClaim = true
      · rw [(checkClaimE_true _).2 hc]
        dsimp only
        simp only [decide_true, hc, if_true]
        cases updateState now task s (some (t.first, t.last)) d.minTs d.maxTs with
        | none => rfl
        | some s' => dsimp only; rw [ih]
      · have hne : d.verifier.checkClaimE ≠ some true := fun e => hc ((checkClaimE_true _).1 e)
        simp only [decide_true, if_neg hc]
        cases hce : d.verifier.checkClaimE with
        | none => rfl
        | some b =>
          cases b with
          | false => rfl
          | true => exact absurd hce hne

/-- **C98, same job.** The job with its ending spelled out sends exactly what `runWorker` says. -/
theorem C98_events (env : Env) (batch now : Nat) (hb : 0 < batch) (s : WState) (sth : Option TreeHead) (proof : Option (List Bytes)) (rs : List Resp) :
    (runWorkerE env batch now s sth proof rs).1 = runWorker env batch now s sth proof rs := by
  unfold runWorkerE runWorker
  cases sth with
  | none => rfl
  | some h =>
    dsimp only
    rw [if_neg (fun e => by omega)]
    cases jobRange batch s h.treeSize (chooseTask batch now s (some h)) with
    | none => rfl
    | some r =>
      cases proof with
      | none => rfl
      | some p =>
        dsimp only
        cases jobSubtrees (decide (chooseTask batch now s (some h) = .backfill)) r.1 r.2 p with
        | none => rfl
        | some ts =>
          cases ts with
          | nil => rfl
          | cons t ts => exact runSubtreesE_events env now _ (t :: ts) s rs

/-! #### no panic -/

/-- The verifier has consumed what was handed over. -/
def ConsumedBy (env : Env) (t : Subtree) (d : Download) : Prop := VerifierInv env.H t d.verifier (d.handed.map Leaf.input)

theorem takeEntryE_consumed (env : Env) (t : Subtree) (ht : 0 < t.size) (d : Download) (l : Leaf) (h : ConsumedBy env t d) : ConsumedBy env t (takeEntryE env d l).1 ∧ (takeEntryE env d l).2 ≠ .panic := by
  unfold takeEntryE
  cases env.parse l.input l.extra with
  | none => exact ⟨h, (fun e => by cases e)⟩
  | some e =>
    dsimp only
    obtain ⟨v, h1, h2⟩ := consume_inv env.H t ht d.verifier _ l.input h
    have hc : ConsumedBy env t (advance (noteTs d e.timestamp) v l) := by
      unfold ConsumedBy advance noteTs
      dsimp only
      rw [List.map_append]
      exact h2
    cases storeLogEntry env.keepExpired l.time e with
    | fatal => exact ⟨h, (fun e => by cases e)⟩
    | retry => exact ⟨h, (fun e => by cases e)⟩
    | skip => dsimp only; rw [h1]; exact ⟨hc, (fun e => by cases e)⟩
    | store i => dsimp only; rw [h1]; exact ⟨hc, (fun e => by cases e)⟩

theorem takeEntriesE_consumed (env : Env) (t : Subtree) (ht : 0 < t.size) (ls : List Leaf) : ∀ d, ConsumedBy env t d → ConsumedBy env t (takeEntriesE env d ls).1 ∧ (takeEntriesE env d ls).2 ≠ .panic := by
  induction ls with
  | nil => intro d h; exact ⟨h, (fun e => by cases e)⟩
  | cons l ls ih =>
    intro d h
    unfold takeEntriesE
    obtain ⟨h1, h2⟩ := takeEntryE_consumed env t ht d l h
    cases he : takeEntryE env d l with
    | mk d' e =>
      rw [he] at h1 h2
      cases e with
      | complete => exact ih d' h1
      | error => exact ⟨h1, h2⟩
      | panic => exact ⟨h1, h2⟩
      | waiting => exact ⟨h1, h2⟩

theorem downloadE_consumed (env : Env) (t : Subtree) (ht : 0 < t.size) (rs : List Resp) : ∀ d, ConsumedBy env t d → ConsumedBy env t (downloadE env t.last d rs).1 ∧ (downloadE env t.last d rs).2.1 ≠ .panic := by
  induction rs with
  | nil =>
    intro d h
    refine ⟨h, ?_⟩
    unfold downloadE
    dsimp only
    split <;> decide
  | cons r rs ih =>
    intro d h
    unfold downloadE
    split
    · exact ⟨h, (fun e => by cases e)⟩
    · cases r with
      | tooMany => exact ih d h
      | failed => exact ⟨h, (fun e => by cases e)⟩
      | entries ls =>
        dsimp only
        obtain ⟨h1, h2⟩ := takeEntriesE_consumed env t ht ls d h
        cases he : takeEntriesE env d ls with
        | mk d' e =>
          rw [he] at h1 h2
          cases e with
          | complete => exact ih d' h1
          | error => exact ⟨h1, h2⟩
          | panic => exact ⟨h1, h2⟩
          | waiting => exact ⟨h1, h2⟩

theorem checkClaimE_ne_none (env : Env) (t : Subtree) (d : Download) (h : ConsumedBy env t d) : d.verifier.checkClaimE ≠ none := by
  obtain ⟨h1, h2, _, h4, _⟩ := h
  unfold Verifier.checkClaimE
  split
  · intro e; cases e
  · split
    · intro e; cases e
    · rename_i h3
      rw [Decidable.not_not, h1] at h3
      rw [h4 (by omega)]
      intro e
      cases e

theorem runSubtreesE_no_panic (env : Env) (now : Nat) (task : Task) (ts : List Subtree) : (∀ t ∈ ts, t.first ≤ t.last) → ∀ s rs, (runSubtreesE env now task s ts rs).2 ≠ .crashed := by
  induction ts with
  | nil => intro _ s rs; unfold runSubtreesE; decide
  | cons t ts ih =>
    intro hts s rs
    have ht : 0 < t.size := by
      have := hts t (by simp)
      unfold Subtree.size
      omega
    unfold runSubtreesE
    have hnew : ConsumedBy env t (newDownload t) := newVerifier_inv env.H t ht
    obtain ⟨h1, h2⟩ := downloadE_consumed env t ht rs _ hnew
    cases he : downloadE env t.last (newDownload t) rs with
    | mk d p =>
      obtain ⟨e, rs'⟩ := p
      rw [he] at h1 h2
      have h3 := checkClaimE_ne_none env t d h1
      unfold settle
      cases e with
      | error => intro e; cases e
      | panic => exact absurd rfl h2
      | waiting => intro e; cases e
      | complete =>
        dsimp only
        cases hc : d.verifier.checkClaimE with
        | none => exact absurd hc h3
        | some b =>
          cases b with
          | false => intro e; cases e
          | true =>
            dsimp only
            cases updateState now task s (some (t.first, t.last)) d.minTs d.maxTs with
            | none => intro e; cases e
            | some s' => exact ih (fun u hu => hts u (by simp [hu])) s' rs'

/-- **C98, no panic.** With a batch size above zero no state of the log, no tree head, no proof and no answers make the worker index out of range or divide by zero; and the number of entries asked for fits into 64 bits. -/
theorem C98_no_panic (env : Env) (batch now : Nat) (hb : 0 < batch) (s : WState) (sth : Option TreeHead) (proof : Option (List Bytes)) (rs : List Resp) :
    (runWorkerE env batch now s sth proof rs).2 ≠ .crashed ∧
    ∀ h r, sth = some h → h.treeSize < 2 ^ 64 → jobRange batch s h.treeSize (chooseTask batch now s sth) = some r → r.2 + 1 < 2 ^ 64 := by
  constructor
  · unfold runWorkerE
    cases sth with
    | none => intro e; cases e
    | some h =>
      dsimp only
      rw [if_neg (fun e => by omega)]
      cases jobRange batch s h.treeSize (chooseTask batch now s (some h)) with
      | none => intro e; cases e
      | some r =>
        cases proof with
        | none => intro e; cases e
        | some p =>
          dsimp only
          cases hj : jobSubtrees (decide (chooseTask batch now s (some h) = .backfill)) r.1 r.2 p with
          | none => intro e; cases e
          | some ts =>
            have hr := jobSubtrees_range _ _ _ _ _ hj
            cases ts with
            | nil =>
              cases hbf : decide (chooseTask batch now s (some h) = .backfill) with
              | false =>
                rw [hbf] at hj
                have := C18_job_tiles_up _ _ _ _ hr hj
                simp only [List.map_nil, TilesUp] at this
                omega
              | true =>
                rw [hbf] at hj
                have := C18_job_tiles_down _ _ _ _ hr hj
                simp only [List.map_nil, TilesDown, List.reverse_nil, TilesUp] at this
                omega
            | cons t ts => exact runSubtreesE_no_panic env now _ (t :: ts) (fun u hu => (jobSubtrees_bounds _ _ _ _ _ hj u hu).2.1) s rs
  · intro h r hs hsz hj
    subst hs
    have h3 : 3 < h.treeSize := by
      rw [← Nat.not_le]
      intro hle
      have : chooseTask batch now s (some h) = .sleep := by
        unfold chooseTask
        dsimp only
        rw [if_pos hle]
      rw [this] at hj
      cases hj
    have hsub : sub64 h.treeSize 1 = h.treeSize - 1 := sub64_eq _ _ (by omega) (by omega)
    unfold jobRange at hj
    cases hrr : rawRange batch s h.treeSize (chooseTask batch now s (some h)) with
    | none => rw [hrr] at hj; cases hj
    | some q =>
      rw [hrr] at hj
      cases hj
      dsimp only
      rw [hsub]
      split <;> omega

/-- **C98, batch size.** With a batch size of zero the first job below the lowest entry kept divides by zero, whatever the log answers. -/
theorem C98_zero_batch_fails (env : Env) (now : Nat) (s : WState) (h : TreeHead) (proof : Option (List Bytes)) (rs : List Resp)
    (hs : chooseTask 0 now s (some h) = .backfill) : (runWorkerE env 0 now s (some h) proof rs).2 = .crashed := by
  unfold runWorkerE
  dsimp only
  rw [if_pos ⟨hs, rfl⟩]

example : chooseTask 0 1000 ⟨5, 9, 50, 50, some 100⟩ (some ⟨9, 60⟩) = .backfill := by decide

/-! #### what ends a worker -/

/-- **C98 (a log that cannot be reached).** When the tree head cannot be had, or when there is something to read but the consistency proof
cannot be had, the worker sends nothing, sleeps, and is not ended, whatever the state, the batch size and the time. -/
theorem C98_unreachable (env : Env) (batch now : Nat) (s : WState) (rs : List Resp) :
    (∀ proof, runWorkerE env batch now s none proof rs = ([], .slept)) ∧
    ∀ h r, 0 < batch → jobRange batch s h.treeSize (chooseTask batch now s (some h)) = some r →
      runWorkerE env batch now s (some h) none rs = ([], .slept) := by
  refine ⟨fun _ => rfl, fun h r hb hr => ?_⟩
  unfold runWorkerE
  dsimp only
  rw [if_neg (fun e => by omega), hr]

example : jobRange 4 newLog 9 (chooseTask 4 1000 newLog (some ⟨9, 60⟩)) = some (5, 8) := by decide


theorem consumeAll_append (H : Bytes → Bytes) (xs ys : List Bytes) : ∀ (v u : Verifier), v.consumeAll H xs = some u → v.consumeAll H (xs ++ ys) = u.consumeAll H ys := by
  induction xs with
  | nil => intro v u h; cases h; rfl
  | cons x xs ih =>
    intro v u h
    simp only [List.cons_append, Verifier.consumeAll] at h ⊢
    cases hc : v.consume H x with
    | none => rw [hc] at h; cases h
    | some v1 => rw [hc] at h; exact ih v1 u h

theorem takeEntryE_complete (env : Env) (d d' : Download) (l : Leaf) (hp : env.parse l.input l.extra ≠ none) (h : takeEntryE env d l = (d', .complete)) :
    d'.index = add64 d.index 1 ∧ d.verifier.consume env.H l.input = some d'.verifier := by
  unfold takeEntryE at h
  cases he : env.parse l.input l.extra with
  | none => exact absurd he hp
  | some e =>
    rw [he] at h
    dsimp only at h
    cases ho : storeLogEntry env.keepExpired l.time e with
    | fatal => rw [ho] at h; cases h
    | retry => rw [ho] at h; cases h
    | skip =>
      rw [ho] at h
      dsimp only at h
      cases hc : d.verifier.consume env.H l.input with
      | none => rw [hc] at h; cases h
      | some v => rw [hc] at h; cases h; exact ⟨rfl, rfl⟩
    | store i =>
      rw [ho] at h
      dsimp only at h
      cases hc : d.verifier.consume env.H l.input with
      | none => rw [hc] at h; cases h
      | some v => rw [hc] at h; cases h; exact ⟨rfl, rfl⟩

theorem takeEntriesE_complete (env : Env) (ls : List Leaf) : ∀ d d', (∀ l ∈ ls, env.parse l.input l.extra ≠ none) → takeEntriesE env d ls = (d', .complete) →
    d.index + ls.length < 18446744073709551616 → d'.index = d.index + ls.length ∧ d.verifier.consumeAll env.H (ls.map Leaf.input) = some d'.verifier := by
  induction ls with
  | nil => intro d d' _ h _; cases h; exact ⟨rfl, rfl⟩
  | cons l ls ih =>
    intro d d' hp h hi
    unfold takeEntriesE at h
    cases he : takeEntryE env d l with
    | mk d1 e =>
      rw [he] at h
      cases e with
      | error => cases h
      | panic => cases h
      | waiting => cases h
      | complete =>
        simp only [List.length_cons] at hi
        obtain ⟨h1, h2⟩ := takeEntryE_complete env d d1 l (hp l (by simp)) he
        rw [add64_eq _ _ (by omega)] at h1
        obtain ⟨h3, h4⟩ := ih d1 d' (fun x hx => hp x (by simp [hx])) h (by omega)
        refine ⟨by rw [h3, h1, List.length_cons]; omega, ?_⟩
        simp only [List.map_cons, Verifier.consumeAll, h2]
        exact h4

/-- Leaves `a`, `a+1`, … (`k` of them) as the log serves them. -/
def servedInputs (srv : Nat → Leaf) (a k : Nat) : List Bytes := ((List.range k).map (fun m => srv (a + m))).map Leaf.input

theorem servedInputs_add (srv : Nat → Leaf) (a k n : Nat) : servedInputs srv a (k + n) = servedInputs srv a k ++ servedInputs srv (a + k) n := by
  unfold servedInputs
  rw [range_map_append, List.map_append]

/-- Every subtree of the queue checks out when downloaded as served. -/
def ClaimsHold (env : Env) (srv : Nat → Leaf) (ts : List Subtree) : Prop :=
  ∀ u ∈ ts, u.first ≤ u.last ∧ u.last < 18446744073709551615 ∧ ∃ v, (newVerifier u).consumeAll env.H (servedInputs srv u.first (u.last + 1 - u.first)) = some v ∧ v.checkClaim = true

/-- Every subtree of the queue is next to the range recorded before it. -/
def AdjacentAll (now : Nat) (task : Task) : WState → List Subtree → Prop
  | _, [] => True
  | s, t :: ts => ∀ mn mx, ∃ s', updateState now task s (some (t.first, t.last)) mn mx = some s' ∧ AdjacentAll now task s' ts

/-- The rest of the job, from a download in progress, does not end the worker. -/
def NotEndedFrom (env : Env) (now : Nat) (task : Task) (srv : Nat → Leaf) : List Subtree → Nat → List Resp → Prop
  | [], _, _ => True
  | t :: ts, i, rs => ∀ s dl, dl.index = i → t.first ≤ i → i ≤ t.last + 1 → (newVerifier t).consumeAll env.H (servedInputs srv t.first (i - t.first)) = some dl.verifier →
      AdjacentAll now task s (t :: ts) → ClaimsHold env srv (t :: ts) →
      (settle env now task s t (fun s' rs' => runSubtreesE env now task s' ts rs') (downloadE env t.last dl rs)).2 ≠ .ended

theorem runSubtreesE_waits (env : Env) (now : Nat) (task : Task) (s : WState) (ts : List Subtree) (h : ∀ t ∈ ts, t.first ≤ t.last) : (runSubtreesE env now task s ts []).2 ≠ .ended := by
  cases ts with
  | nil => intro e; cases e
  | cons t ts =>
    have := h t (by simp)
    unfold runSubtreesE downloadE
    rw [if_neg (by unfold newDownload; dsimp only; omega)]
    intro e
    cases e

theorem settle_complete (env : Env) (now : Nat) (task : Task) (srv : Nat → Leaf) (t : Subtree) (ts : List Subtree) (rs : List Resp) (s : WState) (dl : Download)
    (hv : (newVerifier t).consumeAll env.H (servedInputs srv t.first (t.last + 1 - t.first)) = some dl.verifier) (hf : AdjacentAll now task s (t :: ts)) (hc : ClaimsHold env srv (t :: ts))
    (hnext : ∀ s', AdjacentAll now task s' ts → (runSubtreesE env now task s' ts rs).2 ≠ .ended) :
    (settle env now task s t (fun s' rs' => runSubtreesE env now task s' ts rs') (dl, .complete, rs)).2 ≠ .ended := by
  obtain ⟨_, _, v, h1, h2⟩ := hc t (by simp)
  rw [hv] at h1
  cases h1
  obtain ⟨s', h3, h4⟩ := hf dl.minTs dl.maxTs
  unfold settle
  dsimp only
  rw [(checkClaimE_true _).2 h2]
  dsimp only
  rw [h3]
  exact hnext s' h4

theorem downloadE_stop (env : Env) (last : Nat) (d : Download) (rs : List Resp) (h : last < d.index) : downloadE env last d rs = (d, .complete, rs) := by
  cases rs with
  | nil => simp [downloadE, h]
  | cons r rs => simp [downloadE, h]

theorem truthful_not_ended (env : Env) (now : Nat) (task : Task) (srv : Nat → Leaf) (hp : ∀ k, env.parse (srv k).input (srv k).extra ≠ none) {ts : List Subtree} {i : Nat} {rs : List Resp} (h : Truthful srv ts i rs) :
    NotEndedFrom env now task srv ts i rs := by
  induction h with
  | noRanges i rs => exact True.intro
  | noAnswer ts i =>
    cases ts with
    | nil => exact True.intro
    | cons t ts =>
      intro s dl hi h1 h2 hv hf hc
      by_cases hlt : t.last < dl.index
      · rw [downloadE_stop env _ _ _ hlt]
        refine settle_complete env now task srv t ts [] s dl ?_ hf hc (fun s' _ => runSubtreesE_waits env now task s' ts (fun u hu => (hc u (by simp [hu])).1))
        rw [← hv]
        congr 2
        omega
      · unfold downloadE
        rw [if_neg hlt]
        intro e
        cases e
  | @nextRange t ts i j rs hlt hj hr ih =>
    intro s dl hi h1 h2 hv hf hc
    rw [downloadE_stop env _ _ _ (by omega)]
    have hi' : i = t.last + 1 := by omega
    rw [hi'] at hv
    refine settle_complete env now task srv t ts rs s dl hv hf hc (fun s' hs' => ?_)
    cases ts with
    | nil => intro e; cases e
    | cons u us =>
      have hju : j = u.first := hj u rfl
      have hcu : ClaimsHold env srv (u :: us) := fun x hx => hc x (by simp only [List.mem_cons] at hx ⊢; exact Or.inr hx)
      unfold runSubtreesE
      exact ih s' (newDownload u) (by rw [hju]; rfl) (by omega) (by have := (hcu u (by simp)).1; omega) (by rw [hju, Nat.sub_self]; rfl) hs' hcu
  | @busy t ts i rs hle hr ih =>
    intro s dl hi h1 h2 hv hf hc
    unfold downloadE
    rw [if_neg (by omega)]
    exact ih s dl hi h1 h2 hv hf hc
  | @failure t ts i rs hle =>
    intro s dl hi h1 h2 hv hf hc
    unfold downloadE
    rw [if_neg (by omega)]
    intro e
    cases e
  | @piece t ts i k rs hle hk hr ih =>
    intro s dl hi h1 h2 hv hf hc
    unfold downloadE
    rw [if_neg (by omega)]
    dsimp only
    cases he : takeEntriesE env dl ((List.range k).map (fun m => srv (i + m))) with
    | mk d' e =>
      cases e with
      | error => intro e; cases e
      | panic => intro e; cases e
      | waiting => intro e; cases e
      | complete =>
        have hlast := (hc t (by simp)).2.1
        obtain ⟨h3, h4⟩ := takeEntriesE_complete env _ dl d' (by
          intro l hl
          simp only [List.mem_map, List.mem_range] at hl
          obtain ⟨m, _, rfl⟩ := hl
          exact hp _) he (by simp; omega)
        simp only [List.length_map, List.length_range] at h3
        refine ih s d' (by omega) (by omega) hk ?_ hf hc
        rw [show i + k - t.first = (i - t.first) + k by omega, servedInputs_add, consumeAll_append _ _ _ _ _ hv, show t.first + (i - t.first) = i by omega]
        exact h4

theorem fits_up (now : Nat) (task : Task) (htask : task = .init ∨ task = .update) (ts : List Subtree) : ∀ (a b : Nat) (s : WState), b < 18446744073709551616 →
    TilesUp a b (ts.map (fun u => (u.first, u.last))) → (task = .init ∧ s.lastUpdate = none ∨ s.maxEntry + 1 = a) → AdjacentAll now task s ts := by
  induction ts with
  | nil => intro a b s _ _ _; exact True.intro
  | cons t ts ih =>
    intro a b s hb ht hs mn mx
    simp only [List.map_cons, TilesUp] at ht
    obtain ⟨h1, h2, h3⟩ := ht
    have hbd := (tilesUp_bounds _ _ _ h3).1
    by_cases hm : s.maxEntry + 1 = a
    · have hsub : s.maxEntry = sub64 t.first 1 := by rw [sub64_eq _ _ (by omega) (by omega)]; omega
      rcases htask with rfl | rfl
      · unfold updateState
        dsimp only
        by_cases hn : s.lastUpdate = none
        · rw [if_pos hn]
          exact ⟨_, rfl, ih _ b _ hb h3 (Or.inr rfl)⟩
        · rw [if_neg hn, if_pos hsub]
          exact ⟨_, rfl, ih _ b _ hb h3 (Or.inr rfl)⟩
      · unfold updateState
        dsimp only
        rw [if_pos hsub]
        exact ⟨_, rfl, ih _ b _ hb h3 (Or.inr rfl)⟩
    · rcases hs with ⟨rfl, hn⟩ | hs
      · unfold updateState
        dsimp only
        rw [if_pos hn]
        exact ⟨_, rfl, ih _ b _ hb h3 (Or.inr rfl)⟩
      · exact absurd hs hm

theorem fits_down (now : Nat) (ts : List Subtree) : ∀ (a b : Nat) (s : WState), b < 18446744073709551616 →
    TilesDown a b (ts.map (fun u => (u.first, u.last))) → s.minEntry = b → AdjacentAll now .backfill s ts := by
  induction ts with
  | nil => intro a b s _ _ _; exact True.intro
  | cons t ts ih =>
    intro a b s hb ht hs mn mx
    unfold TilesDown at ht
    rw [List.map_cons, List.reverse_cons] at ht
    obtain ⟨h3, h2, h1⟩ := tilesUp_snoc _ _ _ _ ht
    dsimp only at h1 h2 h3
    unfold updateState
    dsimp only
    rw [if_pos (by rw [add64_eq _ _ (by omega)]; omega)]
    exact ⟨_, rfl, ih a t.first _ (by omega) h3 rfl⟩

theorem treeSize_of_job (batch now : Nat) (s : WState) (h : TreeHead) (r : Range) (hj : jobRange batch s h.treeSize (chooseTask batch now s (some h)) = some r) : 3 < h.treeSize := by
  rw [← Nat.not_le]
  intro hle
  have : chooseTask batch now s (some h) = .sleep := by
    unfold chooseTask
    dsimp only
    rw [if_pos hle]
  rw [this] at hj
  cases hj

/-- The range of a job under a fair head: inside the log, long enough, and next to the range kept. -/
theorem fair_job (batch now : Nat) (hb : 0 < batch) (s : WState) (n t : Nat) (hf : FairHead batch n s) (r : Range)
    (hj : jobRange batch s n (chooseTask batch now s (some ⟨n, t⟩)) = some r) :
    ((0 < r.1 ∧ r.1 ≤ r.2) ∨ (r.1 = 0 ∧ 3 ≤ r.2)) ∧ r.2 < n ∧
    ((chooseTask batch now s (some ⟨n, t⟩) = .init ∧ s.lastUpdate = none) ∨ (chooseTask batch now s (some ⟨n, t⟩) = .update ∧ s.maxEntry + 1 = r.1) ∨
      (chooseTask batch now s (some ⟨n, t⟩) = .backfill ∧ s.minEntry = r.2 + 1)) := by
  have hn : 3 < n := treeSize_of_job batch now s ⟨n, t⟩ r hj
  obtain ⟨hf1, hf2⟩ := hf
  have hm1 : sub64 n 1 = n - 1 := sub64_eq _ _ (by omega) (by omega)
  cases hu : s.lastUpdate with
  | none =>
    have ht : chooseTask batch now s (some ⟨n, t⟩) = .init := by
      unfold chooseTask
      dsimp only
      rw [if_neg (by omega), hu]
    rw [ht] at hj ⊢
    unfold jobRange rawRange at hj
    dsimp only at hj
    rw [hm1] at hj
    cases hj
    dsimp only
    refine ⟨?_, ?_, Or.inl ⟨rfl, rfl⟩⟩
    · split <;> split <;> omega
    · split <;> omega
  | some u =>
    rcases hf2 with hf2 | ⟨hmx, hmn, hlow⟩
    · rw [hu] at hf2; cases hf2
    have hadd : add64 s.maxEntry batch = s.maxEntry + batch := add64_eq _ _ (by omega)
    have hadd1 : add64 s.maxEntry 1 = s.maxEntry + 1 := add64_eq _ _ (by omega)
    have upd : chooseTask batch now s (some ⟨n, t⟩) = .update → s.maxEntry < n - 1 → ((0 < r.1 ∧ r.1 ≤ r.2) ∨ (r.1 = 0 ∧ 3 ≤ r.2)) ∧ r.2 < n ∧ s.maxEntry + 1 = r.1 := by
      intro ht hlt
      rw [ht] at hj
      unfold jobRange rawRange at hj
      dsimp only at hj
      rw [hm1, hadd, hadd1] at hj
      cases hj
      dsimp only
      refine ⟨?_, ?_, rfl⟩ <;> split <;> omega
    by_cases h1 : s.maxEntry + batch < n
    · have ht : chooseTask batch now s (some ⟨n, t⟩) = .update := by
        unfold chooseTask
        dsimp only
        rw [if_neg (by omega), hu]
        dsimp only
        rw [hadd, if_pos h1]
      obtain ⟨a, b, c⟩ := upd ht (by omega)
      exact ⟨a, b, Or.inr (Or.inl ⟨ht, c⟩)⟩
    · by_cases h2 : 0 < s.minEntry
      · have ht : chooseTask batch now s (some ⟨n, t⟩) = .backfill := by
          unfold chooseTask
          dsimp only
          rw [if_neg (by omega), hu]
          dsimp only
          rw [hadd, if_neg h1, if_pos h2]
        have hmod : s.minEntry % batch ≤ s.minEntry := Nat.mod_le _ _
        have hsub1 : sub64 s.minEntry 1 = s.minEntry - 1 := sub64_eq _ _ (by omega) (by omega)
        rw [ht] at hj ⊢
        unfold jobRange rawRange at hj
        dsimp only at hj
        rw [hm1, hsub1, if_neg (show ¬ s.minEntry - 1 > n - 1 by omega)] at hj
        cases hj
        dsimp only
        refine ⟨?_, by omega, Or.inr (Or.inr ⟨rfl, by omega⟩)⟩
        split
        · rename_i hm
          rw [sub64_eq _ _ hmod (by omega)]
          omega
        · rename_i hm
          rw [Decidable.not_not] at hm
          have hle : batch ≤ s.minEntry := Nat.le_of_dvd h2 (Nat.dvd_of_mod_eq_zero hm)
          rw [sub64_eq _ _ hle (by omega)]
          omega
      · by_cases h3 : now < u + 600
        · have ht : chooseTask batch now s (some ⟨n, t⟩) = .sleep := by
            unfold chooseTask
            dsimp only
            rw [if_neg (by omega), hu]
            dsimp only
            rw [hadd, if_neg h1, if_neg h2, if_pos h3]
          rw [ht] at hj
          cases hj
        · by_cases h4 : s.maxEntry < n - 1
          · have ht : chooseTask batch now s (some ⟨n, t⟩) = .update := by
              unfold chooseTask
              dsimp only
              rw [if_neg (by omega), hu]
              dsimp only
              rw [hadd, if_neg h1, if_neg h2, if_neg h3, hm1, if_pos h4]
            obtain ⟨a, b, c⟩ := upd ht h4
            exact ⟨a, b, Or.inr (Or.inl ⟨ht, c⟩)⟩
          · have ht : chooseTask batch now s (some ⟨n, t⟩) = .sleep := by
              unfold chooseTask
              dsimp only
              rw [if_neg (by omega), hu]
              dsimp only
              rw [hadd, if_neg h1, if_neg h2, if_neg h3, hm1, if_neg h4]
            rw [ht] at hj
            cases hj

theorem fair_fits (batch now : Nat) (hb : 0 < batch) (s : WState) (n t : Nat) (hf : FairHead batch n s) (r : Range)
    (hj : jobRange batch s n (chooseTask batch now s (some ⟨n, t⟩)) = some r) (p : List Bytes) (us : List Subtree)
    (hus : jobSubtrees (decide (chooseTask batch now s (some ⟨n, t⟩) = .backfill)) r.1 r.2 p = some us) : AdjacentAll now (chooseTask batch now s (some ⟨n, t⟩)) s us := by
  obtain ⟨hr, hlt, hdir⟩ := fair_job batch now hb s n t hf r hj
  have hn := hf.1
  rcases hdir with ⟨ht, h1⟩ | ⟨ht, h1⟩ | ⟨ht, h1⟩
  · rw [ht] at hus ⊢
    exact fits_up now .init (Or.inl rfl) us r.1 (r.2 + 1) s (by omega) (C18_job_tiles_up _ _ _ _ hr hus) (Or.inl ⟨rfl, h1⟩)
  · rw [ht] at hus ⊢
    exact fits_up now .update (Or.inr rfl) us r.1 (r.2 + 1) s (by omega) (C18_job_tiles_up _ _ _ _ hr hus) (Or.inr h1)
  · rw [ht] at hus ⊢
    exact fits_down now us r.1 (r.2 + 1) s (by omega) (C18_job_tiles_down _ _ _ _ hr hus) h1

/-- **C98, a truthful log.** A log that serves its content, gives true consistency proofs or none, and may fail, ask to wait or send fewer entries than asked for, never ends its worker, as long as its tree head covers what is still
missing below the range kept and that range does not begin at entry 1, 2 or 3. Entries whose leaves decode but cannot be stored are allowed. -/
theorem C98_truthful_log_partial (env : Env) (d : List Bytes) (srv : Nat → Leaf) (hH : ∀ x, (env.H x).length = 32) (hsrv : ∀ k x, d[k]? = some x → (srv k).input = x)
    (hp : ∀ k, env.parse (srv k).input (srv k).extra ≠ none) (batch now n t : Nat) (hb : 0 < batch) (hn : n ≤ d.length) (s : WState) (hf : FairHead batch n s)
    (proof : Option (List Bytes)) (hproof : ∀ r p, jobRange batch s n (chooseTask batch now s (some ⟨n, t⟩)) = some r → proof = some p → p = honestProof env.H d (proofOldSize r.1) (r.2 + 1))
    (rs : List Resp) (hans : ∀ r p us j, jobRange batch s n (chooseTask batch now s (some ⟨n, t⟩)) = some r → proof = some p →
      jobSubtrees (decide (chooseTask batch now s (some ⟨n, t⟩) = .backfill)) r.1 r.2 p = some us → (∀ u ∈ us.head?, j = u.first) → Truthful srv us j rs) :
    (runWorkerE env batch now s (some ⟨n, t⟩) proof rs).2 ≠ .ended ∧ (runWorkerE env batch now s (some ⟨n, t⟩) proof rs).2 ≠ .crashed := by
  refine ⟨?_, (C98_no_panic env batch now hb s _ proof rs).1⟩
  unfold runWorkerE
  dsimp only
  rw [if_neg (fun e => by omega)]
  cases hj : jobRange batch s n (chooseTask batch now s (some ⟨n, t⟩)) with
  | none => intro e; cases e
  | some r =>
    cases hpr : proof with
    | none => intro e; cases e
    | some p =>
      have hpe := hproof r p hj hpr
      obtain ⟨hr, hlt, _⟩ := fair_job batch now hb s n t hf r hj
      obtain ⟨us, hus, hne, hcl⟩ := C19_honest_log_accepted env.H hH d (decide (chooseTask batch now s (some ⟨n, t⟩) = .backfill)) r.1 r.2 hr (by omega)
      rw [← hpe] at hus
      have hfit := fair_fits batch now hb s n t hf r hj p us hus
      have hn2 := hf.1
      have hclaims : ClaimsHold env srv us := by
        intro u hu
        obtain ⟨v, h1, h2⟩ := hcl u hu
        have hbd := jobSubtrees_bounds _ _ _ _ _ hus u hu
        refine ⟨hbd.2.1, by omega, v, ?_, h2⟩
        unfold servedInputs
        rw [served_slice d srv hsrv u.first u.last hbd.2.1 (by omega)]
        exact h1
      dsimp only
      rw [hus]
      cases us with
      | nil => exact absurd rfl hne
      | cons u us =>
        dsimp only
        have htr := hans r p (u :: us) u.first hj hpr hus (fun x hx => by simp at hx; rw [hx])
        have hgo := truthful_not_ended env now (chooseTask batch now s (some ⟨n, t⟩)) srv hp htr
        unfold runSubtreesE
        have hu1 := (hclaims u (by simp)).1
        exact hgo s (newDownload u) rfl (Nat.le_refl _) (by omega) (by rw [Nat.sub_self]; rfl) hfit hclaims

/-- The subtree whose check failed: what was handed over for it is the end of what the worker sent. -/
theorem runSubtreesE_ended (env : Env) (hH : ∀ x, (env.H x).length = 32) (now : Nat) (task : Task) (ts : List Subtree) : ∀ s rs, (∀ t ∈ ts, t.first ≤ t.last) → AdjacentAll now task s ts →
    (runSubtreesE env now task s ts rs).2 = .ended →
    ∃ pre u handed, u ∈ ts ∧ (runSubtreesE env now task s ts rs).1 = pre ++ leafEvents env u.first handed ∧
      ¬(handed.length = u.last + 1 - u.first ∧ mth env.H (handed.map Leaf.input) = u.root) := by
  induction ts with
  | nil => intro s rs _ _ h; cases h
  | cons t ts ih =>
    intro s rs hts hf h
    have htt := hts t (by simp)
    have ht : 0 < t.size := by unfold Subtree.size; omega
    have hnew : ConsumedBy env t (newDownload t) := newVerifier_inv env.H t ht
    obtain ⟨h1, _⟩ := downloadE_consumed env t ht rs _ hnew
    unfold runSubtreesE at h ⊢
    cases he : downloadE env t.last (newDownload t) rs with
    | mk d q =>
      obtain ⟨e, rs'⟩ := q
      rw [he] at h h1
      cases e with
      | error => cases h
      | panic => cases h
      | waiting => cases h
      | complete =>
        obtain ⟨s', hs', hfs⟩ := hf d.minTs d.maxTs
        unfold settle at h ⊢
        dsimp only at h h1 ⊢
        cases hc : d.verifier.checkClaimE with
        | none => rw [hc] at h; cases h
        | some b =>
          rw [hc] at h
          cases b with
          | false =>
            refine ⟨[], t, d.handed, by simp, rfl, ?_⟩
            intro hyes
            obtain ⟨v1, v2, v3, v4, v5⟩ := h1
            rw [List.length_map] at v2 v4
            have hst := v4 (by rw [hyes.1]; unfold Subtree.size; omega)
            have hne : d.verifier.checkClaimE = some true := by
              unfold Verifier.checkClaimE
              rw [if_neg (by rw [v1, ← hyes.2, length_mth env.H 32 hH]; omega),
                if_neg (by rw [v1, v2, hyes.1]; unfold Subtree.size; omega), hst, v1]
              simp [hyes.2]
            rw [hc] at hne
            cases hne
          | true =>
            dsimp only at h ⊢
            rw [hs'] at h ⊢
            dsimp only at h ⊢
            obtain ⟨pre, u, hd, m1, m2, m3⟩ := ih s' rs' (fun x hx => hts x (by simp [hx])) hfs h
            refine ⟨leafEvents env t.first d.handed ++ .state s' :: pre, u, hd, by simp [m1], ?_, m3⟩
            rw [m2]
            simp

/-- **C98, why it ended.** Under the same conditions on the head and the state, a worker ends only because the proof has the wrong number of hashes for the job, or because what was handed over for some range of the queue
differs in number or in Merkle hash from what the proof says of that range. -/
theorem C98_ended_why_partial (env : Env) (hH : ∀ x, (env.H x).length = 32) (batch now n t : Nat) (hb : 0 < batch) (s : WState) (hf : FairHead batch n s)
    (proof : Option (List Bytes)) (rs : List Resp) (h : (runWorkerE env batch now s (some ⟨n, t⟩) proof rs).2 = .ended) :
    ∃ r p, jobRange batch s n (chooseTask batch now s (some ⟨n, t⟩)) = some r ∧ proof = some p ∧
      (p.length ≠ (proofNodes (proofOldSize r.1) (r.2 + 1)).length ∨
       ∃ us pre u handed, jobSubtrees (decide (chooseTask batch now s (some ⟨n, t⟩) = .backfill)) r.1 r.2 p = some us ∧ u ∈ us ∧
         (runWorkerE env batch now s (some ⟨n, t⟩) proof rs).1 = pre ++ leafEvents env u.first handed ∧
         ¬(handed.length = u.last + 1 - u.first ∧ mth env.H (handed.map Leaf.input) = u.root)) := by
  unfold runWorkerE at h ⊢
  dsimp only at h ⊢
  rw [if_neg (fun e => by omega)] at h ⊢
  cases hj : jobRange batch s n (chooseTask batch now s (some ⟨n, t⟩)) with
  | none => rw [hj] at h; cases h
  | some r =>
    rw [hj] at h
    cases hpr : proof with
    | none => rw [hpr] at h; cases h
    | some p =>
      rw [hpr] at h
      refine ⟨r, p, rfl, rfl, ?_⟩
      obtain ⟨hr, _, _⟩ := fair_job batch now hb s n t hf r hj
      by_cases hlen : p.length = (proofNodes (proofOldSize r.1) (r.2 + 1)).length
      · refine Or.inr ?_
        obtain ⟨us, hus, hne⟩ := C18_job_exists (decide (chooseTask batch now s (some ⟨n, t⟩) = .backfill)) r.1 r.2 p hr hlen
        dsimp only at h ⊢
        rw [hus] at h ⊢
        cases us with
        | nil => exact absurd rfl hne
        | cons u us =>
          dsimp only at h ⊢
          obtain ⟨pre, w, hd, m1, m2, m3⟩ := runSubtreesE_ended env hH now _ (u :: us) s rs (fun x hx => (jobSubtrees_bounds _ _ _ _ _ hus x hx).2.1) (fair_fits batch now hb s n t hf r hj p _ hus) h
          exact ⟨u :: us, pre, w, hd, rfl, m1, m2, m3⟩
      · exact Or.inl hlen

/-! #### examples -/

def exLog16 : List Bytes := List.replicate 20 [7]
def exSrv (_ : Nat) : Leaf := ⟨[7], [], 10⟩
/-- A range [16, 19] of the log of 20 entries. -/
def exKept : WState := ⟨16, 19, 50, 50, some 1000⟩
def exBack : List Bytes := honestProof toyHash exLog16 12 16

/-- `C98_truthful_log_partial` and `C98_ended_why_partial`: a backfill of [12, 15] with a wait, an empty piece, a short piece and a failure is not ended; one entry too many ends it. -/
example : FairHead 4 20 exKept ∧ jobRange 4 exKept 20 (chooseTask 4 2000 exKept (some ⟨20, 60⟩)) = some (12, 15) ∧
    jobSubtrees true 12 15 exBack = some [⟨mth toyHash (slice exLog16 (12, 15)), 12, 15⟩] ∧
    Truthful exSrv [⟨mth toyHash (slice exLog16 (12, 15)), 12, 15⟩] 12 [.tooMany, .entries [], .entries [exSrv 12], .failed] := by
  refine ⟨⟨by decide, Or.inr (by decide)⟩, by decide, by decide +kernel, ?_⟩
  refine .busy (by decide) (.piece (k := 0) (by decide) (by decide) (.piece (k := 1) (by decide) (by decide) (.failure (by decide))))

example : (runWorkerE toyEnv 4 2000 exKept (some ⟨20, 60⟩) (some exBack) [.tooMany, .entries [], .entries [exSrv 12], .failed]).2 = .slept ∧
    (runWorkerE toyEnv 4 2000 exKept (some ⟨20, 60⟩) (some exBack) [toyEntries 4]).2 = .done ∧
    (runWorkerE toyEnv 4 2000 exKept (some ⟨20, 60⟩) (some exBack) [toyEntries 3, toyEntries 2]).2 = .ended := by
  refine ⟨?_, ?_, ?_⟩
  · decide +kernel
  · decide +kernel
  · decide +kernel

/-! #### what fails -/

/-- **C98 fails (old tree head).** A tree head that ends at or below the start of the next job below the range kept ends the worker for good, whatever proof and answers come with it: one stale answer of a log does. -/
theorem C98_stale_head_fails (env : Env) (batch now n t : Nat) (s : WState) (hu : s.lastUpdate ≠ none) (hn : 3 < n) (hm : n + batch ≤ s.minEntry) (hb : 0 < batch) (hx : s.minEntry ≤ s.maxEntry)
    (hfit : s.maxEntry + batch < 18446744073709551616) (p : List Bytes) (rs : List Resp) : runWorkerE env batch now s (some ⟨n, t⟩) (some p) rs = ([], .ended) := by
  obtain ⟨u, hu'⟩ : ∃ u, s.lastUpdate = some u := by
    cases h : s.lastUpdate with
    | none => exact absurd h hu
    | some u => exact ⟨u, rfl⟩
  have ht : chooseTask batch now s (some ⟨n, t⟩) = .backfill := by
    unfold chooseTask
    simp only [hu', add64_eq s.maxEntry batch hfit]
    rw [if_neg (by omega), if_neg (by omega), if_pos (by omega)]
  have hmod : s.minEntry % batch ≤ s.minEntry := Nat.mod_le _ _
  have hml : s.minEntry % batch < batch := Nat.mod_lt _ hb
  have hlo : ∃ lo, (if s.minEntry % batch ≠ 0 then sub64 s.minEntry (s.minEntry % batch) else sub64 s.minEntry batch) = lo ∧ n ≤ lo := by
    refine ⟨_, rfl, ?_⟩
    split
    · rw [sub64_eq _ _ hmod (by omega)]; omega
    · rw [sub64_eq _ _ (by omega) (by omega)]; omega
  obtain ⟨lo, hlo1, hlo2⟩ := hlo
  have hj : jobRange batch s n .backfill = some (lo, n - 1) := by
    simp only [jobRange, rawRange]
    rw [hlo1, sub64_eq s.minEntry 1 (by omega) (by omega), sub64_eq n 1 (by omega) (by omega), if_pos (by omega)]
  have hs : jobSubtrees true lo (n - 1) p = none := by
    unfold jobSubtrees consistencyProofToSubtrees
    rw [if_pos (show n - 1 + 1 ≤ proofOldSize lo by unfold proofOldSize; split <;> omega)]
  unfold runWorkerE
  simp only [ht, hj]
  rw [if_neg (fun e => by omega)]
  simp only [decide_true, hs]

example : exKept.lastUpdate ≠ none ∧ 3 < 12 ∧ 12 + 4 ≤ exKept.minEntry := by decide

/-- **C98 fails (old tree head, between).** Also when the head ends inside the next job below the range: every entry is downloaded and checks out, and then the recorded range is found not to be adjacent. -/
theorem C98_stale_head_between_fails : runWorkerE toyEnv 4 2000 exKept (some ⟨14, 60⟩) (some (honestProof toyHash exLog16 12 14)) [toyEntries 2] =
    (leafEvents toyEnv 12 [exSrv 12, exSrv 13], .ended) := by
  decide +kernel

/-- **C98 fails (short start).** A range that begins at entry 1, 2 or 3 ends the worker at the first job below it, whatever the log answers. -/
theorem C98_short_start_fails (env : Env) (batch now n t : Nat) (s : WState) (h1 : 1 ≤ s.minEntry) (h3 : s.minEntry ≤ 3) (hb : s.minEntry ≤ batch)
    (hu : s.lastUpdate ≠ none) (hn : 3 < n) (hn64 : n < 18446744073709551616) (hmax : n ≤ s.maxEntry + batch)
    (hfit : s.maxEntry + batch < 18446744073709551616) (p : List Bytes) (rs : List Resp) :
    runWorkerE env batch now s (some ⟨n, t⟩) (some p) rs = ([], .ended) := by
  obtain ⟨u, hu'⟩ : ∃ u, s.lastUpdate = some u := by
    cases h : s.lastUpdate with
    | none => exact absurd h hu
    | some u => exact ⟨u, rfl⟩
  have ht : chooseTask batch now s (some ⟨n, t⟩) = .backfill := by
    unfold chooseTask
    simp only [hu', add64_eq s.maxEntry batch hfit]
    rw [if_neg (by omega), if_neg (by omega), if_pos (by omega)]
  have hlo : (if s.minEntry % batch ≠ 0 then sub64 s.minEntry (s.minEntry % batch) else sub64 s.minEntry batch) = 0 := by
    by_cases h : s.minEntry = batch
    · rw [if_neg (by rw [h]; simp), sub64_eq _ _ (by omega) (by omega)]; omega
    · rw [Nat.mod_eq_of_lt (by omega), if_pos (by omega), sub64_eq _ _ (by omega) (by omega)]; omega
  have hj : jobRange batch s n .backfill = some (0, s.minEntry - 1) := by
    simp only [jobRange, rawRange]
    rw [hlo, sub64_eq s.minEntry 1 (by omega) (by omega), sub64_eq n 1 (by omega) (by omega), if_neg (by omega)]
  unfold runWorkerE
  simp only [ht, hj]
  rw [if_neg (fun e => by omega)]
  simp only [decide_true, C18_small_tree_fails _ _ p (show s.minEntry - 1 < 3 by omega)]

example : (⟨1, 4, 50, 50, some 1000⟩ : WState).minEntry ≤ 3 ∧ 5 ≤ (⟨1, 4, 50, 50, some 1000⟩ : WState).maxEntry + 4 := by decide

/-! #### answers without entries -/

theorem downloadE_spin (env : Env) (last : Nat) (d : Download) (h : d.index ≤ last) (k : Nat) : downloadE env last d (List.replicate k (.entries [])) = (d, .waiting, []) := by
  induction k with
  | zero => unfold List.replicate downloadE; rw [if_neg (by omega)]
  | succ k ih =>
    rw [List.replicate_succ]
    unfold downloadE
    rw [if_neg (by omega)]
    exact ih

/-- **C98 fails (no entries).** A log that answers every request with an empty list of entries keeps its worker asking for the same entry for ever: after any number of answers the job waits for the next one, with nothing stored. -/
theorem C98_spin_fails (env : Env) (batch now n t : Nat) (hb : 0 < batch) (s : WState) (hf : FairHead batch n s) (r : Range)
    (hj : jobRange batch s n (chooseTask batch now s (some ⟨n, t⟩)) = some r) (p : List Bytes) (hp : p.length = (proofNodes (proofOldSize r.1) (r.2 + 1)).length) (k : Nat) :
    runWorkerE env batch now s (some ⟨n, t⟩) (some p) (List.replicate k (.entries [])) = ([], .waits) := by
  obtain ⟨hr, _, _⟩ := fair_job batch now hb s n t hf r hj
  obtain ⟨us, hus, hne⟩ := C18_job_exists (decide (chooseTask batch now s (some ⟨n, t⟩) = .backfill)) r.1 r.2 p hr hp
  unfold runWorkerE
  dsimp only
  rw [if_neg (fun e => by omega), hj]
  dsimp only
  rw [hus]
  cases us with
  | nil => exact absurd rfl hne
  | cons u us =>
    dsimp only
    unfold runSubtreesE
    rw [downloadE_spin env u.last (newDownload u) (jobSubtrees_bounds _ _ _ _ _ hus u (by simp)).2.1 k]
    rfl

example : exBack.length = (proofNodes (proofOldSize 12) (15 + 1)).length := by decide +kernel

theorem takeEntryE_index (env : Env) (d d' : Download) (l : Leaf) (h : takeEntryE env d l = (d', .complete)) : d'.index = add64 d.index 1 := by
  by_cases hp : env.parse l.input l.extra = none
  · unfold takeEntryE at h
    rw [hp] at h
    cases h
    rfl
  · exact (takeEntryE_complete env d d' l hp h).1

theorem takeEntriesE_index (env : Env) (ls : List Leaf) : ∀ d d', takeEntriesE env d ls = (d', .complete) → d.index + ls.length < 18446744073709551616 → d'.index = d.index + ls.length := by
  induction ls with
  | nil => intro d d' h _; cases h; rfl
  | cons l ls ih =>
    intro d d' h hi
    unfold takeEntriesE at h
    cases he : takeEntryE env d l with
    | mk d1 e =>
      rw [he] at h
      cases e with
      | error => cases h
      | panic => cases h
      | waiting => cases h
      | complete =>
        simp only [List.length_cons] at hi
        have h1 := takeEntryE_index env d d1 l he
        rw [add64_eq _ _ (by omega)] at h1
        rw [ih d1 d' h (by omega), h1, List.length_cons]
        omega

/-- An answer that is not a request to wait and not an empty list, and not absurdly long. -/
def MovesOn (n : Nat) (x : Resp) : Prop := x = .failed ∨ ∃ l ls, x = .entries (l :: ls) ∧ n + (l :: ls).length < 18446744073709551616

theorem downloadE_moves (env : Env) (n last : Nat) (hl : last < n) (rs : List Resp) : ∀ d, d.index ≤ last + 1 → (∀ x ∈ rs, MovesOn n x) →
    ((downloadE env last d rs).2.1 = .waiting → rs.length < last + 1 - d.index) ∧
    ((downloadE env last d rs).2.1 = .complete → rs.length ≤ (downloadE env last d rs).2.2.length + (last + 1 - d.index) ∧ ∀ x ∈ (downloadE env last d rs).2.2, MovesOn n x) := by
  induction rs with
  | nil =>
    intro d hd _
    unfold downloadE
    by_cases h : last < d.index
    · rw [if_pos h]
      exact ⟨(fun e => by cases e), fun _ => ⟨by simp, by simp⟩⟩
    · rw [if_neg h]
      exact ⟨(fun _ => by simp only [List.length_nil]; omega), (fun e => by cases e)⟩
  | cons x rs ih =>
    intro d hd hm
    unfold downloadE
    by_cases h : last < d.index
    · rw [if_pos h]
      exact ⟨(fun e => by cases e), fun _ => ⟨by dsimp only; omega, hm⟩⟩
    · rw [if_neg h]
      rcases hm x (by simp) with rfl | ⟨l, ls, rfl, hlen⟩
      · exact ⟨(fun e => by cases e), (fun e => by cases e)⟩
      · dsimp only
        cases he : takeEntriesE env d (l :: ls) with
        | mk d' e =>
          cases e with
          | error => exact ⟨(fun e => by cases e), (fun e => by cases e)⟩
          | panic => exact ⟨(fun e => by cases e), (fun e => by cases e)⟩
          | waiting =>
            obtain ⟨d2, e2, h1, _, h3⟩ := takeEntriesE_eq env (l :: ls) d
            rw [he] at h1
            cases h1
            exact absurd rfl h3
          | complete =>
            have hi := takeEntriesE_index env (l :: ls) d d' he (by omega)
            rw [List.length_cons] at hi
            dsimp only
            by_cases hd' : last < d'.index
            · rw [downloadE_stop env _ _ _ hd']
              refine ⟨(fun e => by cases e), fun _ => ⟨by dsimp only; rw [List.length_cons]; omega, fun y hy => hm y (by simp [hy])⟩⟩
            · obtain ⟨a, b⟩ := ih d' (by omega) (fun y hy => hm y (by simp [hy]))
              refine ⟨fun e => ?_, fun e => ⟨?_, (b e).2⟩⟩
              · have := a e
                rw [List.length_cons]
                omega
              · have := (b e).1
                rw [List.length_cons]
                omega

/-- Entries of a queue. -/
def queueTotal : List Subtree → Nat
  | [] => 0
  | t :: ts => (t.last + 1 - t.first) + queueTotal ts

theorem runSubtreesE_moves (env : Env) (now : Nat) (task : Task) (n : Nat) (ts : List Subtree) : ∀ s rs, (∀ t ∈ ts, t.first ≤ t.last ∧ t.last < n) → (∀ x ∈ rs, MovesOn n x) → queueTotal ts ≤ rs.length →
    (runSubtreesE env now task s ts rs).2 ≠ .waits := by
  induction ts with
  | nil => intro s rs _ _ _ e; cases e
  | cons t ts ih =>
    intro s rs hts hm htot
    have ht := hts t (by simp)
    unfold queueTotal at htot
    obtain ⟨h1, h2⟩ := downloadE_moves env n t.last ht.2 rs (newDownload t) (by show t.first ≤ _; omega) hm
    rw [show (newDownload t).index = t.first from rfl] at h1 h2
    unfold runSubtreesE
    cases he : downloadE env t.last (newDownload t) rs with
    | mk d q =>
      obtain ⟨e, rs'⟩ := q
      rw [he] at h1 h2
      cases e with
      | error => intro e; cases e
      | panic => intro e; cases e
      | waiting => have := h1 rfl; omega
      | complete =>
        obtain ⟨h3, h4⟩ := h2 rfl
        dsimp only at h3 h4
        unfold settle
        dsimp only
        cases d.verifier.checkClaimE with
        | none => intro e; cases e
        | some b =>
          cases b with
          | false => intro e; cases e
          | true =>
            dsimp only
            cases updateState now task s (some (t.first, t.last)) d.minTs d.maxTs with
            | none => intro e; cases e
            | some s' => exact ih s' rs' (fun x hx => hts x (by simp [hx])) h4 (by omega)

theorem total_append (xs ys : List Subtree) : queueTotal (xs ++ ys) = queueTotal xs + queueTotal ys := by
  induction xs with
  | nil => simp [queueTotal]
  | cons x xs ih => rw [List.cons_append, queueTotal, queueTotal, ih]; omega

theorem total_up (ts : List Subtree) : ∀ a b, TilesUp a b (ts.map (fun u => (u.first, u.last))) → a + queueTotal ts = b := by
  induction ts with
  | nil => intro a b h; simp only [List.map_nil, TilesUp] at h; unfold queueTotal; omega
  | cons t ts ih =>
    intro a b h
    simp only [List.map_cons, TilesUp] at h
    obtain ⟨h1, h2, h3⟩ := h
    have := ih _ _ h3
    unfold queueTotal
    omega

theorem total_reverse (ts : List Subtree) : queueTotal ts.reverse = queueTotal ts := by
  induction ts with
  | nil => rfl
  | cons t ts ih =>
    rw [List.reverse_cons, total_append, ih]
    rw [queueTotal, queueTotal, queueTotal]
    omega

/-- **C98, answers with entries.** When every answer is a failure or holds at least one entry, a job needs no more answers than it has entries to fetch. -/
theorem C98_bounded_partial (env : Env) (batch now n t : Nat) (hb : 0 < batch) (s : WState) (hf : FairHead batch n s) (r : Range)
    (hj : jobRange batch s n (chooseTask batch now s (some ⟨n, t⟩)) = some r) (proof : Option (List Bytes)) (rs : List Resp) (hm : ∀ x ∈ rs, MovesOn n x) (hlen : r.2 + 1 - r.1 ≤ rs.length) :
    (runWorkerE env batch now s (some ⟨n, t⟩) proof rs).2 ≠ .waits := by
  obtain ⟨hr, hlt, _⟩ := fair_job batch now hb s n t hf r hj
  unfold runWorkerE
  dsimp only
  rw [if_neg (fun e => by omega), hj]
  cases proof with
  | none => intro e; cases e
  | some p =>
    dsimp only
    cases hus : jobSubtrees (decide (chooseTask batch now s (some ⟨n, t⟩) = .backfill)) r.1 r.2 p with
    | none => intro e; cases e
    | some us =>
      have htot : r.1 + queueTotal us = r.2 + 1 := by
        cases hbf : decide (chooseTask batch now s (some ⟨n, t⟩) = .backfill) with
        | false =>
          rw [hbf] at hus
          exact total_up us _ _ (C18_job_tiles_up _ _ _ _ hr hus)
        | true =>
          rw [hbf] at hus
          have := C18_job_tiles_down _ _ _ _ hr hus
          unfold TilesDown at this
          rw [← List.map_reverse] at this
          rw [← total_reverse us]
          exact total_up us.reverse _ _ this
      cases us with
      | nil => intro e; cases e
      | cons u us =>
        refine runSubtreesE_moves env now _ n (u :: us) s rs (fun x hx => ?_) hm (by omega)
        have := jobSubtrees_bounds _ _ _ _ _ hus x hx
        omega

example : ∀ x ∈ [Resp.entries [exSrv 0], .failed], MovesOn 20 x := by
  intro x hx
  simp only [List.mem_cons, List.not_mem_nil, or_false] at hx
  rcases hx with rfl | rfl
  · exact Or.inr ⟨_, _, rfl, by decide⟩
  · exact Or.inl rfl

/-! ### each theorem applied -/

example : (runWorkerE toyEnv 4 2000 exKept (some ⟨20, 60⟩) (some exBack) [toyEntries 4]).1 = runWorker toyEnv 4 2000 exKept (some ⟨20, 60⟩) (some exBack) [toyEntries 4] :=
  C98_events toyEnv 4 2000 (by decide) exKept _ _ _

example : (runWorkerE toyEnv 4 2000 exKept (some ⟨20, 60⟩) (some exBack) [toyEntries 3, toyEntries 2]).2 ≠ .crashed ∧ 15 + 1 < 2 ^ 64 :=
  ⟨(C98_no_panic toyEnv 4 2000 (by decide) exKept _ _ _).1, (C98_no_panic toyEnv 4 2000 (by decide) exKept (some ⟨20, 60⟩) (some exBack) []).2 ⟨20, 60⟩ (12, 15) rfl (by decide) (by decide)⟩

/-- A truthful log with a wait, an empty piece, a short piece and a failure. -/
example : (runWorkerE toyEnv 4 2000 exKept (some ⟨20, 60⟩) (some exBack) [.tooMany, .entries [], .entries [exSrv 12], .failed]).2 ≠ .ended :=
  (C98_truthful_log_partial toyEnv exLog16 exSrv toyHash_length (fun k x h => by
      have := List.mem_of_getElem? h
      exact (List.eq_of_mem_replicate this).symm) (fun _ h => by cases h) 4 2000 20 60 (by decide) (by decide) exKept ⟨by decide, Or.inr (by decide)⟩ (some exBack)
    (fun r p hr hp => by
      rw [show jobRange 4 exKept 20 (chooseTask 4 2000 exKept (some ⟨20, 60⟩)) = some (12, 15) by decide] at hr
      cases hr
      cases hp
      rfl)
    _ (fun r p us j hr hp hu hj => by
      rw [show jobRange 4 exKept 20 (chooseTask 4 2000 exKept (some ⟨20, 60⟩)) = some (12, 15) by decide] at hr
      cases hr
      cases hp
      rw [show decide (chooseTask 4 2000 exKept (some ⟨20, 60⟩) = .backfill) = true by decide, show jobSubtrees true 12 15 exBack = some [⟨mth toyHash (slice exLog16 (12, 15)), 12, 15⟩] by decide +kernel] at hu
      cases hu
      rw [hj _ rfl]
      exact .busy (by decide) (.piece (k := 0) (by decide) (by decide) (.piece (k := 1) (by decide) (by decide) (.failure (by decide)))))).1

end Verif.Props
