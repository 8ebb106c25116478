import Verif.Spec.Fetch
import Verif.Props.Merkle
/-! Lemmas about the log workers. -/
namespace Verif
open Spec

theorem add64_eq (a b : Nat) (h : a + b < 18446744073709551616) : add64 a b = a + b := Nat.mod_eq_of_lt h

theorem sub64_eq (a b : Nat) (h : b ≤ a) (ha : a < 18446744073709551616) : sub64 a b = a - b := by
  unfold sub64; omega

/-! ### downloads -/

theorem consumeAll_append (H : Bytes → Bytes) (v w : Verifier) (xs ys : List Bytes) (h : v.consumeAll H xs = some w) :
    v.consumeAll H (xs ++ ys) = w.consumeAll H ys := by
  induction xs generalizing v with
  | nil => simp only [Verifier.consumeAll] at h; cases h; rfl
  | cons x xs ih =>
    simp only [Verifier.consumeAll, List.cons_append] at h ⊢
    cases hc : v.consume H x with
    | none => rw [hc] at h; cases h
    | some v' => rw [hc] at h; exact ih v' h

/-- A leaf that was processed: it parses and storing it did not fail. -/
def Ok (env : Env) (l : Leaf) : Prop :=
  ∃ e, env.parse l.input l.extra = some e ∧ storeLogEntry env.keepExpired l.time e ≠ .fatal ∧
    storeLogEntry env.keepExpired l.time e ≠ .retry

/-- The timestamp of a processed leaf. -/
def leafTs (env : Env) (l : Leaf) : Nat :=
  match env.parse l.input l.extra with
  | none => 0
  | some e => e.timestamp

/-- The invariant of a download of subtree `t`. -/
structure DlInv (env : Env) (t : Subtree) (d : Download) : Prop where
  consumed : (newVerifier t).consumeAll env.H (d.handed.map Leaf.input) = some d.verifier
  ok : ∀ l ∈ d.handed, Ok env l
  maxGe : ∀ l ∈ d.handed, leafTs env l ≤ d.maxTs
  maxAtt : d.handed ≠ [] → ∃ l ∈ d.handed, leafTs env l = d.maxTs
  maxNil : d.handed = [] → d.maxTs = 0
  minLe : (∀ l ∈ d.handed, 0 < leafTs env l) → ∀ l ∈ d.handed, d.minTs ≤ leafTs env l
  minAtt : d.handed ≠ [] → ∃ l ∈ d.handed, leafTs env l = d.minTs
  minNil : d.handed = [] → d.minTs = 0

theorem newDownload_inv (env : Env) (t : Subtree) : DlInv env t (newDownload t) := by
  constructor <;> simp [newDownload, Verifier.consumeAll]

theorem takeEntry_inv (env : Env) (t : Subtree) (d d' : Download) (l : Leaf) (hi : DlInv env t d)
    (h : takeEntry env d l = some d') :
    DlInv env t d' ∧ (d'.handed = d.handed ∨ d'.handed = d.handed ++ [l]) := by
  unfold takeEntry at h
  split at h
  · cases h
    exact ⟨⟨hi.consumed, hi.ok, hi.maxGe, hi.maxAtt, hi.maxNil, hi.minLe, hi.minAtt, hi.minNil⟩, Or.inl rfl⟩
  · rename_i e he
    have key : ∀ v, d.verifier.consume env.H l.input = some v →
        storeLogEntry env.keepExpired l.time e ≠ .fatal → storeLogEntry env.keepExpired l.time e ≠ .retry →
        DlInv env t (advance (noteTs d e.timestamp) v l) := by
      intro v hv h1 h2
      have hts : leafTs env l = e.timestamp := by unfold leafTs; rw [he]
      constructor
      · simp only [advance, noteTs, List.map_append, List.map_cons, List.map_nil]
        rw [consumeAll_append _ _ _ _ _ hi.consumed]
        simp only [Verifier.consumeAll, hv]
      · intro x hx
        simp only [advance, noteTs, List.mem_append, List.mem_singleton] at hx
        rcases hx with hx | rfl
        · exact hi.ok x hx
        · exact ⟨e, he, h1, h2⟩
      · intro x hx
        simp only [advance, noteTs, List.mem_append, List.mem_singleton] at hx ⊢
        rcases hx with hx | rfl
        · have := hi.maxGe x hx
          split <;> omega
        · rw [hts]; split <;> omega
      · intro _
        simp only [advance, noteTs, List.mem_append, List.mem_singleton]
        split
        · exact ⟨l, Or.inr rfl, hts⟩
        · rename_i hc
          have hne : d.handed ≠ [] := fun e => hc (Or.inl (hi.maxNil e))
          obtain ⟨x, hx, hx2⟩ := hi.maxAtt hne
          exact ⟨x, Or.inl hx, hx2⟩
      · simp [advance, noteTs]
      · intro hpos x hx
        simp only [advance, noteTs, List.mem_append, List.mem_singleton] at hx hpos ⊢
        have hp : ∀ y ∈ d.handed, 0 < leafTs env y := fun y hy => hpos y (Or.inl hy)
        rcases hx with hx | rfl
        · have h3 := hi.minLe hp x hx
          split
          · rename_i hc
            rcases hc with hc | hc
            · obtain ⟨y, hy, hy2⟩ := hi.minAtt (List.ne_nil_of_mem hx)
              have := hp y hy
              omega
            · omega
          · omega
        · rw [hts]; split <;> omega
      · intro _
        simp only [advance, noteTs, List.mem_append, List.mem_singleton]
        split
        · exact ⟨l, Or.inr rfl, hts⟩
        · rename_i hc
          have hne : d.handed ≠ [] := fun e => hc (Or.inl (hi.minNil e))
          obtain ⟨x, hx, hx2⟩ := hi.minAtt hne
          exact ⟨x, Or.inl hx, hx2⟩
      · simp [advance, noteTs]
    split at h
    · cases h
    · cases h
    · rename_i h1 h2
      split at h
      · cases h
      · rename_i v hv
        cases h
        exact ⟨key v hv h1 h2, Or.inr rfl⟩

theorem takeEntries_inv (env : Env) (t : Subtree) (ls : List Leaf) : ∀ (d d' : Download) (b : Bool), DlInv env t d →
    takeEntries env d ls = (d', b) → DlInv env t d' ∧ ∃ new, d'.handed = d.handed ++ new ∧ new.Sublist ls := by
  induction ls with
  | nil => intro d d' b hi h; simp only [takeEntries] at h; cases h; exact ⟨hi, [], by simp, List.Sublist.slnil⟩
  | cons l ls ih =>
    intro d d' b hi h
    unfold takeEntries at h
    split at h
    · cases h; exact ⟨hi, [], by simp, List.nil_sublist _⟩
    · rename_i d1 hd
      obtain ⟨hi1, hc⟩ := takeEntry_inv env t d d1 l hi hd
      obtain ⟨hi2, new, hn, hs⟩ := ih d1 d' b hi1 h
      refine ⟨hi2, ?_⟩
      rcases hc with hc | hc
      · exact ⟨new, by rw [hn, hc], hs.cons _⟩
      · exact ⟨l :: new, by rw [hn, hc]; simp, hs.cons_cons _⟩

theorem download_inv (env : Env) (t : Subtree) (rs : List Resp) : ∀ (d d' : Download) (b : Bool) (rs' : List Resp),
    DlInv env t d → download env t.last d rs = (d', b, rs') →
    DlInv env t d' ∧ ∃ new used, d'.handed.map Leaf.input = d.handed.map Leaf.input ++ new ∧
      servedInputs rs = used ++ servedInputs rs' ∧ new.Sublist used := by
  induction rs with
  | nil =>
    intro d d' b rs' hi h
    simp only [download] at h
    cases h
    exact ⟨hi, [], [], by simp, by simp, List.Sublist.slnil⟩
  | cons r rs ih =>
    intro d d' b rs' hi h
    unfold download at h
    split at h
    · cases h; exact ⟨hi, [], [], by simp, by simp, List.Sublist.slnil⟩
    · split at h
      · obtain ⟨a, new, used, h1, h2, h3⟩ := ih d d' b rs' hi h
        exact ⟨a, new, used, h1, by simpa only [servedInputs] using h2, h3⟩
      · cases h; exact ⟨hi, [], [], by simp, by simp [servedInputs], List.Sublist.slnil⟩
      · rename_i ls
        split at h
        · rename_i d1 hd
          obtain ⟨hi1, n1, e1, s1⟩ := takeEntries_inv env t ls d d1 true hi hd
          obtain ⟨a, new, used, h1, h2, h3⟩ := ih d1 d' b rs' hi1 h
          refine ⟨a, n1.map Leaf.input ++ new, ls.map Leaf.input ++ used, ?_, ?_, ?_⟩
          · rw [h1, e1]; simp
          · simp only [servedInputs]; rw [h2]; simp
          · exact (s1.map _).append h3
        · rename_i d1 hd
          obtain ⟨rfl, rfl, rfl⟩ : d1 = d' ∧ false = b ∧ rs = rs' := by simpa using h
          obtain ⟨hi1, n1, e1, s1⟩ := takeEntries_inv env t ls d d1 false hi hd
          exact ⟨hi1, n1.map Leaf.input, ls.map Leaf.input, by rw [e1]; simp, by simp [servedInputs], s1.map _⟩

/-! ### events of a download -/

theorem leafEvents_get (env : Env) (ls : List Leaf) : ∀ (pos k : Nat) (l : Leaf), ls[k]? = some l →
    leafEvent env (pos + k) l ∈ leafEvents env pos ls := by
  induction ls with
  | nil => intro pos k l h; simp at h
  | cons x xs ih =>
    intro pos k l h
    cases k with
    | zero => simp at h; subst h; simp [leafEvents]
    | succ k =>
      simp at h
      have := ih (pos + 1) k l h
      simp only [leafEvents, List.mem_cons]
      right
      rwa [show pos + (k + 1) = pos + 1 + k by omega]

theorem leafEvents_mem (env : Env) (ls : List Leaf) : ∀ (pos : Nat) (e : Ev), e ∈ leafEvents env pos ls →
    ∃ k l, ls[k]? = some l ∧ e = leafEvent env (pos + k) l := by
  induction ls with
  | nil => intro pos e h; simp [leafEvents] at h
  | cons x xs ih =>
    intro pos e h
    simp only [leafEvents, List.mem_cons] at h
    rcases h with h | h
    · exact ⟨0, x, by simp, h⟩
    · obtain ⟨k, l, h1, h2⟩ := ih _ _ h
      exact ⟨k + 1, l, by simpa using h1, by rw [h2]; congr 1; omega⟩

theorem leafEvent_ne_state (env : Env) (pos : Nat) (l : Leaf) (s : WState) : leafEvent env pos l ≠ .state s := by
  unfold leafEvent; split <;> simp

theorem state_not_mem_leafEvents (env : Env) (ls : List Leaf) (pos : Nat) (s : WState) :
    Ev.state s ∉ leafEvents env pos ls := by
  intro h
  obtain ⟨k, l, _, h2⟩ := leafEvents_mem env ls pos _ h
  exact leafEvent_ne_state _ _ _ _ h2.symm

theorem leafEvent_eq (env : Env) (pos : Nat) (l : Leaf) : ∃ item, leafEvent env pos l = .entry pos l.input (leafTs env l) item := by
  unfold leafEvent leafTs
  cases env.parse l.input l.extra with
  | none => exact ⟨_, rfl⟩
  | some e => exact ⟨_, rfl⟩

/-- A download that passed the verifier processed every entry of its range. -/
theorem download_covers (env : Env) (hH : ∀ x, (env.H x).length = 32) (t : Subtree) (ht : t.first ≤ t.last) (d : Download)
    (hd : DlInv env t d) (hc : d.verifier.checkClaim = true) :
    (d.handed.map Leaf.input).length = t.last + 1 - t.first ∧ mth env.H (d.handed.map Leaf.input) = t.root := by
  obtain ⟨v, e, h⟩ := Props.C15_verifier_accepts_iff env.H hH t ht (d.handed.map Leaf.input)
  rw [hd.consumed] at e
  cases e
  exact h.1 hc

theorem processed_of_done (env : Env) (G : Nat → Bytes → Prop) (t : Subtree) (d : Download)
    (hlen : (d.handed.map Leaf.input).length = t.last + 1 - t.first)
    (hG : ∀ k x, (d.handed.map Leaf.input)[k]? = some x → G (t.first + k) x) (i : Nat) (h1 : t.first ≤ i) (h2 : i ≤ t.last) :
    Processed G (leafEvents env t.first d.handed) i := by
  have hk : i - t.first < d.handed.length := by simp at hlen; omega
  have hget : d.handed[i - t.first]? = some (d.handed[i - t.first]) := List.getElem?_eq_getElem hk
  have := leafEvents_get env d.handed t.first (i - t.first) _ hget
  rw [show t.first + (i - t.first) = i by omega] at this
  obtain ⟨item, he⟩ := leafEvent_eq env i (d.handed[i - t.first])
  rw [he] at this
  refine ⟨_, _, _, this, ?_⟩
  have hx := hG (i - t.first) (d.handed[i - t.first]).input (by simp [hget])
  rwa [show t.first + (i - t.first) = i by omega] at hx

/-! ### state updates -/

theorem processed_append_left {G : Nat → Bytes → Prop} {a b : List Ev} {i : Nat} (h : Processed G a i) : Processed G (a ++ b) i := by
  obtain ⟨x, y, z, h1, h2⟩ := h
  exact ⟨x, y, z, List.mem_append_left _ h1, h2⟩

theorem processed_append_right {G : Nat → Bytes → Prop} {a b : List Ev} {i : Nat} (h : Processed G b i) : Processed G (a ++ b) i := by
  obtain ⟨x, y, z, h1, h2⟩ := h
  exact ⟨x, y, z, List.mem_append_right _ h1, h2⟩

/-- The entries claimed after an update are those claimed before and those of the subtree. -/
theorem updateState_claims (now : Nat) (task : Task) (s s' : WState) (r : Range) (mn mx : Nat) (hs : s.maxEntry < 18446744073709551615)
    (hr : r.1 ≤ r.2) (hr2 : r.2 < 18446744073709551615) (hu : updateState now task s (some r) mn mx = some s')
    (hl : task = .init ∨ s.lastUpdate ≠ none) :
    s'.lastUpdate = some now ∧ s'.maxEntry < 18446744073709551615 ∧
    ∀ i, s'.minEntry ≤ i → i ≤ s'.maxEntry → Claims s i ∨ (r.1 ≤ i ∧ i ≤ r.2) := by
  unfold updateState at hu
  unfold sub64 add64 at hu
  split at hu
  · rename_i r' he
    cases he
    split at hu
    · cases hu
      exact ⟨rfl, hr2, fun i h1 h2 => Or.inr ⟨h1, h2⟩⟩
    · rename_i hn
      split at hu
      · rename_i hm
        cases hu
        refine ⟨rfl, hr2, fun i h1 h2 => ?_⟩
        dsimp only at h1 h2
        by_cases hi : i ≤ s.maxEntry
        · exact Or.inl ⟨hn, h1, hi⟩
        · right; omega
      · cases hu
  · rename_i r' he
    cases he
    split at hu
    · rename_i hm
      cases hu
      refine ⟨rfl, hr2, fun i h1 h2 => ?_⟩
      dsimp only at h1 h2
      by_cases hi : i ≤ s.maxEntry
      · rcases hl with hl | hl
        · cases hl
        · exact Or.inl ⟨hl, h1, hi⟩
      · right; omega
    · cases hu
  · rename_i r' he
    cases he
    split at hu
    · rename_i hm
      cases hu
      refine ⟨rfl, hs, fun i h1 h2 => ?_⟩
      dsimp only at h1 h2
      by_cases hi : s.minEntry ≤ i
      · rcases hl with hl | hl
        · cases hl
        · exact Or.inl ⟨hl, hi, h2⟩
      · right; omega
    · cases hu
  · rename_i he; cases he
  · cases hu

/-- Splitting a trace at a state, when the state is not in the first part. -/
theorem split_at_state {xs b a c : List Ev} {s s' : WState} (hx : Ev.state s' ∉ xs)
    (h : xs ++ .state s :: b = a ++ .state s' :: c) :
    (a = xs ∧ s' = s ∧ c = b) ∨ ∃ a', a = xs ++ .state s :: a' ∧ b = a' ++ .state s' :: c := by
  induction xs generalizing a with
  | nil =>
    cases a with
    | nil => simp at h; exact Or.inl ⟨rfl, h.1.symm, h.2.symm⟩
    | cons y ys =>
      simp at h
      exact Or.inr ⟨ys, by simp [h.1], h.2⟩
  | cons x xs ih =>
    cases a with
    | nil => simp at h; exact absurd h.1.symm (by intro e; apply hx; simp [e])
    | cons y ys =>
      simp at h
      rcases ih (fun hm => hx (List.mem_cons_of_mem _ hm)) h.2 with ⟨h1, h2, h3⟩ | ⟨a', h1, h2⟩
      · exact Or.inl ⟨by rw [h1, h.1], h2, h3⟩
      · exact Or.inr ⟨a', by rw [h1, h.1]; rfl, h2⟩

/-- A state in a concatenation is in one of the parts. -/
theorem split_append {xs p a b : List Ev} {e : Ev} (h : xs ++ p = a ++ e :: b) :
    (∃ c, xs = a ++ e :: c) ∨ ∃ a', a = xs ++ a' ∧ p = a' ++ e :: b := by
  induction xs generalizing a with
  | nil => exact Or.inr ⟨a, rfl, h⟩
  | cons x xs ih =>
    cases a with
    | nil => simp at h; exact Or.inl ⟨xs, by simp [h.1]⟩
    | cons y ys =>
      simp at h
      rcases ih h.2 with ⟨c, hc⟩ | ⟨a', h1, h2⟩
      · exact Or.inl ⟨c, by rw [hc, h.1]; rfl⟩
      · exact Or.inr ⟨a', by rw [h1, h.1]; rfl, h2⟩

/-- Induction over the verified subtrees of a job: what holds of the state and the events so far and is kept by every verified
subtree holds at every state that is sent. -/
theorem runSubtrees_ind (env : Env) (hH : ∀ x, (env.H x).length = 32) (now : Nat) (task : Task) (I : List Ev → WState → Prop)
    (ts : List Subtree) : ∀ (pre : List Ev) (s : WState) (rs : List Resp) (a b : List Ev) (s' : WState), I pre s →
    (∀ t ∈ ts, t.first ≤ t.last) →
    (∀ pre s t d s1, I pre s → t ∈ ts → DlInv env t d → (d.handed.map Leaf.input).Sublist (servedInputs rs) →
      (d.handed.map Leaf.input).length = t.last + 1 - t.first → mth env.H (d.handed.map Leaf.input) = t.root →
      updateState now task s (some (t.first, t.last)) d.minTs d.maxTs = some s1 →
      I (pre ++ leafEvents env t.first d.handed ++ [.state s1]) s1) →
    runSubtrees env now task s ts rs = a ++ .state s' :: b → I (pre ++ a ++ [.state s']) s' := by
  induction ts with
  | nil => intro pre s rs a b s' _ _ _ h; simp [runSubtrees] at h
  | cons t ts ih =>
    intro pre s rs a b s' hI hts hstep h
    unfold runSubtrees at h
    have nomem : ∀ d : Download, leafEvents env t.first d.handed ≠ a ++ .state s' :: b := by
      intro d he
      exact state_not_mem_leafEvents env d.handed t.first s' (by rw [he]; simp)
    split at h
    · exact absurd h (nomem _)
    · rename_i d rs' hd
      split at h
      · rename_i hc
        split at h
        · exact absurd h (nomem _)
        · rename_i s1 hu
          have ht1 := hts t (by simp)
          obtain ⟨hi, new, used, hn, hus, hsub⟩ := download_inv env t rs _ d true rs' (newDownload_inv env t) hd
          obtain ⟨hlen, hroot⟩ := download_covers env hH t ht1 d hi hc
          have hsub2 : (d.handed.map Leaf.input).Sublist (servedInputs rs) := by
            rw [hn, hus]
            simp only [newDownload, List.map_nil, List.nil_append]
            exact hsub.trans (List.sublist_append_left _ _)
          have hI1 := hstep pre s t d s1 hI (by simp) hi hsub2 hlen hroot hu
          rcases split_at_state (state_not_mem_leafEvents env d.handed t.first s') h with ⟨h1, h2, h3⟩ | ⟨a', h1, h2⟩
          · subst h1 h2
            exact hI1
          · have hrec := ih (pre ++ leafEvents env t.first d.handed ++ [.state s1]) s1 rs' a' b s' hI1
              (fun u hu => hts u (by simp [hu]))
              (by
                intro pre s u d s2 hI hu hd hs
                refine hstep pre s u d s2 hI (by simp [hu]) hd ?_
                rw [hus]
                exact hs.trans (List.sublist_append_right _ _))
              h2
            rw [h1]
            simpa using hrec
      · exact absurd h (nomem _)

theorem processed_snoc_state {G : Nat → Bytes → Prop} {a : List Ev} {s : WState} {i : Nat} :
    Processed G (a ++ [.state s]) i ↔ Processed G a i := by
  constructor
  · rintro ⟨x, y, z, m, g⟩
    simp at m
    exact ⟨x, y, z, m, g⟩
  · exact processed_append_left

theorem runSubtrees_claims (env : Env) (hH : ∀ x, (env.H x).length = 32) (now : Nat) (task : Task) (G : Nat → Bytes → Prop)
    (ts : List Subtree) (E : Nat → Prop) (s : WState) (rs : List Resp) (a b : List Ev) (s' : WState)
    (hs : s.maxEntry < 18446744073709551615) (hE : ∀ i, Claims s i → E i) (hl : task = .init ∨ s.lastUpdate ≠ none)
    (hts : ∀ t ∈ ts, t.first ≤ t.last ∧ t.last < 18446744073709551615)
    (hG : ∀ t ∈ ts, ∀ xs, xs.Sublist (servedInputs rs) → xs.length = t.last + 1 - t.first → mth env.H xs = t.root →
      ∀ k x, xs[k]? = some x → G (t.first + k) x)
    (h : runSubtrees env now task s ts rs = a ++ .state s' :: b) :
    s'.lastUpdate = some now ∧ s'.maxEntry < 18446744073709551615 ∧ ∀ i, Claims s' i → E i ∨ Processed G a i := by
  have key := runSubtrees_ind env hH now task
    (fun evs s => s.maxEntry < 18446744073709551615 ∧ (task = .init ∨ s.lastUpdate ≠ none) ∧
      (evs ≠ [] → s.lastUpdate = some now) ∧ ∀ i, Claims s i → E i ∨ Processed G evs i)
    ts [] s rs a b s' ⟨hs, hl, by simp, fun i hi => Or.inl (hE i hi)⟩ (fun t ht => (hts t ht).1)
    (by
      intro pre s t d s1 hI ht hd hsub hlen hroot hu
      obtain ⟨ht1, ht2⟩ := hts t ht
      have hcov := processed_of_done env G t d hlen (hG t ht _ hsub hlen hroot)
      obtain ⟨hl1, hm1, hcl⟩ := updateState_claims now task s s1 _ _ _ hI.1 ht1 ht2 hu hI.2.1
      refine ⟨hm1, Or.inr (by rw [hl1]; simp), fun _ => hl1, fun i hi => ?_⟩
      rw [processed_snoc_state]
      rcases hcl i hi.2.1 hi.2.2 with hc1 | hc1
      · rcases hI.2.2.2 i hc1 with h3 | h3
        · exact Or.inl h3
        · exact Or.inr (processed_append_left h3)
      · exact Or.inr (processed_append_right (hcov i hc1.1 hc1.2)))
    h
  simp only [List.nil_append] at key
  refine ⟨key.2.2.1 (by simp), key.1, fun i hi => ?_⟩
  have := key.2.2.2 i hi
  rwa [processed_snoc_state] at this

/-! ### the whole job -/

theorem jobSubtrees_range (bf : Bool) (first last : Nat) (proof : List Bytes) (us : List Subtree)
    (h : jobSubtrees bf first last proof = some us) : (0 < first ∧ first ≤ last) ∨ (first = 0 ∧ 3 ≤ last) := by
  by_cases h0 : first = 0
  · subst h0
    by_cases h3 : 3 ≤ last
    · exact Or.inr ⟨rfl, h3⟩
    · rw [Props.C18_small_tree_fails bf last proof (by omega)] at h; cases h
  · left
    refine ⟨by omega, ?_⟩
    apply Classical.byContradiction
    intro hc
    unfold jobSubtrees consistencyProofToSubtrees at h
    rw [if_pos (by unfold proofOldSize; rw [if_neg h0]; omega)] at h
    cases h

theorem jobSubtrees_bounds (bf : Bool) (first last : Nat) (proof : List Bytes) (us : List Subtree)
    (h : jobSubtrees bf first last proof = some us) : ∀ u ∈ us, first ≤ u.first ∧ u.first ≤ u.last ∧ u.last ≤ last := by
  intro u hu
  have hr := jobSubtrees_range bf first last proof us h
  have : first ≤ u.first ∧ u.first ≤ u.last ∧ u.last < last + 1 := by
    cases bf with
    | false =>
      have := Props.C18_job_tiles_up first last _ us hr h
      exact (tilesUp_bounds _ _ _ this).2 (u.first, u.last) (List.mem_map.2 ⟨u, hu, rfl⟩)
    | true =>
      have := Props.C18_job_tiles_down first last _ us hr h
      exact (tilesUp_bounds _ _ _ this).2 (u.first, u.last) (List.mem_reverse.2 (List.mem_map.2 ⟨u, hu, rfl⟩))
  omega

theorem jobRange_lt (batch : Nat) (s : WState) (n : Nat) (task : Task) (r : Range) (h : jobRange batch s n task = some r)
    (h0 : 0 < n) (hn : n < 18446744073709551616) : r.2 < n := by
  unfold jobRange at h
  split at h
  · cases h
  · cases h
    dsimp only
    unfold sub64
    split <;> omega

theorem chooseTask_job (batch now : Nat) (s : WState) (h : TreeHead) (r : Range)
    (hr : jobRange batch s h.treeSize (chooseTask batch now s (some h)) = some r) :
    3 < h.treeSize ∧ (chooseTask batch now s (some h) = .init ∨ s.lastUpdate ≠ none) := by
  unfold chooseTask at hr ⊢
  dsimp only at hr ⊢
  split
  · rename_i h3
    rw [if_pos h3] at hr
    simp [jobRange, rawRange] at hr
  · refine ⟨by omega, ?_⟩
    cases hl : s.lastUpdate with
    | none => left; rfl
    | some t => right; simp

/-- The states sent by a job come from the idle path or from the loop over the subtrees. -/
theorem runWorker_cases (env : Env) (batch now : Nat) (s : WState) (sth : Option TreeHead) (proof : Option (List Bytes))
    (rs : List Resp) :
    runWorker env batch now s sth proof rs = [] ∨
    (∃ h, sth = some h ∧ chooseTask batch now s (some h) = .sleep ∧ runWorker env batch now s sth proof rs = runSleep now s h) ∨
    ∃ h r p ts, sth = some h ∧ jobRange batch s h.treeSize (chooseTask batch now s (some h)) = some r ∧ proof = some p ∧
      jobSubtrees (decide (chooseTask batch now s (some h) = .backfill)) r.1 r.2 p = some ts ∧
      runWorker env batch now s sth proof rs = runSubtrees env now (chooseTask batch now s (some h)) s ts rs := by
  unfold runWorker
  split
  · left; rfl
  · rename_i h
    dsimp only
    split
    · split
      · rename_i hs
        right; left; exact ⟨h, rfl, hs, rfl⟩
      · left; rfl
    · rename_i r hr
      split
      · left; rfl
      · rename_i p
        split
        · left; rfl
        · rename_i ts hts
          right; right
          exact ⟨h, r, p, ts, rfl, hr, rfl, hts, rfl⟩

/-! ### entries in a trace -/

theorem runSubtrees_entry (env : Env) (now : Nat) (task : Task) (ts : List Subtree) : ∀ (s : WState) (rs : List Resp) (e : Ev),
    e ∈ runSubtrees env now task s ts rs → (∀ s, e ≠ .state s) → ∃ l, Ok env l ∧ ∃ pos, leafEvent env pos l = e := by
  induction ts with
  | nil => intro s rs e h; simp [runSubtrees] at h
  | cons t ts ih =>
    intro s rs e h hn
    have leaf : ∀ d b rs', download env t.last (newDownload t) rs = (d, b, rs') → e ∈ leafEvents env t.first d.handed →
        ∃ l, Ok env l ∧ ∃ pos, leafEvent env pos l = e := by
      intro d b rs' hd hm
      obtain ⟨k, l, h1, h2⟩ := leafEvents_mem env _ _ _ hm
      have hi := (download_inv env t rs _ d b rs' (newDownload_inv env t) hd).1
      exact ⟨l, hi.ok l (List.mem_of_getElem? h1), _, h2.symm⟩
    unfold runSubtrees at h
    split at h
    · rename_i d _ hd; exact leaf d _ _ hd h
    · rename_i d rs' hd
      split at h
      · split at h
        · exact leaf d _ _ hd h
        · rcases List.mem_append.1 h with h | h
          · exact leaf d _ _ hd h
          · rcases List.mem_cons.1 h with h | h
            · exact absurd h (hn _)
            · exact ih _ _ e h hn
      · exact leaf d _ _ hd h

theorem runWorker_entry (env : Env) (batch now : Nat) (s : WState) (sth : Option TreeHead) (proof : Option (List Bytes))
    (rs : List Resp) (e : Ev) (h : e ∈ runWorker env batch now s sth proof rs) (hn : ∀ s, e ≠ .state s) :
    ∃ l, Ok env l ∧ ∃ pos, leafEvent env pos l = e := by
  rcases runWorker_cases env batch now s sth proof rs with h0 | ⟨h', e', hs, hr⟩ | ⟨h', r, p, ts, e', hj, hp, hts, hr⟩
  · rw [h0] at h; cases h
  · rw [hr] at h
    unfold runSleep at h
    split at h
    · split at h
      · cases h
      · simp at h; exact absurd h (hn _)
    · cases h
  · rw [hr] at h
    exact runSubtrees_entry env now _ ts s rs e h hn

/-! ### timestamps -/

/-- The recorded timestamps bracket those of the claimed entries (this part is optional: `br`), and the maximum is attained. -/
def TsOk (br : Prop) (G : Nat → Bytes → Prop) (evs : List Ev) (T : TreeHead → Prop) (s : WState) : Prop :=
  s.lastUpdate ≠ none → s.minEntry ≤ s.maxEntry ∧
    (br → ∀ i, s.minEntry ≤ i → i ≤ s.maxEntry → ∃ input ts item, Ev.entry i input ts item ∈ evs ∧ s.minTs ≤ ts ∧ ts ≤ s.maxTs) ∧
    ((∃ h, T h ∧ h.timestamp = s.maxTs ∧ h.treeSize ≤ s.maxEntry + 1) ∨
      ∃ i input item, i ≤ s.maxEntry ∧ G i input ∧ Ev.entry i input s.maxTs item ∈ evs)

theorem tsOk_append {br : Prop} {G : Nat → Bytes → Prop} {a b : List Ev} {T : TreeHead → Prop} {s : WState} (h : TsOk br G a T s) : TsOk br G (a ++ b) T s := by
  intro hl
  obtain ⟨h0, h1, h2⟩ := h hl
  refine ⟨h0, fun hbr i hi1 hi2 => ?_, ?_⟩
  · obtain ⟨x, y, z, m, r⟩ := h1 hbr i hi1 hi2
    exact ⟨x, y, z, List.mem_append_left _ m, r⟩
  · rcases h2 with h2 | ⟨i, x, y, l, g, m⟩
    · exact Or.inl h2
    · exact Or.inr ⟨i, x, y, l, g, List.mem_append_left _ m⟩

theorem updateState_cases (now : Nat) (task : Task) (s s' : WState) (r : Range) (mn mx : Nat)
    (hu : updateState now task s (some r) mn mx = some s') :
    (s' = ⟨r.1, r.2, mn, mx, some now⟩ ∧ s.lastUpdate = none ∧ task = .init) ∨
    (s' = ⟨s.minEntry, r.2, min s.minTs mn, max s.maxTs mx, some now⟩ ∧ s.maxEntry = sub64 r.1 1 ∧ (s.lastUpdate ≠ none ∨ task = .update)) ∨
    (s' = ⟨r.1, s.maxEntry, min s.minTs mn, max s.maxTs mx, some now⟩ ∧ s.minEntry = add64 r.2 1 ∧ task = .backfill) := by
  unfold updateState at hu
  split at hu
  · rename_i r' he
    cases he
    split at hu
    · rename_i hn
      cases hu; left; simp [hn]
    · rename_i hn
      split at hu
      · rename_i hm
        cases hu; right; left; exact ⟨rfl, hm, Or.inl hn⟩
      · cases hu
  · rename_i r' he
    cases he
    split at hu
    · rename_i hm
      cases hu; right; left; exact ⟨rfl, hm, Or.inr rfl⟩
    · cases hu
  · rename_i r' he
    cases he
    split at hu
    · rename_i hm
      cases hu; right; right; exact ⟨rfl, hm, rfl⟩
    · cases hu
  · rename_i he; cases he
  · cases hu

theorem runWorker_ts (br : Prop) (G : Nat → Bytes → Prop) (env : Env) (hH : ∀ x, (env.H x).length = 32) (hpos : br → ∀ x y e, env.parse x y = some e → 0 < e.timestamp)
    (T : TreeHead → Prop) (batch now : Nat) (s : WState) (sth : Option TreeHead) (proof : Option (List Bytes)) (rs : List Resp)
    (pre : List Ev) (hmax : s.maxEntry < 18446744073709551615) (hts : TsOk br G pre T s)
    (hsane : ∀ h, sth = some h → h.treeSize < 2 ^ 64 ∧ (s.lastUpdate = none → h.treeSize ≠ s.maxEntry + 1))
    (hT : ∀ h, sth = some h → T h)
    (hG : ∀ h r p, sth = some h → jobRange batch s h.treeSize (chooseTask batch now s sth) = some r → proof = some p →
      ∀ bf us, jobSubtrees bf r.1 r.2 p = some us → ∀ t ∈ us, ∀ xs, xs.Sublist (servedInputs rs) →
        xs.length = t.last + 1 - t.first → mth env.H xs = t.root → ∀ k x, xs[k]? = some x → G (t.first + k) x)
    (a b : List Ev) (s' : WState)
    (hrun : runWorker env batch now s sth proof rs = a ++ .state s' :: b) :
    s'.maxEntry < 18446744073709551615 ∧ s'.lastUpdate ≠ none ∧ TsOk br G (pre ++ a) T s' := by
  rcases runWorker_cases env batch now s sth proof rs with h0 | ⟨h, e, hs, hr⟩ | ⟨h, r, p, ts, e, hj, hp, htr, hr⟩
  · rw [h0] at hrun; simp at hrun
  · obtain ⟨hsz, hone⟩ := hsane h e
    simp only [Nat.reducePow] at hsz
    rw [hr] at hrun
    unfold runSleep at hrun
    split at hrun
    · rename_i hmx
      unfold sub64 at hmx
      have hne : s.lastUpdate ≠ none := fun e => hone e (by omega)
      simp only [updateState] at hrun
      cases a with
      | cons x xs => simp at hrun
      | nil =>
        simp at hrun
        obtain ⟨hst, _⟩ := hrun
        subst hst
        refine ⟨hmax, by simp, fun _ => ?_⟩
        obtain ⟨h0, h1, h2⟩ := hts hne
        simp only [List.append_nil]
        refine ⟨h0, fun hbr i hi1 hi2 => ?_, ?_⟩
        · obtain ⟨x, y, z, m, r1, r2⟩ := h1 hbr i hi1 hi2
          exact ⟨x, y, z, m, by omega, by omega⟩
        · rcases Nat.le_total s.maxTs h.timestamp with hle | hle
          · left; rw [Nat.max_eq_right hle]; exact ⟨h, hT h e, rfl, by omega⟩
          · rw [Nat.max_eq_left hle]; exact h2
    · simp at hrun
  · obtain ⟨hsz, _⟩ := hsane h e
    simp only [Nat.reducePow] at hsz
    subst e
    have hc := chooseTask_job batch now s h r hj
    have hlt := jobRange_lt batch s h.treeSize _ r hj (by omega) hsz
    have hb := jobSubtrees_bounds _ _ _ _ _ htr
    rw [hr] at hrun
    have key := runSubtrees_ind env hH now (chooseTask batch now s (some h))
      (fun evs s1 => s1.maxEntry < 18446744073709551615 ∧ (chooseTask batch now s (some h) = .init ∨ s1.lastUpdate ≠ none) ∧
        (evs ≠ pre → s1.lastUpdate ≠ none) ∧ TsOk br G evs T s1)
      ts pre s rs a b s' ⟨hmax, hc.2, fun h => absurd rfl h, hts⟩ (fun t ht => (hb t ht).2.1)
      (by
        intro pre' s1 t d s2 hI ht hd hsub hlen hroot hu
        have hbt := hb t ht
        have hne : d.handed ≠ [] := by
          intro h0
          rw [h0] at hlen
          simp at hlen
          omega
        have hall : br → ∀ l ∈ d.handed, 0 < leafTs env l := by
          intro hbr l hl
          obtain ⟨e, he, _⟩ := hd.ok l hl
          unfold leafTs
          rw [he]
          exact hpos hbr _ _ _ he
        have hnew : br → ∀ i, t.first ≤ i → i ≤ t.last → ∃ input ts item, Ev.entry i input ts item ∈ leafEvents env t.first d.handed ∧
            d.minTs ≤ ts ∧ ts ≤ d.maxTs := by
          intro hbr i h1 h2
          have hk : i - t.first < d.handed.length := by simp at hlen; omega
          have hget : d.handed[i - t.first]? = some (d.handed[i - t.first]) := List.getElem?_eq_getElem hk
          have := leafEvents_get env d.handed t.first (i - t.first) _ hget
          rw [show t.first + (i - t.first) = i by omega] at this
          obtain ⟨item, he⟩ := leafEvent_eq env i (d.handed[i - t.first])
          rw [he] at this
          have hm : d.handed[i - t.first] ∈ d.handed := List.getElem_mem hk
          exact ⟨_, _, _, this, hd.minLe (hall hbr) _ hm, hd.maxGe _ hm⟩
        have hatt : ∃ i input item, i ≤ t.last ∧ G i input ∧ Ev.entry i input d.maxTs item ∈ leafEvents env t.first d.handed := by
          obtain ⟨l, hl, hlt⟩ := hd.maxAtt hne
          obtain ⟨k, hk⟩ := List.getElem?_of_mem hl
          have := leafEvents_get env d.handed t.first k _ hk
          obtain ⟨item, he⟩ := leafEvent_eq env (t.first + k) l
          rw [he, hlt] at this
          have hk2 := (List.getElem?_eq_some_iff.1 hk).1
          refine ⟨_, _, _, by simp at hlen; omega, ?_, this⟩
          exact hG h r p rfl hj hp _ ts htr t ht _ hsub hlen hroot k l.input (by rw [List.getElem?_map, hk]; rfl)
        have grow : ∀ e, e ∈ leafEvents env t.first d.handed →
            e ∈ pre' ++ leafEvents env t.first d.handed ++ [.state s2] := by
          intro e he; simp [he]
        have growp : ∀ e, e ∈ pre' → e ∈ pre' ++ leafEvents env t.first d.handed ++ [.state s2] := by
          intro e he; simp [he]
        have maxAtt : ∀ m n n', n ≤ n' → t.last ≤ n' → ((∃ h, T h ∧ h.timestamp = m ∧ h.treeSize ≤ n + 1) ∨
              ∃ i input item, i ≤ n ∧ G i input ∧ Ev.entry i input m item ∈ pre') →
            ((∃ h, T h ∧ h.timestamp = max m d.maxTs ∧ h.treeSize ≤ n' + 1) ∨
              ∃ i input item, i ≤ n' ∧ G i input ∧ Ev.entry i input (max m d.maxTs) item ∈
              pre' ++ leafEvents env t.first d.handed ++ [.state s2]) := by
          intro m n n' hn1 hn2 hm
          rcases Nat.le_total m d.maxTs with hle | hle
          · rw [Nat.max_eq_right hle]
            obtain ⟨i, x, y, hl, g, h1⟩ := hatt
            exact Or.inr ⟨i, x, y, by omega, g, grow _ h1⟩
          · rw [Nat.max_eq_left hle]
            rcases hm with ⟨h, h1, h2, h3⟩ | ⟨i, x, y, hl, g, h1⟩
            · exact Or.inl ⟨h, h1, h2, by omega⟩
            · exact Or.inr ⟨i, x, y, by omega, g, growp _ h1⟩
        have hl1 : chooseTask batch now s (some h) = .init ∨ s1.lastUpdate ≠ none := hI.2.1
        rcases updateState_cases now _ s1 s2 _ _ _ hu with ⟨e2, hn, _⟩ | ⟨e2, hm, ht2⟩ | ⟨e2, hm, ht2⟩
        · subst e2
          refine ⟨by dsimp only; omega, Or.inr (by simp), fun _ => by simp, fun _ => ⟨hbt.2.1, ?_, ?_⟩⟩
          · intro hbr i h1 h2
            obtain ⟨x, y, z, m, r1, r2⟩ := hnew hbr i h1 h2
            exact ⟨x, y, z, grow _ m, r1, r2⟩
          · obtain ⟨i, x, y, hl, g, h1⟩ := hatt
            exact Or.inr ⟨i, x, y, hl, g, grow _ h1⟩
        · have hlu : s1.lastUpdate ≠ none := by
            rcases ht2 with h | h
            · exact h
            · rcases hl1 with h' | h'
              · rw [h] at h'; cases h'
              · exact h'
          obtain ⟨o0, o1, o2⟩ := hI.2.2.2 hlu
          subst e2
          unfold sub64 at hm
          have hb1 := hI.1
          have hb2 := hbt.2.1
          dsimp only at hm
          refine ⟨by dsimp only; omega, Or.inr (by simp), fun _ => by simp,
            fun _ => ⟨by dsimp only; omega, ?_, maxAtt _ _ _ (by dsimp only; omega) (by dsimp only; omega) o2⟩⟩
          intro hbr i h1 h2
          dsimp only at h1 h2 ⊢
          by_cases hi : i ≤ s1.maxEntry
          · obtain ⟨x, y, z, m, r1, r2⟩ := o1 hbr i h1 hi
            exact ⟨x, y, z, growp _ m, by omega, by omega⟩
          · obtain ⟨x, y, z, m, r1, r2⟩ := hnew hbr i (by omega) h2
            exact ⟨x, y, z, grow _ m, by omega, by omega⟩
        · have hlu : s1.lastUpdate ≠ none := by
            rcases hl1 with h' | h'
            · rw [ht2] at h'; cases h'
            · exact h'
          obtain ⟨o0, o1, o2⟩ := hI.2.2.2 hlu
          subst e2
          unfold add64 at hm
          have hb1 := hI.1
          have hb2 := hbt.2.1
          dsimp only at hm
          refine ⟨hb1, Or.inr (by simp), fun _ => by simp,
            fun _ => ⟨by dsimp only; omega, ?_, maxAtt _ _ _ (Nat.le_refl _) (by dsimp only; omega) o2⟩⟩
          intro hbr i h1 h2
          dsimp only at h1 h2 ⊢
          by_cases hi : s1.minEntry ≤ i
          · obtain ⟨x, y, z, m, r1, r2⟩ := o1 hbr i hi h2
            exact ⟨x, y, z, growp _ m, by omega, by omega⟩
          · obtain ⟨x, y, z, m, r1, r2⟩ := hnew hbr i h1 (by omega)
            exact ⟨x, y, z, grow _ m, by omega, by omega⟩)
      hrun
    obtain ⟨k1, _, k3, k4⟩ := key
    refine ⟨k1, k3 (by simp), fun hl => ?_⟩
    obtain ⟨h0, h1, h2⟩ := k4 hl
    refine ⟨h0, fun hbr i hi1 hi2 => ?_, ?_⟩
    · obtain ⟨x, y, z, m, r⟩ := h1 hbr i hi1 hi2
      exact ⟨x, y, z, by simpa using m, r⟩
    · rcases h2 with h2 | ⟨i, x, y, l, g, m⟩
      · exact Or.inl h2
      · exact Or.inr ⟨i, x, y, l, g, by simpa using m⟩

/-! ### tiled logs -/

theorem readEntries_zero (keep : Bool) (batch now : Nat) (es : List TEntry) : ∀ v : TVars,
    (∀ input ts item, Ev.entry 0 input ts item ∉ (readEntries keep batch now v es).1) ∧
    ∀ s, Ev.state s ∈ (readEntries keep batch now v es).1 → s.minEntry = 0 := by
  induction es with
  | nil => intro v; simp [readEntries]
  | cons e es ih =>
    intro v
    unfold readEntries
    split
    · simp
    · simp
    · dsimp only
      split
      · have := ih (saveTiled now ⟨v.maxEntry + 1, min v.minTs e.timestamp, max v.maxTs e.timestamp, v.state⟩)
        refine ⟨?_, ?_⟩
        · intro input ts item h
          simp only [List.mem_cons, Ev.entry.injEq, reduceCtorEq, false_or] at h
          rcases h with ⟨h, _⟩ | h
          · omega
          · exact this.1 _ _ _ h
        · intro s h
          simp only [List.mem_cons, Ev.state.injEq, reduceCtorEq, false_or] at h
          rcases h with h | h
          · rw [h]; rfl
          · exact this.2 _ h
      · have := ih ⟨v.maxEntry + 1, min v.minTs e.timestamp, max v.maxTs e.timestamp, v.state⟩
        refine ⟨?_, ?_⟩
        · intro input ts item h
          simp only [List.mem_cons, Ev.entry.injEq] at h
          rcases h with ⟨h, _⟩ | h
          · omega
          · exact this.1 _ _ _ h
        · intro s h
          simp only [List.mem_cons, reduceCtorEq, false_or] at h
          exact this.2 _ h

theorem readLogEntries_zero (keep : Bool) (batch now : Nat) (v : TVars) (es : List TEntry) (err : Bool) :
    (∀ input ts item, Ev.entry 0 input ts item ∉ (readLogEntries keep batch now v es err).1) ∧
    ∀ s, Ev.state s ∈ (readLogEntries keep batch now v es err).1 → s.minEntry = 0 := by
  have h := readEntries_zero keep batch now es v
  unfold readLogEntries
  split
  · rename_i evs v' he; rw [he] at h; exact h
  · rename_i evs v' he
    rw [he] at h
    refine ⟨?_, ?_⟩
    · intro input ts item hm
      simp at hm
      exact h.1 _ _ _ hm
    · intro s hm
      simp at hm
      rcases hm with hm | hm
      · exact h.2 _ hm
      · rw [hm]; rfl

theorem runTiled_zero (keep : Bool) (batch now : Nat) (s : WState) (sth : Option TreeHead) (es1 es2 : List TEntry) (e1 e2 : Bool) :
    (∀ input ts item, Ev.entry 0 input ts item ∉ runTiled keep batch now s sth es1 es2 e1 e2) ∧
    ∀ s', Ev.state s' ∈ runTiled keep batch now s sth es1 es2 e1 e2 → s'.minEntry = 0 := by
  unfold runTiled
  split
  · simp
  · dsimp only
    split
    · split
      · simp [updateTiled]
      · simp
    · exact readLogEntries_zero keep batch now _ es1 e1
    · have h1 := readLogEntries_zero keep batch now ⟨s.maxEntry, s.minTs, s.maxTs, s⟩ es1 e1
      split
      · rename_i evs _ he; rw [he] at h1; exact h1
      · rename_i evs v' he
        rw [he] at h1
        have h2 := readLogEntries_zero keep batch now v' es2 e2
        refine ⟨?_, ?_⟩
        · intro input ts item hm
          rcases List.mem_append.1 hm with hm | hm
          · exact h1.1 _ _ _ hm
          · exact h2.1 _ _ _ hm
        · intro s' hm
          rcases List.mem_append.1 hm with hm | hm
          · exact h1.2 _ hm
          · exact h2.2 _ hm
    · simp

/-- What holds of the variables of a tiled job after the events `evs`: everything up to `maxEntry` except entry 0 was known (`E`) or processed,
and the maximum timestamp is attained. -/
structure TInv (G : Nat → Bytes → Prop) (E : Nat → Prop) (T : Nat → Nat → Prop) (evs : List Ev) (v : TVars) : Prop where
  le : v.state.maxEntry ≤ v.maxEntry
  all : ∀ i, 1 ≤ i → i ≤ v.maxEntry → E i ∨ Processed G evs i
  tsle : v.state.maxTs ≤ v.maxTs
  att : T v.maxEntry v.maxTs ∨ ∃ i input item, i ≤ v.maxEntry ∧ G i input ∧ Ev.entry i input v.maxTs item ∈ evs

theorem TInv.mono {G : Nat → Bytes → Prop} {E : Nat → Prop} {T : Nat → Nat → Prop} {evs : List Ev} {v : TVars} (h : TInv G E T evs v)
    (more : List Ev) : TInv G E T (evs ++ more) v := by
  refine ⟨h.le, fun i h1 h2 => ?_, h.tsle, ?_⟩
  · rcases h.all i h1 h2 with h | h
    · exact Or.inl h
    · exact Or.inr (processed_append_left h)
  · rcases h.att with h | ⟨i, x, y, l, g, m⟩
    · exact Or.inl h
    · exact Or.inr ⟨i, x, y, l, g, List.mem_append_left _ m⟩

/-- The state message of the variables leaves them equal to the state. -/
theorem TInv.save {G : Nat → Bytes → Prop} {E : Nat → Prop} {T : Nat → Nat → Prop} {evs : List Ev} {v : TVars} (h : TInv G E T evs v)
    (now : Nat) : TInv G E T evs (saveTiled now v) := by
  refine ⟨?_, h.all, ?_, h.att⟩
  · have := h.le
    simp only [saveTiled, updateTiled]; omega
  · have := h.tsle
    simp only [saveTiled, updateTiled]; omega

/-- What a sent state says. -/
def TSent (G : Nat → Bytes → Prop) (E : Nat → Prop) (T : Nat → Nat → Prop) (evs : List Ev) (s : WState) : Prop :=
  (∀ i, 1 ≤ i → i ≤ s.maxEntry → E i ∨ Processed G evs i) ∧
  (T s.maxEntry s.maxTs ∨ ∃ i input item, i ≤ s.maxEntry ∧ G i input ∧ Ev.entry i input s.maxTs item ∈ evs)

theorem TInv.sent {G : Nat → Bytes → Prop} {E : Nat → Prop} {T : Nat → Nat → Prop} {evs : List Ev} {v : TVars} (h : TInv G E T evs v)
    (now : Nat) : TSent G E T evs (saveTiled now v).state := by
  have e1 : (saveTiled now v).state.maxEntry = v.maxEntry := by
    have := h.le
    simp only [saveTiled, updateTiled]; omega
  have e2 : (saveTiled now v).state.maxTs = v.maxTs := by
    have := h.tsle
    simp only [saveTiled, updateTiled]; omega
  unfold TSent
  rw [e1, e2]
  exact ⟨h.all, h.att⟩

/-- Variables after one more entry. -/
def tNext (v : TVars) (e : TEntry) : TVars :=
  { v with maxEntry := v.maxEntry + 1, minTs := min v.minTs e.timestamp, maxTs := max v.maxTs e.timestamp }

theorem TInv.next {G : Nat → Bytes → Prop} {E : Nat → Prop} {T : Nat → Nat → Prop} (hT : ∀ n n' t, n ≤ n' → T n t → T n' t)
    {evs : List Ev} {v : TVars} (h : TInv G E T evs v) (e : TEntry) (item : Option Item) (hG : G (v.maxEntry + 1) e.input) :
    TInv G E T (evs ++ [.entry (v.maxEntry + 1) e.input e.timestamp item]) (tNext v e) := by
  refine ⟨?_, ?_, ?_, ?_⟩
  · have := h.le
    simp only [tNext]; omega
  · intro i h1 h2
    simp only [tNext] at h2
    by_cases hi : i ≤ v.maxEntry
    · rcases h.all i h1 hi with h | h
      · exact Or.inl h
      · exact Or.inr (processed_append_left h)
    · right
      have : i = v.maxEntry + 1 := by omega
      subst this
      exact ⟨_, _, _, List.mem_append_right _ (List.mem_singleton.2 rfl), hG⟩
  · have := h.tsle
    simp only [tNext]; omega
  · simp only [tNext]
    rcases Nat.le_total v.maxTs e.timestamp with hle | hle
    · rw [Nat.max_eq_right hle]
      exact Or.inr ⟨_, _, _, Nat.le_refl _, hG, List.mem_append_right _ (List.mem_singleton.2 rfl)⟩
    · rw [Nat.max_eq_left hle]
      rcases h.att with h | ⟨i, x, y, l, g, m⟩
      · exact Or.inl (hT _ _ _ (by omega) h)
      · exact Or.inr ⟨i, x, y, by omega, g, List.mem_append_left _ m⟩

theorem readEntries_claims (keep : Bool) (batch now : Nat) (G : Nat → Bytes → Prop) (E : Nat → Prop) (T : Nat → Nat → Prop)
    (hT : ∀ n n' t, n ≤ n' → T n t → T n' t) (es : List TEntry) : ∀ (pre : List Ev) (v : TVars),
    TInv G E T pre v → (∀ k e, es[k]? = some e → G (v.maxEntry + 1 + k) e.input) →
    ((readEntries keep batch now v es).2.2 = true → (readEntries keep batch now v es).2.1.maxEntry = v.maxEntry + es.length) ∧
    TInv G E T (pre ++ (readEntries keep batch now v es).1) (readEntries keep batch now v es).2.1 ∧
    ∀ a b s', (readEntries keep batch now v es).1 = a ++ .state s' :: b → TSent G E T (pre ++ a) s' := by
  induction es with
  | nil => intro pre v hI _; simp [readEntries, hI]
  | cons e es ih =>
    intro pre v hI hG
    have hnext := fun item => hI.next hT e item (by simpa using hG 0 e rfl)
    have hG' : ∀ k x, es[k]? = some x → G ((tNext v e).maxEntry + 1 + k) x.input := by
      intro k x hx
      have := hG (k + 1) x (by simpa using hx)
      simp only [tNext]
      rwa [show v.maxEntry + 1 + 1 + k = v.maxEntry + 1 + (k + 1) by omega]
    unfold readEntries
    split
    · simp [hI]
    · simp [hI]
    · dsimp only
      rw [show (⟨v.maxEntry + 1, min v.minTs e.timestamp, max v.maxTs e.timestamp, v.state⟩ : TVars) = tNext v e from rfl]
      split
      · have hI2 := ((hnext (outItem (storeTiledEntry keep e))).save now).mono [.state (saveTiled now (tNext v e)).state]
        obtain ⟨r0, r1, r2⟩ := ih _ _ hI2 hG'
        refine ⟨fun h => ?_, by simpa using r1, ?_⟩
        · rw [r0 h]; simp only [saveTiled, tNext, List.length_cons]; omega
        · intro a b s' h
          rcases a with _ | ⟨x, _ | ⟨y, a⟩⟩
          · simp at h
          · simp at h
            obtain ⟨hx, hs, _⟩ := h
            rw [← hx, ← hs]
            exact (hnext _).sent now
          · simp at h
            obtain ⟨hx, hy, hr⟩ := h
            rw [← hx, ← hy]
            simpa using r2 a b s' hr
      · obtain ⟨r0, r1, r2⟩ := ih _ _ (hnext (outItem (storeTiledEntry keep e))) hG'
        refine ⟨fun h => ?_, by simpa using r1, ?_⟩
        · rw [r0 h]; simp only [tNext, List.length_cons]; omega
        · intro a b s' h
          rcases a with _ | ⟨x, a⟩
          · simp at h
          · simp at h
            obtain ⟨hx, hr⟩ := h
            rw [← hx]
            simpa using r2 a b s' hr

theorem readLogEntries_claims (keep : Bool) (batch now : Nat) (G : Nat → Bytes → Prop) (E : Nat → Prop) (T : Nat → Nat → Prop)
    (hT : ∀ n n' t, n ≤ n' → T n t → T n' t) (es : List TEntry) (err : Bool) (pre : List Ev)
    (v : TVars) (hI : TInv G E T pre v) (hG : ∀ k e, es[k]? = some e → G (v.maxEntry + 1 + k) e.input) :
    ((readLogEntries keep batch now v es err).2.2 = true →
      (readLogEntries keep batch now v es err).2.1.maxEntry = v.maxEntry + es.length) ∧
    TInv G E T (pre ++ (readLogEntries keep batch now v es err).1) (readLogEntries keep batch now v es err).2.1 ∧
    ∀ a b s', (readLogEntries keep batch now v es err).1 = a ++ .state s' :: b → TSent G E T (pre ++ a) s' := by
  have h := readEntries_claims keep batch now G E T hT es pre v hI hG
  unfold readLogEntries
  split
  · rename_i evs v' he; rw [he] at h; exact ⟨by simp, h.2⟩
  · rename_i evs v' he
    rw [he] at h
    obtain ⟨h0, h1, h2⟩ := h
    dsimp only at h0 h1 h2 ⊢
    refine ⟨fun _ => h0 rfl, ?_, ?_⟩
    · rw [← List.append_assoc]; exact (h1.save now).mono _
    · intro a b s' he
      rcases split_append he with ⟨c, hc⟩ | ⟨a', ha, hp⟩
      · exact h2 a c s' hc
      · cases a' with
        | nil =>
          simp at hp ha
          obtain ⟨hs, _⟩ := hp
          subst ha
          rw [← hs]
          exact h1.sent now
        | cons x xs => simp at hp

/-- The entries yielded for a tiled log are as `G` says. -/
def TiledGood (G : Nat → Bytes → Prop) (s : WState) (es1 es2 : List TEntry) : Prop :=
  (∀ k e, es1[k]? = some e → G (s.maxEntry + 1 + k) e.input) ∧
  (∀ k e, es2[k]? = some e → G (s.maxEntry + es1.length + 1 + k) e.input)

theorem runTiled_claims (keep : Bool) (batch now : Nat) (s : WState) (sth : Option TreeHead) (es1 es2 : List TEntry) (e1 e2 : Bool)
    (G : Nat → Bytes → Prop) (E : Nat → Prop) (T : Nat → Nat → Prop) (hT : ∀ n n' t, n ≤ n' → T n t → T n' t) (pre : List Ev)
    (hE : ∀ i, 1 ≤ i → i ≤ s.maxEntry → E i)
    (hs : T s.maxEntry s.maxTs ∨ ∃ i input item, i ≤ s.maxEntry ∧ G i input ∧ Ev.entry i input s.maxTs item ∈ pre)
    (hsth : ∀ h, sth = some h → ∀ n, add64 n 1 = h.treeSize → T n h.timestamp)
    (hG : TiledGood G s es1 es2) (a b : List Ev) (s' : WState)
    (h : runTiled keep batch now s sth es1 es2 e1 e2 = a ++ .state s' :: b) : TSent G E T (pre ++ a) s' := by
  unfold runTiled at h
  have hI : TInv G E T pre ⟨s.maxEntry, s.minTs, s.maxTs, s⟩ :=
    ⟨Nat.le_refl _, fun i h1 h2 => Or.inl (hE i h1 h2), Nat.le_refl _, hs⟩
  split at h
  · simp at h
  · rename_i th
    dsimp only at h
    split at h
    · split at h
      · rename_i hsz
        cases a with
        | nil =>
          simp at h
          rw [← h.1]
          simp only [updateTiled]
          refine ⟨fun i h1 h2 => Or.inl (hE i h1 (by simpa using h2)), ?_⟩
          simp only [Nat.max_self, List.append_nil]
          rcases Nat.le_total s.maxTs th.timestamp with hle | hle
          · rw [Nat.max_eq_right hle]
            left
            exact hsth th rfl _ hsz
          · rw [Nat.max_eq_left hle]; exact hs
        | cons x xs => simp at h
      · simp at h
    · exact (readLogEntries_claims keep batch now G E T hT es1 e1 pre _ hI hG.1).2.2 a b s' h
    · have h1 := readLogEntries_claims keep batch now G E T hT es1 e1 pre _ hI hG.1
      split at h
      · rename_i evs _ he
        rw [he] at h1
        exact h1.2.2 a b s' h
      · rename_i evs v' he
        rw [he] at h1
        have h2 := readLogEntries_claims keep batch now G E T hT es2 e2 (pre ++ evs) v' h1.2.1
          (by rw [h1.1 rfl]; exact hG.2)
        rcases split_append h with ⟨c, hc⟩ | ⟨a', ha, hp⟩
        · exact h1.2.2 a c s' hc
        · have := h2.2.2 a' b s' hp
          rw [ha]
          simpa using this
    · simp at h

end Verif
