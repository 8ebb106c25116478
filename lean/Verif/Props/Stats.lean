import Verif.Model.Stats
import Verif.Props.Issuers
import Verif.Props.Publisher
/-!
C123: what the statistics that are printed say.
-/
namespace Verif.Spec

/-- The events in the order of their times. -/
def InOrder (h : List StatsEvent) : Prop := h.Pairwise (fun a b => a.time ≤ b.time)

/-- The values to which this gauge was set in the period, in order. -/
def setIn (p k : Nat) (name : Text) : StatsEvent → Option Nat
  | .measure t m => if t / p = k ∧ m.gauge = true ∧ m.name = name then some m.value else none
  | .tick _ => none

/-- By how much this counter was increased in the period, in order. -/
def countedIn (p k : Nat) (name : Text) : StatsEvent → Option Nat
  | .measure t m => if t / p = k ∧ m.gauge = false ∧ m.name = name then some m.value else none
  | .tick _ => none

/-- What is printed says of each gauge the value to which it was last set in the period, and of each counter how often and by how much it was increased in the period. -/
def Says (p : Nat) (h : List StatsEvent) (i : Period) : Prop :=
  (∀ name, assocGet i.gauges name = (h.filterMap (setIn p i.start name)).getLast?) ∧
  ∀ name, assocGet i.counters name = if h.filterMap (countedIn p i.start name) = [] then none else some ((h.filterMap (countedIn p i.start name)).length, (h.filterMap (countedIn p i.start name)).sum)

/-- Something was measured or printed in the period. -/
def Active (p : Nat) (h : List StatsEvent) (k : Nat) : Prop := ∃ e ∈ h, e.time / p = k

end Verif.Spec

namespace Verif.Props
open Verif.Spec

/-! ### lists -/

theorem lastOf_concat {α : Type} (n : Nat) (a : List α) (b : α) : lastOf (n + 1) (a ++ [b]) = lastOf n a ++ [b] := by
  unfold lastOf
  have e : (a ++ [b]).length - (n + 1) = a.length - n := by simp
  rw [e, List.drop_append_of_le_length (by omega)]

theorem lastOf_lastOf {α : Type} {m n : Nat} (h : m ≤ n) (a : List α) : lastOf m (lastOf n a) = lastOf m a := by
  unfold lastOf
  rw [List.drop_drop, List.length_drop]
  congr 1
  omega

theorem lastOf_again {α : Type} (n : Nat) (a : List α) (b : α) : lastOf n (lastOf n a ++ [b]) = lastOf n (a ++ [b]) := by
  cases n with
  | zero => simp [lastOf]
  | succ n => rw [lastOf_concat, lastOf_concat, lastOf_lastOf (Nat.le_succ n)]

theorem lastOf_mem {α : Type} {n : Nat} {a : List α} {x : α} (h : x ∈ lastOf n a) : x ∈ a := List.mem_of_mem_drop h

theorem length_le_of_nodup {α : Type} [DecidableEq α] {l l' : List α} (hn : l.Nodup) (hs : ∀ x ∈ l, x ∈ l') : l.length ≤ l'.length := by
  rcases Nat.lt_or_ge l'.length l.length with h | h
  · exact Nat.le_of_eq (perm_of_nodup_subset_length l l' hn hs (Nat.le_of_lt h)).length_eq
  · exact h

/-- In an increasing list: the members of the last four are those with fewer than four greater ones. -/
theorem mem_last_four (l : List Nat) (hl : l.Pairwise (· < ·)) (k : Nat) : k ∈ lastOf 4 l ↔ k ∈ l ∧ ¬ ∃ a b c d, k < a ∧ a < b ∧ b < c ∧ c < d ∧ a ∈ l ∧ b ∈ l ∧ c ∈ l ∧ d ∈ l := by
  induction l with
  | nil => simp [lastOf]
  | cons x rest ih =>
    obtain ⟨hx, hr⟩ := List.pairwise_cons.1 hl
    have ih := ih hr
    by_cases h4 : rest.length ≤ 3
    · have e : lastOf 4 (x :: rest) = x :: rest := by
        unfold lastOf
        have : (x :: rest).length - 4 = 0 := by rw [List.length_cons]; omega
        rw [this, List.drop_zero]
      rw [e]
      refine ⟨fun h => ⟨h, ?_⟩, fun h => h.1⟩
      rintro ⟨a, b, c, d, h1, h2, h3, h5, m1, m2, m3, m4⟩
      have : [k, a, b, c, d].length ≤ (x :: rest).length := length_le_of_nodup (by simp; omega) (by
        intro y hy
        simp only [List.mem_cons, List.not_mem_nil, or_false] at hy
        rcases hy with rfl | rfl | rfl | rfl | rfl <;> assumption)
      simp at this
      omega
    · have e : lastOf 4 (x :: rest) = lastOf 4 rest := by
        unfold lastOf
        have : (x :: rest).length - 4 = (rest.length - 4) + 1 := by rw [List.length_cons]; omega
        rw [this, List.drop_succ_cons]
      rw [e, ih]
      constructor
      · rintro ⟨h1, h2⟩
        refine ⟨List.mem_cons_of_mem _ h1, ?_⟩
        rintro ⟨a, b, c, d, q1, q2, q3, q4, m1, m2, m3, m4⟩
        have hk := hx k h1
        apply h2
        refine ⟨a, b, c, d, q1, q2, q3, q4, ?_, ?_, ?_, ?_⟩
        · rcases List.mem_cons.1 m1 with e | e
          · omega
          · exact e
        · rcases List.mem_cons.1 m2 with e | e
          · omega
          · exact e
        · rcases List.mem_cons.1 m3 with e | e
          · omega
          · exact e
        · rcases List.mem_cons.1 m4 with e | e
          · omega
          · exact e
      · rintro ⟨h1, h2⟩
        rcases List.mem_cons.1 h1 with rfl | h1
        · exfalso
          apply h2
          match rest, h4, hx, hr with
          | a :: b :: c :: d :: tl, _, hx, hr =>
            obtain ⟨r1, hr⟩ := List.pairwise_cons.1 hr
            obtain ⟨r2, hr⟩ := List.pairwise_cons.1 hr
            obtain ⟨r3, hr⟩ := List.pairwise_cons.1 hr
            exact ⟨a, b, c, d, hx a (by simp), r1 b (by simp), r2 c (by simp), r3 d (by simp), by simp, by simp, by simp, by simp⟩
          | [], h, _, _ => simp at h
          | [_], h, _, _ => simp at h
          | [_, _], h, _, _ => simp at h
          | [_, _, _], h, _, _ => simp at h
        · refine ⟨h1, ?_⟩
          rintro ⟨a, b, c, d, q1, q2, q3, q4, m1, m2, m3, m4⟩
          exact h2 ⟨a, b, c, d, q1, q2, q3, q4, by simp [m1], by simp [m2], by simp [m3], by simp [m4]⟩

/-! ### what a period says -/

theorem filterMap_concat_none {α β : Type} {f : α → Option β} {l : List α} {e : α} (h : f e = none) : (l ++ [e]).filterMap f = l.filterMap f := by
  rw [List.filterMap_append, List.filterMap_cons_none h, List.filterMap_nil, List.append_nil]

theorem filterMap_concat_some {α β : Type} {f : α → Option β} {l : List α} {e : α} {b : β} (h : f e = some b) : (l ++ [e]).filterMap f = l.filterMap f ++ [b] := by
  rw [List.filterMap_append, List.filterMap_cons_some h, List.filterMap_nil]

theorem setIn_other {p k : Nat} {name : Text} {e : StatsEvent} (h : e.time / p ≠ k) : setIn p k name e = none := by
  cases e with
  | tick t => rfl
  | measure t m => exact if_neg (fun hc => h hc.1)

theorem countedIn_other {p k : Nat} {name : Text} {e : StatsEvent} (h : e.time / p ≠ k) : countedIn p k name e = none := by
  cases e with
  | tick t => rfl
  | measure t m => exact if_neg (fun hc => h hc.1)

theorem setIn_yes {p k t : Nat} {m : Measure} (ht : t / p = k) (hg : m.gauge = true) : setIn p k m.name (.measure t m) = some m.value := if_pos ⟨ht, hg, rfl⟩

theorem setIn_name {p k t : Nat} {m : Measure} {name : Text} (hn : m.name ≠ name) : setIn p k name (.measure t m) = none := if_neg (fun hc => hn hc.2.2)

theorem setIn_counter {p k t : Nat} {m : Measure} {name : Text} (hg : m.gauge = false) : setIn p k name (.measure t m) = none := if_neg (fun hc => by rw [hg] at hc; exact Bool.noConfusion hc.2.1)

theorem countedIn_yes {p k t : Nat} {m : Measure} (ht : t / p = k) (hg : m.gauge = false) : countedIn p k m.name (.measure t m) = some m.value := if_pos ⟨ht, hg, rfl⟩

theorem countedIn_name {p k t : Nat} {m : Measure} {name : Text} (hn : m.name ≠ name) : countedIn p k name (.measure t m) = none := if_neg (fun hc => hn hc.2.2)

theorem countedIn_gauge {p k t : Nat} {m : Measure} {name : Text} (hg : m.gauge = true) : countedIn p k name (.measure t m) = none := if_neg (fun hc => by rw [hg] at hc; exact Bool.noConfusion hc.2.1)

theorem says_other {p : Nat} {h : List StatsEvent} {i : Period} {e : StatsEvent} (he : e.time / p ≠ i.start) (hs : Says p h i) : Says p (h ++ [e]) i := by
  unfold Says at *
  simp only [filterMap_concat_none (setIn_other he), filterMap_concat_none (countedIn_other he)]
  exact hs

theorem says_tick {p t : Nat} {h : List StatsEvent} {i : Period} (hs : Says p h i) : Says p (h ++ [.tick t]) i := by
  unfold Says at *
  have e1 : ∀ name, (h ++ [StatsEvent.tick t]).filterMap (setIn p i.start name) = h.filterMap (setIn p i.start name) := fun name => filterMap_concat_none rfl
  have e2 : ∀ name, (h ++ [StatsEvent.tick t]).filterMap (countedIn p i.start name) = h.filterMap (countedIn p i.start name) := fun name => filterMap_concat_none rfl
  simp only [e1, e2]
  exact hs

theorem says_add {p t : Nat} {m : Measure} {h : List StatsEvent} {i : Period} (ht : t / p = i.start) (hs : Says p h i) : Says p (h ++ [.measure t m]) (i.add m) := by
  obtain ⟨h1, h2⟩ := hs
  have hstart : (i.add m).start = i.start := by unfold Period.add; split <;> rfl
  unfold Says
  rw [hstart]
  cases hg : m.gauge with
  | true =>
    have ea : i.add m = { i with gauges := assocPut i.gauges m.name m.value } := by unfold Period.add; rw [if_pos hg]
    rw [ea]
    dsimp only
    refine ⟨fun name => ?_, fun name => ?_⟩
    · by_cases hn : m.name = name
      · subst hn
        rw [assocGet_put_self, filterMap_concat_some (setIn_yes ht hg), List.getLast?_concat]
      · rw [assocGet_put_ne _ _ _ _ (Ne.symm hn), filterMap_concat_none (setIn_name hn)]
        exact h1 name
    · rw [filterMap_concat_none (countedIn_gauge hg)]
      exact h2 name
  | false =>
    have ea : i.add m = { i with counters := assocPut i.counters m.name (ingest (assocGet i.counters m.name) m.value) } := by unfold Period.add; rw [hg]; rfl
    rw [ea]
    dsimp only
    refine ⟨fun name => ?_, fun name => ?_⟩
    · rw [filterMap_concat_none (setIn_counter hg)]
      exact h1 name
    · by_cases hn : m.name = name
      · subst hn
        rw [assocGet_put_self, filterMap_concat_some (countedIn_yes ht hg), if_neg (by simp), h2 m.name]
        by_cases hnil : h.filterMap (countedIn p i.start m.name) = []
        · rw [if_pos hnil, hnil]
          simp [ingest]
        · rw [if_neg hnil]
          simp [ingest]
      · rw [assocGet_put_ne _ _ _ _ (Ne.symm hn), filterMap_concat_none (countedIn_name hn)]
        exact h2 name

theorem says_new {p k : Nat} {h : List StatsEvent} (hk : ∀ e ∈ h, e.time / p ≠ k) : Says p h ⟨k, [], []⟩ := by
  have e1 : ∀ name, h.filterMap (setIn p k name) = [] := fun name => List.filterMap_eq_nil_iff.2 (fun e he => setIn_other (hk e he))
  have e2 : ∀ name, h.filterMap (countedIn p k name) = [] := fun name => List.filterMap_eq_nil_iff.2 (fun e he => countedIn_other (hk e he))
  unfold Says
  simp only [e1, e2]
  exact ⟨fun _ => rfl, fun _ => rfl⟩

/-! ### the sink -/

/-- The sink holds the last five of all periods so far. -/
structure StatsHolds (p : Nat) (h : List StatsEvent) (a : List Period) (b : Period) : Prop where
  inc : ((a ++ [b]).map Period.start).Pairwise (· < ·)
  active : ∀ k, k ∈ (a ++ [b]).map Period.start ↔ Active p h k
  last : ∀ e ∈ h, e.time / p ≤ b.start
  says : ∀ i ∈ a ++ [b], Says p h i

theorem active_concat {p : Nat} {h : List StatsEvent} {e : StatsEvent} {k : Nat} : Active p (h ++ [e]) k ↔ Active p h k ∨ k = e.time / p := by
  unfold Active
  simp only [List.mem_append, List.mem_singleton]
  constructor
  · rintro ⟨x, hx | rfl, rfl⟩
    · exact Or.inl ⟨x, hx, rfl⟩
    · exact Or.inr rfl
  · rintro (⟨x, hx, rfl⟩ | rfl)
    · exact ⟨x, Or.inl hx, rfl⟩
    · exact ⟨e, Or.inr rfl, rfl⟩

/-- After the interval of the event has been got, its contents not being entered yet. -/
theorem holds_at {p : Nat} {h : List StatsEvent} {l : List Period} {e : StatsEvent} (ho : InOrder (h ++ [e])) (hl : (h = [] ∧ l = []) ∨ ∃ a b, l = lastOf 4 a ++ [b] ∧ StatsHolds p h a b) :
    ∃ a b, atPeriod (e.time / p) l = lastOf 4 a ++ [b] ∧ b.start = e.time / p ∧ ((a ++ [b]).map Period.start).Pairwise (· < ·) ∧ (∀ k, k ∈ (a ++ [b]).map Period.start ↔ Active p (h ++ [e]) k) ∧ ∀ i ∈ a ++ [b], Says p h i := by
  rcases hl with ⟨rfl, rfl⟩ | ⟨a, b, rfl, hh⟩
  · refine ⟨[], ⟨e.time / p, [], []⟩, rfl, rfl, by simp, fun k => ?_, fun i hi => ?_⟩
    · rw [active_concat]
      simp [Active]
    · rw [List.mem_singleton.1 hi]
      exact says_new (fun _ h => by cases h)
  · unfold atPeriod
    rw [List.getLast?_concat, Option.map_some]
    have hle : b.start ≤ e.time / p := by
      obtain ⟨x, hx, hxe⟩ := (hh.active b.start).1 (by simp)
      rw [← hxe]
      exact Nat.div_le_div_right ((List.pairwise_append.1 ho).2.2 x hx e (List.mem_singleton.2 rfl))
    by_cases hb : b.start = e.time / p
    · rw [if_pos (by rw [hb])]
      refine ⟨a, b, rfl, hb, hh.inc, fun k => ?_, hh.says⟩
      rw [active_concat, hh.active k]
      refine ⟨Or.inl, ?_⟩
      rintro (h1 | rfl)
      · exact h1
      · exact (hh.active _).1 (by simp [hb])
    · rw [if_neg (fun hc => hb (Option.some.inj hc))]
      refine ⟨a ++ [b], ⟨e.time / p, [], []⟩, ?_, rfl, ?_, fun k => ?_, fun i hi => ?_⟩
      · show lastOf (4 + 1) _ = _
        rw [lastOf_concat, lastOf_again]
      · rw [List.map_append]
        refine List.pairwise_append.2 ⟨hh.inc, by simp, ?_⟩
        intro x hx y hy
        have hy : y = e.time / p := List.mem_singleton.1 hy
        obtain ⟨z, hz, rfl⟩ := (hh.active x).1 hx
        have := hh.last z hz
        omega
      · rw [active_concat, List.map_append, List.mem_append, hh.active k]
        simp
      · rcases List.mem_append.1 hi with hi | hi
        · exact hh.says i hi
        · rw [List.mem_singleton.1 hi]
          refine says_new (fun x hx hc => ?_)
          have := hh.last x hx
          omega

/-- After any history. -/
theorem run_holds (p : Nat) (h : List StatsEvent) (ho : InOrder h) : (h = [] ∧ (Stats.run p h).periods = []) ∨ ∃ a b, (Stats.run p h).periods = lastOf 4 a ++ [b] ∧ StatsHolds p h a b := by
  induction hn : h.length generalizing h with
  | zero =>
    rw [List.length_eq_zero_iff] at hn
    subst hn
    exact Or.inl ⟨rfl, rfl⟩
  | succ n ih =>
    obtain ⟨h', e, rfl⟩ : ∃ h' e, h = h' ++ [e] := ⟨h.dropLast, h.getLast (by intro hc; rw [hc] at hn; cases hn), (List.dropLast_concat_getLast _).symm⟩
    have ho' : InOrder h' := (List.pairwise_append.1 ho).1
    have hlen : h'.length = n := by simpa using hn
    obtain ⟨a, b, h1, h2, h3, h4, h5⟩ := holds_at ho (ih h' ho' hlen)
    have hrun : Stats.run p (h' ++ [e]) = (Stats.run p h').step p e := by unfold Stats.run; rw [List.foldl_append]; rfl
    right
    rw [hrun]
    have hlast : ∀ x ∈ h' ++ [e], x.time / p ≤ b.start := by
      intro x hx
      rw [h2]
      rcases List.mem_append.1 hx with hx | hx
      · exact Nat.div_le_div_right ((List.pairwise_append.1 ho).2.2 x hx e (List.mem_singleton.2 rfl))
      · rw [List.mem_singleton.1 hx]
        exact Nat.le_refl _
    cases e with
    | tick t => exact ⟨a, b, h1, h3, h4, hlast, fun i hi => says_tick (h5 i hi)⟩
    | measure t m =>
      have hstart : (b.add m).start = b.start := by unfold Period.add; split <;> rfl
      have hmap : (a ++ [b.add m]).map Period.start = (a ++ [b]).map Period.start := by simp [hstart]
      refine ⟨a, b.add m, ?_, ?_, ?_, ?_, ?_⟩
      · show addLast m (atPeriod (t / p) _) = _
        have h1 : atPeriod (t / p) (Stats.run p h').periods = lastOf 4 a ++ [b] := h1
        rw [h1]
        unfold addLast
        rw [List.getLast?_concat, List.dropLast_concat]
      · rw [hmap]; exact h3
      · rw [hmap]; exact h4
      · rw [hstart]; exact hlast
      · intro i hi
        rcases List.mem_append.1 hi with hi | hi
        · refine says_other ?_ (h5 i (by simp [hi]))
          rw [List.map_append] at h3
          have := (List.pairwise_append.1 h3).2.2 i.start (List.mem_map_of_mem hi) b.start (by simp)
          rw [← h2]
          omega
        · rw [List.mem_singleton.1 hi]
          exact says_add h2.symm (h5 b (by simp))

theorem says_later {p : Nat} {h : List StatsEvent} {i : Period} (post : List StatsEvent) (hp : ∀ e ∈ post, i.start < e.time / p) (hs : Says p h i) : Says p (h ++ post) i := by
  induction post generalizing h with
  | nil => rw [List.append_nil]; exact hs
  | cons e rest ih =>
    have e1 : h ++ e :: rest = (h ++ [e]) ++ rest := by simp
    rw [e1]
    exact ih (fun x hx => hp x (by simp [hx])) (says_other (Nat.ne_of_gt (hp e (by simp))) hs)

/-- What one call of `dumpStats` prints. -/
def dumped (p : Nat) (pre : List StatsEvent) (t : Nat) : List Period := (atPeriod (t / p) (Stats.run p pre).periods).dropLast

theorem dumped_final (p : Nat) (pre post : List StatsEvent) (t : Nat) (ho : InOrder (pre ++ .tick t :: post)) :
    (∀ i ∈ dumped p pre t, Says p (pre ++ .tick t :: post) i ∧ i.start < t / p) ∧ ((dumped p pre t).map Period.start).Pairwise (· < ·) := by
  have e1 : pre ++ StatsEvent.tick t :: post = (pre ++ [.tick t]) ++ post := by simp
  rw [e1] at ho
  have ho1 := (List.pairwise_append.1 ho).1
  obtain ⟨a, b, h1, h2, h3, h4, h5⟩ := holds_at (p := p) ho1 (run_holds p pre (List.pairwise_append.1 ho1).1)
  have h1 : atPeriod (t / p) (Stats.run p pre).periods = lastOf 4 a ++ [b] := h1
  have h2 : b.start = t / p := h2
  have hd : dumped p pre t = lastOf 4 a := by unfold dumped; rw [h1, List.dropLast_concat]
  rw [hd]
  rw [List.map_append] at h3
  obtain ⟨h6, _, h7⟩ := List.pairwise_append.1 h3
  refine ⟨fun i hi => ?_, ?_⟩
  · have hi := lastOf_mem hi
    have hlt := h7 i.start (List.mem_map_of_mem hi) b.start (by simp)
    rw [h2] at hlt
    refine ⟨?_, hlt⟩
    rw [e1]
    refine says_later post (fun e he => ?_) (says_tick (h5 i (by simp [hi])))
    exact Nat.lt_of_lt_of_le hlt (Nat.div_le_div_right ((List.pairwise_append.1 ho).2.2 (.tick t) (by simp) e he))
  · have hsub : ((lastOf 4 a).map Period.start).Sublist (a.map Period.start) := (List.drop_sublist _ _).map _
    exact List.Pairwise.sublist hsub h6

theorem dumped_which (p : Nat) (pre : List StatsEvent) (t : Nat) (ho : InOrder (pre ++ [.tick t])) (k : Nat) :
    (∃ i ∈ dumped p pre t, i.start = k) ↔ Active p pre k ∧ k < t / p ∧ ¬ ∃ a b c d, k < a ∧ a < b ∧ b < c ∧ c < d ∧ d < t / p ∧ Active p pre a ∧ Active p pre b ∧ Active p pre c ∧ Active p pre d := by
  obtain ⟨a, b, h1, h2, h3, h4, h5⟩ := holds_at (p := p) ho (run_holds p pre (List.pairwise_append.1 ho).1)
  have h1 : atPeriod (t / p) (Stats.run p pre).periods = lastOf 4 a ++ [b] := h1
  have h2 : b.start = t / p := h2
  have hd : dumped p pre t = lastOf 4 a := by unfold dumped; rw [h1, List.dropLast_concat]
  have hm : (lastOf 4 a).map Period.start = lastOf 4 (a.map Period.start) := by unfold lastOf; rw [List.map_drop, List.length_map]
  rw [List.map_append] at h3
  obtain ⟨h6, _, h7⟩ := List.pairwise_append.1 h3
  have key : ∀ j, j ∈ a.map Period.start ↔ Active p pre j ∧ j < t / p := by
    intro j
    constructor
    · intro hj
      have hlt := h7 j hj b.start (by simp)
      rw [h2] at hlt
      refine ⟨?_, hlt⟩
      have := (h4 j).1 (by rw [List.map_append]; exact List.mem_append_left _ hj)
      rcases active_concat.1 this with h | h
      · exact h
      · exact absurd h (Nat.ne_of_lt hlt)
    · rintro ⟨hj, hlt⟩
      have := (h4 j).2 (active_concat.2 (Or.inl hj))
      rw [List.map_append] at this
      rcases List.mem_append.1 this with h | h
      · exact h
      · have h : j = b.start := List.mem_singleton.1 h
        omega
  have e : (∃ i ∈ dumped p pre t, i.start = k) ↔ k ∈ lastOf 4 (a.map Period.start) := by
    rw [hd, ← hm, List.mem_map]
  rw [e, mem_last_four _ h6, key k]
  constructor
  · rintro ⟨⟨q1, q2⟩, q3⟩
    refine ⟨q1, q2, ?_⟩
    rintro ⟨w, x, y, z, r1, r2, r3, r4, r5, s1, s2, s3, s4⟩
    exact q3 ⟨w, x, y, z, r1, r2, r3, r4, (key w).2 ⟨s1, by omega⟩, (key x).2 ⟨s2, by omega⟩, (key y).2 ⟨s3, by omega⟩, (key z).2 ⟨s4, by omega⟩⟩
  · rintro ⟨q1, q2, q3⟩
    refine ⟨⟨q1, q2⟩, ?_⟩
    rintro ⟨w, x, y, z, r1, r2, r3, r4, s1, s2, s3, s4⟩
    exact q3 ⟨w, x, y, z, r1, r2, r3, r4, ((key z).1 s4).2, ((key w).1 s1).1, ((key x).1 s2).1, ((key y).1 s3).1, ((key z).1 s4).1⟩

theorem run_concat (p : Nat) (h : List StatsEvent) (e : StatsEvent) : Stats.run p (h ++ [e]) = (Stats.run p h).step p e := by
  unfold Stats.run
  rw [List.foldl_append]
  rfl

/-- Each tick prints once. -/
theorem printed_iff (p : Nat) (h : List StatsEvent) (l : List Period) : l ∈ (Stats.run p h).printed ↔ ∃ pre t post, h = pre ++ .tick t :: post ∧ l = dumped p pre t := by
  induction hn : h.length generalizing h with
  | zero =>
    rw [List.length_eq_zero_iff] at hn
    subst hn
    constructor
    · intro hc; cases hc
    · rintro ⟨pre, t, post, e, _⟩
      have := congrArg List.length e
      simp at this
  | succ n ih =>
    obtain ⟨h', e, rfl⟩ : ∃ h' e, h = h' ++ [e] := ⟨h.dropLast, h.getLast (by intro hc; rw [hc] at hn; cases hn), (List.dropLast_concat_getLast _).symm⟩
    have ih := ih h' (by simpa using hn)
    rw [run_concat]
    have split : (∃ pre t post, h' ++ [e] = pre ++ .tick t :: post ∧ l = dumped p pre t) ↔ (∃ pre t post, h' = pre ++ .tick t :: post ∧ l = dumped p pre t) ∨ ∃ t, e = .tick t ∧ l = dumped p h' t := by
      constructor
      · rintro ⟨pre, t, post, h1, h2⟩
        rcases List.eq_nil_or_concat post with rfl | ⟨post', x, rfl⟩
        · obtain ⟨h3, h4⟩ := List.append_inj' h1 rfl
          subst h3
          exact Or.inr ⟨t, (List.cons.inj h4).1, h2⟩
        · have h1' : h' ++ [e] = (pre ++ .tick t :: post') ++ [x] := by rw [h1]; simp
          obtain ⟨h3, _⟩ := List.append_inj' h1' rfl
          exact Or.inl ⟨pre, t, post', h3, h2⟩
      · rintro (⟨pre, t, post, rfl, h2⟩ | ⟨t, rfl, h2⟩)
        · exact ⟨pre, t, post ++ [e], by simp, h2⟩
        · exact ⟨h', t, [], rfl, h2⟩
    rw [split, ← ih]
    cases e with
    | measure t m =>
      constructor
      · exact Or.inl
      · rintro (h | ⟨_, h, _⟩)
        · exact h
        · cases h
    | tick t =>
      show l ∈ (Stats.run p h').printed ++ [dumped p h' t] ↔ _
      rw [List.mem_append, List.mem_singleton]
      refine or_congr_right ⟨fun h => ⟨t, rfl, h⟩, ?_⟩
      rintro ⟨u, h1, h2⟩
      cases h1
      exact h2

/-- **C123, what is printed is final.** Whatever is printed of a period says what was measured in it in the whole run of the program, also after it was printed; no call prints a period twice or out of order. -/
theorem C123_final (p : Nat) (h : List StatsEvent) (ho : InOrder h) (l : List Period) (hl : l ∈ (Stats.run p h).printed) : (∀ i ∈ l, Says p h i) ∧ (l.map Period.start).Pairwise (· < ·) := by
  obtain ⟨pre, t, post, rfl, rfl⟩ := (printed_iff p h l).1 hl
  obtain ⟨h1, h2⟩ := dumped_final p pre post t ho
  exact ⟨fun i hi => (h1 i hi).1, h2⟩

/-- **C123, which periods are printed.** A tick prints those in which something happened that are over, unless four later ones are over in which something happened. -/
theorem C123_which (p : Nat) (pre post : List StatsEvent) (t : Nat) (ho : InOrder (pre ++ .tick t :: post)) : ∃ l ∈ (Stats.run p (pre ++ .tick t :: post)).printed, ∀ k, (∃ i ∈ l, i.start = k) ↔
    Active p pre k ∧ k < t / p ∧ ¬ ∃ a b c d, k < a ∧ a < b ∧ b < c ∧ c < d ∧ d < t / p ∧ Active p pre a ∧ Active p pre b ∧ Active p pre c ∧ Active p pre d := by
  refine ⟨dumped p pre t, (printed_iff _ _ _).2 ⟨pre, t, post, rfl, rfl⟩, dumped_which p pre t ?_⟩
  have e1 : pre ++ StatsEvent.tick t :: post = (pre ++ [.tick t]) ++ post := by simp
  rw [e1] at ho
  exact (List.pairwise_append.1 ho).1

/-- **C123, everything is printed (partial).** A measurement is printed, with all others of its period, if a tick falls into one of the next four periods. Full statement: without this condition (`C123_end_fails`, `C123_late_fails`). -/
theorem C123_reported_partial (p : Nat) (pre post : List StatsEvent) (t s : Nat) (m : Measure) (ho : InOrder (pre ++ .tick t :: post)) (hm : .measure s m ∈ pre) (h1 : s / p < t / p) (h2 : t / p ≤ s / p + 4) :
    ∃ l ∈ (Stats.run p (pre ++ .tick t :: post)).printed, ∃ i ∈ l, i.start = s / p ∧ Says p (pre ++ .tick t :: post) i := by
  obtain ⟨l, hl, hk⟩ := C123_which p pre post t ho
  obtain ⟨i, hi, hs⟩ := (hk (s / p)).2 ⟨⟨_, hm, rfl⟩, h1, by rintro ⟨a, b, c, d, q1, q2, q3, q4, q5, _⟩; omega⟩
  exact ⟨l, hl, i, hi, hs, (C123_final p _ ho l hl).1 i hi⟩

/-- **C123, printing on time (partial).** If a tick falls into the period after that of a measurement, wherever it stands among the other events, the measurement is printed with all others of its period. So with a tick in each period, only the last one
is lost. -/
theorem C123_on_time_partial (p : Nat) (h : List StatsEvent) (t s : Nat) (m : Measure) (ho : InOrder h) (hm : .measure s m ∈ h) (ht : .tick t ∈ h) (h1 : t / p = s / p + 1) :
    ∃ l ∈ (Stats.run p h).printed, ∃ i ∈ l, i.start = s / p ∧ Says p h i := by
  obtain ⟨pre, post, rfl⟩ := List.append_of_mem ht
  refine C123_reported_partial p pre post t s m ho ?_ (by omega) (by omega)
  rcases List.mem_append.1 hm with h2 | h2
  · exact h2
  · exfalso
    rcases List.mem_cons.1 h2 with h2 | h2
    · cases h2
    · have h3 : t ≤ s := (List.pairwise_cons.1 (List.pairwise_append.1 ho).2.1).1 _ h2
      have := Nat.div_le_div_right (c := p) h3
      omega

/-- **C123 fails at the end.** The period of the last measurement is never printed, however the program was run before: when it ends, nothing prints what is left (`Stop`, telemetry.go:48-51, is not called and would not). -/
theorem C123_end_fails (p : Nat) (h : List StatsEvent) (s : Nat) (m : Measure) (ho : InOrder (h ++ [.measure s m])) : ∀ l ∈ (Stats.run p (h ++ [.measure s m])).printed, ∀ i ∈ l, i.start ≠ s / p := by
  intro l hl i hi he
  obtain ⟨pre, t, post, hh, rfl⟩ := (printed_iff p _ l).1 hl
  rw [hh] at ho
  have h1 := ((dumped_final p pre post t ho).1 i hi).2
  have hlast : StatsEvent.tick t ∈ h := by
    have hmem : StatsEvent.tick t ∈ h ++ [.measure s m] := by rw [hh]; simp
    rcases List.mem_append.1 hmem with h2 | h2
    · exact h2
    · exact absurd (List.mem_singleton.1 h2) (by intro hc; cases hc)
  rw [← hh] at ho
  have h2 : t ≤ s := (List.pairwise_append.1 ho).2.2 _ hlast _ (List.mem_singleton.2 rfl)
  have := Nat.div_le_div_right (c := p) h2
  omega

/-- Five periods with one measurement each, and a tick that comes only in the sixth. -/
def exLateTick : List StatsEvent := [.measure 5 ⟨false, "sync.error".toList, 1⟩, .measure 15 ⟨false, "sync.progress".toList, 1⟩, .measure 25 ⟨false, "sync.progress".toList, 1⟩, .measure 35 ⟨false, "sync.progress".toList, 1⟩,
  .measure 45 ⟨false, "sync.progress".toList, 1⟩, .tick 55]

/-- **C123 fails when printing is late.** The ticker drops the ticks for which the writer is not ready, and the sink keeps five periods. -/
theorem C123_late_fails : ∃ h : List StatsEvent, InOrder h ∧ .measure 5 ⟨false, "sync.error".toList, 1⟩ ∈ h ∧ .tick 55 ∈ h ∧ (Stats.run 10 h).printed ≠ [] ∧ ∀ l ∈ (Stats.run 10 h).printed, ∀ i ∈ l, assocGet i.counters "sync.error".toList = none :=
  ⟨exLateTick, by simp [InOrder, exLateTick, StatsEvent.time], by simp [exLateTick], by simp [exLateTick], by decide +kernel, by decide +kernel⟩

/-! ### examples -/

/-- Two periods, with ticks in the second and the third. -/
def exStats : List StatsEvent := [.measure 1 ⟨false, "sync.progress".toList, 1⟩, .measure 4 ⟨true, "log.coverage".toList, 3⟩, .measure 7 ⟨true, "log.coverage".toList, 5⟩, .measure 9 ⟨false, "sync.progress".toList, 1⟩, .tick 12,
  .measure 13 ⟨false, "sync.error".toList, 1⟩, .tick 22]

theorem exStats_order : InOrder exStats := by simp [InOrder, exStats, StatsEvent.time]

example : (Stats.run 10 exStats).printed = [[⟨0, [("log.coverage".toList, 5)], [("sync.progress".toList, (2, 2))]⟩],
    [⟨0, [("log.coverage".toList, 5)], [("sync.progress".toList, (2, 2))]⟩, ⟨1, [], [("sync.error".toList, (1, 1))]⟩]] := by decide +kernel

example : ∀ i ∈ [(⟨0, [("log.coverage".toList, 5)], [("sync.progress".toList, (2, 2))]⟩ : Period)], Says 10 exStats i := (C123_final 10 exStats exStats_order _ (by decide +kernel)).1

example : ∃ l ∈ (Stats.run 10 exStats).printed, ∃ i ∈ l, i.start = 13 / 10 ∧ Says 10 exStats i :=
  C123_reported_partial 10 (exStats.take 6) [] 22 13 ⟨false, "sync.error".toList, 1⟩ exStats_order (by decide +kernel) (by decide) (by decide)

example : ∃ l ∈ (Stats.run 10 exStats).printed, ∃ i ∈ l, i.start = 0 := by
  obtain ⟨l, hl, h⟩ := C123_which 10 (exStats.take 4) (exStats.drop 5) 12 exStats_order
  refine ⟨l, hl, (h 0).2 ⟨⟨_, List.mem_cons_self, rfl⟩, by decide, ?_⟩⟩
  rintro ⟨a, b, c, d, h1, h2, h3, h4, h5, _⟩
  omega

example : ∀ l ∈ (Stats.run 10 (exStats ++ [.measure 23 ⟨false, "sync.error".toList, 1⟩])).printed, ∀ i ∈ l, i.start ≠ 23 / 10 := C123_end_fails 10 exStats 23 _ (by simp [InOrder, exStats, StatsEvent.time])

example : ∃ l ∈ (Stats.run 10 exStats).printed, ∃ i ∈ l, i.start = 4 / 10 ∧ Says 10 exStats i := C123_on_time_partial 10 exStats 12 4 ⟨true, "log.coverage".toList, 3⟩ exStats_order (by decide +kernel) (by decide +kernel) (by decide)

end Verif.Props
