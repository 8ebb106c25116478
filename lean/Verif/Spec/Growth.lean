import Verif.Model.Whole
/-!
Specification for C106: what it means that coverage grows.
-/
namespace Verif.Spec

/-- What the state `s` covers, the state `t` covers too: more entries and a longer span of time. A state without update time covers nothing. -/
def Grows (s t : WState) : Prop :=
  s.lastUpdate ≠ none → t.lastUpdate ≠ none ∧ t.minEntry ≤ s.minEntry ∧ s.maxEntry ≤ t.maxEntry ∧ t.minTs ≤ s.minTs ∧ s.maxTs ≤ t.maxTs

theorem Grows.refl (s : WState) : Grows s s := fun h => ⟨h, Nat.le_refl _, Nat.le_refl _, Nat.le_refl _, Nat.le_refl _⟩

theorem Grows.trans {s t u : WState} (h1 : Grows s t) (h2 : Grows t u) : Grows s u := by
  intro h
  obtain ⟨a0, a1, a2, a3, a4⟩ := h1 h
  obtain ⟨b0, b1, b2, b3, b4⟩ := h2 a0
  exact ⟨b0, Nat.le_trans b1 a1, Nat.le_trans a2 b2, Nat.le_trans b3 a3, Nat.le_trans a4 b4⟩

/-- The states of the list have update times, and they grow from `s` on. -/
def Chain : WState → List WState → Prop
  | _, [] => True
  | s, t :: ts => (t.lastUpdate ≠ none ∧ Grows s t) ∧ Chain t ts

/-- The same for published states. -/
def GrowsC (c d : CTLogState) : Prop :=
  c.lastUpdateTime ≠ none → d.lastUpdateTime ≠ none ∧ d.minEntry ≤ c.minEntry ∧ c.maxEntry ≤ d.maxEntry ∧ d.minTimestamp ≤ c.minTimestamp ∧ c.maxTimestamp ≤ d.maxTimestamp

/-- The state that counts for a log in a list of states is the last one with its short URL (go/types.go:179-189 puts the states into a map, in order). -/
def newest (sts : List CTLogState) (url : Text) : Option CTLogState := sts.reverse.find? (fun c => decide (c.shortURL = url))

/-- Nothing is left of the jobs of the log: no worker, no state on its way to the database. -/
def Settled (y : Sys) (log : Text) : Prop :=
  (∀ p ∈ y.workers, p.1 ≠ log) ∧ (∀ s, Msg.state log s ∉ y.chan) ∧ (∀ s, y.phase ≠ .storing (.state log s)) ∧ ∀ s, y.phase ≠ .saving (.state log s)

/-- A job starts only when nothing is left of the log's earlier ones. -/
def OneAtATime (y : Sys) : Act → Prop
  | .start log _ _ _ _ _ => Settled y log
  | .startTiled log _ _ _ _ _ _ _ => Settled y log
  | _ => True

end Verif.Spec
