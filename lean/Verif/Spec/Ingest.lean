import Verif.Spec.Fetch
import Verif.Model.Ingest
/-! Independent specification for the database thread and the whole of ct-fetch. -/
namespace Verif.Spec

/-- Everything inserted by these operations. -/
def inserted : List DbOp → List LogItem
  | [] => []
  | .insert is :: ops => is ++ inserted ops
  | .save _ _ :: ops => inserted ops

/-- The certificates among these messages. -/
def certs : List Msg → List LogItem
  | [] => []
  | .cert log i :: ms => (log, i) :: certs ms
  | .state _ _ :: ms => certs ms

/-- The events of one log. -/
def eventsOf (log : Text) (seen : List (Text × Ev)) : List Ev :=
  seen.filterMap (fun p => if p.1 = log then some p.2 else none)

/-- All leaves in the answers. -/
def servedLeaves : List Resp → List Leaf
  | [] => []
  | .entries ls :: rs => ls ++ servedLeaves rs
  | _ :: rs => servedLeaves rs

/-- What is known about the outside world: which logs are tiled, which leaf may stand at which position, and what holds of served leaves,
yielded entries and tree heads. -/
structure World where
  tiled : Text → Bool
  G : Text → Nat → Bytes → Prop
  L : Text → Leaf → Prop
  TL : Text → TEntry → Prop
  T : Text → TreeHead → Prop

/-- Entry `i` of `log` was processed with a permitted leaf, and if that produced a certificate then it is among `hv`. -/
def Accounted (G : Nat → Bytes → Prop) (log : Text) (evs : List Ev) (hv : List LogItem) (i : Nat) : Prop :=
  ∃ input ts item, Ev.entry i input ts item ∈ evs ∧ G i input ∧ ∀ it, item = some it → (log, it) ∈ hv

/-- The maximum timestamp is that of a permitted entry up to `MaxEntry`, or of a tree head of a tree that ends at or before it. -/
def Attained (T : TreeHead → Prop) (G : Nat → Bytes → Prop) (evs : List Ev) (s : WState) : Prop :=
  s.maxTs = 0 ∨ (∃ h, T h ∧ h.timestamp = s.maxTs ∧ h.treeSize ≤ s.maxEntry + 1) ∨
    ∃ i input item, i ≤ s.maxEntry ∧ G i input ∧ Ev.entry i input s.maxTs item ∈ evs

end Verif.Spec
