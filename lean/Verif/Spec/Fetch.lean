import Verif.Model.Fetch
import Verif.Spec.Merkle
/-! Independent specification for the log workers. -/
namespace Verif.Spec

/-- Among the events there is one for entry `i` of the log, with a leaf that satisfies `G`. -/
def Processed (G : Nat → Bytes → Prop) (evs : List Ev) (i : Nat) : Prop :=
  ∃ input ts item, Ev.entry i input ts item ∈ evs ∧ G i input

/-- The entry range claimed by a state; a state that was never updated claims nothing. -/
def Claims (s : WState) (i : Nat) : Prop := s.lastUpdate ≠ none ∧ s.minEntry ≤ i ∧ i ≤ s.maxEntry

/-- The certificate that issues an entry with this chain: the first element, or the second if the first is a precertificate
signing certificate (RFC 6962 section 3.1). -/
def IssuedBy (chain : List (Option Cert)) (c : Cert) : Prop :=
  (∃ rest, chain = some c :: rest ∧ c.preIssuer = false) ∨
  (∃ p rest, chain = some p :: some c :: rest ∧ p.preIssuer = true)

/-- The same for a chain that is fetched. -/
def TiledIssuedBy (chain : List Fetched) (c : Cert) : Prop :=
  (∃ rest, chain = .cert c :: rest ∧ c.preIssuer = false) ∨
  (∃ p rest, chain = .cert p :: .cert c :: rest ∧ p.preIssuer = true)

/-- All answers of a server, as one list of leaves. -/
def servedInputs : List Resp → List Bytes
  | [] => []
  | .entries ls :: rs => ls.map Leaf.input ++ servedInputs rs
  | _ :: rs => servedInputs rs

end Verif.Spec
