import Verif.Model.Publisher
/-!
Specification of a published channel: a chain of records.
-/
namespace Verif.Spec

/-- The records follow each other: each is incremental, complete, and its parent is the record before; `prev` is the identifier of the record before the first. -/
def Linked (prev : Text) : List KRec → Prop
  | [] => True
  | r :: rest => r.incremental = some true ∧ r.parent = some prev ∧ r.attachment.isSome = true ∧ ∃ i, r.id = some i ∧ Linked i rest

/-- A chain: a full filter, then deltas. -/
def IsChain : List KRec → Prop
  | [] => False
  | r :: rest => r.incremental = some false ∧ r.attachment.isSome = true ∧ ∃ i, r.id = some i ∧ Linked i rest

/-- The records, in some order, form a single chain, with different identifiers. -/
def SingleChain (recs : List KRec) : Prop := ∃ l, l.Perm recs ∧ IsChain l ∧ (l.map KRec.id).Nodup

/-- The records of a channel in the collection. -/
def recordsOf (slug : Text) (st : List KRec) : List KRec := st.filter (fun r => decide (r.channel.getD "default".toList = slug))

/-- The attachment of a run's filter or delta in a channel. -/
def attachmentOf (slug run : Text) (r : KRec) : Prop :=
  r.attachment = some (run ++ '-' :: slug ++ ".filter".toList) ∨ r.attachment = some (run ++ '-' :: slug ++ ".filter.delta".toList)

/-- The record carries a filter or delta of a run with this date and number. -/
def RunKey (slug : Text) (r : KRec) (k : Nat × Nat) : Prop := ∃ run, attachmentOf slug run r ∧ parseRun run = some k

/-- Earlier in the order of runs. -/
def KeyLt (a b : Nat × Nat) : Prop := a.1 < b.1 ∨ (a.1 = b.1 ∧ a.2 < b.2)

/-- The complete records of the channel belong to runs, and each to a later run than its parent. -/
def Tidy (slug : Text) (st : List KRec) : Prop :=
  (∀ r ∈ recordsOf slug st, r.attachment.isSome = true → ∃ k, RunKey slug r k) ∧
  (∀ r ∈ recordsOf slug st, ∀ s ∈ recordsOf slug st, r.attachment.isSome = true → s.attachment.isSome = true → r.incremental = some true → ∀ i, s.id = some i → r.parent = some i →
    ∀ kr ks, RunKey slug r kr → RunKey slug s ks → KeyLt ks kr)

/-- The records of a list of deltas: each has the right attachment, name and channel, and its parent is the record before. -/
def DeltasOf (nm : Nat → Bool → Text) (time : Text → Option Nat) (slug : Text) : Text → List Text → List KRec → Prop
  | _, [], [] => True
  | prev, run :: runs, r :: recs =>
    r.incremental = some true ∧ r.parent = some prev ∧ r.channel = some slug ∧ r.attachment = some (run ++ '-' :: slug ++ ".filter.delta".toList) ∧ (∃ t, time run = some t ∧ r.name = nm t false) ∧
      ∃ i, r.id = some i ∧ DeltasOf nm time slug i runs recs
  | _, _, _ => False

/-- New identifiers are neither used nor referred to. -/
def FreshIds (freshId : List KRec → Text) : Prop := ∀ st, ∀ r ∈ st, r.id ≠ some (freshId st) ∧ r.parent ≠ some (freshId st)

/-- Different runs have different dates or numbers, and none is listed twice. -/
def RunsDistinct (ids : List Text) : Prop := ids.Nodup ∧ ∀ a ∈ ids, ∀ b ∈ ids, ∀ k, parseRun a = some k → parseRun b = some k → a = b

end Verif.Spec
