import Verif.Model.Text
/-!
The format of the two files, as the documentation of `bincode` describes it: no reference to the functions that write or read it.
-/
namespace Verif.Spec

/-- Eight bytes that stand for the number `n`, the lowest first. -/
def Word (t : Bytes) (n : Nat) : Prop := t.length = 8 ∧ n = t.foldr (fun b v => b.toNat + 256 * v) 0

/-- A byte string with its length before it. -/
def Blob (t : Bytes) (b : Bytes) : Prop := ∃ h, Word h b.length ∧ t = h ++ b

/-- Items one after the other. -/
inductive Items {α : Type} (P : Bytes → α → Prop) : Bytes → List α → Prop where
  | nil : Items P [] []
  | cons {a b : Bytes} {x : α} {l : List α} : P a x → Items P b l → Items P (a ++ b) (x :: l)

/-- Items with their number before them. -/
def Counted {α : Type} (P : Bytes → α → Prop) (t : Bytes) (l : List α) : Prop := ∃ h b, Word h l.length ∧ Items P b l ∧ t = h ++ b

/-- A key and a list of byte strings. -/
def Entry (t : Bytes) (e : Bytes × List Bytes) : Prop := ∃ a b, Blob a e.1 ∧ Counted Blob b e.2 ∧ t = a ++ b

/-- The file holds the set of the members of `l`. -/
def SetFile (t : Bytes) (l : List Bytes) : Prop := Counted Blob t l

/-- The file holds the entries `m`. -/
def MapFile (t : Bytes) (m : List (Bytes × List Bytes)) : Prop := Counted Entry t m

/-- Lengths that fit into 64 bits, as everything in memory does. -/
def Small (l : List Bytes) : Prop := l.length < 2 ^ 64 ∧ ∀ b ∈ l, b.length < 2 ^ 64

/-- The same for a map. -/
def SmallMap (m : List (Bytes × List Bytes)) : Prop := m.length < 2 ^ 64 ∧ ∀ e ∈ m, e.1.length < 2 ^ 64 ∧ Small e.2

end Verif.Spec
