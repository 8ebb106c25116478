import Verif.Model.Serial
import Verif.Model.Filter
import Verif.Model.Client
/-!
The two files that the Rust programs write and read with `bincode` 1.3 (rust-create-cascade/Cargo.toml:7, rust-query-crlite/Cargo.toml:8), byte by byte: `revset.bin` and `crlite.intermediates`.
`bincode::serialize` writes integers with a fixed length and little end first, and the number of elements before the elements; `bincode::deserialize` reads the same and ignores what follows.
-/
namespace Verif

/-! ### writing -/

/-- A length as `u64`. -/
def binLen (n : Nat) : Bytes := putUint64LE (UInt64.ofNat n)

/-- A `Vec<u8>`. -/
def binBytes (b : Bytes) : Bytes := binLen b.length ++ b

/-- A sequence or map. -/
def binSeq {α : Type} (f : α → Bytes) (l : List α) : Bytes := binLen l.length ++ (l.map f).flatten

/-- The contents of `revset.bin` (rust-create-cascade/src/main.rs:618-620): a `HashSet<Vec<u8>>`, given in the order in which it is gone through. -/
def binSet (l : List Bytes) : Bytes := binSeq binBytes l

/-- An entry of the map: name and certificates. -/
def binEntry (e : Bytes × List Bytes) : Bytes := binBytes e.1 ++ binSeq binBytes e.2

/-- The contents of `crlite.intermediates` (`Intermediates::encode`, rust-query-crlite/src/main.rs:443-446): a `HashMap<Vec<u8>, Vec<Vec<u8>>>`, in the order in which it is gone through. -/
def binMap (m : Intermediates) : Bytes := binSeq binEntry m

/-! ### reading; `none` is an error -/

/-- Eight bytes; an error if there are fewer. -/
def unbinLen (t : Bytes) : Option (Nat × Bytes) := if t.length < 8 then none else some (uint64LE (t.take 8), t.drop 8)

/-- A `Vec<u8>`. -/
def unbinBytes (t : Bytes) : Option (Bytes × Bytes) :=
  match unbinLen t with
  | none => none
  | some (n, r) => if r.length < n then none else some (r.take n, r.drop n)

/-- `n` elements. -/
def unbinItems {α : Type} (f : Bytes → Option (α × Bytes)) : Nat → Bytes → Option (List α × Bytes)
  | 0, t => some ([], t)
  | n + 1, t =>
    match f t with
    | none => none
    | some (x, r) =>
      match unbinItems f n r with
      | none => none
      | some (l, r') => some (x :: l, r')

/-- A sequence or map. -/
def unbinSeq {α : Type} (f : Bytes → Option (α × Bytes)) (t : Bytes) : Option (List α × Bytes) :=
  match unbinLen t with
  | none => none
  | some (n, r) => unbinItems f n r

/-- An entry of the map. -/
def unbinEntry (t : Bytes) : Option ((Bytes × List Bytes) × Bytes) :=
  match unbinBytes t with
  | none => none
  | some (k, r) =>
    match unbinSeq unbinBytes r with
    | none => none
    | some (l, r') => some ((k, l), r')

/-- `HashSet::insert`. -/
def hashInsert (s : List Bytes) (x : Bytes) : List Bytes := if s.contains x then s else s ++ [x]

/-- `HashMap::insert`: a later entry replaces an earlier one. -/
def hashPut (m : Intermediates) (e : Bytes × List Bytes) : Intermediates := e :: m.filter (fun x => !decide (x.1 = e.1))

/-- The previous revocation set (rust-create-cascade/src/main.rs:585-589) from the contents of the file. -/
def unbinSet (t : Bytes) : Option (List Bytes) :=
  match unbinSeq unbinBytes t with
  | none => none
  | some (l, _) => some (l.foldl hashInsert [])

/-- `Intermediates::from_bincode` (rust-query-crlite/src/main.rs:437-441). -/
def unbinMap (t : Bytes) : Option Intermediates :=
  match unbinSeq unbinEntry t with
  | none => none
  | some (l, _) => some (l.foldl hashPut [])

/-- The end of `CRLiteDB::load` (rust-query-crlite/src/main.rs:338-343): the intermediates, and the file afterwards. `fetched` is what `update_intermediates` writes, if it succeeds. -/
def loadInters (file fetched : Option Bytes) : Option Intermediates × Option Bytes :=
  match file with
  | some t => (unbinMap t, some t)
  | none =>
    match fetched with
    | none => (none, none)
    | some t => (unbinMap t, some t)

end Verif
