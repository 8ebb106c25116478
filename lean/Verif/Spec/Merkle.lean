import Verif.Model.Text
/-!
Independent specification: RFC 6962 section 2.1 (Merkle tree hash) and 2.1.2 (consistency proofs).
-/
namespace Verif.Spec

/-- "The largest power of two smaller than n" (RFC 6962 section 2.1), for `n ≥ 2`. `Lemmas/Merkle.lean` proves that it is one. -/
def split (n : Nat) : Nat := 2 ^ Nat.log2 (n - 1)

theorem split_pos (n : Nat) : 0 < split n := Nat.two_pow_pos _

theorem split_lt (n : Nat) (h : 2 ≤ n) : split n < n := by
  have := Nat.log2_self_le (n := n - 1) (by omega)
  unfold split
  omega

/-- MTH(D[n]) of RFC 6962 section 2.1. -/
def mth (H : Bytes → Bytes) (d : List Bytes) : Bytes :=
  match _h : d with
  | [] => H []
  | [x] => H (0 :: x)
  | _ :: _ :: _ => H (1 :: (mth H (d.take (split d.length)) ++ mth H (d.drop (split d.length))))
termination_by d.length
decreasing_by
  · have := split_lt d.length (by simp [_h])
    subst _h
    simp only [List.length_take]
    omega
  · have := split_pos d.length
    have := split_lt d.length (by simp [_h])
    subst _h
    simp only [List.length_drop]
    omega

/-- The byte strings that are hashed when MTH(D[n]) is computed. -/
def hashed (H : Bytes → Bytes) (d : List Bytes) : List Bytes :=
  match _h : d with
  | [] => [[]]
  | [x] => [0 :: x]
  | _ :: _ :: _ =>
    (1 :: (mth H (d.take (split d.length)) ++ mth H (d.drop (split d.length)))) ::
      (hashed H (d.take (split d.length)) ++ hashed H (d.drop (split d.length)))
termination_by d.length
decreasing_by
  · have := split_lt d.length (by simp [_h])
    subst _h
    simp only [List.length_take]
    omega
  · have := split_pos d.length
    have := split_lt d.length (by simp [_h])
    subst _h
    simp only [List.length_drop]
    omega

/-- SUBPROOF(m, D[lo : lo+n], b) of RFC 6962 section 2.1.2, each node given by its index range (first, last) in the whole tree. -/
def subproof (m lo n : Nat) (b : Bool) : List (Nat × Nat) :=
  if m = n then (if b then [] else [(lo, lo + n - 1)])
  else if n ≤ 1 then []
  else if m ≤ split n then
    subproof m lo (split n) b ++ [(lo + split n, lo + n - 1)]
  else
    subproof (m - split n) (lo + split n) (n - split n) false ++ [(lo, lo + split n - 1)]
termination_by n
decreasing_by
  · exact split_lt n (by omega)
  · have := split_pos n
    omega

/-- PROOF(m, D[n]) as index ranges. -/
def proofNodes (m n : Nat) : List (Nat × Nat) := subproof m 0 n true

/-- The entries with index in a range. -/
def slice (d : List Bytes) (r : Nat × Nat) : List Bytes := (d.drop r.1).take (r.2 + 1 - r.1)

/-- PROOF(m, D[n]) as hashes, as an honest log returns it. -/
def honestProof (H : Bytes → Bytes) (d : List Bytes) (m n : Nat) : List Bytes :=
  (proofNodes m n).map (fun r => mth H (slice d r))

/-- The ranges are non-empty, adjacent and ascending, and together are `[a, b)`. -/
def TilesUp : Nat → Nat → List (Nat × Nat) → Prop
  | a, b, [] => a = b
  | a, b, r :: rs => r.1 = a ∧ r.1 ≤ r.2 ∧ TilesUp (r.2 + 1) b rs

/-- The same, descending. -/
def TilesDown (a b : Nat) (rs : List (Nat × Nat)) : Prop := TilesUp a b rs.reverse

end Verif.Spec
