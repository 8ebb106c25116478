import Verif.Model.Serial
/-!
The RFC 6962 part of ct-fetch that checks downloaded entries: go/cmd/ct-fetch/rfc6962.go:42-201 and the ordering of
subtrees in `LogWorker.Run` (lines 394-457). SHA-256 is an arbitrary function `H`. Indices are `Nat`.
-/
namespace Verif

/-- `CtLogSubtree` (go/cmd/ct-fetch/rfc6962.go:42-46). -/
structure Subtree where
  root : Bytes
  first : Nat
  last : Nat
deriving DecidableEq

/-- `CtLogSubtree.Size` (rfc6962.go:48-50). `Last < First`, which would wrap around in Go, gives 1 or 0 here; all
theorems require `first ≤ last`. -/
def Subtree.size (t : Subtree) : Nat := t.last + 1 - t.first

/-- `bits.Len64`. -/
def len64 (n : Nat) : Nat := if n = 0 then 0 else Nat.log2 n + 1

/-- The power of two computed in `Midpoint` (rfc6962.go:53-57). -/
def prevPow2 (size : Nat) : Nat := if size > 1 then 2 ^ (len64 (size - 1) - 1) else 0

/-- `CtLogSubtree.Midpoint` (rfc6962.go:52-59). -/
def Subtree.midpoint (t : Subtree) : Nat := t.first + prevPow2 t.size

/-- `rfc6962LeafHash` (rfc6962.go:61-67). -/
def leafHash (H : Bytes → Bytes) (leaf : Bytes) : Bytes := H (0 :: leaf)

/-- `rfc6962PairHash` (rfc6962.go:69-76). -/
def pairHash (H : Bytes → Bytes) (l r : Bytes) : Bytes := H (1 :: (l ++ r))

/-- `CtLogSubtreeVerifier` (rfc6962.go:78-82). `stack` is `hashStack` with its top (last element) first. -/
structure Verifier where
  subtree : Subtree
  stack : List Bytes
  numConsumed : Nat

/-- `bits.TrailingZeros64` of a positive number; `fuel` bounds the number of halvings. -/
def trailingZerosAux : Nat → Nat → Nat
  | 0, _ => 0
  | fuel + 1, n => if n % 2 = 1 then 0 else trailingZerosAux fuel (n / 2) + 1

/-- `bits.TrailingZeros64` (only called with positive arguments). -/
def trailingZeros (n : Nat) : Nat := trailingZerosAux n n

/-- The `for iter > 0` loop of `Consume` (rfc6962.go:106-113); `none` is an index-out-of-range panic. -/
def mergeStack (H : Bytes → Bytes) : Nat → List Bytes → Option (List Bytes)
  | 0, st => some st
  | n + 1, r :: l :: st => mergeStack H n (pairHash H l r :: st)
  | _ + 1, _ => none

/-- `CtLogSubtreeVerifier.Consume` (rfc6962.go:84-114); `none` is a panic. -/
def Verifier.consume (H : Bytes → Bytes) (v : Verifier) (leaf : Bytes) : Option Verifier :=
  let st := leafHash H leaf :: (if v.numConsumed = 0 then [] else v.stack)
  let n := v.numConsumed + 1
  let iter := if n ≥ v.subtree.size then st.length - 1 else trailingZeros n
  match mergeStack H iter st with
  | none => none
  | some st' => some { v with stack := st', numConsumed := n }

/-- Consuming a sequence of leaves. -/
def Verifier.consumeAll (H : Bytes → Bytes) : Verifier → List Bytes → Option Verifier
  | v, [] => some v
  | v, d :: ds =>
    match v.consume H d with
    | none => none
    | some v' => v'.consumeAll H ds

/-- `CtLogSubtreeVerifier.CheckClaim` (rfc6962.go:116-127): `true` is "no error". `hashStack[0]` is the bottom of the stack. -/
def Verifier.checkClaim (v : Verifier) : Bool :=
  if v.subtree.root.length ≠ 32 then false
  else if v.numConsumed ≠ v.subtree.size then false
  else decide (v.stack.getLast? = some v.subtree.root)

/-- A verifier as created in `Run` (rfc6962.go:432, 448). -/
def newVerifier (t : Subtree) : Verifier := { subtree := t, stack := [], numConsumed := 0 }

/-- An index range. -/
abbrev Range := Nat × Nat

/-- The loop of `consistencyProofToSubtrees` (rfc6962.go:163-172): returns the terms in the order they are appended, and
the final cursor. `none`: out of fuel. -/
def proofLoop : Nat → Nat → Nat → Nat → List Range → Option (List Range × Range)
  | 0, _, _, _, _ => none
  | fuel + 1, target, first, last, terms =>
    if first ≠ last ∧ last ≠ target then
      let mid := (Subtree.mk [] first last).midpoint
      if target < mid then proofLoop fuel target first (mid - 1) (terms ++ [(mid, last)])
      else proofLoop fuel target mid last (terms ++ [(first, mid - 1)])
    else some (terms, (first, last))

/-- `target := uint64(oldSize - 1)` (rfc6962.go:157), which wraps around for 0. -/
def proofTarget (oldSize : Nat) : Nat := if oldSize = 0 then 2 ^ 64 - 1 else oldSize - 1

/-- The index ranges computed by `consistencyProofToSubtrees` before the roots are attached (rfc6962.go:156-194),
in RFC 6962 order. -/
def proofRanges (oldSize newSize : Nat) : Option (List Range) :=
  match proofLoop newSize (proofTarget oldSize) 0 (newSize - 1) [] with
  | none => none
  | some (terms, cursor) =>
    some ((if oldSize &&& (oldSize - 1) ≠ 0 then terms ++ [cursor] else terms).reverse)

/-- Attach the roots (rfc6962.go:196-198). -/
def attachRoots : List Range → List Bytes → List Subtree
  | (f, l) :: rs, p :: ps => { root := p, first := f, last := l } :: attachRoots rs ps
  | _, _ => []

/-- `consistencyProofToSubtrees` (rfc6962.go:129-201); `none` is the returned error. -/
def consistencyProofToSubtrees (proof : List Bytes) (oldSize newSize : Nat) : Option (List Subtree) :=
  if newSize ≤ oldSize then none
  else match proofRanges oldSize newSize with
    | none => none
    | some rs => if rs.length ≠ proof.length then none else some (attachRoots rs proof)

/-- `sort.Search(n, f)`: binary search on `[i, j)`; `fuel` bounds the number of iterations. -/
def sortSearch (f : Nat → Bool) : Nat → Nat → Nat → Nat
  | 0, i, _ => i
  | fuel + 1, i, j =>
    if i < j then
      let h := (i + j) / 2
      if f h then sortSearch f fuel i h else sortSearch f fuel (h + 1) j
    else i

/-- The predicate given to `sort.Search`: does `t` belong before element `i`? -/
def beforeAt (before : Subtree → Subtree → Bool) (vs : List Subtree) (t : Subtree) (i : Nat) : Bool :=
  match vs[i]? with
  | some u => before t u
  | none => true

/-- Insertion at the position found by `sort.Search` (rfc6962.go:433-439, 449-455). `before t u`: the new subtree
`t` belongs before `u`. -/
def insertAt (before : Subtree → Subtree → Bool) (vs : List Subtree) (t : Subtree) : List Subtree :=
  let pos := sortSearch (beforeAt before vs t) vs.length 0 vs.length
  vs.take pos ++ t :: vs.drop pos

/-- The order used by a job (rfc6962.go:434-436 and 450-452). -/
def orderBefore (backfill : Bool) (t u : Subtree) : Bool :=
  if backfill then decide (t.last > u.last) else decide (t.first < u.first)

/-- The queue of verifiers of a job (rfc6962.go:421-457). -/
def orderSubtrees (backfill : Bool) (firstIndex lastIndex : Nat) (subtrees : List Subtree) : List Subtree :=
  (subtrees.filter (fun t => decide (firstIndex ≤ t.first ∧ t.last ≤ lastIndex))).foldl
    (insertAt (orderBefore backfill)) []

/-- `oldSize` of the requested consistency proof (rfc6962.go:394-403). -/
def proofOldSize (firstIndex : Nat) : Nat := if firstIndex = 0 then 3 else firstIndex

/-- From the proof to the queue of subtrees (rfc6962.go:394-457); `none` is the returned error. -/
def jobSubtrees (backfill : Bool) (firstIndex lastIndex : Nat) (proof : List Bytes) : Option (List Subtree) :=
  match consistencyProofToSubtrees proof (proofOldSize firstIndex) (lastIndex + 1) with
  | none => none
  | some ts => some (orderSubtrees backfill firstIndex lastIndex ts)

end Verif
