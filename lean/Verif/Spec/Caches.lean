import Verif.Model.Caches
/-!
What a cache should answer (C109): sets by key with expiry times, log states by URL without trailing slashes, a lock with an expiry, an epoch. Nothing here is about how they are kept.
-/
namespace Verif.Spec
open Classical

/-- What a cache holds. -/
structure CacheIs (S : Type) where
  holds : Text → Bytes → Prop
  till : Text → Option Int
  log : Text → Option S
  lock : Option (Text × Int)
  epoch : Nat

/-- Nothing. -/
def CacheIs.empty {S : Type} : CacheIs S := ⟨fun _ _ => False, fun _ => none, fun _ => none, none, 0⟩

/-- At a time: sets and locks whose time is over are gone. -/
noncomputable def CacheIs.at {S : Type} (i : CacheIs S) (now : Int) : CacheIs S :=
  { i with
    holds := fun k x => i.holds k x ∧ ∀ t, i.till k = some t → now ≤ 1000 * t
    till := fun k => if ∀ t, i.till k = some t → now ≤ 1000 * t then i.till k else none
    lock := if ∀ p, i.lock = some p → now ≤ p.2 then i.lock else none }

/-- A member more. -/
def CacheIs.add {S : Type} (i : CacheIs S) (k : Text) (v : Bytes) : CacheIs S := { i with holds := fun k' x => i.holds k' x ∨ (k' = k ∧ x = v) }

/-- A set gets its expiry time; one that is not in the future empties it. A set without members has none. -/
noncomputable def CacheIs.expire {S : Type} (i : CacheIs S) (now : Int) (k : Text) (t : Int) : CacheIs S :=
  { i with
    holds := fun k' x => i.holds k' x ∧ ¬ (k' = k ∧ 1000 * t ≤ now)
    till := fun k' => if k' = k then (if (∃ x, i.holds k x) ∧ now < 1000 * t then some t else none) else i.till k' }

/-- Members less; a set without members has no expiry time. -/
noncomputable def CacheIs.without {S : Type} (i : CacheIs S) (k : Text) (vs : List Bytes) : CacheIs S :=
  { i with
    holds := fun k' x => i.holds k' x ∧ ¬ (k' = k ∧ x ∈ vs)
    till := fun k' => if k' = k ∧ ∀ x, i.holds k x → x ∈ vs then none else i.till k' }

/-- A state for its log. -/
noncomputable def CacheIs.keep {S : Type} (C : StateCodec S) (i : CacheIs S) (s : S) : CacheIs S :=
  { i with log := fun u => if u = trimSlashes (C.url s) then some s else i.log u }

/-- What the cache holds after a call. -/
noncomputable def CacheIs.next {S : Type} (C : StateCodec S) (i : CacheIs S) (now : Int) : CacheCall S → CacheIs S
  | .insert k v => i.add k v
  | .insertMany items => items.foldl (fun i x => (i.add x.key x.value).expire now x.key x.expiry) i
  | .remove k vs => i.without k vs
  | .expireAt k t => i.expire now k t
  | .store s => i.keep C s
  | .acquire tok => { i with lock := if i.lock = none then some (tok, now + 4 * 60 * 60 * 1000) else i.lock }
  | .release tok => { i with lock := if ∃ e, i.lock = some (tok, e) then none else i.lock }
  | .nextEpoch => { i with epoch := i.epoch + 1 }
  | .restore e l _ => if i.lock = none then { l.foldl (CacheIs.keep C) { i with log := fun _ => none } with epoch := e } else i
  | _ => i

/-- The right answer to a call. -/
def CacheIs.Answer {S : Type} (i : CacheIs S) : CacheCall S → CacheAns S → Prop
  | .exists_ k, .flag b => b = true ↔ ∃ x, i.holds k x
  | .insert k v, .flag b => b = true ↔ ¬ i.holds k v
  | .insertMany _, .done => True
  | .remove _ _, .done => True
  | .contains k v, .flag b => b = true ↔ i.holds k v
  | .members k, .values l => l.Nodup ∧ ∀ x, x ∈ l ↔ i.holds k x
  | .cardinality k, .count n => ∃ l : List Bytes, l.Nodup ∧ (∀ x, x ∈ l ↔ i.holds k x) ∧ n = l.length
  | .expireAt _ _, .done => True
  | .keys, .names l => l.Nodup ∧ ∀ k, k ∈ l ↔ (∃ r, k = "serials::".toList ++ r) ∧ ∃ x, i.holds k x
  | .store _, .done => True
  | .load u, .state s => i.log (trimSlashes u) = some s
  | .load u, .failed => i.log (trimSlashes u) = none
  | .loadAll, .states l => ∃ us : List Text, us.Nodup ∧ (∀ u, u ∈ us ↔ ∃ s, i.log u = some s) ∧ us.map i.log = l.map some
  | .acquire tok, .token t => t = if i.lock = none then some tok else none
  | .release _, .done => True
  | .hasLock tok, .flag b => b = true ↔ ∃ e, i.lock = some (tok, e)
  | .getEpoch, .epoch n => n = i.epoch
  | .nextEpoch, .done => True
  | .restore _ _ _, .done => i.lock = none
  | .restore _ _ _, .failed => i.lock ≠ none
  | _, _ => False

/-- The answers to a sequence of calls are right. -/
def CacheIs.Follows {S : Type} (C : StateCodec S) (i : CacheIs S) : List (Int × CacheCall S) → List (CacheAns S) → Prop
  | [], [] => True
  | (now, c) :: h, a :: as => (i.at now).Answer c a ∧ ((i.at now).next C now c).Follows C h as
  | _, _ => False

/-- Keys of sets (go/storage/types.go:45). -/
def SetKey (k : Text) : Prop := ∃ r, k = "serials::".toList ++ r

/-- The state can be read back (C103). -/
def StateFaithful {S : Type} (C : StateCodec S) (s : S) : Prop := C.dec (C.enc s) = some s

/-- Calls as the programs make them: sets at their keys, states that can be read back, epochs that fit. -/
def ProperCall {S : Type} (C : StateCodec S) (i : CacheIs S) : CacheCall S → Prop
  | .exists_ k | .insert k _ | .remove k _ | .contains k _ | .members k | .cardinality k | .expireAt k _ => SetKey k
  | .insertMany items => ∀ x ∈ items, SetKey x.key
  | .store s => StateFaithful C s
  | .nextEpoch => i.epoch + 1 < 2 ^ 63
  | .restore e l _ => e < 2 ^ 63 ∧ ∀ s ∈ l, StateFaithful C s
  | _ => True

/-- All calls of a sequence have a property, which may depend on what the cache holds and the time. -/
def AllCalls {S : Type} (C : StateCodec S) (P : CacheIs S → Int → CacheCall S → Prop) (i : CacheIs S) : List (Int × CacheCall S) → Prop
  | [] => True
  | (now, c) :: h => P (i.at now) now c ∧ AllCalls C P ((i.at now).next C now c) h

/-- `a` is before `b` in the order of strings. -/
def Before (a b : Bytes) : Prop := bytesLe a b = true ∧ a ≠ b

/-- Members are removed one by one, each when at most one member is behind it in the order of strings. -/
def FromTheEnd : (Bytes → Prop) → List Bytes → Prop
  | _, [] => True
  | P, v :: vs => (P v → ∀ x y, P x → P y → Before v x → Before v y → x = y) ∧ FromTheEnd (fun x => P x ∧ x ≠ v) vs

/-- No slash behind the prefix. -/
def NoSlash (k : Text) : Prop := '/' ∉ k

/-- Calls that a test may make: all within four hours, no set expires, keys without slashes, URLs without slashes at the end, the lock is free when the cache is restored, and removals as above. -/
def TestCall {S : Type} (C : StateCodec S) (start : Int) (i : CacheIs S) (now : Int) (c : CacheCall S) : Prop :=
  start ≤ now ∧ now ≤ start + 4 * 60 * 60 * 1000 ∧ ProperCall C i c ∧
  match c with
  | .insert k _ => NoSlash k
  | .insertMany items => ∀ x ∈ items, NoSlash x.key ∧ start + 4 * 60 * 60 * 1000 < 1000 * x.expiry
  | .remove k vs => FromTheEnd (i.holds k) vs
  | .expireAt _ t => start + 4 * 60 * 60 * 1000 < 1000 * t
  | .store s => trimSlashes (C.url s) = C.url s
  | .load u => trimSlashes u = u
  | .restore _ l _ => i.lock = none ∧ ∀ s ∈ l, trimSlashes (C.url s) = C.url s
  | _ => True

/-- Two answers say the same, whatever the order of lists. -/
def Alike {S : Type} : CacheAns S → CacheAns S → Prop
  | .values l, .values l' => l.Perm l'
  | .names l, .names l' => l.Perm l'
  | .states l, .states l' => l.Perm l'
  | a, b => a = b

/-- Two lists of answers say the same, one by one. -/
def AllAlike {S : Type} : List (CacheAns S) → List (CacheAns S) → Prop
  | [], [] => True
  | a :: as, b :: bs => Alike a b ∧ AllAlike as bs
  | _, _ => False

end Verif.Spec
