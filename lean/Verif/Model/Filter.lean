import Verif.Model.SerialFile
import Verif.Model.Issuers
/-!
The filter builder rust-create-cascade: reading the known and revoked directories, what is put into a filter, counting, revocation sets, deltas and stashes. Directories are lists of (file name, text). `none` is a
panic (the program stops). `HashSet`s are lists; parallel iteration is sequential since the parts do not share state.
-/
namespace Verif

/-- A directory: file names with contents, in the order of `read_dir`. -/
abbrev Dir := List (Text × Text)

/-- `list_issuer_file_pairs` (rust-create-cascade/src/main.rs:292-314). -/
def listIssuerFilePairs (revoked known : Dir) : List (Text × Option Text × Text) :=
  known.map (fun e => (e.1, assocGet revoked e.1, e.2))

/-- Apply `f` to all pairs and put the results together; a panic in one of them stops the program. -/
def forPairs {α : Type} (f : Text → Option Text → Text → Option (List α)) : List (Text × Option Text × Text) → Option (List α)
  | [] => some []
  | (i, r, k) :: rest =>
    match f i r k, forPairs f rest with
    | some a, some b => some (a ++ b)
    | _, _ => none

/-- The revoked file of a pair as a list, empty if there is none (`RevokedSerialAndReasonIterator::empty`, `unwrap_or_default`; main.rs:188-193, 378-380, clubcard_helper.rs:68-73, 94-96). -/
def revokedOf (rs : ReasonSet) : Option Text → Option (List (Text × Reason))
  | none => some []
  | some t => readRevokedFile rs t

/-- The loop of `include` (cascade_helper.rs:33-41) and of `clubcard_do_one_issuer` (clubcard_helper.rs:31-39): `set` is `revoked_serial_set`, from which included serials are removed. -/
def includeLoop (issuer : Bytes) : List Text → List (Nat × Text) → Option (List Bytes)
  | _, [] => some []
  | set, (_, s) :: rest =>
    if s ∈ set then
      match hexDecode s, includeLoop issuer (set.filter (fun x => decide (x ≠ s))) rest with
      | some b, some r => some (crliteKey issuer b :: r)
      | _, _ => none
    else includeLoop issuer set rest

/-- One pair: read both files, decode the issuer, run the loop. -/
def includeOne (rs : ReasonSet) (i : Text) (r : Option Text) (k : Text) : Option (List Bytes) :=
  match decodeIssuer i, revokedOf rs r, readKnownFile k with
  | some issuer, some rev, some known => includeLoop issuer (rev.map Prod.fst) known
  | _, _, _ => none

/-- The cascade only looks at pairs with a revoked file (main.rs:487-503). -/
def includeOneCascade (rs : ReasonSet) (i : Text) (r : Option Text) (k : Text) : Option (List Bytes) :=
  match r with
  | none => some []
  | some t => includeOne rs i (some t) k

/-- `include_all` of the cascade: the keys given to `CascadeBuilder::include`, in order. -/
def includeAllCascade (rs : ReasonSet) (revoked known : Dir) : Option (List Bytes) := forPairs (includeOneCascade rs) (listIssuerFilePairs revoked known)

/-- `include_all` of the clubcard (clubcard_helper.rs:61-84): the keys inserted into the approximate ribbons. -/
def includeAllClubcard (rs : ReasonSet) (revoked known : Dir) : Option (List Bytes) := forPairs (includeOne rs) (listIssuerFilePairs revoked known)

/-- `clubcard_do_one_issuer` (clubcard_helper.rs:21-42) with the size of the universe that it announces: the loop above with the counter `universe_size` (lines 30-32, 40). -/
def clubcardLoop (issuer : Bytes) : List Text → Nat → List (Nat × Text) → Option (List Bytes × Nat)
  | _, n, [] => some ([], n)
  | set, n, (_, s) :: rest =>
    if s ∈ set then
      match hexDecode s, clubcardLoop issuer (set.filter (fun x => decide (x ≠ s))) (n + 1) rest with
      | some b, some (keys, m) => some (crliteKey issuer b :: keys, m)
      | _, _ => none
    else clubcardLoop issuer set (n + 1) rest

/-- One pair: the keys of the approximate ribbon and the size of its universe. -/
def clubcardOne (rs : ReasonSet) (i : Text) (r : Option Text) (k : Text) : Option (List Bytes × Nat) :=
  match decodeIssuer i, revokedOf rs r, readKnownFile k with
  | some issuer, some rev, some known => clubcardLoop issuer (rev.map Prod.fst) 0 known
  | _, _, _ => none

/-- The loop of the clubcard's `exclude` (clubcard_helper.rs:98-106): every known key with its status. -/
def statusLoop (issuer : Bytes) (set : List Text) : List (Nat × Text) → Option (List (Bytes × Bool))
  | [] => some []
  | (_, s) :: rest =>
    match hexDecode s, statusLoop issuer set rest with
    | some b, some r => some ((crliteKey issuer b, decide (s ∈ set)) :: r)
    | _, _ => none

/-- One pair for `exclude` of the clubcard. -/
def statusOne (rs : ReasonSet) (i : Text) (r : Option Text) (k : Text) : Option (List (Bytes × Bool)) :=
  match decodeIssuer i, revokedOf rs r, readKnownFile k with
  | some issuer, some rev, some known => statusLoop issuer (rev.map Prod.fst) known
  | _, _, _ => none

/-- `exclude_all` of the clubcard (main.rs:505-526 with clubcard_helper.rs:86-109): the keys inserted into the exact ribbons, with their status. -/
def statusAll (rs : ReasonSet) (revoked known : Dir) : Option (List (Bytes × Bool)) := forPairs (statusOne rs) (listIssuerFilePairs revoked known)

/-- The loop of the cascade's `exclude` (cascade_helper.rs:58-63). -/
def excludeLoop (issuer : Bytes) (set : List Text) : List (Nat × Text) → Option (List Bytes)
  | [] => some []
  | (_, s) :: rest =>
    if s ∈ set then excludeLoop issuer set rest
    else
      match hexDecode s, excludeLoop issuer set rest with
      | some b, some r => some (crliteKey issuer b :: r)
      | _, _ => none

/-- One pair for `exclude` of the cascade (cascade_helper.rs:47-65). -/
def excludeOne (rs : ReasonSet) (i : Text) (r : Option Text) (k : Text) : Option (List Bytes) :=
  match decodeIssuer i, revokedOf rs r, readKnownFile k with
  | some issuer, some rev, some known => excludeLoop issuer (rev.map Prod.fst) known
  | _, _, _ => none

/-- `exclude_all` of the cascade. -/
def excludeAllCascade (rs : ReasonSet) (revoked known : Dir) : Option (List Bytes) := forPairs (excludeOne rs) (listIssuerFilePairs revoked known)

/-- `check_all` (main.rs:540-556, cascade_helper.rs:79-95, clubcard_helper.rs:120-141): every known serial is looked up in the finished filter and the answer compared. `false` is a failed assertion. -/
def checkAll (rs : ReasonSet) (revoked known : Dir) (contains : Bytes → Bool) : Bool :=
  match statusAll rs revoked known with
  | none => false
  | some l => l.all (fun e => contains e.1 == e.2)

/-- `create_clubcard` (clubcard_helper.rs:143-184) with an arbitrary builder and serialization: `build` gets the keys to include and all known keys with status, and gives the reloaded filter. The filter is written
only if the check passes. -/
def createClubcard {F : Type} (build : List Bytes → List (Bytes × Bool) → Option F) (contains : F → Bytes → Bool) (rs : ReasonSet) (revoked known : Dir) : Option F :=
  match includeAllClubcard rs revoked known, statusAll rs revoked known with
  | some inc, some st =>
    match build inc st with
    | some f => if checkAll rs revoked known (contains f) then some f else none
    | none => none
  | _, _ => none

/-! ### counting -/

/-- `HashMap<Serial, Reason>` from the iterator (main.rs:228-232): the last reason of a serial wins. -/
def reasonOf (rev : List (Text × Reason)) (s : Text) : Option Reason := assocGet rev.reverse s

/-- `BlockStats` (main.rs:332-340) without the size estimates; `reasons` lists the reasons added to the histogram. -/
structure Counts where
  revoked : Nat
  ok : Nat
  reasons : List Reason
deriving DecidableEq

/-- The loop of `count` (main.rs:382-391): the set of known revoked serials, the count of others, the reasons. -/
def countLoop (rev : List (Text × Reason)) : List (Nat × Text) → List Text → Nat → List Reason → List Text × Nat × List Reason
  | [], set, ok, rsn => (set, ok, rsn)
  | (_, s) :: rest, set, ok, rsn =>
    match reasonOf rev s with
    | some r => countLoop rev rest (setInsert set s) ok (rsn ++ [r])
    | none => countLoop rev rest set (ok + 1) rsn

/-- `count` (main.rs:367-409). -/
def countOne (rev : List (Text × Reason)) (known : List (Nat × Text)) : Counts :=
  let x := countLoop rev known [] 0 []
  ⟨x.1.length, x.2.1, x.2.2⟩

/-- One pair in `count_all`. -/
def countPair (rs : ReasonSet) (r : Option Text) (k : Text) : Option Counts :=
  match revokedOf rs r, readKnownFile k with
  | some rev, some known => some (countOne rev known)
  | _, _ => none

/-- `BlockStats::merge` (main.rs:342-349). -/
def Counts.merge (a b : Counts) : Counts := ⟨a.revoked + b.revoked, a.ok + b.ok, a.reasons ++ b.reasons⟩

/-- The sum over the pairs in `count_all` (main.rs:413-461). -/
def countPairs (rs : ReasonSet) : List (Text × Option Text × Text) → Option Counts
  | [] => some ⟨0, 0, []⟩
  | (_, r, k) :: rest =>
    match countPair rs r k, countPairs rs rest with
    | some a, some b => some (a.merge b)
    | _, _ => none

/-- `count_all`. -/
def countAll (rs : ReasonSet) (revoked known : Dir) : Option Counts := countPairs rs (listIssuerFilePairs revoked known)

/-! ### revocation set and delta -/

/-- `(*reason) as u8` (main.rs:80-93). -/
def Reason.code : Reason → UInt8
  | .unspecified => 0
  | .keyCompromise => 1
  | .caCompromise => 2
  | .affiliationChanged => 3
  | .superseded => 4
  | .cessationOfOperation => 5
  | .certificateHold => 6
  | .removeFromCRL => 8
  | .privilegeWithdrawn => 9
  | .aaCompromise => 10

/-- The loop over the known revoked serials of one issuer (main.rs:605-614): the lines of the delta file and the keys added to the revocation set. -/
def deltaLoop (issuer : Bytes) (prev : List Bytes) (rev : List (Text × Reason)) : List (Nat × Text) → Option (Text × List Bytes)
  | [] => some ([], [])
  | (_, s) :: rest =>
    match reasonOf rev s with
    | none => deltaLoop issuer prev rev rest
    | some r =>
      match hexDecode s, deltaLoop issuer prev rev rest with
      | some b, some (t, keys) =>
        let key := crliteKey issuer b
        some ((if key ∈ prev then t else hexEncode [r.code] ++ s ++ '\n' :: t), key :: keys)
      | _, _ => none

/-- The loop over the pairs (main.rs:596-616): only pairs with a revoked file; a delta file for each of them. -/
def deltaPairs (rs : ReasonSet) (prev : List Bytes) : List (Text × Option Text × Text) → Option (Dir × List Bytes)
  | [] => some ([], [])
  | (_, none, _) :: rest => deltaPairs rs prev rest
  | (i, some rt, kt) :: rest =>
    match decodeIssuer i, readRevokedFile rs rt, readKnownFile kt with
    | some issuer, some rev, some known =>
      match deltaLoop issuer prev rev known, deltaPairs rs prev rest with
      | some (t, keys), some (dir, keys') => some ((i, t) :: dir, keys ++ keys')
      | _, _ => none
    | _, _, _ => none

/-- `write_revset_and_delta` (main.rs:576-625): the delta directory and the revocation set (a set, as a list). `prev` is `none` if the previous set cannot be read, which gives the empty set (585-594). -/
def writeRevsetAndDelta (rs : ReasonSet) (prev : Option (List Bytes)) (revoked known : Dir) : Option (Dir × List Bytes) :=
  deltaPairs rs (match prev with | some p => p | none => []) (listIssuerFilePairs revoked known)

/-! ### stash -/

/-- `(n as u32).to_le_bytes()`. -/
def u32LE (n : Nat) : Bytes := [UInt8.ofNat (n % 256), UInt8.ofNat (n / 256 % 256), UInt8.ofNat (n / 65536 % 256), UInt8.ofNat (n / 16777216 % 256)]

/-- The serials of one stash entry (main.rs:665-669); `none` is the panic on a serial that is not hexadecimal. `as u8` keeps the low byte of the length. -/
def stashSerials : List Text → Option Bytes
  | [] => some []
  | s :: rest =>
    match hexDecode s, stashSerials rest with
    | some b, some r => some (UInt8.ofNat b.length :: b ++ r)
    | _, _ => none

/-- One entry (main.rs:655-670). `order` is the iteration order of the `HashSet`. -/
def stashEntry (order : List Text → List Text) (rs : ReasonSet) (name content : Text) : Option Bytes :=
  match decodeIssuer name, readRevokedFile rs content with
  | some issuer, some l =>
    let set := (l.map Prod.fst).foldl setInsert []
    if set = [] then some []
    else
      match stashSerials (order set) with
      | some b => some (u32LE set.length ++ UInt8.ofNat issuer.length :: issuer ++ b)
      | none => none
  | _, _ => none

/-- `write_stash` (main.rs:641-677) over the delta directory. -/
def writeStash (order : List Text → List Text) (rs : ReasonSet) : Dir → Option Bytes
  | [] => some []
  | (i, t) :: rest =>
    match stashEntry order rs i t, writeStash order rs rest with
    | some a, some b => some (a ++ b)
    | _, _ => none

/-! ### a run -/

/-- The outputs of one run of the program. -/
structure RunOut (F : Type) where
  filter : F
  deltaFilter : F
  deltaDir : Dir
  revset : List Bytes
  stash : Bytes
deriving DecidableEq

/-- `main` (main.rs:713-1000) for clubcards: filter, revocation set and delta, stash, delta filter. -/
def createRun {F : Type} (build : List Bytes → List (Bytes × Bool) → Option F) (contains : F → Bytes → Bool) (order : List Text → List Text) (rs drs : ReasonSet)
    (prev : Option (List Bytes)) (revoked known : Dir) : Option (RunOut F) :=
  match createClubcard build contains rs revoked known, writeRevsetAndDelta drs prev revoked known with
  | some f, some (dir, revset) =>
    match writeStash order drs dir, createClubcard build contains drs dir known with
    | some st, some df => some ⟨f, df, dir, revset, st⟩
    | _, _ => none
  | _, _ => none

end Verif
