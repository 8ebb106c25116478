import Verif.Model.Serial
/-!
Serial files: written by Go (go/storage/certdatabase.go, go/cmd/aggregate-crls), read by Go and by
Rust (rust-create-cascade/src/main.rs).
-/
namespace Verif

/-- Largest line accepted by `bufio.Scanner` (`MaxScanTokenSize` = 64 KiB, the newline included). -/
def maxScanToken : Nat := 65536

/-- `serialListExpiryLine` (go/storage/certdatabase.go:29-31); `unix` is `aExpDate.Unix()`. -/
def serialListExpiryLine (unix : Int) : Text := '@' :: fmt016x unix

/-- `WriteSerialList` (go/storage/certdatabase.go:33-60): the text it writes when no write fails. -/
def writeSerialList (unix : Int) (serials : List Serial) : Text :=
  serialListExpiryLine unix ++ '\n' :: (serials.map (fun s => hexEncode s ++ ['\n'])).flatten

/-- `bufio.Scanner` over a whole text: `none` when a line is too long (`ErrTooLong`). -/
def scanLines (t : Text) : Option (List Text) :=
  let ls := splitLines t
  if ls.any (fun l => decide (maxScanToken ≤ l.length)) then none else some ls

/-- Result of reading a serial file. -/
inductive ReadResult where
  /-- An error or a panic in `NewSerialFromHex`. -/
  | error
  | ok (serials : List Serial)
deriving DecidableEq

/-- Decode all lines; `none` when one of them is not hexadecimal. -/
def decodeLines : List Text → Option (List Serial)
  | [] => some []
  | l :: ls =>
    match newSerialFromHex l, decodeLines ls with
    | some s, some r => some (s :: r)
    | _, _ => none

/-- `ReadSerialsFromStorage` (go/storage/certdatabase.go:365-399) on the file contents (`none`: no such
file; lines 368-371 return a nil slice, the same as an empty one). Simplification: a too long line is reported before lines preceding it are
decoded; the outcome is an error either way. -/
def readSerialsFromStorage (unix : Int) (file : Option Text) : ReadResult :=
  match file with
  | none => .ok []
  | some t =>
    match scanLines t with
    | none => .error
    | some [] => .ok []
    | some (l :: ls) =>
      if l ≠ serialListExpiryLine unix then .error
      else match decodeLines ls with
        | none => .error
        | some r => .ok r

/-- The known-file reader `KnownSerialIterator` (rust-create-cascade/src/main.rs:235-260): the list of all
items from the current `date` on; `none` is the panic on a malformed date. -/
def knownSerials : List Text → Nat → Option (List (Nat × Text))
  | [], _ => some []
  | l :: ls, date =>
    if l.head? = some '@' then
      match parseHexU64 l.tail with
      | none => none
      | some d => knownSerials ls d
    else
      match knownSerials ls date with
      | none => none
      | some r => some ((date, l) :: r)

/-- `KnownSerialIterator::new` and iteration over a file's text (rust-create-cascade/src/main.rs:239-260). -/
def readKnownFile (t : Text) : Option (List (Nat × Text)) := knownSerials (splitLines t) 0

/-! ### revoked files -/

/-- The text written by `StoreRevokedCertificateList` (go/cmd/aggregate-crls/aggregate-crls.go:474-494)
when not cancelled. -/
def storeRevokedCertificateList (l : List (Serial × UInt8)) : Text :=
  (l.map (fun p => hexEncode [p.2] ++ hexEncode p.1 ++ ['\n'])).flatten

/-- `enum Reason` (rust-create-cascade/src/main.rs:80-93). -/
inductive Reason where
  | unspecified | keyCompromise | caCompromise | affiliationChanged | superseded
  | cessationOfOperation | certificateHold | removeFromCRL | privilegeWithdrawn | aaCompromise
deriving DecidableEq

/-- `impl From<u8> for Reason` (rust-create-cascade/src/main.rs:95-114). -/
def Reason.ofCode (c : Nat) : Reason :=
  if c = 0 then .unspecified
  else if c = 1 then .keyCompromise
  else if c = 2 then .caCompromise
  else if c = 3 then .affiliationChanged
  else if c = 4 then .superseded
  else if c = 5 then .cessationOfOperation
  else if c = 6 then .certificateHold
  else if c = 8 then .removeFromCRL
  else if c = 9 then .privilegeWithdrawn
  else if c = 10 then .aaCompromise
  else .unspecified

/-- `decode_reason` (rust-create-cascade/src/main.rs:116-120); `none` is the panic. -/
def decodeReason (t : Text) : Option Reason :=
  let t := dropPlus t
  if t = [] then none
  else match hexToNatAux t 0 with
    | some n => if n < 256 then some (Reason.ofCode n) else none
    | none => none

/-- `enum ReasonSet` (rust-create-cascade/src/main.rs:168-173). -/
inductive ReasonSet where
  | all | specified | priority
deriving DecidableEq

/-- `skip_reason` (rust-create-cascade/src/main.rs:195-204). -/
def skipReason (rs : ReasonSet) (r : Reason) : Bool :=
  match rs with
  | .all => false
  | .specified => r == .unspecified
  | .priority => !(r == .keyCompromise || r == .cessationOfOperation || r == .privilegeWithdrawn)

/-- `RevokedSerialAndReasonIterator` (rust-create-cascade/src/main.rs:207-220) over all lines; `none` is
the panic when a line is shorter than two characters or its reason is not hexadecimal. -/
def revokedEntries (rs : ReasonSet) : List Text → Option (List (Text × Reason))
  | [] => some []
  | l :: ls =>
    if l.length < 2 then none
    else match decodeReason (l.take 2) with
      | none => none
      | some r =>
        match revokedEntries rs ls with
        | none => none
        | some rest => if skipReason rs r then some rest else some ((l.drop 2, r) :: rest)

/-- Reading a revoked file's text. -/
def readRevokedFile (rs : ReasonSet) (t : Text) : Option (List (Text × Reason)) :=
  revokedEntries rs (splitLines t)

/-- `crlite_key` (rust-create-cascade/src/main.rs:278-282). -/
def crliteKey (issuer serial : Bytes) : Bytes := issuer ++ serial

/-- `decode_issuer` (rust-create-cascade/src/main.rs:262-267); `none` is the panic. -/
def decodeIssuer (t : Text) : Option Bytes :=
  match b64Decode true t with
  | none => none
  | some k => if k.length = 32 then some k else none

/-- `Issuer.ID` (go/types.go:219-225, 247-251): URL-safe base64 of a SHA-256 digest (a parameter). -/
def issuerID (digest : Bytes) : Text := b64Encode true digest

end Verif
