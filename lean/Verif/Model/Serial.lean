import Verif.Model.Text
/-!
Serial numbers, cached entries and coverage: go/types.go and go/storage/types.go.
-/
namespace Verif

/-- go/types.go:253-263: a serial is its raw bytes; `BinaryString` is the identity. -/
abbrev Serial := Bytes

/-! ### base64 (Go `encoding/base64`, Rust `base64`) -/

/-- Digit of the standard (`url = false`) or URL-safe (`url = true`) alphabet. -/
def b64Digit (url : Bool) (n : Nat) : Char :=
  if n < 26 then Char.ofNat (65 + n)
  else if n < 52 then Char.ofNat (71 + n)
  else if n < 62 then Char.ofNat (n - 4)
  else if n = 62 then (if url then '-' else '+')
  else (if url then '_' else '/')

/-- Value of a base64 digit. -/
def b64Val (url : Bool) (c : Char) : Option Nat :=
  let n := c.toNat
  if 65 ≤ n ∧ n ≤ 90 then some (n - 65)
  else if 97 ≤ n ∧ n ≤ 122 then some (n - 71)
  else if 48 ≤ n ∧ n ≤ 57 then some (n + 4)
  else if c = (if url then '-' else '+') then some 62
  else if c = (if url then '_' else '/') then some 63
  else none

/-- Padded base64 encoding (go/types.go:247-251 uses `URLEncoding`; log ids use `StdEncoding`). -/
def b64Encode (url : Bool) : Bytes → Text
  | [] => []
  | [a] =>
    let n := a.toNat * 65536
    [b64Digit url (n / 262144), b64Digit url (n / 4096 % 64), '=', '=']
  | [a, b] =>
    let n := a.toNat * 65536 + b.toNat * 256
    [b64Digit url (n / 262144), b64Digit url (n / 4096 % 64), b64Digit url (n / 64 % 64), '=']
  | a :: b :: c :: rest =>
    let n := a.toNat * 65536 + b.toNat * 256 + c.toNat
    b64Digit url (n / 262144) :: b64Digit url (n / 4096 % 64) :: b64Digit url (n / 64 % 64) ::
      b64Digit url (n % 64) :: b64Encode url rest

/-- Padded base64 decoding (go/types.go:154; rust-create-cascade/src/main.rs:262-267).
Simplification: embedded newlines (ignored by Go) are errors here, and unused trailing
bits are not checked (Go does not check them, Rust does). -/
def b64Decode (url : Bool) : Text → Option Bytes
  | [] => some []
  | [a, b, '=', '='] =>
    match b64Val url a, b64Val url b with
    | some x, some y => some [UInt8.ofNat ((x * 64 + y) / 16)]
    | _, _ => none
  | [a, b, c, '='] =>
    match b64Val url a, b64Val url b, b64Val url c with
    | some x, some y, some z =>
      let n := x * 4096 + y * 64 + z
      some [UInt8.ofNat (n / 1024), UInt8.ofNat (n / 4 % 256)]
    | _, _, _ => none
  | a :: b :: c :: d :: rest =>
    match b64Val url a, b64Val url b, b64Val url c, b64Val url d, b64Decode url rest with
    | some x, some y, some z, some w, some r =>
      let n := x * 262144 + y * 4096 + z * 64 + w
      some (UInt8.ofNat (n / 65536) :: UInt8.ofNat (n / 256 % 256) :: UInt8.ofNat (n % 256) :: r)
    | _, _, _, _, _ => none
  | _ => none

/-! ### cached entries -/

/-- `binary.LittleEndian.PutUint64` (go/storage/types.go:59). -/
def putUint64LE (t : UInt64) : Bytes :=
  (List.range 8).map (fun i => UInt8.ofNat (t.toNat / 256 ^ i % 256))

/-- `binary.LittleEndian.Uint64` (go/storage/types.go:96). -/
def uint64LE : Bytes → Nat
  | [] => 0
  | b :: bs => b.toNat + 256 * uint64LE bs

/-- `SerialCacheKey.NewMember`, the value part (go/storage/types.go:54-63):
timestamp, log id, serial. `[32]byte` is a byte list of length 32. -/
def newMember (timestamp : UInt64) (logId : Bytes) (serial : Serial) : Bytes :=
  putUint64LE timestamp ++ logId ++ serial

/-- `SerialCacheEntry.AsSerial` (go/storage/types.go:78-86). -/
def asSerial (s : Bytes) : Serial :=
  if s.length < 40 then s else s.drop 40

/-- The timestamp read by `IsCovered` (go/storage/types.go:96). -/
def entryTimestamp (s : Bytes) : Nat := uint64LE (s.take 8)

/-- The log id read by `IsCovered` (go/storage/types.go:97). -/
def entryLogId (s : Bytes) : Bytes := (s.drop 8).take 32

/-- `CTLogState` (go/types.go:137-146); `LastUpdateTime` in seconds, `none` for Go's zero time. -/
structure CTLogState where
  logID : Text
  mmd : UInt64
  shortURL : Text
  minEntry : UInt64
  maxEntry : UInt64
  minTimestamp : UInt64
  maxTimestamp : UInt64
  lastUpdateTime : Option Nat
deriving DecidableEq

/-- `CTLogState.KeyID` (go/types.go:153-164). -/
def CTLogState.keyID (o : CTLogState) : Option Bytes :=
  match b64Decode false o.logID with
  | none => none
  | some k => if k.length ≠ 32 then none else some k

/-- `CTLogState.CoverageCutoff` (go/types.go:166-175), with 64-bit wrap-around. -/
def CTLogState.coverageCutoff (o : CTLogState) : UInt64 :=
  let msMMD := o.mmd * 1000
  if o.maxTimestamp < msMMD then 0 else o.maxTimestamp - msMMD

/-- A Go map from log id to cutoff. -/
abbrev CutoffMap := Bytes → Option UInt64

/-- Loop body of `NewCoverageCutoffMap` (go/types.go:181-187). -/
def cutoffStep (m : CutoffMap) (log : CTLogState) : CutoffMap :=
  match log.keyID with
  | none => m
  | some k => fun id => if id = k then some log.coverageCutoff else m id

/-- `NewCoverageCutoffMap` (go/types.go:179-189). -/
def newCoverageCutoffMap (logs : List CTLogState) : CutoffMap :=
  logs.foldl cutoffStep (fun _ => none)

/-- `SerialCacheEntry.IsCovered` (go/storage/types.go:88-108). -/
def isCovered (m : CutoffMap) (s : Bytes) : Bool :=
  if s.length < 40 then true
  else match m (entryLogId s) with
    | none => false
    | some cutoff => decide (entryTimestamp s ≤ cutoff.toNat)

/-! ### deduplication -/

/-- The loop of `SerialList.Dedup` (go/types.go:293-299) on the in-place slice `s`;
`fuel` is the number of remaining iterations, `i` the loop index, `e` is `end`. -/
def dedupLoop : Nat → List Serial → Nat → Nat → List Serial × Nat
  | 0, s, _, e => (s, e)
  | fuel + 1, s, i, e =>
    if s[i]? = s[i - 1]? then dedupLoop fuel s (i + 1) e
    else dedupLoop fuel (s.set e ((s[i]?).getD [])) (i + 1) (e + 1)

/-- Insertion into an ascending list. -/
def insertSerial (x : Serial) : List Serial → List Serial
  | [] => [x]
  | y :: ys => if bytesLe x y then x :: y :: ys else y :: insertSerial x ys

/-- `sort.Sort(s)` with the order of go/types.go:284-286, as an insertion sort. -/
def sortSerials : List Serial → List Serial
  | [] => []
  | x :: xs => insertSerial x (sortSerials xs)

/-- `SerialList.Dedup` (go/types.go:287-301). `sort.Sort` is modelled by an insertion sort; the byte
order is a total order, so every sorting algorithm gives the same list. -/
def dedup (s : List Serial) : List Serial :=
  if s.length < 2 then s
  else
    let s := sortSerials s
    let r := dedupLoop (s.length - 1) s 1 1
    r.1.take r.2

/-! ### serial text forms -/

/-- `NewSerialFromHex` (go/types.go:435-443); `none` is the panic. -/
def newSerialFromHex (t : Text) : Option Serial := hexDecode t

/-- `Serial.MarshalJSON` (go/types.go:269-271): the JSON string of the hex form. Hex digits need no
escaping, so `json.Marshal` only adds quotes. -/
def serialMarshalJSON (s : Serial) : Text := '"' :: (hexEncode s ++ ['"'])

/-- `Serial.UnmarshalJSON` (go/types.go:273-280). `none` is an error; Go would
panic on empty input, which `encoding/json` never passes. -/
def serialUnmarshalJSON (data : Text) : Option Serial :=
  if data.head? ≠ some '"' ∨ data.getLast? ≠ some '"' then none
  else hexDecode (data.drop 1).dropLast

/-! ### revocation reasons -/

/-- One CRL entry extension: whether its OID is the CRLReason OID, and the result of
`asn1.Unmarshal` of its value as ENUMERATED (go/types.go:350-354, 367, 371). The ASN.1
decoder is modelled in `Verif.Model.Der`: `value` is its result, `none` on error. -/
structure CrlExtension where
  isReason : Bool
  value : Option Int

/-- The loop of `Reason` (go/types.go:366-377): `seen` and `reasonCode`. -/
def reasonLoop : List CrlExtension → Bool → Int → Option Int
  | [], _, code => some code
  | ext :: rest, seen, code =>
    if ext.isReason then
      if seen then none
      else match ext.value with
        | none => none
        | some v => reasonLoop rest true v
    else reasonLoop rest seen code

/-- `RevokedCertificateWithRawSerial.Reason` (go/types.go:363-384). -/
def crlReason (exts : List CrlExtension) : Option Int :=
  match reasonLoop exts false 0 with
  | none => none
  | some code => if code < 0 ∨ code > 255 then none else some code

/-- `uint8(reason)`: Go integer conversion keeps the low eight bits. -/
def toUint8 (v : Int) : UInt8 := UInt8.ofNat (v % 256).toNat

/-- `SerialAndReason` (go/types.go:386-396). -/
def serialAndReason (serial : Serial) (exts : List CrlExtension) : Option (Serial × UInt8) :=
  match crlReason exts with
  | none => none
  | some r => some (serial, toUint8 r)

end Verif
