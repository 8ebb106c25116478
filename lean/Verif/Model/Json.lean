import Verif.Model.Time
import Verif.Model.Epoch
import Verif.Model.Issuers
import Verif.Model.Inters
import Verif.Spec.Json
/-!
The two JSON documents that the programs hand to each other: the log states (in Redis and in `ct-logs.json`) and the enrolled issuers (`enrolled.json`). What is written is modelled down to the characters, as Go's package `encoding/json` writes it
(go/go.mod:32, Go 1.24); what is read is modelled from the parsed value on. The reading of JSON and of dates themselves is left to parameters.
-/
namespace Verif

/-! ### writing -/

/-- A Go string as the encoder sees it: characters, and octets that are not part of a UTF-8 encoding. -/
inductive Rune where
  | ok (c : Char)
  | bad (b : UInt8)
deriving DecidableEq

/-- `\u` and four hexadecimal digits. -/
def uEscape (n : Nat) : Text := '\\' :: 'u' :: [hexDigit (n / 4096 % 16), hexDigit (n / 256 % 16), hexDigit (n / 16 % 16), hexDigit (n % 16)]

/-- One character in `appendString` of `encoding/json`, with escaping for HTML: the default of both `Marshal` and `Encoder`. -/
def escapeChar (c : Char) : Text :=
  if c = '"' ∨ c = '\\' then ['\\', c]
  else if c.toNat = 8 then ['\\', 'b']
  else if c.toNat = 12 then ['\\', 'f']
  else if c.toNat = 10 then ['\\', 'n']
  else if c.toNat = 13 then ['\\', 'r']
  else if c.toNat = 9 then ['\\', 't']
  else if c.toNat < 32 ∨ c = '<' ∨ c = '>' ∨ c = '&' ∨ c.toNat = 8232 ∨ c.toNat = 8233 then uEscape c.toNat
  else [c]

/-- The same for any rune: an octet that is not UTF-8 is written as the replacement character. -/
def escapeRune : Rune → Text
  | .ok c => escapeChar c
  | .bad _ => uEscape 65533

/-- A string. -/
def goString (s : List Rune) : Text := '"' :: ((s.map escapeRune).flatten ++ ['"'])

/-- A `time.Time`: seconds since 1970, nanoseconds, and the offset of its zone in minutes. Simplification: no zone with a fraction of a minute. -/
structure GoTime where
  sec : Int
  nsec : Nat
  off : Int

/-- Nine digits. -/
def dec9 (n : Nat) : Text :=
  [decDigit (n / 100000000 % 10), decDigit (n / 10000000 % 10), decDigit (n / 1000000 % 10), decDigit (n / 100000 % 10), decDigit (n / 10000 % 10),
   decDigit (n / 1000 % 10), decDigit (n / 100 % 10), decDigit (n / 10 % 10), decDigit (n % 10)]

/-- The layout element `.999999999`: no trailing zeros. -/
def fracText (ns : Nat) : Text := if ns = 0 then [] else '.' :: ((dec9 ns).reverse.dropWhile (fun c => decide (c = '0'))).reverse

/-- The layout element `Z07:00`. -/
def zoneText (off : Int) : Text := if off = 0 then ['Z'] else (if off < 0 then '-' else '+') :: (dec2 (off.natAbs / 60) ++ ':' :: dec2 (off.natAbs % 60))

/-- `Time.MarshalJSON` without the quotes; `none` is the error for years and offsets that RFC 3339 does not have. -/
def timeText (t : GoTime) : Option Text :=
  let l := t.sec + t.off * 60
  let c := civilOfDays (l / 86400)
  let r := (l % 86400).toNat
  if 0 ≤ c.year ∧ c.year ≤ 9999 ∧ t.off.natAbs < 1440 then
    some (dec4 c.year.toNat ++ '-' :: (dec2 c.month.toNat ++ '-' :: (dec2 c.day.toNat ++ 'T' ::
      (dec2 (r / 3600) ++ ':' :: (dec2 (r / 60 % 60) ++ ':' :: (dec2 (r % 60) ++ (fracText t.nsec ++ zoneText t.off)))))))
  else none

/-- The kinds of fields. -/
inductive GoVal where
  | str (s : List Rune)
  | uint (n : UInt64)
  | bool (b : Bool)
  | time (t : GoTime)

/-- A field. -/
def goVal : GoVal → Option Text
  | .str s => some (goString s)
  | .uint n => some (natText n.toNat)
  | .bool true => some "true".toList
  | .bool false => some "false".toList
  | .time t => (timeText t).map (fun x => '"' :: (x ++ ['"']))

/-- One member of an object. -/
def goMember (m : Text × GoVal) : Option Text := (goVal m.2).map (fun x => goString (m.1.map .ok) ++ ':' :: x)

/-- The members of a struct, separated by commas; `none` is an error. -/
def goMembers : List (Text × GoVal) → Option Text
  | [] => some []
  | [m] => goMember m
  | m :: ms =>
    match goMember m, goMembers ms with
    | some a, some b => some (a ++ ',' :: b)
    | _, _ => none

/-- A struct: `json.Marshal`. -/
def goStruct (ms : List (Text × GoVal)) : Option Text := (goMembers ms).map (fun t => '{' :: (t ++ ['}']))

/-- The elements of a slice, separated by commas. -/
def goElems : List (List (Text × GoVal)) → Option Text
  | [] => some []
  | [e] => goStruct e
  | e :: es =>
    match goStruct e, goElems es with
    | some a, some b => some (a ++ ',' :: b)
    | _, _ => none

/-- `Encoder.Encode` of a slice of structs: the text with a line feed behind it. -/
def goSlice (l : List (List (Text × GoVal))) : Option Text := (goElems l).map (fun t => '[' :: (t ++ [']', '\n']))

/-! ### the documents -/

/-- `CTLogState` (go/types.go:137-146) in memory. -/
structure LogMem where
  logID : List Rune
  mmd : UInt64
  shortURL : List Rune
  minEntry : UInt64
  maxEntry : UInt64
  minTimestamp : UInt64
  maxTimestamp : UInt64
  lastUpdateTime : GoTime

/-- Its fields. The tags are for a database (`db:`), so that JSON has the names of the fields. -/
def LogMem.fields (s : LogMem) : List (Text × GoVal) :=
  [("LogID".toList, .str s.logID), ("MMD".toList, .uint s.mmd), ("ShortURL".toList, .str s.shortURL), ("MinEntry".toList, .uint s.minEntry), ("MaxEntry".toList, .uint s.maxEntry),
   ("MinTimestamp".toList, .uint s.minTimestamp), ("MaxTimestamp".toList, .uint s.maxTimestamp), ("LastUpdateTime".toList, .time s.lastUpdateTime)]

/-- What `StoreLogState` puts into Redis (go/storage/rediscache.go:227-234). -/
def stateText (s : LogMem) : Option Text := goStruct s.fields

/-- What `Commit` and aggregate-known write to `ct-logs.json` (go/storage/certdatabase.go:586-589, aggregate-known.go:196-199). -/
def statesText (l : List LogMem) : Option Text := goSlice (l.map LogMem.fields)

/-- `EnrolledIssuer` (go/rootprogram/issuers.go:42-48) in memory. -/
structure IssuerMem where
  uniqueID : List Rune
  pubKeyHash : List Rune
  subject : List Rune
  pem : List Rune
  partitioned : Bool

/-- Its fields. -/
def IssuerMem.fields (e : IssuerMem) : List (Text × GoVal) :=
  [("uniqueID".toList, .str e.uniqueID), ("pubKeyHash".toList, .str e.pubKeyHash), ("subject".toList, .str e.subject), ("pem".toList, .str e.pem), ("usesPartitionedCrls".toList, .bool e.partitioned)]

/-- What `SaveIssuersList` writes to `enrolled.json` (go/rootprogram/issuers.go:336-340). -/
def issuersText (l : List IssuerMem) : Option Text := goSlice (l.map IssuerMem.fields)

/-! ### reading: Go -/

/-- What the readers use: a JSON parser and `Time.UnmarshalJSON`. -/
structure Readers where
  json : Text → Option JVal
  time : Text → Option (Int × Nat)

/-- ASCII lower case. Simplification: `encoding/json` also folds two other characters to `k` and `s`. -/
def lowerChar (c : Char) : Char := if 65 ≤ c.toNat ∧ c.toNat ≤ 90 then Char.ofNat (c.toNat + 32) else c

/-- The field for a key: the one with that name, else the first with that name in another case. -/
def fieldFor (names : List Text) (k : Text) : Option Text :=
  if k ∈ names then some k else names.find? (fun n => decide (n.map lowerChar = k.map lowerChar))

/-- A log state as it is read. -/
structure LogRead where
  logID : Text
  mmd : Nat
  shortURL : Text
  minEntry : Nat
  maxEntry : Nat
  minTimestamp : Nat
  maxTimestamp : Nat
  sec : Int
  nsec : Nat
deriving DecidableEq

/-- The zero value: 1 January of the year 1. -/
def LogRead.zero : LogRead := ⟨[], 0, [], 0, 0, 0, 0, -62135596800, 0⟩

/-- A string for a field of type `string`; `null` leaves the field as it is, other values are errors. -/
def asText (old : Text) : JVal → Option Text
  | .str t => some t
  | .null => some old
  | _ => none

/-- A number for a field of type `uint64`. -/
def asUint (old : Nat) : JVal → Option Nat
  | .num lit => parseUint64 lit
  | .null => some old
  | _ => none

/-- A boolean. -/
def asBool (old : Bool) : JVal → Option Bool
  | .bool b => some b
  | .null => some old
  | _ => none

/-- A time (`Time.UnmarshalJSON`). -/
def asTime (rt : Text → Option (Int × Nat)) (old : Int × Nat) : JVal → Option (Int × Nat)
  | .str t => rt t
  | .null => some old
  | _ => none

/-- The names of the fields. -/
def logNames : List Text :=
  ["LogID".toList, "MMD".toList, "ShortURL".toList, "MinEntry".toList, "MaxEntry".toList, "MinTimestamp".toList, "MaxTimestamp".toList, "LastUpdateTime".toList]

/-- One member of the object; members that are no fields are ignored. -/
def LogRead.set (rt : Text → Option (Int × Nat)) (s : LogRead) (m : Text × JVal) : Option LogRead :=
  match fieldFor logNames m.1 with
  | none => some s
  | some n =>
    if n = "LogID".toList then (asText s.logID m.2).map (fun x => { s with logID := x })
    else if n = "MMD".toList then (asUint s.mmd m.2).map (fun x => { s with mmd := x })
    else if n = "ShortURL".toList then (asText s.shortURL m.2).map (fun x => { s with shortURL := x })
    else if n = "MinEntry".toList then (asUint s.minEntry m.2).map (fun x => { s with minEntry := x })
    else if n = "MaxEntry".toList then (asUint s.maxEntry m.2).map (fun x => { s with maxEntry := x })
    else if n = "MinTimestamp".toList then (asUint s.minTimestamp m.2).map (fun x => { s with minTimestamp := x })
    else if n = "MaxTimestamp".toList then (asUint s.maxTimestamp m.2).map (fun x => { s with maxTimestamp := x })
    else (asTime rt (s.sec, s.nsec) m.2).map (fun x => { s with sec := x.1, nsec := x.2 })

/-- All members one after the other. -/
def setAll {S : Type} (set : S → Text × JVal → Option S) : S → List (Text × JVal) → Option S
  | s, [] => some s
  | s, m :: ms =>
    match set s m with
    | some s1 => setAll set s1 ms
    | none => none

/-- A struct from a value. -/
def asStruct {S : Type} (set : S → Text × JVal → Option S) (zero : S) : JVal → Option S
  | .obj ms => setAll set zero ms
  | .null => some zero
  | _ => none

/-- A slice of structs from a value. -/
def asSlice {S : Type} (set : S → Text × JVal → Option S) (zero : S) : JVal → Option (List S)
  | .arr l => l.mapM (asStruct set zero)
  | .null => some []
  | _ => none

/-- `LoadLogState` from the value in Redis (go/storage/rediscache.go:236-247); likewise in `Migrate` (212-215) and `LoadAllLogStates` (265-268). -/
def readState (R : Readers) (t : Text) : Option LogRead := (R.json t).bind (asStruct (LogRead.set R.time) LogRead.zero)

/-- `GetCTLogsFromStorage` (go/storage/certdatabase.go:315-332). Simplification: `Decode` ignores what is behind the value, `R.json` need not. -/
def readStates (R : Readers) (t : Text) : Option (List LogRead) := (R.json t).bind (asSlice (LogRead.set R.time) LogRead.zero)

/-- The names of the fields of `EnrolledIssuer`. -/
def issuerNames : List Text := ["uniqueID".toList, "pubKeyHash".toList, "subject".toList, "pem".toList, "usesPartitionedCrls".toList]

/-- An enrolled issuer as it is read. -/
structure IssuerRead where
  uniqueID : Text
  pubKeyHash : Text
  subject : Text
  pem : Text
  partitioned : Bool
deriving DecidableEq

/-- One member. -/
def IssuerRead.set (s : IssuerRead) (m : Text × JVal) : Option IssuerRead :=
  match fieldFor issuerNames m.1 with
  | none => some s
  | some n =>
    if n = "uniqueID".toList then (asText s.uniqueID m.2).map (fun x => { s with uniqueID := x })
    else if n = "pubKeyHash".toList then (asText s.pubKeyHash m.2).map (fun x => { s with pubKeyHash := x })
    else if n = "subject".toList then (asText s.subject m.2).map (fun x => { s with subject := x })
    else if n = "pem".toList then (asText s.pem m.2).map (fun x => { s with pem := x })
    else (asBool s.partitioned m.2).map (fun x => { s with partitioned := x })

/-- The list that `LoadEnrolledIssuers` decodes (go/rootprogram/issuers.go:349-359). -/
def readIssuers (R : Readers) (t : Text) : Option (List IssuerRead) := (R.json t).bind (asSlice IssuerRead.set ⟨[], [], [], [], false⟩)

/-! ### reading: Rust -/

/-- The value of a field that must be there exactly once: `serde` refuses a missing and a repeated field. -/
def serdeField (ms : List (Text × JVal)) (k : Text) : Option Text :=
  match ms.filter (fun m => decide (m.1 = k)) with
  | [(_, .str t)] => some t
  | _ => none

/-- `EnrolledRecord` (rust-query-crlite/src/main.rs:98-103): identifier and PEM text; other members are ignored. -/
def asRecord : JVal → Option (Text × Text)
  | .obj ms =>
    match serdeField ms "uniqueID".toList, serdeField ms "pem".toList with
    | some u, some p => some (u, p)
    | _, _ => none
  | _ => none

/-- `enrolled.json` as the client fetches it (rust-query-crlite/src/main.rs:138-141). -/
def readRecords (R : Readers) (t : Text) : Option (List (Text × Text)) :=
  match R.json t with
  | some (.arr l) => l.mapM asRecord
  | _ => none

/-! ### reading: Python -/

/-- `entry[k]` of a dictionary: the last member counts. -/
def dictGet (ms : List (Text × JVal)) (k : Text) : Option JVal := (ms.reverse.find? (fun m => decide (m.1 = k))).map Prod.snd

/-- The text of a value, if it is a string. -/
def jsonStr : JVal → Option Text
  | .str t => some t
  | _ => none

/-- An entry of `enrolled.json` in the publisher (moz_kinto_publisher/main.py:503-509). Simplification: `attachment`, `derHash` and `id`, which the entries do not have, are taken to be absent unless strings (an attachment is an object). -/
def pyEntry : JVal → Option RawInter
  | .obj ms =>
    some
      { pem := (dictGet ms "pem".toList).bind jsonStr
        attachment := (dictGet ms "attachment".toList).map (fun _ => ⟨false, [], []⟩)
        pubKeyHash := (dictGet ms "pubKeyHash".toList).bind jsonStr
        derHash := (dictGet ms "derHash".toList).bind jsonStr
        hasSubject := (dictGet ms "subject".toList).isSome
        id := (dictGet ms "id".toList).bind jsonStr }
  | _ => none

/-- The entries that `load_local_intermediates` goes through. -/
def pyEntries (R : Readers) (t : Text) : Option (List RawInter) :=
  match R.json t with
  | some (.arr l) => l.mapM pyEntry
  | _ => none

end Verif
