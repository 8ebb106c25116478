import Verif.Model.Issuers
import Verif.Model.Ingest
/-!
# The settings of the Go programs

go/config/config.go:18-198 with the parsers it calls: `strconv.ParseInt`, `ParseUint` and `ParseBool` for the environment, and the methods `Int`, `Uint64` and `Bool` of a key of `gopkg.in/ini.v1` (v1.67.0, go.mod) for
the file, which call the first two with base 0 and know more words for the truth values. Neither library is in the repository; they are written from their documented behaviour.
A value in the file is the text that the library gives for the key, after its own treatment of quotes, comments and spaces; a key that is not in the file and an empty value are the same to it.
-/
namespace Verif

/-! ### numbers -/

/-- The value of a digit or letter in `strconv.ParseUint` (called in go/config/config.go:42, 65; ini.v1 `Int`, `Uint64`, in 53, 77). -/
def digitOf (c : Char) : Option Nat :=
  if '0' ≤ c ∧ c ≤ '9' then some (c.toNat - 48)
  else if 'a' ≤ c ∧ c ≤ 'z' then some (c.toNat - 87)
  else if 'A' ≤ c ∧ c ≤ 'Z' then some (c.toNat - 55)
  else none

/-- The loop of `strconv.ParseUint` over the characters; `us`: underscores are passed over (base 0 only). The check of the range is made at the end: the number only grows, and a number out of range and an ill-formed
one are both errors. -/
def numLoop (base : Nat) (us : Bool) : Nat → Text → Option Nat
  | n, [] => some n
  | n, c :: cs =>
    if c = '_' ∧ us = true then numLoop base us n cs
    else match digitOf c with
      | none => none
      | some d => if d < base then numLoop base us (base * n + d) cs else none

/-- Base 0 of `strconv.ParseUint` behind a leading zero. The letter counts only if something follows it. -/
def afterZero (t : Text) : Nat × Text :=
  match t with
  | p :: c :: r =>
    if p = 'b' ∨ p = 'B' then (2, c :: r)
    else if p = 'o' ∨ p = 'O' then (8, c :: r)
    else if p = 'x' ∨ p = 'X' then (16, c :: r)
    else (8, t)
  | _ => (8, t)

/-- The base and the digits for base 0 of `strconv.ParseUint`. -/
def basePrefix (t : Text) : Nat × Text :=
  match t with
  | [] => (10, [])
  | z :: r => if z = '0' then afterZero r else (10, t)

/-- The loop of `underscoreOK` of `strconv`: `'^'` at the beginning, `'0'` behind a digit or a base prefix, `'_'` behind an underscore, `'!'` behind anything else. -/
def underscoreLoop (hex : Bool) : Char → Text → Bool
  | i, [] => decide (i ≠ '_')
  | i, c :: cs =>
    if ('0' ≤ c ∧ c ≤ '9') ∨ (hex = true ∧ (('a' ≤ c ∧ c ≤ 'f') ∨ ('A' ≤ c ∧ c ≤ 'F'))) then underscoreLoop hex '0' cs
    else if c = '_' then (if i = '0' then underscoreLoop hex '_' cs else false)
    else if i = '_' then false
    else underscoreLoop hex '!' cs

/-- `underscoreOK` of `strconv` for a text without a sign, which is all that `ParseUint` hands it here. -/
def underscoreOK (t : Text) : Bool :=
  match t with
  | z :: p :: r =>
    if z = '0' ∧ (p = 'x' ∨ p = 'X') then underscoreLoop true '0' r
    else if z = '0' ∧ (p = 'b' ∨ p = 'B' ∨ p = 'o' ∨ p = 'O') then underscoreLoop false '0' r
    else underscoreLoop false '^' t
  | _ => underscoreLoop false '^' t

/-- `strconv.ParseUint(t, 10, bits)` (go/config/config.go:65) and, with `any`, `strconv.ParseUint(t, 0, bits)` (ini.v1 `Uint64`, go/config/config.go:77; `flag.Uint64Var`, 149). -/
def parseUint (any : Bool) (bits : Nat) (t : Text) : Option Nat :=
  if t = [] then none
  else
    match numLoop (if any then (basePrefix t).1 else 10) any 0 (if any then (basePrefix t).2 else t) with
    | none => none
    | some n =>
      if n < 2 ^ bits then
        if any = true ∧ t.contains '_' = true ∧ underscoreOK t = false then none else some n
      else none

/-- The sign of `strconv.ParseInt`, and the text behind it. -/
def splitSign (t : Text) : Bool × Text :=
  match t with
  | [] => (false, [])
  | c :: r => if c = '+' then (false, r) else if c = '-' then (true, r) else (false, t)

/-- `strconv.ParseInt(t, 10, 32)` (go/config/config.go:42) and `strconv.ParseInt(t, 0, 64)` (ini.v1 `Int`, go/config/config.go:53). -/
def parseInt (any : Bool) (bits : Nat) (t : Text) : Option Int :=
  match parseUint any bits (splitSign t).2 with
  | none => none
  | some n =>
    if (splitSign t).1 = true then (if n ≤ 2 ^ (bits - 1) then some (-(n : Int)) else none)
    else if n < 2 ^ (bits - 1) then some (n : Int) else none

/-! ### truth values -/

/-- The words of `strconv.ParseBool` (go/config/config.go:89). -/
def trueWords : List Text := ["1".toList, "t".toList, "T".toList, "true".toList, "TRUE".toList, "True".toList]

/-- The words of `strconv.ParseBool` (go/config/config.go:89). -/
def falseWords : List Text := ["0".toList, "f".toList, "F".toList, "false".toList, "FALSE".toList, "False".toList]

/-- `strconv.ParseBool` (go/config/config.go:89). -/
def parseBoolEnv (t : Text) : Option Bool :=
  if t ∈ trueWords then some true else if t ∈ falseWords then some false else none

/-- `parseBool` of ini.v1 (`Bool`, go/config/config.go:100): more words. -/
def parseBoolFile (t : Text) : Option Bool :=
  if t ∈ trueWords ∨ t ∈ ["YES".toList, "yes".toList, "Yes".toList, "y".toList, "ON".toList, "on".toList, "On".toList] then some true
  else if t ∈ falseWords ∨ t ∈ ["NO".toList, "no".toList, "No".toList, "n".toList, "OFF".toList, "off".toList, "Off".toList] then some false
  else none

/-! ### all settings -/

/-- `CTConfig` (go/config/config.go:18-37), without the settings that are texts and are looked at by nobody but the libraries they are handed to. -/
structure Settings where
  batchSize : Nat
  numThreads : Int
  logExpiredEntries : Bool
  runForever : Bool
  pollingDelay : Nat
  updateInterval : Nat
  redisTimeout : Text
  statsdPort : Int
deriving DecidableEq

/-- Texts by name: the environment, or the file. -/
abbrev Texts := Text → Option Text

/-- `confInt` (go/config/config.go:39-59). -/
def confInt (env file : Texts) (key : Text) (dflt : Int) : Int := confParsed (parseInt false 32) (parseInt true 64) (env key) (file key) dflt

/-- `confUint64` (go/config/config.go:61-83). -/
def confUint64 (env file : Texts) (key : Text) (dflt : Nat) : Nat := confParsed (parseUint false 64) (parseUint true 64) (env key) (file key) dflt

/-- `confBool` (go/config/config.go:85-107). -/
def confBool (env file : Texts) (key : Text) (dflt : Bool) : Bool := confParsed parseBoolEnv parseBoolFile (env key) (file key) dflt

/-- `-batchSize` (go/config/config.go:147-151): 0 if it is not given; `none`: it is ill-formed, and `flag.Parse` ends the program. -/
def flagBatchSize (arg : Option Text) : Option Nat :=
  match arg with
  | none => some 0
  | some t => parseUint true 64 t

/-- `Init` (go/config/config.go:145-198). `file` gives nothing when there is no file or it cannot be read, which is only logged (167-169). `none`: the program ends. -/
def initSettings (env file : Texts) (arg : Option Text) : Option Settings :=
  match flagBatchSize arg with
  | none => none
  | some fl =>
    some { batchSize := confBatchSize (parseUint false 64) (parseUint true 64) (env "batchSize".toList) (file "batchSize".toList) fl
           numThreads := confInt env file "numThreads".toList 1
           logExpiredEntries := confBool env file "logExpiredEntries".toList false
           runForever := confBool env file "runForever".toList false
           pollingDelay := confUint64 env file "pollingDelay".toList 600
           updateInterval := confUint64 env file "remoteSettingsUpdateInterval".toList 3600
           redisTimeout := confString (env "redisTimeout".toList) (file "redisTimeout".toList) "5s".toList
           statsdPort := confInt env file "statsdPort".toList 8125 }

/-! ### what is done with them -/

/-- How many workers the loops `for t := 0; t < *ctconfig.NumThreads; t++` start (aggregate-known.go:248, aggregate-crls.go:431, 445). -/
def Settings.workers (s : Settings) : Nat := s.numThreads.toNat

/-- `make([]storage.SetMemberWithExpiry, 0, batchSize)` (go/cmd/ct-fetch/ct-fetch.go:226-227) for items of `size` bytes: Go panics, which ends the process, when the memory would be larger than its address space
of 2^48 bytes (64-bit Linux). That there may be less memory is not modelled. -/
def Settings.queueMade (s : Settings) (size : Nat) : Bool := decide (s.batchSize * size ≤ 281474976710656)

/-- The nanoseconds between two looks at the list of logs (go/cmd/ct-fetch/ct-fetch.go:423), a product of `int64`; `time.After` of zero or less does not wait. -/
def Settings.updateWait (s : Settings) : Int := asInt64 (asInt64 s.updateInterval * 1000000000)

end Verif
