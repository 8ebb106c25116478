import Verif.Model.Config
/-!
Durations in settings: `time.ParseDuration` of Go 1.24, called in go/engine/engine.go:23 and 65, and what is done with the two durations.
-/
namespace Verif

def isDigit (c : Char) : Bool := decide ('0' ≤ c) && decide (c ≤ '9')

/-- `leadingInt` of package time: the number at the beginning, `none` if it is larger than 2^63, and the rest. -/
def leadingInt : Nat → Text → Option (Nat × Text)
  | x, [] => some (x, [])
  | x, c :: r =>
    if isDigit c then
      if x > 9223372036854775808 / 10 then none
      else if x * 10 + (c.toNat - 48) > 9223372036854775808 then none
      else leadingInt (x * 10 + (c.toNat - 48)) r
    else some (x, c :: r)

/-- `unitMap` of package time, in nanoseconds. The sign for micro is U+00B5 or U+03BC. -/
def unitOf (u : Text) : Option Nat :=
  if u = ['n', 's'] then some 1
  else if u = ['u', 's'] ∨ u = [Char.ofNat 0xb5, 's'] ∨ u = [Char.ofNat 0x3bc, 's'] then some 1000
  else if u = ['m', 's'] then some 1000000
  else if u = ['s'] then some 1000000000
  else if u = ['m'] then some 60000000000
  else if u = ['h'] then some 3600000000000
  else none

/-- `(\.[0-9]*)?`: the digits behind a point, and the rest. -/
def leadingFraction (t : Text) : Text × Text :=
  match t with
  | '.' :: r => (r.takeWhile isDigit, r.dropWhile isDigit)
  | _ => ([], t)

/-- A character that ends a unit. -/
def endsUnit (c : Char) : Bool := decide (c = '.') || isDigit c

/-- One turn of the loop of `ParseDuration`: the nanoseconds of one number with its unit, and the rest. `frac` is the number of nanoseconds of the digits behind the point, which Go computes with floating point numbers:
`uint64(float64(f) * (float64(unit) / scale))`. The check that the first character is a digit or a point is contained in that for missing digits. -/
def durTurn (frac : Text → Nat → Nat) (t : Text) : Option (Nat × Text) :=
  match leadingInt 0 t with
  | none => none
  | some (v, s1) =>
    let fr := leadingFraction s1
    if s1.length = t.length ∧ fr.1 = [] then none
    else
      let u := fr.2.takeWhile (fun c => !(endsUnit c))
      match unitOf u with
      | none => none
      | some unit =>
        if v > 9223372036854775808 / unit then none
        else
          let v' := v * unit + (if fr.1.any (fun c => decide (c ≠ '0')) then frac fr.1 unit else 0)
          if v' > 9223372036854775808 then none else some (v', fr.2.dropWhile (fun c => !(endsUnit c)))

/-- The loop of `ParseDuration`; `d` is a `uint64`. The first argument bounds the number of turns; every turn takes at least one character. -/
def durLoop (frac : Text → Nat → Nat) : Nat → Nat → Text → Option Nat
  | _, d, [] => some d
  | 0, _, _ => none
  | n + 1, d, c :: t =>
    match durTurn frac (c :: t) with
    | none => none
    | some (v, rest) => if (d + v) % 18446744073709551616 > 9223372036854775808 then none else durLoop frac n ((d + v) % 18446744073709551616) rest

/-- The sign. -/
def durSign (t : Text) : Bool × Text :=
  match t with
  | '-' :: r => (true, r)
  | '+' :: r => (false, r)
  | _ => (false, t)

/-- `time.ParseDuration`: nanoseconds, `none` is an error. -/
def parseDuration (frac : Text → Nat → Nat) (t : Text) : Option Int :=
  let s := durSign t
  if s.2 = ['0'] then some 0
  else if s.2 = [] then none
  else
    match durLoop frac s.2.length 0 s.2 with
    | none => none
    | some d =>
      if s.1 then some (-(d : Int))
      else if d > 9223372036854775807 then none else some d

/-! ### what is done with them -/

/-- How a program begins. -/
inductive Begun
  | fatal
  | panicked
  | begins
deriving DecidableEq

/-- `PrepareTelemetry` (go/engine/engine.go:41-81): with a host (the connection to it is left out) the period is not looked at. Otherwise `NewInmemSink` divides by the period and `NewTicker` panics unless it is positive
(go/telemetry/telemetry.go:29). -/
def prepareTelemetry (frac : Text → Nat → Nat) (host period : Text) : Begun :=
  if host ≠ [] then .begins
  else match parseDuration frac period with
    | none => .fatal
    | some d => if d ≤ 0 then .panicked else .begins

/-- The timeout that go-redis v6 makes of `ReadTimeout` and `WriteTimeout` (go/storage/rediscache.go:39-45): 0 is its default of 3 seconds, and one below 0 is no timeout (`none`). -/
def redisWait (d : Int) : Option Int := if d = 0 then some 3000000000 else if d < 0 then none else some d

/-- `GetConfiguredStorage` (go/engine/engine.go:23-26) up to the connection: `none` is the end of the program, otherwise the timeout. -/
def redisTimeoutOf (frac : Text → Nat → Nat) (setting : Text) : Option (Option Int) :=
  match parseDuration frac setting with
  | none => none
  | some d => some (redisWait d)

/-- The period of the statistics (go/config/config.go:188). -/
def statsPeriod (env file : Texts) : Text := confString (env "statsRefreshPeriod".toList) (file "statsRefreshPeriod".toList) "10m".toList

end Verif
