import Verif.Model.Serial
/-!
Expiry dates: `ExpDate` (go/types.go:450-505). Times are Unix seconds (`Int`), `lastGood` is in Unix milliseconds.

Go's `time` package is modelled for UTC and the two layouts `2006-01-02` and `2006-01-02-15`
(go/types.go:23-24) with the usual days-to-civil conversion; `Spec/Calendar.lean` states
independently what the calendar is, and `Props/Time.lean` proves the conversion correct.
-/
namespace Verif

/-- A civil date. -/
structure Civil where
  year : Int
  month : Int
  day : Int
deriving DecidableEq

/-- Days since 1970-01-01 to civil date (Go `Time.Date`). -/
def civilOfDays (days : Int) : Civil :=
  let z := days + 719468
  let era := z / 146097
  let doe := z % 146097
  let yoe := (doe - doe / 1460 + doe / 36524 - doe / 146096) / 365
  let doy := doe - (365 * yoe + yoe / 4 - yoe / 100)
  let mp := (5 * doy + 2) / 153
  let d := doy - (153 * mp + 2) / 5 + 1
  let m := if mp < 10 then mp + 3 else mp - 9
  let y := yoe + era * 400
  { year := if m ≤ 2 then y + 1 else y, month := m, day := d }

/-- Civil date to days since 1970-01-01 (Go `time.Date`). -/
def daysOfCivil (c : Civil) : Int :=
  let y := if c.month ≤ 2 then c.year - 1 else c.year
  let era := y / 400
  let yoe := y % 400
  let mp := if c.month > 2 then c.month - 3 else c.month + 9
  let doy := (153 * mp + 2) / 5 + c.day - 1
  let doe := yoe * 365 + yoe / 4 - yoe / 100 + doy
  era * 146097 + doe - 719468

/-- Go `daysIn`: number of days of a month. -/
def daysIn (year month : Int) : Int :=
  if month = 2 then (if year % 4 = 0 ∧ (year % 100 ≠ 0 ∨ year % 400 = 0) then 29 else 28)
  else if month = 4 ∨ month = 6 ∨ month = 9 ∨ month = 11 then 30 else 31

/-- A decimal digit. -/
def decDigit (n : Nat) : Char := Char.ofNat (48 + n)

/-- Value of a decimal digit. -/
def decVal (c : Char) : Option Nat :=
  if 48 ≤ c.toNat ∧ c.toNat ≤ 57 then some (c.toNat - 48) else none

/-- Two digits. -/
def dec2 (n : Nat) : Text := [decDigit (n / 10 % 10), decDigit (n % 10)]

/-- Four digits. -/
def dec4 (n : Nat) : Text := [decDigit (n / 1000 % 10), decDigit (n / 100 % 10), decDigit (n / 10 % 10), decDigit (n % 10)]

/-- Read two digits (`getnum` with `fixed`). -/
def num2 (a b : Char) : Option Nat :=
  match decVal a, decVal b with
  | some x, some y => some (x * 10 + y)
  | _, _ => none

/-- Read four digits. -/
def num4 (a b c d : Char) : Option Nat :=
  match num2 a b, num2 c d with
  | some x, some y => some (x * 100 + y)
  | _, _ => none

/-- `time.Parse("2006-01-02", s)`: Unix seconds of midnight; month and day are range checked. -/
def parseDay : Text → Option Int
  | [a, b, c, d, '-', e, f, '-', g, h] =>
    match num4 a b c d, num2 e f, num2 g h with
    | some y, some m, some dd =>
      if 1 ≤ m ∧ m ≤ 12 ∧ 1 ≤ dd ∧ (dd : Int) ≤ daysIn y m then
        some (daysOfCivil ⟨y, m, dd⟩ * 86400)
      else none
    | _, _, _ => none
  | _ => none

/-- Hour field of the layout `15`: one or two digits (`getnum` without `fixed`), below 24. -/
def parseHourField : Text → Option Nat
  | [a] => decVal a
  | [a, b] =>
    match num2 a b with
    | some h => if h < 24 then some h else none
    | none => none
  | _ => none

/-- `time.Parse("2006-01-02-15", s)`. -/
def parseHour (s : Text) : Option Int :=
  match parseDay (s.take 10), s.drop 10 with
  | some t, '-' :: rest =>
    match parseHourField rest with
    | some h => some (t + h * 3600)
    | none => none
  | _, _ => none

/-- `Time.Format("2006-01-02")`, for years 0 to 9999. -/
def formatDay (t : Int) : Text :=
  let c := civilOfDays (t / 86400)
  dec4 c.year.toNat ++ '-' :: dec2 c.month.toNat ++ '-' :: dec2 c.day.toNat

/-- `Time.Format("2006-01-02-15")`. -/
def formatHour (t : Int) : Text :=
  formatDay t ++ '-' :: dec2 (t % 86400 / 3600).toNat

/-- `ExpDate` (go/types.go:450-454). -/
structure ExpDate where
  /-- Unix seconds. -/
  date : Int
  /-- Unix milliseconds. -/
  lastGood : Int
  hourResolution : Bool
deriving DecidableEq

/-- `NewExpDateFromTime` (go/types.go:456-463). `Truncate(time.Hour)` rounds down to a whole
hour since year 1, which is a whole hour of Unix time. -/
def newExpDateFromTime (t : Int) : ExpDate :=
  let trunc := t - t % 3600
  { date := trunc, lastGood := trunc * 1000 - 1, hourResolution := true }

/-- `NewExpDate` (go/types.go:465-482). -/
def newExpDate (s : Text) : Option ExpDate :=
  match (if s.length > 10 then parseHour s else none) with
  | some t => some { date := t, lastGood := t * 1000 + 3600000 - 1, hourResolution := true }
  | none =>
    match parseDay s with
    | some t => some { date := t, lastGood := t * 1000 + 86400000 - 1, hourResolution := false }
    | none => none

/-- `ExpDate.IsExpiredAt` (go/types.go:484-486); `now` in Unix milliseconds. -/
def ExpDate.isExpiredAt (e : ExpDate) (now : Int) : Bool := decide (e.lastGood < now)

/-- `ExpDate.ExpireTime` (go/types.go:488-490). -/
def ExpDate.expireTime (e : ExpDate) : Int := e.date

/-- `ExpDate.ID` (go/types.go:500-505). -/
def ExpDate.id (e : ExpDate) : Text :=
  if e.hourResolution then formatHour e.date else formatDay e.date

end Verif
