import Verif.Model.Time
import Verif.Model.Workflow
/-!
# The time of a run

`workflow/0-allocate_identifier` reads the clock twice: for the date in the name of the run and for the file `timestamp`. The publisher reads that file and writes the time into the names of records.
Times are whole seconds since 1 January 1970, below the year 10000, where Python's `datetime` ends. Fractions of a second are dropped when the file is written.
-/
namespace Verif

/-- `datetime.utcnow().date().strftime("%Y%m%d")` (0-allocate_identifier:23). -/
def utcDay (t : Nat) : Text :=
  let c := civilOfDays ((t / 86400 : Nat) : Int)
  dec4 c.year.toNat ++ (dec2 c.month.toNat ++ dec2 c.day.toNat)

/-- `isoformat(timespec="seconds")` of a time without a zone (0-allocate_identifier:40). -/
def isoSeconds (t : Nat) : Text :=
  formatDay t ++ 'T' :: (dec2 (t % 86400 / 3600) ++ ':' :: (dec2 (t % 3600 / 60) ++ ':' :: dec2 (t % 60)))

/-- `isoformat(timespec="seconds")` of a time in UTC with its zone (main.py:789, 815). -/
def isoUtc (t : Nat) : Text := isoSeconds t ++ "+00:00".toList

/-- Hours, minutes and seconds. -/
def clockSeconds : Text → Option Nat
  | [a, b, ':', c, d, ':', e, f] =>
    match num2 a b, num2 c d, num2 e f with
    | some h, some m, some s => if h < 24 ∧ m < 60 ∧ s < 60 then some (h * 3600 + m * 60 + s) else none
    | _, _, _ => none
  | _ => none

/-- Nothing, or an offset from UTC in hours and minutes. -/
def isOffset : Text → Bool
  | [] => true
  | [s, a, b, ':', c, d] =>
    match num2 a b, num2 c d with
    | some h, some m => (decide (s = '+') || decide (s = '-')) && (decide (h < 24) && decide (m < 60))
    | _, _ => false
  | _ => false

/-- The first second of the year 1, in which Python's `datetime` begins. -/
def firstSecond : Int := -62135596800

/-- `datetime.fromisoformat(s).replace(tzinfo=timezone.utc)` (main.py:160-162, 841): any character may stand between date and time, and an offset is read and then replaced. Of the forms that `fromisoformat` accepts only those with seconds, without
a fraction and with an offset in hours and minutes are modelled, which are those that `isoformat(timespec="seconds")` writes. -/
def fromIso (s : Text) : Option Int :=
  match parseDay (s.take 10), s.drop 10 with
  | some d, _ :: rest =>
    match clockSeconds (rest.take 8) with
    | some c => if isOffset (rest.drop 8) = true ∧ firstSecond ≤ d then some (d + c) else none
    | none => none
  | _, _ => none

/-- The name of a record (main.py:789-791, 815-817). -/
def recordName (t : Nat) (full : Bool) : Text := isoUtc t ++ (if full then "Z-full".toList else "Z-diff".toList)

/-- `s.split("Z-")[0]`. -/
def beforeZDash : Text → Text
  | 'Z' :: '-' :: _ => []
  | c :: rest => c :: beforeZDash rest
  | [] => []

/-- `timestamp_from_record` (main.py:839-841). -/
def timeOfRecord (name : Text) : Option Int := fromIso (beforeZDash name)

/-- Executions of `0-allocate_identifier`, each with the two times that it reads (23, 40): the names of the runs and the contents of their files `timestamp` (36-41). `dirs` is what is in the bucket before. -/
def allocateTimed (clock : List (Nat × Nat)) (dirs : List Text) : Option (List (Text × Text)) :=
  match allocateAll (clock.map (fun r => utcDay r.1)) dirs [] with
  | none => none
  | some names => some (names.zip (clock.map (fun r => isoSeconds r.2)))

end Verif
