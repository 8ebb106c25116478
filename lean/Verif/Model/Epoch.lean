import Verif.Model.Commit
import Verif.Model.Storage
/-!
The epoch file, and the end of a commit that updates both epochs.
-/
namespace Verif

/-- `fmt.Sprintf("%v", n)` for a `uint64`. -/
def natText (n : Nat) : Text := if n < 10 then [decDigit n] else natText (n / 10) ++ [decDigit (n % 10)]
decreasing_by omega

/-- The loop of `strconv.ParseUint` for base 10. -/
def digitsFrom : Nat → Text → Option Nat
  | acc, [] => some acc
  | acc, c :: cs =>
    match decVal c with
    | some v => digitsFrom (acc * 10 + v) cs
    | none => none

/-- `strconv.ParseUint(s, 10, 64)`; `none` is the error (a syntax error, or a value out of range). -/
def parseUint64 (t : Text) : Option Nat :=
  match t with
  | [] => none
  | c :: cs =>
    match digitsFrom 0 (c :: cs) with
    | some v => if v < 2 ^ 64 then some v else none
    | none => none

/-- `getStorageEpoch` (go/storage/certdatabase.go:506-524) on the contents of the file (`none`: no such file); the result `none` is an error. Other
errors of `os.Open` are left out: they are returned like a number that does not parse. -/
def readEpoch : Option Text → Option Nat
  | none => some 0
  | some t =>
    match splitLines t with
    | [] => some 0
    | l :: _ => if maxScanToken ≤ l.length then none else parseUint64 l

/-- The line that is written (go/storage/certdatabase.go:617). -/
def epochText (e : Nat) : Text := natText e ++ ['\n']

/-- What is in the temporary file after line 622 if the disk has room for `room` characters: the line goes to the buffer (it is short), and the result of
`Flush` is ignored. -/
def epochFlushed (room e : Nat) : Text :=
  ((epochText e).foldl (BufW.put bufSize) { buf := [], out := [], room := room, err := false }).flush.out

/-- What goes well at the end of a commit. `incrs`: how often Redis has carried out `INCR`; `incrOK`: an answer arrived. The two are not the same: the client sends a
command again whose answer was lost, up to ten times (go/storage/rediscache.go:39-45, `MaxRetries`), and Redis counts each of them. -/
structure EpochEnv where
  tempOK : Bool
  room : Nat
  incrs : Nat
  incrOK : Bool
  replaceOK : Bool

/-- The end of `Commit` (go/storage/certdatabase.go:606-636), for the cache's epoch `e` and the epoch file: the new ones, and whether `nil` is returned. -/
def epochTail (env : EpochEnv) (e : Nat) (file : Option Text) : Nat × Option Text × Bool :=
  if env.tempOK then
    let e' := e + env.incrs
    if env.incrOK then
      if env.replaceOK then (e', some (epochFlushed env.room e), true) else (e', file, false)
    else (e', file, true)
  else (e, file, true)

end Verif
