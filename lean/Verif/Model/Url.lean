import Verif.Model.Download
import Verif.Model.Crls
import Verif.Model.Pem
/-!
The URLs of CRLs: `normalizedUrlString` (go/cmd/aggregate-crls/aggregate-crls.go:51-58), with `url.Values.Encode`, `url.ParseQuery` and the parts of `url.Parse` and `URL.String` that deal with queries and fragments. Package net/url of Go 1.24
is not in the repository; it is modelled as its source has it. What it does to the part before the query is a parameter.
-/
namespace Verif

/-! ### escapes -/

/-- The octets that `url.QueryEscape` leaves as they are: letters, digits, `-`, `_`, `.` and `~`. -/
def queryPlain (b : UInt8) : Bool :=
  (decide (48 ≤ b.toNat) && decide (b.toNat ≤ 57)) || (decide (65 ≤ b.toNat) && decide (b.toNat ≤ 90)) || (decide (97 ≤ b.toNat) && decide (b.toNat ≤ 122)) ||
  decide (b.toNat = 45) || decide (b.toNat = 95) || decide (b.toNat = 46) || decide (b.toNat = 126)

/-- `upperhex`. -/
def upperHex (n : Nat) : UInt8 := if n < 10 then UInt8.ofNat (48 + n) else UInt8.ofNat (55 + n)

/-- One octet in `url.QueryEscape`: a space becomes `+`. -/
def escapeOctet (b : UInt8) : Bytes :=
  if b = 32 then [43] else if queryPlain b then [b] else [37, upperHex (b.toNat / 16), upperHex (b.toNat % 16)]

/-- `url.QueryEscape`. -/
def queryEscape (bs : Bytes) : Bytes := bs.flatMap escapeOctet

/-- `unhex`, with `ishex`. -/
def unhexOctet (b : UInt8) : Option Nat := hexVal (Char.ofNat b.toNat)

/-- `url.QueryUnescape`; `none` is an error. -/
def queryUnescape : Bytes → Option Bytes
  | [] => some []
  | b :: r =>
    if b = 37 then
      match r with
      | x :: y :: rest =>
        match unhexOctet x, unhexOctet y, queryUnescape rest with
        | some h, some l, some t => some (UInt8.ofNat (h * 16 + l) :: t)
        | _, _, _ => none
      | _ => none
    else
      match queryUnescape r with
      | none => none
      | some t => some ((if b = 43 then 32 else b) :: t)

/-! ### queries -/

/-- Put an octet before the first text of a list. -/
def consHead (b : UInt8) : List Bytes → List Bytes
  | [] => [[b]]
  | s :: ss => (b :: s) :: ss

/-- The texts between the ampersands. -/
def splitAmp : Bytes → List Bytes
  | [] => [[]]
  | b :: r => if b = 38 then [] :: splitAmp r else consHead b (splitAmp r)

/-- `strings.Cut(seg, "=")`. -/
def cutEq : Bytes → Bytes × Bytes
  | [] => ([], [])
  | b :: r => if b = 61 then ([], r) else (b :: (cutEq r).1, (cutEq r).2)

/-- One turn of the loop of `parseQuery`: a text with a semicolon, an empty one, and one with a wrong escape are passed over (the error is not looked at by `URL.Query`). -/
def queryPair (seg : Bytes) : Option (Bytes × Bytes) :=
  if seg.contains 59 then none
  else if seg = [] then none
  else match queryUnescape (cutEq seg).1, queryUnescape (cutEq seg).2 with
    | some k, some v => some (k, v)
    | _, _ => none

/-- `URL.Query`: names and values in order. -/
def queryPairs (q : Bytes) : List (Bytes × Bytes) := (splitAmp q).filterMap queryPair

/-- Put a name into a sorted list of names. -/
def insertName (k : Bytes) : List Bytes → List Bytes
  | [] => [k]
  | x :: l => if k = x then x :: l else if bytesLe k x then k :: x :: l else x :: insertName k l

/-- The keys of the map that `Encode` goes through, sorted. -/
def sortedNames : List (Bytes × Bytes) → List Bytes
  | [] => []
  | p :: ps => insertName p.1 (sortedNames ps)

/-- The values of a name in the map, in the order in which they came. -/
def valuesOf (ps : List (Bytes × Bytes)) (k : Bytes) : List Bytes := (ps.filter (fun p => decide (p.1 = k))).map Prod.snd

/-- The values of a name with the name. -/
def pairsOf (ps : List (Bytes × Bytes)) (k : Bytes) : List (Bytes × Bytes) := (valuesOf ps k).map (fun v => (k, v))

/-- A name and a value in `Encode`. -/
def encodePair (p : Bytes × Bytes) : Bytes := queryEscape p.1 ++ 61 :: queryEscape p.2

/-- Texts with ampersands between them. -/
def joinAmp : List Bytes → Bytes
  | [] => []
  | x :: l => if l = [] then x else x ++ 38 :: joinAmp l

/-- `url.Values.Encode`. -/
def encodeQuery (ps : List (Bytes × Bytes)) : Bytes := joinAmp (((sortedNames ps).flatMap (pairsOf ps)).map encodePair)

/-! ### URLs -/

/-- A `url.URL`: what `URL.String` writes before the query; `ForceQuery`; `RawQuery`; what it writes behind `#`. -/
structure Url where
  base : Bytes
  force : Bool
  rawQuery : Bytes
  fragment : Bytes
deriving DecidableEq

/-- `URL.String`. -/
def Url.string (u : Url) : Bytes :=
  u.base ++ (if u.force = true ∨ u.rawQuery ≠ [] then 63 :: u.rawQuery else []) ++ (if u.fragment ≠ [] then 35 :: u.fragment else [])

/-- `normalizedUrlString` (aggregate-crls.go:51-58). -/
def normalizedUrl (u : Url) : Bytes :=
  if u.rawQuery ≠ [] then Url.string { u with rawQuery := encodeQuery (queryPairs u.rawQuery) } else u.string

/-- What is before and behind the first octet `c`; `none`: there is no `c`. -/
def cutOctet (c : UInt8) : Bytes → Bytes × Option Bytes
  | [] => ([], none)
  | b :: r => if b = c then ([], some r) else (b :: (cutOctet c r).1, (cutOctet c r).2)

/-- `url.Parse` (aggregate-crls.go:236, 410). `fixBase`, `fixFragment`: what these parts become when they are parsed and written again (`none`: an error). A single `?` at the end sets `ForceQuery`. -/
def parseUrl (fixBase fixFragment : Bytes → Option Bytes) (t : Bytes) : Option Url :=
  let c := cutOctet 35 t
  let d := cutOctet 63 c.1
  if c.1.any (fun b => decide (b.toNat < 32) || decide (b.toNat = 127)) then none
  else match fixBase d.1, fixFragment (c.2.getD []) with
    | some base, some frag => some ⟨base, decide (d.2 = some []), d.2.getD [], frag⟩
    | _, _ => none

/-- The parts that `makeFilenameFromUrl` looks at (aggregate-crls.go:67-80), for a URL whose host and path are `host` and `path`. -/
def Url.parts (u : Url) (host path : Text) : CrlUrl := { hostname := host, path := path, rawQuery := octetText u.rawQuery, norm := octetText (normalizedUrl u) }

/-- The directory of an issuer after files were written in this order: the last one of a name stays. -/
def afterWrites {α : Type} (ws : List (Text × α)) (name : Text) : Option α := ((ws.filter (fun w => decide (w.1 = name))).getLast?).map Prod.snd

end Verif
