import Verif.Model.Csv
import Verif.Spec.Pem
/-!
Comma-separated values after RFC 4180, as a relation between a text and a table (C110). Nothing here is about how it is read.
-/
namespace Verif.Spec

/-- Quotes are doubled. -/
def doubled (f : Text) : Text := f.flatMap (fun c => if c = '"' then ['"', '"'] else [c])

/-- The text of a field and what it says. -/
inductive CsvField : Text → Text → Prop
  | bare {f : Text} : (∀ c ∈ f, c ≠ '"' ∧ c ≠ ',' ∧ c ≠ '\n') → CsvField f f
  | quoted (f : Text) : CsvField ('"' :: (doubled f ++ ['"'])) f

/-- Fields with commas between them. -/
inductive CsvRecord : Text → List Text → Prop
  | one {w f : Text} : CsvField w f → CsvRecord w [f]
  | more {w f w' : Text} {fs : List Text} : CsvField w f → CsvRecord w' fs → CsvRecord (w ++ ',' :: w') (f :: fs)

/-- Records, each on a line of its own; the last line need not be ended. Empty lines say nothing. -/
inductive CsvTable : Text → List (List Text) → Prop
  | nil : CsvTable [] []
  | blank {t : Text} {rs : List (List Text)} : CsvTable t rs → CsvTable ('\n' :: t) rs
  | row {w t : Text} {r : List Text} {rs : List (List Text)} : CsvRecord w r → w ≠ [] → CsvTable t rs → CsvTable (w ++ '\n' :: t) (r :: rs)
  | last {w : Text} {r : List Text} : CsvRecord w r → w ≠ [] → CsvTable w [r]

/-- The same text with one kind of line ends. A carriage return at the end of the file is ignored. -/
inductive LineEnds : Text → Text → Prop
  | nil : LineEnds [] []
  | last : LineEnds ['\r'] []
  | crlf {t u : Text} : LineEnds t u → LineEnds ('\r' :: '\n' :: t) ('\n' :: u)
  | keep {c : Char} {t u : Text} : (c = '\r' → ∃ d r, t = d :: r ∧ d ≠ '\n') → LineEnds t u → LineEnds (c :: t) (c :: u)

/-- The text says this table, and all records have as many fields as the first. -/
def SaysTable (t : Text) (header : List Text) (rows : List (List Text)) : Prop :=
  (∃ u, LineEnds t u ∧ CsvTable u (header :: rows)) ∧ ∀ r ∈ rows, r.length = header.length

/-- How a program writes a table: each field with or without quotes, as `q` says where there is a choice, and `\r\n` at the ends of the lines. -/
def writeField (q : Text → Bool) (f : Text) : Text := if q f = true ∨ '"' ∈ f ∨ ',' ∈ f ∨ '\n' ∈ f then '"' :: (doubled f ++ ['"']) else f

def writeRecord (q : Text → Bool) : List Text → Text
  | [] => []
  | [f] => writeField q f
  | f :: fs => writeField q f ++ ',' :: writeRecord q fs

def writeTable (q : Text → Bool) : List (List Text) → Text
  | [] => []
  | r :: rs => writeRecord q r ++ '\r' :: '\n' :: writeTable q rs

/-- In the column with this name the row has this value. -/
def InColumn (header row : List Text) (name value : Text) : Prop := (name, value) ∈ header.zip row

/-- What a row of the report says, by the names of the columns. -/
structure RowSays (cert : Bytes → Option IssCert) (header row : List Text) (r : CcadbRow) : Prop where
  complete : r.short = false
  kind : InColumn header row "RecordType.Name".toList r.kind
  revoked : InColumn header row "Revocation_Status__c".toList r.revoked
  full : InColumn header row "Full_CRL_Issued_By_This_CA".toList r.full
  json : InColumn header row "JSON_Array_of_Partitioned_CRLs".toList r.json
  pem : ∃ p, InColumn header row "X.509_Certificate_PEM".toList p ∧ ∀ raw, Armour "CERTIFICATE".toList raw p → r.cert = cert raw

end Verif.Spec
