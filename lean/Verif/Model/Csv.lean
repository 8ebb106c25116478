import Verif.Model.Issuers
import Verif.Model.Pem
/-!
The CCADB report as a file: Go's `encoding/csv` with its default settings, and `LoadFromDisk` from the text (go/rootprogram/issuers.go:92-227). The library is not in the repository; the model follows its source as published. It reads line
by line, here it is a machine that reads character by character; every error is `none`.
-/
namespace Verif

/-- `readLine` of `encoding/csv`: `\r\n` at the end of a line becomes `\n`, and a `\r` at the end of the file is dropped. -/
def csvLines : Text → Text
  | [] => []
  | ['\r'] => []
  | '\r' :: '\n' :: t => '\n' :: csvLines t
  | c :: t => c :: csvLines t

/-- Where in a record the reader is: before a field, in a field without quotes, in a field with quotes, or behind a quote in such a field. -/
inductive CsvMode where
  | start
  | bare
  | quoted
  | closing
deriving DecidableEq

/-- The records so far, the fields of the current record, the current field. -/
structure CsvState where
  done : List (List Text)
  cur : List Text
  field : Text
  mode : CsvMode
deriving DecidableEq

def CsvState.init : CsvState := ⟨[], [], [], .start⟩

/-- The field ends. -/
def CsvState.comma (s : CsvState) : CsvState := ⟨s.done, s.cur ++ [s.field], [], .start⟩

/-- The record ends. -/
def CsvState.newline (s : CsvState) : CsvState := ⟨s.done ++ [s.cur ++ [s.field]], [], [], .start⟩

/-- A character of the field. -/
def CsvState.push (s : CsvState) (m : CsvMode) (c : Char) : CsvState := ⟨s.done, s.cur, s.field ++ [c], m⟩

/-- One character (`readRecord` of `encoding/csv`, without `LazyQuotes`, `Comment` and `TrimLeadingSpace`). Empty lines between records are skipped; a quote in a field without quotes (`ErrBareQuote`) and anything but a comma or the
end of the line behind a closing quote (`ErrQuote`) are errors. -/
def csvStep (s : CsvState) (c : Char) : Option CsvState :=
  match s.mode with
  | .start =>
    if c = '"' then some { s with mode := .quoted }
    else if c = ',' then some s.comma
    else if c = '\n' then (if s.cur = [] then some s else some s.newline)
    else some (s.push .bare c)
  | .bare =>
    if c = '"' then none
    else if c = ',' then some s.comma
    else if c = '\n' then some s.newline
    else some (s.push .bare c)
  | .quoted => if c = '"' then some { s with mode := .closing } else some (s.push .quoted c)
  | .closing =>
    if c = '"' then some (s.push .quoted c)
    else if c = ',' then some s.comma
    else if c = '\n' then some s.newline
    else none

/-- The end of the file. In a field with quotes it is an error. -/
def csvEnd (s : CsvState) : Option (List (List Text)) :=
  match s.mode with
  | .start => if s.cur = [] then some s.done else some s.newline.done
  | .bare => some s.newline.done
  | .quoted => none
  | .closing => some s.newline.done

/-- All characters. -/
def csvRun : CsvState → Text → Option (List (List Text))
  | s, [] => csvEnd s
  | s, c :: t =>
    match csvStep s c with
    | some s' => csvRun s' t
    | none => none

/-- `Read` and `ReadAll` (issuers.go:105-109, 132-135): all records must have as many fields as the first (`FieldsPerRecord` is 0). -/
def csvRecords (t : Text) : Option (List (List Text)) :=
  match csvRun CsvState.init (csvLines t) with
  | some [] => none
  | some (h :: rs) => if rs.all (fun r => decide (r.length = h.length)) then some (h :: rs) else none
  | none => none

/-- `columnMap` (issuers.go:111-114): the last column with the name. -/
def columnOf (header : List Text) (name : Text) : Option Nat :=
  match (header.zipIdx.filter (fun p => decide (p.1 = name))).getLast? with
  | some p => some p.2
  | none => none

/-- `requiredColumns` (issuers.go:116-122). -/
def pemColumn : Text := "X.509_Certificate_PEM".toList
def kindColumn : Text := "RecordType.Name".toList
def revokedColumn : Text := "Revocation_Status__c".toList
def fullColumn : Text := "Full_CRL_Issued_By_This_CA".toList
def jsonColumn : Text := "JSON_Array_of_Partitioned_CRLs".toList

def requiredColumns : List Text := [pemColumn, kindColumn, revokedColumn, fullColumn, jsonColumn]

/-- `row[columnMap[name]]` for a required column. -/
def rowField (header row : List Text) (name : Text) : Text :=
  match columnOf header name with
  | some i => (row[i]?).getD []
  | none => []

/-- A row as the loop over `metadataRecords` looks at it (issuers.go:138-155); `cert` is `ParseCertificate`. `columnMap` has an entry for each name in the header. -/
def csvRow (cert : Bytes → Option IssCert) (header row : List Text) : CcadbRow :=
  { short := decide (row.length < header.eraseDups.length)
    cert := pemToCertificate cert (rowField header row pemColumn)
    kind := rowField header row kindColumn
    revoked := rowField header row revokedColumn
    full := rowField header row fullColumn
    json := rowField header row jsonColumn }

/-- `LoadFromDisk` (issuers.go:92-227) on the text of the file; `none` is an error. -/
def loadText (cert : Bytes → Option IssCert) (sp : Char → Bool) (parse : UrlParse) (chains : List IssCert → List IssCert → IssCert → Bool)
    (order : List (IssCert × List Text × Bool) → List (IssCert × List Text × Bool)) (t : Text) : Option MozIssuers :=
  match csvRecords t with
  | some (header :: rows) =>
    if requiredColumns.all (fun n => (columnOf header n).isSome) then some (loadFromDisk sp parse chains order (rows.map (csvRow cert header))) else none
  | _ => none

end Verif
