import Verif.Model.Issuers
/-!
The program get-mozilla-issuers (go/cmd/get-mozilla-issuers/get-mozilla-issuers.go).
-/
namespace Verif

/-- `GetIssuers` (go/rootprogram/issuers.go:236-249): the issuer of the first certificate of each entry; `none` is the panic of `certs[0]`. -/
def firstIssuers : List (Text × IssuerData) → Option (List Text)
  | [] => some []
  | e :: rest =>
    match e.2.certs with
    | [] => none
    | c :: _ => (firstIssuers rest).map (List.cons c.issuer)

/-- `GetCertificateForIssuer` (go/rootprogram/issuers.go:377-386), with which aggregate-crls checks signatures (aggregate-crls.go:311-314): `none` is the error, which is fatal there, or the panic of `certs[0]`. -/
def MozIssuers.certOf (m : MozIssuers) (i : Text) : Option IssCert := (assocGet m.issuers i).bind (fun v => v.certs.head?)

/-- The flags `-ccadb` and `-out` (get-mozilla-issuers.go:12-15). -/
structure ToolFlags where
  ccadb : Text := "<path>".toList
  out : Text := "<stdout>".toList

/-- What the world does: the files, the attempts of the download, the time in hours, and whether writing to standard output, and opening, encoding to and closing the output file succeed. `report` is the path of the report in the directory for
temporary files. -/
structure ToolWorld where
  disk : Text → Option LocalFile
  report : Text
  attempts : Nat → DlAttempt
  now : Int
  prints : Bool
  opens : Bool
  encodes : Bool
  closes : Bool

/-- Which issuers are loaded (get-mozilla-issuers.go:24-30); `load` is `LoadFromDisk` on the file's bytes. -/
def toolLoad (load : Bytes → Option MozIssuers) (w : ToolWorld) (f : ToolFlags) : Option MozIssuers :=
  if f.ccadb ≠ "<path>".toList then (w.disk f.ccadb).bind (fun l => load l.data)
  else (loadReport load w.attempts w.now (w.disk w.report)).2

/-- The end of the program: whether it exits with 0, what it printed, if it printed, and the records in the output file (`none`: no such file, or incomplete JSON). -/
structure ToolEnd where
  ok : Bool
  printed : Option (List Text)
  file : Option (List EnrolledIssuer)

/-- To standard output (get-mozilla-issuers.go:36-43). -/
def toolPrint (prints : Bool) (m : MozIssuers) (old : Option (List EnrolledIssuer)) : ToolEnd :=
  match firstIssuers m.issuers with
  | none => ⟨false, none, old⟩
  | some l => if prints then ⟨true, some l, old⟩ else ⟨false, none, old⟩

/-- `main` (get-mozilla-issuers.go:17-49); `old` is what is in the output file before. -/
def toolMain (load : Bytes → Option MozIssuers) (pem : IssCert → Text) (w : ToolWorld) (f : ToolFlags) (old : Option (List EnrolledIssuer)) : ToolEnd :=
  match toolLoad load w f with
  | none => ⟨false, none, old⟩
  | some m =>
    if f.out = "<stdout>".toList then toolPrint w.prints m old
    else ⟨(saveIssuersList pem m w.opens w.encodes w.closes old).2, none, (saveIssuersList pem m w.opens w.encodes w.closes old).1⟩

end Verif
