import Verif.Model.Download
/-!
The issuers in the root program: go/rootprogram/issuers.go, `IssuerCrlMap` of go/types.go, and the settings of go/config/config.go.
-/
namespace Verif

/-! ### maps -/

/-- A Go map as a list of entries with distinct keys; the order stands for the order of iteration, which Go leaves open. -/
def assocGet {β : Type} (m : List (Text × β)) (k : Text) : Option β := (m.find? (fun e => decide (e.1 = k))).map Prod.snd

/-- Assignment to a map entry. -/
def assocPut {β : Type} (m : List (Text × β)) (k : Text) (v : β) : List (Text × β) :=
  match m with
  | [] => [(k, v)]
  | e :: rest => if e.1 = k then (k, v) :: rest else e :: assocPut rest k v

/-- `set[x] = true`. -/
def setInsert (s : List Text) (x : Text) : List Text := if s.contains x then s else s ++ [x]

/-- `IssuerCrlMap` (go/types.go:309). -/
abbrev IssuerCrlMap := List (Text × List Text)

/-- One iteration of the outer loop of `Merge` (go/types.go:312-320). -/
def mergeOne (self : IssuerCrlMap) (e : Text × List Text) : IssuerCrlMap :=
  assocPut self e.1 (e.2.foldl setInsert ((assocGet self e.1).getD []))

/-- `IssuerCrlMap.Merge` (go/types.go:311-322). -/
def crlMerge (self other : IssuerCrlMap) : IssuerCrlMap := other.foldl mergeOne self

/-! ### decoding the CRL fields -/

/-- `strings.TrimFunc` on both ends. -/
def trimBoth (p : Char → Bool) (t : Text) : Text := ((t.dropWhile p).reverse.dropWhile p).reverse

/-- `strings.Split(t, ",")`. -/
def splitComma : Text → List Text
  | [] => [[]]
  | c :: cs =>
    if c = ',' then [] :: splitComma cs
    else match splitComma cs with
      | [] => [[c]]
      | p :: ps => (c :: p) :: ps

/-- `url.Parse`: the scheme and `String()`, not modelled. -/
abbrev UrlParse := Text → Option (Text × Text)

/-- Accept a URL (go/rootprogram/issuers.go:417-424, 441-448). -/
def acceptUrl (parse : UrlParse) (t : Text) : List Text :=
  match parse t with
  | none => []
  | some (scheme, s) => if scheme = ['h', 't', 't', 'p'] ∨ scheme = ['h', 't', 't', 'p', 's'] then [s] else []

/-- `strings.Trim(strings.TrimSpace(t), "\"")`; `sp` is `unicode.IsSpace`. -/
def unquote (sp : Char → Bool) (t : Text) : Text := trimBoth (fun c => c == '"') (trimBoth sp t)

/-- The pieces of the JSON array (go/rootprogram/issuers.go:427-433): not parsed as JSON, but split at the commas. -/
def jsonPieces (sp : Char → Bool) (t : Text) : List Text :=
  ((splitComma (trimBoth (fun c => c == '[' || c == ']') (trimBoth sp t))).map (unquote sp)).filter (fun p => decide (p ≠ []))

/-- `decodeCrls` (go/rootprogram/issuers.go:410-451): the URLs, and whether the issuer uses partitioned CRLs. -/
def decodeCrls (sp : Char → Bool) (parse : UrlParse) (full json : Text) : List Text × Bool :=
  ((if unquote sp full ≠ [] then acceptUrl parse (unquote sp full) else []) ++ ((jsonPieces sp json).map (acceptUrl parse)).flatten,
   decide (jsonPieces sp json ≠ []))

/-! ### issuers -/

/-- A certificate: `issuer` is `types.NewIssuer(cert).ID()`, `fp` its fingerprint, `raw` stands for everything else. -/
structure IssCert where
  issuer : Text
  fp : Text
  raw : Nat
deriving DecidableEq

/-- `IssuerData` (go/rootprogram/issuers.go:44-48). -/
structure IssuerData where
  certs : List IssCert
  partitioned : Bool
deriving DecidableEq

/-- `MozIssuers`: `issuerMap` and `CrlMap`. -/
structure MozIssuers where
  issuers : List (Text × IssuerData)
  crls : IssuerCrlMap

def MozIssuers.empty : MozIssuers := ⟨[], []⟩

/-- `InsertIssuer` (go/rootprogram/issuers.go:453-483). The flag of the first certificate of an issuer stays. -/
def MozIssuers.insert (m : MozIssuers) (c : IssCert) (urls : List Text) (partitioned : Bool) : MozIssuers :=
  { crls := assocPut m.crls c.issuer (urls.foldl setInsert ((assocGet m.crls c.issuer).getD [])),
    issuers := match assocGet m.issuers c.issuer with
      | some v => assocPut m.issuers c.issuer { v with certs := v.certs ++ [c] }
      | none => assocPut m.issuers c.issuer { certs := [c], partitioned := partitioned } }

/-- Several certificates, one after the other. -/
def MozIssuers.insertAll (m : MozIssuers) (l : List (IssCert × List Text × Bool)) : MozIssuers :=
  l.foldl (fun m e => m.insert e.1 e.2.1 e.2.2) m

/-- `IsIssuerInProgram` (go/rootprogram/issuers.go:372-375). -/
def MozIssuers.inProgram (m : MozIssuers) (i : Text) : Bool := (assocGet m.issuers i).isSome

/-! ### the CCADB report -/

/-- A row of the report, with its PEM field decoded (`none` if it does not parse) and whether the row has too few columns. -/
structure CcadbRow where
  short : Bool
  cert : Option IssCert
  kind : Text
  revoked : Text
  full : Text
  json : Text

/-- The revocation status that is accepted (go/rootprogram/issuers.go:157-159). -/
def notRevoked (r : CcadbRow) : Bool := decide (r.revoked = "Not Revoked".toList ∨ r.revoked = [])

/-- The rows that get as far as the look at the type (go/rootprogram/issuers.go:139-159). -/
def usableRow (r : CcadbRow) : Option IssCert := if r.short then none else if notRevoked r then r.cert else none

/-- The root pool (161-165). -/
def rootPool : List CcadbRow → List IssCert
  | [] => []
  | r :: rest =>
    match usableRow r with
    | some c => if r.kind = "Root Certificate".toList then c :: rootPool rest else rootPool rest
    | none => rootPool rest

/-- The intermediates with the CRL fields of their first row (167-184), by fingerprint. -/
def intermediates (sp : Char → Bool) (parse : UrlParse) : List CcadbRow → List (IssCert × List Text × Bool) → List (IssCert × List Text × Bool)
  | [], acc => acc
  | r :: rest, acc =>
    match usableRow r with
    | some c =>
      if r.kind = "Intermediate Certificate".toList then
        (if acc.any (fun e => decide (e.1.fp = c.fp)) then intermediates sp parse rest acc
         else intermediates sp parse rest (acc ++ [(c, decodeCrls sp parse r.full r.json)]))
      else intermediates sp parse rest acc
    | none => intermediates sp parse rest acc

/-- `LoadFromDisk` (go/rootprogram/issuers.go:92-227) on the rows. `order` is the order in which Go iterates over the map of intermediates (197), `chains roots inters cert` whether `Verify` finds a chain and the
certificate can be parsed again (198-204). -/
def loadFromDisk (sp : Char → Bool) (parse : UrlParse) (chains : List IssCert → List IssCert → IssCert → Bool)
    (order : List (IssCert × List Text × Bool) → List (IssCert × List Text × Bool)) (rows : List CcadbRow) : MozIssuers :=
  let inters := intermediates sp parse rows []
  MozIssuers.empty.insertAll ((order inters).filter (fun e => chains (rootPool rows) (inters.map Prod.fst) e.1))

/-- `Load` (go/rootprogram/issuers.go:69-90): the report on disk, and the issuers, `none` on an error. `load` is `LoadFromDisk` on the file's bytes; the download writes to the file itself. Times are in hours. -/
def loadReport {α : Type} (load : Bytes → Option α) (attempts : Nat → DlAttempt) (now : Int) (file : Option LocalFile) : Option LocalFile × Option α :=
  let loaded := match file with
    | some f => (match load f.data with
      | some a => if now - f.mtime < 12 then some a else none
      | none => none)
    | none => none
  match loaded with
  | some a => (file, some a)
  | none =>
    let r := downloadFileSync attempts (fun _ => false) 3 file
    if r.1 = .ok then (r.2.1, match r.2.1 with | some f => load f.data | none => none) else (r.2.1, none)

/-! ### the saved list -/

/-- A saved record (go/rootprogram/issuers.go:318-325); the other fields are for information only. -/
structure EnrolledIssuer where
  pem : Text
  partitioned : Bool

/-- The records of `SaveIssuersList` (go/rootprogram/issuers.go:313-328); `pem` is `CertificateToPEM`. -/
def savedRecords (pem : IssCert → Text) (m : MozIssuers) : List EnrolledIssuer :=
  (m.issuers.map (fun e => e.2.certs.map (fun c => { pem := pem c, partitioned := e.2.partitioned }))).flatten

/-- `SaveIssuersList` (go/rootprogram/issuers.go:308-347): the records in the file (`none`: the JSON text is incomplete), and whether `nil` is returned. An error of `Encode` is logged, in a variable of its own
(337), and what is returned is the result of `Close`. -/
def saveIssuersList (pem : IssCert → Text) (m : MozIssuers) (opens encodes closes : Bool) (old : Option (List EnrolledIssuer)) : Option (List EnrolledIssuer) × Bool :=
  if !opens then (old, false)
  else (if encodes then some (savedRecords pem m) else none, closes)

/-- The loop of `LoadEnrolledIssuers` (go/rootprogram/issuers.go:361-367); `none` is an error. -/
def loadRecords (unpem : Text → Option IssCert) : List EnrolledIssuer → MozIssuers → Option MozIssuers
  | [], m => some m
  | r :: rest, m =>
    match unpem r.pem with
    | none => none
    | some c => loadRecords unpem rest (m.insert c [] r.partitioned)

/-! ### settings -/

/-- `confInt`, `confUint64`, `confBool` (go/config/config.go:39-107): `env` and `file` are the texts if present, `pe` and `pf` the parsers for them, which differ. -/
def confParsed {α : Type} (pe pf : Text → Option α) (env file : Option Text) (dflt : α) : α :=
  match env.bind pe with
  | some v => v
  | none =>
    match file.bind pf with
    | some v => v
    | none => dflt

/-- `confString` (go/config/config.go:109-121). -/
def confString (env file : Option Text) (dflt : Text) : Text :=
  match env with
  | some v => v
  | none =>
    match file with
    | some v => if v.length > 0 then v else dflt
    | none => dflt

/-- The batch size (go/config/config.go:173, 193-196). -/
def confBatchSize (pe pf : Text → Option Nat) (env file : Option Text) (flag : Nat) : Nat :=
  if flag > 0 then flag else confParsed pe pf env file 4096

end Verif
