import Verif.Model.SerialFile
import Verif.Model.Storage
/-!
aggregate-crls (go/cmd/aggregate-crls/aggregate-crls.go): from downloaded CRLs to the revoked files.
-/
namespace Verif

/-- A readable CRL file, as the parsers see it. `sigOK`: parsed by `x509.ParseCRL` and signed by the issuer (aggregate-crls.go:187-194; an expired CRL
is only warned about, 196-199). `entries`: what `types.DecodeRawTBSCertList` returns (287), modelled in `Verif.Model.Der`. `idp`: the URIs of the issuing distribution point as found by the stricter parser
`ParseCertificateListDER` (223-231), each parsed and normalised by `normalizedUrlString` (51-58); `none` inside means `url.Parse` fails. The other ASN.1 parsers and URL parsing are not
modelled. -/
structure CrlFile where
  sigOK : Bool
  entries : Option (List (Serial × List CrlExtension))
  idp : Option (List (Option Text))
  thisUpdate : Int

/-- `types.UrlPath`: the normalised URL and the path of the downloaded file, `none` for the empty path. -/
structure UrlPath where
  url : Text
  path : Option Text
deriving DecidableEq

/-- `loadAndCheckSignatureOfCRL` (aggregate-crls.go:181-203). -/
def loadCrl (disk : Text → Option CrlFile) (path : Text) : Option CrlFile :=
  match disk path with
  | none => none
  | some c => if c.sigOK then some c else none

/-- The loop over the distribution point's URIs (aggregate-crls.go:233-248); `none` is the error "lists a different known CRL". -/
def idpLoop (partition : List Text) (fetch : Text) : List (Option Text) → Bool → Option Bool
  | [], found => some found
  | none :: rest, found => idpLoop partition fetch rest found
  | some u :: rest, found =>
    if partition.contains u then (if fetch = u then idpLoop partition fetch rest true else none)
    else idpLoop partition fetch rest found

/-- `loadAndCheckIssuingDistributionPointOfCRL` (aggregate-crls.go:205-252): it answers true without error, or false with an error. -/
def checkIdp (c : CrlFile) (fetch : Text) (partition : List Text) : Bool :=
  match c.idp with
  | none => false
  | some uris =>
    match idpLoop partition fetch uris false with
    | none => false
    | some found => found

/-- `processCRL` (aggregate-crls.go:286-302) on the decoded entries. -/
def processEntries : List (Serial × List CrlExtension) → Option (List (Serial × UInt8))
  | [] => some []
  | (s, exts) :: rest =>
    match serialAndReason s exts with
    | none => none
    | some p =>
      match processEntries rest with
      | none => none
      | some r => some (p :: r)

/-- `processCRL` (aggregate-crls.go:286-302). -/
def processCRL (c : CrlFile) : Option (List (Serial × UInt8)) :=
  match c.entries with
  | none => none
  | some es => processEntries es

/-- What the auditor is told (aggregate-crls.go:339-373). -/
inductive AuditKind where
  | failedVerify | wrongIdp | failedProcess | noRevocations
  | valid (n : Nat)
deriving DecidableEq

/-- Effect of one CRL in the loop of `aggregateCRLWorker`. -/
structure CrlOut where
  failed : Bool
  serials : List (Serial × UInt8)
  audit : List AuditKind

/-- The audit entry for the distribution point (aggregate-crls.go:345-357): the CRL is used regardless. -/
def idpAudit (partitioned : Bool) (partition : List Text) (c : CrlFile) (url : Text) : List AuditKind :=
  if partitioned && !checkIdp c url partition then [.wrongIdp] else []

/-- The body of the loop over `CrlUrlPaths` (aggregate-crls.go:328-378). -/
def treatCrl (disk : Text → Option CrlFile) (partitioned : Bool) (partition : List Text) (u : UrlPath) : CrlOut :=
  match u.path with
  | none => { failed := true, serials := [], audit := [] }
  | some p =>
    match loadCrl disk p with
    | none => { failed := true, serials := [], audit := [.failedVerify] }
    | some c =>
      match processCRL c with
      | none => { failed := true, serials := [], audit := idpAudit partitioned partition c u.url ++ [.failedProcess] }
      | some l =>
        { failed := false, serials := l,
          audit := idpAudit partitioned partition c u.url ++ [if l.length = 0 then .noRevocations else .valid l.length] }

/-- `types.IssuerCrlUrlPaths` with the issuer's `usesPartitionedCrls` (aggregate-crls.go:316-327). -/
structure CrlUnit where
  issuer : Text
  partitioned : Bool
  paths : List UrlPath
deriving DecidableEq

/-- `partitionedCrlUrls` (aggregate-crls.go:318-323). -/
def CrlUnit.partition (u : CrlUnit) : List Text := if u.partitioned then u.paths.map UrlPath.url else []

/-- A goroutine running `aggregateCRLWorker` (aggregate-crls.go:304-399). -/
inductive CWorker where
  | ready
  | busy (unit : CrlUnit) (todo : List UrlPath) (failed : Bool) (serials : List (Serial × UInt8))
  | stopped
deriving DecidableEq

/-- How storing goes: the directory or file cannot be made (461-471), or it is opened and the disk has room for `room` characters; if the context is cancelled, `stop` serials are
written before that is noticed (480-482). -/
inductive StoreOut where
  | openFails
  | opened (room : Nat) (stop : Nat)

/-- `StoreRevokedCertificateList` (aggregate-crls.go:474-494) to a file with room for `room` characters: the text in the file, and whether `nil` is returned. The result of the deferred
`Flush` (477) is ignored. -/
def writeRevokedTo (room : Nat) (l : List (Serial × UInt8)) : Text × Bool :=
  let w := (storeRevokedCertificateList l).foldl (BufW.put bufSize) { buf := [], out := [], room := room, err := false }
  (w.flush.out, !w.err)

/-- The aggregation phase: the filled and closed channel, the workers, the context, the revoked directory, the audit report, whether `glog.Fatal` ended the process; and a
record, not kept by the program, of an unnoticed write error. -/
structure CrlAgg where
  queue : List CrlUnit
  workers : List CWorker
  cancelled : Bool
  files : Text → Option Text
  audit : List (Text × Text × AuditKind)
  fatal : Bool
  silent : Bool

inductive CrlAct where
  /-- SIGINT or SIGTERM (aggregate-crls.go:546-551) -/
  | signal
  /-- worker `k` receives a unit or finds the channel closed (308) -/
  | take (k : Nat)
  /-- worker `k` treats its next CRL (328-378), or stores the list after the last one (381-392) -/
  | next (k : Nat) (out : StoreOut)

/-- Set one file. -/
def setFile (files : Text → Option Text) (i : Text) (t : Text) : Text → Option Text := fun j => if j = i then some t else files j

/-- The end of the loop body (aggregate-crls.go:381-392). -/
def CrlAgg.store (a : CrlAgg) (k : Nat) (u : CrlUnit) (failed : Bool) (l : List (Serial × UInt8)) (out : StoreOut) : CrlAgg :=
  if failed then { a with workers := a.workers.set k .ready }
  else match out with
    | .openFails => { a with fatal := true }
    | .opened room stop =>
      if a.cancelled && decide (l ≠ []) then
        { a with files := setFile a.files u.issuer (writeRevokedTo room (l.take (min stop (l.length - 1)))).1, fatal := true }
      else if (writeRevokedTo room l).2 then
        { a with files := setFile a.files u.issuer (writeRevokedTo room l).1, workers := a.workers.set k .ready,
                 silent := a.silent || decide ((writeRevokedTo room l).1 ≠ storeRevokedCertificateList l) }
      else { a with files := setFile a.files u.issuer (writeRevokedTo room l).1, fatal := true }

/-- One CRL (aggregate-crls.go:328-378). -/
def CrlAgg.crl (disk : Text → Option CrlFile) (a : CrlAgg) (k : Nat) (u : CrlUnit) (p : UrlPath) (rest : List UrlPath) (failed : Bool)
    (l : List (Serial × UInt8)) : CrlAgg :=
  let r := treatCrl disk u.partitioned u.partition p
  { a with workers := a.workers.set k (.busy u rest (failed || r.failed) (l ++ r.serials)),
           audit := a.audit ++ r.audit.map (fun e => (u.issuer, p.url, e)) }

/-- One step. After `glog.Fatal` nothing happens. -/
def CrlAgg.step (disk : Text → Option CrlFile) (a : CrlAgg) (act : CrlAct) : CrlAgg :=
  if a.fatal then a
  else match act with
    | .signal => { a with cancelled := true }
    | .take k =>
      if a.workers[k]? = some .ready then
        match a.queue with
        | [] => { a with workers := a.workers.set k .stopped }
        | u :: q => { a with queue := q, workers := a.workers.set k (.busy u u.paths false []) }
      else a
    | .next k out =>
      match a.workers[k]? with
      | some (.busy u [] failed l) => a.store k u failed l out
      | some (.busy u (p :: rest) failed l) =>
        if a.cancelled then { a with workers := a.workers.set k .stopped }
        else a.crl disk k u p rest failed l
      | _ => a

def CrlAgg.run (disk : Text → Option CrlFile) (a : CrlAgg) (acts : List CrlAct) : CrlAgg := acts.foldl (CrlAgg.step disk) a

/-- Before the workers start (aggregate-crls.go:441-451). -/
def CrlAgg.init (queue : List CrlUnit) (threads : Nat) (files : Text → Option Text) : CrlAgg :=
  { queue := queue, workers := List.replicate threads .ready, cancelled := false, files := files, audit := [], fatal := false, silent := false }

/-- `aggregateCRLs` has returned, and `main` goes on to save the list of issuers and exits with status 0 (aggregate-crls.go:569-573); the context is not looked at. -/
def CrlAgg.returned (a : CrlAgg) : Bool := !a.fatal && a.workers.all (fun w => decide (w = .stopped))

/-- The issuers that `main` then saves as enrolled (aggregate-crls.go:570, go/rootprogram/issuers.go:308-347): all issuers in the map; nothing is saved when the process died. -/
def CrlAgg.enrolled (a : CrlAgg) (issuers : List Text) : Option (List Text) := if a.returned then some issuers else none

/-! ### from the map of CRL URLs to the units -/

/-- Parsing an issuer's URLs (aggregate-crls.go:409-416): those that do not parse are ignored. `parse` is `url.Parse` of the trimmed text followed by `normalizedUrlString`. -/
def parseUrls (parse : Text → Option Text) (urls : List Text) : List Text := urls.filterMap parse

/-- `downloadCRLs` (aggregate-crls.go:401-439) and `crlFetchWorker` (144-179), not cancelled: one unit per issuer that has a URL. `fetch issuer url` is the path
`crlFetchWorkerProcessOne` returns, `none` on an error. The map is a list with distinct issuers, in any order. -/
def crlUnits (parse : Text → Option Text) (fetch : Text → Text → Option Text) (partitioned : Text → Bool) : List (Text × List Text) → List CrlUnit
  | [] => []
  | (i, urls) :: rest =>
    if parseUrls parse urls = [] then crlUnits parse fetch partitioned rest
    else { issuer := i, partitioned := partitioned i, paths := (parseUrls parse urls).map (fun u => { url := u, path := fetch i u }) } ::
      crlUnits parse fetch partitioned rest

end Verif
