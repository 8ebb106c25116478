import Verif.Model.Crls
import Verif.Model.Download
/-!
The audit report of aggregate-crls (go/cmd/aggregate-crls/crl-auditor.go): what the downloads and the aggregation tell the auditor.
-/
namespace Verif

/-- What the auditor is told while downloading: `FailedDownload` and `FailedVerifyUrl` (verifying-downloader.go:53, 61), `Old` (aggregate-crls.go:133). -/
inductive FetchKind where
  | failedDownload | failedVerify | old
deriving DecidableEq

/-- How the download of one CRL goes: whether the directory can be made, the two files before, the states of the temporary file during the download, whether the download succeeds, whether the rename and the removal of the temporary
file succeed, whether the file can be looked at afterwards, the time (in hours). -/
structure FetchIn where
  mkdirs : Bool
  before : TwoFiles
  dl : List (Option LocalFile)
  dlOK : Bool
  renames : Bool
  removes : Bool
  stats : Bool
  now : Int

/-- The entries made by `DownloadAndVerifyFileSync` (verifying-downloader.go:51-64). -/
def downloadAudit (valid : Bytes → Bool) (f : FetchIn) : List FetchKind :=
  if !f.dlOK then [.failedDownload]
  else if !validFile valid ((f.dl.getLast?).getD f.before.tmp) then [.failedVerify]
  else []

/-- The final file after `DownloadAndVerifyFileSync`. -/
def fetchedFile (valid : Bytes → Bool) (f : FetchIn) : Option LocalFile :=
  match (verifyingDownload valid f.before f.dl f.dlOK f.renames f.removes).1.getLast? with
  | some s => s.final
  | none => f.before.final

/-- `crlFetchWorkerProcessOne` (aggregate-crls.go:91-142): the path it returns, and the audit entries. `path` is `finalPath`. The issuer's certificate is found, else the process dies (103-106). A file older than 336 hours is reported and
used. -/
def fetchOne (valid : Bytes → Bool) (path : Text) (f : FetchIn) : Option Text × List FetchKind :=
  if !f.mkdirs then (none, [])
  else if !(verifyingDownload valid f.before f.dl f.dlOK f.renames f.removes).2.1 then (none, downloadAudit valid f)
  else if !f.stats then (none, downloadAudit valid f)
  else match fetchedFile valid f with
    | none => (none, downloadAudit valid f)
    | some l => (some path, downloadAudit valid f ++ if f.now - l.mtime > 336 then [.old] else [])

/-- All entries made while downloading (`crlFetchWorker`, aggregate-crls.go:144-179), not cancelled, in some order. `inp i u` is how the download of URL `u` of issuer `i` goes, `pathOf i u` the path of its file. -/
def fetchAudits (valid : Bytes → Bool) (pathOf : Text → Text → Text) (inp : Text → Text → FetchIn) (units : List CrlUnit) : List (Text × Text × FetchKind) :=
  (units.map (fun u => (u.paths.map (fun p => (fetchOne valid (pathOf u.issuer p.url) (inp u.issuer p.url)).2.map (fun k => (u.issuer, p.url, k)))).flatten)).flatten

/-- The units with the paths that the downloads gave (aggregate-crls.go:401-439). -/
def fetchedUnits (valid : Bytes → Bool) (pathOf : Text → Text → Text) (inp : Text → Text → FetchIn) (parse : Text → Option Text) (part : Text → Bool) (m : List (Text × List Text)) : List CrlUnit :=
  crlUnits parse (fun i u => (fetchOne valid (pathOf i u) (inp i u)).1) part m

end Verif
