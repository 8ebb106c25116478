import Verif.Model.Issuers
import Verif.Model.SerialFile
/-!
# rust-query-crlite

`rust-query-crlite/src/main.rs`: choosing the intermediates list, updating the database directory, loading it, and answering queries. HTTP, SHA-256, PEM and X.509 parsing, signature verification and the filter library
are parameters. Logging is left out.
-/
namespace Verif

/-! ### queries -/

/-- `Status` (main.rs:56-63). -/
inductive QStatus
  | expired
  | good
  | notCovered
  | notEnrolled
  | revoked
deriving DecidableEq, Repr

/-- What `query` uses of a certificate (main.rs:351-383); `valid` is the answer of `validity.is_valid()` now, `scts` the log identifiers and timestamps in its SCT extension (main.rs:231-244). -/
structure ClientCert where
  issuerDN : Bytes
  serial : Bytes
  scts : List (Bytes × Nat)
  valid : Bool

/-- What is used of a parsed issuer certificate: subject and public key. -/
structure IssuerCert where
  subject : Bytes
  spki : Bytes
deriving DecidableEq

/-- `Intermediates` (main.rs:401): DER certificates by subject name. -/
abbrev Intermediates := List (Bytes × List Bytes)

/-- `entry(name).or_default().push(der)` (main.rs:420-424). -/
def interPush (m : Intermediates) (name der : Bytes) : Intermediates :=
  match m with
  | [] => [(name, [der])]
  | e :: rest => if e.1 = name then (name, e.2 ++ [der]) :: rest else e :: interPush rest name der

/-- `m.get(name)` (main.rs:449). -/
def interGet (m : Intermediates) (name : Bytes) : Option (List Bytes) := (m.find? (fun e => decide (e.1 = name))).map Prod.snd

/-- One record in `from_enrolled_json` (main.rs:407-432): records that do not parse are skipped. -/
def enrollOne (pem : Text → Option Bytes) (parse : Bytes → Option IssuerCert) (m : Intermediates) (rec : Text) : Intermediates :=
  match pem rec with
  | none => m
  | some der =>
    match parse der with
    | none => m
    | some c => interPush m c.subject der

/-- `from_enrolled_json` (main.rs:407-434). -/
def fromEnrolled (pem : Text → Option Bytes) (parse : Bytes → Option IssuerCert) (recs : List Text) : Intermediates := recs.foldl (enrollOne pem parse) []

/-- The loop over the certificates of one name (main.rs:453-458). -/
def findSpki (parse : Bytes → Option IssuerCert) (verifies : Bytes → Bool) : List Bytes → Option Bytes
  | [] => none
  | der :: rest =>
    match parse der with
    | none => findSpki parse verifies rest
    | some c => if verifies c.spki then some c.spki else findSpki parse verifies rest

/-- `lookup_issuer_spki` (main.rs:447-462); `verifies k` says whether the certificate's signature verifies with key `k`. -/
def lookupSpki (parse : Bytes → Option IssuerCert) (verifies : Bytes → Bool) (m : Intermediates) (issuerDN : Bytes) : Option Bytes :=
  match interGet m issuerDN with
  | none => none
  | some ders => findSpki parse verifies ders

/-- The loop over the filters (main.rs:375-397) from a state of the two flags; `has f` is the answer of one filter. -/
def queryLoop {F : Type} (has : F → QStatus) : List F → Bool → Bool → QStatus
  | [], maybeGood, covered => if maybeGood then .good else if covered then .notEnrolled else .notCovered
  | f :: rest, maybeGood, covered =>
    match has f with
    | .revoked => .revoked
    | .good => queryLoop has rest true covered
    | .notEnrolled => queryLoop has rest maybeGood true
    | _ => queryLoop has rest maybeGood covered

/-- `CRLiteDB::query` (main.rs:351-398). -/
def clientQuery {F : Type} (sha : Bytes → Bytes) (parse : Bytes → Option IssuerCert) (verifies : Bytes → Bool) (has : F → Bytes → Bytes → List (Bytes × Nat) → QStatus) (filters : List F) (m : Intermediates)
    (c : ClientCert) : QStatus :=
  match lookupSpki parse verifies m c.issuerDN with
  | none => .notEnrolled
  | some spki => if c.valid then queryLoop (fun f => has f (sha spki) c.serial c.scts) filters false false else .expired

/-! ### the newest run -/

/-- `str::parse::<u32>` (main.rs:109): an optional plus sign, then digits, below 2^32. -/
def parseU32 (t : Text) : Option Nat :=
  let body := dropPlus t
  if body = [] then none
  else if body.all (fun c => decide ('0' ≤ c ∧ c ≤ '9')) then
    let n := body.foldl (fun a c => 10 * a + (c.toNat - 48)) 0
    if n < 2 ^ 32 then some n else none
  else none

/-- `extract_run_id` (main.rs:105-115). -/
def extractRunId (name : Text) : Option (Text × Nat) :=
  let date := name.takeWhile (· ≠ '-')
  match name.dropWhile (· ≠ '-') with
  | [] => none
  | _ :: rest =>
    match parseU32 (rest.takeWhile (· ≠ '-')) with
    | none => none
    | some rev => if date.length = 8 ∧ date.all (fun c => decide ('0' ≤ c ∧ c ≤ '9')) then some (date, rev) else none

/-- Byte order of strings, as `Ord for String`; for the 8 digits of a date the order of code points is the order of bytes. -/
def textLt : Text → Text → Bool
  | [], [] => false
  | [], _ :: _ => true
  | _ :: _, [] => false
  | a :: x, b :: y => if a.toNat < b.toNat then true else if b.toNat < a.toNat then false else textLt x y

/-- Order of pairs (`Ord` for tuples). -/
def runLt (a b : Text × Nat) : Bool := if textLt a.1 b.1 then true else if textLt b.1 a.1 then false else decide (a.2 < b.2)

/-- `current.max(run_id)` (main.rs:127): the second if not smaller. -/
def runMax (a b : Text × Nat) : Text × Nat := if runLt b a then a else b

/-- The loop of `update_intermediates` (main.rs:121-130): every file of the directory counts. -/
def latestRun (names : List Text) (init : Option (Text × Nat)) : Option (Text × Nat) :=
  match names with
  | [] => init
  | n :: rest =>
    match extractRunId n with
    | none => latestRun rest init
    | some r =>
      match init with
      | none => latestRun rest (some r)
      | some c => latestRun rest (some (runMax c r))

/-! ### the database directory -/

/-- `Path::extension` (main.rs:187-189, 301-303): what follows the last dot, unless nothing precedes it. -/
def fileExtension (n : Text) : Option Text :=
  match n.reverse.dropWhile (· ≠ '.') with
  | [] => none
  | [_] => none
  | _ :: _ :: _ => some (n.reverse.takeWhile (· ≠ '.')).reverse

/-- Filter files (main.rs:190, 304). -/
def isFilterFile (n : Text) : Bool := decide (fileExtension n = some "delta".toList) || decide (fileExtension n = some "filter".toList)

/-- `CRLiteFilterChannel` (main.rs:683-689). -/
inductive ClientChannel
  | default
  | compat
deriving DecidableEq

/-- Deserialization of the field (main.rs:88, 683-689): absent is allowed, an unknown name is an error. -/
def parseChannel : Option Text → Option (Option ClientChannel)
  | none => some none
  | some t => if t = "default".toList then some (some .default) else if t = "compat".toList then some (some .compat) else none

/-- `CertRevRecord` (main.rs:82-96) as received. -/
structure RawFilterRec where
  hash : Text
  filename : Text
  location : Text
  incremental : Bool
  channel : Option Text

/-- `CertRevRecord` parsed; a missing channel is the default one (main.rs:168). -/
structure FilterRec where
  hash : Text
  filename : Text
  location : Text
  incremental : Bool
  channel : ClientChannel

/-- Deserializing the collection (main.rs:160-164): one bad record fails it. -/
def parseRecords : List RawFilterRec → Option (List FilterRec)
  | [] => some []
  | r :: rest =>
    match parseChannel r.channel, parseRecords rest with
    | some c, some l => some (⟨r.hash, r.filename, r.location, r.incremental, c.getD .default⟩ :: l)
    | _, _ => none

/-- Files by path relative to the database directory; a path with a slash leads elsewhere. -/
abbrev Files := List (Text × Bytes)

/-- Whether `read_dir` lists the path. -/
def inDir (n : Text) : Bool := !n.contains '/'

/-- The world of an update: which removals succeed, what downloads give, whether a write succeeds (`none`) or stops after some bytes, and SHA-256. -/
structure UpdateEnv where
  removable : Text → Bool
  fetch : Text → Option Bytes
  writeFails : Text → Option Nat
  sha : Bytes → Bytes

/-- Removing what is not listed (main.rs:183-196): errors are ignored. -/
def removeStale (env : UpdateEnv) (names : List Text) (fs : Files) : Files :=
  fs.filter (fun e => !(inDir e.1 && isFilterFile e.1 && !names.contains e.1 && env.removable e.1))

/-- Download, check and write (main.rs:210-226). -/
def fetchFilter (env : UpdateEnv) (want : Bytes) (r : FilterRec) (fs : Files) : Bool × Files :=
  match env.fetch r.location with
  | none => (false, fs)
  | some b =>
    if want = env.sha b then
      match env.writeFails r.filename with
      | none => (true, assocPut fs r.filename b)
      | some k => (false, assocPut fs r.filename (b.take k))
    else (false, fs)

/-- One record (main.rs:198-226). -/
def updateOne (env : UpdateEnv) (r : FilterRec) (fs : Files) : Bool × Files :=
  match hexDecode r.hash with
  | none => (false, fs)
  | some want =>
    match assocGet fs r.filename with
    | some c => if want = env.sha c then (true, fs) else fetchFilter env want r fs
    | none => fetchFilter env want r fs

/-- The loop over the records: stops at the first error. -/
def updateLoop (env : UpdateEnv) : List FilterRec → Files → Bool × Files
  | [], fs => (true, fs)
  | r :: rest, fs =>
    match updateOne env r fs with
    | (true, fs') => updateLoop env rest fs'
    | (false, fs') => (false, fs')

/-- `update_db` (main.rs:150-229) from the received records on. -/
def updateDb (env : UpdateEnv) (chan : ClientChannel) (raw : List RawFilterRec) (fs : Files) : Bool × Files :=
  match parseRecords raw with
  | none => (false, fs)
  | some recs =>
    let listed := recs.filter (fun r => decide (r.channel = chan))
    if (listed.filter (fun r => !r.incremental)).length = 1 then updateLoop env listed (removeStale env (listed.map FilterRec.filename) fs)
    else (false, fs)

/-- Loading the filters (main.rs:297-314): all filter files of the directory; one that does not parse is an error. The sorting by name is left out, see C63. -/
def loadFilters {F : Type} (fromBytes : Bytes → Option F) : Files → Option (List (Text × F))
  | [] => some []
  | e :: rest =>
    if inDir e.1 && isFilterFile e.1 then
      match fromBytes e.2, loadFilters fromBytes rest with
      | some f, some l => some ((e.1, f) :: l)
      | _, _ => none
    else loadFilters fromBytes rest

end Verif
