import Verif.Model.Client
import Verif.Model.Bincode
import Verif.Model.Pem
/-!
The program rust-query-crlite as a whole (rust-query-crlite/src/main.rs:117-148, 287-349, 480-779): preparing the database directory, the four subcommands, and the exit status. The file system, HTTP, TLS, name
resolution and the parsers are parameters. Logging is left out.
-/
namespace Verif

/-- `RemoteSettingsInstance` (main.rs:693-698). -/
inductive Instance
  | prod
  | stage
  | dev
deriving DecidableEq

/-- The URLs of attachments and collections (main.rs:42-48, 735-739). -/
def instanceUrls : Instance → Text × Text
  | .dev => ("https://firefox-settings-attachments.cdn.allizom.org/".toList, "https://firefox.settings.services.allizom.org/v1/buckets/security-state-staging/collections/".toList)
  | .stage => ("https://firefox-settings-attachments.cdn.allizom.org/".toList, "https://firefox.settings.services.allizom.org/v1/buckets/security-state-staging/collections/".toList)
  | .prod => ("https://firefox-settings-attachments.cdn.mozilla.net/".toList, "https://firefox.settings.services.mozilla.com/v1/buckets/security-state-staging/collections/".toList)

/-- The URL of a run's `enrolled.json` (main.rs:39-40, 136). -/
def enrolledUrl (r : Text × Nat) : Text :=
  "https://storage.googleapis.com/crlite-filters-prod/".toList ++ (r.1 ++ '-' :: (toString r.2).toList) ++ "/enrolled.json".toList

/-- `Subcommand` (main.rs:700-711). -/
inductive QueryCmd
  | https (hosts : List Text)
  | signoff (url : Text)
  | x509 (files : List Text)
  | crtsh (id : Text)

/-- What the program finds outside itself. `records` and `enrolled` are HTTP requests whose answers have been parsed as JSON up to what is used of them; of an enrolled record that is its PEM. `file`: `none` if there is no such
file, `some none` if it cannot be read. `page` is the body of any HTTP answer, whatever its status code. `connect k host addr i` is the certificate of the server in the `i`th attempt for the `k`th host. -/
structure QueryWorld (F : Type) where
  dirOk : Bool
  records : Text → Option (List RawFilterRec)
  attachment : Text → Option Bytes
  enrolled : Text → Option (List Text)
  removable : Text → Bool
  writeFails : Text → Option Nat
  sha : Bytes → Bytes
  pem : Text → Option Bytes
  parseIssuer : Bytes → Option IssuerCert
  verifies : Bytes → Bytes → Bool
  parse : Bytes → Option ClientCert
  fromBytes : Bytes → Option F
  has : F → Bytes → Bytes → List (Bytes × Nat) → QStatus
  file : Text → Option (Option Bytes)
  page : Text → Option Bytes
  text : Bytes → Text
  resolve : Nat → Text → Nat → Option (List Text)
  connect : Nat → Text → Text → Nat → Option Bytes

/-- `CRLiteDB` (main.rs:287-290). -/
structure LoadedDb (F : Type) where
  filters : List F
  inters : Intermediates
deriving DecidableEq

variable {F : Type}

/-! ### the database -/

/-- `crlite.intermediates`. -/
def interName : Text := "crlite.intermediates".toList

/-- The parts of the world that `update_db` uses. -/
def QueryWorld.updateEnv (W : QueryWorld F) (inst : Instance) : UpdateEnv :=
  { removable := W.removable, fetch := fun loc => W.attachment ((instanceUrls inst).1 ++ loc), writeFails := W.writeFails, sha := W.sha }

/-- Writing `crlite.intermediates` (main.rs:144-145). -/
def QueryWorld.writeInters (W : QueryWorld F) (b : Bytes) (fs : Files) : Bool × Files :=
  match W.writeFails interName with
  | none => (true, assocPut fs interName b)
  | some k => (false, assocPut fs interName (b.take k))

/-- `update_intermediates` (main.rs:117-148). -/
def QueryWorld.updateInters (W : QueryWorld F) (fs : Files) : Bool × Files :=
  match latestRun ((fs.map Prod.fst).filter inDir) none with
  | none => (false, fs)
  | some r =>
    match W.enrolled (enrolledUrl r) with
    | none => (false, fs)
    | some recs => W.writeInters (binMap (fromEnrolled W.pem W.parseIssuer recs)) fs

/-- `--update` (main.rs:734-750). -/
def QueryWorld.update (W : QueryWorld F) (inst : Instance) (chan : ClientChannel) (fs : Files) : Bool × Files :=
  match W.records ((instanceUrls inst).2 ++ "cert-revocations/records".toList) with
  | none => (false, fs)
  | some raw =>
    match updateDb (W.updateEnv inst) chan raw fs with
    | (false, fs') => (false, fs')
    | (true, fs') => W.updateInters fs'

/-- Fetch the intermediates if there are none (main.rs:338-340). -/
def QueryWorld.ensureInters (W : QueryWorld F) (fs : Files) : Bool × Files :=
  match assocGet fs interName with
  | none => W.updateInters fs
  | some _ => (true, fs)

/-- `CRLiteDB::load` (main.rs:293-349), and the files afterwards. -/
def QueryWorld.load (W : QueryWorld F) (fs : Files) : Option (LoadedDb F) × Files :=
  match loadFilters W.fromBytes fs with
  | none => (none, fs)
  | some l =>
    match W.ensureInters fs with
    | (false, fs') => (none, fs')
    | (true, fs') => (((assocGet fs' interName).bind unbinMap).map (fun m => ⟨l.map Prod.snd, m⟩), fs')

/-! ### the subcommands -/

/-- `query` (main.rs:351-398) on the certificate with the octets `der`. -/
def QueryWorld.answer (W : QueryWorld F) (db : LoadedDb F) (der : Bytes) (c : ClientCert) : QStatus :=
  clientQuery W.sha W.parseIssuer (W.verifies der) W.has db.filters db.inters c

/-- The certificate is parsed and queried (main.rs:568-572, 591-593): `none` if it does not parse, else whether the answer is Revoked. -/
def QueryWorld.judge (W : QueryWorld F) (db : LoadedDb F) (der : Bytes) : Option Bool :=
  match W.parse der with
  | none => none
  | some c => some (decide (W.answer db der c = .revoked))

/-- The loop of `query_certs` (main.rs:596-629) from a value of `found_revoked_certs`. -/
def QueryWorld.queryCerts (W : QueryWorld F) (db : LoadedDb F) : Bool → List Text → Bool
  | found, [] => found
  | found, f :: rest =>
    match W.file f with
    | some (some input) => W.queryCerts db (found || decide (W.judge db (queryOctets input) = some true)) rest
    | _ => W.queryCerts db found rest

/-- `query_crtsh_id` (main.rs:631-651). -/
def QueryWorld.queryCrtsh (W : QueryWorld F) (db : LoadedDb F) (id : Text) : Option Bool :=
  match W.page ("https://crt.sh/?d=".toList ++ id) with
  | none => none
  | some input => W.judge db (queryOctets input)

/-- `rsplit_once(':')`, with 443 if there is no colon (main.rs:522). -/
def splitHost (h : Text) : Text × Text :=
  match h.reverse.dropWhile (· ≠ ':') with
  | [] => (h, "443".toList)
  | _ :: r => (r.reverse, (h.reverse.takeWhile (· ≠ ':')).reverse)

/-- `str::parse::<u16>` (main.rs:523-525). -/
def parseU16 (t : Text) : Option Nat :=
  match parseU32 t with
  | none => none
  | some n => if n < 65536 then some n else none

/-- `query_https_addr` (main.rs:546-584). -/
def QueryWorld.queryAddr (W : QueryWorld F) (db : LoadedDb F) (k : Nat) (host addr : Text) (i : Nat) : Option Bool :=
  match W.connect k host addr i with
  | none => none
  | some der => W.judge db der

/-- The loop over the addresses (main.rs:529-538): two attempts for each, until one succeeds. -/
def QueryWorld.queryAddrs (W : QueryWorld F) (db : LoadedDb F) (k : Nat) (host : Text) : List Text → Option Bool
  | [] => none
  | a :: rest =>
    match W.queryAddr db k host a 0 with
    | some r => some r
    | none =>
      match W.queryAddr db k host a 1 with
      | some r => some r
      | none => W.queryAddrs db k host rest

/-- `query_https_host` (main.rs:517-544). -/
def QueryWorld.queryHost (W : QueryWorld F) (db : LoadedDb F) (k : Nat) (h : Text) : Option Bool :=
  match parseU16 (splitHost h).2 with
  | none => none
  | some port =>
    match W.resolve k (splitHost h).1 port with
    | none => none
    | some addrs => W.queryAddrs db k (splitHost h).1 addrs

/-- The loop of `query_https_hosts` (main.rs:495-515): an error of one host ends it. -/
def QueryWorld.queryHosts (W : QueryWorld F) (db : LoadedDb F) : Nat → Bool → List Text → Option Bool
  | _, found, [] => some found
  | k, found, h :: rest =>
    match W.queryHost db k h with
    | none => none
    | some r => W.queryHosts db (k + 1) (if r then true else found) rest

/-- Unicode's `White_Space`, which `str::trim` removes. -/
def isRustSpace (c : Char) : Bool :=
  decide ((9 ≤ c.toNat ∧ c.toNat ≤ 13) ∨ c.toNat = 0x20 ∨ c.toNat = 0x85 ∨ c.toNat = 0xa0 ∨ c.toNat = 0x1680 ∨ (0x2000 ≤ c.toNat ∧ c.toNat ≤ 0x200a) ∨ c.toNat = 0x2028 ∨ c.toNat = 0x2029 ∨ c.toNat = 0x202f ∨
    c.toNat = 0x205f ∨ c.toNat = 0x3000)

/-- The hosts in a hosts file (main.rs:486-490). -/
def hostsOf (t : Text) : List Text :=
  ((splitLines t).map (trimBoth isRustSpace)).filter (fun l => !(decide (l.head? = some '#') || decide (l = [])))

/-- `signoff` (main.rs:480-493). -/
def QueryWorld.signoff (W : QueryWorld F) (db : LoadedDb F) (url : Text) : Option Bool :=
  match W.page url with
  | none => none
  | some b => W.queryHosts db 0 false (hostsOf (W.text b))

/-- The subcommand (main.rs:761-769): `none` is an error, else whether a revoked certificate was found. -/
def QueryWorld.command (W : QueryWorld F) (db : LoadedDb F) : QueryCmd → Option Bool
  | .signoff url => W.signoff db url
  | .https hosts => W.queryHosts db 0 false hosts
  | .x509 files => some (W.queryCerts db false files)
  | .crtsh id => W.queryCrtsh db id

/-- The exit status (main.rs:771-778). -/
def exitOf : Option Bool → Nat
  | some false => 0
  | some true => 1
  | none => 1

/-- From loading on (main.rs:752-779). -/
def QueryWorld.loadAndRun (W : QueryWorld F) (cmd : QueryCmd) (fs : Files) : Nat × Files :=
  match W.load fs with
  | (none, fs') => (1, fs')
  | (some db, fs') => (exitOf (W.command db cmd), fs')

/-- `main` (main.rs:719-779): the exit status and the files of the database afterwards. -/
def QueryWorld.main (W : QueryWorld F) (update : Option Instance) (chan : ClientChannel) (cmd : QueryCmd) (fs : Files) : Nat × Files :=
  if W.dirOk then
    match update with
    | none => W.loadAndRun cmd fs
    | some inst =>
      match W.update inst chan fs with
      | (false, fs') => (1, fs')
      | (true, fs') => W.loadAndRun cmd fs'
  else (1, fs)

end Verif
