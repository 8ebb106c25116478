import Verif.Model.Time
import Verif.Model.SerialFile
/-!
Names of bins and of log states, and the listing of bins.
-/
namespace Verif

/-! ### bin names -/

/-- `strings.Split(s, "::")` (go/storage/certdatabase.go:122, 229): scans left to right. -/
def splitColons : Text → Text → List Text
  | [], acc => [acc.reverse]
  | [c], acc => [(c :: acc).reverse]
  | c :: d :: rest, acc =>
    if c = ':' ∧ d = ':' then acc.reverse :: splitColons rest []
    else splitColons (d :: rest) (c :: acc)

/-- The constant prefix of a bin name. -/
def serialsWord : Text := "serials".toList

/-- `NewSerialCacheKey`, the id (go/storage/types.go:45). -/
def serialCacheKeyID (dateID issuerID : Text) : Text :=
  serialsWord ++ ':' :: ':' :: (dateID ++ ':' :: ':' :: issuerID)

/-- The handle under which `GetSerialCacheKey` memoizes a key (go/storage/certdatabase.go:336). -/
def accessorID (dateID issuerID : Text) : Text := issuerID ++ dateID

/-- The accessor cache of `GetSerialCacheKey` (go/storage/certdatabase.go:333-359): a map from handle to key id.
Simplification: LRU eviction is not modelled; an evicted key is rebuilt by the same constructor. -/
def getSerialCacheKey (m : Text → Option Text) (dateID issuerID : Text) : Text × (Text → Option Text) :=
  match m (accessorID dateID issuerID) with
  | some k => (k, m)
  | none =>
    let k := serialCacheKeyID dateID issuerID
    (k, fun x => if x = accessorID dateID issuerID then some k else m x)

/-! ### listing bins -/

/-- One issuer with its dates: `types.IssuerDate`. -/
abbrev IssuerDates := Text × List ExpDate

/-- Update of `issuerMap` (go/storage/certdatabase.go:134-144); the Go map is an association list in insertion order. -/
def addDate (issuer : Text) (d : ExpDate) : List IssuerDates → List IssuerDates
  | [] => [(issuer, [d])]
  | (i, ds) :: rest => if i = issuer then (i, ds ++ [d]) :: rest else (i, ds) :: addDate issuer d rest

/-- Loop of `GetIssuerAndDatesFromChannel` (go/storage/certdatabase.go:116-152); `none` is the error.
Simplification: the order of the returned list (Go map order) is fixed here; the theorems do not depend on it. -/
def listBinsLoop : List Text → List IssuerDates → Option (List IssuerDates)
  | [], acc => some acc
  | e :: rest, acc =>
    match splitColons e [] with
    | [_, d, i] =>
      match newExpDate d with
      | none => listBinsLoop rest acc
      | some x => listBinsLoop rest (addDate i x acc)
    | _ => none

/-- `GetIssuerAndDatesFromChannel`. -/
def listBins (names : List Text) : Option (List IssuerDates) := listBinsLoop names []

/-- A directory entry of `serialsDir` as `os.ReadDir` shows it. -/
structure DirEntry where
  name : Text
  isDir : Bool
  files : List Text

/-- `strings.HasPrefix`. -/
def hasPrefix (p s : Text) : Bool := decide (s.take p.length = p)

/-- The names sent to the channel by `GetIssuerAndDatesFromStorage` (go/storage/certdatabase.go:184-206).
Directory read errors terminate the process there (`glog.Fatal`). -/
def storageNames (dirs : List DirEntry) : List Text :=
  (dirs.filter (fun d => d.isDir && hasPrefix "issuer::".toList d.name)).flatMap
    (fun d => d.files.filter (hasPrefix "serials::".toList))

/-- `GetIssuerAndDatesFromStorage` (go/storage/certdatabase.go:168-209). -/
def listStorageBins (dirs : List DirEntry) : Option (List IssuerDates) := listBins (storageNames dirs)

/-! ### per-log state -/

/-- `strings.TrimRight(s, "/")`. -/
def trimSlashes (s : Text) : Text := (s.reverse.dropWhile (fun c => c = '/')).reverse

/-- `shortUrlToLogKey` (go/storage/rediscache.go:179-181). -/
def logKey (shortUrl : Text) : Text := "log::".toList ++ trimSlashes shortUrl

/-- The string part of Redis holding log states. `some none` is a value that does not parse as JSON.
JSON encoding of a state is assumed faithful. -/
abbrev LogKV := Text → Option (Option CTLogState)

/-- `RedisCache.StoreLogState` (go/storage/rediscache.go:227-234), when Redis answers. -/
def storeLogState (r : LogKV) (log : CTLogState) : LogKV :=
  fun k => if k = logKey log.shortURL then some (some log) else r k

/-- `RedisCache.LoadLogState` (go/storage/rediscache.go:236-247); `none` is any error. -/
def loadLogState (r : LogKV) (shortUrl : Text) : Option CTLogState :=
  match r (logKey shortUrl) with
  | some (some log) => some log
  | _ => none

/-- The state `GetLogState` allocates for an unknown log (go/storage/certdatabase.go:273-275). -/
def brandNew (shortUrl : Text) : CTLogState :=
  { logID := [], mmd := 0, shortURL := shortUrl, minEntry := 0, maxEntry := 0, minTimestamp := 0, maxTimestamp := 0,
    lastUpdateTime := none }

/-- `CertDatabase.GetLogState` (go/storage/certdatabase.go:264-276) for a URL with this host and path;
`redisFails` says that the Redis request fails. -/
def getLogState (redisFails : Bool) (r : LogKV) (host path : Text) : CTLogState :=
  let shortUrl := host ++ trimSlashes path
  match (if redisFails then none else loadLogState r shortUrl) with
  | some log => log
  | none => brandNew shortUrl

/-- One Redis write of `Migrate`. -/
inductive LogWrite where
  | store (log : CTLogState)
  | del (key : Text)

/-- Effect of one write. -/
def LogWrite.apply (r : LogKV) : LogWrite → LogKV
  | .store log => storeLogState r log
  | .del key => fun k => if k = key then none else r k

/-- The writes `RedisCache.Migrate` performs, in order (go/storage/rediscache.go:183-225), for a log URL with this host
and path; `none` is a returned error. -/
def migrateWrites (r : LogKV) (host path : Text) : Option (List LogWrite) :=
  let newKey := logKey (host ++ trimSlashes path)
  let oldKey := newKey ++ ['/']
  match r oldKey with
  | none => some []
  | some old =>
    match r newKey with
    | some _ => some [.del oldKey]
    | none =>
      match old with
      | none => none
      | some log => some [.store log, .del oldKey]

/-- `RedisCache.Migrate`: the state afterwards. -/
def migrate (r : LogKV) (host path : Text) : LogKV :=
  match migrateWrites r host path with
  | none => r
  | some ws => ws.foldl LogWrite.apply r

end Verif
