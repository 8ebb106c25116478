import Verif.Model.Text
/-!
Downloading CRLs: go/downloader/downloader.go, go/downloader/verifying-downloader.go, and the local file names of go/cmd/aggregate-crls/aggregate-crls.go.
-/
namespace Verif

/-! ### choosing what to do -/

/-- A local file: its bytes and modification time. -/
structure LocalFile where
  data : Bytes
  mtime : Int
deriving DecidableEq

/-- The answer to the HEAD request: `Last-Modified` and `Content-Length`, `none` when missing or malformed, and whether `Accept-Ranges` is "bytes". -/
structure HeadInfo where
  lastMod : Option Int
  length : Option Int
  acceptRanges : Bool

/-- `DownloadAction` (downloader.go:18-22). -/
inductive DlAction where
  | create | resume | upToDate
deriving DecidableEq

/-- `determineAction` (downloader.go:38-88); `head` is `none` when the request fails. The two sizes it also returns are only used for the request header and for warnings. -/
def determineAction (file : Option LocalFile) (head : Option HeadInfo) : DlAction :=
  match file with
  | none => .create
  | some f =>
    match head with
    | none => .create
    | some h =>
      match h.lastMod, h.length with
      | some lm, some sz =>
        if f.mtime < lm then .create
        else if sz = f.data.length then .upToDate
        else if sz > f.data.length ∧ h.acceptRanges = true then .resume
        else .create
      | _, _ => .create

/-! ### one attempt -/

/-- What the GET request brings: an error, status 206 or 200 with the bytes received, whether the body ended without error, and `Last-Modified`; or another status. -/
inductive GetOut where
  | fails
  | partial206 (body : Bytes) (complete : Bool) (lastMod : Option Int)
  | ok200 (body : Bytes) (complete : Bool) (lastMod : Option Int)
  | other

/-- The circumstances of one attempt. `opens`: the output file can be opened; `ctxDone`: the context is cancelled after that; `now`: the clock. -/
structure DlAttempt where
  head : Option HeadInfo
  get : GetOut
  opens : Bool
  ctxDone : Bool
  now : Int

/-- `io.Copy` and `Chtimes` (downloader.go:140-172) onto the file contents `base`. A wrong number of bytes is only warned about (145-153). -/
def copyBody (base body : Bytes) (complete : Bool) (lastMod : Option Int) (now : Int) : Option LocalFile × Bool :=
  if complete then
    match lastMod with
    | some lm => (some { data := base ++ body, mtime := lm }, true)
    | none => (some { data := base ++ body, mtime := now }, true)
  else (some { data := base ++ body, mtime := now }, false)

/-- `download` (downloader.go:90-174): the file afterwards, and whether `nil` is returned. -/
def downloadOnce (file : Option LocalFile) (a : DlAttempt) : Option LocalFile × Bool :=
  if determineAction file a.head = .upToDate then (file, true)
  else match a.get with
    | .fails => (file, false)
    | .other => (file, false)
    | .partial206 body complete lm =>
      match file with
      | none => (none, false)
      | some f =>
        if !a.opens then (some f, false)
        else if a.ctxDone then (some f, false)
        else copyBody f.data body complete lm a.now
    | .ok200 body complete lm =>
      if !a.opens then (file, false)
      else if a.ctxDone then (some { data := [], mtime := a.now }, false)
      else copyBody [] body complete lm a.now

/-! ### retries -/

/-- What `DownloadFileSync` returns; `cancelled` is `nil` too. -/
inductive DlResult where
  | ok | failed | cancelled
deriving DecidableEq

/-- `DownloadFileSync` (downloader.go:176-197) from attempt number `i` on, with `left` more attempts allowed. `cancelled i`: the context is done before attempt `i`. The result, the
file, and the number of attempts made so far. -/
def dlLoop (attempts : Nat → DlAttempt) (cancelled : Nat → Bool) : Nat → Nat → Option LocalFile → DlResult × Option LocalFile × Nat
  | 0, i, file => (.failed, file, i)
  | left + 1, i, file =>
    if cancelled i then (.cancelled, file, i)
    else if (downloadOnce file (attempts i)).2 then (.ok, (downloadOnce file (attempts i)).1, i + 1)
    else dlLoop attempts cancelled left (i + 1) (downloadOnce file (attempts i)).1

/-- `DownloadFileSync` (downloader.go:176-197). Simplification: `maxRetries` is a natural number; with the largest `uint` the loop would not end. -/
def downloadFileSync (attempts : Nat → DlAttempt) (cancelled : Nat → Bool) (maxRetries : Nat) (file : Option LocalFile) : DlResult × Option LocalFile × Nat :=
  dlLoop attempts cancelled (maxRetries + 1) 0 file

/-! ### verified downloads -/

/-- The disk as `DownloadAndVerifyFileSync` sees it. -/
structure TwoFiles where
  final : Option LocalFile
  tmp : Option LocalFile
deriving DecidableEq

/-- `verifyFunc.IsValid` on a path: an absent file is not valid. -/
def validFile (valid : Bytes → Bool) (f : Option LocalFile) : Bool :=
  match f with
  | none => false
  | some f => valid f.data

/-- `DownloadAndVerifyFileSync` (verifying-downloader.go:28-75): the states of the disk after each step, the last one being the result, whether the final file is acceptable, and whether an
error is returned. `dl` are the states of the temporary file during the download, the last of which remains, and `dlOK` whether `DownloadFileSync` returned nil. -/
def verifyingDownload (valid : Bytes → Bool) (d : TwoFiles) (dl : List (Option LocalFile)) (dlOK renames removes : Bool) : List TwoFiles × Bool × Bool :=
  let during := dl.map (fun t => { d with tmp := t })
  let tmp := (dl.getLast?).getD d.tmp
  if !dlOK then
    (during ++ [{ d with tmp := if removes then none else tmp }], validFile valid d.final, true)
  else if !validFile valid tmp then
    (during ++ [{ d with tmp := if removes then none else tmp }], validFile valid d.final, true)
  else if !renames then
    (during ++ [{ d with tmp := if removes then none else tmp }], validFile valid d.final, true)
  else (during ++ [{ final := tmp, tmp := none }], true, false)

/-! ### file names -/

/-- The parts of a `url.URL` that matter, and its `normalizedUrlString` (aggregate-crls.go:51-58), which is not modelled. -/
structure CrlUrl where
  hostname : Text
  path : Text
  rawQuery : Text
  norm : Text

/-- The characters that `illegalPath` (aggregate-crls.go:46) lets stand. -/
def legalPathChar (c : Char) : Bool :=
  ('0' ≤ c && c ≤ '9') || ('A' ≤ c && c ≤ 'Z') || ('a' ≤ c && c ≤ 'z') || c == '~' || c == '-' || c == '.'

/-- The part of a reversed path before the first slash. -/
def takeBase : Text → Text
  | [] => []
  | c :: cs => if c = '/' then [] else c :: takeBase cs

/-- Go's `path.Base`. -/
def pathBase (p : Text) : Text :=
  if p = [] then ['.']
  else
    let r := p.reverse.dropWhile (fun c => c == '/')
    if r = [] then ['/'] else (takeBase r).reverse

/-- `strings.TrimSuffix`. -/
def trimSuffix (suffix t : Text) : Text :=
  if suffix.reverse.isPrefixOf t.reverse then t.take (t.length - suffix.length) else t

/-- The readable part of the name (aggregate-crls.go:68-76). `lower` is `strings.ToLower`. -/
def readableName (lower : Text → Text) (u : CrlUrl) : Text :=
  let name := u.hostname ++ '-' :: pathBase u.path
  let name := if u.rawQuery.length > 0 then name ++ '-' :: u.rawQuery else name
  trimSuffix ['.', 'c', 'r', 'l'] ((lower name).filter legalPathChar)

/-- `makeFilenameFromUrl` (aggregate-crls.go:67-80); `sha` is SHA-256. -/
def makeFilenameFromUrl (lower : Text → Text) (sha : Text → Bytes) (u : CrlUrl) : Text :=
  readableName lower u ++ '-' :: (hexEncode ((sha u.norm).take 8) ++ ['.', 'c', 'r', 'l'])

/-! ### resuming -/

/-- The headers of the GET request that concern resuming (downloader.go:104-107): for `Resume` the header `Content-Range` is set, and `Range` never is. -/
structure RangeHeaders where
  range : Option Nat
  contentRange : Option Nat

def rangeHeaders (action : DlAction) (offset : Nat) : RangeHeaders :=
  { range := none, contentRange := if action = .resume then some offset else none }

/-- A server that follows HTTP (RFC 9110, 14.2): a request with `Range` is answered with 206 and the rest of the file, any other with 200 and the whole file. `Content-Range` has no
meaning in a GET request. The connection breaks after `cut` bytes of the body if the body is longer. -/
def serve (content : Bytes) (cut : Nat) (lastMod : Int) (r : RangeHeaders) : GetOut :=
  match r.range with
  | some off => .partial206 ((content.drop off).take cut) (decide ((content.drop off).length ≤ cut)) (some lastMod)
  | none => .ok200 (content.take cut) (decide (content.length ≤ cut)) (some lastMod)

/-- The attempts at such a server; `headers` is how the request's headers are made. -/
def serverAttempt (headers : DlAction → Nat → RangeHeaders) (content : Bytes) (cut : Nat) (lastMod now : Int) (file : Option LocalFile) : DlAttempt :=
  let head : Option HeadInfo := some { lastMod := some lastMod, length := some content.length, acceptRanges := true }
  { head := head, opens := true, ctxDone := false, now := now,
    get := serve content cut lastMod (headers (determineAction file head) (match file with | some f => f.data.length | none => 0)) }

/-- `n` attempts: the file, and whether one of them succeeded. -/
def serverLoop (headers : DlAction → Nat → RangeHeaders) (content : Bytes) (cut : Nat) (lastMod now : Int) : Nat → Option LocalFile → Option LocalFile × Bool
  | 0, file => (file, false)
  | n + 1, file =>
    let r := downloadOnce file (serverAttempt headers content cut lastMod now file)
    if r.2 then r else serverLoop headers content cut lastMod now n r.1

/-! ### `verifyCRL` -/

/-- `verifyCRL` (aggregate-crls.go:254-284) on the `thisUpdate` of the new and of the previous CRL, each `none` when not valid; `noPrev`: there is no previous file. It is only called from tests. -/
def verifyCRL (new prev : Option Int) (noPrev : Bool) : Bool :=
  match new with
  | none => false
  | some n =>
    if noPrev then true
    else match prev with
      | none => false
      | some p => decide (¬ p > n)

end Verif
