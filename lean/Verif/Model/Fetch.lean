import Verif.Model.Merkle
/-!
The two log workers of ct-fetch: go/cmd/ct-fetch/rfc6962.go:203-688 and go/cmd/ct-fetch/tiled.go:32-370.

A run of a worker is a function from the state it starts with and from everything the outside world answers to the list
of events it produces. Every cancellation (`ctx.Done()`) and every crash makes the worker stop between two events, so the
possible behaviours are the prefixes of that list; the theorems are about all prefixes.

`uint64` arithmetic is on `Nat` with the wrap-around written out (`add64`, `sub64`).
-/
namespace Verif

/-- `a + b` on `uint64`. -/
def add64 (a b : Nat) : Nat := (a + b) % 18446744073709551616

/-- `a - b` on `uint64`. -/
def sub64 (a b : Nat) : Nat := (a + 18446744073709551616 - b) % 18446744073709551616

/-- The fields of `CTLogState` that a worker changes (go/types.go:137-146). `lastUpdate` in seconds, `none` for Go's zero time. -/
structure WState where
  minEntry : Nat
  maxEntry : Nat
  minTs : Nat
  maxTs : Nat
  lastUpdate : Option Nat
deriving DecidableEq

/-- The state of a log that has never been contacted (go/storage/certdatabase.go:270-275). -/
def newLog : WState := { minEntry := 0, maxEntry := 0, minTs := 0, maxTs := 0, lastUpdate := none }

/-- The fields of a signed tree head that are used. -/
structure TreeHead where
  treeSize : Nat
  timestamp : Nat

/-- `LogWorkerTask` (go/cmd/ct-fetch/ct-fetch.go:271-280). -/
inductive Task where
  | init | backfill | update | forceUpdate | sleep | retry
deriving DecidableEq

/-- The task choice of `NewLogWorker` (go/cmd/ct-fetch/rfc6962.go:251-283). `sth = none`: the tree head could not be fetched.
`now` in seconds. -/
def chooseTask (batch now : Nat) (s : WState) (sth : Option TreeHead) : Task :=
  match sth with
  | none => .retry
  | some h =>
    if h.treeSize ≤ 3 then .sleep
    else match s.lastUpdate with
      | none => .init
      | some t =>
        if add64 s.maxEntry batch < h.treeSize then .update
        else if 0 < s.minEntry then .backfill
        else if now < t + 600 then .sleep
        else if s.maxEntry < sub64 h.treeSize 1 then .update
        else .sleep

/-- The index range of a job before clipping (rfc6962.go:321-346); `none` for tasks that download nothing.
Go panics on `batch = 0` in the backfill case; the theorems require `0 < batch`. -/
def rawRange (batch : Nat) (s : WState) (treeSize : Nat) : Task → Option Range
  | .init => some (if treeSize < batch then 0 else treeSize - batch, sub64 treeSize 1)
  | .update => some (add64 s.maxEntry 1, add64 s.maxEntry batch)
  | .backfill =>
    some (if s.minEntry % batch ≠ 0 then sub64 s.minEntry (s.minEntry % batch) else sub64 s.minEntry batch,
      sub64 s.minEntry 1)
  | _ => none

/-- The index range of a job (rfc6962.go:321-373). -/
def jobRange (batch : Nat) (s : WState) (treeSize : Nat) (task : Task) : Option Range :=
  match rawRange batch s treeSize task with
  | none => none
  | some r => some (r.1, if r.2 > sub64 treeSize 1 then sub64 treeSize 1 else r.2)

/-! ### one entry -/

/-- The parts of a parsed certificate that are used: serial, `NotAfter`, key (the issuer id is its digest), and whether it is a
precertificate signing certificate (go/types.go:36-97). X.509 parsing itself is not modelled. -/
structure Cert where
  serial : Bytes
  notAfter : Nat
  key : Bytes
  preIssuer : Bool
deriving DecidableEq

/-- What is sent to the database thread for a certificate (`LogSyncMessage`, go/cmd/ct-fetch/ct-fetch.go:60-66). -/
structure Item where
  serial : Bytes
  notAfter : Nat
  issuerKey : Bytes
  timestamp : Nat
deriving DecidableEq

/-- `ct.RawLogEntry` with the results of `types.ParseCertificate` on its certificates (`none`: no certificate). -/
structure RawEntry where
  timestamp : Nat
  precert : Bool
  cert : Option Cert
  chain : List (Option Cert)

/-- The outcome of storing one entry. -/
inductive Outcome where
  /-- an error that ends the job -/
  | fatal
  /-- an intermittent error that ends the job (tiled logs only) -/
  | retry
  /-- not stored, carry on -/
  | skip
  /-- sent to the database thread -/
  | store (i : Item)
deriving DecidableEq

/-- The message for a certificate and its issuer. -/
def mkItem (c issuer : Cert) (ts : Nat) : Item :=
  { serial := c.serial, notAfter := c.notAfter, issuerKey := issuer.key, timestamp := ts }

/-- `LogWorker.storeLogEntry` (go/cmd/ct-fetch/rfc6962.go:545-617). `now` is `time.Now()` in the unit of `notAfter`. -/
def storeLogEntry (keepExpired : Bool) (now : Nat) (e : RawEntry) : Outcome :=
  match e.cert with
  | none => .fatal
  | some c =>
    if c.notAfter < now ∧ keepExpired = false then .skip
    else match e.chain with
      | [] => .skip
      | none :: _ => .fatal
      | some p :: rest =>
        if p.preIssuer then
          match rest with
          | [] => .fatal
          | none :: _ => .fatal
          | some i :: _ => .store (mkItem c i e.timestamp)
        else .store (mkItem c p e.timestamp)

/-- One element of a get-entries answer; `time` is the time at which it is processed. -/
structure Leaf where
  input : Bytes
  extra : Bytes
  time : Nat

/-- External functions and configuration: SHA-256, `ct.RawLogEntryFromLeaf` with certificate parsing (`none`: TLS parsing
failed), and the `LogExpiredEntries` option. -/
structure Env where
  H : Bytes → Bytes
  parse : Bytes → Bytes → Option RawEntry
  keepExpired : Bool

/-- Answer of `GetRawEntries` (rfc6962.go:630-651). -/
inductive Resp where
  /-- status 429: wait and ask again -/
  | tooMany
  /-- any other error, or cancellation -/
  | failed
  | entries (ls : List Leaf)

/-- The variables of `downloadCTRangeToChannel` (rfc6962.go:619-628). `handed` lists the entries stored or deliberately skipped
and then consumed by the verifier, in order. -/
structure Download where
  index : Nat
  minTs : Nat
  maxTs : Nat
  verifier : Verifier
  handed : List Leaf

/-- The timestamp bookkeeping (rfc6962.go:673-679): 0 means "not set". -/
def noteTs (d : Download) (ts : Nat) : Download :=
  { d with
    minTs := if d.minTs = 0 ∨ ts < d.minTs then ts else d.minTs
    maxTs := if d.maxTs = 0 ∨ d.maxTs < ts then ts else d.maxTs }

/-- After an entry has been consumed (rfc6962.go:681-684). -/
def advance (d : Download) (v : Verifier) (l : Leaf) : Download :=
  { d with verifier := v, index := add64 d.index 1, handed := d.handed ++ [l] }

/-- What one entry does to the variables (rfc6962.go:654-683); `none`: return with an error. -/
def takeEntry (env : Env) (d : Download) (l : Leaf) : Option Download :=
  match env.parse l.input l.extra with
  | none => some { d with index := add64 d.index 1 }
  | some e =>
    match storeLogEntry env.keepExpired l.time e with
    | .fatal => none
    | .retry => none
    | _ =>
      match d.verifier.consume env.H l.input with
      | none => none
      | some v => some (advance (noteTs d e.timestamp) v l)

/-- The inner loop of `downloadCTRangeToChannel` (rfc6962.go:653-684). The first component is the state in which the loop ended, the
second tells whether it ended normally. -/
def takeEntries (env : Env) : Download → List Leaf → Download × Bool
  | d, [] => (d, true)
  | d, l :: ls =>
    match takeEntry env d l with
    | none => (d, false)
    | some d' => takeEntries env d' ls

/-- The outer loop of `downloadCTRangeToChannel` (rfc6962.go:629-687): result, whether it succeeded, and the answers not used.
When the list of answers is exhausted the worker is still waiting for the next one, and the run stops there. -/
def download (env : Env) (last : Nat) : Download → List Resp → Download × Bool × List Resp
  | d, [] => (d, decide (last < d.index), [])
  | d, r :: rs =>
    if last < d.index then (d, true, r :: rs)
    else match r with
      | .tooMany => download env last d rs
      | .failed => (d, false, rs)
      | .entries ls =>
        match takeEntries env d ls with
        | (d', true) => download env last d' rs
        | (d', false) => (d', false, rs)

/-- Start of a download (rfc6962.go:620-627). -/
def newDownload (t : Subtree) : Download :=
  { index := t.first, minTs := 0, maxTs := 0, verifier := newVerifier t, handed := [] }

/-! ### state updates -/

/-- `updateState` (rfc6962.go:491-543), with `none` for a returned error; `t` is the subtree. -/
def updateState (now : Nat) (task : Task) (s : WState) (t : Option Range) (minTs maxTs : Nat) : Option WState :=
  match task, t with
  | .init, some r =>
    if s.lastUpdate = none then
      some { minEntry := r.1, maxEntry := r.2, minTs := min minTs minTs, maxTs := max maxTs maxTs, lastUpdate := some now }
    else if s.maxEntry = sub64 r.1 1 then
      some { s with maxEntry := r.2, minTs := min s.minTs minTs, maxTs := max s.maxTs maxTs, lastUpdate := some now }
    else none
  | .update, some r =>
    if s.maxEntry = sub64 r.1 1 then
      some { s with maxEntry := r.2, minTs := min s.minTs minTs, maxTs := max s.maxTs maxTs, lastUpdate := some now }
    else none
  | .backfill, some r =>
    if s.minEntry = add64 r.2 1 then
      some { s with minEntry := r.1, minTs := min s.minTs minTs, maxTs := max s.maxTs maxTs, lastUpdate := some now }
    else none
  | .sleep, none =>
    some { s with minTs := min s.minTs minTs, maxTs := max s.maxTs maxTs, lastUpdate := some now }
  | _, _ => none

/-- Events of a worker. `entry pos input ts item`: the entry that the worker counts as number `pos` of the log, with this leaf,
was sent to the database thread (`item = some _`) or deliberately skipped. `pos` is the start of the subtree plus the number of
entries the verifier had consumed. `state s`: the state was sent to the database thread. -/
inductive Ev where
  | entry (pos : Nat) (input : Bytes) (ts : Nat) (item : Option Item)
  | state (s : WState)
deriving DecidableEq

/-- The item an entry produced. -/
def outItem : Outcome → Option Item
  | .store i => some i
  | _ => none

/-- The event of one processed entry. -/
def leafEvent (env : Env) (pos : Nat) (l : Leaf) : Ev :=
  match env.parse l.input l.extra with
  | none => .entry pos l.input 0 none
  | some e => .entry pos l.input e.timestamp (outItem (storeLogEntry env.keepExpired l.time e))

/-- The events of the processed entries of one subtree, in order. -/
def leafEvents (env : Env) : Nat → List Leaf → List Ev
  | _, [] => []
  | pos, l :: ls => leafEvent env pos l :: leafEvents env (pos + 1) ls

/-- The loop over the queue of verifiers (rfc6962.go:459-484). -/
def runSubtrees (env : Env) (now : Nat) (task : Task) : WState → List Subtree → List Resp → List Ev
  | _, [], _ => []
  | s, t :: ts, rs =>
    match download env t.last (newDownload t) rs with
    | (d, false, _) => leafEvents env t.first d.handed
    | (d, true, rs') =>
      if d.verifier.checkClaim then
        match updateState now task s (some (t.first, t.last)) d.minTs d.maxTs with
        | none => leafEvents env t.first d.handed
        | some s' => leafEvents env t.first d.handed ++ .state s' :: runSubtrees env now task s' ts rs'
      else leafEvents env t.first d.handed

/-- The idle path (rfc6962.go:347-363). Note that `MinEntry` is passed as the minimum timestamp. -/
def runSleep (now : Nat) (s : WState) (h : TreeHead) : List Ev :=
  if s.maxEntry = sub64 h.treeSize 1 then
    match updateState now .sleep s none s.minEntry h.timestamp with
    | none => []
    | some s' => [.state s']
  else []

/-- One job: task choice and `Run` (rfc6962.go:215-489). `proof`: answer to the request for a consistency proof, `none` for an error. -/
def runWorker (env : Env) (batch now : Nat) (s : WState) (sth : Option TreeHead) (proof : Option (List Bytes))
    (rs : List Resp) : List Ev :=
  match sth with
  | none => []
  | some h =>
    let task := chooseTask batch now s (some h)
    match jobRange batch s h.treeSize task with
    | none => if task = .sleep then runSleep now s h else []
    | some r =>
      match proof with
      | none => []
      | some p =>
        match jobSubtrees (decide (task = .backfill)) r.1 r.2 p with
        | none => []
        | some ts => runSubtrees env now task s ts rs

/-! ### tiled logs -/

/-- Result of `TiledLogWorker.GetCertificate` (go/cmd/ct-fetch/tiled.go:127-152): a certificate, an intermittent error
`(nil, nil)`, or a fatal error. -/
inductive Fetched where
  | cert (c : Cert)
  | intermittent
  | fatal

/-- A `sunlight.LogEntry` with the results of parsing its certificate and fetching its chain. -/
structure TEntry where
  input : Bytes
  timestamp : Nat
  precert : Bool
  cert : Option Cert
  chain : List Fetched
  time : Nat

/-- `TiledLogWorker.storeLogEntry` (go/cmd/ct-fetch/tiled.go:177-246). -/
def storeTiledEntry (keepExpired : Bool) (e : TEntry) : Outcome :=
  match e.cert with
  | none => .fatal
  | some c =>
    if c.notAfter < e.time ∧ keepExpired = false then .skip
    else match e.chain with
      | [] => .skip
      | .fatal :: _ => .fatal
      | .intermittent :: _ => .retry
      | .cert p :: rest =>
        if p.preIssuer then
          match rest with
          | [] => .fatal
          | .fatal :: _ => .fatal
          | .intermittent :: _ => .retry
          | .cert i :: _ => .store (mkItem c i e.timestamp)
        else .store (mkItem c p e.timestamp)

/-- `TiledLogWorker.updateState` (tiled.go:354-359). -/
def updateTiled (now : Nat) (s : WState) (maxEntry minTs maxTs : Nat) : WState :=
  { minEntry := 0, maxEntry := max s.maxEntry maxEntry, minTs := min s.minTs minTs, maxTs := max s.maxTs maxTs,
    lastUpdate := some now }

/-- The task choice of `NewTiledLogWorker` (tiled.go:83-105). `sth = none`: no checkpoint. -/
def chooseTiled (batch now : Nat) (s : WState) (sth : Option TreeHead) : Task :=
  match sth with
  | none => .retry
  | some h =>
    if add64 s.maxEntry batch < h.treeSize then .update
    else match s.lastUpdate with
      | none => if add64 s.maxEntry 1 < h.treeSize then .forceUpdate else .sleep
      | some t =>
        if now < t + 600 then .sleep
        else if add64 s.maxEntry 1 < h.treeSize then .forceUpdate
        else .sleep

/-- The variables of `TiledLogWorker.Run` (tiled.go:252-254) and the log state. -/
structure TVars where
  maxEntry : Nat
  minTs : Nat
  maxTs : Nat
  state : WState

/-- The state message at the end of a read (tiled.go:314) or at a multiple of the batch size (tiled.go:306). -/
def saveTiled (now : Nat) (v : TVars) : TVars :=
  { v with state := updateTiled now v.state v.maxEntry v.minTs v.maxTs }

/-- The loop of `readLogEntries` (tiled.go:295-312): events, variables, and whether it ran to its end. The iterator
`Client.Entries` yields consecutive entries starting at `maxEntry+1` (trusted, external). -/
def readEntries (keepExpired : Bool) (batch now : Nat) : TVars → List TEntry → List Ev × TVars × Bool
  | v, [] => ([], v, true)
  | v, e :: es =>
    match storeTiledEntry keepExpired e with
    | .fatal => ([], v, false)
    | .retry => ([], v, false)
    | o =>
      let pos := v.maxEntry + 1
      let v1 := { v with maxEntry := pos, minTs := min v.minTs e.timestamp, maxTs := max v.maxTs e.timestamp }
      if pos % batch = 0 then
        let v2 := saveTiled now v1
        let r := readEntries keepExpired batch now v2 es
        (.entry pos e.input e.timestamp (outItem o) :: .state v2.state :: r.1, r.2)
      else
        let r := readEntries keepExpired batch now v1 es
        (.entry pos e.input e.timestamp (outItem o) :: r.1, r.2)

/-- `readLogEntries` (tiled.go:294-327): the loop, the final state message, and whether to go on; `clientErr`: `Client.Err()` is set. -/
def readLogEntries (keepExpired : Bool) (batch now : Nat) (v : TVars) (es : List TEntry) (clientErr : Bool) :
    List Ev × TVars × Bool :=
  match readEntries keepExpired batch now v es with
  | (evs, v', false) => (evs, v', false)
  | (evs, v', true) =>
    let v2 := saveTiled now v'
    (evs ++ [.state v2.state], v2, !clientErr)

/-- One job of a tiled log (tiled.go:248-352). `es1`, `es2`: entries yielded by the first and second iteration. -/
def runTiled (keepExpired : Bool) (batch now : Nat) (s : WState) (sth : Option TreeHead) (es1 es2 : List TEntry)
    (err1 err2 : Bool) : List Ev :=
  match sth with
  | none => []
  | some h =>
    let v : TVars := { maxEntry := s.maxEntry, minTs := s.minTs, maxTs := s.maxTs, state := s }
    match chooseTiled batch now s (some h) with
    | .sleep =>
      if add64 s.maxEntry 1 = h.treeSize then [.state (updateTiled now s s.maxEntry s.minTs h.timestamp)] else []
    | .update => (readLogEntries keepExpired batch now v es1 err1).1
    | .forceUpdate =>
      match readLogEntries keepExpired batch now v es1 err1 with
      | (evs, _, false) => evs
      | (evs, v', true) => evs ++ (readLogEntries keepExpired batch now v' es2 err2).1
    | _ => []

end Verif
