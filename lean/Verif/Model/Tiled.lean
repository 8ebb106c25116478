import Verif.Model.Leaf
/-!
The jobs of a tiled log with their requests for issuers: go/cmd/ct-fetch/tiled.go:121-352 and the loop of `SyncLog` around them
(go/cmd/ct-fetch/ct-fetch.go:93-168).

`Verif.Model.Fetch` describes the events of one job, with the certificates of the chains already fetched. Here the cache of issuers,
which lives as long as `SyncLog`, the requests to the log's `issuer/` endpoint, and the way in which a job ends are added.
-/
namespace Verif

/-- What is fixed during one job: `types.ParseCertificate` (`none`: it returned no certificate; a certificate that is returned together
with an error is used, tiled.go:142-148), the log's answer to the `n`-th request for an issuer, by fingerprint (`none`: an error), and the
`LogExpiredEntries` option. -/
structure TNet where
  pc : Bytes → Option Cert
  ask : Nat → Bytes → Option Bytes
  keep : Bool

/-- `issuerMap` (ct-fetch.go:102-107), keyed by fingerprint (the code uses the hex form of the fingerprint), and a record that the
program does not keep: the requests made so far, with their answers. -/
structure Issuers where
  map : List (Bytes × Cert)
  asked : List (Bytes × Option Bytes)

/-- The cache of a `SyncLog` that has just begun (ct-fetch.go:107). -/
def noIssuers : Issuers := ⟨[], []⟩

/-- Reading `issuerMap`. -/
def lookupCert : List (Bytes × Cert) → Bytes → Option Cert
  | [], _ => none
  | (k, c) :: m, fp => if k = fp then some c else lookupCert m fp

/-- `GetCertificate` (tiled.go:127-152). -/
def getCertificate (w : TNet) (st : Issuers) (fp : Bytes) : Fetched × Issuers :=
  match lookupCert st.map fp with
  | some c => (.cert c, st)
  | none =>
    match w.ask st.asked.length fp with
    | none => (.intermittent, ⟨st.map, st.asked ++ [(fp, none)]⟩)
    | some d =>
      match w.pc d with
      | none => (.fatal, ⟨st.map, st.asked ++ [(fp, some d)]⟩)
      | some c => (.cert c, ⟨(fp, c) :: st.map, st.asked ++ [(fp, some d)]⟩)

/-- The bytes of the certificate that is stored for an entry (tiled.go:182-186). -/
def certBytes (e : SunEntry) : Bytes :=
  match e.body with
  | .x509 c => c
  | .precert _ _ => e.precert

/-- The second request, when the first certificate of the chain is a precertificate signing certificate (tiled.go:213-233). -/
def storeBehind (w : TNet) (st : Issuers) (c : Cert) (ts : Nat) (rest : List Bytes) : Outcome × Issuers :=
  match rest with
  | [] => (.fatal, st)
  | g :: _ =>
    match getCertificate w st g with
    | (.fatal, st1) => (.fatal, st1)
    | (.intermittent, st1) => (.retry, st1)
    | (.cert i, st1) => (.store (mkItem c i ts), st1)

/-- `storeLogEntry` (tiled.go:177-246) for an entry processed at the given time. -/
def storeSunEntry (w : TNet) (st : Issuers) (time : Nat) (e : SunEntry) : Outcome × Issuers :=
  match w.pc (certBytes e) with
  | none => (.fatal, st)
  | some c =>
    if c.notAfter < time ∧ w.keep = false then (.skip, st)
    else match e.chain with
      | [] => (.skip, st)
      | f :: rest =>
        match getCertificate w st f with
        | (.fatal, st1) => (.fatal, st1)
        | (.intermittent, st1) => (.retry, st1)
        | (.cert p, st1) => if p.preIssuer then storeBehind w st1 c e.timestamp rest else (.store (mkItem c p e.timestamp), st1)

/-- How a job ends: `Run` returns without having slept, it sleeps and then returns, it returns an error (which ends `SyncLog` and with
it the following of the log), or the process dies of a division by zero. -/
inductive TiledEnd where
  | finished | slept | halted | crashed
deriving DecidableEq

/-- The variables after an entry has been processed (tiled.go:301-303). -/
def advanceTiled (v : TVars) (e : SunEntry) : TVars :=
  { v with maxEntry := v.maxEntry + 1, minTs := min v.minTs e.timestamp, maxTs := max v.maxTs e.timestamp }

/-- The message for a processed entry. -/
def sunEvent (v : TVars) (e : SunEntry) (o : Outcome) : Ev := .entry v.maxEntry (sunLeaf e) e.timestamp (outItem o)

/-- The loop of `readLogEntries` (tiled.go:295-312) over the entries that the iterator yields, each with the time at which it is
processed: messages, variables, cache, and the end of the job if it ends here. Cancellation is not an end: it is a prefix of the messages.
`maxEntry%lw.BatchSize` panics for a batch size of 0 (tiled.go:305). -/
def loopTiled (w : TNet) (batch now : Nat) : TVars → Issuers → List (SunEntry × Nat) → List Ev × TVars × Issuers × Option TiledEnd
  | v, st, [] => ([], v, st, none)
  | v, st, (e, t) :: es =>
    match storeSunEntry w st t e with
    | (.fatal, st1) => ([], v, st1, some .halted)
    | (.retry, st1) => ([], v, st1, some .slept)
    | (o, st1) =>
      let v1 := advanceTiled v e
      if batch = 0 then ([sunEvent v1 e o], v1, st1, some .crashed)
      else if v1.maxEntry % batch = 0 then
        let v2 := saveTiled now v1
        let r := loopTiled w batch now v2 st1 es
        (sunEvent v1 e o :: .state v2.state :: r.1, r.2)
      else
        let r := loopTiled w batch now v1 st1 es
        (sunEvent v1 e o :: r.1, r.2)

/-- `readLogEntries` (tiled.go:294-327): the loop, the state at its end, and the error of the client, if any. -/
def readTiled (w : TNet) (batch now : Nat) (v : TVars) (st : Issuers) (es : List (SunEntry × Nat)) (clientErr : Bool) :
    List Ev × TVars × Issuers × Option TiledEnd :=
  match loopTiled w batch now v st es with
  | (evs, v1, st1, some x) => (evs, v1, st1, some x)
  | (evs, v1, st1, none) =>
    let v2 := saveTiled now v1
    (evs ++ [.state v2.state], v2, st1, if clientErr then some .slept else none)

/-- What one job meets: the state read from the database, the batch size, the time, the checkpoint (`none`: it could not be fetched), and
what the iterator `Client.Entries` yields the first and the second time it is run, with the error of the client after each. -/
structure TJob where
  s : WState
  batch : Nat
  now : Nat
  sth : Option TreeHead
  es1 : List (SunEntry × Nat)
  es2 : List (SunEntry × Nat)
  err1 : Bool
  err2 : Bool

/-- The end of a job whose last read ended as given (tiled.go:329-351). -/
def endOf : Option TiledEnd → TiledEnd
  | some x => x
  | none => .finished

/-- The variables with which `Run` begins (tiled.go:252-254). -/
def startVars (s : WState) : TVars := { maxEntry := s.maxEntry, minTs := s.minTs, maxTs := s.maxTs, state := s }

/-- The second read of a `ForceUpdate` job (tiled.go:337-349), which takes place when the first one succeeded. -/
def secondRead (w : TNet) (j : TJob) (r : List Ev × TVars × Issuers × Option TiledEnd) : List Ev × WState × Issuers × TiledEnd :=
  match r with
  | (evs, v1, st1, some x) => (evs, v1.state, st1, x)
  | (evs, v1, st1, none) =>
    let q := readTiled w j.batch j.now v1 st1 j.es2 j.err2
    (evs ++ q.1, q.2.1.state, q.2.2.1, endOf q.2.2.2)

/-- The job of a worker that has nothing to read (tiled.go:261-281). -/
def sleepTiled (j : TJob) (st : Issuers) (h : TreeHead) : List Ev × WState × Issuers × TiledEnd :=
  if add64 j.s.maxEntry 1 = h.treeSize then
    let s1 := updateTiled j.now j.s j.s.maxEntry j.s.minTs h.timestamp
    ([.state s1], s1, st, .slept)
  else ([], j.s, st, .slept)

/-- One job (`NewTiledLogWorker` and `Run`, tiled.go:83-105, 248-352): messages, the last state that it sent (or the one it began
with), the cache afterwards, and how it ends. -/
def jobTiled (w : TNet) (j : TJob) (st : Issuers) : List Ev × WState × Issuers × TiledEnd :=
  match j.sth with
  | none => ([], j.s, st, .slept)
  | some h =>
    match chooseTiled j.batch j.now j.s (some h) with
    | .update =>
      let r := readTiled w j.batch j.now (startVars j.s) st j.es1 j.err1
      (r.1, r.2.1.state, r.2.2.1, endOf r.2.2.2)
    | .forceUpdate => secondRead w j (readTiled w j.batch j.now (startVars j.s) st j.es1 j.err1)
    | _ => sleepTiled j st h

/-- The jobs of one `SyncLog` (ct-fetch.go:109-167), each with its network: a job that returns an error is the last one. -/
def syncTiled : Issuers → List (TNet × TJob) → List Ev × Issuers
  | st, [] => ([], st)
  | st, (w, j) :: js =>
    match jobTiled w j st with
    | (evs, _, st1, .halted) => (evs, st1)
    | (evs, _, st1, .crashed) => (evs, st1)
    | (evs, _, st1, _) =>
      let r := syncTiled st1 js
      (evs ++ r.1, r.2)

end Verif
