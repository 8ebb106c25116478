import Verif.Model.Signing
/-!
# One execution of the publisher

`main` of `moz_kinto_publisher/main.py`: the CT logs, the filters of every channel in use, the removal of the channels that are not used, the intermediates. An uncaught exception anywhere ends the program. The publisher is alone
during its execution; what others do in between is the subject of `Verif.Model.Signing`. Signing in to the server, the settings and the reading of the command line (main.py:1257-1303) are left out.
-/
namespace Verif

/-- A channel (main.py:42-53); the age limit in seconds. Version, type of the attachment and name of the delta are the same for all and left out. -/
structure Channel where
  slug : Text
  dir : Text
  maxAge : Nat
  enabled : Bool
deriving DecidableEq

/-- `CHANNELS` (main.py:55-92). -/
def channels : List Channel :=
  [⟨"experimental+deltas".toList, "clubcard-all".toList, 20 * 86400, false⟩, ⟨"default".toList, "clubcard-all".toList, 45 * 86400, true⟩,
   ⟨"compat".toList, "clubcard-priority".toList, 45 * 86400, true⟩]

/-- The calls in the `try` block of `main` (main.py:1309-1329). -/
inductive PubCall
  | logs
  | channel (c : Channel)
  | clear (c : Channel)
  | inters
deriving DecidableEq

/-- What `publish_intermediates` finds at its begin (main.py:556-583): no run in the bucket, a run without `enrolled.json` (an exception after the retries), or the entries. -/
inductive EnrolledFile
  | noRuns
  | missing
  | entries (l : List (Option Inter))

/-- Everything outside of the program. `upstream` is Google's list, `none` if it cannot be fetched or read (main.py:1096-1098). `pub` and `db` are server, bucket and runs as the channel finds them. `reads`: the records can be fetched.
`reviews`: the request for review is answered without an error. `leftovers`: a call that ended with an exception, or had something to do, has changed records although the records are the same in the end. -/
structure PubWorld where
  upstream : Option (List LogOperator)
  ct : CtEnv
  pub : Text → PubEnv
  db : Text → RunDb
  enrolled : EnrolledFile
  inter : InterEnv
  reads : PubCall → Bool
  reviews : PubCall → Bool
  leftovers : PubCall → Bool

/-- The three collections. -/
structure PubServer where
  logs : Coll (List CtRec)
  filters : Coll (List KRec)
  inters : Coll (List InterRec)
deriving DecidableEq

/-- The collection after a call that left these records; it counts as changed only if some record was written or deleted. -/
def Coll.put {α : Type} [DecidableEq α] (touched : Bool) (content : α) (c : Coll α) : Coll α := if touched || decide (content ≠ c.content) then c.edit content else c

/-- `request_review_of_collection` (main.py:213-239); `false` for an exception. -/
def requestReview {α : Type} (ok : Bool) (c : Coll α) : Bool × Coll α := if ok then (true, c.askReview c.look) else (false, c)

/-- `publish_ctlogs` (main.py:1078-1253). Every request that is answered changes a record, as only differences are written. -/
def logsStage (e : PubWorld) (noop : Bool) (c : Coll (List CtRec)) : Bool × Coll (List CtRec) :=
  match e.upstream with
  | none => (false, c)
  | some ops =>
    if e.reads .logs then
      match publishLogs e.ct ops noop c.content with
      | (false, st) => (false, c.put false st)
      | (true, st) => if noop then (true, c.put false st) else requestReview (e.reviews .logs) (c.put false st)
    else (false, c)

/-- `publish_crlite` for a channel (main.py:981-1075). If review is asked for, records were written. -/
def channelStage (e : PubWorld) (noop : Bool) (ch : Channel) (c : Coll (List KRec)) : Bool × Coll (List KRec) :=
  if e.reads (.channel ch) then
    let asks := crliteAsks (e.pub ch.slug) (e.db ch.slug) ch.slug ch.maxAge noop c.content
    match publishCrlite (e.pub ch.slug) (e.db ch.slug) ch.slug ch.maxAge noop c.content with
    | (false, st) => (false, c.put (e.leftovers (.channel ch) && !noop) st)
    | (true, st) => if asks then requestReview (e.reviews (.channel ch)) (c.put true st) else (true, c.put false st)
  else (false, c)

/-- `clear_crlite_filters` and `clear_crlite_deltas` (main.py:693-728, 1318-1326). -/
def clearStage (e : PubWorld) (noop : Bool) (ch : Channel) (c : Coll (List KRec)) : Bool × Coll (List KRec) :=
  if noop then (true, c)
  else if e.reads (.clear ch) then
    match clearLoop (e.pub ch.slug) ch.slug false c.content c.content with
    | (false, st1) => (false, c.put false st1)
    | (true, st1) =>
      match clearLoop (e.pub ch.slug) ch.slug true st1 st1 with
      | (b, st2) => (b, c.put false st2)
  else (false, c)

/-- Whether `publish_intermediates` has something to delete or to add (main.py:588-600, 616-650). -/
def interTodo (env : InterEnv) (entries : List (Option Inter)) (st : List InterRec) : Bool :=
  match loadRemote env.fetchOk1 st [] [] with
  | none => false
  | some (good, bad) =>
    !(bad.isEmpty && (loadLocal entries []).all (fun i => holdsInter good i) && good.all (fun r => (loadLocal entries []).any (fun i => decide (r.entry = some i))))

/-- `publish_intermediates` (main.py:555-690). In a dry run only reading the records can fail. -/
def intersStage (e : PubWorld) (noop : Bool) (c : Coll (List InterRec)) : Bool × Coll (List InterRec) :=
  match e.enrolled with
  | .noRuns => (true, c)
  | .missing => (false, c)
  | .entries l =>
    if e.reads .inters then
      if noop then ((loadRemote e.inter.fetchOk1 c.content [] []).isSome, c)
      else
        match publishInters e.inter l noop c.content with
        | (false, st) => (false, c.put (e.leftovers .inters && interTodo e.inter l c.content) st)
        | (true, st) => requestReview (e.reviews .inters) (c.put (e.leftovers .inters && interTodo e.inter l c.content) st)
    else (false, c)

/-- One of the calls; `false` for an exception. -/
def stageRun (e : PubWorld) (noop : Bool) (s : PubServer) : PubCall → Bool × PubServer
  | .logs => ((logsStage e noop s.logs).1, { s with logs := (logsStage e noop s.logs).2 })
  | .channel ch => ((channelStage e noop ch s.filters).1, { s with filters := (channelStage e noop ch s.filters).2 })
  | .clear ch => ((clearStage e noop ch s.filters).1, { s with filters := (clearStage e noop ch s.filters).2 })
  | .inters => ((intersStage e noop s.inters).1, { s with inters := (intersStage e noop s.inters).2 })

/-- The calls in the order of the program (main.py:1309-1329). -/
def mainStages (chs : List Channel) : List PubCall :=
  .logs :: ((chs.filter (fun c => c.enabled)).map PubCall.channel ++ ((chs.filter (fun c => !c.enabled)).map PubCall.clear ++ [.inters]))

/-- The calls one after the other until one fails (main.py:1308-1335): the one that failed, if any, and the collections. -/
def runStages (e : PubWorld) (noop : Bool) : List PubCall → PubServer → Option PubCall × PubServer
  | [], s => (none, s)
  | g :: rest, s =>
    match stageRun e noop s g with
    | (true, s') => runStages e noop rest s'
    | (false, s') => (some g, s')

/-- `main` (main.py:1305-1335). -/
def publisherMain (e : PubWorld) (chs : List Channel) (noop : Bool) (s : PubServer) : Option PubCall × PubServer := runStages e noop (mainStages chs) s

end Verif
