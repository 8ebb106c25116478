import Verif.Model.Publisher
import Verif.Model.Collections
/-!
# Review and signature of the Remote Settings collections

The publisher asks for review of a collection (`request_review_of_collection`, moz_kinto_publisher/main.py:213-239), the sign-off job signs it (containers/scripts/crlite-signoff-tool.py, crlite-signoff.sh). The server is Kinto with its
signer: changing any record sets the status to work-in-progress and changes the `last_modified` of the collection; a patch with an outdated `last_modified` is refused (`kinto_http` sends that of `original` as `If-Match`);
on `to-sign` the server signs and publishes the content. The permissions of editors and reviewers are left out.

A publication is one step of the model. It is many requests in the program, but from the first edit on the status is work-in-progress and `last_modified` is new, so the sign-off job can do nothing until the publisher asks for review.
-/
namespace Verif

/-- `status` of a collection; `to-sign` is left at once for `signed`. -/
inductive CollStatus
  | workInProgress
  | toReview
  | signed
deriving DecidableEq

/-- A collection on the server: its records, the status, `last_modified`, and the content that clients see. -/
structure Coll (α : Type) where
  content : α
  status : CollStatus
  version : Nat
  signed : Option α
deriving DecidableEq

/-- What `get_collection` returned: status and `last_modified` (main.py:214-227; crlite-signoff-tool.py:37-50). -/
structure CollSeen where
  status : CollStatus
  version : Nat
deriving DecidableEq

def Coll.look {α : Type} (c : Coll α) : CollSeen := ⟨c.status, c.version⟩

/-- A record is created, changed or deleted. -/
def Coll.edit {α : Type} (c : Coll α) (content : α) : Coll α := { c with content := content, status := .workInProgress, version := c.version + 1 }

/-- The patch to `to-review` (main.py:229-239): only after `work-in-progress` was seen, refused if the collection has changed since. -/
def Coll.askReview {α : Type} (c : Coll α) (s : CollSeen) : Coll α :=
  if s.status = .workInProgress then
    if s.version = c.version then { c with status := .toReview, version := c.version + 1 } else c
  else c

/-- The patch to `to-sign` (crlite-signoff-tool.py:52-64): only after `to-review` was seen, refused if the collection has changed since. -/
def Coll.sign {α : Type} (c : Coll α) (s : CollSeen) : Coll α :=
  if s.status = .toReview then
    if s.version = c.version then { c with status := .signed, version := c.version + 1, signed := some c.content } else c
  else c

/-! ### any number of clients -/

/-- The collection, and what each client saw last. -/
structure CollSys (α : Type) where
  coll : Coll α
  seen : Nat → Option CollSeen

/-- Atomic actions: somebody edits; client `k` reads the status, patches it to `to-review`, or to `to-sign`. -/
inductive CollEvent (α : Type)
  | edit (content : α)
  | look (k : Nat)
  | askReview (k : Nat)
  | sign (k : Nat)

def setSeen (f : Nat → Option CollSeen) (k : Nat) (s : Option CollSeen) : Nat → Option CollSeen := fun j => if j = k then s else f j

def CollSys.step {α : Type} (s : CollSys α) : CollEvent α → CollSys α
  | .edit c => { s with coll := s.coll.edit c }
  | .look k => { s with seen := setSeen s.seen k (some s.coll.look) }
  | .askReview k =>
    match s.seen k with
    | none => s
    | some v => { coll := s.coll.askReview v, seen := setSeen s.seen k none }
  | .sign k =>
    match s.seen k with
    | none => s
    | some v => { coll := s.coll.sign v, seen := setSeen s.seen k none }

def CollSys.run {α : Type} (s : CollSys α) (evs : List (CollEvent α)) : CollSys α := evs.foldl CollSys.step s

/-- A collection that was never signed. -/
def CollSys.init {α : Type} (content : α) : CollSys α := ⟨⟨content, .workInProgress, 0, none⟩, fun _ => none⟩

/-! ### one publisher and the sign-off job -/

/-- The collection, whether the publisher is about to ask for review, and what publisher and sign-off job saw. -/
structure PubSys (α : Type) where
  coll : Coll α
  due : Bool
  pubSeen : Option CollSeen
  signSeen : Option CollSeen

/-- Actions. `publish f touched`: the publisher treats the collection; `f` gives the new content and whether it goes on to ask for review; `touched` is whether it made changes although the content is the same in the end. `edit` is
anybody else. `stop`: the publisher ends or dies. -/
inductive PubSysEvent (α : Type)
  | publish (f : α → α × Bool) (touched : Bool)
  | edit (content : α)
  | pubLook
  | pubAsk
  | stop
  | signLook
  | signPatch

variable {α : Type} [DecidableEq α]

def PubSys.step (s : PubSys α) : PubSysEvent α → PubSys α
  | .publish f touched =>
    { s with coll := if touched || decide ((f s.coll.content).1 ≠ s.coll.content) then s.coll.edit (f s.coll.content).1 else s.coll
             due := (f s.coll.content).2, pubSeen := none }
  | .edit c => { s with coll := s.coll.edit c }
  | .pubLook => if s.due then { s with pubSeen := some s.coll.look } else s
  | .pubAsk =>
    match s.pubSeen with
    | none => s
    | some v => { s with coll := s.coll.askReview v, due := false, pubSeen := none }
  | .stop => { s with due := false, pubSeen := none }
  | .signLook => { s with signSeen := some s.coll.look }
  | .signPatch =>
    match s.signSeen with
    | none => s
    | some v => { s with coll := s.coll.sign v, signSeen := none }

def PubSys.run (s : PubSys α) (evs : List (PubSysEvent α)) : PubSys α := evs.foldl PubSys.step s

def PubSys.init (content : α) : PubSys α := ⟨⟨content, .workInProgress, 0, none⟩, false, none, none⟩

/-! ### what the publisher does to the three collections -/

/-- Whether `publish_crlite` gets to the request (main.py:998-1010, 1068-1071): the newest run is complete, there is something to upload, all went well, no dry run. -/
def crliteAsks (env : PubEnv) (db : RunDb) (slug : Text) (maxAge : Nat) (noop : Bool) (st : List KRec) : Bool :=
  match db.ids.getLast? with
  | none => false
  | some newest =>
    db.ready newest && !noop && decide (determinePublish (sortRecs (st.filter (ofChannel slug))) db maxAge ≠ some (.deltas [])) && (publishCrlite env db slug maxAge noop st).1

/-- `publish_crlite` for one channel (main.py:981-1075). The review is asked for after every channel (main.py:1313-1316). -/
def crliteRun (env : PubEnv) (db : RunDb) (slug : Text) (maxAge : Nat) (noop : Bool) (st : List KRec) : List KRec × Bool :=
  ((publishCrlite env db slug maxAge noop st).2, crliteAsks env db slug maxAge noop st)

/-- Removing the records of a channel that is not used (main.py:1318-1326); no review is asked for. -/
def clearRun (env : PubEnv) (slug : Text) (noop : Bool) (st : List KRec) : List KRec × Bool :=
  if noop then (st, false)
  else
    match clearLoop env slug false st st with
    | (false, st1) => (st1, false)
    | (true, st1) => ((clearLoop env slug true st1 st1).2, false)

/-- `publish_intermediates` (main.py:555-690). -/
def interRun (env : InterEnv) (entries : List (Option Inter)) (noop : Bool) (st : List InterRec) : List InterRec × Bool :=
  ((publishInters env entries noop st).2, (publishInters env entries noop st).1)

/-! ### the sign-off script -/

inductive SignTarget
  | intermediates
  | certRevocations
deriving DecidableEq

/-- crlite-signoff.sh:12-21. -/
def knownInstance (bucket : Text) : Bool := ["crlite-filters-prod".toList, "crlite-filters-stage".toList, "crlite-filters-dev".toList].contains bucket

/-- crlite-signoff.sh:10-37: the collections for which the tool is called. `size` is what `stat` says about `crlite_db/crlite.filter`, `none` if that fails: the variable is then empty, which counts as 0 in the comparison, and as the script
runs without `-e` it goes on. -/
def signoffTargets (bucket : Text) (size : Option Nat) (maxSize : Nat) : List SignTarget :=
  if knownInstance bucket then
    if size.getD 0 > maxSize then [.intermediates] else [.intermediates, .certRevocations]
  else []

end Verif
