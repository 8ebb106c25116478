import Verif.Model.Commit
/-!
Listings through a channel: `CertDatabase.List`, `GetIssuerAndDatesFromCache`, `LoadAllLogStates` and `GetIssuerAndDatesFromStorage`
(go/storage/certdatabase.go:154-209, 664-683; go/storage/rediscache.go:129-145, 162-178, 249-273). One goroutine asks for pages and sends their elements, the caller receives until the channel is closed.
-/
namespace Verif

/-- The goroutine that lists. `rest`: the answers that are still to come (`none`: an error); `buf`: elements of the current answer that have not been sent yet. -/
inductive ScanStage where
  | scanning (rest : List (Option (List Text))) (buf : List Text)
  /-- it has met an error -/
  | erred
  /-- the deferred `close(c)` of `SetToChan` or `KeysToChan` has run, `glog.Fatalf` in their caller has not ended the process yet -/
  | closedThenFatal
  /-- all sent and the channel closed -/
  | done

/-- `got`: what the caller has received; `result`: what it has returned. -/
structure Listing where
  stage : ScanStage
  closed : Bool
  exited : Bool
  got : List Text
  result : Option (List Text)

def Listing.init (pages : List (Option (List Text))) : Listing := { stage := .scanning pages [], closed := false, exited := false, got := [], result := none }

inductive ScanAct where
  /-- the next page (`SCAN`, `SSCAN` or `ReadDir`), when all of the last one has been sent; after the last page the channel is closed -/
  | fetch
  /-- one element passes the channel (which has no buffer) -/
  | pass
  /-- the deferred `close` after an error (rediscache.go:130, 163) -/
  | close
  /-- `glog.Fatal` ends the process (certdatabase.go:161, 187, 197, 674; rediscache.go:255) -/
  | fatal
  /-- the caller finds the channel closed and goes on with what it has -/
  | finish

/-- One step. `cache = true`: the functions that list the cache, where `close` is deferred in the function that fails and `Fatalf` is called after it returned; `cache = false`: `GetIssuerAndDatesFromStorage`, where `Fatal` is called
inside the goroutine that would close the channel, and ends the process without running deferred calls. Left out: the conversion of the elements, on which the callers may return an error. -/
def Listing.step (cache : Bool) (s : Listing) (a : ScanAct) : Listing :=
  if s.exited then s
  else match a with
  | .fetch =>
    match s.stage with
    | .scanning [] [] => { s with stage := .done, closed := true }
    | .scanning (some p :: rest) [] => { s with stage := .scanning rest p }
    | .scanning (none :: _) [] => { s with stage := .erred }
    | _ => s
  | .pass =>
    match s.stage with
    | .scanning rest (x :: buf) => { s with stage := .scanning rest buf, got := s.got ++ [x] }
    | _ => s
  | .close =>
    match s.stage with
    | .erred => if cache then { s with stage := .closedThenFatal, closed := true } else s
    | _ => s
  | .fatal =>
    match s.stage with
    | .erred => if cache then s else { s with exited := true }
    | .closedThenFatal => { s with exited := true }
    | _ => s
  | .finish => if s.closed = true ∧ s.result = none then { s with result := some s.got } else s

def Listing.run (cache : Bool) (s : Listing) (acts : List ScanAct) : Listing := acts.foldl (Listing.step cache) s

/-- `moveCachedSerialsToStorage` after a listing of the bins that returned `bs` (certdatabase.go:464-500): as `CAct.listEnd`, but without its condition that the listing is complete. -/
def Db.listCut (db : Db) (bs : List Bin) : Db :=
  match db.phase with
  | .listing epoch states seen _ => { db with phase := .moving epoch states seen bs [] }
  | _ => db

end Verif
