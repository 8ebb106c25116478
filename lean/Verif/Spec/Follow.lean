import Verif.Model.Follow
/-!
What the list of logs says, independently of how it is read.
-/
namespace Verif.Spec

/-- The last word of a list of records about a log. -/
def LastWord (l : List LogRecord) (r : LogRecord) : Prop := ∃ a b, l = a ++ r :: b ∧ ∀ x ∈ b, x.id ≠ r.id

/-- `r` is the record by which a log was enrolled, and it has been listed as enrolled ever since: what was said about it before, if anything, ended with a withdrawal. -/
def EnrolledBy (l : List LogRecord) (r : LogRecord) : Prop :=
  ∃ a b, l = a ++ r :: b ∧ r.enrolled = true ∧ (∀ x ∈ b, x.id = r.id → x.enrolled = true) ∧
    ∀ x, LastWord a x → x.id = r.id → x.enrolled = false

/-- What one step says about logs. -/
def said : FollowAct → List LogRecord
  | .localRecord r => if r.enrolled then [r] else []
  | .poll (some l) => l
  | _ => []

/-- Everything said in a history without a restart. -/
def allSaid (acts : List FollowAct) : List LogRecord := (acts.map said).flatten

/-- A log is being followed. -/
def Followed (f : Follow) (id : Text) : Prop := ∃ r ∈ f.workers, r.id = id

/-- A goroutine of the log has no reason to return in the history: its jobs end without an error, it runs for ever, and there is no signal. Nothing panics. -/
def NoJobEnds (forever : Bool) (id : Text) : Follow → List FollowAct → Prop
  | _, [] => True
  | f, act :: acts =>
    (∀ k stop o r, act = .job k stop o → f.workers[k]? = some r → o ≠ .crashed ∧ (r.id = id → o = .waits ∨ (o ≠ .ended ∧ forever = true ∧ stop = false))) ∧
    NoJobEnds forever id (f.step forever act) acts

/-- Every goroutine once at the top of its loop. -/
def round (n : Nat) : List FollowAct := (List.range n).reverse.map .top

end Verif.Spec
