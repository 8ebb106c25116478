import Verif.Spec.Commit
import Verif.Model.Memory
/-! Independent specification for Redis with a memory limit. -/
namespace Verif.Spec

/-- Redis' reply to `INFO memory`: a heading and one line for each field. -/
def infoReply (fields : List (Text × Text)) : Text :=
  "# Memory\r\n".toList ++ fields.flatMap (fun f => f.1 ++ ':' :: (f.2 ++ ['\r', '\n']))

/-- Neither name nor value of a field has a colon or a line end. -/
def PlainField (f : Text × Text) : Prop := ∀ x ∈ f.1 ++ f.2, x ≠ ':' ∧ x ≠ '\r' ∧ x ≠ '\n'

/-- The steps of the programs in a history are as in `Fine`. -/
def FineM : MAct → Prop
  | .act a => Fine a
  | _ => True

/-- No bin is expired by Redis in this step. -/
def NoExpiry : MAct → Prop
  | .act (.keyExpires _) => False
  | .act .wipe => False
  | _ => True

end Verif.Spec
