import Verif.Spec.Fetch
/-! What an honest, responsive log answers. -/
namespace Verif.Spec

/-- Answers to the requests for the entries `[i, j)` by a server whose entry `k` is `srv k`: in pieces of any positive size, with any number of
"too many requests" in between. -/
inductive Answers (srv : Nat → Leaf) : Nat → Nat → List Resp → Prop
  | nothing (j : Nat) : Answers srv j j []
  | busy {i j : Nat} {rs : List Resp} : i < j → Answers srv i j rs → Answers srv i j (.tooMany :: rs)
  | piece {i j k : Nat} {rs : List Resp} : 0 < k → i + k ≤ j → Answers srv (i + k) j rs →
      Answers srv i j (.entries ((List.range k).map (fun m => srv (i + m))) :: rs)

/-- The same for several ranges one after the other. -/
inductive AnswersAll (srv : Nat → Leaf) : List Subtree → List Resp → Prop
  | nil : AnswersAll srv [] []
  | cons {t : Subtree} {ts : List Subtree} {r1 r2 : List Resp} : Answers srv t.first (t.last + 1) r1 → AnswersAll srv ts r2 →
      AnswersAll srv (t :: ts) (r1 ++ r2)

/-- How many entries of a log of size `n` a state does not claim. -/
def remaining (n : Nat) (s : WState) : Nat :=
  match s.lastUpdate with
  | none => n
  | some _ => (n - 1 - s.maxEntry) + s.minEntry

end Verif.Spec
