import Verif.Model.Launch
/-!
Property C115: which environments the scripts are written for.
-/
namespace Verif.Spec

/-- White space as the shell has it. -/
def Space (c : Char) : Prop := c.toNat = 32 ∨ c.toNat = 9 ∨ c.toNat = 10

/-- One word that is no option. -/
structure PlainWord (t : Text) : Prop where
  nonempty : t ≠ []
  noSpace : ∀ c ∈ t, ¬ Space c
  noDash : t.head? ≠ some '-'

/-- Nothing but white space. -/
def OnlySpace (t : Text) : Prop := ∀ c ∈ t, Space c

/-- What may be the value of an option: anything that does not begin with a dash, the dash alone, or a whole number behind it. -/
def IsValue (v : Text) : Prop := v.head? ≠ some '-' ∨ v = ['-'] ∨ ∃ d, v = '-' :: d ∧ ∀ c ∈ d, c ∈ "0123456789".toList

/-- The settings that the scripts are written for: each is one word; the first three may be left out. -/
structure Configured (env : ShellEnv) : Prop where
  bucket : env.bucket = [] ∨ PlainWord env.bucket
  processing : env.processing = [] ∨ PlainWord env.processing
  persistent : env.persistent = [] ∨ PlainWord env.persistent
  statsdHost : PlainWord env.statsdHost

end Verif.Spec
