import Verif.Spec.RequestManager
/-!
# The order of first posts
-/
namespace Mixnet.Spec
variable {R : Type}

/-- When `r` was inserted, `r'` had not been. -/
def InsertedBefore (r r' : R) (ins : List R) : Prop := ∃ a b, ins = a ++ b ∧ r ∈ a ∧ r' ∉ a

/-- The log up to a successful post of the request. -/
def BeforePost (r : R) (log before : List (LogEntry R)) : Prop :=
  ∃ i d id d' met after, log = before ++ .post r i d id d' (.ok met) :: after

end Mixnet.Spec
