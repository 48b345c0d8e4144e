import Verif.Spec.Surbs
/-!
# How many replies a request gets
-/
namespace Mixnet.Spec

/-- How many of these outcomes are replies to the request with message ID `mid`. -/
def repliesTo (mid : MessageId) (outs : List Outcome) : Nat :=
  outs.countP fun
    | .message (some (.reply r)) => decide (r.requestId = mid)
    | _ => false

/-- How many SURBs were asked for in the calls that posted a request with message ID `mid`. -/
def surbsAskedFor (mid : MessageId) : List Call → List Outcome → Nat
  | .postRequest _ _ _ mid' _ n _ :: calls, .posted _ (.ok _) :: outs =>
    (if mid' = mid then n else 0) + surbsAskedFor mid calls outs
  | _ :: calls, _ :: outs => surbsAskedFor mid calls outs
  | _, _ => 0

end Mixnet.Spec
