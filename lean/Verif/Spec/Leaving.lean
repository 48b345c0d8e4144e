import Verif.Spec.Node
/-!
# Leaving the forward packet queue in time
-/
namespace Mixnet.Spec

/-- How often the user asked for a packet to forward. -/
def forwardPops (calls : List Call) : Nat :=
  (calls.filter fun c => match c with | .popNextForwardPacket _ => true | _ => false).length

/-- The packets to be forwarded that were due at time `d`. -/
def dueBy (d : Nat) (m : Node) : List ForwardPacket :=
  m.forwardPacketQueue.queue.filter fun p => p.deadline ≤ d

/-- All packets handled were handled after time `d`. -/
def HandledAfter (d : Nat) (calls : List Call) : Prop :=
  ∀ now packet, .handlePacket now packet ∈ calls → d < now

end Mixnet.Spec
