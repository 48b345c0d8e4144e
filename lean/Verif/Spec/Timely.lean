import Verif.Spec.Network
/-!
# Packets on their way, with times

All times are in nanoseconds.
-/
namespace Mixnet.Spec

/-- As `Relay`, with the times: a mixnode with this mean forwarding delay, in any reachable state, handled the packet `p`, addressed to
it, at time `now`, and put the packet `q` into its queue of packets to be forwarded, to be sent at time `due`. -/
def RelayAt (C : Crypto) (net : Network C) (mean : Nat) (p : AddressedPacket) (now : Nat) (q : AddressedPacket) (due : Nat) : Prop :=
  ∃ (config : Config) (n n' : Node) (key : KxSecret),
    config.meanForwardingDelay = mean ∧ Node.Reachable C config n ∧ net.At p.peerId key ∧ Takes C net key n p.packet ∧
    n.step C (.handlePacket now p.packet) = .ok (n', .message none) ∧
    n'.forwardPacketQueue.queue.Perm (⟨due, q⟩ :: n.forwardPacketQueue.queue)

/-- The packet `p`, sent at time `t`, became the packet `q`, to be sent at time `t'`, by way of this many mixnodes, and always less
than `hop` passed from the time at which it was to be sent until the next mixnode handled it. -/
inductive Journey (C : Crypto) (net : Network C) (mean hop : Nat) :
    Nat → AddressedPacket → Nat → AddressedPacket → Nat → Prop
  | here (p t) : Journey C net mean hop 0 p t p t
  | next {k p t now q due r t'} : now < t + hop → RelayAt C net mean p now q due → Journey C net mean hop k q due r t' →
      Journey C net mean hop (k + 1) p t r t'

/-- The packet `p`, sent at time `t`, passed this many mixnodes and reached its last hop at time `arrival`, as the packet `q`, each hop
taking less than `hop`, apart from the time for which mixnodes hold the packet. -/
def ReachesBy (C : Crypto) (net : Network C) (mean hop k : Nat) (p : AddressedPacket) (t : Nat) (q : AddressedPacket) (arrival : Nat) :
    Prop :=
  ∃ due, Journey C net mean hop k p t q due ∧ arrival < due + hop

end Mixnet.Spec
