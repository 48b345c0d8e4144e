import Verif.Spec.Network
import Verif.Spec.Together
import Verif.Spec.RequestManager
/-!
# Vocabulary for C82: from one request manager to a reply manager and back
-/
namespace Mixnet.Spec

/-- The node has the packet in the queue of authored packets of this session. -/
def InQueue (n : Node) (i : SessionIndex) (p : AddressedPacket) : Prop :=
  ∃ s, n.sessionAt i = some s ∧ p ∈ s.authoredPacketQueue.queue

/-- The node knows the mixnodes of the network, if it has the session. -/
def KnowsNet {C : Crypto} (net : Network C) (n : Node) : Prop :=
  ∀ s, n.sessionAt net.session = some s → s.topology.mixnodes = net.mixnodes

/-- The number of SURBs made for the posts in a log that succeeded. -/
def surbsMade {R Ctx : Type} (T : RequestTrait R Ctx) (ctx : Ctx) : List (LogEntry R) → Nat
  | [] => 0
  | .post r _ _ _ _ (.ok _) :: log => T.numSurbs r ctx + surbsMade T ctx log
  | _ :: log => surbsMade T ctx log

/-- The packets `qs` are what became of the packets `ps` after each was relayed by as many mixnodes as it has to pass. -/
def Carried (C : Crypto) (net : Network C) (ps : List (Nat × AddressedPacket)) (qs : List AddressedPacket) : Prop :=
  List.Forall₂ (fun p q => Relays C net p.1 p.2 q) ps qs

end Mixnet.Spec
