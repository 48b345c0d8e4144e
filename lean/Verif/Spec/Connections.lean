import Verif.Spec.Sending
/-!
# Which connections packets use
-/
namespace Mixnet.Spec

/-- The peer is among those the local node has to stay connected to because of the session. -/
def ReservedIn (t : Topology) (peer : PeerId) : Prop :=
  ∃ ps, t.reservedPeers = .ok ps ∧ ∃ mx ∈ ps, mx.peerId = peer

/-- The peer is among those the node says it has to stay connected to. -/
def Reserved (m : Node) (peer : PeerId) : Prop :=
  ∃ ps, m.reservedPeers = .ok ps ∧ ∃ mx ∈ ps, mx.peerId = peer

/-- The peer is the one listed for the local node, which is a mixnode. -/
def Itself (t : Topology) (peer : PeerId) : Prop :=
  ∃ j mx, t.localNode = .mixnode j ∧ t.mixnodes[j]? = some mx ∧ mx.peerId = peer

/-- The call does not ask for packets to be sent to the node itself, or by a node that is not a mixnode to a mixnode
chosen by somebody else: a destination given for a request is another node; replies are posted only in sessions in which
the node is a mixnode, and with SURBs whose first hop is another mixnode. -/
def ToOthers (m : Node) : Call → Prop
  | .postRequest _ i (some d) _ _ _ _ => ∀ s, m.sessionAt i = some s → s.topology.localNode ≠ .mixnode d
  | .postReply surbs i _ _ => ∀ s, m.sessionAt i = some s →
      ∃ j, s.topology.localNode = .mixnode j ∧ ∀ x ∈ surbs, u16At x 0 ≠ j
  | _ => True

/-- The nodes that can be reached by calls that do not ask for packets to be sent to the node itself. -/
inductive SendsToOthers (C : Crypto) (config : Config) : Node → Prop
  | new {m} : Node.new C config = .ok m → SendsToOthers C config m
  | step {m m' : Node} {call : Call} {out : Outcome} : SendsToOthers C config m → call.WellTyped → ToOthers m call →
      m.step C call = .ok (m', out) → SendsToOthers C config m'

/-- A packet goes directly from one node to another over a connection one of them keeps up: both are mixnodes, and
different ones, or one is the local node, which is not a mixnode, and the other one of its connected gateways. -/
inductive Connection (t : Topology) (ns : NetworkStatus) : Target → Target → Prop
  | mixnodes {i j} : i < t.mixnodes.length → j < t.mixnodes.length → i ≠ j →
      Connection t ns (.mixnodeIndex i) (.mixnodeIndex j)
  | out {gs i} : ConnectedGateways t ns gs → i ∈ gs → Connection t ns (.peerId ns.localPeerId) (.mixnodeIndex i)
  | back {gs i} : ConnectedGateways t ns gs → i ∈ gs → Connection t ns (.mixnodeIndex i) (.peerId ns.localPeerId)

/-- Where a route starts. -/
def startHop (t : Topology) (ns : NetworkStatus) : RouteKind → Target
  | .fromMixnode d => .mixnodeIndex d
  | _ => localTarget t ns

end Mixnet.Spec
