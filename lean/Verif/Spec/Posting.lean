import Verif.Spec.Node
import Verif.Spec.Route
import Verif.Spec.Fragment
/-!
# What posting makes

SURBs and packets as the Sphinx functions build them for generated routes. Written with the route
generator and the Sphinx functions only; independent of how `post_request` goes about it.
-/
namespace Mixnet.Spec

/-- The route can be generated for a node with this topology and connectivity. -/
def Generated (t : Topology) (ns : NetworkStatus) (kind : RouteKind) (numHops : Nat) (route : Route) : Prop :=
  ∃ g rng rng', RouteGenerator.new t ns = .ok g ∧ g.genRoute rng kind numHops = .ok (.ok (route, rng'))

/-- A new SURB: what it looks like, what is remembered about it, and the route a reply will take. -/
structure NewSurb (C : Crypto) where
  id : SurbId
  surb : Surb
  keys : List Bytes
  route : Route
  delay : C.Delay

/-- The SURB was built for a route from mixnode `dest` back to the local node. -/
structure NewSurb.Built {C : Crypto} (t : Topology) (ns : NetworkStatus) (dest numHops : Nat) (x : NewSurb C) :
    Prop where
  route : Generated t ns (.fromMixnode dest) numHops x.route
  id : x.id.length = 16
  built : ∃ (old : Bytes) (rng rng' : Rng), old.length = SURB_SIZE ∧
    buildSurb C old rng x.route.first x.route.targets x.route.kxPublics x.id = .ok (x.surb, x.keys, x.delay, rng')

/-- A new request packet: the packet, the fragment in it, the SURBs in the fragment, and its route. -/
structure NewPacket (C : Crypto) where
  packet : AddressedPacket
  fragment : Fragment
  surbs : List (NewSurb C)
  route : Route
  delay : C.Delay

/-- The packet was built for a route from the local node to mixnode `dest`, is addressed to the first hop,
and carries the fragment, which carries the SURBs. -/
structure NewPacket.Built {C : Crypto} (t : Topology) (ns : NetworkStatus) (dest numHops : Nat) (p : NewPacket C) :
    Prop where
  route : Generated t ns (.toMixnode dest) numHops p.route
  peer : ∃ mx, t.mixnodes[p.route.first]? = some mx ∧ p.packet.peerId = mx.peerId
  carries : surbsOf p.fragment = p.surbs.map (·.surb)
  surbs : ∀ x ∈ p.surbs, x.Built t ns dest numHops
  built : ∃ (old : Bytes) (rng rng' : Rng), old.length = PACKET_SIZE ∧ payloadData old = p.fragment ∧
    completeRequestPacket C old rng p.route.targets p.route.kxPublics = .ok (p.packet.packet, p.delay, rng')

/-- The last `n` elements. -/
def lastN {α : Type} (n : Nat) (l : List α) : List α := l.drop (l.length - n)

/-- Session `i` is over, as far as posting is concerned: before the previous one, or the previous one when
only cover traffic or nothing is sent in it any more. -/
def NoLonger (st : SessionStatus) (i : Nat) : Prop :=
  i + 1 < st.currentIndex ∨
    (i + 1 = st.currentIndex ∧ (st.phase = .coverToPrev ∨ st.phase = .disconnectFromPrev))

/-- Session `i` has not begun, as far as posting is concerned: after the current one, or the current one when
only cover traffic is sent in it. -/
def NotYet (st : SessionStatus) (i : Nat) : Prop :=
  st.currentIndex < i ∨ (i = st.currentIndex ∧ st.phase = .coverToCurrent)

/-- The node with the session of index `i`, current or previous, replaced. -/
def withSession (m : Node) (i : Nat) (s : Session) : Node :=
  if i = m.sessionStatus.currentIndex then { m with sessions := { m.sessions with current := .full s } }
  else { m with sessions := { m.sessions with prev := .full s } }

/-- Packets added at the end of the queue of authored packets of a session. -/
def enqueue (s : Session) (ps : List AddressedPacket) : Session :=
  { s with authoredPacketQueue := { s.authoredPacketQueue with queue := s.authoredPacketQueue.queue ++ ps } }

/-- The slot of a session index that is the current or the previous one. -/
def slotOf (m : Node) (i : Nat) : SessionSlot :=
  if i = m.sessionStatus.currentIndex then m.sessions.current else m.sessions.prev

end Mixnet.Spec
