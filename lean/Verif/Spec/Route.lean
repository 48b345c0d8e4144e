import Verif.Model.Topology
/-!
# What a route is

A route is a list of hops. Each hop is a mixnode of the session, or the local node addressed by peer ID.
-/
namespace Mixnet.Spec

/-- All hops of a route, in order. -/
def hops (r : Route) : List Target := .mixnodeIndex r.first :: r.targets

/-- The mixnode at the other end of a route, if any. -/
def otherEnd : RouteKind → Option Nat
  | .toMixnode d => some d
  | .fromMixnode d => some d
  | .loop => none

/-- Does the route start at the local node? -/
def startsLocally : RouteKind → Bool
  | .fromMixnode _ => false
  | _ => true

/-- Does the route end at the local node? -/
def endsLocally : RouteKind → Bool
  | .toMixnode _ => false
  | _ => true

/-- How other nodes address the local node. -/
def localTarget (t : Topology) (ns : NetworkStatus) : Target :=
  match t.localNode with
  | .mixnode i => .mixnodeIndex i
  | .nonMixnode _ => .peerId ns.localPeerId

/-- Where a route ends. -/
def finalHop (t : Topology) (ns : NetworkStatus) : RouteKind → Target
  | .toMixnode d => .mixnodeIndex d
  | _ => localTarget t ns

/-- The local node is not a mixnode and the gateways it is connected to are `gs`. -/
def ConnectedGateways (t : Topology) (ns : NetworkStatus) (gs : List Nat) : Prop :=
  ∃ gateways, t.localNode = .nonMixnode gateways ∧
    gs = gateways.filter (fun g => match t.mixnodes[g]? with
      | some m => ns.isConnected m.peerId
      | none => false)

/-- The public key of the node a hop addresses. -/
def keyOf (t : Topology) : Target → Option KxPublic
  | .mixnodeIndex i => (t.mixnodes[i]?).map (·.kxPublic)
  | .peerId _ => some t.localKxPublic

/-- The peer ID of the node a hop addresses, if there is one. -/
def peerOf (t : Topology) : Target → Option PeerId
  | .mixnodeIndex i => (t.mixnodes[i]?).map (·.peerId)
  | .peerId p => some p

/-- The least number of hops of a route: the last one; for a node that is not a mixnode a gateway at each
local end; two loops through one gateway need a mixnode in between. -/
def leastHops (t : Topology) (ns : NetworkStatus) (kind : RouteKind) (n : Nat) : Prop :=
  (∀ i, t.localNode = .mixnode i → n = 1) ∧
  (∀ gs, ConnectedGateways t ns gs →
    n = 1 + (if startsLocally kind then 1 else 0) + (if endsLocally kind then 1 else 0) +
      (if startsLocally kind ∧ endsLocally kind ∧ gs.length = 1 then 1 else 0))

/-- `inner`, as the list of hops before the last one, makes a good route of the given kind, `k` hops being
asked for: the right length; mixnodes of the session other than the local node; from and to the local node, if
it is not a mixnode, through a gateway it is connected to (of those, the first five listed are considered); no
mixnode twice and not through the other end, except that the only connected gateway has to be used in spite of
being the other end, or both ends of a loop. -/
structure Fits (t : Topology) (ns : NetworkStatus) (kind : RouteKind) (k : Nat) (inner : List Nat) : Prop where
  length : ∃ least, leastHops t ns kind least ∧ inner.length + 1 = max k least
  mixnodes : ∀ x ∈ inner, x < t.mixnodes.length ∧ t.localNode ≠ .mixnode x
  starts : ∀ gs, ConnectedGateways t ns gs → startsLocally kind = true →
    ∃ gw ∈ gs.take 5, inner.head? = some gw
  ends : ∀ gs, ConnectedGateways t ns gs → endsLocally kind = true →
    ∃ gw ∈ gs.take 5, inner.getLast? = some gw
  repeats : (inner.Nodup ∧ ∀ d, otherEnd kind = some d → d ∉ inner) ∨
    ∃ gw, ConnectedGateways t ns [gw] ∧ ∃ rest : List Nat, rest.Nodup ∧ gw ∉ rest ∧
      ((kind = .toMixnode gw ∧ inner = gw :: rest) ∨
       (kind = .fromMixnode gw ∧ inner = rest ++ [gw]) ∨
       (kind = .loop ∧ rest ≠ [] ∧ inner = gw :: (rest ++ [gw])))

end Mixnet.Spec
