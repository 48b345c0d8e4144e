import Verif.Model.Sphinx
import Verif.Model.PacketQueues
/-!
# `src/core/topology.rs`
-/
namespace Mixnet

/-- `MixnodeIndex`, `/repo/src/core/sphinx/target.rs:26-36`: a number; see `Target`. -/
notation "MixnodeIndex" => Nat

/-- `Mixnode`, `/repo/src/core/topology.rs:34-43`. The extra data is an opaque token. -/
structure Mixnode where
  kxPublic : KxPublic
  peerId : PeerId
  extra : Nat
deriving Repr, DecidableEq

/-- `LocalNode`, `/repo/src/core/topology.rs:45-51` -/
inductive LocalNode where
  | mixnode (index : MixnodeIndex)
  | nonMixnode (gateways : List MixnodeIndex)
deriving Repr, DecidableEq

/-- `TopologyErr`, `/repo/src/core/topology.rs:53-65` -/
inductive TopologyErr where
  | badMixnodeIndex (i : MixnodeIndex)
  | tooFewMixnodes
  | noConnectedGatewayMixnodes
deriving Repr, DecidableEq

/-- `Topology`, `/repo/src/core/topology.rs:67-71` -/
structure Topology where
  mixnodes : List Mixnode
  localKxPublic : KxPublic
  localNode : LocalNode
deriving Repr, DecidableEq

/-- `index.try_into().expect(..)` on indices, `/repo/src/core/topology.rs:107-109, 117-119, 285` -/
def toMixnodeIndex (i : Nat) : Res MixnodeIndex :=
  expectSome "Topology::new() contract limits size of mixnode set" (mixnodeIndexTryFrom i)

/-- `.map(try_into + expect).collect()`, `/repo/src/core/topology.rs:105-112` -/
def toMixnodeIndices : List Nat → Res (List MixnodeIndex)
  | [] => .ok []
  | i :: is => do
    let x ← toMixnodeIndex i
    let xs ← toMixnodeIndices is
    .ok (x :: xs)

namespace Topology

/-- `Topology::new`, `/repo/src/core/topology.rs:74-125` -/
def new (rng : Rng) (mixnodes : List Mixnode) (localKxPublic : KxPublic) (numGatewayMixnodes : Nat) :
    Res (Topology × Rng) := do
  assertP "mixnodes.len() <= MAX_MIXNODE_INDEX + 1" (decide (mixnodes.length ≤ MAX_MIXNODE_INDEX + 1))
  match mixnodes.findIdx? (fun m => m.kxPublic == localKxPublic) with
  | none => do
    let (indices, rng) := rng.sample mixnodes.length (min numGatewayMixnodes mixnodes.length)
    let gateways ← toMixnodeIndices indices
    .ok (⟨mixnodes, localKxPublic, .nonMixnode gateways⟩, rng)
  | some index => do
    let index ← toMixnodeIndex index
    .ok (⟨mixnodes, localKxPublic, .mixnode index⟩, rng)

/-- `is_mixnode`, `/repo/src/core/topology.rs:127-129` -/
def isMixnode (t : Topology) : Bool :=
  match t.localNode with
  | .mixnode _ => true
  | .nonMixnode _ => false

/-- `&self.mixnodes[index]` -/
def getMixnode (t : Topology) (index : MixnodeIndex) : Res Mixnode :=
  expectSome "mixnodes: index out of bounds" t.mixnodes[index]?

/-- The indices of the reserved peers, `/repo/src/core/topology.rs:132-140` -/
def reservedIndices (t : Topology) : List MixnodeIndex :=
  match t.localNode with
  | .mixnode i => List.range i ++ List.range' (i + 1) (t.mixnodes.length - (i + 1))
  | .nonMixnode gateways => gateways

/-- `indices.map(|index| &self.mixnodes[index])`, `/repo/src/core/topology.rs:141` -/
def getMixnodes (t : Topology) : List MixnodeIndex → Res (List Mixnode)
  | [] => .ok []
  | i :: is => do
    let m ← t.getMixnode i
    let ms ← t.getMixnodes is
    .ok (m :: ms)

/-- `reserved_peers`, `/repo/src/core/topology.rs:131-142`. The iterator is modelled by the list it
yields. -/
def reservedPeers (t : Topology) : Res (List Mixnode) := t.getMixnodes t.reservedIndices

/-- `mixnode_index_to_peer_id`, `/repo/src/core/topology.rs:144-149` -/
def mixnodeIndexToPeerId (t : Topology) (index : MixnodeIndex) : Except TopologyErr PeerId :=
  match t.mixnodes[index]? with
  | some m => .ok m.peerId
  | none => .error (.badMixnodeIndex index)

/-- `target_to_peer_id`, `/repo/src/core/topology.rs:151-156` -/
def targetToPeerId (t : Topology) : Target → Except TopologyErr PeerId
  | .mixnodeIndex i => t.mixnodeIndexToPeerId i
  | .peerId p => .ok p

end Topology

/-- `NetworkStatus`, `/repo/src/core/topology.rs:178-184`. The answers do not change during one call
into the crate. -/
structure NetworkStatus where
  localPeerId : PeerId
  isConnected : PeerId → Bool

/-- `/repo/src/core/topology.rs:186` -/
abbrev MAX_CONNECTED_GATEWAY_INDICES : Nat := 5

/-- `RouteKind`, `/repo/src/core/topology.rs:188-195` -/
inductive RouteKind where
  | toMixnode (i : MixnodeIndex)
  | fromMixnode (i : MixnodeIndex)
  | loop
deriving Repr, DecidableEq

/-- `UsedIndices`, `/repo/src/core/topology.rs:197-222`: an `ArrayVec` of capacity `MAX_HOPS + 1`. -/
abbrev UsedIndices := List MixnodeIndex

namespace UsedIndices

/-- `Vec::insert` at the first position holding an index `≥ index`, or at the end; nothing if it is
there already: `/repo/src/core/topology.rs:205-211`. -/
def insertSorted (index : MixnodeIndex) : List MixnodeIndex → List MixnodeIndex
  | [] => [index]
  | u :: us => if u ≥ index then (if u ≠ index then index :: u :: us else u :: us)
      else u :: insertSorted index us

/-- `insert`, `/repo/src/core/topology.rs:204-212`. `ArrayVec::insert` and `push` panic when full. -/
def insert (us : UsedIndices) (index : MixnodeIndex) : Res UsedIndices := do
  let us' := insertSorted index us
  assertP "ArrayVec is full" (decide (us'.length ≤ MAX_HOPS + 1))
  .ok us'

/-- `as_option`, `/repo/src/core/topology.rs:218-221` -/
def asOption (us : UsedIndices) : Res (Option MixnodeIndex) := do
  assertP "self.0.len() <= 1" (decide (us.length ≤ 1))
  .ok us.head?

end UsedIndices

/-- `RouteGenerator`, `/repo/src/core/topology.rs:224-230` -/
structure RouteGenerator where
  topology : Topology
  localPeerId : PeerId
  connectedGatewayIndices : List MixnodeIndex

/-- `chosen += 1` for each excluded index not above it, `/repo/src/core/topology.rs:275-280`. -/
def skipExcluded (chosen : Nat) : List MixnodeIndex → Nat
  | [] => chosen
  | e :: es => skipExcluded (if chosen ≥ e then chosen + 1 else chosen) es

/-- A generated route: the index of the first hop, the targets of the other hops, the public keys of all
hops (`gen_route`'s result and out parameters, `/repo/src/core/topology.rs:332-339`). -/
structure Route where
  first : MixnodeIndex
  targets : List Target
  kxPublics : List KxPublic
deriving Repr, DecidableEq

namespace RouteGenerator

/-- The filter closure of `RouteGenerator::new`, `/repo/src/core/topology.rs:240-243`; stops after
`MAX_CONNECTED_GATEWAY_INDICES` (`n` more). -/
def connectedGateways (t : Topology) (ns : NetworkStatus) : Nat → List MixnodeIndex → Res (List MixnodeIndex)
  | 0, _ => .ok []
  | _, [] => .ok []
  | n + 1, g :: gs => do
    let m ← t.getMixnode g
    if ns.isConnected m.peerId then do
      let rest ← connectedGateways t ns n gs
      .ok (g :: rest)
    else connectedGateways t ns (n + 1) gs

/-- `RouteGenerator::new`, `/repo/src/core/topology.rs:232-251` -/
def new (t : Topology) (ns : NetworkStatus) : Res RouteGenerator := do
  let connected ← match t.localNode with
    | .mixnode _ => .ok []
    | .nonMixnode gateways => connectedGateways t ns MAX_CONNECTED_GATEWAY_INDICES gateways
  .ok ⟨t, ns.localPeerId, connected⟩

/-- `choose_mixnode_index`, `/repo/src/core/topology.rs:257-286` -/
def chooseMixnodeIndex (g : RouteGenerator) (rng : Rng) (exclude : List MixnodeIndex) :
    Res (Except TopologyErr (MixnodeIndex × Rng)) := do
  assertP "No duplicate or invalid indices in exclude_indices"
    (decide (exclude.length ≤ g.topology.mixnodes.length))
  let numAllowed := g.topology.mixnodes.length - exclude.length
  if numAllowed = 0 then .ok (.error .tooFewMixnodes)
  else do
    let (chosen, rng) := rng.genRange numAllowed
    let chosen := skipExcluded chosen exclude
    assertP "chosen < self.topology.mixnodes.len()" (decide (chosen < g.topology.mixnodes.length))
    let i ← toMixnodeIndex chosen
    .ok (.ok (i, rng))

/-- `choose_destination_index`, `/repo/src/core/topology.rs:288-304` -/
def chooseDestinationIndex (g : RouteGenerator) (rng : Rng) :
    Res (Except TopologyErr (MixnodeIndex × Rng)) :=
  let exclude := match g.topology.localNode with
    | .mixnode i => [i]
    | .nonMixnode _ =>
      match g.connectedGatewayIndices with
      | [i] => [i]
      | _ => []
  g.chooseMixnodeIndex rng exclude

/-- `choose_connected_gateway_index`, `/repo/src/core/topology.rs:306-328` -/
def chooseConnectedGatewayIndex (g : RouteGenerator) (rng : Rng) (tryExclude : Option MixnodeIndex) :
    Except TopologyErr (MixnodeIndex × Rng) :=
  let any : Unit → Except TopologyErr (MixnodeIndex × Rng) := fun _ =>
    match rng.choose g.connectedGatewayIndices with
    | (some i, rng) => .ok (i, rng)
    | (none, _) => .error .noConnectedGatewayMixnodes
  match tryExclude with
  | none => any ()
  | some x =>
    if !g.connectedGatewayIndices.any (· == x) then any ()
    else
      match g.connectedGatewayIndices with
      | [] => any ()
      | first :: rest =>
        match rng.choose rest with
        | (none, rng) => .ok (first, rng)
        | (some chosen, rng) => .ok (if chosen = x then first else chosen, rng)

/-- Choosing a special hop and marking it used, `/repo/src/core/topology.rs:363-381`; `needed` is the
condition of the match arm. -/
def chooseSpecial (g : RouteGenerator) (rng : Rng) (used : UsedIndices) (needed : Bool) :
    Res (Except TopologyErr (Option MixnodeIndex × UsedIndices × Rng)) :=
  match g.topology.localNode, needed with
  | .nonMixnode _, true => do
    let x ← used.asOption
    match g.chooseConnectedGatewayIndex rng x with
    | .error e => .ok (.error e)
    | .ok (i, rng) => do
      let used ← used.insert i
      .ok (.ok (some i, used, rng))
  | _, _ => .ok (.ok (none, used, rng))

/-- The minimum number of hops, `/repo/src/core/topology.rs:383-396`. -/
def minHops (first penultimate : Option MixnodeIndex) : Nat :=
  first.isSome.toNat + (first.isSome && (first == penultimate)).toNat + penultimate.isSome.toNat + 1

/-- The target of one hop, `/repo/src/core/topology.rs:400-423`: `some` a mixnode or `none` for the local
node. -/
def hopIndex (g : RouteGenerator) (rng : Rng) (kind : RouteKind) (i numHops : Nat)
    (first penultimate : Option MixnodeIndex) (used : UsedIndices) :
    Res (Except TopologyErr (Option MixnodeIndex × UsedIndices × Rng)) :=
  match i, numHops - i, first, penultimate with
  | 0, _, some index, _ => .ok (.ok (some index, used, rng))
  | _, 2, _, some index => .ok (.ok (some index, used, rng))
  | _, 1, _, _ =>
    match kind with
    | .toMixnode index => .ok (.ok (some index, used, rng))
    | .fromMixnode _ => .ok (.ok (none, used, rng))
    | .loop => .ok (.ok (none, used, rng))
  | _, _, _, _ => do
    match ← g.chooseMixnodeIndex rng used with
    | .error e => .ok (.error e)
    | .ok (index, rng) => do
      let used ← UsedIndices.insert used index
      .ok (.ok (some index, used, rng))

/-- The public key of a hop, `/repo/src/core/topology.rs:425-429`. -/
def hopKxPublic (g : RouteGenerator) : Option MixnodeIndex → Res KxPublic
  | some index => do
    let m ← g.topology.getMixnode index
    .ok m.kxPublic
  | none => .ok g.topology.localKxPublic

/-- The local node as a hop, `/repo/src/core/topology.rs:431-437`. -/
def hopTarget (g : RouteGenerator) : Option MixnodeIndex → Option MixnodeIndex
  | some index => some index
  | none =>
    match g.topology.localNode with
    | .mixnode localIndex => some localIndex
    | .nonMixnode _ => none

/-- The loop over the hops, `/repo/src/core/topology.rs:399-446`, from hop `i` on, `n` more hops. -/
def routeLoop (g : RouteGenerator) (kind : RouteKind) (numHops : Nat)
    (first penultimate : Option MixnodeIndex) :
    Nat → Nat → Rng → UsedIndices → Option MixnodeIndex → List Target → List KxPublic →
    Res (Except TopologyErr (Option MixnodeIndex × List Target × List KxPublic × Rng))
  | 0, _, rng, _, firstIndex, targets, kxs => .ok (.ok (firstIndex, targets, kxs, rng))
  | n + 1, i, rng, used, firstIndex, targets, kxs => do
    match ← g.hopIndex rng kind i numHops first penultimate used with
    | .error e => .ok (.error e)
    | .ok (index, used, rng) => do
      let kx ← g.hopKxPublic index
      assertP "their_kx_publics.push: ArrayVec is full" (decide (kxs.length < MAX_HOPS))
      let kxs := kxs ++ [kx]
      let index := g.hopTarget index
      if i = 0 then do
        assertP "index.is_some()" index.isSome
        routeLoop g kind numHops first penultimate n (i + 1) rng used index targets kxs
      else do
        assertP "targets.push: ArrayVec is full" (decide (targets.length < MAX_HOPS - 1))
        let target := match index with
          | some index => Target.mixnodeIndex index
          | none => Target.peerId g.localPeerId
        routeLoop g kind numHops first penultimate n (i + 1) rng used firstIndex (targets ++ [target]) kxs

/-- The endpoint and direction of a route, `/repo/src/core/topology.rs:343-353`: used indices, from the
local node?, to the local node? -/
def routeEnds : RouteKind → Res (UsedIndices × Bool × Bool)
  | .toMixnode index => do
    let used ← UsedIndices.insert [] index
    .ok (used, true, false)
  | .fromMixnode index => do
    let used ← UsedIndices.insert [] index
    .ok (used, false, true)
  | .loop => .ok ([], true, true)

/-- `gen_route`, `/repo/src/core/topology.rs:330-449`. The callers pass empty `targets` and
`their_kx_publics`. -/
def genRoute (g : RouteGenerator) (rng : Rng) (kind : RouteKind) (numHops : Nat) :
    Res (Except TopologyErr (Route × Rng)) := do
  let (used, fromLocal, toLocal) ← routeEnds kind
  let used ← match g.topology.localNode with
    | .mixnode index => UsedIndices.insert used index
    | .nonMixnode _ => .ok used
  match ← g.chooseSpecial rng used fromLocal with
  | .error e => .ok (.error e)
  | .ok (first, used, rng) => do
    match ← g.chooseSpecial rng used toLocal with
    | .error e => .ok (.error e)
    | .ok (penultimate, used, rng) => do
      let numHops := max numHops (minHops first penultimate)
      match ← g.routeLoop kind numHops first penultimate numHops 0 rng used none [] [] with
      | .error e => .ok (.error e)
      | .ok (firstIndex, targets, kxs, rng) => do
        let first ← expectSome "At least one hop" firstIndex
        .ok (.ok (⟨first, targets, kxs⟩, rng))

end RouteGenerator
end Mixnet
