import Verif.Model.Sessions
import Verif.Model.SurbKeystore
/-!
# `src/core/config.rs`, `src/core/cover.rs`, `src/core/request_builder.rs`
-/
namespace Mixnet

/-- `SessionConfig`, `/repo/src/core/config.rs:29-42`. Durations are nanoseconds. -/
structure SessionConfig where
  authoredPacketQueue : AuthoredPacketQueueConfig
  meanAuthoredPacketPeriod : Nat
deriving Repr, DecidableEq

/-- `Config`, `/repo/src/core/config.rs:44-92`, without the log target. `loop_cover_proportion` is an
exact number instead of an `f64`. -/
structure Config where
  numGatewayMixnodes : Nat
  session0KxSecret : Option KxSecret
  mixnodeSession : SessionConfig
  nonMixnodeSession : Option SessionConfig
  forwardPacketQueueCapacity : Nat
  meanForwardingDelay : Nat
  perHopNetDelay : Nat
  loopCoverProportion : Rat
  genCoverPackets : Bool
  numHops : Nat
  surbKeystoreCapacity : Nat
  maxIncompleteMessages : Nat
  maxIncompleteFragments : Nat
  maxFragmentsPerMessage : Nat
deriving Repr, DecidableEq

/-- `Config::default`, `/repo/src/core/config.rs:94-137` -/
def Config.default : Config where
  numGatewayMixnodes := 3
  session0KxSecret := none
  mixnodeSession := ⟨⟨50, true⟩, 100000000⟩
  nonMixnodeSession := some ⟨⟨25, false⟩, 1000000000⟩
  forwardPacketQueueCapacity := 300
  meanForwardingDelay := 1000000000
  perHopNetDelay := 300000000
  loopCoverProportion := 1 / 4
  genCoverPackets := true
  numHops := MAX_HOPS
  surbKeystoreCapacity := 200
  maxIncompleteMessages := 2000
  maxIncompleteFragments := 2000
  maxFragmentsPerMessage := 25

/-- `default_boxed_array`, `/repo/src/core/util.rs:23-25`: a packet of zeros -/
def zeroPacket : Bytes := List.replicate PACKET_SIZE 0

/-- `CoverKind`, `/repo/src/core/cover.rs:32-36` -/
inductive CoverKind where
  | drop
  | loop
deriving Repr, DecidableEq

/-- The route kind of a cover packet, `/repo/src/core/cover.rs:47-50` -/
def coverRouteKind (g : RouteGenerator) (rng : Rng) : CoverKind →
    Res (Except TopologyErr (RouteKind × Rng))
  | .drop => do
    match ← g.chooseDestinationIndex rng with
    | .error e => .ok (.error e)
    | .ok (i, rng) => .ok (.ok (.toMixnode i, rng))
  | .loop => .ok (.ok (.loop, rng))

/-- `gen_cover_packet`, `/repo/src/core/cover.rs:38-67` -/
def genCoverPacket (C : Crypto) (rng : Rng) (t : Topology) (ns : NetworkStatus) (kind : CoverKind)
    (numHops : Nat) : Res (Except TopologyErr AddressedPacket) := do
  let g ← RouteGenerator.new t ns
  match ← coverRouteKind g rng kind with
  | .error e => .ok (.error e)
  | .ok (kind, rng) => do
    match ← g.genRoute rng kind numHops with
    | .error e => .ok (.error e)
    | .ok (route, rng) => do
      match t.mixnodeIndexToPeerId route.first with
      | .error e => .ok (.error e)
      | .ok peerId => do
        let (packet, _, _) ← buildCoverPacket C zeroPacket rng route.targets route.kxPublics none
        .ok (.ok ⟨peerId, packet⟩)

/-- `RouteMetrics`, `/repo/src/core/request_builder.rs:35-38` -/
structure RouteMetrics (C : Crypto) where
  numHops : Nat
  forwardingDelay : C.Delay

/-- `RequestBuilder`, `/repo/src/core/request_builder.rs:40-43` -/
structure RequestBuilder where
  routeGenerator : RouteGenerator
  destinationIndex : MixnodeIndex

/-- `RequestBuilder::new`, `/repo/src/core/request_builder.rs:46-58` -/
def RequestBuilder.new (rng : Rng) (t : Topology) (ns : NetworkStatus)
    (destinationIndex : Option MixnodeIndex) : Res (Except TopologyErr (RequestBuilder × Rng)) := do
  let g ← RouteGenerator.new t ns
  match destinationIndex with
  | some index => .ok (.ok (⟨g, index⟩, rng))
  | none => do
    match ← g.chooseDestinationIndex rng with
    | .error e => .ok (.error e)
    | .ok (index, rng) => .ok (.ok (⟨g, index⟩, rng))

/-- `RequestBuilder::build_surb`, `/repo/src/core/request_builder.rs:94-125`. Returns the SURB and its
payload encryption keys. -/
def RequestBuilder.buildSurb (C : Crypto) (b : RequestBuilder) (surb : Surb) (rng : Rng) (id : SurbId)
    (numHops : Nat) : Res (Except TopologyErr (Surb × List Bytes × RouteMetrics C × Rng)) := do
  match ← b.routeGenerator.genRoute rng (.fromMixnode b.destinationIndex) numHops with
  | .error e => .ok (.error e)
  | .ok (route, rng) => do
    let (surb, keys, delay, rng) ←
      Mixnet.buildSurb C surb rng route.first route.targets route.kxPublics id
    .ok (.ok (surb, keys, ⟨route.kxPublics.length, delay⟩, rng))

/-- `std::cmp::max` on delays: the second one unless the first is greater. -/
def delayMax (C : Crypto) (a b : C.Delay) : C.Delay := if C.delayLe a b then b else a

/-- What posting a request changes besides the fragment: the SURB keystore, the random number generator
and the running maxima of the reply metrics. -/
structure SurbAcc (C : Crypto) where
  keystore : SurbKeystore
  rng : Rng
  replyHops : Nat
  replyDelay : C.Delay

/-- The loop over the SURBs of one fragment, `/repo/src/core/mod.rs:788-797`. `offs` are the places of the
remaining SURBs in the fragment. The keystore changes even on failure. -/
def writeSurbsLoop (C : Crypto) (b : RequestBuilder) (messageId : MessageId) (numHops : Nat) :
    List Nat → Fragment → SurbAcc C → Res (SurbAcc C × Except TopologyErr Fragment)
  | [], f, acc => .ok (acc, .ok f)
  | off :: offs, f, acc => do
    let (ks, id, rng) ← acc.keystore.insert acc.rng messageId
    match ← b.buildSurb C (slice f off SURB_SIZE) rng id numHops with
    | .error e => .ok ({ acc with keystore := ks, rng := rng }, .error e)
    | .ok (surb, keys, metrics, rng) =>
      writeSurbsLoop C b messageId numHops offs (splice f off surb)
        ⟨ks.setKeys id keys, rng, max acc.replyHops metrics.numHops,
          delayMax C acc.replyDelay metrics.forwardingDelay⟩

/-- `RequestBuilder::build_packet`, `/repo/src/core/request_builder.rs:64-92`, with the closure passed
by `post_request`, `/repo/src/core/mod.rs:786-799`. -/
def RequestBuilder.buildPacket (C : Crypto) (b : RequestBuilder) (messageId : MessageId) (numHops : Nat)
    (blueprint : FragmentBlueprint) (acc : SurbAcc C) :
    Res (SurbAcc C × Except TopologyErr (AddressedPacket × RouteMetrics C)) := do
  match ← b.routeGenerator.genRoute acc.rng (.toMixnode b.destinationIndex) numHops with
  | .error e => .ok (acc, .error e)
  | .ok (route, rng) => do
    match b.routeGenerator.topology.mixnodeIndexToPeerId route.first with
    | .error e => .ok ({ acc with rng := rng }, .error e)
    | .ok peerId => do
      let fragment ← blueprint.writeExceptSurbs (payloadData zeroPacket)
      match ← writeSurbsLoop C b messageId numHops blueprint.surbOffsets fragment
          { acc with rng := rng } with
      | (acc, .error e) => .ok (acc, .error e)
      | (acc, .ok fragment) => do
        let packet := splice zeroPacket HEADER_SIZE fragment
        let (packet, delay, rng) ←
          completeRequestPacket C packet acc.rng route.targets route.kxPublics
        .ok ({ acc with rng := rng }, .ok (⟨peerId, packet⟩, ⟨route.kxPublics.length, delay⟩))

end Mixnet
