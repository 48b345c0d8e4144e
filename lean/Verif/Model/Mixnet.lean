import Verif.Model.RequestBuilder
/-!
# `src/core/mod.rs`

`rand::thread_rng()` is the parameter `rng`; `Instant::now()` is the parameter `now`. Methods taking
`&mut self` return the new state, also when they return an error. Logging is not modelled.
-/
namespace Mixnet

/-- `MixnodesErr`, `/repo/src/core/mod.rs:79-85` -/
inductive MixnodesErr where
  | transient
  | permanent
deriving Repr, DecidableEq

/-- `RequestMessage`, `/repo/src/core/mod.rs:87-99` -/
structure RequestMessage where
  sessionIndex : SessionIndex
  id : MessageId
  data : Bytes
  surbs : List Surb
deriving Repr, DecidableEq

/-- `ReplyMessage`, `/repo/src/core/mod.rs:101-108` -/
structure ReplyMessage where
  requestId : MessageId
  data : Bytes
deriving Repr, DecidableEq

/-- `Message`, `/repo/src/core/mod.rs:110-117` -/
inductive Message where
  | request (m : RequestMessage)
  | reply (m : ReplyMessage)
deriving Repr, DecidableEq

/-- `PostErr`, `/repo/src/core/mod.rs:119-146` -/
inductive PostErr where
  | tooManyFragments
  | sessionNoLongerActive (i : SessionIndex)
  | sessionNotActiveYet (i : SessionIndex)
  | sessionMixnodesNotKnown (i : SessionIndex)
  | sessionDisabled (i : SessionIndex)
  | notEnoughSpaceInQueue
  | topology (e : TopologyErr)
  | badSurb
deriving Repr, DecidableEq

/-- `post_session`, `/repo/src/core/mod.rs:148-173`. Returns where the session is, too. -/
def postSession (sessions : Sessions) (status : SessionStatus) (index : SessionIndex) :
    Except PostErr (RelSessionIndex × Session) :=
  match RelSessionIndex.fromSessionIndex index status.currentIndex with
  | none =>
    if index < status.currentIndex then .error (.sessionNoLongerActive index)
    else .error (.sessionNotActiveYet index)
  | some rel =>
    if !status.phase.allowRequestsAndReplies rel then
      match rel with
      | .prev => .error (.sessionNoLongerActive index)
      | .current => .error (.sessionNotActiveYet index)
    else
      match sessions.get rel with
      | .empty | .kxPair _ => .error (.sessionMixnodesNotKnown index)
      | .disabled => .error (.sessionDisabled index)
      | .full session => .ok (rel, session)

/-- `From<CheckSpaceErr> for PostErr`, `/repo/src/core/mod.rs:175-182` -/
def CheckSpaceErr.toPostErr : CheckSpaceErr → PostErr
  | .capacity => .tooManyFragments
  | .len => .notEnoughSpaceInQueue

/-- `estimate_authored_packet_queue_delay`, `/repo/src/core/mod.rs:184-232`. `Duration::div_f64` panics
when dividing by zero (`loop_cover_proportion` equal to 1) and when the result is negative (`loop_cover_proportion`
greater than 1), and `mul_f64` panics on the NaN that `r` is when both periods are zero. (With a proportion above 1
and both periods zero it is the second panic that happens; the model reports the first. With a proportion far below 0, which
`gen_bool` does not accept, periods of a nanosecond could be rounded to zero; the model does not have that panic.) -/
def estimateAuthoredPacketQueueDelay (C : Crypto) (config : Config) (session : Session) : Res Nat := do
  assertP "div_f64: division by zero or negative result" (decide (config.loopCoverProportion < 1))
  let requestPeriod := session.meanAuthoredPacketPeriod
  let replyPeriod := config.mixnodeSession.meanAuthoredPacketPeriod
  assertP "mul_f64: NaN" (decide (¬(requestPeriod = 0 ∧ replyPeriod = 0)))
  .ok (C.queueDelayEstimate config.loopCoverProportion requestPeriod session.authoredPacketQueue.len
    replyPeriod config.mixnodeSession.authoredPacketQueue.capacity)

/-- `RequestMetrics`, `/repo/src/core/mod.rs:234-247` -/
structure RequestMetrics where
  numHops : Nat
  perHopNetDelay : Nat
  forwardingDelay : Nat
  authoredPacketQueueDelay : Nat
deriving Repr, DecidableEq

/-- `estimate_rtt`, `/repo/src/core/mod.rs:250-256`. `Duration` overflow is not modelled. -/
def RequestMetrics.estimateRtt (m : RequestMetrics) (handlingDelay : Nat) : Nat :=
  let netDelay := m.perHopNetDelay * m.numHops
  m.forwardingDelay + m.authoredPacketQueueDelay + netDelay + handlingDelay

/-- `Events`, `/repo/src/core/mod.rs:259-275` -/
structure Events where
  reservedPeersChanged : Bool
  nextForwardPacketDeadlineChanged : Bool
  nextAuthoredPacketDeadlineChanged : Bool
  spaceInAuthoredPacketQueue : Bool
deriving Repr, DecidableEq

/-- `Events::empty()` -/
def Events.empty : Events := ⟨false, false, false, false⟩

/-- `Mixnet`, `/repo/src/core/mod.rs:277-300` -/
structure Node where
  config : Config
  sessionStatus : SessionStatus
  sessions : Sessions
  nextKxPair : Option KxPair
  forwardPacketQueue : ForwardPacketQueue
  surbKeystore : SurbKeystore
  fragmentAssembler : FragmentAssembler
  events : Events

namespace Node

/-- `Mixnet::new`, `/repo/src/core/mod.rs:304-335` -/
def new (C : Crypto) (config : Config) : Res Node := do
  let current := match config.session0KxSecret with
    | none => SessionSlot.empty
    | some secret => SessionSlot.kxPair (KxPair.ofSecret C secret)
  let keystore ← SurbKeystore.new config.surbKeystoreCapacity
  .ok {
    config := config
    sessionStatus := ⟨0, .coverToCurrent⟩
    sessions := ⟨current, .disabled⟩
    nextKxPair := none
    forwardPacketQueue := ForwardPacketQueue.new config.forwardPacketQueueCapacity
    surbKeystore := keystore
    fragmentAssembler := FragmentAssembler.new config.maxIncompleteMessages config.maxIncompleteFragments
      config.maxFragmentsPerMessage
    events := Events.empty }

/-- The shift of the sessions, `/repo/src/core/mod.rs:349-372`, for a new index different from the old
one. -/
def shiftSessions (sessions : Sessions) (nextKxPair : Option KxPair) (old new : SessionIndex) : Sessions :=
  let next := match nextKxPair with
    | none => SessionSlot.empty
    | some k => SessionSlot.kxPair k
  match new - old with  -- saturating_sub
  | 1 => ⟨next, sessions.current⟩
  | 2 => ⟨.empty, next⟩
  | _ => if !sessions.isEmpty || !next.isEmpty then ⟨.empty, .empty⟩ else sessions

/-- `set_session_status`, `/repo/src/core/mod.rs:342-388` -/
def setSessionStatus (m : Node) (status : SessionStatus) : Node :=
  if m.sessionStatus = status then m
  else
    let m := if m.sessionStatus.currentIndex ≠ status.currentIndex then
        { m with
          sessions := shiftSessions m.sessions m.nextKxPair m.sessionStatus.currentIndex status.currentIndex
          nextKxPair := none }
      else m
    let m := if !status.phase.needPrev || status.currentIndex == 0 then
        { m with sessions := { m.sessions with prev := .disabled } }
      else m
    { m with
      events := { m.events with reservedPeersChanged := true, nextAuthoredPacketDeadlineChanged := true }
      sessionStatus := status }

/-- The session built by `maybe_set_mixnodes` once the mixnodes are known,
`/repo/src/core/mod.rs:433-469`: the new content of the slot. -/
def buildSession (C : Crypto) (config : Config) (slot : SessionSlot) (rng : Rng) (mixnodes : List Mixnode) :
    Res SessionSlot := do
  let (kxPair, rng) := match slot with
    | .kxPair k => (k, rng)
    | _ => KxPair.gen C rng
  let (topology, rng) ← Topology.new rng mixnodes kxPair.pub config.numGatewayMixnodes
  let sessionConfig := if topology.isMixnode then some config.mixnodeSession else config.nonMixnodeSession
  match sessionConfig with
  | none => .ok .disabled
  | some sc =>
    .ok (.full {
      kxPair := kxPair
      topology := topology
      authoredPacketQueue := AuthoredPacketQueue.new sc.authoredPacketQueue
      meanAuthoredPacketPeriod := sc.meanAuthoredPacketPeriod
      replayFilter := (ReplayFilter.new rng).1 })

/-- `maybe_set_mixnodes`, `/repo/src/core/mod.rs:390-473`. `mixnodes` is what the callback returns if it
is called; the boolean result says whether it was. -/
def maybeSetMixnodes (C : Crypto) (m : Node) (rng : Rng) (rel : RelSessionIndex)
    (mixnodes : Except MixnodesErr (List Mixnode)) : Res (Node × Bool) :=
  match m.sessions.get rel with
  | .disabled | .full _ => .ok (m, false)
  | slot => do
    let _ ← rel.add m.sessionStatus.currentIndex
    match mixnodes with
    | .error .permanent => .ok ({ m with sessions := m.sessions.set rel .disabled }, true)
    | .error .transient => .ok (m, true)
    | .ok mixnodes => do
      let mixnodes := mixnodes.take (MAX_MIXNODE_INDEX + 1)  -- truncate
      match ← buildSession C m.config slot rng mixnodes with
      | .full s => .ok ({ m with
          sessions := m.sessions.set rel (.full s)
          events := { m.events with
            reservedPeersChanged := true, nextAuthoredPacketDeadlineChanged := true } }, true)
      | slot => .ok ({ m with sessions := m.sessions.set rel slot }, true)

/-- `next_kx_public`, `/repo/src/core/mod.rs:475-480` -/
def nextKxPublic (C : Crypto) (m : Node) (rng : Rng) : Node × KxPublic :=
  match m.nextKxPair with
  | some k => (m, k.pub)
  | none =>
    let k := (KxPair.gen C rng).1
    ({ m with nextKxPair := some k }, k.pub)

/-- `flat_map` over the sessions, `/repo/src/core/mod.rs:484`. -/
def reservedPeersOf : List Session → Res (List Mixnode)
  | [] => .ok []
  | s :: ss => do
    let ps ← s.topology.reservedPeers
    let rest ← reservedPeersOf ss
    .ok (ps ++ rest)

/-- `reserved_peers`, `/repo/src/core/mod.rs:482-485` -/
def reservedPeers (m : Node) : Res (List Mixnode) := reservedPeersOf m.sessions.iter

/-- What `find_map` over the sessions yields, `/repo/src/core/mod.rs:491-506`: nothing (no session's key
fits), an error (discard the packet) or an action for one of the sessions. -/
inductive PeelResult (C : Crypto) where
  | none
  | discard
  | action (out : Bytes) (a : Action C) (rel : RelSessionIndex) (s : Session) (tag : ReplayTag)

/-- The `find_map` over the sessions, `/repo/src/core/mod.rs:490-506`. -/
def findSession (C : Crypto) (packet : Bytes) : List (RelSessionIndex × Session) → Bytes → Res (PeelResult C)
  | [], _ => .ok .none
  | (rel, s) :: rest, out => do
    let secret := s.kxPair.exchange C (kxPublicOf packet)
    let tag := s.replayFilter.tag C secret
    if s.replayFilter.contains tag then .ok .discard
    else do
      match ← peel C out packet secret with
      | (out, .error .mac) => findSession C packet rest out
      | (_, .error _) => .ok .discard
      | (out, .ok a) => .ok (.action out a rel s tag)

/-- Marking a packet as seen in a session. -/
def markSeen (m : Node) (rel : RelSessionIndex) (s : Session) (tag : ReplayTag) : Node :=
  { m with sessions := m.sessions.set rel (.full { s with replayFilter := s.replayFilter.insert tag }) }

/-- `Action::ForwardTo`, `/repo/src/core/mod.rs:527-559` -/
def handleForward (C : Crypto) (m : Node) (now : Nat) (out : Bytes) (target : Target) (delay : C.Delay)
    (rel : RelSessionIndex) (s : Session) (tag : ReplayTag) : Res Node :=
  if !s.topology.isMixnode then .ok m
  else if !m.forwardPacketQueue.hasSpace then .ok m
  else
    let m := m.markSeen rel s tag
    match s.topology.targetToPeerId target with
    | .error _ => .ok m
    | .ok peerId => do
      let deadline := now + C.delayToDuration delay m.config.meanForwardingDelay
      let (q, changed) ← m.forwardPacketQueue.insert deadline ⟨peerId, out⟩
      let m := { m with forwardPacketQueue := q }
      if changed then .ok { m with events := { m.events with nextForwardPacketDeadlineChanged := true } }
      else .ok m

/-- `Action::DeliverRequest`, `/repo/src/core/mod.rs:560-584` -/
def handleRequest (m : Node) (out : Bytes) (rel : RelSessionIndex) (s : Session) (tag : ReplayTag) :
    Res (Node × Option Message) := do
  let payloadData ← arrayRef "payload_data" out 0 PAYLOAD_DATA_SIZE
  if !s.topology.isMixnode then .ok (m, none)
  else do
    let m := m.markSeen rel s tag
    let (a, msg) ← m.fragmentAssembler.insert payloadData
    let m := { m with fragmentAssembler := a }
    match msg with
    | none => .ok (m, none)
    | some msg => do
      let index ← rel.add m.sessionStatus.currentIndex
      .ok (m, some (.request ⟨index, msg.id, msg.data, msg.surbs⟩))

/-- `Action::DeliverReply`, `/repo/src/core/mod.rs:585-620` -/
def handleReply (C : Crypto) (m : Node) (out : Bytes) (surbId : SurbId) : Res (Node × Option Message) := do
  let payload ← arrayRef "payload" out 0 PAYLOAD_SIZE
  match m.surbKeystore.entry surbId with
  | none => .ok (m, none)
  | some entry => do
    let (payload, res) ← decryptReplyPayload C payload entry.keys
    let m := { m with surbKeystore := m.surbKeystore.remove surbId }
    match res with
    | .error _ => .ok (m, none)
    | .ok () => do
      let payloadData ← arrayRef "payload_data" payload 0 PAYLOAD_DATA_SIZE
      let (a, msg) ← m.fragmentAssembler.insert payloadData
      .ok ({ m with fragmentAssembler := a }, msg.map fun msg => .reply ⟨entry.messageId, msg.data⟩)

/-- `handle_packet`, `/repo/src/core/mod.rs:487-623` -/
def handlePacket (C : Crypto) (m : Node) (now : Nat) (packet : Bytes) : Res (Node × Option Message) := do
  match ← findSession C packet m.sessions.enumerate (List.replicate PACKET_SIZE 0) with
  | .none => .ok (m, none)
  | .discard => .ok (m, none)
  | .action out a rel s tag =>
    match a with
    | .forwardTo target delay => do
      let m ← m.handleForward C now out target delay rel s tag
      .ok (m, none)
    | .deliverRequest => m.handleRequest out rel s tag
    | .deliverReply surbId => m.handleReply C out surbId
    | .deliverCover _ => .ok (m, none)

/-- `next_forward_packet_deadline`, `/repo/src/core/mod.rs:625-630` -/
def nextForwardPacketDeadline (m : Node) : Option Nat := m.forwardPacketQueue.nextDeadline

/-- `pop_next_forward_packet`, `/repo/src/core/mod.rs:632-637`. `tie`: see `ForwardPacketQueue.pop`. -/
def popNextForwardPacket (m : Node) (tie : Nat) : Node × Option AddressedPacket :=
  let (p, q) := m.forwardPacketQueue.pop tie
  ({ m with
    events := { m.events with nextForwardPacketDeadlineChanged := true }
    forwardPacketQueue := q }, p)

/-- The mean period of `next_authored_packet_delay`, `/repo/src/core/mod.rs:642-662`, in nanoseconds and
exact instead of `f64`. `none` means an infinite delay. With two sessions of period 0 the mean is NaN,
and `from_secs_f64` panics. -/
def meanAuthoredPacketPeriod (m : Node) : Res (Option Rat) :=
  match m.sessions.iter with
  | [a, b] =>
    let p := (a.meanAuthoredPacketPeriod : Rat)
    let q := (b.meanAuthoredPacketPeriod : Rat)
    if p + q = 0 then panic "from_secs_f64: NaN" else .ok (some (2 * p * q / (p + q)))
  | [a] =>
    let p := (a.meanAuthoredPacketPeriod : Rat)
    .ok (some (if m.sessionStatus.phase.needPrev then 2 * p else p))
  | _ => .ok none

/-- `next_authored_packet_delay`, `/repo/src/core/mod.rs:639-668`. `e` is the sample of the exponential
distribution with mean 1. -/
def nextAuthoredPacketDelay (m : Node) (e : Rat) : Res (Option Rat) := do
  match ← m.meanAuthoredPacketPeriod with
  | none => .ok none
  | some mean => .ok (some ((if e < 10 then e else 10) * mean))

/-- Picking the session, `/repo/src/core/mod.rs:681-705`. `gen_bool` panics on the NaN obtained from two
periods of 0. -/
def pickSession (m : Node) (rng : Rng) : Res (Option (RelSessionIndex × Session) × Rng) :=
  match m.sessions.enumerate with
  | [a, b] => do
    let p := (a.2.meanAuthoredPacketPeriod : Rat)
    let q := (b.2.meanAuthoredPacketPeriod : Rat)
    if p + q = 0 then panic "gen_bool: p is outside range" else do
      let (first, rng) ← rng.genBool (q / (p + q))
      .ok (if first then some a else some b, rng)
  | [a] => .ok (some a, rng)
  | _ => .ok (none, rng)

/-- Generating a cover packet, `/repo/src/core/mod.rs:729-748`. -/
def coverInstead (C : Crypto) (m : Node) (rng : Rng) (ns : NetworkStatus) (s : Session) (kind : CoverKind) :
    Res (Option AddressedPacket) :=
  if !m.config.genCoverPackets then .ok none
  else do
    match ← genCoverPacket C rng s.topology ns kind m.config.numHops with
    | .error _ => .ok none
    | .ok p => .ok (some p)

/-- `pop_next_authored_packet`, `/repo/src/core/mod.rs:670-749` -/
def popNextAuthoredPacket (C : Crypto) (m : Node) (rng : Rng) (ns : NetworkStatus) :
    Res (Node × Option AddressedPacket) := do
  match ← m.pickSession rng with
  | (none, _) => .ok (m, none)
  | (some (rel, s), rng) => do
    let m := { m with events := { m.events with nextAuthoredPacketDeadlineChanged := true } }
    let (isLoop, rng) ← rng.genBool m.config.loopCoverProportion
    let kind := if isLoop then CoverKind.loop else CoverKind.drop
    if kind = CoverKind.drop && m.sessionStatus.phase.allowRequestsAndReplies rel then do
      let ((packet, space), q) := s.authoredPacketQueue.pop
      let m := { m with sessions := m.sessions.set rel (.full { s with authoredPacketQueue := q }) }
      let m := if space then
          { m with events := { m.events with spaceInAuthoredPacketQueue := true } }
        else m
      match packet with
      | some p => .ok (m, some p)
      | none => do
        let p ← m.coverInstead C rng ns s kind
        .ok (m, p)
    else do
      let p ← m.coverInstead C rng ns s kind
      .ok (m, p)

/-- The local variables of the loop of `post_request`. -/
structure PostAcc (C : Crypto) where
  surbs : SurbAcc C
  queue : AuthoredPacketQueue
  requestHops : Nat
  requestDelay : C.Delay

/-- The loop of `post_request`, `/repo/src/core/mod.rs:783-805`. -/
def postLoop (C : Crypto) (b : RequestBuilder) (messageId : MessageId) (numHops : Nat) :
    List FragmentBlueprint → PostAcc C → Res (PostAcc C × Except TopologyErr Unit)
  | [], acc => .ok (acc, .ok ())
  | bp :: bps, acc => do
    match ← b.buildPacket C messageId numHops bp acc.surbs with
    | (surbs, .error e) => .ok ({ acc with surbs := surbs }, .error e)
    | (surbs, .ok (packet, metrics)) => do
      let queue ← acc.queue.push packet
      postLoop C b messageId numHops bps
        ⟨surbs, queue, max acc.requestHops metrics.numHops,
          delayMax C acc.requestDelay metrics.forwardingDelay⟩

/-- `post_request`, `/repo/src/core/mod.rs:751-821`. Returns the new state, the new value of
`destination_index` and the result. -/
def postRequest (C : Crypto) (m : Node) (rng : Rng) (sessionIndex : SessionIndex)
    (destinationIndex : Option MixnodeIndex) (messageId : MessageId) (data : Scattered Byte)
    (numSurbs : Nat) (ns : NetworkStatus) :
    Res (Node × Option MixnodeIndex × Except PostErr RequestMetrics) := do
  match ← fragmentBlueprints messageId data numSurbs with
  | none => .ok (m, destinationIndex, .error .tooManyFragments)
  | some bps =>
    if ¬(bps.length ≤ m.config.maxFragmentsPerMessage) then
      .ok (m, destinationIndex, .error .tooManyFragments)
    else
      match postSession m.sessions m.sessionStatus sessionIndex with
      | .error e => .ok (m, destinationIndex, .error e)
      | .ok (rel, s) =>
        match s.authoredPacketQueue.checkSpace bps.length with
        | .error e => .ok (m, destinationIndex, .error e.toPostErr)
        | .ok () => do
          match ← RequestBuilder.new rng s.topology ns destinationIndex with
          | .error e => .ok (m, destinationIndex, .error (.topology e))
          | .ok (b, rng) => do
            let (acc, res) ← postLoop C b messageId m.config.numHops bps
              ⟨⟨m.surbKeystore, rng, 0, C.delayZero⟩, s.authoredPacketQueue, 0, C.delayZero⟩
            let s := { s with authoredPacketQueue := acc.queue }
            let m := { m with
              surbKeystore := acc.surbs.keystore, sessions := m.sessions.set rel (.full s) }
            match res with
            | .error e => .ok (m, destinationIndex, .error (.topology e))
            | .ok () => do
              let queueDelay ← estimateAuthoredPacketQueueDelay C m.config s
              .ok (m, some b.destinationIndex, .ok {
                numHops := acc.requestHops + acc.surbs.replyHops
                perHopNetDelay := m.config.perHopNetDelay
                forwardingDelay := C.delayToDuration
                  (C.delayAdd acc.requestDelay acc.surbs.replyDelay) m.config.meanForwardingDelay
                authoredPacketQueueDelay := queueDelay })

/-- The loop of `post_reply`, `/repo/src/core/mod.rs:845-856`. Returns the remaining SURBs, the queue and
the result. -/
def postReplyLoop (C : Crypto) (t : Topology) :
    List FragmentBlueprint → List Surb → AuthoredPacketQueue →
    Res (List Surb × AuthoredPacketQueue × Except PostErr Unit)
  | [], surbs, queue => .ok (surbs, queue, .ok ())
  | bp :: bps, surbs, queue => do
    let fragment ← bp.writeExceptSurbs (payloadData zeroPacket)
    let packet := splice zeroPacket HEADER_SIZE fragment
    let surb ← expectSome "Checked number of SURBs above" surbs.getLast?
    let surbs := surbs.dropLast
    match ← completeReplyPacket C packet surb with
    | (_, none) => .ok (surbs, queue, .error .badSurb)
    | (packet, some mixnodeIndex) =>
      match t.mixnodeIndexToPeerId mixnodeIndex with
      | .error e => .ok (surbs, queue, .error (.topology e))
      | .ok peerId => do
        let queue ← queue.push ⟨peerId, packet⟩
        postReplyLoop C t bps surbs queue

/-- `post_reply`, `/repo/src/core/mod.rs:823-859`. Returns the new state, the remaining SURBs and the
result. -/
def postReply (C : Crypto) (m : Node) (surbs : List Surb) (sessionIndex : SessionIndex)
    (messageId : MessageId) (data : Scattered Byte) : Res (Node × List Surb × Except PostErr Unit) := do
  match ← fragmentBlueprints messageId data 0 with
  | none => .ok (m, surbs, .error .tooManyFragments)
  | some bps =>
    if ¬(bps.length ≤ min m.config.maxFragmentsPerMessage surbs.length) then
      .ok (m, surbs, .error .tooManyFragments)
    else
      match postSession m.sessions m.sessionStatus sessionIndex with
      | .error e => .ok (m, surbs, .error e)
      | .ok (rel, s) =>
        match s.authoredPacketQueue.checkSpace bps.length with
        | .error e => .ok (m, surbs, .error e.toPostErr)
        | .ok () => do
          let (surbs, queue, res) ← postReplyLoop C s.topology bps surbs s.authoredPacketQueue
          .ok ({ m with sessions := m.sessions.set rel (.full { s with authoredPacketQueue := queue }) },
            surbs, res)

/-- `take_events`, `/repo/src/core/mod.rs:861-866` -/
def takeEvents (m : Node) : Node × Events := ({ m with events := Events.empty }, m.events)

end Node
end Mixnet
