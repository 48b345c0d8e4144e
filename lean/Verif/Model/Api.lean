import Verif.Model.Mixnet
/-!
# Histories of API calls

Not a model of particular lines: the methods of `Mixnet` (`/repo/src/core/mod.rs:302-867`) that take
`&mut self`, as one transition system. The inputs of a call include what the environment decides:
random choices, the clock, what callbacks answer.
-/
namespace Mixnet

/-- A call of a method of `Mixnet`, `/repo/src/core/mod.rs:344-867`. -/
inductive Call where
  | setSessionStatus (status : SessionStatus)
  | maybeSetMixnodes (rel : RelSessionIndex) (mixnodes : Except MixnodesErr (List Mixnode)) (rng : Rng)
  | nextKxPublic (rng : Rng)
  | handlePacket (now : Nat) (packet : Bytes)
  | popNextForwardPacket (tie : Nat)
  | popNextAuthoredPacket (rng : Rng) (ns : NetworkStatus)
  | postRequest (rng : Rng) (sessionIndex : SessionIndex) (destinationIndex : Option MixnodeIndex)
      (messageId : MessageId) (data : Scattered Byte) (numSurbs : Nat) (ns : NetworkStatus)
  | postReply (surbs : List Surb) (sessionIndex : SessionIndex) (messageId : MessageId)
      (data : Scattered Byte)
  | takeEvents

/-- What a call returns (out parameters included). -/
inductive Outcome where
  | unit
  | consulted (called : Bool)
  | kxPublic (k : KxPublic)
  | message (m : Option Message)
  | forwardPacket (p : Option AddressedPacket)
  | authoredPacket (p : Option AddressedPacket)
  | posted (destinationIndex : Option MixnodeIndex) (r : Except PostErr RequestMetrics)
  | replied (surbs : List Surb) (r : Except PostErr Unit)
  | events (e : Events)

/-- One call. -/
def Node.step (C : Crypto) (m : Node) : Call → Res (Node × Outcome)
  | .setSessionStatus status => .ok (m.setSessionStatus status, .unit)
  | .maybeSetMixnodes rel mixnodes rng => do
    let (m, called) ← m.maybeSetMixnodes C rng rel mixnodes
    .ok (m, .consulted called)
  | .nextKxPublic rng =>
    let (m, k) := m.nextKxPublic C rng
    .ok (m, .kxPublic k)
  | .handlePacket now packet => do
    let (m, msg) ← m.handlePacket C now packet
    .ok (m, .message msg)
  | .popNextForwardPacket tie =>
    let (m, p) := m.popNextForwardPacket tie
    .ok (m, .forwardPacket p)
  | .popNextAuthoredPacket rng ns => do
    let (m, p) ← m.popNextAuthoredPacket C rng ns
    .ok (m, .authoredPacket p)
  | .postRequest rng i d id data n ns => do
    let (m, d, r) ← m.postRequest C rng i d id data n ns
    .ok (m, .posted d r)
  | .postReply surbs i id data => do
    let (m, surbs, r) ← m.postReply C surbs i id data
    .ok (m, .replied surbs r)
  | .takeEvents =>
    let (m, e) := m.takeEvents
    .ok (m, .events e)

/-- `m` makes the calls one after the other without panicking, ending in `m'`; `outs` are the outcomes. -/
inductive Node.Runs (C : Crypto) : Node → List Call → List Outcome → Node → Prop
  | nil (m) : Runs C m [] [] m
  | cons {m call m' out calls outs m''} : m.step C call = .ok (m', out) →
      Runs C m' calls outs m'' → Runs C m (call :: calls) (out :: outs) m''

/-- Constraints that the Rust types put on the inputs of a call (array sizes, `MixnodeIndex`). -/
def Call.WellTyped : Call → Prop
  | .setSessionStatus _ => True
  | .maybeSetMixnodes _ mixnodes _ =>
    match mixnodes with
    | .ok ms => ∀ m ∈ ms, m.kxPublic.length = KX_PUBLIC_SIZE ∧ m.peerId.length = PEER_ID_SIZE
    | .error _ => True
  | .nextKxPublic _ => True
  | .handlePacket _ packet => packet.length = PACKET_SIZE
  | .popNextForwardPacket _ => True
  | .popNextAuthoredPacket _ ns => ns.localPeerId.length = PEER_ID_SIZE
  | .postRequest _ _ d id data _ ns =>
    (∀ i ∈ d, i ≤ MAX_MIXNODE_INDEX) ∧ id.length = MESSAGE_ID_SIZE ∧ data.len = data.toVec.length ∧
      ns.localPeerId.length = PEER_ID_SIZE
  | .postReply surbs _ id data =>
    (∀ s ∈ surbs, s.length = SURB_SIZE) ∧ id.length = MESSAGE_ID_SIZE ∧ data.len = data.toVec.length
  | .takeEvents => True

/-- `m` is a state of a node with this configuration after some history of well-typed calls. -/
def Node.Reachable (C : Crypto) (config : Config) (m : Node) : Prop :=
  ∃ m₀ calls outs, Node.new C config = .ok m₀ ∧ (∀ c ∈ calls, c.WellTyped) ∧ Node.Runs C m₀ calls outs m

end Mixnet
