import Verif.Spec.Posting
/-!
# A network of mixnodes

What it means for a packet to be relayed by mixnodes and for the packets of a message to be received.
Written with the API calls of the nodes.
-/
namespace Mixnet.Spec

/-- The mixnodes of a session, with their secret keys. -/
structure Network (C : Crypto) where
  /-- the index of the session -/
  session : Nat
  mixnodes : List Mixnode
  keys : List KxSecret
  /-- the keys belong to the mixnodes -/
  keyed : mixnodes.map (·.kxPublic) = keys.map C.deriveKxPublic
  /-- the mixnodes can be told apart by their peer IDs -/
  peers : (mixnodes.map (·.peerId)).Nodup

/-- The mixnode with this peer ID has this secret key. -/
def Network.At {C : Crypto} (net : Network C) (peer : PeerId) (key : KxSecret) : Prop :=
  ∃ (j : Nat) (mx : Mixnode), net.mixnodes[j]? = some mx ∧ mx.peerId = peer ∧ net.keys[j]? = some key

/-- The node has the session of the network, with this secret key, and will look at the packet in it: it has not
seen the packet, and if the session is the previous one, the current one does not claim the packet. -/
structure Takes (C : Crypto) (net : Network C) (key : KxSecret) (n : Node) (packet : Bytes) : Prop where
  session : ∃ s, n.sessionAt net.session = some s ∧ s.kxPair.secret = key ∧ s.topology.mixnodes = net.mixnodes ∧
    s.replayFilter.contains (s.tagFor C packet) = false
  unclaimed : net.session ≠ n.sessionStatus.currentIndex → ∀ s', n.sessions.current = .full s' →
    s'.replayFilter.contains (s'.tagFor C packet) = false ∧
    peel C zeroPacket packet (s'.secretFor C packet) = .ok (zeroPacket, .error .mac)

/-- A mixnode in any reachable state handled the packet `p`, addressed to it, and put the packet `q` into its
queue of packets to be forwarded. -/
def Relay (C : Crypto) (net : Network C) (p q : AddressedPacket) : Prop :=
  ∃ (config : Config) (n n' : Node) (key : KxSecret) (now deadline : Nat),
    Node.Reachable C config n ∧ net.At p.peerId key ∧ Takes C net key n p.packet ∧
    n.step C (.handlePacket now p.packet) = .ok (n', .message none) ∧
    n'.forwardPacketQueue.queue.Perm (⟨deadline, q⟩ :: n.forwardPacketQueue.queue)

/-- The packet `p` became the packet `q` by way of this many mixnodes. -/
inductive Relays (C : Crypto) (net : Network C) : Nat → AddressedPacket → AddressedPacket → Prop
  | here (p) : Relays C net 0 p p
  | next {k p q r} : Relay C net p q → Relays C net k q r → Relays C net (k + 1) p r

/-- The packet finds its way to `final` by way of `hops` mixnodes: until it has passed that many it is addressed to a
mixnode of the network, and that mixnode, in any reachable state in which it takes the packet and has space
for it, queues the next packet. After the last one, the packet is addressed to `final`. -/
def FindsWay (C : Crypto) (net : Network C) (hops : Nat) (final : PeerId) (p : AddressedPacket) : Prop :=
  ∀ k q, Relays C net k p q →
    (k = hops → q.peerId = final) ∧
    (k < hops →
      (∃ key, net.At q.peerId key) ∧
      ∀ config relay key now, Node.Reachable C config relay → net.At q.peerId key → Takes C net key relay q.packet →
        relay.forwardPacketQueue.queue.length < config.forwardPacketQueueCapacity →
        ∃ relay' deadline next, relay.step C (.handlePacket now q.packet) = .ok (relay', .message none) ∧
          relay'.forwardPacketQueue.queue = ⟨deadline, next⟩ :: relay.forwardPacketQueue.queue)

/-- What a node has stored of the message with this id, not complete yet. -/
def storedOf (n : Node) (id : MessageId) : Option IncompleteMessage := n.fragmentAssembler.incomplete.get? id

/-- A history of a node in which the packets of some items arrive and are handled, each when the node is
`Ready` for it; `msgs` are the messages returned for them. Meanwhile anything else may happen that does not
touch what is stored of the message `id`. -/
inductive Receives {α : Type} (C : Crypto) (id : MessageId) (packetOf : α → Bytes) (Ready : Node → α → Prop) :
    Node → List α → List (Option Message) → Node → Prop
  | done (n) : Receives C id packetOf Ready n [] [] n
  | arrive {n x now n' msg xs msgs n''} : Ready n x →
      n.step C (.handlePacket now (packetOf x)) = .ok (n', .message msg) →
      Receives C id packetOf Ready n' xs msgs n'' →
      Receives C id packetOf Ready n (x :: xs) (msg :: msgs) n''
  | other {n call n' out xs msgs n''} : call.WellTyped → n.step C call = .ok (n', out) →
      storedOf n' id = storedOf n id → Receives C id packetOf Ready n' xs msgs n'' →
      Receives C id packetOf Ready n xs msgs n''

/-- A node configured like this can take in messages of `k` fragments, one at a time at least. -/
def CanHold (config : Config) (k : Nat) : Prop :=
  k ≤ config.maxFragmentsPerMessage ∧
    (k = 1 ∨ (1 ≤ config.maxIncompleteMessages ∧ k - 1 ≤ config.maxIncompleteFragments))

end Mixnet.Spec
