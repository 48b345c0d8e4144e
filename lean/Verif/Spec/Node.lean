import Verif.Model.Api
import Verif.Spec.Route
/-!
# Vocabulary for the properties of a node

Written with `peel`, the contents of the session slots and the API calls; independent of how
`handle_packet` and the other methods are written.
-/
namespace Mixnet

/-- The shared secret of a session with the sender of a packet. -/
def Session.secretFor (C : Crypto) (s : Session) (packet : Bytes) : SharedSecret :=
  C.deriveKxSharedSecret (packet.take 32) s.kxPair.secret

/-- The tag of a packet in a session. -/
def Session.tagFor (C : Crypto) (s : Session) (packet : Bytes) : ReplayTag :=
  s.replayFilter.tag C (s.secretFor C packet)

/-- The packet is for the session `s` at `rel`: `s` has not seen it, and peels it to `a`. -/
structure Accepts (C : Crypto) (m : Node) (packet : Bytes) (rel : RelSessionIndex) (s : Session) (out : Bytes)
    (a : Action C) : Prop where
  slot : m.sessions.get rel = .full s
  fresh : s.replayFilter.contains (s.tagFor C packet) = false
  peels : peel C zeroPacket packet (s.secretFor C packet) = .ok (out, .ok a)
  first : rel = .prev → ∀ s', m.sessions.current = .full s' →
    s'.replayFilter.contains (s'.tagFor C packet) = false ∧
    peel C zeroPacket packet (s'.secretFor C packet) = .ok (zeroPacket, .error .mac)
  size : out.length = PACKET_SIZE

/-- The session with an index, if its mixnodes are known and it is not disabled. -/
def Node.sessionAt (m : Node) (i : Nat) : Option Session :=
  if i = m.sessionStatus.currentIndex then m.sessions.current.asOption
  else if i + 1 = m.sessionStatus.currentIndex then m.sessions.prev.asOption
  else none

/-- A history during all of which the session with index `i` exists. -/
inductive Node.Keeps (C : Crypto) (i : Nat) : Node → List Call → List Outcome → Node → Prop
  | nil {m} : (m.sessionAt i).isSome → Keeps C i m [] [] m
  | cons {m call m' out calls outs m''} : (m.sessionAt i).isSome → m.step C call = .ok (m', out) →
      Keeps C i m' calls outs m'' → Keeps C i m (call :: calls) (out :: outs) m''

namespace Spec

/-- Handling `packet` at time `now` puts `p` into the queue of packets to be forwarded: one of the sessions,
of which the local node is a mixnode, peels the packet, not seen before, to a forward action with a
known target, and there is room. `p` is the peeled packet, addressed to the peer of the target, due after
the forwarding delay. -/
def Forwards (C : Crypto) (m : Node) (now : Nat) (packet : Bytes) (p : ForwardPacket) : Prop :=
  ∃ rel s out target delay peer, Accepts C m packet rel s out (.forwardTo target delay) ∧
    s.topology.isMixnode = true ∧
    m.forwardPacketQueue.queue.length < m.config.forwardPacketQueueCapacity ∧
    peerOf s.topology target = some peer ∧
    p = ⟨now + C.delayToDuration delay m.config.meanForwardingDelay, ⟨peer, out⟩⟩

/-- The packets that entered (`arrived`) and left (`left`) the forward packet queue during a history. A
packet that left is noted with the deadline announced by `next_forward_packet_deadline` just before. -/
inductive ForwardLog (C : Crypto) :
    Node → List Call → List Outcome → Node → List ForwardPacket → List ForwardPacket → Prop
  | nil m : ForwardLog C m [] [] m [] []
  | arrive {m now packet m' out calls outs m'' p arrived left} : Forwards C m now packet p →
      m.step C (.handlePacket now packet) = .ok (m', out) → ForwardLog C m' calls outs m'' arrived left →
      ForwardLog C m (.handlePacket now packet :: calls) (out :: outs) m'' (p :: arrived) left
  | leave {m tie m' p calls outs m'' d arrived left} : m.nextForwardPacketDeadline = some d →
      m.step C (.popNextForwardPacket tie) = .ok (m', .forwardPacket (some p)) →
      ForwardLog C m' calls outs m'' arrived left →
      ForwardLog C m (.popNextForwardPacket tie :: calls) (.forwardPacket (some p) :: outs) m''
        arrived (⟨d, p⟩ :: left)
  | other {m call m' out calls outs m'' arrived left} :
      (∀ now packet p, call = .handlePacket now packet → ¬ Forwards C m now packet p) →
      (∀ p, out ≠ .forwardPacket (some p)) → m.step C call = .ok (m', out) →
      ForwardLog C m' calls outs m'' arrived left → ForwardLog C m (call :: calls) (out :: outs) m'' arrived left

/-- The call is not a request posted for session `i`, nor a reply for session `i` that was posted at least
in part. -/
def NotPosted (i : Nat) : Call → Outcome → Prop
  | .postRequest _ j _ _ _ _ _, .posted _ (.ok _) => j ≠ i
  | .postReply surbs j _ _, .replied surbs' r => j ≠ i ∨ (surbs' = surbs ∧ ∃ e, r = .error e)
  | _, _ => True

/-- What a call puts into (`added`) and takes out of (`sent`) the queue of authored packets of session `i`,
as far as its arguments and outcome tell: a request or reply posted for the session adds one packet per
fragment (a reply that fails half-way may add fewer); a packet taken out is handed to the caller. -/
inductive AuthoredStep (i : Nat) : Call → Outcome → List AddressedPacket → List AddressedPacket → Prop
  | request {rng d mid data n ns d' met bps added} : fragmentBlueprints mid data n = .ok (some bps) →
      added.length = bps.length → AuthoredStep i (.postRequest rng i d mid data n ns) (.posted d' (.ok met)) added []
  | reply {surbs mid data surbs' bps added} : fragmentBlueprints mid data 0 = .ok (some bps) →
      added.length = bps.length → surbs.length = surbs'.length + added.length →
      AuthoredStep i (.postReply surbs i mid data) (.replied surbs' (.ok ())) added []
  | replyFailed {surbs mid data surbs' bps added e} : fragmentBlueprints mid data 0 = .ok (some bps) →
      added.length < bps.length → surbs.length = surbs'.length + added.length + 1 →
      AuthoredStep i (.postReply surbs i mid data) (.replied surbs' (.error e)) added []
  | send {rng ns p} : AuthoredStep i (.popNextAuthoredPacket rng ns) (.authoredPacket (some p)) [] [p]
  | nothing {call out} : NotPosted i call out → AuthoredStep i call out [] []

/-- A history with what is put into and taken out of the queue of session `i`. -/
inductive AuthoredLog (i : Nat) :
    List Call → List Outcome → List AddressedPacket → List AddressedPacket → Prop
  | nil : AuthoredLog i [] [] [] []
  | cons {call out calls outs a s added sent} : AuthoredStep i call out a s → AuthoredLog i calls outs added sent →
      AuthoredLog i (call :: calls) (out :: outs) (a ++ added) (s ++ sent)

/-- A message of `n` packets may enter a queue that has `len` packets. -/
def Admits (c : AuthoredPacketQueueConfig) (len n : Nat) : Prop :=
  n ≤ c.capacity ∧ (len = 0 ∨ (c.multipleMessages = true ∧ len + n ≤ c.capacity))

end Spec
end Mixnet
