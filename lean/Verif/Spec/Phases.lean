import Verif.Spec.Node
/-!
# The stages a node goes through
-/
namespace Mixnet.Spec

/-- The phases in order. -/
def phaseNumber : SessionPhase → Nat
  | .coverToCurrent => 0
  | .requestsToCurrent => 1
  | .coverToPrev => 2
  | .disconnectFromPrev => 3

/-- How many phases have passed since session 0 began: each session has four. -/
def stage (m : Node) : Nat := 4 * m.sessionStatus.currentIndex + phaseNumber m.sessionStatus.phase

/-- `m'` comes after `m` in the life of a node that never goes back to an earlier stage. -/
inductive MovesOn (C : Crypto) : Node → Node → Prop
  | refl m : MovesOn C m m
  | step {m m' m'' call out} : MovesOn C m m' → call.WellTyped → m'.step C call = .ok (m'', out) →
      stage m' ≤ stage m'' → MovesOn C m m''

/-- The node sends a request or reply packet in session `i`: a packet is due, and the first one queued in that session is
what is sent. -/
def SendsIn (C : Crypto) (m : Node) (i : SessionIndex) : Prop :=
  ∃ rng ns m' p s s', ns.localPeerId.length = PEER_ID_SIZE ∧
    m.step C (.popNextAuthoredPacket rng ns) = .ok (m', .authoredPacket (some p)) ∧
    m.sessionAt i = some s ∧ m'.sessionAt i = some s' ∧
    s.authoredPacketQueue.queue = p :: s'.authoredPacketQueue.queue

/-- The node takes a request or a reply to be sent in session `i`. -/
def PostsIn (C : Crypto) (m : Node) (i : SessionIndex) : Prop :=
  (∃ rng d mid data n ns m' d' met, (Call.postRequest rng i d mid data n ns).WellTyped ∧
    m.step C (.postRequest rng i d mid data n ns) = .ok (m', .posted d' (.ok met))) ∨
  (∃ surbs mid data m' surbs', (Call.postReply surbs i mid data).WellTyped ∧
    m.step C (.postReply surbs i mid data) = .ok (m', .replied surbs' (.ok ())))

end Mixnet.Spec
