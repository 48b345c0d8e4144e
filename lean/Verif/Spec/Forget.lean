import Verif.Model.Api
/-!
# What a node forgets
-/
namespace Mixnet.Spec

/-- The nodes are the same but for what they hold for the sessions whose index satisfies `P`: key pairs, mixnodes,
queued packets, replay filters. -/
structure SameBut (P : SessionIndex → Prop) (m₁ m₂ : Node) : Prop where
  config : m₁.config = m₂.config
  status : m₁.sessionStatus = m₂.sessionStatus
  current : P m₁.sessionStatus.currentIndex ∨ m₁.sessions.current = m₂.sessions.current
  previous : (∃ i, i + 1 = m₁.sessionStatus.currentIndex ∧ P i) ∨ m₁.sessions.prev = m₂.sessions.prev
  next : P (m₁.sessionStatus.currentIndex + 1) ∨ m₁.nextKxPair = m₂.nextKxPair
  forward : m₁.forwardPacketQueue = m₂.forwardPacketQueue
  surbs : m₁.surbKeystore = m₂.surbKeystore
  fragments : m₁.fragmentAssembler = m₂.fragmentAssembler
  events : m₁.events = m₂.events

/-- Session `i` is kept when the session status changes: the index goes forward by at most two, and the session is
then the next, the current, or the previous one while it is still needed. -/
def Keeps (old new : SessionStatus) (i : SessionIndex) : Prop :=
  old.currentIndex ≤ new.currentIndex ∧ new.currentIndex ≤ old.currentIndex + 2 ∧
  (i = new.currentIndex + 1 ∨ i = new.currentIndex ∨ (i + 1 = new.currentIndex ∧ new.phase ≠ .disconnectFromPrev))

end Mixnet.Spec
