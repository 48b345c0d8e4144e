import Verif.Spec.Together
/-!
# Requests waiting in a request manager

The documentation of the request manager asks its user to call `update_session_status` after
`Mixnet::set_session_status`, and `process_post_queues` when the event `SPACE_IN_AUTHORED_PACKET_QUEUE` fires.
-/
namespace Mixnet.Spec
variable {R Ctx : Type}

/-- The answer tells of the event `SPACE_IN_AUTHORED_PACKET_QUEUE`. -/
def tellsOfSpace : Outcome → Bool
  | .events e => e.spaceInAuthoredPacketQueue
  | _ => false

/-- The call is `process_post_queues`. -/
def processes : ManagerCall R → Bool
  | .processPostQueues => true
  | _ => false

/-- A manager and a node after some history in which both are created and then used, in any order: any calls of the
node, and any calls of the manager with that node; but after a change of the session status the manager is told of
it before the next change. The boolean says that the user has been told of space in a queue of the node and has
not called `process_post_queues` since. -/
inductive Attended (C : Crypto) (T : RequestTrait R Ctx) (config : Config) (mc : RequestManagerConfig) :
    RequestManager R → Node → Bool → Prop
  | start {now n} : Node.new C config = .ok n → Attended C T config mc (RequestManager.new mc now) n false
  | node {m n told call n' out} : Attended C T config mc m n told → call.WellTyped →
      (∀ st, call ≠ .setSessionStatus st) → n.step C call = .ok (n', out) →
      Attended C T config mc m n' (told || tellsOfSpace out)
  | status {m n told st n' out} : Attended C T config mc m n told → m.sessionStatus = n.sessionStatus →
      n.step C (.setSessionStatus st) = .ok (n', out) → Attended C T config mc m n' told
  | manager {m n told env ns ctx call m' n' log out} : Attended C T config mc m n told →
      m.step C T n env ns ctx call = .ok (m', n', log, out) →
      Attended C T config mc m' n' (told && !processes call)

/-- The relative index of the session for which the requests in a queue of the manager wait. -/
def waitsFor (m : RequestManager R) (rel : Option RelSessionIndex) : RelSessionIndex :=
  rel.getD m.sessionStatus.phase.defaultRequestSession

/-- Some packets of the user are queued in session `i`. -/
def Busy (n : Node) (i : Nat) : Prop := ∃ s, n.sessionAt i = some s ∧ s.authoredPacketQueue.queue ≠ []

end Mixnet.Spec
