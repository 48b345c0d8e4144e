import Verif.Spec.Waiting
/-!
# Requests waiting in a request manager: when they must be tried
-/
namespace Mixnet.Spec
variable {R Ctx : Type}

/-- A call of a method of a request manager: the manager before the call, the node it was given, what it did and what it
returned. -/
structure Round (R : Type) where
  before : RequestManager R
  node : Node
  call : ManagerCall R
  log : List (LogEntry R)
  out : ManagerOutcome R

/-- A history of calls of a manager. Between the calls, anything may happen to the node. -/
inductive Rounds (C : Crypto) (T : RequestTrait R Ctx) : RequestManager R → List (Round R) → RequestManager R → Prop
  | nil (m) : Rounds C T m [] m
  | cons {m n env ns ctx call m1 n1 log out rs m'} : m.step C T n env ns ctx call = .ok (m1, n1, log, out) →
      Rounds C T m1 rs m' → Rounds C T m (⟨m, n, call, log, out⟩ :: rs) m'

/-- The requests in the queue get a chance: `process_post_queues` is called when all packets of the user in the session
for which they wait have been sent. For the queues of requests bound to a session, moreover, no request in the default
queue, which is processed first, waits for the same session. -/
def Round.Chance (r : Round R) (rel : Option RelSessionIndex) : Prop :=
  r.call = .processPostQueues ∧
    (∃ i, (waitsFor r.before rel).add r.before.sessionStatus.currentIndex = .ok i ∧ ¬ Busy r.node i) ∧
    (rel ≠ none → waitsFor r.before none = waitsFor r.before rel → r.before.postQueues.default = [])

/-- The request waiting with the state `s` was tried: it was posted, or refused for another reason than lack of space. -/
def TriedIn (s : RequestState R) (log : List (LogEntry R)) : Prop :=
  ∃ i d res, .post s.request i s.destinationIndex s.messageId d res ∈ log ∧ res ≠ .error .notEnoughSpaceInQueue

/-- The request waiting with the state `s` has left its queue: it was tried, or removed. -/
def Round.Frees (r : Round R) (s : RequestState R) : Prop :=
  TriedIn s r.log ∨ (r.call = .remove s.messageId ∧ r.out = .removed (some s.request))

end Mixnet.Spec
