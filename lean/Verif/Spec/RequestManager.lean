import Verif.Model.RequestManager
/-!
# Vocabulary for the properties of a request manager

What a history of calls and its log say about requests.
-/
namespace Mixnet.Spec
variable {R : Type}

/-- The requests in the manager. -/
def managed (m : RequestManager R) : List R :=
  (m.postQueues.current ++ m.postQueues.prev ++ m.postQueues.default ++ m.retryQueue).map (·.request)

/-- The requests inserted by a history of calls. -/
def inserted (calls : List (ManagerCall R)) : List R :=
  calls.flatMap fun
    | .insert r => [r]
    | _ => []

/-- The requests handed back by `remove`. -/
def removed (outs : List (ManagerOutcome R)) : List R :=
  outs.flatMap fun
    | .removed (some r) => [r]
    | _ => []

/-- The requests given up because of an error. -/
def failed (log : List (LogEntry R)) : List R :=
  log.flatMap fun
    | .postErr r _ => [r]
    | _ => []

/-- The requests given up because the retry limit was reached. -/
def exhausted (log : List (LogEntry R)) : List R :=
  log.flatMap fun
    | .retryLimit r => [r]
    | _ => []

/-- The errors `post_request` returned other than for lack of space, with the requests that were to be posted. -/
def refusals (log : List (LogEntry R)) : List (R × PostErr) :=
  log.flatMap fun
    | .post _ _ _ _ _ (.error .notEnoughSpaceInQueue) => []
    | .post r _ _ _ _ (.error e) => [(r, e)]
    | _ => []

/-- The errors reported to `handle_post_err`, with the requests. -/
def errorsReported (log : List (LogEntry R)) : List (R × PostErr) :=
  log.flatMap fun
    | .postErr r e => [(r, e)]
    | _ => []

/-- The requests posted, as often as they were posted. -/
def posted (log : List (LogEntry R)) : List R :=
  log.flatMap fun
    | .post r _ _ _ _ (.ok _) => [r]
    | _ => []

/-- The message ids drawn. -/
def drawn (log : List (LogEntry R)) : List MessageId :=
  log.flatMap fun
    | .newId _ id => [id]
    | _ => []

/-- A successful post: the request, the session, the message id and the destination. -/
abbrev Sending (R : Type) := R × SessionIndex × MessageId × Option MixnodeIndex

/-- The successful posts. -/
def sendings (log : List (LogEntry R)) : List (Sending R) :=
  log.flatMap fun
    | .post r i _ id d (.ok _) => [(r, i, id, d)]
    | _ => []

/-- When the replies to the posts with a message id should have arrived, for each successful post. -/
def expected (id : MessageId) (log : List (LogEntry R)) : List Nat :=
  log.flatMap fun
    | .post _ _ _ id' _ (.ok e) => if id' = id then [e.now + e.metrics.estimateRtt e.handlingDelay] else []
    | _ => []

/-- Where requests wait agrees with what is known about them. -/
structure Bound (m : RequestManager R) : Prop where
  current : ∀ s ∈ m.postQueues.current, s.sessionIndex = some m.sessionStatus.currentIndex
  prev : ∀ s ∈ m.postQueues.prev, ∃ i, s.sessionIndex = some i ∧ i + 1 = m.sessionStatus.currentIndex
  default : ∀ s ∈ m.postQueues.default, s.sessionIndex = none
  retry : ∀ s ∈ m.retryQueue, s.sessionIndex ≠ none ∧ s.postsRemaining = 0
  destination : ∀ s ∈ m.postQueues.current ++ m.postQueues.prev ++ m.postQueues.default ++ m.retryQueue,
    (s.sessionIndex = none ↔ s.destinationIndex = none)
  currentAllowed : m.sessionStatus.phase.allowRequestsAndReplies .current = false → m.postQueues.current = []
  prevAllowed : m.sessionStatus.phase.allowRequestsAndReplies .prev = false → m.postQueues.prev = []

/-- A mixnet as left by calls of `post_request`. -/
inductive PostsFrom (C : Crypto) (mixnet : Node) : Node → Prop
  | refl : PostsFrom C mixnet mixnet
  | post {n n' : Node} {rng i d id data k ns d' res} : PostsFrom C mixnet n →
      n.postRequest C rng i d id data k ns = .ok (n', d', res) → PostsFrom C mixnet n'

/-- A panic in `post_request`, called for a request on the mixnet as left by earlier calls. -/
def FromMixnet {Ctx : Type} (C : Crypto) (T : RequestTrait R Ctx) (ns : NetworkStatus) (ctx : Ctx) (mixnet : Node)
    (p : Panic) : Prop :=
  ∃ n rng i d id r, PostsFrom C mixnet n ∧
    n.postRequest C rng i d id (T.data r ctx) (T.numSurbs r ctx) ns = .error p

/-- The state of a new manager after a history. -/
def Reached {Ctx : Type} (C : Crypto) (T : RequestTrait R Ctx) (config : RequestManagerConfig) (now : Nat)
    (calls : List (ManagerCall R)) (outs : List (ManagerOutcome R)) (log : List (LogEntry R))
    (m : RequestManager R) : Prop :=
  RequestManager.Runs C T (.new config now) calls outs log m

end Mixnet.Spec
