import Verif.Spec.Deadline
/-!
# A manager tended by its user

The documentation of the request manager asks its user to call `pop_next_retry` when the time `next_retry_deadline` returns has come.
-/
namespace Mixnet.Spec
variable {R Ctx : Type}

/-- The request is not waiting for a post, for lack of space or of a session. -/
def NotQueued (r : R) (m : RequestManager R) : Prop :=
  ∀ s ∈ m.postQueues.current ++ m.postQueues.prev ++ m.postQueues.default, s.request ≠ r

/-- At time `τ`, no retry is overdue by more than `δ`. -/
def InTime (δ τ : Nat) (m : RequestManager R) : Prop := ∀ deadline, m.nextRetryDeadline = some deadline → τ ≤ deadline + δ

/-- A manager and a node after some history as in `InUse` in which nothing was posted after time `t`, and then a stretch up to time `τ` in
which the request `r` is not inserted (again), retries are popped at most `δ` after the time the manager tells, and there is always
room for the posts of the request. Anything else may happen. -/
inductive Tended (C : Crypto) (T : RequestTrait R Ctx) (config : Config) (mc : RequestManagerConfig) (δ : Nat) (r : R) (t : Nat) :
    Nat → RequestManager R → Node → Prop
  | start {m n} : UsedUntil C T config mc t m n → NotQueued r m → Tended C T config mc δ r t t m n
  | node {τ m n call n' out} : Tended C T config mc δ r t τ m n → call.WellTyped → Onward n call →
      n.step C call = .ok (n', out) → Tended C T config mc δ r t τ m n'
  | manager {τ τ' m n env ns ctx call m' n' log out} : Tended C T config mc δ r t τ m n → τ ≤ τ' → InTime δ τ' m →
      ns.localPeerId.length = PEER_ID_SIZE → call ≠ .insert r →
      m.step C T n env ns ctx call = .ok (m', n', log, out) →
      (∀ r i d id d' est, .post r i d id d' (.ok est) ∈ log → est.now ≤ τ') → NotQueued r m' →
      Tended C T config mc δ r t τ' m' n'

/-- The time a request stays: as often as it may be tried, a round trip and the time the user is late. -/
def stay (config : Config) (mc : RequestManagerConfig) (H δ : Nat) : Nat :=
  mc.numDestinations * mc.numAttemptsPerDestination * (roundTripLimit config H + δ)

end Mixnet.Spec
