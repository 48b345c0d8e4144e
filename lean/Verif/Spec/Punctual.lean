import Verif.Spec.RequestManager
/-!
# Retries popped when due

The documentation of the request manager asks its user to call `pop_next_retry` when the time `next_retry_deadline` returns has come.
-/
namespace Mixnet.Spec
variable {R Ctx : Type}

/-- As `RequestManager.Runs`, before the time `t`: every call happens at some time before `t`, and a retry is popped only if the deadline
which `next_retry_deadline` returns has passed. -/
inductive Punctual (C : Crypto) (T : RequestTrait R Ctx) (t : Nat) : RequestManager R → List (ManagerCall R) →
    List (ManagerOutcome R) → List (LogEntry R) → RequestManager R → Prop
  | nil (m) : Punctual C T t m [] [] [] m
  | cons {m call now mixnet env ns ctx m' mixnet' log out calls outs logs m''} : now < t →
      (call = .popNextRetry → ∃ deadline, m.nextRetryDeadline = some deadline ∧ deadline ≤ now) →
      m.step C T mixnet env ns ctx call = .ok (m', mixnet', log, out) →
      Punctual C T t m' calls outs logs m'' →
      Punctual C T t m (call :: calls) (out :: outs) (log ++ logs) m''

/-- The manager made no attempt to post a message with this id. -/
def Unposted (id : MessageId) (log : List (LogEntry R)) : Prop :=
  ∀ request session destination destination' result, LogEntry.post request session destination id destination' result ∉ log

end Mixnet.Spec
