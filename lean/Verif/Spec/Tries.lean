import Verif.Spec.RequestManager
/-!
# How often and where a request is tried

The number of times a history changes the session status, and the attempts made for a request.
-/
namespace Mixnet.Spec
variable {R : Type}

/-- As `RequestManager.Runs`, counting the calls in which the manager learns of a new session status. -/
inductive RunsChanging {Ctx : Type} (C : Crypto) (T : RequestTrait R Ctx) : RequestManager R → List (ManagerCall R) →
    List (ManagerOutcome R) → List (LogEntry R) → Nat → RequestManager R → Prop
  | nil (m) : RunsChanging C T m [] [] [] 0 m
  | same {m call mixnet env ns ctx m' mixnet' log out calls outs logs k m''} :
      m.step C T mixnet env ns ctx call = .ok (m', mixnet', log, out) → m'.sessionStatus = m.sessionStatus →
      RunsChanging C T m' calls outs logs k m'' →
      RunsChanging C T m (call :: calls) (out :: outs) (log ++ logs) k m''
  | change {m call mixnet env ns ctx m' mixnet' log out calls outs logs k m''} :
      m.step C T mixnet env ns ctx call = .ok (m', mixnet', log, out) → m'.sessionStatus ≠ m.sessionStatus →
      RunsChanging C T m' calls outs logs k m'' →
      RunsChanging C T m (call :: calls) (out :: outs) (log ++ logs) (k + 1) m''

/-- How often a message with this id was posted. -/
def postsWith (id : MessageId) (log : List (LogEntry R)) : Nat :=
  ((sendings log).filter fun x => x.2.2.1 = id).length

/-- A message with this id was posted for the request. -/
def TriedWith (r : R) (id : MessageId) (log : List (LogEntry R)) : Prop := ∃ i d, (r, i, id, d) ∈ sendings log

/-- The request was posted to this destination in this session. -/
def TriedAt (r : R) (i : SessionIndex) (d : MixnodeIndex) (log : List (LogEntry R)) : Prop :=
  ∃ id, (r, i, id, some d) ∈ sendings log

end Mixnet.Spec
