import Verif.Spec.Panics
import Verif.Spec.RequestManager
import Verif.Spec.ReplyManager
/-!
# A request manager, or a reply manager, used with a node
-/
namespace Mixnet.Spec
variable {R Ctx : Type}

/-- The call does not take the node back to an earlier session. -/
def Onward (n : Node) : Call → Prop
  | .setSessionStatus st => n.sessionStatus.currentIndex ≤ st.currentIndex
  | _ => True

/-- A manager and a node after some history in which both are created and then used, in any order: any calls of
the node, session indices never decreasing, and any calls of the manager with that node. -/
inductive InUse (C : Crypto) (T : RequestTrait R Ctx) (config : Config) (mc : RequestManagerConfig) :
    RequestManager R → Node → Prop
  | start {now n} : Node.new C config = .ok n → InUse C T config mc (RequestManager.new mc now) n
  | node {m n call n' out} : InUse C T config mc m n → call.WellTyped → Onward n call →
      n.step C call = .ok (n', out) → InUse C T config mc m n'
  | manager {m n env ns ctx call m' n' log out} : InUse C T config mc m n → ns.localPeerId.length = PEER_ID_SIZE →
      m.step C T n env ns ctx call = .ok (m', n', log, out) → InUse C T config mc m' n'

/-- The SURBs in the arguments of a call of a reply manager have the size of a SURB (in Rust, by their type). -/
def ReplyCall.WellTyped : ReplyCall → Prop
  | .insert message => ∀ s ∈ message.surbs, s.length = SURB_SIZE
  | .abandon _ => True
  | .complete ctx _ => ∀ s ∈ ctx.surbs, s.length = SURB_SIZE

/-- A reply manager and a node after some history in which both are created and then used, in any order: any calls of
the node, and any calls of the manager with that node. -/
inductive ReplyInUse (C : Crypto) (config : Config) (rc : ReplyManagerConfig) : ReplyManager → Node → Prop
  | start {n} : Node.new C config = .ok n → ReplyInUse C config rc (ReplyManager.new rc) n
  | node {m n call n' out} : ReplyInUse C config rc m n → call.WellTyped → n.step C call = .ok (n', out) →
      ReplyInUse C config rc m n'
  | manager {m n rng now call m' n' log out} : ReplyInUse C config rc m n → ReplyCall.WellTyped call →
      m.step C n rng now call = .ok (m', n', log, out) → ReplyInUse C config rc m' n'

end Mixnet.Spec
