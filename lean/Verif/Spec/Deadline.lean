import Verif.Spec.Together
import Verif.Model.QueueDelayF64
/-!
# How late a retry can be due

The limits are in nanoseconds and depend on the configuration of the node only.
-/
namespace Mixnet.Spec
variable {R Ctx : Type}

/-- Delays are `f64` numbers and the queue delay is the estimate computed with `f64`. `value d` is the number. -/
structure F64Delays (C : Crypto) where
  value : C.Delay → Rat
  zero : value C.delayZero = 0
  ten : value C.delayTen = 10
  add : ∀ a b, value (C.delayAdd a b) = Binary64.round (value a + value b)
  le : ∀ a b, C.delayLe a b = true ↔ value a ≤ value b
  duration : ∀ d unit, C.delayToDuration d unit = Binary64.mulDuration (value d) unit
  queue : C.queueDelayEstimate = Binary64.queueDelay

/-- The largest number of hops from a node to a mixnode, or back: as configured, but a node that is not a mixnode needs a gateway
and the destination. -/
def mostHops (config : Config) : Nat := max config.numHops 2

/-- The longest time in the queues of relays, there and back: ten times the mean at each hop but the last. The delays are added up
as `f64`, so a nanosecond more. -/
def forwardingLimit (config : Config) : Nat := 2 * (mostHops config - 1) * 10 * config.meanForwardingDelay + 1

/-- The estimate for a node with a full queue, in a session with this configuration. -/
def fullQueueDelay (config : Config) (sc : SessionConfig) : Nat :=
  Binary64.queueDelay config.loopCoverProportion sc.meanAuthoredPacketPeriod sc.authoredPacketQueue.capacity
    config.mixnodeSession.meanAuthoredPacketPeriod config.mixnodeSession.authoredPacketQueue.capacity

/-- The largest estimate of the time spent waiting in queues of authored packets. -/
def queueLimit (config : Config) : Nat :=
  max (fullQueueDelay config config.mixnodeSession)
    (match config.nonMixnodeSession with
      | some sc => fullQueueDelay config sc
      | none => 0)

/-- The longest round trip, if the destination takes at most `handling`. -/
def roundTripLimit (config : Config) (handling : Nat) : Nat :=
  forwardingLimit config + queueLimit config + 2 * mostHops config * config.perHopNetDelay + handling

/-- A manager and a node after some history as in `InUse`, in which the clock never shows more than `t` when the
manager is created or a request is posted. -/
inductive UsedUntil (C : Crypto) (T : RequestTrait R Ctx) (config : Config) (mc : RequestManagerConfig) (t : Nat) :
    RequestManager R → Node → Prop
  | start {now n} : now ≤ t → Node.new C config = .ok n → UsedUntil C T config mc t (RequestManager.new mc now) n
  | node {m n call n' out} : UsedUntil C T config mc t m n → call.WellTyped → Onward n call →
      n.step C call = .ok (n', out) → UsedUntil C T config mc t m n'
  | manager {m n env ns ctx call m' n' log out} : UsedUntil C T config mc t m n → ns.localPeerId.length = PEER_ID_SIZE →
      m.step C T n env ns ctx call = .ok (m', n', log, out) →
      (∀ r i d id d' est, .post r i d id d' (.ok est) ∈ log → est.now ≤ t) → UsedUntil C T config mc t m' n'

end Mixnet.Spec
