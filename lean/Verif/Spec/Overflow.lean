import Verif.Spec.Deadline
import Verif.Model.Overflow
/-!
# Configurations with moderate times
-/
namespace Mixnet.Spec

/-- 136 years, in nanoseconds. -/
def ages : Nat := 2 ^ 32 * 10 ^ 9

/-- A configuration in which no time is more than 136 years, no queue of authored packets has room for more than a million
packets, and at least one packet in a hundred is not loop cover. -/
structure Moderate (config : Config) : Prop where
  hops : config.numHops ≤ 6
  loops : 0 ≤ config.loopCoverProportion ∧ config.loopCoverProportion ≤ 99 / 100
  mixnodePeriod : 1 ≤ config.mixnodeSession.meanAuthoredPacketPeriod ∧ config.mixnodeSession.meanAuthoredPacketPeriod ≤ ages
  mixnodeQueue : config.mixnodeSession.authoredPacketQueue.capacity ≤ 10 ^ 6
  clientPeriod : ∀ sc, config.nonMixnodeSession = some sc →
    1 ≤ sc.meanAuthoredPacketPeriod ∧ sc.meanAuthoredPacketPeriod ≤ ages
  clientQueue : ∀ sc, config.nonMixnodeSession = some sc → sc.authoredPacketQueue.capacity ≤ 10 ^ 6
  forwarding : config.meanForwardingDelay ≤ ages
  net : config.perHopNetDelay ≤ ages

/-- A clock that shows at most `2^61` seconds. -/
def clockLimit : Nat := 2 ^ 61 * 10 ^ 9

end Mixnet.Spec
