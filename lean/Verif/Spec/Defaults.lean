import Verif.Spec.Panics
/-!
# Configurations whose parts go together
-/
namespace Mixnet.Spec

/-- Every message a node may send has room in the empty queue of a session of either kind. -/
def QueuesFit (c : Config) : Prop :=
  c.maxFragmentsPerMessage ≤ c.mixnodeSession.authoredPacketQueue.capacity ∧
  ∀ sc, c.nonMixnodeSession = some sc → c.maxFragmentsPerMessage ≤ sc.authoredPacketQueue.capacity

/-- A message of `len` bytes with `n` SURBs that a node may send. -/
def Sendable (c : Config) (len n : Nat) : Prop :=
  ∃ k, 1 ≤ k ∧ k ≤ c.maxFragmentsPerMessage ∧ k ≤ 65536 ∧ CanCarry k len n

/-- The default configuration, with the session keys and the number of gateways of the user. -/
def defaults (secret : Option KxSecret) (gateways : Nat) : Config :=
  { Config.default with session0KxSecret := secret, numGatewayMixnodes := gateways }

end Mixnet.Spec
