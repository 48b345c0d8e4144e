import Verif.Spec.Node
import Verif.Spec.Randomness
/-!
# When the crate should not panic
-/
namespace Mixnet.Spec

/-- A configuration within the documented limits, with non-zero packet periods, and with some packets left
that are not loop cover traffic. -/
structure Sane (c : Config) : Prop where
  hops : c.numHops ≤ 6
  keystore : 1 ≤ c.surbKeystoreCapacity
  loops : 0 ≤ c.loopCoverProportion ∧ c.loopCoverProportion < 1
  mixnodePeriod : 1 ≤ c.mixnodeSession.meanAuthoredPacketPeriod
  clientPeriod : ∀ sc, c.nonMixnodeSession = some sc → 1 ≤ sc.meanAuthoredPacketPeriod

/-- If the call posts a request to a given mixnode, the session has a mixnode with that index. -/
def DestinationExists (m : Node) : Call → Prop
  | .postRequest _ i (some d) _ _ _ _ => ∀ s, m.sessionAt i = some s → d < s.topology.mixnodes.length
  | _ => True

/-- The panic of `/repo/src/core/surb_keystore.rs:82-85`: a random SURB ID of 16 bytes is that of a SURB still
waiting for its reply. -/
def surbIdRepeated : Panic :=
  ⟨"Randomly generated SURB ID matches an existing SURB ID; something wrong with RNG?"⟩

/-- The random numbers could be to blame: 16 bytes of them are the ID of a SURB of the node still waiting for its reply,
or come twice at places that do not overlap. -/
def IdRepeats (m : Node) (rng : Rng) : Prop :=
  ∃ b, (∃ v, m.surbKeystore.entry (bytesAt rng b 16) = some v) ∨
    ∃ a, a + 16 ≤ b ∧ bytesAt rng a 16 = bytesAt rng b 16

end Mixnet.Spec
