import Verif.Spec.Turns
import Verif.Spec.Odds
import Mathlib.Probability.Distributions.Uniform
/-!
# How long the queue of a node takes
-/
namespace Mixnet.Spec
open MeasureTheory ProbabilityTheory

/-- The calls that tell a node about sessions. -/
def AboutSessions : Call → Bool
  | .setSessionStatus .. | .maybeSetMixnodes .. => true
  | _ => false

/-- The draws with which packets are asked for in a history (`pop_next_authored_packet`), in order. -/
def popDraws (calls : List Call) : List Rng :=
  calls.filterMap fun
    | .popNextAuthoredPacket rng _ => some rng
    | _ => none

/-- With the draws `rngs`, all packets that are in the queue of session `i` of node `m` are sent by the `n`-th opportunity:
whatever else happens, as long as the sessions remain. -/
def SentAfter (C : Crypto) (m : Node) (i : Nat) (rngs : ℕ → Rng) (n : ℕ) : Prop :=
  ∀ calls outs m' s, (∀ c ∈ calls, c.WellTyped) → (∀ c ∈ calls, AboutSessions c = false) → Node.Runs C m calls outs m' →
    popDraws calls = (List.range n).map rngs → m.sessionAt i = some s →
    ∀ p ∈ s.authoredPacketQueue.queue, Outcome.authoredPacket (some p) ∈ outs

/-- A draw of 64 random bits. -/
noncomputable def uniform64 : Measure ℕ := (PMF.uniformOfFinset (Finset.range (2 ^ 64))
  (Finset.nonempty_range_iff.2 (by norm_num))).toMeasure

/-- The randomness of a node that sends packets: for each opportunity an exponential sample with mean 1, `x`, which determines
the wait before it (`next_authored_packet_delay`), and random numbers (`pop_next_authored_packet`) of which the
first two matter here. All are independent. -/
structure RandomDraws {Ω : Type*} [MeasurableSpace Ω] (P : Measure Ω) (x : ℕ → Ω → ℝ) (rngs : ℕ → Ω → Rng) : Prop where
  measurable : ∀ k, Measurable fun ω => (x k ω, rngs k ω 0, rngs k ω 1)
  independent : iIndepFun (fun k ω => (x k ω, rngs k ω 0, rngs k ω 1)) P
  law : ∀ k, P.map (fun ω => (x k ω, rngs k ω 0, rngs k ω 1)) = (expMeasure 1).prod (uniform64.prod uniform64)

end Mixnet.Spec
