import Verif.Spec.Deadline
import Verif.Spec.Wire
import Mathlib.Probability.Distributions.Exponential
import Mathlib.MeasureTheory.Constructions.Pi
/-!
# The order in which a relay sends packets on

Two packets arrive at a relay, one after the other. The times for which it holds them are random; which will leave first?
-/
namespace Mixnet.Spec
open MeasureTheory ProbabilityTheory

/-- The primitives with another source of exponential samples. -/
def sampledBy (C : Crypto) (sample : Bytes → C.Delay) : Crypto := { C with expSample := sample }

/-- Handling `packet` at time `now` puts `p` into the queue of packets to be forwarded, and `seed` is the seed of its delay: bytes
48..64 of the 64 bytes derived from the secret shared with the sender. -/
def ForwardsWith (C : Crypto) (m : Node) (now : Nat) (packet seed : Bytes) (p : ForwardPacket) : Prop :=
  Forwards C m now packet p ∧ ∀ rel s out a, Accepts C m packet rel s out a →
    seed = ((C.deriveSecret 1 (s.secretFor C packet) .smallDerivedSecrets).drop 48).take 16

/-- Two packets that a relay is to forward: where and when they arrived, and with which seeds. -/
structure TwoPackets where
  config : Config
  now₁ : Nat
  packet₁ : Bytes
  seed₁ : Bytes
  now₂ : Nat
  packet₂ : Bytes
  seed₂ : Bytes

namespace TwoPackets
variable (C : Crypto) (t : TwoPackets)

/-- The relay is `m`, right after the second packet has arrived: in some reachable state it handled the first packet, and put
`p₁` into its queue; then there were any calls; then it handled the second packet, and put `p₂` into its queue. -/
def Arrived (m : Node) (p₁ p₂ : ForwardPacket) : Prop :=
  ∃ m0 out1 m1 calls outs m2 out2, Node.Reachable C t.config m0 ∧ ForwardsWith C m0 t.now₁ t.packet₁ t.seed₁ p₁ ∧
    m0.step C (.handlePacket t.now₁ t.packet₁) = .ok (m1, out1) ∧ (∀ c ∈ calls, c.WellTyped) ∧ Node.Runs C m1 calls outs m2 ∧
    ForwardsWith C m2 t.now₂ t.packet₂ t.seed₂ p₂ ∧ m2.step C (.handlePacket t.now₂ t.packet₂) = .ok (m, out2)

/-- In whatever happens after `m`, the packet `p` leaves before `q`. -/
def Before (m : Node) (p q : ForwardPacket) : Prop :=
  ∀ calls outs m' arrived left, (∀ c ∈ calls, c.WellTyped) → ForwardLog C m calls outs m' arrived left →
    ∀ a b, left = a ++ q :: b → p ∈ a

/-- When the second packet arrives, the first is due. -/
def FirstDue : Prop := ∀ m p₁ p₂, t.Arrived C m p₁ p₂ → p₁.deadline ≤ t.now₂

/-- When the second packet arrives, the first is not yet due, and if it is indeed still in the queue, it leaves before the second. -/
def InOrder : Prop := ∀ m p₁ p₂, t.Arrived C m p₁ p₂ →
  t.now₂ < p₁.deadline ∧ (p₁ ∈ m.forwardPacketQueue.queue → Before C m p₁ p₂)

/-- When the second packet arrives, the first is not yet due, and if it leaves later on, then after the second. -/
def Overtaken : Prop := ∀ m p₁ p₂, t.Arrived C m p₁ p₂ → t.now₂ < p₁.deadline ∧ Before C m p₂ p₁

end TwoPackets

/-- The generators seeded with the two seeds (each written twice) yield independent samples of the exponential distribution with
mean 1, up to the precision of `f64`. -/
structure RandomSamples {Ω : Type*} [MeasurableSpace Ω] (P : Measure Ω) {C : Crypto} (F : F64Delays C)
    (sample : Ω → Bytes → C.Delay) (seed₁ seed₂ : Bytes) (x : Ω → ℝ × ℝ) : Prop where
  measurable : Measurable x
  law : P.map x = (expMeasure 1).prod (expMeasure 1)
  near₁ : ∀ ω, 0 ≤ (x ω).1 → |(F.value (sample ω (seed₁ ++ seed₁)) : ℝ) - (x ω).1| ≤ (x ω).1 / 2 ^ 52
  near₂ : ∀ ω, 0 ≤ (x ω).2 → |(F.value (sample ω (seed₂ ++ seed₂)) : ℝ) - (x ω).2| ≤ (x ω).2 / 2 ^ 52

/-! ### Many packets -/

/-- A packet that arrived: when, and with which seed. -/
structure Arrival where
  now : Nat
  packet : Bytes
  seed : Bytes

/-- A history of a relay in which these packets, and possibly others, arrived (the last one first in the list). The relay put the
packets `ps` into its queue for them. -/
inductive ArrivedAll (C : Crypto) (config : Config) : List Arrival → Node → List ForwardPacket → Prop
  | start {m} : Node.Reachable C config m → ArrivedAll C config [] m []
  | arrive {as m ps a p m' out} : ArrivedAll C config as m ps → ForwardsWith C m a.now a.packet a.seed p →
      m.step C (.handlePacket a.now a.packet) = .ok (m', out) → ArrivedAll C config (a :: as) m' (p :: ps)
  | other {as m ps calls outs m'} : ArrivedAll C config as m ps → (∀ c ∈ calls, c.WellTyped) → Node.Runs C m calls outs m' →
      ArrivedAll C config as m' ps

/-- At time `now`, after any such history, none of the packets is due; and number `i` of them, if it is indeed still in the queue,
leaves before the others. -/
def IsNext (C : Crypto) (config : Config) (as : List Arrival) (now i : Nat) : Prop :=
  ∀ m ps, ArrivedAll C config as m ps → (∀ p ∈ ps, now < p.deadline) ∧
    ∀ p, ps[i]? = some p → p ∈ m.forwardPacketQueue.queue → ∀ j q, j ≠ i → ps[j]? = some q → TwoPackets.Before C m p q

/-- The generators seeded with the seeds of the packets (each written twice) yield independent samples of the exponential
distribution with mean 1, up to the precision of `f64`. -/
structure ManySamples {Ω : Type*} [MeasurableSpace Ω] (P : Measure Ω) {C : Crypto} (F : F64Delays C)
    (sample : Ω → Bytes → C.Delay) (as : List Arrival) (x : Ω → Fin as.length → ℝ) : Prop where
  measurable : Measurable x
  law : P.map x = Measure.pi fun _ => expMeasure 1
  near : ∀ ω j, 0 ≤ x ω j → |(F.value (sample ω (as[j].seed ++ as[j].seed)) : ℝ) - x ω j| ≤ x ω j / 2 ^ 52

/-- `value` is a sample of the exponential distribution with mean 1, up to the precision of `f64`. -/
structure OneSample {Ω : Type*} [MeasurableSpace Ω] (P : Measure Ω) (value x : Ω → ℝ) : Prop where
  measurable : Measurable x
  law : P.map x = expMeasure 1
  near : ∀ ω, 0 ≤ x ω → |value ω - x ω| ≤ x ω / 2 ^ 52

end Mixnet.Spec
