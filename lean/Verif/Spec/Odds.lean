import Mathlib.Probability.Distributions.Exponential
import Mathlib.Probability.Independence.Basic
/-!
# A queue emptied at random opportunities

A sender waits, gets an opportunity to send, waits again, and so on. At each opportunity it may or may not be the
turn of the queue we are looking at. `z k` has what was drawn for the wait before opportunity `k`, and whether it
was the queue's turn.
-/
namespace Mixnet.Spec
open MeasureTheory ProbabilityTheory

/-- The time of the `n`-th opportunity: `n` waits, each a multiple of `mean`, capped at ten times it. -/
noncomputable def clock (mean : ℝ) (x : ℕ → ℝ) (n : ℕ) : ℝ :=
  ∑ k ∈ Finset.range n, mean * min (x k) 10

/-- How many of the first `n` opportunities were turns of the queue. -/
def turnCount (z : ℕ → ℝ × Bool) (n : ℕ) : ℕ :=
  ((Finset.range n).filter fun k => (z k).2 = true).card

/-- Two queues are emptied one after the other, the second one starting when the first one is empty, by time `t`. -/
def BothEmptyBy (mean₁ : ℝ) (z₁ : ℕ → ℝ × Bool) (len₁ : ℕ) (mean₂ : ℝ) (z₂ : ℕ → ℝ × Bool) (len₂ : ℕ) (t : ℝ) : Prop :=
  ∃ n₁ n₂, len₁ ≤ turnCount z₁ n₁ ∧ len₂ ≤ turnCount z₂ n₂ ∧
    clock mean₁ (fun k => (z₁ k).1) n₁ + clock mean₂ (fun k => (z₂ k).1) n₂ ≤ t

/-- The draws are independent from one opportunity to the next and of each other; those for the waits are
exponentially distributed with mean 1, and each opportunity is a turn of the queue with probability at least
`share`. -/
structure RandomTurns {Ω : Type*} [MeasurableSpace Ω] (P : Measure Ω) (share : ℝ) (z : ℕ → Ω → ℝ × Bool) : Prop where
  measurable : ∀ k, Measurable (z k)
  independent : iIndepFun z P
  law : ∀ k, ∃ β : Measure Bool, IsProbabilityMeasure β ∧ ENNReal.ofReal share ≤ β {true} ∧
    P.map (z k) = (expMeasure 1).prod β

end Mixnet.Spec
