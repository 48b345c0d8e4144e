import Verif.Model.Mixnet
import Mathlib.Analysis.SpecialFunctions.Pow.NNReal
import Mathlib.Algebra.Order.Round
/-!
# The formula of `estimate_authored_packet_queue_delay`

The rest of the model leaves this `f64` formula open (`Crypto.queueDelayEstimate`). Here it is written over the real
numbers, without the rounding of `f64` and of the intermediate `Duration`s; only the final rounding to
nanoseconds (`Duration::mul_f64`) is kept.
-/
namespace Mixnet
noncomputable section

/-- The formula in the comment and the last line of `estimate_authored_packet_queue_delay`,
`/repo/src/core/mod.rs:214,231`: `s` is the larger period, `n` the corresponding length, `rs` the other period, `m` the other
length. -/
def sumPercentile (s : ℝ) (n m : ℕ) (rs : ℝ) : ℝ :=
  let r := rs / s
  s * (4.92582 + 3.87809 * √(n + r * r * r * m) + n + r * m)

/-- `estimate_authored_packet_queue_delay`, `/repo/src/core/mod.rs:187-232`, over the real numbers. Arguments: the loop
cover proportion, the request period and length, the reply period and length. -/
def queueDelayReal (loopCoverProportion : ℝ) (requestPeriod : ℝ) (requestLen : ℕ) (replyPeriod : ℝ) (replyLen : ℕ) : ℝ :=
  let rateMul := 0.5 * (1 - loopCoverProportion)
  let requestPeriod := requestPeriod / rateMul
  let replyPeriod := replyPeriod / rateMul
  if requestPeriod > replyPeriod then sumPercentile requestPeriod requestLen replyLen replyPeriod
  else sumPercentile replyPeriod replyLen requestLen requestPeriod

/-- The estimate is the formula, rounded to nanoseconds (`Duration::mul_f64`, `/repo/src/core/mod.rs:231`). -/
def ExactEstimate (C : Crypto) : Prop :=
  ∀ (p : Rat) (a n b m : ℕ), p < 1 → ¬(a = 0 ∧ b = 0) →
    C.queueDelayEstimate p a n b m = ⌊queueDelayReal p a n b m + 1 / 2⌋₊

end
end Mixnet
