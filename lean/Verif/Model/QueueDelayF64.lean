import Verif.Model.RealCrypto
/-!
# `estimate_authored_packet_queue_delay` in `f64` arithmetic

`Model/QueueDelay.lean` has the formula over the real numbers; here is what the code computes, operation by operation, each result
rounded to an `f64` or to nanoseconds. Simplification: as in `Binary64.roundPos`, there is no largest `f64`, and no largest
`Duration` (the code panics on overflow).
-/
namespace Mixnet

namespace Binary64

/-- The nearest `f64` to a square root (`f64::sqrt` is correctly rounded, IEEE 754), used in `/repo/src/core/mod.rs:231`. The root is between
`2^k` and `2^(k+1)`, with `k` half the logarithm, so its last bit counts `2^(k-52)`. Only for numbers that are 0 or at
least `2^-1022`. -/
def sqrt (q : Rat) : Rat :=
  if q ≤ 0 then 0
  else
    let e := Int.log 2 q / 2 - 52
    let v := q / (2 ^ e * 2 ^ e)
    let m := Nat.sqrt v.floor.toNat
    (if v ≤ (m + 1 / 2) * (m + 1 / 2) then (m : Rat) else m + 1) * 2 ^ e

/-- `Duration::from_secs_f64`: rounds to the nearest nanosecond; part of `div_f64` and `mul_f64`,
`/repo/src/core/mod.rs:193, 196, 231`. -/
def fromSecs (secs : Rat) : Nat := (roundEven (secs * 10 ^ 9)).toNat

/-- `Duration::div_f64`, `/repo/src/core/mod.rs:193, 196`: `Duration::from_secs_f64(self.as_secs_f64() / rhs)`. -/
def divDuration (ns : Nat) (d : Rat) : Nat := fromSecs (round (asSecs ns / d))

/-- `rate_mul`, `/repo/src/core/mod.rs:188-192`. -/
def rateMul (loopCoverProportion : Rat) : Rat := round (1 / 2 * round (1 - loopCoverProportion))

/-- The factor of the last line of `estimate_authored_packet_queue_delay`, `/repo/src/core/mod.rs:228-231`: `n` and `m` converted from
`usize`, `r` the ratio. The two constants are the nearest `f64`s to those in the source. -/
def percentileFactor (n m : Nat) (r : Rat) : Rat :=
  let n := round n
  let m := round m
  round (round (round (round (492582 / 100000) +
    round (round (387809 / 100000) * sqrt (round (n + round (round (round (r * r) * r) * m))))) + n) + round (r * m))

/-- The last two lines of `estimate_authored_packet_queue_delay`, `/repo/src/core/mod.rs:228-231`. -/
def percentile (s n m rs : Nat) : Nat :=
  let r := round (asSecs rs / asSecs s)
  mulDuration (percentileFactor n m r) s

/-- `estimate_authored_packet_queue_delay`, `/repo/src/core/mod.rs:187-232`. Arguments: the loop cover proportion, the
request period and length, the reply period and length; the periods in nanoseconds. -/
def queueDelay (loopCoverProportion : Rat) (requestPeriod requestLen replyPeriod replyLen : Nat) : Nat :=
  let rate := rateMul loopCoverProportion
  let requestPeriod := divDuration requestPeriod rate
  let replyPeriod := divDuration replyPeriod rate
  if requestPeriod > replyPeriod then percentile requestPeriod requestLen replyLen replyPeriod
  else percentile replyPeriod replyLen requestLen requestPeriod

end Binary64

/-- The primitives that the code uses, with this estimate; only the exponential sampler stays open. Cites as `realCrypto`:
`/repo/src/core/sphinx/crypto.rs`, `/repo/src/core/sphinx/delay.rs:35-90`, `/repo/src/core/mod.rs:187-232`. -/
def f64Crypto (sample : Bytes → Rat) : Crypto := realCrypto sample Binary64.queueDelay

end Mixnet
