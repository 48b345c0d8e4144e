import Verif.Model.SendingF64
/-!
# Overflow of `f64` and `Duration`

The time computations of the code once more, with a panic wherever an `f64` or a `Duration` gets too large (or is not a
number). Simplification: an infinite `f64` panics here at once, while in the code it panics when it is turned into a `Duration`,
as each of them is; so these versions panic in at least the cases in which the code does.
-/
namespace Mixnet

namespace Binary64

/-- The result of an `f64` operation, if it is a finite number: less than `2^1024` after rounding. Used for all operations of
`/repo/src/core/mod.rs:188-231, 652-667` and `/repo/src/core/sphinx/delay.rs:64, 82, 88`. -/
def finite (q : Rat) : Res Rat :=
  if -2 ^ 1024 < round q ∧ round q < 2 ^ 1024 then .ok (round q) else panic "f64: infinite"

/-- A quotient of `f64`s, `/repo/src/core/mod.rs:193, 196, 230, 652`: with divisor zero the result is infinite or not a number. -/
def divide (a b : Rat) : Res Rat := if b = 0 then panic "f64: division by zero" else finite (a / b)

/-- `Duration::from_secs_f64`, `/repo/src/core/mod.rs:193, 196, 231, 667`: panics unless the number of whole seconds fits in
a `u64`. -/
def fromSecsChecked (secs : Rat) : Res Nat :=
  if 0 ≤ secs ∧ secs < 2 ^ 64 then .ok (fromSecs secs) else panic "from_secs_f64: overflow"

/-- `Duration::div_f64`, `/repo/src/core/mod.rs:193, 196`. -/
def divDurationChecked (ns : Nat) (d : Rat) : Res Nat := do fromSecsChecked (← divide (asSecs ns) d)

/-- `Duration::mul_f64`, `/repo/src/core/mod.rs:231`, `/repo/src/core/sphinx/delay.rs:64`. -/
def mulDurationChecked (d : Rat) (unit : Nat) : Res Nat := do fromSecsChecked (← finite (d * asSecs unit))

/-- `rate_mul`, `/repo/src/core/mod.rs:188-192`. -/
def rateMulChecked (loopCoverProportion : Rat) : Res Rat := do finite (1 / 2 * (← finite (1 - loopCoverProportion)))

/-- The factor of the last line, `/repo/src/core/mod.rs:228-231`, from left to right. -/
def percentileFactorChecked (n m : Nat) (r : Rat) : Res Rat := do
  let n ← finite n
  let m ← finite m
  let cube ← finite ((← finite (r * r)) * r)
  let root := sqrt (← finite (n + (← finite (cube * m))))
  let a ← finite (round (492582 / 100000) + (← finite (round (387809 / 100000) * root)))
  let a ← finite (a + n)
  finite (a + (← finite (r * m)))

/-- The last two lines of `estimate_authored_packet_queue_delay`, `/repo/src/core/mod.rs:228-231`. -/
def percentileChecked (s n m rs : Nat) : Res Nat := do
  let r ← divide (asSecs rs) (asSecs s)
  mulDurationChecked (← percentileFactorChecked n m r) s

/-- `estimate_authored_packet_queue_delay`, `/repo/src/core/mod.rs:187-232`; arguments as for `queueDelay`. -/
def queueDelayChecked (loopCoverProportion : Rat) (requestPeriod requestLen replyPeriod replyLen : Nat) : Res Nat := do
  let rate ← rateMulChecked loopCoverProportion
  let requestPeriod ← divDurationChecked requestPeriod rate
  let replyPeriod ← divDurationChecked replyPeriod rate
  if requestPeriod > replyPeriod then percentileChecked requestPeriod requestLen replyLen replyPeriod
  else percentileChecked replyPeriod replyLen requestLen requestPeriod

/-- `+` of `Delay`s, `/repo/src/core/sphinx/delay.rs:78-90`. -/
def delayAddChecked (a b : Rat) : Res Rat := finite (a + b)

end Binary64

/-- A `Duration`, `/repo/src/core/mod.rs:254-255`: the number of whole seconds fits in a `u64`; otherwise `+` and `*` panic. -/
def durationChecked (ns : Nat) : Res Nat := if ns < 2 ^ 64 * 10 ^ 9 then .ok ns else panic "overflow when adding durations"

/-- `Instant + Duration`, `/repo/src/core/mod.rs:546`, `/repo/src/request_manager/mod.rs:281`: on Unix the number of
whole seconds must fit in an `i64`. -/
def instantChecked (ns : Nat) : Res Nat :=
  if ns < 2 ^ 63 * 10 ^ 9 then .ok ns else panic "overflow when adding duration to instant"

/-- `estimate_rtt`, `/repo/src/core/mod.rs:253-256`; `num_hops as u32` drops the upper bits. -/
def RequestMetrics.estimateRttChecked (m : RequestMetrics) (handlingDelay : Nat) : Res Nat := do
  let netDelay ← durationChecked (m.perHopNetDelay * (m.numHops % 2 ^ 32))
  let sum ← durationChecked (m.forwardingDelay + m.authoredPacketQueueDelay)
  let sum ← durationChecked (sum + netDelay)
  durationChecked (sum + handlingDelay)

/-- `estimate_authored_packet_queue_delay`, `/repo/src/core/mod.rs:187-232`, for a session. -/
def estimateQueueDelayChecked (config : Config) (s : Session) : Res Nat :=
  Binary64.queueDelayChecked config.loopCoverProportion s.meanAuthoredPacketPeriod s.authoredPacketQueue.queue.length
    config.mixnodeSession.meanAuthoredPacketPeriod config.mixnodeSession.authoredPacketQueue.capacity

namespace Node
open Binary64

/-- The mean period of `next_authored_packet_delay`, `/repo/src/core/mod.rs:642-662`, in seconds. -/
def meanSecsChecked (m : Node) : Res (Option Rat) :=
  match m.sessions.iter with
  | [a, b] => do
    let p := asSecs a.meanAuthoredPacketPeriod
    let q := asSecs b.meanAuthoredPacketPeriod
    .ok (some (← divide (← finite ((← finite (2 * p)) * q)) (← finite (p + q))))
  | [a] =>
    let p := asSecs a.meanAuthoredPacketPeriod
    if m.sessionStatus.phase.needPrev then do .ok (some (← finite (2 * p))) else .ok (some p)
  | _ => .ok none

/-- `next_authored_packet_delay`, `/repo/src/core/mod.rs:639-668`, in nanoseconds. `e` is the sample of the exponential
distribution with mean 1. -/
def nextAuthoredPacketDelayChecked (m : Node) (e : Rat) : Res (Option Nat) := do
  match ← m.meanSecsChecked with
  | none => .ok none
  | some mean => do .ok (some (← fromSecsChecked (← finite ((if e < 10 then e else 10) * mean))))

end Node
end Mixnet
