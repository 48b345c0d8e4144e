import Verif.Model.QueueDelayF64
import Verif.Model.Mixnet
/-!
# The rates at which packets are sent, in `f64` arithmetic

`Model/Mixnet.lean` has `next_authored_packet_delay` and the choice between sessions with exact numbers; here is what the
code computes, each result rounded to an `f64`.
-/
namespace Mixnet

namespace Binary64

/-- The mean of two active sessions, `/repo/src/core/mod.rs:652`, in seconds: `(2.0 * means[0] * means[1]) / (means[0] + means[1])`. -/
def halfRate (p q : Nat) : Rat := round (round (round (2 * asSecs p) * asSecs q) / round (asSecs p + asSecs q))

/-- The argument of `gen_bool` in `pop_next_authored_packet`, `/repo/src/core/mod.rs:692, 696`:
`periods[1] / (periods[0] + periods[1])`. -/
def share (p q : Nat) : Rat := round (asSecs q / round (asSecs p + asSecs q))

end Binary64

namespace Node
open Binary64

/-- The mean period of `next_authored_packet_delay`, `/repo/src/core/mod.rs:642-662`, in seconds, as an `f64`. -/
def meanSecs (m : Node) : Res (Option Rat) :=
  match m.sessions.iter with
  | [a, b] =>
    if Binary64.round (asSecs a.meanAuthoredPacketPeriod + asSecs b.meanAuthoredPacketPeriod) = 0 then panic "from_secs_f64: NaN"
    else .ok (some (halfRate a.meanAuthoredPacketPeriod b.meanAuthoredPacketPeriod))
  | [a] =>
    let p := asSecs a.meanAuthoredPacketPeriod
    .ok (some (if m.sessionStatus.phase.needPrev then Binary64.round (2 * p) else p))
  | _ => .ok none

/-- `next_authored_packet_delay`, `/repo/src/core/mod.rs:639-668`, in nanoseconds. `e` is the sample of the exponential distribution
with mean 1. Simplification: no overflow of `f64` and `Duration`. -/
def nextAuthoredPacketDelay64 (m : Node) (e : Rat) : Res (Option Nat) := do
  match ← m.meanSecs with
  | none => .ok none
  | some mean => .ok (some (fromSecs (Binary64.round ((if e < 10 then e else 10) * mean))))

/-- Picking the session, `/repo/src/core/mod.rs:681-705`. `gen_bool` multiplies its `f64` argument by `2^64`, which is exact. -/
def pickSession64 (m : Node) (rng : Rng) : Res (Option (RelSessionIndex × Session) × Rng) :=
  match m.sessions.enumerate with
  | [a, b] => do
    let p := a.2.meanAuthoredPacketPeriod
    let q := b.2.meanAuthoredPacketPeriod
    if Binary64.round (asSecs p + asSecs q) = 0 then panic "gen_bool: p is outside range" else do
      let (first, rng) ← rng.genBool (share p q)
      .ok (if first then some a else some b, rng)
  | [a] => .ok (some a, rng)
  | _ => .ok (none, rng)

end Node
end Mixnet
