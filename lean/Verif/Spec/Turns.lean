import Verif.Spec.Sending
import Verif.Spec.Panics
/-!
# Whose turn it is to send

When a packet is due, random draws decide which session it is for and whether it is to be loop cover traffic.
-/
namespace Mixnet.Spec

/-- A draw (of a `u64`) comes out true with probability `p`, up to rounding: if `(x + 1) / 2 ^ 64 ≤ p`. -/
def chance (p : Rat) (x : Nat) : Bool := decide (((x % 2 ^ 64 : Nat) : Rat) + 1 ≤ p * 2 ^ 64)

/-- The index of the session which the draws `rng` give the opportunity to send a packet, and how many draws that
took. With two sessions the odds are inverse to the mean periods. -/
def sessionDrawn (m : Node) (rng : Rng) : Option (Nat × Nat) :=
  match currentSession m, previousSession m with
  | some s, some t =>
    let share : Rat := (t.meanAuthoredPacketPeriod : Rat) / (s.meanAuthoredPacketPeriod + t.meanAuthoredPacketPeriod)
    some (if chance share (rng 0) then m.sessionStatus.currentIndex else m.sessionStatus.currentIndex - 1, 1)
  | some _, none => some (m.sessionStatus.currentIndex, 0)
  | none, some _ => some (m.sessionStatus.currentIndex - 1, 0)
  | none, none => none

/-- It is the turn of the queue of session `i`: the draws give session `i` the opportunity, it is not for loop cover
traffic, and requests and replies may be sent in the session. -/
def Turn (m : Node) (i : Nat) (rng : Rng) : Prop :=
  ∃ k, sessionDrawn m rng = some (i, k) ∧ chance m.config.loopCoverProportion (rng k) = false ∧
    ¬ NoLonger m.sessionStatus i ∧ ¬ NotYet m.sessionStatus i

/-- What was sent, during a history, when it was the turn of the queue of session `i`. -/
inductive Turns (C : Crypto) (i : Nat) : Node → List Call → List Outcome → Node → List (Option AddressedPacket) → Prop
  | nil m : Turns C i m [] [] m []
  | turn {m rng ns m' p calls outs m'' ps} : Turn m i rng →
      m.step C (.popNextAuthoredPacket rng ns) = .ok (m', .authoredPacket p) →
      Turns C i m' calls outs m'' ps →
      Turns C i m (.popNextAuthoredPacket rng ns :: calls) (.authoredPacket p :: outs) m'' (p :: ps)
  | other {m call m' out calls outs m'' ps} : (∀ rng ns, call = .popNextAuthoredPacket rng ns → ¬ Turn m i rng) →
      m.step C call = .ok (m', out) → Turns C i m' calls outs m'' ps →
      Turns C i m (call :: calls) (out :: outs) m'' ps

end Mixnet.Spec
