import Verif.Spec.Network
import Mathlib.Data.List.Dedup
/-!
# Other traffic

What it means that not too much other traffic arrives between the fragments of a message.
-/
namespace Mixnet.Spec

/-- In the stream of fragments `gs`, between two fragments of the message `id` that follow each other, at most `K`
other messages get a fragment. There is no limit on what comes before the first and after the last one, nor on the
number of gaps, nor on the number of fragments of those messages. -/
def GapsAtMost (K : Nat) (id : MessageId) (gs : List Bytes) : Prop :=
  ∀ before x between y after, gs = before ++ x :: (between ++ y :: after) → idOf x = id → idOf y = id →
    (∀ z ∈ between, idOf z ≠ id) → (between.map idOf).dedup.length ≤ K

/-- With these limits (number of incomplete messages, number of fragments of them, number of fragments per message)
a node can hold `k` fragments of one message and `K` other messages. -/
def RoomFor (maxMessages maxFragments maxPerMessage K k : Nat) : Prop :=
  K + 1 ≤ maxMessages ∧ K * (maxPerMessage - 1) + k ≤ maxFragments

/-- A history of a node in which it handles `k` packets, none of which changes what is stored of the message `id`. Any
other calls may be made. -/
inductive Passing (C : Crypto) (id : MessageId) : Node → Nat → Node → Prop
  | start (n) : Passing C id n 0 n
  | packet {n k n' now p n'' out} : Passing C id n k n' → p.length = PACKET_SIZE →
      n'.step C (.handlePacket now p) = .ok (n'', out) → storedOf n'' id = storedOf n' id → Passing C id n (k + 1) n''
  | other {n k n' call n'' out} : Passing C id n k n' → call.WellTyped → (∀ now p, call ≠ .handlePacket now p) →
      n'.step C call = .ok (n'', out) → Passing C id n k n''

end Mixnet.Spec
