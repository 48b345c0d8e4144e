import Verif.Model.Consts
import Verif.Model.Prelude
/-!
# `src/core/packet_queues.rs`
-/
namespace Mixnet

abbrev PeerId := Bytes

/-- `AddressedPacket`, `/repo/src/core/packet_queues.rs:30-36` -/
structure AddressedPacket where
  peerId : PeerId
  packet : Bytes
deriving Repr, DecidableEq

/-- `ForwardPacket`, `/repo/src/core/packet_queues.rs:38-66`. Instants are natural numbers
(nanoseconds). -/
structure ForwardPacket where
  deadline : Nat
  packet : AddressedPacket
deriving Repr, DecidableEq

/-- `ForwardPacketQueue`, `/repo/src/core/packet_queues.rs:68-73`. `BinaryHeap` is a list in no
particular order of which only "some greatest element" can be observed: that is what the standard
library promises. The greatest element is the one with the earliest deadline
(`/repo/src/core/packet_queues.rs:61-66`). -/
structure ForwardPacketQueue where
  capacity : Nat
  queue : List ForwardPacket
deriving Repr, DecidableEq

/-- The least deadline in a list of packets. -/
def minDeadline : List ForwardPacket → Option Nat
  | [] => none
  | p :: ps =>
    match minDeadline ps with
    | none => some p.deadline
    | some d => some (if p.deadline ≤ d then p.deadline else d)

namespace ForwardPacketQueue

/-- `new`, `/repo/src/core/packet_queues.rs:76-78` -/
def new (capacity : Nat) : ForwardPacketQueue := ⟨capacity, []⟩

/-- `next_deadline`, `/repo/src/core/packet_queues.rs:80-82` (`BinaryHeap::peek`) -/
def nextDeadline (q : ForwardPacketQueue) : Option Nat := minDeadline q.queue

/-- `has_space`, `/repo/src/core/packet_queues.rs:84-86` -/
def hasSpace (q : ForwardPacketQueue) : Bool := decide (q.queue.length < q.capacity)

/-- `insert`, `/repo/src/core/packet_queues.rs:88-96` -/
def insert (q : ForwardPacketQueue) (deadline : Nat) (packet : AddressedPacket) :
    Res (ForwardPacketQueue × Bool) := do
  assertP "self.has_space()" q.hasSpace
  let q' := { q with queue := ⟨deadline, packet⟩ :: q.queue }
  .ok (q', decide (q'.nextDeadline ≠ q.nextDeadline))

/-- `pop`, `/repo/src/core/packet_queues.rs:98-100` (`BinaryHeap::pop`). Which of several packets with
the earliest deadline is returned is not specified: `tie` decides. -/
def pop (q : ForwardPacketQueue) (tie : Nat) : Option AddressedPacket × ForwardPacketQueue :=
  let greatest := q.queue.filter (fun p => some p.deadline == minDeadline q.queue)
  match greatest[tie % greatest.length]? with
  | none => (none, q)
  | some p => (some p.packet, { q with queue := q.queue.erase p })

end ForwardPacketQueue

/-- `AuthoredPacketQueueConfig`, `/repo/src/core/packet_queues.rs:103-110` -/
structure AuthoredPacketQueueConfig where
  capacity : Nat
  multipleMessages : Bool
deriving Repr, DecidableEq

/-- `CheckSpaceErr`, `/repo/src/core/packet_queues.rs:112-117` -/
inductive CheckSpaceErr where
  | capacity
  | len
deriving Repr, DecidableEq

/-- `AuthoredPacketQueue`, `/repo/src/core/packet_queues.rs:119-122` -/
structure AuthoredPacketQueue where
  config : AuthoredPacketQueueConfig
  queue : List AddressedPacket
deriving Repr, DecidableEq

namespace AuthoredPacketQueue

/-- `new`, `/repo/src/core/packet_queues.rs:125-127` -/
def new (config : AuthoredPacketQueueConfig) : AuthoredPacketQueue := ⟨config, []⟩

/-- `len`, `/repo/src/core/packet_queues.rs:129-131` -/
def len (q : AuthoredPacketQueue) : Nat := q.queue.length

/-- `check_space`, `/repo/src/core/packet_queues.rs:133-145` -/
def checkSpace (q : AuthoredPacketQueue) (numPackets : Nat) : Except CheckSpaceErr Unit :=
  if q.config.capacity < numPackets then .error .capacity  -- checked_sub
  else
    let maxLen := q.config.capacity - numPackets
    let maxLen := if !q.config.multipleMessages then 0 else maxLen
    if q.queue.length > maxLen then .error .len else .ok ()

/-- `push`, `/repo/src/core/packet_queues.rs:147-152` -/
def push (q : AuthoredPacketQueue) (p : AddressedPacket) : Res AuthoredPacketQueue := do
  assertP "self.queue.len() < self.config.capacity" (decide (q.queue.length < q.config.capacity))
  .ok { q with queue := q.queue ++ [p] }

/-- `pop`, `/repo/src/core/packet_queues.rs:154-161` -/
def pop (q : AuthoredPacketQueue) : (Option AddressedPacket × Bool) × AuthoredPacketQueue :=
  let packet := q.queue.head?
  let q' := { q with queue := q.queue.tail }
  let space := packet.isSome && (q.config.multipleMessages || q'.queue.isEmpty)
  ((packet, space), q')

end AuthoredPacketQueue
end Mixnet
