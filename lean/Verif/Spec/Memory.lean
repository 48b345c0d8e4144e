import Verif.Model.Api
import Verif.Spec.Fragment
/-!
# What a node keeps
-/
namespace Mixnet.Spec

/-- The packets a node keeps: those to be forwarded, and those of its own to be sent in the current and in the previous session. -/
def packetsKept (m : Node) : List Bytes :=
  m.forwardPacketQueue.queue.map (·.packet.packet) ++
    m.sessions.iter.flatMap fun s => s.authoredPacketQueue.queue.map (·.packet)

/-- What a node keeps for a SURB: its id, the id of the message, and keys. -/
def surbKept (x : SurbId × SurbValue) : List Bytes := x.1 :: x.2.messageId :: x.2.keys

/-- All packets, fragments of incomplete messages, and SURB ids and keys a node keeps. -/
def keptStrings (m : Node) : List Bytes :=
  packetsKept m ++ storedFragments m.fragmentAssembler ++ m.surbKeystore.surbs.flatMap surbKept

/-- How many bytes that are. -/
def bytesKept (m : Node) : Nat := ((keptStrings m).map List.length).sum

/-- The most packets a session may have queued. -/
def sessionLimit (config : Config) : Nat :=
  max config.mixnodeSession.authoredPacketQueue.capacity
    (match config.nonMixnodeSession with | none => 0 | some c => c.authoredPacketQueue.capacity)

/-- 2252 bytes for each packet, 2048 for each fragment, 16 + 16 + 6 * 192 for each SURB. -/
def memoryLimit (config : Config) : Nat :=
  2252 * (config.forwardPacketQueueCapacity + 2 * sessionLimit config) + 2048 * config.maxIncompleteFragments +
    1184 * config.surbKeystoreCapacity

/-- The places for fragments of incomplete messages, filled or not. -/
def fragmentSlots (m : Node) : Nat := (m.fragmentAssembler.incomplete.map fun e => e.2.fragments.length).sum

/-- The packet a call hands out to be sent. -/
def handedOut : Outcome → Option AddressedPacket
  | .forwardPacket p => p
  | .authoredPacket p => p
  | _ => none

end Mixnet.Spec
