import Verif.Model.Sphinx
import Verif.Spec.Fragment
/-!
# The bytes on the wire

What fragments, Sphinx packets and SURBs look like, byte by byte, as functions of what goes into them. Written from
the documentation of the format (`/repo/src/core/fragment.rs:31-73`, `/repo/src/core/sphinx/packet.rs:21-42`) and the
cryptographic primitives; the functions that build packets are not used.
-/
namespace Mixnet.Spec
open Mixnet

/-- A number in two bytes, little-endian. -/
def le16 (n : Nat) : Bytes := [UInt8.ofNat n, UInt8.ofNat (n / 256)]

/-! ### Fragments -/

/-- A fragment: message ID, index of the last fragment, index of this one, size of the data, number of SURBs, the data,
zeros, the SURBs from the last to the first. -/
def fragmentBytes (id : Bytes) (last index : Nat) (data : Bytes) (surbs : List Bytes) : Bytes :=
  id ++ le16 last ++ le16 index ++ le16 data.length ++ [UInt8.ofNat surbs.length] ++
    data ++ List.replicate (2025 - (data.length + 222 * surbs.length)) 0 ++ surbs.reverse.flatten

/-- `n` fragments, numbered from `index` on. Each takes as many as 9 of the SURBs that are left, and as much of the data
that is left as then fits. -/
def fragmentsFrom (id : Bytes) (last : Nat) : (n index : Nat) → Bytes → List Bytes → List Bytes
  | 0, _, _, _ => []
  | n + 1, index, data, surbs =>
    let room := 2025 - 222 * min 9 surbs.length
    fragmentBytes id last index (data.take room) (surbs.take 9) ::
      fragmentsFrom id last n (index + 1) (data.drop room) (surbs.drop 9)

/-- The number of fragments: at least 1, 9 SURBs in each at most, 2025 bytes in each at most. -/
def fragmentCount (dataSize surbs : Nat) : Nat :=
  max 1 (max ((surbs + 8) / 9) ((dataSize + 222 * surbs + 2024) / 2025))

/-- The fragments of a message. -/
def messageFragments (id data : Bytes) (surbs : List Bytes) : List Bytes :=
  let n := fragmentCount data.length surbs.length
  fragmentsFrom id (n - 1) n 0 data surbs

/-! ### Sphinx headers -/

/-- Data XORed with the keystream of a shared secret, from byte `off` of the keystream on. -/
def masked (C : Crypto) (sec : SharedSecret) (off : Nat) (data : Bytes) : Bytes :=
  data.mapIdx fun i b => b ^^^ C.chacha (C.actionsEncryptionKey sec) (off + i)

/-- The shared secrets of the sender with the hops, whose public keys are `theirs`. `x` is the secret key of the packet
when it arrives at the first of them; each hop blinds it. -/
def sharedSecrets (C : Crypto) (x : C.Scalar) : List KxPublic → List SharedSecret
  | [] => []
  | p :: ps =>
    let sec := C.mul p x
    sec :: sharedSecrets C (C.scalarMul x (C.scalarOfClamped (C.deriveKxBlindingFactor (C.mulBase x) sec))) ps

/-- The action that tells a hop to forward a packet. -/
def forwardAction : Target → Bytes
  | .mixnodeIndex i => le16 i
  | .peerId p => le16 0xff00 ++ p

/-- The action that tells the last hop what to do. -/
def deliverAction : PacketKind → Bytes
  | .request => le16 0xff01
  | .reply id => le16 0xff02 ++ id
  | .cover none => le16 0xff03
  | .cover (some id) => le16 0xff04 ++ id

/-- What each hop finds in the header: the MAC, and the actions without the padding. `pad` is the padding it finds at
the end of the actions, `hops` are the forwarding hops from this one on, `last` is the plain text for the last
hop. The MAC covers the actions with the padding. A forwarding hop finds, masked, its action and the MAC and actions
for the next hop; the padding of the next hop is the padding of this hop followed by zeros for what was removed,
masked. -/
def layers (C : Crypto) (last : Bytes) (lastSec : SharedSecret) (pad : Bytes) :
    (hops : List (Target × SharedSecret)) → Bytes × Bytes
  | [] =>
    let actions := masked C lastSec 0 last
    (C.blakeMac (C.macKey lastSec) (actions ++ pad), actions)
  | (target, sec) :: hops =>
    let removed := (forwardAction target).length + 16
    let next := layers C last lastSec (masked C sec (140 - pad.length) (pad ++ List.replicate removed 0)) hops
    let actions := masked C sec 0 (forwardAction target ++ next.1 ++ next.2)
    (C.blakeMac (C.macKey sec) (actions ++ pad), actions)

/-- The size of the forward actions and MACs in a header. -/
def forwardSize (targets : List Target) : Nat := (targets.map fun t => (forwardAction t).length + 16).sum

/-- The number of bytes at the end of the actions that are not used. -/
def fillerSize (targets : List Target) (kind : PacketKind) : Nat :=
  140 - (forwardSize targets + (deliverAction kind).length)

/-- The header of a packet: public key, MAC, actions. `eph` is the secret key of the packet, `theirs` are the public keys
of the hops, `targets` are the hops after the first, `filler` fills the actions up. -/
def headerBytes (C : Crypto) (eph filler : Bytes) (targets : List Target) (theirs : List KxPublic) (kind : PacketKind) :
    Bytes :=
  let x := C.scalarOfClamped eph
  let secs := sharedSecrets C x theirs
  let first := layers C (deliverAction kind ++ filler) (secs.getLastD []) [] (targets.zip secs)
  C.mulBase x ++ first.1 ++ first.2

/-- The secrets of a packet with the secret key `eph`. -/
def packetSecrets (C : Crypto) (eph : Bytes) (theirs : List KxPublic) : List SharedSecret :=
  sharedSecrets C (C.scalarOfClamped eph) theirs

/-! ### Packets -/

/-- The payload before encryption: the fragment and a tag of 16 zeros. -/
def taggedPayload (fragment : Bytes) : Bytes := fragment ++ List.replicate 16 0

/-- A request packet: the payload is encrypted for the last hop, then for the hop before it, and so on. -/
def requestPacketBytes (C : Crypto) (eph filler : Bytes) (targets : List Target) (theirs : List KxPublic)
    (fragment : Bytes) : Bytes :=
  headerBytes C eph filler targets theirs .request ++
    (packetSecrets C eph theirs).foldr (fun sec p => C.lionessEncrypt (C.payloadEncryptionKey sec) p)
      (taggedPayload fragment)

/-- A SURB: index of the first hop, header, secret. -/
def surbBytes (C : Crypto) (eph filler : Bytes) (first : Nat) (targets : List Target) (theirs : List KxPublic)
    (id secret : Bytes) : Bytes :=
  le16 first ++ headerBytes C eph filler targets theirs (.reply id) ++ secret

/-- The payload keys the creator of a SURB keeps: that of the secret in the SURB, and those of all hops but the last. -/
def surbPayloadKeys (C : Crypto) (eph : Bytes) (theirs : List KxPublic) (secret : Bytes) : List Bytes :=
  C.payloadEncryptionKey secret :: (packetSecrets C eph theirs).dropLast.map C.payloadEncryptionKey

/-- A reply packet: the header in the SURB, and the payload decrypted with the key of the secret in the SURB. -/
def replyPacketBytes (C : Crypto) (surb fragment : Bytes) : Bytes :=
  (surb.drop 2).take 188 ++ C.lionessDecrypt (C.payloadEncryptionKey ((surb.drop 190).take 32)) (taggedPayload fragment)

/-- A cover packet. -/
def coverPacketBytes (C : Crypto) (eph filler : Bytes) (targets : List Target) (theirs : List KxPublic)
    (id : Option Bytes) (payload : Bytes) : Bytes :=
  headerBytes C eph filler targets theirs (.cover id) ++ payload

/-- The packet that a hop, with the shared secret `sec`, sends to `target` when it gets `packet`: the public key blinded,
MAC and actions as they remain after zeros are appended to the actions, the whole is unmasked, and the action is
removed; the payload decrypted. -/
def forwardedBytes (C : Crypto) (sec : SharedSecret) (target : Target) (packet : Bytes) : Bytes :=
  let pub := packet.take 32
  let actions := (packet.drop 48).take 140
  let removed := (forwardAction target).length + 16
  C.mulClamped pub (C.deriveKxBlindingFactor pub sec) ++
    (masked C sec 0 (actions ++ List.replicate removed 0)).drop (forwardAction target).length ++
    C.lionessDecrypt (C.payloadEncryptionKey sec) ((packet.drop 188).take 2064)

/-- The delay a hop applies and the sender counts. -/
def forwardingDelay (C : Crypto) (sec : SharedSecret) : C.Delay := C.delayExp (C.delaySeed sec)

/-- The sum of the delays of the forwarding hops, in order. -/
def packetDelay (C : Crypto) (eph : Bytes) (theirs : List KxPublic) : C.Delay :=
  ((packetSecrets C eph theirs).dropLast.map (forwardingDelay C)).foldl C.delayAdd C.delayZero

end Mixnet.Spec
