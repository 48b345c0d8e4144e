import Verif.Spec.Wire
/-!
# What a hop can read in a header

The keystream of a key is a function from positions to bytes. `Crypto.chacha` has the keystreams of all keys; here they are a
variable, to say that what a hop reads is as random as the keystreams of the others.
-/
namespace Mixnet.Spec
open Mixnet

/-- The keystreams of all keys. -/
abbrev Keystreams := Bytes → Nat → Byte

/-- The same primitives, with other keystreams. -/
def withKeystreams (C : Crypto) (ks : Keystreams) : Crypto := { C with chacha := ks }

/-- The packet as it arrives at hop number `j`, the first being number 0, if `packet` arrives at the first and every hop hands it on.
`secs` are the shared secrets of the hops, `targets` the hops after the first. -/
def arriving (C : Crypto) (secs : List SharedSecret) (targets : List Target) (packet : Bytes) (j : Nat) : Bytes :=
  ((targets.zip secs).take j).foldl (fun p hop => forwardedBytes C hop.2 hop.1 p) packet

/-- What a hop reads when it has unmasked the actions of a packet. -/
def shown (C : Crypto) (sec : SharedSecret) (packet : Bytes) : Bytes := masked C sec 0 ((packet.drop 48).take 140)

/-- The action for hop number `j`. -/
def actionFor (targets : List Target) (kind : PacketKind) (j : Nat) : Bytes :=
  match targets[j]? with
  | some t => forwardAction t
  | none => deliverAction kind

/-- What is meant for hop number `j`: its action and, if it forwards, the MAC it hands on. -/
def sizeFor (targets : List Target) (kind : PacketKind) (j : Nat) : Nat :=
  (actionFor targets kind j).length + if j < targets.length then 16 else 0

/-- The randomness that a header hides behind at hop number `j`: of the keystream of the hop before, the end, with which the padding was
masked; of the keystream of the hop after, the beginning, with which the rest is masked. `keys` are the keys of the
hops. -/
def Hiding (keys : List Bytes) (targets : List Target) (j : Nat) (key : Bytes) (n : Nat) : Prop :=
  (∃ i, j = i + 1 ∧ keys[i]? = some key ∧ 140 - forwardSize (targets.take i) ≤ n ∧
      n < 140 - forwardSize (targets.take i) + forwardSize (targets.take j)) ∨
    (keys[j + 1]? = some key ∧ n < 140 - forwardSize (targets.take (j + 1)))

/-- The keys with which the actions are masked, hop by hop. -/
def actionKeys (C : Crypto) (eph : Bytes) (theirs : List KxPublic) : List Bytes :=
  (packetSecrets C eph theirs).map C.actionsEncryptionKey

/-- What hop number `j` reads of a packet with the given header. -/
def readAt (C : Crypto) (eph filler : Bytes) (targets : List Target) (theirs : List KxPublic) (kind : PacketKind)
    (payload : Bytes) (j : Nat) : Bytes :=
  let secs := packetSecrets C eph theirs
  shown C (secs.getD j []) (arriving C secs targets (headerBytes C eph filler targets theirs kind ++ payload) j)

end Mixnet.Spec
