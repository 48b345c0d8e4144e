import Verif.Spec.Altered
import Verif.Spec.Wire
import Verif.Proofs.Perms
/-!
# What a relay sends on, and its keys
-/
namespace Mixnet.Spec

/-- What a relay gets out of a shared secret with a sender: a keystream for the actions (with padding, 190 bytes are used), and a
permutation of payloads. -/
abbrev RelayKeys : Type := Strings 190 × Equiv.Perm Block

/-- The same primitives, except that these are the keystream and the payload cipher derived from the secret `sec`. -/
def withRelay (C : Crypto) (sec : SharedSecret) (x : RelayKeys) : Crypto :=
  { withCipher C (C.payloadEncryptionKey sec) x.2 with
    chacha := fun key n => if key = C.actionsEncryptionKey sec ∧ n < 190 then x.1.1.getD n 0 else C.chacha key n }

/-- A relay peels the packet, and the result is to be sent to `target`; its last 2220 bytes, all but the public key, are `bytes`. -/
def HandsOn (C : Crypto) (sec : SharedSecret) (packet : Bytes) (target : Target) (bytes : Bytes) : Prop :=
  ∃ out delay, peel C zeroPacket packet sec = .ok (out, .ok (.forwardTo target delay)) ∧ out.drop 32 = bytes

/-- The header belongs to the secret: its MAC is right. -/
def RightMac (C : Crypto) (sec : SharedSecret) (packet : Bytes) : Prop :=
  packet.length = 2252 ∧ C.blakeMac (C.macKey sec) ((packet.drop 48).take 140) = (packet.drop 32).take 16

/-- A target that an action can name. -/
def Nameable : Target → Prop
  | .mixnodeIndex i => i ≤ 0xfeff
  | .peerId p => p.length = 32

end Mixnet.Spec
