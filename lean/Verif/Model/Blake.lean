import Verif.Model.ReplayFilter
/-!
# The calls of BLAKE2b

`Model/Crypto.lean` has a separate function for each use of BLAKE2b. The code calls one hash function, with different
parameters. Here are the parameters, byte for byte.
-/
namespace Mixnet

/-- Keyed BLAKE2b (`blake2::Blake2bMac`): a function of the output size in bytes, the key, the salt and the
personalisation (16 bytes each in the parameter block, shorter ones are padded with zeros) and the message. -/
abbrev Blake := (size : Nat) → (key salt personal msg : Bytes) → Bytes

/-- A byte string literal `b"..."`. -/
def ascii (s : String) : Bytes := s.toList.map fun c => UInt8.ofNat c.toNat

/-- The personalisation strings, `/repo/src/core/sphinx/crypto.rs:45-47`. -/
def Personal.bytes : Personal → Bytes
  | .kxBlindingFactor => ascii "sphinx-blind-fac"
  | .smallDerivedSecrets => ascii "sphinx-small-d-s"
  | .payloadEncryptionKey => ascii "sphinx-pl-en-key"

/-- Padding of a salt or personalisation to the size it has in the parameter block. -/
def blakePad (b : Bytes) : Bytes := b ++ List.replicate (16 - b.length) 0

/-- `usize::to_le_bytes` on a 64-bit machine (`/repo/src/core/sphinx/crypto.rs:133`). -/
def toLe64 (n : Nat) : Bytes := (List.range 8).map fun j => UInt8.ofNat (n / 256 ^ j)

/-- `u64::from_le_bytes` (`/repo/src/core/replay_filter.rs:80`). -/
def fromLe64 (b : Bytes) : Nat := ((List.range 8).map fun j => (b.getD j 0).toNat * 256 ^ j).sum

/-- The primitives with the uses of BLAKE2b replaced by calls of one function, with the parameters in
`/repo/src/core/sphinx/crypto.rs:77` (blinding factor), `131-135` (derived secrets), `188-190` and `195-196` (MAC), and
`/repo/src/core/replay_filter.rs:78-80` (replay tag). -/
def Crypto.withBlake (C : Crypto) (H : Blake) : Crypto :=
  { C with
    blake32 := fun key p => H 32 key (blakePad []) (blakePad p.bytes) []
    blake64 := fun key i p => H 64 key (blakePad (toLe64 i)) (blakePad p.bytes) []
    blakeMac := fun key msg => H 16 key (blakePad []) (blakePad []) msg
    replayHash := fun key =>
      UInt64.ofNat (fromLe64 (H 8 key (blakePad []) (blakePad (ascii "sphinx-replay-tg")) [])) }

end Mixnet
