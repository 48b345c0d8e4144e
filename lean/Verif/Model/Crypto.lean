import Verif.Model.Consts
import Verif.Model.Prelude
/-!
# `src/core/sphinx/crypto.rs` and `src/core/sphinx/delay.rs`

The primitives (X25519 scalar multiplication, BLAKE2b, ChaCha20, LIONESS, the exponential sampler and
`f64` arithmetic) are fields of a structure; everything the code builds from them is modelled. The
laws the proofs may use are in `CryptoLaws`.
-/
namespace Mixnet

abbrev KxPublic := Bytes
abbrev KxSecret := Bytes
abbrev SharedSecret := Bytes

/-- The personalisation strings, `/repo/src/core/sphinx/crypto.rs:45-47`; they are distinct constants. -/
inductive Personal where
  | kxBlindingFactor
  | smallDerivedSecrets
  | payloadEncryptionKey
deriving Repr, DecidableEq

structure Crypto where
  /-- `curve25519_dalek::Scalar` -/
  Scalar : Type
  /-- `Scalar::from_bytes_mod_order(clamp_integer(b))` -/
  scalarOfClamped : Bytes → Scalar
  /-- `Scalar *= Scalar` -/
  scalarMul : Scalar → Scalar → Scalar
  /-- `MontgomeryPoint::mul_base(&s).to_bytes()` -/
  mulBase : Scalar → KxPublic
  /-- `MontgomeryPoint::mul_base_clamped(b).to_bytes()` -/
  mulBaseClamped : Bytes → KxPublic
  /-- `(MontgomeryPoint(p) * s).to_bytes()` -/
  mul : KxPublic → Scalar → Bytes
  /-- `MontgomeryPoint(p).mul_clamped(b).to_bytes()` -/
  mulClamped : KxPublic → Bytes → Bytes
  /-- `Blake2bMac::<U32>` of the empty message with this key and personalisation -/
  blake32 : Bytes → Personal → Bytes
  /-- `Blake2bMac::<U64>` of the empty message with this key, salt (an index) and personalisation -/
  blake64 : Bytes → Nat → Personal → Bytes
  /-- `Blake2bMac::<U16>` with this key of this message -/
  blakeMac : Bytes → Bytes → Bytes
  /-- `u64::from_le_bytes` of `Blake2bMac::<U8>` of the empty message with this key and the
  personalisation `sphinx-replay-tg`, `/repo/src/core/replay_filter.rs:75-80` -/
  replayHash : Bytes → UInt64
  /-- Byte `i` of the ChaCha20 keystream for this key and nonce 0 -/
  chacha : Bytes → Nat → Byte
  /-- `LionessDefault::new_raw(key).encrypt` -/
  lionessEncrypt : Bytes → Bytes → Bytes
  /-- `LionessDefault::new_raw(key).decrypt` -/
  lionessDecrypt : Bytes → Bytes → Bytes
  /-- `Delay`, `/repo/src/core/sphinx/delay.rs:35-37` (an `f64` that is not NaN) -/
  Delay : Type
  /-- `Delay::zero`, `/repo/src/core/sphinx/delay.rs:41-43` -/
  delayZero : Delay
  /-- `+` on delays, `/repo/src/core/sphinx/delay.rs:78-90` -/
  delayAdd : Delay → Delay → Delay
  /-- `Delay(10.0)`, `/repo/src/core/sphinx/delay.rs:58` -/
  delayTen : Delay
  /-- `Delay(ChaChaRng::from_seed(seed).sample(rand_distr::Exp1))`, `/repo/src/core/sphinx/delay.rs:54-55`: a function of the
  32-byte seed -/
  expSample : Bytes → Delay
  /-- `Ord for Delay`, `/repo/src/core/sphinx/delay.rs:71-76` -/
  delayLe : Delay → Delay → Bool
  /-- `Delay::to_duration`, `/repo/src/core/sphinx/delay.rs:61-65`; durations in nanoseconds -/
  delayToDuration : Delay → Nat → Nat
  /-- The `f64` formula of `estimate_authored_packet_queue_delay`,
  `/repo/src/core/mod.rs:188-231`, when it does not panic: a function of the loop cover proportion, the
  request period and length, the reply period and length. `Model/QueueDelay.lean` has the formula -/
  queueDelayEstimate : Rat → Nat → Nat → Nat → Nat → Nat

/-- What is assumed about the primitives. Scalar multiplication laws hold for points of the prime-order
subgroup, i.e. for multiples of the base point, which honest public keys are. -/
structure CryptoLaws (C : Crypto) : Prop where
  scalar_comm : ∀ a b, C.scalarMul a b = C.scalarMul b a
  scalar_assoc : ∀ a b c, C.scalarMul (C.scalarMul a b) c = C.scalarMul a (C.scalarMul b c)
  mulBaseClamped : ∀ b, C.mulBaseClamped b = C.mulBase (C.scalarOfClamped b)
  mul_mulBase : ∀ a b, C.mul (C.mulBase a) b = C.mulBase (C.scalarMul a b)
  mulClamped_mulBase : ∀ a b, C.mulClamped (C.mulBase a) b = C.mulBase (C.scalarMul a (C.scalarOfClamped b))
  mulBase_length : ∀ a, (C.mulBase a).length = 32
  mulClamped_length : ∀ p b, (C.mulClamped p b).length = 32
  blake64_length : ∀ k i p, (C.blake64 k i p).length = 64
  blakeMac_length : ∀ k m, (C.blakeMac k m).length = 16
  decrypt_encrypt : ∀ k p, p.length = PAYLOAD_SIZE → C.lionessDecrypt k (C.lionessEncrypt k p) = p
  encrypt_decrypt : ∀ k p, p.length = PAYLOAD_SIZE → C.lionessEncrypt k (C.lionessDecrypt k p) = p
  encrypt_length : ∀ k p, p.length = PAYLOAD_SIZE → (C.lionessEncrypt k p).length = PAYLOAD_SIZE
  decrypt_length : ∀ k p, p.length = PAYLOAD_SIZE → (C.lionessDecrypt k p).length = PAYLOAD_SIZE
  /-- `f64` comparison of delays is a total preorder (they are never NaN) -/
  delay_total : ∀ a b, C.delayLe a b = true ∨ C.delayLe b a = true
  delay_trans : ∀ a b c, C.delayLe a b = true → C.delayLe b c = true → C.delayLe a c = true
  /-- `f64` addition and `Duration::mul_f64` round monotonically -/
  delay_add_mono : ∀ a b c d, C.delayLe a b = true → C.delayLe c d = true →
    C.delayLe (C.delayAdd a c) (C.delayAdd b d) = true
  delay_duration_mono : ∀ a b u, C.delayLe a b = true → C.delayToDuration a u ≤ C.delayToDuration b u

namespace Crypto
variable (C : Crypto)

/-- `Delay::exp`, `/repo/src/core/sphinx/delay.rs:45-59`: the 16-byte seed is doubled, the sample capped (`f64::min` of
numbers that are not NaN). -/
def delayExp (seed : Bytes) : C.Delay :=
  let delay := C.expSample (seed ++ seed)
  if C.delayLe delay C.delayTen then delay else C.delayTen

/-- `gen_kx_secret`, `/repo/src/core/sphinx/crypto.rs:62-66` -/
def genKxSecret (rng : Rng) : KxSecret × Rng := rng.fillBytes 32

/-- `derive_kx_public`, `/repo/src/core/sphinx/crypto.rs:69-71` -/
def deriveKxPublic (s : KxSecret) : KxPublic := C.mulBaseClamped s

/-- `derive_kx_blinding_factor`, `/repo/src/core/sphinx/crypto.rs:74-80` -/
def deriveKxBlindingFactor (pub : KxPublic) (sec : SharedSecret) : Bytes :=
  C.blake32 (pub ++ sec) .kxBlindingFactor

/-- `blind_kx_public`, `/repo/src/core/sphinx/crypto.rs:83-87` -/
def blindKxPublic (pub : KxPublic) (sec : SharedSecret) : KxPublic :=
  C.mulClamped pub (C.deriveKxBlindingFactor pub sec)

/-- `derive_kx_shared_secret`, `/repo/src/core/sphinx/crypto.rs:89-91` -/
def deriveKxSharedSecret (pub : KxPublic) (sec : KxSecret) : SharedSecret := C.mulClamped pub sec

/-- The loop of `gen_kx_public_and_shared_secrets`, `/repo/src/core/sphinx/crypto.rs:105-120`, from
iteration `i` on. `secrets` are the shared secrets so far; `push` onto a full `ArrayVec` panics. -/
def genSecretsLoop : List KxPublic → Nat → C.Scalar → KxPublic → List SharedSecret → Res (List SharedSecret)
  | [], _, _, _, secrets => .ok secrets
  | theirs :: rest, i, kxSecret, kxPublic, secrets => do
    let (kxSecret, kxPublic) ←
      if i ≠ 0 then do
        let kxPublic := if i ≠ 1 then C.mulBase kxSecret else kxPublic
        let last ← expectSome "On at least second iteration of loop" secrets.getLast?
        .ok (C.scalarMul kxSecret (C.scalarOfClamped (C.deriveKxBlindingFactor kxPublic last)), kxPublic)
      else .ok (kxSecret, kxPublic)
    assertP "kx_shared_secrets.push: ArrayVec is full" (decide (secrets.length < MAX_HOPS))
    genSecretsLoop rest (i + 1) kxSecret kxPublic (secrets ++ [C.mul theirs kxSecret])

/-- `gen_kx_public_and_shared_secrets`, `/repo/src/core/sphinx/crypto.rs:93-121`. The callers pass an
empty `kx_shared_secrets`. -/
def genKxPublicAndSharedSecrets (rng : Rng) (theirs : List KxPublic) :
    Res (KxPublic × List SharedSecret × Rng) := do
  let (kxSecret, rng) := genKxSecret rng
  let kxPublic := C.deriveKxPublic kxSecret
  let secrets ← C.genSecretsLoop theirs 0 (C.scalarOfClamped kxSecret) kxPublic []
  .ok (kxPublic, secrets, rng)

/-- `derive_secret`, `/repo/src/core/sphinx/crypto.rs:127-139`, for a buffer of `chunks * 64` bytes. -/
def deriveSecret (chunks : Nat) (sec : SharedSecret) (p : Personal) : Bytes :=
  ((List.range chunks).map (fun i => C.blake64 sec i p)).flatten

/-- `SmallDerivedSecrets::new` and its accessors, `/repo/src/core/sphinx/crypto.rs:148-172`. -/
def smallDerivedSecrets (sec : SharedSecret) : Bytes := C.deriveSecret 1 sec .smallDerivedSecrets
def macKey (sec : SharedSecret) : Bytes := slice (C.smallDerivedSecrets sec) 0 MAC_KEY_SIZE
def actionsEncryptionKey (sec : SharedSecret) : Bytes :=
  slice (C.smallDerivedSecrets sec) MAC_KEY_SIZE ACTIONS_ENCRYPTION_KEY_SIZE
def delaySeed (sec : SharedSecret) : Bytes :=
  slice (C.smallDerivedSecrets sec) (MAC_KEY_SIZE + ACTIONS_ENCRYPTION_KEY_SIZE) DELAY_SEED_SIZE

/-- `derive_payload_encryption_key`, `/repo/src/core/sphinx/crypto.rs:177-181` -/
def payloadEncryptionKey (sec : SharedSecret) : Bytes := C.deriveSecret 3 sec .payloadEncryptionKey

/-- `compute_mac`, `/repo/src/core/sphinx/crypto.rs:187-192` -/
def computeMac (actions pad key : Bytes) : Bytes := C.blakeMac key (actions ++ pad)

/-- `mac_ok`, `/repo/src/core/sphinx/crypto.rs:194-198` -/
def macOk (mac actions key : Bytes) : Bool := C.blakeMac key actions == mac

end Crypto

/-- `apply_keystream`, `/repo/src/core/sphinx/crypto.rs:210-214`: XOR of the common prefix. -/
def applyKeystream : Bytes → Bytes → Bytes
  | d :: ds, k :: ks => (d ^^^ k) :: applyKeystream ds ks
  | ds, [] => ds
  | [], _ => []

namespace Crypto
variable (C : Crypto)

/-- The first `n` bytes of the keystream. -/
def keystream (key : Bytes) (n : Nat) : Bytes := (List.range n).map (C.chacha key)

/-- `apply_actions_encryption_keystream`, `/repo/src/core/sphinx/crypto.rs:204-208` -/
def applyActionsEncryptionKeystream (data key : Bytes) : Bytes :=
  applyKeystream data (C.keystream key data.length)

/-- `encrypt_payload`, `/repo/src/core/sphinx/crypto.rs:220-223` -/
def encryptPayload (payload key : Bytes) : Bytes := C.lionessEncrypt key payload
/-- `decrypt_payload`, `/repo/src/core/sphinx/crypto.rs:225-228` -/
def decryptPayload (payload key : Bytes) : Bytes := C.lionessDecrypt key payload

end Crypto
end Mixnet
