import Verif.Proofs.Primitives
import Verif.Props.EndToEnd
import Verif.Props.SphinxPackets
/-!
# C84: the primitives do what the rest relies on

The other theorems assume `CryptoLaws` of the primitives. Here the primitives are the real ones: X25519, BLAKE2b, ChaCha20,
LIONESS and `f64` arithmetic, and the assumptions are theorems.
-/
namespace Mixnet.Props
open Mixnet X25519 WeierstrassCurve.Affine

attribute [local irreducible] multiple Lioness.encrypt Lioness.decrypt Binary64.round Binary64.mulDuration

/-! ## Key exchange takes place in the group -/

/-- C84: a public key is the coordinate of the multiple of the base point that the (clamped) secret says. -/
theorem public_key_point (b : Bytes) : ∃ n < p, mulBaseClamped b = encode n ∧ (n : K) = xOf (clamp b • B) :=
  ⟨_, multiple_lt _ _, rfl, multiple_base (clamp_lt b)⟩

/-- C84: the shared secret with any public key that is the coordinate of a point (not 0) is the coordinate of the multiple of that
point. -/
theorem shared_secret_point {q : Bytes} {P : E.Point} (hq : (decode q : K) = xOf P) (hx : xOf P ≠ 0) (b : Bytes) :
    ∃ n < p, mulClamped q b = encode n ∧ (n : K) = xOf (clamp b • P) := by
  refine ⟨_, multiple_lt _ _, rfl, ?_⟩
  match P, hq, hx with
  | .zero, _, hx => exact absurd rfl hx
  | .some x y hn, hq, hx =>
    have hq : (decode q : K) = x := hq
    subst hq
    exact multiple_cast hn hx (clamp_lt b)

/-- A public key as a node or a sender of packets makes it. -/
def Honest (q : Bytes) : Prop := ∃ a : Scalar, a.val ≠ 0 ∧ q = mulBase a

theorem multiple_ne_zero {a : Nat} (ha : a % order ≠ 0) : a • B ≠ 0 := by
  intro h
  have hc : Nat.Coprime order a := by
    rcases Nat.coprime_or_dvd_of_prime prime_order a with h | h
    · exact h
    · exact absurd (Nat.mod_eq_zero_of_dvd h) ha
  have h1 : addOrderOf B ∣ a := addOrderOf_dvd_of_nsmul_eq_zero h
  have h2 : addOrderOf B ∣ order := addOrderOf_dvd_of_nsmul_eq_zero order_base
  have h3 : addOrderOf B = 1 := Nat.eq_one_of_dvd_coprimes hc h2 h1
  rw [AddMonoid.addOrderOf_eq_one_iff] at h3
  exact absurd h3 (Point.some_ne_zero base_nonsingular)

theorem zero_encode {n : Nat} (hn : n < p) (h : encode n = List.replicate 32 0) : n = 0 := by
  have h1 := decode_encode hn
  rw [h] at h1
  rw [← h1]
  decide

theorem clamp_ne_zero (b : Bytes) : clamp b % order ≠ 0 := by
  intro h
  have h8 : 8 ∣ clamp b := by
    have : clamp b % 8 = ((b.getD 0 0 &&& 0xf8).toNat) % 8 := by
      unfold clamp
      rw [List.cons_append, fromLe]
      omega
    have h2 : (b.getD 0 0 &&& 0xf8).toNat % 8 = 0 := by
      generalize b.getD 0 0 = x
      rw [UInt8.toNat_and]
      have : (x.toNat &&& (248 : UInt8).toNat) % 2 ^ 3 = (x.toNat % 2 ^ 3) &&& ((248 : UInt8).toNat % 2 ^ 3) := Nat.and_mod_two_pow ..
      have e : (248 : UInt8).toNat % 2 ^ 3 = 0 := by decide
      rw [e, Nat.and_zero] at this
      exact this
    exact Nat.dvd_of_mod_eq_zero (by omega)
  obtain ⟨k, hk⟩ := h8
  have hlt := clamp_lt b
  have hpos : 0 < clamp b := by
    unfold clamp
    rw [fromLe_append]
    have h3 : fromLe [(b.getD 31 0 &&& 0x7f) ||| 0x40] = ((b.getD 31 0 &&& 0x7f) ||| 0x40).toNat := by
      rw [fromLe, fromLe]; omega
    have h4 : 0 < ((b.getD 31 0 &&& 0x7f) ||| 0x40).toNat := by
      generalize b.getD 31 0 = x
      rw [UInt8.toNat_or]
      have : (64 : UInt8).toNat ≤ (x &&& 127).toNat ||| (64 : UInt8).toNat := Nat.right_le_or
      have e : (64 : UInt8).toNat = 64 := rfl
      omega
    rw [h3]
    exact Nat.add_pos_right _ (Nat.mul_pos (Nat.pow_pos (by decide)) h4)
  have hd : order ∣ 8 * k := hk ▸ Nat.dvd_of_mod_eq_zero h
  have hc : Nat.Coprime order 8 := by decide
  have hdk : order ∣ k := hc.dvd_of_dvd_mul_left hd
  have hkpos : 0 < k := by omega
  have := Nat.le_of_dvd hkpos hdk
  have ho : 2 ^ 252 < order := by decide
  have e : (2 : Nat) ^ 255 = 8 * 2 ^ 252 := by decide
  omega

/-- C84: a public key made from any 32 random bytes is one. -/
theorem public_key_honest (b : Bytes) : Honest (mulBaseClamped b) :=
  ⟨scalarOfClamped b, clamp_ne_zero b, by
    show encode _ = encode _
    rw [multiple_congr (clamp_lt b) (lt_trans (Nat.mod_lt _ (by decide)) order_lt) (Nat.mod_mod ..).symm]
    rfl⟩

/-- C84: blinding one, or exchanging keys with it, gives another one. -/
theorem honest_mul {q : Bytes} (h : Honest q) (b : Bytes) : Honest (mulClamped q b) := by
  obtain ⟨a, ha, rfl⟩ := h
  refine ⟨scalarMul a (scalarOfClamped b), ?_, ?_⟩
  · show a.val * (clamp b % order) % order ≠ 0
    intro h
    rcases (Nat.Prime.dvd_mul prime_order).1 (Nat.dvd_of_mod_eq_zero h) with h1 | h1
    · exact ha (Nat.eq_zero_of_dvd_of_lt h1 a.isLt)
    · exact clamp_ne_zero b (Nat.eq_zero_of_dvd_of_lt h1 (Nat.mod_lt _ (by decide)))
  · show encode (multiple (decode (encode (multiple base a.val))) (clamp b)) = encode _
    rw [decode_encode (multiple_lt _ _)]
    congr 1
    refine multiple_twice (scalar_lt a) (clamp_lt b) (scalar_lt _) ?_
    show a.val * clamp b % order = a.val * (clamp b % order) % order % order
    rw [Nat.mod_mod, Nat.mul_mod, Nat.mul_mod a.val (clamp b % order), Nat.mod_mod]

/-- C84: it is never all zeros: no exchange of keys between honest nodes ends in the secret that everybody knows. -/
theorem honest_ne_zero {q : Bytes} (h : Honest q) : q ≠ List.replicate 32 0 := by
  obtain ⟨a, ha, rfl⟩ := h
  intro h0
  have h1 := zero_encode (multiple_lt _ _) h0
  have h2 := multiple_base (scalar_lt a)
  have h3 : a.val • B ≠ 0 := multiple_ne_zero (by rwa [Nat.mod_eq_of_lt a.isLt])
  rw [h1] at h2
  generalize hP : a.val • B = P at h2 h3
  match P, hP, h2, h3 with
  | .zero, _, _, h3 => exact h3 rfl
  | .some x y hn, hP, h2, _ =>
    refine x_ne_zero hP ?_
    have : ((0 : Nat) : K) = x := h2
    rw [← this, Nat.cast_zero]

/-- C84: two public keys are the same only if the secrets are the same, or opposite, modulo the order of the group. -/
theorem honest_injective {a b : Scalar} (h : mulBase a = mulBase b) : a = b ∨ a.val + b.val = order ∨ (a.val = 0 ∧ b.val = 0) := by
  have h1 : multiple base a.val = multiple base b.val := by
    have := congrArg decode h
    unfold mulBase at this
    rwa [decode_encode (multiple_lt _ _), decode_encode (multiple_lt _ _)] at this
  have ha := multiple_base (scalar_lt a)
  have hb := multiple_base (scalar_lt b)
  rw [h1, hb] at ha
  have key : ∀ P Q : E.Point, xOf P = xOf Q → (∃ n : Nat, P = n • B) → (∃ n : Nat, Q = n • B) → P = Q ∨ P = -Q := by
    intro P Q hx hP hQ
    match P, Q, hx, hP, hQ with
    | .zero, .zero, _, _, _ => exact .inl rfl
    | .zero, .some x y hn, hx, _, ⟨n, hn'⟩ => exact absurd hx.symm (x_ne_zero hn'.symm)
    | .some x y hn, .zero, hx, ⟨n, hn'⟩, _ => exact absurd hx (x_ne_zero hn'.symm)
    | .some x y hn, .some x' y' hn', hx, _, _ =>
      have hx : x = x' := hx
      subst hx
      have c1 := Montgomery.on_curve hn
      have c2 := Montgomery.on_curve hn'
      have : (y - y') * (y + y') = 0 := by linear_combination c1 - c2
      rcases mul_eq_zero.1 this with h | h
      · left
        have : y = y' := by linear_combination h
        subst this
        rfl
      · right
        have : y = -y' := by linear_combination h
        subst this
        rw [Point.neg_some]
        congr 1
        rw [Montgomery.negY_eq]
  have hmod : ∀ n : Nat, n < order → n • B = 0 → n = 0 := by
    intro n hn h
    by_contra hne
    exact multiple_ne_zero (by rwa [Nat.mod_eq_of_lt hn]) h
  rcases key _ _ ha ⟨_, rfl⟩ ⟨_, rfl⟩ with h2 | h2
  · left
    have ha' := a.isLt
    have hb' := b.isLt
    rcases Nat.le_total a.val b.val with hl | hl
    · have : (b.val - a.val) • B = 0 := by
        have e : b.val • B = (b.val - a.val) • B + a.val • B := by rw [← add_nsmul]; congr 1; omega
        rw [h2] at e
        exact left_eq_add.1 (by rw [add_comm] at e; exact e)
      have := hmod _ (by omega) this
      exact Fin.ext (by omega)
    · have : (a.val - b.val) • B = 0 := by
        have e : a.val • B = (a.val - b.val) • B + b.val • B := by rw [← add_nsmul]; congr 1; omega
        rw [← h2] at e
        exact left_eq_add.1 (by rw [add_comm] at e; exact e)
      have := hmod _ (by omega) this
      exact Fin.ext (by omega)
  · right
    have ha' := a.isLt
    have hb' := b.isLt
    have h3 : (a.val + b.val) • B = 0 := by rw [add_nsmul, h2]; abel
    have h4 : (a.val + b.val) % order = 0 := by
      rw [← mod_order] at h3
      exact hmod _ (Nat.mod_lt _ (by decide)) h3
    obtain ⟨k, hk⟩ := Nat.dvd_of_mod_eq_zero h4
    have : k < 2 := by
      by_contra hk2
      have : order * 2 ≤ order * k := Nat.mul_le_mul_left _ (by omega)
      omega
    have hk' : k = 0 ∨ k = 1 := by omega
    rcases hk' with rfl | rfl
    · right; omega
    · left; omega

/-! ## The laws -/

variable (sample : Bytes → Rat) (estimate : Rat → Nat → Nat → Nat → Nat → Nat)

/-- C84: two parties get the same secret. -/
theorem diffie_hellman (a b : Bytes) :
    (realCrypto sample estimate).deriveKxSharedSecret ((realCrypto sample estimate).deriveKxPublic a) b =
      (realCrypto sample estimate).deriveKxSharedSecret ((realCrypto sample estimate).deriveKxPublic b) a := by
  show mulClamped (mulBaseClamped a) b = mulClamped (mulBaseClamped b) a
  unfold mulClamped mulBaseClamped
  rw [decode_encode (multiple_lt _ _), decode_encode (multiple_lt _ _)]
  refine congrArg encode ?_
  refine eq_of_cast (multiple_lt _ _) (multiple_lt _ _) ?_
  rw [multiple_multiple (clamp_lt a) (clamp_lt b), multiple_multiple (clamp_lt b) (clamp_lt a), Nat.mul_comm]

/-- C84: the payload cipher is a permutation, for any key and any payload of at least 32 bytes. -/
theorem payload_cipher (key payload : Bytes) (h : 32 ≤ payload.length) :
    Lioness.decrypt key (Lioness.encrypt key payload) = payload ∧ Lioness.encrypt key (Lioness.decrypt key payload) = payload ∧
      (Lioness.encrypt key payload).length = payload.length :=
  ⟨Lioness.decrypt_encrypt key payload h, Lioness.encrypt_decrypt key payload h, Lioness.encrypt_length key payload⟩

/-- What LIONESS is, byte by byte: four rounds, each of which adds to one part of the payload (the first 32 bytes, or the rest) a
function of the other part and a part of the key: twice the ChaCha20 keystream to every byte of the long part, and twice a keyed
hash of the long part to the short one. -/
def FourRounds (key l0 r0 l1 r1 l2 r2 : Bytes) : Prop :=
  (r1.length = r0.length ∧ ∀ i < r0.length, r1.getD i 0 = r0.getD i 0 ^^^ ChaCha.byte (applyKeystream l0 (slice key 0 32)) i) ∧
    (l1.length = 32 ∧ ∀ i < 32, l1.getD i 0 = l0.getD i 0 ^^^ (Blake2b.hash 32 (slice key 32 64) [] [] r1).getD i 0) ∧
    (r2.length = r0.length ∧ ∀ i < r0.length, r2.getD i 0 = r1.getD i 0 ^^^ ChaCha.byte (applyKeystream l1 (slice key 96 32)) i) ∧
    (l2.length = 32 ∧ ∀ i < 32, l2.getD i 0 = l1.getD i 0 ^^^ (Blake2b.hash 32 (slice key 128 64) [] [] r2).getD i 0)

/-- C84: the payload cipher encrypts every byte of the payload: it is LIONESS. -/
theorem payload_cipher_rounds (key payload : Bytes) (h : 32 ≤ payload.length) :
    ∃ l1 r1 l2 r2, FourRounds key (payload.take 32) (payload.drop 32) l1 r1 l2 r2 ∧ Lioness.encrypt key payload = l2 ++ r2 := by
  have h0 : (payload.take 32).length = 32 := by rw [List.length_take]; omega
  generalize hl0 : payload.take 32 = l0 at h0
  generalize hr0 : payload.drop 32 = r0
  obtain ⟨r1, hr1⟩ : ∃ r1, r1 = Lioness.streamStep (slice key 0 32) l0 r0 := ⟨_, rfl⟩
  obtain ⟨l1, hl1⟩ : ∃ l1, l1 = Lioness.hashStep (slice key 32 64) r1 l0 := ⟨_, rfl⟩
  obtain ⟨r2, hr2⟩ : ∃ r2, r2 = Lioness.streamStep (slice key 96 32) l1 r1 := ⟨_, rfl⟩
  obtain ⟨l2, hl2⟩ : ∃ l2, l2 = Lioness.hashStep (slice key 128 64) r2 l1 := ⟨_, rfl⟩
  have n1 : r1.length = r0.length := by rw [hr1, Lioness.streamStep_length]
  have n2 : l1.length = 32 := by rw [hl1, Lioness.hashStep_length, h0]
  have n3 : r2.length = r0.length := by rw [hr2, Lioness.streamStep_length, n1]
  have n4 : l2.length = 32 := by rw [hl2, Lioness.hashStep_length, n2]
  refine ⟨l1, r1, l2, r2, ⟨⟨n1, fun i hi => ?_⟩, ⟨n2, fun i hi => ?_⟩, ⟨n3, fun i hi => ?_⟩, ⟨n4, fun i hi => ?_⟩⟩, ?_⟩
  · rw [hr1, Lioness.streamStep_byte _ _ _ hi]
  · rw [hl1, Lioness.hashStep, applyKeystream_byte _ _ _ (by omega)]
  · rw [hr2, Lioness.streamStep_byte _ _ _ (by omega)]
  · rw [hl2, Lioness.hashStep, applyKeystream_byte _ _ _ (by omega)]
  · rw [hl2, hr2, hl1, hr1, ← hl0, ← hr0]
    exact Lioness.encrypt_eq key payload

/-- C84: everything that the other theorems assume of the primitives is true of the real ones, whatever the sampler of delays and
the estimate of queueing delays are. -/
theorem realLaws : CryptoLaws (realCrypto sample estimate) where
  scalar_comm a b := by
    show scalarMul a b = scalarMul b a
    unfold scalarMul
    congr 1
    rw [Nat.mul_comm]
  scalar_assoc a b c := by
    show scalarMul (scalarMul a b) c = scalarMul a (scalarMul b c)
    unfold scalarMul
    congr 1
    dsimp only
    rw [Nat.mod_mul_mod, Nat.mul_mod_mod, Nat.mul_assoc]
  mulBaseClamped b := by
    show encode _ = encode _
    rw [multiple_congr (clamp_lt b) (scalar_lt (scalarOfClamped b)) (Nat.mod_mod ..).symm]
    rfl
  mul_mulBase a b := by
    show encode (multiple (decode (encode (multiple base a.val))) b.val) = encode _
    rw [decode_encode (multiple_lt _ _)]
    congr 1
    exact multiple_twice (scalar_lt a) (scalar_lt b) (scalar_lt _) (Nat.mod_mod ..).symm
  mulClamped_mulBase a b := by
    show encode (multiple (decode (encode (multiple base a.val))) (clamp b)) = encode _
    rw [decode_encode (multiple_lt _ _)]
    congr 1
    refine multiple_twice (scalar_lt a) (clamp_lt b) (scalar_lt _) ?_
    show a.val * clamp b % order = a.val * (clamp b % order) % order % order
    rw [Nat.mod_mod, Nat.mul_mod, Nat.mul_mod a.val (clamp b % order), Nat.mod_mod]
  mulBase_length a := toLe_length ..
  mulClamped_length q b := toLe_length ..
  blake64_length k i q := Blake2b.hash_length (by decide) ..
  blakeMac_length k m := Blake2b.hash_length (by decide) ..
  decrypt_encrypt k q h := Lioness.decrypt_encrypt k q (by rw [h]; decide)
  encrypt_decrypt k q h := Lioness.encrypt_decrypt k q (by rw [h]; decide)
  encrypt_length k q h := (Lioness.encrypt_length k q).trans h
  decrypt_length k q h := (Lioness.decrypt_length k q).trans h
  delay_total := fun (a b : Rat) => by
    show decide ((a : Rat) ≤ b) = true ∨ decide ((b : Rat) ≤ a) = true
    rw [decide_eq_true_eq, decide_eq_true_eq]
    exact le_total _ _
  delay_trans := fun (a b c : Rat) => by
    show decide ((a : Rat) ≤ b) = true → decide ((b : Rat) ≤ c) = true → decide ((a : Rat) ≤ c) = true
    rw [decide_eq_true_eq, decide_eq_true_eq, decide_eq_true_eq]
    exact le_trans
  delay_add_mono := fun (a b c d : Rat) => by
    show decide ((a : Rat) ≤ b) = true → decide ((c : Rat) ≤ d) = true →
      decide (Binary64.round ((a : Rat) + c) ≤ Binary64.round ((b : Rat) + d)) = true
    rw [decide_eq_true_eq, decide_eq_true_eq, decide_eq_true_eq]
    exact fun h1 h2 => Binary64.round_mono (add_le_add h1 h2)
  delay_duration_mono := fun (a b : Rat) u => by
    show decide ((a : Rat) ≤ b) = true → Binary64.mulDuration a u ≤ Binary64.mulDuration b u
    rw [decide_eq_true_eq]
    exact fun h => Binary64.mulDuration_mono h u

/-! ## So the other theorems hold with the real primitives -/

/-- With the primitives the code uses, a request packet for any path of up to six hops is peeled by each node on it, and the last
one gets the payload. -/
example := request_packet_travels (realLaws sample estimate) (fun n => n) (List.replicate PACKET_SIZE 5) List.length_replicate _ _
  example_path

/-- The fragments of a request that a node posts arrive. -/
example {config : Config} {m : Node} (m' : Node) (hr : Node.Reachable (realCrypto sample estimate) config m) (hk : config.numHops ≤ 6) :=
  @request_arrives (realCrypto sample estimate) (realLaws sample estimate) config m m' hr hk

/-! ## Known vectors -/

/-- A number written with its bytes in the order in which they are sent. -/
def sentAs (k n : Nat) : Bytes := (toLe k n).reverse

/-- The first `n` bytes of the sequence 0, 1, 2, … -/
def upTo (n : Nat) : Bytes := (List.range n).map UInt8.ofNat

-- X25519: RFC 7748, section 5.2
example : mulClamped (sentAs 32 0xe6db6867583030db3594c1a424b15f7c726624ec26b3353b10a903a6d0ab1c4c)
    (sentAs 32 0xa546e36bf0527c9d3b16154b82465edd62144c0ac1fc5a18506a2244ba449ac4) =
    sentAs 32 0xc3da55379de9c6908e94ea4df28d084f32eccf03491c71f754b4075577a28552 := by decide +kernel
example : mulClamped (sentAs 32 0xe5210f12786811d3f4b7959d0538ae2c31dbe7106fc03c3efc4cd549c715a493)
    (sentAs 32 0x4b66e9d4d1b4673c5ad22691957d6af5c11b6421e0ea01d42ca4169e7918ba0d) =
    sentAs 32 0x95cbde9476e8907d7aade45cb4b873f88b595a68799fa152e6f8f7647aac7957 := by decide +kernel
-- RFC 7748, section 6.1
def alicePublic : Bytes := sentAs 32 0x8520f0098930a754748b7ddcb43ef75a0dbf3a0d26381af4eba4a98eaa9b4e6a
def bobSecret : Bytes := sentAs 32 0x5dab087e624a8a4b79e17f8b83800ee66f3bb1292618b6fd1c2f8b27ff88e0eb
example : mulBaseClamped bobSecret = sentAs 32 0xde9edb7d7b7dc1b4d35b61c2ece435373f8343c85b78674dadfc7e146f882b4f := by
  decide +kernel
example : mulClamped alicePublic bobSecret = sentAs 32 0x4a5d9d5ba4ce2de1728e3bf480350f25e07e21c947d19e3376f09b3c1e161742 := by
  decide +kernel

-- BLAKE2b: RFC 7693, appendix A, and the calls of the code on some keys (computed with another implementation)
example : Blake2b.hash 64 [] [] [] (ascii "abc") =
    sentAs 64 0xba80a53f981c4d0d6a2797b69f12f6e94c212f14685ac4b74b12bb6fdbffa2d17d87c5392aab792dc252d5de4533cc9518d38aa8dbf1925ab92386edd4009923 := by
  decide +kernel
example : (realCrypto (fun _ => 0) fun _ _ _ _ _ => 0).deriveKxBlindingFactor (upTo 32) ((upTo 64).drop 32) =
    sentAs 32 0x7e3859131db89588b583090eebf305d40b15c1b68b55024ba2ba4f8205e17993 := by
  decide +kernel
example : slice ((realCrypto (fun _ => 0) fun _ _ _ _ _ => 0).payloadEncryptionKey (upTo 32)) 128 64 =
    sentAs 64 0xbba0182c7469500de64cca975981e83f220750b626dd2ec0382b6dcbbfaea0421b36f7c948c5412e3a5750bc2bf68470fee938231d7f9f72fe6348b516e46170 := by
  decide +kernel
example : (realCrypto (fun _ => 0) fun _ _ _ _ _ => 0).computeMac (upTo 256) (upTo 44) (upTo 16) =
    sentAs 16 0x5d02aa9bd88f09e56e2f1bdc41bd917c := by
  decide +kernel

-- ChaCha20: the first two blocks for the key 0
example : (realCrypto (fun _ => 0) fun _ _ _ _ _ => 0).keystream (List.replicate 32 0) 128 =
    sentAs 128 0x76b8e0ada0f13d90405d6ae55386bd28bdd219b8a08ded1aa836efcc8b770dc7da41597c5157488d7724e03fb8d84a376a43b8f41518a11cc387b669b2ee65869f07e7be5551387a98ba977c732d080dcb0f29a048e3656912c6533e32ee7aed29b721769ce64e43d57133b074d839d531ed1f28510afb45ace10a1f4b794d6f := by
  decide +kernel

-- `f64`: 0.1 + 0.2 is 0.30000000000000004, and 1.5 times 100 ms is 150 ms
example : Binary64.round (Binary64.round (1 / 10) + Binary64.round (2 / 10)) = 5404319552844596 / 2 ^ 54 := by decide +kernel
example : Binary64.mulDuration (3 / 2) 100000000 = 150000000 := by decide +kernel

end Mixnet.Props
