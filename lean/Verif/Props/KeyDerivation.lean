import Verif.Model.Blake
import Verif.Model.ToyCrypto
import Mathlib.Tactic.IntervalCases
/-!
# C72: secrets for different purposes are derived independently

All secrets are derived with one hash function, from the same shared secret. `C.withBlake H` are the primitives with
that function being `H`.
-/
namespace Mixnet.Props
open Mixnet

/-- The first `n` bytes, filled up with zeros. -/
def fit (n : Nat) (l : Bytes) : Bytes := (l ++ List.replicate n 0).take n

theorem fit_length (n : Nat) (l : Bytes) : (fit n l).length = n := by
  unfold fit
  rw [List.length_take, List.length_append, List.length_replicate]
  omega

theorem fit_of_length {n : Nat} {l : Bytes} (h : l.length = n) : fit n l = l := by
  unfold fit
  rw [List.take_append_of_le_length (by omega), ← h, List.take_length]

theorem toLe64_length (n : Nat) : (toLe64 n).length = 8 := by
  unfold toLe64
  rw [List.length_map, List.length_range]

theorem digits (n : Nat) : ∀ k, ((List.range k).map fun j => n / 256 ^ j % 256 * 256 ^ j).sum = n % 256 ^ k
  | 0 => by simp [Nat.mod_one]
  | k + 1 => by
    rw [List.range_succ, List.map_append, List.sum_append, digits n k, Nat.pow_succ, Nat.mod_mul]
    simp [Nat.mul_comm]

theorem fromLe64_toLe64 {n : Nat} (h : n < 2 ^ 64) : fromLe64 (toLe64 n) = n := by
  have e : fromLe64 (toLe64 n) = ((List.range 8).map fun j => n / 256 ^ j % 256 * 256 ^ j).sum := by
    unfold fromLe64
    refine congrArg List.sum (List.map_congr_left fun j hj => ?_)
    have hj : j < 8 := List.mem_range.1 hj
    have : (toLe64 n).getD j 0 = UInt8.ofNat (n / 256 ^ j) := by
      unfold toLe64
      rw [List.getD_eq_getElem?_getD, List.getElem?_map, List.getElem?_range hj]
      rfl
    rw [this, UInt8.toNat_ofNat']
  rw [e, digits]
  exact Nat.mod_eq_of_lt h

theorem slices (l : Bytes) (h : l.length = 192) : slice l 0 64 ++ (slice l 64 64 ++ (slice l 128 64 ++ [])) = l := by
  unfold slice
  rw [List.append_nil, List.drop_zero]
  have e1 : (l.drop 128).take 64 = l.drop 128 := List.take_of_length_le (by rw [List.length_drop]; omega)
  have e2 : (l.drop 64).take 64 ++ l.drop 128 = l.drop 64 := by
    have := List.take_append_drop 64 (l.drop 64)
    rwa [List.drop_drop] at this
  rw [e1, e2, List.take_append_drop]

/-- C72: whatever values one wants for the blinding factors, MAC keys, actions encryption keys, delay seeds, payload
encryption keys, MACs and replay tags, as functions of the shared secret (and the public key, the message, the filter's
key), there is a hash function with which the code derives just these. So no call of the hash function made for one
purpose is ever made for another one, or for another input: if the hash function is random, the derived values are
independent. -/
theorem secrets_independent (C : Crypto) (blind : KxPublic → SharedSecret → Bytes)
    (mac act seed pay : SharedSecret → Bytes) (code : Bytes → Bytes → Bytes) (tag : Bytes → SharedSecret → UInt64)
    (h1 : ∀ p s, (blind p s).length = 32) (h2 : ∀ s, (mac s).length = MAC_KEY_SIZE)
    (h3 : ∀ s, (act s).length = ACTIONS_ENCRYPTION_KEY_SIZE) (h4 : ∀ s, (seed s).length = DELAY_SEED_SIZE)
    (h5 : ∀ s, (pay s).length = 192) (h6 : ∀ k m, (code k m).length = 16) :
    ∃ H : Blake, (∀ size key salt personal msg, (H size key salt personal msg).length = size) ∧
      ∀ sec : SharedSecret, sec.length = 32 →
        (∀ pub : KxPublic, pub.length = 32 → (C.withBlake H).deriveKxBlindingFactor pub sec = blind pub sec) ∧
        (C.withBlake H).macKey sec = mac sec ∧
        (C.withBlake H).actionsEncryptionKey sec = act sec ∧
        (C.withBlake H).delaySeed sec = seed sec ∧
        (C.withBlake H).payloadEncryptionKey sec = pay sec ∧
        (∀ key actions pad, (C.withBlake H).computeMac actions pad key = code key (actions ++ pad)) ∧
        (∀ f : ReplayFilter, f.key.length = 32 →
          f.tag (C.withBlake H) sec = ⟨(tag f.key sec).toUInt32, (tag f.key sec >>> 32).toUInt32⟩) := by
  refine ⟨fun size key salt personal msg => fit size
    (if size = 32 then blind (key.take 32) (key.drop 32)
     else if size = 64 then
      (if personal = Personal.bytes .smallDerivedSecrets then mac key ++ act key ++ seed key
       else slice (pay key) (64 * (salt.headD 0).toNat) 64)
     else if size = 16 then code key msg
     else toLe64 (tag (key.take 32) (key.drop 32)).toNat), fun _ _ _ _ _ => fit_length _ _, fun sec hs => ?_⟩
  have hsm : ∀ s, (mac s ++ act s ++ seed s).length = 64 := by
    intro s
    rw [List.length_append, List.length_append, h2, h3, h4]
    decide
  refine ⟨fun pub hp => ?_, ?_, ?_, ?_, ?_, fun key actions pad => ?_, fun f hf => ?_⟩
  · show fit 32 (if 32 = 32 then _ else _) = _
    rw [if_pos rfl, ← hp, List.take_left, List.drop_left, hp, fit_of_length (h1 ..)]
  · show slice (fit 64 _ ++ []) 0 MAC_KEY_SIZE = _
    rw [if_neg (by decide), if_pos rfl, if_pos (by decide), fit_of_length (hsm _), List.append_nil]
    unfold slice
    rw [List.drop_zero, List.append_assoc, ← h2 sec, List.take_left]
  · show slice (fit 64 _ ++ []) MAC_KEY_SIZE ACTIONS_ENCRYPTION_KEY_SIZE = _
    rw [if_neg (by decide), if_pos rfl, if_pos (by decide), fit_of_length (hsm _), List.append_nil]
    unfold slice
    rw [List.append_assoc, ← h2 sec, List.drop_left, ← h3 sec, List.take_left]
  · show slice (fit 64 _ ++ []) (MAC_KEY_SIZE + ACTIONS_ENCRYPTION_KEY_SIZE) DELAY_SEED_SIZE = _
    rw [if_neg (by decide), if_pos rfl, if_pos (by decide), fit_of_length (hsm _), List.append_nil]
    unfold slice
    rw [← h2 sec, ← h3 sec, ← List.length_append, List.drop_left, ← h4 sec, List.take_length]
  · show fit 64 _ ++ (fit 64 _ ++ (fit 64 _ ++ [])) = _
    simp only [if_neg (show ¬ (64 = 32) by decide), if_true]
    have hp : ¬ (blakePad (Personal.bytes .payloadEncryptionKey) = Personal.bytes .smallDerivedSecrets) := by decide
    rw [if_neg hp, if_neg hp, if_neg hp]
    have e : ∀ i, i < 3 → fit 64 (slice (pay sec) (64 * ((blakePad (toLe64 i)).headD 0).toNat) 64) =
        slice (pay sec) (64 * i) 64 := by
      intro i hi
      have : ((blakePad (toLe64 i)).headD 0).toNat = i := by
        interval_cases i <;> decide
      rw [this]
      refine fit_of_length ?_
      unfold slice
      rw [List.length_take, List.length_drop, h5]
      omega
    rw [e 0 (by omega), e 1 (by omega), e 2 (by omega)]
    exact slices _ (h5 sec)
  · show fit 16 _ = _
    rw [if_neg (by decide), if_neg (by decide), if_pos rfl, fit_of_length (h6 ..)]
  · unfold ReplayFilter.tag
    have : ∀ x, x = tag f.key sec → (⟨x.toUInt32, (x >>> 32).toUInt32⟩ : ReplayTag) =
        ⟨(tag f.key sec).toUInt32, (tag f.key sec >>> 32).toUInt32⟩ := by rintro _ rfl; rfl
    refine this _ ?_
    · show UInt64.ofNat (fromLe64 (fit 8 _)) = _
      rw [if_neg (by decide), if_neg (by decide), if_neg (by decide), ← hf, List.take_left, List.drop_left,
        fit_of_length (toLe64_length _), fromLe64_toLe64 (UInt64.toNat_lt _), UInt64.ofNat_toNat]

/-- The laws assumed of the primitives hold with any hash function that returns as many bytes as asked for, if the
others hold: the theorems about all `C` with these laws are about the code's own calls of the hash function. -/
theorem laws_with_blake {C : Crypto} (hC : CryptoLaws C) {H : Blake}
    (hH : ∀ size key salt personal msg, (H size key salt personal msg).length = size) : CryptoLaws (C.withBlake H) where
  scalar_comm := hC.scalar_comm
  scalar_assoc := hC.scalar_assoc
  mulBaseClamped := hC.mulBaseClamped
  mul_mulBase := hC.mul_mulBase
  mulClamped_mulBase := hC.mulClamped_mulBase
  mulBase_length := hC.mulBase_length
  mulClamped_length := hC.mulClamped_length
  blake64_length := fun _ _ _ => hH ..
  blakeMac_length := fun _ _ => hH ..
  decrypt_encrypt := hC.decrypt_encrypt
  encrypt_decrypt := hC.encrypt_decrypt
  encrypt_length := hC.encrypt_length
  decrypt_length := hC.decrypt_length
  delay_total := hC.delay_total
  delay_trans := hC.delay_trans
  delay_add_mono := hC.delay_add_mono
  delay_duration_mono := hC.delay_duration_mono

/-! ### The hypotheses can be met -/

/-- A hash function with which all MAC keys are 1, all actions encryption keys 2, all payload encryption keys 3 and so
on. -/
example : ∃ H : Blake, CryptoLaws (toyCrypto.withBlake H) ∧
    (toyCrypto.withBlake H).macKey (List.replicate 32 7) = List.replicate 16 1 ∧
    (toyCrypto.withBlake H).actionsEncryptionKey (List.replicate 32 7) = List.replicate 32 2 ∧
    (toyCrypto.withBlake H).payloadEncryptionKey (List.replicate 32 7) = List.replicate 192 3 := by
  obtain ⟨H, h1, h2⟩ := secrets_independent toyCrypto (fun _ _ => List.replicate 32 5) (fun _ => List.replicate 16 1)
    (fun _ => List.replicate 32 2) (fun _ => List.replicate 16 4) (fun _ => List.replicate 192 3)
    (fun _ _ => List.replicate 16 6) (fun _ _ => 9) (fun _ _ => rfl) (fun _ => rfl) (fun _ => rfl) (fun _ => rfl)
    (fun _ => List.length_replicate) (fun _ _ => rfl)
  obtain ⟨-, k1, k2, -, k3, -⟩ := h2 (List.replicate 32 7) rfl
  exact ⟨H, laws_with_blake toyLaws h1, k1, k2, k3⟩

end Mixnet.Props
