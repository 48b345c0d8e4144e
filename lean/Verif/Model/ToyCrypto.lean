import Verif.Model.Crypto
/-!
# A concrete instance of the cryptographic primitives

Not a model of any code: it shows that the assumptions in `CryptoLaws` can be met, and lets the
examples beside the theorems be concrete.
-/
namespace Mixnet

def toyCrypto : Crypto where
  Scalar := UInt8
  scalarOfClamped b := b.headD 0
  scalarMul a b := a * b
  mulBase a := List.replicate 32 a
  mulBaseClamped b := List.replicate 32 (b.headD 0)
  mul p s := List.replicate 32 (p.headD 0 * s)
  mulClamped p b := List.replicate 32 (p.headD 0 * b.headD 0)
  blake32 k _ := k.take 32
  blake64 k i _ := List.replicate 64 (k.headD 0 + UInt8.ofNat i)
  blakeMac k m := List.replicate 16 (m.foldl (· + ·) (k.headD 0))
  replayHash k := UInt64.ofNat (k.foldl (fun a b => (a * 31 + b.toNat) % 2 ^ 64) 0)
  chacha k i := k.headD 0 + UInt8.ofNat i
  lionessEncrypt k p := p.map (· + k.headD 0)
  lionessDecrypt k p := p.map (· - k.headD 0)
  Delay := Nat
  delayZero := 0
  delayAdd a b := a + b
  delayTen := 10
  expSample s := (s.headD 0).toNat % 16
  delayLe a b := decide (a ≤ b)
  delayToDuration d u := d * u
  queueDelayEstimate _ p n q m := p * n + q * m

theorem toyLaws : CryptoLaws toyCrypto where
  scalar_comm := fun a b => UInt8.mul_comm a b
  scalar_assoc := fun a b c => UInt8.mul_assoc a b c
  mulBaseClamped := fun _ => rfl
  mul_mulBase := fun _ _ => rfl
  mulClamped_mulBase := fun _ _ => rfl
  mulBase_length := fun _ => List.length_replicate
  mulClamped_length := fun _ _ => List.length_replicate
  blake64_length := fun _ _ _ => List.length_replicate
  blakeMac_length := fun _ _ => List.length_replicate
  decrypt_encrypt := fun k p _ => by
    simp [toyCrypto, Function.comp_def]
  encrypt_decrypt := fun k p _ => by
    simp [toyCrypto, Function.comp_def]
  encrypt_length := fun k p h => by simp only [toyCrypto, List.length_map, h]
  decrypt_length := fun k p h => by simp only [toyCrypto, List.length_map, h]
  delay_total := fun a b => by
    have := Nat.le_total a b
    simpa only [toyCrypto, decide_eq_true_eq] using this
  delay_trans := fun a b c h h' => by
    simp only [toyCrypto, decide_eq_true_eq] at *
    exact Nat.le_trans h h'
  delay_add_mono := fun a b c d h h' => by
    simp only [toyCrypto, decide_eq_true_eq] at *
    exact Nat.add_le_add h h'
  delay_duration_mono := fun a b u h => by
    simp only [toyCrypto, decide_eq_true_eq] at *
    exact Nat.mul_le_mul_right u h

end Mixnet
