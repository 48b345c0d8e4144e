import Verif.Model.Sphinx
import Verif.Proofs.Consts
import Verif.Proofs.Scattered
/-! Keystreams and fixed-size array accesses. -/
namespace Mixnet

theorem byte_xor_xor (a b : Byte) : a ^^^ b ^^^ b = a := by
  rw [UInt8.xor_assoc, UInt8.xor_self, UInt8.xor_zero]

@[simp] theorem applyKeystream_length (d k : Bytes) : (applyKeystream d k).length = d.length := by
  induction d generalizing k with
  | nil => cases k <;> rfl
  | cons x d ih => cases k with
    | nil => rfl
    | cons y k => simp [applyKeystream, ih]

@[simp] theorem applyKeystream_nil_right (d : Bytes) : applyKeystream d [] = d := by
  cases d <;> rfl

@[simp] theorem applyKeystream_nil_left (k : Bytes) : applyKeystream [] k = [] := by
  cases k <;> rfl

theorem applyKeystream_append (a b k : Bytes) :
    applyKeystream (a ++ b) k = applyKeystream a k ++ applyKeystream b (k.drop a.length) := by
  induction a generalizing k with
  | nil => simp
  | cons x a ih => cases k with
    | nil => simp
    | cons y k => simp [applyKeystream, ih]

theorem applyKeystream_cancel (d k : Bytes) : applyKeystream (applyKeystream d k) k = d := by
  induction d generalizing k with
  | nil => simp
  | cons x d ih => cases k with
    | nil => rfl
    | cons y k => simp [applyKeystream, ih, byte_xor_xor]

theorem applyKeystream_take (d k : Bytes) (n : Nat) (h : d.length ≤ n) :
    applyKeystream d (k.take n) = applyKeystream d k := by
  induction d generalizing k n with
  | nil => simp
  | cons x d ih => cases k with
    | nil => simp
    | cons y k => cases n with
      | zero => simp at h
      | succ n => simp at h; simp [applyKeystream, ih _ _ h]

theorem applyKeystream_zeros (n : Nat) (k : Bytes) (h : k.length = n) :
    applyKeystream (List.replicate n 0) k = k := by
  induction n generalizing k with
  | zero => simp at h; simp [h]
  | succ n ih => cases k with
    | nil => simp at h
    | cons y k => simp at h; simp [List.replicate_succ, applyKeystream, ih _ h]

theorem take_applyKeystream (d k : Bytes) (n : Nat) :
    (applyKeystream d k).take n = applyKeystream (d.take n) k := by
  induction d generalizing k n with
  | nil => simp
  | cons x d ih => cases k with
    | nil => simp
    | cons y k => cases n with
      | zero => simp
      | succ n => simp [applyKeystream, ih]

@[simp] theorem keystream_length (C : Crypto) (key : Bytes) (n : Nat) : (C.keystream key n).length = n := by
  simp [Crypto.keystream]

theorem keystream_take (C : Crypto) (key : Bytes) (n m : Nat) (h : m ≤ n) :
    (C.keystream key n).take m = C.keystream key m := by
  simp only [Crypto.keystream, ← List.map_take, List.take_range, Nat.min_eq_left h]

/-- Encryption with the first `d.length` keystream bytes is encryption with any longer prefix. -/
theorem applyActions_eq (C : Crypto) (d key : Bytes) (n : Nat) (h : d.length ≤ n) :
    C.applyActionsEncryptionKeystream d key = applyKeystream d (C.keystream key n) := by
  rw [Crypto.applyActionsEncryptionKeystream, ← keystream_take C key n d.length h,
    applyKeystream_take _ _ _ (Nat.le_refl _)]

theorem arrayRef_ok (site : String) (l : Bytes) (off n : Nat) (h : off + n ≤ l.length) :
    arrayRef site l off n = .ok (slice l off n) := if_pos h

theorem arraySet_ok (site : String) (l : Bytes) (off : Nat) (xs : Bytes) (h : off + xs.length ≤ l.length) :
    arraySet site l off xs = .ok (splice l off xs) := if_pos h

theorem sliceFrom_ok (site : String) (l : Bytes) (off : Nat) (h : off ≤ l.length) :
    sliceFrom site l off = .ok (l.drop off) := if_pos h

theorem sliceTo_ok (site : String) (l : Bytes) (off : Nat) (h : off ≤ l.length) :
    sliceTo site l off = .ok (l.take off) := if_pos h

theorem assertP_ok (site : String) {p : Prop} [Decidable p] (h : p) : assertP site (decide p) = .ok () := by
  simp [assertP, h]

theorem slice_length {α} (l : List α) (off n : Nat) (h : off + n ≤ l.length) : (slice l off n).length = n := by
  simp [slice]; omega

theorem splice_length {α} (l : List α) (off : Nat) (xs : List α) (h : off + xs.length ≤ l.length) :
    (splice l off xs).length = l.length := by
  simp [splice]; omega

theorem splice_mid {α} (a b c xs : List α) (off : Nat) (ha : a.length = off) (hb : b.length = xs.length) :
    splice (a ++ b ++ c) off xs = a ++ xs ++ c := by
  subst ha
  simp [splice, ← hb, List.append_assoc]

theorem slice_mid {α} (a b c : List α) (off n : Nat) (ha : a.length = off) (hb : b.length = n) :
    slice (a ++ b ++ c) off n = b := by
  subst ha hb
  simp [slice, List.append_assoc]

theorem split3 {α} (l : List α) (i j : Nat) (h : i + j ≤ l.length) :
    ∃ a b c, l = a ++ b ++ c ∧ a.length = i ∧ b.length = j ∧ c.length = l.length - (i + j) := by
  refine ⟨l.take i, (l.drop i).take j, (l.drop i).drop j, ?_, ?_, ?_, ?_⟩
  · rw [List.append_assoc, List.take_append_drop, List.take_append_drop]
  · simp; omega
  · simp; omega
  · simp

theorem take_splice_le {α} (l : List α) (off : Nat) (xs : List α) (n : Nat) (h : n ≤ off)
    (hl : off ≤ l.length) : (splice l off xs).take n = l.take n := by
  rw [splice, List.append_assoc, List.take_append_of_le_length (by simp; omega), List.take_take,
    Nat.min_eq_left h]

theorem take_splice_end {α} (l : List α) (off : Nat) (xs : List α) (h : off ≤ l.length) :
    (splice l off xs).take (off + xs.length) = l.take off ++ xs := by
  rw [splice, List.take_append_of_le_length (by simp; omega), List.take_of_length_le (by simp; omega)]

end Mixnet
