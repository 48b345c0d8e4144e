import Verif.Model.ReplayFilter
import Mathlib.Tactic.Ring
/-!
# Bits of the replay filter
-/
namespace Mixnet.ReplayFilter

/-- Bit `n` of an array of words. -/
def bit (w : Nat → UInt64) (n : Nat) : Bool := (w (n / 64)).toBitVec.getLsbD (n % 64)

/-- The bit addressed by an index. -/
def addr (i : UInt32) : Nat := i.toNat % FILTER_NUM_BITS

theorem wordIndex_eq (i : UInt32) : wordIndex i = addr i / 64 := by
  unfold wordIndex addr
  rw [Nat.shiftRight_eq_div_pow]
  show i.toNat / 64 % 1048576 = i.toNat % 67108864 / 64
  omega

theorem and63 (i : UInt32) : ((i &&& 63).toUInt64).toNat = addr i % 64 := by
  have h : (i &&& 63).toNat = i.toNat % 64 := by
    rw [UInt32.toNat_and]
    exact Nat.and_two_pow_sub_one_eq_mod i.toNat 6
  rw [UInt32.toNat_toUInt64, h]
  unfold addr
  show _ = i.toNat % 67108864 % 64
  omega

theorem mask_bit (i : UInt32) (j : Nat) (hj : j < 64) :
    (mask i).toBitVec.getLsbD j = decide (j = addr i % 64) := by
  have h1 : addr i % 64 < 64 := Nat.mod_lt _ (by decide)
  have : (mask i).toNat = 2 ^ (addr i % 64) := by
    unfold mask
    rw [UInt64.toNat_shiftLeft, and63, Nat.mod_mod_of_dvd _ (Nat.dvd_refl 64)]
    show (1 <<< (addr i % 64)) % 2 ^ 64 = _
    rw [Nat.shiftLeft_eq, Nat.one_mul]
    exact Nat.mod_eq_of_lt (Nat.pow_lt_pow_right (by decide) h1)
  rw [BitVec.getLsbD, ← UInt64.toNat, this, Nat.testBit_two_pow]
  exact decide_eq_decide.mpr ⟨Eq.symm, Eq.symm⟩

theorem bit_set (w : Nat → UInt64) (i : UInt32) (n : Nat) :
    bit (fun k => if k = wordIndex i then w k ||| mask i else w k) n = (bit w n || decide (n = addr i)) := by
  have hn : n % 64 < 64 := Nat.mod_lt _ (by decide)
  unfold bit
  beta_reduce
  by_cases h : n / 64 = wordIndex i
  · rw [if_pos h, UInt64.toBitVec_or, BitVec.getLsbD_or, mask_bit i _ hn]
    congr 1
    rw [wordIndex_eq] at h
    apply decide_eq_decide.mpr
    constructor
    · intro h'; omega
    · intro h'; rw [h']
  · rw [if_neg h]
    have : n ≠ addr i := by
      intro h'; exact h (by rw [wordIndex_eq, h'])
    simp [this]

theorem test_bit (w : Nat → UInt64) (i : UInt32) :
    (w (wordIndex i) &&& mask i == 0) = !bit w (addr i) := by
  unfold bit
  rw [wordIndex_eq]
  generalize w (addr i / 64) = x
  have h1 : addr i % 64 < 64 := Nat.mod_lt _ (by decide)
  cases hb : x.toBitVec.getLsbD (addr i % 64) with
  | false =>
    simp only [Bool.not_false, beq_iff_eq]
    apply UInt64.toBitVec_inj.mp
    apply BitVec.eq_of_getLsbD_eq
    intro j hj
    rw [UInt64.toBitVec_and, BitVec.getLsbD_and, mask_bit i j hj]
    by_cases hji : j = addr i % 64
    · subst hji; rw [hb]; simp
    · simp [hji]
  | true =>
    simp only [Bool.not_true, beq_eq_false_iff_ne, ne_eq]
    intro h0
    have := congrArg (fun y : UInt64 => y.toBitVec.getLsbD (addr i % 64)) h0
    simp only [UInt64.toBitVec_and, BitVec.getLsbD_and, mask_bit i _ h1, hb] at this
    simp at this

/-- Index of probe `k` of a tag, before reduction to the filter size. -/
def idx (base inc : UInt32) (k : Nat) : UInt32 := base + UInt32.ofNat k * inc

theorem idx_zero (b inc : UInt32) : idx b inc 0 = b := by simp [idx]

theorem idx_succ (b inc : UInt32) (k : Nat) : idx (b + inc) inc k = idx b inc (k + 1) := by
  unfold idx
  apply UInt32.toNat_inj.mp
  simp only [UInt32.toNat_add, UInt32.toNat_mul, UInt32.toNat_ofNat']
  simp only [Nat.add_mod, Nat.mul_mod, Nat.mod_mod]
  simp only [← Nat.mul_mod, ← Nat.add_mod, Nat.mod_mod, Nat.mod_add_mod, Nat.add_mod_mod, Nat.mod_mul_mod]
  have hinc : inc.toNat % 4294967296 = inc.toNat := Nat.mod_eq_of_lt inc.toNat_lt
  rw [hinc]
  congr 1
  ring

theorem insertLoop_bit (inc : UInt32) (n : Nat) : ∀ (i : UInt32) (w : Nat → UInt64) (a : Nat),
    bit (insertLoop inc n i w) a = true ↔ bit w a = true ∨ ∃ k < n, a = addr (idx i inc k) := by
  induction n with
  | zero => intro i w a; simp [insertLoop]
  | succ n ih =>
    intro i w a
    unfold insertLoop
    rw [ih, bit_set]
    simp only [Bool.or_eq_true, decide_eq_true_eq, idx_succ]
    constructor
    · rintro ((h | h) | ⟨k, hk, h⟩)
      · exact .inl h
      · exact .inr ⟨0, by omega, by rw [idx_zero]; exact h⟩
      · exact .inr ⟨k + 1, by omega, h⟩
    · rintro (h | ⟨k, hk, h⟩)
      · exact .inl (.inl h)
      · cases k with
        | zero => rw [idx_zero] at h; exact .inl (.inr h)
        | succ k => exact .inr ⟨k, by omega, h⟩

theorem containsLoop_iff (inc : UInt32) (w : Nat → UInt64) (n : Nat) : ∀ (i : UInt32),
    containsLoop inc w n i = true ↔ ∀ k < n, bit w (addr (idx i inc k)) = true := by
  induction n with
  | zero => intro i; simp [containsLoop]
  | succ n ih =>
    intro i
    unfold containsLoop
    rw [test_bit]
    constructor
    · intro h k hk
      cases hb : bit w (addr i) with
      | false => rw [hb] at h; simp at h
      | true =>
        rw [hb] at h
        simp only [Bool.not_true, Bool.false_eq_true, if_false] at h
        cases k with
        | zero => rw [idx_zero]; exact hb
        | succ k => rw [← idx_succ]; exact (ih _).mp h k (by omega)
    · intro h
      have h0 := h 0 (by omega)
      rw [idx_zero] at h0
      rw [h0]
      simp only [Bool.not_true, Bool.false_eq_true, if_false]
      exact (ih _).mpr fun k hk => by rw [idx_succ]; exact h (k + 1) (by omega)

theorem contains_iff_bit (f : ReplayFilter) (t : ReplayTag) :
    f.contains t = true ↔ ∃ w, f.words = some w ∧
      ∀ k < FILTER_NUM_TAG_BITS, bit w (addr (idx t.base t.inc k)) = true := by
  unfold contains
  cases f.words with
  | none => simp
  | some w => simp [containsLoop_iff]

/-- The bits of the filter. -/
def bits (f : ReplayFilter) (a : Nat) : Prop := ∃ w, f.words = some w ∧ bit w a = true

theorem contains_iff (f : ReplayFilter) (t : ReplayTag) :
    f.contains t = true ↔ ∀ k < FILTER_NUM_TAG_BITS, bits f (addr (idx t.base t.inc k)) := by
  rw [contains_iff_bit]
  constructor
  · rintro ⟨w, hw, h⟩ k hk; exact ⟨w, hw, h k hk⟩
  · intro h
    obtain ⟨w, hw, _⟩ := h 0 (by decide)
    refine ⟨w, hw, fun k hk => ?_⟩
    obtain ⟨w', hw', hb⟩ := h k hk
    rw [hw] at hw'; cases hw'; exact hb

theorem bits_insert (f : ReplayFilter) (t : ReplayTag) (a : Nat) :
    bits (f.insert t) a ↔ bits f a ∨ ∃ k < FILTER_NUM_TAG_BITS, a = addr (idx t.base t.inc k) := by
  unfold bits insert
  constructor
  · rintro ⟨w, hw, hb⟩
    cases hw
    rw [insertLoop_bit] at hb
    refine hb.imp (fun h => ?_) id
    cases hf : f.words with
    | none => rw [hf] at h; simp [bit] at h
    | some w => rw [hf] at h; exact ⟨w, rfl, h⟩
  · intro h
    refine ⟨_, rfl, ?_⟩
    rw [insertLoop_bit]
    refine h.imp (fun ⟨w, hw, hb⟩ => ?_) id
    rw [hw]; exact hb

end Mixnet.ReplayFilter
