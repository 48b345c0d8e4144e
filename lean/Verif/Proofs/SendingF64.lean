import Verif.Model.SendingF64
import Verif.Proofs.Binary64
/-! Rounding errors of the sending rates. -/
set_option exponentiation.threshold 2000

namespace Mixnet.Binary64

/-! ### `f64`s are not rounded again -/

theorem roundPos_mul_pow {k : ℕ} {e : ℤ} (hk : 0 < k) (hk' : k ≤ 2 ^ 53) (he : -1074 ≤ e) :
    roundPos ((k : Rat) * 2 ^ e) = k * 2 ^ e := by
  have hpos : (0 : Rat) < (k : Rat) := by exact_mod_cast hk
  have hp2 : (0 : Rat) < 2 ^ e := by positivity
  have hlog : Int.log 2 ((k : Rat) * 2 ^ e) = Nat.log 2 k + e := by
    have h1 : ((2 : ℕ) : Rat) ^ (Nat.log 2 k + e : ℤ) ≤ (k : Rat) * 2 ^ e := by
      rw [zpow_add₀ (by norm_num)]
      push_cast
      refine mul_le_mul_of_nonneg_right ?_ hp2.le
      rw [zpow_natCast]
      exact_mod_cast Nat.pow_log_le_self 2 (by omega)
    have h2 : (k : Rat) * 2 ^ e < ((2 : ℕ) : Rat) ^ ((Nat.log 2 k + e : ℤ) + 1) := by
      rw [show (Nat.log 2 k + e : ℤ) + 1 = ((Nat.log 2 k + 1 : ℕ) : ℤ) + e by push_cast; ring, zpow_add₀ (by norm_num)]
      rw [zpow_natCast]
      refine mul_lt_mul_of_pos_right ?_ (by push_cast; exact hp2)
      exact_mod_cast Nat.lt_pow_succ_log_self (by norm_num) k
    have hq : 0 < (k : Rat) * 2 ^ e := mul_pos hpos hp2
    have l1 := (Int.zpow_le_iff_le_log (R := Rat) (b := 2) (by norm_num) hq).1 h1
    have l2 := (Int.lt_zpow_iff_log_lt (R := Rat) (b := 2) (by norm_num) hq).1 h2
    omega
  unfold roundPos
  dsimp only
  rw [hlog]
  have hl : Nat.log 2 k ≤ 53 := by
    have := Nat.log_mono_right (b := 2) hk'
    rwa [Nat.log_pow (by norm_num)] at this
  obtain ⟨f, hf⟩ : ∃ f : ℤ, f = max (↑(Nat.log 2 k) + e) (-1022) - 52 := ⟨_, rfl⟩
  rw [← hf]
  have hint : ∃ z : ℤ, (k : Rat) * 2 ^ e / 2 ^ f = z := by
    by_cases h53 : k = 2 ^ 53
    · have hl' : Nat.log 2 k = 53 := by rw [h53, Nat.log_pow (by norm_num)]
      rw [hl'] at hf
      have hfe : f = e + 1 := by
        push_cast at hf
        omega
      refine ⟨2 ^ 52, ?_⟩
      rw [hfe, h53, zpow_add₀ (by norm_num)]
      push_cast
      field_simp
      norm_num
    · have hl' : Nat.log 2 k ≤ 52 := by
        have := Nat.log_lt_of_lt_pow (b := 2) (by omega) (show k < 2 ^ 53 by omega)
        omega
      have hfe : f ≤ e := by
        rw [hf]
        omega
      obtain ⟨d, hd⟩ := Int.le.dest hfe
      refine ⟨k * 2 ^ d, ?_⟩
      rw [← hd, zpow_add₀ (by norm_num), zpow_natCast]
      push_cast
      field_simp
  obtain ⟨z, hz⟩ := hint
  rw [hz, roundEven_int, ← hz]
  field_simp

theorem roundPos_form {q : Rat} (hq : 0 < q) : ∃ (k : ℕ) (e : ℤ), roundPos q = k * 2 ^ e ∧ k ≤ 2 ^ 53 ∧ -1074 ≤ e := by
  obtain ⟨e, he⟩ : ∃ e : ℤ, e = max (Int.log 2 q) (-1022) - 52 := ⟨_, rfl⟩
  have hp2 : (0 : Rat) < 2 ^ e := by positivity
  have hlt : q / 2 ^ e ≤ ((2 ^ 53 : ℤ) : Rat) := by
    rw [div_le_iff₀ hp2]
    have := (Int.lt_zpow_succ_log_self (b := 2) (by norm_num) q).le
    refine le_trans this ?_
    have e1 : ((2 ^ 53 : ℤ) : Rat) * 2 ^ e = 2 ^ (53 + e) := by
      rw [zpow_add₀ (by norm_num)]; norm_num
    rw [e1]
    push_cast
    refine zpow_le_zpow_right₀ (by norm_num) ?_
    rw [he]; omega
  have h53 := roundEven_mono hlt
  rw [roundEven_int] at h53
  have h0 : 0 ≤ roundEven (q / 2 ^ e) := by
    have h := roundEven_mono (show ((0 : ℤ) : Rat) ≤ q / 2 ^ e by push_cast; positivity)
    rwa [roundEven_int] at h
  obtain ⟨k, hk⟩ := Int.eq_ofNat_of_zero_le h0
  refine ⟨k, e, ?_, ?_, by rw [he]; omega⟩
  · unfold roundPos
    dsimp only
    rw [← he, hk]
    norm_cast
  · rw [hk] at h53
    exact_mod_cast h53

theorem round_round {q : Rat} (h : 0 ≤ q) : Binary64.round (Binary64.round q) = Binary64.round q := by
  rcases h.eq_or_lt with rfl | hq
  · rfl
  obtain ⟨k, e, hk, hk', he⟩ := roundPos_form hq
  have hr : Binary64.round q = k * 2 ^ e := by
    unfold Binary64.round
    rw [if_neg hq.ne', if_pos hq, hk]
  rw [hr]
  rcases Nat.eq_zero_or_pos k with rfl | hk0
  · rw [Nat.cast_zero, zero_mul]; rfl
  · have hpos : 0 < (k : Rat) * 2 ^ e := by
      have : (0 : Rat) < k := by exact_mod_cast hk0
      positivity
    unfold Binary64.round
    rw [if_neg hpos.ne', if_pos hpos, roundPos_mul_pow hk0 hk' he]

theorem round_asSecs (ns : ℕ) : Binary64.round (asSecs ns) = asSecs ns := by
  unfold asSecs
  exact round_round (add_nonneg (round_nonneg (by positivity)) (round_nonneg (by positivity)))

/-! ### The share of a session -/

theorem asSecs_pos {ns : ℕ} (h : 0 < ns) : 0 < asSecs ns := by
  have h' : (0 : ℝ) < ns := by exact_mod_cast h
  have := (asSecs_rel ns).pos (show (0 : ℝ) < ns / 10 ^ 9 by positivity)
  exact_mod_cast this

theorem asSecs_zero : asSecs 0 = 0 := by
  have h := asSecs_rel 0
  have h1 := h.nonneg'
  have h2 := h.right
  simp only [Nat.cast_zero, zero_div] at h2
  have hp : (0 : ℝ) < (1 - ulp) ^ 2 := pow_pos' (β := 1 - ulp) 2
  have : ((asSecs 0 : Rat) : ℝ) = 0 := by
    refine le_antisymm ?_ h1
    by_contra hc
    have := mul_pos (not_le.1 hc) hp
    linarith
  exact_mod_cast this

theorem sum_rel (p q : ℕ) : Rel (1 - ulp) 3 ((Binary64.round (asSecs p + asSecs q) : Rat) : ℝ) ((p + q) / 10 ^ 9) := by
  have h := (asSecs_rel p).add (asSecs_rel q)
  rw [← add_div] at h
  refine Rel.round (k := 2) (by push_cast; exact h) (by omega) ?_
  have := big_div (p + q)
  push_cast at this
  exact this

theorem sum_zero_iff (p q : ℕ) : Binary64.round (asSecs p + asSecs q) = 0 ↔ (p : Rat) + q = 0 := by
  have h := sum_rel p q
  constructor
  · intro h0
    rw [h0] at h
    by_contra hc
    have hpos : (0 : ℝ) < (p + q) / 10 ^ 9 := by
      have : (0 : Rat) ≤ (p : Rat) + q := by positivity
      have : (0 : Rat) < (p : Rat) + q := lt_of_le_of_ne this (Ne.symm hc)
      have : (0 : ℝ) < (p : ℝ) + q := by exact_mod_cast this
      positivity
    have := h.pos hpos
    simp at this
  · intro h0
    have hp : p = 0 ∧ q = 0 := by
      have : ((p + q : ℕ) : Rat) = 0 := by push_cast; exact h0
      have : p + q = 0 := by exact_mod_cast this
      omega
    rw [hp.1, hp.2, asSecs_zero, add_zero]; rfl

theorem share_nonneg (p q : ℕ) : 0 ≤ share p q :=
  round_nonneg (div_nonneg (asSecs_nonneg q) (round_nonneg (add_nonneg (asSecs_nonneg p) (asSecs_nonneg q))))

/-- The argument of `gen_bool` is never more than 1. -/
theorem share_le_one (p q : ℕ) : share p q ≤ 1 := by
  have h1 : Binary64.round 1 = 1 := by
    have := round_nat (n := 1) (by norm_num)
    simpa using this
  unfold share
  rw [← h1]
  refine round_mono ?_
  have hle : asSecs q ≤ Binary64.round (asSecs p + asSecs q) := by
    have := round_mono (show asSecs q ≤ asSecs p + asSecs q by linarith [asSecs_nonneg p])
    rwa [round_asSecs] at this
  exact div_le_one_of_le₀ hle (round_nonneg (add_nonneg (asSecs_nonneg p) (asSecs_nonneg q)))

theorem share_rel (p q : ℕ) (h0 : 0 < p + q) (hp : p < 2 ^ 94) (hq : q < 2 ^ 94) :
    Rel (1 - ulp) 6 ((share p q : Rat) : ℝ) (q / (p + q)) := by
  have hpos : (0 : ℝ) < (p : ℝ) + q := by exact_mod_cast h0
  have h := (asSecs_rel q).div (sum_rel p q) (by positivity)
  have e : (q : ℝ) / 10 ^ 9 / ((p + q) / 10 ^ 9) = q / (p + q) := by field_simp
  rw [e] at h
  unfold share
  refine Rel.round (k := 5) (by push_cast; exact h) (by omega) ?_
  rcases Nat.eq_zero_or_pos q with rfl | hq0
  · left; simp
  · refine big_of_one ?_
    have h1 : (1 : ℝ) ≤ q := by exact_mod_cast hq0
    have h2 : (p : ℝ) + q ≤ 2 ^ 95 := by
      have : p + q ≤ 2 ^ 95 := by omega
      exact_mod_cast this
    refine le_trans ?_ (div_le_div₀ (by positivity) h1 hpos h2)
    norm_num

theorem halfRate_rel (p q : ℕ) (h0 : 0 < p + q) (hp : p < 2 ^ 94) (hq : q < 2 ^ 94) :
    Rel (1 - ulp) 10 ((halfRate p q : Rat) : ℝ) (2 * p * q / (p + q) / 10 ^ 9) := by
  have hpos : (0 : ℝ) < (p : ℝ) + q := by exact_mod_cast h0
  have h2p : Rel (1 - ulp) 3 ((Binary64.round (2 * asSecs p) : Rat) : ℝ) (2 * (p / 10 ^ 9)) := by
    have h2 : Rel (1 - ulp) 0 (2 : ℝ) 2 := Rel.refl (by norm_num)
    have h := h2.mul (asSecs_rel p)
    refine Rel.round (k := 2) (by push_cast; simpa using h) (by omega) ?_
    have := big_div (2 * p)
    push_cast at this
    rwa [← mul_div_assoc]
  have hmul : Rel (1 - ulp) 6 ((Binary64.round (Binary64.round (2 * asSecs p) * asSecs q) : Rat) : ℝ)
      (2 * (p / 10 ^ 9) * (q / 10 ^ 9)) := by
    refine Rel.round (k := 5) (by push_cast; exact h2p.mul (asSecs_rel q)) (by omega) ?_
    rcases Nat.eq_zero_or_pos (p * q) with hz | hz
    · left
      have : (p : ℝ) * q = 0 := by exact_mod_cast hz
      have e : 2 * ((p : ℝ) / 10 ^ 9) * (q / 10 ^ 9) = 2 * (p * q) / 10 ^ 18 := by ring
      rw [e, this]; simp
    · refine big_of_one ?_
      have h1 : (1 : ℝ) ≤ p * q := by exact_mod_cast hz
      have e : 2 * ((p : ℝ) / 10 ^ 9) * (q / 10 ^ 9) = 2 * (p * q) / 10 ^ 18 := by ring
      rw [e, le_div_iff₀ (by positivity)]
      have : (1 : ℝ) / 2 ^ 400 * 10 ^ 18 ≤ 1 := by norm_num
      linarith
  have h := hmul.div (sum_rel p q) (by positivity)
  have e : 2 * ((p : ℝ) / 10 ^ 9) * (q / 10 ^ 9) / ((p + q) / 10 ^ 9) = 2 * p * q / (p + q) / 10 ^ 9 := by field_simp
  rw [e] at h
  unfold halfRate
  refine Rel.round (k := 9) (by push_cast; exact h) (by omega) ?_
  rcases Nat.eq_zero_or_pos (p * q) with hz | hz
  · left
    have : (p : ℝ) * q = 0 := by exact_mod_cast hz
    rw [mul_assoc, this]; simp
  · refine big_of_one ?_
    have h1 : (1 : ℝ) ≤ p * q := by exact_mod_cast hz
    have h2 : (p : ℝ) + q ≤ 2 ^ 95 := by
      have : p + q ≤ 2 ^ 95 := by omega
      exact_mod_cast this
    rw [le_div_iff₀ (by positivity), le_div_iff₀ hpos]
    have h3 : (1 : ℝ) / 2 ^ 400 * 10 ^ 9 * 2 ^ 95 ≤ 1 := by norm_num
    have h4 : (1 : ℝ) / 2 ^ 400 * 10 ^ 9 * (p + q) ≤ (1 : ℝ) / 2 ^ 400 * 10 ^ 9 * 2 ^ 95 :=
      mul_le_mul_of_nonneg_left h2 (by positivity)
    linarith

end Mixnet.Binary64
