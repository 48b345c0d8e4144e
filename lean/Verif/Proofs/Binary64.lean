import Verif.Model.QueueDelayF64
import Verif.Model.QueueDelay
import Verif.Proofs.Primitives
/-! Rounding errors of `f64` operations on numbers that are not negative. -/
set_option exponentiation.threshold 2000

namespace Mixnet.Binary64

/-- Half the distance of 1 and the next `f64`. -/
noncomputable def ulp : ℝ := 1 / 2 ^ 53

theorem ulp_pos : 0 < ulp := by unfold ulp; positivity
theorem ulp_small : ulp ≤ 1 / 2 := by unfold ulp; norm_num
/-- A factor by which numbers may differ. -/
class Factor (β : ℝ) : Prop where
  pos : 0 < β
  le_one : β ≤ 1

instance : Factor (1 - ulp) := ⟨by have := ulp_small; linarith, by have := ulp_pos; linarith⟩

theorem one_sub_pos : 0 < 1 - ulp := Factor.pos

section
variable {β : ℝ} [Factor β]

theorem pow_pos' (k : ℕ) : 0 < β ^ k := pow_pos Factor.pos k
theorem pow_le' (k : ℕ) : β ^ k ≤ 1 := pow_le_one₀ Factor.pos.le Factor.le_one

/-- `x` is `y` up to `k` times the factor `β`. -/
structure Rel (β : ℝ) (k : ℕ) (x y : ℝ) : Prop where
  left : y * β ^ k ≤ x
  right : x * β ^ k ≤ y
  nonneg : 0 ≤ y

namespace Rel
variable {k l : ℕ} {x y z x' y' : ℝ}

theorem nonneg' (h : Rel β k x y) : 0 ≤ x := le_trans (mul_nonneg h.nonneg (pow_pos' (β := β) k).le) h.left

theorem symm (h : Rel β k x y) : Rel β k y x := ⟨h.right, h.left, h.nonneg'⟩

theorem refl (h : 0 ≤ x) : Rel β 0 x x := ⟨by simp, by simp, h⟩

theorem mono (h : Rel β k x y) (hkl : k ≤ l) : Rel β l x y := by
  have : β ^ l ≤ β ^ k := pow_le_pow_of_le_one (Factor.pos (β := β)).le (Factor.le_one (β := β)) hkl
  exact ⟨le_trans (mul_le_mul_of_nonneg_left this h.nonneg) h.left,
    le_trans (mul_le_mul_of_nonneg_left this h.nonneg') h.right, h.nonneg⟩

theorem trans (h : Rel β k x y) (h' : Rel β l y z) : Rel β (k + l) x z := by
  constructor
  · calc z * β ^ (k + l) = (z * β ^ l) * β ^ k := by rw [pow_add]; ring
      _ ≤ y * β ^ k := mul_le_mul_of_nonneg_right h'.left (pow_pos' (β := β) k).le
      _ ≤ x := h.left
  · calc x * β ^ (k + l) = (x * β ^ k) * β ^ l := by rw [pow_add]; ring
      _ ≤ y * β ^ l := mul_le_mul_of_nonneg_right h.right (pow_pos' (β := β) l).le
      _ ≤ z := h'.right
  · exact h'.nonneg

theorem add (h : Rel β k x y) (h' : Rel β k x' y') : Rel β k (x + x') (y + y') :=
  ⟨by rw [add_mul]; exact add_le_add h.left h'.left, by rw [add_mul]; exact add_le_add h.right h'.right,
    add_nonneg h.nonneg h'.nonneg⟩

theorem mul (h : Rel β k x y) (h' : Rel β l x' y') : Rel β (k + l) (x * x') (y * y') := by
  refine ⟨?_, ?_, mul_nonneg h.nonneg h'.nonneg⟩
  · calc y * y' * β ^ (k + l) = (y * β ^ k) * (y' * β ^ l) := by rw [pow_add]; ring
      _ ≤ x * x' := mul_le_mul h.left h'.left (mul_nonneg h'.nonneg (pow_pos' (β := β) l).le) h.nonneg'
  · calc x * x' * β ^ (k + l) = (x * β ^ k) * (x' * β ^ l) := by rw [pow_add]; ring
      _ ≤ y * y' := mul_le_mul h.right h'.right (mul_nonneg h'.nonneg' (pow_pos' (β := β) l).le) h.nonneg

theorem inv (h : Rel β k x y) (hy : 0 < y) : Rel β k x⁻¹ y⁻¹ := by
  have hx : 0 < x := lt_of_lt_of_le (mul_pos hy (pow_pos' (β := β) k)) h.left
  refine ⟨?_, ?_, inv_nonneg.2 h.nonneg⟩
  · rw [inv_mul_le_iff₀ hy, ← div_eq_mul_inv, le_div_iff₀ hx, mul_comm]; exact h.right
  · rw [inv_mul_le_iff₀ hx, ← div_eq_mul_inv, le_div_iff₀ hy, mul_comm]; exact h.left

theorem div (h : Rel β k x y) (h' : Rel β l x' y') (hy : 0 < y') : Rel β (k + l) (x / x') (y / y') := by
  rw [div_eq_mul_inv, div_eq_mul_inv]; exact h.mul (h'.inv hy)

theorem sqrt (h : Rel β k x y) : Rel β k √x √y := by
  have key : ∀ {a b : ℝ}, 0 ≤ a → 0 ≤ b → a * β ^ k ≤ b → √a * β ^ k ≤ √b := by
    intro a b ha hb hab
    refine Real.le_sqrt_of_sq_le ?_
    rw [mul_pow, Real.sq_sqrt ha]
    refine le_trans (mul_le_mul_of_nonneg_left ?_ ha) hab
    rw [← pow_mul]
    exact pow_le_pow_of_le_one (Factor.pos (β := β)).le (Factor.le_one (β := β)) (by omega)
  exact ⟨key h.nonneg h.nonneg' h.left, key h.nonneg' h.nonneg h.right, Real.sqrt_nonneg _⟩

theorem pos (h : Rel β k x y) (hy : 0 < y) : 0 < x := lt_of_lt_of_le (mul_pos hy (pow_pos' (β := β) k)) h.left

end Rel


end

theorem rel_of_error {x y : ℝ} (hy : 0 ≤ y) (h : |x - y| ≤ ulp * y) : Rel (1 - ulp) 1 x y := by
  have := ulp_pos
  rw [abs_le] at h
  refine ⟨by rw [pow_one]; nlinarith, ?_, hy⟩
  rw [pow_one]
  have h2 : x ≤ y * (1 + ulp) := by linarith [h.2]
  nlinarith [mul_le_mul_of_nonneg_right h2 one_sub_pos.le, mul_nonneg hy (sq_nonneg ulp)]

/-! ### Rounding -/

theorem roundEven_error (q : Rat) : |(roundEven q : Rat) - q| ≤ 1 / 2 := by
  have h1 : ((q.floor : ℤ) : Rat) ≤ q := Rat.floor_le q
  have h2 : q < ((q.floor : ℤ) : Rat) + 1 := by exact_mod_cast Rat.lt_floor_add_one q
  unfold roundEven
  rw [abs_le]
  split
  · rename_i h; constructor <;> linarith
  · rename_i h
    rw [not_lt] at h
    split
    · push_cast; constructor <;> linarith
    · rename_i h'
      rw [not_lt] at h'
      split
      · constructor <;> linarith
      · push_cast; constructor <;> linarith

theorem roundPos_error {q : Rat} (h : (2 : Rat) ^ (-1022 : ℤ) ≤ q) : |roundPos q - q| ≤ q / 2 ^ 53 := by
  have hq : 0 < q := lt_of_lt_of_le (by positivity) h
  have hlog : (-1022 : ℤ) ≤ Int.log 2 q := by
    rw [← Int.zpow_le_iff_le_log (by norm_num) hq]
    exact_mod_cast h
  unfold roundPos
  dsimp only
  rw [max_eq_left hlog]
  obtain ⟨e, he⟩ : ∃ e, e = Int.log 2 q - 52 := ⟨_, rfl⟩
  rw [← he]
  have hpos : (0 : Rat) < 2 ^ e := by positivity
  have herr := roundEven_error (q / 2 ^ e)
  have hle : (2 : Rat) ^ (Int.log 2 q) ≤ q := by
    have := Int.zpow_log_le_self (b := 2) (by norm_num) hq
    exact_mod_cast this
  have e1 : (roundEven (q / 2 ^ e) : Rat) * 2 ^ e - q = ((roundEven (q / 2 ^ e) : Rat) - q / 2 ^ e) * 2 ^ e := by
    field_simp
  rw [e1, abs_mul, abs_of_pos hpos]
  have e2 : (2 : Rat) ^ e = 2 ^ (Int.log 2 q) / 2 ^ 52 := by
    rw [he, zpow_sub₀ (by norm_num)]; norm_num
  calc |(roundEven (q / 2 ^ e) : Rat) - q / 2 ^ e| * 2 ^ e ≤ 1 / 2 * 2 ^ e := mul_le_mul_of_nonneg_right herr hpos.le
    _ = 2 ^ (Int.log 2 q) / 2 ^ 53 := by rw [e2]; norm_num; ring
    _ ≤ q / 2 ^ 53 := div_le_div_of_nonneg_right hle (by positivity)

/-- Numbers that are 0 or not too small. -/
def Normal (q : Rat) : Prop := q = 0 ∨ (2 : Rat) ^ (-1022 : ℤ) ≤ q

theorem round_rel {q : Rat} (h : Normal q) : Rel (1 - ulp) 1 ((round q : Rat) : ℝ) (q : ℝ) := by
  rcases h with rfl | h
  · have : round 0 = 0 := rfl
    rw [this]
    simpa using (Rel.refl (β := 1 - ulp) (le_refl (0 : ℝ))).mono (Nat.zero_le 1)
  · have hq : 0 < q := lt_of_lt_of_le (by positivity) h
    have herr := roundPos_error h
    unfold round
    rw [if_neg hq.ne', if_pos hq]
    refine rel_of_error (by exact_mod_cast hq.le) ?_
    have : ((|roundPos q - q| : Rat) : ℝ) ≤ ((q / 2 ^ 53 : Rat) : ℝ) := by exact_mod_cast herr
    push_cast at this
    refine le_trans this (le_of_eq ?_)
    unfold ulp; ring

theorem sqrt_rel {q : Rat} (h : 0 ≤ q) : Rel (1 - ulp) 1 ((sqrt q : Rat) : ℝ) √(q : ℝ) := by
  rcases h.eq_or_lt with rfl | hq
  · have : sqrt 0 = 0 := rfl
    rw [this]
    simpa using (Rel.refl (β := 1 - ulp) (le_refl (0 : ℝ))).mono (Nat.zero_le 1)
  · obtain ⟨l, hl⟩ : ∃ l, l = Int.log 2 q := ⟨_, rfl⟩
    have hle : (2 : Rat) ^ l ≤ q := by
      have := Int.zpow_log_le_self (b := 2) (by norm_num) hq
      rw [hl]; exact_mod_cast this
    obtain ⟨e, he⟩ : ∃ e, e = l / 2 - 52 := ⟨_, rfl⟩
    have hpos : (0 : Rat) < 2 ^ e := by positivity
    obtain ⟨v, hv⟩ : ∃ v, v = q / (2 ^ e * 2 ^ e) := ⟨_, rfl⟩
    have hvq : q = v * (2 ^ e * 2 ^ e) := by rw [hv]; field_simp
    have hvpos : 0 < v := by rw [hv]; positivity
    -- `v` is at least `2^104`
    have hv104 : (2 : Rat) ^ 104 ≤ v := by
      rw [hv, le_div_iff₀ (by positivity), ← zpow_add₀ (by norm_num), ← zpow_natCast (2 : Rat) 104, ← zpow_add₀ (by norm_num)]
      refine le_trans (zpow_le_zpow_right₀ (by norm_num) ?_) hle
      push_cast
      omega
    obtain ⟨m, hm⟩ : ∃ m, m = Nat.sqrt v.floor.toNat := ⟨_, rfl⟩
    have hfl : (v.floor.toNat : ℤ) = v.floor := Int.toNat_of_nonneg (by
      have : (0 : Rat) ≤ v := hvpos.le
      exact Rat.le_floor_iff.2 (by exact_mod_cast this))
    have hm1 : ((m : Rat)) * m ≤ v := by
      have h1 : m * m ≤ v.floor.toNat := by rw [hm]; exact Nat.sqrt_le _
      have h2 : ((m * m : ℕ) : ℤ) ≤ v.floor := by rw [← hfl]; exact_mod_cast h1
      have h3 : (((m * m : ℕ) : ℤ) : Rat) ≤ v := le_trans (by exact_mod_cast h2) (Rat.floor_le v)
      push_cast at h3
      exact h3
    have hm2 : v < ((m : Rat) + 1) * (m + 1) := by
      have h1 : v.floor.toNat < (m + 1) * (m + 1) := by rw [hm]; exact Nat.sqrt_lt.1 (Nat.lt_succ_self _)
      have h2 : v.floor + 1 ≤ (((m + 1) * (m + 1) : ℕ) : ℤ) := by rw [← hfl]; exact_mod_cast h1
      have h3 : ((v.floor + 1 : ℤ) : Rat) ≤ ((((m + 1) * (m + 1) : ℕ) : ℤ) : Rat) := by exact_mod_cast h2
      have h4 := lt_of_lt_of_le (Rat.lt_floor_add_one v) h3
      push_cast at h4
      exact h4
    obtain ⟨g, hg⟩ : ∃ g : Rat, g = if v ≤ (m + 1 / 2) * (m + 1 / 2) then (m : Rat) else m + 1 := ⟨_, rfl⟩
    have hsq : sqrt q = g * 2 ^ e := by
      unfold sqrt
      rw [if_neg (not_le.2 hq), hg, hm, hv, he, hl]
    -- over the reals
    obtain ⟨w, hw⟩ : ∃ w, w = √(v : ℝ) := ⟨_, rfl⟩
    have hw0 : 0 ≤ w := by rw [hw]; exact Real.sqrt_nonneg _
    have hww : w * w = v := by rw [hw]; exact Real.mul_self_sqrt (by exact_mod_cast hvpos.le)
    have hqr : √(q : ℝ) = w * (2 : ℝ) ^ e := by
      rw [hvq, hw]
      push_cast
      rw [Real.sqrt_mul (by exact_mod_cast hvpos.le), Real.sqrt_mul_self (by positivity)]
    have hm1' : (m : ℝ) ≤ w := by
      rw [hw]
      refine Real.le_sqrt_of_sq_le ?_
      rw [pow_two]; exact_mod_cast hm1
    have hm2' : w < (m : ℝ) + 1 := by
      rw [hw, Real.sqrt_lt' (by positivity), pow_two]
      exact_mod_cast hm2
    have hw52 : (2 : ℝ) ^ 52 ≤ w := by
      rw [hw]
      refine Real.le_sqrt_of_sq_le ?_
      rw [← pow_mul]
      exact_mod_cast hv104
    have herr : |(g : ℝ) - w| ≤ 1 / 2 := by
      rw [hg, abs_le]
      split
      · rename_i h
        have : w ≤ (m : ℝ) + 1 / 2 := by
          rw [hw]
          refine Real.sqrt_le_iff.2 ⟨by positivity, ?_⟩
          rw [pow_two]
          have := (Rat.cast_le (K := ℝ)).2 h
          push_cast at this
          exact this
        push_cast
        constructor <;> linarith
      · rename_i h
        have : (m : ℝ) + 1 / 2 ≤ w := by
          rw [hw]
          refine Real.le_sqrt_of_sq_le ?_
          rw [pow_two]
          have := (Rat.cast_le (K := ℝ)).2 (not_le.1 h).le
          push_cast at this
          exact this
        push_cast
        constructor <;> linarith
    refine rel_of_error (Real.sqrt_nonneg _) ?_
    rw [hsq, hqr]
    push_cast
    have hp : (0 : ℝ) < 2 ^ e := by positivity
    rw [← sub_mul, abs_mul, abs_of_pos hp, ← mul_assoc]
    refine mul_le_mul_of_nonneg_right (le_trans herr ?_) hp.le
    unfold ulp
    rw [div_mul_eq_mul_div, one_mul, le_div_iff₀ (by positivity)]
    linarith [hw52, show (1 : ℝ) / 2 * 2 ^ 53 = 2 ^ 52 by norm_num]

/-! ### Operations on approximations -/

/-- Numbers that are 0 or not too small, even after some roundings. -/
def Big (y : ℝ) : Prop := y = 0 ∨ 1 / 2 ^ 900 ≤ y

theorem half_pow (k : ℕ) : (1 / 2 : ℝ) ^ k ≤ (1 - ulp) ^ k :=
  pow_le_pow_left₀ (by norm_num) (by have := ulp_small; linarith) k

theorem normal_of_rel {q : Rat} {y : ℝ} {k : ℕ} (h : Rel (1 - ulp) k (q : ℝ) y) (hk : k ≤ 100) (hy : Big y) : Normal q := by
  rcases hy with rfl | hy
  · left
    have h1 : (q : ℝ) ≤ 0 := by
      by_contra hc
      have := mul_pos (not_le.1 hc) (pow_pos' (β := 1 - ulp) k)
      linarith [h.right]
    have h2 := h.nonneg'
    have : (q : ℝ) = 0 := le_antisymm h1 h2
    exact_mod_cast this
  · right
    have h1 : (1 / 2 ^ 900 : ℝ) * (1 / 2) ^ 100 ≤ q := by
      refine le_trans ?_ h.left
      refine mul_le_mul hy ?_ (by positivity) h.nonneg
      exact le_trans (pow_le_pow_of_le_one (by norm_num) (by norm_num) hk) (half_pow k)
    have h2 : ((2 : Rat) ^ (-1022 : ℤ) : Rat) ≤ 1 / 2 ^ 900 * (1 / 2) ^ 100 := by norm_num
    have h3 : (((2 : Rat) ^ (-1022 : ℤ) : Rat) : ℝ) ≤ (q : ℝ) := by
      refine le_trans ((Rat.cast_le (K := ℝ)).2 h2) ?_
      push_cast
      exact h1
    exact_mod_cast h3

theorem Rel.round {q : Rat} {y : ℝ} {k : ℕ} (h : Rel (1 - ulp) k (q : ℝ) y) (hk : k ≤ 100) (hy : Big y) :
    Rel (1 - ulp) (k + 1) ((Binary64.round q : Rat) : ℝ) y := by
  rw [Nat.add_comm]; exact (round_rel (normal_of_rel h hk hy)).trans h

theorem Rel.sqrt64 {q : Rat} {y : ℝ} {k : ℕ} (h : Rel (1 - ulp) k (q : ℝ) y) :
    Rel (1 - ulp) (k + 1) ((Binary64.sqrt q : Rat) : ℝ) √y := by
  rw [Nat.add_comm]
  exact (sqrt_rel (by exact_mod_cast h.nonneg')).trans h.sqrt

theorem big_of_one {y : ℝ} (h : 1 / 2 ^ 400 ≤ y) : Big y := .inr (le_trans (by norm_num) h)

theorem big_nat (n : ℕ) : Big (n : ℝ) := by
  rcases Nat.eq_zero_or_pos n with rfl | h
  · left; simp
  · refine big_of_one (le_trans (by norm_num) (?_ : (1 : ℝ) ≤ n))
    exact_mod_cast h

theorem nat_rel (n : ℕ) : Rel (1 - ulp) 1 ((Binary64.round (n : Rat) : Rat) : ℝ) (n : ℝ) := by
  have h : Rel (1 - ulp) 0 (((n : Rat)) : ℝ) (n : ℝ) := by
    push_cast
    exact Rel.refl (by positivity)
  exact h.round (by omega) (big_nat n)

theorem big_div (n : ℕ) : Big ((n : ℝ) / 10 ^ 9) := by
  rcases Nat.eq_zero_or_pos n with rfl | h
  · left; simp
  · refine big_of_one (le_trans (by norm_num) (?_ : (1 : ℝ) / 10 ^ 9 ≤ n / 10 ^ 9))
    exact div_le_div_of_nonneg_right (by exact_mod_cast h) (by positivity)

theorem asSecs_rel (ns : ℕ) : Rel (1 - ulp) 2 ((asSecs ns : Rat) : ℝ) (ns / 10 ^ 9) := by
  have h1 := nat_rel (ns / 10 ^ 9)
  have h2 : Rel (1 - ulp) 1 ((Binary64.round (((ns % 10 ^ 9 : ℕ) : Rat) / 10 ^ 9) : Rat) : ℝ) (((ns % 10 ^ 9 : ℕ) : ℝ) / 10 ^ 9) := by
    have h : Rel (1 - ulp) 0 ((((ns % 10 ^ 9 : ℕ) : Rat) / 10 ^ 9 : Rat) : ℝ) (((ns % 10 ^ 9 : ℕ) : ℝ) / 10 ^ 9) := by
      push_cast
      exact Rel.refl (by positivity)
    exact h.round (by omega) (big_div _)
  have e : ((ns / 10 ^ 9 : ℕ) : ℝ) + ((ns % 10 ^ 9 : ℕ) : ℝ) / 10 ^ 9 = ns / 10 ^ 9 := by
    have := Nat.div_add_mod ns (10 ^ 9)
    have h3 : ((10 ^ 9 * (ns / 10 ^ 9) + ns % 10 ^ 9 : ℕ) : ℝ) = ns := by rw [this]
    push_cast at h3 ⊢
    rw [← h3]; field_simp; norm_num
  have h := h1.add h2
  rw [e] at h
  unfold asSecs
  refine Rel.round (k := 1) ?_ (by omega) (big_div ns)
  push_cast at h ⊢
  exact h

theorem rateMul_rel {p : Rat} (hp : (p : ℝ) ≤ 1 - 1 / 2 ^ 53) :
    Rel (1 - ulp) 2 ((rateMul p : Rat) : ℝ) (0.5 * (1 - p)) := by
  have hb : (1 : ℝ) / 2 ^ 53 ≤ 1 - p := by linarith
  have h1 : Rel (1 - ulp) 1 ((Binary64.round (1 - p) : Rat) : ℝ) (1 - p) := by
    have h : Rel (1 - ulp) 0 ((1 - p : Rat) : ℝ) (1 - p) := by
      push_cast
      exact Rel.refl (le_trans (by positivity) hb)
    exact h.round (by omega) (big_of_one (le_trans (by norm_num) hb))
  have h2 : Rel (1 - ulp) 0 (0.5 : ℝ) 0.5 := Rel.refl (by norm_num)
  have h3 := h2.mul h1
  unfold rateMul
  refine Rel.round (k := 1) ?_ (by omega) (big_of_one ?_)
  · push_cast
    convert h3 using 2
    norm_num
  · have : (1 : ℝ) / 2 ^ 400 ≤ 0.5 * (1 / 2 ^ 53) := by norm_num
    linarith

theorem fromSecs_error {v : Rat} (h : 0 ≤ v) : |((fromSecs v : ℕ) : ℝ) - (v : ℝ) * 10 ^ 9| ≤ 1 / 2 := by
  have h0 : 0 ≤ roundEven (v * 10 ^ 9) := by
    have := roundEven_mono (show (0 : Rat) ≤ v * 10 ^ 9 by positivity)
    have h1 := roundEven_int 0
    push_cast at h1
    rw [h1] at this
    exact this
  have herr := roundEven_error (v * 10 ^ 9)
  have h2 : ((fromSecs v : ℕ) : ℝ) = ((roundEven (v * 10 ^ 9) : ℤ) : ℝ) := by
    unfold fromSecs
    have := Int.toNat_of_nonneg h0
    exact_mod_cast this
  rw [h2]
  have h3 := (Rat.cast_le (K := ℝ)).2 herr
  push_cast at h3
  exact h3

theorem mulDuration_fromSecs (d : Rat) (unit : ℕ) : mulDuration d unit = fromSecs (Binary64.round (d * asSecs unit)) := rfl

/-- A few roundings are a small error. -/
theorem Rel.error {x y : ℝ} {k : ℕ} (h : Rel (1 - ulp) k x y) (hk : k ≤ 1000) : |x - y| ≤ (k + 1) * ulp * y := by
  have hu := ulp_pos
  have hk' : (k : ℝ) ≤ 1000 := by exact_mod_cast hk
  have hk0 : (0 : ℝ) ≤ k := by positivity
  have hber : 1 - k * ulp ≤ (1 - ulp) ^ k := by
    have := one_add_mul_le_pow (a := -ulp) (by have := ulp_small; linarith) k
    have e : (1 : ℝ) + -ulp = 1 - ulp := by ring
    rw [e] at this
    linarith
  have hy := h.nonneg
  have hx := h.nonneg'
  have hsm : (1000 : ℝ) * 1001 * ulp ≤ 1 := by unfold ulp; norm_num
  have hku : k * ulp ≤ 1 / 2 := by
    have : (1000 : ℝ) * ulp ≤ 1 / 2 := by unfold ulp; norm_num
    nlinarith
  rw [abs_le]
  constructor
  · have : y * (1 - k * ulp) ≤ x := le_trans (mul_le_mul_of_nonneg_left hber hy) h.left
    nlinarith [mul_nonneg hy hu.le]
  · have h1 : x * (1 - k * ulp) ≤ y := le_trans (mul_le_mul_of_nonneg_left hber hx) h.right
    -- (1 - k u)(1 + (k + 1) u) ≥ 1
    have h2 : 1 ≤ (1 - k * ulp) * (1 + (k + 1) * ulp) := by
      have : (k : ℝ) * (k + 1) * ulp ≤ 1 := by
        refine le_trans (mul_le_mul_of_nonneg_right ?_ hu.le) hsm
        nlinarith
      nlinarith
    have h3 : x ≤ x * (1 - k * ulp) * (1 + (k + 1) * ulp) := by
      rw [mul_assoc]; exact le_mul_of_one_le_right hx h2
    have h4 := mul_le_mul_of_nonneg_right h1 (show 0 ≤ 1 + (k + 1) * ulp by positivity)
    linarith

/-! ### The estimate -/

theorem divDuration_error {p : Rat} (hp0 : 0 ≤ p) (hp : (p : ℝ) ≤ 1 - 1 / 2 ^ 53) (a : ℕ) :
    |((divDuration a (rateMul p) : ℕ) : ℝ) - a / (0.5 * (1 - p))| ≤ 6 * ulp * (a / (0.5 * (1 - p))) + 1 / 2 := by
  have hp0' : (0 : ℝ) ≤ p := by exact_mod_cast hp0
  have hb : (1 : ℝ) / 2 ^ 53 ≤ 1 - p := by linarith
  have hrate : (0 : ℝ) < 0.5 * (1 - p) := by
    have : (0 : ℝ) < 1 - p := lt_of_lt_of_le (by positivity) hb
    positivity
  have h1 : Rel (1 - ulp) 5 ((Binary64.round (asSecs a / rateMul p) : Rat) : ℝ) (a / 10 ^ 9 / (0.5 * (1 - p))) := by
    have h := (asSecs_rel a).div (rateMul_rel hp) hrate
    refine Rel.round (k := 4) ?_ (by omega) ?_
    · push_cast; exact h
    · rcases Nat.eq_zero_or_pos a with rfl | ha
      · left; simp
      · refine big_of_one (le_trans (by norm_num) (?_ : (1 : ℝ) / 10 ^ 9 ≤ _))
        rw [le_div_iff₀ hrate]
        have : (1 : ℝ) / 10 ^ 9 ≤ a / 10 ^ 9 := div_le_div_of_nonneg_right (by exact_mod_cast ha) (by positivity)
        have h2 : 0.5 * (1 - (p : ℝ)) ≤ 1 := by linarith
        nlinarith
  have h2 := fromSecs_error (v := Binary64.round (asSecs a / rateMul p)) (by exact_mod_cast h1.nonneg')
  have h3 := h1.error (by omega)
  unfold divDuration
  rw [abs_le] at h2 h3 ⊢
  have e : (a : ℝ) / (0.5 * (1 - p)) = a / 10 ^ 9 / (0.5 * (1 - p)) * 10 ^ 9 := by field_simp
  rw [e]
  push_cast at h3
  constructor <;> nlinarith

theorem factor_rel (n m s rs : ℕ) (hs : 0 < s) (hle : rs ≤ s) (hmax : s < 2 ^ 94) :
    Rel (1 - ulp) 26 ((percentileFactor n m (Binary64.round (asSecs rs / asSecs s)) : Rat) : ℝ)
      (4.92582 + 3.87809 * √(n + (rs / s : ℝ) * (rs / s) * (rs / s) * m) + n + (rs / s : ℝ) * m) := by
  have hs' : (0 : ℝ) < s := by exact_mod_cast hs
  obtain ⟨r, hr⟩ : ∃ r : ℝ, r = (rs / s : ℝ) := ⟨_, rfl⟩
  have hr0 : 0 ≤ r := by rw [hr]; positivity
  -- the ratio is 0 or at least 2^-94
  have hr1 : r = 0 ∨ (1 : ℝ) / 2 ^ 94 ≤ r := by
    rcases Nat.eq_zero_or_pos rs with h | h
    · left; rw [hr, h]; simp
    · right
      rw [hr]
      have h1 : (1 : ℝ) ≤ rs := by exact_mod_cast h
      have h2 : (s : ℝ) ≤ 2 ^ 94 := by exact_mod_cast hmax.le
      exact div_le_div₀ (by positivity) h1 hs' h2
  have hbig : ∀ c : ℝ, (c = 0 ∨ 1 ≤ c) → ∀ k : ℕ, k ≤ 3 → Big (r ^ k * c) := by
    intro c hc k hk
    rcases hc with rfl | hc
    · left; simp
    · rcases hr1 with h | h
      · rcases Nat.eq_zero_or_pos k with rfl | hk'
        · refine big_of_one (le_trans (by norm_num) (?_ : (1 : ℝ) ≤ _)); simpa using hc
        · left; rw [h, zero_pow (by omega), zero_mul]
      · refine big_of_one ?_
        have h1 : ((1 : ℝ) / 2 ^ 94) ^ k ≤ r ^ k := pow_le_pow_left₀ (by positivity) h k
        have h2 : ((1 : ℝ) / 2 ^ 94) ^ 3 ≤ ((1 : ℝ) / 2 ^ 94) ^ k :=
          pow_le_pow_of_le_one (by positivity) (by norm_num) hk
        have h3 : (1 : ℝ) / 2 ^ 400 ≤ ((1 : ℝ) / 2 ^ 94) ^ 3 := by norm_num
        have h4 : 0 ≤ r ^ k := by positivity
        nlinarith
  have hone : ∀ n : ℕ, (n : ℝ) = 0 ∨ (1 : ℝ) ≤ n := by
    intro n
    rcases Nat.eq_zero_or_pos n with rfl | h
    · left; simp
    · right; exact_mod_cast h
  obtain ⟨R, hR⟩ : ∃ R, R = Binary64.round (asSecs rs / asSecs s) := ⟨_, rfl⟩
  have R5 : Rel (1 - ulp) 5 (R : ℝ) r := by
    rw [hR]
    have h := (asSecs_rel rs).div (asSecs_rel s) (by positivity)
    have e : (rs : ℝ) / 10 ^ 9 / (s / 10 ^ 9) = r := by rw [hr]; field_simp
    rw [e] at h
    refine Rel.round (k := 4) (by push_cast; exact h) (by omega) ?_
    have := hbig 1 (.inr le_rfl) 1 (by omega)
    simpa using this
  obtain ⟨N, hN⟩ : ∃ N, N = Binary64.round (n : Rat) := ⟨_, rfl⟩
  obtain ⟨M, hM⟩ : ∃ M, M = Binary64.round (m : Rat) := ⟨_, rfl⟩
  have N1 : Rel (1 - ulp) 1 (N : ℝ) n := by rw [hN]; exact nat_rel n
  have M1 : Rel (1 - ulp) 1 (M : ℝ) m := by rw [hM]; exact nat_rel m
  have r2 : Rel (1 - ulp) 11 ((Binary64.round (R * R) : Rat) : ℝ) (r * r) := by
    refine Rel.round (k := 10) (by push_cast; exact R5.mul R5) (by omega) ?_
    have := hbig 1 (.inr le_rfl) 2 (by omega)
    rwa [pow_two, mul_one] at this
  have r3 : Rel (1 - ulp) 17 ((Binary64.round (Binary64.round (R * R) * R) : Rat) : ℝ) (r * r * r) := by
    refine Rel.round (k := 16) (by push_cast; exact r2.mul R5) (by omega) ?_
    have := hbig 1 (.inr le_rfl) 3 (by omega)
    rwa [show r ^ 3 * 1 = r * r * r by ring] at this
  have r3m : Rel (1 - ulp) 19 ((Binary64.round (Binary64.round (Binary64.round (R * R) * R) * M) : Rat) : ℝ) (r * r * r * m) := by
    refine Rel.round (k := 18) (by push_cast; exact r3.mul M1) (by omega) ?_
    have := hbig m (hone m) 3 (by omega)
    rwa [show r ^ 3 * m = r * r * r * m by ring] at this
  have hsum : (n : ℝ) + r * r * r * m = 0 ∨ (1 : ℝ) / 2 ^ 400 ≤ n + r * r * r * m := by
    have hq : 0 ≤ r * r * r * m := by positivity
    rcases hone n with h | h
    · rw [h, zero_add]
      rcases hone m with h' | h'
      · left; rw [h', mul_zero]
      · rcases hr1 with h'' | h''
        · left; rw [h'']; simp
        · right
          have h1 : ((1 : ℝ) / 2 ^ 94) ^ 3 ≤ r ^ 3 := pow_le_pow_left₀ (by positivity) h'' 3
          have h3 : (1 : ℝ) / 2 ^ 400 ≤ ((1 : ℝ) / 2 ^ 94) ^ 3 := by norm_num
          have h4 : 0 ≤ r ^ 3 := by positivity
          have h5 : r * r * r * m = r ^ 3 * m := by ring
          rw [h5]
          nlinarith
    · right
      have : (1 : ℝ) / 2 ^ 400 ≤ 1 := by norm_num
      linarith
  have sum1 : Rel (1 - ulp) 20 ((Binary64.round (N + Binary64.round (Binary64.round (Binary64.round (R * R) * R) * M)) : Rat) : ℝ)
      (n + r * r * r * m) := by
    refine Rel.round (k := 19) (by push_cast; exact (N1.mono (by omega)).add r3m) (by omega) ?_
    rcases hsum with h | h
    · exact .inl h
    · exact big_of_one h
  have root := sum1.sqrt64
  obtain ⟨Q, hQ⟩ : ∃ Q, Q = Binary64.sqrt (Binary64.round (N + Binary64.round (Binary64.round (Binary64.round (R * R) * R) * M))) := ⟨_, rfl⟩
  rw [← hQ] at root
  have c1 : Rel (1 - ulp) 1 ((Binary64.round (492582 / 100000) : Rat) : ℝ) 4.92582 := by
    have h : Rel (1 - ulp) 0 ((492582 / 100000 : Rat) : ℝ) 4.92582 := by
      push_cast
      have e : (492582 / 100000 : ℝ) = 4.92582 := by norm_num
      rw [e]
      exact Rel.refl (by norm_num)
    exact h.round (by omega) (big_of_one (by norm_num))
  have c2 : Rel (1 - ulp) 1 ((Binary64.round (387809 / 100000) : Rat) : ℝ) 3.87809 := by
    have h : Rel (1 - ulp) 0 ((387809 / 100000 : Rat) : ℝ) 3.87809 := by
      push_cast
      have e : (387809 / 100000 : ℝ) = 3.87809 := by norm_num
      rw [e]
      exact Rel.refl (by norm_num)
    exact h.round (by omega) (big_of_one (by norm_num))
  have hsq0 : 0 ≤ √(n + r * r * r * m) := Real.sqrt_nonneg _
  have t2 : Rel (1 - ulp) 23 ((Binary64.round (Binary64.round (387809 / 100000) * Q) : Rat) : ℝ) (3.87809 * √(n + r * r * r * m)) := by
    refine Rel.round (k := 22) ?_ (by omega) ?_
    · have := c2.mul root
      push_cast
      exact this
    · rcases hsum with h | h
      · left; rw [h, Real.sqrt_zero, mul_zero]
      · refine .inr ?_
        have h1 : (1 : ℝ) / 2 ^ 200 ≤ √(n + r * r * r * m) := by
          refine Real.le_sqrt_of_sq_le (le_trans (le_of_eq ?_) h)
          norm_num
        have h2 : (1 : ℝ) / 2 ^ 900 ≤ 1 / 2 ^ 200 := by norm_num
        nlinarith
  have a1 : Rel (1 - ulp) 24 ((Binary64.round (Binary64.round (492582 / 100000) + Binary64.round (Binary64.round (387809 / 100000) * Q)) : Rat) : ℝ)
      (4.92582 + 3.87809 * √(n + r * r * r * m)) := by
    refine Rel.round (k := 23) (by push_cast; exact (c1.mono (by omega)).add t2) (by omega) (big_of_one ?_)
    have : (1 : ℝ) / 2 ^ 400 ≤ 4.92582 := by norm_num
    nlinarith
  have a2 : Rel (1 - ulp) 25 ((Binary64.round (Binary64.round (Binary64.round (492582 / 100000) +
      Binary64.round (Binary64.round (387809 / 100000) * Q)) + N) : Rat) : ℝ)
      (4.92582 + 3.87809 * √(n + r * r * r * m) + n) := by
    refine Rel.round (k := 24) (by push_cast; exact a1.add (N1.mono (by omega))) (by omega) (big_of_one ?_)
    have : (1 : ℝ) / 2 ^ 400 ≤ 4.92582 := by norm_num
    have : (0 : ℝ) ≤ n := by positivity
    nlinarith
  have rm : Rel (1 - ulp) 7 ((Binary64.round (R * M) : Rat) : ℝ) (r * m) := by
    refine Rel.round (k := 6) (by push_cast; exact R5.mul M1) (by omega) ?_
    have := hbig m (hone m) 1 (by omega)
    rwa [pow_one] at this
  have a3 : Rel (1 - ulp) 26 ((Binary64.round (Binary64.round (Binary64.round (Binary64.round (492582 / 100000) +
      Binary64.round (Binary64.round (387809 / 100000) * Q)) + N) + Binary64.round (R * M)) : Rat) : ℝ)
      (4.92582 + 3.87809 * √(n + r * r * r * m) + n + r * m) := by
    refine Rel.round (k := 25) (by push_cast; exact a2.add (rm.mono (by omega))) (by omega) (big_of_one ?_)
    have : (1 : ℝ) / 2 ^ 400 ≤ 4.92582 := by norm_num
    have : (0 : ℝ) ≤ n := by positivity
    have : (0 : ℝ) ≤ r * m := by positivity
    nlinarith
  rw [← hr]
  unfold percentileFactor
  dsimp only
  rw [← hR, ← hN, ← hM, ← hQ]
  exact a3

theorem percentile_error (n m s rs : ℕ) (hs : 0 < s) (hle : rs ≤ s) (hmax : s < 2 ^ 94) :
    |((percentile s n m rs : ℕ) : ℝ) - sumPercentile s n m rs| ≤ 30 * ulp * sumPercentile s n m rs + 1 / 2 := by
  have hs' : (1 : ℝ) ≤ s := by exact_mod_cast hs
  have h := (factor_rel n m s rs hs hle hmax).mul (asSecs_rel s)
  obtain ⟨F, hF⟩ : ∃ F, F = percentileFactor n m (Binary64.round (asSecs rs / asSecs s)) := ⟨_, rfl⟩
  rw [← hF] at h
  have e : (4.92582 + 3.87809 * √(n + (rs / s : ℝ) * (rs / s) * (rs / s) * m) + n + (rs / s : ℝ) * m) * (s / 10 ^ 9) =
      sumPercentile s n m rs / 10 ^ 9 := by
    unfold sumPercentile
    dsimp only
    ring
  rw [e] at h
  have hbig : Big (sumPercentile s n m rs / 10 ^ 9) := by
    refine big_of_one ?_
    have h1 : (4.92582 : ℝ) ≤ sumPercentile s n m rs := by
      unfold sumPercentile
      dsimp only
      have : 0 ≤ √(n + (rs / s : ℝ) * (rs / s) * (rs / s) * m) := Real.sqrt_nonneg _
      have : 0 ≤ (rs / s : ℝ) * m := by positivity
      have : (0 : ℝ) ≤ n := by positivity
      nlinarith
    rw [le_div_iff₀ (by positivity)]
    exact le_trans (by norm_num) h1
  have h29 : Rel (1 - ulp) 29 ((Binary64.round (F * asSecs s) : Rat) : ℝ) (sumPercentile s n m rs / 10 ^ 9) :=
    Rel.round (k := 28) (by push_cast; exact h) (by omega) hbig
  have h2 := fromSecs_error (v := Binary64.round (F * asSecs s)) (by exact_mod_cast h29.nonneg')
  have h3 := h29.error (by omega)
  unfold percentile
  dsimp only
  rw [mulDuration_fromSecs, ← hF]
  rw [abs_le] at h2 h3 ⊢
  push_cast at h3
  have e2 : sumPercentile s n m rs = sumPercentile s n m rs / 10 ^ 9 * 10 ^ 9 := by field_simp
  rw [e2]
  constructor <;> nlinarith

/-! ### Order -/

theorem round_two_pow (k : ℕ) : Binary64.round ((2 ^ k : ℕ) : Rat) = 2 ^ k := by
  have hpos : (0 : Rat) < ((2 ^ k : ℕ) : Rat) := by positivity
  unfold Binary64.round
  rw [if_neg hpos.ne', if_pos hpos]
  unfold roundPos
  dsimp only
  have hlog : Int.log 2 ((2 ^ k : ℕ) : Rat) = k := by
    rw [Int.log_natCast, Nat.log_pow (by norm_num)]
  rw [hlog, max_eq_left (by omega)]
  have e : (((2 ^ k : ℕ) : Rat)) / 2 ^ ((k : ℤ) - 52) = ((2 ^ 52 : ℤ) : Rat) := by
    rw [zpow_sub₀ (by norm_num)]
    push_cast
    rw [zpow_natCast]
    field_simp
  rw [e, roundEven_int, zpow_sub₀ (by norm_num), zpow_natCast]
  push_cast
  norm_num
  ring

/-- Whole numbers up to `2^53` are `f64`s. -/
theorem round_nat {n : ℕ} (h : n ≤ 2 ^ 53) : Binary64.round (n : Rat) = n := by
  rcases Nat.eq_zero_or_pos n with rfl | hn
  · rfl
  rcases h.eq_or_lt with rfl | h
  · rw [round_two_pow]; norm_num
  have hpos : (0 : Rat) < (n : Rat) := by exact_mod_cast hn
  unfold Binary64.round
  rw [if_neg hpos.ne', if_pos hpos]
  unfold roundPos
  dsimp only
  obtain ⟨l, hl⟩ : ∃ l, l = Nat.log 2 n := ⟨_, rfl⟩
  have hl52 : l ≤ 52 := by
    have := Nat.log_lt_of_lt_pow (b := 2) (by omega) h
    omega
  rw [Int.log_natCast, ← hl, max_eq_left (by omega)]
  have e : (n : Rat) / 2 ^ ((l : ℤ) - 52) = ((n * 2 ^ (52 - l) : ℕ) : ℤ) := by
    have e1 : (2 : Rat) ^ ((l : ℤ) - 52) = 1 / 2 ^ (52 - l) := by
      rw [show (l : ℤ) - 52 = -((52 - l : ℕ) : ℤ) by omega, zpow_neg, zpow_natCast]; simp
    rw [e1]
    push_cast
    field_simp
  rw [e, roundEven_int, ← e]
  field_simp

theorem asSecs_mono {a b : ℕ} (h : a ≤ b) (hb : b < 2 ^ 53 * 10 ^ 9) : asSecs a ≤ asSecs b := by
  unfold asSecs
  have hqa : a / 10 ^ 9 ≤ 2 ^ 53 := by omega
  have hqb : b / 10 ^ 9 ≤ 2 ^ 53 := by omega
  rw [round_nat hqa, round_nat hqb]
  refine round_mono ?_
  have hone : Binary64.round 1 = 1 := by
    have := round_nat (n := 1) (by norm_num)
    simpa using this
  rcases (Nat.div_le_div_right h : a / 10 ^ 9 ≤ b / 10 ^ 9).eq_or_lt with e | hlt
  · rw [e]
    have hm : a % 10 ^ 9 ≤ b % 10 ^ 9 := by omega
    have h1 : (((a % 10 ^ 9 : ℕ) : Rat) / 10 ^ 9) ≤ (((b % 10 ^ 9 : ℕ) : Rat) / 10 ^ 9) :=
      div_le_div_of_nonneg_right (by exact_mod_cast hm) (by positivity)
    have := round_mono h1
    linarith
  · have h1 : (((a % 10 ^ 9 : ℕ) : Rat) / 10 ^ 9) ≤ 1 := by
      rw [div_le_one (by positivity)]
      have : a % 10 ^ 9 ≤ 10 ^ 9 := (Nat.mod_lt _ (by norm_num)).le
      exact_mod_cast this
    have h2 := round_mono h1
    rw [hone] at h2
    have h3 : (0 : Rat) ≤ Binary64.round (((b % 10 ^ 9 : ℕ) : Rat) / 10 ^ 9) := round_nonneg (by positivity)
    have h4 : ((a / 10 ^ 9 : ℕ) : Rat) + 1 ≤ ((b / 10 ^ 9 : ℕ) : Rat) := by exact_mod_cast hlt
    linarith

theorem fromSecs_mono {v w : Rat} (h : v ≤ w) : fromSecs v ≤ fromSecs w := by
  unfold fromSecs
  have := roundEven_mono (mul_le_mul_of_nonneg_right h (show (0 : Rat) ≤ 10 ^ 9 by positivity))
  omega

theorem divDuration_mono {a b : ℕ} {d : Rat} (hd : 0 < d) (h : a ≤ b) (hb : b < 2 ^ 53 * 10 ^ 9) :
    divDuration a d ≤ divDuration b d :=
  fromSecs_mono (round_mono (div_le_div_of_nonneg_right (asSecs_mono h hb) hd.le))

/-! ### The formula at periods that are a little off -/

theorem sumPercentile_rel {β : ℝ} [Factor β] {s rs s' rs' : ℝ} (n m : ℕ) (hs : 0 < s) (h : Rel β 1 s' s) (h' : Rel β 1 rs' rs) :
    Rel β 7 (sumPercentile s' n m rs') (sumPercentile s n m rs) := by
  have hr := h'.div h hs
  have hn : Rel β 0 (n : ℝ) n := Rel.refl (by positivity)
  have hm : Rel β 0 (m : ℝ) m := Rel.refl (by positivity)
  have h3 := ((hr.mul hr).mul hr).mul hm
  have hroot := ((hn.mono (l := 6) (by omega)).add h3).sqrt
  have hc1 : Rel β 0 (4.92582 : ℝ) 4.92582 := Rel.refl (by norm_num)
  have hc2 : Rel β 0 (3.87809 : ℝ) 3.87809 := Rel.refl (by norm_num)
  have h4 := ((((hc1.mono (l := 6) (by omega)).add ((hc2.mul hroot).mono (l := 6) (by omega))).add
    (hn.mono (by omega))).add ((hr.mul hm).mono (l := 6) (by omega)))
  have h5 := h.mul h4
  unfold sumPercentile
  exact h5.mono (by omega)

end Mixnet.Binary64
