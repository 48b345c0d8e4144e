import Verif.Proofs.SteadyOdds
import Verif.Props.QueueDelayF64
import Mathlib.Analysis.Complex.ExponentialBounds
import Mathlib.Probability.Independence.InfinitePi
/-!
# C88: how often the estimate of the queue delay is too short
-/
namespace Mixnet.Props
open Mixnet Spec MeasureTheory ProbabilityTheory

/-! ## The formula -/

section Numbers

/-- The slower queue dominates, or the periods are not too different. -/
theorem margin_balanced {r n m : ℝ} (hr : 0 ≤ r) (hn : 0 ≤ n) (hm : 0 ≤ m) (h : 2 / 3 ≤ r ∨ 2 * r ^ 2 * m ≤ n) :
    √(2 * 4.9 * (n + r ^ 2 * m)) ≤ 3.8341 * √(n + r * r * r * m) := by
  rw [← Real.sqrt_sq (show (0 : ℝ) ≤ 3.8341 by norm_num), ← Real.sqrt_mul (by norm_num)]
  refine Real.sqrt_le_sqrt ?_
  have h3 : r ^ 2 * m ≤ n / 2 + 3 / 2 * (r * r * r * m) := by
    have h0 : 0 ≤ r ^ 2 * m := by positivity
    rcases h with h | h
    · have : r ^ 2 * m * (2 / 3) ≤ r ^ 2 * m * r := mul_le_mul_of_nonneg_left h h0
      have e : r ^ 2 * m * r = r * r * r * m := by ring
      linarith
    · have : 0 ≤ r * r * r * m := by positivity
      linarith
  have : 0 ≤ r * r * r * m := by positivity
  norm_num
  linarith

theorem margin_short {r n m : ℝ} (hr : 0 ≤ r) (hr1 : r ≤ 1) (hn : 0 ≤ n) (hm : 0 ≤ m) (hm1 : m ≤ 50) :
    2.6461 * √(n + r ^ 2 * m) ≤ 1.3 + 3.8777 * √(n + r * r * r * m) := by
  obtain ⟨x, hx0, rfl⟩ : ∃ x, 0 ≤ x ∧ r = x ^ 2 := ⟨√r, Real.sqrt_nonneg _, (Real.sq_sqrt hr).symm⟩
  obtain ⟨c, hc0, rfl⟩ : ∃ c, 0 ≤ c ∧ m = c ^ 2 := ⟨√m, Real.sqrt_nonneg _, (Real.sq_sqrt hm).symm⟩
  have hx1 : x ≤ 1 := by nlinarith
  have hc1 : c ≤ 7.0711 := by
    by_contra h
    have := mul_self_lt_mul_self (by norm_num) (not_le.1 h)
    norm_num at this
    nlinarith
  set w := √(n + x ^ 2 * x ^ 2 * x ^ 2 * c ^ 2) with hw
  have hw2 : w ^ 2 = n + x ^ 2 * x ^ 2 * x ^ 2 * c ^ 2 := Real.sq_sqrt (by positivity)
  have hw0 : 0 ≤ w := Real.sqrt_nonneg _
  have hwc : c * x ^ 3 ≤ w := by
    rw [hw]
    refine Real.le_sqrt_of_sq_le ?_
    have : (c * x ^ 3) ^ 2 = x ^ 2 * x ^ 2 * x ^ 2 * c ^ 2 := by ring
    linarith
  have hk : 0 ≤ c * x ^ 2 * (1 - x) := by
    have : 0 ≤ 1 - x := by linarith
    positivity
  have h1 : √(n + (x ^ 2) ^ 2 * c ^ 2) ≤ w + c * x ^ 2 * (1 - x) := by
    rw [Real.sqrt_le_left (by linarith)]
    have e1 : (w + c * x ^ 2 * (1 - x)) ^ 2 = w ^ 2 + 2 * (w * (c * x ^ 2 * (1 - x))) + (c * x ^ 2 * (1 - x)) ^ 2 := by ring
    have e2 : c * x ^ 3 * (c * x ^ 2 * (1 - x)) ≤ w * (c * x ^ 2 * (1 - x)) := mul_le_mul_of_nonneg_right hwc hk
    have e3 : 2 * (c * x ^ 3 * (c * x ^ 2 * (1 - x))) + (c * x ^ 2 * (1 - x)) ^ 2 =
        (x ^ 2) ^ 2 * c ^ 2 - x ^ 2 * x ^ 2 * x ^ 2 * c ^ 2 := by ring
    rw [e1, hw2]
    linarith
  have h2 : x ^ 2 * (2.6461 - 3.8777 * x) ≤ 0.1836 := by
    have := mul_nonneg (show 0 ≤ x + 0.227 by linarith) (sq_nonneg (x - 0.455))
    nlinarith
  have h3 : c * (x ^ 2 * (2.6461 - 3.8777 * x)) ≤ 1.3 := by
    calc _ ≤ c * 0.1836 := mul_le_mul_of_nonneg_left h2 hc0
      _ ≤ 7.0711 * 0.1836 := mul_le_mul_of_nonneg_right hc1 (by norm_num)
      _ ≤ 1.3 := by norm_num
  have e4 : c * (x ^ 2 * (2.6461 - 3.8777 * x)) = 2.6461 * (c * x ^ 2 * (1 - x)) - 1.2316 * (c * x ^ 3) := by ring
  rw [e4] at h3
  calc _ ≤ 2.6461 * (w + c * x ^ 2 * (1 - x)) := mul_le_mul_of_nonneg_left h1 (by norm_num)
    _ ≤ _ := by linarith

theorem exp_49 : Real.exp (-4.9) ≤ 1 / 134 := by
  rw [Real.exp_neg, one_div]
  refine inv_anti₀ (by norm_num) ?_
  have h1 : (2.7182818283 : ℝ) ^ 49 ≤ Real.exp 4.9 ^ 10 := by
    rw [← Real.exp_nat_mul]
    have : ((10 : ℕ) : ℝ) * 4.9 = (49 : ℕ) * 1 := by norm_num
    rw [this, Real.exp_nat_mul]
    exact pow_le_pow_left₀ (by norm_num) Real.exp_one_gt_d9.le 49
  by_contra h
  have := pow_lt_pow_left₀ (not_le.1 h) (Real.exp_pos _).le (n := 10) (by norm_num)
  norm_num at this h1
  linarith

theorem exp_35 : Real.exp (-3.5) ≤ 1 / 33 := by
  rw [Real.exp_neg, one_div]
  refine inv_anti₀ (by norm_num) ?_
  have h1 : (2.7182818283 : ℝ) ^ 7 ≤ Real.exp 3.5 ^ 2 := by
    rw [← Real.exp_nat_mul]
    have : ((2 : ℕ) : ℝ) * 3.5 = (7 : ℕ) * 1 := by norm_num
    rw [this, Real.exp_nat_mul]
    exact pow_le_pow_left₀ (by norm_num) Real.exp_one_gt_d9.le 7
  by_contra h
  have := pow_lt_pow_left₀ (not_le.1 h) (Real.exp_pos _).le (n := 2) (by norm_num)
  norm_num at this h1
  linarith

/-- Small errors do not matter. -/
theorem with_errors {s r n m ε δ t x : ℝ} (hs : 200 ≤ s) (hr : 0 ≤ r) (hr1 : r ≤ 1) (hn : 0 ≤ n) (hm : 0 ≤ m) (hε : 0 ≤ ε) (hδ : 0 ≤ δ)
    (h1 : ε + δ ≤ 1 / 10 ^ 4) (h2 : (ε + δ) * (n + m) ≤ 1 / 50) (ht : t ≤ 4.9) (ht0 : 0 ≤ t)
    (hmain : t + 1.0001 * √(2 * t * (n + r ^ 2 * m)) ≤ 4.9 + 3.8777 * √(n + r * r * r * m))
    (hx : (1 - δ) * (s * (4.92582 + 3.87809 * √(n + r * r * r * m) + n + r * m)) - 1 / 2 ≤ x) :
    (1 + ε) * (n * s + m * (r * s) + s * (t + √(2 * t * (n + r ^ 2 * m)))) ≤ x := by
  set v := √(2 * t * (n + r ^ 2 * m))
  set w := √(n + r * r * r * m)
  have hv : 0 ≤ v := Real.sqrt_nonneg _
  have hw : 0 ≤ w := Real.sqrt_nonneg _
  have hrm : r * m ≤ m := by
    calc r * m ≤ 1 * m := mul_le_mul_of_nonneg_right hr1 hm
      _ = m := one_mul m
  have hrm0 : 0 ≤ r * m := mul_nonneg hr hm
  have k1 : (ε + δ) * (n + r * m) ≤ 1 / 50 :=
    (mul_le_mul_of_nonneg_left (by linarith) (by linarith)).trans h2
  have hε1 : ε ≤ 1 / 10 ^ 4 := by linarith
  have hδ1 : δ ≤ 1 / 10 ^ 4 := by linarith
  have k2 : ε * t ≤ 1 / 10 ^ 4 * 4.9 := mul_le_mul hε1 ht ht0 (by norm_num)
  have k3 : ε * v ≤ 1 / 10 ^ 4 * v := mul_le_mul_of_nonneg_right hε1 hv
  have k4 : δ * w ≤ 1 / 10 ^ 4 * w := mul_le_mul_of_nonneg_right hδ1 hw
  have k5 : (1 + ε) * (n + r * m + (t + v)) + 0.0025 ≤ (1 - δ) * (4.92582 + 3.87809 * w + n + r * m) := by
    have e : (1 - δ) * (4.92582 + 3.87809 * w + n + r * m) - (1 + ε) * (n + r * m + (t + v)) =
      4.92582 - 4.92582 * δ + 3.87809 * w - 3.87809 * (δ * w) - (ε + δ) * (n + r * m) - t - ε * t - v - ε * v := by ring
    have : (1 - δ) * (4.92582 + 3.87809 * w + n + r * m) - (1 + ε) * (n + r * m + (t + v)) ≥ 0.0025 := by
      rw [e]
      norm_num at *
      linarith
    linarith
  have k6 := mul_le_mul_of_nonneg_left k5 (show 0 ≤ s by linarith)
  have e1 : s * ((1 + ε) * (n + r * m + (t + v)) + 0.0025) =
      (1 + ε) * (n * s + m * (r * s) + s * (t + v)) + s * 0.0025 := by ring
  have e2 : s * ((1 - δ) * (4.92582 + 3.87809 * w + n + r * m)) =
      (1 - δ) * (s * (4.92582 + 3.87809 * w + n + r * m)) := by ring
  rw [e1, e2] at k6
  linarith

end Numbers

theorem both_mono {mean₁ mean₂ t t' : ℝ} {z₁ z₂ : ℕ → ℝ × Bool} {a a' b b' : ℕ} (ha : a' ≤ a) (hb : b' ≤ b) (ht : t ≤ t')
    (h : BothEmptyBy mean₁ z₁ a mean₂ z₂ b t) : BothEmptyBy mean₁ z₁ a' mean₂ z₂ b' t' := by
  obtain ⟨n₁, n₂, h1, h2, h3⟩ := h
  exact ⟨n₁, n₂, ha.trans h1, hb.trans h2, h3.trans ht⟩

theorem both_swap {mean₁ mean₂ t : ℝ} {z₁ z₂ : ℕ → ℝ × Bool} {a b : ℕ} :
    BothEmptyBy mean₁ z₁ a mean₂ z₂ b t ↔ BothEmptyBy mean₂ z₂ b mean₁ z₁ a t := by
  constructor <;> rintro ⟨n₁, n₂, h1, h2, h3⟩ <;> exact ⟨n₂, n₁, h2, h1, by linarith⟩

section Formula
variable {Ω : Type*} [MeasurableSpace Ω] {P : Measure Ω} {p a b mean₁ mean₂ share₁ share₂ ε δ x : ℝ} {n m : ℕ}
  {z₁ z₂ : ℕ → Ω → ℝ × Bool}

theorem core_tail {t : ℝ} (hp0 : 0 ≤ p) (hp : p < 1) (hb : 0 < b) (hba : b ≤ a) (ha : 100 ≤ a)
    (hmean₁ : 0 ≤ mean₁) (hmean₂ : 0 ≤ mean₂) (hshare₁ : 0 < share₁) (hshare₂ : 0 < share₂)
    (hmp₁ : mean₁ ≤ share₁ * (meanPerPacket p a * (1 + ε))) (hmp₂ : mean₂ ≤ share₂ * (meanPerPacket p b * (1 + ε)))
    (hz₁ : RandomTurns P share₁ z₁) (hz₂ : RandomTurns P share₂ z₂)
    (hind : IndepFun (fun ω k => z₁ k ω) (fun ω k => z₂ k ω) P)
    (hε : 0 ≤ ε) (hδ : 0 ≤ δ) (h1 : ε + δ ≤ 1 / 10 ^ 4) (h2 : (ε + δ) * (n + m) ≤ 1 / 50) (ht : t ≤ 4.9) (ht0 : 0 ≤ t)
    (hmain : t + 1.0001 * √(2 * t * (n + (b / a) ^ 2 * m)) ≤ 4.9 + 3.8777 * √(n + (b / a) * (b / a) * (b / a) * m))
    (hx : (1 - δ) * sumPercentile (meanPerPacket p a) n m (meanPerPacket p b) - 1 / 2 ≤ x) :
    P {ω | ¬ BothEmptyBy mean₁ (fun k => z₁ k ω) n mean₂ (fun k => z₂ k ω) m x} ≤ ENNReal.ofReal (Real.exp (-t)) := by
  have hrate := rate_pos hp
  have ha0 : 0 < a := by linarith
  have hPa : 200 ≤ meanPerPacket p a := by
    unfold meanPerPacket
    rw [le_div_iff₀ hrate]
    have : 0.5 * (1 - p) ≤ 0.5 := by norm_num; linarith
    nlinarith
  have hPb : 0 < meanPerPacket p b := div_pos hb hrate
  have hPab : meanPerPacket p b ≤ meanPerPacket p a := div_le_div_of_nonneg_right hba hrate.le
  have hratio : meanPerPacket p b / meanPerPacket p a = b / a := by
    unfold meanPerPacket
    rw [div_div_div_cancel_right₀ hrate.ne']
  have hPb' : meanPerPacket p b = b / a * meanPerPacket p a := by
    rw [← hratio, div_mul_cancel₀ _ (by linarith)]
  have hr0 : 0 < b / a := div_pos hb ha0
  have hr1 : b / a ≤ 1 := (div_le_one ha0).2 hba
  have hε1 : 0 < 1 + ε := by linarith
  have hx' : (1 - δ) * (meanPerPacket p a * (4.92582 + 3.87809 * √(n + b / a * (b / a) * (b / a) * m) + n + b / a * m)) - 1 / 2
      ≤ x := by
    have e : sumPercentile (meanPerPacket p a) n m (meanPerPacket p b) =
        meanPerPacket p a * (4.92582 + 3.87809 * √(n + b / a * (b / a) * (b / a) * m) + n + b / a * m) := by
      unfold sumPercentile
      rw [hratio]
    rw [← e]; exact hx
  have key := with_errors hPa hr0.le hr1 (Nat.cast_nonneg n) (Nat.cast_nonneg m) hε hδ h1 h2 ht ht0 hmain hx'
  by_cases hv : (0 : ℝ) < n + (b / a) ^ 2 * m
  · have e : (meanPerPacket p b * (1 + ε)) / (meanPerPacket p a * (1 + ε)) = b / a := by
      rw [mul_div_mul_right _ _ hε1.ne', hratio]
    have h := both_tail_le hmean₁ hmean₂ hshare₁ hshare₂ (mul_pos (by linarith) hε1) (mul_pos hPb hε1).le
      (mul_le_mul_of_nonneg_right hPab hε1.le) hmp₁ hmp₂ hz₁ hz₂ hind n m ht0 (by rw [e]; exact hv)
    rw [e] at h
    refine le_trans (measure_mono fun ω hω => ?_) h
    intro hin
    refine hω (both_mono le_rfl le_rfl ?_ hin)
    refine le_trans (le_of_eq ?_) key
    rw [hPb']
    ring
  · have hn : n = 0 := by
      have : (n : ℝ) ≤ 0 := by
        have : 0 ≤ (b / a) ^ 2 * m := by positivity
        linarith
      exact_mod_cast le_antisymm this (Nat.cast_nonneg n)
    have hm : m = 0 := by
      by_contra hm
      have : (0 : ℝ) < m := by exact_mod_cast Nat.pos_of_ne_zero hm
      exact hv (by positivity)
    have h0 : 0 ≤ x := by
      refine le_trans ?_ key
      have := Real.sqrt_nonneg (2 * t * (n + (b / a) ^ 2 * m))
      positivity
    have hempty : {ω | ¬ BothEmptyBy mean₁ (fun k => z₁ k ω) n mean₂ (fun k => z₂ k ω) m x} = ∅ := by
      ext ω
      simp only [Set.mem_setOf_eq, Set.mem_empty_iff_false, iff_false, not_not]
      subst hn hm
      exact ⟨0, 0, Nat.zero_le _, Nat.zero_le _, by simpa [clock] using h0⟩
    rw [hempty, measure_empty]
    exact zero_le

/-- The periods are not too different, or the queue with the shorter period is not too long. -/
def Balanced (a : ℝ) (n : ℕ) (b : ℝ) (m : ℕ) : Prop :=
  (2 * a ≤ 3 * b ∨ 2 * b ^ 2 * m ≤ a ^ 2 * n) ∧ (2 * b ≤ 3 * a ∨ 2 * a ^ 2 * n ≤ b ^ 2 * m)

theorem sorted_tail (hp0 : 0 ≤ p) (hp : p < 1) (hb : 0 < b) (hba : b ≤ a) (ha : 100 ≤ a)
    (hmean₁ : 0 ≤ mean₁) (hmean₂ : 0 ≤ mean₂) (hshare₁ : 0 < share₁) (hshare₂ : 0 < share₂)
    (hmp₁ : mean₁ ≤ share₁ * (meanPerPacket p a * (1 + ε))) (hmp₂ : mean₂ ≤ share₂ * (meanPerPacket p b * (1 + ε)))
    (hz₁ : RandomTurns P share₁ z₁) (hz₂ : RandomTurns P share₂ z₂)
    (hind : IndepFun (fun ω k => z₁ k ω) (fun ω k => z₂ k ω) P)
    (hε : 0 ≤ ε) (hδ : 0 ≤ δ) (h1 : ε + δ ≤ 1 / 10 ^ 4) (h2 : (ε + δ) * (n + m) ≤ 1 / 50)
    (hx : (1 - δ) * sumPercentile (meanPerPacket p a) n m (meanPerPacket p b) - 1 / 2 ≤ x) :
    ((2 * a ≤ 3 * b ∨ 2 * b ^ 2 * m ≤ a ^ 2 * n) →
      P {ω | ¬ BothEmptyBy mean₁ (fun k => z₁ k ω) n mean₂ (fun k => z₂ k ω) m x} ≤ ENNReal.ofReal (1 / 134)) ∧
    (m ≤ 50 → P {ω | ¬ BothEmptyBy mean₁ (fun k => z₁ k ω) n mean₂ (fun k => z₂ k ω) m x} ≤ ENNReal.ofReal (1 / 33)) := by
  have ha0 : 0 < a := by linarith
  have hr0 : 0 ≤ b / a := (div_pos hb ha0).le
  have hr1 : b / a ≤ 1 := (div_le_one ha0).2 hba
  constructor
  · intro hbal
    refine (core_tail (t := 4.9) hp0 hp hb hba ha hmean₁ hmean₂ hshare₁ hshare₂ hmp₁ hmp₂ hz₁ hz₂ hind hε hδ h1 h2 le_rfl
      (by norm_num) ?_ hx).trans (ENNReal.ofReal_le_ofReal exp_49)
    have := margin_balanced hr0 (Nat.cast_nonneg n) (Nat.cast_nonneg m) (by
      rcases hbal with h | h
      · left; rw [div_le_div_iff₀ (by norm_num) ha0]; linarith
      · right
        rw [div_pow, mul_assoc, div_mul_eq_mul_div, mul_div_assoc', div_le_iff₀ (by positivity)]
        linarith)
    have hw := Real.sqrt_nonneg ((n : ℝ) + b / a * (b / a) * (b / a) * m)
    linarith
  · intro hm
    refine (core_tail (t := 3.5) hp0 hp hb hba ha hmean₁ hmean₂ hshare₁ hshare₂ hmp₁ hmp₂ hz₁ hz₂ hind hε hδ h1 h2 (by norm_num)
      (by norm_num) ?_ hx).trans (ENNReal.ofReal_le_ofReal exp_35)
    have := margin_short hr0 hr1 (Nat.cast_nonneg n) (Nat.cast_nonneg m) (by exact_mod_cast hm)
    have h7 : √(2 * 3.5 * (n + (b / a) ^ 2 * m)) ≤ 2.6458 * √(n + (b / a) ^ 2 * m) := by
      rw [Real.sqrt_mul (by norm_num)]
      refine mul_le_mul_of_nonneg_right ?_ (Real.sqrt_nonneg _)
      rw [Real.sqrt_le_left (by norm_num)]
      norm_num
    have hv := Real.sqrt_nonneg ((n : ℝ) + (b / a) ^ 2 * m)
    have : 1.0001 * √(2 * 3.5 * (n + (b / a) ^ 2 * m)) ≤ 2.6461 * √(n + (b / a) ^ 2 * m) := by
      calc _ ≤ 1.0001 * (2.6458 * √(n + (b / a) ^ 2 * m)) := mul_le_mul_of_nonneg_left h7 (by norm_num)
        _ ≤ _ := by linarith
    linarith

/-- **C88** (formula). Two queues, from each of which a packet is taken at random times at the mean rate that the estimate assumes, up to
a relative error `ε`, are empty within the estimated time, up to a relative error `δ` and half a nanosecond,
except with probability 1/134 if they are balanced, and 1/33 if they have no more than 50 packets. -/
theorem estimate_tail (hp0 : 0 ≤ p) (hp : p < 1) (ha : 0 < a) (hb : 0 < b) (hab : 100 ≤ max a b)
    (hmean₁ : 0 ≤ mean₁) (hmean₂ : 0 ≤ mean₂) (hshare₁ : 0 < share₁) (hshare₂ : 0 < share₂)
    (hmp₁ : mean₁ ≤ share₁ * (meanPerPacket p a * (1 + ε))) (hmp₂ : mean₂ ≤ share₂ * (meanPerPacket p b * (1 + ε)))
    (hz₁ : RandomTurns P share₁ z₁) (hz₂ : RandomTurns P share₂ z₂)
    (hind : IndepFun (fun ω k => z₁ k ω) (fun ω k => z₂ k ω) P)
    (hε : 0 ≤ ε) (hδ : 0 ≤ δ) (h1 : ε + δ ≤ 1 / 10 ^ 4) (h2 : (ε + δ) * (n + m) ≤ 1 / 50)
    (hx : (1 - δ) * queueDelayReal p a n b m - 1 / 2 ≤ x) :
    (Balanced a n b m →
      P {ω | ¬ BothEmptyBy mean₁ (fun k => z₁ k ω) n mean₂ (fun k => z₂ k ω) m x} ≤ ENNReal.ofReal (1 / 134)) ∧
    (n ≤ 50 → m ≤ 50 →
      P {ω | ¬ BothEmptyBy mean₁ (fun k => z₁ k ω) n mean₂ (fun k => z₂ k ω) m x} ≤ ENNReal.ofReal (1 / 33)) := by
  rcases queueDelayReal_cases (n := n) (m := m) (a := a) (b := b) hp with ⟨h, e⟩ | ⟨h, e⟩
  · rw [max_eq_left h] at hab
    rw [e] at hx
    obtain ⟨k1, k2⟩ := sorted_tail hp0 hp hb h hab hmean₁ hmean₂ hshare₁ hshare₂ hmp₁ hmp₂ hz₁ hz₂ hind hε hδ h1 h2 hx
    exact ⟨fun hbal => k1 hbal.1, fun _ hm => k2 hm⟩
  · rw [max_eq_right h] at hab
    rw [e] at hx
    obtain ⟨k1, k2⟩ := sorted_tail (n := m) (m := n) hp0 hp ha h hab hmean₂ hmean₁ hshare₂ hshare₁ hmp₂ hmp₁ hz₂ hz₁ hind.symm hε hδ h1
      (by rw [add_comm (m : ℝ)]; exact h2) hx
    have hset : {ω | ¬ BothEmptyBy mean₁ (fun k => z₁ k ω) n mean₂ (fun k => z₂ k ω) m x} =
        {ω | ¬ BothEmptyBy mean₂ (fun k => z₂ k ω) m mean₁ (fun k => z₁ k ω) n x} := by
      ext ω; exact not_congr both_swap
    rw [hset]
    exact ⟨fun hbal => k1 hbal.2, fun hn _ => k2 hn⟩

end Formula

/-! ## Nodes -/

section Nodes
variable {C : Crypto} {config config' : Config} {node node' dest : Node}

/-- As many turns as there are packets, and all are sent. -/
theorem sent_after (hC : CryptoLaws C) (hs : Sane config) (hr : Node.Reachable C config node) {i : Nat} {s : Session}
    (hat : node.sessionAt i = some s) {rngs : ℕ → Rng} {x : ℕ → ℝ} {n : ℕ} [DecidablePred (Turn node i)]
    (h : s.authoredPacketQueue.queue.length ≤ turnCount (fun k => (x k, decide (Turn node i (rngs k)))) n) :
    SentAfter C node i rngs n := by
  intro calls outs m' s' hw hq hruns hpops hat' p hp
  rw [hat] at hat'
  cases hat'
  obtain ⟨hI, -⟩ := hr.inv hC
  obtain ⟨-, hkeep, hturns⟩ := steady_turns hC hI (Option.isSome_iff_exists.2 ⟨s, hat⟩) hw hq hruns
  obtain ⟨⟨ps, hps⟩, s1, s2, hat1, -, hsent⟩ := sent_in_turn hC hs hr hw hkeep
  rw [hat] at hat1
  cases hat1
  obtain ⟨j1, j2⟩ := hturns ps hps
  have hlen : ps.length = turnCount (fun k => (x k, decide (Turn node i (rngs k)))) n := by
    rw [j2, hpops, List.filter_map, List.length_map]
    unfold turnCount
    rw [Finset.card_def, Finset.filter_val, Finset.range_val]
    simp only [decide_eq_true_eq, Multiset.range, Multiset.filter_coe, Multiset.coe_card]
    rfl
  obtain ⟨k, hk⟩ := List.mem_iff_getElem?.1 hp
  have hkl : k < s.authoredPacketQueue.queue.length := (List.getElem?_eq_some_iff.1 hk).1
  have := (hsent ps hps).1 k p hk (by omega)
  exact j1 _ (List.mem_of_getElem? this)

/-- **C88** (nodes). A node and another one (the destination, with a session of the given period and the same share of loop cover),
each with its own independent draws, send all packets that are waiting, one node after the other, within the
time the `f64` estimate gives for as many packets or more, except with probability 1/134 or 1/33. Sessions must
not change meanwhile; everything else may happen: more requests and replies posted, packets arriving. -/
theorem nodes_tail (hC : CryptoLaws C) (hs : Sane config) (hs' : Sane config') (hr : Node.Reachable C config node)
    (hr' : Node.Reachable C config' dest) (hloops : config'.loopCoverProportion = config.loopCoverProportion)
    (hp : config.loopCoverProportion ≤ 1 - 1 / 2 ^ 53)
    {i j : Nat} {s t : Session} (hat : node.sessionAt i = some s) (hat' : dest.sessionAt j = some t)
    (hact : ¬ NoLonger node.sessionStatus i ∧ ¬ NotYet node.sessionStatus i)
    (hact' : ¬ NoLonger dest.sessionStatus j ∧ ¬ NotYet dest.sessionStatus j)
    (hratio : ∀ k u, node.sessionAt k = some u → s.meanAuthoredPacketPeriod ≤ 10 ^ 6 * u.meanAuthoredPacketPeriod)
    (hratio' : ∀ k u, dest.sessionAt k = some u → t.meanAuthoredPacketPeriod ≤ 10 ^ 6 * u.meanAuthoredPacketPeriod)
    (hms : 10 ^ 6 ≤ s.meanAuthoredPacketPeriod) (hms' : 10 ^ 6 ≤ t.meanAuthoredPacketPeriod)
    (hbig : meanPerPacket config.loopCoverProportion s.meanAuthoredPacketPeriod < 2 ^ 83)
    (hbig' : meanPerPacket config.loopCoverProportion t.meanAuthoredPacketPeriod < 2 ^ 83)
    {n m : ℕ} (hn : s.authoredPacketQueue.queue.length ≤ n) (hm : t.authoredPacketQueue.queue.length ≤ m) (hnm : n + m ≤ 9000)
    {Ω : Type*} [MeasurableSpace Ω] {P : Measure Ω} {x y : ℕ → Ω → ℝ} {rngs rngs' : ℕ → Ω → Rng}
    (hd : RandomDraws P x rngs) (hd' : RandomDraws P y rngs')
    (hind : IndepFun (fun ω k => (x k ω, rngs k ω 0, rngs k ω 1)) (fun ω k => (y k ω, rngs' k ω 0, rngs' k ω 1)) P) :
    ∃ mean mean' : Rat, node.meanAuthoredPacketPeriod = .ok (some mean) ∧ dest.meanAuthoredPacketPeriod = .ok (some mean') ∧
      let late := {ω | ¬ ∃ k k', SentAfter C node i (fun l => rngs l ω) k ∧ SentAfter C dest j (fun l => rngs' l ω) k' ∧
        clock mean (fun l => x l ω) k + clock mean' (fun l => y l ω) k' ≤
          (Binary64.queueDelay config.loopCoverProportion s.meanAuthoredPacketPeriod n t.meanAuthoredPacketPeriod m : ℕ)}
      (Balanced s.meanAuthoredPacketPeriod n t.meanAuthoredPacketPeriod m → P late ≤ ENNReal.ofReal (1 / 134)) ∧
      (n ≤ 50 → m ≤ 50 → P late ≤ ENNReal.ofReal (1 / 33)) := by
  classical
  obtain ⟨mean, share, e1, e2, e3, e4, e5⟩ := turn_share hC hs hr hat hact.1 hact.2 hratio
  obtain ⟨mean', share', f1, f2, f3, f4, f5⟩ := turn_share hC hs' hr' hat' hact'.1 hact'.2 hratio'
  rw [hloops] at f4
  have hz := random_turns hd e5
  have hz' := random_turns hd' f5
  refine ⟨mean, mean', e1, f1, ?_⟩
  intro late
  have hl0 := hs.loops.1
  have hp0R : (0 : ℝ) ≤ config.loopCoverProportion := by exact_mod_cast hl0
  have hp1R : (config.loopCoverProportion : ℝ) < 1 := share_lt hp
  have hsR : (10 ^ 6 : ℝ) ≤ s.meanAuthoredPacketPeriod := by exact_mod_cast hms
  have htR : (10 ^ 6 : ℝ) ≤ t.meanAuthoredPacketPeriod := by exact_mod_cast hms'
  have small : ∀ {a : ℕ}, meanPerPacket config.loopCoverProportion a < 2 ^ 83 → a < 2 ^ 53 * 10 ^ 9 := by
    intro a ha
    have := mean_ge hl0 hp a
    have h1 : (2 : ℝ) ^ 83 ≤ 2 * (2 ^ 53 * 10 ^ 9) := by norm_num
    have h2 : (a : ℝ) < 2 ^ 53 * 10 ^ 9 := by linarith
    exact_mod_cast h2
  have hclose := f64_close (n := n) (m := m) (μ := 10 ^ 6) hl0 hp (by omega) (by norm_num) (.inr hms) (.inr hms')
    (hbig.trans (by norm_num)) (hbig'.trans (by norm_num)) (small hbig) (small hbig')
  have hind' : IndepFun (fun ω k => (x k ω, decide (Turn node i (rngs k ω)))) (fun ω k => (y k ω, decide (Turn dest j (rngs' k ω)))) P := by
    let g : (m : Node) → Nat → ℝ × ℕ × ℕ → ℝ × Bool := fun m i d => (d.1, decide (Turn m i (pair d.2)))
    have hg : ∀ m i, Measurable (g m i) := by
      intro m i
      have : Measurable fun d : ℕ × ℕ => decide (Turn m i (pair d)) := measurable_of_countable _
      exact measurable_fst.prodMk (this.comp measurable_snd)
    have hG : ∀ m i, Measurable fun (f : ℕ → ℝ × ℕ × ℕ) k => g m i (f k) := by
      intro m i
      exact measurable_pi_lambda _ fun k => (hg m i).comp (measurable_pi_apply k)
    have := hind.comp (hG node i) (hG dest j)
    refine this.congr (Filter.Eventually.of_forall fun ω => ?_) (Filter.Eventually.of_forall fun ω => ?_)
    · funext k
      simp only [Function.comp, g]
      congr 1
      exact decide_eq_decide.2 turn_pair.symm
    · funext k
      simp only [Function.comp, g]
      congr 1
      exact decide_eq_decide.2 turn_pair.symm
  have hnmR : ((n : ℝ) + m) ≤ 9000 := by exact_mod_cast hnm
  have hnm0 : (0 : ℝ) ≤ (n : ℝ) + m := by positivity
  obtain ⟨hu, hu'⟩ := ulp_facts
  have hδ : (1 / 2 ^ 43 + (2 / ((10 ^ 6 : ℕ) : ℝ) + 80 * ulp)) ≤ 2.1 / 10 ^ 6 := by
    have : 80 * ulp ≤ 80 * (1 / 10 ^ 15) := by linarith
    norm_num at this ⊢
    linarith
  have key := estimate_tail (n := n) (m := m) (ε := 1 / 2 ^ 43) (δ := 2 / ((10 ^ 6 : ℕ) : ℝ) + 80 * ulp)
    (x := (Binary64.queueDelay config.loopCoverProportion s.meanAuthoredPacketPeriod n t.meanAuthoredPacketPeriod m : ℕ))
    hp0R hp1R (show (0 : ℝ) < s.meanAuthoredPacketPeriod by linarith) (show (0 : ℝ) < t.meanAuthoredPacketPeriod by linarith)
    (le_trans (by linarith) (le_max_left _ _)) (show (0 : ℝ) ≤ mean by exact_mod_cast e2.le)
    (show (0 : ℝ) ≤ mean' by exact_mod_cast f2.le) e3 f3 e4 f4 hz hz' hind' (by positivity)
    (by have : (0 : ℝ) ≤ 2 / ((10 ^ 6 : ℕ) : ℝ) := by positivity
        linarith)
    (hδ.trans (by norm_num))
    (by calc _ ≤ (2.1 / 10 ^ 6 : ℝ) * 9000 := mul_le_mul hδ hnmR hnm0 (by norm_num)
          _ ≤ 1 / 50 := by norm_num)
    (by have := (abs_le.1 hclose).1
        linarith)
  have hsub : late ⊆ {ω | ¬ BothEmptyBy mean (fun k => (x k ω, decide (Turn node i (rngs k ω)))) n mean'
      (fun k => (y k ω, decide (Turn dest j (rngs' k ω)))) m
      (Binary64.queueDelay config.loopCoverProportion s.meanAuthoredPacketPeriod n t.meanAuthoredPacketPeriod m : ℕ)} := by
    intro ω hω hin
    obtain ⟨k, k', q1, q2, q3⟩ := hin
    exact hω ⟨k, k', sent_after hC hs hr hat (x := fun l => x l ω) (hn.trans q1),
      sent_after hC hs' hr' hat' (x := fun l => y l ω) (hm.trans q2), q3⟩
  exact ⟨fun hb => (measure_mono hsub).trans (key.1 hb), fun h1 h2 => (measure_mono hsub).trans (key.2 h1 h2)⟩

/-- **C88** (in the metrics). With the estimate as the code computes it: after a successful `post_request`, all packets that
then wait in the queue of the session are sent, and after that all that wait (at most as many as the queue can hold) in a
session at the other end, within the delay that the metrics give, except with probability 1/134 or 1/33. -/
theorem posted_delay_tail (hC : CryptoLaws C) (hE : C.queueDelayEstimate = Binary64.queueDelay) (hs : Sane config) (hs' : Sane config')
    (hr : Node.Reachable C config node)
    (hr' : Node.Reachable C config' dest) (hloops : config'.loopCoverProportion = config.loopCoverProportion)
    (hp : config.loopCoverProportion ≤ 1 - 1 / 2 ^ 53) {rng : Rng} {i : Nat} {d d' : Option MixnodeIndex} {mid : MessageId}
    {data : Scattered Byte} {l : Bytes} {k : Nat} {ns : NetworkStatus} {met : RequestMetrics}
    (hw : (Call.postRequest rng i d mid data k ns).WellTyped) (hden : Denotes data l)
    (h : node.step C (.postRequest rng i d mid data k ns) = .ok (node', .posted d' (.ok met)))
    {j : Nat} {t : Session} (hat' : dest.sessionAt j = some t)
    (hact' : ¬ NoLonger dest.sessionStatus j ∧ ¬ NotYet dest.sessionStatus j)
    (hperiod : t.meanAuthoredPacketPeriod = config.mixnodeSession.meanAuthoredPacketPeriod)
    (hm : t.authoredPacketQueue.queue.length ≤ config.mixnodeSession.authoredPacketQueue.capacity)
    (hratio' : ∀ k u, dest.sessionAt k = some u → t.meanAuthoredPacketPeriod ≤ 10 ^ 6 * u.meanAuthoredPacketPeriod)
    (hms' : 10 ^ 6 ≤ config.mixnodeSession.meanAuthoredPacketPeriod)
    (hbig' : meanPerPacket config.loopCoverProportion config.mixnodeSession.meanAuthoredPacketPeriod < 2 ^ 83)
    {Ω : Type*} [MeasurableSpace Ω] {P : Measure Ω} {x y : ℕ → Ω → ℝ} {rngs rngs' : ℕ → Ω → Rng}
    (hd : RandomDraws P x rngs) (hd' : RandomDraws P y rngs')
    (hind : IndepFun (fun ω k => (x k ω, rngs k ω 0, rngs k ω 1)) (fun ω k => (y k ω, rngs' k ω 0, rngs' k ω 1)) P) :
    ∃ s, node'.sessionAt i = some s ∧
      ((∀ k u, node'.sessionAt k = some u → s.meanAuthoredPacketPeriod ≤ 10 ^ 6 * u.meanAuthoredPacketPeriod) →
       10 ^ 6 ≤ s.meanAuthoredPacketPeriod →
       meanPerPacket config.loopCoverProportion s.meanAuthoredPacketPeriod < 2 ^ 83 →
       s.authoredPacketQueue.queue.length + config.mixnodeSession.authoredPacketQueue.capacity ≤ 9000 →
       ∃ mean mean' : Rat, node'.meanAuthoredPacketPeriod = .ok (some mean) ∧ dest.meanAuthoredPacketPeriod = .ok (some mean') ∧
        let late := {ω | ¬ ∃ k k', SentAfter C node' i (fun l => rngs l ω) k ∧ SentAfter C dest j (fun l => rngs' l ω) k' ∧
          clock mean (fun l => x l ω) k + clock mean' (fun l => y l ω) k' ≤ (met.authoredPacketQueueDelay : ℕ)}
        (Balanced s.meanAuthoredPacketPeriod s.authoredPacketQueue.queue.length
          config.mixnodeSession.meanAuthoredPacketPeriod config.mixnodeSession.authoredPacketQueue.capacity →
          P late ≤ ENNReal.ofReal (1 / 134)) ∧
        (s.authoredPacketQueue.queue.length ≤ 50 → config.mixnodeSession.authoredPacketQueue.capacity ≤ 50 →
          P late ≤ ENNReal.ofReal (1 / 33))) := by
  obtain ⟨s0, dst, packets, hpost, -⟩ := request_posted hC hr hs.hops hw hden h
  obtain ⟨s, hat, he, -, -⟩ := posted_queue_delay hC hr hs.hops hw hden h
  have hst : node'.sessionStatus = node.sessionStatus :=
    (Steady.step rfl (Node.step_cases hC (hr.inv hC).1 hw h)).status
  have hact : ¬ NoLonger node'.sessionStatus i ∧ ¬ NotYet node'.sessionStatus i := by rw [hst]; exact hpost.active
  refine ⟨s, hat, fun hratio hms hbig hnm => ?_⟩
  rw [he, hE, ← hperiod]
  rw [← hperiod] at hms' hbig'
  exact nodes_tail hC hs hs' (hr.step hC hw h) hr' hloops hp hat hat' hact hact' hratio hratio' hms hms' hbig hbig' le_rfl hm hnm
    hd hd' hind

end Nodes

/-! ## The bound needs the condition

The comment in the code (`/repo/src/core/mod.rs:198-222`) calls the formula an approximation to the 99.995th percentile, fitted for
up to 200 packets. The spread of the time that `m` packets take, one per `T` on average,
is `√m * T` (one standard deviation). If the queue with the shorter period is long enough, what the estimate adds to the
mean is an arbitrarily small part of this: the estimate is then not much more than the mean. -/

/-- **C88** (the condition is needed). The periods are as 1 : k², and k⁶ packets wait in the faster queue: what the estimate
adds to the mean is 8.80391/k standard deviations. -/
theorem excess_small {p b : ℝ} (hp : p < 1) (hb : 0 < b) {k : ℕ} (hk : 1 ≤ k) :
    queueDelayReal p (k ^ 2 * b) 0 b (k ^ 6) - k ^ 6 * meanPerPacket p b =
      8.80391 / k * (√((k ^ 6 : ℕ) : ℝ) * meanPerPacket p b) := by
  have hrate := rate_pos hp
  have hk0 : (1 : ℝ) ≤ k := by exact_mod_cast hk
  have hkp : (0 : ℝ) < k := by linarith
  have hsq : (1 : ℝ) ≤ k ^ 2 := one_le_pow₀ hk0
  have hTb : 0 < meanPerPacket p b := div_pos hb hrate
  have hT : meanPerPacket p (k ^ 2 * b) = k ^ 2 * meanPerPacket p b := by unfold meanPerPacket; ring
  have e : queueDelayReal p (k ^ 2 * b) 0 b (k ^ 6) = sumPercentile (meanPerPacket p (k ^ 2 * b)) 0 (k ^ 6) (meanPerPacket p b) := by
    rcases queueDelayReal_cases (n := 0) (m := k ^ 6) (a := k ^ 2 * b) (b := b) hp with ⟨h, e⟩ | ⟨h, e⟩
    · exact e
    · have : k ^ 2 * b = b := le_antisymm h (le_mul_of_one_le_left hb.le hsq)
      rw [e, this, sumPercentile_tie]
  have hr : meanPerPacket p b / (k ^ 2 * meanPerPacket p b) = 1 / k ^ 2 := by field_simp
  have h1 : (1 : ℝ) / k ^ 2 * (1 / k ^ 2) * (1 / k ^ 2) * ((k ^ 6 : ℕ) : ℝ) = 1 := by push_cast; field_simp
  have h2 : √((k ^ 6 : ℕ) : ℝ) = k ^ 3 := by
    rw [show ((k ^ 6 : ℕ) : ℝ) = (k ^ 3) ^ 2 by push_cast; ring, Real.sqrt_sq (by positivity)]
  rw [e, hT]
  unfold sumPercentile
  dsimp only
  rw [hr, h1, h2]
  push_cast
  rw [zero_add, Real.sqrt_one]
  field_simp
  ring

/-! ## Examples -/

section Examples

/-- The draws of one node: for each opportunity an exponential sample and two random numbers. -/
noncomputable def oneDraw : Measure (ℝ × ℕ × ℕ) := (expMeasure 1).prod (uniform64.prod uniform64)

instance : IsProbabilityMeasure (expMeasure 1) := isProbabilityMeasure_expMeasure one_pos
instance : IsProbabilityMeasure oneDraw := by unfold oneDraw; infer_instance

noncomputable def nodeDraws : Measure (ℕ → ℝ × ℕ × ℕ) := Measure.infinitePi fun _ => oneDraw

instance : IsProbabilityMeasure nodeDraws := by unfold nodeDraws; infer_instance

theorem draws_of {Ω : Type*} [MeasurableSpace Ω] {P : Measure Ω} {f : Ω → ℕ → ℝ × ℕ × ℕ} (hf : MeasurePreserving f P nodeDraws) :
    RandomDraws P (fun k ω => (f ω k).1) (fun k ω => pair (f ω k).2) := by
  have he : ∀ k ω, ((f ω k).1, pair (f ω k).2 0, pair (f ω k).2 1) = f ω k := fun k ω => rfl
  have hm : ∀ k, Measurable fun ω => f ω k := fun k => (measurable_pi_apply k).comp hf.measurable
  have hP : IsProbabilityMeasure P := by
    constructor
    have := hf.measure_preimage MeasurableSet.univ.nullMeasurableSet
    rw [Set.preimage_univ] at this
    rw [this]
    exact measure_univ
  have hlaw : ∀ k, P.map (fun ω => f ω k) = oneDraw := by
    intro k
    have := ((measurePreserving_eval_infinitePi (fun _ : ℕ => oneDraw) k).comp hf).map_eq
    exact this
  refine ⟨fun k => hm k, ?_, fun k => hlaw k⟩
  refine (iIndepFun_iff_map_fun_eq_infinitePi_map hm).2 ?_
  simp only [hlaw]
  exact hf.map_eq

/-- Two nodes with such independent draws: the hypotheses on the draws can be met. -/
theorem two_nodes : ∃ (P : Measure ((ℕ → ℝ × ℕ × ℕ) × (ℕ → ℝ × ℕ × ℕ))) (x y : ℕ → (ℕ → ℝ × ℕ × ℕ) × (ℕ → ℝ × ℕ × ℕ) → ℝ)
    (rngs rngs' : ℕ → (ℕ → ℝ × ℕ × ℕ) × (ℕ → ℝ × ℕ × ℕ) → Rng), IsProbabilityMeasure P ∧ RandomDraws P x rngs ∧ RandomDraws P y rngs' ∧
      IndepFun (fun ω k => (x k ω, rngs k ω 0, rngs k ω 1)) (fun ω k => (y k ω, rngs' k ω 0, rngs' k ω 1)) P := by
  refine ⟨nodeDraws.prod nodeDraws, fun k ω => (ω.1 k).1, fun k ω => (ω.2 k).1, fun k ω => pair (ω.1 k).2, fun k ω => pair (ω.2 k).2,
    inferInstance, draws_of measurePreserving_fst, draws_of measurePreserving_snd, ?_⟩
  exact indepFun_prod (μ := nodeDraws) (ν := nodeDraws) (X := id) (Y := id) measurable_id measurable_id

/-- The case of the default configuration: a client (period 1 s) with one packet or more waiting, a mixnode (100 ms) with at
most 50. -/
example {n : ℕ} (hn : 1 ≤ n) : Balanced (10 ^ 9 : ℕ) n (10 ^ 8 : ℕ) 50 := by
  have : (1 : ℝ) ≤ n := by exact_mod_cast hn
  refine ⟨.inr ?_, .inl ?_⟩ <;> norm_num
  linarith

/-- Two mixnodes: always. -/
example (n m : ℕ) : Balanced (10 ^ 8 : ℕ) n (10 ^ 8 : ℕ) m := ⟨.inl (by norm_num), .inl (by norm_num)⟩

/-- A million packets in a mixnode's queue and none in that of a client with a period 10 000 times as long: not. -/
example : ¬ Balanced (10 ^ 12 : ℕ) 0 (10 ^ 8 : ℕ) (10 ^ 6) := by
  rintro ⟨h | h, -⟩ <;> norm_num at h

namespace World
open Mixnet.World

/-- Alice and Bob are set up, and Alice posts a request. -/
def sceneF : Res (Node × Node × Outcome × Node) := do
  let m ← Node.new Cf (cfg 3)
  let (m, _) ← m.step Cf (.setSessionStatus ⟨0, .requestsToCurrent⟩)
  let (m, _) ← m.step Cf (.maybeSetMixnodes .current (.ok mixes) rng)
  let (m', o) ← m.step Cf ask
  let b ← Node.new Cf (cfg 5)
  let (b, _) ← b.step Cf (.setSessionStatus ⟨0, .requestsToCurrent⟩)
  let (b, _) ← b.step Cf (.maybeSetMixnodes .current (.ok mixes) rng)
  .ok (m, m', o, b)

/-- The node uses session 0, with one packet per 100 ms, and no more than `n` packets wait. -/
def inSession0 (m : Node) (n : Nat) : Bool :=
  m.sessionStatus.currentIndex == 0 && m.sessionStatus.phase == .requestsToCurrent &&
  match m.sessionAt 0 with
  | some s => s.meanAuthoredPacketPeriod == 10 ^ 8 && decide (s.authoredPacketQueue.queue.length ≤ n)
  | none => false

def wellF : Res (Node × Node × Outcome × Node) → Bool
  | .ok (_, m', .posted _ (.ok _), b) => inSession0 m' 1 && inSession0 b 0
  | _ => false

theorem sceneF_ok : wellF sceneF = true := by decide +kernel

theorem wellF_iff {x : Res (Node × Node × Outcome × Node)} (h : wellF x = true) :
    ∃ m m' d met b, x = .ok (m, m', .posted d (.ok met), b) ∧ inSession0 m' 1 = true ∧ inSession0 b 0 = true := by
  rcases x with e | ⟨m, m', o, b⟩
  · exact absurd h Bool.false_ne_true
  · cases o with
    | posted d r =>
      cases r with
      | error e => exact absurd h Bool.false_ne_true
      | ok met =>
        have h' : (inSession0 m' 1 && inSession0 b 0) = true := h
        rw [Bool.and_eq_true] at h'
        exact ⟨m, m', d, met, b, rfl, h'.1, h'.2⟩
    | _ => exact absurd h Bool.false_ne_true

theorem sane5 : Sane (cfg 5) where
  hops := by decide
  keystore := by decide
  loops := by decide +kernel
  mixnodePeriod := by decide
  clientPeriod := by intro sc h; cases h; decide

theorem inSession0_iff {m : Node} {n : Nat} (h : inSession0 m n = true) :
    ∃ s, m.sessionAt 0 = some s ∧ s.meanAuthoredPacketPeriod = 10 ^ 8 ∧ s.authoredPacketQueue.queue.length ≤ n ∧
      (¬ NoLonger m.sessionStatus 0 ∧ ¬ NotYet m.sessionStatus 0) ∧
      ∀ k u, m.sessionAt k = some u → s.meanAuthoredPacketPeriod ≤ 10 ^ 6 * u.meanAuthoredPacketPeriod := by
  unfold inSession0 at h
  rw [Bool.and_eq_true, Bool.and_eq_true, beq_iff_eq, beq_iff_eq] at h
  obtain ⟨⟨h1, h2⟩, h3⟩ := h
  cases hat : m.sessionAt 0 with
  | none => rw [hat] at h3; cases h3
  | some s =>
    rw [hat] at h3
    dsimp only at h3
    rw [Bool.and_eq_true, beq_iff_eq, decide_eq_true_eq] at h3
    refine ⟨s, rfl, h3.1, h3.2, ⟨?_, ?_⟩, ?_⟩
    · unfold NoLonger; rw [h1, h2]; decide
    · unfold NotYet; rw [h1, h2]; decide
    · intro k u hu
      have hk : k = 0 := by
        unfold Node.sessionAt at hu
        rw [h1] at hu
        by_cases c : k = 0
        · exact c
        · rw [if_neg c, if_neg (by omega)] at hu
          cases hu
      subst hk
      rw [hat] at hu
      cases hu
      omega

end World

attribute [local irreducible] World.Cf World.ask World.mixes World.cfg Node.step Node.new World.inSession0 World.sceneF in
theorem scene_facts : ∃ (m m' : Node) (d : Option MixnodeIndex) (met : RequestMetrics) (b : Node),
    Node.Reachable World.Cf (World.cfg 3) m ∧ m.step World.Cf World.ask = .ok (m', .posted d (.ok met)) ∧
    Node.Reachable World.Cf (World.cfg 5) b ∧ World.inSession0 m' 1 = true ∧ World.inSession0 b 0 = true := by
  obtain ⟨m, m', d, met, b, hx, hin, hin'⟩ := World.wellF_iff World.sceneF_ok
  unfold World.sceneF at hx
  rw [res_bind_eq_ok] at hx
  obtain ⟨m0, h0, hx⟩ := hx
  rw [res_bind_eq_ok] at hx
  obtain ⟨⟨m1, o1⟩, h1, hx⟩ := hx
  dsimp only at hx
  rw [res_bind_eq_ok] at hx
  obtain ⟨⟨m2, o2⟩, h2, hx⟩ := hx
  dsimp only at hx
  rw [res_bind_eq_ok] at hx
  obtain ⟨⟨m3, o3⟩, h3, hx⟩ := hx
  dsimp only at hx
  rw [res_bind_eq_ok] at hx
  obtain ⟨b0, g0, hx⟩ := hx
  rw [res_bind_eq_ok] at hx
  obtain ⟨⟨b1, p1⟩, g1, hx⟩ := hx
  dsimp only at hx
  rw [res_bind_eq_ok] at hx
  obtain ⟨⟨b2, p2⟩, g2, hx⟩ := hx
  dsimp only at hx
  cases hx
  exact ⟨m, m', d, met, b, ⟨m0, World.setup, [o1, o2], h0, World.setup_typed, .cons h1 (.cons h2 (.nil _))⟩, h3,
    ⟨b0, World.setup, [p1, p2], g0, World.setup_typed, .cons g1 (.cons g2 (.nil _))⟩, hin, hin'⟩

/-- Alice's packet, and whatever waits at Bob's, is late with probability at most 1/134. -/
example : ∃ (m' : Node) (met : RequestMetrics) (b : Node) (mean mean' : Rat) (P : Measure ((ℕ → ℝ × ℕ × ℕ) × (ℕ → ℝ × ℕ × ℕ)))
    (x y : ℕ → (ℕ → ℝ × ℕ × ℕ) × (ℕ → ℝ × ℕ × ℕ) → ℝ) (rngs rngs' : ℕ → (ℕ → ℝ × ℕ × ℕ) × (ℕ → ℝ × ℕ × ℕ) → Rng),
    IsProbabilityMeasure P ∧ RandomDraws P x rngs ∧ RandomDraws P y rngs' ∧
    P {ω | ¬ ∃ k k', SentAfter World.Cf m' 0 (fun l => rngs l ω) k ∧ SentAfter World.Cf b 0 (fun l => rngs' l ω) k' ∧
      clock mean (fun l => x l ω) k + clock mean' (fun l => y l ω) k' ≤ (met.authoredPacketQueueDelay : ℕ)} ≤ ENNReal.ofReal (1 / 134) := by
  obtain ⟨m, m', d, met, b, hr, hstep, hr', hin, hin'⟩ := scene_facts
  obtain ⟨s, hat, hs1, hs2, -, hs4⟩ := World.inSession0_iff hin
  obtain ⟨t, hat', ht1, ht2, ht3, ht4⟩ := World.inSession0_iff hin'
  obtain ⟨P, x, y, rngs, rngs', hP, hd, hd', hind⟩ := two_nodes
  obtain ⟨s', h1, h2⟩ := posted_delay_tail World.Cf_laws rfl world_sane
    World.sane5 hr hr' rfl
    (by show (1 / 4 : Rat) ≤ _; norm_num) World.ask_typed (Denotes.ofSlice _) hstep hat' ht3 ht1 (le_trans ht2 (Nat.zero_le _)) ht4
    (by show (10 ^ 6 : ℕ) ≤ 10 ^ 8; norm_num)
    (by show meanPerPacket ((1 / 4 : Rat) : ℝ) ((10 ^ 8 : ℕ) : ℝ) < _
        unfold meanPerPacket; norm_num) hd hd' hind
  rw [hat] at h1
  cases h1
  obtain ⟨mean, mean', -, -, h3, -⟩ := h2 hs4 (by rw [hs1]; norm_num)
    (by rw [hs1]
        show meanPerPacket ((1 / 4 : Rat) : ℝ) ((10 ^ 8 : ℕ) : ℝ) < _
        unfold meanPerPacket; norm_num)
    (by show _ + 50 ≤ 9000; omega)
  refine ⟨m', met, b, mean, mean', P, x, y, rngs, rngs', hP, hd, hd', h3 ?_⟩
  rw [hs1]
  exact ⟨.inl (by show 2 * ((10 ^ 8 : ℕ) : ℝ) ≤ 3 * ((10 ^ 8 : ℕ) : ℝ); norm_num),
    .inl (by show 2 * ((10 ^ 8 : ℕ) : ℝ) ≤ 3 * ((10 ^ 8 : ℕ) : ℝ); norm_num)⟩

end Examples

end Mixnet.Props
