import Verif.Model.Overflow
import Verif.Proofs.QueueMono
import Verif.Proofs.SendingF64
/-!
# The time computations do not overflow
-/
namespace Mixnet.Binary64

/-- Rounding does not go beyond a power of two. -/
theorem round_le_pow {q : Rat} {k : ℕ} (h : q ≤ 2 ^ k) : Binary64.round q ≤ 2 ^ k := by
  have := round_mono (b := ((2 ^ k : ℕ) : Rat)) (a := q) (by push_cast; exact h)
  rwa [round_two_pow] at this

/-- An operation with a moderate result. -/
theorem finite_ok {q : Rat} {k : ℕ} (h0 : 0 ≤ q) (h : q ≤ 2 ^ k) (hk : k ≤ 1023) :
    finite q = .ok (Binary64.round q) ∧ 0 ≤ Binary64.round q ∧ Binary64.round q ≤ 2 ^ k := by
  have h1 := round_nonneg h0
  have h2 := round_le_pow h
  refine ⟨?_, h1, h2⟩
  have h3 : Binary64.round q < 2 ^ 1024 := by
    refine lt_of_le_of_lt h2 ?_
    exact pow_lt_pow_right₀ (by norm_num) (by omega)
  have h4 : -(2 : Rat) ^ 1024 < Binary64.round q := lt_of_lt_of_le (neg_lt_zero.2 (pow_pos (by norm_num) _)) h1
  unfold finite
  rw [if_pos ⟨h4, h3⟩]

theorem fromSecsChecked_ok {v : Rat} {k : ℕ} (h0 : 0 ≤ v) (h : v ≤ 2 ^ k) (hk : k ≤ 63) :
    fromSecsChecked v = .ok (fromSecs v) ∧ fromSecs v ≤ 2 ^ k * 10 ^ 9 := by
  have h1 : v < 2 ^ 64 := lt_of_le_of_lt h (pow_lt_pow_right₀ (by norm_num) (by omega))
  refine ⟨by unfold fromSecsChecked; rw [if_pos ⟨h0, h1⟩], ?_⟩
  refine le_trans (fromSecs_mono h) ?_
  unfold fromSecs
  have e : ((2 : Rat) ^ k * 10 ^ 9) = ((2 ^ k * 10 ^ 9 : ℕ) : Rat) := by push_cast; ring
  have h2 := roundEven_error ((2 : Rat) ^ k * 10 ^ 9)
  rw [e] at h2 ⊢
  rw [abs_le] at h2
  clear e h1 h
  generalize 2 ^ k * 10 ^ 9 = N at h2 ⊢
  have h3 : roundEven (N : Rat) ≤ (N : ℤ) := by
    have : ((roundEven (N : Rat) : ℤ) : Rat) < ((N : ℤ) : Rat) + 1 := by
      have := h2.2
      rw [Int.cast_natCast]
      linarith
    have : roundEven (N : Rat) < (N : ℤ) + 1 := by exact_mod_cast this
    omega
  omega

theorem asSecs_whole (k : ℕ) : asSecs (2 ^ k * 10 ^ 9) = 2 ^ k := by
  unfold asSecs
  rw [Nat.mul_div_cancel _ (by norm_num), Nat.mul_mod_left, round_two_pow]
  have : Binary64.round (((0 : ℕ) : Rat) / 10 ^ 9) = 0 := by norm_num [Binary64.round]
  rw [this, add_zero]
  have := round_two_pow k
  push_cast at this
  exact this

theorem asSecs_le {ns k : ℕ} (h : ns ≤ 2 ^ k * 10 ^ 9) (hk : k ≤ 52) : asSecs ns ≤ 2 ^ k := by
  rw [← asSecs_whole k]
  refine asSecs_mono h ?_
  exact Nat.mul_lt_mul_of_pos_right (Nat.pow_lt_pow_right (by norm_num) (by omega)) (by norm_num)

/-- A product of a small number and a moderate duration. -/
theorem mulDurationChecked_ok {d : Rat} {u j k : ℕ} (h0 : 0 ≤ d) (hd : d ≤ 2 ^ j) (hu : u ≤ 2 ^ k * 10 ^ 9) (hk : k ≤ 52)
    (hjk : j + k ≤ 63) : mulDurationChecked d u = .ok (mulDuration d u) ∧ mulDuration d u ≤ 2 ^ (j + k) * 10 ^ 9 := by
  have h1 : d * asSecs u ≤ 2 ^ (j + k) := by
    rw [pow_add]
    exact mul_le_mul hd (asSecs_le hu hk) (asSecs_nonneg u) (by positivity)
  obtain ⟨e, h2, h3⟩ := finite_ok (mul_nonneg h0 (asSecs_nonneg u)) h1 (by omega)
  obtain ⟨e', h4⟩ := fromSecsChecked_ok h2 h3 hjk
  unfold mulDurationChecked
  rw [e, res_bind_ok, e', mulDuration_fromSecs]
  exact ⟨rfl, h4⟩

theorem const_bounds : Binary64.round (492582 / 100000) ≤ 2 ^ 3 ∧ Binary64.round (387809 / 100000) ≤ 2 ^ 2 :=
  ⟨round_le_pow (by norm_num), round_le_pow (by norm_num)⟩

theorem sqrt_le : sqrt ((2 : Rat) ^ 22) ≤ 2 ^ 11 := by decide +kernel

/-- Queues with at most a million packets. -/
theorem percentileFactorChecked_ok {n m : ℕ} {r : Rat} (h0 : 0 ≤ r) (h1 : r ≤ 1) (hn : n ≤ 2 ^ 20) (hm : m ≤ 2 ^ 20) :
    percentileFactorChecked n m r = .ok (percentileFactor n m r) ∧ 0 ≤ percentileFactor n m r ∧ percentileFactor n m r ≤ 2 ^ 22 := by
  obtain ⟨e1, a1, b1⟩ := finite_ok (q := (n : Rat)) (k := 20) (by positivity) (by exact_mod_cast hn) (by norm_num)
  obtain ⟨e2, a2, b2⟩ := finite_ok (q := (m : Rat)) (k := 20) (by positivity) (by exact_mod_cast hm) (by norm_num)
  obtain ⟨e3, a3, b3⟩ := finite_ok (q := r * r) (k := 0) (mul_nonneg h0 h0)
    (by rw [pow_zero]; exact mul_le_one₀ h1 h0 h1) (by norm_num)
  rw [pow_zero] at b3
  obtain ⟨e4, a4, b4⟩ := finite_ok (q := Binary64.round (r * r) * r) (k := 0) (mul_nonneg a3 h0)
    (by rw [pow_zero]; exact mul_le_one₀ b3 h0 h1) (by norm_num)
  rw [pow_zero] at b4
  obtain ⟨e5, a5, b5⟩ := finite_ok (q := Binary64.round (Binary64.round (r * r) * r) * Binary64.round (m : Rat)) (k := 20)
    (mul_nonneg a4 a2) (le_trans (mul_le_of_le_one_left a2 b4) b2) (by norm_num)
  obtain ⟨e6, a6, b6⟩ := finite_ok (q := Binary64.round (n : Rat) +
    Binary64.round (Binary64.round (Binary64.round (r * r) * r) * Binary64.round (m : Rat))) (k := 22)
    (add_nonneg a1 a5) (by norm_num at b1 b5 ⊢; linarith) (by norm_num)
  have a7 := sqrt_nonneg (Binary64.round (Binary64.round (n : Rat) +
    Binary64.round (Binary64.round (Binary64.round (r * r) * r) * Binary64.round (m : Rat))))
  have b7 := le_trans (sqrt_mono b6) sqrt_le
  have c1 : (0 : Rat) ≤ Binary64.round (492582 / 100000) := round_nonneg (by norm_num)
  have c2 : (0 : Rat) ≤ Binary64.round (387809 / 100000) := round_nonneg (by norm_num)
  obtain ⟨e8, a8, b8⟩ := finite_ok (q := Binary64.round (387809 / 100000) * sqrt (Binary64.round (Binary64.round (n : Rat) +
    Binary64.round (Binary64.round (Binary64.round (r * r) * r) * Binary64.round (m : Rat))))) (k := 13)
    (mul_nonneg c2 a7) (by
      have := mul_le_mul const_bounds.2 b7 a7 (by norm_num)
      refine le_trans this (by norm_num)) (by norm_num)
  obtain ⟨e9, a9, b9⟩ := finite_ok (q := Binary64.round (492582 / 100000) + Binary64.round (Binary64.round (387809 / 100000) *
    sqrt (Binary64.round (Binary64.round (n : Rat) +
    Binary64.round (Binary64.round (Binary64.round (r * r) * r) * Binary64.round (m : Rat)))))) (k := 14)
    (add_nonneg c1 a8) (by have := const_bounds.1; norm_num at this b8 ⊢; linarith) (by norm_num)
  obtain ⟨e10, a10, b10⟩ := finite_ok (q := Binary64.round (Binary64.round (492582 / 100000) + Binary64.round
    (Binary64.round (387809 / 100000) * sqrt (Binary64.round (Binary64.round (n : Rat) +
    Binary64.round (Binary64.round (Binary64.round (r * r) * r) * Binary64.round (m : Rat)))))) + Binary64.round (n : Rat)) (k := 21)
    (add_nonneg a9 a1) (by norm_num at b9 b1 ⊢; linarith) (by norm_num)
  obtain ⟨e11, a11, b11⟩ := finite_ok (q := r * Binary64.round (m : Rat)) (k := 20) (mul_nonneg h0 a2)
    (le_trans (mul_le_of_le_one_left a2 h1) b2) (by norm_num)
  obtain ⟨e12, a12, b12⟩ := finite_ok (q := Binary64.round (Binary64.round (Binary64.round (492582 / 100000) + Binary64.round
    (Binary64.round (387809 / 100000) * sqrt (Binary64.round (Binary64.round (n : Rat) +
    Binary64.round (Binary64.round (Binary64.round (r * r) * r) * Binary64.round (m : Rat)))))) + Binary64.round (n : Rat)) +
    Binary64.round (r * Binary64.round (m : Rat))) (k := 22)
    (add_nonneg a10 a11) (by norm_num at b10 b11 ⊢; linarith) (by norm_num)
  refine ⟨?_, a12, b12⟩
  unfold percentileFactorChecked
  rw [e1, res_bind_ok, e2, res_bind_ok, e3, res_bind_ok, e4, res_bind_ok, e5, res_bind_ok, e6, res_bind_ok]
  dsimp only
  rw [e8, res_bind_ok, e9, res_bind_ok, e10, res_bind_ok, e11, res_bind_ok, e12]
  rfl

theorem divide_ok {a b : Rat} {k : ℕ} (ha : 0 ≤ a) (hb : 0 < b) (h : a ≤ 2 ^ k * b) (hk : k ≤ 1023) :
    divide a b = .ok (Binary64.round (a / b)) ∧ 0 ≤ Binary64.round (a / b) ∧ Binary64.round (a / b) ≤ 2 ^ k := by
  unfold divide
  rw [if_neg hb.ne']
  exact finite_ok (div_nonneg ha hb.le) ((div_le_iff₀ hb).2 h) hk

/-- At most 99 per cent of loop cover. -/
theorem rateMulChecked_ok {p : Rat} (h0 : 0 ≤ p) (h1 : p ≤ 99 / 100) :
    rateMulChecked p = .ok (rateMul p) ∧ 1 ≤ 2 ^ 8 * rateMul p := by
  obtain ⟨e1, a1, b1⟩ := finite_ok (q := 1 - p) (k := 0) (by linarith) (by rw [pow_zero]; linarith) (by norm_num)
  rw [pow_zero] at b1
  obtain ⟨e2, a2, b2⟩ := finite_ok (q := 1 / 2 * Binary64.round (1 - p)) (k := 0) (by linarith) (by rw [pow_zero]; linarith) (by norm_num)
  refine ⟨by unfold rateMulChecked; rw [e1, res_bind_ok, e2]; rfl, ?_⟩
  have h2 : Binary64.round (1 / 2 ^ 7) ≤ Binary64.round (1 - p) := round_mono (by norm_num; linarith)
  have e3 : Binary64.round (1 / 2 ^ 7) = 1 / 2 ^ 7 := by decide +kernel
  have e4 : Binary64.round (1 / 2 ^ 8) = 1 / 2 ^ 8 := by decide +kernel
  rw [e3] at h2
  have h3 : Binary64.round (1 / 2 ^ 8) ≤ Binary64.round (1 / 2 * Binary64.round (1 - p)) := round_mono (by linarith)
  rw [e4] at h3
  unfold rateMul
  linarith

theorem divDurationChecked_ok {p : Rat} {ns : ℕ} (h0 : 0 ≤ p) (h1 : p ≤ 99 / 100) (hn : ns ≤ 2 ^ 32 * 10 ^ 9) :
    divDurationChecked ns (rateMul p) = .ok (divDuration ns (rateMul p)) ∧ divDuration ns (rateMul p) ≤ 2 ^ 40 * 10 ^ 9 := by
  have h2 := (rateMulChecked_ok h0 h1).2
  have hpos : 0 < rateMul p := by by_contra h; push Not at h; linarith
  have h3 : asSecs ns ≤ 2 ^ 40 * rateMul p := by
    have := asSecs_le hn (by norm_num)
    refine le_trans this ?_
    have : (2 : Rat) ^ 40 * rateMul p = 2 ^ 32 * (2 ^ 8 * rateMul p) := by ring
    rw [this]
    exact le_mul_of_one_le_right (by positivity) h2
  obtain ⟨e, a, b⟩ := divide_ok (asSecs_nonneg ns) hpos h3 (by norm_num)
  obtain ⟨e', c⟩ := fromSecsChecked_ok a b (by norm_num)
  unfold divDurationChecked
  rw [e, res_bind_ok, e']
  exact ⟨rfl, c⟩

theorem percentileChecked_ok {s n m rs : ℕ} (hs : 0 < s) (hle : rs ≤ s) (hmax : s ≤ 2 ^ 40 * 10 ^ 9) (hn : n ≤ 2 ^ 20)
    (hm : m ≤ 2 ^ 20) : percentileChecked s n m rs = .ok (percentile s n m rs) ∧ percentile s n m rs ≤ 2 ^ 62 * 10 ^ 9 := by
  have h1 : asSecs rs ≤ asSecs s := asSecs_mono hle (by omega)
  obtain ⟨e, a, b⟩ := divide_ok (k := 0) (asSecs_nonneg rs) (asSecs_pos hs) (by rw [pow_zero, one_mul]; exact h1) (by norm_num)
  rw [pow_zero] at b
  obtain ⟨e', a', b'⟩ := percentileFactorChecked_ok a b hn hm
  obtain ⟨e'', b''⟩ := mulDurationChecked_ok a' b' hmax (by norm_num) (by norm_num)
  unfold percentileChecked
  rw [e, res_bind_ok, e', res_bind_ok, e'']
  exact ⟨rfl, b''⟩

theorem divDuration_pos {p : Rat} {ns : ℕ} (h0 : 0 ≤ p) (h1 : p ≤ 99 / 100) (hn : 0 < ns) : 0 < divDuration ns (rateMul p) := by
  have h := divDuration_error h0 (p := p) (by
    have : (p : ℝ) ≤ ((99 / 100 : Rat) : ℝ) := by exact_mod_cast h1
    push_cast at this; norm_num at this ⊢; linarith) ns
  by_contra hc
  have hc : divDuration ns (rateMul p) = 0 := by omega
  rw [hc, abs_le] at h
  have h2 : (1 : ℝ) ≤ ns := by exact_mod_cast hn
  have h3 : (0 : ℝ) ≤ (p : ℝ) := by exact_mod_cast h0
  have h3' : (p : ℝ) < 1 := by
    have : (p : ℝ) ≤ ((99 / 100 : Rat) : ℝ) := by exact_mod_cast h1
    push_cast at this; linarith
  have h4 : 2 * (ns : ℝ) ≤ ns / (0.5 * (1 - p)) := by
    rw [le_div_iff₀ (by nlinarith)]
    nlinarith
  have h5 := h.1
  push_cast at h5
  have h6 : 6 * ulp ≤ 1 / 2 := by unfold ulp; norm_num
  have h7 : 6 * ulp * (ns / (0.5 * (1 - (p : ℝ)))) ≤ 1 / 2 * (ns / (0.5 * (1 - (p : ℝ)))) :=
    mul_le_mul_of_nonneg_right h6 (by linarith)
  linarith

/-- The whole estimate. -/
theorem queueDelayChecked_ok {p : Rat} {a n b m : ℕ} (h0 : 0 ≤ p) (h1 : p ≤ 99 / 100) (hab : ¬(a = 0 ∧ b = 0))
    (ha : a ≤ 2 ^ 32 * 10 ^ 9) (hb : b ≤ 2 ^ 32 * 10 ^ 9) (hn : n ≤ 2 ^ 20) (hm : m ≤ 2 ^ 20) :
    queueDelayChecked p a n b m = .ok (queueDelay p a n b m) ∧ queueDelay p a n b m ≤ 2 ^ 62 * 10 ^ 9 := by
  obtain ⟨e1, b1⟩ := divDurationChecked_ok h0 h1 ha
  obtain ⟨e2, b2⟩ := divDurationChecked_ok h0 h1 hb
  unfold queueDelayChecked queueDelay
  rw [(rateMulChecked_ok h0 h1).1, res_bind_ok, e1, res_bind_ok, e2, res_bind_ok]
  dsimp only
  by_cases h : divDuration a (rateMul p) > divDuration b (rateMul p)
  · rw [if_pos h, if_pos h]
    exact percentileChecked_ok (by omega) (by omega) b1 hn hm
  · rw [if_neg h, if_neg h]
    refine percentileChecked_ok ?_ (by omega) b2 hm hn
    by_contra hc
    apply hab
    constructor
    · by_contra hx
      have := divDuration_pos h0 h1 (Nat.pos_of_ne_zero hx)
      omega
    · by_contra hx
      have := divDuration_pos h0 h1 (Nat.pos_of_ne_zero hx)
      omega

/-- The mean of two sessions. -/
theorem halfRate_ok {p q : ℕ} (h : p ≤ 2 ^ 32 * 10 ^ 9) (h' : q ≤ 2 ^ 32 * 10 ^ 9) (hpq : Binary64.round (asSecs p + asSecs q) ≠ 0) :
    (do divide (← finite ((← finite (2 * asSecs p)) * asSecs q)) (← finite (asSecs p + asSecs q))) = .ok (halfRate p q) ∧
    0 ≤ halfRate p q ∧ halfRate p q ≤ 2 ^ 34 := by
  have hp := asSecs_nonneg p
  have hq := asSecs_nonneg q
  have hp' := asSecs_le h (by norm_num)
  have hq' := asSecs_le h' (by norm_num)
  obtain ⟨e1, a1, b1⟩ := finite_ok (q := 2 * asSecs p) (k := 33) (by linarith) (by norm_num at hp' ⊢; linarith) (by norm_num)
  obtain ⟨e2, a2, b2⟩ := finite_ok (q := Binary64.round (2 * asSecs p) * asSecs q) (k := 65) (mul_nonneg a1 hq)
    (by have := mul_le_mul b1 hq' hq (by norm_num); refine le_trans this (by norm_num)) (by norm_num)
  obtain ⟨e3, a3, b3⟩ := finite_ok (q := asSecs p + asSecs q) (k := 33) (by linarith) (by norm_num at hp' hq' ⊢; linarith) (by norm_num)
  have hpos : 0 < p + q := by
    by_contra hc
    obtain ⟨rfl, rfl⟩ : p = 0 ∧ q = 0 := by omega
    exact hpq ((sum_zero_iff 0 0).2 (by norm_num))
  have hr := halfRate_rel p q hpos (by omega) (by omega)
  have hbound : ((halfRate p q : Rat) : ℝ) ≤ 2 ^ 34 := by
    have h1 := hr.right
    have h2 : (1 / 2 : ℝ) ≤ (1 - ulp) ^ 10 := by
      unfold ulp; norm_num
    have h3 : (2 * p * q / (p + q) / 10 ^ 9 : ℝ) ≤ 2 ^ 33 := by
      have h4 : (0 : ℝ) < p + q := by exact_mod_cast hpos
      rw [div_le_iff₀ (by norm_num), div_le_iff₀ h4]
      have h5 : (p : ℝ) ≤ 2 ^ 32 * 10 ^ 9 := by exact_mod_cast h
      have h6 : (0 : ℝ) ≤ q := by positivity
      have h7 : (0 : ℝ) ≤ p := by positivity
      nlinarith
    have h0 := hr.nonneg'
    have h8 : ((halfRate p q : Rat) : ℝ) * (1 / 2) ≤ ((halfRate p q : Rat) : ℝ) * (1 - ulp) ^ 10 := mul_le_mul_of_nonneg_left h2 h0
    norm_num at h3 ⊢
    linarith
  have hnn : 0 ≤ halfRate p q := by exact_mod_cast hr.nonneg'
  have hb : halfRate p q ≤ 2 ^ 34 := by exact_mod_cast hbound
  refine ⟨?_, hnn, hb⟩
  rw [e1, res_bind_ok, e2, res_bind_ok, e3, res_bind_ok]
  unfold divide
  rw [if_neg hpq]
  have h5 : (2 : Rat) ^ 34 < 2 ^ 1024 := pow_lt_pow_right₀ (by norm_num) (by norm_num)
  have h6 : -(2 : Rat) ^ 1024 < 0 := neg_lt_zero.2 (pow_pos (by norm_num) _)
  unfold finite
  rw [if_pos ⟨lt_of_lt_of_le h6 hnn, lt_of_le_of_lt hb h5⟩]
  rfl

end Mixnet.Binary64
