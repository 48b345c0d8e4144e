import Verif.Proofs.Binary64
/-!
# The computed queue delay grows with the lengths of the queues
-/
namespace Mixnet.Binary64

/-- The parts of a square root. -/
theorem sqrt_parts {q : Rat} (hq : 0 < q) : ∃ (k : ℤ) (v : Rat) (m : ℕ),
    k = Int.log 2 q / 2 ∧ v = q / (2 ^ (k - 52) * 2 ^ (k - 52)) ∧ m = Nat.sqrt v.floor.toNat ∧
    sqrt q = (if v ≤ (m + 1 / 2) * (m + 1 / 2) then (m : Rat) else m + 1) * 2 ^ (k - 52) ∧ 2 ^ 52 ≤ m ∧ m + 1 ≤ 2 ^ 53 := by
  obtain ⟨l, hl⟩ : ∃ l, l = Int.log 2 q := ⟨_, rfl⟩
  have hle : (2 : Rat) ^ l ≤ q := by
    have := Int.zpow_log_le_self (b := 2) (by norm_num) hq
    rw [hl]; exact_mod_cast this
  have hlt : q < (2 : Rat) ^ (l + 1) := by
    have := Int.lt_zpow_succ_log_self (b := 2) (by norm_num) q
    rw [hl]; exact_mod_cast this
  obtain ⟨k, hk⟩ : ∃ k, k = l / 2 := ⟨_, rfl⟩
  obtain ⟨v, hv⟩ : ∃ v, v = q / (2 ^ (k - 52) * 2 ^ (k - 52)) := ⟨_, rfl⟩
  obtain ⟨m, hm⟩ : ∃ m, m = Nat.sqrt v.floor.toNat := ⟨_, rfl⟩
  have hv1 : (2 : Rat) ^ 104 ≤ v := by
    rw [hv, le_div_iff₀ (by positivity), ← zpow_add₀ (by norm_num), ← zpow_natCast (2 : Rat) 104, ← zpow_add₀ (by norm_num)]
    refine le_trans (zpow_le_zpow_right₀ (by norm_num) ?_) hle
    push_cast
    omega
  have hv2 : v < (2 : Rat) ^ 106 := by
    rw [hv, div_lt_iff₀ (by positivity), ← zpow_add₀ (by norm_num), ← zpow_natCast (2 : Rat) 106, ← zpow_add₀ (by norm_num)]
    refine lt_of_lt_of_le hlt (zpow_le_zpow_right₀ (by norm_num) ?_)
    push_cast
    omega
  have f1 : (2 ^ 104 : ℤ) ≤ v.floor := Rat.le_floor_iff.2 (by exact_mod_cast hv1)
  have f2 : v.floor < (2 ^ 106 : ℤ) := by
    have h : ((v.floor : ℤ) : Rat) < ((2 ^ 106 : ℤ) : Rat) := lt_of_le_of_lt (Rat.floor_le v) (by push_cast; exact hv2)
    exact_mod_cast h
  refine ⟨k, v, m, by rw [hk, hl], hv, hm, ?_, ?_, ?_⟩
  · unfold sqrt
    rw [if_neg (not_le.2 hq), hm, hv, hk, hl]
  · rw [hm, Nat.le_sqrt]
    have e : (2 : ℕ) ^ 52 * 2 ^ 52 = 2 ^ 104 := by norm_num
    rw [e]
    omega
  · have : m < 2 ^ 53 := by
      rw [hm, Nat.sqrt_lt]
      have e : (2 : ℕ) ^ 53 * 2 ^ 53 = 2 ^ 106 := by norm_num
      rw [e]
      omega
    omega

theorem sqrt_nonneg (q : Rat) : 0 ≤ sqrt q := by
  rcases le_or_gt q 0 with h | h
  · unfold sqrt; rw [if_pos h]
  · obtain ⟨k, v, m, -, -, -, e, -, -⟩ := sqrt_parts h
    rw [e]
    split <;> positivity

theorem sqrt_mono {a b : Rat} (h : a ≤ b) : sqrt a ≤ sqrt b := by
  rcases le_or_gt a 0 with ha | ha
  · have : sqrt a = 0 := by unfold sqrt; rw [if_pos ha]
    rw [this]; exact sqrt_nonneg b
  have hb : 0 < b := lt_of_lt_of_le ha h
  obtain ⟨k, v, m, hk, hv, hm, e, l1, l2⟩ := sqrt_parts ha
  obtain ⟨k', v', m', hk', hv', hm', e', l1', l2'⟩ := sqrt_parts hb
  have hl : Int.log 2 a ≤ Int.log 2 b := Int.log_mono_right ha h
  have hkk : k ≤ k' := by omega
  rw [e, e']
  rcases hkk.eq_or_lt with rfl | hlt
  · refine mul_le_mul_of_nonneg_right ?_ (by positivity)
    have hvv : v ≤ v' := by rw [hv, hv']; exact div_le_div_of_nonneg_right h (by positivity)
    have hmm : m ≤ m' := by
      rw [hm, hm']
      exact Nat.sqrt_le_sqrt (Int.toNat_le_toNat (Rat.floor_monotone hvv))
    rcases hmm.eq_or_lt with rfl | hlt
    · split
      · split
        · exact le_refl _
        · linarith
      · rename_i h1
        rw [if_neg fun h2 => h1 (le_trans hvv h2)]
    · have h1 : ((m : Rat) + 1) ≤ m' := by exact_mod_cast hlt
      split <;> split <;> linarith
  · have h1 : (if v ≤ ((m : Rat) + 1 / 2) * (m + 1 / 2) then (m : Rat) else m + 1) ≤ 2 ^ 53 := by
      have : ((m : Rat) + 1) ≤ 2 ^ 53 := by exact_mod_cast l2
      split <;> linarith
    have h2 : (2 : Rat) ^ 52 ≤ (if v' ≤ ((m' : Rat) + 1 / 2) * (m' + 1 / 2) then (m' : Rat) else m' + 1) := by
      have : (2 : Rat) ^ 52 ≤ m' := by exact_mod_cast l1'
      split <;> linarith
    refine le_trans (mul_le_mul_of_nonneg_right h1 (by positivity)) (le_trans ?_ (mul_le_mul_of_nonneg_right h2 (by positivity)))
    rw [← zpow_natCast (2 : Rat) 53, ← zpow_natCast (2 : Rat) 52, ← zpow_add₀ (by norm_num), ← zpow_add₀ (by norm_num)]
    refine zpow_le_zpow_right₀ (by norm_num) ?_
    push_cast
    omega

theorem percentileFactor_mono {n n' m m' : ℕ} {r : Rat} (hn : n ≤ n') (hm : m ≤ m') (hr : 0 ≤ r) :
    percentileFactor n m r ≤ percentileFactor n' m' r := by
  have h1 : Binary64.round (n : Rat) ≤ Binary64.round (n' : Rat) := round_mono (by exact_mod_cast hn)
  have h2 : Binary64.round (m : Rat) ≤ Binary64.round (m' : Rat) := round_mono (by exact_mod_cast hm)
  have h3 : (0 : Rat) ≤ Binary64.round (387809 / 100000) := round_nonneg (by norm_num)
  have h4 : 0 ≤ Binary64.round (Binary64.round (r * r) * r) := round_nonneg (mul_nonneg (round_nonneg (mul_nonneg hr hr)) hr)
  unfold percentileFactor
  dsimp only
  refine round_mono (add_le_add (round_mono (add_le_add (round_mono (add_le_add le_rfl (round_mono
    (mul_le_mul_of_nonneg_left (sqrt_mono (round_mono (add_le_add h1 (round_mono (mul_le_mul_of_nonneg_left h2 h4))))) h3)))) h1))
    (round_mono (mul_le_mul_of_nonneg_left h2 hr)))

theorem percentile_mono {s n n' m m' rs : ℕ} (hn : n ≤ n') (hm : m ≤ m') : percentile s n m rs ≤ percentile s n' m' rs := by
  unfold percentile
  dsimp only
  exact mulDuration_mono (percentileFactor_mono hn hm (round_nonneg (div_nonneg (asSecs_nonneg _) (asSecs_nonneg _)))) _

/-- Longer queues, larger estimate. -/
theorem queueDelay_mono {p : Rat} {a b n n' m m' : ℕ} (hn : n ≤ n') (hm : m ≤ m') :
    queueDelay p a n b m ≤ queueDelay p a n' b m' := by
  unfold queueDelay
  dsimp only
  split
  · exact percentile_mono hn hm
  · exact percentile_mono hm hn

/-- A whole number of units, to the nanosecond. -/
theorem mulDuration_le {k u : ℕ} (h : k * u ≤ 2 ^ 49) : mulDuration (k : Rat) u ≤ k * u + 1 := by
  rw [mulDuration_fromSecs]
  have hr : Rel (1 - ulp) 2 (((k : Rat) * asSecs u : Rat) : ℝ) ((k : ℝ) * (u / 10 ^ 9)) := by
    have := (Rel.refl (β := 1 - ulp) (Nat.cast_nonneg (α := ℝ) k)).mul (asSecs_rel u)
    simpa using this
  have hbig : Big ((k : ℝ) * (u / 10 ^ 9)) := by
    have := big_div (k * u)
    push_cast at this
    rw [mul_div_assoc] at this
    exact this
  have h3 := (hr.round (by norm_num) hbig).error (by norm_num)
  have h0 : 0 ≤ Binary64.round ((k : Rat) * asSecs u) := round_nonneg (mul_nonneg (by positivity) (asSecs_nonneg u))
  have h4 := fromSecs_error h0
  have h5 : ((k : ℝ) * u) ≤ 2 ^ 49 := by exact_mod_cast h
  rw [abs_le] at h3 h4
  have h6 : ((fromSecs (Binary64.round ((k : Rat) * asSecs u)) : ℕ) : ℝ) < (k * u : ℝ) + 2 := by
    have e : (((2 + 1 : ℕ) : ℝ) + 1) * ulp * ((k : ℝ) * (u / 10 ^ 9)) * 10 ^ 9 = 4 * ulp * (k * u) := by push_cast; ring
    have e' : (k : ℝ) * (u / 10 ^ 9) * 10 ^ 9 = k * u := by ring
    have h7 : 4 * ulp * ((k : ℝ) * u) ≤ 1 / 4 := by
      unfold ulp
      have : (4 : ℝ) * (1 / 2 ^ 53) * ((k : ℝ) * u) = ((k : ℝ) * u) / 2 ^ 51 := by ring
      rw [this, div_le_iff₀ (by positivity)]
      refine le_trans h5 (by norm_num)
    have h8 := mul_le_mul_of_nonneg_right h3.2 (show (0 : ℝ) ≤ 10 ^ 9 by positivity)
    rw [e, sub_mul, e'] at h8
    linarith [h4.2]
  have h9 : fromSecs (Binary64.round ((k : Rat) * asSecs u)) < k * u + 2 := by exact_mod_cast h6
  omega

end Mixnet.Binary64
