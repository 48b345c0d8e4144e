import Mathlib.Probability.Distributions.Exponential
import Mathlib.Analysis.SpecialFunctions.ImproperIntegrals
import Mathlib.Analysis.SpecialFunctions.Integrals.Basic
import Mathlib.MeasureTheory.Constructions.Pi
import Mathlib.MeasureTheory.Integral.Layercake
/-!
# Two exponential samples

Which of two independent exponential samples is ahead of the other.
-/
namespace Mixnet
open MeasureTheory ProbabilityTheory
open scoped ENNReal

/-- An exponential sample is above `t` with probability `exp (-t)`. -/
theorem exp_above {t : ℝ} (ht : 0 ≤ t) : expMeasure 1 (Set.Ioi t) = ENNReal.ofReal (Real.exp (-t)) := by
  have : IsProbabilityMeasure (expMeasure 1) := isProbabilityMeasure_expMeasure one_pos
  have h := cdf_expMeasure_eq one_pos t
  rw [if_pos ht, cdf_eq_real, one_mul] at h
  have h2 : (expMeasure 1).real (Set.Ioi t) = Real.exp (-t) := by
    rw [← Set.compl_Iic, probReal_compl_eq_one_sub measurableSet_Iic, h]; ring
  rw [← h2, ofReal_measureReal]

/-- At most `t`. -/
theorem exp_below {t : ℝ} (ht : 0 ≤ t) : expMeasure 1 (Set.Iic t) = ENNReal.ofReal (1 - Real.exp (-t)) := by
  have : IsProbabilityMeasure (expMeasure 1) := isProbabilityMeasure_expMeasure one_pos
  have h := cdf_expMeasure_eq one_pos t
  rw [if_pos ht, cdf_eq_real, one_mul] at h
  rw [← h, ofReal_measureReal]

/-- The first sample is between `a` and `b`, and the second is ahead of it by more than `c`. -/
def aheadBy (a b c : ℝ) : Set (ℝ × ℝ) := {z | a < z.1 ∧ z.1 < b ∧ z.1 + c < z.2}

theorem aheadBy_measurable (a b c : ℝ) : MeasurableSet (aheadBy a b c) := by
  unfold aheadBy
  refine (measurableSet_lt measurable_const measurable_fst).inter ((measurableSet_lt measurable_fst measurable_const).inter
    (measurableSet_lt (by fun_prop) measurable_snd))

theorem exp_ahead {a b c : ℝ} (ha : 0 ≤ a) (hac : 0 ≤ a + c) (hab : a ≤ b) :
    ((expMeasure 1).prod (expMeasure 1)) (aheadBy a b c) =
      ENNReal.ofReal (Real.exp (-c) * (Real.exp (-2 * a) - Real.exp (-2 * b)) / 2) := by
  have : IsProbabilityMeasure (expMeasure 1) := isProbabilityMeasure_expMeasure one_pos
  rw [Measure.prod_apply (aheadBy_measurable a b c)]
  have hs : ∀ x, expMeasure 1 (Prod.mk x ⁻¹' aheadBy a b c) =
      (Set.Ioo a b).indicator (fun x => ENNReal.ofReal (Real.exp (-(x + c)))) x := by
    intro x
    by_cases hx : x ∈ Set.Ioo a b
    · rw [Set.indicator_of_mem hx, ← exp_above (by have := hx.1; linarith)]
      congr 1
      ext y
      exact ⟨fun h => h.2.2, fun h => ⟨hx.1, hx.2, h⟩⟩
    · rw [Set.indicator_of_notMem hx]
      convert measure_empty (μ := expMeasure 1) using 2
      ext y
      exact ⟨fun h => hx ⟨h.1, h.2.1⟩, fun h => h.elim⟩
  rw [lintegral_congr hs]
  have h1 : expMeasure 1 = volume.withDensity (exponentialPDF 1) := rfl
  have hm : Measurable (exponentialPDF 1) := (measurable_exponentialPDFReal 1).ennreal_ofReal
  have hmf : Measurable ((Set.Ioo a b).indicator (fun x => ENNReal.ofReal (Real.exp (-(x + c))))) :=
    Measurable.indicator (by fun_prop) measurableSet_Ioo
  rw [h1, lintegral_withDensity_eq_lintegral_mul _ hm hmf]
  have h2 : ∀ x, (exponentialPDF 1 * (Set.Ioo a b).indicator (fun x => ENNReal.ofReal (Real.exp (-(x + c))))) x =
      (Set.Ioo a b).indicator (fun x => ENNReal.ofReal (Real.exp (-c) * Real.exp (-2 * x))) x := by
    intro x
    rw [Pi.mul_apply]
    by_cases hx : x ∈ Set.Ioo a b
    · rw [Set.indicator_of_mem hx, Set.indicator_of_mem hx, exponentialPDF_eq, if_pos (by have := hx.1; linarith),
        ← ENNReal.ofReal_mul (by positivity), one_mul, one_mul, ← Real.exp_add, ← Real.exp_add]
      congr 2; ring
    · rw [Set.indicator_of_notMem hx, Set.indicator_of_notMem hx, mul_zero]
  rw [lintegral_congr h2, lintegral_indicator measurableSet_Ioo, setLIntegral_congr Ioo_ae_eq_Ioc,
    ← ofReal_integral_eq_lintegral_ofReal]
  · rw [← intervalIntegral.integral_of_le hab, intervalIntegral.integral_const_mul]
    congr 1
    rw [intervalIntegral.integral_comp_mul_left (fun x => Real.exp x) (by norm_num : (-2 : ℝ) ≠ 0), integral_exp]
    simp only [smul_eq_mul]
    ring
  · exact (Continuous.integrableOn_Ioc (by fun_prop))
  · exact Filter.Eventually.of_forall fun x => by positivity

/-- Sample `i` is between `a` and `b`, and each other is ahead of it by more than `c`. -/
def aheadOf {n : ℕ} (i : Fin (n + 1)) (a b : ℝ) (c : Fin n → ℝ) : Set (Fin (n + 1) → ℝ) :=
  {z | a < z i ∧ z i < b ∧ ∀ j, z i + c j < z (i.succAbove j)}

theorem aheadOf_measurable {n : ℕ} (i : Fin (n + 1)) (a b : ℝ) (c : Fin n → ℝ) : MeasurableSet (aheadOf i a b c) := by
  have e : aheadOf i a b c = {z | a < z i} ∩ ({z | z i < b} ∩ ⋂ j, {z | z i + c j < z (i.succAbove j)}) := by
    ext z; simp [aheadOf]
  rw [e]
  exact (measurableSet_lt measurable_const (measurable_pi_apply i)).inter
    ((measurableSet_lt (measurable_pi_apply i) measurable_const).inter
      (MeasurableSet.iInter fun j => measurableSet_lt ((measurable_pi_apply i).add_const _) (measurable_pi_apply _)))

theorem exp_first {n : ℕ} (i : Fin (n + 1)) {a b : ℝ} {c : Fin n → ℝ} (ha : 0 ≤ a) (hac : ∀ j, 0 ≤ a + c j) (hab : a ≤ b) :
    (Measure.pi fun _ => expMeasure 1) (aheadOf i a b c) =
      ENNReal.ofReal (Real.exp (-∑ j, c j) * (Real.exp (-((n + 1 : ℕ) * a)) - Real.exp (-((n + 1 : ℕ) * b))) / (n + 1 : ℕ)) := by
  have : IsProbabilityMeasure (expMeasure 1) := isProbabilityMeasure_expMeasure one_pos
  have hmp := measurePreserving_piFinSuccAbove (fun _ : Fin (n + 1) => expMeasure 1) i
  set S : Set (ℝ × (Fin n → ℝ)) := {z | a < z.1 ∧ z.1 < b ∧ ∀ j, z.1 + c j < z.2 j} with hS
  have hSm : MeasurableSet S := by
    have e : S = {z | a < z.1} ∩ ({z | z.1 < b} ∩ ⋂ j, {z | z.1 + c j < z.2 j}) := by
      ext z; simp [hS]
    rw [e]
    exact (measurableSet_lt measurable_const measurable_fst).inter
      ((measurableSet_lt measurable_fst measurable_const).inter
        (MeasurableSet.iInter fun j => measurableSet_lt (measurable_fst.add_const _) ((measurable_pi_apply j).comp measurable_snd)))
  have hpre : aheadOf i a b c = MeasurableEquiv.piFinSuccAbove (fun _ => ℝ) i ⁻¹' S := rfl
  rw [hpre, hmp.measure_preimage hSm.nullMeasurableSet, Measure.prod_apply hSm]
  have hs : ∀ x, (Measure.pi fun _ : Fin n => expMeasure 1) (Prod.mk x ⁻¹' S) =
      (Set.Ioo a b).indicator (fun x => ENNReal.ofReal (Real.exp (-(n * x + ∑ j, c j)))) x := by
    intro x
    by_cases hx : x ∈ Set.Ioo a b
    · rw [Set.indicator_of_mem hx]
      have e : Prod.mk x ⁻¹' S = Set.univ.pi fun j => Set.Ioi (x + c j) := by
        ext w
        simp only [Set.mem_pi, Set.mem_univ, true_imp_iff, Set.mem_Ioi]
        exact ⟨fun h => h.2.2, fun h => ⟨hx.1, hx.2, h⟩⟩
      rw [e, Measure.pi_pi]
      have e2 : ∀ j, expMeasure 1 (Set.Ioi (x + c j)) = ENNReal.ofReal (Real.exp (-(x + c j))) := fun j =>
        exp_above (by have := hx.1; have := hac j; linarith)
      rw [Finset.prod_congr rfl fun j _ => e2 j, ← ENNReal.ofReal_prod_of_nonneg fun j _ => (Real.exp_pos _).le, ← Real.exp_sum]
      congr 2
      rw [Finset.sum_neg_distrib, Finset.sum_add_distrib, Finset.sum_const, Finset.card_univ, Fintype.card_fin, nsmul_eq_mul]
    · rw [Set.indicator_of_notMem hx]
      convert measure_empty (μ := Measure.pi fun _ : Fin n => expMeasure 1) using 2
      ext y
      exact ⟨fun h => hx ⟨h.1, h.2.1⟩, fun h => h.elim⟩
  refine (lintegral_congr hs).trans ?_
  have h1 : expMeasure 1 = volume.withDensity (exponentialPDF 1) := rfl
  have hm : Measurable (exponentialPDF 1) := (measurable_exponentialPDFReal 1).ennreal_ofReal
  have hmf : Measurable ((Set.Ioo a b).indicator (fun x => ENNReal.ofReal (Real.exp (-(n * x + ∑ j, c j))))) :=
    Measurable.indicator (by fun_prop) measurableSet_Ioo
  rw [h1, lintegral_withDensity_eq_lintegral_mul _ hm hmf]
  have h2 : ∀ x, (exponentialPDF 1 * (Set.Ioo a b).indicator (fun x => ENNReal.ofReal (Real.exp (-(n * x + ∑ j, c j))))) x =
      (Set.Ioo a b).indicator (fun x => ENNReal.ofReal (Real.exp (-∑ j, c j) * Real.exp (-((n + 1 : ℕ) : ℝ) * x))) x := by
    intro x
    rw [Pi.mul_apply]
    by_cases hx : x ∈ Set.Ioo a b
    · rw [Set.indicator_of_mem hx, Set.indicator_of_mem hx, exponentialPDF_eq, if_pos (by have := hx.1; linarith),
        ← ENNReal.ofReal_mul (by positivity), one_mul, one_mul, ← Real.exp_add, ← Real.exp_add]
      congr 2; push_cast; ring
    · rw [Set.indicator_of_notMem hx, Set.indicator_of_notMem hx, mul_zero]
  have hk : ((n + 1 : ℕ) : ℝ) ≠ 0 := by positivity
  rw [lintegral_congr h2, lintegral_indicator measurableSet_Ioo, setLIntegral_congr Ioo_ae_eq_Ioc,
    ← ofReal_integral_eq_lintegral_ofReal]
  · rw [← intervalIntegral.integral_of_le hab, intervalIntegral.integral_const_mul]
    congr 1
    rw [intervalIntegral.integral_comp_mul_left (fun x => Real.exp x) (neg_ne_zero.2 hk), integral_exp]
    simp only [smul_eq_mul]
    rw [neg_mul, neg_mul]
    field_simp
    ring
  · exact (Continuous.integrableOn_Ioc (by fun_prop))
  · exact Filter.Eventually.of_forall fun x => by positivity

theorem expSample_ae : ∀ᵐ x ∂(expMeasure 1), (0 : ℝ) ≤ x := by
  have : IsProbabilityMeasure (expMeasure 1) := isProbabilityMeasure_expMeasure one_pos
  have h := exp_below (le_refl (0 : ℝ))
  rw [neg_zero, Real.exp_zero, sub_self, ENNReal.ofReal_zero] at h
  rw [ae_iff]
  exact measure_mono_null (fun x hx => by simp only [Set.mem_setOf_eq, not_le] at hx; exact hx.le) h

/-- The mean of an exponential sample capped at ten. -/
theorem mean_capped : ∫⁻ x, ENNReal.ofReal (min x 10) ∂(expMeasure 1) = ENNReal.ofReal (1 - Real.exp (-10)) := by
  have : IsProbabilityMeasure (expMeasure 1) := isProbabilityMeasure_expMeasure one_pos
  rw [lintegral_eq_lintegral_meas_lt (expMeasure 1) (f := fun x : ℝ => min x 10)
    (expSample_ae.mono fun x hx => le_min hx (by norm_num)) (by fun_prop)]
  have h : ∀ t ∈ Set.Ioi (0 : ℝ), expMeasure 1 {x : ℝ | t < min x 10} =
      (Set.Iio (10 : ℝ)).indicator (fun t => ENNReal.ofReal (Real.exp ((-1 : ℝ) * t))) t := by
    intro t ht
    by_cases h10 : t < 10
    · rw [Set.indicator_of_mem (by simpa using h10), neg_one_mul, ← exp_above (le_of_lt ht)]
      congr 1
      ext x
      simp [h10]
    · rw [Set.indicator_of_notMem (by simpa using h10)]
      convert measure_empty (μ := expMeasure 1) using 2
      ext x
      simp [h10]
  rw [setLIntegral_congr_fun measurableSet_Ioi h, setLIntegral_indicator measurableSet_Iio]
  have e : Set.Iio (10 : ℝ) ∩ Set.Ioi 0 = Set.Ioo 0 10 := by ext t; simp [and_comm]
  rw [e, setLIntegral_congr Ioo_ae_eq_Ioc, ← ofReal_integral_eq_lintegral_ofReal]
  · rw [← intervalIntegral.integral_of_le (by norm_num),
      intervalIntegral.integral_comp_mul_left (fun x => Real.exp x) (by norm_num : (-1 : ℝ) ≠ 0), integral_exp]
    norm_num
  · exact (Continuous.integrableOn_Ioc (by fun_prop))
  · exact Filter.Eventually.of_forall fun x => by positivity

/-- Something close to a multiple of a capped exponential sample has about that multiple as its mean. -/
theorem mean_near {Ω : Type*} [MeasurableSpace Ω] {P : Measure Ω} {x : Ω → ℝ} (hx : Measurable x) (hlaw : P.map x = expMeasure 1)
    {f : Ω → ℝ} {u δ : ℝ} (hu : 0 ≤ u) (hδ : 0 ≤ δ) (hf : ∀ ω, 0 ≤ x ω → |f ω - min (x ω) 10 * u| ≤ δ) :
    ENNReal.ofReal (u * (1 - Real.exp (-10)) - δ) ≤ ∫⁻ ω, ENNReal.ofReal (f ω) ∂P ∧
    ∫⁻ ω, ENNReal.ofReal (f ω) ∂P ≤ ENNReal.ofReal (u * (1 - Real.exp (-10)) + δ) := by
  have : IsProbabilityMeasure (expMeasure 1) := isProbabilityMeasure_expMeasure one_pos
  have hP : P Set.univ = 1 := by
    have h : P.map x Set.univ = 1 := by rw [hlaw]; exact measure_univ
    rwa [Measure.map_apply hx MeasurableSet.univ] at h
  have he : 0 ≤ 1 - Real.exp (-10) := sub_nonneg.2 (Real.exp_le_one_iff.2 (by norm_num))
  have hae : ∀ᵐ ω ∂P, 0 ≤ x ω := by
    have h := expSample_ae
    rw [← hlaw] at h
    exact ae_of_ae_map hx.aemeasurable h
  have hint : ∫⁻ ω, ENNReal.ofReal (min (x ω) 10 * u) ∂P = ENNReal.ofReal (u * (1 - Real.exp (-10))) := by
    have e : ∀ ω, ENNReal.ofReal (min (x ω) 10 * u) = ENNReal.ofReal u * ENNReal.ofReal (min (x ω) 10) := fun ω => by
      rw [mul_comm, ENNReal.ofReal_mul hu]
    rw [lintegral_congr e, lintegral_const_mul _ (by fun_prop), ENNReal.ofReal_mul hu, ← mean_capped, ← hlaw,
      lintegral_map (by fun_prop) hx]
  constructor
  · rw [ENNReal.ofReal_sub _ hδ, ← hint, tsub_le_iff_right]
    calc ∫⁻ ω, ENNReal.ofReal (min (x ω) 10 * u) ∂P ≤ ∫⁻ ω, (ENNReal.ofReal (f ω) + ENNReal.ofReal δ) ∂P := by
          refine lintegral_mono_ae (hae.mono fun ω h => ?_)
          refine le_trans (ENNReal.ofReal_le_ofReal ?_) ENNReal.ofReal_add_le
          linarith [(abs_le.1 (hf ω h)).1]
      _ = _ := by rw [lintegral_add_right _ measurable_const, lintegral_const, hP, mul_one]
  · calc ∫⁻ ω, ENNReal.ofReal (f ω) ∂P ≤ ∫⁻ ω, (ENNReal.ofReal (min (x ω) 10 * u) + ENNReal.ofReal δ) ∂P := by
          refine lintegral_mono_ae (hae.mono fun ω h => ?_)
          refine le_trans (ENNReal.ofReal_le_ofReal ?_) ENNReal.ofReal_add_le
          linarith [(abs_le.1 (hf ω h)).2]
      _ = _ := by
          rw [lintegral_add_right _ measurable_const, lintegral_const, hP, mul_one, hint, ← ENNReal.ofReal_add (mul_nonneg hu he) hδ]

end Mixnet
