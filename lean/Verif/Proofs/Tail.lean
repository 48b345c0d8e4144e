import Verif.Spec.Odds
import Mathlib.Analysis.SpecialFunctions.ImproperIntegrals
import Mathlib.Probability.Independence.Integration
import Mathlib.Probability.BorelCantelli
import Mathlib.Analysis.SpecialFunctions.Trigonometric.DerivHyp
/-!
# Tails of the time until a queue is empty

An exponential moment bound.
-/
namespace Mixnet
open MeasureTheory ProbabilityTheory Spec
open scoped ENNReal

/-- The moment generating function of the exponential distribution. -/
theorem exp_moment {a : ℝ} (ha : a < 1) :
    ∫⁻ x, ENNReal.ofReal (Real.exp (a * x)) ∂(expMeasure 1) = ENNReal.ofReal (1 / (1 - a)) := by
  have h1 : expMeasure 1 = volume.withDensity (exponentialPDF 1) := rfl
  have hm : Measurable (exponentialPDF 1) := (measurable_exponentialPDFReal 1).ennreal_ofReal
  rw [h1, lintegral_withDensity_eq_lintegral_mul _ hm (by fun_prop)]
  have h2 : ∀ x, (exponentialPDF 1 * fun x => ENNReal.ofReal (Real.exp (a * x))) x =
      (Set.Ici (0 : ℝ)).indicator (fun x => ENNReal.ofReal (Real.exp ((a - 1) * x))) x := by
    intro x
    rw [Pi.mul_apply, exponentialPDF_eq]
    by_cases hx : 0 ≤ x
    · rw [if_pos hx, Set.indicator_of_mem (by simpa using hx), ← ENNReal.ofReal_mul (by positivity), one_mul, one_mul,
        ← Real.exp_add]
      congr 2; ring
    · rw [if_neg hx, Set.indicator_of_notMem (by simpa using hx)]
      simp
  rw [lintegral_congr h2, lintegral_indicator measurableSet_Ici, setLIntegral_congr Ioi_ae_eq_Ici.symm,
    ← ofReal_integral_eq_lintegral_ofReal]
  · rw [integral_exp_mul_Ioi (by linarith)]
    congr 1
    rw [mul_zero, Real.exp_zero, ← neg_sub 1 a, div_neg, neg_div, neg_neg]
  · exact integrableOn_exp_mul_Ioi (by linarith) 0
  · exact Filter.Eventually.of_forall fun x => (Real.exp_pos _).le

variable {Ω : Type*} [MeasurableSpace Ω] {P : Measure Ω}

/-- The time spent waiting until the queue of length `len` is empty, or until opportunity `n`. -/
noncomputable def spent (mean : ℝ) (len : ℕ) (z : ℕ → ℝ × Bool) (n : ℕ) : ℝ :=
  ∑ k ∈ Finset.range n, if turnCount z k < len then mean * min (z k).1 10 else 0

theorem turnCount_succ (z : ℕ → ℝ × Bool) (n : ℕ) :
    turnCount z (n + 1) = turnCount z n + if (z n).2 = true then 1 else 0 := by
  unfold turnCount
  rw [Finset.range_add_one, Finset.filter_insert]
  split
  · rw [Finset.card_insert_of_notMem (by simp)]
  · rfl

theorem turnCount_mono (z : ℕ → ℝ × Bool) {n n' : ℕ} (h : n ≤ n') : turnCount z n ≤ turnCount z n' :=
  Finset.card_le_card (Finset.filter_subset_filter _ (Finset.range_subset_range.2 h))

theorem turnCount_congr {z z' : ℕ → ℝ × Bool} {n : ℕ} (h : ∀ k < n, z k = z' k) : turnCount z n = turnCount z' n := by
  unfold turnCount
  congr 1
  refine Finset.filter_congr fun k hk => ?_
  rw [h k (Finset.mem_range.1 hk)]

theorem spent_congr {mean : ℝ} {len : ℕ} {z z' : ℕ → ℝ × Bool} {n : ℕ} (h : ∀ k < n, z k = z' k) :
    spent mean len z n = spent mean len z' n := by
  unfold spent
  refine Finset.sum_congr rfl fun k hk => ?_
  have hk := Finset.mem_range.1 hk
  rw [h k hk, turnCount_congr fun j hj => h j (hj.trans hk)]

theorem measurable_turnCount (n : ℕ) : Measurable fun z : ℕ → ℝ × Bool => turnCount z n := by
  induction n with
  | zero => simp [turnCount]
  | succ n ih =>
    simp only [turnCount_succ]
    refine ih.add (Measurable.ite ?_ measurable_const measurable_const)
    exact (measurable_snd.comp (measurable_pi_apply n)) (measurableSet_singleton true)

theorem measurable_spent (mean : ℝ) (len n : ℕ) : Measurable fun z : ℕ → ℝ × Bool => spent mean len z n := by
  unfold spent
  refine Finset.measurable_sum _ fun k _ => Measurable.ite ?_ ?_ measurable_const
  · exact measurable_turnCount k measurableSet_Iio
  · have : Measurable fun z : ℕ → ℝ × Bool => (z k).1 := measurable_fst.comp (measurable_pi_apply k)
    exact measurable_const.mul (this.min measurable_const)

/-- A function of the first `n` draws is independent of draw `n`. -/
theorem indep_next {z : ℕ → Ω → ℝ × Bool} (hm : ∀ k, Measurable (z k)) (hi : iIndepFun z P) (n : ℕ)
    {f : (ℕ → ℝ × Bool) → ℝ≥0∞} (hf : Measurable f) (hloc : ∀ a b : ℕ → ℝ × Bool, (∀ k < n, a k = b k) → f a = f b)
    {g : ℝ × Bool → ℝ≥0∞} (hg : Measurable g) :
    IndepFun (fun ω => f fun k => z k ω) (fun ω => g (z n ω)) P := by
  have h := hi.indepFun_finset (Finset.range n) {n} (by simp) hm
  let ext : (Finset.range n → ℝ × Bool) → ℕ → ℝ × Bool := fun t k => if h : k ∈ Finset.range n then t ⟨k, h⟩ else (0, false)
  have hext : Measurable ext := by
    refine measurable_pi_lambda _ fun k => ?_
    by_cases h : k ∈ Finset.range n
    · simp only [ext, dif_pos h]; exact measurable_pi_apply _
    · simp only [ext, dif_neg h]; exact measurable_const
  have h2 := h.comp (hf.comp hext) (hg.comp (measurable_pi_apply (⟨n, by simp⟩ : ({n} : Finset ℕ))))
  refine h2.congr (Filter.Eventually.of_forall fun ω => ?_) (Filter.Eventually.of_forall fun ω => rfl)
  refine hloc _ _ fun k hk => ?_
  simp only [ext, dif_pos (Finset.mem_range.2 hk)]

/-- The mean of the factor by which an opportunity changes the exponential moment is at most one. -/
theorem factor_le {mean share period l : ℝ} (hmean : 0 ≤ mean) (hl : 0 ≤ l) (hshare : 0 ≤ share) (hperiod : 0 ≤ period)
    (hmp : mean ≤ share * period) (hlp : l * period < 1) {ν : Measure (ℝ × Bool)}
    (hν : ∃ β : Measure Bool, IsProbabilityMeasure β ∧ ENNReal.ofReal share ≤ β {true} ∧ ν = (expMeasure 1).prod β) :
    ∫⁻ y, ENNReal.ofReal (Real.exp (l * (mean * min y.1 10))) * (if y.2 = true then ENNReal.ofReal (1 - l * period) else 1) ∂ν
      ≤ 1 := by
  obtain ⟨β, hβ, hs, rfl⟩ := hν
  have : IsProbabilityMeasure (expMeasure 1) := isProbabilityMeasure_expMeasure one_pos
  rw [lintegral_prod_mul (f := fun x : ℝ => ENNReal.ofReal (Real.exp (l * (mean * min x 10))))
    (g := fun b : Bool => if b = true then ENNReal.ofReal (1 - l * period) else 1)
    (Measurable.aemeasurable (by fun_prop)) (Measurable.aemeasurable (by fun_prop))]
  have hfin : β {true} ≠ ∞ := measure_ne_top β _
  obtain ⟨b, hb0, hb⟩ : ∃ b : ℝ, 0 ≤ b ∧ β {true} = ENNReal.ofReal b :=
    ⟨(β {true}).toReal, ENNReal.toReal_nonneg, (ENNReal.ofReal_toReal hfin).symm⟩
  have hb1 : b ≤ 1 := by
    have : β {true} ≤ 1 := prob_le_one
    rw [hb, ENNReal.ofReal_le_one] at this
    exact this
  have hsb : share ≤ b := by rwa [hb, ENNReal.ofReal_le_ofReal_iff hb0] at hs
  have hbf : β {false} = ENNReal.ofReal (1 - b) := by
    have h1 : ({false} : Set Bool) = {true}ᶜ := by ext x; cases x <;> simp
    rw [h1, prob_compl_eq_one_sub (measurableSet_singleton _), hb, ENNReal.ofReal_sub _ hb0, ENNReal.ofReal_one]
  have hlm : l * mean ≤ l * (b * period) :=
    mul_le_mul_of_nonneg_left (hmp.trans (mul_le_mul_of_nonneg_right hsb hperiod)) hl
  have hlb : l * (b * period) ≤ l * period := by
    refine mul_le_mul_of_nonneg_left ?_ hl
    calc b * period ≤ 1 * period := mul_le_mul_of_nonneg_right hb1 hperiod
      _ = period := one_mul _
  have hlm1 : l * mean < 1 := by linarith
  have e1 : ∫⁻ x, ENNReal.ofReal (Real.exp (l * (mean * min x 10))) ∂(expMeasure 1) ≤ ENNReal.ofReal (1 / (1 - l * mean)) := by
    rw [← exp_moment hlm1]
    refine lintegral_mono fun x => ENNReal.ofReal_le_ofReal (Real.exp_le_exp.2 ?_)
    rw [mul_assoc]
    exact mul_le_mul_of_nonneg_left (mul_le_mul_of_nonneg_left (min_le_left _ _) hmean) hl
  have e2 : ∫⁻ y : Bool, (if y = true then ENNReal.ofReal (1 - l * period) else 1) ∂β = ENNReal.ofReal (1 - l * (b * period)) := by
    rw [lintegral_fintype]
    simp only [Fintype.sum_bool, if_true, Bool.false_eq_true, if_false, one_mul]
    rw [hb, hbf, ← ENNReal.ofReal_mul (by linarith), ← ENNReal.ofReal_add (mul_nonneg (by linarith) hb0) (by linarith)]
    congr 1; ring
  rw [e2]
  calc _ ≤ ENNReal.ofReal (1 / (1 - l * mean)) * ENNReal.ofReal (1 - l * (b * period)) := mul_le_mul_left e1 _
    _ = ENNReal.ofReal (1 / (1 - l * mean) * (1 - l * (b * period))) := by
        rw [ENNReal.ofReal_mul (by apply one_div_nonneg.2; linarith)]
    _ ≤ 1 := by
      rw [ENNReal.ofReal_le_one, one_div, inv_mul_le_iff₀ (by linarith)]
      linarith

/-- The exponential moment of the time until the queue is empty. -/
theorem moment_le {mean share period l : ℝ} (hmean : 0 ≤ mean) (hl : 0 ≤ l) (hshare : 0 ≤ share) (hperiod : 0 ≤ period)
    (hmp : mean ≤ share * period) (hlp : l * period < 1) {z : ℕ → Ω → ℝ × Bool} (hz : RandomTurns P share z) (len n : ℕ) :
    ∫⁻ ω, ENNReal.ofReal (Real.exp (l * spent mean len (fun k => z k ω) n)) ∂P ≤
      ENNReal.ofReal ((1 / (1 - l * period)) ^ len) := by
  have hP : IsProbabilityMeasure P := hz.independent.isProbabilityMeasure
  have hpos : 0 < 1 - l * period := by linarith
  have hone : 1 ≤ 1 / (1 - l * period) := by
    rw [le_div_iff₀ hpos]
    have := mul_nonneg hl hperiod
    linarith
  have hmz : Measurable fun ω => fun k => z k ω := measurable_pi_lambda _ hz.measurable
  set θ : ℝ := 1 / (1 - l * period) with hθ
  have hθ0 : 0 < θ := by linarith
  let F : ℕ → (ℕ → ℝ × Bool) → ℝ≥0∞ := fun n a =>
    ENNReal.ofReal (Real.exp (l * spent mean len a n)) * ENNReal.ofReal (θ ^ (len - turnCount a n))
  have hF : ∀ n, Measurable (F n) := by
    intro n
    have h1 : Measurable fun a : ℕ → ℝ × Bool => ENNReal.ofReal (Real.exp (l * spent mean len a n)) := by
      have := measurable_spent mean len n
      fun_prop
    have h2 : Measurable fun a : ℕ → ℝ × Bool => ENNReal.ofReal (θ ^ (len - turnCount a n)) :=
      (measurable_from_nat (f := fun j => ENNReal.ofReal (θ ^ (len - j)))).comp (measurable_turnCount n)
    exact h1.mul h2
  let g : ℝ × Bool → ℝ≥0∞ := fun y =>
    ENNReal.ofReal (Real.exp (l * (mean * min y.1 10))) * (if y.2 = true then ENNReal.ofReal (1 - l * period) else 1)
  have hg : Measurable g := by
    refine Measurable.mul (by fun_prop) (Measurable.ite ?_ measurable_const measurable_const)
    exact measurable_snd (measurableSet_singleton true)
  have hgint : ∀ n, ∫⁻ ω, g (z n ω) ∂P ≤ 1 := by
    intro n
    rw [← lintegral_map hg (hz.measurable n)]
    exact factor_le hmean hl hshare hperiod hmp hlp (hz.law n)
  have key : ∀ n, ∫⁻ ω, F n (fun k => z k ω) ∂P ≤ ENNReal.ofReal (θ ^ len) := by
    intro n
    induction n with
    | zero => simp [F, spent, turnCount]
    | succ n ih =>
      refine le_trans ?_ ih
      let A : Set (ℕ → ℝ × Bool) := {a | turnCount a n < len}
      have hA : MeasurableSet A := measurable_turnCount n measurableSet_Iio
      have hstep : ∀ a, F (n + 1) a = A.indicator (F n) a * g (a n) + Aᶜ.indicator (F n) a := by
        intro a
        by_cases ha : turnCount a n < len
        · have haA : a ∈ A := ha
          rw [Set.indicator_of_mem haA, Set.indicator_of_notMem (by simpa using haA), add_zero]
          have e : spent mean len a (n + 1) = spent mean len a n + mean * min (a n).1 10 := by
            unfold spent
            rw [Finset.sum_range_succ, if_pos ha]
          simp only [F, g]
          rw [e, mul_add, Real.exp_add, ENNReal.ofReal_mul (Real.exp_pos _).le, turnCount_succ]
          by_cases hb : (a n).2 = true
          · rw [if_pos hb, if_pos hb]
            have e2 : θ ^ (len - (turnCount a n + 1)) = θ ^ (len - turnCount a n) * (1 - l * period) := by
              obtain ⟨d, hd⟩ : ∃ d, len - turnCount a n = d + 1 := ⟨len - turnCount a n - 1, by omega⟩
              rw [hd, show len - (turnCount a n + 1) = d by omega, pow_succ, mul_assoc, hθ, one_div,
                inv_mul_cancel₀ hpos.ne', mul_one]
            rw [e2, ENNReal.ofReal_mul (by positivity)]
            ring
          · rw [if_neg hb, if_neg hb, add_zero]
            ring
        · have haA : a ∉ A := ha
          rw [Set.indicator_of_notMem haA, Set.indicator_of_mem (by simpa using haA), zero_mul, zero_add]
          have e : spent mean len a (n + 1) = spent mean len a n := by
            unfold spent
            rw [Finset.sum_range_succ, if_neg ha, add_zero]
          have e2 : len - turnCount a (n + 1) = len - turnCount a n := by
            have : turnCount a n ≤ turnCount a (n + 1) := turnCount_mono a (Nat.le_succ n)
            omega
          simp only [F]
          rw [e, e2]
      have hFA : Measurable (A.indicator (F n)) := (hF n).indicator hA
      have hFAc : Measurable (Aᶜ.indicator (F n)) := (hF n).indicator hA.compl
      have hind := indep_next hz.measurable hz.independent n hFA (by
        intro a b hab
        have h1 := turnCount_congr hab
        have h2 := spent_congr (mean := mean) (len := len) hab
        by_cases ha : turnCount a n < len
        · rw [Set.indicator_of_mem (show a ∈ A from ha), Set.indicator_of_mem (show b ∈ A from lt_of_eq_of_lt h1.symm ha)]
          simp only [F]; rw [h1, h2]
        · rw [Set.indicator_of_notMem (show a ∉ A from ha), Set.indicator_of_notMem (show b ∉ A from fun hb => ha (lt_of_eq_of_lt h1 hb))]) hg
      have m1 : Measurable fun ω => A.indicator (F n) (fun k => z k ω) := hFA.comp hmz
      have m2 : Measurable fun ω => g (z n ω) := hg.comp (hz.measurable n)
      have hmul : ∫⁻ ω, A.indicator (F n) (fun k => z k ω) * g (z n ω) ∂P = (∫⁻ ω, A.indicator (F n) (fun k => z k ω) ∂P) *
          (∫⁻ ω, g (z n ω) ∂P) := lintegral_mul_eq_lintegral_mul_lintegral_of_indepFun m1 m2 hind
      calc ∫⁻ ω, F (n + 1) (fun k => z k ω) ∂P
          = ∫⁻ ω, A.indicator (F n) (fun k => z k ω) * g (z n ω) ∂P + ∫⁻ ω, Aᶜ.indicator (F n) (fun k => z k ω) ∂P := by
            rw [← lintegral_add_left (m1.fun_mul m2)]
            exact lintegral_congr fun ω => hstep _
        _ = (∫⁻ ω, A.indicator (F n) (fun k => z k ω) ∂P) * (∫⁻ ω, g (z n ω) ∂P) + ∫⁻ ω, Aᶜ.indicator (F n) (fun k => z k ω) ∂P := by
            rw [← hmul]
        _ ≤ (∫⁻ ω, A.indicator (F n) (fun k => z k ω) ∂P) * 1 + ∫⁻ ω, Aᶜ.indicator (F n) (fun k => z k ω) ∂P := by
            gcongr
            exact hgint n
        _ = ∫⁻ ω, F n (fun k => z k ω) ∂P := by
            rw [mul_one, ← lintegral_add_left m1]
            exact lintegral_congr fun ω => by
              have := Set.indicator_self_add_compl A (F n)
              exact congrFun this _
  refine le_trans (lintegral_mono fun ω => ?_) (key n)
  refine le_mul_of_one_le_right zero_le ?_
  rw [ENNReal.one_le_ofReal]
  exact one_le_pow₀ hone

/-- Almost surely the queue gets as many turns as one likes. -/
theorem turns_come {share : ℝ} (hshare : 0 < share) {z : ℕ → Ω → ℝ × Bool} (hz : RandomTurns P share z) (len : ℕ) :
    ∀ᵐ ω ∂P, ∃ n, len ≤ turnCount (fun k => z k ω) n := by
  have hP : IsProbabilityMeasure P := hz.independent.isProbabilityMeasure
  let T : ℕ → Set Ω := fun k => {ω | (z k ω).2 = true}
  have hTm : ∀ k, MeasurableSet (T k) := fun k => (measurable_snd.comp (hz.measurable k)) (measurableSet_singleton true)
  have hTi : iIndepSet T P := by
    rw [iIndepSet_iff_meas_biInter hTm]
    intro s
    have := hz.independent.measure_inter_preimage_eq_mul s (sets := fun _ => {y : ℝ × Bool | y.2 = true})
      (fun _ _ => measurable_snd (measurableSet_singleton true))
    exact this
  have hTp : ∀ k, ENNReal.ofReal share ≤ P (T k) := by
    intro k
    obtain ⟨β, hβ, hs, hl⟩ := hz.law k
    have : IsProbabilityMeasure (expMeasure 1) := isProbabilityMeasure_expMeasure one_pos
    have e : P (T k) = β {true} := by
      have h1 : P (T k) = P.map (z k) (Set.univ ×ˢ {true}) := by
        rw [Measure.map_apply (hz.measurable k) (MeasurableSet.univ.prod (measurableSet_singleton _))]
        congr 1
        ext ω
        simp [T]
      rw [h1, hl, Measure.prod_prod, measure_univ, one_mul]
    rw [e]; exact hs
  have hsum : ∑' k, P (T k) = ∞ := by
    refine top_unique ?_
    rw [← ENNReal.tsum_const_eq_top_of_ne_zero (α := ℕ) (c := ENNReal.ofReal share) (by simpa using hshare)]
    exact ENNReal.tsum_le_tsum hTp
  have hlim := measure_limsup_eq_one hTm hTi hsum
  have hae : ∀ᵐ ω ∂P, ω ∈ Filter.limsup T Filter.atTop :=
    mem_ae_iff_prob_eq_one (MeasurableSet.measurableSet_limsup hTm) |>.2 hlim
  filter_upwards [hae] with ω hω
  have hfreq : ∃ᶠ k in Filter.atTop, (z k ω).2 = true := Filter.mem_limsup_iff_frequently_mem (s := T) |>.1 hω
  induction len with
  | zero => exact ⟨0, Nat.zero_le _⟩
  | succ len ih =>
    obtain ⟨n, hn⟩ := ih
    obtain ⟨k, hk, hkt⟩ := Filter.frequently_atTop.1 hfreq n
    refine ⟨k + 1, ?_⟩
    rw [turnCount_succ, if_pos hkt]
    have := turnCount_mono (fun k => z k ω) hk
    omega

/-- Once the queue is empty, no more time is spent. -/
theorem spent_eventually {mean : ℝ} {len : ℕ} {z : ℕ → ℝ × Bool} (h : ∃ n, len ≤ turnCount z n) :
    ∃ n, len ≤ turnCount z n ∧ ∀ n' ≥ n, spent mean len z n' = clock mean (fun k => (z k).1) n := by
  classical
  refine ⟨Nat.find h, Nat.find_spec h, ?_⟩
  intro n' hn'
  induction n', hn' using Nat.le_induction with
  | base =>
    unfold spent clock
    refine Finset.sum_congr rfl fun k hk => ?_
    rw [if_pos (not_le.1 (Nat.find_min h (Finset.mem_range.1 hk)))]
  | succ n' hn' ih =>
    rw [← ih]
    unfold spent
    rw [Finset.sum_range_succ, if_neg (not_lt.2 ((Nat.find_spec h).trans (turnCount_mono z hn'))), add_zero]

/-- The exponential bound for two queues. -/
theorem both_tail {mean₁ mean₂ share₁ share₂ period₁ period₂ l : ℝ} (hmean₁ : 0 ≤ mean₁) (hmean₂ : 0 ≤ mean₂) (hl : 0 ≤ l)
    (hshare₁ : 0 < share₁) (hshare₂ : 0 < share₂) (hperiod₁ : 0 ≤ period₁) (hperiod₂ : 0 ≤ period₂)
    (hmp₁ : mean₁ ≤ share₁ * period₁) (hmp₂ : mean₂ ≤ share₂ * period₂) (hlp₁ : l * period₁ < 1) (hlp₂ : l * period₂ < 1)
    {z₁ z₂ : ℕ → Ω → ℝ × Bool} (hz₁ : RandomTurns P share₁ z₁) (hz₂ : RandomTurns P share₂ z₂)
    (hind : IndepFun (fun ω k => z₁ k ω) (fun ω k => z₂ k ω) P) (a b : ℕ) (x : ℝ) :
    P {ω | ¬ BothEmptyBy mean₁ (fun k => z₁ k ω) a mean₂ (fun k => z₂ k ω) b x} ≤
      ENNReal.ofReal (Real.exp (-(l * x)) * ((1 / (1 - l * period₁)) ^ a * (1 / (1 - l * period₂)) ^ b)) := by
  have hmz₁ : Measurable fun ω => fun k => z₁ k ω := measurable_pi_lambda _ hz₁.measurable
  have hmz₂ : Measurable fun ω => fun k => z₂ k ω := measurable_pi_lambda _ hz₂.measurable
  let S : ℕ → Ω → ℝ := fun n ω => spent mean₁ a (fun k => z₁ k ω) n + spent mean₂ b (fun k => z₂ k ω) n
  have hA : ∀ n, P {ω | x < S n ω} ≤
      ENNReal.ofReal (Real.exp (-(l * x)) * ((1 / (1 - l * period₁)) ^ a * (1 / (1 - l * period₂)) ^ b)) := by
    intro n
    let f : (ℕ → ℝ × Bool) → ℝ≥0∞ := fun t => ENNReal.ofReal (Real.exp (l * spent mean₁ a t n))
    let g : (ℕ → ℝ × Bool) → ℝ≥0∞ := fun t => ENNReal.ofReal (Real.exp (l * spent mean₂ b t n))
    have hf : Measurable f := by have := measurable_spent mean₁ a n; fun_prop
    have hg : Measurable g := by have := measurable_spent mean₂ b n; fun_prop
    have hfg := hind.comp hf hg
    have hmul : ∫⁻ ω, f (fun k => z₁ k ω) * g (fun k => z₂ k ω) ∂P =
        (∫⁻ ω, f (fun k => z₁ k ω) ∂P) * ∫⁻ ω, g (fun k => z₂ k ω) ∂P :=
      lintegral_mul_eq_lintegral_mul_lintegral_of_indepFun (hf.comp hmz₁) (hg.comp hmz₂) hfg
    have h1 := moment_le hmean₁ hl hshare₁.le hperiod₁ hmp₁ hlp₁ hz₁ a n
    have h2 := moment_le hmean₂ hl hshare₂.le hperiod₂ hmp₂ hlp₂ hz₂ b n
    have hsub : {ω | x < S n ω} ⊆ {ω | ENNReal.ofReal (Real.exp (l * x)) ≤ f (fun k => z₁ k ω) * g (fun k => z₂ k ω)} := by
      intro ω hω
      simp only [Set.mem_setOf_eq] at hω ⊢
      simp only [f, g]
      rw [← ENNReal.ofReal_mul (Real.exp_pos _).le, ← Real.exp_add, ← mul_add]
      exact ENNReal.ofReal_le_ofReal (Real.exp_le_exp.2 (mul_le_mul_of_nonneg_left hω.le hl))
    have hpos : ENNReal.ofReal (Real.exp (l * x)) ≠ 0 := by simpa using Real.exp_pos _
    calc P {ω | x < S n ω}
        ≤ P {ω | ENNReal.ofReal (Real.exp (l * x)) ≤ f (fun k => z₁ k ω) * g (fun k => z₂ k ω)} := measure_mono hsub
      _ ≤ (∫⁻ ω, f (fun k => z₁ k ω) * g (fun k => z₂ k ω) ∂P) / ENNReal.ofReal (Real.exp (l * x)) :=
          meas_ge_le_lintegral_div ((hf.comp hmz₁).mul (hg.comp hmz₂)).aemeasurable hpos ENNReal.ofReal_ne_top
      _ ≤ (ENNReal.ofReal ((1 / (1 - l * period₁)) ^ a) * ENNReal.ofReal ((1 / (1 - l * period₂)) ^ b)) /
            ENNReal.ofReal (Real.exp (l * x)) := by
          rw [hmul]
          exact ENNReal.div_le_div_right (mul_le_mul' h1 h2) _
      _ = _ := by
          have q1 : 0 ≤ 1 / (1 - l * period₁) := one_div_nonneg.2 (by linarith)
          rw [← ENNReal.ofReal_mul (by positivity), ← ENNReal.ofReal_div_of_pos (Real.exp_pos _), Real.exp_neg]
          congr 1
          rw [div_eq_mul_inv, mul_comm]
  have hae : {ω | ¬ BothEmptyBy mean₁ (fun k => z₁ k ω) a mean₂ (fun k => z₂ k ω) b x} ≤ᵐ[P]
      ⋃ N, ⋂ n, {ω | N ≤ n → x < S n ω} := by
    filter_upwards [turns_come hshare₁ hz₁ a, turns_come hshare₂ hz₂ b] with ω h1 h2 hno
    obtain ⟨n₁, e1, f1⟩ := spent_eventually (mean := mean₁) h1
    obtain ⟨n₂, e2, f2⟩ := spent_eventually (mean := mean₂) h2
    refine Set.mem_iUnion.2 ⟨max n₁ n₂, Set.mem_iInter.2 fun n hn => ?_⟩
    simp only [S]
    rw [f1 n (le_trans (le_max_left _ _) hn), f2 n (le_trans (le_max_right _ _) hn)]
    by_contra hc
    exact hno ⟨n₁, n₂, e1, e2, not_lt.1 hc⟩
  refine (measure_mono_ae hae).trans ?_
  have hmono : Monotone fun N => ⋂ n, {ω | N ≤ n → x < S n ω} := by
    intro N N' hN ω hω
    simp only [Set.mem_iInter, Set.mem_setOf_eq] at hω ⊢
    exact fun n hn => hω n (hN.trans hn)
  rw [hmono.measure_iUnion]
  refine iSup_le fun N => (measure_mono fun ω hω => ?_).trans (hA N)
  simp only [Set.mem_iInter, Set.mem_setOf_eq] at hω ⊢
  exact hω N le_rfl

/-- Bounding the exponential bound: `-log (1 - u) ≤ u + u² / (2 (1 - u))`. -/
theorem inv_le_exp {u : ℝ} (h0 : 0 ≤ u) (h1 : u < 1) : 1 / (1 - u) ≤ Real.exp (u + u ^ 2 / (2 * (1 - u))) := by
  have hp : 0 < 1 - u := by linarith
  have hw : 0 < 1 / (1 - u) := one_div_pos.2 hp
  have hw1 : 1 ≤ 1 / (1 - u) := by rw [le_div_iff₀ hp]; linarith
  have h := Real.self_le_sinh_iff.2 (Real.log_nonneg hw1)
  rw [Real.sinh_log hw] at h
  have e : (1 / (1 - u) - (1 / (1 - u))⁻¹) / 2 = u + u ^ 2 / (2 * (1 - u)) := by field_simp; ring
  rw [e] at h
  calc 1 / (1 - u) = Real.exp (Real.log (1 / (1 - u))) := (Real.exp_log hw).symm
    _ ≤ _ := Real.exp_le_exp.2 h

/-- **The tail.** Two queues of lengths `a` and `b`, where a packet takes at most `period₁` and `period₂` on average, are empty after
the mean time and `period₁ (t + √(2 t v))`, where `v` is the variance in units of `period₁`, except with
probability `exp (-t)`. -/
theorem both_tail_le {mean₁ mean₂ share₁ share₂ period₁ period₂ t : ℝ} (hmean₁ : 0 ≤ mean₁) (hmean₂ : 0 ≤ mean₂)
    (hshare₁ : 0 < share₁) (hshare₂ : 0 < share₂) (hperiod₁ : 0 < period₁) (hperiod₂ : 0 ≤ period₂) (hle : period₂ ≤ period₁)
    (hmp₁ : mean₁ ≤ share₁ * period₁) (hmp₂ : mean₂ ≤ share₂ * period₂)
    {z₁ z₂ : ℕ → Ω → ℝ × Bool} (hz₁ : RandomTurns P share₁ z₁) (hz₂ : RandomTurns P share₂ z₂)
    (hind : IndepFun (fun ω k => z₁ k ω) (fun ω k => z₂ k ω) P) (a b : ℕ) (ht : 0 ≤ t)
    (hv : 0 < a + (period₂ / period₁) ^ 2 * b) :
    P {ω | ¬ BothEmptyBy mean₁ (fun k => z₁ k ω) a mean₂ (fun k => z₂ k ω) b
        (a * period₁ + b * period₂ + period₁ * (t + √(2 * t * (a + (period₂ / period₁) ^ 2 * b))))} ≤
      ENNReal.ofReal (Real.exp (-t)) := by
  set r := period₂ / period₁ with hr
  have hr0 : 0 ≤ r := div_nonneg hperiod₂ hperiod₁.le
  have hr1 : r ≤ 1 := (div_le_one hperiod₁).2 hle
  have hp2 : period₂ = r * period₁ := by rw [hr, div_mul_cancel₀ _ hperiod₁.ne']
  set v := (a : ℝ) + r ^ 2 * b with hvdef
  set y := √(2 * t / v) with hy
  have hy0 : 0 ≤ y := Real.sqrt_nonneg _
  have hyy : y ^ 2 * v = 2 * t := by
    rw [hy, Real.sq_sqrt (by positivity), div_mul_cancel₀ _ hv.ne']
  have hys : y * √(2 * t * v) = 2 * t := by
    rw [hy, ← Real.sqrt_mul (by positivity), show 2 * t / v * (2 * t * v) = (2 * t) ^ 2 by field_simp, Real.sqrt_sq (by linarith)]
  set u := y / (1 + y) with hu
  have h1y : 0 < 1 + y := by linarith
  have hu0 : 0 ≤ u := div_nonneg hy0 h1y.le
  have hu1 : u < 1 := by rw [hu, div_lt_one h1y]; linarith
  have h1u : 1 - u = 1 / (1 + y) := by rw [hu]; field_simp; ring
  have hru : r * u ≤ u := by
    calc r * u ≤ 1 * u := mul_le_mul_of_nonneg_right hr1 hu0
      _ = u := one_mul u
  have hlp1 : u / period₁ * period₁ = u := div_mul_cancel₀ _ hperiod₁.ne'
  have hlp2 : u / period₁ * period₂ = r * u := by rw [hp2]; field_simp
  have h := both_tail hmean₁ hmean₂ (div_nonneg hu0 hperiod₁.le) hshare₁ hshare₂ hperiod₁.le hperiod₂ hmp₁ hmp₂
    (by rw [hlp1]; exact hu1) (by rw [hlp2]; linarith) hz₁ hz₂ hind a b
    (a * period₁ + b * period₂ + period₁ * (t + √(2 * t * v)))
  refine h.trans (ENNReal.ofReal_le_ofReal ?_)
  rw [hlp1, hlp2]
  have q1 : (1 / (1 - u)) ^ a ≤ Real.exp (a * (u + u ^ 2 / (2 * (1 - u)))) := by
    rw [Real.exp_nat_mul]
    exact pow_le_pow_left₀ (one_div_nonneg.2 (by linarith)) (inv_le_exp hu0 hu1) a
  have q2 : (1 / (1 - r * u)) ^ b ≤ Real.exp (b * (r * u + r ^ 2 * u ^ 2 / (2 * (1 - u)))) := by
    rw [Real.exp_nat_mul]
    refine pow_le_pow_left₀ (one_div_nonneg.2 (by linarith)) ((inv_le_exp (mul_nonneg hr0 hu0) (by linarith)).trans ?_) b
    refine Real.exp_le_exp.2 (add_le_add le_rfl ?_)
    rw [mul_pow]
    exact div_le_div_of_nonneg_left (by positivity) (by linarith) (by linarith)
  calc _ ≤ Real.exp (-(u / period₁ * (a * period₁ + b * period₂ + period₁ * (t + √(2 * t * v))))) *
        (Real.exp (a * (u + u ^ 2 / (2 * (1 - u)))) * Real.exp (b * (r * u + r ^ 2 * u ^ 2 / (2 * (1 - u))))) := by
        refine mul_le_mul_of_nonneg_left (mul_le_mul q1 q2 ?_ (Real.exp_pos _).le) (Real.exp_pos _).le
        exact pow_nonneg (one_div_nonneg.2 (by linarith)) b
    _ = Real.exp (-t) := by
      rw [← Real.exp_add, ← Real.exp_add]
      congr 1
      have e1 : u / period₁ * (a * period₁ + b * period₂ + period₁ * (t + √(2 * t * v))) =
          u * (a + r * b) + u * t + u * √(2 * t * v) := by rw [hp2]; field_simp; ring
      have e2 : (a : ℝ) * (u + u ^ 2 / (2 * (1 - u))) + b * (r * u + r ^ 2 * u ^ 2 / (2 * (1 - u))) =
          u * (a + r * b) + u ^ 2 / (2 * (1 - u)) * v := by rw [hvdef]; ring
      have e3 : u ^ 2 / (2 * (1 - u)) * v = t / (1 + y) := by
        have : u ^ 2 / (2 * (1 - u)) * v = (y ^ 2 * v) / (2 * (1 + y)) := by
          rw [h1u, hu]; field_simp
        rw [this, hyy]; field_simp
      have e4 : u * √(2 * t * v) = 2 * t / (1 + y) := by
        rw [hu, div_mul_eq_mul_div, hys]
      rw [e1, e2, e3, e4, hu]
      field_simp
      ring

end Mixnet
