import Verif.Proofs.Mixing
import Verif.Props.Deadline
import Verif.Props.Leaving
import Mathlib.Analysis.Complex.ExponentialBounds
/-!
# C101: a relay mixes packets
-/
namespace Mixnet.Props
open Mixnet Spec MeasureTheory ProbabilityTheory

variable {C : Crypto}

theorem sampledBy_laws (hC : CryptoLaws C) (sample : Bytes → C.Delay) : CryptoLaws (sampledBy C sample) :=
  { hC with }

/-- Delays remain `f64` numbers. -/
def sampledBy_delays (F : F64Delays C) (sample : Bytes → C.Delay) : F64Delays (sampledBy C sample) :=
  { F with }

theorem exp_five : Real.exp (-5) ≤ 1 / 100 := by
  have h : (100 : ℝ) ≤ Real.exp 5 := by
    have h1 := Real.exp_one_gt_d9
    have h2 : Real.exp 5 = Real.exp 1 ^ 5 := by rw [← Real.exp_nat_mul]; norm_num
    rw [h2]
    calc (100 : ℝ) ≤ (2.7 : ℝ) ^ 5 := by norm_num
      _ ≤ Real.exp 1 ^ 5 := by gcongr; linarith
  rw [Real.exp_neg, ← one_div]
  exact one_div_le_one_div_of_le (by norm_num) h

variable {Ω : Type*} [MeasurableSpace Ω] {P : Measure Ω} {F : F64Delays C} {sample : Ω → Bytes → C.Delay} {t : TwoPackets} {x : Ω → ℝ × ℝ}

/-- The times for which both packets are held, given the samples. -/
theorem samples_held (hs : RandomSamples P F sample t.seed₁ t.seed₂ x) (hmax : 100 * t.config.meanForwardingDelay ≤ 2 ^ 49) (ω : Ω) :
    (0 ≤ (x ω).1 → |(heldFor (sampledBy C (sample ω)) t.config t.seed₁ : ℝ) - min (x ω).1 10 * t.config.meanForwardingDelay| ≤ 1) ∧
    (0 ≤ (x ω).2 → |(heldFor (sampledBy C (sample ω)) t.config t.seed₂ : ℝ) - min (x ω).2 10 * t.config.meanForwardingDelay| ≤ 1) :=
  ⟨fun h => held_near (sampledBy_delays F (sample ω)) h (hs.near₁ ω h) hmax,
    fun h => held_near (sampledBy_delays F (sample ω)) h (hs.near₂ ω h) hmax⟩

theorem at_least (hs : RandomSamples P F sample t.seed₁ t.seed₂ x) {B : Set (ℝ × ℝ)} (hB : MeasurableSet B) {S : Set Ω}
    (h : ∀ ω, x ω ∈ B → ω ∈ S) : ((expMeasure 1).prod (expMeasure 1)) B ≤ P S := by
  rw [← hs.law, Measure.map_apply hs.measurable hB]
  exact measure_mono h

/-- **C101.** Two packets arrive at a relay, the second at most seven times the mean forwarding delay after the first (time `d`,
with mean `μ`). With probability about `1 - exp (-d / μ)`, the first is due by then. Otherwise it is almost even which of them
leaves first. (The cap of the delays at ten times the mean is why it is not quite even.) Of the three events at most one happens, so
these lower bounds are also upper bounds, up to 3%. -/
theorem relay_mixes (hC : CryptoLaws C) (hl1 : t.packet₁.length = 2252) (hl2 : t.packet₂.length = 2252) {d : Nat}
    (hd : t.now₂ = t.now₁ + d) (hmin : 1000 ≤ t.config.meanForwardingDelay) (hmax : 100 * t.config.meanForwardingDelay ≤ 2 ^ 49)
    (hd7 : d ≤ 7 * t.config.meanForwardingDelay) (hs : RandomSamples P F sample t.seed₁ t.seed₂ x) :
    ENNReal.ofReal (1 - 101 / 100 * Real.exp (-(d / t.config.meanForwardingDelay))) ≤
      P {ω | t.FirstDue (sampledBy C (sample ω))} ∧
    ENNReal.ofReal (49 / 100 * Real.exp (-(d / t.config.meanForwardingDelay))) ≤ P {ω | t.InOrder (sampledBy C (sample ω))} ∧
    ENNReal.ofReal (49 / 100 * Real.exp (-(d / t.config.meanForwardingDelay))) ≤ P {ω | t.Overtaken (sampledBy C (sample ω))} := by
  have hprob : IsProbabilityMeasure (expMeasure 1) := isProbabilityMeasure_expMeasure one_pos
  have held := samples_held hs hmax
  have ord : ∀ ω m p₁ p₂, t.Arrived (sampledBy C (sample ω)) m p₁ p₂ → _ := fun ω m p₁ p₂ h =>
    arrived_order (sampledBy_laws hC (sample ω)) hl1 hl2 h
  set u : ℝ := (t.config.meanForwardingDelay : ℝ) with hu
  have hu1 : (1000 : ℝ) ≤ u := by rw [hu]; exact_mod_cast hmin
  have hu0 : 0 < u := by linarith
  have hd0 : (0 : ℝ) ≤ d := Nat.cast_nonneg d
  have hdu : (d : ℝ) ≤ 7 * u := by rw [hu]; exact_mod_cast hd7
  have hdu' : (d : ℝ) / u ≤ 7 := (div_le_iff₀ hu0).2 hdu
  have hdu0 : 0 ≤ (d : ℝ) / u := div_nonneg hd0 hu0.le
  set q : ℝ := (d : ℝ) / u with hq
  have hqu : q * u = d := by rw [hq]; field_simp
  have hv : 1 / u ≤ 1 / 1000 := one_div_le_one_div_of_le (by norm_num) hu1
  have hv0 : 0 < 1 / u := one_div_pos.2 hu0
  set v : ℝ := 1 / u with hvdef
  have hvu : v * u = 1 := by rw [hvdef]; field_simp
  have h5 := exp_five
  have hw := Real.exp_pos (-q)
  refine ⟨?_, ?_, ?_⟩
  · rcases Nat.eq_zero_or_pos d with h0 | h0
    · have : q = 0 := by rw [hq, h0]; simp
      rw [this, neg_zero, Real.exp_zero, ENNReal.ofReal_of_nonpos (by norm_num)]
      exact zero_le
    have hd1 : (1 : ℝ) ≤ d := by exact_mod_cast h0
    have hb : 0 ≤ q - v := by
      have : v ≤ q := by rw [hvdef, hq]; exact div_le_div_of_nonneg_right hd1 hu0.le
      linarith
    have hB : MeasurableSet (Set.Ioc (0 : ℝ) (q - v) ×ˢ (Set.univ : Set ℝ)) := measurableSet_Ioc.prod MeasurableSet.univ
    refine le_trans ?_ (at_least hs hB (S := {ω | t.FirstDue (sampledBy C (sample ω))}) ?_)
    · rw [Measure.prod_prod, measure_univ, mul_one]
      have e : Set.Ioc (0 : ℝ) (q - v) = Set.Ioi 0 \ Set.Ioi (q - v) := by ext y; simp
      rw [e, measure_sdiff (Set.Ioi_subset_Ioi hb) measurableSet_Ioi.nullMeasurableSet (measure_ne_top _ _), exp_above le_rfl, exp_above hb,
        ← ENNReal.ofReal_sub _ (Real.exp_pos _).le, neg_zero, Real.exp_zero]
      refine ENNReal.ofReal_le_ofReal ?_
      have e2 : -(q - v) = -q + v := by ring
      rw [e2, Real.exp_add]
      have h6 : Real.exp v ≤ 101 / 100 := by
        have h7 := Real.add_one_le_exp (-v)
        rw [Real.exp_neg] at h7
        have h8 := Real.exp_pos v
        have h9 : (1 - v) * Real.exp v ≤ 1 := by
          have := mul_le_mul_of_nonneg_right h7 h8.le
          rw [inv_mul_cancel₀ h8.ne'] at this
          linarith
        nlinarith
      nlinarith
    · intro ω hω m p₁ p₂ ha
      obtain ⟨e1, -, -, -⟩ := ord ω m p₁ p₂ ha
      have h1 := (held ω).1 hω.1.1.le
      have h2 : min (x ω).1 10 ≤ q - v := le_trans (min_le_left _ _) hω.1.2
      have h3 : (heldFor (sampledBy C (sample ω)) t.config t.seed₁ : ℝ) ≤ d := by
        have := mul_le_mul_of_nonneg_right h2 hu0.le
        rw [sub_mul, hqu, hvu] at this
        linarith [(abs_le.1 h1).2]
      have h4 : heldFor (sampledBy C (sample ω)) t.config t.seed₁ ≤ d := by exact_mod_cast h3
      rw [e1, hd]
      omega
  · have hB := aheadBy_measurable (q + v) (10 - 2 * v) (2 * v - q)
    refine le_trans ?_ (at_least hs hB (S := {ω | t.InOrder (sampledBy C (sample ω))}) ?_)
    · rw [exp_ahead (by linarith) (by linarith) (by linarith)]
      refine ENNReal.ofReal_le_ofReal ?_
      have e1 : Real.exp (-(2 * v - q)) * Real.exp (-2 * (q + v)) = Real.exp (-q) * Real.exp (-(4 * v)) := by
        rw [← Real.exp_add, ← Real.exp_add]; congr 1; ring
      have e2 : Real.exp (-(2 * v - q)) * Real.exp (-2 * (10 - 2 * v)) = Real.exp (-q) * Real.exp (-20 + 2 * v + 2 * q) := by
        rw [← Real.exp_add, ← Real.exp_add]; congr 1; ring
      have h6 : Real.exp (-20 + 2 * v + 2 * q) ≤ Real.exp (-5) := Real.exp_le_exp.2 (by linarith)
      have h7 := Real.add_one_le_exp (-(4 * v))
      rw [mul_sub, e1, e2, ← mul_sub]
      nlinarith
    · intro ω hω m p₁ p₂ ha
      obtain ⟨h1, h2, h3⟩ := hω
      obtain ⟨e1, e2, -, hb⟩ := ord ω m p₁ p₂ ha
      have k1 := abs_le.1 ((held ω).1 (by linarith))
      have k2 := abs_le.1 ((held ω).2 (by linarith))
      have m1 : min (x ω).1 10 = (x ω).1 := min_eq_left (by linarith)
      have m2 : (x ω).1 + (2 * v - q) < min (x ω).2 10 := lt_min h3 (by linarith)
      rw [m1] at k1
      have n1 := mul_lt_mul_of_pos_right h1 hu0
      have n2 := mul_lt_mul_of_pos_right m2 hu0
      have n3 : (q + v) * u = d + 1 := by rw [add_mul, hqu, hvu]
      have n4 : ((x ω).1 + (2 * v - q)) * u = (x ω).1 * u + (2 - d) := by
        rw [add_mul, sub_mul, hqu, mul_assoc, hvu]; ring
      have r1 : (d : ℝ) < heldFor (sampledBy C (sample ω)) t.config t.seed₁ := by linarith [k1.1]
      have r2 : (heldFor (sampledBy C (sample ω)) t.config t.seed₁ : ℝ) < d + heldFor (sampledBy C (sample ω)) t.config t.seed₂ := by
        linarith [k1.2, k2.1]
      have r1' : d < heldFor (sampledBy C (sample ω)) t.config t.seed₁ := by exact_mod_cast r1
      have r2' : heldFor (sampledBy C (sample ω)) t.config t.seed₁ < d + heldFor (sampledBy C (sample ω)) t.config t.seed₂ := by
        exact_mod_cast r2
      refine ⟨by rw [e1, hd]; omega, hb ?_⟩
      rw [e1, e2, hd]
      omega
  · have hB : MeasurableSet (Prod.swap ⁻¹' aheadBy 0 (10 - (q + 2 * v)) (q + 2 * v)) :=
      measurable_swap (aheadBy_measurable _ _ _)
    refine le_trans ?_ (at_least hs hB (S := {ω | t.Overtaken (sampledBy C (sample ω))}) ?_)
    · rw [← Measure.map_apply measurable_swap (aheadBy_measurable _ _ _), Measure.prod_swap,
        exp_ahead le_rfl (by linarith) (by linarith)]
      refine ENNReal.ofReal_le_ofReal ?_
      have e1 : Real.exp (-(q + 2 * v)) * Real.exp (-2 * 0) = Real.exp (-q) * Real.exp (-(2 * v)) := by
        rw [← Real.exp_add, ← Real.exp_add]; congr 1; ring
      have e2 : Real.exp (-(q + 2 * v)) * Real.exp (-2 * (10 - (q + 2 * v))) = Real.exp (-q) * Real.exp (-20 + 2 * v + 2 * q) := by
        rw [← Real.exp_add, ← Real.exp_add]; congr 1; ring
      have h6 : Real.exp (-20 + 2 * v + 2 * q) ≤ Real.exp (-5) := Real.exp_le_exp.2 (by linarith)
      have h7 := Real.add_one_le_exp (-(2 * v))
      rw [mul_sub, e1, e2, ← mul_sub]
      nlinarith
    · intro ω hω m p₁ p₂ ha
      obtain ⟨h1, h2, h3⟩ := hω
      dsimp only [Prod.fst_swap, Prod.snd_swap] at h1 h2 h3
      obtain ⟨e1, e2, hb, -⟩ := ord ω m p₁ p₂ ha
      have k1 := abs_le.1 ((held ω).1 (by linarith))
      have k2 := abs_le.1 ((held ω).2 (by linarith))
      have m1 : min (x ω).2 10 = (x ω).2 := min_eq_left (by linarith)
      have m2 : (x ω).2 + (q + 2 * v) < min (x ω).1 10 := lt_min h3 (by linarith)
      rw [m1] at k2
      have n2 := mul_lt_mul_of_pos_right m2 hu0
      have n4 : ((x ω).2 + (q + 2 * v)) * u = (x ω).2 * u + (d + 2) := by
        rw [add_mul, add_mul, hqu, mul_assoc, hvu]; ring
      have r2 : d + (heldFor (sampledBy C (sample ω)) t.config t.seed₂ : ℝ) < heldFor (sampledBy C (sample ω)) t.config t.seed₁ := by
        linarith [k1.1, k2.2]
      have r2' : d + heldFor (sampledBy C (sample ω)) t.config t.seed₂ < heldFor (sampledBy C (sample ω)) t.config t.seed₁ := by
        exact_mod_cast r2
      refine ⟨by rw [e1, hd]; omega, hb ?_⟩
      rw [e1, e2, hd]
      omega

theorem pops_run (C : Crypto) (n : ℕ) : ∀ m : Node, ∃ outs m', Node.Runs C m (List.replicate n (.popNextForwardPacket 0)) outs m' := by
  induction n with
  | zero => exact fun m => ⟨[], m, .nil m⟩
  | succ n ih =>
    intro m
    obtain ⟨m1, o, hs, -⟩ := (forward_deadline (C := C) m 0).2.2
    obtain ⟨outs, m', h⟩ := ih m1
    exact ⟨_, m', .cons hs h⟩

/-- **C101.** The three cases exclude each other, if the packets arrive as described and the first is not taken from the queue
before the second arrives. -/
theorem cases_exclusive (hC : CryptoLaws C) (hl1 : t.packet₁.length = 2252) (hl2 : t.packet₂.length = 2252) {m : Node}
    {p₁ p₂ : ForwardPacket} (h : t.Arrived C m p₁ p₂) (hp : p₁ ∈ m.forwardPacketQueue.queue) :
    ¬ (t.FirstDue C ∧ t.InOrder C) ∧ ¬ (t.FirstDue C ∧ t.Overtaken C) ∧ ¬ (t.InOrder C ∧ t.Overtaken C) := by
  refine ⟨fun ⟨h1, h2⟩ => absurd (h1 _ _ _ h) (Nat.not_le.2 (h2 _ _ _ h).1),
    fun ⟨h1, h2⟩ => absurd (h1 _ _ _ h) (Nat.not_le.2 (h2 _ _ _ h).1), fun ⟨h1, h2⟩ => ?_⟩
  have h1 := (h1 _ _ _ h).2 hp
  have h2 := (h2 _ _ _ h).2
  have hr : Node.Reachable C t.config m := by
    obtain ⟨m0, out1, m1, calls, outs, m2, out2, hr, hf1, hs1, hw, hruns, hf2, hs2⟩ := h
    exact (reachable_runs hC (hr.step hC (call := .handlePacket t.now₁ t.packet₁) hl1 hs1) hw hruns).step hC
      (call := .handlePacket t.now₂ t.packet₂) hl2 hs2
  obtain ⟨outs, m', hruns⟩ := pops_run C t.config.forwardPacketQueueCapacity m
  have hall : ∀ c ∈ List.replicate t.config.forwardPacketQueueCapacity (Call.popNextForwardPacket 0), c = .popNextForwardPacket 0 :=
    fun c hc => List.eq_of_mem_replicate hc
  have hw : ∀ c ∈ List.replicate t.config.forwardPacketQueueCapacity (Call.popNextForwardPacket 0), c.WellTyped :=
    fun c hc => by rw [hall c hc]; trivial
  obtain ⟨arrived, left, hlog, hmem, -⟩ := leaves_in_time hC hr hw hruns hp
    (fun now packet hc => by have := hall _ hc; cases this)
    (Or.inr (by unfold forwardPops; rw [List.filter_replicate_of_pos rfl, List.length_replicate]))
  obtain ⟨a, b, hnot, hab⟩ := List.eq_append_cons_of_mem hmem |>.imp fun a h => h.imp fun b h => h.symm
  have ha := h2 _ _ _ _ _ hw hlog a b hab
  obtain ⟨a', b', rfl⟩ := List.append_of_mem ha
  exact hnot (List.mem_append_left _ (h1 _ _ _ _ _ hw hlog a' (b' ++ p₁ :: b) (by rw [hab]; simp)))

/-- The samples with which packet `i` of several is next; `g` are the times since their arrivals, `v` is a nanosecond, in multiples of
the mean. -/
def nextRegion {k : ℕ} (i : Fin k) (g : Fin k → ℝ) (v : ℝ) : Set (Fin k → ℝ) :=
  {z | g i + v < z i ∧ z i < 3 + g i - 2 * v ∧ ∀ j, j ≠ i → z i + (g j - g i + 2 * v) < z j}

theorem nextRegion_odds {k : ℕ} (i : Fin k) {g : Fin k → ℝ} {v : ℝ} (hk : 2 ≤ k) (hg : ∀ j, 0 ≤ g j) (hv : 0 < v)
    (hkv : 1000 * k * v ≤ 1) :
    MeasurableSet (nextRegion i g v) ∧ ENNReal.ofReal (98 / 100 / k * Real.exp (-∑ j, g j)) ≤
      (Measure.pi fun _ => expMeasure 1) (nextRegion i g v) := by
  obtain ⟨n, rfl⟩ : ∃ n, k = n + 1 := ⟨k - 1, by omega⟩
  have e : nextRegion i g v = aheadOf i (g i + v) (3 + g i - 2 * v) (fun j => g (i.succAbove j) - g i + 2 * v) := by
    ext z
    refine ⟨fun ⟨h1, h2, h3⟩ => ⟨h1, h2, fun j => h3 _ (Fin.succAbove_ne i j)⟩, fun ⟨h1, h2, h3⟩ => ⟨h1, h2, fun j hj => ?_⟩⟩
    obtain ⟨l, rfl⟩ := Fin.exists_succAbove_eq hj
    exact h3 l
  have hk2 : (2 : ℝ) ≤ ((n + 1 : ℕ) : ℝ) := by exact_mod_cast hk
  have hv1 : v ≤ 1 / 1000 := by nlinarith
  rw [e]
  refine ⟨aheadOf_measurable _ _ _ _, ?_⟩
  rw [exp_first i (by have := hg i; linarith) (fun j => by have := hg (i.succAbove j); linarith) (by linarith)]
  refine ENNReal.ofReal_le_ofReal ?_
  have hsum : ∑ j, (g (i.succAbove j) - g i + 2 * v) = ∑ j, g j - (n + 1 : ℕ) * g i + n * (2 * v) := by
    rw [Fin.sum_univ_succAbove g i, Finset.sum_add_distrib, Finset.sum_sub_distrib, Finset.sum_const, Finset.sum_const, Finset.card_univ,
      Fintype.card_fin, nsmul_eq_mul, nsmul_eq_mul]
    push_cast
    ring
  rw [hsum]
  have e1 : Real.exp (-(∑ j, g j - (n + 1 : ℕ) * g i + n * (2 * v))) * Real.exp (-((n + 1 : ℕ) * (g i + v))) =
      Real.exp (-∑ j, g j) * Real.exp (-(n * (2 * v) + (n + 1 : ℕ) * v)) := by
    rw [← Real.exp_add, ← Real.exp_add]; congr 1; ring
  have e2 : Real.exp (-(∑ j, g j - (n + 1 : ℕ) * g i + n * (2 * v))) * Real.exp (-((n + 1 : ℕ) * (3 + g i - 2 * v))) =
      Real.exp (-∑ j, g j) * Real.exp (-(n * (2 * v) + (n + 1 : ℕ) * (3 - 2 * v))) := by
    rw [← Real.exp_add, ← Real.exp_add]; congr 1; ring
  rw [mul_sub, e1, e2, ← mul_sub]
  have hn0 : (0 : ℝ) ≤ n := Nat.cast_nonneg n
  have hnk : (n : ℝ) ≤ ((n + 1 : ℕ) : ℝ) := by push_cast; linarith
  have b1 : 997 / 1000 ≤ Real.exp (-(n * (2 * v) + (n + 1 : ℕ) * v)) := by
    refine le_trans ?_ (Real.add_one_le_exp _)
    have := mul_le_mul_of_nonneg_right hnk (show 0 ≤ 2 * v by linarith)
    nlinarith
  have b2 : Real.exp (-(n * (2 * v) + (n + 1 : ℕ) * (3 - 2 * v))) ≤ 1 / 100 := by
    refine le_trans (Real.exp_le_exp.2 ?_) exp_five
    have h1 : 0 ≤ (n : ℝ) * (2 * v) := by positivity
    have h2 := mul_le_mul_of_nonneg_right hk2 (show 0 ≤ 3 - 2 * v by linarith)
    linarith
  rw [div_mul_eq_mul_div]
  refine div_le_div_of_nonneg_right ?_ (by linarith)
  rw [mul_comm]
  exact mul_le_mul_of_nonneg_left (by linarith) (Real.exp_pos _).le

/-- **C101** (many packets). At least two packets arrived at a relay, all by time `now`, none more than seven times the mean
forwarding delay `μ` before. With probability almost `1 / k * ∏ exp (-age / μ)`, none of them is due by `now`, and number `i` is the
first of the `k` packets to leave. The product is the probability that none is due, so all are almost equally likely to
be next, no matter when they arrived. -/
theorem next_is_uniform (hC : CryptoLaws C) {config : Config} {as : List Arrival} {now : ℕ} {x : Ω → Fin as.length → ℝ}
    (hl : ∀ a ∈ as, a.packet.length = 2252) (hk : 2 ≤ as.length)
    (hage : ∀ a ∈ as, a.now ≤ now ∧ now ≤ a.now + 7 * config.meanForwardingDelay)
    (hmin : 1000 * as.length ≤ config.meanForwardingDelay) (hmax : 100 * config.meanForwardingDelay ≤ 2 ^ 49)
    (hs : ManySamples P F sample as x) (i : Fin as.length) :
    ENNReal.ofReal (98 / 100 / as.length * Real.exp (-(as.map fun a => ((now - a.now : ℕ) : ℝ) / config.meanForwardingDelay).sum)) ≤
      P {ω | IsNext (sampledBy C (sample ω)) config as now i} := by
  have held : ∀ ω j, 0 ≤ x ω j →
      |(heldFor (sampledBy C (sample ω)) config as[j].seed : ℝ) - min (x ω j) 10 * config.meanForwardingDelay| ≤ 1 :=
    fun ω j h => held_near (sampledBy_delays F (sample ω)) h (hs.near ω j h) hmax
  rw [← Fin.sum_univ_fun_getElem]
  set u : ℝ := (config.meanForwardingDelay : ℝ) with hu
  have hk2 : (2 : ℝ) ≤ as.length := by exact_mod_cast hk
  have hu1 : (1000 * as.length : ℝ) ≤ u := by rw [hu]; exact_mod_cast hmin
  have hu0 : 0 < u := by linarith
  set v : ℝ := 1 / u with hvdef
  have hv0 : 0 < v := one_div_pos.2 hu0
  have hvu : v * u = 1 := by rw [hvdef]; field_simp
  have hkv : 1000 * (as.length : ℝ) * v ≤ 1 := by
    rw [← hvu, mul_comm v u]; exact mul_le_mul_of_nonneg_right hu1 hv0.le
  obtain ⟨g, hg⟩ : ∃ g : Fin as.length → ℝ, ∀ j, g j = ((now - as[j].now : ℕ) : ℝ) / u := ⟨_, fun _ => rfl⟩
  have hgu : ∀ j, g j * u = (now : ℝ) - (as[j].now : ℝ) := fun j => by
    rw [hg, Nat.cast_sub (hage as[j] (List.getElem_mem _)).1]; field_simp
  have hg0 : ∀ j, 0 ≤ g j := fun j => by rw [hg]; exact div_nonneg (Nat.cast_nonneg _) hu0.le
  have hg7 : ∀ j, g j ≤ 7 := fun j => by
    rw [hg]
    refine (div_le_iff₀ hu0).2 ?_
    have := (hage as[j] (List.getElem_mem _)).2
    rw [hu]
    exact_mod_cast (by omega : now - as[j].now ≤ 7 * config.meanForwardingDelay)
  obtain ⟨hB, hodds⟩ := nextRegion_odds i hk hg0 hv0 hkv
  rw [Finset.sum_congr rfl fun j _ => hg j] at hodds
  refine le_trans hodds ?_
  rw [← hs.law, Measure.map_apply hs.measurable hB]
  refine measure_mono fun ω hω => ?_
  obtain ⟨h1, h2, h3⟩ := hω
  have hi7 := hg7 i
  have m1 : min (x ω i) 10 = x ω i := min_eq_left (by linarith)
  have k1 := abs_le.1 (held ω i (by have := hg0 i; linarith))
  rw [m1] at k1
  refine isNext_of_held (sampledBy_laws hC (sample ω)) hl ?_ fun j hj => ?_
  · have n1 := mul_lt_mul_of_pos_right h1 hu0
    rw [add_mul, hgu, hvu] at n1
    have : (now : ℝ) < as[i].now + heldFor (sampledBy C (sample ω)) config as[i].seed := by linarith [k1.1]
    exact_mod_cast this
  · have hj3 := h3 j hj
    have hgj := hg0 j
    have hgj7 := hg7 j
    have k2 := abs_le.1 (held ω j (by linarith))
    have m2 : x ω i + (g j - g i + 2 * v) < min (x ω j) 10 := lt_min hj3 (by linarith)
    have n2 := mul_lt_mul_of_pos_right m2 hu0
    have n4 : (x ω i + (g j - g i + 2 * v)) * u = x ω i * u + ((as[i].now : ℝ) - as[j].now + 2) := by
      rw [add_mul, add_mul, sub_mul, hgu, hgu, mul_assoc, hvu]; ring
    have : (as[i].now : ℝ) + heldFor (sampledBy C (sample ω)) config as[i].seed <
        as[j].now + heldFor (sampledBy C (sample ω)) config as[j].seed := by linarith [k1.2, k2.1]
    exact_mod_cast this

end Mixnet.Props

namespace Mixnet.World
open Spec Props MeasureTheory ProbabilityTheory

/-- The seed for a packet in a node's current session. -/
def seedAt (m : Node) (packet : Bytes) : Bytes :=
  match m.sessions.current with
  | .full s => ((Cd.deriveSecret 1 (s.secretFor Cd packet) .smallDerivedSecrets).drop 48).take 16
  | _ => []

def notFull : SessionSlot → Bool
  | .full _ => false
  | _ => true

theorem seedAt_forwards {m : Node} {now : Nat} {packet : Bytes} {p : ForwardPacket} (h : notFull m.sessions.prev = true)
    (hf : Forwards Cd m now packet p) : ForwardsWith Cd m now packet (seedAt m packet) p := by
  refine ⟨hf, fun rel s out a ha => ?_⟩
  have hs := ha.slot
  unfold seedAt
  cases rel with
  | current =>
    replace hs : m.sessions.current = .full s := hs
    rw [hs]
  | prev =>
    replace hs : m.sessions.prev = .full s := hs
    rw [hs] at h
    cases h

/-- Carol is set up and gets Alice's packet and, five microseconds later, Bob's. -/
def twoAtCarol : Res (Node × Node × Node) := do
  let m ← Node.new Cd (cfg 7)
  let (m, _) ← m.step Cd (.setSessionStatus ⟨0, .requestsToCurrent⟩)
  let (m0, _) ← m.step Cd (.maybeSetMixnodes .current (.ok mixes) rng)
  let (m1, _) ← m0.step Cd (.handlePacket 1000 packet0.packet)
  let (m2, _) ← m1.step Cd (.handlePacket 6000 packet2.packet)
  .ok (m0, m1, m2)

theorem twoAtCarol_ok : ∃ x, twoAtCarol = .ok x ∧ x.1.forwardPacketQueue.queue.length = 0 ∧
    x.2.1.forwardPacketQueue.queue.length = 1 ∧ x.2.2.forwardPacketQueue.queue.length = 2 ∧
    notFull x.1.sessions.prev = true ∧ notFull x.2.1.sessions.prev = true ∧
    seedAt x.1 packet0.packet ++ seedAt x.1 packet0.packet ≠ seedAt x.2.1 packet2.packet ++ seedAt x.2.1 packet2.packet := by
  obtain ⟨x, h1, h2⟩ := Res.of_check (x := twoAtCarol) (p := fun x => decide (x.1.forwardPacketQueue.queue.length = 0 ∧
    x.2.1.forwardPacketQueue.queue.length = 1 ∧ x.2.2.forwardPacketQueue.queue.length = 2 ∧
    notFull x.1.sessions.prev = true ∧ notFull x.2.1.sessions.prev = true ∧
    seedAt x.1 packet0.packet ++ seedAt x.1 packet0.packet ≠ seedAt x.2.1 packet2.packet ++ seedAt x.2.1 packet2.packet))
    (by decide +kernel)
  exact ⟨x, h1, of_decide_eq_true h2⟩

def asDelay (q : Rat) : Cd.Delay := q
theorem asDelay_value (q : Rat) : Cd_delays.value (asDelay q) = q := rfl

attribute [local irreducible] Cd mixes cfg Node.step Node.new seedAt

/-- A fraction close to a number that is not negative. -/
theorem close_rat (r : ℝ) : ∃ q : Rat, 0 ≤ r → |(q : ℝ) - r| ≤ r / 2 ^ 52 := by
  rcases lt_trichotomy r 0 with h | rfl | h
  · exact ⟨0, fun h' => absurd h' (not_le.2 h)⟩
  · exact ⟨0, fun _ => by simp⟩
  · obtain ⟨q, h1, h2⟩ := exists_rat_btwn (show r < r + r / 2 ^ 52 by linarith [show 0 < r / 2 ^ 52 by positivity])
    refine ⟨q, fun _ => ?_⟩
    rw [abs_of_nonneg (by linarith)]
    linarith

theorem step_forwards {m m' : Node} {now : Nat} {packet : Bytes} {out : Outcome} {config : Config} (hr : Node.Reachable Cd config m)
    (hl : packet.length = 2252) (hs : m.step Cd (.handlePacket now packet) = .ok (m', out))
    (hq : m'.forwardPacketQueue.queue.length = m.forwardPacketQueue.queue.length + 1) :
    ∃ p, Forwards Cd m now packet p ∧ m'.forwardPacketQueue.queue = p :: m.forwardPacketQueue.queue := by
  have hI := (hr.inv Cd_laws).1
  have hw : (Call.handlePacket now packet).WellTyped := hl
  rcases forward_step hI (Node.step_cases Cd_laws hI hw hs) with ⟨_, _, p, hcall, hf, h⟩ | ⟨tie, p', hcall, -⟩ | ⟨-, -, -, h⟩
  · cases hcall
    exact ⟨p, hf, h⟩
  · cases hcall
  · rw [h] at hq; omega

/-- Carol gets both packets. -/
theorem carol_gets_two : ∃ m0 o1 m1 o2 m2 p₁ p₂, Node.Reachable Cd (cfg 7) m0 ∧
    ForwardsWith Cd m0 1000 packet0.packet (seedAt m0 packet0.packet) p₁ ∧ m0.step Cd (.handlePacket 1000 packet0.packet) = .ok (m1, o1) ∧
    ForwardsWith Cd m1 6000 packet2.packet (seedAt m1 packet2.packet) p₂ ∧ m1.step Cd (.handlePacket 6000 packet2.packet) = .ok (m2, o2) ∧
    p₁ ∈ m2.forwardPacketQueue.queue ∧ p₂ ∈ m2.forwardPacketQueue.queue ∧
    seedAt m0 packet0.packet ++ seedAt m0 packet0.packet ≠ seedAt m1 packet2.packet ++ seedAt m1 packet2.packet := by
  obtain ⟨⟨m0, m1, m2⟩, h, q0, q1, q2, f0, f1, hne⟩ := twoAtCarol_ok
  unfold twoAtCarol at h
  rw [res_bind_eq_ok] at h
  obtain ⟨n0, hn, h⟩ := h
  rw [res_bind_eq_ok] at h
  obtain ⟨⟨n1, o1⟩, hs1, h⟩ := h
  dsimp only at h
  rw [res_bind_eq_ok] at h
  obtain ⟨⟨n2, o2⟩, hs2, h⟩ := h
  dsimp only at h
  rw [res_bind_eq_ok] at h
  obtain ⟨⟨n3, o3⟩, hs3, h⟩ := h
  dsimp only at h
  rw [res_bind_eq_ok] at h
  obtain ⟨⟨n4, o4⟩, hs4, h⟩ := h
  dsimp only at h
  have h := Except.ok.inj h
  obtain rfl : n2 = m0 := congrArg Prod.fst h
  obtain rfl : n3 = m1 := congrArg (fun z => z.2.1) h
  obtain rfl : n4 = m2 := congrArg (fun z => z.2.2) h
  have r0 : Node.Reachable Cd (cfg 7) n0 := ⟨n0, [], [], hn, fun _ h => (List.not_mem_nil h).elim, .nil _⟩
  have r1 := r0.step Cd_laws (call := .setSessionStatus ⟨0, .requestsToCurrent⟩) trivial hs1
  have r2 := r1.step Cd_laws (setup_typed _ (by simp [setup])) hs2
  have r3 := r2.step Cd_laws (call := .handlePacket 1000 packet0.packet) packet0_length hs3
  dsimp only at q0 q1 q2 f0 f1 hne
  obtain ⟨p₁, w1, e1⟩ := step_forwards r2 packet0_length hs3 (by omega)
  obtain ⟨p₂, w2, e2⟩ := step_forwards r3 packet2_length hs4 (by omega)
  exact ⟨n2, o3, n3, o4, n4, p₁, p₂, r2, seedAt_forwards f0 w1, hs3, seedAt_forwards f1 w2, hs4, by rw [e2, e1]; simp,
    by rw [e2]; simp, hne⟩

theorem cfg_mean : (cfg 7).meanForwardingDelay = 1000000000 := by decide +kernel

/-- The hypotheses of `relay_mixes` and `cases_exclusive` are met: Carol, with both packets in her queue. Since hardly any time has
passed, with probability 0.48 the second leaves first. -/
example : ∃ (t : TwoPackets) (m : Node) (p₁ p₂ : ForwardPacket) (sample : ℝ × ℝ → Bytes → Cd.Delay),
    t.Arrived Cd m p₁ p₂ ∧ p₁ ∈ m.forwardPacketQueue.queue ∧
    RandomSamples ((expMeasure 1).prod (expMeasure 1)) Cd_delays sample t.seed₁ t.seed₂ id ∧
    ENNReal.ofReal (48 / 100) ≤ ((expMeasure 1).prod (expMeasure 1)) {ω | t.Overtaken (sampledBy Cd (sample ω))} := by
  obtain ⟨n2, o3, n3, o4, n4, p₁, p₂, r2, w1, hs3, w2, hs4, hq, -, hne⟩ := carol_gets_two
  classical
  choose close hclose using close_rat
  have hsample : RandomSamples ((expMeasure 1).prod (expMeasure 1)) Cd_delays
      (fun ω seed => asDelay (if seed = seedAt n2 packet0.packet ++ seedAt n2 packet0.packet then close ω.1 else close ω.2))
      (seedAt n2 packet0.packet) (seedAt n3 packet2.packet) id := by
    refine ⟨measurable_id, Measure.map_id, fun ω hω => ?_, fun ω hω => ?_⟩
    · rw [asDelay_value, if_pos rfl]
      exact hclose _ hω
    · rw [asDelay_value, if_neg (Ne.symm hne)]
      exact hclose _ hω
  have hmean := cfg_mean
  refine ⟨⟨cfg 7, 1000, packet0.packet, seedAt n2 packet0.packet, 6000, packet2.packet, seedAt n3 packet2.packet⟩, n4, p₁, p₂, _,
    ⟨n2, o3, n3, [], [], n3, o4, r2, w1, hs3, fun _ h => (List.not_mem_nil h).elim, .nil _,
      w2, hs4⟩, hq, hsample, ?_⟩
  · refine le_trans ?_ (relay_mixes (t := ⟨cfg 7, 1000, packet0.packet, seedAt n2 packet0.packet, 6000, packet2.packet,
      seedAt n3 packet2.packet⟩) Cd_laws packet0_length packet2_length (d := 5000) rfl (by rw [hmean]; norm_num)
      (by rw [hmean]; norm_num) (by rw [hmean]; norm_num) hsample).2.2
    refine ENNReal.ofReal_le_ofReal ?_
    rw [hmean]
    have := Real.add_one_le_exp (-(((5000 : ℕ) : ℝ) / ((1000000000 : ℕ) : ℝ)))
    norm_num at this ⊢
    linarith

/-- The hypotheses of `next_is_uniform` are met: at time 10000, either of the two packets is next with probability 0.48. -/
example : ∃ (as : List Arrival) (m : Node) (ps : List ForwardPacket) (sample : (Fin as.length → ℝ) → Bytes → Cd.Delay),
    as.length = 2 ∧ ArrivedAll Cd (cfg 7) as m ps ∧ (∀ p ∈ ps, p ∈ m.forwardPacketQueue.queue) ∧
    ManySamples (Measure.pi fun _ => expMeasure 1) Cd_delays sample as id ∧
    ∀ i : Fin as.length, ENNReal.ofReal (48 / 100) ≤
      (Measure.pi fun _ => expMeasure 1) {ω | IsNext (sampledBy Cd (sample ω)) (cfg 7) as 10000 i} := by
  obtain ⟨n2, o3, n3, o4, n4, p₁, p₂, r2, w1, hs3, w2, hs4, hq1, hq2, hne⟩ := carol_gets_two
  have hprob : IsProbabilityMeasure (expMeasure 1) := isProbabilityMeasure_expMeasure one_pos
  classical
  choose close hclose using close_rat
  set a1 : Arrival := ⟨1000, packet0.packet, seedAt n2 packet0.packet⟩ with ha1
  set a2 : Arrival := ⟨6000, packet2.packet, seedAt n3 packet2.packet⟩ with ha2
  have hsample : ManySamples (Measure.pi fun _ => expMeasure 1) Cd_delays
      (fun (ω : Fin [a2, a1].length → ℝ) seed => asDelay (if seed = a1.seed ++ a1.seed then close (ω 1) else close (ω 0))) [a2, a1] id := by
    refine ⟨measurable_id, Measure.map_id, fun ω j => ?_⟩
    refine Fin.cases ?_ (fun j => ?_) j
    · intro h
      rw [asDelay_value]
      show |((if a2.seed ++ a2.seed = a1.seed ++ a1.seed then close (ω 1) else close (ω 0) : Rat) : ℝ) - ω 0| ≤ ω 0 / 2 ^ 52
      rw [if_neg (Ne.symm hne)]
      exact hclose _ h
    · refine Fin.cases ?_ (fun j => j.elim0) j
      intro h
      rw [asDelay_value]
      show |((if a1.seed ++ a1.seed = a1.seed ++ a1.seed then close (ω 1) else close (ω 0) : Rat) : ℝ) - ω 1| ≤ ω 1 / 2 ^ 52
      rw [if_pos rfl]
      exact hclose _ h
  refine ⟨[a2, a1], n4, [p₂, p₁], _, rfl, .arrive (.arrive (.start r2) w1 hs3) w2 hs4, ?_, hsample, fun i => ?_⟩
  · intro p hp
    rcases List.mem_cons.1 hp with rfl | hp
    · exact hq2
    · rw [List.mem_singleton.1 hp]; exact hq1
  · refine le_trans ?_ (next_is_uniform (now := 10000) Cd_laws ?_ (by simp) ?_ (by rw [cfg_mean]; simp) (by rw [cfg_mean]; norm_num) hsample i)
    · refine ENNReal.ofReal_le_ofReal ?_
      rw [cfg_mean]
      have h : (([a2, a1].map fun a => ((10000 - a.now : ℕ) : ℝ) / ((1000000000 : ℕ) : ℝ)).sum) ≤ 1 / 1000 := by
        simp only [List.map_cons, List.map_nil, List.sum_cons, List.sum_nil, ha1, ha2]
        norm_num
      have h1 := Real.add_one_le_exp (-([a2, a1].map fun a => ((10000 - a.now : ℕ) : ℝ) / ((1000000000 : ℕ) : ℝ)).sum)
      have h2 : (([a2, a1].length : ℕ) : ℝ) = 2 := by simp
      rw [h2]
      linarith
    · intro a ha
      rcases List.mem_cons.1 ha with rfl | ha
      · exact packet2_length
      · rw [List.mem_singleton.1 ha]; exact packet0_length
    · intro a ha
      rw [cfg_mean]
      rcases List.mem_cons.1 ha with rfl | ha
      · simp [ha2]
      · rw [List.mem_singleton.1 ha]; simp [ha1]

end Mixnet.World
