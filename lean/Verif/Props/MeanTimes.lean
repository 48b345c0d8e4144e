import Verif.Props.Mixing
import Verif.Props.SendingF64
/-!
# C102: delays and waits are exponential with the configured means
-/
namespace Mixnet.Props
open Mixnet Spec MeasureTheory ProbabilityTheory

variable {C : Crypto} {Ω : Type*} [MeasurableSpace Ω] {P : Measure Ω} {x : Ω → ℝ}

theorem sample_above (hx : Measurable x) (hlaw : P.map x = expMeasure 1) {t : ℝ} (ht : 0 ≤ t) {S : Set Ω} (hS : ∀ ω, t < x ω → ω ∈ S) :
    ENNReal.ofReal (Real.exp (-t)) ≤ P S := by
  rw [← exp_above ht, ← hlaw, Measure.map_apply hx measurableSet_Ioi]
  exact measure_mono hS

theorem sample_below (hx : Measurable x) (hlaw : P.map x = expMeasure 1) {t : ℝ} (ht : 0 ≤ t) {S : Set Ω}
    (hS : ∀ ω, 0 < x ω → x ω ≤ t → ω ∈ S) : ENNReal.ofReal (1 - Real.exp (-t)) ≤ P S := by
  have : IsProbabilityMeasure (expMeasure 1) := isProbabilityMeasure_expMeasure one_pos
  have e : Set.Ioc (0 : ℝ) t = Set.Ioi 0 \ Set.Ioi t := by ext y; simp
  have h : expMeasure 1 (Set.Ioc 0 t) = ENNReal.ofReal (1 - Real.exp (-t)) := by
    rw [e, measure_sdiff (Set.Ioi_subset_Ioi ht) measurableSet_Ioi.nullMeasurableSet (measure_ne_top _ _), exp_above le_rfl, exp_above ht,
      ← ENNReal.ofReal_sub _ (Real.exp_pos _).le, neg_zero, Real.exp_zero]
  rw [← h, ← hlaw, Measure.map_apply hx measurableSet_Ioc]
  exact measure_mono fun ω hω => hS ω hω.1 hω.2

/-- **C102** (forwarding). The time for which relays hold a packet depends on nothing but its seed, and if the sample is
exponential, so is this time, but for the cap: its mean is the configured mean forwarding delay `μ`, less the part
`exp (-10)`, to within a nanosecond; it exceeds `t` with probability `exp (-t / μ)`, to within a nanosecond in `t`. -/
theorem holding_time (hC : CryptoLaws C) {F : F64Delays C} {sample : Ω → Bytes → C.Delay} {config : Config} {seed : Bytes}
    (hmin : 0 < config.meanForwardingDelay) (hmax : 100 * config.meanForwardingDelay ≤ 2 ^ 49)
    (hs : OneSample P (fun ω => (F.value (sample ω (seed ++ seed)) : ℝ)) x) :
    ∃ held : Ω → ℕ, (∀ ω m now packet p, packet.length = 2252 → Node.Reachable (sampledBy C (sample ω)) config m →
        ForwardsWith (sampledBy C (sample ω)) m now packet seed p → p.deadline = now + held ω) ∧
      ENNReal.ofReal (config.meanForwardingDelay * (1 - Real.exp (-10)) - 1) ≤ ∫⁻ ω, (held ω : ENNReal) ∂P ∧
      ∫⁻ ω, (held ω : ENNReal) ∂P ≤ ENNReal.ofReal (config.meanForwardingDelay * (1 - Real.exp (-10)) + 1) ∧
      (∀ t : ℕ, t + 1 < 10 * config.meanForwardingDelay →
        ENNReal.ofReal (Real.exp (-((t + 1) / config.meanForwardingDelay))) ≤ P {ω | t < held ω}) ∧
      (∀ t : ℕ, 1 ≤ t → ENNReal.ofReal (1 - Real.exp (-((t - 1) / config.meanForwardingDelay))) ≤ P {ω | held ω ≤ t}) := by
  have near : ∀ ω, 0 ≤ x ω →
      |(heldFor (sampledBy C (sample ω)) config seed : ℝ) - min (x ω) 10 * config.meanForwardingDelay| ≤ 1 :=
    fun ω h => held_near (sampledBy_delays F (sample ω)) h (hs.near ω h) hmax
  obtain ⟨m1, m2⟩ := mean_near hs.measurable hs.law (f := fun ω => (heldFor (sampledBy C (sample ω)) config seed : ℝ))
    (Nat.cast_nonneg config.meanForwardingDelay) zero_le_one near
  have e : ∀ ω, ENNReal.ofReal (heldFor (sampledBy C (sample ω)) config seed : ℝ) = (heldFor (sampledBy C (sample ω)) config seed : ENNReal) :=
    fun ω => ENNReal.ofReal_natCast _
  rw [lintegral_congr e] at m1 m2
  have hu0 : (0 : ℝ) < config.meanForwardingDelay := by exact_mod_cast hmin
  refine ⟨fun ω => heldFor (sampledBy C (sample ω)) config seed, fun ω m now packet p hl hr hf =>
    deadline_of_seed (sampledBy_laws hC (sample ω)) hr hl hf, m1, m2, fun t ht => ?_, fun t ht => ?_⟩
  · have ht' : ((t : ℝ) + 1) / config.meanForwardingDelay < 10 := (div_lt_iff₀ hu0).2 (by exact_mod_cast ht)
    have ht0 : 0 ≤ ((t : ℝ) + 1) / config.meanForwardingDelay := by positivity
    refine sample_above hs.measurable hs.law ht0 fun ω hω => ?_
    have h1 := (abs_le.1 (near ω (by linarith))).1
    have h2 := (div_lt_iff₀ hu0).1 (lt_min hω ht')
    have : (t : ℝ) < heldFor (sampledBy C (sample ω)) config seed := by linarith
    exact_mod_cast this
  · have ht1 : (1 : ℝ) ≤ t := by exact_mod_cast ht
    refine sample_below hs.measurable hs.law (div_nonneg (by linarith) hu0.le) fun ω h0 hω => ?_
    have h1 := (abs_le.1 (near ω h0.le)).2
    have h2 := (le_div_iff₀ hu0).1 (le_trans (min_le_left (x ω) 10) hω)
    have : (heldFor (sampledBy C (sample ω)) config seed : ℝ) ≤ t := by linarith
    exact_mod_cast this

/-- **C102** (sending). The wait before the next opportunity to send, as `next_authored_packet_delay` returns it, has as its mean the
mean period of C51, less the part `exp (-10)`. -/
theorem waiting_time {m : Node} {mean : Rat} (hm : m.meanAuthoredPacketPeriod = .ok (some mean)) (h0 : 0 ≤ mean) {e : Ω → Rat}
    (he : ∀ ω, 0 ≤ e ω) (hs : OneSample P (fun ω => (e ω : ℝ)) x) :
    ∃ wait : Ω → Rat, (∀ ω, m.nextAuthoredPacketDelay (e ω) = .ok (some (wait ω))) ∧
      ENNReal.ofReal (mean * (1 - Real.exp (-10)) - mean / 2 ^ 48) ≤ ∫⁻ ω, ENNReal.ofReal (wait ω : ℝ) ∂P ∧
      ∫⁻ ω, ENNReal.ofReal (wait ω : ℝ) ∂P ≤ ENNReal.ofReal (mean * (1 - Real.exp (-10)) + mean / 2 ^ 48) := by
  choose d hd using fun ω => delay_capped hm h0 (he ω)
  have hm0 : (0 : ℝ) ≤ mean := by exact_mod_cast h0
  refine ⟨d, fun ω => (hd ω).1, mean_near hs.measurable hs.law hm0 (by positivity) fun ω hω => ?_⟩
  obtain ⟨-, -, -, h1, h2⟩ := hd ω
  have e1 : (d ω : ℝ) = min (e ω : ℝ) 10 * mean := by
    rcases le_total (e ω) 10 with h | h
    · rw [h1 h, min_eq_left (by exact_mod_cast h)]; push_cast; ring
    · rw [h2 h, min_eq_right (by exact_mod_cast h)]; push_cast; ring
  rw [e1, ← sub_mul, abs_mul, abs_of_nonneg hm0]
  refine le_trans (mul_le_mul_of_nonneg_right (min_near hω (hs.near ω hω)) hm0) ?_
  have : (11 / 2 ^ 52 : ℝ) * mean ≤ (1 / 2 ^ 48) * mean := mul_le_mul_of_nonneg_right (by norm_num) hm0
  linarith

end Mixnet.Props

namespace Mixnet.World
open Spec Props MeasureTheory ProbabilityTheory

theorem close_rat_nonneg (r : ℝ) : ∃ q : Rat, 0 ≤ q ∧ (0 ≤ r → |(q : ℝ) - r| ≤ r / 2 ^ 52) := by
  by_cases h : 0 ≤ r
  · obtain ⟨q, hq⟩ := close_rat r
    refine ⟨q, ?_, hq⟩
    have h1 := (abs_le.1 (hq h)).1
    have : r / 2 ^ 52 ≤ r := div_le_self h (by norm_num)
    have : (0 : ℝ) ≤ q := by linarith
    exact_mod_cast this
  · exact ⟨0, le_rfl, fun h' => absurd h' h⟩

/-- The hypotheses of `holding_time` are met: Carol gets a packet from Alice. With mean a second, she holds it for 0.9999 s on average. -/
example : ∃ m packet seed p, ForwardsWith Cd m 1000 packet seed p ∧ packet.length = 2252 ∧ Node.Reachable Cd (cfg 7) m ∧
    ∃ (sample : ℝ → Bytes → Cd.Delay) (held : ℝ → ℕ), OneSample (expMeasure 1) (fun ω => (Cd_delays.value (sample ω (seed ++ seed)) : ℝ)) id ∧
      (∀ ω m now packet p, packet.length = 2252 → Node.Reachable (sampledBy Cd (sample ω)) (cfg 7) m →
        ForwardsWith (sampledBy Cd (sample ω)) m now packet seed p → p.deadline = now + held ω) ∧
      ENNReal.ofReal (1000000000 * (1 - Real.exp (-10)) - 1) ≤ ∫⁻ ω, (held ω : ENNReal) ∂(expMeasure 1) := by
  obtain ⟨n2, o3, n3, o4, n4, p₁, p₂, r2, w1, hs3, w2, hs4, hq1, hq2, hne⟩ := carol_gets_two
  choose close hclose using close_rat
  have hs : OneSample (expMeasure 1) (fun ω : ℝ => (Cd_delays.value ((fun ω _ => asDelay (close ω)) ω
      (seedAt n2 packet0.packet ++ seedAt n2 packet0.packet)) : ℝ)) id := ⟨measurable_id, Measure.map_id, fun ω h => hclose ω h⟩
  obtain ⟨held, h1, h2, -⟩ := holding_time (sample := fun ω _ => asDelay (close ω)) (F := Cd_delays) (config := cfg 7) Cd_laws
    (by rw [cfg_mean]; norm_num) (by rw [cfg_mean]; norm_num) hs
  rw [cfg_mean] at h2
  refine ⟨n2, packet0.packet, _, p₁, w1, packet0_length, r2, _, held, hs, h1, ?_⟩
  convert h2 using 3
  norm_num

theorem two_mean : two.meanAuthoredPacketPeriod = .ok (some (2000000000 / 11)) := by
  have h : (match two.meanAuthoredPacketPeriod with
    | .ok (some x) => decide (x = 2000000000 / 11)
    | _ => false) = true := by decide +kernel
  generalize two.meanAuthoredPacketPeriod = y at *
  match y, h with
  | .ok (some x), h => rw [of_decide_eq_true h]

/-- The hypotheses of `waiting_time` are met: with two sessions, the waits are two elevenths of a second on average. -/
example : ∃ (e wait : ℝ → Rat), OneSample (expMeasure 1) (fun ω => (e ω : ℝ)) id ∧
    (∀ ω, two.nextAuthoredPacketDelay (e ω) = .ok (some (wait ω))) ∧
    ∫⁻ ω, ENNReal.ofReal (wait ω : ℝ) ∂(expMeasure 1) ≤ ENNReal.ofReal 181818182 := by
  choose close h0 hclose using close_rat_nonneg
  have hs : OneSample (expMeasure 1) (fun ω : ℝ => (close ω : ℝ)) id := ⟨measurable_id, Measure.map_id, fun ω h => hclose ω h⟩
  obtain ⟨wait, h1, -, h2⟩ := waiting_time two_mean (by norm_num) h0 hs
  refine ⟨close, wait, hs, h1, le_trans h2 (ENNReal.ofReal_le_ofReal ?_)⟩
  have := Real.exp_pos (-10)
  push_cast
  norm_num
  linarith

end Mixnet.World
