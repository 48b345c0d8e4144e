import Verif.Proofs.Steady
import Verif.Props.QueueDelay
/-!
# The probability of a turn
-/
namespace Mixnet
open Spec Props MeasureTheory ProbabilityTheory
open scoped ENNReal

instance : IsProbabilityMeasure uniform64 := by unfold uniform64; infer_instance

theorem uniform64_apply (S : Set ℕ) [DecidablePred (· ∈ S)] :
    uniform64 S = ENNReal.ofReal (((Finset.range (2 ^ 64)).filter (· ∈ S)).card / 2 ^ 64) := by
  unfold uniform64
  rw [PMF.toMeasure_uniformOfFinset_apply _ _ (MeasurableSet.of_discrete), Finset.card_range,
    ENNReal.ofReal_div_of_pos (by positivity)]
  congr 1
  · rw [ENNReal.ofReal_natCast]
    congr!
  · rw [ENNReal.ofReal_pow (by norm_num)]
    norm_num

/-- How likely a draw comes out true. -/
theorem chance_measure {p : Rat} (h0 : 0 ≤ p) (h1 : p ≤ 1) : ∃ q : ℝ, (p : ℝ) - 1 / 2 ^ 64 ≤ q ∧ q ≤ p ∧
    uniform64 {x | chance p x = true} = ENNReal.ofReal q ∧ uniform64 {x | chance p x = false} = ENNReal.ofReal (1 - q) := by
  let N : ℕ := ⌊p * 2 ^ 64⌋₊
  have hp : 0 ≤ p * 2 ^ 64 := by positivity
  have hN1 : (N : Rat) ≤ p * 2 ^ 64 := Nat.floor_le hp
  have hN2 : p * 2 ^ 64 < N + 1 := Nat.lt_floor_add_one _
  have hN : N ≤ 2 ^ 64 := by
    have : (N : Rat) ≤ ((2 ^ 64 : ℕ) : Rat) := by push_cast; linarith
    exact_mod_cast this
  have hset : (Finset.range (2 ^ 64)).filter (· ∈ {x | chance p x = true}) = Finset.range N := by
    ext x
    simp only [Finset.mem_filter, Finset.mem_range, Set.mem_setOf_eq]
    unfold chance
    rw [decide_eq_true_eq]
    constructor
    · rintro ⟨hx, h⟩
      rw [Nat.mod_eq_of_lt hx] at h
      have : (x + 1 : ℕ) ≤ N := Nat.le_floor (by push_cast; exact h)
      omega
    · intro hx
      have hx' : x < 2 ^ 64 := by omega
      refine ⟨hx', ?_⟩
      rw [Nat.mod_eq_of_lt hx']
      have : ((x + 1 : ℕ) : Rat) ≤ N := by exact_mod_cast hx
      push_cast at this
      linarith
  have e1 : uniform64 {x | chance p x = true} = ENNReal.ofReal (N / 2 ^ 64) := by
    rw [uniform64_apply, hset, Finset.card_range]
  have r1 : (N : ℝ) ≤ p * 2 ^ 64 := by exact_mod_cast hN1
  have r2 : (p : ℝ) * 2 ^ 64 < N + 1 := by exact_mod_cast hN2
  refine ⟨N / 2 ^ 64, ?_, ?_, e1, ?_⟩
  · rw [le_div_iff₀ (by positivity), sub_mul, div_mul_cancel₀ _ (by positivity)]
    linarith
  · rw [div_le_iff₀ (by positivity)]; exact r1
  · have : {x | chance p x = false} = {x | chance p x = true}ᶜ := by
      ext x; simp
    rw [this, prob_compl_eq_one_sub MeasurableSet.of_discrete, e1, ENNReal.ofReal_sub _ (by positivity), ENNReal.ofReal_one]

variable {C : Crypto} {config : Config} {m : Node}

/-- Only the first two draws matter. -/
def pair (d : ℕ × ℕ) : Rng := fun k => if k = 0 then d.1 else d.2

theorem turn_pair {i : Nat} {rng : Rng} : Turn m i rng ↔ Turn m i (pair (rng 0, rng 1)) := by
  unfold Turn
  have h : ∀ rng, ∀ x ∈ sessionDrawn m rng, x.2 = 0 ∨ x.2 = 1 := by
    intro rng x hx
    unfold sessionDrawn at hx
    split at hx <;> cases hx <;> simp
  have e : sessionDrawn m (pair (rng 0, rng 1)) = sessionDrawn m rng := rfl
  rw [e]
  refine exists_congr fun k => and_congr_right fun hk => ?_
  rcases h rng _ hk with h0 | h0 <;> dsimp only at h0 <;> subst h0 <;> rfl

theorem prod_le {a b : ℝ} (ha : 0 ≤ a) {A B : Set ℕ} {S : Set (ℕ × ℕ)} (h1 : ENNReal.ofReal a ≤ uniform64 A)
    (h2 : ENNReal.ofReal b ≤ uniform64 B) (hS : ∀ d, d.1 ∈ A → d.2 ∈ B → d ∈ S) :
    ENNReal.ofReal (a * b) ≤ (uniform64.prod uniform64) S := by
  rw [ENNReal.ofReal_mul ha]
  calc _ ≤ uniform64 A * uniform64 B := mul_le_mul' h1 h2
    _ = (uniform64.prod uniform64) (A ×ˢ B) := (Measure.prod_prod A B).symm
    _ ≤ _ := measure_mono fun d hd => hS d hd.1 hd.2

/-- A bound of the probability of a turn of session `i`, and the rate of the node. -/
theorem turn_share (hC : CryptoLaws C) (hs : Sane config) (hr : Node.Reachable C config m) {i : Nat} {s : Session}
    (hat : m.sessionAt i = some s) (h1 : ¬ NoLonger m.sessionStatus i) (h2 : ¬ NotYet m.sessionStatus i)
    (hratio : ∀ j t, m.sessionAt j = some t → s.meanAuthoredPacketPeriod ≤ 10 ^ 6 * t.meanAuthoredPacketPeriod) :
    ∃ (mean : Rat) (share : ℝ), m.meanAuthoredPacketPeriod = .ok (some mean) ∧ 0 < mean ∧ 0 < share ∧
      (mean : ℝ) ≤ share * (meanPerPacket config.loopCoverProportion s.meanAuthoredPacketPeriod * (1 + 1 / 2 ^ 43)) ∧
      ENNReal.ofReal share ≤ (uniform64.prod uniform64) {d | Turn m i (pair d)} := by
  obtain ⟨hI, hcfg⟩ := hr.inv hC
  have hl0 := hs.loops.1
  have hl1 := hs.loops.2
  obtain ⟨ql, -, ql1, -, qle⟩ := chance_measure hl0 hl1.le
  have hrl0 : (0 : ℝ) ≤ (config.loopCoverProportion : ℝ) := by exact_mod_cast hl0
  have hrl1 : (config.loopCoverProportion : ℝ) < 1 := by exact_mod_cast hl1
  set l : ℝ := (config.loopCoverProportion : ℝ) with hl
  have h1l : 0 < 1 - l := by linarith
  have hloop : ENNReal.ofReal (1 - l) ≤ uniform64 {x | chance config.loopCoverProportion x = false} := by
    rw [qle]; exact ENNReal.ofReal_le_ofReal (by linarith)
  have huniv : ENNReal.ofReal 1 ≤ uniform64 Set.univ := by rw [measure_univ]; simp
  have hps := session_period hs hI hcfg hat
  have hpsR : (0 : ℝ) < s.meanAuthoredPacketPeriod := by exact_mod_cast hps
  obtain ⟨-, mp1, mp2⟩ := mean_period hC hr
  have hmpp : ∀ c : ℝ, c * ((1 - l) * meanPerPacket l s.meanAuthoredPacketPeriod) = c * (2 * s.meanAuthoredPacketPeriod) := by
    intro c
    unfold meanPerPacket
    field_simp
    norm_num
    ring
  have hmpos : 0 < meanPerPacket l s.meanAuthoredPacketPeriod := div_pos hpsR (rate_pos hrl1)
  -- one session
  have single : (currentSession m = some s ∧ previousSession m = none ∨ currentSession m = none ∧ previousSession m = some s) →
      (∀ rng, sessionDrawn m rng = some (i, 0)) →
      ∃ (mean : Rat) (share : ℝ), m.meanAuthoredPacketPeriod = .ok (some mean) ∧ 0 < mean ∧ 0 < share ∧
      (mean : ℝ) ≤ share * (meanPerPacket l s.meanAuthoredPacketPeriod * (1 + 1 / 2 ^ 43)) ∧
      ENNReal.ofReal share ≤ (uniform64.prod uniform64) {d | Turn m i (pair d)} := by
    intro hc hd
    refine ⟨_, 1 - l, mp1 s hc, ?_, h1l, ?_, ?_⟩
    · split <;> linarith
    · have e : (1 - l) * (meanPerPacket l s.meanAuthoredPacketPeriod * (1 + 1 / 2 ^ 43)) =
          (1 + 1 / 2 ^ 43) * (2 * s.meanAuthoredPacketPeriod) := by rw [← hmpp]; ring
      rw [e]
      split
      · push_cast; linarith
      · push_cast; linarith
    · have := prod_le h1l.le hloop huniv (S := {d | Turn m i (pair d)}) (fun d hd1 _ =>
        ⟨0, hd _, by rw [hcfg]; exact hd1, h1, h2⟩)
      rwa [mul_one] at this
  have hi : i = m.sessionStatus.currentIndex ∨ i + 1 = m.sessionStatus.currentIndex := by
    unfold Node.sessionAt at hat
    by_cases c1 : i = m.sessionStatus.currentIndex
    · exact .inl c1
    · rw [if_neg c1] at hat
      by_cases c2 : i + 1 = m.sessionStatus.currentIndex
      · exact .inr c2
      · rw [if_neg c2] at hat; cases hat
  have hprev : ∀ j, j + 1 = m.sessionStatus.currentIndex → previousSession m = m.sessionAt j := by
    intro j hj
    unfold previousSession
    split
    · omega
    · rename_i k hk
      rw [show k = j by omega]
  -- two sessions
  have double : ∀ a b, currentSession m = some a → previousSession m = some b →
      ∃ mean : Rat, m.meanAuthoredPacketPeriod = .ok (some mean) ∧ 0 < mean ∧ (0 : ℝ) < a.meanAuthoredPacketPeriod ∧
        (0 : ℝ) < b.meanAuthoredPacketPeriod ∧
        (mean : ℝ) = 2 * a.meanAuthoredPacketPeriod * (b.meanAuthoredPacketPeriod /
          (a.meanAuthoredPacketPeriod + b.meanAuthoredPacketPeriod)) ∧
        ∃ q : ℝ, (b.meanAuthoredPacketPeriod : ℝ) / (a.meanAuthoredPacketPeriod + b.meanAuthoredPacketPeriod) - 1 / 2 ^ 64 ≤ q ∧
          q ≤ (b.meanAuthoredPacketPeriod : ℝ) / (a.meanAuthoredPacketPeriod + b.meanAuthoredPacketPeriod) ∧
          uniform64 {x | chance ((b.meanAuthoredPacketPeriod : Rat) / (a.meanAuthoredPacketPeriod + b.meanAuthoredPacketPeriod)) x
            = true} = ENNReal.ofReal q ∧
          uniform64 {x | chance ((b.meanAuthoredPacketPeriod : Rat) / (a.meanAuthoredPacketPeriod + b.meanAuthoredPacketPeriod)) x
            = false} = ENNReal.ofReal (1 - q) := by
    intro a b ha hb
    have pa : (0 : Rat) < a.meanAuthoredPacketPeriod := session_period hs hI hcfg (i := m.sessionStatus.currentIndex) ha
    have pb : (0 : Rat) < b.meanAuthoredPacketPeriod := by
      unfold previousSession at hb
      split at hb
      · cases hb
      · exact session_period hs hI hcfg hb
    obtain ⟨mean, e1, e2, e3⟩ := mp2 a b ha hb (by exact_mod_cast pa) (by exact_mod_cast pb)
    have paR : (0 : ℝ) < a.meanAuthoredPacketPeriod := by exact_mod_cast pa
    have pbR : (0 : ℝ) < b.meanAuthoredPacketPeriod := by exact_mod_cast pb
    obtain ⟨q, c1, c2, c3, c4⟩ := chance_measure
      (p := (b.meanAuthoredPacketPeriod : Rat) / (a.meanAuthoredPacketPeriod + b.meanAuthoredPacketPeriod))
      (by positivity) (by rw [div_le_one (by positivity)]; linarith)
    push_cast at c1 c2
    refine ⟨mean, e1, e2, paR, pbR, ?_, q, c1, c2, c3, c4⟩
    have e4 : mean = 2 * a.meanAuthoredPacketPeriod * ((b.meanAuthoredPacketPeriod : Rat) /
          (a.meanAuthoredPacketPeriod + b.meanAuthoredPacketPeriod)) := by
      have hm : mean ≠ 0 := ne_of_gt e2
      unfold rate at e3
      field_simp at e3 ⊢
      linarith
    rw [e4]
    push_cast
    rfl
  rcases hi with hi | hi
  · have hcur : currentSession m = some s := by unfold currentSession; rw [← hi]; exact hat
    cases hp : previousSession m with
    | none => exact single (.inl ⟨hcur, hp⟩) (fun rng => by unfold sessionDrawn; rw [hcur, hp, hi])
    | some b =>
      obtain ⟨mean, e1, e2, pa, pb, e3, q, c1, -, c3, -⟩ := double s b hcur hp
      have hrb : (s.meanAuthoredPacketPeriod : ℝ) ≤ 10 ^ 6 * b.meanAuthoredPacketPeriod := by
        unfold previousSession at hp
        split at hp
        · cases hp
        · exact_mod_cast hratio _ b hp
      set sh : ℝ := (b.meanAuthoredPacketPeriod : ℝ) / (s.meanAuthoredPacketPeriod + b.meanAuthoredPacketPeriod) with hsh
      have hsh0 : 1 / 2 ^ 20 ≤ sh := by
        rw [hsh, div_le_div_iff₀ (by positivity) (by positivity)]
        have : (10 : ℝ) ^ 6 + 1 ≤ 2 ^ 20 := by norm_num
        nlinarith
      have hpos : 0 < sh - 1 / 2 ^ 64 := by
        have : (1 : ℝ) / 2 ^ 64 < 1 / 2 ^ 20 := by norm_num
        linarith
      refine ⟨mean, (sh - 1 / 2 ^ 64) * (1 - l), e1, e2, mul_pos hpos h1l, ?_, ?_⟩
      · have e : (sh - 1 / 2 ^ 64) * (1 - l) * (meanPerPacket l s.meanAuthoredPacketPeriod * (1 + 1 / 2 ^ 43)) =
            (sh - 1 / 2 ^ 64) * (1 + 1 / 2 ^ 43) * (2 * s.meanAuthoredPacketPeriod) := by rw [← hmpp]; ring
        rw [e, e3, mul_comm]
        refine mul_le_mul_of_nonneg_right ?_ (by positivity)
        have k1 : (1 : ℝ) / 2 ^ 64 * (1 + 1 / 2 ^ 43) ≤ 1 / 2 ^ 20 * (1 / 2 ^ 43) := by norm_num
        have k2 : (1 : ℝ) / 2 ^ 20 * (1 / 2 ^ 43) ≤ sh * (1 / 2 ^ 43) := mul_le_mul_of_nonneg_right hsh0 (by positivity)
        linarith
      · refine prod_le hpos.le (A := {x | chance _ x = true}) (c3 ▸ ENNReal.ofReal_le_ofReal c1) hloop (fun d hd1 hd2 => ⟨1, ?_, ?_, h1, h2⟩)
        · unfold sessionDrawn
          rw [hcur, hp]
          dsimp only
          rw [if_pos (show chance _ (pair d 0) = true from hd1), hi]
        · rw [hcfg]; exact hd2
  · have hpre : previousSession m = some s := by rw [hprev i hi]; exact hat
    have hidx : m.sessionStatus.currentIndex - 1 = i := by omega
    cases hc : currentSession m with
    | none => exact single (.inr ⟨hc, hpre⟩) (fun rng => by unfold sessionDrawn; rw [hc, hpre, hidx])
    | some a =>
      obtain ⟨mean, e1, e2, pa, pb, e3, q, -, c2, -, c4⟩ := double a s hc hpre
      set sh : ℝ := (s.meanAuthoredPacketPeriod : ℝ) / (a.meanAuthoredPacketPeriod + s.meanAuthoredPacketPeriod) with hsh
      have hsh1 : 1 - sh = a.meanAuthoredPacketPeriod / (a.meanAuthoredPacketPeriod + s.meanAuthoredPacketPeriod) := by
        rw [hsh]; field_simp; ring
      have hpos : 0 < 1 - sh := by rw [hsh1]; positivity
      refine ⟨mean, (1 - sh) * (1 - l), e1, e2, mul_pos hpos h1l, ?_, ?_⟩
      · have e : (1 - sh) * (1 - l) * (meanPerPacket l s.meanAuthoredPacketPeriod * (1 + 1 / 2 ^ 43)) =
            (1 - sh) * (1 + 1 / 2 ^ 43) * (2 * s.meanAuthoredPacketPeriod) := by rw [← hmpp]; ring
        have e4 : (mean : ℝ) = (1 - sh) * (2 * s.meanAuthoredPacketPeriod) := by rw [e3, hsh1, hsh]; ring
        rw [e, e4]
        refine mul_le_mul_of_nonneg_right ?_ (by positivity)
        nlinarith
      · have hle : ENNReal.ofReal (1 - sh) ≤ ENNReal.ofReal (1 - q) := ENNReal.ofReal_le_ofReal (by linarith)
        rw [← c4] at hle
        refine prod_le hpos.le hle hloop
          (fun d hd1 hd2 => ⟨1, ?_, ?_, h1, h2⟩)
        · unfold sessionDrawn
          rw [hc, hpre]
          dsimp only
          rw [if_neg (by rw [show chance _ (pair d 0) = false from hd1]; exact Bool.false_ne_true), hidx]
        · rw [hcfg]; exact hd2

/-- The draws of a node make random turns. -/
theorem random_turns {Ω : Type*} [MeasurableSpace Ω] {P : Measure Ω} {x : ℕ → Ω → ℝ} {rngs : ℕ → Ω → Rng}
    (hd : RandomDraws P x rngs) {i : Nat} {share : ℝ}
    (hshare : ENNReal.ofReal share ≤ (uniform64.prod uniform64) {d | Turn m i (pair d)})
    [DecidablePred (Turn m i)] :
    RandomTurns P share fun k ω => (x k ω, decide (Turn m i (rngs k ω))) := by
  have : IsProbabilityMeasure (expMeasure 1) := isProbabilityMeasure_expMeasure one_pos
  let f : ℕ × ℕ → Bool := fun d => decide (Turn m i (pair d))
  have hf : Measurable f := measurable_of_countable f
  have hg : Measurable (Prod.map (id : ℝ → ℝ) f) := measurable_id.prodMap hf
  have hz : (fun k ω => (x k ω, decide (Turn m i (rngs k ω)))) =
      fun k => Prod.map (id : ℝ → ℝ) f ∘ fun ω => (x k ω, rngs k ω 0, rngs k ω 1) := by
    funext k ω
    simp only [Function.comp, Prod.map, id, f]
    congr 1
    exact decide_eq_decide.2 turn_pair
  rw [hz]
  refine ⟨fun k => hg.comp (hd.measurable k), hd.independent.comp _ fun _ => hg, fun k => ?_⟩
  refine ⟨(uniform64.prod uniform64).map f, Measure.isProbabilityMeasure_map hf.aemeasurable, ?_, ?_⟩
  · rw [Measure.map_apply hf (measurableSet_singleton true)]
    have : f ⁻¹' {true} = {d | Turn m i (pair d)} := by ext d; simp [f]
    rw [this]; exact hshare
  · rw [← Measure.map_map hg (hd.measurable k), hd.law k]
    rw [← Measure.map_prod_map _ _ measurable_id hf, Measure.map_id]

end Mixnet
