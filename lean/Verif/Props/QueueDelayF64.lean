import Verif.Props.QueueDelay
import Verif.Props.Primitives
import Verif.Proofs.Binary64
/-!
# C86: the estimate of the time spent in queues, as computed in `f64` arithmetic
-/
namespace Mixnet.Props
open Mixnet Spec

noncomputable section

/-- The rounding error of one `f64` operation, relative to the result. -/
def ulp : ℝ := 1 / 2 ^ 53

theorem ulp_eq : Binary64.ulp = ulp := rfl

variable {p : Rat} {a b n m : ℕ}

theorem real_le (hp : p ≤ 1 - 1 / 2 ^ 53) : (p : ℝ) ≤ 1 - 1 / 2 ^ 53 := by
  have := (Rat.cast_le (K := ℝ)).2 hp
  push_cast at this
  exact this

theorem share_lt (hp : p ≤ 1 - 1 / 2 ^ 53) : (p : ℝ) < 1 := by
  have := real_le hp
  have h : (0 : ℝ) < 1 / 2 ^ 53 := by positivity
  linarith

/-- The mean interval between two packets of a queue, as the code computes it: in nanoseconds. -/
def computedInterval (p : Rat) (period : ℕ) : ℕ := Binary64.divDuration period (Binary64.rateMul p)

/-- **C86** (interval). The mean interval between two packets taken from a queue is computed to the nearest nanosecond, but for
six rounding errors. -/
theorem interval_close (hp0 : 0 ≤ p) (hp : p ≤ 1 - 1 / 2 ^ 53) (a : ℕ) :
    |(computedInterval p a : ℝ) - meanPerPacket p a| ≤ 6 * ulp * meanPerPacket p a + 1 / 2 :=
  Binary64.divDuration_error hp0 (real_le hp) a

theorem interval_mono (hp : p ≤ 1 - 1 / 2 ^ 53) (h : a ≤ b) (hb : b < 2 ^ 53 * 10 ^ 9) : computedInterval p a ≤ computedInterval p b := by
  refine Binary64.divDuration_mono ?_ h hb
  have := (Binary64.rateMul_rel (real_le hp)).pos (rate_pos (share_lt hp))
  exact_mod_cast this

theorem mean_ge (hp0 : 0 ≤ p) (hp : p ≤ 1 - 1 / 2 ^ 53) (a : ℕ) : 2 * (a : ℝ) ≤ meanPerPacket p a := by
  have hp0' : (0 : ℝ) ≤ p := by exact_mod_cast hp0
  unfold meanPerPacket
  rw [le_div_iff₀ (rate_pos (share_lt hp))]
  have : (0 : ℝ) ≤ a := by positivity
  nlinarith

theorem ulp_facts : 0 < ulp ∧ ulp ≤ 1 / 10 ^ 15 := by
  constructor <;> (unfold ulp; norm_num)

theorem interval_pos (hp0 : 0 ≤ p) (hp : p ≤ 1 - 1 / 2 ^ 53) (ha : 0 < a) : 0 < computedInterval p a := by
  have h := interval_close hp0 hp a
  have h2 := mean_ge hp0 hp a
  obtain ⟨hu, hu'⟩ := ulp_facts
  have ha' : (1 : ℝ) ≤ a := by exact_mod_cast ha
  rw [abs_le] at h
  have : (0 : ℝ) < computedInterval p a := by nlinarith
  exact_mod_cast this

theorem interval_ge (hp0 : 0 ≤ p) (hp : p ≤ 1 - 1 / 2 ^ 53) (ha : 0 < a) : 1.4 * (a : ℝ) ≤ computedInterval p a := by
  have h := interval_close hp0 hp a
  have h2 := mean_ge hp0 hp a
  obtain ⟨hu, hu'⟩ := ulp_facts
  have ha' : (1 : ℝ) ≤ a := by exact_mod_cast ha
  rw [abs_le] at h
  have h3 : ulp * meanPerPacket p a ≤ 1 / 10 ^ 15 * meanPerPacket p a := mul_le_mul_of_nonneg_right hu' (by linarith)
  linarith [h.1]

theorem undo_error {T t : ℝ} (h : T * (1 - 6 * ulp) ≤ t + 1 / 2) (ht : 0 ≤ t) : T ≤ (t + 1 / 2) * (1 + 7 * ulp) := by
  obtain ⟨hu, hu'⟩ := ulp_facts
  have h1 : 1 ≤ (1 - 6 * ulp) * (1 + 7 * ulp) := by nlinarith
  rcases le_total T 0 with hT | hT
  · refine le_trans hT ?_
    positivity
  · have h2 : T ≤ T * ((1 - 6 * ulp) * (1 + 7 * ulp)) := le_mul_of_one_le_right hT h1
    have h3 := mul_le_mul_of_nonneg_right h (show 0 ≤ 1 + 7 * ulp by positivity)
    linarith

theorem interval_zero : computedInterval p 0 = 0 := by
  unfold computedInterval Binary64.divDuration Binary64.fromSecs
  have e2 : Binary64.round 0 = 0 := rfl
  have e1 : Binary64.asSecs 0 = 0 := by
    unfold Binary64.asSecs
    norm_num [e2]
  have e3 := Binary64.roundEven_int 0
  rw [Int.cast_zero] at e3
  rw [e1, zero_div, e2, zero_mul, e3]
  rfl

theorem interval_bound (hp0 : 0 ≤ p) (hp : p ≤ 1 - 1 / 2 ^ 53) (ha : meanPerPacket p a < 2 ^ 93) : computedInterval p a < 2 ^ 94 := by
  have h := interval_close hp0 hp a
  obtain ⟨hu, hu'⟩ := ulp_facts
  have h0 : 0 ≤ meanPerPacket p a := le_trans (by positivity) (mean_ge hp0 hp a)
  rw [abs_le] at h
  have : (computedInterval p a : ℝ) < 2 ^ 94 := by nlinarith [h.2]
  exact_mod_cast this

/-- The computation, for the larger interval and the smaller one. -/
theorem computed_cases : Binary64.queueDelay p a n b m =
    if computedInterval p a > computedInterval p b then
      Binary64.percentile (computedInterval p a) n m (computedInterval p b)
    else Binary64.percentile (computedInterval p b) m n (computedInterval p a) := rfl

/-- **C86** (estimate, given the intervals). The estimate is the formula of the code's comment at the computed intervals, to the
nearest nanosecond, but for thirty rounding errors. -/
theorem estimate_close (hp0 : 0 ≤ p) (hp : p ≤ 1 - 1 / 2 ^ 53) (hab : ¬(a = 0 ∧ b = 0))
    (ha : meanPerPacket p a < 2 ^ 93) (hb : meanPerPacket p b < 2 ^ 93) :
    ∃ x : ℝ,
      x = (if computedInterval p a > computedInterval p b then
        sumPercentile (computedInterval p a) n m (computedInterval p b)
        else sumPercentile (computedInterval p b) m n (computedInterval p a)) ∧
      |(Binary64.queueDelay p a n b m : ℝ) - x| ≤ 30 * ulp * x + 1 / 2 := by
  refine ⟨_, rfl, ?_⟩
  rw [computed_cases]
  by_cases h : computedInterval p a > computedInterval p b
  · rw [if_pos h, if_pos h]
    exact Binary64.percentile_error n m _ _ (by omega) h.le (interval_bound hp0 hp ha)
  · rw [if_neg h, if_neg h]
    refine Binary64.percentile_error m n _ _ ?_ (by omega) (interval_bound hp0 hp hb)
    rcases Nat.eq_zero_or_pos b with hb0 | hb0
    · have ha0 := interval_pos hp0 hp (a := a) (by omega)
      omega
    · exact interval_pos hp0 hp hb0

/-- **C86** (conservative). The estimate is at least the mean time for both queues to empty, if these have fewer packets
than the longer period has nanoseconds. -/
theorem f64_covers_mean (hp0 : 0 ≤ p) (hp : p ≤ 1 - 1 / 2 ^ 53)
    (ha : meanPerPacket p a < 2 ^ 93) (hb : meanPerPacket p b < 2 ^ 93) (hlen : n + m ≤ max a b) (hlen' : n + m ≤ 2 ^ 40)
    (hab : ¬(a = 0 ∧ b = 0)) :
    n * meanPerPacket p a + m * meanPerPacket p b ≤ (Binary64.queueDelay p a n b m : ℕ) := by
  obtain ⟨x, hx, herr⟩ := estimate_close (n := n) (m := m) hp0 hp hab ha hb
  have ia := interval_close hp0 hp a
  have ib := interval_close hp0 hp b
  have ga := mean_ge hp0 hp a
  have gb := mean_ge hp0 hp b
  obtain ⟨hu, hu'⟩ := ulp_facts
  obtain ⟨Ta, hTa⟩ : ∃ t, t = meanPerPacket p a := ⟨_, rfl⟩
  obtain ⟨Tb, hTb⟩ : ∃ t, t = meanPerPacket p b := ⟨_, rfl⟩
  obtain ⟨ta, hta⟩ : ∃ t : ℝ, t = computedInterval p a := ⟨_, rfl⟩
  obtain ⟨tb, htb⟩ : ∃ t : ℝ, t = computedInterval p b := ⟨_, rfl⟩
  rw [← hTa] at ia ga ⊢
  rw [← hTb] at ib gb ⊢
  rw [← hta] at ia
  rw [← htb] at ib
  have hta0 : 0 ≤ ta := by rw [hta]; positivity
  have htb0 : 0 ≤ tb := by rw [htb]; positivity
  have hn0 : (0 : ℝ) ≤ n := by positivity
  have hm0 : (0 : ℝ) ≤ m := by positivity
  obtain ⟨S, hS⟩ : ∃ S, S = max ta tb := ⟨_, rfl⟩
  have hSa : ta ≤ S := by rw [hS]; exact le_max_left _ _
  have hSb : tb ≤ S := by rw [hS]; exact le_max_right _ _
  have hSpos : 0 < S := by
    rcases Nat.eq_zero_or_pos a with h0 | h0
    · have := interval_pos hp0 hp (a := b) (by omega)
      have : (0 : ℝ) < tb := by rw [htb]; exact_mod_cast this
      linarith
    · have := interval_pos hp0 hp h0
      have : (0 : ℝ) < ta := by rw [hta]; exact_mod_cast this
      linarith
  have hx1 : 4.92582 * S + (n * ta + m * tb) ≤ x := by
    rw [hx]
    by_cases h : computedInterval p a > computedInterval p b
    · have h' : tb ≤ ta := by rw [hta, htb]; exact_mod_cast h.le
      have hSt : S = ta := by rw [hS, max_eq_left h']
      rw [if_pos h, ← hta, ← htb, sumPercentile_eq (by rw [← hSt]; exact hSpos), hSt]
      have : 0 ≤ ta * √(n + (tb / ta) ^ 3 * m) := by positivity
      linarith
    · have h' : ta ≤ tb := by rw [hta, htb]; exact_mod_cast not_lt.1 h
      have hSt : S = tb := by rw [hS, max_eq_right h']
      rw [if_neg h, ← hta, ← htb, sumPercentile_eq (by rw [← hSt]; exact hSpos), hSt]
      have : 0 ≤ tb * √(m + (ta / tb) ^ 3 * n) := by positivity
      linarith
  rw [abs_le] at ia ib herr
  have hmax : (1 : ℝ) ≤ ((max a b : ℕ) : ℝ) := by
    have : 1 ≤ max a b := by omega
    exact_mod_cast this
  have hS2 : 1.4 * ((max a b : ℕ) : ℝ) ≤ S := by
    rcases le_total a b with h | h
    · rw [max_eq_right h]
      have := interval_ge hp0 hp (a := b) (by omega)
      rw [← htb] at this
      linarith
    · rw [max_eq_left h]
      have := interval_ge hp0 hp (a := a) (by omega)
      rw [← hta] at this
      linarith
  have hk : (n : ℝ) + m ≤ ((max a b : ℕ) : ℝ) := by exact_mod_cast hlen
  have hk' : (n : ℝ) + m ≤ 2 ^ 40 := by exact_mod_cast hlen'
  have hulp : ulp * 2 ^ 40 ≤ 1 / 8000 := by unfold ulp; norm_num
  have eTa : Ta * (1 - 6 * ulp) ≤ ta + 1 / 2 := by linarith [ia.1]
  have eTb : Tb * (1 - 6 * ulp) ≤ tb + 1 / 2 := by linarith [ib.1]
  have uTa := undo_error eTa hta0
  have uTb := undo_error eTb htb0
  have l1 : (n : ℝ) * Ta + m * Tb ≤ (n * ta + m * tb + (n + m) / 2) * (1 + 7 * ulp) := by
    have h1 := mul_le_mul_of_nonneg_left uTa hn0
    have h2 := mul_le_mul_of_nonneg_left uTb hm0
    linarith
  obtain ⟨W, hW⟩ : ∃ W : ℝ, W = n * ta + m * tb := ⟨_, rfl⟩
  have hWu : W * ulp ≤ S / 8000 := by
    have h1 : W ≤ (n + m) * S := by
      have w1 := mul_le_mul_of_nonneg_left hSa hn0
      have w2 := mul_le_mul_of_nonneg_left hSb hm0
      rw [hW]; linarith
    have h2 : W ≤ 2 ^ 40 * S := le_trans h1 (mul_le_mul_of_nonneg_right hk' hSpos.le)
    have h3 := mul_le_mul_of_nonneg_right h2 hu.le
    have h4 := mul_le_mul_of_nonneg_right hulp hSpos.le
    linarith
  rw [← hW] at l1 hx1
  have hW0 : 0 ≤ W := by rw [hW]; positivity
  have h30 : (4.92582 * S + W) * (1 - 30 * ulp) ≤ x * (1 - 30 * ulp) :=
    mul_le_mul_of_nonneg_right hx1 (by linarith)
  have low : x * (1 - 30 * ulp) - 1 / 2 ≤ (Binary64.queueDelay p a n b m : ℕ) := by linarith [herr.1]
  have hSu : S * ulp ≤ S / 10 ^ 15 := by
    have := mul_le_mul_of_nonneg_left hu' hSpos.le
    linarith
  have hk2 : (n : ℝ) + m ≤ S := by linarith
  have hku : ((n : ℝ) + m) * ulp ≤ S / 10 ^ 15 := le_trans (mul_le_mul_of_nonneg_right hk2 hu.le) hSu
  have hS1 : 1.4 ≤ S := by linarith
  have e1 : (W + ((n : ℝ) + m) / 2) * (1 + 7 * ulp) = W + (n + m) / 2 + 7 * (W * ulp) + 7 / 2 * ((n + m) * ulp) := by ring
  have e2 : (4.92582 * S + W) * (1 - 30 * ulp) = 4.92582 * S + W - 30 * 4.92582 * (S * ulp) - 30 * (W * ulp) := by ring
  rw [e1] at l1
  rw [e2] at h30
  linarith

/-- **C86** (error). The estimate differs from the formula at the exact intervals by at most 2 ns per shorter period, eighty
rounding errors, and half a nanosecond. -/
theorem f64_close (hp0 : 0 ≤ p) (hp : p ≤ 1 - 1 / 2 ^ 53) (hab : ¬(a = 0 ∧ b = 0)) {μ : ℕ} (hμ : 1000 ≤ μ)
    (haμ : a = 0 ∨ μ ≤ a) (hbμ : b = 0 ∨ μ ≤ b)
    (ha : meanPerPacket p a < 2 ^ 93) (hb : meanPerPacket p b < 2 ^ 93)
    (ha' : a < 2 ^ 53 * 10 ^ 9) (hb' : b < 2 ^ 53 * 10 ^ 9) :
    |(Binary64.queueDelay p a n b m : ℝ) - queueDelayReal p a n b m| ≤
      (2 / μ + 80 * ulp) * queueDelayReal p a n b m + 1 / 2 := by
  obtain ⟨hu, hu'⟩ := ulp_facts
  have hμ' : (1000 : ℝ) ≤ μ := by exact_mod_cast hμ
  have hμ0 : (0 : ℝ) < μ := by linarith
  obtain ⟨δ, hδ⟩ : ∃ δ : ℝ, δ = 6 * ulp + 1 / (4 * μ) := ⟨_, rfl⟩
  have hδ0 : 0 < δ := by rw [hδ]; positivity
  have hδ1 : δ ≤ 1 / 3000 := by
    rw [hδ]
    have : 1 / (4 * (μ : ℝ)) ≤ 1 / (4 * 1000) := by
      apply one_div_le_one_div_of_le <;> linarith
    linarith
  haveI : Binary64.Factor (1 - δ) := ⟨by linarith, by linarith⟩
  have hrel : ∀ c : ℕ, (c = 0 ∨ μ ≤ c) → Binary64.Rel (1 - δ) 1 (computedInterval p c : ℝ) (meanPerPacket p c) := by
    intro c hc
    have h0 : 0 ≤ meanPerPacket p c := le_trans (by positivity) (mean_ge hp0 hp c)
    rcases hc with rfl | hc
    · rw [interval_zero]
      have e : meanPerPacket p ((0 : ℕ) : ℝ) = 0 := by unfold meanPerPacket; simp
      rw [e]
      have := (Binary64.Rel.refl (β := 1 - δ) (le_refl (0 : ℝ))).mono (Nat.zero_le 1)
      simpa using this
    · have h := interval_close hp0 hp c
      have hg := mean_ge hp0 hp c
      have hc' : (μ : ℝ) ≤ c := by exact_mod_cast hc
      have hδT : 6 * ulp * meanPerPacket p c + 1 / 2 ≤ δ * meanPerPacket p c := by
        rw [hδ, add_mul]
        have : 1 / 2 ≤ 1 / (4 * (μ : ℝ)) * meanPerPacket p c := by
          rw [one_div_mul_eq_div, le_div_iff₀ (by positivity)]
          linarith
        linarith
      have h' := le_trans h hδT
      rw [abs_le] at h'
      refine ⟨by rw [pow_one]; linarith [h'.1], ?_, h0⟩
      rw [pow_one]
      nlinarith [h'.2, mul_nonneg h0 (sq_nonneg δ)]
  have hra := hrel a haμ
  have hrb := hrel b hbμ
  have hp1 := share_lt hp
  have hpos : ∀ c : ℕ, 0 < c → 0 < meanPerPacket p c := fun c hc => by
    have := mean_ge hp0 hp c
    have hc' : (0 : ℝ) < c := by exact_mod_cast hc
    linarith
  obtain ⟨X, hX⟩ : ∃ X, X = queueDelayReal p a n b m := ⟨_, rfl⟩
  obtain ⟨x, hx, herr⟩ := estimate_close (n := n) (m := m) hp0 hp hab ha hb
  have h7 : Binary64.Rel (1 - δ) 7 x X := by
    rcases queueDelayReal_cases (n := n) (m := m) (a := (a : ℝ)) (b := b) hp1 with ⟨h, e⟩ | ⟨h, e⟩
    · have h' : b ≤ a := by exact_mod_cast h
      have ha0 : 0 < a := by omega
      have hm := interval_mono hp h' ha'
      rw [hX, e]
      have key := Binary64.sumPercentile_rel n m (hpos a ha0) hra hrb
      by_cases hc : computedInterval p a > computedInterval p b
      · rw [if_pos hc] at hx
        rwa [hx]
      · rw [if_neg hc] at hx
        have he : computedInterval p a = computedInterval p b := by omega
        rw [← he, sumPercentile_tie] at hx
        rw [← he] at key
        rwa [hx]
    · have h' : a ≤ b := by exact_mod_cast h
      have hb0 : 0 < b := by omega
      have hm := interval_mono hp h' hb'
      rw [hX, e]
      have key := Binary64.sumPercentile_rel m n (hpos b hb0) hrb hra
      rw [if_neg (by omega)] at hx
      rwa [hx]
  rw [← hX]
  have hX0 := h7.nonneg
  have hx0 := h7.nonneg'
  -- eight times the factor
  have hber : 1 - 7 * δ ≤ (1 - δ) ^ 7 := by
    have := one_add_mul_le_pow (a := -δ) (by linarith) 7
    have e : (1 : ℝ) + -δ = 1 - δ := by ring
    rw [e] at this
    push_cast at this
    linarith
  have l1 : X * (1 - 7 * δ) ≤ x := le_trans (mul_le_mul_of_nonneg_left hber hX0) h7.left
  have l2 : x * (1 - 7 * δ) ≤ X := le_trans (mul_le_mul_of_nonneg_left hber hx0) h7.right
  have l3 : x ≤ X * (1 + 7.1 * δ) := by
    have h1 : 1 ≤ (1 - 7 * δ) * (1 + 7.1 * δ) := by nlinarith
    have h2 : x ≤ x * ((1 - 7 * δ) * (1 + 7.1 * δ)) := le_mul_of_one_le_right hx0 h1
    have h3 := mul_le_mul_of_nonneg_right l2 (show 0 ≤ 1 + 7.1 * δ by positivity)
    linarith
  have l4 : x ≤ 1.01 * X := by nlinarith
  have hδ2 : 7.1 * δ + 31 * ulp ≤ 2 / μ + 80 * ulp := by
    rw [hδ]
    have e : 1 / (4 * (μ : ℝ)) = 1 / 8 * (2 / μ) := by field_simp; norm_num
    have : (0 : ℝ) < 2 / μ := by positivity
    rw [e]
    linarith
  have h5 := mul_le_mul_of_nonneg_right hδ2 hX0
  have h6 : ulp * x ≤ 1.01 * (ulp * X) := by nlinarith
  have hδX : 0 ≤ δ * X := by positivity
  have huX : 0 ≤ ulp * X := by positivity
  rw [abs_le] at herr ⊢
  constructor <;> nlinarith

variable {config : Config} {node node' : Node}

/-- **C86** (in the metrics). With the estimate as the code computes it, the queue delay in the metrics of a posted request is
at least the mean time to send all the packets waiting after the call and for a full queue to be sent at the far end. -/
theorem posted_f64_covers {C : Crypto} (hC : CryptoLaws C) (hE : C.queueDelayEstimate = Binary64.queueDelay)
    (hr : Node.Reachable C config node)
    (hk : config.numHops ≤ 6) (hp0 : 0 ≤ config.loopCoverProportion) (hp : config.loopCoverProportion ≤ 1 - 1 / 2 ^ 53) {rng : Rng}
    {i : Nat} {d d' : Option MixnodeIndex} {mid : MessageId} {data : Scattered Byte} {l : Bytes} {n : Nat} {ns : NetworkStatus}
    {met : RequestMetrics} (hw : (Call.postRequest rng i d mid data n ns).WellTyped) (hd : Denotes data l)
    (h : node.step C (.postRequest rng i d mid data n ns) = .ok (node', .posted d' (.ok met))) :
    ∃ s, node'.sessionAt i = some s ∧
      (meanPerPacket config.loopCoverProportion s.meanAuthoredPacketPeriod < 2 ^ 93 →
       meanPerPacket config.loopCoverProportion config.mixnodeSession.meanAuthoredPacketPeriod < 2 ^ 93 →
       s.authoredPacketQueue.queue.length + config.mixnodeSession.authoredPacketQueue.capacity ≤
         max s.meanAuthoredPacketPeriod config.mixnodeSession.meanAuthoredPacketPeriod →
       s.authoredPacketQueue.queue.length + config.mixnodeSession.authoredPacketQueue.capacity ≤ 2 ^ 40 →
       s.authoredPacketQueue.queue.length * meanPerPacket config.loopCoverProportion s.meanAuthoredPacketPeriod +
        config.mixnodeSession.authoredPacketQueue.capacity *
          meanPerPacket config.loopCoverProportion config.mixnodeSession.meanAuthoredPacketPeriod ≤
        (met.authoredPacketQueueDelay : ℕ)) := by
  obtain ⟨s, hs, he, -, h2⟩ := posted_queue_delay hC hr hk hw hd h
  refine ⟨s, hs, fun b1 b2 b3 b4 => ?_⟩
  rw [he, hE]
  exact f64_covers_mean hp0 hp b1 b2 b3 b4 h2

/-- The primitives that the code uses, with this estimate, are such. -/
example (sample : Bytes → Rat) : CryptoLaws (f64Crypto sample) ∧ (f64Crypto sample).queueDelayEstimate = Binary64.queueDelay :=
  ⟨realLaws sample _, rfl⟩

namespace World
open Mixnet.World

/-- The toy primitives with this estimate. -/
def Cf : Crypto := { toyCrypto with queueDelayEstimate := Binary64.queueDelay }

theorem Cf_laws : CryptoLaws Cf := { toyLaws with }

/-- Alice is set up and posts a request, with this estimate. -/
def askedF : Res (Node × Outcome) := do
  let m ← Node.new Cf (cfg 3)
  let (m, _) ← m.step Cf (.setSessionStatus ⟨0, .requestsToCurrent⟩)
  let (m, _) ← m.step Cf (.maybeSetMixnodes .current (.ok mixes) rng)
  m.step Cf ask

theorem askedF_ok : (match askedF with | .ok (_, .posted _ (.ok met)) => met.authoredPacketQueueDelay == 22298912608 | _ => false) = true := by
  decide +kernel

end World

attribute [local irreducible] World.Cf World.ask World.mixes World.cfg Node.step Node.new

/-- Alice's request: one packet waits, and 50 are assumed to wait at Bob's, at 10 packets per second and a quarter of them cover. -/
example : ∃ (m m' : Node) (d : Option MixnodeIndex) (met : RequestMetrics),
    Node.Reachable World.Cf (World.cfg 3) m ∧ m.step World.Cf World.ask = .ok (m', .posted d (.ok met)) ∧
    met.authoredPacketQueueDelay = 22298912608 := by
  have h := World.askedF_ok
  unfold World.askedF at h
  obtain ⟨x, hx⟩ : ∃ x, Node.new World.Cf (World.cfg 3) = x := ⟨_, rfl⟩
  rw [hx] at h
  cases x with
  | error e => cases h
  | ok m0 =>
    rw [res_bind_ok] at h
    obtain ⟨x, h1⟩ : ∃ x, m0.step World.Cf (.setSessionStatus ⟨0, .requestsToCurrent⟩) = x := ⟨_, rfl⟩
    rw [h1] at h
    cases x with
    | error e => cases h
    | ok m1 =>
      obtain ⟨m1, o1⟩ := m1
      rw [res_bind_ok] at h
      dsimp only at h
      obtain ⟨x, h2⟩ : ∃ x, m1.step World.Cf (.maybeSetMixnodes .current (.ok World.mixes) World.rng) = x := ⟨_, rfl⟩
      rw [h2] at h
      cases x with
      | error e => cases h
      | ok m2 =>
        obtain ⟨m2, o2⟩ := m2
        rw [res_bind_ok] at h
        dsimp only at h
        obtain ⟨x, h3⟩ : ∃ x, m2.step World.Cf World.ask = x := ⟨_, rfl⟩
        rw [h3] at h
        have hreach : Node.Reachable World.Cf (World.cfg 3) m2 :=
          ⟨m0, World.setup, [o1, o2], hx, World.setup_typed, .cons h1 (.cons h2 (.nil _))⟩
        match x, h, h3 with
        | .ok (m3, .posted d (.ok met)), h, h3 => exact ⟨m2, m3, d, met, hreach, h3, by simpa using h⟩

/-- The case of the default configuration (`/repo/src/core/config.rs:103-128`: periods of 1 s and 100 ms, a quarter of
loop cover, queues for 50 packets) with 10 packets waiting: 85.920101723 s. -/
example : Binary64.queueDelay (1 / 4) (10 ^ 9) 10 (10 ^ 8) 50 = 85920101723 := by decide +kernel

/-- This is within 2 µs of the exact value. -/
example : |(85920101723 : ℝ) - queueDelayReal (1 / 4 : Rat) (10 ^ 9 : ℕ) 10 (10 ^ 8 : ℕ) 50| ≤ 2000 := by
  have e : Binary64.queueDelay (1 / 4) (10 ^ 9) 10 (10 ^ 8) 50 = 85920101723 := by decide +kernel
  have h := f64_close (p := 1 / 4) (a := 10 ^ 9) (b := 10 ^ 8) (n := 10) (m := 50) (μ := 10 ^ 8) (by norm_num) (by norm_num)
    (by norm_num) (by norm_num) (.inr (by norm_num)) (.inr (by norm_num)) (by unfold meanPerPacket; norm_num)
    (by unfold meanPerPacket; norm_num) (by norm_num) (by norm_num)
  rw [e] at h
  obtain ⟨X, hX⟩ : ∃ X, X = queueDelayReal (1 / 4 : Rat) (10 ^ 9 : ℕ) 10 (10 ^ 8 : ℕ) 50 := ⟨_, rfl⟩
  rw [← hX] at h ⊢
  have hu : ulp ≤ 1 / 10 ^ 15 := ulp_facts.2
  have hu0 : 0 < ulp := ulp_facts.1
  norm_num at h
  have h' := abs_le.1 h
  have hX0 : 0 ≤ X := by
    by_contra hc
    have : 1 / 50000000 + 80 * ulp ≤ 1 / 2 := by linarith
    nlinarith [h'.1]
  have hXb : X ≤ 10 ^ 11 := by nlinarith [h'.1]
  refine le_trans h ?_
  nlinarith

/-- And the mean time, 40 s, is less. -/
example : (10 : ℕ) * meanPerPacket (1 / 4 : Rat) (10 ^ 9 : ℕ) + (50 : ℕ) * meanPerPacket (1 / 4 : Rat) (10 ^ 8 : ℕ) ≤
    (Binary64.queueDelay (1 / 4) (10 ^ 9) 10 (10 ^ 8) 50 : ℕ) :=
  f64_covers_mean (by norm_num) (by norm_num) (by unfold meanPerPacket; norm_num)
    (by unfold meanPerPacket; norm_num) (by norm_num) (by norm_num) (by norm_num)

/-- The intervals are rounded to nanoseconds before they are compared. -/
example : computedInterval (1 / 4) (10 ^ 9) = 2666666667 ∧ computedInterval (1 / 4) (10 ^ 8) = 266666667 ∧
    computedInterval (1 / 4) 0 = 0 := by decide +kernel

/-- Square roots. -/
example : Binary64.sqrt 2 = 6369051672525773 / 2 ^ 52 ∧ Binary64.sqrt 2 * Binary64.sqrt 2 ≠ 2 ∧ Binary64.sqrt (1 / 4) = 1 / 2 ∧
    Binary64.sqrt 0 = 0 := by decide +kernel

end
end Mixnet.Props
