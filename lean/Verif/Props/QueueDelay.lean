import Verif.Model.QueueDelay
import Verif.Props.Metrics
import Verif.Proofs.ManagerSteps
/-!
# C59: the estimate of the time spent in queues

Exact real numbers in place of `f64`.
-/
namespace Mixnet.Props
open Mixnet Spec

noncomputable section

/-- The mean time between two packets taken from a queue: of the packets sent, one per `period` on average, a share `p`
is loop cover and does not come from the queue; and the rate is halved while two sessions are in use. -/
def meanPerPacket (p period : ℝ) : ℝ := period / (0.5 * (1 - p))

variable {p a b a' b' : ℝ} {n m n' m' : ℕ}

theorem sumPercentile_eq {s rs : ℝ} (hs : 0 < s) :
    sumPercentile s n m rs = 4.92582 * s + 3.87809 * (s * √(n + (rs / s) ^ 3 * m)) + (n * s + m * rs) := by
  unfold sumPercentile
  field_simp
  ring

theorem rate_pos (hp : p < 1) : 0 < 0.5 * (1 - p) := by norm_num; linarith

/-- With equal periods both branches of the code agree. -/
theorem sumPercentile_tie (s : ℝ) : sumPercentile s n m s = sumPercentile s m n s := by
  unfold sumPercentile
  by_cases hs : s = 0
  · simp [hs]
  · simp only [div_self hs, one_mul]
    ring_nf

theorem queueDelayReal_cases (hp : p < 1) :
    (b ≤ a ∧ queueDelayReal p a n b m = sumPercentile (meanPerPacket p a) n m (meanPerPacket p b)) ∨
    (a ≤ b ∧ queueDelayReal p a n b m = sumPercentile (meanPerPacket p b) m n (meanPerPacket p a)) := by
  have hr := rate_pos hp
  unfold queueDelayReal
  dsimp only
  split
  · rename_i h
    exact .inl ⟨le_of_lt ((div_lt_div_iff_of_pos_right hr).1 h), rfl⟩
  · rename_i h
    exact .inr ⟨(div_le_div_iff_of_pos_right hr).1 (not_lt.1 h), rfl⟩

/-- **C59** (symmetry). It does not matter which of the two queues is called the request queue; in particular the estimate does
not depend on how the code decides when the periods are equal. -/
theorem queue_delay_symmetric (hp : p < 1) : queueDelayReal p a n b m = queueDelayReal p b m a n := by
  rcases queueDelayReal_cases (n := n) (m := m) (a := a) (b := b) hp with ⟨h, e⟩ | ⟨h, e⟩ <;>
    rcases queueDelayReal_cases (n := m) (m := n) (a := b) (b := a) hp with ⟨h', e'⟩ | ⟨h', e'⟩
  · obtain rfl : a = b := le_antisymm h' h
    rw [e, e', sumPercentile_tie]
  · rw [e, e']
  · rw [e, e']
  · obtain rfl : a = b := le_antisymm h h'
    rw [e, e', sumPercentile_tie]

/-- **C59** (conservative). The estimate exceeds the mean time for both queues to empty, by almost five mean
intervals of the slower one. -/
theorem queue_delay_exceeds_mean (hp : p < 1) (ha : 0 ≤ a) (hb : 0 ≤ b) (hab : 0 < max a b) :
    n * meanPerPacket p a + m * meanPerPacket p b + 4.92582 * meanPerPacket p (max a b) ≤ queueDelayReal p a n b m := by
  have hr := rate_pos hp
  have hpos : 0 < meanPerPacket p (max a b) := div_pos hab hr
  rcases queueDelayReal_cases (n := n) (m := m) (a := a) (b := b) hp with ⟨h, e⟩ | ⟨h, e⟩
  · rw [max_eq_left h] at hpos ⊢
    rw [e, sumPercentile_eq hpos]
    have := mul_nonneg hpos.le (Real.sqrt_nonneg (n + (meanPerPacket p b / meanPerPacket p a) ^ 3 * m))
    linarith
  · rw [max_eq_right h] at hpos ⊢
    rw [e, sumPercentile_eq hpos]
    have := mul_nonneg hpos.le (Real.sqrt_nonneg (m + (meanPerPacket p a / meanPerPacket p b) ^ 3 * n))
    linarith

/-- **C59** (monotone). Longer queues never make the estimate smaller; a packet more makes it longer by at least the mean
time for that packet. -/
theorem queue_delay_grows (hp : p < 1) (ha : 0 ≤ a) (hb : 0 ≤ b) (hab : 0 < max a b) (hn : n ≤ n') (hm : m ≤ m') :
    queueDelayReal p a n b m + ((n' - n) * meanPerPacket p a + (m' - m) * meanPerPacket p b) ≤ queueDelayReal p a n' b m' := by
  have hr := rate_pos hp
  have hpos : 0 < meanPerPacket p (max a b) := div_pos hab hr
  have hn' : (n : ℝ) ≤ n' := by exact_mod_cast hn
  have hm' : (m : ℝ) ≤ m' := by exact_mod_cast hm
  have key : ∀ {s rs : ℝ} {n m n' m' : ℕ}, 0 < s → 0 ≤ rs → (n : ℝ) ≤ n' → (m : ℝ) ≤ m' →
      sumPercentile s n m rs + ((n' - n) * s + (m' - m) * rs) ≤ sumPercentile s n' m' rs := by
    intro s rs n m n' m' hs hrs hn hm
    rw [sumPercentile_eq hs, sumPercentile_eq hs]
    have h3 : 0 ≤ (rs / s) ^ 3 := pow_nonneg (div_nonneg hrs hs.le) 3
    have : s * √(n + (rs / s) ^ 3 * m) ≤ s * √(n' + (rs / s) ^ 3 * m') := by
      refine mul_le_mul_of_nonneg_left (Real.sqrt_le_sqrt ?_) hs.le
      exact add_le_add hn (mul_le_mul_of_nonneg_left hm h3)
    linarith
  have hla : 0 ≤ meanPerPacket p a := div_nonneg ha hr.le
  have hlb : 0 ≤ meanPerPacket p b := div_nonneg hb hr.le
  rcases le_total b a with h | h
  · rw [max_eq_left h] at hpos
    have e : ∀ {n m : ℕ}, queueDelayReal p a n b m = sumPercentile (meanPerPacket p a) n m (meanPerPacket p b) := by
      intro n m
      rcases queueDelayReal_cases (n := n) (m := m) (a := a) (b := b) hp with ⟨-, e⟩ | ⟨h', e⟩
      · exact e
      · obtain rfl := le_antisymm h h'
        rw [e, sumPercentile_tie]
    rw [e, e]
    exact key hpos hlb hn' hm'
  · rw [max_eq_right h] at hpos
    have e : ∀ {n m : ℕ}, queueDelayReal p a n b m = sumPercentile (meanPerPacket p b) m n (meanPerPacket p a) := by
      intro n m
      rcases queueDelayReal_cases (n := n) (m := m) (a := a) (b := b) hp with ⟨h', e⟩ | ⟨-, e⟩
      · obtain rfl := le_antisymm h h'
        rw [e, sumPercentile_tie]
      · exact e
    rw [e, e]
    have := key hpos hla hm' hn'
    linarith

/-- **C59** (scale). The estimate is proportional to the periods, and inversely proportional to the share of packets that
may come from a queue. -/
theorem queue_delay_scales (hp : p < 1) {k : ℝ} (hk : 0 < k) :
    queueDelayReal p (k * a) n (k * b) m = k * queueDelayReal p a n b m ∧
    queueDelayReal p a n b m = queueDelayReal 0 a n b m / (1 - p) := by
  have key : ∀ {k s rs : ℝ} {n m : ℕ}, 0 < k → sumPercentile (k * s) n m (k * rs) = k * sumPercentile s n m rs := by
    intro k s rs n m hk
    unfold sumPercentile
    dsimp only
    rw [mul_div_mul_left _ _ (ne_of_gt hk), mul_assoc]
  have hr := rate_pos hp
  have h1 : 0 < 1 - p := by linarith
  constructor
  · unfold queueDelayReal
    dsimp only
    rw [mul_div_assoc, mul_div_assoc, key hk, key hk]
    by_cases h : a / (0.5 * (1 - p)) > b / (0.5 * (1 - p))
    · rw [if_pos h, if_pos (mul_lt_mul_of_pos_left h hk)]
    · rw [if_neg h, if_neg (fun h' => h (lt_of_mul_lt_mul_left h' hk.le))]
  · have e : ∀ x : ℝ, x / (0.5 * (1 - p)) = (1 / (1 - p)) * (x / (0.5 * (1 - 0))) := by
      intro x; field_simp; ring
    unfold queueDelayReal
    dsimp only
    rw [e a, e b, key (one_div_pos.2 h1), key (one_div_pos.2 h1)]
    by_cases h : a / (0.5 * (1 - 0)) > b / (0.5 * (1 - 0))
    · rw [if_pos h, if_pos (mul_lt_mul_of_pos_left h (one_div_pos.2 h1))]
      ring
    · rw [if_neg h, if_neg (fun h' => h (lt_of_mul_lt_mul_left h' (one_div_pos.2 h1).le))]
      ring

/-- **C59** (special cases, as claimed in a comment of the code). With equal periods the two queues count as one; and if one
period is negligible, only the other queue counts. -/
theorem queue_delay_special (hp : p < 1) (ha : 0 < a) :
    queueDelayReal p a n a m = meanPerPacket p a * (4.92582 + 3.87809 * √((n + m : ℕ) : ℝ) + (n + m : ℕ)) ∧
    queueDelayReal p a n 0 m = meanPerPacket p a * (4.92582 + 3.87809 * √n + n) := by
  have hpos : 0 < meanPerPacket p a := div_pos ha (rate_pos hp)
  constructor
  · rcases queueDelayReal_cases (n := n) (m := m) (a := a) (b := a) hp with ⟨-, e⟩ | ⟨-, e⟩ <;> rw [e]
    · unfold sumPercentile
      simp only [div_self hpos.ne', one_mul]
      push_cast; ring_nf
    · rw [sumPercentile_tie]
      unfold sumPercentile
      simp only [div_self hpos.ne', one_mul]
      push_cast; ring_nf
  · rcases queueDelayReal_cases (n := n) (m := m) (a := a) (b := 0) hp with ⟨-, e⟩ | ⟨h, -⟩
    · rw [e]
      unfold sumPercentile meanPerPacket
      simp
    · linarith

/-- The estimate need not grow with a period: with 1 packet to send and 50 to come back, it is smaller if the own period is
one and a half times the other one than if they are equal. -/
theorem queue_delay_not_monotone : queueDelayReal 0 1.5 1 1 50 < queueDelayReal 0 1 1 1 50 := by
  have e1 : queueDelayReal 0 1.5 1 1 50 = 3 * (4.92582 + 3.87809 * √(427 / 27) + 1 + 100 / 3) := by
    unfold queueDelayReal sumPercentile
    norm_num
  have e2 : queueDelayReal 0 1 1 1 50 = 2 * (4.92582 + 3.87809 * √51 + 51) := by
    unfold queueDelayReal sumPercentile
    norm_num
    ring
  have h1 : √(427 / 27) ≤ 3.98 := by
    rw [Real.sqrt_le_left (by norm_num)]; norm_num
  have h2 : 7.14 ≤ √51 := by
    rw [Real.le_sqrt' (by norm_num)]; norm_num
  rw [e1, e2]
  linarith

variable {C : Crypto} {config : Config} {node node' : Node}

/-- **C59** (what is estimated). The queue delay in the metrics of a posted request is the estimate for the packets waiting
after the call, including those of the request, and a full queue of the destination, taken to have the configuration
of this node. -/
theorem posted_queue_delay (hC : CryptoLaws C) (hr : Node.Reachable C config node) (hk : config.numHops ≤ 6) {rng : Rng}
    {i : Nat} {d d' : Option MixnodeIndex} {mid : MessageId} {data : Scattered Byte} {l : Bytes} {n : Nat} {ns : NetworkStatus}
    {met : RequestMetrics} (hw : (Call.postRequest rng i d mid data n ns).WellTyped) (hd : Denotes data l)
    (h : node.step C (.postRequest rng i d mid data n ns) = .ok (node', .posted d' (.ok met))) :
    ∃ s, node'.sessionAt i = some s ∧
      met.authoredPacketQueueDelay = C.queueDelayEstimate config.loopCoverProportion
        s.meanAuthoredPacketPeriod s.authoredPacketQueue.queue.length
        config.mixnodeSession.meanAuthoredPacketPeriod config.mixnodeSession.authoredPacketQueue.capacity ∧
      config.loopCoverProportion < 1 ∧
      ¬(s.meanAuthoredPacketPeriod = 0 ∧ config.mixnodeSession.meanAuthoredPacketPeriod = 0) := by
  obtain ⟨s, dest, packets, hp, -⟩ := request_posted hC hr hk hw hd h
  obtain ⟨hI, rfl⟩ := hr.inv hC
  obtain ⟨q, hq, rfl⟩ := hp.metrics
  refine ⟨enqueue s (packets.map (·.packet)), ?_, ?_⟩
  · rw [hp.after]
    have hs := hp.session
    unfold Node.sessionAt at hs
    unfold Node.sessionAt withSession
    by_cases e : i = node.sessionStatus.currentIndex
    · simp only [if_pos e]; rfl
    · rw [if_neg e] at hs
      by_cases e' : i + 1 = node.sessionStatus.currentIndex
      · simp only [if_neg e, if_pos e']; rfl
      · rw [if_neg e'] at hs; cases hs
  · unfold estimateAuthoredPacketQueueDelay at hq
    rw [res_bind_eq_ok] at hq
    obtain ⟨u, h1, hq⟩ := hq
    rw [res_bind_eq_ok] at hq
    obtain ⟨v, h2, hq⟩ := hq
    cases hq
    exact ⟨rfl, of_decide_eq_true (assert_of_ok h1), of_decide_eq_true (assert_of_ok h2)⟩

/-- **C59** (conservative, in the metrics). If the formula is computed exactly, the queue delay in the metrics is at least
the mean time to send all the packets waiting after the call and for a full queue to be sent at the far end. -/
theorem posted_queue_delay_covers (hC : CryptoLaws C) (hE : ExactEstimate C) (hr : Node.Reachable C config node)
    (hk : config.numHops ≤ 6) (hp0 : 0 ≤ config.loopCoverProportion) {rng : Rng}
    {i : Nat} {d d' : Option MixnodeIndex} {mid : MessageId} {data : Scattered Byte} {l : Bytes} {n : Nat} {ns : NetworkStatus}
    {met : RequestMetrics} (hw : (Call.postRequest rng i d mid data n ns).WellTyped) (hd : Denotes data l)
    (h : node.step C (.postRequest rng i d mid data n ns) = .ok (node', .posted d' (.ok met))) :
    ∃ s, node'.sessionAt i = some s ∧
      s.authoredPacketQueue.queue.length * meanPerPacket config.loopCoverProportion s.meanAuthoredPacketPeriod +
        config.mixnodeSession.authoredPacketQueue.capacity *
          meanPerPacket config.loopCoverProportion config.mixnodeSession.meanAuthoredPacketPeriod ≤
      met.authoredPacketQueueDelay := by
  obtain ⟨s, hs, he, h1, h2⟩ := posted_queue_delay hC hr hk hw hd h
  have hp : 0 ≤ config.loopCoverProportion ∧ config.loopCoverProportion < 1 := ⟨hp0, h1⟩
  refine ⟨s, hs, ?_⟩
  rw [he, hE _ _ _ _ _ hp.2 h2]
  have hp1 : ((config.loopCoverProportion : Rat) : ℝ) < 1 := by exact_mod_cast hp.2
  have hp0 : (0 : ℝ) ≤ ((config.loopCoverProportion : Rat) : ℝ) := by exact_mod_cast hp.1
  have hmax : (1 : ℝ) ≤ max (s.meanAuthoredPacketPeriod : ℝ) config.mixnodeSession.meanAuthoredPacketPeriod := by
    rw [le_max_iff]
    by_cases h0 : s.meanAuthoredPacketPeriod = 0
    · refine .inr ?_
      exact_mod_cast Nat.one_le_iff_ne_zero.2 fun h => h2 ⟨h0, h⟩
    · refine .inl ?_
      exact_mod_cast Nat.one_le_iff_ne_zero.2 h0
  have key := queue_delay_exceeds_mean (n := s.authoredPacketQueue.queue.length)
    (m := config.mixnodeSession.authoredPacketQueue.capacity) hp1 (Nat.cast_nonneg s.meanAuthoredPacketPeriod)
    (Nat.cast_nonneg config.mixnodeSession.meanAuthoredPacketPeriod) (lt_of_lt_of_le one_pos hmax)
  have hbig : 1 ≤ meanPerPacket config.loopCoverProportion
      (max (s.meanAuthoredPacketPeriod : ℝ) config.mixnodeSession.meanAuthoredPacketPeriod) := by
    unfold meanPerPacket
    rw [le_div_iff₀ (rate_pos hp1)]
    have : 0.5 * (1 - ((config.loopCoverProportion : Rat) : ℝ)) ≤ 1 := by norm_num; linarith
    linarith
  have hfl := Nat.lt_floor_add_one (queueDelayReal config.loopCoverProportion s.meanAuthoredPacketPeriod
    s.authoredPacketQueue.queue.length config.mixnodeSession.meanAuthoredPacketPeriod
    config.mixnodeSession.authoredPacketQueue.capacity + 1 / 2)
  linarith

/-- `ExactEstimate` can be met. -/
example : ∃ C : Crypto, CryptoLaws C ∧ ExactEstimate C :=
  ⟨{ toyCrypto with queueDelayEstimate := fun p a n b m => ⌊queueDelayReal p a n b m + 1 / 2⌋₊ },
    { toyLaws with }, fun _ _ _ _ _ _ _ => rfl⟩

/-- With the default configuration (a client: 1 s and 100 ms per packet, a quarter of loop cover) and 10 packets waiting, the
estimate is between 85 and 86 s; the mean time is 26.7 s for the requests and 13.3 s for the replies. -/
example : 85 < queueDelayReal 0.25 1 10 0.1 50 ∧ queueDelayReal 0.25 1 10 0.1 50 < 86 := by
  have e : queueDelayReal 0.25 1 10 0.1 50 = 8 / 3 * (4.92582 + 3.87809 * √10.05 + 15) := by
    unfold queueDelayReal sumPercentile
    norm_num
    ring
  have h1 : 3.17 ≤ √10.05 := by
    rw [Real.le_sqrt' (by norm_num)]; norm_num
  have h2 : √10.05 ≤ 3.171 := by
    rw [Real.sqrt_le_left (by norm_num)]; norm_num
  rw [e]
  constructor <;> linarith

/-- Alice's request waits alone in the queue. -/
example : ∃ met s, World.askOut = .posted (some 1) (.ok met) ∧ World.alice1.sessionAt 0 = some s ∧
    s.authoredPacketQueue.queue.length = 1 ∧
    met.authoredPacketQueueDelay = World.C.queueDelayEstimate (World.cfg 3).loopCoverProportion
        s.meanAuthoredPacketPeriod 1 (World.cfg 3).mixnodeSession.meanAuthoredPacketPeriod
        (World.cfg 3).mixnodeSession.authoredPacketQueue.capacity := by
  obtain ⟨met, hmet⟩ := World.askOut_eq
  have h := World.ask_step
  rw [hmet] at h
  obtain ⟨s, hs, he, -⟩ := posted_queue_delay toyLaws World.alice_reachable (by decide) World.ask_typed (Denotes.ofSlice _) h
  have hl : (World.alice1.sessionAt 0).map (·.authoredPacketQueue.queue.length) = some 1 := by decide +kernel
  rw [hs] at hl
  obtain hl : s.authoredPacketQueue.queue.length = 1 := by simpa using hl
  rw [hl] at he
  exact ⟨met, s, hmet, hs, hl, he⟩

end
end Mixnet.Props
