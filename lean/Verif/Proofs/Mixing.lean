import Verif.Spec.Mixing
import Verif.Proofs.Timely
import Verif.Proofs.MixingOdds
/-!
# Lemmas for C101
-/
set_option exponentiation.threshold 2000
namespace Mixnet
open Spec Props

variable {C : Crypto} {config : Config} {m m' : Node}

/-! ### Order -/

theorem reachable_runs (hC : CryptoLaws C) (hr : Node.Reachable C config m) {calls outs} (hw : ∀ c ∈ calls, c.WellTyped)
    (h : Node.Runs C m calls outs m') : Node.Reachable C config m' := by
  induction h with
  | nil => exact hr
  | cons hs _ ih =>
    exact ih (hr.step hC (hw _ List.mem_cons_self) hs) (fun c hc => hw c (List.mem_cons_of_mem _ hc))

/-- What is due earlier leaves earlier. -/
theorem earlier_first (hC : CryptoLaws C) (hr : Node.Reachable C config m) {p q : ForwardPacket}
    (hp : p ∈ m.forwardPacketQueue.queue) (hlt : p.deadline < q.deadline) : TwoPackets.Before C m p q := by
  intro calls outs m' arrived left hw hl
  induction hl with
  | nil m => intro a b h; cases a <;> cases h
  | @arrive m now packet m1 out calls outs m2 p' arrived left hf hs _ ih =>
    have hw0 := hw _ List.mem_cons_self
    have hI := (hr.inv hC).1
    refine ih (hr.step hC hw0 hs) ?_ (fun c hc => hw c (List.mem_cons_of_mem _ hc))
    rcases forward_step hI (Node.step_cases hC hI hw0 hs) with ⟨_, _, p'', hcall, hf', hq⟩ | ⟨tie, p', hcall, -⟩ | ⟨-, -, -, hq⟩
    · rw [hq]; exact List.mem_cons_of_mem _ hp
    · cases hcall
    · rw [hq]; exact hp
  | @leave m tie m1 p' calls outs m2 d arrived left hd hs _ ih =>
    have hw0 := hw _ List.mem_cons_self
    have hI := (hr.inv hC).1
    have hmin := (((forward_deadline (C := C) m 0).2.1 d).1 hd).2 p hp
    have ih := ih (hr.step hC hw0 hs)
    rcases forward_step hI (Node.step_cases hC hI hw0 hs) with ⟨_, _, p'', hcall, -⟩ | ⟨tie', p'', hcall, hout, hd', hm, hq⟩ | ⟨-, h2, -⟩
    · cases hcall
    · intro a b hab
      cases hout
      rw [hd] at hd'
      cases hd'
      cases a with
      | nil =>
        have h := (List.cons.inj hab).1
        rw [← h] at hlt
        exact absurd hmin (Nat.not_le.2 hlt)
      | cons x a =>
        obtain ⟨h1, h2⟩ := List.cons.inj hab
        by_cases he : p = p''
        · rw [← h1, he]; exact List.mem_cons_self
        · refine List.mem_cons_of_mem _ (ih ?_ (fun c hc => hw c (List.mem_cons_of_mem _ hc)) a b h2)
          rw [hq]
          exact (List.mem_erase_of_ne he).2 hp
    · exact absurd rfl (h2 _)
  | @other m call m1 out calls outs m2 arrived left h1 h2 hs _ ih =>
    have hw0 := hw _ List.mem_cons_self
    have hI := (hr.inv hC).1
    refine ih (hr.step hC hw0 hs) ?_ (fun c hc => hw c (List.mem_cons_of_mem _ hc))
    rcases forward_step hI (Node.step_cases hC hI hw0 hs) with ⟨_, _, p'', hcall, hf', hq⟩ | ⟨tie, p', -, hout, -⟩ | ⟨-, -, -, hq⟩
    · rw [hq]; exact List.mem_cons_of_mem _ hp
    · exact absurd hout (h2 _)
    · rw [hq]; exact hp

theorem forwards_queued (hC : CryptoLaws C) (hr : Node.Reachable C config m) {now : Nat} {packet : Bytes} {p : ForwardPacket}
    {out : Outcome} (hl : packet.length = 2252) (hf : Forwards C m now packet p)
    (hs : m.step C (.handlePacket now packet) = .ok (m', out)) :
    m'.forwardPacketQueue.queue = p :: m.forwardPacketQueue.queue := by
  have hI := (hr.inv hC).1
  have hw : (Call.handlePacket now packet).WellTyped := hl
  rcases forward_step hI (Node.step_cases hC hI hw hs) with ⟨_, _, p'', hcall, hf', hq⟩ | ⟨tie, p', hcall, -⟩ | ⟨h1, -⟩
  · cases hcall
    rw [hq, forwards_unique hf hf']
  · cases hcall
  · exact absurd hf (h1 _ _ _ rfl)

/-- How long a packet with a given seed is held. -/
def heldFor (C : Crypto) (config : Config) (seed : Bytes) : Nat :=
  C.delayToDuration (C.delayExp seed) config.meanForwardingDelay

theorem deadline_of_seed (hC : CryptoLaws C) (hr : Node.Reachable C config m) {now : Nat} {packet seed : Bytes} {p : ForwardPacket}
    (hl : packet.length = 2252) (h : ForwardsWith C m now packet seed p) : p.deadline = now + heldFor C config seed := by
  obtain ⟨⟨rel, s, out, target, delay, peer, ha, -, -, -, rfl⟩, hseed⟩ := h
  obtain ⟨-, hcfg⟩ := hr.inv hC
  have h1 := hseed _ _ _ _ ha
  rw [peeled_delay hC hl ha.peels]
  dsimp only
  rw [h1, hcfg]
  rfl

/-- What the times for which the packets are held say about the order. -/
theorem arrived_order (hC : CryptoLaws C) {t : TwoPackets} (hl1 : t.packet₁.length = 2252) (hl2 : t.packet₂.length = 2252)
    {m : Node} {p₁ p₂ : ForwardPacket} (h : t.Arrived C m p₁ p₂) :
    p₁.deadline = t.now₁ + heldFor C t.config t.seed₁ ∧ p₂.deadline = t.now₂ + heldFor C t.config t.seed₂ ∧
    (p₂.deadline < p₁.deadline → TwoPackets.Before C m p₂ p₁) ∧
    (p₁.deadline < p₂.deadline → p₁ ∈ m.forwardPacketQueue.queue → TwoPackets.Before C m p₁ p₂) := by
  obtain ⟨m0, out1, m1, calls, outs, m2, out2, hr, hf1, hs1, hw, hruns, hf2, hs2⟩ := h
  have hr1 := hr.step hC (call := .handlePacket t.now₁ t.packet₁) hl1 hs1
  have hr2 := reachable_runs hC hr1 hw hruns
  have hr3 := hr2.step hC (call := .handlePacket t.now₂ t.packet₂) hl2 hs2
  refine ⟨deadline_of_seed hC hr hl1 hf1, deadline_of_seed hC hr2 hl2 hf2, fun hlt => ?_, fun hlt hp => earlier_first hC hr3 hp hlt⟩
  refine earlier_first hC hr3 ?_ hlt
  rw [forwards_queued hC hr2 hl2 hf2.1 hs2]
  exact List.mem_cons_self

theorem arrivedAll_order (hC : CryptoLaws C) {as : List Arrival} (hl : ∀ a ∈ as, a.packet.length = 2252) {m : Node}
    {ps : List ForwardPacket} (h : ArrivedAll C config as m ps) :
    Node.Reachable C config m ∧ List.Forall₂ (fun a p => p.deadline = a.now + heldFor C config a.seed) as ps := by
  induction h with
  | start hr => exact ⟨hr, .nil⟩
  | @arrive as m ps a p m' out _ hf hs ih =>
    obtain ⟨hr, hd⟩ := ih fun a ha => hl a (List.mem_cons_of_mem _ ha)
    have hla := hl a List.mem_cons_self
    exact ⟨hr.step hC (call := .handlePacket a.now a.packet) hla hs, .cons (deadline_of_seed hC hr hla hf) hd⟩
  | other _ hw hruns ih =>
    obtain ⟨hr, hd⟩ := ih hl
    exact ⟨reachable_runs hC hr hw hruns, hd⟩

/-- What the times for which the packets are held say about which is next. -/
theorem isNext_of_held (hC : CryptoLaws C) {as : List Arrival} (hl : ∀ a ∈ as, a.packet.length = 2252) {now : Nat} {i : Fin as.length}
    (h1 : now < as[i].now + heldFor C config as[i].seed)
    (h2 : ∀ j : Fin as.length, j ≠ i → as[i].now + heldFor C config as[i].seed < as[j].now + heldFor C config as[j].seed) :
    IsNext C config as now i := by
  intro m ps h
  obtain ⟨hr, hd⟩ := arrivedAll_order hC hl h
  have hlen := hd.length_eq
  have hget : ∀ (j : ℕ) (q : ForwardPacket), ps[j]? = some q →
      ∃ hj : j < as.length, q.deadline = (as[j]'hj).now + heldFor C config (as[j]'hj).seed := by
    intro j q hq
    obtain ⟨hj, rfl⟩ := List.getElem?_eq_some_iff.1 hq
    have hj' : j < as.length := by omega
    exact ⟨hj', (List.forall₂_iff_get.1 hd).2 j hj' hj⟩
  refine ⟨fun p hp => ?_, fun p hp hq j q hne hj => ?_⟩
  · obtain ⟨j, hj, rfl⟩ := List.mem_iff_getElem.1 hp
    obtain ⟨hj', e⟩ := hget j _ (List.getElem?_eq_getElem hj)
    rw [e]
    by_cases hji : (⟨j, hj'⟩ : Fin as.length) = i
    · rw [← hji] at h1
      exact h1
    · exact lt_trans h1 (h2 ⟨j, hj'⟩ hji)
  · obtain ⟨hi', e⟩ := hget i p hp
    obtain ⟨hj', e'⟩ := hget j q hj
    refine earlier_first hC hr hq ?_
    rw [e, e']
    exact h2 ⟨j, hj'⟩ fun h => hne (congrArg Fin.val h)

/-! ### Durations -/

theorem mulDuration_real {d : Rat} (h0 : 0 ≤ d) (h10 : d ≤ 10) {u : ℕ} (hu : 100 * u ≤ 2 ^ 49) :
    |(Binary64.mulDuration d u : ℝ) - (d : ℝ) * u| ≤ 3 / 4 := by
  have h1 : |(Binary64.mulDuration d u : ℝ) - (d : ℝ) * ((Binary64.asSecs u : Rat) * 10 ^ 9)| ≤
      1 / 2 + (d : ℝ) * ((Binary64.asSecs u : Rat) * 10 ^ 9) / 2 ^ 53 + 10 ^ 9 / 2 ^ 1074 := by
    have := (Rat.cast_le (K := ℝ)).2 (Binary64.mulDuration_near h0 (u := u))
    push_cast at this
    exact this
  have hA0 : (0 : ℝ) ≤ ((Binary64.asSecs u : Rat) : ℝ) := by exact_mod_cast Binary64.asSecs_nonneg u
  have hr := Binary64.asSecs_rel u
  have hu' : (u : ℝ) ≤ 2 ^ 49 / 100 := by
    rw [le_div_iff₀ (by norm_num), mul_comm]; exact_mod_cast hu
  have hd0 : (0 : ℝ) ≤ (d : ℝ) := by exact_mod_cast h0
  have hd10 : (d : ℝ) ≤ 10 := by exact_mod_cast h10
  have hu0 : (0 : ℝ) ≤ u := Nat.cast_nonneg u
  set A : ℝ := ((Binary64.asSecs u : Rat) : ℝ) * 10 ^ 9 with hA
  have hl : (u : ℝ) * (1 - Binary64.ulp) ^ 2 ≤ A := by
    have := mul_le_mul_of_nonneg_right hr.left (show (0 : ℝ) ≤ 10 ^ 9 by norm_num)
    rw [hA]
    calc (u : ℝ) * (1 - Binary64.ulp) ^ 2 = u / 10 ^ 9 * (1 - Binary64.ulp) ^ 2 * 10 ^ 9 := by ring
      _ ≤ _ := this
  have hrr : A * (1 - Binary64.ulp) ^ 2 ≤ u := by
    have := mul_le_mul_of_nonneg_right hr.right (show (0 : ℝ) ≤ 10 ^ 9 by norm_num)
    rw [hA]
    calc _ = ((Binary64.asSecs u : Rat) : ℝ) * (1 - Binary64.ulp) ^ 2 * 10 ^ 9 := by ring
      _ ≤ u / 10 ^ 9 * 10 ^ 9 := this
      _ = u := by ring
  have hulp : (1 - 1 / 2 ^ 52 : ℝ) ≤ (1 - Binary64.ulp) ^ 2 := by unfold Binary64.ulp; norm_num
  have hA00 : 0 ≤ A := by positivity
  have b1 : (u : ℝ) * (1 - 1 / 2 ^ 52) ≤ A := le_trans (mul_le_mul_of_nonneg_left hulp hu0) hl
  have b2 : A * (1 - 1 / 2 ^ 52) ≤ u := le_trans (mul_le_mul_of_nonneg_left hulp hA00) hrr
  have bA : |A - u| ≤ 1 / 100 := by
    rw [abs_le]
    have : A ≤ 2 ^ 49 / 99 := by norm_num at b2 hu' ⊢; linarith
    constructor
    · norm_num at b1 hu' ⊢; linarith
    · norm_num at b2 this ⊢; linarith
  have e : (Binary64.mulDuration d u : ℝ) - (d : ℝ) * u = ((Binary64.mulDuration d u : ℝ) - (d : ℝ) * A) + d * (A - u) := by ring
  rw [e]
  have h2 : |(d : ℝ) * (A - u)| ≤ 10 * (1 / 100) := by
    rw [abs_mul, abs_of_nonneg hd0]
    exact mul_le_mul hd10 bA (abs_nonneg _) (by norm_num)
  have h3 : (d : ℝ) * A / 2 ^ 53 ≤ 1 / 10 := by
    have := (abs_le.1 bA).2
    have h4 : (d : ℝ) * A ≤ 10 * (2 ^ 49 / 100 + 1 / 100) := mul_le_mul hd10 (by linarith) hA00 (by norm_num)
    norm_num at h4 ⊢
    linarith
  have h4 : (10 : ℝ) ^ 9 / 2 ^ 1074 ≤ 1 / 100 := by
    rw [div_le_div_iff₀ (by positivity) (by norm_num)]
    calc (10 : ℝ) ^ 9 * 100 ≤ 1 * 2 ^ 100 := by norm_num
      _ ≤ 1 * 2 ^ 1074 := by gcongr <;> norm_num
  refine le_trans (abs_add_le _ _) ?_
  linarith

theorem min_near {s x : ℝ} (hx : 0 ≤ x) (h : |s - x| ≤ x / 2 ^ 52) : |min s 10 - min x 10| ≤ 11 / 2 ^ 52 := by
  rcases le_total x 11 with h1 | h1
  · refine le_trans (abs_min_sub_min_le_max s 10 x 10) ?_
    rw [sub_self, abs_zero]
    refine max_le (le_trans h ?_) (by norm_num)
    gcongr
  · have h2 := (abs_le.1 h).1
    have : 10 ≤ s := by norm_num at h2; linarith
    rw [min_eq_right this, min_eq_right (by linarith), sub_self, abs_zero]
    norm_num

/-- A packet is held for the exponential sample times the mean, capped, to within a nanosecond. -/
theorem held_near (F : F64Delays C) {seed : Bytes} {x : ℝ} (hx : 0 ≤ x)
    (h : |(F.value (C.expSample (seed ++ seed)) : ℝ) - x| ≤ x / 2 ^ 52) (hu : 100 * config.meanForwardingDelay ≤ 2 ^ 49) :
    |(heldFor C config seed : ℝ) - min x 10 * config.meanForwardingDelay| ≤ 1 := by
  have hv : (F.value (C.delayExp seed) : Rat) = min (F.value (C.expSample (seed ++ seed))) 10 := by
    unfold Crypto.delayExp
    dsimp only
    by_cases hle : C.delayLe (C.expSample (seed ++ seed)) C.delayTen = true
    · rw [if_pos hle, min_eq_left]
      rw [F.le, F.ten] at hle
      exact hle
    · rw [if_neg hle, F.ten, min_eq_right]
      rw [F.le, F.ten] at hle
      exact le_of_lt (not_le.1 hle)
  have hn := min_near hx h
  have hs0 : 0 ≤ F.value (C.expSample (seed ++ seed)) := by
    have h1 := (abs_le.1 h).1
    have : (0 : ℝ) ≤ (F.value (C.expSample (seed ++ seed)) : ℝ) := by
      have : x / 2 ^ 52 ≤ x := div_le_self hx (by norm_num)
      linarith
    exact_mod_cast this
  have h0 : 0 ≤ F.value (C.delayExp seed) := by rw [hv]; exact le_min hs0 (by norm_num)
  have h10 : F.value (C.delayExp seed) ≤ 10 := by rw [hv]; exact min_le_right _ _
  have h1 := mulDuration_real h0 h10 hu
  have hv' : (F.value (C.delayExp seed) : ℝ) = min (F.value (C.expSample (seed ++ seed)) : ℝ) 10 := by
    rw [hv]; push_cast; rfl
  have hu' : (config.meanForwardingDelay : ℝ) ≤ 2 ^ 49 / 100 := by
    rw [le_div_iff₀ (by norm_num), mul_comm]; exact_mod_cast hu
  unfold heldFor
  rw [F.duration]
  generalize (Binary64.mulDuration (F.value (C.delayExp seed)) config.meanForwardingDelay : ℝ) = D at *
  rw [hv'] at h1
  generalize min (F.value (C.expSample (seed ++ seed)) : ℝ) 10 = v at *
  have e : D - min x 10 * config.meanForwardingDelay =
      (D - v * config.meanForwardingDelay) + (v - min x 10) * config.meanForwardingDelay := by ring
  rw [e]
  have h2 : |(v - min x 10) * (config.meanForwardingDelay : ℝ)| ≤ 11 / 2 ^ 52 * (2 ^ 49 / 100) := by
    rw [abs_mul, abs_of_nonneg (show (0 : ℝ) ≤ config.meanForwardingDelay from Nat.cast_nonneg _)]
    exact mul_le_mul hn hu' (Nat.cast_nonneg _) (by norm_num)
  refine le_trans (abs_add_le _ _) ?_
  norm_num at h2 ⊢
  linarith

end Mixnet
