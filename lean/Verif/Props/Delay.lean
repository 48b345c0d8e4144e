import Verif.Props.Wire
import Verif.Props.Queues
/-!
# C64: how long a packet is held
-/
namespace Mixnet.Props
open Mixnet Spec

variable {C : Crypto} {config : Config} {m m' : Node}

/-- The delay of a peeled forward action. -/
theorem peeled_delay (hC : CryptoLaws C) {packet out : Bytes} {sec : SharedSecret} {target : Target} {delay : C.Delay}
    (hl : packet.length = 2252) (h : peel C zeroPacket packet sec = .ok (out, .ok (.forwardTo target delay))) :
    delay = forwardingDelay C sec := by
  obtain ⟨out', r, e1, -, hmac, e2⟩ := peel_total hC zeroPacket packet sec zeroPacket_length hl
  rw [h] at e1
  cases e1
  obtain ⟨h1, h2, h3, h4, h5, h6, h7⟩ := e2 (by intro h; cases h)
  rcases Nat.lt_trichotomy (codeOf C packet sec) 0xff00 with hc | hc | hc
  · have := h1 (by omega)
    cases this; rfl
  · have := h2 hc
    cases this; rfl
  · exfalso
    by_cases c1 : codeOf C packet sec = 0xff01
    · have := (h3 c1).2
      split at this <;> cases this
    by_cases c2 : codeOf C packet sec = 0xff02
    · have := (h4 c2).2; cases this
    by_cases c3 : codeOf C packet sec = 0xff03
    · have := h5 c3; cases this
    by_cases c4 : codeOf C packet sec = 0xff04
    · have := h6 c4; cases this
    · have := h7 (by omega); cases this

/-- **C64.** The deadline of a packet put into the queue of packets to be forwarded is the time of arrival plus a delay
that is a function of the shared secret with the sender alone (and of the configured unit). -/
theorem held_for (hC : CryptoLaws C) (hr : Node.Reachable C config m) {now : Nat} {packet : Bytes} {p : ForwardPacket}
    (hl : packet.length = 2252) (h : Forwards C m now packet p) :
    ∃ i s, m.sessionAt i = some s ∧ p.deadline = now +
      C.delayToDuration (forwardingDelay C (C.deriveKxSharedSecret (packet.take 32) s.kxPair.secret))
        config.meanForwardingDelay := by
  obtain ⟨rel, s, out, target, delay, peer, ha, -, -, hpeer, rfl⟩ := h
  obtain ⟨hI, hcfg⟩ := hr.inv hC
  obtain ⟨i, -, hs⟩ := sessionAt_of_slot hI ha.slot
  refine ⟨i, s, hs, ?_⟩
  rw [← hcfg, peeled_delay hC hl ha.peels]
  rfl

/-- **C64.** Which delay a hop applies and the sender counts (both must agree bit for bit): the seed is bytes 48..64 of the 64 bytes
derived from the shared secret, written twice it seeds the generator for one sample of the exponential distribution, and this
is the delay unless it is above ten. -/
theorem delay_sampled (sec : SharedSecret) {seed : Bytes}
    (hs : seed = ((C.deriveSecret 1 sec .smallDerivedSecrets).drop 48).take 16) :
    (C.delayLe (C.expSample (seed ++ seed)) C.delayTen = true → forwardingDelay C sec = C.expSample (seed ++ seed)) ∧
    (C.delayLe (C.expSample (seed ++ seed)) C.delayTen = false → forwardingDelay C sec = C.delayTen) := by
  have e : forwardingDelay C sec = if C.delayLe (C.expSample (seed ++ seed)) C.delayTen then C.expSample (seed ++ seed)
      else C.delayTen := by rw [hs]; rfl
  rw [e]
  exact ⟨fun h => by rw [if_pos h], fun h => by rw [if_neg (by rw [h]; decide)]⟩

/-- Ten units is the longest delay there is. -/
theorem forwarding_delay_capped (hC : CryptoLaws C) (sec : SharedSecret) (unit : Nat) :
    C.delayToDuration (forwardingDelay C sec) unit ≤ C.delayToDuration C.delayTen unit := by
  apply hC.delay_duration_mono
  unfold forwardingDelay Crypto.delayExp
  dsimp only
  split
  · assumption
  · exact (hC.delay_total C.delayTen C.delayTen).elim id id

/-- **C64.** A packet that arrives at time `now` is due for forwarding not before `now`, and at most ten times the mean
forwarding delay later. -/
theorem held_at_most (hC : CryptoLaws C) (hr : Node.Reachable C config m)
    (h10 : C.delayToDuration C.delayTen config.meanForwardingDelay = 10 * config.meanForwardingDelay)
    {now : Nat} {packet : Bytes} {p : ForwardPacket} (hl : packet.length = 2252) (h : Forwards C m now packet p) :
    now ≤ p.deadline ∧ p.deadline ≤ now + 10 * config.meanForwardingDelay := by
  obtain ⟨i, s, -, e⟩ := held_for hC hr hl h
  have := forwarding_delay_capped hC (C.deriveKxSharedSecret (packet.take 32) s.kxPair.secret) config.meanForwardingDelay
  omega

/-- **C64.** If all packets of a history arrived by time `t`, then at its end no queued packet is due later than ten
times the mean forwarding delay after `t`; so a node that pops packets when they are due has sent all of them
by then. -/
theorem all_due (hC : CryptoLaws C) (h10 : C.delayToDuration C.delayTen config.meanForwardingDelay = 10 * config.meanForwardingDelay)
    {t : Nat} (hr : Node.Reachable C config m) {calls outs} (hw : ∀ c ∈ calls, c.WellTyped)
    (hruns : Node.Runs C m calls outs m') (ht : ∀ now packet, .handlePacket now packet ∈ calls → now ≤ t)
    (h0 : ∀ p ∈ m.forwardPacketQueue.queue, p.deadline ≤ t + 10 * config.meanForwardingDelay) :
    (∀ p ∈ m'.forwardPacketQueue.queue, p.deadline ≤ t + 10 * config.meanForwardingDelay) ∧
    ∀ d, m'.nextForwardPacketDeadline = some d → d ≤ t + 10 * config.meanForwardingDelay := by
  suffices hq : ∀ p ∈ m'.forwardPacketQueue.queue, p.deadline ≤ t + 10 * config.meanForwardingDelay by
    refine ⟨hq, fun d hd => ?_⟩
    obtain ⟨⟨p, hp, rfl⟩, -⟩ := ((forward_deadline (C := C) m' 0).2.1 d).1 hd
    exact hq p hp
  induction hruns with
  | nil => exact h0
  | @cons m call m1 out calls outs m' hstep hruns ih =>
    have hw0 := hw call List.mem_cons_self
    refine ih (hr.step hC hw0 hstep) (fun c hc => hw c (List.mem_cons_of_mem _ hc))
      (fun now packet hm => ht now packet (List.mem_cons_of_mem _ hm)) ?_
    obtain ⟨hI, -⟩ := hr.inv hC
    rcases forward_step hI (Node.step_cases hC hI hw0 hstep) with
      ⟨now, packet, p, rfl, hf, hq⟩ | ⟨tie, p, rfl, -, -, -, hq⟩ | ⟨-, -, -, hq⟩
    · rw [hq]
      intro p' hp'
      rcases List.mem_cons.1 hp' with rfl | hp'
      · have := held_at_most hC hr h10 hw0 hf
        have := ht now packet List.mem_cons_self
        omega
      · exact h0 p' hp'
    · rw [hq]
      intro p' hp'
      exact h0 p' (List.mem_of_mem_erase hp')
    · rw [hq]; exact h0

/-! ## A case -/
section Examples
open World

/-- Carol gets a packet at time 1000; her mean forwarding delay is as configured. -/
example : ∃ p, Forwards World.C carol 1000 packet0.packet p ∧
    p.deadline ≤ 1000 + 10 * (cfg 7).meanForwardingDelay ∧ 0 < (cfg 7).meanForwardingDelay := by
  obtain ⟨p, hp⟩ : ∃ p, Forwards World.C carol 1000 packet0.packet p := by
    obtain ⟨hI, -⟩ := carol_reachable.inv toyLaws
    have hc := Node.step_cases toyLaws hI relay_typed relay_step
    rcases forward_step hI hc with ⟨now, packet, p, hcall, hf, -⟩ | ⟨tie, p, hcall, -⟩ | ⟨-, -, -, hq⟩
    · cases hcall; exact ⟨p, hf⟩
    · cases hcall
    · rw [carol1_queue.1] at hq
      have : carol.forwardPacketQueue.queue = [] := by decide +kernel
      rw [this] at hq; cases hq
  exact ⟨p, hp, (held_at_most toyLaws carol_reachable rfl packet0_length hp).2, by decide⟩

/-- And all she has is due by then. -/
example : ∀ d, carol1.nextForwardPacketDeadline = some d → d ≤ 1000 + 10 * (cfg 7).meanForwardingDelay :=
  (all_due (t := 1000) toyLaws rfl carol_reachable (fun c hc => by rw [List.mem_singleton.1 hc]; exact relay_typed)
    (.cons relay_step (.nil _)) (fun now packet h => by
      have : Call.handlePacket now packet = relay := List.mem_singleton.1 h
      cases this; exact Nat.le_refl _)
    (fun p hp => by
      have : carol.forwardPacketQueue.queue = [] := by decide +kernel
      rw [this] at hp; cases hp)).2

end Examples
end Mixnet.Props
