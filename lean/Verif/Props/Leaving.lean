import Verif.Props.Queues
import Verif.Props.Sessions
import Verif.Spec.Leaving
/-!
# C70: a packet to be forwarded leaves in time
-/
namespace Mixnet.Props
open Mixnet Spec
variable {C : Crypto} {m m' : Node} {config : Config}

theorem due_step (hI : m.Inv C) {call out} (hc : StepCase C m call m' out) {d : Nat}
    (ha : ∀ now packet, call = .handlePacket now packet → d < now) :
    (dueBy d m').length = (dueBy d m).length - forwardPops [call] := by
  unfold dueBy
  rcases forward_step hI hc with ⟨now, packet, p, rfl, hf, hq⟩ | ⟨tie, p, rfl, -, hd, hp, hq⟩ | ⟨-, -, h3, hq⟩
  · rw [hq]
    obtain ⟨rel, s, o, t, delay, peer, -, -, -, -, rfl⟩ := hf
    have := ha _ _ rfl
    rw [List.filter_cons_of_neg (by simp only [decide_eq_true_eq]; omega)]
    rfl
  · rw [hq]
    show _ = _ - 1
    have hmin := ((forward_deadline (C := C) m 0).2.1 p.deadline).1 hd
    by_cases hle : p.deadline ≤ d
    · rw [← List.erase_filter, List.length_erase_of_mem]
      exact List.mem_filter.2 ⟨hp, by simpa using hle⟩
    · have hnone : m.forwardPacketQueue.queue.filter (fun p => p.deadline ≤ d) = [] := by
        rw [List.filter_eq_nil_iff]
        intro q hq'
        have := hmin.2 q hq'
        simp only [decide_eq_true_eq]
        omega
      have hsub : ((m.forwardPacketQueue.queue.erase p).filter (fun p => p.deadline ≤ d)) = [] := by
        rw [List.filter_eq_nil_iff] at hnone ⊢
        exact fun q hq' => hnone q (List.mem_of_mem_erase hq')
      rw [hnone, hsub]
      rfl
  · rw [hq]
    cases call with
    | popNextForwardPacket tie => rw [h3 tie rfl]; rfl
    | _ => rfl

theorem forwardPops_cons (c : Call) (cs : List Call) : forwardPops (c :: cs) = forwardPops [c] + forwardPops cs := by
  unfold forwardPops
  rw [← List.length_append, ← List.filter_append]
  rfl

/-- **C70.** Once time `d` has passed, each time the user asks for a packet to forward there is one less of those due by
`d`, until there are none; whatever else happens meanwhile. -/
theorem due_leave (hC : CryptoLaws C) (hr : Node.Reachable C config m) {calls outs} (hw : ∀ c ∈ calls, c.WellTyped)
    (hruns : Node.Runs C m calls outs m') {d : Nat} (ha : HandledAfter d calls) :
    (dueBy d m').length = (dueBy d m).length - forwardPops calls := by
  have hI := (hr.inv hC).1
  clear hr
  induction hruns with
  | nil m => rfl
  | @cons m call m1 out calls outs m2 hs _ ih =>
    have hcase := Node.step_cases hC hI (hw _ List.mem_cons_self) hs
    have h1 := due_step hI hcase (d := d) (fun now packet h => ha now packet (h ▸ List.mem_cons_self))
    have h2 := ih (fun c hc => hw c (List.mem_cons_of_mem _ hc))
      (fun now packet h => ha now packet (List.mem_cons_of_mem _ h)) (Node.inv_stepCase hI hcase)
    rw [h2, h1, forwardPops_cons call calls]
    omega

/-- **C70.** So a packet leaves after the user asked, since its deadline passed, as often as there were packets with the
same or an earlier deadline; at the latest after asking as often as the queue has room for packets. -/
theorem leaves_in_time (hC : CryptoLaws C) (hr : Node.Reachable C config m) {calls outs} (hw : ∀ c ∈ calls, c.WellTyped)
    (hruns : Node.Runs C m calls outs m') {p : ForwardPacket} (hp : p ∈ m.forwardPacketQueue.queue)
    (ha : HandledAfter p.deadline calls)
    (hn : (dueBy p.deadline m).length ≤ forwardPops calls ∨ config.forwardPacketQueueCapacity ≤ forwardPops calls) :
    ∃ arrived left, ForwardLog C m calls outs m' arrived left ∧ p ∈ left ∧ .forwardPacket (some p.packet) ∈ outs := by
  obtain ⟨⟨arrived, left, hl⟩, hperm⟩ := forward_conservation hC hr hw hruns
  have h1 := due_leave hC hr hw hruns ha
  have h2 : (dueBy p.deadline m).length ≤ config.forwardPacketQueueCapacity :=
    Nat.le_trans (List.length_filter_le _ _) (forward_bounded hC hr)
  have h0 : dueBy p.deadline m' = [] := List.length_eq_zero_iff.1 (by omega)
  have hin : p ∈ left := by
    have := (hperm arrived left hl).mem_iff.1 (List.mem_append_left _ hp)
    rcases List.mem_append.1 this with h | h
    · exact h
    · unfold dueBy at h0
      rw [List.filter_eq_nil_iff] at h0
      exact absurd (h0 p h) (by simp)
  refine ⟨arrived, left, hl, hin, ?_⟩
  clear hperm h1 h2 h0 hn ha hp hruns hw hr
  induction hl with
  | nil => cases hin
  | arrive _ _ _ ih => exact List.mem_cons_of_mem _ (ih hin)
  | leave _ _ _ ih =>
    rcases List.mem_cons.1 hin with rfl | h
    · exact List.mem_cons_self
    · exact List.mem_cons_of_mem _ (ih h)
  | other _ _ _ _ ih => exact List.mem_cons_of_mem _ (ih hin)

/-- The theorem applies to Carol's packet to Bob: it leaves when she asks once after its deadline, though she handles
some other packet first. -/
example (packet : Bytes) (hl : packet.length = PACKET_SIZE) : ∃ m₁ out m₂ o arrived left,
    World.carol1.step World.C (.handlePacket (World.packet1.deadline + 1) packet) = .ok (m₁, out) ∧
    m₁.step World.C (.popNextForwardPacket 0) = .ok (m₂, .forwardPacket o) ∧
    ForwardLog World.C World.carol1 [.handlePacket (World.packet1.deadline + 1) packet, .popNextForwardPacket 0]
      [out, .forwardPacket o] m₂ arrived left ∧ World.packet1 ∈ left := by
  have hr : Node.Reachable World.C (World.cfg 7) World.carol1 :=
    World.carol_reachable.step toyLaws World.relay_typed World.relay_step
  obtain ⟨⟨m₁, out⟩, h1⟩ := (no_index_underflow toyLaws hr).1 (World.packet1.deadline + 1) packet hl
  obtain ⟨-, -, m₂, o, h2, -⟩ := forward_deadline (C := World.C) m₁ 0
  have hq := World.carol1_queue.1
  obtain ⟨arrived, left, hlog, hin, -⟩ := leaves_in_time toyLaws hr (calls := [.handlePacket (World.packet1.deadline + 1) packet,
      .popNextForwardPacket 0]) (by
      intro c hc
      simp only [List.mem_cons, List.not_mem_nil, or_false] at hc
      rcases hc with rfl | rfl
      · exact hl
      · trivial) (.cons h1 (.cons h2 (.nil _))) (p := World.packet1) (by rw [hq]; exact List.mem_cons_self) (by
      intro now pk h
      simp only [List.mem_cons, List.not_mem_nil, or_false] at h
      rcases h with h | h
      · cases h; omega
      · cases h) (.inl (by
      unfold dueBy
      rw [hq]
      exact Nat.le_trans (List.length_filter_le _ _) (Nat.le_refl _)))
  exact ⟨m₁, out, m₂, o, arrived, left, h1, h2, hlog, hin⟩

end Mixnet.Props
