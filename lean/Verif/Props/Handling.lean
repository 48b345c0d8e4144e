import Verif.Props.Queues
/-!
# C10 (at the node), C36, C37: handling packets
-/
namespace Mixnet.Props
open Mixnet Spec

variable {C : Crypto} (hC : CryptoLaws C) {config : Config} {m m' : Node}
include hC

/-- What handling does to a packet that is accepted. -/
theorem handled (hI : m.Inv C) {now packet rel s out a} (hw : (Call.handlePacket now packet).WellTyped)
    (hacc : Accepts C m packet rel s out a) :
    ∃ m' msg, Effect C m now packet rel s out a m' msg ∧ m.step C (.handlePacket now packet) = .ok (m', .message msg) := by
  rcases handlePacket_spec hC m now hw hI.assembler hI.index_of_full with
    ⟨hno, -⟩ | ⟨out2, a2, rel2, s2, m3, msg, ha, he, heq⟩
  · exact absurd hacc (hno _ _ _ _)
  · obtain ⟨rfl, rfl, rfl, rfl⟩ := accepts_unique hacc ha
    refine ⟨m3, msg, he, ?_⟩
    show (m.handlePacket C now packet >>= _) = _
    rw [heq]; rfl

/-- **C36.** Handling any packet whatsoever in any reachable state does not panic. It keeps configuration,
session status, and the key pair for the next session; and the sessions, except that the replay
filter of one session, in which the local node is a mixnode, may change. So queues of authored packets,
topologies and keys are kept. A packet that no session accepts does nothing. -/
theorem handle_packet_safe (hr : Node.Reachable C config m) (now : Nat) (packet : Bytes) (hp : packet.length = PACKET_SIZE) :
    ∃ m' msg, m.step C (.handlePacket now packet) = .ok (m', .message msg) ∧
      m'.config = m.config ∧ m'.sessionStatus = m.sessionStatus ∧ m'.nextKxPair = m.nextKxPair ∧
      (m'.sessions = m.sessions ∨ ∃ rel s filter, m.sessions.get rel = .full s ∧ s.topology.isMixnode = true ∧
        m'.sessions = m.sessions.set rel (.full { s with replayFilter := filter })) ∧
      ((∀ rel s out a, ¬ Accepts C m packet rel s out a) → m' = m ∧ msg = none) := by
  obtain ⟨hI, -⟩ := hr.inv hC
  by_cases hex : ∃ rel s out a, Accepts C m packet rel s out a
  · obtain ⟨rel, s, out, a, hacc⟩ := hex
    obtain ⟨m', msg, he, hstep⟩ := handled hC hI (now := now) hp hacc
    refine ⟨m', msg, hstep, ?_⟩
    have hslot := hacc.slot
    cases he with
    | forwardNowhere t d e h1 h2 h3 =>
      exact ⟨rfl, rfl, rfl, .inr ⟨rel, s, _, hslot, h1, rfl⟩, fun hno => absurd hacc (hno _ _ _ _)⟩
    | forward t d peer ev h1 h2 h3 h4 =>
      exact ⟨rfl, rfl, rfl, .inr ⟨rel, s, _, hslot, h1, rfl⟩, fun hno => absurd hacc (hno _ _ _ _)⟩
    | request a o index h1 h2 h3 h4 =>
      exact ⟨rfl, rfl, rfl, .inr ⟨rel, s, _, hslot, h1, rfl⟩, fun hno => absurd hacc (hno _ _ _ _)⟩
    | _ => exact ⟨rfl, rfl, rfl, .inl rfl, fun hno => absurd hacc (hno _ _ _ _)⟩
  · have hno : ∀ out a rel s, ¬ Accepts C m packet rel s out a := fun out a rel s h => hex ⟨rel, s, out, a, h⟩
    rcases handlePacket_spec hC m now hp hI.assembler hI.index_of_full with ⟨-, he⟩ | ⟨out2, a2, rel2, s2, m3, msg, ha, -⟩
    · refine ⟨m, none, ?_, rfl, rfl, rfl, .inl rfl, fun _ => ⟨rfl, rfl⟩⟩
      show (m.handlePacket C now packet >>= _) = _
      rw [he]; rfl
    · exact absurd ha (hno _ _ _ _)

/-- **C10** (at the node). A cover packet that is delivered does nothing. -/
theorem cover_does_nothing (hr : Node.Reachable C config m) {now packet rel s out id} (hp : packet.length = PACKET_SIZE)
    (hacc : Accepts C m packet rel s out (.deliverCover id)) :
    m.step C (.handlePacket now packet) = .ok (m, .message none) := by
  obtain ⟨hI, -⟩ := hr.inv hC
  obtain ⟨m', msg, he, hstep⟩ := handled hC hI (now := now) hp hacc
  generalize hm : m' = m1 at he
  cases he with
  | cover => rw [hstep, hm]

/-- **C37.** A mixnode that peels a packet, not seen before, to a forward action, with room in its queue and
a known target, queues exactly the peeled packet for the peer of the target, due after the delay. Besides
that, only the replay filter of the session changes, and maybe the deadline event. -/
theorem forwards_packet (hr : Node.Reachable C config m) {now packet rel s out target delay peer}
    (hp : packet.length = PACKET_SIZE) (hacc : Accepts C m packet rel s out (.forwardTo target delay))
    (hmix : s.topology.isMixnode = true)
    (hroom : m.forwardPacketQueue.queue.length < config.forwardPacketQueueCapacity)
    (hpeer : peerOf s.topology target = some peer) :
    ∃ q ev, m.step C (.handlePacket now packet) = .ok ({ m with
        sessions := m.sessions.set rel (.full { s with replayFilter := s.replayFilter.insert (s.tagFor C packet) })
        forwardPacketQueue := { m.forwardPacketQueue with queue := q }
        events := ev }, .message none) ∧
      q.Perm (⟨now + C.delayToDuration delay config.meanForwardingDelay, ⟨peer, out⟩⟩ :: m.forwardPacketQueue.queue) := by
  obtain ⟨hI, rfl⟩ := hr.inv hC
  have hcap := hI.forwardCapacity
  obtain ⟨m', msg, he, hstep⟩ := handled hC hI (now := now) hp hacc
  rw [hstep]
  cases he with
  | forwardNotMixnode _ _ h => rw [hmix] at h; cases h
  | forwardFull _ _ h1 h2 => omega
  | forwardNowhere _ _ e h1 h2 h3 => rw [targetToPeerId_ok.2 hpeer] at h3; cases h3
  | forward _ _ peer' ev h1 h2 h3 h4 =>
    rw [targetToPeerId_ok.2 hpeer] at h3; cases h3
    exact ⟨_, _, rfl, List.Perm.refl _⟩

/-- **C37.** When the queue is full the packet is dropped without being marked as seen: nothing changes. -/
theorem full_queue_drops (hr : Node.Reachable C config m) {now packet rel s out target delay}
    (hp : packet.length = PACKET_SIZE) (hacc : Accepts C m packet rel s out (.forwardTo target delay))
    (hfull : config.forwardPacketQueueCapacity ≤ m.forwardPacketQueue.queue.length) :
    m.step C (.handlePacket now packet) = .ok (m, .message none) := by
  obtain ⟨hI, rfl⟩ := hr.inv hC
  have hcap := hI.forwardCapacity
  obtain ⟨m', msg, he, hstep⟩ := handled hC hI (now := now) hp hacc
  rw [hstep]
  generalize hm : m' = m1 at he
  cases he with
  | forwardNotMixnode _ _ h => rfl
  | forwardFull _ _ h1 h2 => rfl
  | forwardNowhere _ _ e h1 h2 h3 => omega
  | forward _ _ peer' ev h1 h2 h3 h4 => omega

/-- **C37.** With an unknown target nothing is queued; the packet is only marked as seen. -/
theorem unknown_target_drops (hr : Node.Reachable C config m) {now packet rel s out target delay}
    (hp : packet.length = PACKET_SIZE) (hacc : Accepts C m packet rel s out (.forwardTo target delay))
    (hpeer : peerOf s.topology target = none) :
    ∃ m', m.step C (.handlePacket now packet) = .ok (m', .message none) ∧
      m'.forwardPacketQueue = m.forwardPacketQueue ∧ m' = { m with sessions := m'.sessions } := by
  obtain ⟨hI, rfl⟩ := hr.inv hC
  obtain ⟨m', msg, he, hstep⟩ := handled hC hI (now := now) hp hacc
  cases he with
  | forwardNotMixnode _ _ h => exact ⟨_, hstep, rfl, rfl⟩
  | forwardFull _ _ h1 h2 => exact ⟨_, hstep, rfl, rfl⟩
  | forwardNowhere _ _ e h1 h2 h3 => exact ⟨_, hstep, rfl, rfl⟩
  | forward _ _ peer' ev h1 h2 h3 h4 => rw [targetToPeerId_ok, hpeer] at h3; cases h3

/-- **C37.** A node that is not a mixnode in the session that accepts the packet neither forwards it nor
delivers a request from it: nothing changes, unless it is a reply. -/
theorem non_mixnode_only_replies (hr : Node.Reachable C config m) {now packet rel s out a}
    (hp : packet.length = PACKET_SIZE) (hacc : Accepts C m packet rel s out a)
    (hmix : s.topology.isMixnode = false) :
    (∃ m' msg, m.step C (.handlePacket now packet) = .ok (m', .message msg) ∧
      m'.forwardPacketQueue = m.forwardPacketQueue ∧ m'.sessions = m.sessions ∧ ∀ r, msg ≠ some (.request r)) ∧
    ((∀ id, a ≠ .deliverReply id) → m.step C (.handlePacket now packet) = .ok (m, .message none)) := by
  obtain ⟨hI, rfl⟩ := hr.inv hC
  obtain ⟨m', msg, he, hstep⟩ := handled hC hI (now := now) hp hacc
  rw [hstep]
  cases he with
  | forwardNowhere _ _ e h1 h2 h3 => rw [hmix] at h1; cases h1
  | forward _ _ peer' ev h1 h2 h3 h4 => rw [hmix] at h1; cases h1
  | request _ _ _ h1 => rw [hmix] at h1; cases h1
  | reply id v payload a o h1 h2 h3 h4 h5 =>
    refine ⟨⟨_, _, rfl, rfl, rfl, ?_⟩, fun h => absurd rfl (h id)⟩
    intro r; cases o <;> simp
  | replyBad id v payload e h1 h2 => exact ⟨⟨_, _, rfl, rfl, rfl, by simp⟩, fun h => absurd rfl (h id)⟩
  | replyUnknown id h1 => exact ⟨⟨_, _, rfl, rfl, rfl, by simp⟩, fun h => absurd rfl (h id)⟩
  | _ => exact ⟨⟨_, _, rfl, rfl, rfl, by simp⟩, fun _ => rfl⟩

/-! ### The hypotheses can be met -/
section Examples
omit hC
open World

/-- Bob's session peels Alice's cover packet, after Carol, to a cover action. -/
theorem cover_accepted : ∃ s out id, Accepts World.C bob cover1.packet.packet .current s out (.deliverCover id) := by
  have h : (match bob.sessions.current with
    | .full s => (!s.replayFilter.contains (s.tagFor World.C cover1.packet.packet)) &&
      (match peel World.C zeroPacket cover1.packet.packet (s.secretFor World.C cover1.packet.packet) with
       | .ok (out, .ok (.deliverCover _)) => out.length == PACKET_SIZE
       | _ => false)
    | _ => false) = true := by decide +kernel
  obtain ⟨slot, hslot⟩ : ∃ slot, bob.sessions.current = slot := ⟨_, rfl⟩
  rw [hslot] at h
  match slot, hslot, h with
  | .full s, hslot, h =>
    dsimp only at h
    rw [Bool.and_eq_true] at h
    obtain ⟨h1, h2⟩ := h
    obtain ⟨x, hx⟩ : ∃ x, peel World.C zeroPacket cover1.packet.packet (s.secretFor World.C cover1.packet.packet) = x := ⟨_, rfl⟩
    rw [hx] at h2
    match x, hx, h2 with
    | .ok (out, .ok (.deliverCover id)), hx, h2 =>
      exact ⟨s, out, id, hslot, by simpa using h1, hx, fun h => (by cases h), by simpa using h2⟩

example : bob.step World.C (.handlePacket 9 cover1.packet.packet) = .ok (bob, .message none) := by
  obtain ⟨s, out, id, h⟩ := cover_accepted
  exact cover_does_nothing toyLaws bob_reachable cover1_length h

/-- Carol forwards Alice's request. -/
example : ∃ q ev ss, carol.step World.C relay = .ok ({ carol with
    sessions := ss, forwardPacketQueue := { carol.forwardPacketQueue with queue := q }, events := ev }, .message none) ∧
    q.length = 1 := by
  have hI := (World.carol_reachable.inv toyLaws).1
  have hc := Node.step_cases toyLaws hI World.relay_typed World.relay_step
  have hempty : World.carol.forwardPacketQueue.queue = [] := by decide +kernel
  rcases forward_step hI hc with ⟨now, packet, p, hcall, hf, -⟩ | ⟨tie, p, hcall, -⟩ | ⟨-, -, -, hq⟩
  · cases hcall
    obtain ⟨rel, s, out, target, delay, peer, h1, h2, h3, h4, h5⟩ := hf
    obtain ⟨q, ev, h, hp⟩ := forwards_packet toyLaws carol_reachable (now := 1000) packet0_length h1 h2
      (by rw [hempty]; decide) h4
    exact ⟨q, ev, _, h, by rw [hp.length_eq, hempty]; rfl⟩
  · cases hcall
  · rw [World.carol1_queue.1, hempty] at hq; cases hq

end Examples
end Mixnet.Props
