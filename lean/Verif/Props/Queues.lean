import Verif.Proofs.Keep
import Verif.Spec.World
/-!
# C18-C20: the packet queues of a node
-/
namespace Mixnet.Props
open Mixnet Spec
variable {C : Crypto} {m m' : Node} {config : Config}

/-! ## C18: packets to be forwarded -/

/-- Only one packet can enter at a time, and it is determined by the state and the packet handled. -/
theorem accepts_unique {packet rel rel' s s' out out' a a'} (h : Accepts C m packet rel s out a)
    (h' : Accepts C m packet rel' s' out' a') : rel = rel' ∧ s = s' ∧ out = out' ∧ a = a' := by
  have same : ∀ {r t t' o o'} {b b' : Action C}, Accepts C m packet r t o b → Accepts C m packet r t' o' b' →
      t = t' ∧ o = o' ∧ b = b' := by
    intro r t t' o o' b b' h h'
    have := h.slot; rw [h'.slot] at this; cases this
    have := h.peels; rw [h'.peels] at this; cases this
    exact ⟨rfl, rfl, rfl⟩
  cases rel <;> cases rel'
  · exact ⟨rfl, same h h'⟩
  · have := (h'.first rfl s h.slot).2
    rw [h.peels] at this; cases this
  · have := (h.first rfl s' h'.slot).2
    rw [h'.peels] at this; cases this
  · exact ⟨rfl, same h h'⟩

theorem targetToPeerId_ok {t : Topology} {x : Target} {p : PeerId} :
    t.targetToPeerId x = .ok p ↔ peerOf t x = some p := by
  cases x with
  | peerId q => simp [Topology.targetToPeerId, peerOf]
  | mixnodeIndex i =>
    simp only [Topology.targetToPeerId, Topology.mixnodeIndexToPeerId, peerOf]
    cases t.mixnodes[i]? <;> simp

theorem forwards_unique {now packet p p'} (h : Forwards C m now packet p) (h' : Forwards C m now packet p') :
    p = p' := by
  obtain ⟨rel, s, out, t, d, peer, h1, -, -, h4, rfl⟩ := h
  obtain ⟨rel', s', out', t', d', peer', h1', -, -, h4', rfl⟩ := h'
  obtain ⟨rfl, rfl, rfl, he⟩ := accepts_unique h1 h1'
  cases he
  rw [h4] at h4'; cases h4'
  rfl

/-- The effect of one call on the forward queue. -/
theorem forward_step (hI : m.Inv C) {call out} (hc : StepCase C m call m' out) :
    (∃ now packet p, call = .handlePacket now packet ∧ Forwards C m now packet p ∧
      m'.forwardPacketQueue.queue = p :: m.forwardPacketQueue.queue) ∨
    (∃ tie p, call = .popNextForwardPacket tie ∧ out = .forwardPacket (some p.packet) ∧
      m.nextForwardPacketDeadline = some p.deadline ∧
      p ∈ m.forwardPacketQueue.queue ∧ m'.forwardPacketQueue.queue = m.forwardPacketQueue.queue.erase p) ∨
    ((∀ now packet p, call = .handlePacket now packet → ¬ Forwards C m now packet p) ∧
      (∀ p, out ≠ .forwardPacket (some p)) ∧
      (∀ tie, call = .popNextForwardPacket tie → m.forwardPacketQueue.queue = []) ∧
      m'.forwardPacketQueue.queue = m.forwardPacketQueue.queue) := by
  cases hc with
  | status st =>
    refine .inr (.inr ⟨by simp, by simp, by simp, ?_⟩)
    have := setSessionStatus_cases m st
    generalize m.setSessionStatus st = m1 at *
    cases this <;> rfl
  | mixnodes rel answer rng m' b h =>
    refine .inr (.inr ⟨by simp, by simp, by simp, ?_⟩)
    cases h <;> rfl
  | nextKx rng =>
    refine .inr (.inr ⟨by simp, by simp, by simp, ?_⟩)
    unfold Node.nextKxPublic; split <;> rfl
  | handle now packet m' msg h =>
    cases h with
    | ignored hno =>
      refine .inr (.inr ⟨?_, by simp, by simp, rfl⟩)
      rintro now' packet' p h ⟨rel, s, out, t, d, peer, h1, -⟩
      cases h
      exact hno _ _ _ _ h1
    | accepted out a rel s m' msg ha he =>
      have nof : (∀ t d, a = .forwardTo t d → s.topology.isMixnode = true →
            m.forwardPacketQueue.queue.length < m.config.forwardPacketQueueCapacity →
            ∀ peer, s.topology.targetToPeerId t ≠ .ok peer) →
          ∀ now' packet' p, Call.handlePacket now packet = .handlePacket now' packet' →
            ¬ Forwards C m now' packet' p := by
        rintro hno now' packet' p h ⟨rel', s', out', t, d, peer, h1, h2, h3, h4, -⟩
        cases h
        obtain ⟨rfl, rfl, rfl, rfl⟩ := accepts_unique h1 ha
        exact hno t d rfl h2 h3 peer (targetToPeerId_ok.2 h4)
      cases he with
      | cover => exact .inr (.inr ⟨nof (fun t d h => (by cases h)), by simp, by simp, rfl⟩)
      | forwardNotMixnode t d hm =>
        exact .inr (.inr ⟨nof (fun t d h h' => (by rw [hm] at h'; cases h')), by simp, by simp, rfl⟩)
      | forwardFull t d hm hf =>
        rw [hI.forwardCapacity] at hf
        exact .inr (.inr ⟨nof (fun t d h h' h'' => (by omega)), by simp, by simp, rfl⟩)
      | forwardNowhere t d e hm hf ht =>
        refine .inr (.inr ⟨nof ?_, by simp, by simp, rfl⟩)
        intro t' d' h _ _ peer hp
        cases h
        rw [ht] at hp; cases hp
      | forward t d peer ev hm hf ht hev =>
        rw [hI.forwardCapacity] at hf
        exact .inl ⟨now, packet, _, rfl, ⟨rel, s, _, t, d, peer, ha, hm, hf, targetToPeerId_ok.1 ht, rfl⟩, rfl⟩
      | requestNotMixnode => exact .inr (.inr ⟨nof (fun t d h => (by cases h)), by simp, by simp, rfl⟩)
      | request => exact .inr (.inr ⟨nof (fun t d h => (by cases h)), by simp, by simp, rfl⟩)
      | replyUnknown => exact .inr (.inr ⟨nof (fun t d h => (by cases h)), by simp, by simp, rfl⟩)
      | replyBad => exact .inr (.inr ⟨nof (fun t d h => (by cases h)), by simp, by simp, rfl⟩)
      | reply => exact .inr (.inr ⟨nof (fun t d h => (by cases h)), by simp, by simp, rfl⟩)
  | popForward tie =>
    unfold Node.popNextForwardPacket
    rcases ForwardPacketQueue.pop_spec m.forwardPacketQueue tie with ⟨h1, h2⟩ | ⟨p, hp, hmin, h2⟩
    · rw [h2]
      exact .inr (.inr ⟨by simp, by simp, fun _ _ => h1, rfl⟩)
    · rw [h2]
      refine .inr (.inl ⟨tie, p, rfl, rfl, ?_, hp, rfl⟩)
      exact minDeadline_some.2 ⟨⟨p, hp, rfl⟩, hmin⟩
  | popAuthored rng ns m' p h =>
    refine .inr (.inr ⟨by simp, by simp, by simp, ?_⟩)
    cases h <;> rfl
  | post rng i d mid data n ns m' d' r h =>
    refine .inr (.inr ⟨by simp, by simp, by simp, ?_⟩)
    cases h <;> rfl
  | reply surbs i mid data m' surbs' r h =>
    refine .inr (.inr ⟨by simp, by simp, by simp, ?_⟩)
    cases h <;> rfl
  | take => exact .inr (.inr ⟨by simp, by simp, by simp, rfl⟩)

/-- C18 (nothing lost, nothing duplicated, and popped with the announced deadline). Along any history,
the packets in the queue at the start together with those that arrived are exactly, each as often, those
that left together with those in the queue at the end. What arrives is what `Forwards` says; a packet
that left is counted with the deadline announced just before. The log exists for every history. -/
theorem forward_conservation (hC : CryptoLaws C) (hr : Node.Reachable C config m) {calls outs}
    (hw : ∀ c ∈ calls, c.WellTyped) (hruns : Node.Runs C m calls outs m') :
    (∃ arrived left, ForwardLog C m calls outs m' arrived left) ∧
    ∀ arrived left, ForwardLog C m calls outs m' arrived left →
      (m.forwardPacketQueue.queue ++ arrived).Perm (left ++ m'.forwardPacketQueue.queue) := by
  have hI := (hr.inv hC).1
  clear hr
  constructor
  · induction hruns with
    | nil m => exact ⟨[], [], .nil _⟩
    | cons hs _ ih =>
      have hw0 := hw _ List.mem_cons_self
      have hcase := Node.step_cases hC hI hw0 hs
      obtain ⟨arrived, left, hl⟩ := ih (fun c hc => hw c (List.mem_cons_of_mem _ hc)) (Node.inv_stepCase hI hcase)
      rcases forward_step hI hcase with ⟨now, packet, p, rfl, hf, -⟩ | ⟨tie, p, rfl, rfl, hd, -⟩ | ⟨h1, h2, -⟩
      · exact ⟨_, _, .arrive hf hs hl⟩
      · exact ⟨_, _, .leave hd hs hl⟩
      · exact ⟨_, _, .other h1 h2 hs hl⟩
  · intro arrived left hl
    induction hl with
    | nil m => simp
    | @arrive m now packet m1 out calls outs m2 p arrived left hf hs _ ih =>
      have hw0 := hw _ List.mem_cons_self
      have hcase := Node.step_cases hC hI hw0 hs
      cases hruns with
      | cons hs' hruns =>
        rw [hs] at hs'; cases hs'
        have ih := ih (fun c hc => hw c (List.mem_cons_of_mem _ hc)) hruns (Node.inv_stepCase hI hcase)
        rcases forward_step hI hcase with ⟨_, _, p', hcall, hf', hq⟩ | ⟨tie, p', hcall, -⟩ | ⟨h1, -⟩
        · cases hcall
          cases forwards_unique hf hf'
          rw [hq] at ih
          exact List.perm_middle.trans ih
        · cases hcall
        · exact absurd hf (h1 _ _ _ rfl)
    | @leave m tie m1 p calls outs m2 d arrived left hd hs _ ih =>
      have hw0 := hw _ List.mem_cons_self
      have hcase := Node.step_cases hC hI hw0 hs
      cases hruns with
      | cons hs' hruns =>
        rw [hs] at hs'; cases hs'
        have ih := ih (fun c hc => hw c (List.mem_cons_of_mem _ hc)) hruns (Node.inv_stepCase hI hcase)
        rcases forward_step hI hcase with ⟨_, _, p', hcall, -⟩ | ⟨tie', p', hcall, hout, hd', hp, hq⟩ | ⟨-, h1, -⟩
        · cases hcall
        · cases hout
          rw [hd] at hd'; cases hd'
          rw [hq] at ih
          have h2 : m.forwardPacketQueue.queue.Perm (p' :: m.forwardPacketQueue.queue.erase p') :=
            List.perm_cons_erase hp
          exact (h2.append_right arrived).trans (ih.cons p')
        · exact absurd rfl (h1 _)
    | @other m call m1 out calls outs m2 arrived left h1 h2 hs _ ih =>
      have hw0 := hw _ List.mem_cons_self
      have hcase := Node.step_cases hC hI hw0 hs
      cases hruns with
      | cons hs' hruns =>
        rw [hs] at hs'; cases hs'
        have ih := ih (fun c hc => hw c (List.mem_cons_of_mem _ hc)) hruns (Node.inv_stepCase hI hcase)
        rcases forward_step hI hcase with ⟨_, _, p', hcall, hf, -⟩ | ⟨tie', p', hcall, hout, -⟩ | ⟨-, -, -, hq⟩
        · exact absurd hf (h1 _ _ _ hcall)
        · exact absurd hout (h2 _)
        · rw [hq] at ih; exact ih

/-- C18 (order). In every reachable state, the announced deadline is the smallest deadline of a queued
packet, there is none iff the queue is empty, popping never panics and yields nothing iff the queue is empty,
and otherwise a queued packet with that deadline. -/
theorem forward_deadline (m : Node) (tie : Nat) :
    (m.nextForwardPacketDeadline = none ↔ m.forwardPacketQueue.queue = []) ∧
    (∀ d, m.nextForwardPacketDeadline = some d ↔
      (∃ p ∈ m.forwardPacketQueue.queue, p.deadline = d) ∧ ∀ p ∈ m.forwardPacketQueue.queue, d ≤ p.deadline) ∧
    ∃ m' o, m.step C (.popNextForwardPacket tie) = .ok (m', .forwardPacket o) ∧
      (o = none ↔ m.forwardPacketQueue.queue = []) ∧
      ∀ p, o = some p → ∃ d, m.nextForwardPacketDeadline = some d ∧ ⟨d, p⟩ ∈ m.forwardPacketQueue.queue := by
  refine ⟨minDeadline_eq_none, fun d => minDeadline_some, (m.popNextForwardPacket tie).1,
    (m.popNextForwardPacket tie).2, rfl, ?_⟩
  unfold Node.popNextForwardPacket
  rcases ForwardPacketQueue.pop_spec m.forwardPacketQueue tie with ⟨h1, h2⟩ | ⟨p, hp, hmin, h2⟩
  · rw [h2]
    exact ⟨by simp [h1], fun p h => (by cases h)⟩
  · rw [h2]
    refine ⟨?_, ?_⟩
    · simp only [reduceCtorEq, false_iff]
      intro h; rw [h] at hp; cases hp
    · rintro _ ⟨rfl⟩
      exact ⟨p.deadline, minDeadline_some.2 ⟨⟨p, hp, rfl⟩, hmin⟩, hp⟩

/-- C18 (bound). The queue never exceeds the configured capacity. -/
theorem forward_bounded (hC : CryptoLaws C) (hr : Node.Reachable C config m) :
    m.forwardPacketQueue.queue.length ≤ config.forwardPacketQueueCapacity := by
  obtain ⟨hI, rfl⟩ := hr.inv hC
  rw [← hI.forwardCapacity]; exact hI.forward

/-- A forwarding node to which the theorems apply: Carol's queue gets a packet, and she then sends it. -/
example : ∃ p, Forwards World.C World.carol 1000 World.packet0.packet p := by
  have hI := (World.carol_reachable.inv toyLaws).1
  have hc := Node.step_cases toyLaws hI World.relay_typed World.relay_step
  rcases forward_step hI hc with ⟨now, packet, p, hcall, hf, -⟩ | ⟨tie, p, hcall, -⟩ | ⟨-, -, -, hq⟩
  · cases hcall; exact ⟨p, hf⟩
  · cases hcall
  · rw [World.carol1_queue.1] at hq
    have : World.carol.forwardPacketQueue.queue = [] := by decide +kernel
    rw [this] at hq; cases hq

/-! ## C19: authored packets -/

/-- C19 (history). While a session exists, what was in its queue followed by what is posted for it is what
is sent from it followed by what is in its queue: first in, first out, nothing lost or duplicated. Also its
configuration and its keys stay. -/
theorem authored_fifo (hC : CryptoLaws C) (hr : Node.Reachable C config m) (hk : config.numHops ≤ 6) {i calls outs}
    (hw : ∀ c ∈ calls, c.WellTyped) (hkeep : Node.Keeps C i m calls outs m') :
    ∃ s s' added sent, m.sessionAt i = some s ∧ m'.sessionAt i = some s' ∧ AuthoredLog i calls outs added sent ∧
      s.authoredPacketQueue.queue ++ added = sent ++ s'.authoredPacketQueue.queue ∧
      s'.authoredPacketQueue.config = s.authoredPacketQueue.config ∧ s'.kxPair = s.kxPair := by
  obtain ⟨hI, rfl⟩ := hr.inv hC
  clear hr
  induction hkeep with
  | nil h =>
    obtain ⟨s, hs⟩ := Option.isSome_iff_exists.1 h
    exact ⟨s, s, [], [], hs, hs, .nil, by simp, rfl, rfl⟩
  | cons h hs _ ih =>
    have hw0 := hw _ List.mem_cons_self
    have hcase := Node.step_cases hC hI hw0 hs
    obtain ⟨s1, s2, added, sent, h1, h2, hlog, hq, hc1, hc2⟩ := ih (fun c hc => hw c (List.mem_cons_of_mem _ hc))
      (Node.inv_stepCase hI hcase) (by rw [Node.stepCase_config hcase]; exact hk)
    obtain ⟨s, hs0⟩ := Option.isSome_iff_exists.1 h
    have hev := Node.kept_step hI hk hw0 hcase hs0 h1
    suffices hh : ∃ a b, AuthoredStep i _ _ a b ∧
        s.authoredPacketQueue.queue ++ a = b ++ s1.authoredPacketQueue.queue ∧
        s1.authoredPacketQueue.config = s.authoredPacketQueue.config ∧ s1.kxPair = s.kxPair by
      obtain ⟨a, b, hst, hq', e1, e2⟩ := hh
      refine ⟨s, s2, a ++ added, b ++ sent, hs0, h2, .cons hst hlog, ?_, hc1.trans e1, hc2.trans e2⟩
      rw [← List.append_assoc, hq', List.append_assoc, hq, List.append_assoc]
    cases hev with
    | same _ _ _ hn => exact ⟨[], [], .nothing hn, by simp, rfl, rfl⟩
    | seen => exact ⟨[], [], .nothing trivial, by simp [Session.seen], rfl, rfl⟩
    | popped rng ns p rest m1 rel hat hal hqq => exact ⟨[], [p], .send, by simp [hqq], rfl, rfl⟩
    | posted rng d mid data n ns d' met m1 bps ps hb hl => exact ⟨ps, [], .request hb hl, by simp, rfl, rfl⟩
    | replied surbs mid data surbs' r m1 bps ps hb hl hl2 hl3 =>
      cases r with
      | ok u =>
        cases u
        exact ⟨ps, [], .reply hb (hl2 rfl) (by simpa using hl3), by simp, rfl, rfl⟩
      | error e =>
        exact ⟨ps, [], .replyFailed hb (hl (fun h => (by cases h))) (by simpa using hl3), by simp, rfl, rfl⟩

theorem checkSpace_admits {q : AuthoredPacketQueue} {n : Nat} :
    (q.checkSpace n = .ok () ↔ Admits q.config q.queue.length n) ∧
    (q.checkSpace n = .error .capacity ↔ q.config.capacity < n) ∧
    (q.checkSpace n = .error .len ↔ n ≤ q.config.capacity ∧ ¬ Admits q.config q.queue.length n) := by
  have h1 : q.checkSpace n = .ok () ↔ Admits q.config q.queue.length n := by
    rw [AuthoredPacketQueue.checkSpace_ok]
    unfold Admits
    rw [List.length_eq_zero_iff]
  have h2 := AuthoredPacketQueue.checkSpace_capacity (q := q) (n := n)
  refine ⟨h1, h2, ?_⟩
  rw [← h1, ← Nat.not_lt, ← h2]
  obtain ⟨x, hx⟩ : ∃ x, q.checkSpace n = x := ⟨_, rfl⟩
  rw [hx]
  cases x with
  | ok u => simp
  | error e => cases e <;> simp

/-- C19 (admission of requests). A request of `k` packets for a session that may be used is refused for
good (`TooManyFragments`) iff it can never fit, refused for now (`NotEnoughSpaceInQueue`) iff it could fit into
an empty queue but does not fit now, and otherwise admitted (only a topology error can then prevent it). -/
theorem request_admission {rng i d mid data n ns d' r rel s bps} (h : m.postRequest C rng i d mid data n ns = .ok (m', d', r))
    (hs : postSession m.sessions m.sessionStatus i = .ok (rel, s))
    (hb : fragmentBlueprints mid data n = .ok (some bps)) (hmax : bps.length ≤ m.config.maxFragmentsPerMessage) :
    (r = .error .tooManyFragments ↔ s.authoredPacketQueue.config.capacity < bps.length) ∧
    (r = .error .notEnoughSpaceInQueue ↔ bps.length ≤ s.authoredPacketQueue.config.capacity ∧
      ¬ Admits s.authoredPacketQueue.config s.authoredPacketQueue.queue.length bps.length) ∧
    (((∃ met, r = .ok met) ∨ ∃ e, r = .error (.topology e)) ↔
      Admits s.authoredPacketQueue.config s.authoredPacketQueue.queue.length bps.length) := by
  obtain ⟨h1, h2, h3⟩ := checkSpace_admits (q := s.authoredPacketQueue) (n := bps.length)
  rw [← h3, ← h2, ← h1]
  have hcase := postRequest_cases h
  cases hcase with
  | tooMany ht =>
    rcases ht with ht | ⟨bps', ht, hl⟩
    · rw [hb] at ht; cases ht
    · rw [hb] at ht; cases ht; omega
  | noSession bps' e hb' _ hs' => rw [hs] at hs'; cases hs'
  | noSpace bps' rel' s' e hb' _ hs' hc =>
    rw [hs] at hs'; cases hs'
    rw [hb] at hb'; cases hb'
    rw [hc]
    cases e <;> simp [CheckSpaceErr.toPostErr]
  | noDestination bps' rel' s' e hb' _ hs' hc =>
    rw [hs] at hs'; cases hs'
    rw [hb] at hb'; cases hb'
    rw [hc]; simp
  | failed bps' rel' s' b rng1 acc e hb' _ hs' hc =>
    rw [hs] at hs'; cases hs'
    rw [hb] at hb'; cases hb'
    rw [hc]; simp
  | posted bps' rel' s' b rng1 acc infos met qd hb' _ hs' hc =>
    rw [hs] at hs'; cases hs'
    rw [hb] at hb'; cases hb'
    rw [hc]; simp

/-- C19 (admission of replies), for a reply with enough SURBs. -/
theorem reply_admission {surbs i mid data surbs' r rel s bps} (h : m.postReply C surbs i mid data = .ok (m', surbs', r))
    (hs : postSession m.sessions m.sessionStatus i = .ok (rel, s))
    (hb : fragmentBlueprints mid data 0 = .ok (some bps)) (hmax : bps.length ≤ m.config.maxFragmentsPerMessage)
    (hsurbs : bps.length ≤ surbs.length) :
    (r = .error .tooManyFragments ↔ s.authoredPacketQueue.config.capacity < bps.length) ∧
    (r = .error .notEnoughSpaceInQueue ↔ bps.length ≤ s.authoredPacketQueue.config.capacity ∧
      ¬ Admits s.authoredPacketQueue.config s.authoredPacketQueue.queue.length bps.length) ∧
    ((r = .ok () ∨ r = .error .badSurb ∨ ∃ e, r = .error (.topology e)) ↔
      Admits s.authoredPacketQueue.config s.authoredPacketQueue.queue.length bps.length) := by
  obtain ⟨h1, h2, h3⟩ := checkSpace_admits (q := s.authoredPacketQueue) (n := bps.length)
  rw [← h3, ← h2, ← h1]
  have hcase := postReply_cases h
  cases hcase with
  | tooMany ht =>
    rcases ht with ht | ⟨bps', ht, hl⟩
    · rw [hb] at ht; cases ht
    · rw [hb] at ht; cases ht; omega
  | noSession bps' e hb' _ hs' => rw [hs] at hs'; cases hs'
  | noSpace bps' rel' s' e hb' _ hs' hc =>
    rw [hs] at hs'; cases hs'
    rw [hb] at hb'; cases hb'
    rw [hc]
    cases e <;> simp [CheckSpaceErr.toPostErr]
  | failed bps' rel' s' rest used ps e done bp left bad hb' _ hs' hc _ _ _ hbad =>
    rw [hs] at hs'; cases hs'
    rw [hb] at hb'; cases hb'
    rw [hc]
    cases hbad <;> simp
  | posted bps' rel' s' rest used ps hb' _ hs' hc =>
    rw [hs] at hs'; cases hs'
    rw [hb] at hb'; cases hb'
    rw [hc]; simp

/-- C19 (bound). In every reachable state no session has more packets queued than its configuration
(of mixnode or non-mixnode sessions) allows. -/
theorem authored_bounded (hC : CryptoLaws C) (hr : Node.Reachable C config m) {i s} (hs : m.sessionAt i = some s) :
    ∃ sc, (if s.topology.isMixnode then some config.mixnodeSession else config.nonMixnodeSession) = some sc ∧
      s.authoredPacketQueue.config = sc.authoredPacketQueue ∧
      s.authoredPacketQueue.queue.length ≤ sc.authoredPacketQueue.capacity := by
  obtain ⟨hI, rfl⟩ := hr.inv hC
  obtain ⟨rel, -, h⟩ := Node.sessionAt_eq.1 hs
  have hi := hI.sessions _ _ h
  obtain ⟨sc, h1, h2, -⟩ := hi.config
  exact ⟨sc, h1, h2, by rw [← h2]; exact hi.queue⟩

/-! ## C20: the event for space -/

/-- C20 (pending until taken). -/
theorem space_pending (hC : CryptoLaws C) (hr : Node.Reachable C config m) {calls outs}
    (hw : ∀ c ∈ calls, c.WellTyped) (hruns : Node.Runs C m calls outs m')
    (h : m.events.spaceInAuthoredPacketQueue = true) :
    (m'.events.spaceInAuthoredPacketQueue = true ∧ ∀ e, .events e ∉ outs) ∨
    ∃ e, .events e ∈ outs ∧ e.spaceInAuthoredPacketQueue = true := by
  have hI := (hr.inv hC).1
  clear hr
  induction hruns with
  | nil => exact .inl ⟨h, by simp⟩
  | cons hs _ ih =>
    have hw0 := hw _ List.mem_cons_self
    have hcase := Node.step_cases hC hI hw0 hs
    rcases Node.events_step hcase with ⟨-, rfl, -⟩ | ⟨-, hne, hle⟩
    · exact .inr ⟨_, List.mem_cons_self, h⟩
    · rcases ih (fun c hc => hw c (List.mem_cons_of_mem _ hc)) (hle.2.2.2 h) (Node.inv_stepCase hI hcase) with
        ⟨h1, h2⟩ | ⟨e, h1, h2⟩
      · left
        refine ⟨h1, fun e he => ?_⟩
        rcases List.mem_cons.1 he with he | he
        · exact hne e he.symm
        · exact h2 e he
      · exact .inr ⟨e, List.mem_cons_of_mem _ h1, h2⟩

/-- C20. A message of `n` packets that could fit does not fit into the queue of session `i` now; at the end of
a history during which the session exists it does. Then the event is pending, or was taken during the
history. -/
theorem space_event (hC : CryptoLaws C) (hr : Node.Reachable C config m) (hk : config.numHops ≤ 6) {i calls outs}
    (hw : ∀ c ∈ calls, c.WellTyped) (hkeep : Node.Keeps C i m calls outs m') {s s' n}
    (hs : m.sessionAt i = some s) (hs' : m'.sessionAt i = some s')
    (hno : ¬ Admits s.authoredPacketQueue.config s.authoredPacketQueue.queue.length n)
    (hyes : Admits s'.authoredPacketQueue.config s'.authoredPacketQueue.queue.length n) :
    m'.events.spaceInAuthoredPacketQueue = true ∨
      ∃ e, .events e ∈ outs ∧ e.spaceInAuthoredPacketQueue = true := by
  induction hkeep generalizing s with
  | nil h => rw [hs] at hs'; cases hs'; exact absurd hyes hno
  | @cons m0 call m1 out calls outs m2 h hst hrest ih =>
    have hw0 := hw _ List.mem_cons_self
    have hwr := fun c hc => hw c (List.mem_cons_of_mem _ hc)
    obtain ⟨hI, rfl⟩ := hr.inv hC
    have hcase := Node.step_cases hC hI hw0 hst
    have hr1 := hr.step hC hw0 hst
    have hsome : (m1.sessionAt i).isSome := by cases hrest <;> assumption
    obtain ⟨s1, hs1⟩ := Option.isSome_iff_exists.1 hsome
    have hruns : Node.Runs C m1 calls outs m2 := by
      clear ih hcase hs' hsome hs1 hw hwr hst hr1
      induction hrest with
      | nil => exact .nil _
      | cons _ hst _ ih => exact .cons hst ih
    by_cases hA : Admits s1.authoredPacketQueue.config s1.authoredPacketQueue.queue.length n
    · -- this call made room: it is a pop
      have hev := Node.kept_step hI hk hw0 hcase hs hs1
      have key : m1.events.spaceInAuthoredPacketQueue = true := by
        cases hev with
        | same => exact absurd hA hno
        | seen => exact absurd hA hno
        | popped rng ns p rest m1 rel hat hal hqq he =>
          rw [he]
          cases hmm : s.authoredPacketQueue.config.multipleMessages with
          | true => simp
          | false =>
            simp only [Admits, hmm, Bool.false_eq_true, false_and, or_false] at hA
            have : rest = [] := List.length_eq_zero_iff.1 hA.2
            simp [this]
        | posted rng d mid data k ns d' met m1 bps ps hb hl =>
          exfalso; apply hno
          simp only [Admits, List.length_append] at hA ⊢
          obtain ⟨h1, h2 | ⟨h2, h3⟩⟩ := hA
          · exact ⟨h1, .inl (by omega)⟩
          · exact ⟨h1, .inr ⟨h2, by omega⟩⟩
        | replied surbs mid data surbs' r m1 bps ps hb hl hl2 hl3 =>
          exfalso; apply hno
          simp only [Admits, List.length_append] at hA ⊢
          obtain ⟨h1, h2 | ⟨h2, h3⟩⟩ := hA
          · exact ⟨h1, .inl (by omega)⟩
          · exact ⟨h1, .inr ⟨h2, by omega⟩⟩
      rcases space_pending hC hr1 hwr hruns key with ⟨h1, -⟩ | ⟨e, h1, h2⟩
      · exact .inl h1
      · exact .inr ⟨e, List.mem_cons_of_mem _ h1, h2⟩
    · rcases ih hr1 hwr hs1 hs' hA with h1 | ⟨e, h1, h2⟩
      · exact .inl h1
      · exact .inr ⟨e, List.mem_cons_of_mem _ h1, h2⟩

theorem keeps_runs {i calls outs} (h : Node.Keeps C i m calls outs m') : Node.Runs C m calls outs m' := by
  induction h with
  | nil => exact .nil _
  | cons _ hst _ ih => exact .cons hst ih

/-- C20 for requests: posting was refused for lack of space; at the end of a history during which the session
exists, posting the same request succeeds. Then the event is pending, or was taken during the history. -/
theorem request_space_event (hC : CryptoLaws C) (hr : Node.Reachable C config m) (hk : config.numHops ≤ 6)
    {i calls outs} (hw : ∀ c ∈ calls, c.WellTyped) (hkeep : Node.Keeps C i m calls outs m')
    {rng d mid data n ns m1 d1 rng' d' ns' m2 d2 met}
    (h1 : m.postRequest C rng i d mid data n ns = .ok (m1, d1, .error .notEnoughSpaceInQueue))
    (h2 : m'.postRequest C rng' i d' mid data n ns' = .ok (m2, d2, .ok met)) :
    m'.events.spaceInAuthoredPacketQueue = true ∨
      ∃ e, .events e ∈ outs ∧ e.spaceInAuthoredPacketQueue = true := by
  have e2 := postRequest_cases h2
  cases e2 with
  | posted bps rel s' b rng1 acc infos met qd hb hmax hs' hc' =>
    have hcfg := (Node.inv_runs hC (keeps_runs hkeep) hw (hr.inv hC).1).2
    rw [hcfg] at hmax
    have hA' := (checkSpace_admits.1).1 hc'
    obtain ⟨a1, -, a3⟩ := postSession_ok hs'
    have hat' : m'.sessionAt i = some s' := Node.sessionAt_eq.2 ⟨rel, a1, a3⟩
    have e1 := postRequest_cases h1
    have key : ∃ rel s, postSession m.sessions m.sessionStatus i = .ok (rel, s) := by
      generalize hr' : Except.error (ε := PostErr) (α := RequestMetrics) PostErr.notEnoughSpaceInQueue = r1 at e1
      cases e1 with
      | tooMany => cases hr'
      | noSession bps' e hb' _ hs =>
        cases hr'
        exfalso
        unfold postSession at hs
        split at hs
        · split at hs <;> cases hs
        · split at hs
          · split at hs <;> cases hs
          · split at hs <;> cases hs
      | noSpace bps' rel' s e hb' _ hs hc => exact ⟨_, _, hs⟩
      | noDestination => cases hr'
      | failed => cases hr'
      | posted => cases hr'
    obtain ⟨rel0, s, hs⟩ := key
    have hno := ((request_admission h1 hs hb hmax).2.1.1 rfl).2
    obtain ⟨b1, -, b3⟩ := postSession_ok hs
    exact space_event hC hr hk hw hkeep (Node.sessionAt_eq.2 ⟨rel0, b1, b3⟩) hat' hno hA'

/-- C20 for replies. -/
theorem reply_space_event (hC : CryptoLaws C) (hr : Node.Reachable C config m) (hk : config.numHops ≤ 6)
    {i calls outs} (hw : ∀ c ∈ calls, c.WellTyped) (hkeep : Node.Keeps C i m calls outs m')
    {mid data surbs surbs1 surbs' surbs2 m1 m2}
    (h1 : m.postReply C surbs i mid data = .ok (m1, surbs1, .error .notEnoughSpaceInQueue))
    (h2 : m'.postReply C surbs' i mid data = .ok (m2, surbs2, .ok ())) :
    m'.events.spaceInAuthoredPacketQueue = true ∨
      ∃ e, .events e ∈ outs ∧ e.spaceInAuthoredPacketQueue = true := by
  have e2 := postReply_cases h2
  cases e2 with
  | posted bps rel s' rest used ps hb hmax hs' hc' hsu hmade hroom =>
    have hA' := (checkSpace_admits.1).1 hc'
    obtain ⟨a1, -, a3⟩ := postSession_ok hs'
    have hat' : m'.sessionAt i = some s' := Node.sessionAt_eq.2 ⟨rel, a1, a3⟩
    have e1 := postReply_cases h1
    have key : ∃ rel s, postSession m.sessions m.sessionStatus i = .ok (rel, s) ∧
        ¬ Admits s.authoredPacketQueue.config s.authoredPacketQueue.queue.length bps.length := by
      generalize hr' : Except.error (ε := PostErr) (α := Unit) PostErr.notEnoughSpaceInQueue = r1 at e1
      cases e1 with
      | tooMany => cases hr'
      | noSession bps' e hb' _ hs =>
        cases hr'
        exfalso
        unfold postSession at hs
        split at hs
        · split at hs <;> cases hs
        · split at hs
          · split at hs <;> cases hs
          · split at hs <;> cases hs
      | noSpace bps' rel' s e hb' _ hs hc =>
        rw [hb] at hb'
        cases hb'
        refine ⟨_, _, hs, fun hA => ?_⟩
        rw [(checkSpace_admits.1).2 hA] at hc
        cases hc
      | failed bps' rel' s rest' used' ps' e done bp left bad _ _ _ _ _ _ _ hbad =>
        cases hr'
        cases hbad
      | posted => cases hr'
    obtain ⟨rel0, s, hs, hno⟩ := key
    obtain ⟨b1, -, b3⟩ := postSession_ok hs
    exact space_event hC hr hk hw hkeep (Node.sessionAt_eq.2 ⟨rel0, b1, b3⟩) hat' hno hA'

/-- Alice has posted a request; she sends its packet. -/
theorem world_alice1_reachable : Node.Reachable World.C (World.cfg 3) World.alice1 :=
  World.alice_reachable.step toyLaws World.ask_typed World.ask_step

theorem world_keeps : Node.Keeps World.C 0 World.alice1 [World.send] [World.sendOut] World.aliceSent :=
  .cons (by decide +kernel) World.send_step (.nil (by decide +kernel))

example := authored_fifo toyLaws world_alice1_reachable (by decide) (i := 0)
  (by intro c hc; rw [List.mem_singleton.1 hc]; exact World.send_typed) world_keeps

/-- Before she sends it, a message of 50 packets is refused; afterwards there is room for it. -/
example : ∃ s s', World.alice1.sessionAt 0 = some s ∧ World.aliceSent.sessionAt 0 = some s' ∧
    ¬ Admits s.authoredPacketQueue.config s.authoredPacketQueue.queue.length 50 ∧
    Admits s'.authoredPacketQueue.config s'.authoredPacketQueue.queue.length 50 := by
  have key : ∀ o : Option Session, o.isSome = true → ∃ s, o = some s := fun o h => Option.isSome_iff_exists.1 h
  obtain ⟨s, hs⟩ := key (World.alice1.sessionAt 0) (by decide +kernel)
  obtain ⟨s', hs'⟩ := key (World.aliceSent.sessionAt 0) (by decide +kernel)
  have h1 : (World.alice1.sessionAt 0).map (fun s => decide (s.authoredPacketQueue.config = ⟨50, true⟩ ∧
    s.authoredPacketQueue.queue.length = 1)) = some true := by decide +kernel
  have h2 : (World.aliceSent.sessionAt 0).map (fun s => decide (s.authoredPacketQueue.config = ⟨50, true⟩ ∧
    s.authoredPacketQueue.queue.length = 0)) = some true := by decide +kernel
  rw [hs, Option.map_some, Option.some.injEq, decide_eq_true_eq] at h1
  rw [hs', Option.map_some, Option.some.injEq, decide_eq_true_eq] at h2
  refine ⟨s, s', hs, hs', ?_, ?_⟩
  · rw [h1.1, h1.2]; simp [Admits]
  · rw [h2.1, h2.2]; simp [Admits]

end Mixnet.Props
