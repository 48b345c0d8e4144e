import Verif.Spec.Node
import Verif.Proofs.Fragment
import Verif.Proofs.SphinxPeel
import Verif.Proofs.Queues
import Verif.Proofs.Route
import Verif.Props.Peel
/-!
# What `handle_packet` does, by cases
-/
namespace Mixnet

/-- The zeroed output buffer, `/repo/src/core/mod.rs:488`. -/
theorem zeroPacket_length : zeroPacket.length = PACKET_SIZE := List.length_replicate

theorem exchange_eq (C : Crypto) (s : Session) (packet : Bytes) :
    s.kxPair.exchange C (kxPublicOf packet) = s.secretFor C packet := by
  unfold KxPair.exchange Session.secretFor kxPublicOf slice
  rfl

theorem mem_enumerate {ss : Sessions} {rel s} : (rel, s) ∈ ss.enumerate ↔ ss.get rel = .full s := by
  obtain ⟨c, p⟩ := ss
  cases rel <;> cases c <;> cases p <;> simp [Sessions.enumerate, Sessions.get, SessionSlot.asOption, eq_comm]

/-- What peeling can yield. -/
theorem peel_cases {C : Crypto} (hC : CryptoLaws C) {packet : Bytes} (hp : packet.length = PACKET_SIZE)
    (sec : SharedSecret) :
    peel C zeroPacket packet sec = .ok (zeroPacket, .error .mac) ∨
    (∃ out e, e ≠ PeelErr.mac ∧ peel C zeroPacket packet sec = .ok (out, .error e)) ∨
    ∃ out a, peel C zeroPacket packet sec = .ok (out, .ok a) ∧ out.length = PACKET_SIZE := by
  obtain ⟨out, r, h, hl, hm, -⟩ := Props.peel_total hC zeroPacket packet sec zeroPacket_length hp
  rw [h]
  cases r with
  | ok a => exact .inr (.inr ⟨out, a, rfl, hl⟩)
  | error e =>
    by_cases he : e = .mac
    · subst he
      left
      obtain ⟨kx, mac, actions, payload, parts⟩ := parts_exist packet hp
      obtain ⟨hbad, -⟩ := peel_eq hC sec parts zeroPacket_length
      have e1 : Props.macOf packet = mac := parts.slice_mac
      have e2 : Props.actionsOf packet = actions := parts.slice_actions
      have := hbad (by rw [← e1, ← e2]; exact hm.1 rfl)
      rw [h] at this
      exact this
    · exact .inr (.inl ⟨out, e, he, rfl⟩)

theorem findSession_cons {C : Crypto} (hC : CryptoLaws C) {packet : Bytes} (hp : packet.length = PACKET_SIZE)
    (rel : RelSessionIndex) (s : Session) (rest : List (RelSessionIndex × Session)) :
    (s.replayFilter.contains (s.tagFor C packet) = true ∧
      Node.findSession C packet ((rel, s) :: rest) zeroPacket = .ok .discard) ∨
    (s.replayFilter.contains (s.tagFor C packet) = false ∧
      ((peel C zeroPacket packet (s.secretFor C packet) = .ok (zeroPacket, .error .mac) ∧
        Node.findSession C packet ((rel, s) :: rest) zeroPacket = Node.findSession C packet rest zeroPacket) ∨
      (∃ out e, e ≠ PeelErr.mac ∧ peel C zeroPacket packet (s.secretFor C packet) = .ok (out, .error e) ∧
        Node.findSession C packet ((rel, s) :: rest) zeroPacket = .ok .discard) ∨
      ∃ out a, peel C zeroPacket packet (s.secretFor C packet) = .ok (out, .ok a) ∧ out.length = PACKET_SIZE ∧
        Node.findSession C packet ((rel, s) :: rest) zeroPacket =
          .ok (.action out a rel s (s.tagFor C packet)))) := by
  obtain ⟨F, hF⟩ : ∃ F, F = Node.findSession C packet ((rel, s) :: rest) zeroPacket := ⟨_, rfl⟩
  rw [← hF]
  rw [Node.findSession, exchange_eq] at hF
  rw [show s.replayFilter.tag C (s.secretFor C packet) = s.tagFor C packet from rfl] at hF
  subst hF
  cases hc : s.replayFilter.contains (s.tagFor C packet) with
  | true => left; simp
  | false =>
    right
    refine ⟨rfl, ?_⟩
    simp only [Bool.false_eq_true, if_false]
    rcases peel_cases hC hp (s.secretFor C packet) with h | ⟨out, e, he, h⟩ | ⟨out, a, h, hl⟩
    · left; refine ⟨h, ?_⟩; rw [h]; rfl
    · right; left; refine ⟨out, e, he, h, ?_⟩; rw [h]
      cases e <;> first | exact absurd rfl he | rfl
    · right; right; exact ⟨out, a, h, hl, by rw [h]; rfl⟩

theorem findSession_spec {C : Crypto} (hC : CryptoLaws C) (m : Node) {packet : Bytes}
    (hp : packet.length = PACKET_SIZE) :
    (∃ out a rel s, Accepts C m packet rel s out a ∧
      Node.findSession C packet m.sessions.enumerate zeroPacket = .ok (.action out a rel s (s.tagFor C packet))) ∨
    ((∀ out a rel s, ¬ Accepts C m packet rel s out a) ∧
      (Node.findSession C packet m.sessions.enumerate zeroPacket = .ok .none ∨
       Node.findSession C packet m.sessions.enumerate zeroPacket = .ok .discard)) := by
  have key : ∀ rel s out a, Accepts C m packet rel s out a → m.sessions.get rel = .full s := fun _ _ _ _ h => h.slot
  obtain ⟨cur, hcur⟩ : ∃ c, m.sessions.current = c := ⟨_, rfl⟩
  obtain ⟨prev, hprev⟩ : ∃ c, m.sessions.prev = c := ⟨_, rfl⟩
  -- the previous session, when the current one does not claim the packet
  have tail : (∀ s', m.sessions.current = .full s' →
        s'.replayFilter.contains (s'.tagFor C packet) = false ∧
        peel C zeroPacket packet (s'.secretFor C packet) = .ok (zeroPacket, .error .mac)) →
      let l := prev.asOption.toList.map (fun s => (RelSessionIndex.prev, s))
      (∃ out a rel s, Accepts C m packet rel s out a ∧
        Node.findSession C packet l zeroPacket = .ok (.action out a rel s (s.tagFor C packet))) ∨
      ((∀ out a rel s, ¬ Accepts C m packet rel s out a) ∧
        (Node.findSession C packet l zeroPacket = .ok .none ∨
         Node.findSession C packet l zeroPacket = .ok .discard)) := by
    intro hfirst l
    have hnocur : ∀ out a s, ¬ Accepts C m packet .current s out a := by
      intro out a s h
      have := (hfirst s h.slot).2
      rw [h.peels] at this
      cases this
    by_cases hf : ∃ s, prev = .full s
    · obtain ⟨s, rfl⟩ := hf
      have hl : l = [(RelSessionIndex.prev, s)] := rfl
      rw [hl]
      rcases findSession_cons hC hp .prev s [] with ⟨h1, h2⟩ | ⟨h0, ⟨h1, h2⟩ | ⟨out, e, he, h1, h2⟩ | ⟨out, a, h1, hl, h2⟩⟩
      · right
        refine ⟨?_, .inr h2⟩
        intro out a rel s' h
        cases rel with
        | current => exact hnocur _ _ _ h
        | prev =>
          have e := h.slot
          simp only [Sessions.get, hprev] at e
          cases e
          rw [h.fresh] at h1; cases h1
      · right
        refine ⟨?_, .inl h2⟩
        intro out a rel s' h
        cases rel with
        | current => exact hnocur _ _ _ h
        | prev =>
          have e := h.slot
          simp only [Sessions.get, hprev] at e
          cases e
          rw [h.peels] at h1; cases h1
      · right
        refine ⟨?_, .inr h2⟩
        intro out a rel s' h
        cases rel with
        | current => exact hnocur _ _ _ h
        | prev =>
          have e := h.slot
          simp only [Sessions.get, hprev] at e
          cases e
          rw [h.peels] at h1; cases h1
      · left
        exact ⟨out, a, .prev, s, ⟨hprev, h0, h1, fun _ => hfirst, hl⟩, h2⟩
    · right
      have hl : l = [] := by
        cases prev <;> first | rfl | exact absurd ⟨_, rfl⟩ hf
      rw [hl]
      refine ⟨?_, .inl rfl⟩
      intro out a rel s h
      cases rel with
      | current => exact hnocur _ _ _ h
      | prev =>
        have e := h.slot
        simp only [Sessions.get, hprev] at e
        exact hf ⟨s, e⟩
  by_cases hf : ∃ s, cur = .full s
  · obtain ⟨s, rfl⟩ := hf
    have hl : m.sessions.enumerate = (RelSessionIndex.current, s) ::
        prev.asOption.toList.map (fun s => (RelSessionIndex.prev, s)) := by
      unfold Sessions.enumerate
      rw [hcur, hprev]
      cases prev <;> rfl
    rw [hl]
    have hget : m.sessions.get .current = .full s := hcur
    -- an accepting previous session needs the current one to decline
    rcases findSession_cons hC hp .current s (prev.asOption.toList.map (fun s => (RelSessionIndex.prev, s))) with
      ⟨h1, h2⟩ | ⟨h0, ⟨h1, h2⟩ | ⟨out, e, he, h1, h2⟩ | ⟨out, a, h1, hl, h2⟩⟩
    · right
      refine ⟨?_, .inr h2⟩
      intro out a rel s' h
      cases rel with
      | current =>
        have e := h.slot
        rw [hget] at e; cases e
        rw [h.fresh] at h1; cases h1
      | prev =>
        have := (h.first rfl s hcur).1
        rw [h1] at this; cases this
    · rw [h2]
      apply tail
      intro s' hs'
      rw [hcur] at hs'; cases hs'
      exact ⟨h0, h1⟩
    · right
      refine ⟨?_, .inr h2⟩
      intro out' a rel s' h
      cases rel with
      | current =>
        have e := h.slot
        rw [hget] at e; cases e
        rw [h.peels] at h1; cases h1
      | prev =>
        have := (h.first rfl s hcur).2
        rw [h1] at this; cases this
        exact he rfl
    · left
      exact ⟨out, a, .current, s, ⟨hcur, h0, h1, fun h => (by cases h), hl⟩, h2⟩
  · have hl : m.sessions.enumerate = prev.asOption.toList.map (fun s => (RelSessionIndex.prev, s)) := by
      unfold Sessions.enumerate
      rw [hcur, hprev]
      cases cur <;> first | (exact absurd ⟨_, rfl⟩ hf) | (cases prev <;> rfl)
    rw [hl]
    apply tail
    intro s' hs'
    rw [hcur] at hs'; subst hs'
    exact absurd ⟨_, rfl⟩ hf

/-- Marking a packet as seen. -/
def Session.seen (C : Crypto) (s : Session) (packet : Bytes) : Session :=
  { s with replayFilter := s.replayFilter.insert (s.tagFor C packet) }

/-- What a packet peeled by a session does to the node. -/
inductive Effect (C : Crypto) (m : Node) (now : Nat) (packet : Bytes) (rel : RelSessionIndex) (s : Session)
    (out : Bytes) : Action C → Node → Option Message → Prop
  | cover id : Effect C m now packet rel s out (.deliverCover id) m none
  | forwardNotMixnode t d : s.topology.isMixnode = false →
      Effect C m now packet rel s out (.forwardTo t d) m none
  | forwardFull t d : s.topology.isMixnode = true →
      m.forwardPacketQueue.capacity ≤ m.forwardPacketQueue.queue.length →
      Effect C m now packet rel s out (.forwardTo t d) m none
  | forwardNowhere t d e : s.topology.isMixnode = true →
      m.forwardPacketQueue.queue.length < m.forwardPacketQueue.capacity →
      s.topology.targetToPeerId t = .error e →
      Effect C m now packet rel s out (.forwardTo t d)
        { m with sessions := m.sessions.set rel (.full (s.seen C packet)) } none
  | forward t d peer ev : s.topology.isMixnode = true →
      m.forwardPacketQueue.queue.length < m.forwardPacketQueue.capacity →
      s.topology.targetToPeerId t = .ok peer →
      ev = (m.events.nextForwardPacketDeadlineChanged || decide (minDeadline (⟨now + C.delayToDuration d
        m.config.meanForwardingDelay, ⟨peer, out⟩⟩ :: m.forwardPacketQueue.queue) ≠
          minDeadline m.forwardPacketQueue.queue)) →
      Effect C m now packet rel s out (.forwardTo t d)
        { m with
          sessions := m.sessions.set rel (.full (s.seen C packet))
          forwardPacketQueue := { m.forwardPacketQueue with
            queue := ⟨now + C.delayToDuration d m.config.meanForwardingDelay, ⟨peer, out⟩⟩ ::
              m.forwardPacketQueue.queue }
          events := { m.events with nextForwardPacketDeadlineChanged := ev } } none
  | requestNotMixnode : s.topology.isMixnode = false → Effect C m now packet rel s out .deliverRequest m none
  | request a o index : s.topology.isMixnode = true →
      m.fragmentAssembler.insert (out.take PAYLOAD_DATA_SIZE) = .ok (a, o) →
      InsertCase m.fragmentAssembler (out.take PAYLOAD_DATA_SIZE) a o →
      rel.add m.sessionStatus.currentIndex = .ok index →
      Effect C m now packet rel s out .deliverRequest
        { m with
          sessions := m.sessions.set rel (.full (s.seen C packet))
          fragmentAssembler := a }
        (o.map fun msg => .request ⟨index, msg.id, msg.data, msg.surbs⟩)
  | replyUnknown id : m.surbKeystore.entry id = none → Effect C m now packet rel s out (.deliverReply id) m none
  | replyBad id v payload e : m.surbKeystore.entry id = some v →
      decryptReplyPayload C (out.take PAYLOAD_SIZE) v.keys = .ok (payload, .error e) →
      Effect C m now packet rel s out (.deliverReply id)
        { m with surbKeystore := m.surbKeystore.remove id } none
  | reply id v payload a o : m.surbKeystore.entry id = some v →
      decryptReplyPayload C (out.take PAYLOAD_SIZE) v.keys = .ok (payload, .ok ()) →
      payload.length = PAYLOAD_SIZE →
      m.fragmentAssembler.insert (payload.take PAYLOAD_DATA_SIZE) = .ok (a, o) →
      InsertCase m.fragmentAssembler (payload.take PAYLOAD_DATA_SIZE) a o →
      Effect C m now packet rel s out (.deliverReply id)
        { m with surbKeystore := m.surbKeystore.remove id, fragmentAssembler := a }
        (o.map fun msg => .reply ⟨v.messageId, msg.data⟩)

theorem arrayRef_prefix (site : String) (l : Bytes) (n : Nat) (h : n ≤ l.length) :
    arrayRef site l 0 n = .ok (l.take n) := by
  unfold arrayRef
  rw [if_pos (by omega)]
  simp [slice]

theorem encrypt_foldr_length {C : Crypto} (hC : CryptoLaws C) (keys : List Bytes) (p : Bytes)
    (hp : p.length = PAYLOAD_SIZE) :
    (keys.foldr (fun key p => C.encryptPayload p key) p).length = PAYLOAD_SIZE := by
  induction keys with
  | nil => exact hp
  | cons k ks ih => exact hC.encrypt_length _ _ ih

theorem decryptReplyPayload_total {C : Crypto} (hC : CryptoLaws C) (p : Bytes) (keys : List Bytes)
    (hp : p.length = PAYLOAD_SIZE) :
    ∃ q r, decryptReplyPayload C p keys = .ok (q, r) ∧ q.length = PAYLOAD_SIZE := by
  have h := encrypt_foldr_length hC keys p hp
  unfold decryptReplyPayload arrayRef
  dsimp only
  rw [if_pos (by rw [h])]
  exact ⟨_, _, rfl, h⟩

/-- `handle_packet` never panics; what it does, by cases. -/
theorem handlePacket_spec {C : Crypto} (hC : CryptoLaws C) (m : Node) (now : Nat) {packet : Bytes}
    (hp : packet.length = PACKET_SIZE) (hfa : FAInv m.fragmentAssembler)
    (hidx : ∀ s, m.sessions.prev = .full s → 1 ≤ m.sessionStatus.currentIndex) :
    ((∀ out a rel s, ¬ Accepts C m packet rel s out a) ∧ m.handlePacket C now packet = .ok (m, none)) ∨
    ∃ out a rel s m' msg, Accepts C m packet rel s out a ∧ Effect C m now packet rel s out a m' msg ∧
      m.handlePacket C now packet = .ok (m', msg) := by
  unfold Node.handlePacket
  rw [show List.replicate PACKET_SIZE 0 = zeroPacket from rfl]
  rcases findSession_spec hC m hp with ⟨out, a, rel, s, hacc, hf⟩ | ⟨hno, hf | hf⟩
  swap; · left; rw [hf]; exact ⟨hno, rfl⟩
  swap; · left; rw [hf]; exact ⟨hno, rfl⟩
  right
  rw [hf, res_bind_ok]
  have hlen : out.length = 2252 := hacc.size
  cases a with
  | deliverCover id => exact ⟨out, _, rel, s, m, none, hacc, .cover id, rfl⟩
  | forwardTo t d =>
    refine ⟨out, .forwardTo t d, rel, s, ?_⟩
    dsimp only
    unfold Node.handleForward
    cases hm : s.topology.isMixnode with
    | false => exact ⟨m, none, hacc, .forwardNotMixnode t d hm, rfl⟩
    | true =>
      by_cases hs : m.forwardPacketQueue.queue.length < m.forwardPacketQueue.capacity
      · have hsp : m.forwardPacketQueue.hasSpace = true := by simp [ForwardPacketQueue.hasSpace, hs]
        rw [hsp]
        simp only [Bool.not_true, Bool.false_eq_true, if_false]
        obtain ⟨r, hr⟩ : ∃ r, s.topology.targetToPeerId t = r := ⟨_, rfl⟩
        rw [hr]
        cases r with
        | error e => exact ⟨_, none, hacc, .forwardNowhere t d e hm hs hr, rfl⟩
        | ok peer =>
          obtain ⟨b, hb⟩ : ∃ b, decide (minDeadline (⟨now + C.delayToDuration d m.config.meanForwardingDelay,
            ⟨peer, out⟩⟩ :: m.forwardPacketQueue.queue) ≠ minDeadline m.forwardPacketQueue.queue) = b := ⟨_, rfl⟩
          have hins : m.forwardPacketQueue.insert (now + C.delayToDuration d m.config.meanForwardingDelay)
              ⟨peer, out⟩ = .ok (⟨m.forwardPacketQueue.capacity,
              ⟨now + C.delayToDuration d m.config.meanForwardingDelay, ⟨peer, out⟩⟩ ::
                m.forwardPacketQueue.queue⟩, b) := by
            rw [ForwardPacketQueue.insert_spec hs, ← hb]; rfl
          dsimp only [Node.markSeen]
          rw [hins, res_bind_ok]
          refine ⟨_, none, hacc, .forward t d peer _ hm hs hr rfl, ?_⟩
          rw [hb]
          cases b
          · rw [Bool.or_false]; rfl
          · rw [Bool.or_true]; rfl
      · have hsp : m.forwardPacketQueue.hasSpace = false := by simp [ForwardPacketQueue.hasSpace]; omega
        rw [hsp]
        exact ⟨m, none, hacc, .forwardFull t d hm (by omega), rfl⟩
  | deliverRequest =>
    refine ⟨out, .deliverRequest, rel, s, ?_⟩
    dsimp only
    unfold Node.handleRequest
    rw [arrayRef_prefix _ _ _ (by rw [hlen]; decide), res_bind_ok]
    cases hm : s.topology.isMixnode with
    | false => exact ⟨m, none, hacc, .requestNotMixnode hm, rfl⟩
    | true =>
      simp only [Bool.not_true, Bool.false_eq_true, if_false]
      obtain ⟨a, o, hi, hcase⟩ := insert_cases hfa (out.take PAYLOAD_DATA_SIZE)
        (by rw [List.length_take, hlen]; decide)
      obtain ⟨index, hindex⟩ : ∃ index, rel.add m.sessionStatus.currentIndex = .ok index := by
        cases rel with
        | current => exact ⟨_, rfl⟩
        | prev =>
          have := hidx s hacc.slot
          exact ⟨_, if_pos this⟩
      dsimp only [Node.markSeen]
      rw [hi, res_bind_ok]
      refine ⟨_, _, hacc, .request a o index hm hi hcase hindex, ?_⟩
      cases o with
      | none => rfl
      | some msg => dsimp only; rw [hindex, res_bind_ok]; rfl
  | deliverReply id =>
    refine ⟨out, .deliverReply id, rel, s, ?_⟩
    dsimp only
    unfold Node.handleReply
    rw [arrayRef_prefix _ _ _ (by rw [hlen]; decide), res_bind_ok]
    obtain ⟨v, hv⟩ : ∃ v, m.surbKeystore.entry id = v := ⟨_, rfl⟩
    cases v with
    | none => rw [hv]; exact ⟨m, none, hacc, .replyUnknown id hv, rfl⟩
    | some v =>
      rw [hv]
      obtain ⟨q, r, hd, hq⟩ := decryptReplyPayload_total hC (out.take PAYLOAD_SIZE) v.keys
        (by rw [List.length_take, hlen]; decide)
      dsimp only
      rw [hd, res_bind_ok]
      cases r with
      | error e => exact ⟨_, none, hacc, .replyBad id v q e hv hd, rfl⟩
      | ok u =>
        cases u
        dsimp only
        rw [arrayRef_prefix _ _ _ (by rw [hq]; decide), res_bind_ok]
        obtain ⟨a, o, hi, hcase⟩ := insert_cases hfa (q.take PAYLOAD_DATA_SIZE)
          (by rw [List.length_take, hq]; decide)
        rw [hi, res_bind_ok]
        exact ⟨_, _, hacc, .reply id v q a o hv hd hq hi hcase, rfl⟩

end Mixnet
