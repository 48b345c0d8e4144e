import Verif.Props.Sending
import Verif.Props.Queues
import Verif.Proofs.Wire
/-!
# C60, C61: what is on the wire, byte by byte
-/
namespace Mixnet.Props
open Mixnet Spec

variable {C : Crypto} (hC : CryptoLaws C) {config : Config} {m m' : Node}

/-! ### What the Sphinx functions build -/

theorem goodPath {theirs : List KxPublic} {targets : List Target} (h : ValidPath theirs targets) :
    GoodPath targets theirs :=
  ⟨h.length.symm, h.hops, fun t ht => by
    have := h.target t ht
    cases t with
    | mixnodeIndex i => exact this
    | peerId p => exact this, h.onePeerId⟩

include hC

/-- **C61.** A request packet. Whatever was in the buffer apart from the payload data, and whatever the random
numbers, it is the packet with that data, a key and a filler of the right sizes. -/
theorem request_packet_bytes {packet : Bytes} (hl : packet.length = 2252) (rng : Rng) {targets : List Target}
    {theirs : List KxPublic} (hp : ValidPath theirs targets) :
    ∃ eph filler rng', eph.length = 32 ∧ filler.length = fillerSize targets .request ∧
      completeRequestPacket C packet rng targets theirs =
        .ok (requestPacketBytes C eph filler targets theirs ((packet.drop 188).take 2048), packetDelay C eph theirs, rng') :=
  ⟨_, _, _, fillBytes_length _ _, fillBytes_length _ _, completeRequestPacket_bytes hC hl rng (goodPath hp)⟩

/-- **C61.** A SURB, and the keys kept for it. -/
theorem surb_bytes {old : Bytes} (hl : old.length = 222) (rng : Rng) (first : Nat) {targets : List Target}
    {theirs : List KxPublic} (hp : ValidPath theirs targets) {id : Bytes} (hid : id.length = 16) :
    ∃ eph filler secret rng', eph.length = 32 ∧ filler.length = fillerSize targets (.reply id) ∧ secret.length = 32 ∧
      buildSurb C old rng first targets theirs id =
        .ok (surbBytes C eph filler first targets theirs id secret, surbPayloadKeys C eph theirs secret,
          packetDelay C eph theirs, rng') :=
  ⟨_, _, _, _, fillBytes_length _ _, fillBytes_length _ _, fillBytes_length _ _,
    buildSurb_bytes hC hl rng first (goodPath hp) hid⟩

/-- **C61.** A cover packet. -/
theorem cover_packet_bytes {packet : Bytes} (hl : packet.length = 2252) (rng : Rng) {targets : List Target}
    {theirs : List KxPublic} (hp : ValidPath theirs targets) {id : Option Bytes} (hid : ∀ i ∈ id, i.length = 16) :
    ∃ eph filler payload rng', eph.length = 32 ∧ filler.length = fillerSize targets (.cover id) ∧ payload.length = 2064 ∧
      buildCoverPacket C packet rng targets theirs id =
        .ok (coverPacketBytes C eph filler targets theirs id payload, packetDelay C eph theirs, rng') :=
  ⟨_, _, _, _, fillBytes_length _ _, fillBytes_length _ _, fillBytes_length _ _,
    buildCoverPacket_bytes hC hl rng (goodPath hp) id hid⟩

omit hC in
/-- **C61.** A reply packet. -/
theorem reply_packet_bytes {packet : Bytes} (hl : packet.length = 2252) (surb : Bytes) :
    ∃ first, completeReplyPacket C packet surb = .ok (replyPacketBytes C surb ((packet.drop 188).take 2048), first) :=
  completeReplyPacket_bytes hl surb

/-- **C61.** What a hop hands on is a function of the packet and the shared secret alone. -/
theorem forwarded_bytes {old packet out : Bytes} {sec : SharedSecret} {target : Target} {delay : C.Delay}
    (hold : old.length = 2252) (hp : packet.length = 2252)
    (h : peel C old packet sec = .ok (out, .ok (.forwardTo target delay))) :
    out = forwardedBytes C sec target packet := by
  obtain ⟨kx, mac, actions, payload, parts⟩ := parts_exist packet hp
  have e0 : packet.take 32 = kx := parts.slice_kx
  have e2 : (packet.drop 48).take 140 = actions := parts.slice_actions
  have e3 : (packet.drop 188).take 2064 = payload := parts.slice_payload
  have key : ∀ n, (forwardAction target).length = n → n + 16 ≤ 50 →
      nextPacket C kx actions payload sec n = forwardedBytes C sec target packet := by
    intro n hn hle
    unfold nextPacket forwardedBytes
    dsimp only
    rw [e0, e2, e3, hn]
    have : slice (decActions C actions sec) n 156 = (masked C sec 0 (actions ++ List.replicate (n + 16) 0)).drop n := by
      rw [← masked_eq C sec _ 0 (by rw [List.length_append, List.length_replicate, parts.actions]; omega)]
      unfold slice decActions
      have e : actions ++ List.replicate 50 0 =
          (actions ++ List.replicate (n + 16) 0) ++ List.replicate (34 - n) (0 : Byte) := by
        rw [List.append_assoc, List.replicate_append_replicate]
        congr 2; omega
      rw [List.drop_zero, e, applyKeystream_append, List.drop_append_of_le_length, List.take_append_of_le_length,
        List.take_of_length_le]
      all_goals
        simp only [List.length_drop, applyKeystream_length, List.length_append, List.length_replicate, parts.actions]
        omega
    rw [this]
    rfl
  obtain ⟨hbad, hgood⟩ := peel_eq hC sec parts hold
  by_cases hm : C.blakeMac (C.macKey sec) actions = mac
  · obtain ⟨hreq, hrep, hcov, hcovid, hpeer, hmix, herr⟩ := hgood hm _ rfl
    obtain ⟨code, hcode⟩ : ∃ c, fromLe16 (slice (decActions C actions sec) 0 2) = c := ⟨_, rfl⟩
    rw [hcode] at hreq hrep hcov hcovid hpeer hmix herr
    rcases Nat.lt_or_ge 0xff04 code with hc | hc
    · obtain ⟨o, ho, h'⟩ := herr hc
      rw [h] at h'; cases h'
    rcases Nat.lt_or_ge 0xfeff code with hc1 | hc1
    · have : code = 0xff00 ∨ code = 0xff01 ∨ code = 0xff02 ∨ code = 0xff03 ∨ code = 0xff04 := by omega
      rcases this with h0 | h0 | h0 | h0 | h0
      · have h' := hpeer h0
        rw [h] at h'; cases h'
        refine key 34 ?_ (by omega)
        have : (slice (decActions C actions sec) 2 32).length = 32 := by
          rw [slice_length]; rw [decActions_length, parts.actions]; omega
        simp [forwardAction, le16, this]
      · obtain ⟨o, ho, ho2, h'⟩ := hreq h0
        rw [h] at h'
        split at h' <;> cases h'
      · obtain ⟨o, ho, ho2, h'⟩ := hrep h0
        rw [h] at h'; cases h'
      · obtain ⟨o, ho, h'⟩ := hcov h0
        rw [h] at h'; cases h'
      · obtain ⟨o, ho, h'⟩ := hcovid h0
        rw [h] at h'; cases h'
    · have h' := hmix hc1
      rw [h] at h'; cases h'
      exact key 2 rfl (by omega)
  · have h' := hbad hm
    rw [h] at h'; cases h'

/-! ### Fragments -/

omit hC in
theorem chain_mem {α : Type} {P : Nat → α → Nat → Prop} : ∀ {xs : List α} {a b : Nat}, Chain P a xs b →
    ∀ x ∈ xs, ∃ c d, P c x d
  | x :: xs, a, b, ⟨c, h, hs⟩, y, hy => by
    rcases List.mem_cons.1 hy with rfl | hy
    · exact ⟨_, _, h⟩
    · exact chain_mem hs y hy

omit hC in
theorem bytesAt_length (rng : Rng) (a n : Nat) : (bytesAt rng a n).length = n := by simp [bytesAt]

/-- **C60, C61.** A posted request. The packets appended to the queue carry the fragments of the message, which are
exactly `messageFragments`, in order, and every packet and every SURB in a fragment has exactly the bytes that the
formats prescribe for its route. -/
theorem request_on_the_wire (hr : Node.Reachable C config m) (hk : config.numHops ≤ 6) {rng : Rng} {i : Nat}
    {d d' : Option MixnodeIndex} {mid : MessageId} {data : Scattered Byte} {l : Bytes} {n : Nat} {ns : NetworkStatus}
    {met : RequestMetrics} (hw : (Call.postRequest rng i d mid data n ns).WellTyped) (hd : Denotes data l)
    (h : m.step C (.postRequest rng i d mid data n ns) = .ok (m', .posted d' (.ok met))) :
    ∃ s dest packets, PostedRequest C m i d mid l n ns m' d' met s dest packets ∧
      packets.map (·.fragment) = messageFragments mid l ((packets.flatMap (·.surbs)).map (·.surb)) ∧
      ∀ p ∈ packets,
        (∃ eph filler, eph.length = 32 ∧ filler.length = fillerSize p.route.targets .request ∧
          p.packet.packet = requestPacketBytes C eph filler p.route.targets p.route.kxPublics p.fragment) ∧
        ∀ x ∈ p.surbs, ∃ eph filler secret, eph.length = 32 ∧
          filler.length = fillerSize x.route.targets (.reply x.id) ∧ secret.length = 32 ∧
          x.surb = surbBytes C eph filler x.route.first x.route.targets x.route.kxPublics x.id secret ∧
          x.keys = surbPayloadKeys C eph x.route.kxPublics secret := by
  obtain ⟨s, dest, packets, hp, g, a, b, -, -, -, hch⟩ := fresh_randomness hC hr hk hw hd h
  refine ⟨s, dest, packets, hp, hp.bytes, ?_⟩
  intro p hpm
  obtain ⟨_, _, c, e, -, -, hs, hb, -⟩ := chain_mem hch p hpm
  refine ⟨⟨_, _, bytesAt_length _ _ _, bytesAt_length _ _ _, hb⟩, ?_⟩
  intro x hx
  obtain ⟨_, _, c', -, -, -, h1, h2, -⟩ := chain_mem hs x hx
  exact ⟨_, _, _, bytesAt_length _ _ _, bytesAt_length _ _ _, bytesAt_length _ _ _, h1, h2⟩

omit hC in
theorem replies_bytes {t : Topology} {fs : List Fragment} {used : List Surb} {ps : List AddressedPacket}
    (h : RepliesBuilt C t fs used ps) : ps.map (·.packet) = List.zipWith (replyPacketBytes C) used fs := by
  induction h with
  | nil => rfl
  | cons h _ ih =>
    obtain ⟨old, first, mx, h1, h2, h3, -⟩ := h
    obtain ⟨o, e⟩ := completeReplyPacket_bytes (C := C) h1 _
    rw [h3, h2] at e
    simp only [Except.ok.injEq, Prod.mk.injEq] at e
    rw [List.map_cons, List.zipWith_cons_cons, ih, e.1]

/-- **C60, C61.** A posted reply. One packet per fragment is appended to the queue, with exactly the bytes prescribed for
the fragment and the SURB, the last SURB for the first fragment and so on. -/
theorem reply_on_the_wire (hr : Node.Reachable C config m) {i : Nat} {surbs surbs' : List Surb} {mid : MessageId}
    {data : Scattered Byte} {l : Bytes} (hw : (Call.postReply surbs i mid data).WellTyped) (hd : Denotes data l)
    (h : m.step C (.postReply surbs i mid data) = .ok (m', .replied surbs' (.ok ()))) :
    ∃ s ps used, m.sessionAt i = some s ∧ m' = withSession m i (enqueue s ps) ∧ surbs = surbs' ++ used.reverse ∧
      used.length = (messageFragments mid l []).length ∧
      ps.map (·.packet) = List.zipWith (replyPacketBytes C) used (messageFragments mid l []) := by
  obtain ⟨s, fs, used, ps, h1, -, -, -, rfl, h3, h4, h5⟩ := reply_posted_bytes hC hr hw hd h
  exact ⟨s, ps, used, h1, h5, h3, h4.lengths.1, replies_bytes h4⟩

/-- **C61.** A packet that is sent when one is due is the first in the queue of a session, or a cover packet with exactly
the bytes prescribed for its route. -/
theorem cover_on_the_wire (hr : Node.Reachable C config m) (hk : config.numHops ≤ 6) {rng ns p}
    (hns : ns.localPeerId.length = PEER_ID_SIZE)
    (h : m.step C (.popNextAuthoredPacket rng ns) = .ok (m', .authoredPacket (some p))) :
    (∃ i s rest, m.sessionAt i = some s ∧ s.authoredPacketQueue.queue = p :: rest) ∨
    ∃ i s kind route eph filler payload, m.sessionAt i = some s ∧ Generated s.topology ns kind config.numHops route ∧
      eph.length = 32 ∧ filler.length = fillerSize route.targets (.cover none) ∧ payload.length = 2064 ∧
      p.packet = coverPacketBytes C eph filler route.targets route.kxPublics none payload := by
  obtain ⟨hI, rfl⟩ := hr.inv hC
  rcases authored_dispatch hC hr hns h with ⟨-, h, -⟩ | ⟨i, s, isLoop, hs, hd⟩
  · cases h
  · generalize hq : some p = q at hd
    cases hd with
    | queued x rest h1 h2 h3 h4 => cases hq; exact .inl ⟨i, s, rest, hs, h4⟩
    | cover x h1 h2 h3 =>
      obtain ⟨-, kind, route, hgen, hl, hnl, -, old, rng1, rng2, delay, ho, hb⟩ := h2 p hq.symm
      right
      obtain ⟨g, r, r', hg, hroute⟩ := hgen
      have v := view_of_inv hI hs hg
      have good := route_good v hns hk (by
        intro d hd
        cases isLoop with
        | true => rw [hl rfl] at hd; cases hd
        | false =>
          obtain ⟨d', rfl, hd'⟩ := hnl rfl
          cases hd; exact hd'.1) hroute
      rw [buildCoverPacket_bytes hC ho rng1 good none (by simp)] at hb
      simp only [Except.ok.injEq, Prod.mk.injEq] at hb
      exact ⟨i, s, kind, route, _, _, _, hs, ⟨g, r, r', hg, hroute⟩, fillBytes_length _ _, fillBytes_length _ _,
        fillBytes_length _ _, hb.1.symm⟩

/-- **C61.** A packet put into the queue of packets to be forwarded is what the format prescribes, given the packet that
arrived and the shared secret with its sender. -/
theorem forward_on_the_wire (hr : Node.Reachable C config m) {now : Nat} {packet : Bytes} {p : ForwardPacket} (hl : packet.length = 2252)
    (h : Forwards C m now packet p) :
    ∃ i s target, m.sessionAt i = some s ∧ peerOf s.topology target = some p.packet.peerId ∧
      p.packet.packet = forwardedBytes C (C.deriveKxSharedSecret (packet.take 32) s.kxPair.secret) target packet := by
  obtain ⟨rel, s, out, target, delay, peer, ha, -, -, hpeer, rfl⟩ := h
  obtain ⟨i, -, hs⟩ := sessionAt_of_slot (hr.inv hC).1 ha.slot
  exact ⟨i, s, target, hs, hpeer, forwarded_bytes hC zeroPacket_length hl ha.peels⟩

omit hC

/-! ### Concrete cases -/

open World

/-- The formats, for a path of four hops, the third given by a peer ID. -/
theorem path4 : ValidPath (List.replicate 4 [7, 1]) [.mixnodeIndex 3, .peerId (List.replicate 32 9), .mixnodeIndex 1] where
  length := rfl
  hops := by decide
  target := by
    intro t ht
    simp only [List.mem_cons, List.not_mem_nil, or_false] at ht
    rcases ht with rfl | rfl | rfl <;> simp
  onePeerId := by decide

example := request_packet_bytes toyLaws (packet := List.replicate 2252 5) List.length_replicate (fun n => n) path4
example := surb_bytes toyLaws (old := List.replicate 222 5) List.length_replicate (fun n => n) 2 path4
  (id := List.replicate 16 1) rfl
example := cover_packet_bytes toyLaws (packet := List.replicate 2252 5) List.length_replicate (fun n => n) path4
  (id := some (List.replicate 16 1)) (by simp)

/-- A message of 4000 bytes and a SURB makes three fragments; the last holds the rest. -/
example (s : Bytes) : (messageFragments [] (List.replicate 4000 7) [s]).length = 3 ∧
    fragmentCount 4000 1 = 3 := by
  have : fragmentCount 4000 1 = 3 := by decide
  refine ⟨?_, this⟩
  unfold messageFragments
  rw [List.length_replicate, List.length_singleton, this]
  rfl

/-- Alice's request. -/
example : ∃ packets : List (NewPacket World.C), packets ≠ [] ∧ packets.flatMap (·.surbs) ≠ [] ∧ ∃ mid l,
    packets.map (·.fragment) = messageFragments mid l ((packets.flatMap (·.surbs)).map (·.surb)) := by
  obtain ⟨met, hmet⟩ := askOut_eq
  have h := ask_step
  rw [hmet] at h
  obtain ⟨s, dest, packets, hp, hb, -⟩ :=
    request_on_the_wire toyLaws alice_reachable (by decide) ask_typed (Denotes.ofSlice _) h
  refine ⟨packets, ?_, ?_, _, _, hb⟩
  · rintro rfl
    have := hp.surbCount
    simp at this
  · intro h0
    have := hp.surbCount
    rw [h0] at this
    simp at this

/-- Bob's reply. -/
example : ∃ s ps used, bob2 = withSession bob1 0 (enqueue s ps) ∧
    ps.map (·.packet) = List.zipWith (replyPacketBytes World.C) used (messageFragments (List.replicate 16 9) [7, 8] []) ∧
    ps ≠ [] := by
  obtain ⟨surbs', hout⟩ := answerOut_eq
  have h := answer_step
  rw [hout] at h
  obtain ⟨s, ps, used, -, h2, -, h4, h5⟩ :=
    reply_on_the_wire toyLaws (bob_reachable.step toyLaws arrive_typed arrive_step) answer_typed (Denotes.ofSlice _) h
  refine ⟨s, ps, used, h2, h5, ?_⟩
  have := congrArg List.length h5
  rw [List.length_map, List.length_zipWith, h4, Nat.min_self] at this
  rintro rfl
  revert this
  decide

/-- Carol forwards Alice's packet. -/
example : ∃ p i s target, Forwards World.C carol 1000 packet0.packet p ∧ carol.sessionAt i = some s ∧
    p.packet.packet = forwardedBytes World.C (World.C.deriveKxSharedSecret (packet0.packet.take 32) s.kxPair.secret)
      target packet0.packet := by
  have hI := (World.carol_reachable.inv toyLaws).1
  have hc := Node.step_cases toyLaws hI World.relay_typed World.relay_step
  rcases forward_step hI hc with ⟨now, packet, p, hcall, hf, -⟩ | ⟨tie, p, hcall, -⟩ | ⟨-, -, -, hq⟩
  · cases hcall
    obtain ⟨i, s, target, h1, -, h2⟩ := forward_on_the_wire toyLaws carol_reachable relay_typed hf
    exact ⟨p, i, s, target, hf, h1, h2⟩
  · cases hcall
  · rw [World.carol1_queue.1] at hq
    have : World.carol.forwardPacketQueue.queue = [] := by decide +kernel
    rw [this] at hq; cases hq

/-- With nothing to send, Alice sends a cover packet. -/
example : ∃ m' p, ∃ s : Session, ∃ kind route eph filler payload,
    alice.step World.C (.popNextAuthoredPacket (fun _ => 2 ^ 64 - 1) (ns 3)) = .ok (m', .authoredPacket (some p)) ∧
    Generated s.topology (ns 3) kind (cfg 3).numHops route ∧
    p.packet = coverPacketBytes World.C eph filler route.targets route.kxPublics none payload := by
  have hs : (alice.step World.C (.popNextAuthoredPacket (fun _ => 2 ^ 64 - 1) (ns 3))).says
      (fun o => match o with | .authoredPacket (some _) => true | _ => false) = true := by decide +kernel
  obtain ⟨m', o, he, ho⟩ := Res.of_says hs
  match o, ho with
  | .authoredPacket (some p), _ =>
    have hempty : ∀ i s, alice.sessionAt i = some s → s.authoredPacketQueue.queue = [] := by
      intro i s hi
      have h0 : (alice.sessions.current.asOption.all (·.authoredPacketQueue.queue.isEmpty)) = true := by decide +kernel
      have h1 : (alice.sessions.prev.asOption.all (·.authoredPacketQueue.queue.isEmpty)) = true := by decide +kernel
      unfold Node.sessionAt at hi
      split at hi
      · rw [hi] at h0; simpa using h0
      · split at hi
        · rw [hi] at h1; simpa using h1
        · cases hi
    rcases cover_on_the_wire toyLaws alice_reachable (by decide) rfl he with ⟨i, s, rest, h1, h2⟩ |
      ⟨i, s, kind, route, eph, filler, payload, -, h2, -, -, -, h3⟩
    · rw [hempty i s h1] at h2; cases h2
    · exact ⟨m', p, s, kind, route, eph, filler, payload, he, h2, h3⟩

end Mixnet.Props
