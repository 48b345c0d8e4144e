import Verif.Proofs.Posting
import Verif.Proofs.RandomBytes
import Verif.Spec.World
/-!
# C27, C28, C29, C30: posting requests and replies
-/
namespace Mixnet.Props
open Mixnet Spec

/-- What a successful `post_request` has done. `l` is the data, `s` the session, `dest` the destination,
`packets` what was made. -/
structure PostedRequest (C : Crypto) (m : Node) (i : Nat) (d : Option MixnodeIndex) (mid : MessageId) (l : Bytes)
    (n : Nat) (ns : NetworkStatus) (m' : Node) (d' : Option MixnodeIndex) (met : RequestMetrics)
    (s : Session) (dest : Nat) (packets : List (NewPacket C)) : Prop where
  /-- the session is the one asked for, and in use -/
  session : m.sessionAt i = some s
  active : ¬ NoLonger m.sessionStatus i ∧ ¬ NotYet m.sessionStatus i
  /-- the destination is written back; it is the given one, or a random mixnode other than the local node
  and the only connected gateway -/
  destination : d' = some dest ∧ dest < s.topology.mixnodes.length ∧ (∀ j, d = some j → dest = j) ∧
    (d = none → s.topology.localNode ≠ .mixnode dest ∧ ¬ ConnectedGateways s.topology ns [dest])
  /-- the packets carry the fragments of the message -/
  fragments : Sent mid l ((packets.flatMap (·.surbs)).map (·.surb)) (packets.map (·.fragment))
  bytes : packets.map (·.fragment) = messageFragments mid l ((packets.flatMap (·.surbs)).map (·.surb))
  few : packets.length ≤ m.config.maxFragmentsPerMessage
  /-- as many SURBs as asked for -/
  surbCount : (packets.flatMap (·.surbs)).length = n
  built : ∀ p ∈ packets, p.Built s.topology ns dest m.config.numHops
  /-- the packets are appended to the queue; a key entry is remembered for every SURB, the oldest entries
  giving way; nothing else changes -/
  after : m' = { withSession m i (enqueue s (packets.map (·.packet))) with
    surbKeystore := { m.surbKeystore with
      surbs := lastN m.surbKeystore.capacity (m.surbKeystore.surbs ++
        (packets.flatMap (·.surbs)).map fun x => (x.id, ⟨x.keys, mid⟩)) } }
  fits : s.authoredPacketQueue.queue.length + packets.length ≤ s.authoredPacketQueue.config.capacity
  /-- the metrics -/
  metrics : ∃ queueDelay,
    estimateAuthoredPacketQueueDelay C m.config (enqueue s (packets.map (·.packet))) = .ok queueDelay ∧
    met = {
      numHops := (packets.map fun p => p.route.kxPublics.length).foldl max 0 +
        ((packets.flatMap (·.surbs)).map fun x => x.route.kxPublics.length).foldl max 0
      perHopNetDelay := m.config.perHopNetDelay
      forwardingDelay := C.delayToDuration (C.delayAdd
        ((packets.map (·.delay)).foldl (delayMax C) C.delayZero)
        (((packets.flatMap (·.surbs)).map (·.delay)).foldl (delayMax C) C.delayZero)) m.config.meanForwardingDelay
      authoredPacketQueueDelay := queueDelay }

theorem newBuilder {rng rng1 : Rng} {t : Topology} {ns : NetworkStatus} {d : Option Nat} {b : RequestBuilder}
    (h : RequestBuilder.new rng t ns d = .ok (.ok (b, rng1))) :
    RouteGenerator.new t ns = .ok b.routeGenerator ∧
      ((∃ j, d = some j ∧ b.destinationIndex = j) ∨
       (d = none ∧ b.routeGenerator.chooseDestinationIndex rng = .ok (.ok (b.destinationIndex, rng1)))) := by
  unfold RequestBuilder.new at h
  rw [res_bind_eq_ok] at h
  obtain ⟨g, hg, h⟩ := h
  cases d with
  | some j =>
    simp only [Except.ok.injEq, Prod.mk.injEq] at h
    obtain ⟨rfl, rfl⟩ := h
    exact ⟨hg, .inl ⟨j, rfl, rfl⟩⟩
  | none =>
    dsimp only at h
    rw [res_bind_eq_ok] at h
    obtain ⟨r, hr, h⟩ := h
    cases r with
    | error e => cases h
    | ok p =>
      simp only [Except.ok.injEq, Prod.mk.injEq] at h
      obtain ⟨rfl, rfl⟩ := h
      exact ⟨hg, .inr ⟨rfl, hr⟩⟩

theorem allowed_iff {st : SessionStatus} {i : Nat} {rel : RelSessionIndex}
    (h : RelSessionIndex.fromSessionIndex i st.currentIndex = some rel) :
    st.phase.allowRequestsAndReplies rel = true ↔ ¬ NoLonger st i ∧ ¬ NotYet st i := by
  obtain ⟨cur, ph⟩ := st
  unfold NoLonger NotYet
  dsimp only at h ⊢
  rcases fromSessionIndex_some.1 h with ⟨rfl, rfl⟩ | ⟨rfl, rfl⟩ <;>
    cases ph <;> simp [SessionPhase.allowRequestsAndReplies, SessionPhase.rank]

theorem foldl_hops {C : Crypto} (xs : List (SurbInfo C)) (a : Nat) (h : ∀ x ∈ xs, x.hops = x.route.kxPublics.length) :
    xs.foldl (fun h i => max h i.hops) a = (xs.map fun x => x.route.kxPublics.length).foldl max a := by
  induction xs generalizing a with
  | nil => rfl
  | cons x xs ih =>
    simp only [List.foldl_cons, List.map_cons]
    rw [h x List.mem_cons_self, ih _ (fun y hy => h y (List.mem_cons_of_mem _ hy))]

theorem foldl_hops' {C : Crypto} (xs : List (PacketInfo C)) (a : Nat) (h : ∀ x ∈ xs, x.hops = x.route.kxPublics.length) :
    xs.foldl (fun h i => max h i.hops) a = (xs.map fun x => x.route.kxPublics.length).foldl max a := by
  induction xs generalizing a with
  | nil => rfl
  | cons x xs ih =>
    simp only [List.foldl_cons, List.map_cons]
    rw [h x List.mem_cons_self, ih _ (fun y hy => h y (List.mem_cons_of_mem _ hy))]

theorem made_hops {C : Crypto} {b : RequestBuilder} {numHops : Nat} : ∀ {bps : List FragmentBlueprint} {infos : List (PacketInfo C)},
    List.Forall₂ (PacketMade C b numHops) bps infos →
    (∀ x ∈ infos, x.hops = x.route.kxPublics.length) ∧
    (∀ x ∈ infos.flatMap (·.surbs), x.hops = x.route.kxPublics.length) ∧ infos.length = bps.length
  | [], _, .nil => ⟨by simp, by simp, rfl⟩
  | bp :: bps, info :: infos, .cons h hs => by
    obtain ⟨i1, i2, i3⟩ := made_hops hs
    obtain ⟨rng, rng1, rng2, rng3, f0, e1, e2, e3, e4, e5, e6, e7, e8, e9⟩ := h
    refine ⟨?_, ?_, by simp [i3]⟩
    · intro x hx
      rcases List.mem_cons.1 hx with rfl | hx
      · exact e8
      · exact i1 x hx
    · intro x hx
      rw [List.flatMap_cons, List.mem_append] at hx
      rcases hx with hx | hx
      · obtain ⟨_, _, _, -, -, g, -⟩ := e6 x hx; exact g
      · exact i2 x hx

theorem made_all {C : Crypto} (hC : CryptoLaws C) {b : RequestBuilder} {numHops : Nat} {t : Topology} {ns : NetworkStatus}
    (hg : RouteGenerator.new t ns = .ok b.routeGenerator) (ht : b.routeGenerator.topology = t) {n : Nat} (hn' : n ≤ 65536) :
    ∀ {bps : List FragmentBlueprint} {infos : List (PacketInfo C)},
    List.Forall₂ (PacketMade C b numHops) bps infos →
    (∀ bp ∈ bps, bp.messageId.length = 16 ∧ bp.lastIndex + 1 = n ∧ bp.index < n ∧ bp.data.WF ∧ bp.numSurbs ≤ 9 ∧
      bp.data.toVec.length + 222 * bp.numSurbs ≤ 2025) →
    (∀ x ∈ infos, (x.toNew).Built t ns b.destinationIndex numHops) ∧
    (∀ x ∈ infos.flatMap (·.surbs), x.surb.length = 222) ∧
    (∀ x ∈ infos, payloadData (splice zeroPacket HEADER_SIZE x.fragment) = x.fragment) ∧
    (∀ x ∈ infos, (splice zeroPacket HEADER_SIZE x.fragment).length = PACKET_SIZE) ∧
    (∀ x ∈ infos, ∀ s ∈ x.surbs, s.old.length = SURB_SIZE)
  | [], _, .nil, _ => ⟨by simp, by simp, by simp, by simp, by simp⟩
  | bp :: bps, info :: infos, .cons h hs, hb => by
    obtain ⟨i1, i2, i3, i4, i5⟩ := made_all hC hg ht hn' hs (fun bp h => hb bp (List.mem_cons_of_mem _ h))
    obtain ⟨b1, b2, b3, b4, b5, b6⟩ := hb bp List.mem_cons_self
    obtain ⟨j1, j2, j3, j4, j5⟩ := packetMade_built hC hg ht h b1 b2 hn' b3 b4 b5 b6
    refine ⟨?_, ?_, ?_, ?_, ?_⟩
    · intro x hx
      rcases List.mem_cons.1 hx with rfl | hx
      · exact j1
      · exact i1 x hx
    · intro x hx
      rw [List.flatMap_cons, List.mem_append] at hx
      rcases hx with hx | hx
      · exact j2 x hx
      · exact i2 x hx
    · intro x hx
      rcases List.mem_cons.1 hx with rfl | hx
      · exact j3
      · exact i3 x hx
    · intro x hx
      rcases List.mem_cons.1 hx with rfl | hx
      · exact j4
      · exact i4 x hx
    · intro x hx
      rcases List.mem_cons.1 hx with rfl | hx
      · exact j5
      · exact i5 x hx

theorem posted_of_case {C : Crypto} (hC : CryptoLaws C) {m m' : Node} (hI : m.Inv C) (hk : m.config.numHops ≤ 6)
    {rng : Rng} {i : Nat} {d d' : Option MixnodeIndex} {mid : MessageId} {data : Scattered Byte} {l : Bytes} {n : Nat}
    {ns : NetworkStatus} {met : RequestMetrics} (hd : Denotes data l) (hmid : mid.length = 16)
    (hns : ns.localPeerId.length = PEER_ID_SIZE) (h : PostCase C m rng i d mid data n ns m' d' (.ok met)) :
    ∃ s dest packets, PostedRequest C m i d mid l n ns m' d' met s dest packets ∧
      RequestDraws s.topology ns d dest m.config.numHops rng packets := by
  obtain ⟨hw, rfl⟩ := denotes_wf hd
  generalize hr : (Except.ok met : Except PostErr RequestMetrics) = r at h
  cases h with
  | tooMany => cases hr
  | noSession => cases hr
  | noSpace => cases hr
  | noDestination => cases hr
  | failed => cases hr
  | posted bps rel s b rng1 acc infos met' queueDelay h1 h2 h3 h4 h5 h6 h7 h8 =>
    cases hr
    obtain ⟨p1, p2, p3⟩ := postSession_ok h3
    obtain ⟨q1, q2⟩ := newBuilder h5
    have hs := hI.sessions rel s p3
    have hview : View s.topology ns b.routeGenerator := by
      obtain ⟨rng, ms, rng', hm⟩ := hs.made
      exact ⟨⟨rng, ms, _, _, rng', hm⟩, q1⟩
    obtain ⟨hwf, hge, hgwf⟩ := hview.wf
    have hgt : b.routeGenerator.topology = s.topology := by rw [hge]
    rcases fragmentBlueprints_spec mid data n hw with ⟨e, -⟩ | ⟨bs, e, f1, f2, f3, f4, f5, f6, f7⟩
    · rw [h1] at e; cases e
    rw [h1] at e
    simp only [Except.ok.injEq, Option.some.injEq] at e
    subst e
    have hbp : ∀ bp ∈ bps, bp.messageId.length = 16 ∧ bp.lastIndex + 1 = bps.length ∧ bp.index < bps.length ∧ bp.data.WF ∧
        bp.numSurbs ≤ 9 ∧ bp.data.toVec.length + 222 * bp.numSurbs ≤ 2025 := by
      intro bp hbp
      obtain ⟨j, hj, rfl⟩ := List.getElem_of_mem hbp
      obtain ⟨a1, a2, a3, a4, a5, a6⟩ := f5 j hj
      exact ⟨by rw [a1]; exact hmid, by omega, by omega, a4, a5, a6⟩
    obtain ⟨g1, g2, g3, g4, g5⟩ := made_all hC q1 hgt f2 h6.made hbp
    obtain ⟨w1, w2⟩ := made_writes hC h6.made (fun bp h => (hbp bp h).2.2.2.2.1)
    obtain ⟨c1, c2, c3⟩ := made_hops h6.made
    rw [f7] at w2
    have hflat : ∀ (xs : List (PacketInfo C)), (xs.map (·.toNew)).flatMap (·.surbs) = (xs.flatMap (·.surbs)).map (·.toNew) := by
      intro xs
      rw [List.flatMap_map, List.map_flatMap]
      rfl
    have hsurb : ((infos.map (·.toNew)).flatMap (·.surbs)).map (·.surb) = (infos.flatMap (·.surbs)).map (·.surb) := by
      rw [hflat, List.map_map]; rfl
    have hqueue : ({ s with authoredPacketQueue := acc.queue } : Session) =
        enqueue s ((infos.map (·.toNew)).map (·.packet)) := by
      rw [h6.queue, List.map_map]; rfl
    have hlen : 0 < infos.length := by rw [c3]; omega
    have hdlt : b.destinationIndex < s.topology.mixnodes.length := by
      cases hm : h6.made with
      | nil => simp at f1
      | cons hmade _ =>
        obtain ⟨_, _, _, _, _, e1, -⟩ := hmade
        rw [← hgt]; exact genRoute_dest e1
    have hgood : GoodRoutes b m.config.numHops := by
      intro kind hkind r r' route hgen
      refine route_good hview hns hk ?_ hgen
      intro d' hd'
      rcases hkind with rfl | rfl <;> cases hd' <;> exact hdlt
    refine ⟨s, b.destinationIndex, infos.map (·.toNew), ?_, ?_⟩
    rotate_left
    · cases d with
      | some j =>
        have hr1 : rng1 = skip rng 0 := by
          unfold RequestBuilder.new at h5
          rw [q1, res_bind_ok] at h5
          simp only [Except.ok.injEq, Prod.mk.injEq] at h5
          exact h5.2.symm
        have hch := h6.drawn
        dsimp only at hch
        rw [hr1] at hch
        obtain ⟨e, he⟩ := packetChain_draws hC hgood g5 g4 g3 hch
        exact ⟨_, 0, e, q1, fun _ => rfl, fun h => (by cases h), he⟩
      | none =>
        rcases q2 with ⟨j', e, -⟩ | ⟨-, e⟩
        · cases e
        · unfold RouteGenerator.chooseDestinationIndex at e
          obtain ⟨u, hr1⟩ := (RouteGenerator.chooseMixnodeIndex_takes e).uses (rng := rng) (a := 0) rfl
          have hch := h6.drawn
          dsimp only at hch
          rw [hr1] at hch
          obtain ⟨e, he⟩ := packetChain_draws hC hgood g5 g4 g3 hch
          exact ⟨_, _, e, q1, fun h => absurd rfl h, fun _ => u, he⟩
    refine { session := ?_, active := ?_, destination := ?_, fragments := ?_, bytes := ?_, few := ?_, surbCount := ?_, built := ?_, after := ?_,
             fits := ?_, metrics := ?_ }
    · exact Node.sessionAt_eq.2 ⟨rel, p1, p3⟩
    · exact (allowed_iff p1).1 p2
    · refine ⟨rfl, hdlt, ?_, ?_⟩
      · rintro j rfl
        rcases q2 with ⟨j', e, e'⟩ | ⟨e, -⟩
        · cases e; exact e'
        · cases e
      · rintro rfl
        rcases q2 with ⟨j', e, -⟩ | ⟨-, e⟩
        · cases e
        · obtain ⟨ex, hex, ⟨-, e2⟩ | ⟨k, f, hu, e2⟩⟩ := choose_destination_uniform hview
          · rw [e2 rng] at e; cases e
          · rw [e2 rng] at e
            simp only [Except.ok.injEq, Prod.mk.injEq] at e
            have hk' : 0 < k := hu.1
            have := (hu.2.1 (rng 0 % k) (Nat.mod_lt _ hk')).2
            rw [e.1, hex, not_or] at this
            exact this
    · refine ⟨data, bps, List.replicate bps.length (payloadData zeroPacket), hd, ?_, List.length_replicate, ?_, ?_⟩
      · rw [hsurb, w2]; exact h1
      · intro x hx; rw [List.eq_of_mem_replicate hx]; exact payloadData_zero_length
      · rw [hsurb, w1, List.map_map]; rfl
    · rw [hsurb]
      have h1' := h1
      rw [← w2] at h1'
      refine fragments_bytes hmid hw ?_ h1' ?_
      · intro y hy
        obtain ⟨x, hx, rfl⟩ := List.mem_map.1 hy
        exact g2 x hx
      · rw [w1, List.map_map]; rfl
    · rw [List.length_map, c3]; exact h2
    · rw [hflat, List.length_map, ← w2, List.length_map]
    · intro p hp
      obtain ⟨x, hx, rfl⟩ := List.mem_map.1 hp
      exact g1 x hx
    · have hks := h6.keystore.surbs hI.keystore
      rw [withSession_eq p1, ← hqueue, hks]
      simp only [List.map_map, hflat]
      rfl
    · have := h6.fits (by intro hc; rw [hc] at hlen; simp at hlen)
      rw [h6.queue] at this
      simp only [List.length_append, List.length_map] at this ⊢
      exact this
    · refine ⟨queueDelay, by rw [← hqueue]; exact h7, ?_⟩
      rw [h8, h6.hops, h6.replyHops, h6.delay, h6.replyDelay, foldl_hops _ _ c2, foldl_hops' _ _ c1]
      simp only [hflat, List.map_map, List.foldl_map]
      rfl

theorem post_case {C : Crypto} (hC : CryptoLaws C) {m m' : Node} (hI : m.Inv C) {rng : Rng} {i : Nat}
    {d d' : Option MixnodeIndex} {mid : MessageId} {data : Scattered Byte} {n : Nat} {ns : NetworkStatus}
    {r : Except PostErr RequestMetrics} (hw : (Call.postRequest rng i d mid data n ns).WellTyped)
    (h : m.step C (.postRequest rng i d mid data n ns) = .ok (m', .posted d' r)) :
    PostCase C m rng i d mid data n ns m' d' r := by
  have hc := Node.step_cases hC hI hw h
  generalize hcall : Call.postRequest rng i d mid data n ns = call at hc
  generalize hout : Outcome.posted d' r = out at hc
  cases hc with
  | post _ _ _ _ _ _ _ _ _ _ hp => cases hcall; cases hout; exact hp
  | _ => cases hcall

theorem reply_case {C : Crypto} (hC : CryptoLaws C) {m m' : Node} (hI : m.Inv C) {i : Nat} {surbs surbs' : List Surb}
    {mid : MessageId} {data : Scattered Byte}
    {r : Except PostErr Unit} (hw : (Call.postReply surbs i mid data).WellTyped)
    (h : m.step C (.postReply surbs i mid data) = .ok (m', .replied surbs' r)) :
    ReplyCase C m surbs i mid data m' surbs' r := by
  have hc := Node.step_cases hC hI hw h
  generalize hcall : Call.postReply surbs i mid data = call at hc
  generalize hout : Outcome.replied surbs' r = out at hc
  cases hc with
  | reply _ _ _ _ _ _ _ hp => cases hcall; cases hout; exact hp
  | _ => cases hcall

variable {C : Crypto} (hC : CryptoLaws C) {config : Config} {m m' : Node}
include hC

omit hC in
theorem view_of_inv {C : Crypto} {m : Node} (hI : m.Inv C) {i : Nat} {s : Session} (hs : m.sessionAt i = some s)
    {ns : NetworkStatus} {g : RouteGenerator} (hg : RouteGenerator.new s.topology ns = .ok g) : View s.topology ns g := by
  obtain ⟨rel, -, h⟩ := Node.sessionAt_eq.1 hs
  obtain ⟨rng, ms, rng', hm⟩ := (hI.sessions rel s h).made
  exact ⟨⟨rng, ms, _, _, rng', hm⟩, hg⟩

/-- **C28.** If posting a request succeeds, exactly the packets of its fragments were appended to the queue of
the requested session, each built for a route to the destination and addressed to its first hop (a
connected gateway if the local node is not a mixnode), and one SURB key entry tagged with the message id
was created per requested SURB. -/
theorem request_posted (hr : Node.Reachable C config m) (hk : config.numHops ≤ 6) {rng : Rng} {i : Nat}
    {d d' : Option MixnodeIndex} {mid : MessageId} {data : Scattered Byte} {l : Bytes} {n : Nat} {ns : NetworkStatus}
    {met : RequestMetrics} (hw : (Call.postRequest rng i d mid data n ns).WellTyped) (hd : Denotes data l)
    (h : m.step C (.postRequest rng i d mid data n ns) = .ok (m', .posted d' (.ok met))) :
    ∃ s dest packets, PostedRequest C m i d mid l n ns m' d' met s dest packets ∧
      ∀ p ∈ packets, ∀ gs, ConnectedGateways s.topology ns gs → p.route.first ∈ gs := by
  obtain ⟨hI, rfl⟩ := hr.inv hC
  obtain ⟨s, dest, packets, hp, -⟩ := posted_of_case hC hI hk hd hw.2.1 hw.2.2.2 (post_case hC hI hw h)
  refine ⟨s, dest, packets, hp, fun p hpm gs hgs => ?_⟩
  obtain ⟨g, r, r', hg, hgen⟩ := (hp.built p hpm).route
  have := route_shape (view_of_inv hI hp.session hg) hk
    (fun d hd => by cases hd; exact hp.destination.2.1) hgen
  exact (this.2.2.2.2.1 gs hgs).1 rfl

/-- **C56.** If posting a request succeeds, its packets and SURBs are made of the random numbers of the call, and no number
is used twice: there are the packets of `request_posted`, and disjoint parts of the stream of random numbers, one after
the other, of which the destination (if it was to be chosen), and for each packet the route, for each of its SURBs the
ID, the route back, the ephemeral key, the rest of the header and the secret, and the ephemeral key and the rest of
the header of the packet are made, and which determine them. -/
theorem fresh_randomness (hr : Node.Reachable C config m) (hk : config.numHops ≤ 6) {rng : Rng} {i : Nat}
    {d d' : Option MixnodeIndex} {mid : MessageId} {data : Scattered Byte} {l : Bytes} {n : Nat} {ns : NetworkStatus}
    {met : RequestMetrics} (hw : (Call.postRequest rng i d mid data n ns).WellTyped) (hd : Denotes data l)
    (h : m.step C (.postRequest rng i d mid data n ns) = .ok (m', .posted d' (.ok met))) :
    ∃ s dest packets, PostedRequest C m i d mid l n ns m' d' met s dest packets ∧
      RequestDraws s.topology ns d dest config.numHops rng packets := by
  obtain ⟨hI, rfl⟩ := hr.inv hC
  exact posted_of_case hC hI hk hd hw.2.1 hw.2.2.2 (post_case hC hI hw h)

/-- **C27.** If posting a request returns an error, nothing has changed: neither the destination of the caller
nor anything of the node (queues, sessions, SURB keys, events). -/
theorem request_refused (hr : Node.Reachable C config m) (hk : config.numHops ≤ 6) {rng : Rng} {i : Nat}
    {d d' : Option MixnodeIndex} {mid : MessageId} {data : Scattered Byte} {n : Nat} {ns : NetworkStatus}
    {e : PostErr} (hw : (Call.postRequest rng i d mid data n ns).WellTyped)
    (h : m.step C (.postRequest rng i d mid data n ns) = .ok (m', .posted d' (.error e))) :
    d' = d ∧ m' = m := by
  obtain ⟨hI, rfl⟩ := hr.inv hC
  have hc := post_case hC hI hw h
  generalize hr : (Except.error e : Except PostErr RequestMetrics) = r at hc
  cases hc with
  | tooMany => exact ⟨rfl, rfl⟩
  | noSession => exact ⟨rfl, rfl⟩
  | noSpace => exact ⟨rfl, rfl⟩
  | noDestination => exact ⟨rfl, rfl⟩
  | posted => cases hr
  | failed bps rel s b rng1 acc e' h1 h2 h3 h4 h5 h6 =>
    cases hr
    obtain ⟨-, -, p3⟩ := postSession_ok h3
    have hview := view_of_inv hI (Node.sessionAt_eq.2 ⟨rel, (postSession_ok h3).1, p3⟩) (newBuilder h5).1
    have hq := postFailed_first hk hview.wf.2.2 hw.2.2.1 h1 h6
    refine ⟨rfl, ?_⟩
    rw [hq, (postFailed_none hk hview.wf.2.2 h6).1]
    have : m.sessions.set rel (.full { s with authoredPacketQueue := s.authoredPacketQueue }) = m.sessions :=
      sessions_set_self p3
    rw [this]

/-! ### Replies -/

/-- The packet was built from a SURB and a fragment, and is addressed to the first hop of the SURB's route. -/
def ReplyBuilt (C : Crypto) (t : Topology) (fragment : Fragment) (surb : Surb) (p : AddressedPacket) : Prop :=
  ∃ old first mx, old.length = PACKET_SIZE ∧ payloadData old = fragment ∧
    completeReplyPacket C old surb = .ok (p.packet, some first) ∧ first = u16At surb 0 ∧
    t.mixnodes[first]? = some mx ∧ p.peerId = mx.peerId

/-- One packet per pair of a fragment and a SURB. -/
inductive RepliesBuilt (C : Crypto) (t : Topology) : List Fragment → List Surb → List AddressedPacket → Prop
  | nil : RepliesBuilt C t [] [] []
  | cons {f fs surb surbs p ps} : ReplyBuilt C t f surb p → RepliesBuilt C t fs surbs ps →
      RepliesBuilt C t (f :: fs) (surb :: surbs) (p :: ps)

/-- A reply cannot be sent with this SURB. -/
def BadSurb (t : Topology) (surb : Surb) (e : PostErr) : Prop :=
  (0xfeff < u16At surb 0 ∧ e = .badSurb) ∨
  (u16At surb 0 ≤ 0xfeff ∧ t.mixnodes.length ≤ u16At surb 0 ∧ e = .topology (.badMixnodeIndex (u16At surb 0)))

omit hC in
theorem first_of_surb {surb : Surb} (h : surb.length = 222) :
    fromLe16 (slice surb 0 RAW_MIXNODE_INDEX_SIZE) = u16At surb 0 := by
  match surb, h with
  | a :: b :: l, _ => rfl

omit hC in
theorem completeReply_first {packet out : Bytes} {surb : Surb} {o : Option Nat} (hs : surb.length = 222)
    (h : completeReplyPacket C packet surb = .ok (out, o)) :
    (u16At surb 0 ≤ 0xfeff ∧ o = some (u16At surb 0)) ∨ (0xfeff < u16At surb 0 ∧ o = none) := by
  unfold completeReplyPacket at h
  dsimp only at h
  rw [res_bind_eq_ok] at h
  obtain ⟨p, -, h⟩ := h
  simp only [Except.ok.injEq, Prod.mk.injEq] at h
  obtain ⟨-, h⟩ := h
  rw [first_of_surb hs] at h
  unfold mixnodeIndexTryFrom at h
  csimp at h
  split at h
  · rename_i hlt; left; exact ⟨by omega, h.symm⟩
  · rename_i hlt; right; exact ⟨by omega, h.symm⟩

omit hC in
/-- A blueprint without SURBs writes a fragment of the right size. -/
theorem reply_fragment {bp : FragmentBlueprint} {f : Fragment}
    (h : bp.writeExceptSurbs (payloadData zeroPacket) = .ok f) (hid : bp.messageId.length = 16) (hw : bp.data.WF) :
    (splice zeroPacket HEADER_SIZE f).length = PACKET_SIZE ∧ payloadData (splice zeroPacket HEADER_SIZE f) = f := by
  have hl := fragment_length h payloadData_zero_length hid hw
  have hz := zeroPacket_length
  generalize zeroPacket = z at hz ⊢
  constructor
  · csimp at hz hl ⊢
    simp only [splice, List.length_append, List.length_take, List.length_drop, hl, hz]
    omega
  · unfold payloadData slice splice
    csimp at hz hl ⊢
    rw [List.append_assoc, List.drop_left' (by rw [List.length_take, hz]; omega), List.take_left' hl]

omit hC in
theorem replies_built {t : Topology} : ∀ {bps : List FragmentBlueprint} {used : List Surb} {ps : List AddressedPacket},
    RepliesMade C t bps used ps → (∀ s ∈ used, s.length = 222) →
    (∀ bp ∈ bps, bp.messageId.length = 16 ∧ bp.data.WF ∧ bp.numSurbs = 0) →
    ∃ fs, writeFragments bps (List.replicate bps.length (payloadData zeroPacket)) [] = .ok fs ∧
      RepliesBuilt C t fs used ps
  | [], _, _, .nil, _, _ => ⟨[], rfl, .nil⟩
  | bp :: bps, surb :: used, p :: ps, .cons h hs, hl, hb => by
    obtain ⟨fs, i1, i2⟩ := replies_built hs (fun s h => hl s (List.mem_cons_of_mem _ h))
      (fun s h => hb s (List.mem_cons_of_mem _ h))
    obtain ⟨f, first, e1, e2, e3⟩ := h
    obtain ⟨b1, b2, b3⟩ := hb bp List.mem_cons_self
    obtain ⟨l1, l2⟩ := reply_fragment e1 b1 b2
    refine ⟨f :: fs, ?_, .cons ?_ i2⟩
    · have ho : bp.surbOffsets = [] := by
        have : bp.surbOffsets.length = 0 := by rw [surbOffsets_length, b3]; rfl
        exact List.length_eq_zero_iff.1 this
      simp only [List.length_cons, List.replicate_succ, writeFragments]
      rw [e1, res_bind_ok, List.drop_nil, i1, res_bind_ok, List.take_nil, ho]
      rfl
    · rcases completeReply_first (hl surb List.mem_cons_self) e2 with ⟨-, g⟩ | ⟨-, g⟩
      · cases g
        unfold Topology.mixnodeIndexToPeerId at e3
        cases hm : t.mixnodes[u16At surb 0]? with
        | none => rw [hm] at e3; cases e3
        | some mx =>
          rw [hm] at e3
          simp only [Except.ok.injEq] at e3
          exact ⟨_, _, mx, l1, l2, e2, rfl, hm, e3.symm⟩
      · cases g

omit hC in
theorem reply_bad {t : Topology} {bp : FragmentBlueprint} {surb : Surb} {e : PostErr} (hl : surb.length = 222)
    (h : ReplyBad C t bp surb e) : BadSurb t surb e := by
  cases h with
  | surb f out h1 h2 =>
    rcases completeReply_first hl h2 with ⟨-, g⟩ | ⟨g, -⟩
    · cases g
    · exact .inl ⟨g, rfl⟩
  | topology f out first e h1 h2 h3 =>
    rcases completeReply_first hl h2 with ⟨g0, g⟩ | ⟨-, g⟩
    · cases g
      unfold Topology.mixnodeIndexToPeerId at h3
      cases hm : t.mixnodes[u16At surb 0]? with
      | some mx => rw [hm] at h3; cases h3
      | none =>
        rw [hm] at h3
        simp only [Except.error.injEq] at h3
        subst h3
        exact .inr ⟨g0, List.getElem?_eq_none_iff.1 hm, rfl⟩
    · cases g

omit hC in
theorem sent_blueprints {mid : MessageId} {data : Scattered Byte} {l : Bytes} {bps : List FragmentBlueprint}
    (hmid : mid.length = 16) (hd : Denotes data l) (h : fragmentBlueprints mid data 0 = .ok (some bps)) :
    (∀ bp ∈ bps, bp.messageId.length = 16 ∧ bp.data.WF ∧ bp.numSurbs = 0) ∧
    ∃ fs, Sent mid l [] fs ∧ fs.length = bps.length ∧
      writeFragments bps (List.replicate bps.length (payloadData zeroPacket)) [] = .ok fs ∧
      fs = messageFragments mid l [] := by
  obtain ⟨hw, rfl⟩ := denotes_wf hd
  rcases fragmentBlueprints_spec mid data 0 hw with ⟨e, -⟩ | ⟨bs, e, f1, f2, f3, f4, f5, f6, f7⟩
  · rw [h] at e; cases e
  rw [h] at e
  simp only [Except.ok.injEq, Option.some.injEq] at e
  subst e
  have hb : ∀ bp ∈ bps, bp.messageId.length = 16 ∧ bp.data.WF ∧ bp.numSurbs = 0 := by
    intro bp hbp
    obtain ⟨j, hj, rfl⟩ := List.getElem_of_mem hbp
    obtain ⟨a1, a2, a3, a4, a5, a6⟩ := f5 j hj
    refine ⟨by rw [a1]; exact hmid, a4, ?_⟩
    have := le_sum_of_mem (List.mem_map_of_mem (f := (·.numSurbs)) hbp)
    omega
  refine ⟨hb, ?_⟩
  obtain ⟨fs, e', l', -⟩ := writeFragments_spec bps.length f2 mid hmid 0 bps
    (List.replicate bps.length (payloadData zeroPacket)) [] (by simpa using f5) (by omega) List.length_replicate (by
        intro b hb; rw [List.eq_of_mem_replicate hb]; exact payloadData_zero_length) f7.symm (by simp)
  refine ⟨fs, ⟨data, bps, _, hd, h, List.length_replicate, ?_, e'⟩, l', e',
    fragments_bytes hmid hw (ss := []) (by simp) h e'⟩
  intro b hb; rw [List.eq_of_mem_replicate hb]; exact payloadData_zero_length

omit hC in
theorem RepliesBuilt.lengths {t : Topology} {fs used ps} (h : RepliesBuilt C t fs used ps) :
    used.length = fs.length ∧ ps.length = fs.length := by
  induction h with
  | nil => exact ⟨rfl, rfl⟩
  | cons _ _ ih => simp [ih]

omit hC in
theorem writeFragments_append : ∀ {a b : List FragmentBlueprint} {fs : List Fragment} {buf : Bytes},
    writeFragments (a ++ b) (List.replicate (a ++ b).length buf) [] = .ok fs →
    writeFragments a (List.replicate a.length buf) [] = .ok (fs.take a.length)
  | [], b, fs, buf, h => by simp [writeFragments]
  | x :: a, b, fs, buf, h => by
    simp only [List.cons_append, List.length_cons, List.replicate_succ, writeFragments, List.drop_nil, List.take_nil] at h ⊢
    rw [res_bind_eq_ok] at h
    obtain ⟨f, h1, h⟩ := h
    rw [res_bind_eq_ok] at h
    obtain ⟨fs', h2, h⟩ := h
    cases h
    rw [h1, res_bind_ok, writeFragments_append h2, res_bind_ok]
    rfl

/-- What posting a reply does with the SURBs and the queue. With `fs` the fragments of the reply:
success means that the last `fs.length` SURBs were taken, from the end, one per fragment, and the packets
made from them appended to the queue of the session. -/
theorem reply_posted_bytes (hr : Node.Reachable C config m) {i : Nat} {surbs surbs' : List Surb} {mid : MessageId}
    {data : Scattered Byte} {l : Bytes} (hw : (Call.postReply surbs i mid data).WellTyped) (hd : Denotes data l)
    (h : m.step C (.postReply surbs i mid data) = .ok (m', .replied surbs' (.ok ()))) :
    ∃ s fs used ps, m.sessionAt i = some s ∧ ¬ NoLonger m.sessionStatus i ∧ ¬ NotYet m.sessionStatus i ∧
      Sent mid l [] fs ∧ fs = messageFragments mid l [] ∧ surbs = surbs' ++ used.reverse ∧
      RepliesBuilt C s.topology fs used ps ∧ m' = withSession m i (enqueue s ps) := by
  obtain ⟨hI, rfl⟩ := hr.inv hC
  have hc := reply_case hC hI hw h
  generalize hr : (Except.ok () : Except PostErr Unit) = r at hc
  cases hc with
  | posted bps rel s rest used ps h1 h2 h3 h4 h5 h6 h7 =>
    obtain ⟨p1, p2, p3⟩ := postSession_ok h3
    obtain ⟨b1, fs, b2, b3, b4, b5⟩ := sent_blueprints hw.2.1 hd h1
    obtain ⟨fs', g1, g2⟩ := replies_built h6 (fun s hs => hw.1 s (by rw [h5]; simp [hs])) b1
    rw [b4] at g1
    cases g1
    refine ⟨s, fs, used, ps, Node.sessionAt_eq.2 ⟨rel, p1, p3⟩, ((allowed_iff p1).1 p2).1, ((allowed_iff p1).1 p2).2, b2, b5, h5, g2, ?_⟩
    rw [withSession_eq p1]; rfl
  | _ => cases hr

/-- **C29.** What posting a reply does with the SURBs and the queue. With `fs` the fragments of the reply:
success means that the last `fs.length` SURBs were taken, from the end, one per fragment, and the packets
made from them appended to the queue of the session. -/
theorem reply_posted (hr : Node.Reachable C config m) {i : Nat} {surbs surbs' : List Surb} {mid : MessageId}
    {data : Scattered Byte} {l : Bytes} (hw : (Call.postReply surbs i mid data).WellTyped) (hd : Denotes data l)
    (h : m.step C (.postReply surbs i mid data) = .ok (m', .replied surbs' (.ok ()))) :
    ∃ s fs used ps, m.sessionAt i = some s ∧ ¬ NoLonger m.sessionStatus i ∧ ¬ NotYet m.sessionStatus i ∧
      Sent mid l [] fs ∧ surbs = surbs' ++ used.reverse ∧
      RepliesBuilt C s.topology fs used ps ∧ m' = withSession m i (enqueue s ps) := by
  obtain ⟨s, fs, used, ps, h1, h2, h3, h4, -, h5⟩ := reply_posted_bytes hC hr hw hd h
  exact ⟨s, fs, used, ps, h1, h2, h3, h4, h5⟩

/-- **C29.** When posting a reply fails, either nothing was consumed or queued, or the SURB whose turn it was
is bad: then the SURBs tried are consumed and the packets made before stay queued. -/
theorem reply_refused (hr : Node.Reachable C config m) {i : Nat} {surbs surbs' : List Surb} {mid : MessageId}
    {data : Scattered Byte} {l : Bytes} {e : PostErr} (hw : (Call.postReply surbs i mid data).WellTyped)
    (hd : Denotes data l)
    (h : m.step C (.postReply surbs i mid data) = .ok (m', .replied surbs' (.error e))) :
    (m' = m ∧ surbs' = surbs ∧ e ≠ .badSurb ∧ ∀ te, e ≠ .topology te) ∨
    ∃ s fs used bad ps, m.sessionAt i = some s ∧ Sent mid l [] fs ∧ surbs = surbs' ++ bad :: used.reverse ∧
      used.length < fs.length ∧ fs.length ≤ surbs.length ∧ BadSurb s.topology bad e ∧
      RepliesBuilt C s.topology (fs.take used.length) used ps ∧ m' = withSession m i (enqueue s ps) := by
  obtain ⟨hI, rfl⟩ := hr.inv hC
  have hc := reply_case hC hI hw h
  generalize hr : (Except.error e : Except PostErr Unit) = r at hc
  cases hc with
  | tooMany => cases hr; exact .inl ⟨rfl, rfl, by simp, by simp⟩
  | noSession bps e' h1 h2 h3 =>
    cases hr
    refine .inl ⟨rfl, rfl, ?_⟩
    unfold postSession at h3
    split at h3
    · split at h3 <;> cases h3 <;> simp
    · split at h3
      · split at h3 <;> cases h3 <;> simp
      · split at h3 <;> cases h3 <;> simp
  | noSpace bps rel s e' h1 h2 h3 h4 =>
    cases hr
    refine .inl ⟨rfl, rfl, ?_⟩
    cases e' <;> simp [CheckSpaceErr.toPostErr]
  | posted => cases hr
  | failed bps rel s rest used ps e' done bp left bad h1 h2 h3 h4 h5 h6 h7 h8 h9 =>
    cases hr
    right
    obtain ⟨p1, p2, p3⟩ := postSession_ok h3
    obtain ⟨b1, fs, b2, b3, b4, -⟩ := sent_blueprints hw.2.1 hd h1
    have hl : ∀ s ∈ bad :: used.reverse, s.length = 222 := fun s hs => hw.1 s (by rw [h6]; exact List.mem_append_right _ hs)
    obtain ⟨fs', g1, g2⟩ := replies_built h7 (fun s hs => hl s (by simp [hs]))
      (fun bp hbp => b1 bp (by rw [h5]; exact List.mem_append_left _ hbp))
    have hlen := h7.lengths
    have hbl : bps.length = done.length + (left.length + 1) := by rw [h5]; simp
    rw [h5] at b4
    rw [writeFragments_append b4] at g1
    cases g1
    have hdl : done.length = used.length := by omega
    rw [hdl] at g2
    refine ⟨s, fs, used, bad, ps, Node.sessionAt_eq.2 ⟨rel, p1, p3⟩, b2, h6, by omega, by omega,
      reply_bad (hl bad List.mem_cons_self) h8, g2, ?_⟩
    rw [withSession_eq p1]; rfl

/-- **C29.** With too few SURBs a reply is refused, and nothing changes. -/
theorem reply_too_few_surbs (hr : Node.Reachable C config m) {i : Nat} {surbs surbs' : List Surb} {mid : MessageId}
    {data : Scattered Byte} {l : Bytes} {r : Except PostErr Unit} (hw : (Call.postReply surbs i mid data).WellTyped)
    (hd : Denotes data l) {fs : List Fragment} (hs : Sent mid l [] fs) (hlt : surbs.length < fs.length)
    (h : m.step C (.postReply surbs i mid data) = .ok (m', .replied surbs' r)) :
    m' = m ∧ surbs' = surbs ∧ r = .error .tooManyFragments := by
  obtain ⟨hI, rfl⟩ := hr.inv hC
  have hlen : ∀ bps, fragmentBlueprints mid data 0 = .ok (some bps) → bps.length = fs.length := by
    intro bps hb
    obtain ⟨-, fs', h1, h2, -⟩ := sent_blueprints hw.2.1 hd hb
    have a := sent_length_least hw.2.1 (by simp) h1
    have b := sent_length_least hw.2.1 (by simp) hs
    have c := (sent_whole hw.2.1 (by simp) h1).1.1
    have d := (sent_whole hw.2.1 (by simp) hs).1.1
    have e1 := a.2 fs.length (List.length_pos_iff.2 d) b.1
    have e2 := b.2 fs'.length (List.length_pos_iff.2 c) a.1
    omega
  have hc := reply_case hC hI hw h
  cases hc with
  | tooMany => exact ⟨rfl, rfl, rfl⟩
  | noSession bps e h1 h2 => have := hlen _ h1; omega
  | noSpace bps rel s e h1 h2 => have := hlen _ h1; omega
  | failed bps rel s rest used ps e' done bp left bad h1 h2 => have := hlen _ h1; omega
  | posted bps rel s rest used ps h1 h2 => have := hlen _ h1; omega

/-! ### In which sessions one can post -/

omit hC in
theorem postSession_iff (m : Node) (i : Nat) :
    (∀ j, postSession m.sessions m.sessionStatus i = .error (.sessionNoLongerActive j) ↔
      j = i ∧ NoLonger m.sessionStatus i) ∧
    (∀ j, postSession m.sessions m.sessionStatus i = .error (.sessionNotActiveYet j) ↔
      j = i ∧ NotYet m.sessionStatus i) ∧
    (∀ j, postSession m.sessions m.sessionStatus i = .error (.sessionMixnodesNotKnown j) ↔
      j = i ∧ ¬ NoLonger m.sessionStatus i ∧ ¬ NotYet m.sessionStatus i ∧
        (slotOf m i = .empty ∨ ∃ k, slotOf m i = .kxPair k)) ∧
    (∀ j, postSession m.sessions m.sessionStatus i = .error (.sessionDisabled j) ↔
      j = i ∧ ¬ NoLonger m.sessionStatus i ∧ ¬ NotYet m.sessionStatus i ∧ slotOf m i = .disabled) ∧
    (∀ e, postSession m.sessions m.sessionStatus i = .error e → e ≠ .tooManyFragments) := by
  obtain ⟨fr, hfr⟩ : ∃ fr, RelSessionIndex.fromSessionIndex i m.sessionStatus.currentIndex = fr := ⟨_, rfl⟩
  cases fr with
  | none =>
    have hn := fromSessionIndex_none.1 hfr
    have hp : postSession m.sessions m.sessionStatus i =
        if i < m.sessionStatus.currentIndex then .error (.sessionNoLongerActive i)
        else .error (.sessionNotActiveYet i) := by
      unfold postSession; rw [hfr]
    rw [hp]
    by_cases hlt : i < m.sessionStatus.currentIndex
    · have h1 : NoLonger m.sessionStatus i := by
        left; omega
      have h2 : ¬ NotYet m.sessionStatus i := by
        rintro (h | ⟨h, -⟩) <;> omega
      simp [hlt, h1, h2, eq_comm]
    · have h1 : NotYet m.sessionStatus i := by
        left; omega
      have h2 : ¬ NoLonger m.sessionStatus i := by
        rintro (h | ⟨h, -⟩) <;> omega
      simp [hlt, h1, h2, eq_comm]
  | some rel =>
    have hp : ∀ rel, RelSessionIndex.fromSessionIndex i m.sessionStatus.currentIndex = some rel →
       postSession m.sessions m.sessionStatus i =
        if !m.sessionStatus.phase.allowRequestsAndReplies rel then
          match rel with
          | .prev => .error (.sessionNoLongerActive i)
          | .current => .error (.sessionNotActiveYet i)
        else
          match m.sessions.get rel with
          | .empty | .kxPair _ => .error (.sessionMixnodesNotKnown i)
          | .disabled => .error (.sessionDisabled i)
          | .full session => .ok (rel, session) := by
      intro rel hfr; unfold postSession; rw [hfr]
      cases rel <;> rfl
    have hslot : slotOf m i = m.sessions.get rel := by
      unfold slotOf
      rcases fromSessionIndex_some.1 hfr with ⟨rfl, h⟩ | ⟨rfl, h⟩
      · rw [if_pos h]; rfl
      · rw [if_neg (by omega)]; rfl
    have hal := allowed_iff hfr
    rw [hp rel hfr, hslot]
    cases ha : m.sessionStatus.phase.allowRequestsAndReplies rel with
    | true =>
      obtain ⟨h1, h2⟩ := hal.1 ha
      generalize m.sessions.get rel = slot
      cases slot <;> simp [h1, h2, eq_comm]
    | false =>
      have hna : ¬ (¬ NoLonger m.sessionStatus i ∧ ¬ NotYet m.sessionStatus i) := by
        rw [← hal, ha]; simp
      rcases fromSessionIndex_some.1 hfr with ⟨rfl, h⟩ | ⟨rfl, h⟩
      · have h2 : ¬ NoLonger m.sessionStatus i := by
          rintro (h | ⟨h, -⟩) <;> omega
        have h1 : NotYet m.sessionStatus i := by
          apply Classical.byContradiction; intro hh; exact hna ⟨h2, hh⟩
        simp [h1, h2, eq_comm]
      · have h2 : ¬ NotYet m.sessionStatus i := by
          rintro (h | ⟨h, -⟩) <;> omega
        have h1 : NoLonger m.sessionStatus i := by
          apply Classical.byContradiction; intro hh; exact hna ⟨hh, h2⟩
        simp [h1, h2, eq_comm]

/-- The answer `r` to a post for session `i` says whether the session can be used, and why not. -/
def SessionAnswer {α : Type} (m : Node) (i : Nat) (r : Except PostErr α) : Prop :=
  (∀ j, r = .error (.sessionNoLongerActive j) ↔ j = i ∧ NoLonger m.sessionStatus i) ∧
  (∀ j, r = .error (.sessionNotActiveYet j) ↔ j = i ∧ NotYet m.sessionStatus i) ∧
  (∀ j, r = .error (.sessionMixnodesNotKnown j) ↔
    j = i ∧ ¬ NoLonger m.sessionStatus i ∧ ¬ NotYet m.sessionStatus i ∧
      (slotOf m i = .empty ∨ ∃ k, slotOf m i = .kxPair k)) ∧
  (∀ j, r = .error (.sessionDisabled j) ↔
    j = i ∧ ¬ NoLonger m.sessionStatus i ∧ ¬ NotYet m.sessionStatus i ∧ slotOf m i = .disabled)

omit hC in
theorem sessionAnswer_error {α : Type} {m : Node} {i : Nat} {e : PostErr}
    (h : postSession m.sessions m.sessionStatus i = .error e) : SessionAnswer m i (.error e : Except PostErr α) := by
  obtain ⟨a, b, c, d, -⟩ := postSession_iff m i
  have hh : ∀ e', (Except.error e : Except PostErr α) = .error e' ↔
      postSession m.sessions m.sessionStatus i = .error e' := by
    intro e'; rw [h]; simp
  unfold SessionAnswer
  simp only [hh]
  exact ⟨a, b, c, d⟩

omit hC in
theorem sessionAnswer_ok {α : Type} {m : Node} {i : Nat} {x} {r : Except PostErr α}
    (h : postSession m.sessions m.sessionStatus i = .ok x)
    (hr : ∀ j, r ≠ .error (.sessionNoLongerActive j) ∧ r ≠ .error (.sessionNotActiveYet j) ∧
      r ≠ .error (.sessionMixnodesNotKnown j) ∧ r ≠ .error (.sessionDisabled j)) : SessionAnswer m i r := by
  obtain ⟨a, b, c, d, -⟩ := postSession_iff m i
  simp only [h, reduceCtorEq, false_iff] at a b c d
  refine ⟨fun j => ⟨fun h => absurd h (hr j).1, fun h => absurd h (a j)⟩,
    fun j => ⟨fun h => absurd h (hr j).2.1, fun h => absurd h (b j)⟩,
    fun j => ⟨fun h => absurd h (hr j).2.2.1, fun h => absurd h (c j)⟩,
    fun j => ⟨fun h => absurd h (hr j).2.2.2, fun h => absurd h (d j)⟩⟩

/-- **C30.** For a request that is not too big: which session answers. -/
theorem request_session (hr : Node.Reachable C config m) {rng : Rng} {i : Nat}
    {d d' : Option MixnodeIndex} {mid : MessageId} {data : Scattered Byte} {l : Bytes} {n : Nat} {ns : NetworkStatus}
    {r : Except PostErr RequestMetrics} (hw : (Call.postRequest rng i d mid data n ns).WellTyped)
    (hd : Denotes data l)
    (h : m.step C (.postRequest rng i d mid data n ns) = .ok (m', .posted d' r)) :
    ((∃ k, 1 ≤ k ∧ k ≤ config.maxFragmentsPerMessage ∧ k ≤ 65536 ∧ CanCarry k l.length n) → SessionAnswer m i r) ∧
    ((¬ ∃ k, 1 ≤ k ∧ k ≤ config.maxFragmentsPerMessage ∧ k ≤ 65536 ∧ CanCarry k l.length n) →
      r = .error .tooManyFragments) := by
  obtain ⟨hI, rfl⟩ := hr.inv hC
  obtain ⟨-, hmin⟩ := split_refuses_iff mid hd n
  have hsmall : ∀ bps, fragmentBlueprints mid data n = .ok (some bps) → 1 ≤ bps.length ∧ bps.length ≤ 65536 ∧
      CanCarry bps.length l.length n ∧ ∀ k, 1 ≤ k → CanCarry k l.length n → bps.length ≤ k := by
    intro bps hb
    exact (split_exact mid hd n hb).1
  have hyes : ∀ {bps}, fragmentBlueprints mid data n = .ok (some bps) → bps.length ≤ m.config.maxFragmentsPerMessage →
      ∃ k, 1 ≤ k ∧ k ≤ m.config.maxFragmentsPerMessage ∧ k ≤ 65536 ∧ CanCarry k l.length n := by
    intro bps h1 h2
    obtain ⟨a, b, c, -⟩ := hsmall _ h1
    exact ⟨_, a, h2, b, c⟩
  have hc := post_case hC hI hw h
  cases hc with
  | tooMany h1 =>
    refine ⟨?_, fun _ => rfl⟩
    rintro ⟨k, k1, k2, k3, k4⟩
    rcases h1 with h1 | ⟨bps, h1, h2⟩
    · exfalso
      have : CanCarry 65536 l.length n := by
        rw [canCarry_iff] at k4 ⊢
        unfold Feasible at k4 ⊢
        omega
      exact (hmin.1 h1) this
    · have := (hsmall _ h1).2.2.2 k k1 k4
      omega
  | noSession bps e h1 h2 h3 => exact ⟨fun _ => sessionAnswer_error h3, fun hn => absurd (hyes h1 h2) hn⟩
  | noSpace bps rel s e h1 h2 h3 h4 =>
    refine ⟨fun _ => sessionAnswer_ok h3 ?_, fun hn => absurd (hyes h1 h2) hn⟩
    intro j; cases e <;> simp [CheckSpaceErr.toPostErr]
  | noDestination bps rel s e h1 h2 h3 h4 =>
    refine ⟨fun _ => sessionAnswer_ok h3 ?_, fun hn => absurd (hyes h1 h2) hn⟩
    intro j; simp
  | failed bps rel s b rng1 acc e h1 h2 h3 h4 =>
    refine ⟨fun _ => sessionAnswer_ok h3 ?_, fun hn => absurd (hyes h1 h2) hn⟩
    intro j; simp
  | posted bps rel s b rng1 acc infos met qd h1 h2 h3 h4 =>
    refine ⟨fun _ => sessionAnswer_ok h3 ?_, fun hn => absurd (hyes h1 h2) hn⟩
    intro j; simp

/-- **C30.** For a reply that is not too big and has enough SURBs: which session answers. -/
theorem reply_session (hr : Node.Reachable C config m) {i : Nat} {surbs surbs' : List Surb} {mid : MessageId}
    {data : Scattered Byte} {l : Bytes} {r : Except PostErr Unit} (hw : (Call.postReply surbs i mid data).WellTyped)
    (hd : Denotes data l)
    (h : m.step C (.postReply surbs i mid data) = .ok (m', .replied surbs' r)) :
    ((∃ k, 1 ≤ k ∧ k ≤ config.maxFragmentsPerMessage ∧ k ≤ surbs.length ∧ k ≤ 65536 ∧ CanCarry k l.length 0) →
      SessionAnswer m i r) ∧
    ((¬ ∃ k, 1 ≤ k ∧ k ≤ config.maxFragmentsPerMessage ∧ k ≤ surbs.length ∧ k ≤ 65536 ∧ CanCarry k l.length 0) →
      r = .error .tooManyFragments) := by
  obtain ⟨hI, rfl⟩ := hr.inv hC
  obtain ⟨-, hmin⟩ := split_refuses_iff mid hd 0
  have hsmall : ∀ bps, fragmentBlueprints mid data 0 = .ok (some bps) → 1 ≤ bps.length ∧ bps.length ≤ 65536 ∧
      CanCarry bps.length l.length 0 ∧ ∀ k, 1 ≤ k → CanCarry k l.length 0 → bps.length ≤ k := by
    intro bps hb
    exact (split_exact mid hd 0 hb).1
  have hyes : ∀ {bps}, fragmentBlueprints mid data 0 = .ok (some bps) →
      bps.length ≤ min m.config.maxFragmentsPerMessage surbs.length →
      ∃ k, 1 ≤ k ∧ k ≤ m.config.maxFragmentsPerMessage ∧ k ≤ surbs.length ∧ k ≤ 65536 ∧ CanCarry k l.length 0 := by
    intro bps h1 h2
    obtain ⟨a, b, c, -⟩ := hsmall _ h1
    exact ⟨_, a, by omega, by omega, b, c⟩
  have hc := reply_case hC hI hw h
  cases hc with
  | tooMany h1 =>
    refine ⟨?_, fun _ => rfl⟩
    rintro ⟨k, k1, k2, k2', k3, k4⟩
    rcases h1 with h1 | ⟨bps, h1, h2⟩
    · exfalso
      have : CanCarry 65536 l.length 0 := by
        rw [canCarry_iff] at k4 ⊢
        unfold Feasible at k4 ⊢
        omega
      exact (hmin.1 h1) this
    · have := (hsmall _ h1).2.2.2 k k1 k4
      omega
  | noSession bps e h1 h2 h3 => exact ⟨fun _ => sessionAnswer_error h3, fun hn => absurd (hyes h1 h2) hn⟩
  | noSpace bps rel s e h1 h2 h3 h4 =>
    refine ⟨fun _ => sessionAnswer_ok h3 ?_, fun hn => absurd (hyes h1 h2) hn⟩
    intro j; cases e <;> simp [CheckSpaceErr.toPostErr]
  | failed bps rel s rest used ps e' done bp left bad h1 h2 h3 h4 h5 h6 h7 h8 h9 =>
    refine ⟨fun _ => sessionAnswer_ok h3 ?_, fun hn => absurd (hyes h1 h2) hn⟩
    intro j; cases h8 <;> simp
  | posted bps rel s rest used ps h1 h2 h3 =>
    refine ⟨fun _ => sessionAnswer_ok h3 ?_, fun hn => absurd (hyes h1 h2) hn⟩
    intro j; simp

/-! ### The hypotheses can be met -/
section Examples
omit hC
open World

example : ∃ met s dest packets, PostedRequest World.C alice 0 (some 1) World.mid [1, 2, 3] 1 (ns 3) alice1 (some 1) met s dest packets := by
  obtain ⟨met, hmet⟩ := askOut_eq
  have h := ask_step
  rw [hmet] at h
  obtain ⟨s, dest, packets, hp, -⟩ := request_posted toyLaws alice_reachable (by decide) ask_typed (Denotes.ofSlice _) h
  exact ⟨met, s, dest, packets, hp⟩

example : ∃ s dest, ∃ packets : List (NewPacket World.C), (packets.flatMap (·.surbs)).length = 1 ∧ packets ≠ [] ∧
    RequestDraws s (ns 3) (some 1) dest (World.cfg 3).numHops World.rng packets := by
  obtain ⟨met, hmet⟩ := askOut_eq
  have h := ask_step
  rw [hmet] at h
  obtain ⟨s, dest, packets, hp, hdraw⟩ := fresh_randomness toyLaws alice_reachable (by decide) ask_typed (Denotes.ofSlice _) h
  refine ⟨_, _, packets, hp.surbCount, ?_, hdraw⟩
  rintro rfl
  have := hp.surbCount
  simp at this

/-- A request for a session that has not begun. -/
def early : Call := .postRequest rng 5 none World.mid (Scattered.ofSlice [1]) 0 (ns 3)

theorem early_step : ∃ m' d' e, alice.step World.C early = .ok (m', .posted d' (.error e)) := by
  obtain ⟨m', o, h, ho⟩ := Res.of_says (x := alice.step World.C early)
    (p := fun o => match o with | .posted _ (.error _) => true | _ => false) (by decide +kernel)
  match o, ho with
  | .posted d' (.error e), _ => exact ⟨m', d', e, h⟩

theorem early_typed : early.WellTyped := ⟨fun _ h => (by cases h), rfl, rfl, rfl⟩

example : ∃ m' d' e, alice.step World.C early = .ok (m', .posted d' (.error e)) ∧ d' = none ∧ m' = alice ∧
    e = .sessionNotActiveYet 5 := by
  obtain ⟨m', d', e, h⟩ := early_step
  have h1 := request_refused toyLaws alice_reachable (by decide) early_typed h
  have h2 := (request_session toyLaws alice_reachable early_typed (Denotes.ofSlice _) h).1
    ⟨1, by decide, by decide, by decide, by rw [canCarry_iff]; unfold Feasible; decide⟩
  have he : e = .sessionNotActiveYet 5 := by
    have := (h2.2.1 5).2 ⟨rfl, .inl (by decide +kernel)⟩
    simpa using this
  exact ⟨m', d', e, h, h1.1, h1.2, he⟩

example : ∃ s fs used ps, bob1.sessionAt 0 = some s ∧ Sent (List.replicate 16 9) [7, 8] [] fs ∧
    RepliesBuilt World.C s.topology fs used ps ∧ bob2 = withSession bob1 0 (enqueue s ps) := by
  obtain ⟨surbs', hout⟩ := answerOut_eq
  have h := answer_step
  rw [hout] at h
  obtain ⟨s, fs, used, ps, h1, -, -, h2, -, h4, h5⟩ :=
    reply_posted toyLaws (bob_reachable.step toyLaws arrive_typed arrive_step) answer_typed (Denotes.ofSlice _) h
  exact ⟨s, fs, used, ps, h1, h2, h4, h5⟩

/-- A reply with a SURB that is not one. -/
def junk : List Surb := [List.replicate 222 1, List.replicate 222 255]
def badReply : Call := .postReply junk 0 (List.replicate 16 9) (Scattered.ofSlice [7, 8])
theorem badReply_typed : badReply.WellTyped := ⟨by
  intro s hs
  simp only [junk, List.mem_cons, List.not_mem_nil, or_false] at hs
  rcases hs with rfl | rfl <;> exact List.length_replicate, rfl, rfl⟩
theorem badReply_step : ∃ m', bob1.step World.C badReply = .ok (m', .replied [List.replicate 222 1] (.error .badSurb)) := by
  obtain ⟨m', o, h, ho⟩ := Res.of_says (x := bob1.step World.C badReply)
    (p := fun o => match o with | .replied s (.error .badSurb) => decide (s = [List.replicate 222 1]) | _ => false) (by decide +kernel)
  match o, ho with
  | .replied s (.error .badSurb), ho => rw [of_decide_eq_true ho] at h; exact ⟨m', h⟩

example : ∃ m', bob1.step World.C badReply = .ok (m', .replied [List.replicate 222 1] (.error .badSurb)) ∧
    ∃ s, BadSurb s (List.replicate 222 255) .badSurb := by
  obtain ⟨m', h⟩ := badReply_step
  rcases reply_refused toyLaws (bob_reachable.step toyLaws arrive_typed arrive_step) badReply_typed
    (Denotes.ofSlice _) h with ⟨-, -, h, -⟩ | ⟨s, fs, used, bad, ps, -, -, h3, h4, -, h5, -⟩
  · exact absurd rfl h
  · refine ⟨m', h, s.topology, ?_⟩
    have : bad = List.replicate 222 255 := by
      have h3 : junk = [List.replicate 222 1] ++ bad :: used.reverse := h3
      simp only [junk, List.cons_append, List.nil_append, List.cons.injEq, true_and] at h3
      exact h3.1.symm
    rw [← this]; exact h5

/-- A reply without SURBs. -/
example : ∃ m' surbs' r, bob1.step World.C (.postReply [] 0 (List.replicate 16 9) (Scattered.ofSlice [7, 8])) =
    .ok (m', .replied surbs' r) ∧ m' = bob1 ∧ surbs' = [] ∧ r = .error .tooManyFragments := by
  obtain ⟨m', o, h, ho⟩ := Res.of_says
    (x := bob1.step World.C (.postReply [] 0 (List.replicate 16 9) (Scattered.ofSlice [7, 8])))
    (p := fun o => match o with | .replied _ _ => true | _ => false) (by decide +kernel)
  match o, ho with
  | .replied surbs' r, _ =>
    obtain ⟨fs, hfs⟩ := sent_exists (List.replicate 16 9) [7, 8] [] rfl (by simp) (by rw [canCarry_iff]; unfold Feasible; decide)
    have hne := (sent_whole rfl (by simp) hfs).1.1
    exact ⟨m', surbs', r, h, reply_too_few_surbs toyLaws (bob_reachable.step toyLaws arrive_typed arrive_step)
      ⟨by simp, rfl, rfl⟩ (Denotes.ofSlice _) hfs (List.length_pos_iff.2 hne) h⟩

end Examples
end Mixnet.Props
