import Verif.Proofs.Receive
import Verif.Proofs.Relay
import Verif.Props.SphinxPackets
import Verif.Props.RoundTrip
/-!
# C38, C39: from one end of the network to the other
-/
namespace Mixnet.Props
open Mixnet.Spec

variable {C : Crypto} (hC : CryptoLaws C) {config : Config} {m m' : Node}

/-- What the destination is to find in a request packet. -/
def RequestFor {C : Crypto} (f : Fragment) (out : Bytes) (action : Action C) : Prop :=
  action = .deliverRequest ∧ out.take PAYLOAD_DATA_SIZE = f

/-- What the requester is to find in a reply packet. -/
def ReplyFor {C : Crypto} (x : NewSurb C) (f : Fragment) (out : Bytes) (action : Action C) : Prop :=
  action = .deliverReply x.id ∧ ∃ payload, decryptReplyPayload C (out.take PAYLOAD_SIZE) x.keys = .ok (payload, .ok ()) ∧
    payload.take PAYLOAD_DATA_SIZE = f

include hC

theorem packet_way (hI : m.Inv C) {i : Nat} {s : Session} (hs : m.sessionAt i = some s) {ns : NetworkStatus}
    (hns : ns.localPeerId.length = 32) {dest k : Nat} (hk : k ≤ 6) (hd : dest < s.topology.mixnodes.length) {net : Network C}
    (hmix : s.topology.mixnodes = net.mixnodes) {mx : Mixnode} {key : KxSecret} (hmx : net.mixnodes[dest]? = some mx)
    (hkey : net.keys[dest]? = some key) {p : NewPacket C} (hp : p.Built s.topology ns dest k) :
    ∃ keys, keys.getLast? = some key ∧ keys.length = p.route.targets.length + 1 ∧
      Way net mx.peerId (RequestFor p.fragment) p.packet p.route.targets keys ∧ keys.length ≤ 6 := by
  obtain ⟨⟨g, rng, rng', hg, hgen⟩, ⟨mx', hmx', hpeer⟩, -, -, old, r, r', hol, hof, hb⟩ := hp
  have hpub : mx.kxPublic = C.deriveKxPublic key := by
    have := congrArg (·[dest]?) net.keyed
    simp only [List.getElem?_map, hmx, hkey, Option.map_some, Option.some.injEq] at this
    exact this
  obtain ⟨keys, peer, k1, k2, k3, k4, k5, k6⟩ := route_way (C := C) (net := net) (key := key) (fpeer := mx.peerId) hmix hns
    (view_of_inv hI hs hg) hk (fun d h => by cases h; exact hd) hgen
    (by
      show (s.topology.mixnodes[dest]?).map _ = _
      rw [hmix, hmx, ← hpub]; rfl)
    (by
      show (net.mixnodes[dest]?).map _ = _
      rw [hmx]; rfl)
  obtain ⟨packet', delay, rng2, delays, t1, t2, -, t4⟩ := request_packet_travels hC r old hol keys p.route.targets k5
  rw [k3, t1] at hb
  cases hb
  refine ⟨keys, k4, k5.length, ⟨t2, ?_, delays, ?_⟩, k5.hops⟩
  · have : p.packet.peerId = peer := by
      unfold Network.peerOf at k1
      dsimp only at k1
      rw [← hmix, hmx'] at k1
      cases k1
      exact hpeer
    rw [this]
    exact k2
  · rw [hof] at t4
    exact t4

omit hC in
theorem drop_last {α : Type} {l : List α} {n : Nat} {a : α} (h : l.getLast? = some a) (hl : l.length = n + 1) :
    l.drop n = [a] := by
  have hd : (l.drop n).length = 1 := by simp [hl]
  match hx : l.drop n, hd with
  | [b], _ =>
    have := List.getLast?_drop (l := l) (i := n)
    rw [hx, if_neg (by omega), h] at this
    simp at this
    rw [this]

/-- A packet that has passed all the mixnodes is for the last hop. -/
theorem passed_all {net : Network C} {final : PeerId} {fin : Bytes → Action C → Prop} {p q : AddressedPacket}
    {targets : List Target} {keys : List KxSecret} {key : KxSecret} (hw : Way net final fin p targets keys)
    (hl : keys.getLast? = some key) (hn : keys.length = targets.length + 1) (h : Relays C net targets.length p q) :
    q.peerId = final ∧ q.packet.length = PACKET_SIZE ∧
      ∃ out action, peel C zeroPacket q.packet (C.deriveKxSharedSecret (kxPublicOf q.packet) key) =
        .ok (out, .ok action) ∧ fin out action := by
  have := relays_way hC h hw (Nat.le_refl _)
  rw [drop_last hl hn, List.drop_length] at this
  obtain ⟨key', e, h1, h2, h3⟩ := way_end this
  cases e
  exact ⟨h1, h2, h3⟩

/-- What a mixnode does with a packet on its way. -/
theorem passes_on {net : Network C} {final : PeerId} {fin : Bytes → Action C → Prop} {p q : AddressedPacket}
    {targets : List Target} {keys : List KxSecret} (hw : Way net final fin p targets keys) {k : Nat}
    (hk : k < targets.length) (h : Relays C net k p q) :
    (∃ key, net.At q.peerId key) ∧
      ∀ config' relay key now, Node.Reachable C config' relay → net.At q.peerId key → Takes C net key relay q.packet →
        relay.forwardPacketQueue.queue.length < config'.forwardPacketQueueCapacity →
        ∃ relay' deadline next, relay.step C (.handlePacket now q.packet) = .ok (relay', .message none) ∧
          relay'.forwardPacketQueue.queue = ⟨deadline, next⟩ :: relay.forwardPacketQueue.queue := by
  have hw' := relays_way hC h hw (by omega)
  obtain ⟨t, ts, ht⟩ : ∃ t ts, targets.drop k = t :: ts := by
    cases hx : targets.drop k with
    | nil => have := congrArg List.length hx; simp at this; omega
    | cons t ts => exact ⟨t, ts, rfl⟩
  rw [ht] at hw'
  constructor
  · obtain ⟨-, ho, -⟩ := hw'
    generalize keys.drop k = ks at ho
    generalize t :: ts = l at ho ht
    cases ho with
    | last => have := congrArg List.length ht; simp at this; omega
    | hop h _ _ => exact ⟨_, h⟩
  · intro config' relay key now hr hat htk hroom
    obtain ⟨next, keys', -, -, -, relay', hs, hcase⟩ := way_hop hC hw' hr hat htk now
    rcases hcase with ⟨-, deadline, hq⟩ | ⟨hfull, -⟩
    · exact ⟨relay', deadline, next, hs, hq⟩
    · omega

omit hC in
theorem listed {net : Network C} {dest : Nat} (h : dest < net.mixnodes.length) :
    ∃ mx key, net.mixnodes[dest]? = some mx ∧ net.keys[dest]? = some key := by
  have := congrArg List.length net.keyed
  simp only [List.length_map] at this
  exact ⟨_, _, List.getElem?_eq_getElem h, List.getElem?_eq_getElem (by omega)⟩

theorem finds_way {net : Network C} {final : PeerId} {fin : Bytes → Action C → Prop} {p : AddressedPacket}
    {targets : List Target} {keys : List KxSecret} {key : KxSecret} (hw : Way net final fin p targets keys)
    (hl : keys.getLast? = some key) (hn : keys.length = targets.length + 1) :
    FindsWay C net targets.length final p := by
  intro k q hq
  refine ⟨fun e => ?_, fun hlt => passes_on hC hw hlt hq⟩
  subst e
  exact (passed_all hC hw hl hn hq).1

/-- The content of a request packet for the node with this key. -/
def requestContent (C : Crypto) (key : KxSecret) (packet : Bytes) : Bytes :=
  match peel C zeroPacket packet (C.deriveKxSharedSecret (kxPublicOf packet) key) with
  | .ok (out, _) => out.take PAYLOAD_DATA_SIZE
  | _ => []

omit hC in
theorem relay_index {i cur : Nat} {rel : RelSessionIndex} {index : Nat}
    (h : RelSessionIndex.fromSessionIndex i cur = some rel) (h' : rel.add cur = .ok index) : index = i := by
  rcases fromSessionIndex_some.1 h with ⟨rfl, hi⟩ | ⟨rfl, hi⟩
  · cases h'; exact hi.symm
  · unfold RelSessionIndex.add at h'
    dsimp only at h'
    split at h' <;> cases h'
    omega

/-- A request with these packets arrives as posted. -/
theorem posted_arrives (hr : Node.Reachable C config m) (hk : config.numHops ≤ 6) {rng : Rng} {net : Network C}
    {d d' : Option MixnodeIndex} {mid : MessageId} {data : Scattered Byte} {l : Bytes} {n : Nat} {ns : NetworkStatus}
    {met : RequestMetrics} (hw : (Call.postRequest rng net.session d mid data n ns).WellTyped)
    {s : Session} {dest : Nat} {packets : List (NewPacket C)}
    (hp : PostedRequest C m net.session d mid l n ns m' d' met s dest packets)
    (hmix : s.topology.mixnodes = net.mixnodes) :
    ∃ mx key,
      net.mixnodes[dest]? = some mx ∧ net.keys[dest]? = some key ∧
      -- every packet is passed on towards the destination
      (∀ p ∈ packets, p.route.targets.length ≤ 5 ∧ FindsWay C net p.route.targets.length mx.peerId p.packet) ∧
      -- if all are passed on all the way, they may arrive in any order
      ∀ qs, List.Forall₂ (fun (p : NewPacket C) q => Relays C net p.route.targets.length p.packet q) packets qs →
      ∀ arrived : List Bytes, arrived.Perm (qs.map (·.packet)) →
      -- at the destination, which has room for the message and nothing of it yet
      ∀ config' b b' msgs, Node.Reachable C config' b → CanHold config' packets.length → storedOf b mid = none →
        Receives C mid id (Takes C net key) b arrived msgs b' →
        ∃ surbs, surbs.length = n ∧ surbs = (packets.flatMap (·.surbs)).map (·.surb) ∧
          msgs = List.replicate (packets.length - 1) none ++ [some (.request ⟨net.session, mid, l, surbs⟩)] := by
  obtain ⟨hI, hcfg⟩ := hr.inv hC
  obtain ⟨mx, key, h1, h2⟩ := listed (net := net) (by rw [← hmix]; exact hp.destination.2.1)
  refine ⟨mx, key, h1, h2, fun p hpm => ?_, fun qs hqs arrived harr config' b b' msgs hb hhold hnone hrec => ?_⟩
  · obtain ⟨keys, w1, w2, w3, w4⟩ := packet_way hC hI hp.session hw.2.2.2 (hcfg ▸ hk) hp.destination.2.1 hmix h1 h2 (hp.built p hpm)
    exact ⟨by omega, finds_way hC w3 w1 w2⟩
  have hsurbs : ∀ x ∈ (packets.flatMap (·.surbs)).map (·.surb), x.length = 222 := by
    intro x hx
    obtain ⟨y, hy, rfl⟩ := List.mem_map.1 hx
    obtain ⟨p, hpm, hy⟩ := List.mem_flatMap.1 hy
    obtain ⟨-, -, old, r, r', hol, hbs⟩ := (hp.built p hpm).surbs y hy
    exact buildSurb_length hC hol hbs
  obtain ⟨hwhole, hass⟩ := sent_whole hw.2.1 hsurbs hp.fragments
  -- what is in the relayed packets
  have hq : ∀ p ∈ packets, ∀ q, Relays C net p.route.targets.length p.packet q →
      q.packet.length = PACKET_SIZE ∧ requestContent C key q.packet = p.fragment ∧
      ∃ out, peel C zeroPacket q.packet (C.deriveKxSharedSecret (kxPublicOf q.packet) key) =
        .ok (out, .ok .deliverRequest) := by
    intro p hpm q hq
    obtain ⟨keys, w1, w2, w3, -⟩ := packet_way hC hI hp.session hw.2.2.2 (hcfg ▸ hk) hp.destination.2.1 hmix h1 h2 (hp.built p hpm)
    obtain ⟨-, l1, out, a, e, rfl, e2⟩ := passed_all hC w3 w1 w2 hq
    refine ⟨l1, ?_, out, e⟩
    unfold requestContent
    rw [e]
    exact e2
  have hmap : ∀ (ps : List (NewPacket C)) (qs : List AddressedPacket), (∀ p ∈ ps, p ∈ packets) →
      List.Forall₂ (fun (p : NewPacket C) q => Relays C net p.route.targets.length p.packet q) ps qs →
      (qs.map (·.packet)).map (requestContent C key) = ps.map (·.fragment) ∧
      ∀ x ∈ qs.map (·.packet), x.length = PACKET_SIZE ∧
        ∃ out, peel C zeroPacket x (C.deriveKxSharedSecret (kxPublicOf x) key) = .ok (out, .ok .deliverRequest) := by
    intro ps qs hm hf
    induction hf with
    | nil => simp
    | @cons p q ps qs h1 _ ih =>
      obtain ⟨i1, i2⟩ := ih (fun p h => hm p (List.mem_cons_of_mem _ h))
      obtain ⟨j1, j2, j3⟩ := hq p (hm p List.mem_cons_self) q h1
      refine ⟨by simp only [List.map_cons, j2, i1], fun x hx => ?_⟩
      rw [List.map_cons, List.mem_cons] at hx
      rcases hx with rfl | hx
      · exact ⟨j1, j3⟩
      · exact i2 x hx
  obtain ⟨g1, g2⟩ := hmap packets qs (fun _ h => h) hqs
  have hlen : (packets.map (·.fragment)).length = packets.length := List.length_map ..
  have hat : net.At mx.peerId key := ⟨dest, mx, h1, rfl, h2⟩
  have hrun := receive_run hC (config := config') (id := mid) (packetOf := id) (Ready := Takes C net key)
    hwhole (by rw [hlen]; exact hhold) (fun msg => .request ⟨net.session, msg.id, msg.data, msg.surbs⟩)
    (fr := requestContent C key)
    (P := fun x => x.length = PACKET_SIZE ∧
        ∃ out, peel C zeroPacket x (C.deriveKxSharedSecret (kxPublicOf x) key) = .ok (out, .ok .deliverRequest))
    (fun nd x now n1 o hre hP hready hs => by
      obtain ⟨hxl, out, hpeel⟩ := hP
      refine ⟨hxl, ?_⟩
      obtain ⟨hIb, -⟩ := hre.inv hC
      obtain ⟨rel, sb, hrel, hacc, hkey, hmixb, -⟩ := hready.accepts hC hxl hpeel
      obtain ⟨n2, msg, he, hstep⟩ := handled hC hIb (now := now) hxl hacc
      rw [show Node.step C nd (.handlePacket now (id x)) = Node.step C nd (.handlePacket now x) from rfl, hstep] at hs
      cases hs
      have hm : sb.topology.isMixnode = true := listed_isMixnode hIb hacc.slot (by
        rw [hmixb, hkey]; exact Network.key_listed hat)
      have hcont : requestContent C key x = out.take PAYLOAD_DATA_SIZE := by unfold requestContent; rw [hpeel]
      rw [hcont]
      generalize hn1 : n1 = n2 at he
      generalize hmsg : o = msg1 at he
      cases he with
      | requestNotMixnode h => rw [hm] at h; cases h
      | request a o' index _ hins hcase hidx =>
        subst hn1
        refine ⟨o', hcase, ?_⟩
        rw [relay_index hrel hidx])
    hrec hb (fun x hx => g2 x (harr.mem_iff.1 hx)) []
    (by
      rw [List.nil_append, ← g1]
      exact harr.map _)
  refine ⟨_, ?_, rfl, ?_⟩
  · rw [List.length_map]; exact hp.surbCount
  · have := hrun.1 (by simp only [List.length_nil]; exact List.length_pos_iff.2 hwhole.1) (by
      unfold Knows
      unfold storedOf at hnone
      rw [hnone])
    rw [this, hlen, hass]
    rfl

/-- **C38.** A posted request arrives as posted. -/
theorem request_arrives (hr : Node.Reachable C config m) (hk : config.numHops ≤ 6) {rng : Rng} {net : Network C}
    {d d' : Option MixnodeIndex} {mid : MessageId} {data : Scattered Byte} {l : Bytes} {n : Nat} {ns : NetworkStatus}
    {met : RequestMetrics} (hw : (Call.postRequest rng net.session d mid data n ns).WellTyped) (hd : Denotes data l)
    (hnet : ∀ s, m.sessionAt net.session = some s → s.topology.mixnodes = net.mixnodes)
    (h : m.step C (.postRequest rng net.session d mid data n ns) = .ok (m', .posted d' (.ok met))) :
    ∃ s dest mx key packets, PostedRequest C m net.session d mid l n ns m' d' met s dest packets ∧
      net.mixnodes[dest]? = some mx ∧ net.keys[dest]? = some key ∧
      -- every packet is passed on towards the destination
      (∀ p ∈ packets, p.route.targets.length ≤ 5 ∧ FindsWay C net p.route.targets.length mx.peerId p.packet) ∧
      -- if all are passed on all the way, they may arrive in any order
      ∀ qs, List.Forall₂ (fun (p : NewPacket C) q => Relays C net p.route.targets.length p.packet q) packets qs →
      ∀ arrived : List Bytes, arrived.Perm (qs.map (·.packet)) →
      -- at the destination, which has room for the message and nothing of it yet
      ∀ config' b b' msgs, Node.Reachable C config' b → CanHold config' packets.length → storedOf b mid = none →
        Receives C mid id (Takes C net key) b arrived msgs b' →
        ∃ surbs, surbs.length = n ∧ surbs = (packets.flatMap (·.surbs)).map (·.surb) ∧
          msgs = List.replicate (packets.length - 1) none ++ [some (.request ⟨net.session, mid, l, surbs⟩)] := by
  obtain ⟨s, dest, packets, hp, -⟩ := request_posted hC hr hk hw hd h
  obtain ⟨mx, key, h'⟩ := posted_arrives hC hr hk hw hp (hnet s hp.session)
  exact ⟨s, dest, mx, key, packets, hp, h'⟩

/-- Where the packets of replies to a node go: a mixnode is reached at its listed peer ID, another node at the peer ID
it had when it posted. -/
def homeOf (t : Topology) (ns : NetworkStatus) : Option PeerId :=
  match t.localNode with
  | .mixnode i => (t.mixnodes[i]?).map (·.peerId)
  | .nonMixnode _ => some ns.localPeerId

theorem surb_way (hI : m.Inv C) {i : Nat} {s : Session} (hs : m.sessionAt i = some s) {ns : NetworkStatus}
    (hns : ns.localPeerId.length = 32) {dest k : Nat} (hk : k ≤ 6) (hd : dest < s.topology.mixnodes.length) {net : Network C}
    (hmix : s.topology.mixnodes = net.mixnodes) {x : NewSurb C} (hx : x.Built s.topology ns dest k) {t : Topology}
    (ht : t.mixnodes = net.mixnodes) {f : Fragment} {p : AddressedPacket} (hp : ReplyBuilt C t f x.surb p) :
    ∃ keys home, homeOf s.topology ns = some home ∧ keys.getLast? = some s.kxPair.secret ∧
      keys.length = x.route.targets.length + 1 ∧ Way net home (ReplyFor x f) p x.route.targets keys ∧ keys.length ≤ 6 := by
  obtain ⟨⟨g, rng, rng', hg, hgen⟩, hid, old, r, r', hol, hb⟩ := hx
  obtain ⟨old2, first, mx, o1, o2, o3, o4, o5, o6⟩ := hp
  obtain ⟨rel, -, hslot⟩ := Node.sessionAt_eq.1 hs
  have hi := hI.sessions rel s hslot
  have hloc : s.topology.localKxPublic = C.deriveKxPublic s.kxPair.secret := by rw [hi.isLocal, hi.pair]
  have hwf := (view_of_inv hI hs hg).wf.1
  obtain ⟨home, hh1, hh2, hh3⟩ : ∃ home, homeOf s.topology ns = some home ∧
      keyOf s.topology (finalHop s.topology ns (.fromMixnode dest)) = some (C.deriveKxPublic s.kxPair.secret) ∧
      net.peerOf (finalHop s.topology ns (.fromMixnode dest)) = some home := by
    unfold homeOf finalHop localTarget
    dsimp only
    cases hl : s.topology.localNode with
    | mixnode j =>
      obtain ⟨mx, e1, e2⟩ := hwf.isLocal j hl
      refine ⟨mx.peerId, ?_, ?_, ?_⟩
      · show (s.topology.mixnodes[j]?).map _ = _
        rw [e1]; rfl
      · show (s.topology.mixnodes[j]?).map _ = _
        rw [e1, ← hloc, ← e2]; rfl
      · show (net.mixnodes[j]?).map _ = _
        rw [← hmix, e1]; rfl
    | nonMixnode gs => exact ⟨_, rfl, by rw [← hloc]; rfl, rfl⟩
  obtain ⟨keys, peer, k1, k2, k3, k4, k5, k6⟩ := route_way (C := C) (net := net) (key := s.kxPair.secret) (fpeer := home) hmix hns
    (view_of_inv hI hs hg) hk (fun d h => by cases h; exact hd) hgen hh2 hh3
  obtain ⟨surb, pkeys, delay, rng2, delays, t1, t2, -, -, t5⟩ := reply_packet_travels hC r old hol x.route.first k6 x.id hid keys
    x.route.targets k5
  rw [k3, t1] at hb
  cases hb
  obtain ⟨packet', c1, c2, c3⟩ := t5 old2 o1
  rw [c1] at o3
  cases o3
  refine ⟨keys, home, hh1, k4, k5.length, ⟨c2, ?_, delays, ?_⟩, k5.hops⟩
  · have : p.peerId = peer := by
      unfold Network.peerOf at k1
      dsimp only at k1
      rw [← ht, o5] at k1
      cases k1
      exact o6
    rw [this]
    exact k2
  · rw [o2] at c3
    exact c3

/-- The content of a reply packet for the node with this key, and these SURB payload keys. -/
def replyContent (C : Crypto) (key : KxSecret) (packet : Bytes) (keys : List Bytes) : Bytes :=
  match peel C zeroPacket packet (C.deriveKxSharedSecret (kxPublicOf packet) key) with
  | .ok (out, _) =>
    match decryptReplyPayload C (out.take PAYLOAD_SIZE) keys with
    | .ok (payload, _) => payload.take PAYLOAD_DATA_SIZE
    | _ => []
  | _ => []

omit hC in
theorem RepliesBuilt.split {t : Topology} {fs : List Fragment} {ps : List AddressedPacket} {used : List Surb}
    (h : RepliesBuilt C t fs used ps) : ∀ {xs : List (NewSurb C)}, used = xs.map (·.surb) →
    List.Forall₂ (fun (x : NewSurb C) (y : Fragment × AddressedPacket) => ReplyBuilt C t y.1 x.surb y.2) xs (fs.zip ps) := by
  induction h with
  | nil => intro xs h; rw [eq_comm, List.map_eq_nil_iff] at h; subst h; exact .nil
  | cons h1 _ ih =>
    intro xs h
    cases xs with
    | nil => cases h
    | cons x xs =>
      rw [List.map_cons, List.cons.injEq] at h
      obtain ⟨rfl, h⟩ := h
      exact .cons h1 (ih h)

/-- Replies with SURBs of these packets arrive. -/
theorem posted_answered (hr : Node.Reachable C config m) (hk : config.numHops ≤ 6) {rng : Rng} {net : Network C}
    {d d' : Option MixnodeIndex} {mid : MessageId} {data : Scattered Byte} {l : Bytes} {n : Nat} {ns : NetworkStatus}
    {met : RequestMetrics} (hw : (Call.postRequest rng net.session d mid data n ns).WellTyped)
    {s : Session} {dest : Nat} {packets : List (NewPacket C)}
    (hp : PostedRequest C m net.session d mid l n ns m' d' met s dest packets)
    (hmix : s.topology.mixnodes = net.mixnodes) :
    ∃ home,
      homeOf s.topology ns = some home ∧
      -- somebody in the same network posts a reply with some of the SURBs
      ∀ (xs : List (NewSurb C)), (∀ x ∈ xs, x ∈ packets.flatMap (·.surbs)) →
      ∀ config2 bob bob' rid rdata rl rest, Node.Reachable C config2 bob →
        (∀ sb, bob.sessionAt net.session = some sb → sb.topology.mixnodes = net.mixnodes) →
        (Call.postReply (xs.map (·.surb)) net.session rid rdata).WellTyped → Denotes rdata rl →
        bob.step C (.postReply (xs.map (·.surb)) net.session rid rdata) = .ok (bob', .replied rest (.ok ())) →
      -- a packet is queued for each SURB used, and is passed on towards the requester
      ∃ (sb : Session) (left used : List (NewSurb C)) (ps : List AddressedPacket), bob.sessionAt net.session = some sb ∧ bob' = withSession bob net.session (enqueue sb ps) ∧
        xs = left ++ used.reverse ∧ rest = left.map (·.surb) ∧ ps.length = used.length ∧
        (∀ y ∈ used.zip ps, y.1.route.targets.length ≤ 5 ∧ FindsWay C net y.1.route.targets.length home y.2) ∧
      -- if all are passed on all the way, they may arrive in any order
      ∀ qs, List.Forall₂ (fun (y : NewSurb C × AddressedPacket) q => Relays C net y.1.route.targets.length y.2 q)
        (used.zip ps) qs →
      ∀ arrived : List (NewSurb C × Bytes), arrived.Perm (used.zip (qs.map (·.packet))) →
      -- at the requester, which still has the keys of the SURBs, has room for the reply and nothing of it yet
      ∀ config3 a a' msgs, Node.Reachable C config3 a → CanHold config3 ps.length → storedOf a rid = none →
        Receives C rid (·.2) (fun nd y => Takes C net s.kxPair.secret nd y.2 ∧
          nd.surbKeystore.entry y.1.id = some ⟨y.1.keys, mid⟩) a arrived msgs a' →
        msgs = List.replicate (ps.length - 1) none ++ [some (.reply ⟨mid, rl⟩)] := by
  obtain ⟨hI, hcfg⟩ := hr.inv hC
  have hhome : ∃ home, homeOf s.topology ns = some home := by
    unfold homeOf
    cases hl : s.topology.localNode with
    | nonMixnode gs => exact ⟨_, rfl⟩
    | mixnode j =>
      obtain ⟨rel, -, hslot⟩ := Node.sessionAt_eq.1 hp.session
      obtain ⟨mx, e1, -⟩ := (hI.sessions rel s hslot).topology.isLocal j hl
      exact ⟨mx.peerId, by show (s.topology.mixnodes[j]?).map _ = _; rw [e1]; rfl⟩
  obtain ⟨home, hhome⟩ := hhome
  refine ⟨home, hhome, ?_⟩
  intro xs hxs config2 bob bob' rid rdata rl rest hrb hmixb hwr hdr hpost
  obtain ⟨sb, fs, used0, ps, hsb, -, -, hsent, hsplit, hbuilt, hafter⟩ := reply_posted hC hrb hwr hdr hpost
  obtain ⟨hul, hpl⟩ := hbuilt.lengths
  -- the SURBs used
  obtain ⟨xa, xb, hab, ha, hb⟩ := List.map_eq_append_iff.1 hsplit
  have hused : used0 = xb.reverse.map (·.surb) := by rw [List.map_reverse, hb, List.reverse_reverse]
  generalize hu : xb.reverse = used at hused
  have hmem : ∀ x ∈ used, x ∈ packets.flatMap (·.surbs) := by
    intro x hx
    rw [← hu, List.mem_reverse] at hx
    exact hxs x (by rw [hab]; exact List.mem_append_right _ hx)
  have huse : used.length = fs.length := by rw [← hul, hused, List.length_map]
  have hone : ∀ x ∈ used, ∀ f p, ReplyBuilt C sb.topology f x.surb p → ∃ keys, keys.getLast? = some s.kxPair.secret ∧
      keys.length = x.route.targets.length + 1 ∧ Way net home (ReplyFor x f) p x.route.targets keys ∧ keys.length ≤ 6 := by
    intro x hx f p hrep
    obtain ⟨np, hnp, hx⟩ := List.mem_flatMap.1 (hmem x hx)
    obtain ⟨keys, home', e, w1, w2, w3, w4⟩ := surb_way hC hI hp.session hw.2.2.2 (hcfg ▸ hk) hp.destination.2.1 hmix
      ((hp.built np hnp).surbs x hx) (hmixb sb hsb) hrep
    rw [hhome] at e
    cases e
    exact ⟨keys, w1, w2, w3, w4⟩
  have hall := RepliesBuilt.split hbuilt hused
  refine ⟨sb, xa, used, ps, hsb, hafter, by rw [hab, ← hu, List.reverse_reverse], ha.symm, by omega, ?_, ?_⟩
  · intro y hy
    obtain ⟨j, hj, rfl⟩ := List.mem_iff_getElem.1 hy
    rw [List.getElem_zip]
    rw [List.length_zip] at hj
    have := List.Forall₂.get hall (i := j) (by omega) (by rw [List.length_zip]; omega)
    simp only [List.get_eq_getElem, List.getElem_zip] at this
    obtain ⟨keys, w1, w2, w3, w4⟩ := hone _ (List.getElem_mem _) _ _ this
    exact ⟨by dsimp only; omega, finds_way hC w3 w1 w2⟩
  intro qs hqs arrived harr config3 a a' msgs hra hhold hnone hrec
  obtain ⟨hwhole, hass⟩ := sent_whole hwr.2.1 (by simp) hsent
  have hq : ∀ x ∈ used, ∀ f p q, ReplyBuilt C sb.topology f x.surb p → Relays C net x.route.targets.length p q →
      q.packet.length = PACKET_SIZE ∧ replyContent C s.kxPair.secret q.packet x.keys = f ∧
      ∃ out payload, peel C zeroPacket q.packet (C.deriveKxSharedSecret (kxPublicOf q.packet) s.kxPair.secret) =
        .ok (out, .ok (.deliverReply x.id)) ∧
        decryptReplyPayload C (out.take PAYLOAD_SIZE) x.keys = .ok (payload, .ok ()) := by
    intro x hx f p q hrep hrel
    obtain ⟨keys, w1, w2, w3, -⟩ := hone x hx f p hrep
    obtain ⟨-, l1, out, a, e, rfl, payload, e2, e3⟩ := passed_all hC w3 w1 w2 hrel
    refine ⟨l1, ?_, out, payload, e, e2⟩
    unfold replyContent
    rw [e]
    dsimp only
    rw [e2]
    exact e3
  have hmap : ∀ (us : List (NewSurb C)) (gs : List Fragment) (ps : List AddressedPacket) (qs : List AddressedPacket),
      us.length = gs.length → gs.length = ps.length → (∀ x ∈ us, x ∈ used) →
      List.Forall₂ (fun (x : NewSurb C) (y : Fragment × AddressedPacket) => ReplyBuilt C sb.topology y.1 x.surb y.2) us (gs.zip ps) →
      List.Forall₂ (fun (y : NewSurb C × AddressedPacket) q => Relays C net y.1.route.targets.length y.2 q) (us.zip ps) qs →
      (us.zip (qs.map (·.packet))).map (fun y => replyContent C s.kxPair.secret y.2 y.1.keys) = gs ∧
      ∀ y ∈ us.zip (qs.map (·.packet)), y.2.length = PACKET_SIZE ∧
        ∃ out payload, peel C zeroPacket y.2 (C.deriveKxSharedSecret (kxPublicOf y.2) s.kxPair.secret) =
          .ok (out, .ok (.deliverReply y.1.id)) ∧
          decryptReplyPayload C (out.take PAYLOAD_SIZE) y.1.keys = .ok (payload, .ok ()) := by
    intro us
    induction us with
    | nil =>
      intro gs ps qs h1 h2 _ _ _
      cases gs with
      | nil => simp
      | cons => simp at h1
    | cons u us ih =>
      intro gs ps qs h1 h2 hm hr hf
      match gs, ps, h1, h2 with
      | g :: gs, p :: ps, h1, h2 =>
        cases hr with
        | cons hr1 hr2 =>
          cases hf with
          | @cons _ q _ qs hf1 hf2 =>
            obtain ⟨i1, i2⟩ := ih gs ps qs (by simpa using h1) (by simpa using h2) (fun x h => hm x (List.mem_cons_of_mem _ h)) hr2 hf2
            obtain ⟨j1, j2, j3⟩ := hq u (hm u List.mem_cons_self) g p q hr1 hf1
            refine ⟨?_, fun y hy => ?_⟩
            · simp only [List.map_cons, List.zip_cons_cons, j2, i1]
            · rw [List.map_cons, List.zip_cons_cons, List.mem_cons] at hy
              rcases hy with rfl | hy
              · exact ⟨j1, j3⟩
              · exact i2 y hy
  obtain ⟨g1, g2⟩ := hmap used fs ps qs huse hpl.symm (fun _ h => h) hall hqs
  have hrun := receive_run hC (config := config3) (id := rid) (packetOf := fun y : NewSurb C × Bytes => y.2)
    (Ready := fun nd y => Takes C net s.kxPair.secret nd y.2 ∧ nd.surbKeystore.entry y.1.id = some ⟨y.1.keys, mid⟩)
    hwhole (by rw [← hpl]; exact hhold) (fun msg => .reply ⟨mid, msg.data⟩)
    (fr := fun y => replyContent C s.kxPair.secret y.2 y.1.keys)
    (P := fun y => y.2.length = PACKET_SIZE ∧
        ∃ out payload, peel C zeroPacket y.2 (C.deriveKxSharedSecret (kxPublicOf y.2) s.kxPair.secret) =
          .ok (out, .ok (.deliverReply y.1.id)) ∧
          decryptReplyPayload C (out.take PAYLOAD_SIZE) y.1.keys = .ok (payload, .ok ()))
    (fun nd y now n1 o hre hP hready hs => by
      obtain ⟨hxl, out, payload, hpeel, hdec⟩ := hP
      refine ⟨hxl, ?_⟩
      obtain ⟨hIb, -⟩ := hre.inv hC
      obtain ⟨hready, hentry⟩ := hready
      obtain ⟨rel, sb', hrel, hacc, -, -, -⟩ := hready.accepts hC hxl hpeel
      obtain ⟨n2, msg, he, hstep⟩ := handled hC hIb (now := now) hxl hacc
      rw [hstep] at hs
      cases hs
      have hcont : replyContent C s.kxPair.secret y.2 y.1.keys = payload.take PAYLOAD_DATA_SIZE := by
        unfold replyContent; rw [hpeel]; dsimp only; rw [hdec]
      rw [hcont]
      generalize hn1 : n1 = n2 at he
      generalize hmsg : o = msg1 at he
      generalize hact : Action.deliverReply y.1.id = act at he
      cases he with
      | replyUnknown id h => cases hact; rw [hentry] at h; cases h
      | replyBad id v payload' e hv hd' => cases hact; rw [hentry] at hv; cases hv; rw [hdec] at hd'; cases hd'
      | reply id v payload' a o' hv hd' hl' hins hcase =>
        cases hact; rw [hentry] at hv; cases hv; rw [hdec] at hd'; cases hd'
        subst hn1
        exact ⟨o', hcase, rfl⟩
      | _ => cases hact)
    hrec hra (fun y hy => g2 y (harr.mem_iff.1 hy)) []
    (by
      rw [List.nil_append]
      have := harr.map (fun y => replyContent C s.kxPair.secret y.2 y.1.keys)
      rw [g1] at this
      exact this)
  have := hrun.1 (by simp only [List.length_nil]; exact List.length_pos_iff.2 hwhole.1) (by
      unfold Knows
      unfold storedOf at hnone
      rw [hnone])
  rw [this, hass, hpl]
  rfl

/-- **C39.** A reply arrives, with the id of the request it answers. -/
theorem reply_arrives (hr : Node.Reachable C config m) (hk : config.numHops ≤ 6) {rng : Rng} {net : Network C}
    {d d' : Option MixnodeIndex} {mid : MessageId} {data : Scattered Byte} {l : Bytes} {n : Nat} {ns : NetworkStatus}
    {met : RequestMetrics} (hw : (Call.postRequest rng net.session d mid data n ns).WellTyped) (hd : Denotes data l)
    (hnet : ∀ s, m.sessionAt net.session = some s → s.topology.mixnodes = net.mixnodes)
    (h : m.step C (.postRequest rng net.session d mid data n ns) = .ok (m', .posted d' (.ok met))) :
    ∃ s dest packets home, PostedRequest C m net.session d mid l n ns m' d' met s dest packets ∧
      homeOf s.topology ns = some home ∧
      -- somebody in the same network posts a reply with some of the SURBs
      ∀ (xs : List (NewSurb C)), (∀ x ∈ xs, x ∈ packets.flatMap (·.surbs)) →
      ∀ config2 bob bob' rid rdata rl rest, Node.Reachable C config2 bob →
        (∀ sb, bob.sessionAt net.session = some sb → sb.topology.mixnodes = net.mixnodes) →
        (Call.postReply (xs.map (·.surb)) net.session rid rdata).WellTyped → Denotes rdata rl →
        bob.step C (.postReply (xs.map (·.surb)) net.session rid rdata) = .ok (bob', .replied rest (.ok ())) →
      -- a packet is queued for each SURB used, and is passed on towards the requester
      ∃ (sb : Session) (left used : List (NewSurb C)) (ps : List AddressedPacket), bob.sessionAt net.session = some sb ∧ bob' = withSession bob net.session (enqueue sb ps) ∧
        xs = left ++ used.reverse ∧ rest = left.map (·.surb) ∧ ps.length = used.length ∧
        (∀ y ∈ used.zip ps, y.1.route.targets.length ≤ 5 ∧ FindsWay C net y.1.route.targets.length home y.2) ∧
      -- if all are passed on all the way, they may arrive in any order
      ∀ qs, List.Forall₂ (fun (y : NewSurb C × AddressedPacket) q => Relays C net y.1.route.targets.length y.2 q)
        (used.zip ps) qs →
      ∀ arrived : List (NewSurb C × Bytes), arrived.Perm (used.zip (qs.map (·.packet))) →
      -- at the requester, which still has the keys of the SURBs, has room for the reply and nothing of it yet
      ∀ config3 a a' msgs, Node.Reachable C config3 a → CanHold config3 ps.length → storedOf a rid = none →
        Receives C rid (·.2) (fun nd y => Takes C net s.kxPair.secret nd y.2 ∧
          nd.surbKeystore.entry y.1.id = some ⟨y.1.keys, mid⟩) a arrived msgs a' →
        msgs = List.replicate (ps.length - 1) none ++ [some (.reply ⟨mid, rl⟩)] := by
  obtain ⟨s, dest, packets, hp, -⟩ := request_posted hC hr hk hw hd h
  obtain ⟨home, h'⟩ := posted_answered hC hr hk hw hp (hnet s hp.session)
  exact ⟨s, dest, packets, home, hp, h'⟩

end Mixnet.Props

/-! ### A concrete case: Alice, Carol and Bob -/
namespace Mixnet.World
open Mixnet.Spec Mixnet.Props

/-- The network of session 0. -/
def net0 : Network C where
  session := 0
  mixnodes := mixes
  keys := [sec 3, sec 5, sec 7]
  keyed := rfl
  peers := by decide +kernel

/-- The node has session 0 of the network with this key and has not seen the packet. -/
def takesB (key : KxSecret) (n : Node) (packet : Bytes) : Bool :=
  decide (n.sessionStatus.currentIndex = 0) &&
  match n.sessionAt 0 with
  | some s => decide (s.kxPair.secret = key) && decide (s.topology.mixnodes = mixes) &&
      !s.replayFilter.contains (s.tagFor C packet)
  | none => false

theorem takes_of {key n packet} (h : takesB key n packet = true) : Takes C net0 key n packet := by
  unfold takesB at h
  rw [Bool.and_eq_true] at h
  obtain ⟨h1, h2⟩ := h
  refine ⟨?_, fun hne => absurd (of_decide_eq_true h1).symm hne⟩
  cases hs : n.sessionAt 0 with
  | none => rw [hs] at h2; cases h2
  | some s =>
    rw [hs] at h2
    simp only [Bool.and_eq_true, decide_eq_true_eq, Bool.not_eq_true'] at h2
    exact ⟨s, hs, h2.1.1, h2.1.2, h2.2⟩

theorem carol_takes : Takes C net0 (sec 7) carol packet0.packet := takes_of (by decide +kernel)
theorem bob_takes : Takes C net0 (sec 5) bob packet1.packet.packet := takes_of (by decide +kernel)
theorem carol_takes2 : Takes C net0 (sec 7) carol1 packet2.packet := takes_of (by decide +kernel)
theorem alice_takes : Takes C net0 (sec 3) alice1 packet3.packet.packet := takes_of (by decide +kernel)

theorem relayOut_eq : relayOut = .message none := by
  have h : (match relayOut with | .message none => true | _ => false) = true := by decide +kernel
  generalize relayOut = o at *
  match o, h with
  | .message none, _ => rfl

theorem relay2Out_eq : relay2Out = .message none := by
  have h : (match relay2Out with | .message none => true | _ => false) = true := by decide +kernel
  generalize relay2Out = o at *
  match o, h with
  | .message none, _ => rfl

/-- Carol relays Alice's packet. -/
theorem relayed : Relay C net0 packet0 packet1.packet := by
  refine ⟨cfg 7, carol, carol1, sec 7, 1000, packet1.deadline, carol_reachable, ⟨2, mix 7, rfl, packet0_peer.symm, rfl⟩,
    carol_takes, ?_, ?_⟩
  · rw [← relayOut_eq]; exact relay_step
  · rw [carol1_queue.1, show carol.forwardPacketQueue.queue = [] by decide +kernel]

/-- Carol relays Bob's packet. -/
theorem relayed2 : Relay C net0 packet2 packet3.packet := by
  refine ⟨cfg 7, carol1, carol2, sec 7, 6000, packet3.deadline, carol_reachable.step toyLaws relay_typed relay_step,
    ⟨2, mix 7, rfl, packet2_peer.symm, rfl⟩,
    carol_takes2, ?_, ?_⟩
  · rw [← relay2Out_eq]; exact relay2_step
  · rw [show carol2.forwardPacketQueue.queue = packet3 :: carol1.forwardPacketQueue.queue by decide +kernel]

theorem alice_session : ∀ s, alice.sessionAt 0 = some s → s.topology.mixnodes = mixes := by
  intro s hs
  have : ((alice.sessionAt 0).map (·.topology.mixnodes)) = some mixes := by decide +kernel
  rw [hs] at this
  exact Option.some.inj this

theorem bob_session : ∀ s, bob1.sessionAt 0 = some s → s.topology.mixnodes = mixes := by
  intro s hs
  have : ((bob1.sessionAt 0).map (·.topology.mixnodes)) = some mixes := by decide +kernel
  rw [hs] at this
  exact Option.some.inj this

theorem one_packet {met s dest packets}
    (hp : PostedRequest C alice 0 (some 1) mid [1, 2, 3] 1 (ns 3) alice1 (some 1) met s dest packets) :
    ∃ p, packets = [p] ∧ p.packet = packet0 ∧ p.route.targets.length = 1 := by
  have hw : waiting alice1 = s.authoredPacketQueue.queue ++ packets.map (·.packet) := by
    rw [hp.after]
    unfold withSession
    rw [if_pos (show 0 = alice.sessionStatus.currentIndex by decide +kernel)]
    rfl
  rw [sent.1] at hw
  have hs0 : s.authoredPacketQueue.queue = [] := by
    have : (alice.sessionAt 0).map (·.authoredPacketQueue.queue) = some [] := by decide +kernel
    rw [hp.session] at this
    exact Option.some.inj this
  rw [hs0, List.nil_append, eq_comm, List.map_eq_singleton_iff] at hw
  obtain ⟨p, rfl, hpk⟩ := hw
  refine ⟨p, rfl, hpk, ?_⟩
  obtain ⟨g, r, r', hg, hgen⟩ := (hp.built p (by simp)).route
  obtain ⟨hI, hcfg⟩ := alice_reachable.inv toyLaws
  obtain ⟨⟨least, hl, hh⟩, -⟩ := route_shape (view_of_inv hI hp.session hg) (by rw [hcfg]; decide)
    (fun d hd => by cases hd; exact hp.destination.2.1) hgen
  have : ((alice.sessionAt 0).map fun s => decide (s.topology.localNode = .mixnode 0)) = some true := by decide +kernel
  rw [hp.session] at this
  have h1 := hl.1 0 (of_decide_eq_true (Option.some.inj this))
  rw [hcfg, h1, show max (cfg 3).numHops 1 = 2 from rfl] at hh
  simpa [hops] using hh

theorem bob_gets {met s dest packets}
    (hp : PostedRequest C alice 0 (some 1) mid [1, 2, 3] 1 (ns 3) alice1 (some 1) met s dest packets) :
    ∃ surbs, surbs.length = 1 ∧ surbs = (packets.flatMap (·.surbs)).map (·.surb) ∧
      arriveOut = .message (some (.request ⟨0, mid, [1, 2, 3], surbs⟩)) := by
  obtain ⟨mx, key, -, hkey, -, harr⟩ := posted_arrives (net := net0) toyLaws alice_reachable (by decide) ask_typed hp
    (alice_session s hp.session)
  have hdest : dest = 1 := hp.destination.2.2.1 1 rfl
  subst hdest
  cases hkey
  obtain ⟨p, rfl, hpk, hlen⟩ := one_packet hp
  obtain ⟨r, hr, -⟩ := arriveOut_eq
  have hstep := arrive_step
  rw [hr] at hstep
  obtain ⟨surbs, h1, h2, h3⟩ := harr [packet1.packet]
    (.cons (by rw [hlen, hpk]; exact .next relayed (.here _)) .nil)
    [packet1.packet.packet] (List.Perm.refl _) (cfg 5) bob bob1 [some (.request r)] bob_reachable
    ⟨show 1 ≤ (cfg 5).maxFragmentsPerMessage by decide, .inl rfl⟩ (by decide +kernel) (.arrive bob_takes hstep (.done _))
  refine ⟨surbs, h1, h2, ?_⟩
  rw [hr]
  have : r = ⟨net0.session, mid, [1, 2, 3], surbs⟩ := by simpa using h3
  change r = ⟨0, mid, [1, 2, 3], surbs⟩ at this
  rw [this]

/-- All the hypotheses of `request_arrives` are met: Alice's request to Bob arrives by way of Carol. -/
example : ∃ surbs, surbs.length = 1 ∧ arriveOut = .message (some (.request ⟨0, mid, [1, 2, 3], surbs⟩)) := by
  obtain ⟨met, hask⟩ := askOut_eq
  have hpost := ask_step
  rw [hask] at hpost
  obtain ⟨s, dest, mx, key, packets, hp, -⟩ := request_arrives toyLaws alice_reachable (by decide) (net := net0)
    ask_typed (Denotes.ofSlice _) alice_session hpost
  obtain ⟨surbs, h1, -, h2⟩ := bob_gets hp
  exact ⟨surbs, h1, h2⟩

/-- All the hypotheses of `reply_arrives` are met: Bob's reply arrives by way of Carol. -/
example : backOut = .message (some (.reply ⟨mid, [7, 8]⟩)) := by
  obtain ⟨met, hask⟩ := askOut_eq
  have hpost := ask_step
  rw [hask] at hpost
  obtain ⟨s, dest, packets, home, hp, -, h⟩ := reply_arrives toyLaws alice_reachable (by decide) (net := net0)
    ask_typed (Denotes.ofSlice _) alice_session hpost
  obtain ⟨sb, hl, hsb, ha⟩ := bob_gets hp
  have hsurbs : surbs = (packets.flatMap (·.surbs)).map (·.surb) := by
    rw [← hsb]
    unfold surbs
    rw [ha]
  obtain ⟨rest, hans⟩ := answerOut_eq
  have hrep := answer_step
  rw [hans] at hrep
  unfold answer at hrep
  have htyped := answer_typed
  unfold answer at htyped
  rw [hsurbs] at hrep htyped
  obtain ⟨sb', left, used, ps, h1, h2, h3, h4, h5, h6, h7⟩ := h _ (fun _ h => h) (cfg 5) bob1 bob2 _ _ _ rest
    (bob_reachable.step toyLaws arrive_typed arrive_step) bob_session htyped (Denotes.ofSlice _) hrep
  have hw : waiting bob2 = sb'.authoredPacketQueue.queue ++ ps := by
    rw [h2]
    unfold withSession
    rw [if_pos (show net0.session = bob1.sessionStatus.currentIndex by decide +kernel)]
    rfl
  have hs0 : sb'.authoredPacketQueue.queue = [] := by
    have : (bob1.sessionAt 0).map (·.authoredPacketQueue.queue) = some [] := by decide +kernel
    rw [show bob1.sessionAt 0 = some sb' from h1] at this
    exact Option.some.inj this
  rw [hs0, List.nil_append, show waiting bob2 = [packet2] by decide +kernel] at hw
  subst hw
  obtain ⟨x, rfl⟩ := List.length_eq_one_iff.1 h5.symm
  have hcount := hp.surbCount
  rw [h3] at hcount
  have hleft : left = [] := by
    simp at hcount
    exact hcount
  subst hleft
  obtain ⟨p, rfl, -, -⟩ := one_packet hp
  have hx : p.surbs = [x] := by simpa using h3
  have hxb := (hp.built p (by simp)).surbs x (by rw [hx]; simp)
  have hlen : x.route.targets.length = 1 := by
    obtain ⟨g, r, r', hg, hgen⟩ := hxb.route
    obtain ⟨hI, hcfg⟩ := alice_reachable.inv toyLaws
    obtain ⟨⟨least, hl, hh⟩, -⟩ := route_shape (view_of_inv hI hp.session hg) (by rw [hcfg]; decide)
      (fun d hd => by cases hd; exact hp.destination.2.1) hgen
    have : ((alice.sessionAt 0).map fun s => decide (s.topology.localNode = .mixnode 0)) = some true := by decide +kernel
    rw [show alice.sessionAt 0 = some s from hp.session] at this
    have h1 := hl.1 0 (of_decide_eq_true (Option.some.inj this))
    rw [hcfg, h1, show max (cfg 3).numHops 1 = 2 from rfl] at hh
    simpa [hops] using hh
  have hsec : s.kxPair.secret = sec 3 := by
    have : (alice.sessionAt 0).map (·.kxPair.secret) = some (sec 3) := by decide +kernel
    rw [show alice.sessionAt 0 = some s from hp.session] at this
    exact Option.some.inj this
  have hentry : alice1.surbKeystore.entry x.id = some ⟨x.keys, mid⟩ := by
    rw [hp.after]
    show SurbKeystore.entry ⟨_, lastN _ _⟩ _ = _
    rw [show alice.surbKeystore.surbs = [] by decide +kernel, show alice.surbKeystore.capacity = 200 by decide +kernel]
    simp [hx, SurbKeystore.entry, lastN, LinkedMap.get?]
  obtain ⟨r, hr, -⟩ := backOut_eq
  have hstep := back_step
  rw [hr] at hstep
  have := h7 [packet3.packet] (.cons (by rw [hlen]; exact .next relayed2 (.here _)) .nil)
    [(x, packet3.packet.packet)] (List.Perm.refl _) (cfg 3) alice1 alice2 [some (.reply r)]
    (alice_reachable.step toyLaws ask_typed ask_step) ⟨show 1 ≤ (cfg 3).maxFragmentsPerMessage by decide, .inl rfl⟩
    (by decide +kernel) (.arrive ⟨by rw [hsec]; exact alice_takes, hentry⟩ hstep (.done _))
  rw [hr]
  simpa using this

end Mixnet.World
