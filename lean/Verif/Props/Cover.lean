import Verif.Props.EndToEnd
import Verif.Props.Turns
import Verif.Props.Choosing
/-!
# C83: cover packets travel like requests
-/
namespace Mixnet.Props
open Mixnet Spec

variable {C : Crypto} (hC : CryptoLaws C) {config : Config} {m m' : Node}

/-- What is to be found in a cover packet. -/
def CoverFor {C : Crypto} (_out : Bytes) (action : Action C) : Prop := action = .deliverCover none

include hC

/-- The way of a packet built like a cover packet. -/
theorem cover_way (hI : m.Inv C) {i : Nat} {s : Session} (hs : m.sessionAt i = some s) {ns : NetworkStatus}
    (hns : ns.localPeerId.length = 32) {k : Nat} (hk : k ≤ 6) {net : Network C}
    (hmix : s.topology.mixnodes = net.mixnodes) {g : RouteGenerator} (hg : RouteGenerator.new s.topology ns = .ok g)
    {kind : RouteKind} {rng rng' : Rng} {route : Route} (hgen : g.genRoute rng kind k = .ok (.ok (route, rng')))
    (hkind : ∀ d, otherEnd kind = some d → d < s.topology.mixnodes.length) {final : PeerId} {key : KxSecret}
    (hkey : keyOf s.topology (finalHop s.topology ns kind) = some (C.deriveKxPublic key))
    (hfin : net.peerOf (finalHop s.topology ns kind) = some final) {p : AddressedPacket}
    (hfirst : ∃ mx, s.topology.mixnodes[route.first]? = some mx ∧ p.peerId = mx.peerId)
    {old : Bytes} (hold : old.length = PACKET_SIZE) {r r' : Rng} {delay : C.Delay}
    (hb : buildCoverPacket C old r route.targets route.kxPublics none = .ok (p.packet, delay, r')) :
    ∃ keys, keys.getLast? = some key ∧ keys.length = route.targets.length + 1 ∧ keys.length ≤ 6 ∧
      Way net final CoverFor p route.targets keys := by
  obtain ⟨keys, peer, k1, k2, k3, k4, k5, k6⟩ := route_way (C := C) (net := net) (key := key) (fpeer := final) hmix hns
    (view_of_inv hI hs hg) hk hkind hgen hkey hfin
  obtain ⟨packet', delay', rng2, delays, t1, t2, -, t4⟩ := cover_packet_travels hC r old hold none (by simp) keys
    route.targets k5
  rw [k3, t1] at hb
  cases hb
  refine ⟨keys, k4, k5.length, k5.hops, t2, ?_, delays, t4⟩
  obtain ⟨mx, hmx, hpeer⟩ := hfirst
  unfold Network.peerOf at k1
  dsimp only at k1
  rw [← hmix, hmx] at k1
  cases k1
  rw [hpeer]
  exact k2

/-- The end of the route of a cover packet to a mixnode. -/
theorem to_mixnode {net : Network C} {t : Topology} (hmix : t.mixnodes = net.mixnodes) (ns : NetworkStatus) {d : Nat}
    {mx : Mixnode} {key : KxSecret} (hmx : net.mixnodes[d]? = some mx) (hkey : net.keys[d]? = some key) :
    keyOf t (finalHop t ns (.toMixnode d)) = some (C.deriveKxPublic key) ∧
      net.peerOf (finalHop t ns (.toMixnode d)) = some mx.peerId := by
  have hpub : mx.kxPublic = C.deriveKxPublic key := by
    have := congrArg (·[d]?) net.keyed
    simp only [List.getElem?_map, hmx, hkey, Option.map_some, Option.some.injEq] at this
    exact this
  constructor
  · show (t.mixnodes[d]?).map _ = _
    rw [hmix, hmx, ← hpub]; rfl
  · show (net.mixnodes[d]?).map _ = _
    rw [hmx]; rfl

/-- The end of the route of a packet to the node itself. -/
theorem to_self (hI : m.Inv C) {i : Nat} {s : Session} (hs : m.sessionAt i = some s) (ns : NetworkStatus) {net : Network C}
    (hmix : s.topology.mixnodes = net.mixnodes) :
    ∃ home, homeOf s.topology ns = some home ∧
      keyOf s.topology (finalHop s.topology ns .loop) = some (C.deriveKxPublic s.kxPair.secret) ∧
      net.peerOf (finalHop s.topology ns .loop) = some home := by
  obtain ⟨rel, -, hslot⟩ := Node.sessionAt_eq.1 hs
  have hi := hI.sessions rel s hslot
  have hloc : s.topology.localKxPublic = C.deriveKxPublic s.kxPair.secret := by rw [hi.isLocal, hi.pair]
  have hwf := hi.topology
  unfold homeOf finalHop localTarget
  dsimp only
  cases hl : s.topology.localNode with
  | mixnode j =>
    obtain ⟨mx, e1, e2⟩ := hwf.isLocal j hl
    refine ⟨mx.peerId, ?_, ?_, ?_⟩
    · show (s.topology.mixnodes[j]?).map _ = _
      rw [e1]; rfl
    · show (s.topology.mixnodes[j]?).map _ = _
      rw [e1, ← hloc, ← e2]; rfl
    · show (net.mixnodes[j]?).map _ = _
      rw [← hmix, e1]; rfl
  | nonMixnode gs => exact ⟨_, rfl, by rw [← hloc]; rfl, rfl⟩

/-- A cover packet that has arrived, and is looked at, does nothing. -/
theorem cover_ends {net : Network C} {final : PeerId} {p q : AddressedPacket} {targets : List Target} {keys : List KxSecret}
    {key : KxSecret} (hw : Way net final CoverFor p targets keys)
    (hl : keys.getLast? = some key) (hn : keys.length = targets.length + 1) (h : Relays C net targets.length p q)
    {config' : Config} {n : Node} (hr : Node.Reachable C config' n) (ht : Takes C net key n q.packet) (now : Nat) :
    n.step C (.handlePacket now q.packet) = .ok (n, .message none) := by
  obtain ⟨-, hlen, out, action, hpeel, rfl⟩ := passed_all hC hw hl hn h
  obtain ⟨rel, s, -, hacc, -⟩ := ht.accepts hC hlen hpeel
  exact cover_does_nothing hC hr hlen hacc

/-- **C83.** A packet returned by `pop_next_authored_packet` that was not in the queue of a session finds its way through
the network, by way of at most five mixnodes after the first, to a mixnode other than the local one, or back home; and
there it has no effect, whatever the state of the node that gets it. -/
theorem cover_arrives (hr : Node.Reachable C config m) (hk : config.numHops ≤ 6) {rng : Rng} {ns : NetworkStatus}
    {p : AddressedPacket} (hns : ns.localPeerId.length = PEER_ID_SIZE)
    (h : m.step C (.popNextAuthoredPacket rng ns) = .ok (m', .authoredPacket (some p))) :
    ∃ i s, m.sessionAt i = some s ∧
      ((∃ rest s', s.authoredPacketQueue.queue = p :: rest ∧ m'.sessionAt i = some s' ∧ s'.authoredPacketQueue.queue = rest) ∨
       (∀ j, m'.sessionAt j = m.sessionAt j) ∧ ∀ net : Network C, net.session = i → net.mixnodes = s.topology.mixnodes →
        ∃ hops final key, hops ≤ 5 ∧ FindsWay C net hops final p ∧
          ((∃ d mx, CoverDestination s.topology ns d ∧ net.mixnodes[d]? = some mx ∧ net.keys[d]? = some key ∧
              final = mx.peerId) ∨
           (homeOf s.topology ns = some final ∧ key = s.kxPair.secret)) ∧
          ∀ q, Relays C net hops p q → ∀ config' n now, Node.Reachable C config' n → Takes C net key n q.packet →
            n.step C (.handlePacket now q.packet) = .ok (n, .message none)) := by
  obtain ⟨hI, hcfg⟩ := hr.inv hC
  rcases authored_dispatch hC hr hns h with ⟨-, h, -⟩ | ⟨i, s, isLoop, hat, hd⟩
  · cases h
  refine ⟨i, s, hat, ?_⟩
  generalize hp : some p = po at hd
  cases hd with
  | queued x rest _ _ _ hq => cases hp; exact .inl ⟨rest, _, hq, by
      rw [Node.sessionAt_eq]
      obtain ⟨rel, h1, h2⟩ := Node.sessionAt_eq.1 hat
      refine ⟨rel, (by rw [withSession_eq h1]; exact h1), ?_⟩
      show ((withSession m i _).sessions).get rel = _
      rw [withSession_eq h1]
      exact get_set_self _ _ _, rfl⟩
  | cover _ _ hb _ =>
    obtain ⟨-, kind, route, ⟨g, r1, r2, hg, hgen⟩, hloop, hdrop, hfirst, old, r3, r4, delay, hold, hbuilt⟩ := hb p hp.symm
    refine .inr ⟨fun _ => rfl, fun net hi hmix => ?_⟩
    rw [hcfg] at hgen
    cases isLoop with
    | true =>
      cases hloop rfl
      obtain ⟨home, h1, h2, h3⟩ := to_self hC hI hat ns hmix.symm
      obtain ⟨keys, w1, w2, w3, w4⟩ := cover_way hC hI hat hns hk hmix.symm hg hgen (by intro d h; cases h) h2 h3 hfirst hold hbuilt
      exact ⟨_, home, _, by omega, finds_way hC w4 w1 w2, .inr ⟨h1, rfl⟩, fun q hq config' n now hn ht =>
        cover_ends hC w4 w1 w2 hq hn ht now⟩
    | false =>
      obtain ⟨d, rfl, hd⟩ := hdrop rfl
      obtain ⟨mx, key, e1, e2⟩ := listed (net := net) (by rw [hmix]; exact hd.1)
      obtain ⟨h2, h3⟩ := to_mixnode hC hmix.symm ns e1 e2
      obtain ⟨keys, w1, w2, w3, w4⟩ := cover_way hC hI hat hns hk hmix.symm hg hgen
        (by intro d' h; cases h; exact hd.1) h2 h3 hfirst hold hbuilt
      exact ⟨_, _, key, by omega, finds_way hC w4 w1 w2, .inl ⟨d, mx, hd, e1, e2, rfl⟩, fun q hq config' n now hn ht =>
        cover_ends hC w4 w1 w2 hq hn ht now⟩

/-- **C83.** A cover packet and the first packet of a request to a random mixnode, made of the same random numbers, take
the same route: they are sent to the same peer, and after every hop they are addressed to the same peer, until they
arrive at the same mixnode. So the routes of both kinds of packets are distributed equally. -/
theorem cover_like_request (hs : Sane config) (hr : Node.Reachable C config m) {rng : Rng} {ns : NetworkStatus}
    {net : Network C} {k : Nat} {p : Option AddressedPacket} {m1 m2 : Node} {s : Session} {d : Option MixnodeIndex}
    {mid : MessageId} {data : Scattered Byte} {l : Bytes} {n : Nat} {met : RequestMetrics}
    -- a packet is due, of the session of the network, and not for loop cover traffic; but nothing is waiting to be sent
    (hgen : config.genCoverPackets = true) (hat : m.sessionAt net.session = some s)
    (hmix : s.topology.mixnodes = net.mixnodes) (hempty : s.authoredPacketQueue.queue = [])
    (hdraw : sessionDrawn m rng = some (net.session, k)) (hloop : chance config.loopCoverProportion (rng k) = false)
    (hpop : m.step C (.popNextAuthoredPacket rng ns) = .ok (m1, .authoredPacket p))
    -- what if a request had been posted
    (hd : Denotes data l)
    (hw : (Call.postRequest (fun j => rng (j + (k + 1))) net.session none mid data n ns).WellTyped)
    (hpost : m.step C (.postRequest (fun j => rng (j + (k + 1))) net.session none mid data n ns) = .ok (m2, .posted d (.ok met))) :
    ∃ cover request rest s' mx hops, p = some cover ∧
      m2.sessionAt net.session = some s' ∧ s'.authoredPacketQueue.queue = request :: rest ∧
      (∃ dest, d = some dest ∧ net.mixnodes[dest]? = some mx) ∧ hops ≤ 5 ∧
      FindsWay C net hops mx.peerId cover ∧ FindsWay C net hops mx.peerId request ∧
      ∀ j ≤ hops, ∀ cover' request', Relays C net j cover cover' → Relays C net j request request' →
        cover'.peerId = request'.peerId := by
  obtain ⟨hI, hcfg⟩ := hr.inv hC
  obtain ⟨s0, dest, packets, hp, g, a, b, hg, -, huse, hchain⟩ := fresh_randomness hC hr hs.hops hw hd hpost
  have := hp.session
  rw [hat] at this
  cases this
  -- the first packet of the request
  cases packets with
  | nil => exact absurd rfl (sent_whole hw.2.1 (by simp) hp.fragments).1.1
  | cons q rest =>
  obtain ⟨c, ⟨c1, e1, -, hroute, -⟩, -⟩ := hchain
  have hdest := (huse rfl).2 _ (fun _ _ _ => rfl)
  have hroute := hroute.2 _ (fun _ _ _ => rfl)
  generalize hR : (fun j => rng (j + (k + 1)) : Rng) = R at *
  rw [show skip R 0 = R from rfl] at hdest
  -- the cover packet
  have hc := Node.step_cases hC hI (show (Call.popNextAuthoredPacket rng ns).WellTyped from hw.2.2.2) hpop
  generalize hcall : Call.popNextAuthoredPacket rng ns = call at hc
  generalize hout : Outcome.authoredPacket p = out at hc
  cases hc with
  | popAuthored rng' ns' m1' p' hc =>
    cases hcall
    cases hout
    have key : m.coverInstead C R ns s .drop = .ok p := by
      cases hc with
      | idle hid =>
        obtain ⟨rel, -, h'⟩ := Node.sessionAt_eq.1 hat
        exact absurd h' (hid rel s)
      | queued rel t rng1 rng2 p rest h1 h2 h3 h4 h5 =>
        obtain ⟨i, hi, hat'⟩ := sessionAt_of_slot hI h3
        obtain ⟨k', e1, e2, e3⟩ := (drawn hC hs hr rng).2 hi h1 h2
        rw [hdraw] at e1
        cases e1
        rw [hat] at hat'
        cases hat'
        rw [hempty] at h5
        cases h5
      | cover rel t rng1 isLoop rng2 p h1 h2 h3 h4 h5 =>
        obtain ⟨i, hi, hat'⟩ := sessionAt_of_slot hI h3
        obtain ⟨k', e1, e2, e3⟩ := (drawn hC hs hr rng).2 hi h1 h2
        rw [hdraw] at e1
        cases e1
        rw [hat] at hat'
        cases hat'
        rw [hcfg, hloop] at e2
        subst e2
        rw [e3, hR] at h5
        exact h5
    unfold Node.coverInstead at key
    rw [hcfg, hgen] at key
    simp only [Bool.not_true, Bool.false_eq_true, if_false] at key
    unfold genCoverPacket at key
    rw [hg, res_bind_ok] at key
    unfold coverRouteKind at key
    dsimp only at key
    rw [hdest, res_bind_ok] at key
    dsimp only at key
    rw [res_bind_ok] at key
    dsimp only at key
    rw [hroute, res_bind_ok] at key
    dsimp only at key
    have hq := hp.built q List.mem_cons_self
    obtain ⟨mxf, hmxf, hpeerf⟩ := hq.peer
    have hpf : s.topology.mixnodeIndexToPeerId q.route.first = .ok mxf.peerId := by
      unfold Topology.mixnodeIndexToPeerId
      rw [hmxf]
    rw [hpf] at key
    dsimp only at key
    rw [res_bind_eq_ok] at key
    obtain ⟨r, hr1, key⟩ := key
    rw [res_bind_eq_ok] at hr1
    obtain ⟨⟨cp, delay, r3⟩, hbuild, hr1⟩ := hr1
    cases hr1
    cases key
    obtain ⟨mx, sk, l1, l2⟩ := listed (net := net) (by rw [← hmix]; exact hp.destination.2.1)
    obtain ⟨f1, f2⟩ := to_mixnode hC hmix ns l1 l2
    obtain ⟨keys, w1, w2, w3, w4⟩ := cover_way hC hI hat hw.2.2.2 hs.hops hmix hg hroute
      (by intro d' h; cases h; exact hp.destination.2.1) f1 f2 (p := ⟨mxf.peerId, cp⟩) ⟨mxf, hmxf, rfl⟩ zeroPacket_length hbuild
    obtain ⟨keys', v1, v2, v3, v4⟩ := packet_way hC hI hat hw.2.2.2 (hcfg ▸ hs.hops) hp.destination.2.1 hmix l1 l2 hq
    refine ⟨_, q.packet, rest.map (·.packet), enqueue s ((q :: rest).map (·.packet)), mx, q.route.targets.length, rfl, ?_, ?_,
      ⟨dest, hp.destination.1, l1⟩, by omega, finds_way hC w4 w1 w2, finds_way hC v3 v1 v2, ?_⟩
    · rw [hp.after]
      obtain ⟨rel, h1, h2⟩ := Node.sessionAt_eq.1 hat
      refine Node.sessionAt_eq.2 ⟨rel, (by rw [withSession_eq h1]; exact h1), ?_⟩
      show ((withSession m net.session _).sessions).get rel = _
      rw [withSession_eq h1]
      exact get_set_self _ _ _
    · show s.authoredPacketQueue.queue ++ _ = _
      rw [hempty]; rfl
    · intro j hj c' q' h1 h2
      exact same_peers hC h1 h2 w4 v3 hpeerf.symm hj
  | _ => cases hcall

end Mixnet.Props

/-! ### A concrete case: Alice, with nothing to send -/
namespace Mixnet.World
open Mixnet.Spec Mixnet.Props

theorem idleOut_eq : ∃ p, idleOut = .authoredPacket (some p) ∧ p.packet = cover0 ∧ p.peerId = peer 7 := by
  have h : (match idleOut with
    | .authoredPacket (some p) => decide (p.packet = cover0) && decide (p.peerId = peer 7)
    | _ => false) = true := by
    decide +kernel
  generalize idleOut = o at *
  match o, h with
  | .authoredPacket (some p), h =>
    rw [Bool.and_eq_true] at h
    exact ⟨p, rfl, of_decide_eq_true h.1, of_decide_eq_true h.2⟩

/-- Alice's cover packet finds its way to Bob, where it does nothing. -/
example : ∃ p hops final key, idleOut = .authoredPacket (some p) ∧ FindsWay World.C net0 hops final p ∧
    ∀ q, Relays World.C net0 hops p q → ∀ config' n now, Node.Reachable World.C config' n → Takes World.C net0 key n q.packet →
      n.step World.C (.handlePacket now q.packet) = .ok (n, .message none) := by
  obtain ⟨p, hp, -⟩ := idleOut_eq
  have h := idle_step
  rw [hp] at h
  obtain ⟨i, s, hat, hc⟩ := cover_arrives toyLaws alice_reachable (by decide) idle_typed h
  have hi : i = 0 := by
    have := Node.sessionAt_eq.1 hat
    obtain ⟨rel, h1, -⟩ := this
    rw [show alice.sessionStatus.currentIndex = 0 by decide +kernel] at h1
    rcases fromSessionIndex_some.1 h1 with ⟨-, h⟩ | ⟨-, h⟩ <;> omega
  subst hi
  rcases hc with ⟨rest, s', hq, -⟩ | ⟨-, hc⟩
  · have : (alice.sessionAt 0).map (·.authoredPacketQueue.queue) = some [] := by decide +kernel
    rw [hat] at this
    rw [Option.map_some, hq] at this
    cases this
  · obtain ⟨hops, final, key, -, hf, -, hn⟩ := hc net0 rfl (alice_session s hat).symm
    exact ⟨p, hops, final, key, hp, hf, hn⟩

/-- A request made of the same random numbers as the cover packet. -/
def askSame : Call := .postRequest (fun j => 2 ^ 64 - 1 - (j + (0 + 1))) 0 none mid (Scattered.ofSlice [1, 2, 3]) 1 (ns 3)
theorem askSame_ok : (alice.step World.C askSame).isOk = true := by decide +kernel
def aliceSame : Node := ((alice.step World.C askSame).get askSame_ok).1
def sameOut : Outcome := ((alice.step World.C askSame).get askSame_ok).2
theorem askSame_step : alice.step World.C askSame = .ok (aliceSame, sameOut) := Res.eq_get2 _ askSame_ok
theorem sameOut_eq : ∃ met, sameOut = .posted (some 1) (.ok met) := by
  have h : (match sameOut with | .posted d (.ok _) => decide (d = some 1) | _ => false) = true := by decide +kernel
  generalize sameOut = o at *
  match o, h with
  | .posted d (.ok met), h => rw [of_decide_eq_true h]; exact ⟨met, rfl⟩
/-- Another packet, but to the same peer. -/
theorem same_first : (match idleOut, waiting aliceSame with
    | .authoredPacket (some p), [q] => decide (p.peerId = q.peerId) && decide (p.packet ≠ q.packet)
    | _, _ => false) = true := by decide +kernel

example : ∃ cover request hops, idleOut = .authoredPacket (some cover) ∧
    FindsWay World.C net0 hops (peer 5) cover ∧ FindsWay World.C net0 hops (peer 5) request ∧
      ∀ j ≤ hops, ∀ cover' request', Relays World.C net0 j cover cover' → Relays World.C net0 j request request' →
        cover'.peerId = request'.peerId := by
  obtain ⟨p, hp, -⟩ := idleOut_eq
  have h := idle_step
  rw [hp] at h
  obtain ⟨met, hm⟩ := sameOut_eq
  have h2 := askSame_step
  rw [hm] at h2
  cases hat : alice.sessionAt 0 with
  | none =>
    have : (alice.sessionAt 0).isSome = true := by decide +kernel
    rw [hat] at this; cases this
  | some s =>
  obtain ⟨cover, request, rest, s', mx, hops, h1, -, -, ⟨dest, hd1, hd2⟩, -, h3, h4, h5⟩ := cover_like_request (net := net0) (s := s) (k := 0) toyLaws
    world_sane alice_reachable (by decide) hat (alice_session s hat)
    (by
      have : (alice.sessionAt 0).map (·.authoredPacketQueue.queue) = some [] := by decide +kernel
      rw [hat] at this
      exact Option.some.inj this)
    (by decide +kernel) (by decide +kernel) h (Denotes.ofSlice _)
    ⟨(by intro i hi; cases hi), rfl, rfl, rfl⟩ h2
  cases h1
  cases hd1
  cases hd2
  exact ⟨p, request, hops, hp, h3, h4, h5⟩

end Mixnet.World
