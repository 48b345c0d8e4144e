import Verif.Proofs.Timely
import Verif.Props.Deadline
/-!
# C97: replies come within the estimated round-trip time
-/
namespace Mixnet.Props
open Mixnet Spec

variable {C : Crypto} {config : Config} {m m' : Node}

/-- How long relays hold a packet and a reply, together. -/
theorem held_within (F : F64Delays C) (hpos : ∀ seed, 0 ≤ F.value (C.expSample seed)) {mean : Nat}
    (hf : 100 * mean ≤ 2 ^ 49) {ds es : List C.Delay} (hd : ∀ d ∈ ds ++ es, ∃ sec, d = forwardingDelay C sec)
    (h1 : ds.length ≤ 5) (h2 : es.length ≤ 5) :
    (ds.map fun d => C.delayToDuration d mean).sum + (es.map fun d => C.delayToDuration d mean).sum ≤
      C.delayToDuration (C.delayAdd (totalDelay ds) (totalDelay es)) mean + (ds.length + es.length + 2) := by
  have hv : ∀ v ∈ ds.map F.value ++ es.map F.value, 0 ≤ v ∧ v ≤ 10 := by
    intro v hv
    rw [← List.map_append] at hv
    obtain ⟨d, hd', rfl⟩ := List.mem_map.1 hv
    obtain ⟨sec, rfl⟩ := hd d hd'
    exact ⟨exp_nonneg F hpos sec, exp_le_ten F sec⟩
  have key := Binary64.durations_le (fun v h => (hv v h).1) (fun v h => (hv v h).2) (by rw [List.length_map]; exact h1)
    (by rw [List.length_map]; exact h2) hf
  simp only [List.map_map, List.length_map] at key
  rw [F.duration, F.add]
  unfold totalDelay
  rw [value_foldl, value_foldl, F.zero]
  have e : ∀ l : List C.Delay, (l.map fun d => C.delayToDuration d mean) =
      l.map ((fun d => Binary64.mulDuration d mean) ∘ F.value) := fun l => by
    refine List.map_congr_left fun d _ => ?_
    rw [F.duration]; rfl
  rw [e, e]
  exact key

/-- **C97.** A request is posted at time `posted`. One of its packets waits `wait` to be sent and reaches the destination, where within
`handling` a reply is posted with some of the SURBs. A packet of the reply waits `wait'` to be sent and reaches the requester. If
each hop takes less than the configured `per_hop_net_delay`, and the two waits together no longer than the queue delay of the metrics,
then it gets there within the estimated round-trip time. -/
theorem reply_in_time (hC : CryptoLaws C) (F : F64Delays C) (hpos : ∀ seed, 0 ≤ F.value (C.expSample seed))
    (hr : Node.Reachable C config m) (hk : config.numHops ≤ 6) (hf : 100 * config.meanForwardingDelay ≤ 2 ^ 49) {rng : Rng} {net : Network C}
    {d d' : Option MixnodeIndex} {mid : MessageId} {data : Scattered Byte} {l : Bytes} {n : Nat} {ns : NetworkStatus}
    {met : RequestMetrics} (hw : (Call.postRequest rng net.session d mid data n ns).WellTyped) (hd : Denotes data l)
    (hnet : ∀ s, m.sessionAt net.session = some s → s.topology.mixnodes = net.mixnodes)
    (h : m.step C (.postRequest rng net.session d mid data n ns) = .ok (m', .posted d' (.ok met))) :
    ∃ s dest packets, PostedRequest C m net.session d mid l n ns m' d' met s dest packets ∧
      -- a packet of the request
      ∀ p ∈ packets, ∀ posted wait q arrival,
        ReachesBy C net config.meanForwardingDelay config.perHopNetDelay p.route.targets.length p.packet (posted + wait) q arrival →
      -- somebody in the same network posts a reply with some of the SURBs
      ∀ (xs : List (NewSurb C)), (∀ x ∈ xs, x ∈ packets.flatMap (·.surbs)) →
      ∀ config2 bob bob' rid rdata rl rest, Node.Reachable C config2 bob →
        (∀ sb, bob.sessionAt net.session = some sb → sb.topology.mixnodes = net.mixnodes) →
        (Call.postReply (xs.map (·.surb)) net.session rid rdata).WellTyped → Denotes rdata rl →
        bob.step C (.postReply (xs.map (·.surb)) net.session rid rdata) = .ok (bob', .replied rest (.ok ())) →
      -- packets made with the SURBs `used` are queued
      ∃ (sb : Session) (left used : List (NewSurb C)) (ps : List AddressedPacket), bob.sessionAt net.session = some sb ∧
        bob' = withSession bob net.session (enqueue sb ps) ∧ xs = left ++ used.reverse ∧ ps.length = used.length ∧
        ∀ y ∈ used.zip ps, ∀ replied wait' q' arrival' handling,
          ReachesBy C net config.meanForwardingDelay config.perHopNetDelay y.1.route.targets.length y.2 (replied + wait') q' arrival' →
          replied ≤ arrival + handling → wait + wait' ≤ met.authoredPacketQueueDelay →
          arrival' ≤ posted + met.estimateRtt handling := by
  obtain ⟨s, dest, packets, hp, hhop, -, hboth, -⟩ := metrics_cover hC hr hk hw hd h
  obtain ⟨hI, hcfg⟩ := hr.inv hC
  have hmix := hnet s hp.session
  obtain ⟨mx, key, hmx, hkey⟩ := listed (net := net) (by rw [← hmix]; exact hp.destination.2.1)
  refine ⟨s, dest, packets, hp, fun p hpm posted wait q arrival hreach xs hxs config2 bob bob' rid rdata rl rest hrb hmixb hwr hdr hpost => ?_⟩
  obtain ⟨sb, fs, used0, ps, hsb, -, -, hsent, hsplit, hbuilt, hafter⟩ := reply_posted hC hrb hwr hdr hpost
  obtain ⟨hul, hpl⟩ := hbuilt.lengths
  obtain ⟨xa, xb, hab, ha, hb⟩ := List.map_eq_append_iff.1 hsplit
  have hused : used0 = xb.reverse.map (·.surb) := by rw [List.map_reverse, hb, List.reverse_reverse]
  generalize hu : xb.reverse = used at hused
  have hmem : ∀ x ∈ used, x ∈ packets.flatMap (·.surbs) := by
    intro x hx
    rw [← hu, List.mem_reverse] at hx
    exact hxs x (by rw [hab]; exact List.mem_append_right _ hx)
  have huse : used.length = fs.length := by rw [← hul, hused, List.length_map]
  have hall := RepliesBuilt.split hbuilt hused
  refine ⟨sb, xa, used, ps, hsb, hafter, by rw [hab, ← hu, List.reverse_reverse], by omega, ?_⟩
  intro y hy replied wait' q' arrival' handling hreach' hrep hwait
  obtain ⟨j, hj, rfl⟩ := List.mem_iff_getElem.1 hy
  rw [List.getElem_zip] at hreach'
  rw [List.length_zip] at hj
  have hyb := List.Forall₂.get hall (i := j) (by omega) (by rw [List.length_zip]; omega)
  simp only [List.get_eq_getElem, List.getElem_zip] at hyb
  have hx := hmem _ (List.getElem_mem (l := used) (n := j) (by omega))
  dsimp only at hreach'
  generalize used[j] = x at *
  generalize ps[j] = rp at *
  obtain ⟨np, hnp, hxn⟩ := List.mem_flatMap.1 hx
  obtain ⟨keys, ds, a1, a2, a3, a4, a5⟩ := packet_delays hC hI hp.session hw.2.2.2 (hcfg ▸ hk) hp.destination.2.1 hmix hmx hkey
    (hp.built p hpm)
  obtain ⟨keys', es, home, b1, b2, b3, b4, b5⟩ := surb_delays hC hI hp.session hw.2.2.2 (hcfg ▸ hk) hp.destination.2.1 hmix
    ((hp.built np hnp).surbs x hxn) (hmixb sb hsb) hyb
  obtain ⟨due, jr, hlt⟩ := hreach
  obtain ⟨due', jr', hlt'⟩ := hreach'
  have t1 := journey_due hC jr a1 a2 a3 rfl
  have t2 := journey_due hC jr' b1 b2 b3 rfl
  obtain ⟨l1, g1⟩ := travels_delays hC a1 a3
  obtain ⟨l2, g2⟩ := travels_delays hC b1 b3
  have hheld := held_within F hpos hf (ds := ds) (es := es) (fun d hd => (List.mem_append.1 hd).elim (g1 d) (g2 d)) (by omega) (by omega)
  obtain ⟨hh, hfd⟩ := hboth p hpm x hx
  rw [a4, b4] at hfd
  have hlp : (hops p.route).length = p.route.targets.length + 1 := rfl
  have hlx : (hops x.route).length = x.route.targets.length + 1 := rfl
  have hnetd : (p.route.targets.length + 1 + (x.route.targets.length + 1)) * config.perHopNetDelay ≤ met.perHopNetDelay * met.numHops := by
    rw [hhop, Nat.mul_comm config.perHopNetDelay]
    exact Nat.mul_le_mul_right _ (by omega)
  unfold RequestMetrics.estimateRtt
  dsimp only
  rw [Nat.add_mul, Nat.add_mul, Nat.add_mul, Nat.one_mul] at hnetd
  omega

end Mixnet.Props

namespace Mixnet.World
open Spec Props

/-- The nodes and packets of a round trip. -/
structure Trip where
  alice : Node
  alice1 : Node
  askOut : Outcome
  packet0 : AddressedPacket
  carol : Node
  carol1 : Node
  relayOut : Outcome
  packet1 : ForwardPacket
  bob : Node
  bob1 : Node
  arriveOut : Outcome
  surbs : List Surb
  bob2 : Node
  answerOut : Outcome
  packet2 : AddressedPacket
  carol2 : Node
  relay2Out : Outcome
  packet3 : ForwardPacket

def startD (b : UInt8) : Res (Node × List Outcome) := do
  let n ← Node.new Cd (cfg b)
  let (n, o1) ← n.step Cd (.setSessionStatus ⟨0, .requestsToCurrent⟩)
  let (n, o2) ← n.step Cd (.maybeSetMixnodes .current (.ok mixes) rng)
  .ok (n, [o1, o2])

/-- Alice posts a request to Bob at time 0, and sends it by way of Carol after 1 s; Bob answers by way of Carol. -/
def tripRes : Res Trip := do
  let (alice, _) ← startD 3
  let (bob, _) ← startD 5
  let (carol, _) ← startD 7
  let (alice1, askOut) ← alice.step Cd ask
  let packet0 := (waiting alice1).headD ⟨[], []⟩
  let (carol1, relayOut) ← carol.step Cd (.handlePacket 1200000000 packet0.packet)
  let packet1 := carol1.forwardPacketQueue.queue.headD ⟨0, ⟨[], []⟩⟩
  let (bob1, arriveOut) ← bob.step Cd (.handlePacket 3600000000 packet1.packet.packet)
  let surbs := match arriveOut with
    | .message (some (.request r)) => r.surbs
    | _ => []
  let (bob2, answerOut) ← bob1.step Cd (.postReply surbs 0 (List.replicate 16 9) (Scattered.ofSlice [7, 8]))
  let packet2 := (waiting bob2).headD ⟨[], []⟩
  let (carol2, relay2Out) ← carol1.step Cd (.handlePacket 18800000000 packet2.packet)
  let packet3 := carol2.forwardPacketQueue.queue.headD ⟨0, ⟨[], []⟩⟩
  .ok ⟨alice, alice1, askOut, packet0, carol, carol1, relayOut, packet1, bob, bob1, arriveOut, surbs, bob2, answerOut, packet2, carol2,
    relay2Out, packet3⟩

/-- The node has session 0 of the network with this key, and has not seen the packet. -/
def takesD (key : KxSecret) (n : Node) (packet : Bytes) : Bool :=
  decide (n.sessionStatus.currentIndex = 0) &&
  match n.sessionAt 0 with
  | some s => decide (s.kxPair.secret = key) && decide (s.topology.mixnodes = mixes) &&
      !s.replayFilter.contains (s.tagFor Cd packet)
  | none => false

def netD : Network Cd where
  session := 0
  mixnodes := mixes
  keys := [sec 3, sec 5, sec 7]
  keyed := by decide +kernel
  peers := by decide +kernel

theorem takesD_iff {key n packet} (h : takesD key n packet = true) : Takes Cd netD key n packet := by
  unfold takesD at h
  rw [Bool.and_eq_true] at h
  obtain ⟨h1, h2⟩ := h
  refine ⟨?_, fun hne => absurd (of_decide_eq_true h1).symm hne⟩
  cases hs : n.sessionAt 0 with
  | none => rw [hs] at h2; cases h2
  | some s =>
    rw [hs] at h2
    simp only [Bool.and_eq_true, decide_eq_true_eq, Bool.not_eq_true'] at h2
    exact ⟨s, hs, h2.1.1, h2.1.2, h2.2⟩

/-- The node is mixnode 0 of the session, with nothing to send. -/
def freshD (n : Node) (j : Nat) : Bool :=
  decide (n.sessionStatus.currentIndex = 0) &&
  match n.sessionAt 0 with
  | some s => decide (s.topology.mixnodes = mixes) && decide (s.topology.localNode = .mixnode j) && s.authoredPacketQueue.queue.isEmpty
  | none => false

theorem freshD_iff {n : Node} {j : Nat} (h : freshD n j = true) : n.sessionStatus.currentIndex = 0 ∧ ∀ s, n.sessionAt 0 = some s →
    s.topology.mixnodes = mixes ∧ s.topology.localNode = .mixnode j ∧ s.authoredPacketQueue.queue = [] := by
  unfold freshD at h
  rw [Bool.and_eq_true] at h
  refine ⟨of_decide_eq_true h.1, fun s hs => ?_⟩
  have h2 := h.2
  rw [hs] at h2
  simp only [Bool.and_eq_true, decide_eq_true_eq, List.isEmpty_iff] at h2
  exact ⟨h2.1.1, h2.1.2, h2.2⟩

def postedD : Outcome → Option RequestMetrics
  | .posted (some 1) (.ok met) => some met
  | _ => none

theorem postedD_iff {o : Outcome} {met} (h : postedD o = some met) : o = .posted (some 1) (.ok met) := by
  unfold postedD at h
  split at h
  · cases h; rfl
  · cases h

def silentD : Outcome → Bool
  | .message none => true
  | _ => false

theorem silentD_iff {o : Outcome} (h : silentD o = true) : o = .message none := by
  unfold silentD at h
  split at h
  · rfl
  · cases h

def askedD : Outcome → Option RequestMessage
  | .message (some (.request r)) => some r
  | _ => none

theorem askedD_iff {o : Outcome} {r} (h : askedD o = some r) : o = .message (some (.request r)) := by
  unfold askedD at h
  split at h
  · cases h; rfl
  · cases h

def answeredD : Outcome → Option (List Surb)
  | .replied rest (.ok ()) => some rest
  | _ => none

theorem answeredD_iff {o : Outcome} {r} (h : answeredD o = some r) : o = .replied r (.ok ()) := by
  unfold answeredD at h
  split at h
  · cases h; rfl
  · cases h

def goodTrip (t : Trip) : Bool :=
  freshD t.alice 0 && freshD t.bob1 1 &&
  decide ((postedD t.askOut).map (fun met => met.estimateRtt 5000000) = some 35703912608) &&
  decide ((postedD t.askOut).map (·.authoredPacketQueueDelay) = some 22298912608) &&
  decide (waiting t.alice1 = [t.packet0] ∧ t.packet0.peerId = peer 7 ∧ t.carol.forwardPacketQueue.queue = [] ∧
    t.carol1.forwardPacketQueue.queue = [t.packet1] ∧ t.packet1.deadline = 3400000000 ∧
    waiting t.bob2 = [t.packet2] ∧ t.packet2.peerId = peer 7 ∧
    t.carol2.forwardPacketQueue.queue = t.packet3 :: t.carol1.forwardPacketQueue.queue ∧ t.packet3.deadline = 28800000000 ∧
    t.packet0.packet.length = 2252 ∧ t.packet1.packet.packet.length = 2252 ∧ t.packet2.packet.length = 2252 ∧
    (∀ x ∈ t.surbs, x.length = 222) ∧ storedOf t.bob mid = none) &&
  silentD t.relayOut && silentD t.relay2Out &&
  takesD (sec 7) t.carol t.packet0.packet && takesD (sec 5) t.bob t.packet1.packet.packet && takesD (sec 7) t.carol1 t.packet2.packet &&
  decide ((askedD t.arriveOut).map (·.surbs) = some t.surbs) && (answeredD t.answerOut).isSome

theorem trip_ok : (match tripRes with | .ok a => goodTrip a | .error _ => false) = true := by decide +kernel


theorem trip_good : ∃ t, tripRes = .ok t ∧ goodTrip t = true := by
  have h := trip_ok
  generalize tripRes = x at h
  cases x with
  | error e => cases h
  | ok t => exact ⟨t, rfl, h⟩

theorem samples_pos (seed : Bytes) : 0 ≤ Cd_delays.value (Cd.expSample seed) := by
  show (0 : Rat) ≤ ((seed.headD 0).toNat : Rat) / 10
  positivity

theorem two_hopsD : (cfg 3).numHops = 2 := rfl

attribute [local irreducible] Cd mixes cfg Node.step Node.new ask tripRes

theorem startD_reachable {b : UInt8} {n : Node} {os : List Outcome} (h : startD b = .ok (n, os)) : Node.Reachable Cd (cfg b) n := by
  unfold startD at h
  rw [res_bind_eq_ok] at h
  obtain ⟨n0, h0, h⟩ := h
  rw [res_bind_eq_ok] at h
  obtain ⟨⟨n1, o1⟩, h1, h⟩ := h
  rw [res_bind_eq_ok] at h
  obtain ⟨⟨n2, o2⟩, h2, h⟩ := h
  cases h
  exact ⟨n0, setup, [o1, o2], h0, setup_typed, .cons h1 (.cons h2 (.nil _))⟩

/-- The steps of the round trip. -/
theorem trip_steps {t : Trip} (h : tripRes = .ok t) : (∃ os, startD 3 = .ok (t.alice, os)) ∧ (∃ os, startD 5 = .ok (t.bob, os)) ∧
    (∃ os, startD 7 = .ok (t.carol, os)) ∧ t.alice.step Cd ask = .ok (t.alice1, t.askOut) ∧
    t.carol.step Cd (.handlePacket 1200000000 t.packet0.packet) = .ok (t.carol1, t.relayOut) ∧
    t.bob.step Cd (.handlePacket 3600000000 t.packet1.packet.packet) = .ok (t.bob1, t.arriveOut) ∧
    t.bob1.step Cd (.postReply t.surbs 0 (List.replicate 16 9) (Scattered.ofSlice [7, 8])) = .ok (t.bob2, t.answerOut) ∧
    t.carol1.step Cd (.handlePacket 18800000000 t.packet2.packet) = .ok (t.carol2, t.relay2Out) := by
  unfold tripRes at h
  rw [res_bind_eq_ok] at h
  obtain ⟨⟨alice, o1⟩, h1, h⟩ := h
  rw [res_bind_eq_ok] at h
  obtain ⟨⟨bob, o2⟩, h2, h⟩ := h
  rw [res_bind_eq_ok] at h
  obtain ⟨⟨carol, o3⟩, h3, h⟩ := h
  rw [res_bind_eq_ok] at h
  obtain ⟨⟨alice1, askOut⟩, h4, h⟩ := h
  rw [res_bind_eq_ok] at h
  obtain ⟨⟨carol1, relayOut⟩, h5, h⟩ := h
  rw [res_bind_eq_ok] at h
  obtain ⟨⟨bob1, arriveOut⟩, h6, h⟩ := h
  rw [res_bind_eq_ok] at h
  obtain ⟨⟨bob2, answerOut⟩, h7, h⟩ := h
  rw [res_bind_eq_ok] at h
  obtain ⟨⟨carol2, relay2Out⟩, h8, h⟩ := h
  cases h
  exact ⟨⟨_, h1⟩, ⟨_, h2⟩, ⟨_, h3⟩, h4, h5, h6, h7, h8⟩

/-- With two hops configured, a mixnode's routes to and from others have one mixnode on the way. -/
theorem route_of_two {m : Node} (hr : Node.Reachable Cd (cfg 3) m) {s : Session} (hs : m.sessionAt 0 = some s)
    (hl : s.topology.localNode = .mixnode 0) {dest : Nat} (hd : dest < s.topology.mixnodes.length) {kind : RouteKind} {route : Route}
    (hk : kind = .toMixnode dest ∨ kind = .fromMixnode dest)
    (hg : Generated s.topology (ns 3) kind m.config.numHops route) : route.targets.length = 1 := by
  obtain ⟨g, r, r', hg, hgen⟩ := hg
  obtain ⟨hI, hcfg⟩ := hr.inv Cd_laws
  have hn : m.config.numHops = 2 := by rw [hcfg]; exact two_hopsD
  have hd' : ∀ d, otherEnd kind = some d → d < s.topology.mixnodes.length := by
    rcases hk with rfl | rfl <;> intro d h <;> cases h <;> exact hd
  obtain ⟨⟨least, hle, hh⟩, -⟩ := route_shape (view_of_inv hI hs hg) (by rw [hn]; decide) hd' hgen
  have h1 : least = 1 := by rcases hk with rfl | rfl <;> exact hle.1 0 hl
  rw [hn, h1] at hh
  have : (hops route).length = route.targets.length + 1 := rfl
  omega

/-- All the hypotheses of `reply_in_time` are met. Alice posts a request at time 0. It waits 1 s, Carol holds it for 2.2 s and Bob
gets it at 3.6 s. Bob answers 5 ms later; the reply waits 15 s, and Carol holds it for 10 s. Alice gets it at 29 s, and the estimate was
35.7 s. -/
example : ∃ t met, tripRes = .ok t ∧ t.askOut = .posted (some 1) (.ok met) ∧ 29000000000 ≤ 0 + met.estimateRtt 5000000 ∧
    met.estimateRtt 5000000 = 35703912608 := by
  obtain ⟨t, ht, hgood⟩ := trip_good
  obtain ⟨⟨_, s1⟩, ⟨_, s2⟩, ⟨_, s3⟩, hask, hrelay, harrive, hanswer, hrelay2⟩ := trip_steps ht
  have ra := startD_reachable s1
  have rb := startD_reachable s2
  have rc := startD_reachable s3
  unfold goodTrip at hgood
  simp only [Bool.and_eq_true, decide_eq_true_eq] at hgood
  obtain ⟨⟨⟨⟨⟨⟨⟨⟨⟨⟨⟨f1, f2⟩, f3⟩, f4⟩, w1, w2, w3, w4, w5, w6, w7, w8, w9, w10, w11, w12, w13, w14⟩, q1⟩, q2⟩, k1⟩, k2⟩, k3⟩, a1⟩, a2⟩ := hgood
  obtain ⟨met, hm⟩ : ∃ met, postedD t.askOut = some met := by
    cases h : postedD t.askOut with
    | none => rw [h] at f3; cases f3
    | some met => exact ⟨met, rfl⟩
  have hout := postedD_iff hm
  rw [hm] at f3 f4
  have f3 := Option.some.inj f3
  have f4 := Option.some.inj f4
  dsimp only at f3 f4
  refine ⟨t, met, ht, hout, ?_, f3⟩
  rw [hout] at hask
  unfold ask at hask
  have hat := ask_typed
  unfold ask at hat
  obtain ⟨fa1, fa2⟩ := freshD_iff f1
  obtain ⟨fb1, fb2⟩ := freshD_iff f2
  obtain ⟨s, dest, packets, hp, h⟩ := reply_in_time (net := netD) Cd_laws Cd_delays samples_pos ra (by decide +kernel) (by decide +kernel) hat (Denotes.ofSlice _) (fun s hs => (fa2 s hs).1) hask
  obtain ⟨sm, sl, sq⟩ := fa2 s hp.session
  -- the packet of the request
  have hw : waiting t.alice1 = s.authoredPacketQueue.queue ++ packets.map (·.packet) := by
    rw [hp.after]
    unfold withSession
    rw [if_pos (show netD.session = t.alice.sessionStatus.currentIndex from fa1.symm)]
    rfl
  rw [w1, sq, List.nil_append, eq_comm, List.map_eq_singleton_iff] at hw
  obtain ⟨p, rfl, hpk⟩ := hw
  have hpb := hp.built p (by simp)
  have hlen := route_of_two ra hp.session sl hp.destination.2.1 (.inl rfl) hpb.route
  -- Carol relays it
  rw [silentD_iff q1] at hrelay
  rw [silentD_iff q2] at hrelay2
  have r1 : RelayAt Cd netD (cfg 3).meanForwardingDelay t.packet0 1200000000 t.packet1.packet 3400000000 := by
    refine ⟨cfg 7, t.carol, t.carol1, sec 7, by decide +kernel, rc, ⟨2, mix 7, by decide +kernel, w2.symm, rfl⟩, takesD_iff k1, hrelay, ?_⟩
    rw [w4, w3, ← w5]
  have r2 : RelayAt Cd netD (cfg 3).meanForwardingDelay t.packet2 18800000000 t.packet3.packet 28800000000 := by
    refine ⟨cfg 7, t.carol1, t.carol2, sec 7, by decide +kernel, rc.step Cd_laws (show Call.WellTyped (.handlePacket 1200000000 t.packet0.packet) from w10) hrelay, ⟨2, mix 7, by decide +kernel, w7.symm, rfl⟩,
      takesD_iff k3, hrelay2, ?_⟩
    rw [w8, ← w9]
  have j1 : Journey Cd netD (cfg 3).meanForwardingDelay (cfg 3).perHopNetDelay 1 t.packet0 (0 + 1000000000) t.packet1.packet 3400000000 :=
    .next (by decide +kernel) r1 (.here _ _)
  have j2 : Journey Cd netD (cfg 3).meanForwardingDelay (cfg 3).perHopNetDelay 1 t.packet2 (3605000000 + 15000000000) t.packet3.packet
      28800000000 :=
    .next (by decide +kernel) r2 (.here _ _)
  -- Bob gets it
  obtain ⟨r, hr⟩ : ∃ r, askedD t.arriveOut = some r := by
    cases h : askedD t.arriveOut with
    | none => rw [h] at a1; cases a1
    | some r => exact ⟨r, rfl⟩
  rw [hr] at a1
  have a1 := Option.some.inj a1
  have hstep := harrive
  rw [askedD_iff hr] at hstep
  obtain ⟨mx, key, -, hkey, -, harr⟩ := posted_arrives (net := netD) Cd_laws ra (by rw [two_hopsD]; decide) hat hp sm
  have hdest : dest = 1 := hp.destination.2.2.1 1 rfl
  subst hdest
  cases hkey
  obtain ⟨surbs, h1, h2, h3⟩ := harr [t.packet1.packet] (.cons (by rw [hlen, hpk]; exact j1.relays) .nil)
    [t.packet1.packet.packet] (List.Perm.refl _) (cfg 5) t.bob t.bob1 [some (.request r)] rb
    ⟨show 1 ≤ (cfg 5).maxFragmentsPerMessage by decide +kernel, .inl rfl⟩ w14 (.arrive (takesD_iff k2) hstep (.done _))
  have hsurbs : t.surbs = (List.flatMap (·.surbs) [p]).map (·.surb) := by
    have : r = ⟨netD.session, mid, [1, 2, 3], surbs⟩ := by simpa using h3
    rw [← a1, this, ← h2]
  -- Bob answers
  obtain ⟨rest, hans⟩ := Option.isSome_iff_exists.1 a2
  rw [answeredD_iff hans, hsurbs] at hanswer
  have htyped : (Call.postReply ((List.flatMap (·.surbs) [p]).map (·.surb)) netD.session (List.replicate 16 9)
      (Scattered.ofSlice [7, 8])).WellTyped := ⟨by rw [← hsurbs]; exact w13, rfl, rfl⟩
  obtain ⟨sb, left, used, ps, b1, b2, b3, b4, b5⟩ := h p (by simp) 0 1000000000 t.packet1.packet 3600000000
    ⟨3400000000, by rw [hlen, hpk]; exact j1, by decide +kernel⟩ _ (fun _ h => h) (cfg 5) t.bob1 t.bob2 _ _ _ rest
    (rb.step Cd_laws (show Call.WellTyped (.handlePacket 3600000000 t.packet1.packet.packet) from w11) harrive) (fun sb hsb => (fb2 sb hsb).1) htyped (Denotes.ofSlice _) hanswer
  have hw : waiting t.bob2 = sb.authoredPacketQueue.queue ++ ps := by
    rw [b2]
    unfold withSession
    rw [if_pos (show netD.session = t.bob1.sessionStatus.currentIndex from fb1.symm)]
    rfl
  rw [(fb2 sb b1).2.2, List.nil_append, w6] at hw
  subst hw
  obtain ⟨x, rfl⟩ := List.length_eq_one_iff.1 b4.symm
  have hx : x ∈ p.surbs := by
    have : x ∈ List.flatMap (·.surbs) [p] := by rw [b3]; simp
    simpa using this
  have hxl := route_of_two ra hp.session sl hp.destination.2.1 (.inr rfl) (hpb.surbs x hx).route
  exact b5 (x, t.packet2) (by simp) 3605000000 15000000000 t.packet3.packet 29000000000 5000000
    ⟨28800000000, by rw [hxl]; exact j2, by decide +kernel⟩ (by decide) (by rw [f4]; decide)

end Mixnet.World
