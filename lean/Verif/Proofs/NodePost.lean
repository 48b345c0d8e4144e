import Verif.Model.Api
import Verif.Proofs.SurbLength
import Verif.Proofs.Queues
import Verif.Proofs.GenRoute
import Verif.Proofs.Split
/-!
# What posting does
-/
namespace Mixnet

/-- A SURB made while posting. -/
structure SurbInfo (C : Crypto) where
  id : SurbId
  surb : Surb
  keys : List Bytes
  hops : Nat
  delay : C.Delay
  route : Route
  old : Bytes
  /-- the random number generator afterwards -/
  stop : Rng

/-- How a SURB is made. -/
def SurbMade (C : Crypto) (b : RequestBuilder) (numHops : Nat) (i : SurbInfo C) : Prop :=
  ∃ (rng rng1 rng2 : Rng),
    b.routeGenerator.genRoute rng (.fromMixnode b.destinationIndex) numHops = .ok (.ok (i.route, rng1)) ∧
    buildSurb C i.old rng1 i.route.first i.route.targets i.route.kxPublics i.id =
      .ok (i.surb, i.keys, i.delay, rng2) ∧
    i.hops = i.route.kxPublics.length ∧ i.id.length = SURB_ID_SIZE

/-- The SURB is made with the numbers from `rng` on. -/
def SurbInfo.Drawn {C : Crypto} (b : RequestBuilder) (numHops : Nat) (i : SurbInfo C) (rng : Rng) : Prop :=
  i.id = (rng.fillBytes SURB_ID_SIZE).1 ∧ ∃ rng2,
    b.routeGenerator.genRoute (rng.fillBytes SURB_ID_SIZE).2 (.fromMixnode b.destinationIndex) numHops =
      .ok (.ok (i.route, rng2)) ∧
    buildSurb C i.old rng2 i.route.first i.route.targets i.route.kxPublics i.id =
      .ok (i.surb, i.keys, i.delay, i.stop)

/-- SURBs made one after the other. -/
def SurbChain {C : Crypto} (b : RequestBuilder) (numHops : Nat) : Rng → List (SurbInfo C) → Rng → Prop
  | rng, [], rng' => rng = rng'
  | rng, i :: is, rng' => i.Drawn b numHops rng ∧ SurbChain b numHops i.stop is rng'

/-- A packet made while posting. -/
structure PacketInfo (C : Crypto) where
  packet : AddressedPacket
  fragment : Fragment
  surbs : List (SurbInfo C)
  hops : Nat
  delay : C.Delay
  route : Route
  /-- the random number generator afterwards -/
  stop : Rng

/-- The packet is made with the numbers from `rng` on. -/
def PacketInfo.Drawn {C : Crypto} (b : RequestBuilder) (numHops : Nat) (i : PacketInfo C) (rng : Rng) : Prop :=
  ∃ rng1 rng2, b.routeGenerator.genRoute rng (.toMixnode b.destinationIndex) numHops = .ok (.ok (i.route, rng1)) ∧
    SurbChain b numHops rng1 i.surbs rng2 ∧
    completeRequestPacket C (splice zeroPacket HEADER_SIZE i.fragment) rng2 i.route.targets i.route.kxPublics =
      .ok (i.packet.packet, i.delay, i.stop)

/-- Packets made one after the other. -/
def PacketChain {C : Crypto} (b : RequestBuilder) (numHops : Nat) : Rng → List (PacketInfo C) → Rng → Prop
  | rng, [], rng' => rng = rng'
  | rng, i :: is, rng' => i.Drawn b numHops rng ∧ PacketChain b numHops i.stop is rng'

/-- How a packet is made from a blueprint. -/
def PacketMade (C : Crypto) (b : RequestBuilder) (numHops : Nat) (bp : FragmentBlueprint) (i : PacketInfo C) :
    Prop :=
  ∃ (rng rng1 rng2 rng3 : Rng) (f0 : Fragment),
    b.routeGenerator.genRoute rng (.toMixnode b.destinationIndex) numHops = .ok (.ok (i.route, rng1)) ∧
    b.routeGenerator.topology.mixnodeIndexToPeerId i.route.first = .ok i.packet.peerId ∧
    bp.writeExceptSurbs (payloadData zeroPacket) = .ok f0 ∧
    i.fragment = writeSurbs f0 bp.surbOffsets (i.surbs.map (·.surb)) ∧
    i.surbs.length = bp.surbOffsets.length ∧ (∀ s ∈ i.surbs, SurbMade C b numHops s) ∧
    completeRequestPacket C (splice zeroPacket HEADER_SIZE i.fragment) rng2 i.route.targets
      i.route.kxPublics = .ok (i.packet.packet, i.delay, rng3) ∧
    i.hops = i.route.kxPublics.length ∧
    (CryptoLaws C → f0.length = FRAGMENT_SIZE → ∀ s ∈ i.surbs, s.old.length = SURB_SIZE)

/-- The keystore entries of SURBs. -/
def SurbInfo.entry {C : Crypto} (i : SurbInfo C) : SurbId × List Bytes := (i.id, i.keys)

theorem surbOffsets_fit (bp : FragmentBlueprint) : ∀ off ∈ bp.surbOffsets, off + SURB_SIZE ≤ FRAGMENT_SIZE := by
  intro off h
  unfold FragmentBlueprint.surbOffsets at h
  obtain ⟨i, hi, rfl⟩ := List.mem_map.1 (List.mem_of_mem_take h)
  have hi := List.mem_range.1 hi
  csimp at hi ⊢
  omega

theorem writeSurbsLoop_ok {C : Crypto} {b : RequestBuilder} {mid : MessageId} {numHops : Nat} :
    ∀ {offs : List Nat} {f : Fragment} {acc acc' : SurbAcc C} {r : Except TopologyErr Fragment},
      writeSurbsLoop C b mid numHops offs f acc = .ok (acc', r) →
    ∃ infos : List (SurbInfo C), (∀ i ∈ infos, SurbMade C b numHops i) ∧
      (CryptoLaws C → f.length = FRAGMENT_SIZE → (∀ off ∈ offs, off + SURB_SIZE ≤ FRAGMENT_SIZE) →
        ∀ i ∈ infos, i.old.length = SURB_SIZE) ∧
      (∀ f', r = .ok f' → infos.length = offs.length ∧ f' = writeSurbs f offs (infos.map (·.surb)) ∧
        SurbKeystore.Creates mid acc.keystore (infos.map (·.entry)) acc'.keystore ∧
        acc'.replyHops = infos.foldl (fun h i => max h i.hops) acc.replyHops ∧
        acc'.replyDelay = infos.foldl (fun d i => delayMax C d i.delay) acc.replyDelay ∧
        SurbChain b numHops acc.rng infos acc'.rng) ∧
      (∀ e, r = .error e → ∃ id, SurbKeystore.Creates mid acc.keystore (infos.map (·.entry) ++ [(id, [])]) acc'.keystore ∧
        (infos = [] → ∃ rng, b.routeGenerator.genRoute rng (.fromMixnode b.destinationIndex) numHops = .ok (.error e)) ∧
        ∃ rng, b.routeGenerator.genRoute rng (.fromMixnode b.destinationIndex) numHops = .ok (.error e))
  | [], f, acc, acc', r, h => by
    simp only [writeSurbsLoop, Except.ok.injEq, Prod.mk.injEq] at h
    obtain ⟨rfl, rfl⟩ := h
    refine ⟨[], by simp, by simp, ?_, ?_⟩
    · intro f' hf
      cases hf
      exact ⟨rfl, rfl, .nil _, rfl, rfl, rfl⟩
    · intro e he; cases he
  | off :: offs, f, acc, acc', r, h => by
    unfold writeSurbsLoop at h
    rw [res_bind_eq_ok] at h
    obtain ⟨⟨ks, id, rng1⟩, h1, h⟩ := h
    obtain ⟨hlen, hid, rfl, hid', hrng⟩ := SurbKeystore.insert_ok h1
    have hidl : id.length = SURB_ID_SIZE := by rw [hid']; exact fillBytes_length ..
    dsimp only at h
    rw [res_bind_eq_ok] at h
    obtain ⟨sb, h2, h⟩ := h
    unfold RequestBuilder.buildSurb at h2
    rw [res_bind_eq_ok] at h2
    obtain ⟨rt, h3, h2⟩ := h2
    cases rt with
    | error e =>
      simp only [Except.ok.injEq] at h2
      subst h2
      simp only [Except.ok.injEq, Prod.mk.injEq] at h
      obtain ⟨rfl, rfl⟩ := h
      refine ⟨[], by simp, by simp, fun f' hf => (by cases hf), ?_⟩
      intro e' he
      cases he
      exact ⟨id, .cons hid hidl (.nil _), fun _ => ⟨_, h3⟩, ⟨_, h3⟩⟩
    | ok p =>
      obtain ⟨route, rng2⟩ := p
      dsimp only at h2
      rw [res_bind_eq_ok] at h2
      obtain ⟨⟨surb, keys, delay, rng3⟩, h4, h2⟩ := h2
      simp only [Except.ok.injEq] at h2
      subst h2
      dsimp only at h
      obtain ⟨infos, hm, hold, hok, herr⟩ := writeSurbsLoop_ok h
      have hmade : SurbMade C b numHops
          ⟨id, surb, keys, route.kxPublics.length, delay, route, slice f off SURB_SIZE, rng3⟩ :=
        ⟨_, _, _, h3, h4, rfl, hidl⟩
      refine ⟨⟨id, surb, keys, route.kxPublics.length, delay, route, slice f off SURB_SIZE, rng3⟩ :: infos, ?_, ?_, ?_, ?_⟩
      · intro i hi
        rcases List.mem_cons.1 hi with rfl | hi
        · exact hmade
        · exact hm i hi
      · intro hC hf hoffs i hi
        have ho := hoffs off List.mem_cons_self
        have hsl : (slice f off SURB_SIZE).length = SURB_SIZE := by
          rw [slice, List.length_take, List.length_drop]; omega
        rcases List.mem_cons.1 hi with rfl | hi
        · exact hsl
        · refine hold hC ?_ (fun o h => hoffs o (List.mem_cons_of_mem _ h)) i hi
          have := buildSurb_length hC hsl h4
          simp only [splice, List.length_append, List.length_take, List.length_drop, this]
          omega
      · intro f' hf
        obtain ⟨a1, a2, a3, a4, a5, a6⟩ := hok f' hf
        refine ⟨by simp [a1], a2, ?_, a4, a5, ⟨hid', rng2, by rw [← hrng]; exact h3, h4⟩, a6⟩
        rw [SurbKeystore.setKeys_created hid] at a3
        exact .cons hid hidl a3
      · intro e he
        obtain ⟨id', a1, -, a2⟩ := herr e he
        rw [SurbKeystore.setKeys_created hid] at a1
        exact ⟨id', .cons hid hidl a1, fun h => (by cases h), a2⟩

/-- The two ways in which a packet cannot be made, or how it is made. -/
theorem buildPacket_ok {C : Crypto} {b : RequestBuilder} {mid : MessageId} {numHops : Nat}
    {bp : FragmentBlueprint} {acc acc' : SurbAcc C} {r : Except TopologyErr (AddressedPacket × RouteMetrics C)}
    (h : b.buildPacket C mid numHops bp acc = .ok (acc', r)) :
    (∀ p met, r = .ok (p, met) → ∃ info : PacketInfo C, PacketMade C b numHops bp info ∧ info.packet = p ∧
      info.hops = met.numHops ∧ info.delay = met.forwardingDelay ∧
      SurbKeystore.Creates mid acc.keystore (info.surbs.map (·.entry)) acc'.keystore ∧
      acc'.replyHops = info.surbs.foldl (fun h i => max h i.hops) acc.replyHops ∧
      acc'.replyDelay = info.surbs.foldl (fun d i => delayMax C d i.delay) acc.replyDelay ∧
      info.Drawn b numHops acc.rng ∧ acc'.rng = info.stop) ∧
    (∀ e, r = .error e →
      (∃ (made : List (SurbInfo C)) (tail : List (SurbId × List Bytes)), (∀ x ∈ made, SurbMade C b numHops x) ∧
        (tail = [] ∨ ∃ id, tail = [(id, [])]) ∧
        ((made = [] ∧ tail = []) ∨
          ∃ rng x, b.routeGenerator.genRoute rng (.toMixnode b.destinationIndex) numHops = .ok (.ok x)) ∧
        SurbKeystore.Creates mid acc.keystore (made.map (·.entry) ++ tail) acc'.keystore) ∧
      ((∃ rng, b.routeGenerator.genRoute rng (.toMixnode b.destinationIndex) numHops = .ok (.error e)) ∨
       (∃ rng rng' route, b.routeGenerator.genRoute rng (.toMixnode b.destinationIndex) numHops =
          .ok (.ok (route, rng')) ∧ b.routeGenerator.topology.mixnodeIndexToPeerId route.first = .error e) ∨
       (bp.surbOffsets ≠ [] ∧
        (∃ rng x, b.routeGenerator.genRoute rng (.toMixnode b.destinationIndex) numHops = .ok (.ok x)) ∧
        ∃ rng, b.routeGenerator.genRoute rng (.fromMixnode b.destinationIndex) numHops = .ok (.error e)))) := by
  unfold RequestBuilder.buildPacket at h
  rw [res_bind_eq_ok] at h
  obtain ⟨rt, h1, h⟩ := h
  cases rt with
  | error e =>
    simp only [Except.ok.injEq, Prod.mk.injEq] at h
    obtain ⟨rfl, rfl⟩ := h
    refine ⟨fun p met hp => (by cases hp), fun e' he => ?_⟩
    cases he
    exact ⟨⟨[], [], by simp, .inl rfl, .inl ⟨rfl, rfl⟩, .nil _⟩, .inl ⟨_, h1⟩⟩
  | ok p =>
    obtain ⟨route, rng1⟩ := p
    dsimp only at h
    obtain ⟨q, hq⟩ : ∃ q, b.routeGenerator.topology.mixnodeIndexToPeerId route.first = q := ⟨_, rfl⟩
    rw [hq] at h
    cases q with
    | error e =>
      simp only [Except.ok.injEq, Prod.mk.injEq] at h
      obtain ⟨rfl, rfl⟩ := h
      refine ⟨fun p met hp => (by cases hp), fun e' he => ?_⟩
      cases he
      exact ⟨⟨[], [], by simp, .inl rfl, .inl ⟨rfl, rfl⟩, .nil _⟩, .inr (.inl ⟨_, _, _, h1, hq⟩)⟩
    | ok peer =>
      dsimp only at h
      rw [res_bind_eq_ok] at h
      obtain ⟨f0, h2, h⟩ := h
      rw [res_bind_eq_ok] at h
      obtain ⟨⟨acc1, r1⟩, h3, h⟩ := h
      obtain ⟨infos, hm, hold, hok, herr⟩ := writeSurbsLoop_ok h3
      cases r1 with
      | error e =>
        simp only [Except.ok.injEq, Prod.mk.injEq] at h
        obtain ⟨rfl, rfl⟩ := h
        refine ⟨fun p met hp => (by cases hp), fun e' he => ?_⟩
        cases he
        obtain ⟨id, a1, -, a2⟩ := herr _ rfl
        refine ⟨⟨infos, [(id, [])], hm, .inr ⟨id, rfl⟩, .inr ⟨_, _, h1⟩, a1⟩, .inr (.inr ⟨?_, ⟨_, _, h1⟩, a2⟩)⟩
        intro hnil
        rw [hnil] at h3
        simp [writeSurbsLoop] at h3
      | ok f =>
        dsimp only at h
        rw [res_bind_eq_ok] at h
        obtain ⟨⟨pkt, delay, rng3⟩, h4, h⟩ := h
        simp only [Except.ok.injEq, Prod.mk.injEq] at h
        obtain ⟨rfl, rfl⟩ := h
        refine ⟨fun p met hp => ?_, fun e' he => (by cases he)⟩
        simp only [Except.ok.injEq, Prod.mk.injEq] at hp
        obtain ⟨rfl, rfl⟩ := hp
        obtain ⟨a1, a2, a3, a4, a5, a6⟩ := hok f rfl
        subst a2
        exact ⟨⟨⟨peer, pkt⟩, _, infos, route.kxPublics.length, delay, route, rng3⟩,
          ⟨_, _, _, _, f0, h1, hq, h2, rfl, a1, hm, h4, rfl, fun hC hl => hold hC hl (surbOffsets_fit bp)⟩,
          rfl, rfl, rfl, a3, a4, a5, ⟨_, _, h1, a6, h4⟩, rfl⟩

/-- What the loop of `post_request` has done when it ends. -/
structure PostDone (C : Crypto) (b : RequestBuilder) (mid : MessageId) (numHops : Nat)
    (bps : List FragmentBlueprint) (acc acc' : Node.PostAcc C) (infos : List (PacketInfo C)) : Prop where
  made : List.Forall₂ (PacketMade C b numHops) bps infos
  queue : acc'.queue = { acc.queue with queue := acc.queue.queue ++ infos.map (·.packet) }
  fits : infos ≠ [] → acc'.queue.queue.length ≤ acc'.queue.config.capacity
  keystore : SurbKeystore.Creates mid acc.surbs.keystore
    ((infos.flatMap (·.surbs)).map (·.entry)) acc'.surbs.keystore
  hops : acc'.requestHops = infos.foldl (fun h i => max h i.hops) acc.requestHops
  delay : acc'.requestDelay = infos.foldl (fun d i => delayMax C d i.delay) acc.requestDelay
  replyHops : acc'.surbs.replyHops = (infos.flatMap (·.surbs)).foldl (fun h i => max h i.hops) acc.surbs.replyHops
  replyDelay : acc'.surbs.replyDelay =
    (infos.flatMap (·.surbs)).foldl (fun d i => delayMax C d i.delay) acc.surbs.replyDelay
  drawn : PacketChain b numHops acc.surbs.rng infos acc'.surbs.rng

/-- Why and where the loop of `post_request` stopped. -/
structure PostFailed (C : Crypto) (b : RequestBuilder) (mid : MessageId) (numHops : Nat)
    (bps : List FragmentBlueprint) (acc acc' : Node.PostAcc C) (e : TopologyErr) : Prop where
  config : acc'.queue.config = acc.queue.config
  keystore : ∃ (made : List (SurbInfo C)) (tail : List (SurbId × List Bytes)), (∀ x ∈ made, SurbMade C b numHops x) ∧
    (tail = [] ∨ ∃ id, tail = [(id, [])]) ∧
    ((made = [] ∧ tail = []) ∨
      ∃ rng x, b.routeGenerator.genRoute rng (.toMixnode b.destinationIndex) numHops = .ok (.ok x)) ∧
    SurbKeystore.Creates mid acc.surbs.keystore (made.map (·.entry) ++ tail) acc'.surbs.keystore
  stopped : ∃ (done rest : List FragmentBlueprint) (bp : FragmentBlueprint) (infos : List (PacketInfo C)),
    bps = done ++ bp :: rest ∧ List.Forall₂ (PacketMade C b numHops) done infos ∧
    acc'.queue.queue = acc.queue.queue ++ infos.map (·.packet) ∧
    (infos ≠ [] → acc'.queue.queue.length ≤ acc'.queue.config.capacity) ∧
    ((∃ rng, b.routeGenerator.genRoute rng (.toMixnode b.destinationIndex) numHops = .ok (.error e)) ∨
       (∃ rng rng' route, b.routeGenerator.genRoute rng (.toMixnode b.destinationIndex) numHops =
          .ok (.ok (route, rng')) ∧ b.routeGenerator.topology.mixnodeIndexToPeerId route.first = .error e) ∨
       (bp.surbOffsets ≠ [] ∧
        (∃ rng x, b.routeGenerator.genRoute rng (.toMixnode b.destinationIndex) numHops = .ok (.ok x)) ∧
        ∃ rng, b.routeGenerator.genRoute rng (.fromMixnode b.destinationIndex) numHops = .ok (.error e)))

theorem postLoop_ok {C : Crypto} {b : RequestBuilder} {mid : MessageId} {numHops : Nat} :
    ∀ {bps : List FragmentBlueprint} {acc acc' : Node.PostAcc C} {r : Except TopologyErr Unit},
      Node.postLoop C b mid numHops bps acc = .ok (acc', r) →
    (r = .ok () → ∃ infos, PostDone C b mid numHops bps acc acc' infos) ∧
    (∀ e, r = .error e → PostFailed C b mid numHops bps acc acc' e)
  | [], acc, acc', r, h => by
    simp only [Node.postLoop, Except.ok.injEq, Prod.mk.injEq] at h
    obtain ⟨rfl, rfl⟩ := h
    refine ⟨fun _ => ⟨[], .nil, ?_, by simp, .nil _, rfl, rfl, rfl, rfl, rfl⟩, fun e he => (by cases he)⟩
    simp
  | bp :: bps, acc, acc', r, h => by
    unfold Node.postLoop at h
    rw [res_bind_eq_ok] at h
    obtain ⟨⟨s1, r1⟩, h1, h⟩ := h
    obtain ⟨hok, herr⟩ := buildPacket_ok h1
    cases r1 with
    | error e =>
      simp only [Except.ok.injEq, Prod.mk.injEq] at h
      obtain ⟨rfl, rfl⟩ := h
      refine ⟨fun h => (by cases h), fun e' he => ?_⟩
      cases he
      obtain ⟨a1, a2⟩ := herr _ rfl
      exact ⟨rfl, a1, [], bps, bp, [], rfl, .nil, by simp, by simp, a2⟩
    | ok p =>
      obtain ⟨packet, met⟩ := p
      dsimp only at h
      rw [res_bind_eq_ok] at h
      obtain ⟨q1, h2, h⟩ := h
      obtain ⟨hfit, rfl⟩ := AuthoredPacketQueue.push_ok h2
      obtain ⟨info, b1, rfl, b3, b4, b5, b6, b7, b8, b9⟩ := hok _ _ rfl
      obtain ⟨hok', herr'⟩ := postLoop_ok h
      refine ⟨fun hr => ?_, fun e he => ?_⟩
      · obtain ⟨infos, d⟩ := hok' hr
        refine ⟨info :: infos, .cons b1 d.made, ?_, ?_, ?_, ?_, ?_, ?_, ?_, b8, by rw [← b9]; exact d.drawn⟩
        · rw [d.queue]; simp
        · intro _
          by_cases hi : infos = []
          · subst hi
            rw [d.queue]
            simp only [List.map_nil, List.append_nil, List.length_append, List.length_singleton]
            omega
          · exact d.fits hi
        · rw [List.flatMap_cons, List.map_append]
          exact b5.append d.keystore
        · rw [d.hops, List.foldl_cons, b3]
        · rw [d.delay, List.foldl_cons, b4]
        · rw [d.replyHops, List.flatMap_cons, List.foldl_append, ← b6]
        · rw [d.replyDelay, List.flatMap_cons, List.foldl_append, ← b7]
      · obtain ⟨f1, ⟨made, tail, f2, f3, -, f4⟩, done, rest, bp', infos, g1, g2, g3, g4, g5⟩ := herr' e he
        refine ⟨f1, ⟨info.surbs ++ made, tail, ?_, f3, .inr (by obtain ⟨_, _, _, _, _, e1, -⟩ := b1; exact ⟨_, _, e1⟩), by rw [List.map_append, List.append_assoc]; exact b5.append f4⟩, bp :: done, rest, bp', info :: infos, by rw [g1]; rfl, .cons b1 g2, ?_, ?_, g5⟩
        · intro x hx
          rcases List.mem_append.1 hx with hx | hx
          · obtain ⟨_, _, _, _, _, -, -, -, -, -, e6, -⟩ := b1; exact e6 x hx
          · exact f2 x hx
        · rw [g3]; simp
        · intro _
          by_cases hi : infos = []
          · subst hi
            rw [g3, f1]
            simp only [List.map_nil, List.append_nil, List.length_append, List.length_singleton]
            omega
          · exact g4 hi


theorem routeLoop_dest {g : RouteGenerator} {d N : Nat} {first pen : Option Nat} :
    ∀ {n i : Nat} {rng : Rng} {used : UsedIndices} {fi : Option Nat} {ts : List Target} {kxs : List KxPublic} {x},
      g.routeLoop (.toMixnode d) N first pen (n + 1) i rng used fi ts kxs = .ok (.ok x) →
      i + (n + 1) = N → (first.isSome → 2 ≤ N) → d < g.topology.mixnodes.length := by
  intro n
  induction n with
  | zero =>
    intro i rng used fi ts kxs x h hi hfirst
    unfold RouteGenerator.routeLoop at h
    rw [res_bind_eq_ok] at h
    obtain ⟨r, h1, h⟩ := h
    have hr : r = .ok (some d, used, rng) := by
      unfold RouteGenerator.hopIndex at h1
      have h1N : N - i = 1 := by omega
      rw [h1N] at h1
      cases first with
      | none =>
        cases i <;> cases pen <;> simpa [eq_comm] using h1
      | some f =>
        have := hfirst rfl
        cases i with
        | zero => omega
        | succ i => cases pen <;> simpa [eq_comm] using h1
    subst hr
    dsimp only at h
    rw [res_bind_eq_ok] at h
    obtain ⟨kx, h2, -⟩ := h
    unfold RouteGenerator.hopKxPublic at h2
    dsimp only at h2
    rw [res_bind_eq_ok] at h2
    obtain ⟨mx, h3, -⟩ := h2
    unfold Topology.getMixnode at h3
    by_cases hd : d < g.topology.mixnodes.length
    · exact hd
    · rw [List.getElem?_eq_none (by omega)] at h3; cases h3
  | succ n ih =>
    intro i rng used fi ts kxs x h hi hfirst
    unfold RouteGenerator.routeLoop at h
    rw [res_bind_eq_ok] at h
    obtain ⟨r, h1, h⟩ := h
    cases r with
    | error e => cases h
    | ok p =>
      obtain ⟨idx, used', rng'⟩ := p
      dsimp only at h
      rw [res_bind_eq_ok] at h
      obtain ⟨kx, -, h⟩ := h
      rw [res_bind_eq_ok] at h
      obtain ⟨_, -, h⟩ := h
      split at h
      · rw [res_bind_eq_ok] at h
        obtain ⟨_, -, h⟩ := h
        exact ih h (by omega) hfirst
      · rw [res_bind_eq_ok] at h
        obtain ⟨_, -, h⟩ := h
        exact ih h (by omega) hfirst

/-- A route to a destination that does not exist is never generated. -/
theorem genRoute_dest {g : RouteGenerator} {rng rng' : Rng} {d k : Nat} {route : Route}
    (h : g.genRoute rng (.toMixnode d) k = .ok (.ok (route, rng'))) : d < g.topology.mixnodes.length := by
  unfold RouteGenerator.genRoute at h
  rw [res_bind_eq_ok] at h
  obtain ⟨⟨used, fl, tl⟩, -, h⟩ := h
  dsimp only at h
  obtain ⟨U, K, hK, hall⟩ : ∃ (U : Res UsedIndices) (K : UsedIndices → Res (Except TopologyErr (Route × Rng))),
      (U >>= K) = .ok (.ok (route, rng')) ∧ K = fun used => (do
        match ← g.chooseSpecial rng used fl with
        | .error e => .ok (.error e)
        | .ok (first, used, rng) => do
          match ← g.chooseSpecial rng used tl with
          | .error e => .ok (.error e)
          | .ok (penultimate, used, rng) => do
            let numHops := max k (RouteGenerator.minHops first penultimate)
            match ← g.routeLoop (.toMixnode d) numHops first penultimate numHops 0 rng used none [] [] with
            | .error e => .ok (.error e)
            | .ok (firstIndex, targets, kxs, rng) => do
              let first ← expectSome "At least one hop" firstIndex
              .ok (.ok (⟨first, targets, kxs⟩, rng))) := by
    cases hl : g.topology.localNode with
    | mixnode i =>
      rw [hl] at h
      exact ⟨_, _, h, rfl⟩
    | nonMixnode gs =>
      rw [hl] at h
      exact ⟨.ok used, _, h, rfl⟩
  clear h
  have h := hK
  rw [res_bind_eq_ok] at h
  obtain ⟨used1, -, h⟩ := h
  rw [hall] at h
  dsimp only at h
  rw [res_bind_eq_ok] at h
  obtain ⟨r, -, h⟩ := h
  cases r with
  | error e => cases h
  | ok p =>
    obtain ⟨first, used2, rng2⟩ := p
    dsimp only at h
    rw [res_bind_eq_ok] at h
    obtain ⟨r, -, h⟩ := h
    cases r with
    | error e => cases h
    | ok p =>
      obtain ⟨pen, used3, rng3⟩ := p
      dsimp only at h
      rw [res_bind_eq_ok] at h
      obtain ⟨r, h1, h⟩ := h
      cases r with
      | error e => cases h
      | ok q =>
        obtain ⟨N, hN⟩ : ∃ N, N = max k (RouteGenerator.minHops first pen) := ⟨_, rfl⟩
        rw [← hN] at h1
        have hmin : 1 ≤ RouteGenerator.minHops first pen ∧ (first.isSome → 2 ≤ RouteGenerator.minHops first pen) := by
          unfold RouteGenerator.minHops
          refine ⟨by omega, ?_⟩
          intro hf; rw [hf]; simp only [Bool.toNat_true]; omega
        obtain ⟨n, rfl⟩ : ∃ n, N = n + 1 := ⟨N - 1, by omega⟩
        refine routeLoop_dest h1 (by omega) ?_
        intro hf
        have := hmin.2 hf
        omega

theorem le_sum_of_mem {l : List Nat} {x : Nat} (h : x ∈ l) : x ≤ l.sum := by
  induction l with
  | nil => cases h
  | cons y l ih =>
    rw [List.sum_cons]
    rcases List.mem_cons.1 h with rfl | h
    · omega
    · have := ih h; omega

theorem surbOffsets_length (bp : FragmentBlueprint) : bp.surbOffsets.length = min bp.numSurbs 9 := by
  unfold FragmentBlueprint.surbOffsets
  rw [List.length_take, List.length_map, List.length_range,
    show FRAGMENT_PAYLOAD_SIZE / SURB_SIZE = 9 from by decide]

theorem blueprints_head {id : MessageId} {data : Scattered Byte} {n : Nat} {bp : FragmentBlueprint}
    {bps : List FragmentBlueprint} (hw : data.WF)
    (h : fragmentBlueprints id data n = .ok (some (bp :: bps))) :
    bp.numSurbs = min n 9 := by
  unfold fragmentBlueprints at h
  rw [res_bind_eq_ok] at h
  obtain ⟨k, -, h⟩ := h
  dsimp only at h
  split at h
  · rw [res_bind_eq_ok] at h
    obtain ⟨bs, h1, h⟩ := h
    simp only [Except.ok.injEq, Option.some.injEq] at h
    subst h
    cases k with
    | zero => simp [blueprintsLoop] at h1
    | succ k =>
      unfold blueprintsLoop at h1
      dsimp only at h1
      rw [res_bind_eq_ok] at h1
      obtain ⟨_, -, h1⟩ := h1
      rw [res_bind_eq_ok] at h1
      obtain ⟨⟨d, rest⟩, -, h1⟩ := h1
      dsimp only at h1
      rw [res_bind_eq_ok] at h1
      obtain ⟨bs, -, h1⟩ := h1
      simp only [Except.ok.injEq, List.cons.injEq] at h1
      obtain ⟨rfl, -⟩ := h1
      csimp
      omega
  · cases h

/-- If any fragment carries SURBs, the first one does. -/
theorem surbs_in_first {id : MessageId} {data : Scattered Byte} {n : Nat} {bp0 bp : FragmentBlueprint}
    {bps : List FragmentBlueprint} (hw : data.WF)
    (h : fragmentBlueprints id data n = .ok (some (bp0 :: bps))) (hbp : bp ∈ bp0 :: bps)
    (hs : bp.surbOffsets ≠ []) : bp0.surbOffsets ≠ [] := by
  have h0 := blueprints_head hw h
  rcases fragmentBlueprints_spec id data n hw with ⟨e, -⟩ | ⟨bs, e, -, -, -, -, -, -, hsum⟩
  · rw [h] at e; cases e
  · rw [h] at e
    simp only [Except.ok.injEq, Option.some.injEq] at e
    subst e
    have h1 : 0 < bp.numSurbs := by
      have : bp.surbOffsets.length ≠ 0 := by simpa using hs
      rw [surbOffsets_length] at this; omega
    have h2 : bp.numSurbs ≤ n := by
      rw [← hsum]
      exact le_sum_of_mem (List.mem_map_of_mem hbp)
    have h3 : bp0.surbOffsets.length ≠ 0 := by rw [surbOffsets_length]; omega
    simpa using h3

/-- Routes fail or succeed regardless of the random choices. -/
theorem genRoute_error_any {g : RouteGenerator} (hg : g.WF) {kind : RouteKind} {k : Nat} (hk : k ≤ 6)
    (hd : ∀ d, RouteGenerator.endpoint kind = some d → d < g.topology.mixnodes.length) {rng rng1 rng2 : Rng} {e route}
    (he : g.genRoute rng kind k = .ok (.error e)) (ho : g.genRoute rng1 kind k = .ok (.ok (route, rng2))) : False := by
  rcases RouteGenerator.genRoute_spec hg rng kind hk hd with ⟨a, h⟩ | ⟨a, ⟨b, h⟩ | ⟨b, _, _, _, _, _, _, _, _, _, _, h, _⟩⟩
  · rcases RouteGenerator.genRoute_spec hg rng1 kind hk hd with ⟨a', h'⟩ | ⟨a', -⟩
    · rw [ho] at h'; cases h'
    · exact a' a
  · rcases RouteGenerator.genRoute_spec hg rng1 kind hk hd with ⟨a', h'⟩ | ⟨a', ⟨b', h'⟩ | ⟨b', -⟩⟩
    · exact a a'
    · rw [ho] at h'; cases h'
    · omega
  · rw [he] at h; cases h

theorem connected_lt {g : RouteGenerator} (hg : g.WF) {kind : RouteKind} {first pen : Option Nat}
    (h : g.Specials kind first pen) :
    (∀ z, first = some z → z < g.topology.mixnodes.length) ∧ (∀ z, pen = some z → z < g.topology.mixnodes.length) := by
  have hsp : (∀ z, first = some z → z ∈ g.connectedGatewayIndices) ∧
      (∀ z, pen = some z → z ∈ g.connectedGatewayIndices) := by
    unfold RouteGenerator.Specials at h
    split at h
    · obtain ⟨rfl, rfl⟩ := h
      exact ⟨fun _ h => (by cases h), fun _ h => (by cases h)⟩
    · obtain ⟨rfl, f, rfl, hf, -⟩ := h
      exact ⟨fun _ h => (by cases h; exact hf), fun _ h => (by cases h)⟩
    · obtain ⟨rfl, f, rfl, hf, -⟩ := h
      exact ⟨fun _ h => (by cases h), fun _ h => (by cases h; exact hf)⟩
    · obtain ⟨f, p, rfl, rfl, hf, hp, -⟩ := h
      exact ⟨fun _ h => (by cases h; exact hf), fun _ h => (by cases h; exact hp)⟩
  exact ⟨fun z hz => hg.lt (hsp.1 z hz), fun z hz => hg.lt (hsp.2 z hz)⟩

/-- The first hop of a generated route exists. -/
theorem genRoute_first_lt {g : RouteGenerator} (hg : g.WF) {kind : RouteKind} {k : Nat} (hk : k ≤ 6)
    (hd : ∀ d, RouteGenerator.endpoint kind = some d → d < g.topology.mixnodes.length) {rng rng' : Rng} {route}
    (h : g.genRoute rng kind k = .ok (.ok (route, rng'))) : route.first < g.topology.mixnodes.length := by
  rcases RouteGenerator.genRoute_spec hg rng kind hk hd with ⟨-, e⟩ | ⟨-, ⟨-, e⟩ |
    ⟨-, first, pen, mids, rng1, fi, x, hs, h1, h2, h3, h4, h5, h6, h7, h8⟩⟩
  · rw [h] at e; cases e
  · rw [h] at e; cases e
  · rw [h] at h4
    simp only [Except.ok.injEq, Prod.mk.injEq] at h4
    obtain ⟨rfl, rfl⟩ := h4
    have hsp := connected_lt hg h1
    have hx : x ∈ first.toList.map some ++ (mids.map some ++ (pen.toList.map some ++ [RouteGenerator.lastHop kind])) := by
      rw [← h2]; exact List.mem_cons_self
    have hx' : (∃ z, x = some z ∧ z < g.topology.mixnodes.length) ∨ x = none := by
      simp only [List.mem_append, List.mem_map, Option.mem_toList, List.mem_singleton] at hx
      rcases hx with ⟨z, hz, rfl⟩ | ⟨z, hz, rfl⟩ | ⟨z, hz, rfl⟩ | rfl
      · exact .inl ⟨z, rfl, hsp.1 z hz⟩
      · exact .inl ⟨z, rfl, (h7 z hz).1⟩
      · exact .inl ⟨z, rfl, hsp.2 z hz⟩
      · cases kind with
        | toMixnode d => exact .inl ⟨d, rfl, hd d rfl⟩
        | fromMixnode d => exact .inr rfl
        | loop => exact .inr rfl
    rcases hx' with ⟨z, rfl, hz⟩ | rfl
    · simp only [RouteGenerator.hopTarget, Option.some.injEq] at h3
      rw [← h3]; exact hz
    · unfold RouteGenerator.hopTarget at h3
      dsimp only at h3
      cases hl : g.topology.localNode with
      | nonMixnode gs => rw [hl] at h3; cases h3
      | mixnode i =>
        rw [hl] at h3
        simp only [Option.some.injEq] at h3
        obtain ⟨mx, hmx, -⟩ := hg.topology.isLocal i hl
        rw [← h3]
        by_cases hi : i < g.topology.mixnodes.length
        · exact hi
        · rw [List.getElem?_eq_none (by omega)] at hmx; cases hmx

/-- The loop of `post_request` fails before queuing anything. -/
theorem postFailed_first {C : Crypto} {b : RequestBuilder} {mid : MessageId} {numHops : Nat} (hk : numHops ≤ 6)
    (hg : b.routeGenerator.WF) {data : Scattered Byte} {n : Nat} (hw : data.WF) {bps : List FragmentBlueprint}
    (hb : fragmentBlueprints mid data n = .ok (some bps)) {acc acc' : Node.PostAcc C} {e : TopologyErr}
    (h : PostFailed C b mid numHops bps acc acc' e) : acc'.queue = acc.queue := by
  obtain ⟨hc, -, done, rest, bp, infos, h1, h2, h3, -, h4⟩ := h
  suffices hi : infos = [] by
    subst hi
    simp only [List.map_nil, List.append_nil] at h3
    have ext : ∀ q q' : AuthoredPacketQueue, q.config = q'.config → q.queue = q'.queue → q = q' := by
      rintro ⟨⟩ ⟨⟩ rfl rfl; rfl
    exact ext _ _ hc h3
  cases h2 with
  | nil => rfl
  | cons hmade _ =>
    exfalso
    rename_i info0 _ _ _
    obtain ⟨rng, rng1, rng2, rng3, f0, e1, e2, e3, e4, e5, e6, e7, e8, -⟩ := hmade
    have hd : b.destinationIndex < b.routeGenerator.topology.mixnodes.length := genRoute_dest e1
    have hd1 : ∀ d, RouteGenerator.endpoint (.toMixnode b.destinationIndex) = some d →
        d < b.routeGenerator.topology.mixnodes.length := by intro d h; cases h; exact hd
    have hd2 : ∀ d, RouteGenerator.endpoint (.fromMixnode b.destinationIndex) = some d →
        d < b.routeGenerator.topology.mixnodes.length := by intro d h; cases h; exact hd
    rcases h4 with ⟨r, he⟩ | ⟨r, r', route', ho, hp⟩ | ⟨hs, -, r, he⟩
    · exact genRoute_error_any hg hk hd1 he e1
    · have := genRoute_first_lt hg hk hd1 ho
      unfold Topology.mixnodeIndexToPeerId at hp
      rw [List.getElem?_eq_getElem this] at hp
      cases hp
    · rw [h1] at hb
      have hs0 := surbs_in_first hw hb (by simp) hs
      have : info0.surbs.length ≠ 0 := by rw [e5]; simpa using hs0
      obtain ⟨s, hsm⟩ := List.exists_mem_of_length_pos (Nat.pos_of_ne_zero this)
      obtain ⟨_, _, _, g1, -⟩ := e6 s hsm
      exact genRoute_error_any hg hk hd2 he g1

/-- There is a route to a mixnode iff there is one back. -/
theorem genRoute_both {g : RouteGenerator} (hg : g.WF) {k d : Nat} (hk : k ≤ 6)
    (hd : d < g.topology.mixnodes.length) {rng rng1 rng2 : Rng} {e route}
    (he : g.genRoute rng (.fromMixnode d) k = .ok (.error e))
    (ho : g.genRoute rng1 (.toMixnode d) k = .ok (.ok (route, rng2))) : False := by
  have hd1 : ∀ x, RouteGenerator.endpoint (.toMixnode d) = some x → x < g.topology.mixnodes.length := by
    intro x h; cases h; exact hd
  have hd2 : ∀ x, RouteGenerator.endpoint (.fromMixnode d) = some x → x < g.topology.mixnodes.length := by
    intro x h; cases h; exact hd
  have hu : g.usedCount (.fromMixnode d) = g.usedCount (.toMixnode d) := by
    unfold RouteGenerator.usedCount; cases g.topology.localNode <;> rfl
  have hm : g.midCount (.fromMixnode d) k = g.midCount (.toMixnode d) k := by
    unfold RouteGenerator.midCount RouteGenerator.leastHops RouteGenerator.fixedHops
    cases g.topology.localNode <;> rfl
  rcases RouteGenerator.genRoute_spec hg rng1 (.toMixnode d) hk hd1 with ⟨a, h⟩ | ⟨a, ⟨b, h⟩ | ⟨b, -⟩⟩
  · rw [ho] at h; cases h
  · rw [ho] at h; cases h
  · rcases RouteGenerator.genRoute_spec hg rng (.fromMixnode d) hk hd2 with
      ⟨a', h'⟩ | ⟨a', ⟨b', h'⟩ | ⟨b', _, _, _, _, _, _, _, _, _, _, h, _⟩⟩
    · exact a a'
    · omega
    · rw [he] at h; cases h

theorem creates_nil {mid : MessageId} {k k' : SurbKeystore} (h : SurbKeystore.Creates mid k [] k') : k' = k := by
  cases h; rfl

/-- The loop of `post_request` fails only if there is no route to the destination, and then before doing
anything. -/
theorem postFailed_none {C : Crypto} {b : RequestBuilder} {mid : MessageId} {numHops : Nat} (hk : numHops ≤ 6)
    (hg : b.routeGenerator.WF) {bps : List FragmentBlueprint}
    {acc acc' : Node.PostAcc C} {e : TopologyErr}
    (h : PostFailed C b mid numHops bps acc acc' e) :
    acc'.surbs.keystore = acc.surbs.keystore ∧
      ∃ rng, b.routeGenerator.genRoute rng (.toMixnode b.destinationIndex) numHops = .ok (.error e) := by
  obtain ⟨hc, ⟨made, tail, k1, k2, k3, k4⟩, done, rest, bp, infos, h1, h2, h3, -, h4⟩ := h
  have hdisj : (∃ rng, b.routeGenerator.genRoute rng (.toMixnode b.destinationIndex) numHops = .ok (.error e)) ∨
      ∃ rng, b.routeGenerator.genRoute rng (.fromMixnode b.destinationIndex) numHops = .ok (.error e) := by
    rcases h4 with h | ⟨r, r', route', ho, hp⟩ | ⟨-, -, h⟩
    · exact .inl h
    · have hd : b.destinationIndex < b.routeGenerator.topology.mixnodes.length := genRoute_dest ho
      have := genRoute_first_lt hg hk (by intro d h; cases h; exact hd) ho
      unfold Topology.mixnodeIndexToPeerId at hp
      rw [List.getElem?_eq_getElem this] at hp
      cases hp
    · exact .inr h
  have hno : ∀ rng x, b.routeGenerator.genRoute rng (.toMixnode b.destinationIndex) numHops ≠ .ok (.ok x) := by
    intro r0 x hx
    have hd : b.destinationIndex < b.routeGenerator.topology.mixnodes.length := genRoute_dest hx
    rcases hdisj with ⟨r, he⟩ | ⟨r, he⟩
    · exact genRoute_error_any hg hk (by intro d h; cases h; exact hd) he hx
    · exact genRoute_both hg hk hd he hx
  rcases k3 with ⟨rfl, rfl⟩ | ⟨r0, x, hx⟩
  · refine ⟨creates_nil k4, ?_⟩
    rcases h4 with h | ⟨r, r', route', ho, hp⟩ | ⟨-, ⟨r, x, hx⟩, -⟩
    · exact h
    · exact absurd ho (hno _ _)
    · exact absurd hx (hno _ _)
  · exact absurd hx (hno _ _)

end Mixnet
