import Verif.Spec.Whole
import Verif.Props.EndToEnd
import Verif.Props.Sending
/-!
# Packets in a whole network are what they were made to be
-/
namespace Mixnet
open Spec Props

variable {C : Crypto}

/-- The packet is on its way to machine `last` in session `i`, where it will be opened with the result `fin`. -/
def OnWay (L : Layout C) (i last : Nat) (fin : Bytes → Action C → Prop) (p : Bytes) : Prop :=
  ∃ (ms : List Nat) (targets : List Target) (delays : List C.Delay), ms.getLast? = some last ∧ p.length = PACKET_SIZE ∧
    Travels C p (ms.map (L.key · i)) targets delays fin

theorem onRoute_hosts {L : Layout C} {i last : Nat} {final peer : PeerId} {ts : List Target} {ks : List KxSecret}
    (h : OnRoute (L.net i) final peer ts ks) (hl : ks.getLast? = some (L.key last i)) :
    ∃ ms : List Nat, ms.getLast? = some last ∧ ks = ms.map (L.key · i) := by
  induction h with
  | last key =>
    simp only [List.getLast?_singleton, Option.some.injEq] at hl
    exact ⟨[last], rfl, by rw [hl]; rfl⟩
  | @hop peer t ts key ks peer' hat hp h ih =>
    have hne : ks ≠ [] := by cases h <;> simp
    obtain ⟨k0, ks0, rfl⟩ := List.exists_cons_of_ne_nil hne
    rw [List.getLast?_cons_cons] at hl
    obtain ⟨ms, h1, h2⟩ := ih hl
    obtain ⟨d, mx, -, -, hk⟩ := hat
    have := L.hosted i d key hk
    refine ⟨L.host i d :: ms, ?_, ?_⟩
    · cases ms with
      | nil => cases h1
      | cons a ms => rw [List.getLast?_cons_cons]; exact h1
    · rw [List.map_cons, ← this, h2]

theorem onWay_of_way {L : Layout C} {i last : Nat} {final : PeerId} {fin : Bytes → Action C → Prop} {p : AddressedPacket}
    {ts : List Target} {ks : List KxSecret} (h : Way (L.net i) final fin p ts ks)
    (hl : ks.getLast? = some (L.key last i)) : OnWay L i last fin p.packet := by
  obtain ⟨h1, h2, delays, h3⟩ := h
  obtain ⟨ms, m1, rfl⟩ := onRoute_hosts h2 hl
  exact ⟨ms, ts, delays, m1, h1, h3⟩

/-- Somebody can open a packet on its way; and if only one can, what he finds is as intended. -/
theorem OnWay.opens {L : Layout C} {i last : Nat} {fin : Bytes → Action C → Prop} {p : Bytes}
    (h : OnWay L i last fin p) : ∃ j0, Opens C (L.key j0 i) p ∧
      ∀ out a, peel C zeroPacket p (C.deriveKxSharedSecret (kxPublicOf p) (L.key j0 i)) = .ok (out, .ok a) →
        (j0 = last ∧ fin out a) ∨ ((∃ t d, a = .forwardTo t d) ∧ OnWay L i last fin out) := by
  obtain ⟨ms, ts, ds, h1, h2, h3⟩ := h
  match ms, ts, ds, h1, h3 with
  | [j0], [], [], h1, h3 =>
    rw [show [j0].map (L.key · i) = [L.key j0 i] from rfl, Travels] at h3
    obtain ⟨out, a, e1, e2⟩ := h3 zeroPacket zeroPacket_length
    refine ⟨j0, ⟨out, a, e1⟩, fun out' a' e' => .inl ?_⟩
    rw [e1] at e'
    cases e'
    simp only [List.getLast?_singleton, Option.some.injEq] at h1
    exact ⟨h1, e2⟩
  | j0 :: ms, t :: ts, d :: ds, h1, h3 =>
    rw [List.map_cons, Travels] at h3
    obtain ⟨out, e1, e2, e3⟩ := h3 zeroPacket zeroPacket_length
    refine ⟨j0, ⟨out, _, e1⟩, fun out' a' e' => .inr ?_⟩
    rw [e1] at e'
    cases e'
    refine ⟨⟨_, _, rfl⟩, ms, ts, ds, ?_, e2, e3⟩
    cases ms with
    | nil =>
      exfalso
      cases ts <;> cases ds <;> simp [Travels] at e3
    | cons a ms => rw [List.getLast?_cons_cons] at h1; exact h1
  | [], ts, ds, h1, _ => cases h1
  | [j0], [], d :: ds, _, h3 => simp [Travels] at h3
  | [j0], t :: ts, [], _, h3 => simp [Travels] at h3
  | j0 :: j1 :: ms, [], ds, _, h3 => cases ds <;> simp [Travels] at h3
  | j0 :: j1 :: ms, t :: ts, [], _, h3 => simp [Travels] at h3

variable (hC : CryptoLaws C) {m : Node}
include hC

/-- What a machine that accepts a packet on its way finds in it. -/
theorem OnWay.accepted {L : Layout C} {j : Nat} (hI : m.Inv C) (ha : Agrees L j m) {i last : Nat}
    {fin : Bytes → Action C → Prop} {p : Bytes} (h : OnWay L i last fin p)
    (hone : ∀ j i j' i', Opens C (L.key j i) p → Opens C (L.key j' i') p → j = j' ∧ i = i')
    {rel s out a} (hacc : Accepts C m p rel s out a) :
    m.sessionAt i = some s ∧ RelSessionIndex.fromSessionIndex i m.sessionStatus.currentIndex = some rel ∧
      peel C zeroPacket p (C.deriveKxSharedSecret (kxPublicOf p) (L.key j i)) = .ok (out, .ok a) ∧
      ((j = last ∧ fin out a) ∨ ((∃ t d, a = .forwardTo t d) ∧ OnWay L i last fin out)) := by
  obtain ⟨i', hrel, hs⟩ := sessionAt_of_slot hI hacc.slot
  obtain ⟨hk, -⟩ := ha i' s hs
  have hpeel : peel C zeroPacket p (C.deriveKxSharedSecret (kxPublicOf p) (L.key j i')) = .ok (out, .ok a) := by
    rw [← hk]
    have := hacc.peels
    rw [← exchange_eq] at this
    exact this
  obtain ⟨j0, ho, hf⟩ := h.opens
  obtain ⟨rfl, rfl⟩ := hone _ _ _ _ ho ⟨out, a, hpeel⟩
  exact ⟨hs, hrel, hpeel, hf out a hpeel⟩

/-- The packets of a request. -/
theorem request_onWay {L : Layout C} {j : Nat} (hI : m.Inv C) (ha : Agrees L j m) {i : Nat} {s : Session}
    (hs : m.sessionAt i = some s) {ns : NetworkStatus} (hns : ns.localPeerId.length = 32) {dest k : Nat} (hk : k ≤ 6)
    (hd : dest < s.topology.mixnodes.length) {p : NewPacket C} (hp : p.Built s.topology ns dest k) :
    OnWay L i (L.host i dest) (RequestFor p.fragment) p.packet.packet := by
  obtain ⟨-, hmix⟩ := ha i s hs
  have hl : dest < (L.net i).mixnodes.length := by rw [← hmix]; exact hd
  have hl2 : dest < (L.net i).keys.length := by
    have := congrArg List.length (L.net i).keyed
    simp only [List.length_map] at this
    omega
  obtain ⟨keys, k1, -, k2, -⟩ := packet_way hC hI hs hns hk hd hmix (List.getElem?_eq_getElem hl)
    (List.getElem?_eq_getElem hl2) hp
  refine onWay_of_way k2 ?_
  rw [k1, ← L.hosted i dest _ (List.getElem?_eq_getElem hl2)]

/-- Routes that end at the local node. -/
theorem home_way {net : Network C} (hI : m.Inv C) {i : Nat} {s : Session}
    (hs : m.sessionAt i = some s) {ns : NetworkStatus} (hns : ns.localPeerId.length = 32) {k : Nat} (hk : k ≤ 6)
    (hmix : s.topology.mixnodes = net.mixnodes) {kind : RouteKind} {g : RouteGenerator} {rng rng' : Rng} {route : Route}
    (hg : RouteGenerator.new s.topology ns = .ok g) (hgen : g.genRoute rng kind k = .ok (.ok (route, rng')))
    (hkind : finalHop s.topology ns kind = localTarget s.topology ns)
    (hd : ∀ d, otherEnd kind = some d → d < s.topology.mixnodes.length) :
    ∃ keys peer fpeer, net.peerOf (.mixnodeIndex route.first) = some peer ∧ OnRoute net fpeer peer route.targets keys ∧
      route.kxPublics = keys.map C.deriveKxPublic ∧ keys.getLast? = some s.kxPair.secret ∧
      ValidPath keys route.targets ∧ route.first ≤ MAX_MIXNODE_INDEX := by
  obtain ⟨rel, -, hslot⟩ := Node.sessionAt_eq.1 hs
  have hi := hI.sessions rel s hslot
  have hloc : s.topology.localKxPublic = C.deriveKxPublic s.kxPair.secret := by rw [hi.isLocal, hi.pair]
  have hwf := (view_of_inv hI hs hg).wf.1
  obtain ⟨home, hh2, hh3⟩ : ∃ home,
      keyOf s.topology (finalHop s.topology ns kind) = some (C.deriveKxPublic s.kxPair.secret) ∧
      net.peerOf (finalHop s.topology ns kind) = some home := by
    rw [hkind]
    unfold localTarget
    cases hl : s.topology.localNode with
    | mixnode j =>
      obtain ⟨mx, e1, e2⟩ := hwf.isLocal j hl
      refine ⟨mx.peerId, ?_, ?_⟩
      · show (s.topology.mixnodes[j]?).map _ = _
        rw [e1, ← hloc, ← e2]; rfl
      · show (net.mixnodes[j]?).map _ = _
        rw [← hmix, e1]; rfl
    | nonMixnode gs => exact ⟨_, by rw [← hloc]; rfl, rfl⟩
  obtain ⟨keys, peer, k1, k2, k3, k4, k5, k6⟩ := route_way (C := C) (net := net) (key := s.kxPair.secret) (fpeer := home) hmix hns
    (view_of_inv hI hs hg) hk hd hgen hh2 hh3
  exact ⟨keys, peer, home, k1, k2, k3, k4, k5, k6⟩

/-- The packets of replies with a SURB. -/
theorem reply_onWay {L : Layout C} {j : Nat} (hI : m.Inv C) (ha : Agrees L j m) {i : Nat} {s : Session}
    (hs : m.sessionAt i = some s) {ns : NetworkStatus} (hns : ns.localPeerId.length = 32) {dest k : Nat} (hk : k ≤ 6)
    (hd : dest < s.topology.mixnodes.length) {x : NewSurb C} (hx : x.Built s.topology ns dest k) {t : Topology}
    {f : Fragment} {p : AddressedPacket} (hp : ReplyBuilt C t f x.surb p) :
    OnWay L i j (ReplyFor x f) p.packet := by
  obtain ⟨hkey, hmix⟩ := ha i s hs
  obtain ⟨⟨g, rng, rng', hg, hgen⟩, hid, old, r, r', hol, hb⟩ := hx
  obtain ⟨old2, first, mx, o1, o2, o3, o4, o5, o6⟩ := hp
  obtain ⟨keys, peer, fpeer, -, k2, k3, k4, k5, k6⟩ := home_way hC hI hs hns hk hmix (kind := .fromMixnode dest) hg hgen rfl
    (fun d h => by cases h; exact hd)
  obtain ⟨surb, pkeys, delay, rng2, delays, t1, t2, -, -, t5⟩ := reply_packet_travels hC r old hol x.route.first k6 x.id hid keys
    x.route.targets k5
  rw [k3, t1] at hb
  cases hb
  obtain ⟨packet', c1, c2, c3⟩ := t5 old2 o1
  rw [c1] at o3
  cases o3
  rw [hkey] at k4
  obtain ⟨ms, m1, rfl⟩ := onRoute_hosts k2 k4
  rw [o2] at c3
  exact ⟨ms, _, delays, m1, c2, c3⟩

/-- Cover packets. -/
theorem cover_onWay {L : Layout C} {j : Nat} (hI : m.Inv C) (ha : Agrees L j m) {i : Nat} {s : Session}
    (hs : m.sessionAt i = some s) {ns : NetworkStatus} (hns : ns.localPeerId.length = 32) {k : Nat} (hk : k ≤ 6)
    {isLoop : Bool} {p : AddressedPacket} (hp : CoverBuilt C s.topology ns k isLoop p) :
    ∃ last, OnWay L i last (fun _ a => a = .deliverCover none) p.packet := by
  obtain ⟨hkey, hmix⟩ := ha i s hs
  obtain ⟨kind, route, ⟨g, rng, rng', hg, hgen⟩, h1, h2, -, old, r, r', delay, hol, hb⟩ := hp
  have hv := view_of_inv hI hs hg
  obtain ⟨keys, peer, fpeer, last, k2, k3, k4, k5⟩ : ∃ (keys : List KxSecret) (peer fpeer : PeerId) (last : Nat),
      OnRoute (L.net i) fpeer peer route.targets keys ∧ route.kxPublics = keys.map C.deriveKxPublic ∧
      keys.getLast? = some (L.key last i) ∧ ValidPath keys route.targets := by
    cases isLoop with
    | true =>
      obtain rfl := h1 rfl
      obtain ⟨keys, peer, fpeer, -, k2, k3, k4, k5, -⟩ := home_way hC hI hs hns hk hmix (kind := .loop) hg hgen rfl
        (fun d h => by cases h)
      rw [hkey] at k4
      exact ⟨keys, peer, fpeer, j, k2, k3, k4, k5⟩
    | false =>
      obtain ⟨d, rfl, hd, -⟩ := h2 rfl
      have hl : d < (L.net i).mixnodes.length := by rw [← hmix]; exact hd
      have hl2 : d < (L.net i).keys.length := by
        have := congrArg List.length (L.net i).keyed
        simp only [List.length_map] at this
        omega
      have hpub : ((L.net i).mixnodes[d]).kxPublic = C.deriveKxPublic (L.net i).keys[d] := by
        have := congrArg (·[d]?) (L.net i).keyed
        simp only [List.getElem?_map, List.getElem?_eq_getElem hl, List.getElem?_eq_getElem hl2, Option.map_some,
          Option.some.injEq] at this
        exact this
      obtain ⟨keys, peer, -, k2, k3, k4, k5, -⟩ := route_way (C := C) (net := L.net i) (key := (L.net i).keys[d])
        (fpeer := ((L.net i).mixnodes[d]).peerId) hmix hns hv hk (fun d h => by cases h; exact hd) hgen
        (by
          show (s.topology.mixnodes[d]?).map _ = _
          rw [hmix, List.getElem?_eq_getElem hl, ← hpub]; rfl)
        (by
          show ((L.net i).mixnodes[d]?).map _ = _
          rw [List.getElem?_eq_getElem hl]; rfl)
      rw [L.hosted i d _ (List.getElem?_eq_getElem hl2)] at k4
      exact ⟨keys, peer, _, L.host i d, k2, k3, k4, k5⟩
  obtain ⟨packet', delay', rng2, delays, t1, t2, -, t4⟩ := cover_packet_travels hC r old hol none (fun i h => by cases h) keys
    route.targets k5
  rw [k3, t1] at hb
  cases hb
  obtain ⟨ms, m1, rfl⟩ := onRoute_hosts k2 k4
  exact ⟨last, ms, _, delays, m1, t2, t4⟩

end Mixnet
