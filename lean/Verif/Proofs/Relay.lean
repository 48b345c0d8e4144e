import Verif.Spec.Network
import Verif.Props.Handling
import Verif.Props.Sessions
import Verif.Props.Routes
import Verif.Props.Posting
import Mathlib.Data.Multiset.Basic
/-!
# Packets on their way through the network
-/
namespace Mixnet
open Spec Props

/-- The peer a hop is reached at. -/
def Spec.Network.peerOf {C : Crypto} (net : Network C) : Target → Option PeerId
  | .mixnodeIndex j => (net.mixnodes[j]?).map (·.peerId)
  | .peerId p => some p

/-- `OnRoute net final peer targets keys`: the hop at `peer` and those after it, `targets`, have the keys
`keys`; all but the last are mixnodes; the last is reached at `final`. -/
inductive OnRoute {C : Crypto} (net : Network C) (final : PeerId) : PeerId → List Target → List KxSecret → Prop
  | last (key) : OnRoute net final final [] [key]
  | hop {peer t ts key ks peer'} : net.At peer key → net.peerOf t = some peer' → OnRoute net final peer' ts ks →
      OnRoute net final peer (t :: ts) (key :: ks)

/-- A packet on its way. -/
def Way {C : Crypto} (net : Network C) (final : PeerId) (fin : Bytes → Action C → Prop) (p : AddressedPacket)
    (targets : List Target) (keys : List KxSecret) : Prop :=
  p.packet.length = PACKET_SIZE ∧ OnRoute net final p.peerId targets keys ∧
    ∃ delays, Travels C p.packet keys targets delays fin

theorem Spec.Network.At.unique {C : Crypto} {net : Network C} {peer k k'} (h : net.At peer k) (h' : net.At peer k') :
    k = k' := by
  obtain ⟨j, mx, a1, a2, a3⟩ := h
  obtain ⟨j', mx', b1, b2, b3⟩ := h'
  have hn := net.peers
  have : j = j' := by
    have h1 : (net.mixnodes.map (·.peerId))[j]? = some peer := by rw [List.getElem?_map, a1, ← a2]; rfl
    have h2 : (net.mixnodes.map (·.peerId))[j']? = some peer := by rw [List.getElem?_map, b1, ← b2]; rfl
    obtain ⟨l1, e1⟩ := List.getElem?_eq_some_iff.1 h1
    obtain ⟨l2, e2⟩ := List.getElem?_eq_some_iff.1 h2
    exact (List.Nodup.getElem_inj_iff hn).1 (e1.trans e2.symm)
  subst this
  rw [a3] at b3
  exact Option.some.inj b3

theorem Spec.Network.key_listed {C : Crypto} {net : Network C} {peer k} (h : net.At peer k) :
    ∃ mx ∈ net.mixnodes, mx.kxPublic = C.deriveKxPublic k := by
  obtain ⟨j, mx, a1, a2, a3⟩ := h
  refine ⟨mx, List.mem_of_getElem? a1, ?_⟩
  have := congrArg (·[j]?) net.keyed
  simp only [List.getElem?_map, a1, a3, Option.map_some, Option.some.injEq] at this
  exact this

/-- A node that takes a packet and can peel it accepts it. -/
theorem Spec.Takes.accepts {C : Crypto} (hC : CryptoLaws C) {net : Network C} {key : KxSecret} {n : Node}
    {packet : Bytes} (hp : packet.length = PACKET_SIZE) (h : Takes C net key n packet) {out : Bytes} {a : Action C}
    (hpeel : peel C zeroPacket packet (C.deriveKxSharedSecret (kxPublicOf packet) key) = .ok (out, .ok a)) :
    ∃ rel s, RelSessionIndex.fromSessionIndex net.session n.sessionStatus.currentIndex = some rel ∧
      Accepts C n packet rel s out a ∧ s.kxPair.secret = key ∧ s.topology.mixnodes = net.mixnodes ∧
      n.sessionAt net.session = some s := by
  obtain ⟨⟨s, h1, h2, h3, h4⟩, h5⟩ := h
  obtain ⟨rel, g1, g2⟩ := Node.sessionAt_eq.1 h1
  have hsec : s.secretFor C packet = C.deriveKxSharedSecret (kxPublicOf packet) key := by
    rw [← h2, ← exchange_eq]; rfl
  refine ⟨rel, s, g1, ⟨g2, h4, ?_, ?_, ?_⟩, h2, h3, h1⟩
  · rw [hsec]; exact hpeel
  · rintro rfl
    rcases fromSessionIndex_some.1 g1 with ⟨h, -⟩ | ⟨-, h⟩
    · cases h
    · exact h5 (by omega)
  · rcases peel_cases hC hp (C.deriveKxSharedSecret (kxPublicOf packet) key) with h | ⟨o, e, he, h⟩ | ⟨o, b, h, hl⟩
    · rw [hpeel] at h; cases h
    · rw [hpeel] at h; cases h
    · rw [hpeel] at h; cases h; exact hl

/-- A node whose key is listed is a mixnode. -/
theorem listed_isMixnode {C : Crypto} {n : Node} (hI : n.Inv C) {rel : RelSessionIndex} {s : Session}
    (hs : n.sessions.get rel = .full s) (h : ∃ mx ∈ s.topology.mixnodes, mx.kxPublic = C.deriveKxPublic s.kxPair.secret) :
    s.topology.isMixnode = true := by
  have hi := hI.sessions rel s hs
  unfold Topology.isMixnode
  cases hl : s.topology.localNode with
  | mixnode i => rfl
  | nonMixnode gs =>
    obtain ⟨mx, h1, h2⟩ := h
    have := (hi.topology.gateways gs hl).2.2 mx h1
    rw [hi.isLocal, hi.pair] at this
    exact absurd h2 this

theorem targetToPeerId_of {C : Crypto} {net : Network C} {t : Topology} (h : t.mixnodes = net.mixnodes) {target peer}
    (hp : net.peerOf target = some peer) : t.targetToPeerId target = .ok peer := by
  cases target with
  | peerId p => cases hp; rfl
  | mixnodeIndex j =>
    unfold Topology.targetToPeerId Topology.mixnodeIndexToPeerId
    unfold Network.peerOf at hp
    dsimp only at hp ⊢
    rw [h]
    cases hm : net.mixnodes[j]? with
    | none => rw [hm] at hp; cases hp
    | some mx => rw [hm] at hp; cases hp; rfl

/-- What happens at a hop before the last. -/
theorem way_hop {C : Crypto} (hC : CryptoLaws C) {net : Network C} {final : PeerId} {fin : Bytes → Action C → Prop}
    {p : AddressedPacket} {t : Target} {targets : List Target} {keys : List KxSecret}
    (hway : Way net final fin p (t :: targets) keys) {config : Config} {n : Node} {key : KxSecret}
    (hr : Node.Reachable C config n) (hat : net.At p.peerId key) (ht : Takes C net key n p.packet) (now : Nat) :
    ∃ q keys', Way net final fin q targets keys' ∧ keys = key :: keys' ∧ net.peerOf t = some q.peerId ∧
      ∃ n', n.step C (.handlePacket now p.packet) = .ok (n', .message none) ∧
      ((n.forwardPacketQueue.queue.length < config.forwardPacketQueueCapacity ∧
        ∃ deadline, n'.forwardPacketQueue.queue = ⟨deadline, q⟩ :: n.forwardPacketQueue.queue) ∨
       (config.forwardPacketQueueCapacity ≤ n.forwardPacketQueue.queue.length ∧ n' = n)) := by
  obtain ⟨hl, ho, delays, htr⟩ := hway
  obtain ⟨hI, hcfg⟩ := hr.inv hC
  cases ho with
  | @hop _ _ _ key0 ks peer' hat0 hpeer ho =>
    cases hat.unique hat0
    cases delays with
    | nil => simp [Travels] at htr
    | cons delay delays =>
      rw [Travels] at htr
      obtain ⟨out, hpeel, hol, htr⟩ := htr zeroPacket zeroPacket_length
      obtain ⟨rel, s, hrel, hacc, hkey, hmix, hat'⟩ := ht.accepts hC hl hpeel
      obtain ⟨n', msg, he, hstep⟩ := handled hC hI (now := now) hl hacc
      have hm : s.topology.isMixnode = true := listed_isMixnode hI hacc.slot (by
        rw [hmix, hkey]; exact Network.key_listed hat)
      have hcap := hI.forwardCapacity
      rw [hcfg] at hcap
      refine ⟨⟨peer', out⟩, ks, ⟨hol, ho, delays, htr⟩, rfl, hpeer, ?_⟩
      generalize hn1 : n' = n1 at he
      generalize hmsg : msg = msg1 at he
      cases he with
      | forwardNotMixnode _ _ h => rw [hm] at h; cases h
      | forwardFull _ _ h1 h2 =>
        rw [hn1, hmsg] at hstep
        exact ⟨_, hstep, .inr ⟨by omega, rfl⟩⟩
      | forwardNowhere _ _ e h1 h2 h3 => rw [targetToPeerId_of hmix hpeer] at h3; cases h3
      | forward _ _ peer ev h1 h2 h3 h4 =>
        rw [targetToPeerId_of hmix hpeer] at h3
        cases h3
        rw [hn1, hmsg] at hstep
        exact ⟨_, hstep, .inl ⟨by omega, _, rfl⟩⟩

theorem perm_cons_left {α : Type} {a b : α} {l : List α} (h : (a :: l).Perm (b :: l)) : a = b := by
  have h2 : (a ::ₘ (l : Multiset α)) = b ::ₘ (l : Multiset α) := by
    simpa only [Multiset.cons_coe, Multiset.coe_eq_coe] using h
  exact (Multiset.cons_inj_left _).1 h2

/-- A relayed packet goes on on its way. -/
theorem relay_way {C : Crypto} (hC : CryptoLaws C) {net : Network C} {final : PeerId} {fin : Bytes → Action C → Prop}
    {p q : AddressedPacket} {t : Target} {targets : List Target} {keys : List KxSecret}
    (hway : Way net final fin p (t :: targets) keys) (h : Relay C net p q) :
    ∃ keys', Way net final fin q targets keys' ∧ keys.tail = keys' ∧ net.peerOf t = some q.peerId := by
  obtain ⟨config, n, n', key, now, deadline, hr, hat, ht, hs, hp⟩ := h
  obtain ⟨q', keys', hway', hk, hpe, n1, hs1, hcase⟩ := way_hop hC hway hr hat ht now
  rw [hs] at hs1
  cases hs1
  rcases hcase with ⟨-, d, hq⟩ | ⟨-, rfl⟩
  · rw [hq] at hp
    have := perm_cons_left hp
    cases this
    exact ⟨keys', hway', by rw [hk]; rfl, hpe⟩
  · have := hp.length_eq
    simp at this

theorem relays_way {C : Crypto} (hC : CryptoLaws C) {net : Network C} {final : PeerId} {fin : Bytes → Action C → Prop}
    {k : Nat} {p q : AddressedPacket} (h : Relays C net k p q) : ∀ {targets : List Target} {keys : List KxSecret},
    Way net final fin p targets keys → k ≤ targets.length →
    Way net final fin q (targets.drop k) (keys.drop k) := by
  induction h with
  | here p => intro targets keys hw _; exact hw
  | @next k p q r h1 _ ih =>
    intro targets keys hw hk
    cases targets with
    | nil => simp at hk
    | cons t ts =>
      obtain ⟨keys', hw', e, -⟩ := relay_way hC hw h1
      have := ih hw' (by simpa using hk)
      rw [← e, List.drop_tail] at this
      exact this

/-- Two packets on the same way pass the same peers. -/
theorem same_peers {C : Crypto} (hC : CryptoLaws C) {net : Network C} {final : PeerId} {fin fin' : Bytes → Action C → Prop}
    {k : Nat} {p p' : AddressedPacket} (h : Relays C net k p p') : ∀ {q q' : AddressedPacket} {targets : List Target}
    {keys keys' : List KxSecret}, Relays C net k q q' → Way net final fin p targets keys →
    Way net final fin' q targets keys' → p.peerId = q.peerId → k ≤ targets.length → p'.peerId = q'.peerId := by
  induction h with
  | here p => intro q q' ts ks ks' h' _ _ e _; cases h'; exact e
  | @next k p q r h1 _ ih =>
    intro q2 r2 ts ks ks' h' w1 w2 e hk
    cases h' with
    | @next _ _ q3 _ h2 h3 =>
    cases ts with
    | nil => simp at hk
    | cons t ts =>
      obtain ⟨k1, v1, -, e1⟩ := relay_way hC w1 h1
      obtain ⟨k2, v2, -, e2⟩ := relay_way hC w2 h2
      rw [e1] at e2
      exact ih h3 v1 v2 (Option.some.inj e2) (by simpa using hk)

/-- Once arrived, the packet is for the last hop. -/
theorem way_end {C : Crypto} {net : Network C} {final : PeerId} {fin : Bytes → Action C → Prop}
    {p : AddressedPacket} {keys : List KxSecret} (h : Way net final fin p [] keys) :
    ∃ key, keys = [key] ∧ p.peerId = final ∧ p.packet.length = PACKET_SIZE ∧
      ∃ out action, peel C zeroPacket p.packet (C.deriveKxSharedSecret (kxPublicOf p.packet) key) =
        .ok (out, .ok action) ∧ fin out action := by
  obtain ⟨hl, ho, delays, htr⟩ := h
  cases delays with
  | cons d ds =>
    cases ho with
    | last key => simp [Travels] at htr
  | nil =>
    generalize hx : p.peerId = x at ho
    cases ho with
    | last key =>
      rw [Travels] at htr
      exact ⟨key, rfl, rfl, hl, htr zeroPacket zeroPacket_length⟩

/-! ### Routes -/

/-- The keys of a route's hops. -/
theorem route_keys {C : Crypto} {net : Network C} {t : Topology} (ht : t.mixnodes = net.mixnodes) {final : Target}
    {fpeer : PeerId} {key : KxSecret} (hkey : keyOf t final = some (C.deriveKxPublic key))
    (hpeer : net.peerOf final = some fpeer) : ∀ (ts : List Target) (h : Target),
    (h :: ts).getLast? = some final →
    (∀ x ∈ (h :: ts).dropLast, ∃ i, x = .mixnodeIndex i ∧ i < t.mixnodes.length) →
    ∃ keys peer, net.peerOf h = some peer ∧ OnRoute net fpeer peer ts keys ∧
      (keys.map C.deriveKxPublic).map some = (h :: ts).map (keyOf t) ∧ keys.getLast? = some key ∧
      keys.length = ts.length + 1
  | [], h, hl, _ => by
    have e : h = final := by simpa using hl
    subst e
    exact ⟨[key], fpeer, hpeer, .last key, by simp [hkey], rfl, rfl⟩
  | t' :: ts, h, hl, hm => by
    obtain ⟨keys, peer, h1, h2, h3, h4, h5⟩ := route_keys ht hkey hpeer ts t' (by simpa using hl)
      (fun x hx => hm x (by rw [List.dropLast_cons_of_ne_nil (by simp)]; exact List.mem_cons_of_mem _ hx))
    obtain ⟨i, rfl, hi⟩ := hm h (by rw [List.dropLast_cons_of_ne_nil (by simp)]; exact List.mem_cons_self)
    rw [ht] at hi
    have hki : i < net.keys.length := by
      have := congrArg List.length net.keyed
      simp only [List.length_map] at this
      omega
    have hpub := congrArg (·[i]?) net.keyed
    simp only [List.getElem?_map, List.getElem?_eq_getElem hi, List.getElem?_eq_getElem hki, Option.map_some] at hpub
    refine ⟨net.keys[i] :: keys, net.mixnodes[i].peerId, ?_, .hop ⟨i, _, List.getElem?_eq_getElem hi, rfl,
      List.getElem?_eq_getElem hki⟩ h1 h2, ?_, ?_, by simp [h5]⟩
    · unfold Network.peerOf
      dsimp only
      rw [List.getElem?_eq_getElem hi]
      rfl
    · rw [List.map_cons, List.map_cons, List.map_cons, h3]
      congr 1
      unfold keyOf
      dsimp only
      rw [ht, List.getElem?_eq_getElem hi, Option.map_some]
      exact hpub.symm
    · rw [List.getLast?_cons, h4]; rfl

/-- What is needed to know about a generated route. -/
theorem route_way {C : Crypto} {net : Network C} {t : Topology} {ns : NetworkStatus} (ht : t.mixnodes = net.mixnodes)
    (hns : ns.localPeerId.length = 32) {g : RouteGenerator} (v : View t ns g) {kind : RouteKind} {k : Nat} (hk : k ≤ 6)
    (hd : ∀ d, otherEnd kind = some d → d < t.mixnodes.length)
    {rng rng' : Rng} {route : Route} (h : g.genRoute rng kind k = .ok (.ok (route, rng')))
    {fpeer : PeerId} {key : KxSecret} (hkey : keyOf t (finalHop t ns kind) = some (C.deriveKxPublic key))
    (hpeer : net.peerOf (finalHop t ns kind) = some fpeer) :
    ∃ keys peer, net.peerOf (.mixnodeIndex route.first) = some peer ∧ OnRoute net fpeer peer route.targets keys ∧
      route.kxPublics = keys.map C.deriveKxPublic ∧ keys.getLast? = some key ∧ ValidPath keys route.targets ∧
      route.first ≤ MAX_MIXNODE_INDEX := by
  obtain ⟨-, h6, h3, h4, -, h5⟩ := route_shape v hk hd h
  obtain ⟨hwf, -⟩ := v.wf
  obtain ⟨keys, peer, k1, k2, k3, k4, k5⟩ := route_keys ht hkey hpeer route.targets (.mixnodeIndex route.first) h3 h4
  have hfirst : route.first < t.mixnodes.length := by
    unfold Network.peerOf at k1
    dsimp only at k1
    rw [ht]
    by_contra hc
    rw [List.getElem?_eq_none (by omega)] at k1
    cases k1
  have hsize := hwf.size
  refine ⟨keys, peer, k1, k2, ?_, k4, ⟨k5, ?_, ?_, ?_⟩, ?_⟩
  · have : (route.kxPublics.map some) = (keys.map C.deriveKxPublic).map some := by rw [h5, k3]; rfl
    exact List.map_injective_iff.2 (fun _ _ h => Option.some.inj h) this
  · rw [k5]; simpa [hops] using h6
  · intro x hx
    have hx' : x ∈ hops route := List.mem_cons_of_mem _ hx
    have hsplit : hops route = (hops route).dropLast ++ [finalHop t ns kind] := by
      have := List.dropLast_append_getLast? _ h3
      exact this.symm
    rw [hsplit, List.mem_append, List.mem_singleton] at hx'
    have idx : ∀ i : Nat, net.peerOf (.mixnodeIndex i) = some fpeer → i ≤ 0xfeff := by
      intro i hi
      unfold Network.peerOf at hi
      dsimp only at hi
      by_contra hc
      rw [List.getElem?_eq_none (by rw [← ht]; omega)] at hi
      cases hi
    rcases hx' with hx' | rfl
    · obtain ⟨i, rfl, hi⟩ := h4 x hx'
      show i ≤ 0xfeff
      omega
    · generalize hf : finalHop t ns kind = f at *
      cases f with
      | mixnodeIndex i => exact idx i hpeer
      | peerId p =>
        show p.length = 32
        cases kind with
        | toMixnode d => cases hf
        | _ =>
          simp only [finalHop, localTarget] at hf
          split at hf <;> cases hf
          exact hns
  · have hsplit : hops route = (hops route).dropLast ++ [finalHop t ns kind] := by
      have := List.dropLast_append_getLast? _ h3
      exact this.symm
    have hsub : (route.targets.filter (fun t => match t with | .peerId _ => true | _ => false)).length ≤
        ((hops route).filter (fun t => match t with | .peerId _ => true | _ => false)).length := by
      unfold hops
      exact (List.Sublist.filter _ (List.sublist_cons_self _ _)).length_le
    refine Nat.le_trans hsub ?_
    rw [hsplit, List.filter_append, List.length_append]
    have : (hops route).dropLast.filter (fun t => match t with | .peerId _ => true | _ => false) = [] := by
      rw [List.filter_eq_nil_iff]
      intro x hx
      obtain ⟨i, rfl, -⟩ := h4 x hx
      simp
    rw [this]
    simp only [List.length_nil, Nat.zero_add]
    exact Nat.le_trans (List.length_filter_le _ _) (by simp)
  · csimp; omega

end Mixnet
