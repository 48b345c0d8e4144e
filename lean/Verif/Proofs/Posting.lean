import Verif.Proofs.Keep
import Verif.Proofs.Randomness
import Verif.Spec.Posting
import Verif.Props.RoundTrip
import Verif.Props.Choosing
/-!
# From what the loops of posting did to what was posted
-/
namespace Mixnet
open Spec Props

/-- The SURB made. -/
def SurbInfo.toNew {C : Crypto} (i : SurbInfo C) : NewSurb C := ⟨i.id, i.surb, i.keys, i.route, i.delay⟩

/-- The packet made. -/
def PacketInfo.toNew {C : Crypto} (i : PacketInfo C) : NewPacket C :=
  ⟨i.packet, i.fragment, i.surbs.map (·.toNew), i.route, i.delay⟩

theorem withSession_eq {m : Node} {i : Nat} {rel : RelSessionIndex}
    (h : RelSessionIndex.fromSessionIndex i m.sessionStatus.currentIndex = some rel) (s : Session) :
    withSession m i s = { m with sessions := m.sessions.set rel (.full s) } := by
  unfold withSession
  rcases fromSessionIndex_some.1 h with ⟨rfl, hi⟩ | ⟨rfl, hi⟩
  · rw [if_pos hi]; rfl
  · rw [if_neg (by omega)]; rfl

theorem lastN_append {α} (n : Nat) (l l' : List α) : lastN n (lastN n l ++ l') = lastN n (l ++ l') := by
  unfold lastN
  rw [List.length_append, List.length_drop, List.length_append]
  by_cases h : l.length ≤ n
  · rw [show l.length - n = 0 from by omega]
    simp
  · rw [show l.length + l'.length - n = (l.length - n) + l'.length from by omega,
      show l.length - (l.length - n) + l'.length - n = l'.length from by omega]
    rw [List.drop_append, List.drop_append, List.drop_drop, List.length_drop]
    congr 2
    omega

theorem SurbKeystore.Creates.surbs {mid : MessageId} {k k' : SurbKeystore} {l : List (SurbId × List Bytes)}
    (h : Creates mid k l k') (hk : k.Inv) :
    k' = { k with surbs := lastN k.capacity (k.surbs ++ l.map fun e => (e.1, ⟨e.2, mid⟩)) } := by
  induction h with
  | nil k =>
    have := hk.len
    simp only [List.map_nil, List.append_nil, lastN]
    rw [show k.surbs.length - k.capacity = 0 from by omega]; rfl
  | @cons k k' id keys rest h1 h2 h3 ih =>
    have hi := SurbKeystore.created_inv hk h1 ⟨keys, mid⟩
    rw [ih hi]
    have hcap : (k.created id ⟨keys, mid⟩).capacity = k.capacity := rfl
    rw [hcap]
    have hs : (k.created id ⟨keys, mid⟩).surbs = lastN k.capacity (k.surbs ++ [(id, ⟨keys, mid⟩)]) := by
      have := hk.len
      have := hk.pos
      simp only [created, room, lastN, List.length_append, List.length_singleton]
      split
      · rename_i he
        rw [he, show k.capacity + 1 - k.capacity = 1 from by omega, List.drop_append_of_le_length (by omega)]
      · rename_i he
        rw [show k.surbs.length + 1 - k.capacity = 0 from by omega, List.drop_zero]
    rw [hs, lastN_append, List.append_assoc]
    rfl

variable {C : Crypto} {b : RequestBuilder} {mid : MessageId} {numHops : Nat}

theorem payloadData_zero_length : (payloadData zeroPacket).length = 2048 := by
  unfold payloadData slice zeroPacket
  rw [List.length_take, List.length_drop, List.length_replicate]
  csimp
  omega

/-- What the packets carry, all together. -/
theorem made_writes (hC : CryptoLaws C) : ∀ {bps : List FragmentBlueprint} {infos : List (PacketInfo C)},
    List.Forall₂ (PacketMade C b numHops) bps infos → (∀ bp ∈ bps, bp.numSurbs ≤ 9) →
    writeFragments bps (List.replicate bps.length (payloadData zeroPacket))
      ((infos.flatMap (·.surbs)).map (·.surb)) = .ok (infos.map (·.fragment)) ∧
    ((infos.flatMap (·.surbs)).map (·.surb)).length = (bps.map (·.numSurbs)).sum
  | [], _, .nil, _ => by simp [writeFragments]
  | bp :: bps, info :: infos, .cons h hs, h9 => by
    obtain ⟨ih1, ih2⟩ := made_writes hC hs (fun bp h => h9 bp (List.mem_cons_of_mem _ h))
    obtain ⟨rng, rng1, rng2, rng3, f0, e1, e2, e3, e4, e5, e6, e7, e8, e9⟩ := h
    have h9' := h9 bp List.mem_cons_self
    have hl : info.surbs.length = bp.numSurbs := by rw [e5, surbOffsets_length]; omega
    constructor
    · simp only [List.length_cons, List.replicate_succ, writeFragments, List.flatMap_cons, List.map_append]
      rw [e3, res_bind_ok, List.drop_left' (by rw [List.length_map]; exact hl), ih1, res_bind_ok,
        List.take_left' (by rw [List.length_map]; exact hl), List.map_cons, e4]
    · simp only [List.flatMap_cons, List.map_append, List.length_append, List.map_cons, List.sum_cons, ih2]
      rw [List.length_map, hl]

theorem fragment_length {bp : FragmentBlueprint} {buf f0 : Bytes} (h : bp.writeExceptSurbs buf = .ok f0)
    (hb : buf.length = 2048) (hm : bp.messageId.length = 16) (hw : bp.data.WF) : f0.length = FRAGMENT_SIZE := by
  unfold FragmentBlueprint.writeExceptSurbs at h
  rw [res_bind_eq_ok] at h
  obtain ⟨p, h1, h⟩ := h
  rw [res_bind_eq_ok] at h
  obtain ⟨q, h2, h⟩ := h
  unfold slicePrefix at h1
  have hle : bp.data.len ≤ (slice buf 23 2025).length := by
    by_cases hle : bp.data.len ≤ (slice buf 23 2025).length
    · exact hle
    · csimp at h1; rw [if_neg hle] at h1; cases h1
  have hw' : bp.data.len = bp.data.toVec.length := hw
  have hsl : (slice buf 23 2025).length = 2025 := by simp [slice, hb]
  have hp : p.length = bp.data.len := by
    csimp at h1; rw [if_pos hle] at h1
    cases h1
    rw [List.length_take]; omega
  rw [Scattered.copyToSlice_ok _ _ (by rw [hp]; exact hw')] at h2
  cases h2
  simp only [Except.ok.injEq] at h
  subst h
  csimp
  simp [splice, hsl, hm, toLe16, toLe8]
  omega

theorem surbMade_built (hC : CryptoLaws C) {t : Topology} {ns : NetworkStatus}
    (hg : RouteGenerator.new t ns = .ok b.routeGenerator) {x : SurbInfo C} (h : SurbMade C b numHops x)
    (ho : x.old.length = SURB_SIZE) : (x.toNew).Built t ns b.destinationIndex numHops ∧ x.surb.length = 222 := by
  obtain ⟨rng, rng1, rng2, e1, e2, e3, e4⟩ := h
  refine ⟨⟨⟨_, _, _, hg, e1⟩, e4, x.old, rng1, rng2, ho, e2⟩, ?_⟩
  have := buildSurb_length hC ho e2
  csimp at this
  exact this

theorem packetMade_built (hC : CryptoLaws C) {t : Topology} {ns : NetworkStatus}
    (hg : RouteGenerator.new t ns = .ok b.routeGenerator) (ht : b.routeGenerator.topology = t)
    {bp : FragmentBlueprint} {x : PacketInfo C} (h : PacketMade C b numHops bp x) {n : Nat}
    (hid : bp.messageId.length = 16) (hn : bp.lastIndex + 1 = n) (hn' : n ≤ 65536)
    (hidx : bp.index < n) (hw : bp.data.WF) (h9 : bp.numSurbs ≤ 9)
    (hfit : bp.data.toVec.length + 222 * bp.numSurbs ≤ 2025) :
    (x.toNew).Built t ns b.destinationIndex numHops ∧ (∀ s ∈ x.surbs, s.surb.length = 222) ∧
      payloadData (splice zeroPacket HEADER_SIZE x.fragment) = x.fragment ∧
      (splice zeroPacket HEADER_SIZE x.fragment).length = PACKET_SIZE ∧ (∀ s ∈ x.surbs, s.old.length = SURB_SIZE) := by
  obtain ⟨rng, rng1, rng2, rng3, f0, e1, e2, e3, e4, e5, e6, e7, e8, e9⟩ := h
  have hf0 := fragment_length e3 payloadData_zero_length hid hw
  have hold := e9 hC hf0
  have hsl : ∀ s ∈ x.surbs, s.surb.length = 222 := fun s hs => (surbMade_built hC hg (e6 s hs) (hold s hs)).2
  have hlen : (x.surbs.map (·.surb)).length = bp.numSurbs := by
    rw [List.length_map, e5, surbOffsets_length]; omega
  obtain ⟨f0', e3', hspec⟩ := writeFragment_spec bp (payloadData zeroPacket) (x.surbs.map (·.surb)) n
    payloadData_zero_length hid hn hn' hidx hw hfit hlen (by
      intro s hs
      obtain ⟨i, hi, rfl⟩ := List.mem_map.1 hs
      exact hsl i hi)
  rw [e3] at e3'
  cases e3'
  dsimp only at hspec
  rw [← e4] at hspec
  obtain ⟨hv, -, -, -, -, hsurbs⟩ := hspec
  have hpl : payloadData (splice zeroPacket HEADER_SIZE x.fragment) = x.fragment := by
    have := hv.1
    have hz := zeroPacket_length
    generalize zeroPacket = z at hz ⊢
    unfold payloadData slice splice
    csimp at hz ⊢
    rw [List.append_assoc, List.drop_left' (by rw [List.length_take, hz]; omega), List.take_left' this]
  have hspl : (splice zeroPacket HEADER_SIZE x.fragment).length = PACKET_SIZE := by
    have := hv.1
    have hz := zeroPacket_length
    generalize zeroPacket = z at hz ⊢
    csimp at hz ⊢
    simp only [splice, List.length_append, List.length_take, List.length_drop, this, hz]
    omega
  refine ⟨⟨⟨_, _, _, hg, e1⟩, ?_, ?_, ?_, splice zeroPacket HEADER_SIZE x.fragment, rng2, rng3, hspl, hpl, e7⟩, hsl, hpl, hspl, hold⟩
  · rw [ht] at e2
    unfold Topology.mixnodeIndexToPeerId at e2
    change ∃ mx, t.mixnodes[x.route.first]? = some mx ∧ x.packet.peerId = mx.peerId
    cases hm : t.mixnodes[x.route.first]? with
    | none => rw [hm] at e2; cases e2
    | some mx =>
      rw [hm] at e2
      simp only [Except.ok.injEq] at e2
      exact ⟨mx, rfl, e2.symm⟩
  · rw [show (x.toNew).fragment = x.fragment from rfl, hsurbs]
    simp only [PacketInfo.toNew, List.map_map]
    rfl
  · intro y hy
    obtain ⟨i, hi, rfl⟩ := List.mem_map.1 hy
    exact (surbMade_built hC hg (e6 i hi) (hold i hi)).1

end Mixnet
