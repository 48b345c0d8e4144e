import Verif.Proofs.Choose
/-!
# Route generation
-/
namespace Mixnet

/-- What `Topology::new` establishes. -/
structure Topology.WF (t : Topology) : Prop where
  size : t.mixnodes.length ≤ 65280
  isLocal : ∀ i, t.localNode = .mixnode i → ∃ m, t.mixnodes[i]? = some m ∧ m.kxPublic = t.localKxPublic
  gateways : ∀ gs, t.localNode = .nonMixnode gs →
    gs.Nodup ∧ (∀ g ∈ gs, g < t.mixnodes.length) ∧ ∀ m ∈ t.mixnodes, m.kxPublic ≠ t.localKxPublic

theorem toMixnodeIndex_ok {i : Nat} (h : i < 65280) : toMixnodeIndex i = .ok i := by
  unfold toMixnodeIndex mixnodeIndexTryFrom
  rw [if_pos (show i ≤ MAX_MIXNODE_INDEX by csimp; omega)]; rfl

theorem toMixnodeIndices_ok : ∀ {l : List Nat}, (∀ i ∈ l, i < 65280) → toMixnodeIndices l = .ok l
  | [], _ => rfl
  | i :: l, h => by
    unfold toMixnodeIndices
    rw [toMixnodeIndex_ok (h i (by simp)), res_bind_ok,
      toMixnodeIndices_ok fun j hj => h j (by simp [hj])]
    rfl

theorem assertP_pos {site : String} {b : Bool} (h : b = true) : assertP site b = .ok () := by
  rw [h]; rfl

/-- `Topology::new` does not panic on at most 65280 mixnodes; what it returns. -/
theorem Topology.new_spec (rng : Rng) (ms : List Mixnode) (kx : KxPublic) (k : Nat) (h : ms.length ≤ 65280) :
    ∃ t rng', Topology.new rng ms kx k = .ok (t, rng') ∧ t.WF ∧ t.mixnodes = ms ∧ t.localKxPublic = kx ∧
      ((∃ i, t.localNode = .mixnode i ∧ (∃ m, ms[i]? = some m ∧ m.kxPublic = kx) ∧
          ∀ j < i, ∀ m, ms[j]? = some m → m.kxPublic ≠ kx) ∨
        ∃ gs, t.localNode = .nonMixnode gs ∧ gs.length = min k ms.length ∧ gs.Nodup ∧
          (∀ g ∈ gs, g < ms.length) ∧ ∀ m ∈ ms, m.kxPublic ≠ kx) := by
  unfold Topology.new
  rw [assertP_pos (by csimp; simpa using h), res_bind_ok]
  cases hf : ms.findIdx? (fun m => m.kxPublic == kx) with
  | none =>
    have hne : ∀ m ∈ ms, m.kxPublic ≠ kx := by
      intro m hm
      have := List.findIdx?_eq_none_iff.mp hf m hm
      simpa using this
    obtain ⟨s1, s2, s3⟩ := sample_spec rng ms.length (min k ms.length) (Nat.min_le_right ..)
    dsimp only
    rw [toMixnodeIndices_ok fun i hi => by have := s3 i hi; omega, res_bind_ok]
    refine ⟨_, _, rfl, ⟨h, fun i hi => ?_, fun gs hgs => ?_⟩, rfl, rfl, .inr ⟨_, rfl, s1, s2, s3, hne⟩⟩
    · cases hi
    · cases hgs; exact ⟨s2, s3, hne⟩
  | some i =>
    obtain ⟨hlt, hp, hfirst⟩ := List.findIdx?_eq_some_iff_getElem.mp hf
    have hp : ms[i].kxPublic = kx := by simpa using hp
    dsimp only
    rw [toMixnodeIndex_ok (by omega), res_bind_ok]
    refine ⟨_, _, rfl, ⟨h, fun j hj => ?_, fun gs hgs => ?_⟩, rfl, rfl,
      .inl ⟨i, rfl, ⟨ms[i], List.getElem?_eq_getElem hlt, hp⟩, ?_⟩⟩
    · cases hj; exact ⟨ms[i], List.getElem?_eq_getElem hlt, hp⟩
    · cases hgs
    · intro j hj m hm
      have hjl : j < ms.length := by omega
      rw [List.getElem?_eq_getElem hjl] at hm
      cases hm
      have := hfirst j hj
      simpa using this

theorem Topology.getMixnode_ok {t : Topology} {i : Nat} (h : i < t.mixnodes.length) :
    t.getMixnode i = .ok t.mixnodes[i] := by
  unfold Topology.getMixnode
  rw [List.getElem?_eq_getElem h]; rfl

/-- The connected gateways of a node, at most five. -/
def connectedOf (t : Topology) (ns : NetworkStatus) : List Nat :=
  match t.localNode with
  | .mixnode _ => []
  | .nonMixnode gs =>
    (gs.filter fun g => match t.mixnodes[g]? with
      | some m => ns.isConnected m.peerId
      | none => false).take 5

theorem connectedGateways_ok (t : Topology) (ns : NetworkStatus) : ∀ (gs : List Nat) (n : Nat),
    (∀ g ∈ gs, g < t.mixnodes.length) →
    RouteGenerator.connectedGateways t ns n gs = .ok ((gs.filter fun g => match t.mixnodes[g]? with
      | some m => ns.isConnected m.peerId
      | none => false).take n)
  | gs, 0, _ => by rw [RouteGenerator.connectedGateways, List.take_zero]
  | [], n + 1, _ => by rw [RouteGenerator.connectedGateways]; rfl; simp
  | g :: gs, n + 1, h => by
    have hg := h g (by simp)
    rw [RouteGenerator.connectedGateways, Topology.getMixnode_ok hg, res_bind_ok]
    have ih := fun k => connectedGateways_ok t ns gs k fun x hx => h x (by simp [hx])
    by_cases hc : ns.isConnected t.mixnodes[g].peerId = true
    · rw [if_pos hc, ih n, res_bind_ok, List.filter_cons_of_pos (by
        rw [List.getElem?_eq_getElem hg]; exact hc), List.take_succ_cons]
    · rw [if_neg hc, ih (n + 1), List.filter_cons_of_neg (by
        rw [List.getElem?_eq_getElem hg]; exact hc)]

structure RouteGenerator.WF (g : RouteGenerator) : Prop where
  topology : g.topology.WF
  none : ∀ i, g.topology.localNode = .mixnode i → g.connectedGatewayIndices = []
  sub : ∀ gs, g.topology.localNode = .nonMixnode gs → ∀ i ∈ g.connectedGatewayIndices, i ∈ gs
  nodup : g.connectedGatewayIndices.Nodup

theorem RouteGenerator.new_spec {t : Topology} (ns : NetworkStatus) (h : t.WF) :
    RouteGenerator.new t ns = .ok ⟨t, ns.localPeerId, connectedOf t ns⟩ ∧
    RouteGenerator.WF ⟨t, ns.localPeerId, connectedOf t ns⟩ := by
  cases hl : t.localNode with
  | mixnode i =>
    refine ⟨?_, h, fun _ _ => ?_, fun gs hgs => ?_, ?_⟩
    · unfold RouteGenerator.new connectedOf; rw [hl]; rfl
    · simp only [connectedOf, hl]
    · simp only [hl] at hgs; cases hgs
    · simp only [connectedOf, hl]; exact List.nodup_nil
  | nonMixnode gs =>
    obtain ⟨g1, g2, g3⟩ := h.gateways gs hl
    refine ⟨?_, h, fun i hi => ?_, fun gs' hgs i hi => ?_, ?_⟩
    · unfold RouteGenerator.new connectedOf
      rw [hl]; dsimp only
      rw [connectedGateways_ok t ns gs _ g2]; rfl
    · simp only [hl] at hi; cases hi
    · simp only [hl] at hgs; cases hgs
      simp only [connectedOf, hl] at hi
      exact List.mem_of_mem_filter (List.mem_of_mem_take hi)
    · simp only [connectedOf, hl]
      exact (g1.filter _).sublist (List.take_sublist ..)

namespace RouteGenerator

variable {g : RouteGenerator}

theorem WF.lt (h : g.WF) {i : Nat} (hi : i ∈ g.connectedGatewayIndices) : i < g.topology.mixnodes.length := by
  cases hl : g.topology.localNode with
  | mixnode j => rw [h.none j hl] at hi; simp at hi
  | nonMixnode gs => exact (h.topology.gateways gs hl).2.1 i (h.sub gs hl i hi)

/-- `choose_mixnode_index` never panics on a proper exclusion list. -/
theorem chooseMixnodeIndex_spec (h : g.WF) (rng : Rng) {ex : List Nat} (hs : Ascending ex)
    (hx : ∀ e ∈ ex, e < g.topology.mixnodes.length) :
    (ex.length = g.topology.mixnodes.length ∧
      g.chooseMixnodeIndex rng ex = .ok (.error .tooFewMixnodes)) ∨
    (ex.length < g.topology.mixnodes.length ∧
      skipExcluded (rng 0 % (g.topology.mixnodes.length - ex.length)) ex < g.topology.mixnodes.length ∧
      skipExcluded (rng 0 % (g.topology.mixnodes.length - ex.length)) ex ∉ ex ∧
      g.chooseMixnodeIndex rng ex =
        .ok (.ok (skipExcluded (rng 0 % (g.topology.mixnodes.length - ex.length)) ex, fun k => rng (k + 1)))) := by
  have hlen : ex.length ≤ g.topology.mixnodes.length := by
    have := ascending_length (lo := 0) hs (Nat.zero_le _) fun e he => ⟨Nat.zero_le _, hx e he⟩
    omega
  have hsz := h.topology.size
  unfold chooseMixnodeIndex
  rw [assertP_pos (decide_eq_true hlen), res_bind_ok]
  by_cases h0 : g.topology.mixnodes.length - ex.length = 0
  · left
    dsimp only
    rw [if_pos h0]
    exact ⟨by omega, rfl⟩
  · right
    have hlt := Nat.mod_lt (rng 0) (Nat.pos_of_ne_zero h0)
    have hle := skip_le ex (rng 0 % (g.topology.mixnodes.length - ex.length))
    have hb : skipExcluded (rng 0 % (g.topology.mixnodes.length - ex.length)) ex <
      g.topology.mixnodes.length := by omega
    refine ⟨by omega, hb, skip_not_mem hs _, ?_⟩
    dsimp only
    rw [if_neg h0]
    have hb' : skipExcluded (rng.genRange (g.topology.mixnodes.length - ex.length)).1 ex <
      g.topology.mixnodes.length := hb
    rw [assertP_pos (decide_eq_true hb'), res_bind_ok, toMixnodeIndex_ok (by omega), res_bind_ok]
    rfl

/-- `choose_connected_gateway_index`: which gateways can be returned. -/
theorem chooseConnected_spec (g : RouteGenerator) (rng : Rng) (x : Option Nat) :
    (g.connectedGatewayIndices = [] ∧
      g.chooseConnectedGatewayIndex rng x = .error .noConnectedGatewayMixnodes) ∨
    ∃ i rng', g.chooseConnectedGatewayIndex rng x = .ok (i, rng') ∧ i ∈ g.connectedGatewayIndices ∧
      (g.connectedGatewayIndices.Nodup → x = some i → g.connectedGatewayIndices = [i]) := by
  have hany : ∀ l : List Nat, (x = none ∨ ∃ y, x = some y ∧ y ∉ l) → (l = [] ∧ (match rng.choose l with
        | (some i, rng) => (.ok (i, rng) : Except TopologyErr (Nat × Rng))
        | (none, _) => .error .noConnectedGatewayMixnodes) = .error .noConnectedGatewayMixnodes) ∨
      ∃ i rng', (match rng.choose l with
        | (some i, rng) => (.ok (i, rng) : Except TopologyErr (Nat × Rng))
        | (none, _) => .error .noConnectedGatewayMixnodes) = .ok (i, rng') ∧ i ∈ l ∧
        (l.Nodup → x = some i → l = [i]) := by
    intro l hx
    cases l with
    | nil => left; exact ⟨rfl, rfl⟩
    | cons a l =>
      right
      have hlt := Nat.mod_lt (rng 0) (show 0 < (a :: l).length by simp)
      refine ⟨(a :: l)[rng 0 % (a :: l).length], fun k => rng (k + 1), ?_, List.getElem_mem hlt, ?_⟩
      · simp only [Rng.choose, List.isEmpty_cons, Bool.false_eq_true, if_false,
          List.getElem?_eq_getElem hlt]
      · intro _ hxi
        rcases hx with hx | ⟨y, hx, hy⟩
        · rw [hx] at hxi; cases hxi
        · rw [hx] at hxi; cases hxi; exact absurd (List.getElem_mem hlt) hy
  unfold chooseConnectedGatewayIndex
  dsimp only
  cases x with
  | none => exact hany _ (.inl rfl)
  | some x =>
    dsimp only
    by_cases hm : x ∈ g.connectedGatewayIndices
    · have : (g.connectedGatewayIndices.any (· == x)) = true := by simpa using hm
      rw [this]
      simp only [Bool.not_true, Bool.false_eq_true, if_false]
      cases hl : g.connectedGatewayIndices with
      | nil => rw [hl] at hm; simp at hm
      | cons first rest =>
        right
        rw [hl] at hm
        cases rest with
        | nil =>
          refine ⟨first, rng, rfl, by simp, fun _ _ => rfl⟩
        | cons b rest =>
          have hlt := Nat.mod_lt (rng 0) (show 0 < (b :: rest).length by simp)
          simp only [Rng.choose, List.isEmpty_cons, Bool.false_eq_true, if_false,
            List.getElem?_eq_getElem hlt]
          have hmem := List.getElem_mem hlt
          generalize (b :: rest)[rng 0 % (b :: rest).length] = c at hmem
          by_cases hc : c = x
          · subst hc
            rw [if_pos rfl]
            refine ⟨first, _, rfl, by simp, fun hnd hx => ?_⟩
            cases hx
            exact absurd hmem (List.nodup_cons.mp hnd).1
          · rw [if_neg hc]
            refine ⟨c, _, rfl, List.mem_cons_of_mem _ hmem, fun _ hx => ?_⟩
            cases hx; exact absurd rfl hc
    · have : (g.connectedGatewayIndices.any (· == x)) = false := by
        rw [← Bool.not_eq_true]; simpa using hm
      rw [this]
      simp only [Bool.not_false, if_true]
      exact hany _ (.inr ⟨x, rfl, hm⟩)

end RouteGenerator
end Mixnet
