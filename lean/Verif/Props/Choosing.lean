import Verif.Props.Routes
/-!
# C23, C24, C25: choosing mixnodes and gateways; reserved peers
-/
namespace Mixnet.Props
open Mixnet Mixnet.Spec

/-- Drawing uniformly from `m` numbers and applying `f` gives each element of `allowed` for exactly one draw
and nothing else. -/
def UniformOver (m : Nat) (f : Nat → Nat) (allowed : Nat → Prop) : Prop :=
  0 < m ∧ (∀ d < m, allowed (f d)) ∧ ∀ i, allowed i → ∃ d, (d < m ∧ f d = i) ∧ ∀ d', d' < m ∧ f d' = i → d' = d

/-- **C23.** With a sorted, duplicate-free exclusion list: an error iff everything is excluded, otherwise
uniform over the mixnodes that are not excluded. -/
theorem choose_mixnode_uniform {t : Topology} {ns : NetworkStatus} {g : RouteGenerator} (v : View t ns g)
    (exclude : List Nat) (hs : exclude.Pairwise (· < ·)) (hx : ∀ e ∈ exclude, e < t.mixnodes.length) :
    ((∀ i < t.mixnodes.length, i ∈ exclude) ∧
      ∀ rng, g.chooseMixnodeIndex rng exclude = .ok (.error .tooFewMixnodes)) ∨
    ((∃ i < t.mixnodes.length, i ∉ exclude) ∧ ∃ f,
      UniformOver (t.mixnodes.length - exclude.length) f (fun i => i < t.mixnodes.length ∧ i ∉ exclude) ∧
      ∀ rng, g.chooseMixnodeIndex rng exclude =
        .ok (.ok (f (rng 0 % (t.mixnodes.length - exclude.length)), fun n => rng (n + 1)))) := by
  obtain ⟨ht, hge, hg⟩ := v.wf
  have hgt : g.topology = t := by rw [hge]
  rw [← hgt] at hx ⊢
  have hlen : exclude.length ≤ g.topology.mixnodes.length := by
    have := ascending_length (lo := 0) hs (Nat.zero_le _) fun e he => ⟨Nat.zero_le _, hx e he⟩
    omega
  have key := fun rng => RouteGenerator.chooseMixnodeIndex_spec hg rng hs hx
  rcases Nat.lt_or_ge exclude.length g.topology.mixnodes.length with hl | hl
  · right
    have hf : ∀ d < g.topology.mixnodes.length - exclude.length,
        skipExcluded d exclude < g.topology.mixnodes.length ∧ skipExcluded d exclude ∉ exclude := by
      intro d hd
      refine ⟨?_, skip_not_mem hs d⟩
      have := skip_le exclude d; omega
    refine ⟨⟨_, hf 0 (by omega)⟩, fun d => skipExcluded d exclude, ⟨by omega, hf, ?_⟩, ?_⟩
    · intro i hi
      obtain ⟨d, -, hd, hb⟩ := skip_surj (lo := 0) hs (fun e he => ⟨Nat.zero_le _, hx e he⟩) hi.2
        (Nat.zero_le _) hi.1
      refine ⟨d, ⟨by omega, hd⟩, ?_⟩
      rintro d' ⟨-, hd'⟩
      dsimp only at hd'
      rcases Nat.lt_trichotomy d d' with h | h | h
      · have := skip_strictMono hs h; omega
      · exact h.symm
      · have := skip_strictMono hs h; omega
    · intro rng
      rcases key rng with ⟨h, -⟩ | ⟨-, -, -, h⟩
      · omega
      · exact h
  · left
    refine ⟨fun i hi => ?_, fun rng => ?_⟩
    · apply Classical.byContradiction
      intro hn
      obtain ⟨d, -, -, hb⟩ := skip_surj (lo := 0) hs (fun e he => ⟨Nat.zero_le _, hx e he⟩) hn
        (Nat.zero_le _) hi
      omega
    · rcases key rng with ⟨-, h⟩ | ⟨h, -⟩
      · exact h
      · omega

/-- **C23**, for request destinations: uniform over all mixnodes except the local one, or except the only
connected gateway. -/
theorem choose_destination_uniform {t : Topology} {ns : NetworkStatus} {g : RouteGenerator} (v : View t ns g) :
    ∃ excluded : Nat → Prop,
      (∀ i, excluded i ↔ t.localNode = .mixnode i ∨ ConnectedGateways t ns [i]) ∧
      (((∀ i < t.mixnodes.length, excluded i) ∧
          ∀ rng, g.chooseDestinationIndex rng = .ok (.error .tooFewMixnodes)) ∨
        ∃ m f, UniformOver m f (fun i => i < t.mixnodes.length ∧ ¬ excluded i) ∧
          ∀ rng, g.chooseDestinationIndex rng = .ok (.ok (f (rng 0 % m), fun n => rng (n + 1)))) := by
  obtain ⟨ht, hge, hg⟩ := v.wf
  have hgt : g.topology = t := by rw [hge]
  refine ⟨fun i => t.localNode = .mixnode i ∨ ConnectedGateways t ns [i], fun _ => Iff.rfl, ?_⟩
  have key : ∀ ex : List Nat, ex.Pairwise (· < ·) → (∀ e ∈ ex, e < t.mixnodes.length) →
      (∀ i, i ∈ ex ↔ (t.localNode = .mixnode i ∨ ConnectedGateways t ns [i])) →
      (∀ rng, g.chooseDestinationIndex rng = g.chooseMixnodeIndex rng ex) →
      (((∀ i < t.mixnodes.length, t.localNode = .mixnode i ∨ ConnectedGateways t ns [i]) ∧
          ∀ rng, g.chooseDestinationIndex rng = .ok (.error .tooFewMixnodes)) ∨
        ∃ m f, UniformOver m f (fun i => i < t.mixnodes.length ∧
            ¬ (t.localNode = .mixnode i ∨ ConnectedGateways t ns [i])) ∧
          ∀ rng, g.chooseDestinationIndex rng = .ok (.ok (f (rng 0 % m), fun n => rng (n + 1)))) := by
    intro ex h1 h2 h3 h4
    simp only [h4, ← h3]
    rcases choose_mixnode_uniform v ex h1 h2 with h | ⟨-, f, h⟩
    · exact .inl h
    · exact .inr ⟨_, f, h⟩
  obtain ⟨ln, hl⟩ : ∃ ln, t.localNode = ln := ⟨_, rfl⟩
  cases ln with
  | mixnode i =>
    obtain ⟨m, hm, -⟩ := ht.isLocal i hl
    refine key [i] (by simp) ?_ ?_ ?_
    · intro e he; simp only [List.mem_singleton] at he; subst he; exact (List.getElem?_eq_some_iff.mp hm).1
    · intro j
      rw [List.mem_singleton, hl]
      constructor
      · rintro rfl; exact .inl rfl
      · rintro (h | ⟨gs, h, -⟩)
        · cases h; rfl
        · rw [hl] at h; cases h
    · intro rng; unfold RouteGenerator.chooseDestinationIndex; rw [hgt, hl]
  | nonMixnode gs =>
    obtain ⟨cs, hcs, hcg⟩ := connected_of_view v hl
    have hiff : ∀ j, (t.localNode = .mixnode j ∨ ConnectedGateways t ns [j]) ↔ cs = [j] := by
      intro j
      constructor
      · rintro (h | h)
        · rw [hl] at h; cases h
        · exact connected_unique hcs h
      · rintro rfl; exact .inr hcs
    have hcd : ∀ rng, g.chooseDestinationIndex rng = g.chooseMixnodeIndex rng
        (match g.connectedGatewayIndices with | [i] => [i] | _ => []) := by
      intro rng; unfold RouteGenerator.chooseDestinationIndex; rw [hgt, hl]; rfl
    rw [hcg] at hcd
    match cs, hcg, hiff, hcd with
    | [], hcg, hiff, hcd =>
      exact key [] (by simp) (by simp) (fun j => by rw [hiff]; simp) hcd
    | [a], hcg, hiff, hcd =>
      refine key [a] (by simp) ?_ (fun j => by rw [hiff]; simp [eq_comm]) hcd
      intro e he; simp only [List.mem_singleton] at he; subst he
      rw [← hgt]; exact hg.lt (by rw [hcg]; simp)
    | a :: b :: l, hcg, hiff, hcd =>
      exact key [] (by simp) (by simp) (fun j => by rw [hiff]; simp) (by simpa using hcd)

/-- **C24.** Among the connected gateways, all except the excluded mixnode are chosen uniformly; the excluded
one only if it is the only one. -/
theorem choose_gateway_uniform (g : RouteGenerator) (hnd : g.connectedGatewayIndices.Nodup)
    (exclude : Option Nat) :
    (g.connectedGatewayIndices = [] ∧
      ∀ rng, g.chooseConnectedGatewayIndex rng exclude = .error .noConnectedGatewayMixnodes) ∨
    (g.connectedGatewayIndices ≠ [] ∧ ∃ m f,
      UniformOver m f (fun i => i ∈ g.connectedGatewayIndices ∧
        (exclude = some i → g.connectedGatewayIndices = [i])) ∧
      ∀ rng, ∃ rng', g.chooseConnectedGatewayIndex rng exclude = .ok (f (rng 0 % m), rng')) := by
  obtain ⟨cs, hcs⟩ : ∃ cs, g.connectedGatewayIndices = cs := ⟨_, rfl⟩
  rw [hcs] at hnd ⊢
  cases cs with
  | nil =>
    left
    refine ⟨rfl, fun rng => ?_⟩
    rcases RouteGenerator.chooseConnected_spec g rng exclude with ⟨-, h⟩ | ⟨i, -, -, h, -⟩
    · exact h
    · rw [hcs] at h; simp at h
  | cons a l =>
    right
    refine ⟨by simp, ?_⟩
    have hidx : ∀ {k : List Nat}, k.Nodup → ∀ i ∈ k, ∃ d, (d < k.length ∧ k.getD d 0 = i) ∧
        ∀ d', d' < k.length ∧ k.getD d' 0 = i → d' = d := by
      intro k hk i hi
      obtain ⟨d, hd, e⟩ := List.getElem_of_mem hi
      refine ⟨d, ⟨hd, by simp [List.getElem?_eq_getElem hd, e]⟩, ?_⟩
      rintro d' ⟨hd', e'⟩
      simp only [List.getD_eq_getElem?_getD, List.getElem?_eq_getElem hd', Option.getD_some] at e'
      exact (List.Nodup.getElem_inj_iff hk).mp (e'.trans e.symm)
    have hget : ∀ {k : List Nat} {d}, d < k.length → k.getD d 0 ∈ k := by
      intro k d hd
      simp only [List.getD_eq_getElem?_getD, List.getElem?_eq_getElem hd, Option.getD_some]
      exact List.getElem_mem hd
    by_cases hx : ∃ x, exclude = some x ∧ x ∈ a :: l
    · obtain ⟨x, rfl, hx⟩ := hx
      have hany : ((a :: l).any (· == x)) = true := List.any_eq_true.mpr ⟨x, hx, by simp⟩
      cases l with
      | nil =>
        simp only [List.mem_singleton] at hx
        subst hx
        refine ⟨1, fun _ => x, ⟨by simp, fun d hd => by simp, ?_⟩, fun rng => ?_⟩
        · rintro i ⟨hi, -⟩
          simp only [List.mem_singleton] at hi
          subst hi
          exact ⟨0, by simp, fun d' h => by omega⟩
        · refine ⟨rng, ?_⟩
          unfold RouteGenerator.chooseConnectedGatewayIndex
          simp only [hcs, hany]
          rfl
      | cons b l =>
        obtain ⟨hal, hndl⟩ := List.nodup_cons.mp hnd
        refine ⟨(b :: l).length, fun d => if (b :: l).getD d 0 = x then a else (b :: l).getD d 0,
          ⟨by simp, fun d hd => ?_, ?_⟩, fun rng => ?_⟩
        · by_cases e : (b :: l).getD d 0 = x
          · simp only [e, if_true]
            refine ⟨by simp, fun h => ?_⟩
            cases h
            exact absurd (e ▸ hget hd) hal
          · simp only [e, if_false]
            refine ⟨List.mem_cons_of_mem _ (hget hd), fun h => ?_⟩
            exact absurd (by cases h; rfl) e
        · rintro i ⟨hi, hne⟩
          have hix : i ≠ x := by
            rintro rfl
            have := hne rfl
            simp at this
          rcases List.mem_cons.mp hi with rfl | hi
          · -- the first gateway stands in for the excluded one
            have hxl : x ∈ b :: l := by
              rcases List.mem_cons.mp hx with h | h
              · exact absurd h.symm hix
              · exact h
            obtain ⟨d, ⟨d1, d2⟩, d3⟩ := hidx hndl x hxl
            refine ⟨d, ⟨d1, by simp only [d2, if_true]⟩, ?_⟩
            rintro d' ⟨h1, h2⟩
            dsimp only at h2
            by_cases e : (b :: l).getD d' 0 = x
            · exact d3 d' ⟨h1, e⟩
            · rw [if_neg e] at h2
              exact absurd (h2 ▸ hget h1) hal
          · obtain ⟨d, ⟨d1, d2⟩, d3⟩ := hidx hndl i hi
            refine ⟨d, ⟨d1, by simp only [d2]; rw [if_neg hix]⟩, ?_⟩
            rintro d' ⟨h1, h2⟩
            dsimp only at h2
            by_cases e : (b :: l).getD d' 0 = x
            · rw [if_pos e] at h2
              subst h2; exact absurd hi hal
            · rw [if_neg e] at h2
              exact d3 d' ⟨h1, h2⟩
        · refine ⟨fun n => rng (n + 1), ?_⟩
          have hlt := Nat.mod_lt (rng 0) (show 0 < (b :: l).length by simp)
          unfold RouteGenerator.chooseConnectedGatewayIndex
          simp only [hcs, hany, Bool.not_true, Bool.false_eq_true, if_false, Rng.choose, List.isEmpty_cons,
            List.getElem?_eq_getElem hlt, List.getD_eq_getElem?_getD, Option.getD_some]
    · have hux : UniformOver (a :: l).length (fun d => (a :: l).getD d 0) (fun i => i ∈ a :: l ∧
          (exclude = some i → a :: l = [i])) := by
        refine ⟨by simp, fun d hd => ⟨hget hd, fun h => absurd ⟨_, h, hget hd⟩ hx⟩, ?_⟩
        rintro i ⟨hi, -⟩
        exact hidx hnd i hi
      refine ⟨_, _, hux, fun rng => ⟨fun n => rng (n + 1), ?_⟩⟩
      have hlt := Nat.mod_lt (rng 0) (show 0 < (a :: l).length by simp)
      unfold RouteGenerator.chooseConnectedGatewayIndex
      cases exclude with
      | none =>
        simp only [hcs, Bool.false_eq_true, if_false, Rng.choose, List.isEmpty_cons,
          List.getElem?_eq_getElem hlt, List.getD_eq_getElem?_getD, Option.getD_some]
      | some x =>
        have hany : ((a :: l).any (· == x)) = false := by
          rw [← Bool.not_eq_true]
          intro h
          exact hx ⟨x, rfl, by
            obtain ⟨y, hy, e⟩ := List.any_eq_true.mp h
            simp only [beq_iff_eq] at e
            subst e; exact hy⟩
        simp only [hcs, hany, Bool.not_false, if_true, Bool.false_eq_true, if_false, Rng.choose, List.isEmpty_cons,
          List.getElem?_eq_getElem hlt, List.getD_eq_getElem?_getD, Option.getD_some]

/-- The hypothesis of `choose_gateway_uniform` holds of every route generator the crate makes. -/
theorem view_gateways_nodup {t : Topology} {ns : NetworkStatus} {g : RouteGenerator} (v : View t ns g) :
    g.connectedGatewayIndices.Nodup := v.wf.2.2.nodup

theorem getMixnodes_ok {t : Topology} : ∀ {l : List Nat}, (∀ i ∈ l, i < t.mixnodes.length) →
    ∃ ps, t.getMixnodes l = .ok ps ∧ ps.map some = l.map (t.mixnodes[·]?)
  | [], _ => ⟨[], rfl, rfl⟩
  | i :: l, h => by
    obtain ⟨ps, h1, h2⟩ := getMixnodes_ok (l := l) fun j hj => h j (by simp [hj])
    have hi := h i (by simp)
    refine ⟨t.mixnodes[i] :: ps, ?_, by simp [h2, List.getElem?_eq_getElem hi]⟩
    unfold Topology.getMixnodes
    rw [Topology.getMixnode_ok hi, res_bind_ok, h1]; rfl

/-- **C25.** The reserved peers. -/
theorem reserved_peers_exact (rng rng' : Rng) (mixnodes : List Mixnode) (key : KxPublic) (numGateways : Nat)
    (t : Topology) (h : Topology.new rng mixnodes key numGateways = .ok (t, rng')) :
    t.mixnodes = mixnodes ∧
    ((∃ i m, mixnodes[i]? = some m ∧ m.kxPublic = key ∧ (∀ j < i, ∀ m, mixnodes[j]? = some m → m.kxPublic ≠ key) ∧
        t.localNode = .mixnode i ∧ t.reservedPeers = .ok (mixnodes.eraseIdx i)) ∨
     ((∀ m ∈ mixnodes, m.kxPublic ≠ key) ∧ ∃ gateways : List Nat, t.localNode = .nonMixnode gateways ∧
        gateways.Nodup ∧ gateways.length = min numGateways mixnodes.length ∧
        ∃ ps, t.reservedPeers = .ok ps ∧ ps.map some = gateways.map (mixnodes[·]?) ∧
          ∀ m ∈ ps, m ∈ mixnodes)) := by
  by_cases hm : mixnodes.length ≤ 65280
  · obtain ⟨t', r', e, w, e1, e2, e3⟩ := Topology.new_spec rng mixnodes key numGateways hm
    rw [h] at e; cases e
    refine ⟨e1, ?_⟩
    rcases e3 with ⟨i, hl, ⟨m, hm1, hm2⟩, hfirst⟩ | ⟨gs, hl, g1, g2, g3, hne⟩
    · left
      refine ⟨i, m, hm1, hm2, hfirst, hl, ?_⟩
      have hi := (List.getElem?_eq_some_iff.mp hm1).1
      unfold Topology.reservedPeers Topology.reservedIndices
      rw [hl]
      dsimp only
      rw [e1]
      obtain ⟨ps, p1, p2⟩ := getMixnodes_ok (t := t)
        (l := List.range i ++ List.range' (i + 1) (mixnodes.length - (i + 1))) (by
          intro j hj
          rw [e1]
          simp only [List.mem_append, List.mem_range, List.mem_range'_1] at hj
          omega)
      rw [p1]
      congr 1
      rw [e1] at p2
      apply List.map_injective_iff.mpr (Option.some_injective _)
      rw [p2]
      apply List.ext_getElem?
      intro j
      rw [List.getElem?_map, List.getElem?_map, List.getElem?_eraseIdx]
      rcases Nat.lt_or_ge j i with hj | hj
      · rw [List.getElem?_append_left (by simpa using hj), List.getElem?_range hj, if_pos hj]
        have : j < mixnodes.length := by omega
        simp [List.getElem?_eq_getElem this]
      · rw [List.getElem?_append_right (by simpa using hj), if_neg (by omega), List.length_range]
        rcases Nat.lt_or_ge (j + 1) mixnodes.length with hj2 | hj2
        · rw [List.getElem?_range' (by omega), List.getElem?_eq_getElem hj2]
          simp only [Option.map_some, Nat.one_mul]
          rw [show i + 1 + (j - i) = j + 1 by omega, List.getElem?_eq_getElem hj2]
        · rw [List.getElem?_eq_none (by simp; omega), List.getElem?_eq_none hj2]; rfl
    · right
      refine ⟨hne, gs, hl, g2, g1, ?_⟩
      obtain ⟨ps, p1, p2⟩ := getMixnodes_ok (t := t) (l := gs) (by rw [e1]; exact g3)
      rw [e1] at p2
      refine ⟨ps, ?_, p2, fun m hm => ?_⟩
      · unfold Topology.reservedPeers Topology.reservedIndices; rw [hl]; exact p1
      · have : some m ∈ gs.map (mixnodes[·]?) := by rw [← p2]; exact List.mem_map_of_mem hm
        obtain ⟨i, -, hi⟩ := List.mem_map.mp this
        exact List.mem_of_getElem? hi
  · unfold Topology.new at h
    rw [show assertP _ _ = Except.error _ from if_neg (by csimp; simpa using hm)] at h
    cases h

/-- **C25**: the local node is taken for a mixnode exactly if its key is among the mixnodes' keys. -/
theorem is_mixnode_iff (rng rng' : Rng) (mixnodes : List Mixnode) (key : KxPublic) (numGateways : Nat)
    (t : Topology) (h : Topology.new rng mixnodes key numGateways = .ok (t, rng')) :
    t.isMixnode = true ↔ ∃ m ∈ mixnodes, m.kxPublic = key := by
  obtain ⟨-, ⟨i, m, h1, h2, -, h3, -⟩ | ⟨h1, gs, h2, -⟩⟩ := reserved_peers_exact rng rng' mixnodes key numGateways t h
  · exact ⟨fun _ => ⟨m, List.mem_of_getElem? h1, h2⟩, fun _ => by simp [Topology.isMixnode, h3]⟩
  · exact ⟨fun h => by simp [Topology.isMixnode, h2] at h, fun ⟨m, hm, hk⟩ => absurd hk (h1 m hm)⟩

/-- **C25**, second part: a node that is not a mixnode starts every route at a reserved peer. -/
theorem first_hop_reserved {t : Topology} {ns : NetworkStatus} {g : RouteGenerator} (v : View t ns g)
    (hnm : t.isMixnode = false)
    {kind : RouteKind} {k : Nat} (hk : k ≤ 6) (hd : ∀ d, otherEnd kind = some d → d < t.mixnodes.length)
    (hs : startsLocally kind = true)
    {rng rng' : Rng} {route : Route} (h : g.genRoute rng kind k = .ok (.ok (route, rng'))) :
    ∃ ps m, t.reservedPeers = .ok ps ∧ t.mixnodes[route.first]? = some m ∧ m ∈ ps ∧
      ns.isConnected m.peerId = true := by
  obtain ⟨ht, -, -⟩ := v.wf
  obtain ⟨-, -, -, -, h5, -⟩ := route_shape v hk hd h
  cases hl : t.localNode with
  | mixnode i => simp [Topology.isMixnode, hl] at hnm
  | nonMixnode gs =>
    obtain ⟨g1, g2, -⟩ := ht.gateways gs hl
    obtain ⟨ps, p1, p2⟩ := getMixnodes_ok (t := t) (l := gs) g2
    have hf := (h5 _ ⟨gs, hl, rfl⟩).1 hs
    obtain ⟨hfm, hfc⟩ := List.mem_filter.mp hf
    have hlt := g2 _ hfm
    refine ⟨ps, t.mixnodes[route.first], ?_, List.getElem?_eq_getElem hlt, ?_, ?_⟩
    · unfold Topology.reservedPeers Topology.reservedIndices; rw [hl]; exact p1
    · have : t.mixnodes[route.first]? ∈ gs.map (t.mixnodes[·]?) := List.mem_map_of_mem hfm
      rw [← p2, List.getElem?_eq_getElem hlt] at this
      obtain ⟨m, hm, e⟩ := List.mem_map.mp this
      cases e; exact hm
    · rw [List.getElem?_eq_getElem hlt] at hfc; exact hfc

example : exTopology.reservedPeers = .ok [exMixnode 1, exMixnode 3] := rfl
example : exTopologyM.reservedPeers = .ok [exMixnode 0, exMixnode 1, exMixnode 3] := rfl
example : [1, 2].Pairwise (· < ·) ∧ ∀ e ∈ [1, 2], e < exTopology.mixnodes.length := by decide

end Mixnet.Props
