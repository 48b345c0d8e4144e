import Verif.Proofs.GenRoute
import Verif.Spec.Route
/-!
# C21, C22: generated routes

Everything is stated for a topology made by `Topology::new` and a route generator made from it.
-/
namespace Mixnet.Props
open Mixnet Mixnet.Spec

theorem endpoint_eq (kind : RouteKind) : RouteGenerator.endpoint kind = otherEnd kind := by cases kind <;> rfl

/-- A node's view of the network, as the crate makes it. -/
structure View (t : Topology) (ns : NetworkStatus) (g : RouteGenerator) : Prop where
  topology : ∃ rng ms kx n rng', Topology.new rng ms kx n = .ok (t, rng')
  generator : RouteGenerator.new t ns = .ok g

theorem View.wf {t ns g} (v : View t ns g) :
    t.WF ∧ g = ⟨t, ns.localPeerId, connectedOf t ns⟩ ∧ g.WF := by
  obtain ⟨rng, ms, kx, n, rng', h⟩ := v.topology
  have ht : t.WF := by
    by_cases hm : ms.length ≤ 65280
    · obtain ⟨t', r', e, w, -⟩ := Topology.new_spec rng ms kx n hm
      rw [h] at e; cases e; exact w
    · unfold Topology.new at h
      rw [show assertP _ _ = Except.error _ from if_neg (by csimp; simpa using hm)] at h
      cases h
  obtain ⟨e, w⟩ := RouteGenerator.new_spec ns ht
  rw [v.generator] at e; cases e
  exact ⟨ht, rfl, w⟩

theorem take5_single {l : List Nat} {x : Nat} : l.take 5 = [x] ↔ l = [x] := by
  match l with
  | [] => simp
  | [a] => simp
  | a :: b :: l => simp

theorem take5_length {l : List Nat} : (l.take 5).length = 1 ↔ l.length = 1 := by
  rw [List.length_take]; omega

/-- What is known about a successful generation; see the theorems below for readable statements. -/
theorem route_form' {t : Topology} {ns : NetworkStatus} {g : RouteGenerator} (v : View t ns g) {kind : RouteKind}
    {k : Nat} (hk : k ≤ 6) (hd : ∀ d, otherEnd kind = some d → d < t.mixnodes.length) {rng rng' : Rng}
    {route : Route} (h : g.genRoute rng kind k = .ok (.ok (route, rng'))) :
    ∃ (first pen : Option Nat) (mids : List Nat), g.Specials kind first pen ∧
      hops route = (first.toList ++ mids ++ pen.toList).map Target.mixnodeIndex ++ [finalHop t ns kind] ∧
      route.kxPublics.map some = (hops route).map (keyOf t) ∧
      mids.length = g.midCount kind k ∧ mids.Nodup ∧
      (∀ x ∈ mids, x < t.mixnodes.length ∧ otherEnd kind ≠ some x ∧
        t.localNode ≠ .mixnode x ∧ first ≠ some x ∧ pen ≠ some x) ∧
      g.Drawn kind k rng first pen mids rng' := by
  obtain ⟨ht, hge, hg⟩ := v.wf
  have hgt : g.topology = t := by rw [hge]
  have hgl : g.localPeerId = ns.localPeerId := by rw [hge]
  simp only [← endpoint_eq, ← hgt] at hd
  rcases RouteGenerator.genRoute_spec hg rng kind hk hd with ⟨-, e⟩ | ⟨-, ⟨-, e⟩ |
    ⟨-, first, pen, mids, rng1, fi, x, hs, h1, h2, h3, h4, h5, h6, h7, h8⟩⟩
  · rw [h] at e; cases e
  · rw [h] at e; cases e
  · rw [h] at h4
    simp only [Except.ok.injEq, Prod.mk.injEq] at h4
    obtain ⟨rfl, rfl⟩ := h4
    have hlast : g.targetOf (RouteGenerator.lastHop kind) = finalHop t ns kind := by
      unfold RouteGenerator.targetOf RouteGenerator.hopTarget RouteGenerator.lastHop finalHop localTarget
      rw [hgt, hgl]
      cases kind <;> cases t.localNode <;> rfl
    have htgt : g.targetOf x = .mixnodeIndex fi := by
      unfold RouteGenerator.targetOf; rw [h3]
    have hhops : hops ⟨fi, hs.map g.targetOf, (x :: hs).map g.kxOf⟩ = (x :: hs).map g.targetOf := by
      unfold hops; rw [List.map_cons (f := g.targetOf), htgt]
    have hokall : ∀ y ∈ x :: hs, RouteGenerator.HopOk g y := by
      intro y hy
      rw [h2] at hy
      simp only [List.mem_append, List.mem_map, Option.mem_toList, List.mem_singleton] at hy
      have hsp : (∀ z, first = some z → z ∈ g.connectedGatewayIndices) ∧
          (∀ z, pen = some z → z ∈ g.connectedGatewayIndices) := by
        unfold RouteGenerator.Specials at h1
        split at h1
        · obtain ⟨rfl, rfl⟩ := h1
          exact ⟨fun _ h => (by cases h), fun _ h => (by cases h)⟩
        · obtain ⟨rfl, f, rfl, hf, -⟩ := h1
          exact ⟨fun _ h => (by cases h; exact hf), fun _ h => (by cases h)⟩
        · obtain ⟨rfl, f, rfl, hf, -⟩ := h1
          exact ⟨fun _ h => (by cases h), fun _ h => (by cases h; exact hf)⟩
        · obtain ⟨f, p, rfl, rfl, hf, hp, -⟩ := h1
          exact ⟨fun _ h => (by cases h; exact hf), fun _ h => (by cases h; exact hp)⟩
      rcases hy with ⟨z, hz, rfl⟩ | ⟨z, hz, rfl⟩ | ⟨z, hz, rfl⟩ | rfl
      · intro i hi; cases hi; exact hg.lt (hsp.1 _ hz)
      · intro i hi; cases hi; exact (h7 _ hz).1
      · intro i hi; cases hi; exact hg.lt (hsp.2 _ hz)
      · exact RouteGenerator.lastHop_ok hd
    refine ⟨first, pen, mids, h1, ?_, ?_, h5, h6, ?_, h8⟩
    · rw [hhops, h2]
      simp only [List.map_append, List.map_map, List.map_cons, List.map_nil, hlast, List.append_assoc]
      rfl
    · rw [hhops, List.map_map, List.map_map]
      refine List.map_congr_left fun y hy => ?_
      have hyok := hokall y hy
      cases y with
      | some j =>
        have hj : j < t.mixnodes.length := by rw [← hgt]; exact hyok j rfl
        simp [RouteGenerator.kxOf, RouteGenerator.targetOf, RouteGenerator.hopTarget, keyOf, hgt,
          List.getElem?_eq_getElem hj]
      | none =>
        cases hl : t.localNode with
        | mixnode i =>
          obtain ⟨m, hm, hmk⟩ := ht.isLocal i hl
          simp [RouteGenerator.kxOf, RouteGenerator.targetOf, RouteGenerator.hopTarget, keyOf, hgt, hl, hm, hmk]
        | nonMixnode gs =>
          simp [RouteGenerator.kxOf, RouteGenerator.targetOf, RouteGenerator.hopTarget, keyOf, hgt, hl]
    · rw [← endpoint_eq, ← hgt]; exact h7

theorem route_form {t : Topology} {ns : NetworkStatus} {g : RouteGenerator} (v : View t ns g) {kind : RouteKind}
    {k : Nat} (hk : k ≤ 6) (hd : ∀ d, otherEnd kind = some d → d < t.mixnodes.length) {rng rng' : Rng}
    {route : Route} (h : g.genRoute rng kind k = .ok (.ok (route, rng'))) :
    ∃ (first pen : Option Nat) (mids : List Nat), g.Specials kind first pen ∧
      hops route = (first.toList ++ mids ++ pen.toList).map Target.mixnodeIndex ++ [finalHop t ns kind] ∧
      route.kxPublics.map some = (hops route).map (keyOf t) ∧
      mids.length = g.midCount kind k ∧ mids.Nodup ∧
      (∀ x ∈ mids, x < t.mixnodes.length ∧ otherEnd kind ≠ some x ∧
        t.localNode ≠ .mixnode x ∧ first ≠ some x ∧ pen ≠ some x) := by
  obtain ⟨a, b, c, h1, h2, h3, h4, h5, h6, -⟩ := route_form' v hk hd h
  exact ⟨a, b, c, h1, h2, h3, h4, h5, h6⟩

theorem connected_of_view {t : Topology} {ns : NetworkStatus} {g : RouteGenerator} (v : View t ns g) {gs}
    (h : t.localNode = .nonMixnode gs) :
    ∃ cs, ConnectedGateways t ns cs ∧ g.connectedGatewayIndices = cs.take 5 := by
  obtain ⟨-, hge, -⟩ := v.wf
  refine ⟨_, ⟨gs, h, rfl⟩, ?_⟩
  rw [hge]; simp only [connectedOf, h]; rfl

theorem connected_unique {t : Topology} {ns : NetworkStatus} {a b} (ha : ConnectedGateways t ns a)
    (hb : ConnectedGateways t ns b) : a = b := by
  obtain ⟨g1, e1, rfl⟩ := ha
  obtain ⟨g2, e2, rfl⟩ := hb
  rw [e1] at e2; cases e2; rfl

/-- **C21.** The hops before the last are distinct mixnodes, none of them the local node or the mixnode at
the other end, except when the local node is connected to a single gateway: then that gateway, being the
other end, or both ends of a loop, appears where it must and nowhere else. -/
theorem route_no_repeats {t : Topology} {ns : NetworkStatus} {g : RouteGenerator} (v : View t ns g)
    {kind : RouteKind} {k : Nat} (hk : k ≤ 6) (hd : ∀ d, otherEnd kind = some d → d < t.mixnodes.length)
    {rng rng' : Rng} {route : Route} (h : g.genRoute rng kind k = .ok (.ok (route, rng'))) :
    ∃ inner : List Nat, hops route = inner.map Target.mixnodeIndex ++ [finalHop t ns kind] ∧
      (∀ x ∈ inner, x < t.mixnodes.length ∧ t.localNode ≠ .mixnode x) ∧
      ((inner.Nodup ∧ ∀ d, otherEnd kind = some d → d ∉ inner) ∨
       ∃ gw, ConnectedGateways t ns [gw] ∧ ∃ rest : List Nat, rest.Nodup ∧ gw ∉ rest ∧
         ((kind = .toMixnode gw ∧ inner = gw :: rest) ∨
          (kind = .fromMixnode gw ∧ inner = rest ++ [gw]) ∨
          (kind = .loop ∧ rest ≠ [] ∧ inner = gw :: (rest ++ [gw])))) := by
  obtain ⟨ht, hge, hg⟩ := v.wf
  have hgt : g.topology = t := by rw [hge]
  obtain ⟨first, pen, mids, h1, h2, -, h4, h5, h6⟩ := route_form v hk hd h
  refine ⟨_, h2, ?_⟩
  unfold RouteGenerator.Specials at h1
  rw [hgt] at h1
  cases hl : t.localNode with
  | mixnode i =>
    rw [hl] at h1
    obtain ⟨rfl, rfl⟩ := h1
    simp only [Option.toList_none, List.nil_append, List.append_nil]
    refine ⟨fun x hx => ⟨(h6 x hx).1, by rw [← hl]; exact (h6 x hx).2.2.1⟩, .inl ⟨h5, fun d hd' hm => ?_⟩⟩
    exact (h6 d hm).2.1 hd'
  | nonMixnode gs =>
    rw [hl] at h1
    obtain ⟨cs, hcs, hcg⟩ := connected_of_view v hl
    have hlt : ∀ i ∈ g.connectedGatewayIndices, i < t.mixnodes.length := fun i hi => by
      rw [← hgt]; exact hg.lt hi
    have hsingle : ∀ d, g.connectedGatewayIndices = [d] → ConnectedGateways t ns [d] := by
      intro d hdd
      rw [hcg, take5_single] at hdd; rw [← hdd]; exact hcs
    refine ⟨fun x hx => ⟨?_, by simp⟩, ?_⟩
    · simp only [List.mem_append, Option.mem_toList] at hx
      rcases hx with (hx | hx) | hx
      · subst hx
        cases kind with
        | toMixnode d => obtain ⟨-, f, e, hf, -⟩ := h1; cases e; exact hlt _ hf
        | fromMixnode d => obtain ⟨e, -⟩ := h1; cases e
        | loop => obtain ⟨f, p, e, -, hf, -⟩ := h1; cases e; exact hlt _ hf
      · exact (h6 x hx).1
      · subst hx
        cases kind with
        | toMixnode d => obtain ⟨e, -⟩ := h1; cases e
        | fromMixnode d => obtain ⟨-, f, e, hf, -⟩ := h1; cases e; exact hlt _ hf
        | loop => obtain ⟨f, p, -, e, -, hp, -⟩ := h1; cases e; exact hlt _ hp
    · cases kind with
      | toMixnode d =>
        obtain ⟨rfl, f, rfl, hf, hfd⟩ := h1
        simp only [Option.toList_none, List.append_nil, Option.toList_some]
        have hfm : f ∉ mids := fun hm => (h6 f hm).2.2.2.1 rfl
        by_cases e : f = d
        · subst e
          exact .inr ⟨f, hsingle f (hfd rfl), mids, h5, hfm, .inl ⟨rfl, rfl⟩⟩
        · refine .inl ⟨List.nodup_cons.mpr ⟨hfm, h5⟩, fun d' hd' hm => ?_⟩
          cases hd'
          rcases List.mem_append.mp hm with hm | hm
          · simp only [List.mem_singleton] at hm; exact e hm.symm
          · exact (h6 d hm).2.1 rfl
      | fromMixnode d =>
        obtain ⟨rfl, f, rfl, hf, hfd⟩ := h1
        simp only [Option.toList_none, List.nil_append, Option.toList_some]
        have hfm : f ∉ mids := fun hm => (h6 f hm).2.2.2.2 rfl
        by_cases e : f = d
        · subst e
          exact .inr ⟨f, hsingle f (hfd rfl), mids, h5, hfm, .inr (.inl ⟨rfl, rfl⟩)⟩
        · refine .inl ⟨?_, fun d' hd' hm => ?_⟩
          · rw [List.nodup_append]
            refine ⟨h5, by simp, ?_⟩
            intro a ha b hb
            simp only [List.mem_singleton] at hb
            rintro rfl; subst hb; exact hfm ha
          · cases hd'
            rcases List.mem_append.mp hm with hm | hm
            · exact (h6 d hm).2.1 rfl
            · simp only [List.mem_singleton] at hm; exact e hm.symm
      | loop =>
        obtain ⟨f, p, rfl, rfl, hf, hp, hpf⟩ := h1
        simp only [Option.toList_some, List.cons_append, List.nil_append]
        have hfm : f ∉ mids := fun hm => (h6 f hm).2.2.2.1 rfl
        have hpm : p ∉ mids := fun hm => (h6 p hm).2.2.2.2 rfl
        by_cases e : p = f
        · subst e
          refine .inr ⟨p, hsingle p (hpf rfl), mids, h5, hpm, .inr (.inr ⟨trivial, ?_, by simp⟩)⟩
          rintro rfl
          simp only [RouteGenerator.midCount, RouteGenerator.leastHops, RouteGenerator.fixedHops, hgt, hl,
            hpf rfl, List.length_nil, List.length_singleton, if_true] at h4
          omega
        · refine .inl ⟨?_, fun d hd' => by cases hd'⟩
          rw [List.nodup_cons]
          refine ⟨?_, ?_⟩
          · simp only [List.mem_append, List.mem_singleton, not_or]
            exact ⟨hfm, fun h => e h.symm⟩
          · rw [List.nodup_append]
            refine ⟨h5, by simp, ?_⟩
            intro a ha b hb
            simp only [List.mem_singleton] at hb
            rintro rfl; subst hb; exact hpm ha

/-- **C22.** Length, ends, gateways and keys of a generated route. -/
theorem route_shape {t : Topology} {ns : NetworkStatus} {g : RouteGenerator} (v : View t ns g)
    {kind : RouteKind} {k : Nat} (hk : k ≤ 6) (hd : ∀ d, otherEnd kind = some d → d < t.mixnodes.length)
    {rng rng' : Rng} {route : Route} (h : g.genRoute rng kind k = .ok (.ok (route, rng'))) :
    (∃ least, leastHops t ns kind least ∧ (hops route).length = max k least) ∧ (hops route).length ≤ 6 ∧
    (hops route).getLast? = some (finalHop t ns kind) ∧
    (∀ x ∈ (hops route).dropLast, ∃ i, x = .mixnodeIndex i ∧ i < t.mixnodes.length) ∧
    (∀ gs, ConnectedGateways t ns gs →
      (startsLocally kind → route.first ∈ gs) ∧
      (endsLocally kind → ∃ gw ∈ gs, (hops route).dropLast.getLast? = some (.mixnodeIndex gw))) ∧
    route.kxPublics.map some = (hops route).map (keyOf t) := by
  obtain ⟨ht, hge, hg⟩ := v.wf
  have hgt : g.topology = t := by rw [hge]
  obtain ⟨inner, e1, e2, -⟩ := route_no_repeats v hk hd h
  obtain ⟨first, pen, mids, h1, h2, h3, h4, h5, h6⟩ := route_form v hk hd h
  have hin : inner = first.toList ++ mids ++ pen.toList := by
    rw [e1] at h2
    have := List.append_inj_left' h2 rfl
    exact List.map_injective_iff.mpr (fun a b hab => by cases hab; rfl) this
  have hlen : (hops route).length = first.toList.length + g.midCount kind k + pen.toList.length + 1 := by
    rw [h2]; simp [h4]; omega
  have hdrop : (hops route).dropLast = inner.map Target.mixnodeIndex := by rw [e1, List.dropLast_concat]
  have hm : ∀ x ∈ (hops route).dropLast, ∃ i, x = .mixnodeIndex i ∧ i < t.mixnodes.length := by
    rw [hdrop]
    intro x hx
    obtain ⟨i, hi, rfl⟩ := List.mem_map.mp hx
    exact ⟨i, rfl, (e2 i hi).1⟩
  have hlast : (hops route).getLast? = some (finalHop t ns kind) := by rw [e1]; simp
  refine ⟨?_, ?_, hlast, hm, ?_, h3⟩
  · cases hl : t.localNode with
    | mixnode i =>
      refine ⟨1, ⟨fun _ _ => rfl, fun gs hgs => ?_⟩, ?_⟩
      · obtain ⟨g', hg', -⟩ := hgs; rw [hl] at hg'; cases hg'
      · unfold RouteGenerator.Specials at h1
        rw [hgt, hl] at h1
        obtain ⟨rfl, rfl⟩ := h1
        rw [hlen]
        simp only [RouteGenerator.midCount, RouteGenerator.leastHops, RouteGenerator.fixedHops, hgt, hl,
          Option.toList_none, List.length_nil]
        omega
    | nonMixnode gs =>
      obtain ⟨cs, hcs, hcg⟩ := connected_of_view v hl
      have h51 : g.connectedGatewayIndices.length = 1 ↔ cs.length = 1 := by rw [hcg, take5_length]
      unfold RouteGenerator.Specials at h1
      rw [hgt, hl] at h1
      refine ⟨1 + (if startsLocally kind then 1 else 0) + (if endsLocally kind then 1 else 0) +
        (if startsLocally kind ∧ endsLocally kind ∧ cs.length = 1 then 1 else 0), ⟨fun i hi => ?_, ?_⟩, ?_⟩
      · rw [hl] at hi; cases hi
      · intro gs' hgs'; rw [connected_unique hgs' hcs]
      · rw [hlen]
        cases kind with
        | toMixnode d =>
          obtain ⟨rfl, f, rfl, -⟩ := h1
          simp [RouteGenerator.midCount, RouteGenerator.leastHops, RouteGenerator.fixedHops, hgt, hl,
            startsLocally, endsLocally]
          omega
        | fromMixnode d =>
          obtain ⟨rfl, f, rfl, -⟩ := h1
          simp [RouteGenerator.midCount, RouteGenerator.leastHops, RouteGenerator.fixedHops, hgt, hl,
            startsLocally, endsLocally]
          omega
        | loop =>
          obtain ⟨f, p, rfl, rfl, -⟩ := h1
          simp only [RouteGenerator.midCount, RouteGenerator.leastHops, RouteGenerator.fixedHops, hgt, hl,
            startsLocally, endsLocally, h51, Option.toList_some, List.length_singleton, if_true, true_and]
          split <;> omega
  · rw [hlen]
    unfold RouteGenerator.Specials at h1
    rw [hgt] at h1
    cases hl : t.localNode with
    | mixnode i =>
      rw [hl] at h1
      obtain ⟨rfl, rfl⟩ := h1
      simp only [RouteGenerator.midCount, RouteGenerator.leastHops, RouteGenerator.fixedHops, hgt, hl,
          Option.toList_none, List.length_nil]
      omega
    | nonMixnode gs =>
      rw [hl] at h1
      cases kind with
      | toMixnode d =>
        obtain ⟨rfl, f, rfl, -⟩ := h1
        simp [RouteGenerator.midCount, RouteGenerator.leastHops, RouteGenerator.fixedHops, hgt, hl]
        omega
      | fromMixnode d =>
        obtain ⟨rfl, f, rfl, -⟩ := h1
        simp [RouteGenerator.midCount, RouteGenerator.leastHops, RouteGenerator.fixedHops, hgt, hl]
        omega
      | loop =>
        obtain ⟨f, p, rfl, rfl, -⟩ := h1
        simp only [RouteGenerator.midCount, RouteGenerator.leastHops, RouteGenerator.fixedHops, hgt, hl,
          Option.toList_some, List.length_singleton]
        split <;> omega
  · intro gs hgs
    obtain ⟨gw', hl, -⟩ := id hgs
    obtain ⟨cs, hcs, hcg⟩ := connected_of_view v hl
    have := connected_unique hgs hcs
    subst this
    unfold RouteGenerator.Specials at h1
    rw [hgt, hl] at h1
    have hin' : ∀ i ∈ g.connectedGatewayIndices, i ∈ gs := fun i hi => by
      rw [hcg] at hi; exact List.mem_of_mem_take hi
    refine ⟨fun hs => ?_, fun he => ?_⟩
    · have : ∃ f, first = some f ∧ f ∈ g.connectedGatewayIndices := by
        cases kind with
        | toMixnode d => obtain ⟨-, f, e, hf, -⟩ := h1; exact ⟨f, e, hf⟩
        | fromMixnode d => cases hs
        | loop => obtain ⟨f, p, e, -, hf, -⟩ := h1; exact ⟨f, e, hf⟩
      obtain ⟨f, rfl, hf⟩ := this
      simp only [hops, Option.toList_some, List.cons_append, List.map_cons, List.nil_append,
        List.cons.injEq] at h2
      have h2' := h2.1
      cases h2'
      exact hin' _ hf
    · have : ∃ p, pen = some p ∧ p ∈ g.connectedGatewayIndices := by
        cases kind with
        | toMixnode d => cases he
        | fromMixnode d => obtain ⟨-, f, e, hf, -⟩ := h1; exact ⟨f, e, hf⟩
        | loop => obtain ⟨f, p, -, e, -, hp, -⟩ := h1; exact ⟨p, e, hp⟩
      obtain ⟨p, rfl, hp⟩ := this
      refine ⟨p, hin' _ hp, ?_⟩
      rw [hdrop, hin]; simp

/-! ### Examples -/

def exMixnode (i : UInt8) : Mixnode := ⟨[i], [i], 0⟩
def exMixnodes : List Mixnode := [exMixnode 0, exMixnode 1, exMixnode 2, exMixnode 3]
/-- A client connected to two of four mixnodes. -/
def exTopology : Topology := ⟨exMixnodes, [9], .nonMixnode [1, 3]⟩
def exStatus : NetworkStatus := ⟨[9], fun p => p == [1] || p == [3]⟩

theorem exView : View exTopology exStatus ⟨exTopology, [9], [1, 3]⟩ :=
  ⟨⟨fun n => n + 1, exMixnodes, [9], 2, _, rfl⟩, rfl⟩

/-- A loop through both gateways. -/
example : ∃ r, (RouteGenerator.mk exTopology [9] [1, 3]).genRoute (fun n => n) .loop 4 =
    .ok (.ok (⟨1, [.mixnodeIndex 0, .mixnodeIndex 3, .peerId [9]], [[1], [0], [3], [9]]⟩, r)) := ⟨_, rfl⟩

/-- Too few mixnodes. -/
example : (RouteGenerator.mk exTopology [9] [1, 3]).genRoute (fun n => n) .loop 6 =
    .ok (.error .tooFewMixnodes) := rfl

/-- A client with a single connected gateway. -/
def exStatus1 : NetworkStatus := ⟨[9], fun p => p == [1]⟩
theorem exView1 : View exTopology exStatus1 ⟨exTopology, [9], [1]⟩ :=
  ⟨⟨fun n => n + 1, exMixnodes, [9], 2, _, rfl⟩, rfl⟩
example : ∃ r, (RouteGenerator.mk exTopology [9] [1]).genRoute (fun n => n) .loop 3 =
    .ok (.ok (⟨1, [.mixnodeIndex 2, .mixnodeIndex 1, .peerId [9]], [[1], [2], [1], [9]]⟩, r)) := ⟨_, rfl⟩
example : ConnectedGateways exTopology exStatus1 [1] := ⟨[1, 3], rfl, rfl⟩

/-- A mixnode. -/
def exTopologyM : Topology := ⟨exMixnodes, [2], .mixnode 2⟩
theorem exViewM : View exTopologyM exStatus ⟨exTopologyM, [9], []⟩ :=
  ⟨⟨fun n => n, exMixnodes, [2], 2, _, rfl⟩, rfl⟩
example : ∃ r, (RouteGenerator.mk exTopologyM [9] []).genRoute (fun n => n) (.fromMixnode 0) 3 =
    .ok (.ok (⟨1, [.mixnodeIndex 3, .mixnodeIndex 2], [[1], [3], [2]]⟩, r)) := ⟨_, rfl⟩

end Mixnet.Props
