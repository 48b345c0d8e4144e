import Verif.Proofs.RouteChoice
import Mathlib.Data.List.Perm.Subperm
/-!
# C26, C52: when a route exists, and that all routes are equally likely
-/
namespace Mixnet.Props
open Mixnet Mixnet.Spec

theorem least_iff {t : Topology} {ns : NetworkStatus} {g : RouteGenerator} (v : View t ns g) (kind : RouteKind)
    (n : Nat) : Spec.leastHops t ns kind n ↔ n = g.leastHops kind := by
  obtain ⟨ht, hge, hg⟩ := v.wf
  have hgt : g.topology = t := by rw [hge]
  unfold Spec.leastHops RouteGenerator.leastHops
  rw [hgt]
  cases hl : t.localNode with
  | mixnode i =>
    constructor
    · intro h; exact h.1 i rfl
    · rintro rfl
      refine ⟨fun _ _ => rfl, fun gs ⟨g', hg', _⟩ => ?_⟩
      rw [hl] at hg'; cases hg'
  | nonMixnode gs =>
    obtain ⟨cs, hcs, hcg⟩ := connected_of_view v hl
    have h51 : g.connectedGatewayIndices.length = 1 ↔ cs.length = 1 := by rw [hcg, take5_length]
    have hrhs : (1 + (if startsLocally kind then 1 else 0) + (if endsLocally kind then 1 else 0) +
        (if startsLocally kind ∧ endsLocally kind ∧ cs.length = 1 then 1 else 0)) = g.leastHops kind := by
      unfold RouteGenerator.leastHops
      rw [hgt, hl]
      cases kind with
      | toMixnode d => simp [startsLocally, endsLocally]
      | fromMixnode d => simp [startsLocally, endsLocally]
      | loop =>
        simp only [startsLocally, endsLocally, h51, if_true, true_and]
        split <;> rfl
    have hrhs' := hrhs
    unfold RouteGenerator.leastHops at hrhs'
    rw [hgt, hl] at hrhs'
    rw [← hrhs']
    constructor
    · intro h; exact h.2 cs hcs
    · rintro rfl
      refine ⟨fun _ h => (by cases h), fun gs' hgs' => ?_⟩
      rw [connected_unique hgs' hcs]

theorem fits_iff {t : Topology} {ns : NetworkStatus} {g : RouteGenerator} (v : View t ns g) (kind : RouteKind)
    (k : Nat) (inner : List Nat) : Fits t ns kind k inner ↔ g.InnerOk kind k inner := by
  obtain ⟨ht, hge, hg⟩ := v.wf
  have hgt : g.topology = t := by rw [hge]
  have hmem : ∀ first pen u, u ∈ g.usedOf kind first pen ↔ otherEnd kind = some u ∨ t.localNode = .mixnode u ∨
      first = some u ∨ pen = some u := by
    intro first pen u
    rw [(g.usedOf_spec kind first pen).2, endpoint_eq, hgt]
  have hlast : ∀ (l : List Nat) (x : Nat), (l ++ [x]).getLast? = some x := by simp
  cases hl : t.localNode with
  | mixnode i =>
    have hno : ∀ gs, ¬ ConnectedGateways t ns gs := by
      rintro gs ⟨g', hg', -⟩; rw [hl] at hg'; cases hg'
    have hmc : ∀ n, n + 1 = max k 1 ↔ n = g.midCount kind k := by
      intro n
      simp only [RouteGenerator.midCount, RouteGenerator.leastHops, RouteGenerator.fixedHops, hgt, hl]
      omega
    have hls : g.leastHops kind = 1 := by unfold RouteGenerator.leastHops; rw [hgt, hl]
    constructor
    · rintro ⟨⟨least, h1, h2⟩, h3, -, -, h6⟩
      rw [least_iff v, hls] at h1; subst h1
      refine ⟨none, none, inner, ?_, ⟨(hmc _).mp h2, ?_⟩, by simp⟩
      · unfold RouteGenerator.Specials; rw [hgt, hl]; exact ⟨rfl, rfl⟩
      · rcases h6 with ⟨h6, h7⟩ | ⟨gw, h, -⟩
        · refine ⟨h6, fun x hx => ⟨by rw [hgt]; exact (h3 x hx).1, ?_⟩⟩
          rw [hmem]
          rintro (h | h | h | h)
          · exact h7 x h hx
          · exact (h3 x hx).2 h
          · cases h
          · cases h
        · exact absurd h (hno _)
    · rintro ⟨first, pen, mids, h1, ⟨h2, h3, h4⟩, rfl⟩
      unfold RouteGenerator.Specials at h1
      rw [hgt, hl] at h1
      obtain ⟨rfl, rfl⟩ := h1
      simp only [Option.toList_none, List.nil_append, List.append_nil]
      refine ⟨⟨1, by rw [least_iff v, hls], (hmc _).mpr h2⟩, fun x hx => ?_, fun gs h => absurd h (hno _),
        fun gs h => absurd h (hno _), .inl ⟨h3, fun d hd hm => ?_⟩⟩
      · obtain ⟨a, b⟩ := h4 x hx
        rw [hmem] at b
        push Not at b
        exact ⟨by rw [← hgt]; exact a, b.2.1⟩
      · obtain ⟨a, b⟩ := h4 d hm
        rw [hmem] at b
        push Not at b
        exact b.1 hd
  | nonMixnode gs =>
    obtain ⟨cs, hcs, hcg⟩ := connected_of_view v hl
    have hsing : ∀ x, g.connectedGatewayIndices = [x] ↔ cs = [x] := fun x => by rw [hcg, take5_single]
    have hctd : ∀ x, ConnectedGateways t ns [x] ↔ g.connectedGatewayIndices = [x] := by
      intro x
      rw [hsing]
      constructor
      · intro h; exact connected_unique hcs h
      · rintro rfl; exact hcs
    have hlt : ∀ i ∈ g.connectedGatewayIndices, i < t.mixnodes.length := fun i hi => by
      rw [← hgt]; exact hg.lt hi
    have hnl : ∀ x, t.localNode ≠ .mixnode x := fun x h => by rw [hl] at h; cases h
    have huniq : ∀ {gs'}, ConnectedGateways t ns gs' → gs'.take 5 = g.connectedGatewayIndices := fun h => by
      rw [connected_unique h hcs, hcg]
    cases kind with
    | toMixnode d =>
      have hls : g.leastHops (.toMixnode d) = 2 := by unfold RouteGenerator.leastHops; rw [hgt, hl]
      have hmc : g.midCount (.toMixnode d) k = max k 2 - 2 := by
        simp only [RouteGenerator.midCount, RouteGenerator.leastHops, RouteGenerator.fixedHops, hgt, hl]
      constructor
      · rintro ⟨⟨least, h1, h2⟩, h3, h4, -, h6⟩
        rw [least_iff v, hls] at h1; subst h1
        obtain ⟨f, hf, hfi⟩ := h4 _ hcs rfl
        rw [← hcg] at hf
        obtain ⟨mids, rfl⟩ : ∃ mids, inner = f :: mids := by
          cases inner with
          | nil => cases hfi
          | cons a l => simp only [List.head?_cons, Option.some.injEq] at hfi; exact ⟨l, by rw [hfi]⟩
        have hm1 : mids.length = g.midCount (.toMixnode d) k := by
          rw [hmc]; simp only [List.length_cons] at h2; omega
        have hcase : mids.Nodup ∧ f ∉ mids ∧ d ∉ mids ∧ (f = d → g.connectedGatewayIndices = [d]) := by
          rcases h6 with ⟨h6, h7⟩ | ⟨gw, hgw, rest, r1, r2, h | h | h⟩
          · obtain ⟨a, b⟩ := List.nodup_cons.mp h6
            refine ⟨b, a, fun h => h7 d rfl (by simp [h]), fun h => ?_⟩
            exact absurd (by simp [h]) (h7 d rfl)
          · obtain ⟨e1, e2⟩ := h
            cases e1; cases e2
            exact ⟨r1, r2, r2, fun _ => (hctd _).mp hgw⟩
          · cases h.1
          · cases h.1
        refine ⟨some f, none, mids, ?_, ⟨hm1, hcase.1, fun x hx => ⟨?_, ?_⟩⟩, by simp⟩
        · unfold RouteGenerator.Specials; rw [hgt, hl]; exact ⟨rfl, f, rfl, hf, hcase.2.2.2⟩
        · rw [hgt]; exact (h3 x (by simp [hx])).1
        · rw [hmem]
          rintro (h | h | h | h)
          · cases h; exact hcase.2.2.1 hx
          · exact hnl _ h
          · cases h; exact hcase.2.1 hx
          · cases h
      · rintro ⟨first, pen, mids, h1, ⟨h2, h3, h4⟩, rfl⟩
        unfold RouteGenerator.Specials at h1
        rw [hgt, hl] at h1
        obtain ⟨rfl, f, rfl, hf, hfd⟩ := h1
        simp only [hmem] at h4
        push Not at h4
        rw [hgt] at h4
        simp only [Option.toList_none, List.append_nil, Option.toList_some, List.singleton_append]
        have hfm : f ∉ mids := fun hm => (h4 f hm).2.2.2.1 rfl
        have hdm : d ∉ mids := fun hm => (h4 d hm).2.1 rfl
        refine ⟨⟨2, by rw [least_iff v, hls], by rw [List.length_cons, h2, hmc]; omega⟩, fun x hx => ⟨?_, hnl x⟩,
          fun gs' h _ => ⟨f, by rw [huniq h]; exact hf, rfl⟩, fun _ _ h => (by cases h), ?_⟩
        · rcases List.mem_cons.mp hx with rfl | hx
          · exact hlt _ hf
          · exact (h4 x hx).1
        · by_cases e : f = d
          · subst e
            exact .inr ⟨f, (hctd f).mpr (hfd rfl), mids, h3, hfm, .inl ⟨rfl, rfl⟩⟩
          · refine .inl ⟨List.nodup_cons.mpr ⟨hfm, h3⟩, fun d' hd' hm => ?_⟩
            cases hd'
            rcases List.mem_cons.mp hm with hm | hm
            · exact e hm.symm
            · exact hdm hm
    | fromMixnode d =>
      have hls : g.leastHops (.fromMixnode d) = 2 := by unfold RouteGenerator.leastHops; rw [hgt, hl]
      have hmc : g.midCount (.fromMixnode d) k = max k 2 - 2 := by
        simp only [RouteGenerator.midCount, RouteGenerator.leastHops, RouteGenerator.fixedHops, hgt, hl]
      constructor
      · rintro ⟨⟨least, h1, h2⟩, h3, -, h5, h6⟩
        rw [least_iff v, hls] at h1; subst h1
        obtain ⟨f, hf, hfi⟩ := h5 _ hcs rfl
        rw [← hcg] at hf
        obtain ⟨mids, rfl⟩ : ∃ mids, inner = mids ++ [f] := by
          obtain ⟨ys, hys⟩ := List.getLast?_eq_some_iff.mp hfi
          exact ⟨ys, hys⟩
        have hm1 : mids.length = g.midCount (.fromMixnode d) k := by
          rw [hmc]; simp only [List.length_append, List.length_singleton] at h2; omega
        have hcase : mids.Nodup ∧ f ∉ mids ∧ d ∉ mids ∧ (f = d → g.connectedGatewayIndices = [d]) := by
          rcases h6 with ⟨h6, h7⟩ | ⟨gw, hgw, rest, r1, r2, h | h | h⟩
          · rw [List.nodup_append] at h6
            refine ⟨h6.1, fun h => h6.2.2 f h f (by simp) rfl, fun h => h7 d rfl (by simp [h]), fun h => ?_⟩
            exact absurd (by simp [h]) (h7 d rfl)
          · cases h.1
          · obtain ⟨e1, e2⟩ := h
            cases e1
            have := List.append_inj' e2 rfl
            obtain ⟨rfl, e3⟩ := this
            cases e3
            exact ⟨r1, r2, r2, fun _ => (hctd _).mp hgw⟩
          · cases h.1
        refine ⟨none, some f, mids, ?_, ⟨hm1, hcase.1, fun x hx => ⟨?_, ?_⟩⟩, by simp⟩
        · unfold RouteGenerator.Specials; rw [hgt, hl]; exact ⟨rfl, f, rfl, hf, hcase.2.2.2⟩
        · rw [hgt]; exact (h3 x (by simp [hx])).1
        · rw [hmem]
          rintro (h | h | h | h)
          · cases h; exact hcase.2.2.1 hx
          · exact hnl _ h
          · cases h
          · cases h; exact hcase.2.1 hx
      · rintro ⟨first, pen, mids, h1, ⟨h2, h3, h4⟩, rfl⟩
        unfold RouteGenerator.Specials at h1
        rw [hgt, hl] at h1
        obtain ⟨rfl, f, rfl, hf, hfd⟩ := h1
        simp only [hmem] at h4
        push Not at h4
        rw [hgt] at h4
        simp only [Option.toList_none, List.nil_append, Option.toList_some]
        have hfm : f ∉ mids := fun hm => (h4 f hm).2.2.2.2 rfl
        have hdm : d ∉ mids := fun hm => (h4 d hm).2.1 rfl
        refine ⟨⟨2, by rw [least_iff v, hls], by
            rw [List.length_append, List.length_singleton, h2, hmc]; omega⟩, fun x hx => ⟨?_, hnl x⟩,
          fun _ _ h => (by cases h), fun gs' h _ => ⟨f, by rw [huniq h]; exact hf, hlast _ _⟩, ?_⟩
        · rcases List.mem_append.mp hx with hx | hx
          · exact (h4 x hx).1
          · simp only [List.mem_singleton] at hx; subst hx; exact hlt _ hf
        · by_cases e : f = d
          · subst e
            exact .inr ⟨f, (hctd f).mpr (hfd rfl), mids, h3, hfm, .inr (.inl ⟨rfl, rfl⟩)⟩
          · refine .inl ⟨?_, fun d' hd' hm => ?_⟩
            · rw [List.nodup_append]
              refine ⟨h3, by simp, fun a ha b hb => ?_⟩
              simp only [List.mem_singleton] at hb
              rintro rfl; subst hb; exact hfm ha
            · cases hd'
              rcases List.mem_append.mp hm with hm | hm
              · exact hdm hm
              · simp only [List.mem_singleton] at hm; exact e hm.symm
    | loop =>
      have hls : 3 ≤ g.leastHops .loop := by
        unfold RouteGenerator.leastHops; rw [hgt, hl]; dsimp only; split <;> omega
      have hmc : g.midCount .loop k = max k (g.leastHops .loop) - 3 := by
        simp only [RouteGenerator.midCount, RouteGenerator.fixedHops, hgt, hl]
      constructor
      · rintro ⟨⟨least, h1, h2⟩, h3, h4, h5, h6⟩
        rw [least_iff v] at h1; subst h1
        obtain ⟨f, hf, hfi⟩ := h4 _ hcs rfl
        obtain ⟨p, hp, hpi⟩ := h5 _ hcs rfl
        rw [← hcg] at hf hp
        obtain ⟨mids, rfl⟩ : ∃ mids, inner = f :: (mids ++ [p]) := by
          obtain ⟨ys, rfl⟩ := List.getLast?_eq_some_iff.mp hpi
          cases ys with
          | nil =>
            have : ([] ++ [p] : List Nat).length = 1 := rfl
            omega
          | cons a l =>
            simp only [List.cons_append, List.head?_cons, Option.some.injEq] at hfi
            exact ⟨l, by rw [hfi]; rfl⟩
        have hm1 : mids.length = g.midCount .loop k := by
          rw [hmc]; simp only [List.length_cons, List.length_append, List.length_nil] at h2; omega
        have hcase : mids.Nodup ∧ f ∉ mids ∧ p ∉ mids ∧ (p = f → g.connectedGatewayIndices = [f]) := by
          rcases h6 with ⟨h6, h7⟩ | ⟨gw, hgw, rest, r1, r2, h | h | h⟩
          · rw [List.nodup_cons, List.nodup_append] at h6
            obtain ⟨n1, n2, -, n3⟩ := h6
            simp only [List.mem_append, List.mem_singleton, not_or] at n1
            exact ⟨n2, n1.1, fun h => n3 p h p (by simp) rfl, fun h => absurd h.symm n1.2⟩
          · cases h.1
          · cases h.1
          · obtain ⟨-, -, e2⟩ := h
            simp only [List.cons.injEq] at e2
            obtain ⟨rfl, e2⟩ := e2
            obtain ⟨rfl, e3⟩ := List.append_inj' e2 rfl
            cases e3
            exact ⟨r1, r2, r2, fun _ => (hctd _).mp hgw⟩
        refine ⟨some f, some p, mids, ?_, ⟨hm1, hcase.1, fun x hx => ⟨?_, ?_⟩⟩, by simp⟩
        · unfold RouteGenerator.Specials; rw [hgt, hl]; exact ⟨f, p, rfl, rfl, hf, hp, hcase.2.2.2⟩
        · rw [hgt]; exact (h3 x (by simp [hx])).1
        · rw [hmem]
          rintro (h | h | h | h)
          · cases h
          · exact hnl _ h
          · cases h; exact hcase.2.1 hx
          · cases h; exact hcase.2.2.1 hx
      · rintro ⟨first, pen, mids, h1, ⟨h2, h3, h4⟩, rfl⟩
        unfold RouteGenerator.Specials at h1
        rw [hgt, hl] at h1
        obtain ⟨f, p, rfl, rfl, hf, hp, hpf⟩ := h1
        simp only [hmem] at h4
        push Not at h4
        rw [hgt] at h4
        simp only [Option.toList_some, List.cons_append, List.nil_append]
        have hfm : f ∉ mids := fun hm => (h4 f hm).2.2.2.1 rfl
        have hpm : p ∉ mids := fun hm => (h4 p hm).2.2.2.2 rfl
        refine ⟨⟨g.leastHops .loop, by rw [least_iff v], by
            rw [List.length_cons, List.length_append, List.length_singleton, h2, hmc]; omega⟩,
          fun x hx => ⟨?_, hnl x⟩,
          fun gs' h _ => ⟨f, by rw [huniq h]; exact hf, rfl⟩,
          fun gs' h _ => ⟨p, by rw [huniq h]; exact hp, by
            rw [show f :: (mids ++ [p]) = (f :: mids) ++ [p] from rfl]; exact hlast _ _⟩, ?_⟩
        · simp only [List.mem_cons, List.mem_append, List.not_mem_nil, or_false] at hx
          rcases hx with rfl | hx | rfl
          · exact hlt _ hf
          · exact (h4 x hx).1
          · exact hlt _ hp
        · by_cases e : p = f
          · subst e
            refine .inr ⟨p, (hctd p).mpr (hpf rfl), mids, h3, hpm, .inr (.inr ⟨rfl, ?_, rfl⟩)⟩
            rintro rfl
            have h1' : g.leastHops .loop = 4 := by
              unfold RouteGenerator.leastHops; rw [hgt, hl]; simp [hpf rfl]
            rw [hmc, h1'] at h2
            simp only [List.length_nil] at h2
            omega
          · refine .inl ⟨?_, fun d hd' => by cases hd'⟩
            rw [List.nodup_cons, List.nodup_append]
            refine ⟨?_, h3, by simp, fun a ha b hb => ?_⟩
            · simp only [List.mem_append, List.mem_singleton, not_or]
              exact ⟨hfm, fun h => e h.symm⟩
            · simp only [List.mem_singleton] at hb
              rintro rfl; subst hb; exact hpm ha

/-- A fitting route needs a gateway and enough mixnodes. -/
theorem innerOk_needs {t : Topology} {ns : NetworkStatus} {g : RouteGenerator} (v : View t ns g) {kind : RouteKind}
    {k : Nat} (hd : ∀ d, otherEnd kind = some d → d < t.mixnodes.length) {inner : List Nat}
    (h : g.InnerOk kind k inner) :
    ¬ g.Disconnected ∧ g.usedCount kind + g.midCount kind k ≤ g.topology.mixnodes.length := by
  obtain ⟨ht, hge, hg⟩ := v.wf
  have hgt : g.topology = t := by rw [hge]
  obtain ⟨first, pen, mids, h1, ⟨h2, h3, h4⟩, rfl⟩ := h
  constructor
  · rintro ⟨⟨gs, hgs⟩, hc⟩
    unfold RouteGenerator.Specials at h1
    rw [hgs] at h1
    cases kind with
    | toMixnode d => obtain ⟨-, f, -, hf, -⟩ := h1; rw [hc] at hf; simp at hf
    | fromMixnode d => obtain ⟨-, f, -, hf, -⟩ := h1; rw [hc] at hf; simp at hf
    | loop => obtain ⟨f, p, -, -, hf, -⟩ := h1; rw [hc] at hf; simp at hf
  · obtain ⟨a1, a2⟩ := g.usedOf_spec kind first pen
    obtain ⟨c1, c2⟩ := connected_lt hg h1
    have hu : ∀ u ∈ g.usedOf kind first pen, u < g.topology.mixnodes.length := by
      intro u hu
      rcases (a2 u).mp hu with h | h | h | h
      · rw [endpoint_eq] at h; rw [hgt]; exact hd u h
      · obtain ⟨m, hm, -⟩ := hg.topology.isLocal u h
        exact (List.getElem?_eq_some_iff.mp hm).1
      · exact c1 u h
      · exact c2 u h
    rw [← RouteGenerator.usedOf_length h1, ← h2, ← List.length_append]
    have hnd : (g.usedOf kind first pen ++ mids).Nodup := by
      rw [List.nodup_append]
      refine ⟨a1.imp fun h => Nat.ne_of_lt h, h3, fun a ha b hb => ?_⟩
      rintro rfl; exact (h4 a hb).2 ha
    have hsub : (g.usedOf kind first pen ++ mids) ⊆ List.range g.topology.mixnodes.length := by
      intro x hx
      rw [List.mem_range]
      rcases List.mem_append.mp hx with hx | hx
      · exact hu x hx
      · exact (h4 x hx).1
    simpa using (List.subperm_of_subset hnd hsub).length_le

/-- There is a fitting route iff there is a gateway and there are enough mixnodes. -/
theorem fits_exists_iff {t : Topology} {ns : NetworkStatus} {g : RouteGenerator} (v : View t ns g) (kind : RouteKind)
    {k : Nat} (hd : ∀ d, otherEnd kind = some d → d < t.mixnodes.length) :
    (∃ inner, Fits t ns kind k inner) ↔
      ¬ g.Disconnected ∧ g.usedCount kind + g.midCount kind k ≤ g.topology.mixnodes.length := by
  constructor
  · rintro ⟨inner, h⟩
    exact innerOk_needs v hd ((fits_iff v kind k inner).mp h)
  · rintro ⟨hdc, hn⟩
    obtain ⟨ht, hge, hg⟩ := v.wf
    have hgt : g.topology = t := by rw [hge]
    have hd' := hd
    simp only [← endpoint_eq, ← hgt] at hd'
    have hu := RouteGenerator.inner_uniform hg hdc (k := k) hd' hn
    exact ⟨_, (fits_iff v kind k _).mpr (hu.2.1 _ (possible_draws (fun _ => 0) hu.1))⟩

/-- **C26.** Whether a route is generated depends only on whether there is a fitting one, and the error only
on whether the local node is connected to a gateway; never on the random choices. In particular route
generation does not panic. -/
theorem route_exists_iff {t : Topology} {ns : NetworkStatus} {g : RouteGenerator} (v : View t ns g)
    (kind : RouteKind) {k : Nat} (hk : k ≤ 6) (hd : ∀ d, otherEnd kind = some d → d < t.mixnodes.length) :
    ((∃ inner, Fits t ns kind k inner) ∧ ∀ rng, ∃ route rng', g.genRoute rng kind k = .ok (.ok (route, rng'))) ∨
    ((¬ ∃ inner, Fits t ns kind k inner) ∧
      ((ConnectedGateways t ns [] ∧ ∀ rng, g.genRoute rng kind k = .ok (.error .noConnectedGatewayMixnodes)) ∨
       (¬ ConnectedGateways t ns [] ∧ ∀ rng, g.genRoute rng kind k = .ok (.error .tooFewMixnodes)))) := by
  obtain ⟨ht, hge, hg⟩ := v.wf
  have hgt : g.topology = t := by rw [hge]
  have hd' := hd
  simp only [← endpoint_eq, ← hgt] at hd'
  have key := fun rng => RouteGenerator.genRoute_spec hg rng kind hk hd'
  have hdisc : g.Disconnected ↔ ConnectedGateways t ns [] := by
    constructor
    · rintro ⟨⟨gs, hgs⟩, he⟩
      rw [hgt] at hgs
      obtain ⟨cs, hcs, hcg⟩ := connected_of_view v hgs
      rw [he] at hcg
      have : cs = [] := by
        cases cs with
        | nil => rfl
        | cons a l => simp at hcg
      rw [← this]; exact hcs
    · intro h
      obtain ⟨gs, hgs, -⟩ := id h
      obtain ⟨cs, hcs, hcg⟩ := connected_of_view v hgs
      rw [connected_unique hcs h] at hcg
      exact ⟨⟨gs, by rw [hgt]; exact hgs⟩, by rw [hcg]; rfl⟩
  by_cases hdc : g.Disconnected
  · refine .inr ⟨?_, .inl ⟨hdisc.mp hdc, fun rng => ?_⟩⟩
    · rintro ⟨inner, hi⟩
      exact (innerOk_needs v hd ((fits_iff v kind k inner).mp hi)).1 hdc
    · rcases key rng with ⟨-, e⟩ | ⟨hn, -⟩
      · exact e
      · exact absurd hdc hn
  · by_cases hn : g.usedCount kind + g.midCount kind k ≤ g.topology.mixnodes.length
    · left
      refine ⟨?_, fun rng => ?_⟩
      · have hu := RouteGenerator.inner_uniform hg hdc (k := k) hd' hn
        exact ⟨_, (fits_iff v kind k _).mpr (hu.2.1 _ (possible_draws (fun _ => 0) hu.1))⟩
      · rcases key rng with ⟨hx, -⟩ | ⟨-, ⟨hx, -⟩ | ⟨-, first, pen, mids, rng', fi, x, hs, -, -, -, e, -⟩⟩
        · exact absurd hx hdc
        · omega
        · exact ⟨_, _, e⟩
    · refine .inr ⟨?_, .inr ⟨fun h => hdc (hdisc.mpr h), fun rng => ?_⟩⟩
      · rintro ⟨inner, hi⟩
        exact hn (innerOk_needs v hd ((fits_iff v kind k inner).mp hi)).2
      · rcases key rng with ⟨hx, -⟩ | ⟨-, ⟨-, e⟩ | ⟨hx, -⟩⟩
        · exact absurd hx hdc
        · exact e
        · exact absurd hx hn

/-- **C52.** If there is a fitting route, the generated route is uniform over all fitting routes. -/
theorem routes_equally_likely {t : Topology} {ns : NetworkStatus} {g : RouteGenerator} (v : View t ns g)
    (kind : RouteKind) {k : Nat} (hk : k ≤ 6) (hd : ∀ d, otherEnd kind = some d → d < t.mixnodes.length)
    (hex : ∃ inner, Fits t ns kind k inner) :
    ∃ (bounds : List Nat) (F : List Nat → List Nat), EquallyLikely bounds F (Fits t ns kind k) ∧
      ∀ rng, ∃ route, g.genRoute rng kind k = .ok (.ok (route, fun n => rng (n + bounds.length))) ∧
        hops route = (F (draws rng bounds)).map Target.mixnodeIndex ++ [finalHop t ns kind] := by
  obtain ⟨ht, hge, hg⟩ := v.wf
  have hgt : g.topology = t := by rw [hge]
  have hd' := hd
  simp only [← endpoint_eq, ← hgt] at hd'
  obtain ⟨inner, hi⟩ := id hex
  obtain ⟨hdc, hn⟩ := innerOk_needs v hd ((fits_iff v kind k inner).mp hi)
  have hu := RouteGenerator.inner_uniform hg hdc (k := k) hd' hn
  refine ⟨g.routeBounds kind k, g.pickInner kind, ?_, fun rng => ?_⟩
  · obtain ⟨a, b, c⟩ := hu
    exact ⟨a, fun ds h => (fits_iff v kind k _).mpr (b ds h), fun x hx => c x ((fits_iff v kind k x).mp hx)⟩
  · rcases route_exists_iff v kind hk hd with ⟨-, h⟩ | ⟨h, -⟩
    · obtain ⟨route, rng', hr⟩ := h rng
      obtain ⟨first, pen, mids, -, h2, -, -, -, -, h8⟩ := route_form' v hk hd hr
      obtain ⟨i1, i2⟩ := RouteGenerator.inner_drawn h8
      refine ⟨route, by rw [hr, i2], ?_⟩
      rw [h2, i1]
    · exact absurd hex h

/-! ### Examples -/

/-- With two gateways out of four mixnodes and four hops, there are four loops. -/
example : Fits exTopology exStatus .loop 4 [1, 2, 3] :=
  (fits_iff exView _ _ _).mpr ⟨some 1, some 3, [2], ⟨1, 3, rfl, rfl, by decide, by decide, by decide⟩,
    ⟨rfl, by decide, by decide⟩, rfl⟩

/-- With a single connected gateway, it is used twice. -/
example : Fits exTopology exStatus1 .loop 3 [1, 2, 1] :=
  (fits_iff exView1 _ _ _).mpr ⟨some 1, some 1, [2], ⟨1, 1, rfl, rfl, by decide, by decide, by decide⟩,
    ⟨rfl, by decide, by decide⟩, rfl⟩

end Mixnet.Props
