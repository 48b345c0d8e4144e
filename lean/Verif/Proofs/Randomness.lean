import Verif.Proofs.NodePost
import Verif.Spec.Randomness
/-!
# Where the random numbers go
-/
namespace Mixnet
open Spec

/-- The step took `k` numbers, and depends on those only. -/
def Advances (rng rng' : Rng) (k : Nat) (step : Rng → Rng → Prop) : Prop :=
  rng' = skip rng k ∧ ∀ r, (∀ j, j < k → r j = rng j) → step r (skip r k)

theorem skip_skip (r : Rng) (a b : Nat) : skip (skip r a) b = skip r (a + b) := by
  funext k; unfold skip; congr 1; omega

theorem skip_zero (r : Rng) : skip r 0 = r := rfl

theorem Advances.nothing {rng : Rng} {step : Rng → Rng → Prop} (h : ∀ r, step r r) : Advances rng rng 0 step :=
  ⟨rfl, fun r _ => h r⟩

theorem Advances.trans {r0 r1 r2 : Rng} {a b : Nat} {S1 S2 S : Rng → Rng → Prop} (h1 : Advances r0 r1 a S1)
    (h2 : Advances r1 r2 b S2) (h : ∀ x y z, S1 x y → S2 y z → S x z) : Advances r0 r2 (a + b) S := by
  obtain ⟨rfl, h1⟩ := h1
  obtain ⟨rfl, h2⟩ := h2
  refine ⟨skip_skip _ _ _, fun r hr => ?_⟩
  refine h _ (skip r a) _ (h1 r fun j hj => hr j (by omega)) ?_
  rw [← skip_skip]
  exact h2 _ fun j hj => hr _ (by omega)

theorem Advances.mono {r0 r1 : Rng} {a : Nat} {S S' : Rng → Rng → Prop} (h : Advances r0 r1 a S)
    (h' : ∀ x y, S x y → S' x y) : Advances r0 r1 a S' := ⟨h.1, fun r hr => h' _ _ (h.2 r hr)⟩

theorem Advances.uses {rng r1 r2 : Rng} {a k : Nat} {S : Rng → Rng → Prop} (hr : r1 = skip rng a) (h : Advances r1 r2 k S) :
    Uses rng a (a + k) S ∧ r2 = skip rng (a + k) := by
  obtain ⟨rfl, h⟩ := h
  subst hr
  refine ⟨⟨by omega, fun r hr => ?_⟩, skip_skip _ _ _⟩
  rw [← skip_skip]
  exact h _ fun j hj => hr _ (by omega) (by omega)

theorem fillBytes_takes (rng : Rng) (n : Nat) :
    Advances rng (rng.fillBytes n).2 n (fun r r' => r.fillBytes n = ((rng.fillBytes n).1, r')) := by
  refine ⟨rfl, fun r hr => ?_⟩
  unfold Rng.fillBytes
  refine Prod.ext ?_ rfl
  refine List.map_congr_left fun k hk => ?_
  rw [hr k (List.mem_range.1 hk)]

theorem genRange_takes (rng : Rng) (n : Nat) :
    Advances rng (rng.genRange n).2 1 (fun r r' => r.genRange n = ((rng.genRange n).1, r')) := by
  refine ⟨rfl, fun r hr => ?_⟩
  unfold Rng.genRange
  dsimp only
  rw [hr 0 (by omega)]
  rfl

theorem choose_takes {α : Type} (rng : Rng) (l : List α) :
    ∃ k, Advances rng (rng.choose l).2 k (fun r r' => r.choose l = ((rng.choose l).1, r')) := by
  unfold Rng.choose
  split
  · exact ⟨0, .nothing fun r => rfl⟩
  · refine ⟨1, rfl, fun r hr => ?_⟩
    dsimp only
    rw [hr 0 (by omega)]
    rfl

namespace RouteGenerator
variable {g : RouteGenerator}

theorem chooseMixnodeIndex_takes {rng rng' : Rng} {ex : List MixnodeIndex} {i : MixnodeIndex}
    (h : g.chooseMixnodeIndex rng ex = .ok (.ok (i, rng'))) :
    Advances rng rng' 1 (fun r r' => g.chooseMixnodeIndex r ex = .ok (.ok (i, r'))) := by
  unfold chooseMixnodeIndex at h ⊢
  rw [res_bind_eq_ok] at h
  obtain ⟨u, hu, h⟩ := h
  dsimp only at h
  split at h
  · cases h
  · rename_i h0
    rw [res_bind_eq_ok] at h
    obtain ⟨u', hu', h⟩ := h
    rw [res_bind_eq_ok] at h
    obtain ⟨j, hj, h⟩ := h
    simp only [Except.ok.injEq, Prod.mk.injEq] at h
    obtain ⟨rfl, rfl⟩ := h
    refine (genRange_takes rng _).mono ?_
    intro r r' hr
    rw [hu, res_bind_ok]
    dsimp only
    rw [if_neg h0, hr]
    dsimp only
    rw [hu', res_bind_ok, hj]
    rfl

theorem chooseConnectedGatewayIndex_takes {rng rng' : Rng} {x : Option MixnodeIndex} {i : MixnodeIndex}
    (h : g.chooseConnectedGatewayIndex rng x = .ok (i, rng')) :
    ∃ k, Advances rng rng' k (fun r r' => g.chooseConnectedGatewayIndex r x = .ok (i, r')) := by
  have any : ∀ {i rng'}, (match rng.choose g.connectedGatewayIndices with
      | (some i, rng) => (.ok (i, rng) : Except TopologyErr (MixnodeIndex × Rng))
      | (none, _) => .error .noConnectedGatewayMixnodes) = .ok (i, rng') →
      ∃ k, Advances rng rng' k (fun r r' => (match r.choose g.connectedGatewayIndices with
      | (some i, rng) => (.ok (i, rng) : Except TopologyErr (MixnodeIndex × Rng))
      | (none, _) => .error .noConnectedGatewayMixnodes) = .ok (i, r')) := by
    intro i rng' h
    obtain ⟨k, hk⟩ := choose_takes rng g.connectedGatewayIndices
    obtain ⟨⟨o, r0⟩, hc⟩ : ∃ p, rng.choose g.connectedGatewayIndices = p := ⟨_, rfl⟩
    rw [hc] at h hk
    cases o with
    | none => cases h
    | some j =>
      cases h
      refine ⟨k, hk.mono ?_⟩
      intro r r' hr
      rw [hr]
  unfold chooseConnectedGatewayIndex at h ⊢
  dsimp only at h ⊢
  cases x with
  | none => exact any h
  | some x =>
    dsimp only at h ⊢
    split at h
    · rename_i h0
      obtain ⟨k, hk⟩ := any h
      refine ⟨k, hk.mono ?_⟩
      intro r r' hr
      rw [if_pos h0]
      exact hr
    · rename_i h0
      cases hg : g.connectedGatewayIndices with
      | nil => rw [hg] at h0; simp at h0
      | cons first rest =>
        rw [hg] at h h0
        dsimp only at h
        obtain ⟨k, hk⟩ := choose_takes rng rest
        obtain ⟨⟨o, r0⟩, hc⟩ : ∃ p, rng.choose rest = p := ⟨_, rfl⟩
        rw [hc] at h hk
        refine ⟨k, ?_⟩
        cases o with
        | none =>
          cases h
          refine hk.mono ?_
          intro r r' hr
          rw [if_neg h0]; dsimp only; rw [hr]
        | some j =>
          cases h
          refine hk.mono ?_
          intro r r' hr
          rw [if_neg h0]; dsimp only; rw [hr]

theorem chooseSpecial_takes {rng rng' : Rng} {used used' : UsedIndices} {needed : Bool} {o : Option MixnodeIndex}
    (h : g.chooseSpecial rng used needed = .ok (.ok (o, used', rng'))) :
    ∃ k, Advances rng rng' k (fun r r' => g.chooseSpecial r used needed = .ok (.ok (o, used', r'))) := by
  unfold chooseSpecial at h ⊢
  split at h
  · rename_i gs hl
    rw [res_bind_eq_ok] at h
    obtain ⟨x, hx, h⟩ := h
    obtain ⟨c, hc⟩ : ∃ c, g.chooseConnectedGatewayIndex rng x = c := ⟨_, rfl⟩
    rw [hc] at h
    cases c with
    | error e => cases h
    | ok p =>
      obtain ⟨i, r1⟩ := p
      dsimp only at h
      rw [res_bind_eq_ok] at h
      obtain ⟨u, hu, h⟩ := h
      simp only [Except.ok.injEq, Prod.mk.injEq] at h
      obtain ⟨rfl, rfl, rfl⟩ := h
      obtain ⟨k, hk⟩ := chooseConnectedGatewayIndex_takes hc
      refine ⟨k, hk.mono ?_⟩
      intro r r' hr
      rw [hx, res_bind_ok]
      rw [hr]
      dsimp only
      rw [hu]
      rfl
  · rename_i hne
    simp only [Except.ok.injEq, Prod.mk.injEq] at h
    obtain ⟨rfl, rfl, rfl⟩ := h
    exact ⟨0, .nothing fun r => rfl⟩

theorem hopIndex_takes {rng rng' : Rng} {kind : RouteKind} {i n : Nat} {first pen : Option MixnodeIndex}
    {used used' : UsedIndices} {o : Option MixnodeIndex}
    (h : g.hopIndex rng kind i n first pen used = .ok (.ok (o, used', rng'))) :
    ∃ k, Advances rng rng' k (fun r r' => g.hopIndex r kind i n first pen used = .ok (.ok (o, used', r'))) := by
  unfold hopIndex at h ⊢
  split at h
  · simp only [Except.ok.injEq, Prod.mk.injEq] at h
    obtain ⟨rfl, rfl, rfl⟩ := h
    exact ⟨0, .nothing fun r => rfl⟩
  · simp only [Except.ok.injEq, Prod.mk.injEq] at h
    obtain ⟨rfl, rfl, rfl⟩ := h
    exact ⟨0, .nothing fun r => rfl⟩
  · cases kind <;> simp only [Except.ok.injEq, Prod.mk.injEq] at h <;> obtain ⟨rfl, rfl, rfl⟩ := h <;>
      exact ⟨0, .nothing fun r => rfl⟩
  · rw [res_bind_eq_ok] at h
    obtain ⟨x, hx, h⟩ := h
    cases x with
    | error e => cases h
    | ok p =>
      obtain ⟨j, r1⟩ := p
      dsimp only at h
      rw [res_bind_eq_ok] at h
      obtain ⟨u, hu, h⟩ := h
      simp only [Except.ok.injEq, Prod.mk.injEq] at h
      obtain ⟨rfl, rfl, rfl⟩ := h
      refine ⟨1, (chooseMixnodeIndex_takes hx).mono ?_⟩
      intro r r' hr
      rw [hr, res_bind_ok]
      dsimp only
      rw [hu]
      rfl

theorem routeLoop_takes {kind : RouteKind} {N : Nat} {first pen : Option MixnodeIndex} :
    ∀ {n i : Nat} {rng rng' : Rng} {used : UsedIndices} {fi fi' : Option MixnodeIndex} {ts ts' : List Target}
      {kxs kxs' : List KxPublic},
      g.routeLoop kind N first pen n i rng used fi ts kxs = .ok (.ok (fi', ts', kxs', rng')) →
      ∃ k, Advances rng rng' k
        (fun r r' => g.routeLoop kind N first pen n i r used fi ts kxs = .ok (.ok (fi', ts', kxs', r')))
  | 0, i, rng, rng', used, fi, fi', ts, ts', kxs, kxs', h => by
    simp only [routeLoop, Except.ok.injEq, Prod.mk.injEq] at h
    obtain ⟨rfl, rfl, rfl, rfl⟩ := h
    exact ⟨0, .nothing fun r => rfl⟩
  | n + 1, i, rng, rng', used, fi, fi', ts, ts', kxs, kxs', h => by
    unfold routeLoop at h
    rw [res_bind_eq_ok] at h
    obtain ⟨x, hx, h⟩ := h
    cases x with
    | error e => cases h
    | ok p =>
      obtain ⟨idx, used1, r1⟩ := p
      dsimp only at h
      rw [res_bind_eq_ok] at h
      obtain ⟨kx, hkx, h⟩ := h
      rw [res_bind_eq_ok] at h
      obtain ⟨u, hu, h⟩ := h
      obtain ⟨k1, hk1⟩ := hopIndex_takes hx
      split at h
      · rename_i hi
        rw [res_bind_eq_ok] at h
        obtain ⟨u', hu', h⟩ := h
        obtain ⟨k2, hk2⟩ := routeLoop_takes h
        refine ⟨k1 + k2, hk1.trans hk2 ?_⟩
        intro x y z hxy hyz
        unfold routeLoop
        rw [hxy, res_bind_ok]
        dsimp only
        rw [hkx, res_bind_ok, hu, res_bind_ok, if_pos hi, hu', res_bind_ok]
        exact hyz
      · rename_i hi
        rw [res_bind_eq_ok] at h
        obtain ⟨u', hu', h⟩ := h
        obtain ⟨k2, hk2⟩ := routeLoop_takes h
        refine ⟨k1 + k2, hk1.trans hk2 ?_⟩
        intro x y z hxy hyz
        unfold routeLoop
        rw [hxy, res_bind_ok]
        dsimp only
        rw [hkx, res_bind_ok, hu, res_bind_ok, if_neg hi, hu', res_bind_ok]
        exact hyz

theorem genRoute_takes {rng rng' : Rng} {kind : RouteKind} {n : Nat} {route : Route}
    (h : g.genRoute rng kind n = .ok (.ok (route, rng'))) :
    ∃ k, Advances rng rng' k (fun r r' => g.genRoute r kind n = .ok (.ok (route, r'))) := by
  obtain ⟨U, K, hgen, hK⟩ : ∃ (U : Res (UsedIndices × Bool × Bool)) (K : Rng → UsedIndices × Bool × Bool → Res (Except TopologyErr (Route × Rng))),
      (∀ r, g.genRoute r kind n = (U >>= K r)) ∧ (∀ r, K r = fun u => (do
        match ← g.chooseSpecial r u.1 u.2.1 with
        | .error e => .ok (.error e)
        | .ok (first, used, rng) => do
          match ← g.chooseSpecial rng used u.2.2 with
          | .error e => .ok (.error e)
          | .ok (penultimate, used, rng) => do
            let numHops := max n (RouteGenerator.minHops first penultimate)
            match ← g.routeLoop kind numHops first penultimate numHops 0 rng used none [] [] with
            | .error e => .ok (.error e)
            | .ok (firstIndex, targets, kxs, rng) => do
              let first ← expectSome "At least one hop" firstIndex
              .ok (.ok (⟨first, targets, kxs⟩, rng)))) := by
    refine ⟨(do
      let (used, fromLocal, toLocal) ← routeEnds kind
      let used ← match g.topology.localNode with
        | .mixnode index => UsedIndices.insert used index
        | .nonMixnode _ => .ok used
      .ok (used, fromLocal, toLocal)), _, ?_, fun _ => rfl⟩
    intro r
    unfold genRoute
    cases routeEnds kind with
    | error e => rfl
    | ok x =>
      obtain ⟨used, fl, tl⟩ := x
      simp only [res_bind_ok]
      cases g.topology.localNode with
      | nonMixnode gs => rfl
      | mixnode i =>
        dsimp only
        cases UsedIndices.insert used i <;> rfl
  rw [hgen, res_bind_eq_ok] at h
  obtain ⟨u, hu, h⟩ := h
  rw [hK] at h
  dsimp only at h
  rw [res_bind_eq_ok] at h
  obtain ⟨x, hx, h⟩ := h
  cases x with
  | error e => cases h
  | ok p =>
    obtain ⟨first, used1, r1⟩ := p
    dsimp only at h
    rw [res_bind_eq_ok] at h
    obtain ⟨y, hy, h⟩ := h
    cases y with
    | error e => cases h
    | ok p =>
      obtain ⟨pen, used2, r2⟩ := p
      dsimp only at h
      rw [res_bind_eq_ok] at h
      obtain ⟨z, hz, h⟩ := h
      cases z with
      | error e => cases h
      | ok p =>
        obtain ⟨fi, ts, kxs, r3⟩ := p
        dsimp only at h
        rw [res_bind_eq_ok] at h
        obtain ⟨f, hf, h⟩ := h
        simp only [Except.ok.injEq, Prod.mk.injEq] at h
        obtain ⟨rfl, rfl⟩ := h
        obtain ⟨k1, t1⟩ := chooseSpecial_takes hx
        obtain ⟨k2, t2⟩ := chooseSpecial_takes hy
        obtain ⟨k3, t3⟩ := routeLoop_takes hz
        have t12 := t1.trans t2 (S := fun r r' => ∃ ra, g.chooseSpecial r u.1 u.2.1 = .ok (.ok (first, used1, ra)) ∧
          g.chooseSpecial ra used1 u.2.2 = .ok (.ok (pen, used2, r'))) (fun x y z a b => ⟨y, a, b⟩)
        refine ⟨_, t12.trans t3 ?_⟩
        rintro x y z ⟨ra, e1, e2⟩ e3
        rw [hgen, hu, res_bind_ok, hK]
        dsimp only
        rw [e1, res_bind_ok]
        dsimp only
        rw [e2, res_bind_ok]
        dsimp only
        rw [e3, res_bind_ok]
        dsimp only
        rw [hf]
        rfl

end RouteGenerator

theorem fillBytes_skip (rng : Rng) (a n : Nat) : ((skip rng a).fillBytes n).1 = bytesAt rng a n := by
  unfold Rng.fillBytes bytesAt skip
  refine List.map_congr_left fun k _ => ?_
  rw [Nat.add_comm]

end Mixnet
