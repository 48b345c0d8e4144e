import Verif.Proofs.RouteLoop
import Verif.Proofs.Draws
/-!
# What `gen_route` returns
-/
namespace Mixnet.RouteGenerator

variable {g : RouteGenerator}

/-- The mixnode at the other end of a route. -/
def endpoint : RouteKind → Option Nat
  | .toMixnode i => some i
  | .fromMixnode i => some i
  | .loop => none

/-- The route made of a first hop and further hops. -/
def routeOf (g : RouteGenerator) (fi : Nat) (h : Option Nat) (hs : List (Option Nat)) : Route :=
  ⟨fi, hs.map g.targetOf, kxOf g h :: hs.map (kxOf g)⟩

theorem lastHop_ok {kind : RouteKind} (hd : ∀ d, endpoint kind = some d → d < g.topology.mixnodes.length) :
    HopOk g (lastHop kind) := by
  intro i hi
  cases kind with
  | toMixnode d => cases hi; exact hd _ rfl
  | fromMixnode d => cases hi
  | loop => cases hi

theorem hopIndex_hopOk (hg : g.WF) {kind : RouteKind} {first pen : Option Nat} {N : Nat}
    (hd : ∀ d, endpoint kind = some d → d < g.topology.mixnodes.length)
    (hf : HopOk g first) (hp : HopOk g pen) {rng used x used' rng'} {i : Nat}
    (h : g.hopIndex rng kind i N first pen used = .ok (.ok (x, used', rng'))) : HopOk g x := by
  unfold hopIndex at h
  split at h
  · simp only [Except.ok.injEq, Prod.mk.injEq] at h
    obtain ⟨rfl, -⟩ := h; exact hf
  · simp only [Except.ok.injEq, Prod.mk.injEq] at h
    obtain ⟨rfl, -⟩ := h; exact hp
  · cases kind with
    | toMixnode d =>
      simp only [Except.ok.injEq, Prod.mk.injEq] at h
      obtain ⟨rfl, -⟩ := h
      intro j hj; cases hj; exact hd _ rfl
    | fromMixnode d =>
      simp only [Except.ok.injEq, Prod.mk.injEq] at h
      obtain ⟨rfl, -⟩ := h
      intro j hj; cases hj
    | loop =>
      simp only [Except.ok.injEq, Prod.mk.injEq] at h
      obtain ⟨rfl, -⟩ := h
      intro j hj; cases hj
  · cases e1 : g.chooseMixnodeIndex rng used with
    | error p => rw [e1] at h; cases h
    | ok r =>
      rw [e1, res_bind_ok] at h
      cases r with
      | error e => cases h
      | ok r =>
        obtain ⟨index, rng1⟩ := r
        dsimp only at h
        cases e2 : UsedIndices.insert used index with
        | error p => rw [e2] at h; cases h
        | ok u =>
          rw [e2, res_bind_ok] at h
          simp only [Except.ok.injEq, Prod.mk.injEq] at h
          obtain ⟨rfl, -⟩ := h
          intro j hj; cases hj
          unfold chooseMixnodeIndex at e1
          cases e3 : assertP "No duplicate or invalid indices in exclude_indices"
              (decide (used.length ≤ g.topology.mixnodes.length)) with
          | error p => rw [e3] at e1; cases e1
          | ok u =>
            rw [e3, res_bind_ok] at e1
            dsimp only at e1
            split at e1
            · cases e1
            · by_cases hlt : skipExcluded (rng.genRange (g.topology.mixnodes.length - used.length)).1 used <
                  g.topology.mixnodes.length
              · rw [assertP_pos (decide_eq_true hlt), res_bind_ok] at e1
                have := hg.topology.size
                rw [toMixnodeIndex_ok (by omega), res_bind_ok] at e1
                simp only [Except.ok.injEq, Prod.mk.injEq] at e1
                rw [← e1.1]; exact hlt
              · rw [show assertP _ _ = Except.error _ from if_neg (by simpa using hlt)] at e1
                cases e1

theorem routeLoop_ok0 {kind : RouteKind} {N : Nat} {first pen : Option Nat} {n : Nat} {rng rng' : Rng}
    {used : UsedIndices} {h : Option Nat} {hs : List (Option Nat)} {fi : Nat}
    (e : g.hopsLoop kind N first pen (n + 1) 0 rng used = .ok (.ok (h :: hs, rng')))
    (hok : ∀ x ∈ h :: hs, HopOk g x) (ht : g.hopTarget h = some fi) (hn : n ≤ 5) :
    g.routeLoop kind N first pen (n + 1) 0 rng used none [] [] =
      .ok (.ok (some fi, hs.map g.targetOf, kxOf g h :: hs.map (kxOf g), rng')) := by
  unfold hopsLoop at e
  unfold routeLoop
  cases e1 : g.hopIndex rng kind 0 N first pen used with
  | error p => rw [e1] at e; cases e
  | ok r =>
    rw [e1, res_bind_ok] at e
    rw [res_bind_ok]
    cases r with
    | error e' => cases e
    | ok r =>
      obtain ⟨index, used', rng1⟩ := r
      dsimp only at e ⊢
      cases e2 : g.hopsLoop kind N first pen n (0 + 1) rng1 used' with
      | error p => rw [e2] at e; cases e
      | ok r2 =>
        rw [e2, res_bind_ok] at e
        cases r2 with
        | error e' => cases e
        | ok r2 =>
          obtain ⟨hs', rng2⟩ := r2
          simp only [Except.ok.injEq, Prod.mk.injEq, List.cons.injEq] at e
          obtain ⟨⟨rfl, rfl⟩, rfl⟩ := e
          rw [hopKxPublic_ok (hok index (by simp)), res_bind_ok]
          rw [assertP_pos (decide_eq_true (show ([] : List KxPublic).length < MAX_HOPS by csimp; simp)),
            res_bind_ok, if_pos rfl, ht, assertP_pos (show (some fi).isSome = true from rfl), res_bind_ok,
            routeLoop_ok _ _ _ e2 (fun x hx => hok x (by simp [hx])) (by omega) (by simpa using hn)
              (by simp; omega)]
          rfl

/-- The loop, given the special hops. -/
theorem tail_spec (hg : g.WF) {kind : RouteKind} {first pen : Option Nat} {used : List Nat} {m N : Nat}
    (rng : Rng)
    (hd : ∀ d, endpoint kind = some d → d < g.topology.mixnodes.length)
    (hf : HopOk g first) (hp : HopOk g pen) (ha : Ascending used)
    (hu : ∀ u ∈ used, u < g.topology.mixnodes.length) (h7 : used.length + m ≤ 7)
    (hN : N = first.toList.length + m + pen.toList.length + 1) (hN6 : N ≤ 6)
    (hs : first.isSome = true ∨ pen.isSome = true ∨ ∃ i, g.topology.localNode = .mixnode i) :
    (g.topology.mixnodes.length < used.length + m ∧
      g.routeLoop kind N first pen N 0 rng used none [] [] = .ok (.error .tooFewMixnodes)) ∨
    (used.length + m ≤ g.topology.mixnodes.length ∧ ∃ (mids : List Nat) (rng' : Rng) (fi : Nat)
        (h : Option Nat) (hs : List (Option Nat)),
      h :: hs = first.toList.map some ++ (mids.map some ++ (pen.toList.map some ++ [lastHop kind])) ∧
      g.hopTarget h = some fi ∧
      g.routeLoop kind N first pen N 0 rng used none [] [] =
        .ok (.ok (some fi, hs.map g.targetOf, (h :: hs).map (kxOf g), rng')) ∧
      mids.length = m ∧ mids.Nodup ∧ (∀ x ∈ mids, x < g.topology.mixnodes.length ∧ x ∉ used) ∧
      mids = pickMids used (Spec.draws rng (midBounds g.topology.mixnodes.length used.length m)) ∧
      rng' = fun n => rng (n + m)) := by
  obtain ⟨n, rfl⟩ : ∃ n, N = n + 1 := ⟨N - 1, by omega⟩
  have hmix : (∃ i, g.topology.localNode = .mixnode i) → ∀ x, (g.hopTarget x).isSome = true := by
    rintro ⟨i, hi⟩ x
    cases x with
    | some x => rfl
    | none => simp [hopTarget, hi]
  have h0 : ∀ rng used x used' rng',
      g.hopIndex rng kind 0 (n + 1) first pen used = .ok (.ok (x, used', rng')) →
      (g.hopTarget x).isSome = true := by
    intro rng used x used' rng' hx
    rcases hs with hs | hs | hs
    · obtain ⟨f, rfl⟩ := Option.isSome_iff_exists.mp hs
      rw [hopIndex_first] at hx
      simp only [Except.ok.injEq, Prod.mk.injEq] at hx
      obtain ⟨rfl, -⟩ := hx; rfl
    · obtain ⟨p, rfl⟩ := Option.isSome_iff_exists.mp hs
      simp only [Option.toList_some, List.length_singleton] at hN
      cases first with
      | some f =>
        rw [hopIndex_first] at hx
        simp only [Except.ok.injEq, Prod.mk.injEq] at hx
        obtain ⟨rfl, -⟩ := hx; rfl
      | none =>
        simp only [Option.toList_none, List.length_nil] at hN
        by_cases hm : m = 0
        · have := hopIndex_pen (g := g) rng kind 0 none p used (.inr rfl)
          rw [show n + 1 = 0 + 2 by omega, this] at hx
          simp only [Except.ok.injEq, Prod.mk.injEq] at hx
          obtain ⟨rfl, -⟩ := hx; rfl
        · have := hopIndex_mid (g := g) rng kind 0 (n + 1) none (some p) used (.inr rfl) (by omega)
            (.inr (by omega))
          rw [Nat.zero_add] at this
          rw [this] at hx
          cases e1 : g.chooseMixnodeIndex rng used with
          | error q => rw [e1] at hx; cases hx
          | ok r =>
            rw [e1, res_bind_ok] at hx
            cases r with
            | error e => cases hx
            | ok r =>
              dsimp only at hx
              cases e2 : UsedIndices.insert used r.1 with
              | error q => rw [e2] at hx; cases hx
              | ok u =>
                rw [e2, res_bind_ok] at hx
                simp only [Except.ok.injEq, Prod.mk.injEq] at hx
                obtain ⟨rfl, -⟩ := hx; rfl
    · exact hmix hs x
  -- the hops
  have hops : (g.topology.mixnodes.length < used.length + m ∧
      g.hopsLoop kind (n + 1) first pen (n + 1) 0 rng used = .ok (.error .tooFewMixnodes)) ∨
    (used.length + m ≤ g.topology.mixnodes.length ∧ ∃ (mids : List Nat) (rng' : Rng),
      g.hopsLoop kind (n + 1) first pen (n + 1) 0 rng used =
        .ok (.ok (first.toList.map some ++ (mids.map some ++ (pen.toList.map some ++ [lastHop kind])), rng')) ∧
      mids.length = m ∧ mids.Nodup ∧ (∀ x ∈ mids, x < g.topology.mixnodes.length ∧ x ∉ used) ∧
      mids = pickMids used (Spec.draws rng (midBounds g.topology.mixnodes.length used.length m)) ∧
      rng' = fun n => rng (n + m)) := by
    cases first with
    | none =>
      have := hopsLoop_spec hg kind none pen m 0 rng used (.inr rfl) ha hu h7
      simp only [Option.toList_none, List.length_nil] at hN
      rw [show 0 + m + pen.toList.length + 1 = n + 1 by omega,
        show m + pen.toList.length + 1 = n + 1 by omega] at this
      simpa using this
    | some f =>
      have := hopsLoop_spec hg kind (some f) pen m 1 rng used (.inl (by omega)) ha hu h7
      simp only [Option.toList_some, List.length_singleton] at hN
      rw [show 1 + m + pen.toList.length + 1 = n + 1 by omega,
        show m + pen.toList.length + 1 = n by omega] at this
      unfold hopsLoop
      rw [hopIndex_first, res_bind_ok]
      dsimp only
      rcases this with ⟨a, b⟩ | ⟨a, mids, rng', b, c⟩
      · left; refine ⟨a, ?_⟩; rw [Nat.zero_add, b]; rfl
      · right; refine ⟨a, mids, rng', ?_, c⟩; rw [Nat.zero_add, b]; rfl
  rcases hops with ⟨a, b⟩ | ⟨a, mids, rng', b, c1, c2, c3, c4⟩
  · left
    refine ⟨a, routeLoop_err _ _ _ b ?_ (fun _ => h0) (by simpa using hN6) (by simpa using hN6)⟩
    intro i rng used x used' rng' hx
    exact hopIndex_hopOk hg hd hf hp hx
  · right
    have hok : ∀ x ∈ first.toList.map some ++ (mids.map some ++ (pen.toList.map some ++ [lastHop kind])),
        HopOk g x := by
      intro x hx
      simp only [List.mem_append, List.mem_map, Option.mem_toList, List.mem_singleton] at hx
      rcases hx with ⟨y, hy, rfl⟩ | ⟨y, hy, rfl⟩ | ⟨y, hy, rfl⟩ | rfl
      · intro i hi; cases hi; exact hf _ hy
      · intro i hi; cases hi; exact (c3 _ hy).1
      · intro i hi; cases hi; exact hp _ hy
      · exact lastHop_ok hd
    obtain ⟨h, hs', hh⟩ : ∃ h hs', h :: hs' =
        first.toList.map some ++ (mids.map some ++ (pen.toList.map some ++ [lastHop kind])) := by
      generalize hl : first.toList.map some ++ (mids.map some ++ (pen.toList.map some ++ [lastHop kind])) = l
      cases l with
      | nil => simp at hl
      | cons h hs' => exact ⟨h, hs', rfl⟩
    rw [← hh] at b hok
    have hsome : (g.hopTarget h).isSome = true := by
      unfold hopsLoop at b
      cases e1 : g.hopIndex rng kind 0 (n + 1) first pen used with
      | error p => rw [e1] at b; cases b
      | ok r =>
        rw [e1, res_bind_ok] at b
        cases r with
        | error e' => cases b
        | ok r =>
          obtain ⟨index, used', rng1⟩ := r
          dsimp only at b
          cases e2 : g.hopsLoop kind (n + 1) first pen n (0 + 1) rng1 used' with
          | error p => rw [e2] at b; cases b
          | ok r2 =>
            rw [e2, res_bind_ok] at b
            cases r2 with
            | error e' => cases b
            | ok r2 =>
              simp only [Except.ok.injEq, Prod.mk.injEq, List.cons.injEq] at b
              obtain ⟨⟨rfl, -⟩, -⟩ := b
              exact h0 _ _ _ _ _ e1
    obtain ⟨fi, hfi⟩ := Option.isSome_iff_exists.mp hsome
    exact ⟨a, mids, rng', fi, h, hs', hh, hfi, routeLoop_ok0 b hok hfi (by omega), c1, c2, c3, c4⟩

/-- How many distinct mixnodes the ends and the gateways of a route use up. -/
def usedCount (g : RouteGenerator) (kind : RouteKind) : Nat :=
  match g.topology.localNode, kind with
  | .mixnode i, .toMixnode d => if d = i then 1 else 2
  | .mixnode i, .fromMixnode d => if d = i then 1 else 2
  | .mixnode _, .loop => 1
  | .nonMixnode _, .toMixnode d => if g.connectedGatewayIndices = [d] then 1 else 2
  | .nonMixnode _, .fromMixnode d => if g.connectedGatewayIndices = [d] then 1 else 2
  | .nonMixnode _, .loop => if g.connectedGatewayIndices.length = 1 then 1 else 2

/-- The hops that are not drawn from all mixnodes. -/
def fixedHops (g : RouteGenerator) (kind : RouteKind) : Nat :=
  match g.topology.localNode, kind with
  | .mixnode _, _ => 1
  | .nonMixnode _, .loop => 3
  | .nonMixnode _, _ => 2

/-- The least number of hops. -/
def leastHops (g : RouteGenerator) (kind : RouteKind) : Nat :=
  match g.topology.localNode, kind with
  | .mixnode _, _ => 1
  | .nonMixnode _, .loop => if g.connectedGatewayIndices.length = 1 then 4 else 3
  | .nonMixnode _, _ => 2

/-- The number of hops drawn from all mixnodes. -/
def midCount (g : RouteGenerator) (kind : RouteKind) (k : Nat) : Nat :=
  max k (g.leastHops kind) - g.fixedHops kind

/-- The gateways used as first and as penultimate hop. -/
def Specials (g : RouteGenerator) (kind : RouteKind) (first pen : Option Nat) : Prop :=
  match g.topology.localNode, kind with
  | .mixnode _, _ => first = none ∧ pen = none
  | .nonMixnode _, .toMixnode d => pen = none ∧ ∃ f, first = some f ∧ f ∈ g.connectedGatewayIndices ∧
      (f = d → g.connectedGatewayIndices = [d])
  | .nonMixnode _, .fromMixnode d => first = none ∧ ∃ p, pen = some p ∧ p ∈ g.connectedGatewayIndices ∧
      (p = d → g.connectedGatewayIndices = [d])
  | .nonMixnode _, .loop => ∃ f p, first = some f ∧ pen = some p ∧ f ∈ g.connectedGatewayIndices ∧
      p ∈ g.connectedGatewayIndices ∧ (p = f → g.connectedGatewayIndices = [f])

/-- The node cannot reach the network. -/
def Disconnected (g : RouteGenerator) : Prop :=
  (∃ gs, g.topology.localNode = .nonMixnode gs) ∧ g.connectedGatewayIndices = []

/-- The bounds of the draw of a gateway when one gateway is avoided. -/
def otherBounds : List Nat → List Nat
  | [] => []
  | [_] => []
  | _ :: rest => [rest.length]

/-- The bounds of the draw of a gateway avoiding `x`. -/
def gwBounds (cg : List Nat) : Option Nat → List Nat
  | none => [cg.length]
  | some x => if x ∈ cg then otherBounds cg else [cg.length]

/-- The gateway drawn. -/
def gwPick (cg : List Nat) (x : Option Nat) (ds : List Nat) : Nat :=
  match x with
  | none => cg.getD (ds.headD 0) 0
  | some x => if x ∈ cg then
      match cg with
      | [] => 0
      | [f] => f
      | f :: rest => if rest.getD (ds.headD 0) 0 = x then f else rest.getD (ds.headD 0) 0
    else cg.getD (ds.headD 0) 0

theorem chooseConnected_eq (hne : g.connectedGatewayIndices ≠ []) (rng : Rng) (x : Option Nat) :
    g.chooseConnectedGatewayIndex rng x =
      .ok (gwPick g.connectedGatewayIndices x (Spec.draws rng (gwBounds g.connectedGatewayIndices x)),
        fun n => rng (n + (gwBounds g.connectedGatewayIndices x).length)) := by
  have hany : ∀ l : List Nat, l ≠ [] → (match rng.choose l with
        | (some i, rng) => (.ok (i, rng) : Except TopologyErr (Nat × Rng))
        | (none, _) => .error .noConnectedGatewayMixnodes) =
      .ok (l.getD (rng 0 % l.length) 0, fun n => rng (n + 1)) := by
    intro l hl
    have hlt := Nat.mod_lt (rng 0) (List.length_pos_iff.mpr hl)
    cases l with
    | nil => exact absurd rfl hl
    | cons a l =>
      simp only [Rng.choose, List.isEmpty_cons, Bool.false_eq_true, if_false,
        List.getElem?_eq_getElem hlt, List.getD_eq_getElem?_getD, Option.getD_some]
  unfold chooseConnectedGatewayIndex gwPick gwBounds
  dsimp only
  cases x with
  | none => exact hany _ hne
  | some x =>
    dsimp only
    by_cases hm : x ∈ g.connectedGatewayIndices
    · have : (g.connectedGatewayIndices.any (· == x)) = true := by simpa using hm
      rw [this]
      simp only [Bool.not_true, Bool.false_eq_true, if_false, if_pos hm]
      cases hl : g.connectedGatewayIndices with
      | nil => exact absurd hl hne
      | cons first rest =>
        cases rest with
        | nil => rfl
        | cons b rest =>
          have hlt := Nat.mod_lt (rng 0) (show 0 < (b :: rest).length by simp)
          simp only [Rng.choose, List.isEmpty_cons, Bool.false_eq_true, if_false,
            List.getElem?_eq_getElem hlt, List.getD_eq_getElem?_getD, otherBounds, Spec.draws,
            List.headD_cons, Option.getD_some]
          rfl
    · have : (g.connectedGatewayIndices.any (· == x)) = false := by
        rw [← Bool.not_eq_true]; simpa using hm
      rw [this]
      simp only [Bool.not_false, if_true, if_neg hm]
      exact hany _ hne

/-- The bounds of the draws of the gateways of a route. -/
def specialBounds (g : RouteGenerator) (kind : RouteKind) : List Nat :=
  match g.topology.localNode, kind with
  | .mixnode _, _ => []
  | .nonMixnode _, .toMixnode d => gwBounds g.connectedGatewayIndices (some d)
  | .nonMixnode _, .fromMixnode d => gwBounds g.connectedGatewayIndices (some d)
  | .nonMixnode _, .loop => gwBounds g.connectedGatewayIndices none ++ otherBounds g.connectedGatewayIndices

/-- The gateways drawn. -/
def pickSpecials (g : RouteGenerator) (kind : RouteKind) (ds : List Nat) : Option Nat × Option Nat :=
  match g.topology.localNode, kind with
  | .mixnode _, _ => (none, none)
  | .nonMixnode _, .toMixnode d => (some (gwPick g.connectedGatewayIndices (some d) ds), none)
  | .nonMixnode _, .fromMixnode d => (none, some (gwPick g.connectedGatewayIndices (some d) ds))
  | .nonMixnode _, .loop =>
    let f := gwPick g.connectedGatewayIndices none (ds.take 1)
    (some f, some (gwPick g.connectedGatewayIndices (some f) (ds.drop 1)))

/-- How the choices of a route follow from the random numbers. -/
def Drawn (g : RouteGenerator) (kind : RouteKind) (k : Nat) (rng : Rng) (first pen : Option Nat)
    (mids : List Nat) (rng' : Rng) : Prop :=
  (first, pen) = g.pickSpecials kind (Spec.draws rng (g.specialBounds kind)) ∧
  ∃ used, Ascending used ∧
    (∀ u, u ∈ used ↔ endpoint kind = some u ∨ g.topology.localNode = .mixnode u ∨ first = some u ∨
      pen = some u) ∧
    used.length = g.usedCount kind ∧
    mids = pickMids used (Spec.draws (fun n => rng (n + (g.specialBounds kind).length))
      (midBounds g.topology.mixnodes.length (g.usedCount kind) (g.midCount kind k))) ∧
    rng' = fun n => rng (n + ((g.specialBounds kind).length + g.midCount kind k))

theorem finish {kind : RouteKind} {k : Nat} {rng rng0 : Rng} {first pen : Option Nat} {used : List Nat}
    (hg : g.WF) (hk : k ≤ 6)
    (hd : ∀ d, endpoint kind = some d → d < g.topology.mixnodes.length)
    (hs : g.Specials kind first pen) (ha : Ascending used)
    (hu : ∀ u, u ∈ used ↔ endpoint kind = some u ∨ g.topology.localNode = .mixnode u ∨ first = some u ∨
      pen = some u)
    (hc : used.length = g.usedCount kind) (hmin : minHops first pen = g.leastHops kind)
    (hfx : first.toList.length + pen.toList.length + 1 = g.fixedHops kind)
    (hd1 : (first, pen) = g.pickSpecials kind (Spec.draws rng0 (g.specialBounds kind)))
    (hd2 : rng = fun n => rng0 (n + (g.specialBounds kind).length))
    {F : Option Nat → List Target → List KxPublic → Rng → Res (Except TopologyErr (Route × Rng))}
    (hF : ∀ fi ts ks r, F (some fi) ts ks r = .ok (.ok (⟨fi, ts, ks⟩, r)))
    {X : Res (Except TopologyErr (Route × Rng))}
    (hX : X = (do
      match ← g.routeLoop kind (max k (minHops first pen)) first pen (max k (minHops first pen)) 0 rng used
        none [] [] with
      | .error e => .ok (.error e)
      | .ok (firstIndex, targets, kxs, rng) => F firstIndex targets kxs rng)) :
    (g.topology.mixnodes.length < g.usedCount kind + g.midCount kind k ∧
      X = .ok (.error .tooFewMixnodes)) ∨
    (g.usedCount kind + g.midCount kind k ≤ g.topology.mixnodes.length ∧
      ∃ (first pen : Option Nat) (mids : List Nat) (rng' : Rng) (fi : Nat) (h : Option Nat)
        (hs : List (Option Nat)), g.Specials kind first pen ∧
      h :: hs = first.toList.map some ++ (mids.map some ++ (pen.toList.map some ++ [lastHop kind])) ∧
      g.hopTarget h = some fi ∧
      X = .ok (.ok (⟨fi, hs.map g.targetOf, (h :: hs).map (kxOf g)⟩, rng')) ∧
      mids.length = g.midCount kind k ∧ mids.Nodup ∧
      (∀ x ∈ mids, x < g.topology.mixnodes.length ∧ endpoint kind ≠ some x ∧
        g.topology.localNode ≠ .mixnode x ∧ first ≠ some x ∧ pen ≠ some x) ∧
      Drawn g kind k rng0 first pen mids rng') := by
  have hL : g.leastHops kind ≤ 4 := by
    unfold leastHops; split <;> try split
    all_goals omega
  have hFL : g.fixedHops kind ≤ g.leastHops kind := by
    unfold leastHops fixedHops
    cases g.topology.localNode <;> cases kind <;> dsimp only <;> try split
    all_goals omega
  have hUF : g.usedCount kind ≤ 1 + g.fixedHops kind := by
    unfold usedCount fixedHops
    cases g.topology.localNode <;> cases kind <;> dsimp only <;> try split
    all_goals omega
  have hmem : ∀ i, i ∈ g.connectedGatewayIndices → i < g.topology.mixnodes.length := fun i hi => hg.lt hi
  have hfp : HopOk g first ∧ HopOk g pen := by
    unfold Specials at hs
    cases hl : g.topology.localNode with
    | mixnode j =>
      rw [hl] at hs; obtain ⟨rfl, rfl⟩ := hs
      exact ⟨fun _ h => (by cases h), fun _ h => (by cases h)⟩
    | nonMixnode gs =>
      rw [hl] at hs
      cases kind with
      | toMixnode d =>
        obtain ⟨rfl, f, rfl, hf, -⟩ := hs
        exact ⟨fun _ h => by cases h; exact hmem _ hf, fun _ h => by cases h⟩
      | fromMixnode d =>
        obtain ⟨rfl, f, rfl, hf, -⟩ := hs
        exact ⟨fun _ h => (by cases h), fun _ h => (by cases h; exact hmem _ hf)⟩
      | loop =>
        obtain ⟨f, p, rfl, rfl, hf, hp, -⟩ := hs
        exact ⟨fun _ h => by cases h; exact hmem _ hf, fun _ h => by cases h; exact hmem _ hp⟩
  have hsm : first.isSome = true ∨ pen.isSome = true ∨ ∃ i, g.topology.localNode = .mixnode i := by
    unfold Specials at hs
    cases hl : g.topology.localNode with
    | mixnode j => exact .inr (.inr ⟨j, rfl⟩)
    | nonMixnode gs =>
      rw [hl] at hs
      cases kind with
      | toMixnode d => obtain ⟨rfl, f, rfl, hf, -⟩ := hs; exact .inl rfl
      | fromMixnode d => obtain ⟨rfl, f, rfl, hf, -⟩ := hs; exact .inr (.inl rfl)
      | loop => obtain ⟨f, p, rfl, rfl, hf, hp, -⟩ := hs; exact .inl rfl
  have hul : ∀ u ∈ used, u < g.topology.mixnodes.length := by
    intro u hu'
    rcases (hu u).mp hu' with h | h | h | h
    · exact hd u h
    · obtain ⟨m, hm, -⟩ := hg.topology.isLocal u h
      exact (List.getElem?_eq_some_iff.mp hm).1
    · exact hfp.1 u h
    · exact hfp.2 u h
  rw [hmin] at hX
  have := tail_spec (m := g.midCount kind k) (N := max k (g.leastHops kind)) hg rng hd hfp.1 hfp.2 ha hul
    (by rw [hc]; unfold midCount; omega) (by unfold midCount; omega) (by omega) hsm
  rw [hc] at this
  rcases this with ⟨a, b⟩ | ⟨a, mids, rng', fi, h, hs', c1, c2, c3, c4, c5, c6, c7, c8⟩
  · left
    refine ⟨a, ?_⟩
    rw [hX, b]; rfl
  · right
    refine ⟨a, first, pen, mids, rng', fi, h, hs', hs, c1, c2, ?_, c4, c5, fun x hx => ?_, hd1, used, ha, hu, hc,
      by rw [c7, hd2], ?_⟩
    · rw [hX, c3, res_bind_ok]; exact hF _ _ _ _
    · obtain ⟨d1, d2⟩ := c6 x hx
      rw [hu] at d2
      push Not at d2
      exact ⟨d1, d2⟩
    · rw [c8, hd2]; funext n; show rng0 _ = rng0 _; congr 1; omega

theorem genRoute_spec (hg : g.WF) (rng : Rng) (kind : RouteKind) {k : Nat} (hk : k ≤ 6)
    (hd : ∀ d, endpoint kind = some d → d < g.topology.mixnodes.length) :
    (g.Disconnected ∧ g.genRoute rng kind k = .ok (.error .noConnectedGatewayMixnodes)) ∨
    (¬ g.Disconnected ∧
     ((g.topology.mixnodes.length < g.usedCount kind + g.midCount kind k ∧
        g.genRoute rng kind k = .ok (.error .tooFewMixnodes)) ∨
      (g.usedCount kind + g.midCount kind k ≤ g.topology.mixnodes.length ∧
      ∃ (first pen : Option Nat) (mids : List Nat) (rng' : Rng) (fi : Nat) (h : Option Nat)
        (hs : List (Option Nat)), g.Specials kind first pen ∧
      h :: hs = first.toList.map some ++ (mids.map some ++ (pen.toList.map some ++ [lastHop kind])) ∧
      g.hopTarget h = some fi ∧
      g.genRoute rng kind k = .ok (.ok (⟨fi, hs.map g.targetOf, (h :: hs).map (kxOf g)⟩, rng')) ∧
      mids.length = g.midCount kind k ∧ mids.Nodup ∧
      (∀ x ∈ mids, x < g.topology.mixnodes.length ∧ endpoint kind ≠ some x ∧
        g.topology.localNode ≠ .mixnode x ∧ first ≠ some x ∧ pen ≠ some x) ∧
      Drawn g kind k rng first pen mids rng'))) := by
  have hins1 : ∀ d, UsedIndices.insert [] d = .ok [d] := fun d =>
    insert_ok (List.Pairwise.nil) (by simp)
  have hins2 : ∀ d i, UsedIndices.insert [d] i = .ok (UsedIndices.insertSorted i [d]) := fun d i =>
    insert_ok (by simp) (by split <;> simp)
  have hasc : ∀ d i, Ascending (UsedIndices.insertSorted i [d]) := fun d i => insertSorted_asc i (by simp)
  have hlen : ∀ d i, (UsedIndices.insertSorted i [d]).length = if i = d then 1 else 2 := fun d i => by
    rw [insertSorted_length i (by simp)]; simp
  obtain ⟨ln, hl⟩ : ∃ ln, g.topology.localNode = ln := ⟨_, rfl⟩
  cases ln with
  | mixnode i =>
    right
    refine ⟨fun h => ?_, ?_⟩
    · obtain ⟨⟨gs, hgs⟩, -⟩ := h; rw [hl] at hgs; cases hgs
    cases kind with
    | toMixnode d =>
      refine finish (first := none) (pen := none) (used := UsedIndices.insertSorted i [d]) (rng := rng)
        (F := fun f ts ks r => do
          let first ← expectSome "At least one hop" f
          .ok (.ok (⟨first, ts, ks⟩, r)))
        hg hk hd ?_ (hasc _ _) ?_ ?_ ?_ ?_ ?_ ?_ (fun _ _ _ _ => rfl) ?_
      · simp only [Specials, hl]; exact ⟨trivial, trivial⟩
      · intro u; simp [mem_insertSorted, endpoint, hl, eq_comm, or_comm]
      · simp only [hlen, usedCount, hl, eq_comm]
      · simp only [minHops, leastHops, hl]; rfl
      · simp only [fixedHops, hl]; rfl
      · simp only [pickSpecials, hl]
      · simp only [specialBounds, hl]; rfl
      · unfold genRoute routeEnds
        simp only [hins1, hins2, res_bind_ok, hl, chooseSpecial]
        rfl
    | fromMixnode d =>
      refine finish (first := none) (pen := none) (used := UsedIndices.insertSorted i [d]) (rng := rng)
        (F := fun f ts ks r => do
          let first ← expectSome "At least one hop" f
          .ok (.ok (⟨first, ts, ks⟩, r)))
        hg hk hd ?_ (hasc _ _) ?_ ?_ ?_ ?_ ?_ ?_ (fun _ _ _ _ => rfl) ?_
      · simp only [Specials, hl]; exact ⟨trivial, trivial⟩
      · intro u; simp [mem_insertSorted, endpoint, hl, eq_comm, or_comm]
      · simp only [hlen, usedCount, hl, eq_comm]
      · simp only [minHops, leastHops, hl]; rfl
      · simp only [fixedHops, hl]; rfl
      · simp only [pickSpecials, hl]
      · simp only [specialBounds, hl]; rfl
      · unfold genRoute routeEnds
        simp only [hins1, hins2, res_bind_ok, hl, chooseSpecial]
        rfl
    | loop =>
      refine finish (first := none) (pen := none) (used := [i]) (rng := rng)
        (F := fun f ts ks r => do
          let first ← expectSome "At least one hop" f
          .ok (.ok (⟨first, ts, ks⟩, r)))
        hg hk hd ?_ (by simp) ?_ ?_ ?_ ?_ ?_ ?_ (fun _ _ _ _ => rfl) ?_
      · simp only [Specials, hl]; exact ⟨trivial, trivial⟩
      · intro u; simp [endpoint, hl, eq_comm]
      · simp only [usedCount, hl]; rfl
      · simp only [minHops, leastHops, hl]; rfl
      · simp only [fixedHops, hl]; rfl
      · simp only [pickSpecials, hl]
      · simp only [specialBounds, hl]; rfl
      · unfold genRoute routeEnds
        simp only [hins1, res_bind_ok, hl, chooseSpecial]
        rfl
  | nonMixnode gs =>
    by_cases hcg : g.connectedGatewayIndices = []
    · left
      refine ⟨⟨⟨gs, hl⟩, hcg⟩, ?_⟩
      have herr : ∀ x, g.chooseConnectedGatewayIndex rng x = .error .noConnectedGatewayMixnodes := by
        intro x
        rcases chooseConnected_spec g rng x with ⟨-, h⟩ | ⟨i, rng', -, h, -⟩
        · exact h
        · rw [hcg] at h; simp at h
      unfold genRoute routeEnds
      cases kind with
      | toMixnode d =>
        simp only [hins1, res_bind_ok, hl, chooseSpecial, UsedIndices.asOption]
        rw [assertP_pos (by simp)]
        simp only [res_bind_ok, herr]
      | fromMixnode d =>
        simp only [hins1, res_bind_ok, hl, chooseSpecial, UsedIndices.asOption]
        rw [assertP_pos (by simp)]
        simp only [res_bind_ok, herr]
      | loop =>
        simp only [hins1, res_bind_ok, hl, chooseSpecial, UsedIndices.asOption]
        rw [assertP_pos (by simp)]
        simp only [res_bind_ok, herr]
    right
    refine ⟨fun h => hcg h.2, ?_⟩
    have hch : ∀ rng x, ∃ i rng', g.chooseConnectedGatewayIndex rng x = .ok (i, rng') ∧
        i ∈ g.connectedGatewayIndices ∧ (x = some i → g.connectedGatewayIndices = [i]) := by
      intro rng x
      rcases chooseConnected_spec g rng x with ⟨h, -⟩ | ⟨i, rng', h1, h2, h3⟩
      · exact absurd h hcg
      · exact ⟨i, rng', h1, h2, h3 hg.nodup⟩
    have has1 : ∀ d : Nat, UsedIndices.asOption [d] = .ok (some d) := fun d => rfl
    have has0 : UsedIndices.asOption [] = .ok none := rfl
    have heq : ∀ {r : Rng} {x : Option Nat} {i : Nat} {r' : Rng},
        g.chooseConnectedGatewayIndex r x = .ok (i, r') →
        i = gwPick g.connectedGatewayIndices x (Spec.draws r (gwBounds g.connectedGatewayIndices x)) ∧
        r' = fun n => r (n + (gwBounds g.connectedGatewayIndices x).length) := by
      intro r x i r' h
      rw [chooseConnected_eq hcg] at h
      simp only [Except.ok.injEq, Prod.mk.injEq] at h
      exact ⟨h.1.symm, h.2.symm⟩
    cases kind with
    | toMixnode d =>
      obtain ⟨f, rng1, e1, e2, e3⟩ := hch rng (some d)
      have hiff : (f = d) ↔ g.connectedGatewayIndices = [d] := by
        constructor
        · rintro rfl; exact e3 rfl
        · intro h; rw [h] at e2; simpa using e2
      refine finish (first := some f) (pen := none) (used := UsedIndices.insertSorted f [d]) (rng := rng1)
        (F := fun f ts ks r => do
          let first ← expectSome "At least one hop" f
          .ok (.ok (⟨first, ts, ks⟩, r)))
        hg hk hd ?_ (hasc _ _) ?_ ?_ ?_ ?_ ?_ ?_ (fun _ _ _ _ => rfl) ?_
      · simp only [Specials, hl]; exact ⟨trivial, f, rfl, e2, hiff.mp⟩
      · intro u; simp [mem_insertSorted, endpoint, hl, eq_comm, or_comm]
      · simp only [hlen, usedCount, hl, hiff]
      · simp only [minHops, leastHops, hl]; rfl
      · simp only [fixedHops, hl]; rfl
      · simp only [pickSpecials, specialBounds, hl, ← (heq e1).1]
      · simp only [specialBounds, hl]; exact (heq e1).2
      · unfold genRoute routeEnds
        simp only [hins1, hins2, res_bind_ok, hl, chooseSpecial, has1, e1]
        rfl
    | fromMixnode d =>
      obtain ⟨f, rng1, e1, e2, e3⟩ := hch rng (some d)
      have hiff : (f = d) ↔ g.connectedGatewayIndices = [d] := by
        constructor
        · rintro rfl; exact e3 rfl
        · intro h; rw [h] at e2; simpa using e2
      refine finish (first := none) (pen := some f) (used := UsedIndices.insertSorted f [d]) (rng := rng1)
        (F := fun f ts ks r => do
          let first ← expectSome "At least one hop" f
          .ok (.ok (⟨first, ts, ks⟩, r)))
        hg hk hd ?_ (hasc _ _) ?_ ?_ ?_ ?_ ?_ ?_ (fun _ _ _ _ => rfl) ?_
      · simp only [Specials, hl]; exact ⟨trivial, f, rfl, e2, hiff.mp⟩
      · intro u; simp [mem_insertSorted, endpoint, hl, eq_comm, or_comm]
      · simp only [hlen, usedCount, hl, hiff]
      · simp only [minHops, leastHops, hl]; rfl
      · simp only [fixedHops, hl]; rfl
      · simp only [pickSpecials, specialBounds, hl, ← (heq e1).1]
      · simp only [specialBounds, hl]; exact (heq e1).2
      · unfold genRoute routeEnds
        simp only [hins1, hins2, res_bind_ok, hl, chooseSpecial, has1, e1]
        rfl
    | loop =>
      obtain ⟨f, rng1, e1, e2, e3⟩ := hch rng none
      obtain ⟨p, rng2, e4, e5, e6⟩ := hch rng1 (some f)
      have hiff : (p = f) ↔ g.connectedGatewayIndices.length = 1 := by
        constructor
        · rintro rfl; rw [e6 rfl]; rfl
        · intro h
          obtain ⟨x, hx⟩ := List.length_eq_one_iff.mp h
          rw [hx] at e2 e5
          simp only [List.mem_singleton] at e2 e5
          rw [e2, e5]
      refine finish (first := some f) (pen := some p) (used := UsedIndices.insertSorted p [f]) (rng := rng2)
        (F := fun f ts ks r => do
          let first ← expectSome "At least one hop" f
          .ok (.ok (⟨first, ts, ks⟩, r)))
        hg hk hd ?_ (hasc _ _) ?_ ?_ ?_ ?_ ?_ ?_ (fun _ _ _ _ => rfl) ?_
      · simp only [Specials, hl]; exact ⟨f, p, rfl, rfl, e2, e5, fun h => by subst h; exact e6 rfl⟩
      · intro u; simp [mem_insertSorted, endpoint, hl, eq_comm, or_comm]
      · simp only [hlen, usedCount, hl, hiff]
      · simp only [minHops, leastHops, hl, ← hiff]
        by_cases h : p = f
        · subst h; simp
        · have : ¬ f = p := fun h' => h h'.symm
          simp [h, this]
      · simp only [fixedHops, hl]; rfl
      · simp only [pickSpecials, specialBounds, hl, Spec.draws_append]
        rw [List.take_left' (by rw [Spec.draws_length]; rfl), List.drop_left' (by rw [Spec.draws_length]; rfl),
          ← (heq e1).1]
        have := (heq e4).1
        rw [(heq e1).2] at this
        simp only [gwBounds, if_pos e2] at this ⊢
        rw [← this]
      · simp only [specialBounds, hl]
        rw [(heq e4).2, (heq e1).2]
        simp only [gwBounds, if_pos e2, List.length_append]
        funext n; show rng _ = rng _; congr 1; omega
      · unfold genRoute routeEnds
        simp only [hins1, hins2, res_bind_ok, hl, chooseSpecial, has0, has1, e1, e4]
        rfl

end Mixnet.RouteGenerator
