import Verif.Proofs.Route
import Verif.Spec.Draws
/-!
# The loop of route generation
-/
namespace Mixnet.RouteGenerator

variable {g : RouteGenerator}

/-- The hops chosen by `routeLoop`, without the bookkeeping of targets and keys. -/
def hopsLoop (g : RouteGenerator) (kind : RouteKind) (numHops : Nat) (first penultimate : Option Nat) :
    Nat → Nat → Rng → UsedIndices → Res (Except TopologyErr (List (Option Nat) × Rng))
  | 0, _, rng, _ => .ok (.ok ([], rng))
  | n + 1, i, rng, used => do
    match ← g.hopIndex rng kind i numHops first penultimate used with
    | .error e => .ok (.error e)
    | .ok (index, used, rng) => do
      match ← hopsLoop g kind numHops first penultimate n (i + 1) rng used with
      | .error e => .ok (.error e)
      | .ok (hs, rng) => .ok (.ok (index :: hs, rng))

/-- The key of a hop. -/
def kxOf (g : RouteGenerator) : Option Nat → KxPublic
  | some i => match g.topology.mixnodes[i]? with
    | some m => m.kxPublic
    | none => []
  | none => g.topology.localKxPublic

/-- The target of a hop. -/
def targetOf (g : RouteGenerator) (h : Option Nat) : Target :=
  match g.hopTarget h with
  | some i => .mixnodeIndex i
  | none => .peerId g.localPeerId

/-- A hop that exists. -/
def HopOk (g : RouteGenerator) (h : Option Nat) : Prop := ∀ i, h = some i → i < g.topology.mixnodes.length

theorem hopKxPublic_ok {h : Option Nat} (hh : HopOk g h) : g.hopKxPublic h = .ok (kxOf g h) := by
  cases h with
  | none => rfl
  | some i =>
    have := hh i rfl
    simp only [hopKxPublic, kxOf, Topology.getMixnode_ok this, res_bind_ok, List.getElem?_eq_getElem this]

theorem routeLoop_ok {kind : RouteKind} {N : Nat} {first pen : Option Nat} : ∀ {n i : Nat} {rng rng' : Rng}
    {used : UsedIndices} {hs : List (Option Nat)} (fi : Option Nat) (ts : List Target) (ks : List KxPublic),
    g.hopsLoop kind N first pen n i rng used = .ok (.ok (hs, rng')) → (∀ h ∈ hs, HopOk g h) → i ≠ 0 →
    ts.length + n ≤ 5 → ks.length + n ≤ 6 →
    g.routeLoop kind N first pen n i rng used fi ts ks =
      .ok (.ok (fi, ts ++ hs.map g.targetOf, ks ++ hs.map (kxOf g), rng'))
  | 0, i, rng, rng', used, hs, fi, ts, ks, h, _, _, _, _ => by
    simp only [hopsLoop, Except.ok.injEq, Prod.mk.injEq] at h
    obtain ⟨rfl, rfl⟩ := h
    simp only [routeLoop, List.map_nil, List.append_nil]
  | n + 1, i, rng, rng', used, hs, fi, ts, ks, h, hok, hi, ht, hk => by
    unfold hopsLoop at h
    unfold routeLoop
    cases e1 : g.hopIndex rng kind i N first pen used with
    | error p => rw [e1] at h; cases h
    | ok r =>
      rw [e1, res_bind_ok] at h
      rw [res_bind_ok]
      cases r with
      | error e => cases h
      | ok r =>
        obtain ⟨index, used', rng1⟩ := r
        dsimp only at h ⊢
        cases e2 : g.hopsLoop kind N first pen n (i + 1) rng1 used' with
        | error p => rw [e2] at h; cases h
        | ok r2 =>
          rw [e2, res_bind_ok] at h
          cases r2 with
          | error e => cases h
          | ok r2 =>
            obtain ⟨hs', rng2⟩ := r2
            simp only [Except.ok.injEq, Prod.mk.injEq] at h
            obtain ⟨rfl, rfl⟩ := h
            rw [hopKxPublic_ok (hok index (by simp)), res_bind_ok,
              assertP_pos (decide_eq_true (show ks.length < MAX_HOPS by csimp; omega)), res_bind_ok,
              if_neg hi,
              assertP_pos (decide_eq_true (show ts.length < MAX_HOPS - 1 by csimp; omega)), res_bind_ok]
            rw [routeLoop_ok fi _ _ e2 (fun h hh => hok h (by simp [hh])) (by omega) (by simp; omega)
              (by simp; omega)]
            simp only [List.append_assoc, List.map_cons, List.cons_append, List.nil_append, targetOf]
            cases g.hopTarget index <;> rfl

theorem routeLoop_err {kind : RouteKind} {N : Nat} {first pen : Option Nat} : ∀ {n i : Nat} {rng : Rng}
    {used : UsedIndices} {e : TopologyErr} (fi : Option Nat) (ts : List Target) (ks : List KxPublic),
    g.hopsLoop kind N first pen n i rng used = .ok (.error e) →
    (∀ i rng used x used' rng', g.hopIndex rng kind i N first pen used = .ok (.ok (x, used', rng')) → HopOk g x) →
    (i = 0 → ∀ rng used x used' rng', g.hopIndex rng kind 0 N first pen used = .ok (.ok (x, used', rng')) →
      (g.hopTarget x).isSome = true) →
    ts.length + n ≤ (if i = 0 then 6 else 5) → ks.length + n ≤ 6 →
    g.routeLoop kind N first pen n i rng used fi ts ks = .ok (.error e)
  | 0, i, rng, used, e, fi, ts, ks, h, _, _, _, _ => by cases h
  | n + 1, i, rng, used, e, fi, ts, ks, h, hok, h0, ht, hk => by
    unfold hopsLoop at h
    unfold routeLoop
    cases e1 : g.hopIndex rng kind i N first pen used with
    | error p => rw [e1] at h; cases h
    | ok r =>
      rw [e1, res_bind_ok] at h
      rw [res_bind_ok]
      cases r with
      | error e => simpa using h
      | ok r =>
        obtain ⟨index, used', rng1⟩ := r
        dsimp only at h ⊢
        cases e2 : g.hopsLoop kind N first pen n (i + 1) rng1 used' with
        | error p => rw [e2] at h; cases h
        | ok r2 =>
          rw [e2, res_bind_ok] at h
          cases r2 with
          | ok r2 => cases h
          | error e' =>
            simp only [Except.ok.injEq, Except.error.injEq] at h
            subst h
            rw [hopKxPublic_ok (hok i rng used index used' rng1 e1), res_bind_ok,
              assertP_pos (decide_eq_true (show ks.length < MAX_HOPS by csimp; omega)), res_bind_ok]
            by_cases hi : i = 0
            · subst hi
              rw [if_pos rfl, assertP_pos (h0 rfl _ _ _ _ _ e1), res_bind_ok]
              rw [if_pos rfl] at ht
              exact routeLoop_err _ _ _ e2 hok (by omega) (by rw [if_neg (by omega)]; omega) (by simp; omega)
            · rw [if_neg hi] at ht
              rw [if_neg hi,
                assertP_pos (decide_eq_true (show ts.length < MAX_HOPS - 1 by csimp; omega)), res_bind_ok]
              exact routeLoop_err _ _ _ e2 hok (by omega) (by rw [if_neg (by omega)]; simp; omega) (by simp; omega)

/-- The last hop. -/
def lastHop : RouteKind → Option Nat
  | .toMixnode i => some i
  | _ => none

theorem hopIndex_last (rng : Rng) (kind : RouteKind) (i : Nat) (first pen : Option Nat) (used : UsedIndices)
    (h : i ≠ 0 ∨ first = none) :
    g.hopIndex rng kind i (i + 1) first pen used = .ok (.ok (lastHop kind, used, rng)) := by
  unfold hopIndex
  rw [show i + 1 - i = 1 by omega]
  cases i with
  | zero =>
    rcases h with h | h
    · exact absurd rfl h
    · subst h; cases kind <;> rfl
  | succ i => cases kind <;> rfl

theorem hopIndex_pen (rng : Rng) (kind : RouteKind) (i : Nat) (first : Option Nat) (p : Nat)
    (used : UsedIndices) (h : i ≠ 0 ∨ first = none) :
    g.hopIndex rng kind i (i + 2) first (some p) used = .ok (.ok (some p, used, rng)) := by
  unfold hopIndex
  rw [show i + 2 - i = 2 by omega]
  cases i with
  | zero =>
    rcases h with h | h
    · exact absurd rfl h
    · subst h; rfl
  | succ i => rfl

theorem hopIndex_first (rng : Rng) (kind : RouteKind) (N : Nat) (f : Nat) (pen : Option Nat)
    (used : UsedIndices) :
    g.hopIndex rng kind 0 N (some f) pen used = .ok (.ok (some f, used, rng)) := rfl

theorem hopIndex_mid (rng : Rng) (kind : RouteKind) (i k : Nat) (first pen : Option Nat)
    (used : UsedIndices) (h : i ≠ 0 ∨ first = none) (hk : 2 ≤ k) (hp : pen = none ∨ 3 ≤ k) :
    g.hopIndex rng kind i (i + k) first pen used = (do
      match ← g.chooseMixnodeIndex rng used with
      | .error e => .ok (.error e)
      | .ok (index, rng) => do
        let used ← UsedIndices.insert used index
        .ok (.ok (some index, used, rng))) := by
  unfold hopIndex
  rw [show i + k - i = k by omega]
  obtain ⟨k, rfl⟩ : ∃ k', k = k' + 2 := ⟨k - 2, by omega⟩
  cases i with
  | zero =>
    rcases h with h | h
    · exact absurd rfl h
    · subst h
      cases k with
      | zero =>
        rcases hp with rfl | h3
        · rfl
        · omega
      | succ k => rfl
  | succ i =>
    cases k with
    | zero =>
      rcases hp with rfl | h3
      · rfl
      · omega
    | succ k => rfl

/-- The bounds of the draws for `m` distinct mixnodes out of `n` of which `u` are used already. -/
def midBounds (n u : Nat) : Nat → List Nat
  | 0 => []
  | m + 1 => (n - u) :: midBounds n (u + 1) m

/-- The mixnodes chosen with some draws. -/
def pickMids (used : List Nat) : List Nat → List Nat
  | [] => []
  | d :: ds => skipExcluded d used :: pickMids (UsedIndices.insertSorted (skipExcluded d used) used) ds

/-- After the first hop: `m` freshly chosen mixnodes, then the fixed hops. -/
theorem hopsLoop_spec (hg : g.WF) (kind : RouteKind) (first pen : Option Nat) : ∀ (m i : Nat) (rng : Rng)
    (used : List Nat), (i ≠ 0 ∨ first = none) → Ascending used →
    (∀ u ∈ used, u < g.topology.mixnodes.length) → used.length + m ≤ 7 →
    (g.topology.mixnodes.length < used.length + m ∧
      g.hopsLoop kind (i + m + pen.toList.length + 1) first pen (m + pen.toList.length + 1) i rng used =
        .ok (.error .tooFewMixnodes)) ∨
    (used.length + m ≤ g.topology.mixnodes.length ∧ ∃ (mids : List Nat) (rng' : Rng),
      g.hopsLoop kind (i + m + pen.toList.length + 1) first pen (m + pen.toList.length + 1) i rng used =
        .ok (.ok (mids.map some ++ (pen.toList.map some ++ [lastHop kind]), rng')) ∧
      mids.length = m ∧ mids.Nodup ∧ (∀ x ∈ mids, x < g.topology.mixnodes.length ∧ x ∉ used) ∧
      mids = pickMids used (Spec.draws rng (midBounds g.topology.mixnodes.length used.length m)) ∧
      rng' = fun n => rng (n + m))
  | 0, i, rng, used, h, ha, hu, _ => by
    right
    have hlen : used.length ≤ g.topology.mixnodes.length := by
      have := ascending_length (lo := 0) ha (Nat.zero_le _) fun e he => ⟨Nat.zero_le _, hu e he⟩
      omega
    refine ⟨hlen, [], rng, ?_, rfl, List.nodup_nil, by simp, rfl, rfl⟩
    cases pen with
    | none =>
      simp only [Option.toList_none, List.length_nil, hopsLoop, Nat.zero_add, Nat.add_zero,
        hopIndex_last rng kind i first none used h, res_bind_ok]
      rfl
    | some p =>
      have e : i + 0 + (some p).toList.length + 1 = i + 2 := by simp
      have e' : 0 + (some p).toList.length + 1 = 2 := rfl
      rw [e, e']
      have hl := hopIndex_last (g := g) rng kind (i + 1) first (some p) used (.inl (by omega))
      simp only [hopsLoop, hopIndex_pen rng kind i first p used h, res_bind_ok, hl]
      rfl
  | m + 1, i, rng, used, h, ha, hu, hc => by
    have e : i + (m + 1) + pen.toList.length + 1 = i + (m + pen.toList.length + 2) := by omega
    have e' : m + 1 + pen.toList.length + 1 = (m + pen.toList.length + 1) + 1 := by omega
    have hp : pen = none ∨ 3 ≤ m + pen.toList.length + 2 := by
      cases pen with
      | none => exact .inl rfl
      | some p => right; simp
    have hmid := hopIndex_mid (g := g) rng kind i (m + pen.toList.length + 2) first pen used h (by omega) hp
    rcases chooseMixnodeIndex_spec hg rng ha hu with ⟨h1, h2⟩ | ⟨h1, h2, h3, h4⟩
    · left
      refine ⟨by omega, ?_⟩
      rw [h2] at hmid
      rw [e, e']
      unfold hopsLoop
      rw [hmid]; rfl
    · obtain ⟨x, hx⟩ : ∃ x, x = skipExcluded (rng 0 % (g.topology.mixnodes.length - used.length)) used := ⟨_, rfl⟩
      rw [← hx] at h2 h3 h4
      have hins : UsedIndices.insert used x = .ok (UsedIndices.insertSorted x used) :=
        insert_ok ha (by rw [if_neg h3]; omega)
      rw [h4, res_bind_ok] at hmid
      dsimp only at hmid
      rw [hins, res_bind_ok] at hmid
      have hlen' : (UsedIndices.insertSorted x used).length = used.length + 1 := by
        rw [insertSorted_length x ha, if_neg h3]
      have ih := hopsLoop_spec hg kind first pen m (i + 1) (fun k => rng (k + 1)) (UsedIndices.insertSorted x used)
        (.inl (by omega)) (insertSorted_asc x ha) (fun u hu' => by
          rcases (mem_insertSorted x u used).mp hu' with rfl | hu'
          · exact h2
          · exact hu u hu') (by omega)
      have e'' : i + 1 + m + pen.toList.length + 1 = i + (m + pen.toList.length + 2) := by omega
      rw [e'', hlen'] at ih
      rw [e, e']
      unfold hopsLoop
      rw [hmid, res_bind_ok]
      dsimp only
      rcases ih with ⟨i1, i2⟩ | ⟨i1, mids, rng', i2, i3, i4, i5, i6, i7⟩
      · left
        refine ⟨by omega, ?_⟩
        rw [i2]; rfl
      · right
        refine ⟨by omega, x :: mids, rng', ?_, by simp [i3], ?_, ?_, ?_, ?_⟩
        · rw [i2]; rfl
        · refine List.nodup_cons.mpr ⟨fun hm => ?_, i4⟩
          exact (i5 x hm).2 ((mem_insertSorted x x used).mpr (.inl rfl))
        · intro y hy
          rcases List.mem_cons.mp hy with rfl | hy
          · exact ⟨h2, h3⟩
          · exact ⟨(i5 y hy).1, fun hyu => (i5 y hy).2 ((mem_insertSorted x y used).mpr (.inr hyu))⟩
        · simp only [midBounds, Spec.draws, pickMids, ← hx]
          rw [← i6]
        · rw [i7]; rfl

end Mixnet.RouteGenerator
