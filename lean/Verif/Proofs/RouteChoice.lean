import Verif.Props.Routes
import Verif.Proofs.NodePost
/-!
# The random choices of a route
-/
namespace Mixnet.RouteGenerator
open Mixnet Mixnet.Spec

variable {g : RouteGenerator}

theorem midBounds_length (n : Nat) : ∀ (m u : Nat), (midBounds n u m).length = m
  | 0, _ => rfl
  | m + 1, u => by simp [midBounds, midBounds_length n m]

theorem midBounds_pos {n : Nat} : ∀ {m u : Nat}, u + m ≤ n → ∀ x ∈ midBounds n u m, 0 < x
  | 0, _, _ => by simp [midBounds]
  | m + 1, u, h => by
    intro x hx
    simp only [midBounds, List.mem_cons] at hx
    rcases hx with rfl | hx
    · omega
    · exact midBounds_pos (by omega) x hx

/-- A choice of `m` distinct mixnodes out of `n`, none of them used. -/
def MidsOk (n : Nat) (used : List Nat) (m : Nat) (mids : List Nat) : Prop :=
  mids.length = m ∧ mids.Nodup ∧ ∀ x ∈ mids, x < n ∧ x ∉ used

theorem pickMids_uniform {n : Nat} : ∀ {m : Nat} {used : List Nat}, Ascending used → (∀ u ∈ used, u < n) →
    used.length + m ≤ n →
    EquallyLikely (midBounds n used.length m) (pickMids used) (MidsOk n used m)
  | 0, used, _, _, _ => by
    refine ⟨by simp [midBounds], ?_, ?_⟩
    · intro ds h
      have := h.length
      simp only [midBounds, List.length_nil, List.length_eq_zero_iff] at this
      subst this
      exact ⟨rfl, List.nodup_nil, by simp [pickMids]⟩
    · rintro a ⟨h, -⟩
      rw [List.length_eq_zero_iff] at h; subst h
      refine ⟨[], ⟨trivial, rfl⟩, ?_⟩
      rintro ds ⟨h, -⟩
      exact List.eq_nil_of_length_eq_zero h.length
  | m + 1, used, ha, hu, hn => by
    have key : ∀ d < n - used.length, skipExcluded d used < n ∧ skipExcluded d used ∉ used := by
      intro d hd
      refine ⟨?_, skip_not_mem ha d⟩
      have := skip_le used d; omega
    have ih : ∀ x, x < n → x ∉ used → EquallyLikely (midBounds n (used.length + 1) m)
        (pickMids (UsedIndices.insertSorted x used)) (MidsOk n (UsedIndices.insertSorted x used) m) := by
      intro x hx hxu
      have hl : (UsedIndices.insertSorted x used).length = used.length + 1 := by
        rw [insertSorted_length x ha, if_neg hxu]
      have := pickMids_uniform (n := n) (m := m) (insertSorted_asc x ha) (fun u hu' => by
        rcases (mem_insertSorted x u used).mp hu' with rfl | hu'
        · exact hx
        · exact hu u hu') (by omega)
      rwa [hl] at this
    refine ⟨midBounds_pos hn, ?_, ?_⟩
    · intro ds h
      match ds, h with
      | d :: ds, h =>
        obtain ⟨h1, h2⟩ := h
        obtain ⟨k1, k2⟩ := key d h1
        obtain ⟨i1, i2, i3⟩ := (ih _ k1 k2).2.1 ds h2
        refine ⟨by simp [pickMids, i1], ?_, ?_⟩
        · refine List.nodup_cons.mpr ⟨fun hm => ?_, i2⟩
          exact (i3 _ hm).2 ((mem_insertSorted _ _ used).mpr (.inl rfl))
        · intro y hy
          rcases List.mem_cons.mp hy with rfl | hy
          · exact ⟨k1, k2⟩
          · exact ⟨(i3 y hy).1, fun hyu => (i3 y hy).2 ((mem_insertSorted _ y used).mpr (.inr hyu))⟩
    · rintro a ⟨a1, a2, a3⟩
      match a, a1, a2, a3 with
      | x :: mids, a1, a2, a3 =>
        obtain ⟨hxm, hmn⟩ := List.nodup_cons.mp a2
        obtain ⟨hx, hxu⟩ := a3 x (by simp)
        obtain ⟨d, -, hd, hb⟩ := skip_surj (lo := 0) ha (fun e he => ⟨Nat.zero_le _, hu e he⟩) hxu
          (Nat.zero_le _) hx
        have hmo : MidsOk n (UsedIndices.insertSorted x used) m mids := by
          refine ⟨by simpa using a1, hmn, fun y hy => ⟨(a3 y (by simp [hy])).1, fun hyi => ?_⟩⟩
          rcases (mem_insertSorted x y used).mp hyi with rfl | hyi
          · exact hxm hy
          · exact (a3 y (by simp [hy])).2 hyi
        obtain ⟨ds, ⟨e1, e2⟩, e3⟩ := (ih x hx hxu).2.2 mids hmo
        refine ⟨d :: ds, ⟨⟨by omega, e1⟩, ?_⟩, ?_⟩
        · simp only [pickMids, hd, e2]
        · rintro ds' ⟨f1, f2⟩
          match ds', f1, f2 with
          | d' :: ds', f1, f2 =>
            simp only [pickMids, List.cons.injEq] at f2
            obtain ⟨f2, f3⟩ := f2
            rw [f2] at f3
            rw [e3 ds' ⟨f1.2, f3⟩]
            congr 1
            rcases Nat.lt_trichotomy d d' with h | h | h
            · have := skip_strictMono ha h; omega
            · exact h.symm
            · have := skip_strictMono ha h; omega

theorem getD_unique {l : List Nat} (hn : l.Nodup) {a : Nat} (ha : a ∈ l) :
    ∃ d, (d < l.length ∧ l.getD d 0 = a) ∧ ∀ d', d' < l.length ∧ l.getD d' 0 = a → d' = d := by
  obtain ⟨d, hd, he⟩ := List.getElem_of_mem ha
  refine ⟨d, ⟨hd, ?_⟩, ?_⟩
  · rw [List.getD_eq_getElem?_getD, List.getElem?_eq_getElem hd, Option.getD_some, he]
  · rintro d' ⟨hd', he'⟩
    rw [List.getD_eq_getElem?_getD, List.getElem?_eq_getElem hd', Option.getD_some] at he'
    exact (hn.getElem_inj_iff (hi := hd') (hj := hd)).mp (by rw [he', he])

theorem getD_mem {l : List Nat} {d : Nat} (h : d < l.length) : l.getD d 0 ∈ l := by
  rw [List.getD_eq_getElem?_getD, List.getElem?_eq_getElem h, Option.getD_some]; exact List.getElem_mem h

/-- The choice of a gateway is uniform over those that are not to be avoided. -/
theorem gwPick_uniform {cg : List Nat} (hn : cg.Nodup) (hne : cg ≠ []) (x : Option Nat) :
    EquallyLikely (gwBounds cg x) (gwPick cg x) (fun i => i ∈ cg ∧ (x = some i → cg = [i])) := by
  have hany : (∀ i ∈ cg, x ≠ some i) → EquallyLikely [cg.length] (fun ds => cg.getD (ds.headD 0) 0)
      (fun i => i ∈ cg ∧ (x = some i → cg = [i])) := by
    intro hx
    refine EquallyLikely.one (f := fun d => cg.getD d 0) (List.length_pos_iff.mpr hne) ?_ ?_
    · intro d hd
      exact ⟨getD_mem hd, fun h => absurd h (hx _ (getD_mem hd))⟩
    · rintro a ⟨ha, -⟩
      exact getD_unique hn ha
  cases x with
  | none => exact hany (fun _ _ => by simp)
  | some x =>
    unfold gwBounds gwPick
    by_cases hx : x ∈ cg
    · simp only [if_pos hx]
      match cg, hne with
      | [f], _ =>
        simp only [List.mem_singleton] at hx; subst hx
        simpa [otherBounds] using EquallyLikely.pure x
      | f :: b :: rest, _ =>
        simp only [otherBounds]
        obtain ⟨hf, hr⟩ := List.nodup_cons.mp hn
        refine EquallyLikely.one (m := (b :: rest).length) (f := fun d => if (b :: rest).getD d 0 = x then f else (b :: rest).getD d 0)
          (by simp) ?_ ?_
        · intro d hd
          have hm := getD_mem hd
          generalize (b :: rest).getD d 0 = c at hm
          by_cases hc : c = x
          · subst hc
            rw [if_pos rfl]
            refine ⟨by simp, fun h => ?_⟩
            cases h; exact absurd hm hf
          · rw [if_neg hc]
            exact ⟨List.mem_cons_of_mem _ hm, fun h => by cases h; exact absurd rfl hc⟩
        · rintro a ⟨ha, hax⟩
          have hax' : a ≠ x := by
            rintro rfl
            have := hax rfl
            simp at this
          by_cases haf : a = f
          · subst haf
            have hxr : x ∈ b :: rest := by
              rcases List.mem_cons.mp hx with h | h
              · exact absurd h.symm hax'
              · exact h
            obtain ⟨d, ⟨h1, h2⟩, h3⟩ := getD_unique hr hxr
            refine ⟨d, ⟨h1, by simp only [h2, if_true]⟩, ?_⟩
            rintro d' ⟨h1', h2'⟩
            by_cases hc : (b :: rest).getD d' 0 = x
            · exact h3 d' ⟨h1', hc⟩
            · rw [if_neg hc] at h2'
              exact absurd (h2' ▸ getD_mem h1') hf
          · have har : a ∈ b :: rest := by
              rcases List.mem_cons.mp ha with h | h
              · exact absurd h haf
              · exact h
            obtain ⟨d, ⟨h1, h2⟩, h3⟩ := getD_unique hr har
            refine ⟨d, ⟨h1, by simp only [h2, if_neg hax']⟩, ?_⟩
            rintro d' ⟨h1', h2'⟩
            by_cases hc : (b :: rest).getD d' 0 = x
            · rw [if_pos hc] at h2'; exact absurd h2'.symm haf
            · rw [if_neg hc] at h2'; exact h3 d' ⟨h1', h2'⟩
    · simp only [if_neg hx]
      exact hany fun i hi h => by cases h; exact hx hi

theorem specials_uniform (hg : g.WF) (hd : ¬ g.Disconnected) (kind : RouteKind) :
    EquallyLikely (g.specialBounds kind) (g.pickSpecials kind) (fun x => g.Specials kind x.1 x.2) := by
  unfold specialBounds pickSpecials Specials
  cases hl : g.topology.localNode with
  | mixnode i =>
    have := EquallyLikely.pure ((none, none) : Option Nat × Option Nat)
    refine this.map id (fun b => ?_) fun _ _ _ _ h => h
    obtain ⟨b1, b2⟩ := b
    simp [eq_comm]
  | nonMixnode gs =>
    have hne : g.connectedGatewayIndices ≠ [] := fun h => hd ⟨⟨gs, hl⟩, h⟩
    cases kind with
    | toMixnode d =>
      refine (gwPick_uniform hg.nodup hne (some d)).map (fun f => (some f, (none : Option Nat))) ?_ ?_
      · rintro ⟨b1, b2⟩
        constructor
        · rintro ⟨rfl, f, rfl, h1, h2⟩
          exact ⟨f, ⟨h1, fun h => by cases h; exact h2 rfl⟩, rfl⟩
        · rintro ⟨f, ⟨h1, h2⟩, h⟩
          cases h
          exact ⟨rfl, f, rfl, h1, fun h => by subst h; exact h2 rfl⟩
      · intro a a' _ _ h; cases h; rfl
    | fromMixnode d =>
      refine (gwPick_uniform hg.nodup hne (some d)).map (fun f => ((none : Option Nat), some f)) ?_ ?_
      · rintro ⟨b1, b2⟩
        constructor
        · rintro ⟨rfl, f, rfl, h1, h2⟩
          exact ⟨f, ⟨h1, fun h => by cases h; exact h2 rfl⟩, rfl⟩
        · rintro ⟨f, ⟨h1, h2⟩, h⟩
          cases h
          exact ⟨rfl, f, rfl, h1, fun h => by subst h; exact h2 rfl⟩
      · intro a a' _ _ h; cases h; rfl
    | loop =>
      have h1 := gwPick_uniform hg.nodup hne none
      have h2 : ∀ f, (f ∈ g.connectedGatewayIndices ∧ ((none : Option Nat) = some f → g.connectedGatewayIndices = [f])) →
          EquallyLikely (otherBounds g.connectedGatewayIndices) (gwPick g.connectedGatewayIndices (some f))
            (fun i => i ∈ g.connectedGatewayIndices ∧ (some f = some i → g.connectedGatewayIndices = [i])) := by
        intro f hf
        have := gwPick_uniform hg.nodup hne (some f)
        rwa [gwBounds, if_pos hf.1] at this
      have hpos : ∀ m ∈ otherBounds g.connectedGatewayIndices, 0 < m := by
        generalize g.connectedGatewayIndices = l
        match l with
        | [] => simp [otherBounds]
        | [_] => simp [otherBounds]
        | _ :: b :: rest => simp [otherBounds]
      have h3 := h1.bind hpos h2
      refine h3.map (fun x => (some x.1, some x.2)) ?_ ?_
      · rintro ⟨b1, b2⟩
        constructor
        · rintro ⟨f, p, rfl, rfl, a1, a2, a3⟩
          exact ⟨(f, p), ⟨⟨a1, fun h => by cases h⟩, a2, fun h => by cases h; exact a3 rfl⟩, rfl⟩
        · rintro ⟨⟨f, p⟩, ⟨⟨a1, -⟩, a2, a3⟩, h⟩
          cases h
          exact ⟨f, p, rfl, rfl, a1, a2, fun h => by subst h; exact a3 rfl⟩
      · rintro ⟨a1, a2⟩ ⟨b1, b2⟩ _ _ h; cases h; rfl

/-- The mixnodes that must not be draws, in order. -/
def usedOf (g : RouteGenerator) (kind : RouteKind) (first pen : Option Nat) : List Nat :=
  ((endpoint kind).toList ++ (match g.topology.localNode with
    | .mixnode i => [i]
    | .nonMixnode _ => []) ++ first.toList ++ pen.toList).foldl (fun us x => UsedIndices.insertSorted x us) []

theorem foldl_insert : ∀ (l : List Nat) (us : List Nat), Ascending us →
    Ascending (l.foldl (fun us x => UsedIndices.insertSorted x us) us) ∧
    ∀ u, u ∈ l.foldl (fun us x => UsedIndices.insertSorted x us) us ↔ u ∈ l ∨ u ∈ us
  | [], us, h => ⟨h, fun u => by simp⟩
  | x :: l, us, h => by
    obtain ⟨h1, h2⟩ := foldl_insert l (UsedIndices.insertSorted x us) (insertSorted_asc x h)
    refine ⟨h1, fun u => ?_⟩
    rw [List.foldl_cons, h2, mem_insertSorted, List.mem_cons]
    tauto

theorem usedOf_spec (g : RouteGenerator) (kind : RouteKind) (first pen : Option Nat) :
    Ascending (g.usedOf kind first pen) ∧
    ∀ u, u ∈ g.usedOf kind first pen ↔ endpoint kind = some u ∨ g.topology.localNode = .mixnode u ∨ first = some u ∨
      pen = some u := by
  obtain ⟨h1, h2⟩ := foldl_insert ((endpoint kind).toList ++ (match g.topology.localNode with
    | .mixnode i => [i]
    | .nonMixnode _ => []) ++ first.toList ++ pen.toList) [] List.Pairwise.nil
  refine ⟨h1, fun u => ?_⟩
  unfold usedOf
  rw [h2]
  cases g.topology.localNode with
  | mixnode i => simp [eq_comm, or_assoc]
  | nonMixnode gs => simp [or_assoc]

theorem ascending_ext {a b : List Nat} (ha : Ascending a) (hb : Ascending b) (h : ∀ x, x ∈ a ↔ x ∈ b) : a = b := by
  have hna : a.Nodup := ha.imp fun h => Nat.ne_of_lt h
  have hnb : b.Nodup := hb.imp fun h => Nat.ne_of_lt h
  have hp : a.Perm b := (List.perm_ext_iff_of_nodup hna hnb).mpr h
  exact hp.eq_of_pairwise (fun x y _ _ h1 h2 => by omega) ha hb

theorem usedOf_length {kind : RouteKind} {first pen : Option Nat} (h : g.Specials kind first pen) :
    (g.usedOf kind first pen).length = g.usedCount kind := by
  have hlen : ∀ d i, (UsedIndices.insertSorted i [d]).length = if i = d then 1 else 2 := fun d i => by
    rw [insertSorted_length i (by simp)]; simp
  unfold Specials at h
  unfold usedOf usedCount
  cases hl : g.topology.localNode with
  | mixnode i =>
    rw [hl] at h
    obtain ⟨rfl, rfl⟩ := h
    cases kind with
    | toMixnode d => simpa [endpoint, UsedIndices.insertSorted, eq_comm] using hlen d i
    | fromMixnode d => simpa [endpoint, UsedIndices.insertSorted, eq_comm] using hlen d i
    | loop => rfl
  | nonMixnode gs =>
    rw [hl] at h
    cases kind with
    | toMixnode d =>
      obtain ⟨rfl, f, rfl, h1, h2⟩ := h
      have hiff : (f = d) ↔ g.connectedGatewayIndices = [d] :=
        ⟨h2, fun h => by rw [h] at h1; simpa using h1⟩
      have := hlen d f
      simp only [hiff] at this
      exact this
    | fromMixnode d =>
      obtain ⟨rfl, f, rfl, h1, h2⟩ := h
      have hiff : (f = d) ↔ g.connectedGatewayIndices = [d] :=
        ⟨h2, fun h => by rw [h] at h1; simpa using h1⟩
      have := hlen d f
      simp only [hiff] at this
      exact this
    | loop =>
      obtain ⟨f, p, rfl, rfl, h1, h2, h3⟩ := h
      have hiff : (p = f) ↔ g.connectedGatewayIndices.length = 1 := by
        constructor
        · intro h; rw [h3 h]; rfl
        · intro h
          obtain ⟨x, hx⟩ := List.length_eq_one_iff.mp h
          rw [hx] at h1 h2
          simp only [List.mem_singleton] at h1 h2
          rw [h1, h2]
      have := hlen f p
      simp only [hiff] at this
      exact this

/-- The hops before the last, from the draws. -/
def pickInner (g : RouteGenerator) (kind : RouteKind) (ds : List Nat) : List Nat :=
  let sp := g.pickSpecials kind (ds.take (g.specialBounds kind).length)
  sp.1.toList ++ pickMids (g.usedOf kind sp.1 sp.2) (ds.drop (g.specialBounds kind).length) ++ sp.2.toList

/-- The bounds of all draws of a route. -/
def routeBounds (g : RouteGenerator) (kind : RouteKind) (k : Nat) : List Nat :=
  g.specialBounds kind ++ midBounds g.topology.mixnodes.length (g.usedCount kind) (g.midCount kind k)

/-- The hops before the last of a route, put together from their parts. -/
def InnerOk (g : RouteGenerator) (kind : RouteKind) (k : Nat) (inner : List Nat) : Prop :=
  ∃ (first pen : Option Nat) (mids : List Nat), g.Specials kind first pen ∧
    MidsOk g.topology.mixnodes.length (g.usedOf kind first pen) (g.midCount kind k) mids ∧
    inner = first.toList ++ mids ++ pen.toList

theorem specials_shape {kind : RouteKind} {first pen first' pen' : Option Nat} (h : g.Specials kind first pen)
    (h' : g.Specials kind first' pen') :
    first.toList.length = first'.toList.length ∧ pen.toList.length = pen'.toList.length := by
  unfold Specials at h h'
  cases hl : g.topology.localNode with
  | mixnode i =>
    rw [hl] at h h'
    obtain ⟨rfl, rfl⟩ := h
    obtain ⟨rfl, rfl⟩ := h'
    exact ⟨rfl, rfl⟩
  | nonMixnode gs =>
    rw [hl] at h h'
    cases kind with
    | toMixnode d =>
      obtain ⟨rfl, f, rfl, -⟩ := h
      obtain ⟨rfl, f', rfl, -⟩ := h'
      exact ⟨rfl, rfl⟩
    | fromMixnode d =>
      obtain ⟨rfl, f, rfl, -⟩ := h
      obtain ⟨rfl, f', rfl, -⟩ := h'
      exact ⟨rfl, rfl⟩
    | loop =>
      obtain ⟨f, p, rfl, rfl, -⟩ := h
      obtain ⟨f', p', rfl, rfl, -⟩ := h'
      exact ⟨rfl, rfl⟩

theorem toList_inj {a b : Option Nat} (h : a.toList = b.toList) : a = b := by
  cases a <;> cases b <;> simp_all

theorem inner_uniform (hg : g.WF) (hdc : ¬ g.Disconnected) {kind : RouteKind} {k : Nat}
    (hd : ∀ d, endpoint kind = some d → d < g.topology.mixnodes.length)
    (hn : g.usedCount kind + g.midCount kind k ≤ g.topology.mixnodes.length) :
    EquallyLikely (g.routeBounds kind k) (g.pickInner kind) (g.InnerOk kind k) := by
  have h1 := specials_uniform hg hdc kind
  have h2 : ∀ x : Option Nat × Option Nat, g.Specials kind x.1 x.2 →
      EquallyLikely (midBounds g.topology.mixnodes.length (g.usedCount kind) (g.midCount kind k))
        (pickMids (g.usedOf kind x.1 x.2))
        (MidsOk g.topology.mixnodes.length (g.usedOf kind x.1 x.2) (g.midCount kind k)) := by
    intro x hx
    have hl := usedOf_length hx
    obtain ⟨a1, a2⟩ := g.usedOf_spec kind x.1 x.2
    obtain ⟨c1, c2⟩ := connected_lt hg hx
    have := pickMids_uniform (n := g.topology.mixnodes.length) (m := g.midCount kind k) a1 (fun u hu => by
      rcases (a2 u).mp hu with h | h | h | h
      · exact hd u h
      · obtain ⟨m, hm, -⟩ := hg.topology.isLocal u h
        exact (List.getElem?_eq_some_iff.mp hm).1
      · exact c1 u h
      · exact c2 u h) (by rw [hl]; exact hn)
    rwa [hl] at this
  refine (h1.bind (midBounds_pos hn) h2).map (fun x => x.1.1.toList ++ x.2 ++ x.1.2.toList) ?_ ?_
  · intro inner
    constructor
    · rintro ⟨f, p, mids, a1, a2, rfl⟩
      exact ⟨((f, p), mids), ⟨a1, a2⟩, rfl⟩
    · rintro ⟨⟨⟨f, p⟩, mids⟩, ⟨a1, a2⟩, rfl⟩
      exact ⟨f, p, mids, a1, a2, rfl⟩
  · rintro ⟨⟨f, p⟩, mids⟩ ⟨⟨f', p'⟩, mids'⟩ ⟨a1, a2⟩ ⟨b1, b2⟩ h
    dsimp only at a1 a2 b1 b2 h
    obtain ⟨s1, s2⟩ := specials_shape a1 b1
    have h3 := List.append_inj' h s2
    have h4 := List.append_inj h3.1 s1
    rw [toList_inj h3.2, toList_inj h4.1, h4.2]

/-- The route follows from the draws. -/
theorem inner_drawn {kind : RouteKind} {k : Nat} {rng rng' : Rng} {first pen : Option Nat} {mids : List Nat}
    (h : g.Drawn kind k rng first pen mids rng') :
    first.toList ++ mids ++ pen.toList = g.pickInner kind (draws rng (g.routeBounds kind k)) ∧
    rng' = fun n => rng (n + (g.routeBounds kind k).length) := by
  obtain ⟨h1, used, h2, h3, h4, h5, h6⟩ := h
  have hu : used = g.usedOf kind first pen := by
    obtain ⟨a1, a2⟩ := g.usedOf_spec kind first pen
    exact ascending_ext h2 a1 fun x => by rw [h3, a2]
  constructor
  · unfold pickInner routeBounds
    rw [draws_append, List.take_left' (draws_length ..), List.drop_left' (draws_length ..), ← h1]
    dsimp only
    rw [← hu, ← h5]
  · rw [h6]; unfold routeBounds; rw [List.length_append, midBounds_length]

end Mixnet.RouteGenerator
