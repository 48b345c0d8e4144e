import Verif.Props.Handling
import Verif.Props.Sending
import Verif.Spec.Connections
import Verif.Spec.ManagerWorld
import Mathlib.Data.List.Chain
/-!
# C90: which connections packets use
-/
namespace Mixnet.Props
open Mixnet Spec

/-! ### Routes -/

theorem chain_of_nodup {l : List Nat} (h : l.Nodup) : l.IsChain (· ≠ ·) := List.Pairwise.isChain h

/-- A loop through a list of others. -/
theorem chain_loop {a : Nat} {l : List Nat} (h : l.Nodup) (ha : a ∉ l) (hl : l ≠ []) : (a :: (l ++ [a])).IsChain (· ≠ ·) := by
  have h1 : (a :: l).Nodup := List.nodup_cons.2 ⟨ha, h⟩
  have h2 := chain_of_nodup h1
  rw [← List.cons_append, List.isChain_append]
  refine ⟨h2, .singleton _, ?_⟩
  intro x hx y hy
  simp only [List.head?_cons, Option.mem_def, Option.some.injEq] at hy
  subst hy
  rintro rfl
  have : x ∈ l := by
    cases l with
    | nil => exact absurd rfl hl
    | cons b l =>
      rw [List.getLast?_cons_cons] at hx
      exact List.mem_of_getLast? hx
  exact ha this

theorem chain_mixnodes {t : Topology} {ns : NetworkStatus} {l : List Nat} (h : l.IsChain (· ≠ ·))
    (hl : ∀ x ∈ l, x < t.mixnodes.length) : (l.map Target.mixnodeIndex).IsChain (Connection t ns) := by
  induction l with
  | nil => exact .nil
  | cons a l ih =>
    cases l with
    | nil => exact .singleton _
    | cons b l =>
      rw [List.map_cons, List.map_cons, List.isChain_cons_cons]
      rw [List.isChain_cons_cons] at h
      exact ⟨.mixnodes (hl a (by simp)) (hl b (by simp)) h.1, ih h.2 fun x hx => hl x (List.mem_cons_of_mem _ hx)⟩

/-- **C90.** On every route that is generated, packets go from hop to hop over connections that are kept up: between
different mixnodes, or between the local node, if it is not a mixnode, and one of its connected gateways. The other end
has to be neither the local node itself nor its only connected gateway, and a loop of a mixnode needs at least two
hops. -/
theorem route_connections {t : Topology} {ns : NetworkStatus} {g : RouteGenerator} (v : View t ns g)
    {kind : RouteKind} {k : Nat} (hk : k ≤ 6) (hd : ∀ d, otherEnd kind = some d → d < t.mixnodes.length)
    (hself : ∀ d, otherEnd kind = some d → t.localNode ≠ .mixnode d)
    (honly : ∀ d, otherEnd kind = some d → ¬ ConnectedGateways t ns [d])
    (hloop : kind = .loop → t.isMixnode = true → 2 ≤ k)
    {rng rng' : Rng} {route : Route} (h : g.genRoute rng kind k = .ok (.ok (route, rng'))) :
    (startHop t ns kind :: hops route).IsChain (Connection t ns) := by
  obtain ⟨ht, -, -⟩ := v.wf
  obtain ⟨⟨least, s1, s2⟩, -, -, -, s5, -⟩ := route_shape v hk hd h
  obtain ⟨inner, e, hin, hrep⟩ := route_no_repeats v hk hd h
  have hlen : inner.length + 1 = max k least := by rw [← s2, e]; simp
  have hdrop : (hops route).dropLast = inner.map Target.mixnodeIndex := by rw [e, List.dropLast_concat]
  have hrep' : (inner.Nodup ∧ ∀ d, otherEnd kind = some d → d ∉ inner) ∨
      ∃ gw, kind = .loop ∧ ∃ rest : List Nat, rest.Nodup ∧ gw ∉ rest ∧ rest ≠ [] ∧ inner = gw :: (rest ++ [gw]) := by
    rcases hrep with h | ⟨gw, c, rest, r1, r2, ⟨rfl, -⟩ | ⟨rfl, -⟩ | ⟨hk, r3, r4⟩⟩
    · exact .inl h
    · exact absurd c (honly gw rfl)
    · exact absurd c (honly gw rfl)
    · exact .inr ⟨gw, hk, rest, r1, r2, r3, r4⟩
  have hchain : inner.IsChain (· ≠ ·) := by
    rcases hrep' with h | ⟨gw, -, rest, r1, r2, r3, rfl⟩
    · exact chain_of_nodup h.1
    · exact chain_loop r1 r2 r3
  have mix : ∀ l : List Nat, l.IsChain (· ≠ ·) → (∀ x ∈ l, x < t.mixnodes.length) →
      (l.map Target.mixnodeIndex).IsChain (Connection t ns) := fun l => chain_mixnodes
  rw [e]
  cases hl : t.localNode with
  | mixnode j =>
    have hj : j < t.mixnodes.length := by
      obtain ⟨mx, hmx, -⟩ := ht.isLocal j hl
      exact (List.getElem?_eq_some_iff.mp hmx).1
    have hjn : j ∉ inner := fun hx => (hin j hx).2 hl
    have hnd : inner.Nodup ∧ ∀ d, otherEnd kind = some d → d ∉ inner := by
      rcases hrep with h | ⟨gw, ⟨gs, c, -⟩, -⟩
      · exact h
      · rw [hl] at c; cases c
    have bounds : ∀ {a b : Nat}, a < t.mixnodes.length → b < t.mixnodes.length →
        ∀ x ∈ a :: (inner ++ [b]), x < t.mixnodes.length := by
      intro a b ha hb x hx
      simp only [List.mem_cons, List.mem_append, List.not_mem_nil, or_false] at hx
      rcases hx with rfl | hx | rfl
      · exact ha
      · exact (hin x hx).1
      · exact hb
    have done : ∀ {a b : Nat}, a < t.mixnodes.length → b < t.mixnodes.length → (a :: (inner ++ [b])).IsChain (· ≠ ·) →
        (Target.mixnodeIndex a :: (inner.map Target.mixnodeIndex ++ [Target.mixnodeIndex b])).IsChain (Connection t ns) := by
      intro a b ha hb hc
      have := mix _ hc (bounds ha hb)
      simpa using this
    have nodup : ∀ {a b : Nat}, a ∉ inner → b ∉ inner → a ≠ b → (a :: (inner ++ [b])).IsChain (· ≠ ·) := by
      intro a b ha hb hab
      refine chain_of_nodup ?_
      rw [List.nodup_cons, List.nodup_append]
      refine ⟨?_, hnd.1, by simp, ?_⟩
      · simp only [List.mem_append, List.mem_singleton, not_or]
        exact ⟨ha, hab⟩
      · intro x hx y hy
        rw [List.mem_singleton.1 hy]
        rintro rfl
        exact hb hx
    cases kind with
    | toMixnode d =>
      simp only [startHop, finalHop, localTarget, hl]
      exact done hj (hd d rfl) (nodup hjn (hnd.2 d rfl) fun h => hself d rfl (by rw [hl, h]))
    | fromMixnode d =>
      simp only [startHop, finalHop, localTarget, hl]
      exact done (hd d rfl) hj (nodup (hnd.2 d rfl) hjn fun h => hself d rfl (by rw [hl, h]))
    | loop =>
      simp only [startHop, finalHop, localTarget, hl]
      refine done hj hj (chain_loop hnd.1 hjn ?_)
      have := hloop rfl (by simp [Topology.isMixnode, hl])
      rintro rfl
      simp only [List.length_nil] at hlen
      omega
  | nonMixnode gw =>
    have hgs : ConnectedGateways t ns (gw.filter (fun g => match t.mixnodes[g]? with
      | some m => ns.isConnected m.peerId
      | none => false)) := ⟨gw, hl, rfl⟩
    generalize gw.filter _ = gs at hgs
    obtain ⟨f1, f2⟩ := s5 gs hgs
    have hl2 := s1.2 gs hgs
    have first : startsLocally kind = true → ∀ x ∈ (inner.map Target.mixnodeIndex).head?,
        Connection t ns (.peerId ns.localPeerId) x := by
      intro hs x hx
      have : hops route ≠ [] := by simp [hops]
      have hx2 : (hops route).head? = some x := by
        rw [e, List.head?_append, Option.mem_def.1 hx]; rfl
      simp only [hops, List.head?_cons, Option.some.injEq] at hx2
      subst hx2
      exact .out hgs (f1 hs)
    have last : endsLocally kind = true → ∀ x ∈ (inner.map Target.mixnodeIndex).getLast?,
        Connection t ns x (.peerId ns.localPeerId) := by
      intro hs x hx
      obtain ⟨g, hg, hx2⟩ := f2 hs
      rw [hdrop, Option.mem_def.1 hx] at hx2
      cases hx2
      exact .back hgs hg
    have hinm := mix inner hchain fun x hx => (hin x hx).1
    cases kind with
    | toMixnode d =>
      simp only [startHop, finalHop, localTarget, hl]
      have hnd : inner.Nodup ∧ d ∉ inner := by
        rcases hrep' with h | ⟨-, h, -⟩
        · exact ⟨h.1, h.2 d rfl⟩
        · cases h
      have hne : inner ≠ [] := by
        rintro rfl
        simp only [startsLocally, endsLocally, List.length_nil] at hlen hl2
        simp at hl2
        omega
      rw [List.isChain_cons]
      constructor
      · intro y hy
        refine first rfl y ?_
        cases inner with
        | nil => exact absurd rfl hne
        | cons a l => exact hy
      · have := mix (inner ++ [d]) (chain_of_nodup (by
          rw [List.nodup_append]
          refine ⟨hnd.1, by simp, ?_⟩
          intro x hx y hy
          rw [List.mem_singleton.1 hy]
          rintro rfl
          exact hnd.2 hx)) (by
          intro x hx
          simp only [List.mem_append, List.mem_singleton] at hx
          rcases hx with hx | rfl
          · exact (hin x hx).1
          · exact hd _ rfl)
        simpa using this
    | fromMixnode d =>
      simp only [startHop, finalHop, localTarget, hl]
      have hnd : inner.Nodup ∧ d ∉ inner := by
        rcases hrep' with h | ⟨-, h, -⟩
        · exact ⟨h.1, h.2 d rfl⟩
        · cases h
      have hne : inner ≠ [] := by
        rintro rfl
        simp only [startsLocally, endsLocally, List.length_nil] at hlen hl2
        simp at hl2
        omega
      have hfull := mix (d :: inner) (chain_of_nodup (List.nodup_cons.2 ⟨hnd.2, hnd.1⟩)) (by
          intro x hx
          rcases List.mem_cons.1 hx with rfl | hx
          · exact hd _ rfl
          · exact (hin x hx).1)
      rw [← List.cons_append, List.isChain_append]
      refine ⟨hfull, .singleton _, ?_⟩
      intro x hx y hy
      simp only [List.head?_cons, Option.mem_def, Option.some.injEq] at hy
      subst hy
      refine last rfl x ?_
      cases inner with
      | nil => exact absurd rfl hne
      | cons a l => rw [List.map_cons, List.getLast?_cons_cons] at hx; exact hx
    | loop =>
      simp only [startHop, finalHop, localTarget, hl]
      have hne : inner ≠ [] := by
        rintro rfl
        simp only [startsLocally, endsLocally, List.length_nil] at hlen hl2
        simp at hl2
        omega
      rw [List.isChain_cons, List.isChain_append]
      refine ⟨?_, hinm, .singleton _, ?_⟩
      · intro y hy
        refine first rfl y ?_
        cases inner with
        | nil => exact absurd rfl hne
        | cons a l => exact hy
      · intro x hx y hy
        simp only [List.head?_cons, Option.mem_def, Option.some.injEq] at hy
        subst hy
        exact last rfl x hx

/-! ### Packets the node authors -/

section
variable {C : Crypto} (hC : CryptoLaws C) {config : Config} {m m' : Node}

/-- A mixnode other than the local node is a reserved peer of a mixnode. -/
theorem reserved_other {s : Session} {n : Nat} {ps : List Mixnode} (hps : s.topology.reservedPeers = .ok ps)
    (h : PeersOf n s ps) {j i : Nat} {mx : Mixnode} (hl : s.topology.localNode = .mixnode j)
    (hi : s.topology.mixnodes[i]? = some mx) (hij : i ≠ j) : ReservedIn s.topology mx.peerId := by
  refine ⟨ps, hps, mx, ?_, rfl⟩
  rcases h with ⟨j', -, -, -, h1, rfl⟩ | ⟨-, gs, h1, -⟩
  · rw [hl] at h1
    cases h1
    rw [List.mem_eraseIdx_iff_getElem?]
    exact ⟨i, hij, hi⟩
  · rw [hl] at h1; cases h1

/-- A gateway is a reserved peer. -/
theorem reserved_gateway {s : Session} {n : Nat} {ps : List Mixnode} (hps : s.topology.reservedPeers = .ok ps)
    (h : PeersOf n s ps) {gs : List Nat} {i : Nat} {mx : Mixnode} (hl : s.topology.localNode = .nonMixnode gs)
    (hi : s.topology.mixnodes[i]? = some mx) (hg : i ∈ gs) : ReservedIn s.topology mx.peerId := by
  refine ⟨ps, hps, mx, ?_, rfl⟩
  rcases h with ⟨j', -, -, -, h1, -⟩ | ⟨-, gs', h1, -, -, h2⟩
  · rw [hl] at h1; cases h1
  · rw [hl] at h1
    cases h1
    have : some mx ∈ ps.map some := by
      rw [h2, ← hi]
      exact List.mem_map_of_mem hg
    obtain ⟨y, hy, e⟩ := List.mem_map.1 this
    cases e
    exact hy

/-- The first hop of a route is a reserved peer. -/
theorem first_hop_peer (hI : m.Inv C) {i : Nat} {s : Session} (hs : m.sessionAt i = some s) {ns : NetworkStatus} {k : Nat}
    (hk : k ≤ 6) {kind : RouteKind} {route : Route} (h : Generated s.topology ns kind k route)
    (hl : startsLocally kind = true) (hd : ∀ d, otherEnd kind = some d → d < s.topology.mixnodes.length)
    (hself : ∀ d, otherEnd kind = some d → s.topology.localNode ≠ .mixnode d) (hloop : kind = .loop → 2 ≤ k)
    {mx : Mixnode} (hmx : s.topology.mixnodes[route.first]? = some mx) : ReservedIn s.topology mx.peerId := by
  obtain ⟨g, rng, rng', hg, hgen⟩ := h
  have v := view_of_inv hI hs hg
  obtain ⟨rel, -, hget⟩ := Node.sessionAt_eq.1 hs
  obtain ⟨ps, hps, hpo⟩ := peersOf_session hI hget
  obtain ⟨⟨least, -, s2⟩, -, -, -, s5, -⟩ := route_shape v hk hd hgen
  obtain ⟨inner, e, hin, -⟩ := route_no_repeats v hk hd hgen
  cases hloc : s.topology.localNode with
  | nonMixnode gs =>
    refine reserved_gateway hps hpo hloc hmx ?_
    exact (List.mem_filter.1 ((s5 _ ⟨gs, hloc, rfl⟩).1 hl)).1
  | mixnode j =>
    refine reserved_other hps hpo hloc hmx ?_
    rintro rfl
    cases inner with
    | cons a l =>
      simp only [hops, List.map_cons, List.cons_append, List.cons.injEq, Target.mixnodeIndex.injEq] at e
      exact (hin _ List.mem_cons_self).2 (by rw [← e.1]; exact hloc)
    | nil =>
      simp only [hops, List.map_nil, List.nil_append, List.cons.injEq] at e
      cases kind with
      | fromMixnode => cases hl
      | toMixnode d =>
        have := e.1
        simp only [finalHop, Target.mixnodeIndex.injEq] at this
        exact hself d rfl (by rw [← this]; exact hloc)
      | loop =>
        have := hloop rfl
        simp only [hops, e.2, List.length_cons, List.length_nil] at s2
        omega

include hC

/-- Where a queued packet comes from. -/
theorem queued_from (hr : Node.Reachable C config m) (hk : config.numHops ≤ 6) {call : Call} {out : Outcome}
    (hw : call.WellTyped) (h : m.step C call = .ok (m', out)) {rel' : RelSessionIndex} {s' : Session}
    (hs' : m'.sessions.get rel' = .full s') {p : AddressedPacket} (hp : p ∈ s'.authoredPacketQueue.queue) :
    (∃ rel s, m.sessions.get rel = .full s ∧ s.topology = s'.topology ∧ p ∈ s.authoredPacketQueue.queue) ∨
    (∃ rng i d mid data n ns s dest route mx, call = .postRequest rng i d mid data n ns ∧ m.sessionAt i = some s ∧
      s.topology = s'.topology ∧ dest < s.topology.mixnodes.length ∧ (∀ j, d = some j → dest = j) ∧
      (d = none → s.topology.localNode ≠ .mixnode dest) ∧
      Generated s.topology ns (.toMixnode dest) config.numHops route ∧
      s.topology.mixnodes[route.first]? = some mx ∧ p.peerId = mx.peerId) ∨
    (∃ surbs i mid data s surb mx, call = .postReply surbs i mid data ∧ m.sessionAt i = some s ∧
      s.topology = s'.topology ∧ surb ∈ surbs ∧ s.topology.mixnodes[u16At surb 0]? = some mx ∧ p.peerId = mx.peerId) := by
  obtain ⟨hI, hcfg⟩ := hr.inv hC
  have hc := Node.step_cases hC hI hw h
  -- a session whose queue is changed
  have change : ∀ {rel s q}, m.sessions.get rel = .full s → m'.sessions = m.sessions.set rel (.full q) →
      q.topology = s.topology → (∀ p ∈ q.authoredPacketQueue.queue, p ∈ s.authoredPacketQueue.queue) →
      ∃ rel s, m.sessions.get rel = .full s ∧ s.topology = s'.topology ∧ p ∈ s.authoredPacketQueue.queue := by
    intro rel s q h1 h2 h3 h4
    rw [h2] at hs'
    by_cases hrel : rel' = rel
    · subst hrel
      rw [get_set_self] at hs'
      cases hs'
      exact ⟨_, s, h1, h3.symm, h4 p hp⟩
    · rw [get_set_ne _ hrel] at hs'
      exact ⟨_, s', hs', rfl, hp⟩
  have dropped : ∀ {rel}, m'.sessions = m.sessions.set rel .disabled →
      ∃ rel s, m.sessions.get rel = .full s ∧ s.topology = s'.topology ∧ p ∈ s.authoredPacketQueue.queue := by
    intro rel h2
    rw [h2] at hs'
    by_cases hrel : rel' = rel
    · subst hrel
      rw [get_set_self] at hs'
      cases hs'
    · rw [get_set_ne _ hrel] at hs'
      exact ⟨_, s', hs', rfl, hp⟩
  have same : m'.sessions = m.sessions →
      ∃ rel s, m.sessions.get rel = .full s ∧ s.topology = s'.topology ∧ p ∈ s.authoredPacketQueue.queue :=
    fun h => ⟨rel', s', by rw [← h]; exact hs', rfl, hp⟩
  cases hc with
  | status st =>
    refine .inl ?_
    have hst := setSessionStatus_cases m st
    generalize m.setSessionStatus st = m1 at *
    cases hst with
    | same => exact same rfl
    | phase => exact ⟨rel', s', dropPrev_full hs', rfl, hp⟩
    | shift =>
      obtain ⟨-, -, h3⟩ := Node.shift_full (dropPrev_full hs')
      exact ⟨.current, s', h3, rfl, hp⟩
  | mixnodes rel answer rng _ b hc =>
    refine .inl ?_
    cases hc with
    | skip => exact same rfl
    | permanent => exact dropped rfl
    | transient => exact same rfl
    | notWanted => exact dropped rfl
    | set =>
      by_cases hrel : rel' = rel
      · subst hrel
        rw [get_set_self] at hs'
        cases hs'
        cases hp
      · rw [get_set_ne _ hrel] at hs'
        exact ⟨_, s', hs', rfl, hp⟩
  | nextKx rng => exact .inl (same (by unfold Node.nextKxPublic; split <;> rfl))
  | handle now packet _ msg hc =>
    refine .inl ?_
    cases hc with
    | ignored => exact same rfl
    | accepted out a rel s _ msg ha he =>
      cases he with
      | forwardNowhere => exact change ha.slot rfl rfl fun p h => h
      | forward => exact change ha.slot rfl rfl fun p h => h
      | request => exact change ha.slot rfl rfl fun p h => h
      | _ => exact same rfl
  | popForward tie => exact .inl (same rfl)
  | popAuthored rng ns _ p' hc =>
    refine .inl ?_
    cases hc with
    | idle => exact same rfl
    | queued rel s _ _ p0 rest _ _ h1 _ h2 =>
      exact change h1 rfl rfl fun p h => by rw [h2]; exact List.mem_cons_of_mem _ h
    | cover => exact same rfl
  | post rng i d mid data n ns _ d' r hc =>
    cases r with
    | error e =>
      obtain ⟨-, rfl⟩ := request_refused hC hr hk hw h
      exact .inl (same rfl)
    | ok met =>
      obtain ⟨s, dest, packets, hpo, -⟩ := request_posted hC hr hk hw (Denotes.of_wf hw.2.2.1) h
      obtain ⟨rel, r1, r2⟩ := Node.sessionAt_eq.1 hpo.session
      have hafter := congrArg Node.sessions hpo.after
      rw [withSession_eq r1] at hafter
      rw [hafter] at hs'
      by_cases hrel : rel' = rel
      · subst hrel
        change ((m.sessions.set rel' _).get rel') = _ at hs'
        rw [get_set_self] at hs'
        cases hs'
        rcases List.mem_append.1 hp with hp | hp
        · exact .inl ⟨_, s, r2, rfl, hp⟩
        · obtain ⟨q, hq, rfl⟩ := List.mem_map.1 hp
          have hb := hpo.built q hq
          obtain ⟨mx, hm1, hm2⟩ := hb.peer
          rw [hcfg] at hb
          exact .inr (.inl ⟨rng, i, d, mid, data, n, ns, s, dest, q.route, mx, rfl, hpo.session, rfl,
            hpo.destination.2.1, hpo.destination.2.2.1, fun hn => (hpo.destination.2.2.2 hn).1, hb.route, hm1, hm2⟩)
      · change ((m.sessions.set rel _).get rel') = _ at hs'
        rw [get_set_ne _ hrel] at hs'
        exact .inl ⟨_, s', hs', rfl, hp⟩
  | reply surbs i mid data _ surbs' r hc =>
    have made : ∀ {rel s} {bps : List FragmentBlueprint} {used : List Surb} {ps : List AddressedPacket},
        postSession m.sessions m.sessionStatus i = .ok (rel, s) → (∀ x ∈ used, x ∈ surbs) →
        RepliesMade C s.topology bps used ps → s.topology = s'.topology → p ∈ ps →
        ∃ surbs' i' mid' data' s surb mx, Call.postReply surbs i mid data = .postReply surbs' i' mid' data' ∧
          m.sessionAt i' = some s ∧ s.topology = s'.topology ∧ surb ∈ surbs' ∧
          s.topology.mixnodes[u16At surb 0]? = some mx ∧ p.peerId = mx.peerId := by
      intro rel s bps used ps h1 h2 h3 h4 h5
      obtain ⟨g1, -, g3⟩ := postSession_ok h1
      induction h3 with
      | nil => cases h5
      | @cons bp bps surb used p1 ps hm _ ih =>
        rcases List.mem_cons.1 h5 with rfl | h5
        · obtain ⟨f, first, f1, f2, f3⟩ := hm
          have hsl : surb.length = 222 := hw.1 surb (h2 surb List.mem_cons_self)
          rcases completeReply_first hsl f2 with ⟨-, he⟩ | ⟨-, he⟩
          · cases he
            unfold Topology.mixnodeIndexToPeerId at f3
            cases hmx : s.topology.mixnodes[u16At surb 0]? with
            | none => rw [hmx] at f3; cases f3
            | some mx =>
              rw [hmx] at f3
              simp only [Except.ok.injEq] at f3
              exact ⟨surbs, i, mid, data, s, surb, mx, rfl, Node.sessionAt_eq.2 ⟨rel, g1, g3⟩, h4,
                h2 surb List.mem_cons_self, hmx, f3.symm⟩
          · cases he
        · exact ih (fun x hx => h2 x (List.mem_cons_of_mem _ hx)) h5
    have appended : ∀ {rel s} {bps : List FragmentBlueprint} {used : List Surb} {ps : List AddressedPacket},
        postSession m.sessions m.sessionStatus i = .ok (rel, s) → (∀ x ∈ used, x ∈ surbs) →
        RepliesMade C s.topology bps used ps →
        m'.sessions = m.sessions.set rel (.full { s with
            authoredPacketQueue := { s.authoredPacketQueue with queue := s.authoredPacketQueue.queue ++ ps } }) →
        (∃ rel s, m.sessions.get rel = .full s ∧ s.topology = s'.topology ∧ p ∈ s.authoredPacketQueue.queue) ∨
        ∃ surbs' i' mid' data' s surb mx, Call.postReply surbs i mid data = .postReply surbs' i' mid' data' ∧
          m.sessionAt i' = some s ∧ s.topology = s'.topology ∧ surb ∈ surbs' ∧
          s.topology.mixnodes[u16At surb 0]? = some mx ∧ p.peerId = mx.peerId := by
      intro rel s bps used ps h1 h2 h3 h4
      rw [h4] at hs'
      by_cases hrel : rel' = rel
      · subst hrel
        rw [get_set_self] at hs'
        cases hs'
        rcases List.mem_append.1 hp with hp | hp
        · exact .inl ⟨_, s, (postSession_ok h1).2.2, rfl, hp⟩
        · exact .inr (made h1 h2 h3 rfl hp)
      · rw [get_set_ne _ hrel] at hs'
        exact .inl ⟨_, s', hs', rfl, hp⟩
    cases hc with
    | tooMany => exact .inl (same rfl)
    | noSession => exact .inl (same rfl)
    | noSpace => exact .inl (same rfl)
    | failed bps rel s _ used ps e done bp left bad h1 h2 h3 h4 h5 h6 h7 h8 h9 =>
      exact (appended h3 (fun x hx => by rw [h6]; simp [hx]) h7 rfl).imp id Or.inr
    | posted bps rel s _ used ps h1 h2 h3 h4 h5 h6 h7 =>
      exact (appended h3 (fun x hx => by rw [h5]; simp [hx]) h6 rfl).imp id Or.inr
  | take => exact .inl (same rfl)

omit hC in
theorem new_not_full {m : Node} (h : Node.new C config = .ok m) {rel s} : m.sessions.get rel ≠ .full s := by
  unfold Node.new at h
  rw [res_bind_eq_ok] at h
  obtain ⟨k, hk, h⟩ := h
  simp only [Except.ok.injEq] at h
  subst h
  cases rel with
  | current =>
    intro h
    simp only [Sessions.get] at h
    split at h <;> cases h
  | prev => intro h; cases h

omit hC in
theorem peersOf_unique {n : Nat} {s : Session} {ps qs : List Mixnode} (h : PeersOf n s ps) (h' : PeersOf n s qs) : ps = qs := by
  rcases h with ⟨i, -, -, -, h1, rfl⟩ | ⟨-, gs, h1, -, -, h2⟩ <;>
    rcases h' with ⟨j, -, -, -, g1, rfl⟩ | ⟨-, gs', g1, -, -, g2⟩ <;> rw [h1] at g1 <;> cases g1
  · rfl
  · exact List.map_injective_iff.mpr (Option.some_injective _) (h2.trans g2.symm)

/-- A node that only sends to others is reachable. -/
theorem SendsToOthers.reachable (h : SendsToOthers C config m) : Node.Reachable C config m := by
  induction h with
  | new h => exact ⟨_, [], [], h, fun c hc => (by cases hc), .nil _⟩
  | step _ hw _ hs ih => exact ih.step hC hw hs

/-- The packets in the queues are for reserved peers. -/
theorem queued_reserved (hk : config.numHops ≤ 6) (h : SendsToOthers C config m) {rel : RelSessionIndex} {s : Session}
    (hs : m.sessions.get rel = .full s) {p : AddressedPacket} (hp : p ∈ s.authoredPacketQueue.queue) :
    ReservedIn s.topology p.peerId := by
  induction h generalizing rel s with
  | new h =>
    exact absurd hs (new_not_full h)
  | @step m m' call out hm hw ho hstep ih =>
    have hr := SendsToOthers.reachable hC hm
    obtain ⟨hI, -⟩ := hr.inv hC
    rcases queued_from hC hr hk hw hstep hs hp with ⟨rel0, s0, h1, h2, h3⟩ |
      ⟨rng, i, d, mid, data, n, ns, s0, dest, route, mx, rfl, h1, h2, h3, h4, h5, h6, h7, h8⟩ |
      ⟨surbs, i, mid, data, s0, surb, mx, rfl, h1, h2, h3, h4, h5⟩
    · rw [← h2]; exact ih h1 h3
    · rw [← h2, h8]
      refine first_hop_peer hI h1 hk h6 rfl (fun d' he => (by cases he; exact h3)) ?_ (fun h => by cases h) h7
      intro d' he
      cases he
      cases d with
      | none => exact h5 rfl
      | some j =>
        cases h4 j rfl
        exact ho s0 h1
    · rw [← h2, h5]
      obtain ⟨j, hj, hne⟩ := ho s0 h1
      obtain ⟨rel0, -, hget⟩ := Node.sessionAt_eq.1 h1
      obtain ⟨ps, hps, hpo⟩ := peersOf_session hI hget
      exact reserved_other hps hpo hj h4 (hne surb h3)

/-- What a session reserves, the node reserves. -/
theorem reserved_of_session (hr : Node.Reachable C config m) {i : Nat} {s : Session} (hs : m.sessionAt i = some s)
    {peer : PeerId} (h : ReservedIn s.topology peer) : Reserved m peer := by
  obtain ⟨hI, rfl⟩ := hr.inv hC
  obtain ⟨ps, qs, h1, h2, -, h4, -⟩ := node_reserved_peers hC hr
  obtain ⟨l, hl, mx, hmx, hpeer⟩ := h
  obtain ⟨rel, hrel, hget⟩ := Node.sessionAt_eq.1 hs
  obtain ⟨l', hl', hpo⟩ := peersOf_session hI hget
  rw [hl] at hl'
  cases hl'
  refine ⟨_, h1, mx, ?_, hpeer⟩
  rw [List.mem_append]
  rcases fromSessionIndex_some.1 hrel with ⟨rfl, hi⟩ | ⟨rfl, hi⟩
  · have : currentSession m = some s := by unfold currentSession; rw [← hi]; exact hs
    rw [← peersOf_unique hpo (h2 s this)]
    exact .inl hmx
  · have : previousSession m = some s := by unfold previousSession; rw [← hi]; exact hs
    rw [← peersOf_unique hpo (h4 s this)]
    exact .inr hmx

/-- **C90.** If the application does not ask for packets to be sent to the node itself, the packets the node authors (requests,
replies and cover packets) are all for peers that it has declared it has to stay connected to. -/
theorem authored_to_reserved (hk : config.numHops ≤ 6) (hk2 : 2 ≤ config.numHops) (hm : SendsToOthers C config m) {rng : Rng} {ns : NetworkStatus}
    {p : AddressedPacket} (hns : ns.localPeerId.length = PEER_ID_SIZE)
    (h : m.step C (.popNextAuthoredPacket rng ns) = .ok (m', .authoredPacket (some p))) : Reserved m p.peerId := by
  have hr := SendsToOthers.reachable hC hm
  obtain ⟨hI, hcfg⟩ := hr.inv hC
  have hc := Node.step_cases hC hI (call := .popNextAuthoredPacket rng ns) hns h
  generalize hcall : Call.popNextAuthoredPacket rng ns = call at hc
  generalize hout : Outcome.authoredPacket (some p) = out at hc
  cases hc <;> cases hcall
  rename_i p' hc
  cases hout
  generalize ho : some p = o at hc
  cases hc with
  | idle => cases ho
  | queued rel s _ _ p0 rest h1 h2 h3 h4 h5 =>
    cases ho
    obtain ⟨i, -, hat⟩ := sessionAt_of_slot hI h3
    exact reserved_of_session hC hr hat (queued_reserved hC hk hm h3 (by rw [h5]; exact List.mem_cons_self))
  | cover rel s _ isLoop _ p0 h1 h2 h3 h4 h5 =>
    subst ho
    obtain ⟨i, -, hat⟩ := sessionAt_of_slot hI h3
    obtain ⟨-, kind, route, g1, g2, g3, ⟨mx, g4, g5⟩, -⟩ := coverBuilt hI h3 h5
    rw [hcfg] at g1
    rw [g5]
    refine reserved_of_session hC hr hat ?_
    cases isLoop with
    | true =>
      cases g2 rfl
      exact first_hop_peer hI hat hk g1 rfl (fun d h => by cases h) (fun d h => by cases h) (fun _ => hk2) g4
    | false =>
      obtain ⟨d, rfl, hd1, hd2, -⟩ := g3 rfl
      exact first_hop_peer hI hat hk g1 rfl (fun d' h => by cases h; exact hd1) (fun d' h => by cases h; exact hd2)
        (fun h => by cases h) g4

/-- The packets in the queues are for mixnodes of their session. -/
theorem queued_mixnode (hr : Node.Reachable C config m) (hk : config.numHops ≤ 6) {rel : RelSessionIndex} {s : Session}
    (hs : m.sessions.get rel = .full s) {p : AddressedPacket} (hp : p ∈ s.authoredPacketQueue.queue) :
    ∃ mx ∈ s.topology.mixnodes, mx.peerId = p.peerId := by
  have key : ∀ {m calls outs m'}, Node.Runs C m calls outs m' → Node.Reachable C config m → (∀ c ∈ calls, Call.WellTyped c) →
      (∀ rel s, m.sessions.get rel = .full s → ∀ p ∈ s.authoredPacketQueue.queue, ∃ mx ∈ s.topology.mixnodes, mx.peerId = p.peerId) →
      ∀ rel s, m'.sessions.get rel = .full s → ∀ p ∈ s.authoredPacketQueue.queue, ∃ mx ∈ s.topology.mixnodes, mx.peerId = p.peerId := by
    intro m calls outs m' h
    induction h with
    | nil => intro _ _ h; exact h
    | @cons m call m1 out calls outs m2 hstep _ ih =>
      intro hr hw h
      have hw1 := hw call List.mem_cons_self
      refine ih (hr.step hC hw1 hstep) (fun c hc => hw c (List.mem_cons_of_mem _ hc)) ?_
      intro rel s hs p hp
      rcases queued_from hC hr hk hw1 hstep hs hp with ⟨rel0, s0, h1, h2, h3⟩ |
        ⟨rng, i, d, mid, data, n, ns, s0, dest, route, mx, rfl, h1, h2, h3, h4, h5, h6, h7, h8⟩ |
        ⟨surbs, i, mid, data, s0, surb, mx, rfl, h1, h2, h3, h4, h5⟩
      · rw [← h2]; exact h rel0 s0 h1 p h3
      · rw [← h2]; exact ⟨mx, List.mem_of_getElem? h7, h8.symm⟩
      · rw [← h2]; exact ⟨mx, List.mem_of_getElem? h4, h5.symm⟩
  obtain ⟨m0, calls, outs, hn, hw, hruns⟩ := hr
  exact key hruns ⟨m0, [], [], hn, fun c hc => (by cases hc), .nil _⟩ hw
    (fun rel s h => absurd h (new_not_full hn)) rel s hs p hp

/-- **C90** (whatever the application does). The packets the node authors are for mixnodes of the current or the previous
session. -/
theorem authored_to_mixnode (hr : Node.Reachable C config m) (hk : config.numHops ≤ 6) {rng : Rng} {ns : NetworkStatus}
    {p : AddressedPacket} (hns : ns.localPeerId.length = PEER_ID_SIZE)
    (h : m.step C (.popNextAuthoredPacket rng ns) = .ok (m', .authoredPacket (some p))) :
    ∃ s mx, (currentSession m = some s ∨ previousSession m = some s) ∧ mx ∈ s.topology.mixnodes ∧ mx.peerId = p.peerId := by
  obtain ⟨hI, hcfg⟩ := hr.inv hC
  have wrap : ∀ {i s}, m.sessionAt i = some s → currentSession m = some s ∨ previousSession m = some s := by
    intro i s hs
    obtain ⟨rel, hrel, -⟩ := Node.sessionAt_eq.1 hs
    rcases fromSessionIndex_some.1 hrel with ⟨-, hi⟩ | ⟨-, hi⟩
    · left; unfold currentSession; rw [← hi]; exact hs
    · right; unfold previousSession; rw [← hi]; exact hs
  have hc := Node.step_cases hC hI (call := .popNextAuthoredPacket rng ns) hns h
  generalize hcall : Call.popNextAuthoredPacket rng ns = call at hc
  generalize hout : Outcome.authoredPacket (some p) = out at hc
  cases hc <;> cases hcall
  rename_i p' hc
  cases hout
  generalize ho : some p = o at hc
  cases hc with
  | idle => cases ho
  | queued rel s _ _ p0 rest h1 h2 h3 h4 h5 =>
    cases ho
    obtain ⟨i, -, hat⟩ := sessionAt_of_slot hI h3
    obtain ⟨mx, hm1, hm2⟩ := queued_mixnode hC hr hk h3 (by rw [h5]; exact List.mem_cons_self)
    exact ⟨s, mx, wrap hat, hm1, hm2⟩
  | cover rel s _ isLoop _ p0 h1 h2 h3 h4 h5 =>
    subst ho
    obtain ⟨i, -, hat⟩ := sessionAt_of_slot hI h3
    obtain ⟨-, kind, route, -, -, -, ⟨mx, g4, g5⟩, -⟩ := coverBuilt hI h3 h5
    exact ⟨s, mx, wrap hat, List.mem_of_getElem? g4, g5.symm⟩

/-- **C90** (packets of others). A packet is forwarded to a peer the node has declared it has to stay connected to, to
the node itself, or, if the packet says so, to any peer, given by its ID. -/
theorem forwarded_to_reserved (hr : Node.Reachable C config m) {now : Nat} {packet : Bytes} {p : ForwardPacket}
    (h : Forwards C m now packet p) :
    Reserved m p.packet.peerId ∨
    (∃ i s, m.sessionAt i = some s ∧ Itself s.topology p.packet.peerId) ∨
    ∃ i s out delay, m.sessionAt i = some s ∧
      peel C zeroPacket packet (s.secretFor C packet) = .ok (out, .ok (.forwardTo (.peerId p.packet.peerId) delay)) := by
  obtain ⟨hI, -⟩ := hr.inv hC
  obtain ⟨rel, s, out, target, delay, peer, hacc, hmix, -, hpeer, rfl⟩ := h
  obtain ⟨i, -, hat⟩ := sessionAt_of_slot hI hacc.slot
  obtain ⟨ps, hps, hpo⟩ := peersOf_session hI hacc.slot
  cases target with
  | peerId q =>
    cases hpeer
    exact .inr (.inr ⟨i, s, out, delay, hat, hacc.peels⟩)
  | mixnodeIndex n =>
    simp only [peerOf] at hpeer
    cases hmx : s.topology.mixnodes[n]? with
    | none => rw [hmx] at hpeer; cases hpeer
    | some mx =>
      rw [hmx] at hpeer
      cases hpeer
      cases hl : s.topology.localNode with
      | nonMixnode gs => simp [Topology.isMixnode, hl] at hmix
      | mixnode j =>
        by_cases hj : n = j
        · subst hj
          exact .inr (.inl ⟨i, s, hat, n, mx, hl, hmx, rfl⟩)
        · exact .inl (reserved_of_session hC hr hat (reserved_other hps hpo hl hmx hj))


/-- Calls that never send to the node itself. -/
theorem sends_of_runs {m0 calls outs} (h : SendsToOthers C config m0) (hw : ∀ c ∈ calls, Call.WellTyped c)
    (ho : ∀ c ∈ calls, ∀ m, ToOthers m c) (hr : Node.Runs C m0 calls outs m) : SendsToOthers C config m := by
  induction hr with
  | nil => exact h
  | cons hstep _ ih =>
    exact ih (.step h (hw _ List.mem_cons_self) (ho _ List.mem_cons_self _) hstep)
      (fun c hc => hw c (List.mem_cons_of_mem _ hc)) (fun c hc => ho c (List.mem_cons_of_mem _ hc))

end

/-! ### Examples -/

open World

theorem setup_sends {b m os} (h : startRes b setup = .ok (m, os)) : SendsToOthers World.C (cfg b) m := by
  unfold startRes at h
  obtain ⟨x, hx⟩ : ∃ x, Node.new World.C (cfg b) = x := ⟨_, rfl⟩
  rw [hx] at h
  cases x with
  | error e => cases h
  | ok m0 =>
    refine sends_of_runs toyLaws (.new hx) setup_typed ?_ (runAll_runs h)
    intro c hc m
    simp only [setup, List.mem_cons, List.not_mem_nil, or_false] at hc
    rcases hc with rfl | rfl <;> trivial

/-- The index of the local node in the session with index `i`. -/
def localIndex (m : Node) (i : Nat) : Option Nat :=
  match m.sessionAt i with
  | some s => match s.topology.localNode with
    | .mixnode j => some j
    | .nonMixnode _ => none
  | none => none

theorem of_localIndex {m : Node} {i j : Nat} (h : localIndex m i = some j) {s : Session} (hs : m.sessionAt i = some s) :
    s.topology.localNode = .mixnode j := by
  unfold localIndex at h
  rw [hs] at h
  dsimp only at h
  split at h
  · rename_i j' hj; cases h; exact hj
  · cases h

theorem alice_index : localIndex alice 0 = some 0 := by decide +kernel
theorem bob1_index : localIndex bob1 0 = some 1 := by decide +kernel
theorem surbs_first : ∀ x ∈ surbs, u16At x 0 ≠ 1 := by decide +kernel

theorem alice_sends : SendsToOthers World.C (cfg 3) alice := by
  unfold alice; exact setup_sends (Res.eq_get2 _ alice_ok)
theorem bob_sends : SendsToOthers World.C (cfg 5) bob := by
  unfold bob; exact setup_sends (Res.eq_get2 _ bob_ok)

theorem ask_other : ToOthers alice ask := by
  intro s hs h
  rw [of_localIndex alice_index hs] at h
  cases h

theorem answer_other : ToOthers bob1 answer := by
  intro s hs
  exact ⟨1, of_localIndex bob1_index hs, surbs_first⟩

attribute [local irreducible] Node.step

/-- Alice posts a request for Bob, and Bob answers; neither sends to itself. -/
theorem alice1_sends : SendsToOthers World.C (cfg 3) alice1 := .step alice_sends ask_typed ask_other ask_step

theorem arrive_other : ToOthers bob arrive := by unfold arrive; trivial

theorem bob2_sends : SendsToOthers World.C (cfg 5) bob2 :=
  .step (.step bob_sends arrive_typed arrive_other arrive_step) answer_typed answer_other answer_step

/-- Alice's request is for Carol, a reserved peer. -/
example : ∃ p, alice1.step World.C send = .ok (aliceSent, .authoredPacket (some p)) ∧ p.peerId = peer 7 ∧ Reserved alice1 p.peerId := by
  obtain ⟨x, h1, h2⟩ := Res.of_check (x := alice1.step World.C send) (p := fun x => match x.2 with
    | .authoredPacket (some p) => decide (p.peerId = peer 7)
    | _ => false) (by decide +kernel)
  rw [send_step] at h1
  cases h1
  dsimp only at h2
  split at h2
  · rename_i p hp
    have hs := send_step
    rw [hp] at hs
    exact ⟨p, hs, of_decide_eq_true h2, authored_to_reserved toyLaws (by decide) (by decide) alice1_sends rfl hs⟩
  · cases h2

/-- Bob's answer waits to be sent, to Carol, a reserved peer. -/
example : packet2.peerId = peer 7 ∧ SendsToOthers World.C (cfg 5) bob2 := ⟨packet2_peer, bob2_sends⟩

/-- The route of a loop of a node that is not a mixnode, from hop to hop. -/
example : ∃ r rng', (RouteGenerator.mk exTopology [9] [1, 3]).genRoute (fun n => n) .loop 4 = .ok (.ok (r, rng')) ∧
    (Target.peerId [9] :: hops r).IsChain (Connection exTopology exStatus) := by
  obtain ⟨r, hr⟩ : ∃ r rng', (RouteGenerator.mk exTopology [9] [1, 3]).genRoute (fun n => n) .loop 4 = .ok (.ok (r, rng')) :=
    ⟨_, _, rfl⟩
  obtain ⟨rng', hr⟩ := hr
  exact ⟨r, rng', hr, route_connections exView (by decide) (fun d h => by cases h) (fun d h => by cases h)
    (fun d h => by cases h) (fun _ h => by cases h) hr⟩

/-- What goes wrong otherwise: the route of a loop of one hop of a mixnode leads from the node to itself. -/
example : ∃ r rng', (RouteGenerator.mk exTopologyM [2] []).genRoute (fun n => n) .loop 1 = .ok (.ok (r, rng')) ∧
    startHop exTopologyM exStatus .loop :: hops r = [.mixnodeIndex 2, .mixnodeIndex 2] := ⟨_, _, rfl, rfl⟩

end Mixnet.Props
