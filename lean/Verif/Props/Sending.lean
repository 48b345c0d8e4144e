import Verif.Props.Posting
import Verif.Props.RouteChoice
import Verif.Spec.Sending
import Verif.Spec.World
import Mathlib.Tactic.NormNum
import Mathlib.Data.Rat.Floor
import Mathlib.Tactic.FieldSimp
import Mathlib.Tactic.Ring
import Mathlib.Tactic.Positivity
import Mathlib.Tactic.Linarith
/-!
# C34, C35, C51: what is sent, how often, and notifications
-/
namespace Mixnet.Props
open Mixnet Spec

variable {C : Crypto} (hC : CryptoLaws C) {config : Config} {m m' : Node}

theorem slots (hI : m.Inv C) : m.sessions.current.asOption = currentSession m ∧
    m.sessions.prev.asOption = previousSession m := by
  constructor
  · unfold currentSession Node.sessionAt; rw [if_pos rfl]
  · unfold previousSession Node.sessionAt
    split
    · rename_i h
      rw [hI.prev (.inl h)]; rfl
    · rename_i i h
      rw [h, if_neg (by omega), if_pos rfl]

theorem sessionAt_of_slot (hI : m.Inv C) {rel s} (h : m.sessions.get rel = .full s) :
    ∃ i, RelSessionIndex.fromSessionIndex i m.sessionStatus.currentIndex = some rel ∧ m.sessionAt i = some s := by
  cases rel with
  | current =>
    refine ⟨m.sessionStatus.currentIndex, fromSessionIndex_some.2 (.inl ⟨rfl, rfl⟩), ?_⟩
    exact Node.sessionAt_eq.2 ⟨.current, fromSessionIndex_some.2 (.inl ⟨rfl, rfl⟩), h⟩
  | prev =>
    have := hI.index_of_full s h
    have hp : RelSessionIndex.fromSessionIndex (m.sessionStatus.currentIndex - 1) m.sessionStatus.currentIndex = some .prev :=
      fromSessionIndex_some.2 (.inr ⟨rfl, by omega⟩)
    exact ⟨_, hp, Node.sessionAt_eq.2 ⟨.prev, hp, h⟩⟩

/-! ### C34 -/

theorem coverBuilt (hI : m.Inv C) {rel s} (hs : m.sessions.get rel = .full s) {rng ns} {isLoop : Bool} {p}
    (h : m.coverInstead C rng ns s (if isLoop then .loop else .drop) = .ok (some p)) :
    m.config.genCoverPackets = true ∧ CoverBuilt C s.topology ns m.config.numHops isLoop p := by
  unfold Node.coverInstead at h
  split at h
  · cases h
  rename_i hgen
  refine ⟨by simpa using hgen, ?_⟩
  rw [res_bind_eq_ok] at h
  obtain ⟨r, hr, h⟩ := h
  cases r with
  | error e => cases h
  | ok p' =>
  cases h
  unfold genCoverPacket at hr
  rw [res_bind_eq_ok] at hr
  obtain ⟨g, hg, hr⟩ := hr
  rw [res_bind_eq_ok] at hr
  obtain ⟨k, hk, hr⟩ := hr
  cases k with
  | error e => cases hr
  | ok k =>
  obtain ⟨kind, rng1⟩ := k
  dsimp only at hr
  rw [res_bind_eq_ok] at hr
  obtain ⟨r, hroute, hr⟩ := hr
  cases r with
  | error e => cases hr
  | ok r =>
  obtain ⟨route, rng2⟩ := r
  dsimp only at hr
  cases hpeer : s.topology.mixnodeIndexToPeerId route.first with
  | error e => rw [hpeer] at hr; cases hr
  | ok peer =>
  rw [hpeer] at hr
  dsimp only at hr
  rw [res_bind_eq_ok] at hr
  obtain ⟨⟨packet, delay, rng3⟩, hb, hr⟩ := hr
  simp only [Except.ok.injEq] at hr
  subst hr
  refine ⟨kind, route, ⟨g, rng1, rng2, hg, hroute⟩, ?_, ?_, ?_, zeroPacket, rng2, rng3, delay, ?_, hb⟩
  · rintro rfl
    simp only [coverRouteKind, if_true, Except.ok.injEq, Prod.mk.injEq] at hk
    exact hk.1.symm
  · rintro rfl
    simp only [coverRouteKind, Bool.false_eq_true, if_false] at hk
    rw [res_bind_eq_ok] at hk
    obtain ⟨c, hc, hk⟩ := hk
    cases c with
    | error e => cases hk
    | ok c =>
    obtain ⟨d, r⟩ := c
    simp only [Except.ok.injEq, Prod.mk.injEq] at hk
    obtain ⟨rfl, rfl⟩ := hk
    refine ⟨d, rfl, ?_⟩
    obtain ⟨i, -, hat⟩ := sessionAt_of_slot hI hs
    have v := view_of_inv hI hat hg
    obtain ⟨ex, hex, h⟩ := choose_destination_uniform v
    rcases h with ⟨-, h⟩ | ⟨n, f, ⟨h0, h1, -⟩, h⟩
    · rw [h] at hc; cases hc
    · rw [h] at hc
      simp only [Except.ok.injEq, Prod.mk.injEq] at hc
      have := h1 (rng 0 % n) (Nat.mod_lt _ h0)
      rw [hc.1] at this
      refine ⟨this.1, fun h => this.2 ((hex d).2 (.inl h)), fun h => this.2 ((hex d).2 (.inr h))⟩
  · unfold Topology.mixnodeIndexToPeerId at hpeer
    cases hm : s.topology.mixnodes[route.first]? with
    | none => rw [hm] at hpeer; cases hpeer
    | some mx => rw [hm] at hpeer; cases hpeer; exact ⟨mx, rfl, rfl⟩
  · exact List.length_replicate

/-- If cover packets are enabled and there is none, there is no route for one. -/
theorem coverImpossible (hI : m.Inv C) {rel s} (hs : m.sessions.get rel = .full s) {rng ns} {isLoop : Bool}
    (h : m.coverInstead C rng ns s (if isLoop then .loop else .drop) = .ok none)
    (hgen : m.config.genCoverPackets = true) (hk : m.config.numHops ≤ 6) :
    ¬ CoverPossible s.topology ns m.config.numHops isLoop := by
  unfold Node.coverInstead at h
  rw [hgen] at h
  simp only [Bool.not_true, Bool.false_eq_true, if_false] at h
  rw [res_bind_eq_ok] at h
  obtain ⟨r, hr, h⟩ := h
  cases r with
  | ok p' => cases h
  | error e =>
  clear h
  unfold genCoverPacket at hr
  rw [res_bind_eq_ok] at hr
  obtain ⟨g, hg, hr⟩ := hr
  rw [res_bind_eq_ok] at hr
  obtain ⟨k, hkind, hr⟩ := hr
  obtain ⟨i, -, hat⟩ := sessionAt_of_slot hI hs
  have v := view_of_inv hI hat hg
  obtain ⟨-, hge, hwf⟩ := v.wf
  have hgt : g.topology = s.topology := by rw [hge]
  -- the errors after the kind of the route is chosen
  have key : ∀ kind rng1, (∀ d, otherEnd kind = some d → d < s.topology.mixnodes.length) →
      (∃ inner, Fits s.topology ns kind m.config.numHops inner) → k ≠ .ok (kind, rng1) := by
    rintro kind rng1 hd hfit rfl
    dsimp only at hr
    rcases route_exists_iff v kind hk hd with ⟨-, hok⟩ | ⟨hno, -⟩
    · obtain ⟨route, rng2, ho⟩ := hok rng1
      rw [ho, res_bind_ok] at hr
      dsimp only at hr
      have hlt := genRoute_first_lt hwf hk (by rw [hgt, endpoint_eq]; exact hd) ho
      rw [hgt] at hlt
      have hp : s.topology.mixnodeIndexToPeerId route.first = .ok (s.topology.mixnodes[route.first]).peerId := by
        unfold Topology.mixnodeIndexToPeerId
        rw [List.getElem?_eq_getElem hlt]
      rw [hp] at hr
      dsimp only at hr
      rw [res_bind_eq_ok] at hr
      obtain ⟨x, -, hx⟩ := hr
      cases hx
    · exact hno hfit
  cases isLoop with
  | true =>
    intro hfit
    simp only [if_true, coverRouteKind, Except.ok.injEq] at hkind
    exact key .loop rng (by intro d h; cases h) hfit hkind.symm
  | false =>
    rintro ⟨d, inner, hd, hfit⟩
    simp only [Bool.false_eq_true, if_false, coverRouteKind] at hkind
    rw [res_bind_eq_ok] at hkind
    obtain ⟨c, hc, hkind⟩ := hkind
    obtain ⟨ex, hex, h⟩ := choose_destination_uniform v
    rcases h with ⟨hall, -⟩ | ⟨n, f, ⟨h0, h1, -⟩, h⟩
    · rcases (hex d).1 (hall d hd.1) with h | h
      · exact hd.2.1 h
      · exact hd.2.2 h
    · rw [h] at hc
      cases hc
      dsimp only at hkind
      cases hkind
      have hin := h1 (rng 0 % n) (Nat.mod_lt _ h0)
      have hd' : CoverDestination s.topology ns (f (rng 0 % n)) :=
        ⟨hin.1, fun h => hin.2 ((hex _).2 (.inl h)), fun h => hin.2 ((hex _).2 (.inr h))⟩
      generalize f (rng 0 % n) = d' at *
      refine key (.toMixnode d') _ (by intro x hx; cases hx; exact hd'.1) ?_ rfl
      -- all destinations are equally good
      have hcount : ∀ x, CoverDestination s.topology ns x → g.usedCount (.toMixnode x) = 2 := by
        intro x hx
        unfold RouteGenerator.usedCount
        rw [hgt]
        cases hl : s.topology.localNode with
        | mixnode i =>
          dsimp only
          rw [if_neg]
          rintro rfl
          exact hx.2.1 hl
        | nonMixnode gs =>
          dsimp only
          rw [if_neg]
          intro hcg
          obtain ⟨cs, hcs, he⟩ := connected_of_view v hl
          rw [hcg] at he
          have := take5_single.1 he.symm
          subst this
          exact hx.2.2 hcs
      have hmid : g.midCount (.toMixnode d') m.config.numHops = g.midCount (.toMixnode d) m.config.numHops := by
        unfold RouteGenerator.midCount RouteGenerator.leastHops RouteGenerator.fixedHops
        cases g.topology.localNode <;> rfl
      rw [fits_exists_iff v _ (by intro x hx; cases hx; exact hd'.1), hcount d' hd', hmid, ← hcount d hd]
      exact (fits_exists_iff v _ (by intro x hx; cases hx; exact hd.1)).1 ⟨inner, hfit⟩

/-- What `pop_next_authored_packet` does when a session is picked and the kind of cover traffic is chosen.
`p` is what is to be sent. -/
inductive Dispatch (C : Crypto) (m : Node) (ns : NetworkStatus) (i : Nat) (s : Session) (isLoop : Bool) :
    Node → Option AddressedPacket → Prop
  /-- A packet from the queue: only if this slot is not for loop cover traffic, and requests and replies are
  allowed in the session. It is the first one. -/
  | queued p rest : isLoop = false → ¬ NoLonger m.sessionStatus i → ¬ NotYet m.sessionStatus i →
      s.authoredPacketQueue.queue = p :: rest →
      Dispatch C m ns i s isLoop
        { withSession m i { s with authoredPacketQueue := { s.authoredPacketQueue with queue := rest } } with
          events := { m.events with
            nextAuthoredPacketDeadlineChanged := true
            spaceInAuthoredPacketQueue := m.events.spaceInAuthoredPacketQueue ||
              (s.authoredPacketQueue.config.multipleMessages || rest.isEmpty) } }
        (some p)
  /-- Otherwise a cover packet, if enabled and if there is a route for one. All queues stay as they are. -/
  | cover p : isLoop = true ∨ NoLonger m.sessionStatus i ∨ NotYet m.sessionStatus i ∨ s.authoredPacketQueue.queue = [] →
      (∀ x, p = some x → m.config.genCoverPackets = true ∧ CoverBuilt C s.topology ns m.config.numHops isLoop x) →
      (p = none → m.config.genCoverPackets = false ∨
        (m.config.numHops ≤ 6 → ¬ CoverPossible s.topology ns m.config.numHops isLoop)) →
      Dispatch C m ns i s isLoop { m with events := { m.events with nextAuthoredPacketDeadlineChanged := true } } p

include hC

/-- What `pop_next_authored_packet` does, with the outcome of the draws. -/
theorem dispatch_drawn (hI : m.Inv C) {rng ns p} (hns : ns.localPeerId.length = PEER_ID_SIZE)
    (h : m.step C (.popNextAuthoredPacket rng ns) = .ok (m', .authoredPacket p)) :
    ((∀ i, m.sessionAt i = none) ∧ p = none ∧ m' = m) ∨
    ∃ i rel s isLoop rng1 rng2, m.sessionAt i = some s ∧
      RelSessionIndex.fromSessionIndex i m.sessionStatus.currentIndex = some rel ∧
      m.pickSession rng = .ok (some (rel, s), rng1) ∧
      rng1.genBool m.config.loopCoverProportion = .ok (isLoop, rng2) ∧ Dispatch C m ns i s isLoop m' p := by
  have hc := Node.step_cases hC hI (show (Call.popNextAuthoredPacket rng ns).WellTyped from hns) h
  generalize hcall : Call.popNextAuthoredPacket rng ns = call at hc
  generalize hout : Outcome.authoredPacket p = out at hc
  cases hc with
  | popAuthored rng ns m' p hc =>
    cases hcall
    cases hout
    cases hc with
    | idle hid =>
      refine .inl ⟨fun i => ?_, rfl, rfl⟩
      cases hat : m.sessionAt i with
      | none => rfl
      | some s => obtain ⟨rel, -, h'⟩ := Node.sessionAt_eq.1 hat; exact absurd h' (hid rel s)
    | queued rel s rng1 rng2 p rest h1 h2 h3 h4 h5 =>
      obtain ⟨i, hi, hat⟩ := sessionAt_of_slot hI h3
      have hal := (allowed_iff hi).1 h4
      refine .inr ⟨i, rel, s, false, rng1, rng2, hat, hi, h1, h2, ?_⟩
      have := Dispatch.queued (C := C) (ns := ns) (isLoop := false) p rest rfl hal.1 hal.2 h5
      have hw : ∀ s', withSession m i s' = { m with sessions := m.sessions.set rel (.full s') } := by
        intro s'
        unfold withSession
        rcases fromSessionIndex_some.1 hi with ⟨rfl, h⟩ | ⟨rfl, h⟩
        · rw [if_pos (by omega)]; rfl
        · rw [if_neg (by omega)]; rfl
      rw [hw] at this
      exact this
    | cover rel s rng1 isLoop rng2 p h1 h2 h3 h4 h5 =>
      obtain ⟨i, hi, hat⟩ := sessionAt_of_slot hI h3
      refine .inr ⟨i, rel, s, isLoop, rng1, rng2, hat, hi, h1, h2, .cover p ?_ ?_ ?_⟩
      · rcases h4 with h4 | h4 | h4
        · exact .inl h4
        · by_cases hn : NoLonger m.sessionStatus i
          · exact .inr (.inl hn)
          · by_cases hy : NotYet m.sessionStatus i
            · exact .inr (.inr (.inl hy))
            · rw [(allowed_iff hi).2 ⟨hn, hy⟩] at h4; cases h4
        · exact .inr (.inr (.inr h4))
      · rintro x rfl
        exact coverBuilt hI h3 h5
      · rintro rfl
        cases hg : m.config.genCoverPackets with
        | false => exact .inl rfl
        | true => exact .inr fun hk => coverImpossible hI h3 h5 hg hk
  | _ => cases hcall

/-- **C34.** What `pop_next_authored_packet` returns and does. -/
theorem authored_dispatch (hr : Node.Reachable C config m) {rng ns p} (hns : ns.localPeerId.length = PEER_ID_SIZE)
    (h : m.step C (.popNextAuthoredPacket rng ns) = .ok (m', .authoredPacket p)) :
    ((∀ i, m.sessionAt i = none) ∧ p = none ∧ m' = m) ∨
    ∃ i s isLoop, m.sessionAt i = some s ∧ Dispatch C m ns i s isLoop m' p := by
  obtain ⟨hI, -⟩ := hr.inv hC
  rcases dispatch_drawn hC hI hns h with h | ⟨i, rel, s, isLoop, -, -, hat, -, -, -, hd⟩
  · exact .inl h
  · exact .inr ⟨i, s, isLoop, hat, hd⟩

/-- **C34.** While only cover traffic is to be sent in a session, its queue stays as it is whenever a packet
is due. -/
theorem not_allowed_not_sent (hr : Node.Reachable C config m) {rng ns p} (hns : ns.localPeerId.length = PEER_ID_SIZE)
    (h : m.step C (.popNextAuthoredPacket rng ns) = .ok (m', .authoredPacket p)) {i : Nat} {s : Session}
    (hs : m.sessionAt i = some s) (hno : NoLonger m.sessionStatus i ∨ NotYet m.sessionStatus i) :
    m'.sessionAt i = some s := by
  rcases authored_dispatch hC hr hns h with ⟨h, -⟩ | ⟨j, t, isLoop, ht, hd⟩
  · rw [h] at hs; cases hs
  · cases hd with
    | queued p rest h1 h2 h3 h4 =>
      have hij : j ≠ i := by rintro rfl; exact hno.elim h2 h3
      rw [← hs]
      unfold Node.sessionAt withSession
      by_cases e : j = m.sessionStatus.currentIndex
      · have e' : i ≠ m.sessionStatus.currentIndex := by omega
        simp only [if_pos e, if_neg e']
      · simp only [if_neg e]
        have hj : j + 1 = m.sessionStatus.currentIndex := by
          unfold Node.sessionAt at ht
          rw [if_neg e] at ht
          by_contra hne
          rw [if_neg hne] at ht; cases ht
        by_cases e' : i = m.sessionStatus.currentIndex
        · rw [if_pos e', if_pos e']
        · rw [if_neg e', if_neg e', if_neg (by omega), if_neg (by omega)]
    | cover => exact hs

/-- **C34.** With cover traffic disabled, what is sent comes from a queue; nothing is sent when no session
that allows requests has anything queued. -/
theorem no_cover_no_packet (hr : Node.Reachable C config m) {rng ns p} (hns : ns.localPeerId.length = PEER_ID_SIZE)
    (h : m.step C (.popNextAuthoredPacket rng ns) = .ok (m', .authoredPacket p)) (hcfg : config.genCoverPackets = false)
    (hq : ∀ i s, m.sessionAt i = some s → NoLonger m.sessionStatus i ∨ NotYet m.sessionStatus i ∨
      s.authoredPacketQueue.queue = []) : p = none := by
  obtain ⟨-, he⟩ := hr.inv hC
  rcases authored_dispatch hC hr hns h with ⟨-, h, -⟩ | ⟨j, t, isLoop, ht, hd⟩
  · exact h
  · cases hd with
    | queued p rest h1 h2 h3 h4 =>
      rcases hq _ _ ht with h | h | h
      · exact absurd h h2
      · exact absurd h h3
      · rw [h] at h4; cases h4
    | cover p h1 h2 =>
      cases p with
      | none => rfl
      | some x => rw [← he, (h2 x rfl).1] at hcfg; cases hcfg

/-! ### C25 -/

omit hC in
theorem peersOf_session (hI : m.Inv C) {rel s} (hs : m.sessions.get rel = .full s) :
    ∃ ps, s.topology.reservedPeers = .ok ps ∧ PeersOf m.config.numGatewayMixnodes s ps := by
  obtain ⟨rng, ms, rng', hm⟩ := (hI.sessions rel s hs).made
  obtain ⟨rfl, ⟨i, mx, h1, h2, -, h3, h4⟩ | ⟨h1, gs, h2, h3, h4, ps, h5, h6, -⟩⟩ := reserved_peers_exact _ _ _ _ _ _ hm
  · exact ⟨_, h4, .inl ⟨i, mx, h1, h2, h3, rfl⟩⟩
  · exact ⟨ps, h5, .inr ⟨h1, gs, h2, h3, h4, h6⟩⟩

/-- **C25** (the node). The reserved peers are those for the current session followed by those for the
previous one. -/
theorem node_reserved_peers (hr : Node.Reachable C config m) :
    ∃ ps qs, m.reservedPeers = .ok (ps ++ qs) ∧
      (∀ s, currentSession m = some s → PeersOf config.numGatewayMixnodes s ps) ∧ (currentSession m = none → ps = []) ∧
      (∀ s, previousSession m = some s → PeersOf config.numGatewayMixnodes s qs) ∧ (previousSession m = none → qs = []) := by
  obtain ⟨hI, rfl⟩ := hr.inv hC
  obtain ⟨e1, e2⟩ := slots hI
  rw [← e1, ← e2]
  have hiter : m.sessions.iter = m.sessions.current.asOption.toList ++ m.sessions.prev.asOption.toList := by
    generalize m.sessions = ss
    obtain ⟨c, p⟩ := ss
    cases c <;> cases p <;> rfl
  have slot : ∀ rel, ∃ ps, (∀ rest r, Node.reservedPeersOf rest = .ok r →
        Node.reservedPeersOf ((m.sessions.get rel).asOption.toList ++ rest) = .ok (ps ++ r)) ∧
      (∀ s, (m.sessions.get rel).asOption = some s → PeersOf m.config.numGatewayMixnodes s ps) ∧
      ((m.sessions.get rel).asOption = none → ps = []) := by
    intro rel
    cases hs : m.sessions.get rel with
    | full s =>
      obtain ⟨ps, h1, h2⟩ := peersOf_session hI hs
      refine ⟨ps, fun rest r hr => ?_, fun s' h => ?_, fun h => by cases h⟩
      · show (s.topology.reservedPeers >>= _) = _
        rw [h1, res_bind_ok]
        show (Node.reservedPeersOf rest >>= _) = _
        rw [hr]; rfl
      · cases h; exact h2
    | _ => exact ⟨[], fun rest r hr => hr, fun s h => (by cases h), fun _ => rfl⟩
  obtain ⟨ps, h1, h2, h3⟩ := slot .current
  obtain ⟨qs, g1, g2, g3⟩ := slot .prev
  refine ⟨ps, qs, ?_, h2, h3, g2, g3⟩
  unfold Node.reservedPeers
  rw [hiter]
  refine h1 _ _ ?_
  have := g1 [] [] rfl
  rw [List.append_nil, List.append_nil] at this
  exact this

/-! ### C35 -/

omit hC in
/-- What the reserved peers and the rate depend on. -/
def outline (ss : Sessions) : List (Topology × Nat) := ss.iter.map fun s => (s.topology, s.meanAuthoredPacketPeriod)

omit hC in
theorem reservedPeersOf_congr {l l' : List Session} (h : l'.map (·.topology) = l.map (·.topology)) :
    Node.reservedPeersOf l' = Node.reservedPeersOf l := by
  induction l generalizing l' with
  | nil => cases l' with
    | nil => rfl
    | cons => cases h
  | cons a l ih =>
    cases l' with
    | nil => cases h
    | cons b l' =>
      simp only [List.map_cons, List.cons.injEq] at h
      simp only [Node.reservedPeersOf, ih h.2, h.1]

omit hC in
theorem outline_congr (h1 : m'.sessionStatus = m.sessionStatus) (h2 : outline m'.sessions = outline m.sessions) :
    m'.reservedPeers = m.reservedPeers ∧ m'.meanAuthoredPacketPeriod = m.meanAuthoredPacketPeriod := by
  constructor
  · refine reservedPeersOf_congr ?_
    have := congrArg (List.map Prod.fst) h2
    simp only [outline, List.map_map] at this
    exact this
  · unfold Node.meanAuthoredPacketPeriod
    rw [h1]
    have h3 := congrArg (List.map Prod.snd) h2
    simp only [outline, List.map_map] at h3
    generalize m'.sessions.iter = l' at h3
    generalize m.sessions.iter = l at h3
    match l', l, h3 with
    | [], [], _ => rfl
    | [a], [b], h => simp at h; simp [h]
    | [a, a'], [b, b'], h => simp at h; simp [h]
    | _ :: _ :: _ :: _, _ :: _ :: _ :: _, h => rfl
    | [], _ :: _, h | _ :: _, [], h => simp at h
    | [_], _ :: _ :: _, h | _ :: _ :: _, [_], h => simp at h
    | [_, _], _ :: _ :: _ :: _, h | _ :: _ :: _ :: _, [_, _], h => simp at h

omit hC in
theorem outline_set {ss : Sessions} {rel : RelSessionIndex} {s s' : Session} (h : ss.get rel = .full s)
    (h1 : s'.topology = s.topology) (h2 : s'.meanAuthoredPacketPeriod = s.meanAuthoredPacketPeriod) :
    outline (ss.set rel (.full s')) = outline ss := by
  obtain ⟨c, p⟩ := ss
  cases rel with
  | current =>
    simp only [Sessions.get] at h; subst h
    cases p <;> simp [outline, Sessions.iter, Sessions.set, SessionSlot.asOption, List.filterMap_cons, h1, h2]
  | prev =>
    simp only [Sessions.get] at h; subst h
    cases c <;> simp [outline, Sessions.iter, Sessions.set, SessionSlot.asOption, List.filterMap_cons, h1, h2]

omit hC in
theorem outline_disabled {ss : Sessions} {rel : RelSessionIndex} (h : (ss.get rel).pending = true) :
    outline (ss.set rel .disabled) = outline ss := by
  obtain ⟨c, p⟩ := ss
  cases rel <;> cases c <;> cases p <;>
    first
    | rfl
    | (simp [Sessions.get, SessionSlot.pending] at h)

/-- What a user sees of a node that is the subject of a notification: reserved peers, next forward deadline,
and what the next authored deadline depends on. -/
theorem notified_step (hI : m.Inv C) {call : Call} {out : Outcome} (hw : call.WellTyped)
    (h : m.step C call = .ok (m', out)) :
    (m'.reservedPeers ≠ m.reservedPeers → m'.events.reservedPeersChanged = true) ∧
    (m'.nextForwardPacketDeadline ≠ m.nextForwardPacketDeadline → m'.events.nextForwardPacketDeadlineChanged = true) ∧
    ((m'.meanAuthoredPacketPeriod ≠ m.meanAuthoredPacketPeriod ∨
        ((∃ rng ns, call = .popNextAuthoredPacket rng ns) ∧ ∃ i, (m.sessionAt i).isSome)) →
      m'.events.nextAuthoredPacketDeadlineChanged = true) := by
  have hc := Node.step_cases hC hI hw h
  have same : m'.sessionStatus = m.sessionStatus → outline m'.sessions = outline m.sessions →
      (m'.nextForwardPacketDeadline ≠ m.nextForwardPacketDeadline → m'.events.nextForwardPacketDeadlineChanged = true) →
      ((∃ rng ns, call = .popNextAuthoredPacket rng ns) → (∃ i, (m.sessionAt i).isSome) →
        m'.events.nextAuthoredPacketDeadlineChanged = true) →
      (m'.reservedPeers ≠ m.reservedPeers → m'.events.reservedPeersChanged = true) ∧
      (m'.nextForwardPacketDeadline ≠ m.nextForwardPacketDeadline → m'.events.nextForwardPacketDeadlineChanged = true) ∧
      ((m'.meanAuthoredPacketPeriod ≠ m.meanAuthoredPacketPeriod ∨
          ((∃ rng ns, call = .popNextAuthoredPacket rng ns) ∧ ∃ i, (m.sessionAt i).isSome)) →
        m'.events.nextAuthoredPacketDeadlineChanged = true) := by
    intro h1 h2 h3 h4
    obtain ⟨a, b⟩ := outline_congr h1 h2
    refine ⟨fun h => absurd a h, h3, ?_⟩
    rintro (h | ⟨h, h'⟩)
    · exact absurd b h
    · exact h4 h h'
  cases hc with
  | status st =>
    have := setSessionStatus_cases m st
    generalize m.setSessionStatus st = m1 at *
    cases this with
    | same => exact same rfl rfl (fun h => absurd rfl h) (by rintro ⟨_, _, h⟩; cases h)
    | phase => exact ⟨fun _ => rfl, fun h => absurd rfl h, fun _ => rfl⟩
    | shift => exact ⟨fun _ => rfl, fun h => absurd rfl h, fun _ => rfl⟩
  | mixnodes rel answer rng m' b hc =>
    cases hc with
    | set => exact ⟨fun _ => rfl, fun h => absurd rfl h, fun _ => rfl⟩
    | skip => exact same rfl rfl (fun h => absurd rfl h) (by rintro ⟨_, _, h⟩; cases h)
    | transient => exact same rfl rfl (fun h => absurd rfl h) (by rintro ⟨_, _, h⟩; cases h)
    | permanent hp => exact same rfl (outline_disabled hp) (fun h => absurd rfl h) (by rintro ⟨_, _, h⟩; cases h)
    | notWanted ms t rng1 rng2 hp =>
      exact same rfl (outline_disabled hp) (fun h => absurd rfl h) (by rintro ⟨_, _, h⟩; cases h)
  | nextKx rng =>
    refine same ?_ ?_ (fun h => absurd ?_ h) (by rintro ⟨_, _, h⟩; cases h) <;>
      (unfold Node.nextKxPublic; split <;> rfl)
  | popForward tie => exact same rfl rfl (fun _ => rfl) (by rintro ⟨_, _, h⟩; cases h)
  | take => exact same rfl rfl (fun h => absurd rfl h) (by rintro ⟨_, _, h⟩; cases h)
  | popAuthored rng ns m' p hc =>
    cases hc with
    | idle hid =>
      refine same rfl rfl (fun h => absurd rfl h) ?_
      rintro - ⟨i, hi⟩
      obtain ⟨s, hs⟩ := Option.isSome_iff_exists.1 hi
      obtain ⟨rel, -, h'⟩ := Node.sessionAt_eq.1 hs
      exact absurd h' (hid rel s)
    | queued rel s rng1 rng2 p rest h1 h2 h3 h4 h5 =>
      exact same rfl (outline_set h3 rfl rfl) (fun h => absurd rfl h) (fun _ _ => rfl)
    | cover => exact same rfl rfl (fun h => absurd rfl h) (fun _ _ => rfl)
  | reply surbs i mid data m' surbs' r hc =>
    cases hc with
    | posted bps rel s rest used ps h1 h2 h3 =>
      exact same rfl (outline_set (postSession_ok h3).2.2 rfl rfl) (fun h => absurd rfl h) (by rintro ⟨_, _, h⟩; cases h)
    | failed bps rel s rest used ps e done bp left bad h1 h2 h3 =>
      exact same rfl (outline_set (postSession_ok h3).2.2 rfl rfl) (fun h => absurd rfl h) (by rintro ⟨_, _, h⟩; cases h)
    | _ => exact same rfl rfl (fun h => absurd rfl h) (by rintro ⟨_, _, h⟩; cases h)
  | post rng i d mid data n ns m' d' r hc =>
    cases hc with
    | posted bps rel s b rng1 acc infos met qd h1 h2 h3 =>
      exact same rfl (outline_set (postSession_ok h3).2.2 rfl rfl) (fun h => absurd rfl h) (by rintro ⟨_, _, h⟩; cases h)
    | failed bps rel s b rng1 acc e h1 h2 h3 =>
      exact same rfl (outline_set (postSession_ok h3).2.2 rfl rfl) (fun h => absurd rfl h) (by rintro ⟨_, _, h⟩; cases h)
    | _ => exact same rfl rfl (fun h => absurd rfl h) (by rintro ⟨_, _, h⟩; cases h)
  | handle now packet m' msg hc =>
    cases hc with
    | ignored hno => exact same rfl rfl (fun h => absurd rfl h) (by rintro ⟨_, _, h⟩; cases h)
    | accepted o a rel s m' msg ha he =>
      have hs := outline_set (s' := s.seen C packet) ha.slot rfl rfl
      cases he with
      | forwardNowhere => exact same rfl hs (fun h => absurd rfl h) (by rintro ⟨_, _, h⟩; cases h)
      | forward t d peer ev h1 h2 h3 h4 =>
        refine same rfl hs ?_ (by rintro ⟨_, _, h⟩; cases h)
        intro h
        subst h4
        dsimp only
        rw [Bool.or_eq_true]
        exact .inr (decide_eq_true h)
      | request => exact same rfl hs (fun h => absurd rfl h) (by rintro ⟨_, _, h⟩; cases h)
      | _ => exact same rfl rfl (fun h => absurd rfl h) (by rintro ⟨_, _, h⟩; cases h)

omit hC in
/-- **C35** (taking). Taking the events hands out what is pending, clears it and changes nothing else. -/
theorem take_events : m.step C .takeEvents = .ok ({ m with events := Events.empty }, .events m.events) := rfl

/-- **C35** (one call). A call that changes the reserved peers, the next forward deadline or the mean period of
authored packets, or takes the opportunity to send an authored packet, leaves the corresponding bit set.
Bits that are set stay set, unless the call takes them. -/
theorem notified (hr : Node.Reachable C config m) {call : Call} {out : Outcome} (hw : call.WellTyped)
    (h : m.step C call = .ok (m', out)) :
    ((m'.reservedPeers ≠ m.reservedPeers → m'.events.reservedPeersChanged = true) ∧
      (m'.nextForwardPacketDeadline ≠ m.nextForwardPacketDeadline → m'.events.nextForwardPacketDeadlineChanged = true) ∧
      ((m'.meanAuthoredPacketPeriod ≠ m.meanAuthoredPacketPeriod ∨
          ((∃ rng ns, call = .popNextAuthoredPacket rng ns) ∧ ∃ i, (m.sessionAt i).isSome)) →
        m'.events.nextAuthoredPacketDeadlineChanged = true)) ∧
    (call ≠ .takeEvents →
      (m.events.reservedPeersChanged = true → m'.events.reservedPeersChanged = true) ∧
      (m.events.nextForwardPacketDeadlineChanged = true → m'.events.nextForwardPacketDeadlineChanged = true) ∧
      (m.events.nextAuthoredPacketDeadlineChanged = true → m'.events.nextAuthoredPacketDeadlineChanged = true) ∧
      (m.events.spaceInAuthoredPacketQueue = true → m'.events.spaceInAuthoredPacketQueue = true)) := by
  obtain ⟨hI, -⟩ := hr.inv hC
  refine ⟨notified_step hC hI hw h, fun hne => ?_⟩
  rcases Node.events_step (Node.step_cases hC hI hw h) with ⟨h, -⟩ | ⟨-, -, h⟩
  · exact absurd h hne
  · exact h

/-- Some notification of the history, handed out or pending at its end, has the bit. -/
def Notified (bit : Events → Bool) (outs : List Outcome) (m' : Node) : Prop :=
  bit m'.events = true ∨ ∃ e, .events e ∈ outs ∧ bit e = true

/-- **C35** (history). If the reserved peers, the next forward deadline or the mean period of authored packets
differ between two points of a history, the corresponding bit was handed out in between or is pending. So a
user who reads these again whenever told to is never left with an old value. -/
theorem notified_history (hr : Node.Reachable C config m) {calls outs} (hw : ∀ c ∈ calls, c.WellTyped)
    (hruns : Node.Runs C m calls outs m') :
    (m'.reservedPeers ≠ m.reservedPeers → Notified (·.reservedPeersChanged) outs m') ∧
    (m'.nextForwardPacketDeadline ≠ m.nextForwardPacketDeadline →
      Notified (·.nextForwardPacketDeadlineChanged) outs m') ∧
    (m'.meanAuthoredPacketPeriod ≠ m.meanAuthoredPacketPeriod →
      Notified (·.nextAuthoredPacketDeadlineChanged) outs m') := by
  -- a bit that is pending at the start is handed out or pending at the end
  have persist : ∀ {m m' : Node} {calls outs} (hI : m.Inv C) (hw : ∀ c ∈ calls, c.WellTyped) (bit : Events → Bool)
      (hbit : ∀ a b : Events, a.le b → bit a = true → bit b = true) (h : bit m.events = true)
      (hruns : Node.Runs C m calls outs m'), Notified bit outs m' := by
    intro m m' calls outs hI hw bit hbit h hruns
    induction hruns with
    | nil => exact .inl h
    | @cons m call m1 out calls outs m2 hs hrest ih =>
      have hwc := hw _ List.mem_cons_self
      rcases Node.events_step (Node.step_cases hC hI hwc hs) with ⟨-, rfl, -⟩ | ⟨-, -, hle⟩
      · exact .inr ⟨_, List.mem_cons_self, h⟩
      · rcases ih (Node.inv_step hC hI hwc hs).1 (fun c hc => hw c (List.mem_cons_of_mem _ hc)) (hbit _ _ hle h) with h | ⟨e, h, h'⟩
        · exact .inl h
        · exact .inr ⟨e, List.mem_cons_of_mem _ h, h'⟩
  obtain ⟨hI, -⟩ := hr.inv hC
  clear hr
  have lift : ∀ {bit : Events → Bool} {out outs m}, Notified bit outs m → Notified bit (out :: outs) m := by
    rintro bit out outs m (h | ⟨e, h, h'⟩)
    · exact .inl h
    · exact .inr ⟨e, List.mem_cons_of_mem _ h, h'⟩
  induction hruns with
  | nil => exact ⟨fun h => absurd rfl h, fun h => absurd rfl h, fun h => absurd rfl h⟩
  | @cons m call m1 out calls outs m2 hs hrest ih =>
    have hwc := hw _ List.mem_cons_self
    have hwr := fun c hc => hw c (List.mem_cons_of_mem _ hc)
    have hI1 := (Node.inv_step hC hI hwc hs).1
    obtain ⟨i1, i2, i3⟩ := ih hwr hI1
    obtain ⟨n1, n2, n3⟩ := notified_step hC hI hwc hs
    refine ⟨fun h => ?_, fun h => ?_, fun h => ?_⟩
    · by_cases h' : m2.reservedPeers = m1.reservedPeers
      · rw [h'] at h; exact lift (persist hI1 hwr _ (fun _ _ hle => hle.1) (n1 h) hrest)
      · exact lift (i1 h')
    · by_cases h' : m2.nextForwardPacketDeadline = m1.nextForwardPacketDeadline
      · rw [h'] at h; exact lift (persist hI1 hwr _ (fun _ _ hle => hle.2.1) (n2 h) hrest)
      · exact lift (i2 h')
    · by_cases h' : m2.meanAuthoredPacketPeriod = m1.meanAuthoredPacketPeriod
      · rw [h'] at h; exact lift (persist hI1 hwr _ (fun _ _ hle => hle.2.2.1) (n3 (.inl h)) hrest)
      · exact lift (i3 h')

/-! ### C51 -/

/-- **C51** (rate). With no session there is no delay. With one, the mean period is its own, doubled unless the
phase is the last one. With two, each sends at half its rate: the reciprocal of the mean period is the sum of
half the rates. -/
theorem mean_period (hr : Node.Reachable C config m) :
    (currentSession m = none → previousSession m = none → m.meanAuthoredPacketPeriod = .ok none) ∧
    (∀ s, (currentSession m = some s ∧ previousSession m = none ∨ currentSession m = none ∧ previousSession m = some s) →
      m.meanAuthoredPacketPeriod = .ok (some (if m.sessionStatus.phase = .disconnectFromPrev
        then (s.meanAuthoredPacketPeriod : Rat) else 2 * (s.meanAuthoredPacketPeriod : Rat)))) ∧
    (∀ s t, currentSession m = some s → previousSession m = some t →
      0 < s.meanAuthoredPacketPeriod → 0 < t.meanAuthoredPacketPeriod →
      ∃ mean, m.meanAuthoredPacketPeriod = .ok (some mean) ∧ 0 < mean ∧ 1 / mean = rate s / 2 + rate t / 2) := by
  obtain ⟨hI, -⟩ := hr.inv hC
  obtain ⟨e1, e2⟩ := slots hI
  rw [← e1, ← e2]
  have hiter : m.sessions.iter = m.sessions.current.asOption.toList ++ m.sessions.prev.asOption.toList := by
    generalize m.sessions = ss
    obtain ⟨c, p⟩ := ss
    cases c <;> cases p <;> rfl
  unfold Node.meanAuthoredPacketPeriod
  rw [hiter]
  refine ⟨?_, ?_, ?_⟩
  · intro h1 h2; rw [h1, h2]; rfl
  · rintro s (⟨h1, h2⟩ | ⟨h1, h2⟩) <;> rw [h1, h2] <;> dsimp only [Option.toList, List.cons_append, List.nil_append] <;>
      cases m.sessionStatus.phase <;> rfl
  · intro s t h1 h2 p1 p2
    rw [h1, h2]
    dsimp only [Option.toList, List.cons_append, List.nil_append]
    have q1 : (0 : Rat) < s.meanAuthoredPacketPeriod := by exact_mod_cast p1
    have q2 : (0 : Rat) < t.meanAuthoredPacketPeriod := by exact_mod_cast p2
    rw [if_neg (by positivity)]
    refine ⟨_, rfl, by positivity, ?_⟩
    unfold rate
    field_simp
    ring

omit hC in
/-- **C51** (cap). The delay is the mean times the exponential sample `e`, cut off at 10. -/
theorem delay_capped {mean : Rat} (hm : m.meanAuthoredPacketPeriod = .ok (some mean)) (h0 : 0 ≤ mean) {e : Rat} (he : 0 ≤ e) :
    ∃ d, m.nextAuthoredPacketDelay e = .ok (some d) ∧ 0 ≤ d ∧ d ≤ 10 * mean ∧ (e ≤ 10 → d = e * mean) ∧
      (10 ≤ e → d = 10 * mean) := by
  unfold Node.nextAuthoredPacketDelay
  rw [hm]
  refine ⟨_, rfl, ?_, ?_, ?_, ?_⟩ <;> split <;> intros <;> first | positivity | nlinarith

omit hC in
theorem no_delay (hm : m.meanAuthoredPacketPeriod = .ok none) (e : Rat) : m.nextAuthoredPacketDelay e = .ok none := by
  unfold Node.nextAuthoredPacketDelay; rw [hm]; rfl

omit hC in
theorem genBool_share {p : Rat} (h0 : 0 ≤ p) (h1 : p < 1) : ∃ f, WithProbability p f ∧
    ∀ rng : Rng, rng.genBool p = .ok (f (rng 0 % 2 ^ 64), fun k => rng (k + 1)) := by
  refine ⟨fun x => decide ((x : Int) < (p * 2 ^ 64).floor), ?_, fun rng => ?_⟩
  · have hf : 0 ≤ (p * 2 ^ 64).floor := by
      rw [Rat.le_floor_iff]; simp; positivity
    obtain ⟨n, hn⟩ := Int.eq_ofNat_of_zero_le hf
    refine ⟨n, ?_, ?_, fun x _ => ?_⟩
    · have := Rat.floor_le (p * 2 ^ 64)
      rw [hn] at this
      exact_mod_cast this
    · have := Rat.lt_floor_add_one (p * 2 ^ 64)
      rw [hn] at this
      exact_mod_cast this
    · rw [hn]; simp
  · unfold Rng.genBool
    rw [if_neg (by linarith), if_pos ⟨h0, h1⟩]

/-- **C51** (share). With two sessions, the current one gets the next packet with a probability that is its
share of the sum of the rates; the draw is the first of `pop_next_authored_packet`. With one session, that
one gets it. -/
theorem session_share (hr : Node.Reachable C config m) :
    (∀ s t, currentSession m = some s → previousSession m = some t →
      0 < s.meanAuthoredPacketPeriod → 0 < t.meanAuthoredPacketPeriod →
      ∃ f, WithProbability (rate s / (rate s + rate t)) f ∧ ∀ rng, m.pickSession rng =
        .ok (some (if f (rng 0 % 2 ^ 64) then (.current, s) else (.prev, t)), fun k => rng (k + 1))) ∧
    (∀ s, currentSession m = some s → previousSession m = none → ∀ rng, m.pickSession rng = .ok (some (.current, s), rng)) ∧
    (∀ s, currentSession m = none → previousSession m = some s → ∀ rng, m.pickSession rng = .ok (some (.prev, s), rng)) := by
  obtain ⟨hI, -⟩ := hr.inv hC
  obtain ⟨e1, e2⟩ := slots hI
  rw [← e1, ← e2]
  have henum : m.sessions.enumerate = m.sessions.current.asOption.toList.map (RelSessionIndex.current, ·) ++
      m.sessions.prev.asOption.toList.map (RelSessionIndex.prev, ·) := by
    generalize m.sessions = ss
    obtain ⟨c, p⟩ := ss
    cases c <;> cases p <;> rfl
  unfold Node.pickSession
  rw [henum]
  refine ⟨?_, ?_, ?_⟩
  · intro s t h1 h2 p1 p2
    rw [h1, h2]
    dsimp only [Option.toList, List.cons_append, List.nil_append, List.map_cons, List.map_nil]
    have q1 : (0 : Rat) < s.meanAuthoredPacketPeriod := by exact_mod_cast p1
    have q2 : (0 : Rat) < t.meanAuthoredPacketPeriod := by exact_mod_cast p2
    have hshare : rate s / (rate s + rate t) =
        (t.meanAuthoredPacketPeriod : Rat) / (s.meanAuthoredPacketPeriod + t.meanAuthoredPacketPeriod) := by
      unfold rate; field_simp; ring
    obtain ⟨f, hf, hg⟩ := genBool_share (p := (t.meanAuthoredPacketPeriod : Rat) /
      (s.meanAuthoredPacketPeriod + t.meanAuthoredPacketPeriod)) (by positivity)
      (by rw [div_lt_one (by positivity)]; linarith)
    rw [hshare]
    refine ⟨f, hf, fun rng => ?_⟩
    have hne : (s.meanAuthoredPacketPeriod : Rat) + t.meanAuthoredPacketPeriod ≠ 0 := by positivity
    simp only [List.map_cons, List.map_nil, List.singleton_append, if_neg hne, hg]
    show Except.ok _ = _
    cases f (rng 0 % 2 ^ 64) <;> rfl
  · intro s h1 h2 rng; rw [h1, h2]; rfl
  · intro s h1 h2 rng; rw [h1, h2]; rfl

omit hC in
/-- `gen_bool` for any probability. -/
theorem genBool_share' {p : Rat} (h0 : 0 ≤ p) (h1 : p ≤ 1) : ∃ f, WithProbability p f ∧
    ∀ rng : Rng, ∃ rng', rng.genBool p = .ok (f (rng 0 % 2 ^ 64), rng') := by
  rcases lt_or_eq_of_le h1 with h | rfl
  · obtain ⟨f, hf, h⟩ := genBool_share h0 h
    exact ⟨f, hf, fun rng => ⟨_, h rng⟩⟩
  · refine ⟨fun _ => true, ⟨2 ^ 64, by norm_num, by norm_num, fun x hx => (decide_eq_true hx).symm⟩, fun rng => ⟨rng, ?_⟩⟩
    unfold Rng.genBool
    rw [if_pos rfl]

/-- **C51, C34** (odds). Which session gets the next packet, and whether it is to be loop cover traffic, is
decided by two independent draws. The first, made if there are two sessions, picks the current one with a
probability that is its share of the sum of the rates; the second picks loop cover traffic with the
configured probability. `pop_next_authored_packet` does what these draws say. -/
theorem authored_odds (hr : Node.Reachable C config m) (h0 : 0 ≤ config.loopCoverProportion)
    (h1 : config.loopCoverProportion ≤ 1) :
    (∀ s t, currentSession m = some s → previousSession m = some t →
      0 < s.meanAuthoredPacketPeriod → 0 < t.meanAuthoredPacketPeriod →
      ∃ first loop, WithProbability (rate s / (rate s + rate t)) first ∧
        WithProbability config.loopCoverProportion loop ∧
        ∀ rng ns m' p, ns.localPeerId.length = PEER_ID_SIZE →
          m.step C (.popNextAuthoredPacket rng ns) = .ok (m', .authoredPacket p) →
          if first (rng 0 % 2 ^ 64)
          then Dispatch C m ns m.sessionStatus.currentIndex s (loop (rng 1 % 2 ^ 64)) m' p
          else Dispatch C m ns (m.sessionStatus.currentIndex - 1) t (loop (rng 1 % 2 ^ 64)) m' p) ∧
    (∀ i s, (currentSession m = some s ∧ previousSession m = none ∧ i = m.sessionStatus.currentIndex ∨
        currentSession m = none ∧ previousSession m = some s ∧ i + 1 = m.sessionStatus.currentIndex) →
      ∃ loop, WithProbability config.loopCoverProportion loop ∧
        ∀ rng ns m' p, ns.localPeerId.length = PEER_ID_SIZE →
          m.step C (.popNextAuthoredPacket rng ns) = .ok (m', .authoredPacket p) →
          Dispatch C m ns i s (loop (rng 0 % 2 ^ 64)) m' p) := by
  obtain ⟨hI, rfl⟩ := hr.inv hC
  obtain ⟨hs1, hs2, hs3⟩ := session_share hC hr
  obtain ⟨loop, hloop, hl⟩ := genBool_share' h0 h1
  have hcur : ∀ {i}, RelSessionIndex.fromSessionIndex i m.sessionStatus.currentIndex = some .current →
      i = m.sessionStatus.currentIndex := by
    intro i h
    rcases fromSessionIndex_some.1 h with ⟨-, h⟩ | ⟨h, -⟩
    · omega
    · cases h
  have hprev : ∀ {i}, RelSessionIndex.fromSessionIndex i m.sessionStatus.currentIndex = some .prev →
      i + 1 = m.sessionStatus.currentIndex := by
    intro i h
    rcases fromSessionIndex_some.1 h with ⟨h, -⟩ | ⟨-, h⟩
    · cases h
    · omega
  have hnone : ∀ {s}, currentSession m = some s ∨ previousSession m = some s → ¬ ∀ i, m.sessionAt i = none := by
    intro s h hn
    rcases h with h | h
    · unfold currentSession at h; rw [hn] at h; cases h
    · unfold previousSession at h
      split at h
      · cases h
      · rw [hn] at h; cases h
  constructor
  · intro s t e1 e2 p1 p2
    obtain ⟨first, hfirst, hpick⟩ := hs1 s t e1 e2 p1 p2
    refine ⟨first, loop, hfirst, hloop, fun rng ns m' p hns h => ?_⟩
    rcases dispatch_drawn hC hI hns h with ⟨h, -⟩ | ⟨i, rel, s', isLoop, rng1, rng2, hat, hi, hp, hg, hd⟩
    · exact absurd h (hnone (.inl e1))
    · rw [hpick] at hp
      obtain ⟨rng', hl⟩ := hl rng1
      rw [hl] at hg
      simp only [Except.ok.injEq, Prod.mk.injEq, Option.some.injEq] at hp hg
      obtain ⟨hp, rfl⟩ := hp
      obtain ⟨rfl, -⟩ := hg
      split at hp <;> rename_i hf
      · cases hp
        rw [hf]
        cases hcur hi
        exact hd
      · cases hp
        rw [if_neg hf, ← hprev hi]
        exact hd
  · rintro i s hs
    refine ⟨loop, hloop, fun rng ns m' p hns h => ?_⟩
    rcases dispatch_drawn hC hI hns h with ⟨h, -⟩ | ⟨j, rel, s', isLoop, rng1, rng2, hat, hj, hp, hg, hd⟩
    · exact absurd h (hnone (hs.imp (·.1) (·.2.1)))
    · obtain ⟨rng', hl⟩ := hl rng1
      rw [hl] at hg
      simp only [Except.ok.injEq, Prod.mk.injEq] at hg
      obtain ⟨rfl, -⟩ := hg
      rcases hs with ⟨e1, e2, rfl⟩ | ⟨e1, e2, hi⟩
      · rw [hs2 s e1 e2] at hp
        simp only [Except.ok.injEq, Prod.mk.injEq, Option.some.injEq] at hp
        obtain ⟨⟨rfl, rfl⟩, rfl⟩ := hp
        cases hcur hj
        exact hd
      · rw [hs3 s e1 e2] at hp
        simp only [Except.ok.injEq, Prod.mk.injEq, Option.some.injEq] at hp
        obtain ⟨⟨rfl, rfl⟩, rfl⟩ := hp
        have := hprev hj
        obtain rfl : i = j := by omega
        exact hd

/-! ### The hypotheses can be met -/
section Examples
omit hC
open World

/-- Alice during the changeover from session 0, in which she is a mixnode and has a request queued, to session
1, in which she is not. -/
def twoCalls (ph : SessionPhase) : List Call :=
  setup ++ [ask, .setSessionStatus ⟨1, ph⟩, .maybeSetMixnodes .current (.ok mixes) World.rng, .takeEvents]

theorem two_typed (ph) : ∀ c ∈ twoCalls ph, c.WellTyped := by
  intro c hc
  simp only [twoCalls, List.mem_append, List.mem_cons, List.not_mem_nil, or_false] at hc
  rcases hc with h | rfl | rfl | rfl | rfl
  · exact setup_typed c h
  · exact ask_typed
  · trivial
  · exact setup_typed (.maybeSetMixnodes .current (.ok mixes) World.rng) (by simp [setup])
  · trivial

theorem two_ok : (startRes 3 (twoCalls .coverToPrev)).isOk = true := by decide +kernel
def two : Node := ((startRes 3 (twoCalls .coverToPrev)).get two_ok).1
theorem two_reachable : Node.Reachable World.C (cfg 3) two :=
  startRes_reachable (Res.eq_get2 _ two_ok) (two_typed _)

def periods (m : Node) : Option Nat × Option Nat :=
  ((currentSession m).map (·.meanAuthoredPacketPeriod), (previousSession m).map (·.meanAuthoredPacketPeriod))

/-- Both sessions are active, the previous one ten times as fast and with a packet queued that may no longer
be sent. -/
theorem two_periods : periods two = (some 1000000000, some 100000000) ∧
    ((previousSession two).map (·.authoredPacketQueue.queue.length)) = some 1 ∧
    two.sessionStatus = ⟨1, .coverToPrev⟩ ∧ two.events = Events.empty := by decide +kernel
attribute [irreducible] two

theorem two_sessions : ∃ s t, currentSession two = some s ∧ previousSession two = some t ∧
    s.meanAuthoredPacketPeriod = 1000000000 ∧ t.meanAuthoredPacketPeriod = 100000000 ∧
    t.authoredPacketQueue.queue.length = 1 := by
  have h := two_periods
  unfold periods at h
  cases h1 : currentSession two with
  | none => rw [h1] at h; simp at h
  | some s =>
    cases h2 : previousSession two with
    | none => rw [h2] at h; simp at h
    | some t => rw [h1, h2] at h; simp at h; exact ⟨s, t, rfl, rfl, h.1.1, h.1.2, h.2.1⟩

/-- Eleven packets in two seconds: half of one in session 1 and ten in session 0. -/
example : ∃ mean, two.meanAuthoredPacketPeriod = .ok (some mean) ∧ 1 / mean = 11 / 2000000000 := by
  obtain ⟨s, t, h1, h2, p1, p2, -⟩ := two_sessions
  obtain ⟨mean, e1, -, e2⟩ := (mean_period toyLaws two_reachable).2.2 s t h1 h2 (by omega) (by omega)
  refine ⟨mean, e1, ?_⟩
  rw [e2]; unfold rate; rw [p1, p2]; norm_num

/-- One packet in eleven is sent in session 1. -/
example : ∃ s t f, WithProbability (1 / 11) f ∧ ∀ rng, two.pickSession rng =
    .ok (some (if f (rng 0 % 2 ^ 64) then (.current, s) else (.prev, t)), fun k => rng (k + 1)) := by
  obtain ⟨s, t, h1, h2, p1, p2, -⟩ := two_sessions
  obtain ⟨f, hf, h⟩ := (session_share toyLaws two_reachable).1 s t h1 h2 (by omega) (by omega)
  refine ⟨s, t, f, ?_, h⟩
  have : rate s / (rate s + rate t) = 1 / 11 := by unfold rate; rw [p1, p2]; norm_num
  rwa [this] at hf

/-- In session 1 with probability 1/11; and then loop cover traffic with the configured probability. -/
example : ∃ s t first loop, WithProbability (1 / 11) first ∧ WithProbability (cfg 3).loopCoverProportion loop ∧
    ∀ rng m' p, two.step World.C (.popNextAuthoredPacket rng (ns 3)) = .ok (m', .authoredPacket p) →
      if first (rng 0 % 2 ^ 64) then Dispatch World.C two (ns 3) 1 s (loop (rng 1 % 2 ^ 64)) m' p
      else Dispatch World.C two (ns 3) 0 t (loop (rng 1 % 2 ^ 64)) m' p := by
  obtain ⟨s, t, h1, h2, p1, p2, -⟩ := two_sessions
  obtain ⟨f, g, hf, hg, h⟩ := (authored_odds toyLaws two_reachable (by decide +kernel) (by decide +kernel)).1
    s t h1 h2 (by omega) (by omega)
  have hst := two_periods.2.2.1
  refine ⟨s, t, f, g, ?_, hg, fun rng m' p h' => ?_⟩
  · have : rate s / (rate s + rate t) = 1 / 11 := by unfold rate; rw [p1, p2]; norm_num
    rwa [this] at hf
  · have := h rng (ns 3) m' p rfl h'
    rw [hst] at this
    exact this

/-- Alice has a packet due in session 0, which only allows cover traffic: it stays. -/
example : ∃ m' p t, two.step World.C (.popNextAuthoredPacket (fun _ => 2 ^ 64 - 1) (ns 3)) = .ok (m', .authoredPacket p) ∧
    m'.sessionAt 0 = some t ∧ t.authoredPacketQueue.queue.length = 1 := by
  have hs : (two.step World.C (.popNextAuthoredPacket (fun _ => 2 ^ 64 - 1) (ns 3))).says
      (fun o => match o with | .authoredPacket _ => true | _ => false) = true := by decide +kernel
  obtain ⟨m', o, he, ho⟩ := Res.of_says hs
  match o, ho with
  | .authoredPacket p, _ =>
    obtain ⟨s, t, h1, h2, p1, p2, p3⟩ := two_sessions
    have hst := two_periods.2.2.1
    have hat : two.sessionAt 0 = some t := by
      unfold previousSession at h2; rw [hst] at h2; exact h2
    refine ⟨m', p, t, he, not_allowed_not_sent toyLaws two_reachable rfl he hat (.inl (.inr ⟨?_, .inl ?_⟩)), p3⟩ <;> rw [hst]

/-- Alice sends a queued packet; and she sends a cover packet. -/
example : ∃ s isLoop, alice1.sessionAt 0 = some s ∧ Dispatch World.C alice1 (ns 3) 0 s isLoop aliceSent (some packet0) := by
  have hout : sendOut = .authoredPacket (some packet0) := by
    have h := sent.2.2.1
    generalize sendOut = o at *
    match o, h with
    | .authoredPacket p, h => rw [of_decide_eq_true h]
  have hr : Node.Reachable World.C (cfg 3) alice1 := alice_reachable.step toyLaws ask_typed ask_step
  rcases authored_dispatch toyLaws hr send_typed (hout ▸ send_step) with ⟨-, h, -⟩ | ⟨i, s, l, h1, h2⟩
  · cases h
  · have : i = 0 := by
      unfold Node.sessionAt at h1
      have hi : alice1.sessionStatus.currentIndex = 0 := by decide +kernel
      rw [hi] at h1
      by_contra hne
      rw [if_neg hne, if_neg (by omega)] at h1
      cases h1
    subst this
    exact ⟨s, l, h1, h2⟩

/-- Two reserved peers for session 0, in which Alice is a mixnode, and the gateways of session 1. -/
example : ∃ s t ps qs, currentSession two = some s ∧ previousSession two = some t ∧ two.reservedPeers = .ok (ps ++ qs) ∧
    PeersOf (cfg 3).numGatewayMixnodes s ps ∧ PeersOf (cfg 3).numGatewayMixnodes t qs := by
  obtain ⟨s, t, h1, h2, -⟩ := two_sessions
  obtain ⟨ps, qs, h, h3, -, h4, -⟩ := node_reserved_peers toyLaws two_reachable
  exact ⟨s, t, ps, qs, h1, h2, h, h3 s h1, h4 t h2⟩

/-- Setting the mixnodes changes the reserved peers. -/
example : ∃ m₀, Node.new World.C (cfg 3) = .ok m₀ ∧ alice.reservedPeers ≠ m₀.reservedPeers ∧
    alice.events.reservedPeersChanged = true := by
  refine ⟨_, rfl, ?_, by decide +kernel⟩
  intro h
  have h1 : (match alice.reservedPeers with | .ok ps => ps.length | .error _ => 0) = 2 := by decide +kernel
  rw [h] at h1
  revert h1
  decide +kernel

end Examples
end Mixnet.Props
