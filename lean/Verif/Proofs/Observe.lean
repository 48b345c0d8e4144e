import Verif.Spec.Observe
import Verif.Props.Sending
import Verif.Props.Replay
/-!
# Nodes that differ only in what is private
-/
namespace Mixnet
open Spec Props

/-- The same session, up to the queue of authored packets. -/
def SlotAlike : SessionSlot → SessionSlot → Prop
  | .full s, .full t => ∃ q, t = { s with authoredPacketQueue := q }
  | a, b => a = b

theorem SlotAlike.refl (a : SessionSlot) : SlotAlike a a := by
  cases a <;> first | rfl | exact ⟨_, rfl⟩

theorem SlotAlike.full {s : Session} {b : SessionSlot} (h : SlotAlike (.full s) b) :
    ∃ q, b = .full { s with authoredPacketQueue := q } := by
  cases b with
  | full t => obtain ⟨q, rfl⟩ := h; exact ⟨q, rfl⟩
  | _ => cases h

theorem SlotAlike.notFull {a b : SessionSlot} (h : SlotAlike a b) (hn : ∀ s, a ≠ .full s) : b = a := by
  cases a with
  | full s => exact absurd rfl (hn s)
  | _ => cases b <;> first | (exact h.symm) | cases h

theorem SlotAlike.symm {a b : SessionSlot} (h : SlotAlike a b) : SlotAlike b a := by
  cases a with
  | full s => obtain ⟨q, rfl⟩ := h.full; exact ⟨s.authoredPacketQueue, rfl⟩
  | _ => rw [h.notFull (by intro s; exact SessionSlot.noConfusion)]; rfl

theorem SlotAlike.trans {a b c : SessionSlot} (h : SlotAlike a b) (h' : SlotAlike b c) : SlotAlike a c := by
  cases a with
  | full s =>
    obtain ⟨q, rfl⟩ := h.full
    obtain ⟨q', rfl⟩ := h'.full
    exact ⟨q', rfl⟩
  | _ =>
    have := h.notFull (by intro s; exact SessionSlot.noConfusion)
    subst this
    exact h'

/-- The nodes differ only in queues of authored packets, SURB keys, incomplete messages and events. -/
structure Alike (m n : Node) : Prop where
  config : n.config = m.config
  status : n.sessionStatus = m.sessionStatus
  nextKx : n.nextKxPair = m.nextKxPair
  forward : n.forwardPacketQueue = m.forwardPacketQueue
  slots : ∀ rel, SlotAlike (m.sessions.get rel) (n.sessions.get rel)

namespace Alike
variable {m n k : Node}

theorem refl (m : Node) : Alike m m := ⟨rfl, rfl, rfl, rfl, fun _ => .refl _⟩

theorem symm (h : Alike m n) : Alike n m :=
  ⟨h.config.symm, h.status.symm, h.nextKx.symm, h.forward.symm, fun r => (h.slots r).symm⟩

theorem trans (h : Alike m n) (h' : Alike n k) : Alike m k :=
  ⟨h'.config.trans h.config, h'.status.trans h.status, h'.nextKx.trans h.nextKx, h'.forward.trans h.forward,
    fun r => (h.slots r).trans (h'.slots r)⟩

end Alike

theorem slots_set {ss tt : Sessions} (h : ∀ rel, SlotAlike (ss.get rel) (tt.get rel)) (rel : RelSessionIndex)
    {a b : SessionSlot} (hab : SlotAlike a b) : ∀ r, SlotAlike ((ss.set rel a).get r) ((tt.set rel b).get r) := by
  intro r
  by_cases hr : r = rel
  · subst hr; rw [get_set_self, get_set_self]; exact hab
  · rw [get_set_ne _ hr, get_set_ne _ hr]; exact h r

theorem slots_set_left {ss : Sessions} {rel : RelSessionIndex} {s : Session} (h : ss.get rel = .full s)
    (q : AuthoredPacketQueue) : ∀ r, SlotAlike (ss.get r) ((ss.set rel (.full { s with authoredPacketQueue := q })).get r) := by
  have := slots_set (ss := ss) (tt := ss) (fun _ => .refl _) rel (a := .full s)
    (b := .full { s with authoredPacketQueue := q }) ⟨q, rfl⟩
  rw [sessions_set_self h] at this
  exact this

variable {C : Crypto} {m m' n n' : Node}

/-- A private call changes nothing else. -/
theorem alike_private {call : Call} {out : Outcome} (hp : Private call = true) (h : StepCase C m call m' out) :
    Alike m m' := by
  cases h with
  | status | mixnodes | nextKx | handle | popForward | popAuthored => cases hp
  | take => exact ⟨rfl, rfl, rfl, rfl, fun _ => .refl _⟩
  | post rng i d mid data k ns m' d' r hc =>
    cases hc with
    | tooMany | noSession | noSpace | noDestination => exact .refl _
    | failed bps rel s b rng1 acc e h1 h2 h3 =>
      exact ⟨rfl, rfl, rfl, rfl, slots_set_left (postSession_ok h3).2.2 _⟩
    | posted bps rel s b rng1 acc infos met qd h1 h2 h3 =>
      exact ⟨rfl, rfl, rfl, rfl, slots_set_left (postSession_ok h3).2.2 _⟩
  | reply surbs i mid data m' surbs' r hc =>
    cases hc with
    | tooMany | noSession | noSpace => exact .refl _
    | failed bps rel s rest used ps e done bp left bad h1 h2 h3 =>
      exact ⟨rfl, rfl, rfl, rfl, slots_set_left (postSession_ok h3).2.2 _⟩
    | posted bps rel s rest used ps h1 h2 h3 =>
      exact ⟨rfl, rfl, rfl, rfl, slots_set_left (postSession_ok h3).2.2 _⟩

theorem alike_isEmpty {a b : SessionSlot} (h : SlotAlike a b) : b.isEmpty = a.isEmpty := by
  cases a with
  | full s => obtain ⟨q, rfl⟩ := h.full; rfl
  | _ => rw [h.notFull (by intro s; exact SessionSlot.noConfusion)]

theorem alike_shift {ss tt : Sessions} (h : ∀ rel, SlotAlike (ss.get rel) (tt.get rel)) (k : Option KxPair) (i j : Nat) :
    ∀ rel, SlotAlike ((Node.shiftSessions ss k i j).get rel) ((Node.shiftSessions tt k i j).get rel) := by
  have hc := h .current
  have hp := h .prev
  have he : tt.isEmpty = ss.isEmpty := by
    unfold Sessions.isEmpty
    rw [show tt.current.isEmpty = ss.current.isEmpty from alike_isEmpty hc,
      show tt.prev.isEmpty = ss.prev.isEmpty from alike_isEmpty hp]
  intro rel
  unfold Node.shiftSessions
  rw [he]
  have fin : ∀ (c : Bool), SlotAlike ((if c then ⟨.empty, .empty⟩ else ss : Sessions).get rel)
      ((if c then ⟨.empty, .empty⟩ else tt : Sessions).get rel) := by
    intro c
    cases c
    · exact h rel
    · exact .refl _
  dsimp only
  split
  · cases rel
    · exact .refl _
    · exact hc
  · exact .refl _
  · exact fin _

theorem alike_status (h : Alike m n) (st : SessionStatus) : Alike (m.setSessionStatus st) (n.setSessionStatus st) := by
  obtain ⟨h1, h2, h3, h4, h5⟩ := h
  obtain ⟨nc, nst, nss, nk, nf, nks, nfa, nev⟩ := n
  dsimp only at h1 h2 h3 h4 h5
  subst h1 h2 h3 h4
  unfold Node.setSessionStatus
  dsimp only
  split
  · exact ⟨rfl, rfl, rfl, rfl, h5⟩
  · have key : ∀ (a b : Node), Alike a b →
        Alike (if !st.phase.needPrev || st.currentIndex == 0 then
            { a with sessions := { a.sessions with prev := .disabled } } else a)
          (if !st.phase.needPrev || st.currentIndex == 0 then
            { b with sessions := { b.sessions with prev := .disabled } } else b) := by
      intro a b h
      obtain ⟨h1, h2, h3, h4, h5⟩ := h
      split
      · refine ⟨h1, h2, h3, h4, ?_⟩
        intro rel
        cases rel
        · exact h5 .current
        · exact .refl _
      · exact ⟨h1, h2, h3, h4, h5⟩
    have fin : ∀ (a b : Node) e e', Alike a b →
        Alike { a with events := e, sessionStatus := st } { b with events := e', sessionStatus := st } := by
      intro a b e e' h
      exact ⟨h.config, rfl, h.nextKx, h.forward, h.slots⟩
    apply fin
    apply key
    split
    · exact ⟨rfl, rfl, rfl, rfl, alike_shift h5 _ _ _⟩
    · exact ⟨rfl, rfl, rfl, rfl, h5⟩

theorem alike_pending (h : Alike m n) {rel : RelSessionIndex} :
    (n.sessions.get rel).pending = (m.sessions.get rel).pending ∧
    ((m.sessions.get rel).pending = true → n.sessions.get rel = m.sessions.get rel) := by
  have := h.slots rel
  generalize m.sessions.get rel = a at this
  generalize n.sessions.get rel = b at this
  cases a with
  | full s => obtain ⟨q, rfl⟩ := this.full; exact ⟨rfl, by intro h; cases h⟩
  | _ => rw [this.notFull (by intro s; exact SessionSlot.noConfusion)]; exact ⟨rfl, fun _ => rfl⟩

theorem alike_mixnodes (h : Alike m n) {rng rel answer b b'} (h1 : m.maybeSetMixnodes C rng rel answer = .ok (m', b))
    (h2 : n.maybeSetMixnodes C rng rel answer = .ok (n', b')) : Alike m' n' := by
  obtain ⟨c1, c2, c3, c4, c5⟩ := h
  obtain ⟨nc, nst, nss, nk, nf, nks, nfa, nev⟩ := n
  dsimp only at c1 c2 c3 c4 c5
  subst c1 c2 c3 c4
  have hs := c5 rel
  unfold Node.maybeSetMixnodes at h1 h2
  dsimp only at h2
  by_cases hf : ∃ s, m.sessions.get rel = .full s
  · obtain ⟨s, hf⟩ := hf
    rw [hf] at hs
    obtain ⟨q, hq⟩ := hs.full
    rw [hf] at h1
    rw [hq] at h2
    cases h1; cases h2
    exact ⟨rfl, rfl, rfl, rfl, c5⟩
  · have e := hs.notFull (fun s hs => hf ⟨s, hs⟩)
    rw [e] at h2
    have put : ∀ (a : SessionSlot) e e', Alike { m with sessions := m.sessions.set rel a, events := e }
        ⟨m.config, m.sessionStatus, nss.set rel a, m.nextKxPair, m.forwardPacketQueue, nks, nfa, e'⟩ :=
      fun a e e' => ⟨rfl, rfl, rfl, rfl, slots_set c5 rel (.refl a)⟩
    have body : ∀ (slot : SessionSlot),
        (do
          let _ ← rel.add m.sessionStatus.currentIndex
          match answer with
          | .error .permanent => .ok ({ m with sessions := m.sessions.set rel .disabled }, true)
          | .error .transient => .ok (m, true)
          | .ok mixnodes => do
            let mixnodes := mixnodes.take (MAX_MIXNODE_INDEX + 1)
            match ← Node.buildSession C m.config slot rng mixnodes with
            | .full s => .ok ({ m with
                sessions := m.sessions.set rel (.full s)
                events := { m.events with
                  reservedPeersChanged := true, nextAuthoredPacketDeadlineChanged := true } }, true)
            | slot => .ok ({ m with sessions := m.sessions.set rel slot }, true)) = Except.ok (m', b) →
        (do
          let _ ← rel.add m.sessionStatus.currentIndex
          match answer with
          | .error .permanent => .ok (⟨m.config, m.sessionStatus, nss.set rel .disabled, m.nextKxPair, m.forwardPacketQueue, nks, nfa, nev⟩, true)
          | .error .transient => .ok (⟨m.config, m.sessionStatus, nss, m.nextKxPair, m.forwardPacketQueue, nks, nfa, nev⟩, true)
          | .ok mixnodes => do
            let mixnodes := mixnodes.take (MAX_MIXNODE_INDEX + 1)
            match ← Node.buildSession C m.config slot rng mixnodes with
            | .full s => .ok (⟨m.config, m.sessionStatus, nss.set rel (.full s), m.nextKxPair, m.forwardPacketQueue, nks, nfa,
                { nev with reservedPeersChanged := true, nextAuthoredPacketDeadlineChanged := true }⟩, true)
            | slot => .ok (⟨m.config, m.sessionStatus, nss.set rel slot, m.nextKxPair, m.forwardPacketQueue, nks, nfa,
                nev⟩, true)) = Except.ok (n', b') →
        Alike m' n' := by
      intro slot g1 g2
      rw [res_bind_eq_ok] at g1 g2
      obtain ⟨_, -, g1⟩ := g1
      obtain ⟨_, -, g2⟩ := g2
      cases answer with
      | error e =>
        cases e
        · cases g1; cases g2; exact ⟨rfl, rfl, rfl, rfl, c5⟩
        · cases g1; cases g2; exact put _ _ _
      | ok ms =>
        dsimp only at g1 g2
        rw [res_bind_eq_ok] at g1 g2
        obtain ⟨x, hx, g1⟩ := g1
        obtain ⟨y, hy, g2⟩ := g2
        rw [hx] at hy
        cases hy
        cases x <;> cases g1 <;> cases g2 <;> exact put _ _ _
    generalize m.sessions.get rel = slot at h1 h2 hf
    cases slot with
    | full s => exact absurd ⟨s, rfl⟩ hf
    | disabled => cases h1; cases h2; exact ⟨rfl, rfl, rfl, rfl, c5⟩
    | empty => exact body _ h1 h2
    | kxPair k => exact body _ h1 h2

/-! ### Packets from the network -/

theorem alike_accepts (h : Alike m n) {packet rel s out a} (ha : Accepts C m packet rel s out a) :
    ∃ q, Accepts C n packet rel { s with authoredPacketQueue := q } out a := by
  have hs := h.slots rel
  rw [ha.slot] at hs
  obtain ⟨q, hq⟩ := hs.full
  refine ⟨q, hq, ha.fresh, ha.peels, ?_, ha.size⟩
  intro hr s' hs'
  have hc := (h.slots .current).symm
  rw [show n.sessions.get .current = .full s' from hs'] at hc
  obtain ⟨q', hq'⟩ := hc.full
  exact ha.first hr { s' with authoredPacketQueue := q' } hq'

theorem alike_effect (h : Alike m n) {now packet rel} {s : Session} {q out a msg msg'}
    (he : Effect C m now packet rel s out a m' msg)
    (he' : Effect C n now packet rel { s with authoredPacketQueue := q } out a n' msg') : Alike m' n' := by
  have h0 := h
  obtain ⟨c1, c2, c3, c4, c5⟩ := h
  have put := slots_set c5 rel (a := .full (s.seen C packet))
    (b := .full (Session.seen C { s with authoredPacketQueue := q } packet)) ⟨q, rfl⟩
  cases he with
  | cover id => cases he'; exact h0
  | forwardNotMixnode t d hm =>
    cases he' with
    | forwardNotMixnode => exact h0
    | forwardFull => exact h0
    | forwardNowhere _ _ e hm' => rw [show s.topology.isMixnode = true from hm'] at hm; cases hm
    | forward _ _ p ev hm' => rw [show s.topology.isMixnode = true from hm'] at hm; cases hm
  | forwardFull t d hm hf =>
    cases he' with
    | forwardNotMixnode => exact h0
    | forwardFull => exact h0
    | forwardNowhere _ _ e hm' hl => rw [c4] at hl; omega
    | forward _ _ p ev hm' hl => rw [c4] at hl; omega
  | forwardNowhere t d e hm hl hp =>
    cases he' with
    | forwardNotMixnode _ _ hm' => rw [show s.topology.isMixnode = false from hm'] at hm; cases hm
    | forwardFull _ _ _ hf => rw [c4] at hf; omega
    | forwardNowhere _ _ e hm' hl => exact ⟨c1, c2, c3, c4, put⟩
    | forward _ _ p ev hm' _ hp' =>
      rw [show s.topology.targetToPeerId t = _ from hp'] at hp; cases hp
  | forward t d p ev hm hl hp =>
    cases he' with
    | forwardNotMixnode _ _ hm' => rw [show s.topology.isMixnode = false from hm'] at hm; cases hm
    | forwardFull _ _ _ hf => rw [c4] at hf; omega
    | forwardNowhere _ _ e hm' _ hp' => rw [show s.topology.targetToPeerId t = _ from hp'] at hp; cases hp
    | forward _ _ p' ev' hm' _ hp' =>
      rw [show s.topology.targetToPeerId t = _ from hp'] at hp
      cases hp
      exact ⟨c1, c2, c3, (by dsimp only; rw [c4, c1]), put⟩
  | requestNotMixnode hm =>
    cases he' with
    | requestNotMixnode => exact h0
    | request _ _ _ hm' => rw [show s.topology.isMixnode = true from hm'] at hm; cases hm
  | request _ _ _ hm =>
    cases he' with
    | requestNotMixnode hm' => rw [show s.topology.isMixnode = false from hm'] at hm; cases hm
    | request _ _ _ hm' => exact ⟨c1, c2, c3, c4, put⟩
  | replyUnknown => cases he' <;> exact ⟨c1, c2, c3, c4, c5⟩
  | replyBad => cases he' <;> exact ⟨c1, c2, c3, c4, c5⟩
  | reply => cases he' <;> exact ⟨c1, c2, c3, c4, c5⟩

theorem alike_handle (h : Alike m n) {now packet msg msg'} (h1 : HandleCase C m now packet m' msg)
    (h2 : HandleCase C n now packet n' msg') : Alike m' n' := by
  cases h1 with
  | ignored hno =>
    cases h2 with
    | ignored => exact h
    | accepted out a rel s n' msg' ha he =>
      obtain ⟨q, hq⟩ := alike_accepts h.symm ha
      exact absurd hq (hno _ _ _ _)
  | accepted out a rel s m' msg ha he =>
    obtain ⟨q, hq⟩ := alike_accepts h ha
    cases h2 with
    | ignored hno => exact absurd hq (hno _ _ _ _)
    | accepted out' a' rel' s' n' msg' ha' he' =>
      obtain ⟨rfl, rfl, rfl, rfl⟩ := accepts_unique hq ha'
      exact alike_effect h he he'

/-! ### Sending -/

theorem alike_pick (h : Alike m n) {rng rng1 rng1' rel s rel' s'} (h1 : m.pickSession rng = .ok (some (rel, s), rng1))
    (h2 : n.pickSession rng = .ok (some (rel', s'), rng1')) :
    rel' = rel ∧ rng1' = rng1 ∧ ∃ q, s' = { s with authoredPacketQueue := q } := by
  have hc := h.slots .current
  have hp := h.slots .prev
  unfold Node.pickSession at h1 h2
  obtain ⟨⟨mc, mp⟩, hm⟩ : ∃ x, m.sessions = x := ⟨_, rfl⟩
  obtain ⟨⟨nc, np⟩, hn⟩ : ∃ x, n.sessions = x := ⟨_, rfl⟩
  rw [hm, hn] at hc hp
  rw [hm] at h1
  rw [hn] at h2
  simp only [Sessions.get] at hc hp
  by_cases f1 : ∃ a, mc = .full a
  · obtain ⟨a, rfl⟩ := f1
    obtain ⟨qa, rfl⟩ := hc.full
    by_cases f2 : ∃ b, mp = .full b
    · obtain ⟨b, rfl⟩ := f2
      obtain ⟨qb, rfl⟩ := hp.full
      simp only [Sessions.enumerate, SessionSlot.asOption, Option.map_some, List.filterMap_cons, List.filterMap_nil] at h1 h2
      split at h1
      · cases h1
      · rw [if_neg (by assumption)] at h2
        rw [res_bind_eq_ok] at h1 h2
        obtain ⟨⟨f, r⟩, hf, h1⟩ := h1
        obtain ⟨⟨f', r'⟩, hf', h2⟩ := h2
        rw [hf] at hf'
        cases hf'
        cases f <;> cases h1 <;> cases h2 <;> exact ⟨rfl, rfl, _, rfl⟩
    · have e := hp.notFull (fun s hs => f2 ⟨s, hs⟩)
      subst e
      cases np with
      | full b => exact absurd ⟨b, rfl⟩ f2
      | _ => cases h1; cases h2; exact ⟨rfl, rfl, _, rfl⟩
  · have e := hc.notFull (fun s hs => f1 ⟨s, hs⟩)
    subst e
    by_cases f2 : ∃ b, mp = .full b
    · obtain ⟨b, rfl⟩ := f2
      obtain ⟨qb, rfl⟩ := hp.full
      cases nc with
      | full b => exact absurd ⟨b, rfl⟩ f1
      | _ => cases h1; cases h2; exact ⟨rfl, rfl, _, rfl⟩
    · have e := hp.notFull (fun s hs => f2 ⟨s, hs⟩)
      subst e
      cases nc with
      | full b => exact absurd ⟨b, rfl⟩ f1
      | _ =>
        cases np with
        | full b => exact absurd ⟨b, rfl⟩ f2
        | _ => cases h1

/-- When cover packets are possible, whether a packet is sent depends only on whether there is a session. -/
theorem pop_sends (hI : m.Inv C) {rng ns p} (hk : m.config.numHops ≤ 6) (hg : m.config.genCoverPackets = true)
    (hcov : ∀ s loop, (currentSession m = some s ∨ previousSession m = some s) →
      CoverPossible s.topology ns m.config.numHops loop)
    (h : PopCase C m rng ns m' p) : p.isSome = true ↔ ∃ rel s, m.sessions.get rel = .full s := by
  cases h with
  | idle hno => exact ⟨(by intro h; cases h), fun ⟨rel, s, hs⟩ => absurd hs (hno rel s)⟩
  | queued rel s rng1 rng2 p rest _ _ hs => exact ⟨fun _ => ⟨rel, s, hs⟩, fun _ => rfl⟩
  | cover rel s rng1 isLoop rng2 p _ _ hs _ hc =>
    refine ⟨fun _ => ⟨rel, s, hs⟩, fun _ => ?_⟩
    cases p with
    | some p => rfl
    | none =>
      exfalso
      refine coverImpossible hI hs hc hg hk (hcov s isLoop ?_)
      obtain ⟨e1, e2⟩ := slots hI
      cases rel with
      | current => left; rw [← e1, show m.sessions.current = .full s from hs]; rfl
      | prev => right; rw [← e2, show m.sessions.prev = .full s from hs]; rfl

theorem alike_hasSession (h : Alike m n) : (∃ rel s, m.sessions.get rel = .full s) → ∃ rel s, n.sessions.get rel = .full s := by
  rintro ⟨rel, s, hs⟩
  have := h.slots rel
  rw [hs] at this
  obtain ⟨q, hq⟩ := this.full
  exact ⟨rel, _, hq⟩

theorem alike_pop_self {rng ns p} (h : PopCase C m rng ns m' p) : Alike m m' := by
  cases h with
  | idle => exact .refl _
  | queued rel s rng1 rng2 p rest _ _ hs => exact ⟨rfl, rfl, rfl, rfl, slots_set_left hs _⟩
  | cover => exact ⟨rfl, rfl, rfl, rfl, fun _ => .refl _⟩

theorem alike_sessionAt (h : Alike m n) {i t} (ht : n.sessionAt i = some t) :
    ∃ s q, m.sessionAt i = some s ∧ t = { s with authoredPacketQueue := q } := by
  unfold Node.sessionAt at ht ⊢
  rw [h.status] at ht
  have get : ∀ rel, (n.sessions.get rel).asOption = some t → ∃ s q, (m.sessions.get rel).asOption = some s ∧
      t = { s with authoredPacketQueue := q } := by
    intro rel he
    have hs := (h.slots rel).symm
    cases hn : n.sessions.get rel with
    | full t' =>
      rw [hn] at hs he
      cases he
      obtain ⟨q, hq⟩ := hs.full
      exact ⟨{ t with authoredPacketQueue := q }, t.authoredPacketQueue, (by rw [hq]; rfl), rfl⟩
    | _ => rw [hn] at he; cases he
  by_cases c1 : i = m.sessionStatus.currentIndex
  · rw [if_pos c1] at ht ⊢
    exact get .current ht
  · rw [if_neg c1] at ht ⊢
    by_cases c2 : i + 1 = m.sessionStatus.currentIndex
    · rw [if_pos c2] at ht ⊢
      exact get .prev ht
    · rw [if_neg c2] at ht
      cases ht

theorem alike_cover (h : Alike m n) {ns}
    (hcov : ∀ s loop, (currentSession m = some s ∨ previousSession m = some s) →
      CoverPossible s.topology ns m.config.numHops loop) :
    ∀ s loop, (currentSession n = some s ∨ previousSession n = some s) →
      CoverPossible s.topology ns n.config.numHops loop := by
  intro t loop ht
  have : ∃ s q, (currentSession m = some s ∨ previousSession m = some s) ∧ t = { s with authoredPacketQueue := q } := by
    unfold currentSession previousSession at *
    rw [h.status] at ht
    rcases ht with ht | ht
    · obtain ⟨s, q, h1, h2⟩ := alike_sessionAt h ht
      exact ⟨s, q, .inl h1, h2⟩
    · generalize m.sessionStatus.currentIndex = i at *
      cases i with
      | zero => cases ht
      | succ i =>
        obtain ⟨s, q, h1, h2⟩ := alike_sessionAt h ht
        exact ⟨s, q, .inr h1, h2⟩
  obtain ⟨s, q, hs, rfl⟩ := this
  rw [h.config]
  exact hcov s loop hs

/-- One call that is not private, made in both nodes. -/
theorem alike_step (h : Alike m n) (hI : m.Inv C) (hJ : n.Inv C) (hC : CryptoLaws C) {call : Call} {out out' : Outcome}
    (hp : Private call = false) (hw : call.WellTyped)
    (hk : m.config.numHops ≤ 6) (hg : m.config.genCoverPackets = true)
    (hcov : ∀ rng ns, call = .popNextAuthoredPacket rng ns → ∀ s loop,
      (currentSession m = some s ∨ previousSession m = some s) → CoverPossible s.topology ns m.config.numHops loop)
    (h1 : m.step C call = .ok (m', out)) (h2 : n.step C call = .ok (n', out')) :
    Alike m' n' ∧ seenOf (call, out) = seenOf (call, out') := by
  have s1 := Node.step_cases hC hI hw h1
  have s2 := Node.step_cases hC hJ hw h2
  cases s1 with
  | post | reply | take => cases hp
  | status st => cases s2; exact ⟨alike_status h st, rfl⟩
  | mixnodes rel answer rng m' b hc =>
    cases s2
    refine ⟨?_, rfl⟩
    unfold Node.step at h1 h2
    rw [res_bind_eq_ok] at h1 h2
    obtain ⟨⟨m1, b1⟩, e1, h1⟩ := h1
    obtain ⟨⟨n1, b2⟩, e2, h2⟩ := h2
    cases h1; cases h2
    exact alike_mixnodes h e1 e2
  | nextKx rng =>
    cases s2
    obtain ⟨c1, c2, c3, c4, c5⟩ := h
    unfold Node.nextKxPublic
    rw [c3]
    split
    · exact ⟨⟨c1, c2, c3, c4, c5⟩, rfl⟩
    · exact ⟨⟨c1, c2, rfl, c4, c5⟩, rfl⟩
  | handle now packet m' msg hc =>
    cases s2 with
    | handle _ _ n' msg' hc' => exact ⟨alike_handle h hc hc', rfl⟩
  | popForward tie =>
    cases s2
    obtain ⟨c1, c2, c3, c4, c5⟩ := h
    unfold Node.popNextForwardPacket
    rw [c4]
    exact ⟨⟨c1, c2, c3, rfl, c5⟩, rfl⟩
  | popAuthored rng ns m' p hc =>
    cases s2 with
    | popAuthored _ _ n' p' hc' =>
      refine ⟨((alike_pop_self hc).symm.trans h).trans (alike_pop_self hc'), ?_⟩
      have a := pop_sends hI hk hg (hcov rng ns rfl) hc
      have b := pop_sends hJ (by rw [h.config]; exact hk) (by rw [h.config]; exact hg)
        (alike_cover h (hcov rng ns rfl)) hc'
      have : p.isSome = p'.isSome := by
        rw [Bool.eq_iff_iff, a, b]
        exact ⟨alike_hasSession h, alike_hasSession h.symm⟩
      show some (Seen.authored p.isSome) = some (Seen.authored p'.isSome)
      rw [this]

/-- What the timing of a node's packets and its connections depend on. -/
theorem alike_outline (h : Alike m n) : outline n.sessions = outline m.sessions := by
  have hc := h.slots .current
  have hp := h.slots .prev
  obtain ⟨⟨mc, mp⟩, hm⟩ : ∃ x, m.sessions = x := ⟨_, rfl⟩
  obtain ⟨⟨nc, np⟩, hn⟩ : ∃ x, n.sessions = x := ⟨_, rfl⟩
  rw [hm, hn] at hc hp ⊢
  simp only [Sessions.get] at hc hp
  have key : ∀ {a b : SessionSlot}, SlotAlike a b → b.asOption.map (fun s => (s.topology, s.meanAuthoredPacketPeriod)) =
      a.asOption.map (fun s => (s.topology, s.meanAuthoredPacketPeriod)) := by
    intro a b hab
    cases a with
    | full s => obtain ⟨q, rfl⟩ := hab.full; rfl
    | _ => rw [hab.notFull (by intro s; exact SessionSlot.noConfusion)]
  have k1 := key hc
  have k2 := key hp
  unfold outline Sessions.iter
  rw [List.map_filterMap, List.map_filterMap]
  simp only [List.filterMap_cons, List.filterMap_nil, k1, k2]

end Mixnet
