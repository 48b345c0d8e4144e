import Verif.Proofs.NodeCalls
/-!
# Setting mixnodes; the invariant of a node
-/
namespace Mixnet

/-- Neither disabled nor set. -/
def SessionSlot.pending : SessionSlot → Bool
  | .empty => true
  | .kxPair _ => true
  | .disabled => false
  | .full _ => false

/-- The key pair a pending slot will use. -/
def SessionSlot.pairFor (C : Crypto) (slot : SessionSlot) (rng : Rng) : KxPair :=
  match slot with
  | .kxPair k => k
  | _ => (KxPair.gen C rng).1

/-- The random numbers left after that. -/
def SessionSlot.rngAfter (C : Crypto) (slot : SessionSlot) (rng : Rng) : Rng :=
  match slot with
  | .kxPair _ => rng
  | _ => (KxPair.gen C rng).2

/-- The configuration of a session. -/
def Config.sessionConfig (config : Config) (isMixnode : Bool) : Option SessionConfig :=
  if isMixnode then some config.mixnodeSession else config.nonMixnodeSession

/-- What `maybe_set_mixnodes` does. -/
inductive SetCase (C : Crypto) (m : Node) (rng : Rng) (rel : RelSessionIndex) :
    Except MixnodesErr (List Mixnode) → Node → Bool → Prop
  | skip answer : (m.sessions.get rel).pending = false → SetCase C m rng rel answer m false
  | permanent : (m.sessions.get rel).pending = true →
      SetCase C m rng rel (.error .permanent) { m with sessions := m.sessions.set rel .disabled } true
  | transient : (m.sessions.get rel).pending = true → SetCase C m rng rel (.error .transient) m true
  | notWanted ms t rng1 rng2 : (m.sessions.get rel).pending = true →
      Topology.new rng1 (ms.take 65280) ((m.sessions.get rel).pairFor C rng).pub m.config.numGatewayMixnodes =
        .ok (t, rng2) → t.WF →
      m.config.sessionConfig t.isMixnode = none →
      SetCase C m rng rel (.ok ms) { m with sessions := m.sessions.set rel .disabled } true
  | set ms t rng1 rng2 sc : (m.sessions.get rel).pending = true →
      Topology.new rng1 (ms.take 65280) ((m.sessions.get rel).pairFor C rng).pub m.config.numGatewayMixnodes =
        .ok (t, rng2) → t.WF →
      m.config.sessionConfig t.isMixnode = some sc →
      SetCase C m rng rel (.ok ms)
        { m with
          sessions := m.sessions.set rel (.full
            { kxPair := (m.sessions.get rel).pairFor C rng
              topology := t
              authoredPacketQueue := ⟨sc.authoredPacketQueue, []⟩
              meanAuthoredPacketPeriod := sc.meanAuthoredPacketPeriod
              replayFilter := (ReplayFilter.new rng2).1 })
          events := { m.events with
            reservedPeersChanged := true, nextAuthoredPacketDeadlineChanged := true } } true

theorem buildSession_cases (C : Crypto) (config : Config) {slot : SessionSlot} (hs : slot.pending = true) (rng : Rng)
    (ms : List Mixnode) (hms : ms.length ≤ 65280) :
    ∃ t rng1 rng2, Topology.new rng1 ms (slot.pairFor C rng).pub config.numGatewayMixnodes = .ok (t, rng2) ∧ t.WF ∧
      ((config.sessionConfig t.isMixnode = none ∧ Node.buildSession C config slot rng ms = .ok .disabled) ∨
       ∃ sc, config.sessionConfig t.isMixnode = some sc ∧ Node.buildSession C config slot rng ms = .ok (.full
            { kxPair := slot.pairFor C rng
              topology := t
              authoredPacketQueue := ⟨sc.authoredPacketQueue, []⟩
              meanAuthoredPacketPeriod := sc.meanAuthoredPacketPeriod
              replayFilter := (ReplayFilter.new rng2).1 })) := by
  obtain ⟨t, rng2, ht, hwf, -⟩ := Topology.new_spec (slot.rngAfter C rng) ms (slot.pairFor C rng).pub
    config.numGatewayMixnodes hms
  refine ⟨t, _, rng2, ht, hwf, ?_⟩
  have hb : Node.buildSession C config slot rng ms = (do
      let (topology, rng2) ← Topology.new (slot.rngAfter C rng) ms (slot.pairFor C rng).pub config.numGatewayMixnodes
      match config.sessionConfig topology.isMixnode with
      | none => .ok .disabled
      | some sc =>
        .ok (.full {
          kxPair := slot.pairFor C rng
          topology := topology
          authoredPacketQueue := AuthoredPacketQueue.new sc.authoredPacketQueue
          meanAuthoredPacketPeriod := sc.meanAuthoredPacketPeriod
          replayFilter := (ReplayFilter.new rng2).1 })) := by
    cases slot <;> rfl
  rw [hb, ht, res_bind_ok]
  dsimp only
  cases config.sessionConfig t.isMixnode with
  | none => exact .inl ⟨rfl, rfl⟩
  | some sc => exact .inr ⟨sc, rfl, rfl⟩

theorem maybeSetMixnodes_cases (C : Crypto) (m : Node) (rng : Rng) (rel : RelSessionIndex)
    (answer : Except MixnodesErr (List Mixnode))
    (hidx : m.sessions.prev.pending = true → 1 ≤ m.sessionStatus.currentIndex) :
    ∃ m' b, m.maybeSetMixnodes C rng rel answer = .ok (m', b) ∧ SetCase C m rng rel answer m' b := by
  obtain ⟨slot, hslot⟩ : ∃ s, m.sessions.get rel = s := ⟨_, rfl⟩
  have key : slot.pending = true → m.maybeSetMixnodes C rng rel answer = (do
      let _ ← rel.add m.sessionStatus.currentIndex
      match answer with
      | .error .permanent => .ok ({ m with sessions := m.sessions.set rel .disabled }, true)
      | .error .transient => .ok (m, true)
      | .ok mixnodes => do
        let mixnodes := mixnodes.take (MAX_MIXNODE_INDEX + 1)
        match ← Node.buildSession C m.config slot rng mixnodes with
        | .full s => .ok ({ m with
            sessions := m.sessions.set rel (.full s)
            events := { m.events with
              reservedPeersChanged := true, nextAuthoredPacketDeadlineChanged := true } }, true)
        | slot => .ok ({ m with sessions := m.sessions.set rel slot }, true)) := by
    intro hp
    unfold Node.maybeSetMixnodes
    rw [hslot]
    cases slot <;> first | rfl | cases hp
  cases hp : slot.pending with
  | false =>
    refine ⟨m, false, ?_, .skip answer (by rw [hslot]; exact hp)⟩
    unfold Node.maybeSetMixnodes
    rw [hslot]
    cases slot <;> first | rfl | cases hp
  | true =>
    rw [key hp]
    obtain ⟨ix, hix⟩ : ∃ ix, rel.add m.sessionStatus.currentIndex = .ok ix := by
      cases rel with
      | current => exact ⟨_, rfl⟩
      | prev =>
        have := hidx (by rw [show m.sessions.prev = slot from hslot]; exact hp)
        exact ⟨_, if_pos this⟩
    rw [hix, res_bind_ok]
    have hp' : (m.sessions.get rel).pending = true := by rw [hslot]; exact hp
    cases answer with
    | error e =>
      cases e with
      | transient => exact ⟨_, _, rfl, .transient hp'⟩
      | permanent => exact ⟨_, _, rfl, .permanent hp'⟩
    | ok ms =>
      dsimp only
      obtain ⟨t, rng1, rng2, ht, hwf, ⟨hsc, hb⟩ | ⟨sc, hsc, hb⟩⟩ :=
        buildSession_cases C m.config hp rng (ms.take (MAX_MIXNODE_INDEX + 1))
          (by rw [List.length_take]; exact Nat.min_le_left ..)
      · rw [hb, res_bind_ok]
        exact ⟨_, _, rfl, .notWanted ms t rng1 rng2 hp' (by rw [hslot]; exact ht) hwf hsc⟩
      · rw [hb, res_bind_ok]
        refine ⟨_, _, rfl, ?_⟩
        have := SetCase.set (C := C) (m := m) (rng := rng) (rel := rel) ms t rng1 rng2 sc hp' (by rw [hslot]; exact ht) hwf hsc
        rw [hslot] at this
        exact this

/-! ### The invariant -/

/-- What holds of every session of a node. -/
structure SessInv (C : Crypto) (config : Config) (s : Session) : Prop where
  topology : s.topology.WF
  pair : s.kxPair.pub = C.deriveKxPublic s.kxPair.secret
  isLocal : s.topology.localKxPublic = s.kxPair.pub
  queue : s.authoredPacketQueue.queue.length ≤ s.authoredPacketQueue.config.capacity
  made : ∃ rng ms rng', Topology.new rng ms s.kxPair.pub config.numGatewayMixnodes = .ok (s.topology, rng')
  config : ∃ sc, config.sessionConfig s.topology.isMixnode = some sc ∧
    s.authoredPacketQueue.config = sc.authoredPacketQueue ∧
    s.meanAuthoredPacketPeriod = sc.meanAuthoredPacketPeriod

/-- What holds of every reachable state of a node. -/
structure Node.Inv (C : Crypto) (m : Node) : Prop where
  assembler : FAInv m.fragmentAssembler
  maxMessages : m.fragmentAssembler.maxIncompleteMessages = m.config.maxIncompleteMessages
  maxFragments : m.fragmentAssembler.maxIncompleteFragments = m.config.maxIncompleteFragments
  maxPerMessage : m.fragmentAssembler.maxFragmentsPerMessage = m.config.maxFragmentsPerMessage
  forward : m.forwardPacketQueue.queue.length ≤ m.forwardPacketQueue.capacity
  forwardCapacity : m.forwardPacketQueue.capacity = m.config.forwardPacketQueueCapacity
  keystore : m.surbKeystore.Inv
  keystoreCapacity : m.surbKeystore.capacity = m.config.surbKeystoreCapacity
  sessions : ∀ rel s, m.sessions.get rel = .full s → SessInv C m.config s
  pairs : ∀ rel k, m.sessions.get rel = .kxPair k → k.pub = C.deriveKxPublic k.secret
  nextPair : ∀ k, m.nextKxPair = some k → k.pub = C.deriveKxPublic k.secret
  prev : m.sessionStatus.currentIndex = 0 ∨ m.sessionStatus.phase.needPrev = false → m.sessions.prev = .disabled

namespace Node
variable {C : Crypto} {m : Node}

theorem Inv.index_of_full (h : m.Inv C) : ∀ s, m.sessions.prev = .full s → 1 ≤ m.sessionStatus.currentIndex := by
  intro s hs
  by_cases h0 : m.sessionStatus.currentIndex = 0
  · have := h.prev (.inl h0); rw [hs] at this; cases this
  · omega

theorem Inv.index_of_pending (h : m.Inv C) : m.sessions.prev.pending = true → 1 ≤ m.sessionStatus.currentIndex := by
  intro hs
  by_cases h0 : m.sessionStatus.currentIndex = 0
  · have := h.prev (.inl h0); rw [this] at hs; cases hs
  · omega

theorem inv_new {config : Config} {m : Node} (h : Node.new C config = .ok m) : m.Inv C ∧ m.config = config := by
  unfold Node.new at h
  rw [res_bind_eq_ok] at h
  obtain ⟨k, hk, h⟩ := h
  simp only [Except.ok.injEq] at h
  subst h
  unfold SurbKeystore.new at hk
  rw [res_bind_eq_ok] at hk
  obtain ⟨_, h0, hk⟩ := hk
  simp only [Except.ok.injEq] at hk
  subst hk
  have hpos : 0 < config.surbKeystoreCapacity := by
    by_cases hz : config.surbKeystoreCapacity ≠ 0
    · omega
    · simp only [hz, decide_false, assertP] at h0; cases h0
  refine ⟨?_, rfl⟩
  constructor
  · exact faInv_new _ _ _
  · rfl
  · rfl
  · rfl
  · exact Nat.zero_le _
  · rfl
  · exact ⟨hpos, Nat.zero_le _, List.nodup_nil⟩
  · rfl
  · intro rel s hs
    cases hc : config.session0KxSecret <;> cases rel <;> simp [hc, Sessions.get] at hs
  · intro rel s hs
    cases hc : config.session0KxSecret <;> cases rel <;> simp [hc, Sessions.get] at hs
    subst hs; rfl
  · intro k hk; cases hk
  · intro _; rfl

/-- Changing one session in an admissible way keeps the invariant. -/
theorem Inv.set (h : m.Inv C) {rel : RelSessionIndex} {s0 s : Session} (hs0 : m.sessions.get rel = .full s0)
    (hs : SessInv C m.config s) : ({ m with sessions := m.sessions.set rel (.full s) } : Node).Inv C := by
  refine { h with sessions := ?_, pairs := ?_, prev := ?_ }
  · intro rel' s' hs'
    by_cases hr : rel' = rel
    · subst hr
      rw [show (m.sessions.set rel' (.full s)).get rel' = _ from get_set_self ..] at hs'
      cases hs'; exact hs
    · rw [show (m.sessions.set rel (.full s)).get rel' = _ from get_set_ne _ hr _] at hs'
      exact h.sessions _ _ hs'
  · intro rel' s' hs'
    by_cases hr : rel' = rel
    · subst hr
      rw [show (m.sessions.set rel' (.full s)).get rel' = _ from get_set_self ..] at hs'
      cases hs'
    · rw [show (m.sessions.set rel (.full s)).get rel' = _ from get_set_ne _ hr _] at hs'
      exact h.pairs _ _ hs'
  · intro hp
    have hd := h.prev hp
    cases rel with
    | current => exact hd
    | prev => rw [show m.sessions.get .prev = m.sessions.prev from rfl, hd] at hs0; cases hs0

theorem Inv.events (h : m.Inv C) (e : Events) : ({ m with events := e } : Node).Inv C := { h with }

/-- Disabling a slot keeps the invariant. -/
theorem Inv.disable (h : m.Inv C) (rel : RelSessionIndex) :
    ({ m with sessions := m.sessions.set rel .disabled } : Node).Inv C := by
  refine { h with sessions := ?_, pairs := ?_, prev := ?_ }
  · intro rel' s' hs'
    by_cases hr : rel' = rel
    · subst hr
      rw [show (m.sessions.set rel' .disabled).get rel' = _ from get_set_self ..] at hs'
      cases hs'
    · rw [show (m.sessions.set rel .disabled).get rel' = _ from get_set_ne _ hr _] at hs'
      exact h.sessions _ _ hs'
  · intro rel' s' hs'
    by_cases hr : rel' = rel
    · subst hr
      rw [show (m.sessions.set rel' .disabled).get rel' = _ from get_set_self ..] at hs'
      cases hs'
    · rw [show (m.sessions.set rel .disabled).get rel' = _ from get_set_ne _ hr _] at hs'
      exact h.pairs _ _ hs'
  · intro hp
    cases rel with
    | current => exact h.prev hp
    | prev => rfl

theorem pairFor_pub (h : m.Inv C) (rel : RelSessionIndex) (rng : Rng) :
    ((m.sessions.get rel).pairFor C rng).pub = C.deriveKxPublic ((m.sessions.get rel).pairFor C rng).secret := by
  cases hg : m.sessions.get rel with
  | kxPair k => exact h.pairs rel k hg
  | empty => rfl
  | disabled => rfl
  | full s => rfl

theorem inv_set (h : m.Inv C) {rng rel answer m' b} (hc : SetCase C m rng rel answer m' b) : m'.Inv C := by
  cases hc with
  | skip => exact h
  | permanent => exact h.disable rel
  | transient => exact h
  | notWanted => exact h.disable rel
  | set ms t rng1 rng2 sc hp ht hwf hsc =>
    have hpub := pairFor_pub h rel rng
    have hnew : SessInv C m.config
        { kxPair := (m.sessions.get rel).pairFor C rng
          topology := t
          authoredPacketQueue := ⟨sc.authoredPacketQueue, []⟩
          meanAuthoredPacketPeriod := sc.meanAuthoredPacketPeriod
          replayFilter := (ReplayFilter.new rng2).1 } := by
      refine ⟨hwf, hpub, ?_, Nat.zero_le _, ⟨rng1, _, _, ht⟩, sc, hsc, rfl, rfl⟩
      obtain ⟨t', r', e, -, -, e2, -⟩ := Topology.new_spec rng1 (ms.take 65280)
        ((m.sessions.get rel).pairFor C rng).pub m.config.numGatewayMixnodes
        (by rw [List.length_take]; exact Nat.min_le_left ..)
      rw [ht] at e; cases e
      exact e2
    generalize (Session.mk _ _ _ _ _) = s at *
    suffices h2 : ({ m with sessions := m.sessions.set rel (.full s) } : Node).Inv C from h2.events _
    refine { h with sessions := ?_, pairs := ?_, prev := ?_ }
    · intro rel' s' hs'
      by_cases hr : rel' = rel
      · subst hr
        rw [show (m.sessions.set rel' (.full s)).get rel' = _ from get_set_self ..] at hs'
        cases hs'; exact hnew
      · rw [show (m.sessions.set rel (.full s)).get rel' = _ from get_set_ne _ hr _] at hs'
        exact h.sessions _ _ hs'
    · intro rel' s' hs'
      by_cases hr : rel' = rel
      · subst hr
        rw [show (m.sessions.set rel' (.full s)).get rel' = _ from get_set_self ..] at hs'
        cases hs'
      · rw [show (m.sessions.set rel (.full s)).get rel' = _ from get_set_ne _ hr _] at hs'
        exact h.pairs _ _ hs'
    · intro hpv
      have hd := h.prev hpv
      cases rel with
      | current => exact hd
      | prev => rw [show m.sessions.get .prev = m.sessions.prev from rfl, hd] at hp; cases hp

/-- The slot made from the key pair generated for the next session. -/
def nextSlot : Option KxPair → SessionSlot
  | none => .empty
  | some k => .kxPair k

theorem shift_cases (ss : Sessions) (nx : Option KxPair) (old new : Nat) :
    (new = old + 1 ∧ shiftSessions ss nx old new = ⟨nextSlot nx, ss.current⟩) ∨
    (new = old + 2 ∧ shiftSessions ss nx old new = ⟨.empty, nextSlot nx⟩) ∨
    (new ≠ old + 1 ∧ new ≠ old + 2 ∧
      (shiftSessions ss nx old new = ⟨.empty, .empty⟩)) := by
  have hs : shiftSessions ss nx old new = (match new - old with
      | 1 => ⟨nextSlot nx, ss.current⟩
      | 2 => ⟨.empty, nextSlot nx⟩
      | _ => if !ss.isEmpty || !(nextSlot nx).isEmpty then ⟨.empty, .empty⟩ else ss) := by
    cases nx <;> rfl
  obtain ⟨d, hd⟩ : ∃ d, new - old = d := ⟨_, rfl⟩
  rw [hs, hd]
  match d, hd with
  | 1, hd => exact .inl ⟨by omega, rfl⟩
  | 2, hd => exact .inr (.inl ⟨by omega, rfl⟩)
  | 0, hd =>
    refine .inr (.inr ⟨by omega, by omega, ?_⟩)
    show (if _ then _ else _) = _
    split
    · rfl
    · rename_i h
      obtain ⟨c, p⟩ := ss
      cases c <;> cases p <;> first | rfl | (exact absurd rfl h)
  | d + 3, hd =>
    refine .inr (.inr ⟨by omega, by omega, ?_⟩)
    show (if _ then _ else _) = _
    split
    · rfl
    · rename_i h
      obtain ⟨c, p⟩ := ss
      cases c <;> cases p <;> first | rfl | (exact absurd rfl h)

theorem shift_full {ss : Sessions} {nx : Option KxPair} {old new : Nat} {rel : RelSessionIndex} {s : Session}
    (h : (shiftSessions ss nx old new).get rel = .full s) :
    new = old + 1 ∧ rel = .prev ∧ ss.current = .full s := by
  rcases shift_cases ss nx old new with ⟨hn, e⟩ | ⟨hn, e⟩ | ⟨-, -, e⟩ <;> rw [e] at h
  · cases rel with
    | current => cases nx <;> cases h
    | prev => exact ⟨hn, rfl, h⟩
  · cases rel with
    | current => cases h
    | prev => cases nx <;> cases h
  · cases rel <;> cases h

theorem shift_pair {ss : Sessions} {nx : Option KxPair} {old new : Nat} {rel : RelSessionIndex} {k : KxPair}
    (h : (shiftSessions ss nx old new).get rel = .kxPair k) :
    (new = old + 1 ∧ rel = .prev ∧ ss.current = .kxPair k) ∨
    (nx = some k ∧ (new = old + 1 ∧ rel = .current ∨ new = old + 2 ∧ rel = .prev)) := by
  rcases shift_cases ss nx old new with ⟨hn, e⟩ | ⟨hn, e⟩ | ⟨-, -, e⟩ <;> rw [e] at h
  · cases rel with
    | current =>
      cases nx with
      | none => cases h
      | some k' => cases h; exact .inr ⟨rfl, .inl ⟨hn, rfl⟩⟩
    | prev => exact .inl ⟨hn, rfl, h⟩
  · cases rel with
    | current => cases h
    | prev =>
      cases nx with
      | none => cases h
      | some k' => cases h; exact .inr ⟨rfl, .inr ⟨hn, rfl⟩⟩
  · cases rel <;> cases h

theorem inv_status (h : m.Inv C) (st : SessionStatus) : (m.setSessionStatus st).Inv C := by
  unfold setSessionStatus
  split
  · exact h
  dsimp only
  obtain ⟨m1, hm1, hI, hst⟩ : ∃ m1 : Node, m1 = (if m.sessionStatus.currentIndex ≠ st.currentIndex then
      { m with sessions := shiftSessions m.sessions m.nextKxPair m.sessionStatus.currentIndex st.currentIndex
               nextKxPair := none } else m) ∧
      (∀ rel s, m1.sessions.get rel = .full s → SessInv C m1.config s) ∧
      ((∀ rel k, m1.sessions.get rel = .kxPair k → k.pub = C.deriveKxPublic k.secret) ∧
       (∀ k, m1.nextKxPair = some k → k.pub = C.deriveKxPublic k.secret) ∧
       FAInv m1.fragmentAssembler ∧ m1.fragmentAssembler.maxIncompleteMessages = m1.config.maxIncompleteMessages ∧
       m1.fragmentAssembler.maxIncompleteFragments = m1.config.maxIncompleteFragments ∧
       m1.fragmentAssembler.maxFragmentsPerMessage = m1.config.maxFragmentsPerMessage ∧
       m1.forwardPacketQueue.queue.length ≤ m1.forwardPacketQueue.capacity ∧
       m1.forwardPacketQueue.capacity = m1.config.forwardPacketQueueCapacity ∧
       m1.surbKeystore.Inv ∧ m1.surbKeystore.capacity = m1.config.surbKeystoreCapacity) := by
    refine ⟨_, rfl, ?_, ?_⟩
    · intro rel s hs
      split at hs
      · obtain ⟨-, -, hr⟩ := shift_full hs
        rw [if_pos (by assumption)]
        exact h.sessions .current _ hr
      · rw [if_neg (by assumption)]
        exact h.sessions _ _ hs
    · split
      · refine ⟨?_, fun k hk => (by cases hk), h.assembler, h.maxMessages, h.maxFragments, h.maxPerMessage,
          h.forward, h.forwardCapacity, h.keystore, h.keystoreCapacity⟩
        intro rel k hk
        rcases shift_pair hk with ⟨-, -, hr⟩ | ⟨hr, -⟩
        · exact h.pairs .current _ hr
        · exact h.nextPair _ hr
      · exact ⟨h.pairs, h.nextPair, h.assembler, h.maxMessages, h.maxFragments, h.maxPerMessage,
          h.forward, h.forwardCapacity, h.keystore, h.keystoreCapacity⟩
  rw [← hm1]
  obtain ⟨h1, h2, h3, h4, h5, h6, h7, h8, h9, h10⟩ := hst
  by_cases hd : (!st.phase.needPrev || st.currentIndex == 0) = true
  · rw [if_pos hd]
    refine ⟨h3, h4, h5, h6, h7, h8, h9, h10, ?_, ?_, h2, fun _ => rfl⟩
    · intro rel s hs
      cases rel with
      | current => exact hI .current s hs
      | prev => cases hs
    · intro rel s hs
      cases rel with
      | current => exact h1 .current s hs
      | prev => cases hs
  · rw [if_neg hd]
    refine ⟨h3, h4, h5, h6, h7, h8, h9, h10, hI, h1, h2, ?_⟩
    intro hp
    exfalso
    apply hd
    dsimp only at hp
    rcases hp with hp | hp
    · simp [hp]
    · simp [hp]

theorem seen_inv {config : Config} {s : Session} (h : SessInv C config s) (packet : Bytes) :
    SessInv C config (s.seen C packet) := ⟨h.topology, h.pair, h.isLocal, h.queue, h.made, h.config⟩

theorem inv_effect (h : m.Inv C) {now packet rel s out a m' msg} (hs : m.sessions.get rel = .full s)
    (hout : out.length = PACKET_SIZE) (he : Effect C m now packet rel s out a m' msg) : m'.Inv C := by
  have hseen := h.set hs (seen_inv (h.sessions _ _ hs) packet)
  have hfa : ∀ f a o, f.length = 2048 → m.fragmentAssembler.insert f = .ok (a, o) → FAInv a ∧
      a.maxIncompleteMessages = m.config.maxIncompleteMessages ∧
      a.maxIncompleteFragments = m.config.maxIncompleteFragments ∧
      a.maxFragmentsPerMessage = m.config.maxFragmentsPerMessage := by
    intro f a o hf hi
    obtain ⟨hinv, hcase⟩ := insert_inv h.assembler hf hi
    refine ⟨hinv, ?_⟩
    have : a.maxIncompleteMessages = m.fragmentAssembler.maxIncompleteMessages ∧
      a.maxIncompleteFragments = m.fragmentAssembler.maxIncompleteFragments ∧
      a.maxFragmentsPerMessage = m.fragmentAssembler.maxFragmentsPerMessage := by
      cases hcase <;> first | exact ⟨rfl, rfl, rfl⟩ | (unfold evictRaw storeRaw; split <;> exact ⟨rfl, rfl, rfl⟩)
    rw [this.1, this.2.1, this.2.2]
    exact ⟨h.maxMessages, h.maxFragments, h.maxPerMessage⟩
  cases he with
  | cover => exact h
  | forwardNotMixnode => exact h
  | forwardFull => exact h
  | forwardNowhere => exact hseen
  | forward t d peer ev hm hlt hr hev =>
    exact { hseen with forward := (by simp only [List.length_cons]; omega) }
  | requestNotMixnode => exact h
  | request a o index hm hi hcase hindex =>
    obtain ⟨a1, a2, a3, a4⟩ := hfa _ _ _ (by rw [List.length_take, hout]; decide) hi
    exact { hseen with assembler := a1, maxMessages := a2, maxFragments := a3, maxPerMessage := a4 }
  | replyUnknown => exact h
  | replyBad id v payload e hv hd =>
    exact { h with keystore := SurbKeystore.remove_inv h.keystore id }
  | reply id v payload a o hv hd hl hi hcase =>
    obtain ⟨a1, a2, a3, a4⟩ := hfa _ _ _ (by rw [List.length_take, hl]; decide) hi
    exact { h with
      keystore := SurbKeystore.remove_inv h.keystore id
      assembler := a1, maxMessages := a2, maxFragments := a3, maxPerMessage := a4 }

theorem inv_pop (h : m.Inv C) {rng ns m' p} (hc : PopCase C m rng ns m' p) : m'.Inv C := by
  cases hc with
  | idle => exact h
  | queued rel s rng1 rng2 p rest h1 h2 hs hal hq =>
    have hi := h.sessions _ _ hs
    have hi2 : SessInv C m.config
        { s with authoredPacketQueue := { s.authoredPacketQueue with queue := rest } } := by
      refine ⟨hi.topology, hi.pair, hi.isLocal, ?_, hi.made, hi.config⟩
      have := hi.queue
      rw [hq, List.length_cons] at this
      dsimp only
      omega
    exact (h.set hs hi2).events _
  | cover => exact h.events _

theorem withQueue_inv {config : Config} {s : Session} (h : SessInv C config s) {q : AuthoredPacketQueue}
    (hc : q.config = s.authoredPacketQueue.config) (hq : q.queue.length ≤ q.config.capacity) :
    SessInv C config { s with authoredPacketQueue := q } :=
  ⟨h.topology, h.pair, h.isLocal, hq, h.made, by
    obtain ⟨sc, a, b, c⟩ := h.config
    exact ⟨sc, a, by rw [← b]; exact hc, c⟩⟩

theorem inv_post (h : m.Inv C) {rng i d mid data n ns m' d' r} (hc : PostCase C m rng i d mid data n ns m' d' r) :
    m'.Inv C := by
  cases hc with
  | tooMany => exact h
  | noSession => exact h
  | noSpace => exact h
  | noDestination => exact h
  | failed bps rel s b rng1 acc e h1 h2 h3 h4 h5 hf =>
    obtain ⟨-, -, hs⟩ := postSession_ok h3
    obtain ⟨hcf, ⟨_, _, _, _, _, hks⟩, done, rest, bp, infos, g1, g2, g3, g4, g5⟩ := hf
    have hq : acc.queue.queue.length ≤ acc.queue.config.capacity := by
      by_cases hi : infos = []
      · subst hi
        simp only [List.map_nil, List.append_nil] at g3
        rw [hcf, g3]
        exact (h.sessions _ _ hs).queue
      · exact g4 hi
    obtain ⟨k1, k2⟩ := hks.inv h.keystore
    exact { h.set hs (withQueue_inv (h.sessions _ _ hs) hcf hq) with
      keystore := k1, keystoreCapacity := by rw [k2]; exact h.keystoreCapacity }
  | posted bps rel s b rng1 acc infos met qd h1 h2 h3 h4 h5 hd =>
    obtain ⟨-, -, hs⟩ := postSession_ok h3
    have hcf : acc.queue.config = s.authoredPacketQueue.config := by rw [hd.queue]
    have hq : acc.queue.queue.length ≤ acc.queue.config.capacity := by
      by_cases hi : infos = []
      · subst hi
        rw [hd.queue]
        simpa using (h.sessions _ _ hs).queue
      · exact hd.fits hi
    obtain ⟨k1, k2⟩ := hd.keystore.inv h.keystore
    exact { h.set hs (withQueue_inv (h.sessions _ _ hs) hcf hq) with
      keystore := k1, keystoreCapacity := by rw [k2]; exact h.keystoreCapacity }

theorem inv_reply (h : m.Inv C) {surbs i mid data m' surbs' r} (hc : ReplyCase C m surbs i mid data m' surbs' r) :
    m'.Inv C := by
  cases hc with
  | tooMany => exact h
  | noSession => exact h
  | noSpace => exact h
  | failed bps rel s rest used ps e done bp left bad h1 h2 h3 h4 h5 h6 h7 h8 hfit =>
    obtain ⟨-, -, hs⟩ := postSession_ok h3
    refine h.set hs (withQueue_inv (h.sessions _ _ hs) rfl ?_)
    have := (h.sessions _ _ hs).queue
    by_cases hp : ps = []
    · subst hp; simpa using this
    · have := hfit hp; simpa using this
  | posted bps rel s rest used ps h1 h2 h3 h4 h5 h6 hfit =>
    obtain ⟨-, -, hs⟩ := postSession_ok h3
    refine h.set hs (withQueue_inv (h.sessions _ _ hs) rfl ?_)
    have := (h.sessions _ _ hs).queue
    by_cases hp : ps = []
    · subst hp; simpa using this
    · have := hfit hp; simpa using this

end Node
end Mixnet
