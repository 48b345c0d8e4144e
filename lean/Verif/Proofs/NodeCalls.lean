import Verif.Proofs.NodePost
import Verif.Proofs.NodeHandle
/-!
# What the other calls do, by cases
-/
namespace Mixnet

theorem sessions_set_self {ss : Sessions} {rel : RelSessionIndex} {slot : SessionSlot} (h : ss.get rel = slot) :
    ss.set rel slot = ss := by
  obtain ⟨c, p⟩ := ss
  cases rel <;> simp only [Sessions.get] at h <;> subst h <;> rfl

theorem get_set_self (ss : Sessions) (rel : RelSessionIndex) (slot : SessionSlot) :
    (ss.set rel slot).get rel = slot := by cases rel <;> rfl

theorem get_set_ne (ss : Sessions) {rel rel' : RelSessionIndex} (h : rel' ≠ rel) (slot : SessionSlot) :
    (ss.set rel slot).get rel' = ss.get rel' := by
  cases rel <;> cases rel' <;> first | exact absurd rfl h | rfl

/-! ### `post_session` -/

theorem postSession_ok {ss : Sessions} {st : SessionStatus} {i : Nat} {rel : RelSessionIndex} {s : Session}
    (h : postSession ss st i = .ok (rel, s)) :
    RelSessionIndex.fromSessionIndex i st.currentIndex = some rel ∧
      st.phase.allowRequestsAndReplies rel = true ∧ ss.get rel = .full s := by
  unfold postSession at h
  split at h
  · split at h <;> cases h
  · rename_i rel' hr
    split at h
    · split at h <;> cases h
    · rename_i ha
      split at h
      · cases h
      · cases h
      · cases h
      · rename_i s' hs
        cases h
        exact ⟨hr, by simpa using ha, hs⟩

/-! ### `pop_next_authored_packet` -/

/-- What `pop_next_authored_packet` does. -/
inductive PopCase (C : Crypto) (m : Node) (rng : Rng) (ns : NetworkStatus) : Node → Option AddressedPacket → Prop
  | idle : (∀ rel s, m.sessions.get rel ≠ .full s) → PopCase C m rng ns m none
  | queued rel s rng1 rng2 p rest : m.pickSession rng = .ok (some (rel, s), rng1) →
      rng1.genBool m.config.loopCoverProportion = .ok (false, rng2) →
      m.sessions.get rel = .full s → m.sessionStatus.phase.allowRequestsAndReplies rel = true →
      s.authoredPacketQueue.queue = p :: rest →
      PopCase C m rng ns
        { m with
          sessions := m.sessions.set rel
            (.full { s with authoredPacketQueue := { s.authoredPacketQueue with queue := rest } })
          events := { m.events with
            nextAuthoredPacketDeadlineChanged := true
            spaceInAuthoredPacketQueue := m.events.spaceInAuthoredPacketQueue ||
              (s.authoredPacketQueue.config.multipleMessages || rest.isEmpty) } }
        (some p)
  | cover rel s rng1 isLoop rng2 p : m.pickSession rng = .ok (some (rel, s), rng1) →
      rng1.genBool m.config.loopCoverProportion = .ok (isLoop, rng2) →
      m.sessions.get rel = .full s →
      (isLoop = true ∨ m.sessionStatus.phase.allowRequestsAndReplies rel = false ∨ s.authoredPacketQueue.queue = []) →
      m.coverInstead C rng2 ns s (if isLoop then .loop else .drop) = .ok p →
      PopCase C m rng ns { m with events := { m.events with nextAuthoredPacketDeadlineChanged := true } } p

theorem enumerate_two {ss : Sessions} {a b : RelSessionIndex × Session} (h : ss.enumerate = [a, b]) :
    ∃ s t, a = (.current, s) ∧ b = (.prev, t) ∧ ss = ⟨.full s, .full t⟩ := by
  obtain ⟨c, p⟩ := ss
  cases c <;> cases p <;> simp_all [Sessions.enumerate, SessionSlot.asOption]

theorem enumerate_one {ss : Sessions} {a : RelSessionIndex × Session} (h : ss.enumerate = [a]) :
    ss.get a.1 = .full a.2 :=
  mem_enumerate.1 (by rw [h]; exact List.mem_singleton.2 rfl)

/-- The session picked is one of the sessions; none is picked only if there is none. -/
theorem pickSession_cases {m : Node} {rng rng' : Rng} {o : Option (RelSessionIndex × Session)}
    (h : m.pickSession rng = .ok (o, rng')) :
    (o = none ∧ m.sessions.enumerate = []) ∨ ∃ rel s, o = some (rel, s) ∧ m.sessions.get rel = .full s := by
  unfold Node.pickSession at h
  split at h
  · rename_i a b hab
    obtain ⟨s, t, rfl, rfl, hss⟩ := enumerate_two hab
    right
    dsimp only at h
    split at h
    · cases h
    · rw [res_bind_eq_ok] at h
      obtain ⟨⟨first, r⟩, -, h⟩ := h
      simp only [Except.ok.injEq, Prod.mk.injEq] at h
      obtain ⟨rfl, -⟩ := h
      cases first
      · exact ⟨.prev, t, rfl, by rw [hss]; rfl⟩
      · exact ⟨.current, s, rfl, by rw [hss]; rfl⟩
  · rename_i a ha
    simp only [Except.ok.injEq, Prod.mk.injEq] at h
    obtain ⟨rfl, -⟩ := h
    exact .inr ⟨a.1, a.2, rfl, enumerate_one ha⟩
  · rename_i h1 h2
    simp only [Except.ok.injEq, Prod.mk.injEq] at h
    obtain ⟨rfl, -⟩ := h
    left
    refine ⟨rfl, ?_⟩
    generalize hE : m.sessions.enumerate = E at *
    match E, hE with
    | [], _ => rfl
    | [a], _ => exact absurd rfl (h2 a)
    | [a, b], _ => exact absurd rfl (h1 a b)
    | a :: b :: c :: l, hE =>
      exfalso
      generalize m.sessions = ss at hE
      obtain ⟨c, p⟩ := ss
      cases c <;> cases p <;> simp [Sessions.enumerate, SessionSlot.asOption] at hE

theorem popNextAuthored_cases {C : Crypto} {m m' : Node} {rng : Rng} {ns : NetworkStatus}
    {p : Option AddressedPacket} (h : m.popNextAuthoredPacket C rng ns = .ok (m', p)) :
    PopCase C m rng ns m' p := by
  unfold Node.popNextAuthoredPacket at h
  rw [res_bind_eq_ok] at h
  obtain ⟨⟨o, rng1⟩, h1, h⟩ := h
  rcases pickSession_cases h1 with ⟨rfl, he⟩ | ⟨rel, s, rfl, hs⟩
  · simp only [Except.ok.injEq, Prod.mk.injEq] at h
    obtain ⟨rfl, rfl⟩ := h
    refine .idle fun rel s hrs => ?_
    have := mem_enumerate.2 hrs
    rw [he] at this; cases this
  · dsimp only at h
    rw [res_bind_eq_ok] at h
    obtain ⟨⟨isLoop, rng2⟩, h2, h⟩ := h
    dsimp only at h
    cases isLoop with
    | true =>
      simp only [if_true, reduceCtorEq, decide_false, Bool.false_and, Bool.false_eq_true, if_false] at h
      rw [res_bind_eq_ok] at h
      obtain ⟨q, h3, h⟩ := h
      simp only [Except.ok.injEq, Prod.mk.injEq] at h
      obtain ⟨rfl, rfl⟩ := h
      exact .cover rel s rng1 true rng2 q h1 h2 hs (.inl rfl) h3
    | false =>
      cases hal : m.sessionStatus.phase.allowRequestsAndReplies rel with
      | false =>
        simp only [Bool.false_eq_true, if_false, hal, Bool.and_false] at h
        rw [res_bind_eq_ok] at h
        obtain ⟨q, h3, h⟩ := h
        simp only [Except.ok.injEq, Prod.mk.injEq] at h
        obtain ⟨rfl, rfl⟩ := h
        exact .cover rel s rng1 false rng2 q h1 h2 hs (.inr (.inl hal)) h3
      | true =>
        simp only [Bool.false_eq_true, if_false, hal, decide_true, Bool.and_self, if_true] at h
        rcases s.authoredPacketQueue.pop_spec with ⟨hq, hpop⟩ | ⟨p0, rest, hq, hpop⟩
        · rw [hpop] at h
          simp only [Bool.false_eq_true, if_false] at h
          rw [res_bind_eq_ok] at h
          obtain ⟨q, h3, h⟩ := h
          simp only [Except.ok.injEq, Prod.mk.injEq] at h
          obtain ⟨rfl, rfl⟩ := h
          have hself : m.sessions.set rel (.full { s with authoredPacketQueue := s.authoredPacketQueue }) =
            m.sessions := sessions_set_self hs
          have := PopCase.cover (C := C) (m := m) (ns := ns) rel s rng1 false rng2 q h1 h2 hs (.inr (.inr hq)) h3
          rw [hself]; exact this
        · rw [hpop] at h
          dsimp only at h
          simp only [Except.ok.injEq, Prod.mk.injEq] at h
          obtain ⟨rfl, rfl⟩ := h
          have := PopCase.queued (C := C) (m := m) (ns := ns) rel s rng1 rng2 p0 rest h1 h2 hs hal hq
          cases hb : (s.authoredPacketQueue.config.multipleMessages || rest.isEmpty)
          · rw [hb, Bool.or_false] at this
            simpa using this
          · rw [hb, Bool.or_true] at this
            simpa using this

/-! ### `post_request` -/

/-- What `post_request` does. -/
inductive PostCase (C : Crypto) (m : Node) (rng : Rng) (i : SessionIndex) (d : Option MixnodeIndex)
    (mid : MessageId) (data : Scattered Byte) (n : Nat) (ns : NetworkStatus) :
    Node → Option MixnodeIndex → Except PostErr RequestMetrics → Prop
  | tooMany : (fragmentBlueprints mid data n = .ok none ∨
        ∃ bps, fragmentBlueprints mid data n = .ok (some bps) ∧ m.config.maxFragmentsPerMessage < bps.length) →
      PostCase C m rng i d mid data n ns m d (.error .tooManyFragments)
  | noSession bps e : fragmentBlueprints mid data n = .ok (some bps) →
      bps.length ≤ m.config.maxFragmentsPerMessage → postSession m.sessions m.sessionStatus i = .error e →
      PostCase C m rng i d mid data n ns m d (.error e)
  | noSpace bps rel s e : fragmentBlueprints mid data n = .ok (some bps) →
      bps.length ≤ m.config.maxFragmentsPerMessage → postSession m.sessions m.sessionStatus i = .ok (rel, s) →
      s.authoredPacketQueue.checkSpace bps.length = .error e →
      PostCase C m rng i d mid data n ns m d (.error e.toPostErr)
  | noDestination bps rel s e : fragmentBlueprints mid data n = .ok (some bps) →
      bps.length ≤ m.config.maxFragmentsPerMessage → postSession m.sessions m.sessionStatus i = .ok (rel, s) →
      s.authoredPacketQueue.checkSpace bps.length = .ok () →
      RequestBuilder.new rng s.topology ns d = .ok (.error e) →
      PostCase C m rng i d mid data n ns m d (.error (.topology e))
  | failed bps rel s b rng1 (acc : Node.PostAcc C) e : fragmentBlueprints mid data n = .ok (some bps) →
      bps.length ≤ m.config.maxFragmentsPerMessage → postSession m.sessions m.sessionStatus i = .ok (rel, s) →
      s.authoredPacketQueue.checkSpace bps.length = .ok () →
      RequestBuilder.new rng s.topology ns d = .ok (.ok (b, rng1)) →
      PostFailed C b mid m.config.numHops bps
        ⟨⟨m.surbKeystore, rng1, 0, C.delayZero⟩, s.authoredPacketQueue, 0, C.delayZero⟩ acc e →
      PostCase C m rng i d mid data n ns
        { m with
          surbKeystore := acc.surbs.keystore
          sessions := m.sessions.set rel (.full { s with authoredPacketQueue := acc.queue }) }
        d (.error (.topology e))
  | posted bps rel s b rng1 (acc : Node.PostAcc C) infos met queueDelay :
      fragmentBlueprints mid data n = .ok (some bps) →
      bps.length ≤ m.config.maxFragmentsPerMessage → postSession m.sessions m.sessionStatus i = .ok (rel, s) →
      s.authoredPacketQueue.checkSpace bps.length = .ok () →
      RequestBuilder.new rng s.topology ns d = .ok (.ok (b, rng1)) →
      PostDone C b mid m.config.numHops bps
        ⟨⟨m.surbKeystore, rng1, 0, C.delayZero⟩, s.authoredPacketQueue, 0, C.delayZero⟩ acc infos →
      estimateAuthoredPacketQueueDelay C m.config { s with authoredPacketQueue := acc.queue } = .ok queueDelay →
      met = ⟨acc.requestHops + acc.surbs.replyHops, m.config.perHopNetDelay,
        C.delayToDuration (C.delayAdd acc.requestDelay acc.surbs.replyDelay) m.config.meanForwardingDelay,
        queueDelay⟩ →
      PostCase C m rng i d mid data n ns
        { m with
          surbKeystore := acc.surbs.keystore
          sessions := m.sessions.set rel (.full { s with authoredPacketQueue := acc.queue }) }
        (some b.destinationIndex) (.ok met)

theorem postRequest_cases {C : Crypto} {m m' : Node} {rng : Rng} {i : SessionIndex} {d d' : Option MixnodeIndex}
    {mid : MessageId} {data : Scattered Byte} {n : Nat} {ns : NetworkStatus} {r : Except PostErr RequestMetrics}
    (h : m.postRequest C rng i d mid data n ns = .ok (m', d', r)) :
    PostCase C m rng i d mid data n ns m' d' r := by
  unfold Node.postRequest at h
  rw [res_bind_eq_ok] at h
  obtain ⟨o, h1, h⟩ := h
  cases o with
  | none =>
    simp only [Except.ok.injEq, Prod.mk.injEq] at h
    obtain ⟨rfl, rfl, rfl⟩ := h
    exact .tooMany (.inl h1)
  | some bps =>
    dsimp only at h
    split at h
    · rename_i hb
      simp only [Except.ok.injEq, Prod.mk.injEq] at h
      obtain ⟨rfl, rfl, rfl⟩ := h
      exact .tooMany (.inr ⟨bps, h1, by omega⟩)
    · rename_i hb
      have hb : bps.length ≤ m.config.maxFragmentsPerMessage := by omega
      obtain ⟨ps, hps⟩ : ∃ ps, postSession m.sessions m.sessionStatus i = ps := ⟨_, rfl⟩
      rw [hps] at h
      cases ps with
      | error e =>
        simp only [Except.ok.injEq, Prod.mk.injEq] at h
        obtain ⟨rfl, rfl, rfl⟩ := h
        exact .noSession bps e h1 hb hps
      | ok q =>
        obtain ⟨rel, s⟩ := q
        dsimp only at h
        obtain ⟨cs, hcs⟩ : ∃ cs, s.authoredPacketQueue.checkSpace bps.length = cs := ⟨_, rfl⟩
        rw [hcs] at h
        cases cs with
        | error e =>
          simp only [Except.ok.injEq, Prod.mk.injEq] at h
          obtain ⟨rfl, rfl, rfl⟩ := h
          exact .noSpace bps rel s e h1 hb hps hcs
        | ok u =>
          cases u
          dsimp only at h
          rw [res_bind_eq_ok] at h
          obtain ⟨rb, h2, h⟩ := h
          cases rb with
          | error e =>
            simp only [Except.ok.injEq, Prod.mk.injEq] at h
            obtain ⟨rfl, rfl, rfl⟩ := h
            exact .noDestination bps rel s e h1 hb hps hcs h2
          | ok q =>
            obtain ⟨b, rng1⟩ := q
            dsimp only at h
            rw [res_bind_eq_ok] at h
            obtain ⟨⟨acc, res⟩, h3, h⟩ := h
            obtain ⟨hok, herr⟩ := postLoop_ok h3
            dsimp only at h
            cases res with
            | error e =>
              simp only [Except.ok.injEq, Prod.mk.injEq] at h
              obtain ⟨rfl, rfl, rfl⟩ := h
              exact .failed bps rel s b rng1 acc e h1 hb hps hcs h2 (herr e rfl)
            | ok u =>
              cases u
              dsimp only at h
              rw [res_bind_eq_ok] at h
              obtain ⟨qd, h4, h⟩ := h
              simp only [Except.ok.injEq, Prod.mk.injEq] at h
              obtain ⟨rfl, rfl, rfl⟩ := h
              obtain ⟨infos, hd⟩ := hok rfl
              exact .posted bps rel s b rng1 acc infos _ qd h1 hb hps hcs h2 hd h4 rfl

/-! ### `post_reply` -/

/-- A reply packet made from a blueprint and a SURB. -/
def ReplyMade (C : Crypto) (t : Topology) (bp : FragmentBlueprint) (surb : Surb) (p : AddressedPacket) : Prop :=
  ∃ fragment first, bp.writeExceptSurbs (payloadData zeroPacket) = .ok fragment ∧
    completeReplyPacket C (splice zeroPacket HEADER_SIZE fragment) surb = .ok (p.packet, some first) ∧
    t.mixnodeIndexToPeerId first = .ok p.peerId

/-- Why a reply packet cannot be made. -/
inductive ReplyBad (C : Crypto) (t : Topology) (bp : FragmentBlueprint) (surb : Surb) : PostErr → Prop
  | surb fragment out : bp.writeExceptSurbs (payloadData zeroPacket) = .ok fragment →
      completeReplyPacket C (splice zeroPacket HEADER_SIZE fragment) surb = .ok (out, none) →
      ReplyBad C t bp surb .badSurb
  | topology fragment out first e : bp.writeExceptSurbs (payloadData zeroPacket) = .ok fragment →
      completeReplyPacket C (splice zeroPacket HEADER_SIZE fragment) surb = .ok (out, some first) →
      t.mixnodeIndexToPeerId first = .error e → ReplyBad C t bp surb (.topology e)

/-- One packet per pair of a blueprint and a SURB. -/
inductive RepliesMade (C : Crypto) (t : Topology) : List FragmentBlueprint → List Surb → List AddressedPacket → Prop
  | nil : RepliesMade C t [] [] []
  | cons {bp bps surb surbs p ps} : ReplyMade C t bp surb p → RepliesMade C t bps surbs ps →
      RepliesMade C t (bp :: bps) (surb :: surbs) (p :: ps)

theorem RepliesMade.lengths {C t bps surbs ps} (h : RepliesMade C t bps surbs ps) :
    bps.length = ps.length ∧ surbs.length = ps.length := by
  induction h with
  | nil => exact ⟨rfl, rfl⟩
  | cons _ _ ih => simp [ih]

/-- What the loop of `post_reply` does: SURBs are taken from the end. -/
theorem postReplyLoop_ok {C : Crypto} {t : Topology} :
    ∀ {bps : List FragmentBlueprint} {surbs surbs' : List Surb} {q q' : AuthoredPacketQueue} {r : Except PostErr Unit},
      Node.postReplyLoop C t bps surbs q = .ok (surbs', q', r) →
    ∃ (used : List Surb) (ps : List AddressedPacket), q' = { q with queue := q.queue ++ ps } ∧
      (ps ≠ [] → q'.queue.length ≤ q.config.capacity) ∧
      (r = .ok () → surbs = surbs' ++ used.reverse ∧ RepliesMade C t bps used ps) ∧
      (∀ e, r = .error e → ∃ done bp rest bad, bps = done ++ bp :: rest ∧ surbs = surbs' ++ bad :: used.reverse ∧
        RepliesMade C t done used ps ∧ ReplyBad C t bp bad e)
  | [], surbs, surbs', q, q', r, h => by
    simp only [Node.postReplyLoop, Except.ok.injEq, Prod.mk.injEq] at h
    obtain ⟨rfl, rfl, rfl⟩ := h
    exact ⟨[], [], by simp, by simp, fun _ => ⟨by simp, .nil⟩, fun e he => (by cases he)⟩
  | bp :: bps, surbs, surbs', q, q', r, h => by
    unfold Node.postReplyLoop at h
    rw [res_bind_eq_ok] at h
    obtain ⟨fragment, h1, h⟩ := h
    dsimp only at h
    rw [res_bind_eq_ok] at h
    obtain ⟨surb, h2, h⟩ := h
    have hlast : surbs = surbs.dropLast ++ [surb] := by
      cases hg : surbs.getLast? with
      | none => rw [hg] at h2; cases h2
      | some x =>
        rw [hg] at h2
        simp only [expectSome, Except.ok.injEq] at h2
        subst h2
        have hne : surbs ≠ [] := by rintro rfl; cases hg
        rw [List.getLast?_eq_getLast_of_ne_nil hne] at hg
        simp only [Option.some.injEq] at hg
        rw [← hg]
        exact (List.dropLast_concat_getLast hne).symm
    rw [res_bind_eq_ok] at h
    obtain ⟨⟨out, o⟩, h3, h⟩ := h
    cases o with
    | none =>
      simp only [Except.ok.injEq, Prod.mk.injEq] at h
      obtain ⟨rfl, rfl, rfl⟩ := h
      refine ⟨[], [], by simp, by simp, fun hr => (by cases hr), fun e he => ?_⟩
      cases he
      exact ⟨[], bp, bps, surb, rfl, hlast, .nil, .surb fragment out h1 h3⟩
    | some first =>
      dsimp only at h
      obtain ⟨pr, hpr⟩ : ∃ pr, t.mixnodeIndexToPeerId first = pr := ⟨_, rfl⟩
      rw [hpr] at h
      cases pr with
      | error e =>
        simp only [Except.ok.injEq, Prod.mk.injEq] at h
        obtain ⟨rfl, rfl, rfl⟩ := h
        refine ⟨[], [], by simp, by simp, fun hr => (by cases hr), fun e he => ?_⟩
        cases he
        exact ⟨[], bp, bps, surb, rfl, hlast, .nil, .topology fragment out first e h1 h3 hpr⟩
      | ok peer =>
        dsimp only at h
        rw [res_bind_eq_ok] at h
        obtain ⟨q1, h4, h⟩ := h
        obtain ⟨hfit, rfl⟩ := AuthoredPacketQueue.push_ok h4
        obtain ⟨used, ps, e1, e2, e3, e4⟩ := postReplyLoop_ok h
        have hmade : ReplyMade C t bp surb ⟨peer, out⟩ := ⟨fragment, first, h1, h3, hpr⟩
        refine ⟨surb :: used, ⟨peer, out⟩ :: ps, ?_, ?_, ?_, ?_⟩
        · rw [e1]; simp
        · intro _
          by_cases hps : ps = []
          · subst hps
            rw [e1]
            simp only [List.append_nil, List.length_append, List.length_singleton]; omega
          · exact e2 hps
        · intro hr
          obtain ⟨f1, f2⟩ := e3 hr
          refine ⟨?_, .cons hmade f2⟩
          rw [hlast, f1]; simp
        · intro e he
          obtain ⟨done, bp', rest, bad, g1, g2, g3, g4⟩ := e4 e he
          refine ⟨bp :: done, bp', rest, bad, by rw [g1]; rfl, ?_, .cons hmade g3, g4⟩
          rw [hlast, g2]; simp

/-- What `post_reply` does. -/
inductive ReplyCase (C : Crypto) (m : Node) (surbs : List Surb) (i : SessionIndex)
    (mid : MessageId) (data : Scattered Byte) : Node → List Surb → Except PostErr Unit → Prop
  | tooMany : (fragmentBlueprints mid data 0 = .ok none ∨
        ∃ bps, fragmentBlueprints mid data 0 = .ok (some bps) ∧
          min m.config.maxFragmentsPerMessage surbs.length < bps.length) →
      ReplyCase C m surbs i mid data m surbs (.error .tooManyFragments)
  | noSession bps e : fragmentBlueprints mid data 0 = .ok (some bps) →
      bps.length ≤ min m.config.maxFragmentsPerMessage surbs.length →
      postSession m.sessions m.sessionStatus i = .error e →
      ReplyCase C m surbs i mid data m surbs (.error e)
  | noSpace bps rel s e : fragmentBlueprints mid data 0 = .ok (some bps) →
      bps.length ≤ min m.config.maxFragmentsPerMessage surbs.length →
      postSession m.sessions m.sessionStatus i = .ok (rel, s) →
      s.authoredPacketQueue.checkSpace bps.length = .error e →
      ReplyCase C m surbs i mid data m surbs (.error e.toPostErr)
  | failed bps rel s rest used ps e done bp left bad : fragmentBlueprints mid data 0 = .ok (some bps) →
      bps.length ≤ min m.config.maxFragmentsPerMessage surbs.length →
      postSession m.sessions m.sessionStatus i = .ok (rel, s) →
      s.authoredPacketQueue.checkSpace bps.length = .ok () →
      bps = done ++ bp :: left → surbs = rest ++ bad :: used.reverse → RepliesMade C s.topology done used ps →
      ReplyBad C s.topology bp bad e →
      (ps ≠ [] → s.authoredPacketQueue.queue.length + ps.length ≤ s.authoredPacketQueue.config.capacity) →
      ReplyCase C m surbs i mid data
        { m with sessions := m.sessions.set rel (.full { s with
            authoredPacketQueue := { s.authoredPacketQueue with queue := s.authoredPacketQueue.queue ++ ps } }) }
        rest (.error e)
  | posted bps rel s rest used ps : fragmentBlueprints mid data 0 = .ok (some bps) →
      bps.length ≤ min m.config.maxFragmentsPerMessage surbs.length →
      postSession m.sessions m.sessionStatus i = .ok (rel, s) →
      s.authoredPacketQueue.checkSpace bps.length = .ok () →
      surbs = rest ++ used.reverse → RepliesMade C s.topology bps used ps →
      (ps ≠ [] → s.authoredPacketQueue.queue.length + ps.length ≤ s.authoredPacketQueue.config.capacity) →
      ReplyCase C m surbs i mid data
        { m with sessions := m.sessions.set rel (.full { s with
            authoredPacketQueue := { s.authoredPacketQueue with queue := s.authoredPacketQueue.queue ++ ps } }) }
        rest (.ok ())

theorem postReply_cases {C : Crypto} {m m' : Node} {surbs surbs' : List Surb} {i : SessionIndex}
    {mid : MessageId} {data : Scattered Byte} {r : Except PostErr Unit}
    (h : m.postReply C surbs i mid data = .ok (m', surbs', r)) :
    ReplyCase C m surbs i mid data m' surbs' r := by
  unfold Node.postReply at h
  rw [res_bind_eq_ok] at h
  obtain ⟨o, h1, h⟩ := h
  cases o with
  | none =>
    simp only [Except.ok.injEq, Prod.mk.injEq] at h
    obtain ⟨rfl, rfl, rfl⟩ := h
    exact .tooMany (.inl h1)
  | some bps =>
    dsimp only at h
    split at h
    · rename_i hb
      simp only [Except.ok.injEq, Prod.mk.injEq] at h
      obtain ⟨rfl, rfl, rfl⟩ := h
      exact .tooMany (.inr ⟨bps, h1, by omega⟩)
    · rename_i hb
      have hb : bps.length ≤ min m.config.maxFragmentsPerMessage surbs.length := by omega
      obtain ⟨pss, hps⟩ : ∃ ps, postSession m.sessions m.sessionStatus i = ps := ⟨_, rfl⟩
      rw [hps] at h
      cases pss with
      | error e =>
        simp only [Except.ok.injEq, Prod.mk.injEq] at h
        obtain ⟨rfl, rfl, rfl⟩ := h
        exact .noSession bps e h1 hb hps
      | ok q =>
        obtain ⟨rel, s⟩ := q
        dsimp only at h
        obtain ⟨cs, hcs⟩ : ∃ cs, s.authoredPacketQueue.checkSpace bps.length = cs := ⟨_, rfl⟩
        rw [hcs] at h
        cases cs with
        | error e =>
          simp only [Except.ok.injEq, Prod.mk.injEq] at h
          obtain ⟨rfl, rfl, rfl⟩ := h
          exact .noSpace bps rel s e h1 hb hps hcs
        | ok u =>
          cases u
          dsimp only at h
          rw [res_bind_eq_ok] at h
          obtain ⟨⟨rest, q', res⟩, h2, h⟩ := h
          simp only [Except.ok.injEq, Prod.mk.injEq] at h
          obtain ⟨rfl, rfl, rfl⟩ := h
          obtain ⟨used, ps, rfl, e2, e3, e4⟩ := postReplyLoop_ok h2
          have hfit : ps ≠ [] → s.authoredPacketQueue.queue.length + ps.length ≤ s.authoredPacketQueue.config.capacity := by
            intro hne
            have := e2 hne
            simpa using this
          cases res with
          | error e =>
            obtain ⟨done, bp, left, bad, g1, g2, g3, g4⟩ := e4 e rfl
            exact .failed bps rel s rest used ps e done bp left bad h1 hb hps hcs g1 g2 g3 g4 hfit
          | ok u =>
            cases u
            obtain ⟨f1, f2⟩ := e3 rfl
            exact .posted bps rel s rest used ps h1 hb hps hcs f1 f2 hfit

end Mixnet
