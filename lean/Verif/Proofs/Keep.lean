import Verif.Proofs.NodeStep
/-!
# What one call does to a session that exists before and after it
-/
namespace Mixnet

/-- The previous session is disabled where it is not needed. -/
def dropPrev (st : SessionStatus) (ss : Sessions) : Sessions :=
  if !st.phase.needPrev || st.currentIndex == 0 then { ss with prev := .disabled } else ss

/-- What `set_session_status` does. -/
inductive StatusCase (m : Node) (st : SessionStatus) : Node → Prop
  | same : m.sessionStatus = st → StatusCase m st m
  | phase : m.sessionStatus ≠ st → m.sessionStatus.currentIndex = st.currentIndex →
      StatusCase m st { m with
        sessions := dropPrev st m.sessions
        events := { m.events with reservedPeersChanged := true, nextAuthoredPacketDeadlineChanged := true }
        sessionStatus := st }
  | shift : m.sessionStatus.currentIndex ≠ st.currentIndex →
      StatusCase m st { m with
        sessions := dropPrev st
          (Node.shiftSessions m.sessions m.nextKxPair m.sessionStatus.currentIndex st.currentIndex)
        nextKxPair := none
        events := { m.events with reservedPeersChanged := true, nextAuthoredPacketDeadlineChanged := true }
        sessionStatus := st }

theorem setSessionStatus_cases (m : Node) (st : SessionStatus) : StatusCase m st (m.setSessionStatus st) := by
  unfold Node.setSessionStatus
  by_cases h : m.sessionStatus = st
  · rw [if_pos h]; exact .same h
  · rw [if_neg h]
    dsimp only
    by_cases hi : m.sessionStatus.currentIndex = st.currentIndex
    · have := StatusCase.phase h hi
      unfold dropPrev at this
      simp only [hi, ne_eq, not_true_eq_false, if_false]
      split
      · rename_i hd; rw [if_pos hd] at this; exact this
      · rename_i hd; rw [if_neg hd] at this; exact this
    · have := StatusCase.shift hi
      unfold dropPrev at this
      simp only [hi, ne_eq, not_false_eq_true, if_true]
      split
      · rename_i hd; rw [if_pos hd] at this; exact this
      · rename_i hd; rw [if_neg hd] at this; exact this

theorem dropPrev_full {st : SessionStatus} {ss : Sessions} {rel : RelSessionIndex} {s : Session}
    (h : (dropPrev st ss).get rel = .full s) : ss.get rel = .full s := by
  unfold dropPrev at h
  split at h
  · cases rel with
    | current => exact h
    | prev => cases h
  · exact h

theorem asOption_eq {slot : SessionSlot} {s : Session} : slot.asOption = some s ↔ slot = .full s := by
  cases slot <;> simp [SessionSlot.asOption]

theorem fromSessionIndex_some {i cur : Nat} {rel : RelSessionIndex} :
    RelSessionIndex.fromSessionIndex i cur = some rel ↔
      (rel = .current ∧ i = cur) ∨ (rel = .prev ∧ i + 1 = cur) := by
  unfold RelSessionIndex.fromSessionIndex
  split
  · rename_i h; simp; omega
  · rename_i h
    obtain ⟨d, hd⟩ : ∃ d, cur - i = d := ⟨_, rfl⟩
    rw [hd]
    match d, hd with
    | 0, hd => cases rel <;> simp <;> omega
    | 1, hd => cases rel <;> simp <;> omega
    | d + 2, hd => simp; omega

theorem fromSessionIndex_none {i cur : Nat} :
    RelSessionIndex.fromSessionIndex i cur = none ↔ i ≠ cur ∧ i + 1 ≠ cur := by
  unfold RelSessionIndex.fromSessionIndex
  split
  · rename_i h; simp; omega
  · rename_i h
    obtain ⟨d, hd⟩ : ∃ d, cur - i = d := ⟨_, rfl⟩
    rw [hd]
    match d, hd with
    | 0, hd => simp; omega
    | 1, hd => simp; omega
    | d + 2, hd => simp; omega

namespace Node
variable {C : Crypto} {m m' : Node} {i : Nat} {s s' : Session}

theorem sessionAt_eq : m.sessionAt i = some s ↔
    ∃ rel, RelSessionIndex.fromSessionIndex i m.sessionStatus.currentIndex = some rel ∧
      m.sessions.get rel = .full s := by
  unfold sessionAt
  by_cases h : i = m.sessionStatus.currentIndex
  · rw [if_pos h, asOption_eq]
    constructor
    · intro hs; exact ⟨.current, fromSessionIndex_some.2 (.inl ⟨rfl, h⟩), hs⟩
    · rintro ⟨rel, hr, hs⟩
      rcases fromSessionIndex_some.1 hr with ⟨rfl, -⟩ | ⟨rfl, hr⟩
      · exact hs
      · omega
  · rw [if_neg h]
    by_cases h1 : i + 1 = m.sessionStatus.currentIndex
    · rw [if_pos h1, asOption_eq]
      constructor
      · intro hs; exact ⟨.prev, fromSessionIndex_some.2 (.inr ⟨rfl, h1⟩), hs⟩
      · rintro ⟨rel, hr, hs⟩
        rcases fromSessionIndex_some.1 hr with ⟨rfl, hr⟩ | ⟨rfl, -⟩
        · omega
        · exact hs
    · rw [if_neg h1]
      constructor
      · intro h; cases h
      · rintro ⟨rel, hr, hs⟩
        rcases fromSessionIndex_some.1 hr with ⟨-, hr⟩ | ⟨-, hr⟩ <;> omega

/-- A session with an index, and where it is. -/
def At (m : Node) (i : Nat) (rel : RelSessionIndex) (s : Session) : Prop :=
  RelSessionIndex.fromSessionIndex i m.sessionStatus.currentIndex = some rel ∧ m.sessions.get rel = .full s

theorem At.unique {rel rel' : RelSessionIndex} (h : m.At i rel s) (h' : m.At i rel' s') : rel = rel' ∧ s = s' := by
  obtain ⟨h1, h2⟩ := h
  obtain ⟨h1', h2'⟩ := h'
  rw [h1] at h1'; cases h1'
  rw [h2] at h2'; cases h2'
  exact ⟨rfl, rfl⟩

/-- What one call does to a session that exists before and after. -/
inductive Evolves (C : Crypto) (m : Node) (i : Nat) (s : Session) : Call → Outcome → Node → Session → Prop
  | same call out m' : Spec.NotPosted i call out → Evolves C m i s call out m' s
  | seen now packet msg m' rel out a : Accepts C m packet rel s out a → m.At i rel s →
      s.topology.isMixnode = true → Evolves C m i s (.handlePacket now packet) (.message msg) m' (s.seen C packet)
  | popped rng ns p rest m' rel : m.At i rel s → m.sessionStatus.phase.allowRequestsAndReplies rel = true →
      s.authoredPacketQueue.queue = p :: rest →
      m'.events.spaceInAuthoredPacketQueue = (m.events.spaceInAuthoredPacketQueue ||
        (s.authoredPacketQueue.config.multipleMessages || rest.isEmpty)) →
      Evolves C m i s (.popNextAuthoredPacket rng ns) (.authoredPacket (some p)) m'
        { s with authoredPacketQueue := { s.authoredPacketQueue with queue := rest } }
  | posted rng d mid data n ns d' met m' bps ps : fragmentBlueprints mid data n = .ok (some bps) →
      ps.length = bps.length → s.authoredPacketQueue.checkSpace bps.length = .ok () →
      Evolves C m i s (.postRequest rng i d mid data n ns) (.posted d' (.ok met)) m'
        { s with authoredPacketQueue :=
          { s.authoredPacketQueue with queue := s.authoredPacketQueue.queue ++ ps } }
  | replied surbs mid data surbs' r m' bps ps : fragmentBlueprints mid data 0 = .ok (some bps) →
      (r ≠ .ok () → ps.length < bps.length) → (r = .ok () → ps.length = bps.length) →
      surbs.length = surbs'.length + ps.length + (if r = .ok () then 0 else 1) →
      s.authoredPacketQueue.checkSpace bps.length = .ok () →
      Evolves C m i s (.postReply surbs i mid data) (.replied surbs' r) m'
        { s with authoredPacketQueue :=
          { s.authoredPacketQueue with queue := s.authoredPacketQueue.queue ++ ps } }

theorem At.set_same {m1 : Node} {rel : RelSessionIndex} {t : Session} (h : m.At i rel s)
    {rel' : RelSessionIndex} (h' : m1.At i rel' s')
    (hst : m1.sessionStatus = m.sessionStatus) (hss : m1.sessions = m.sessions.set rel (.full t)) : rel' = rel ∧ s' = t := by
  obtain ⟨a1, a2⟩ := h
  obtain ⟨b1, b2⟩ := h'
  rw [hst, a1] at b1; cases b1
  rw [hss, get_set_self] at b2; cases b2
  exact ⟨rfl, rfl⟩

/-- A call that writes to the session at `rel` and leaves the other one alone. -/
theorem At.set_any {m1 : Node} {rel rel0 : RelSessionIndex} {s0 t : Session} (h : m.At i rel s)
    (h0 : m.sessions.get rel0 = .full s0)
    {rel' : RelSessionIndex} (h' : m1.At i rel' s')
    (hst : m1.sessionStatus = m.sessionStatus) (hss : m1.sessions = m.sessions.set rel0 (.full t)) : rel' = rel ∧ ((rel0 = rel ∧ s0 = s ∧ s' = t) ∨ (rel0 ≠ rel ∧ s' = s)) := by
  obtain ⟨a1, a2⟩ := h
  obtain ⟨b1, b2⟩ := h'
  rw [hst, a1] at b1; cases b1
  refine ⟨rfl, ?_⟩
  by_cases hr : rel = rel0
  · subst hr
    rw [hss, get_set_self] at b2; cases b2
    rw [h0] at a2; cases a2
    exact .inl ⟨rfl, rfl, rfl⟩
  · rw [hss, get_set_ne _ hr, a2] at b2; cases b2
    exact .inr ⟨fun h => hr h.symm, rfl⟩

theorem At.unset {m1 : Node} {rel : RelSessionIndex} (h : m.At i rel s)
    {rel' : RelSessionIndex} (h' : m1.At i rel' s')
    (hst : m1.sessionStatus = m.sessionStatus) (hss : m1.sessions = m.sessions) : rel' = rel ∧ s' = s := by
  obtain ⟨a1, a2⟩ := h
  obtain ⟨b1, b2⟩ := h'
  rw [hst, a1] at b1; cases b1
  rw [hss, a2] at b2; cases b2
  exact ⟨rfl, rfl⟩

theorem fromSessionIndex_inj {i j cur : Nat} {rel : RelSessionIndex}
    (h : RelSessionIndex.fromSessionIndex i cur = some rel) (h' : RelSessionIndex.fromSessionIndex j cur = some rel) :
    i = j := by
  rcases fromSessionIndex_some.1 h with ⟨rfl, h1⟩ | ⟨rfl, h1⟩ <;>
    rcases fromSessionIndex_some.1 h' with ⟨h2, h3⟩ | ⟨h2, h3⟩ <;> first | omega | cases h2

theorem kept_step (hI : m.Inv C) (hk : m.config.numHops ≤ 6) {call : Call} {out : Outcome} (hw : call.WellTyped)
    (hc : StepCase C m call m' out) (h : m.sessionAt i = some s) (h' : m'.sessionAt i = some s') :
    Evolves C m i s call out m' s' := by
  obtain ⟨rel, ha⟩ := sessionAt_eq.1 h
  obtain ⟨rel', hb⟩ := sessionAt_eq.1 h'
  change m.At i rel s at ha
  change m'.At i rel' s' at hb
  cases hc with
  | status st =>
    suffices hs : s' = s by subst hs; exact .same _ _ _ trivial
    have hcase := setSessionStatus_cases m st
    generalize m.setSessionStatus st = m1 at *
    cases hcase with
    | same => exact (ha.unique hb).2.symm
    | phase hne hidx =>
      obtain ⟨a1, a2⟩ := ha
      obtain ⟨b1, b2⟩ := hb
      rw [hidx] at a1
      rw [show RelSessionIndex.fromSessionIndex i st.currentIndex = some rel' from b1] at a1
      cases a1
      have := dropPrev_full b2
      rw [a2] at this; cases this; rfl
    | shift hne =>
      obtain ⟨a1, a2⟩ := ha
      obtain ⟨b1, b2⟩ := hb
      obtain ⟨h1, rfl, h3⟩ := shift_full (dropPrev_full b2)
      rcases fromSessionIndex_some.1 b1 with ⟨hx, -⟩ | ⟨-, hx⟩
      · cases hx
      · dsimp only at hx
        rcases fromSessionIndex_some.1 a1 with ⟨rfl, hy⟩ | ⟨-, hy⟩
        · have : m.sessions.current = .full s := a2
          rw [h3] at this; cases this; rfl
        · omega
  | mixnodes rel0 answer rng m' b hcase =>
    suffices hs : s' = s by subst hs; exact .same _ _ _ trivial
    have key : ∀ slot : SessionSlot, (m.sessions.get rel0).pending = true → ∀ m1 : Node, m1.At i rel' s' →
        m1.sessionStatus = m.sessionStatus → m1.sessions = m.sessions.set rel0 slot → s' = s := by
      intro slot hp m1 hb hst hss
      obtain ⟨a1, a2⟩ := ha
      obtain ⟨b1, b2⟩ := hb
      rw [hst, a1] at b1; cases b1
      have hr : rel ≠ rel0 := by
        rintro rfl; rw [a2] at hp; cases hp
      rw [hss, get_set_ne _ hr, a2] at b2; cases b2; rfl
    cases hcase with
    | skip => exact (ha.unset hb rfl rfl).2
    | permanent hp => exact key _ hp _ hb rfl rfl
    | transient hp => exact (ha.unset hb rfl rfl).2
    | notWanted ms t rng1 rng2 hp => exact key _ hp _ hb rfl rfl
    | set ms t rng1 rng2 sc hp => exact key _ hp _ hb rfl rfl
  | nextKx rng =>
    suffices hs : s' = s by subst hs; exact .same _ _ _ trivial
    unfold nextKxPublic at hb
    split at hb
    · exact (ha.unset hb rfl rfl).2
    · exact (ha.unset hb rfl rfl).2
  | handle now packet m' msg hcase =>
    cases hcase with
    | ignored =>
      rw [(ha.unset hb rfl rfl).2]; exact .same _ _ _ trivial
    | accepted out a rel0 s0 m' msg hacc heff =>
      have key : ∀ m1 : Node, s0.topology.isMixnode = true → m1.At i rel' s' → m1.sessionStatus = m.sessionStatus →
          m1.sessions = m.sessions.set rel0 (.full (s0.seen C packet)) →
          Evolves C m i s (.handlePacket now packet) (.message msg) m1 s' := by
        intro m1 hmix hb hst hss
        obtain ⟨-, ⟨rfl, rfl, rfl⟩ | ⟨hne, rfl⟩⟩ := ha.set_any hacc.slot hb hst hss
        · exact .seen _ _ _ _ _ _ _ hacc ha hmix
        · exact .same _ _ _ trivial
      cases heff with
      | cover => rw [(ha.unset hb rfl rfl).2]; exact .same _ _ _ trivial
      | forwardNotMixnode => rw [(ha.unset hb rfl rfl).2]; exact .same _ _ _ trivial
      | forwardFull => rw [(ha.unset hb rfl rfl).2]; exact .same _ _ _ trivial
      | forwardNowhere t d e hm => exact key _ hm hb rfl rfl
      | forward t d peer ev hm => exact key _ hm hb rfl rfl
      | requestNotMixnode => rw [(ha.unset hb rfl rfl).2]; exact .same _ _ _ trivial
      | request a o index hm => exact key _ hm hb rfl rfl
      | replyUnknown => rw [(ha.unset hb rfl rfl).2]; exact .same _ _ _ trivial
      | replyBad => rw [(ha.unset hb rfl rfl).2]; exact .same _ _ _ trivial
      | reply => rw [(ha.unset hb rfl rfl).2]; exact .same _ _ _ trivial
  | popForward tie => rw [(ha.unset hb rfl rfl).2]; exact .same _ _ _ trivial
  | popAuthored rng ns m' p hcase =>
    cases hcase with
    | idle => rw [(ha.unset hb rfl rfl).2]; exact .same _ _ _ trivial
    | queued rel0 s0 rng1 rng2 p rest h1 h2 hs hal hq =>
      obtain ⟨-, ⟨rfl, rfl, rfl⟩ | ⟨hne, rfl⟩⟩ := ha.set_any hs hb rfl rfl
      · exact .popped _ _ _ _ _ _ ha hal hq rfl
      · exact .same _ _ _ trivial
    | cover => rw [(ha.unset hb rfl rfl).2]; exact .same _ _ _ trivial
  | post rng j d mid data n ns m' d' r hcase =>
    cases hcase with
    | tooMany => rw [(ha.unset hb rfl rfl).2]; exact .same _ _ _ trivial
    | noSession => rw [(ha.unset hb rfl rfl).2]; exact .same _ _ _ trivial
    | noSpace => rw [(ha.unset hb rfl rfl).2]; exact .same _ _ _ trivial
    | noDestination => rw [(ha.unset hb rfl rfl).2]; exact .same _ _ _ trivial
    | failed bps rel0 s0 b rng1 acc e h1 h2 h3 h4 h5 hf =>
      obtain ⟨-, -, hs0⟩ := postSession_ok h3
      have hq : acc.queue = s0.authoredPacketQueue :=
        postFailed_first hk (by
          have hwf := (hI.sessions _ _ hs0).topology
          unfold RequestBuilder.new at h5
          rw [(RouteGenerator.new_spec ns hwf).1, res_bind_ok] at h5
          cases d with
          | some ix =>
            simp only [Except.ok.injEq, Prod.mk.injEq] at h5
            obtain ⟨rfl, rfl⟩ := h5
            exact (RouteGenerator.new_spec ns hwf).2
          | none =>
            dsimp only at h5
            rw [res_bind_eq_ok] at h5
            obtain ⟨x, hx, h5⟩ := h5
            cases x with
            | error e => cases h5
            | ok y =>
              simp only [Except.ok.injEq, Prod.mk.injEq] at h5
              obtain ⟨rfl, rfl⟩ := h5
              exact (RouteGenerator.new_spec ns hwf).2) hw.2.2.1 h1 hf
      obtain ⟨-, ⟨rfl, rfl, rfl⟩ | ⟨hne, rfl⟩⟩ := ha.set_any hs0 hb rfl rfl
      · rw [hq]; exact .same _ _ _ trivial
      · exact .same _ _ _ trivial
    | posted bps rel0 s0 b rng1 acc infos met queueDelay h1 h2 h3 h4 h5 hd h6 h7 =>
      obtain ⟨hj, -, hs0⟩ := postSession_ok h3
      obtain ⟨-, ⟨rfl, rfl, rfl⟩ | ⟨hne, rfl⟩⟩ := ha.set_any hs0 hb rfl rfl
      · cases fromSessionIndex_inj hj ha.1
        rw [hd.queue]
        exact .posted _ _ _ _ _ _ _ _ _ bps _ h1 (by rw [List.length_map]; exact hd.made.length_eq.symm) h4
      · refine .same _ _ _ ?_
        rintro rfl
        have := ha.1; rw [hj] at this; cases this; exact hne rfl
  | reply surbs j mid data m' surbs' r hcase =>
    cases hcase with
    | tooMany => rw [(ha.unset hb rfl rfl).2]; exact .same _ _ _ (.inr ⟨rfl, _, rfl⟩)
    | noSession => rw [(ha.unset hb rfl rfl).2]; exact .same _ _ _ (.inr ⟨rfl, _, rfl⟩)
    | noSpace => rw [(ha.unset hb rfl rfl).2]; exact .same _ _ _ (.inr ⟨rfl, _, rfl⟩)
    | failed bps rel0 s0 rest used ps e done bp left bad h1 h2 h3 h4 h5 h6 h7 h8 hfit =>
      obtain ⟨hj, -, hs0⟩ := postSession_ok h3
      obtain ⟨-, ⟨rfl, rfl, rfl⟩ | ⟨hne, rfl⟩⟩ := ha.set_any hs0 hb rfl rfl
      · cases fromSessionIndex_inj hj ha.1
        obtain ⟨l1, l2⟩ := h7.lengths
        refine .replied _ _ _ _ _ _ bps _ h1 (fun _ => ?_) (fun h => (by cases h)) ?_ h4
        · rw [h5, List.length_append, List.length_cons]; omega
        · rw [h6, if_neg (by intro h; cases h)]
          simp only [List.length_append, List.length_cons, List.length_reverse]; omega
      · refine .same _ _ _ (.inl ?_)
        rintro rfl
        have := ha.1; rw [hj] at this; cases this; exact hne rfl
    | posted bps rel0 s0 rest used ps h1 h2 h3 h4 h5 h6 h7 =>
      obtain ⟨hj, -, hs0⟩ := postSession_ok h3
      obtain ⟨-, ⟨rfl, rfl, rfl⟩ | ⟨hne, rfl⟩⟩ := ha.set_any hs0 hb rfl rfl
      · cases fromSessionIndex_inj hj ha.1
        obtain ⟨l1, l2⟩ := h6.lengths
        refine .replied _ _ _ _ _ _ bps _ h1 (fun h => absurd rfl h) (fun _ => by omega) ?_ h4
        rw [h5, if_pos rfl, List.length_append, List.length_reverse]; omega
      · refine .same _ _ _ (.inl ?_)
        rintro rfl
        have := ha.1; rw [hj] at this; cases this; exact hne rfl
  | take => rw [(ha.unset hb rfl rfl).2]; exact .same _ _ _ trivial

end Node
end Mixnet

namespace Mixnet
/-- Bits that are set in one are set in the other. -/
def Events.le (a b : Events) : Prop :=
  (a.reservedPeersChanged = true → b.reservedPeersChanged = true) ∧
  (a.nextForwardPacketDeadlineChanged = true → b.nextForwardPacketDeadlineChanged = true) ∧
  (a.nextAuthoredPacketDeadlineChanged = true → b.nextAuthoredPacketDeadlineChanged = true) ∧
  (a.spaceInAuthoredPacketQueue = true → b.spaceInAuthoredPacketQueue = true)

theorem Events.le_refl (a : Events) : a.le a := ⟨id, id, id, id⟩

theorem Events.le_trans {a b c : Events} (h : a.le b) (h' : b.le c) : a.le c :=
  ⟨h'.1 ∘ h.1, h'.2.1 ∘ h.2.1, h'.2.2.1 ∘ h.2.2.1, h'.2.2.2 ∘ h.2.2.2⟩

/-- Events stay pending until they are taken. -/
theorem Node.events_step {C : Crypto} {m m' : Node} {call out} (hc : StepCase C m call m' out) :
    (call = .takeEvents ∧ out = .events m.events ∧ m'.events = Events.empty) ∨
    (call ≠ .takeEvents ∧ (∀ e, out ≠ .events e) ∧ m.events.le m'.events) := by
  cases hc with
  | status st =>
    refine .inr ⟨by simp, by simp, ?_⟩
    have := setSessionStatus_cases m st
    generalize m.setSessionStatus st = m1 at *
    cases this with
    | same => exact Events.le_refl _
    | phase => exact ⟨fun _ => rfl, id, fun _ => rfl, id⟩
    | shift => exact ⟨fun _ => rfl, id, fun _ => rfl, id⟩
  | mixnodes rel answer rng m' b h =>
    refine .inr ⟨by simp, by simp, ?_⟩
    cases h with
    | set => exact ⟨fun _ => rfl, id, fun _ => rfl, id⟩
    | _ => exact Events.le_refl _
  | nextKx rng =>
    refine .inr ⟨by simp, by simp, ?_⟩
    unfold Node.nextKxPublic; split <;> exact Events.le_refl _
  | handle now packet m' msg h =>
    refine .inr ⟨by simp, by simp, ?_⟩
    cases h with
    | ignored hno => exact Events.le_refl _
    | accepted out a rel s m' msg ha he =>
      cases he with
      | forward t d peer ev hm hf ht hev =>
        refine ⟨id, fun h => ?_, id, id⟩
        subst hev
        dsimp only
        rw [h, Bool.true_or]
      | _ => exact Events.le_refl _
  | popForward tie => exact .inr ⟨by simp, by simp, id, fun _ => rfl, id, id⟩
  | popAuthored rng ns m' p h =>
    refine .inr ⟨by simp, by simp, ?_⟩
    cases h with
    | idle => exact Events.le_refl _
    | queued rel s rng1 rng2 p rest =>
      refine ⟨id, id, fun _ => rfl, fun h => ?_⟩
      dsimp only
      rw [h, Bool.true_or]
    | cover => exact ⟨id, id, fun _ => rfl, id⟩
  | post rng i d mid data n ns m' d' r h =>
    refine .inr ⟨by simp, by simp, ?_⟩
    cases h <;> exact Events.le_refl _
  | reply surbs i mid data m' surbs' r h =>
    refine .inr ⟨by simp, by simp, ?_⟩
    cases h <;> exact Events.le_refl _
  | take => exact .inl ⟨rfl, rfl, rfl⟩

end Mixnet
