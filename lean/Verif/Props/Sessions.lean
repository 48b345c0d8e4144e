import Verif.Props.Queues
import Verif.Spec.Keys
/-!
# C31, C32, C33: session keys, session indices, setting mixnodes
-/
namespace Mixnet.Props
open Mixnet Spec

variable {C : Crypto} (hC : CryptoLaws C) {config : Config} {m m' : Node}
include hC

omit hC in
theorem keyAt_congr (h1 : m'.sessionStatus = m.sessionStatus) (h2 : m'.nextKxPair = m.nextKxPair)
    (h3 : slotKey m'.sessions.current = slotKey m.sessions.current)
    (h4 : slotKey m'.sessions.prev = slotKey m.sessions.prev) (j : Nat) : keyAt m' j = keyAt m j := by
  unfold keyAt; rw [h1, h2, h3, h4]

omit hC in
theorem slotKey_set {ss : Sessions} {rel : RelSessionIndex} {s s' : Session} (h : ss.get rel = .full s)
    (hk : s'.kxPair = s.kxPair) : slotKey (ss.set rel (.full s')).current = slotKey ss.current ∧
      slotKey (ss.set rel (.full s')).prev = slotKey ss.prev := by
  obtain ⟨c, p⟩ := ss
  cases rel with
  | current => simp only [Sessions.get] at h; subst h; simp [Sessions.set, slotKey, hk]
  | prev => simp only [Sessions.get] at h; subst h; simp [Sessions.set, slotKey, hk]

omit hC in
/-- Setting the status. -/
theorem status_keys' (hI : m.Inv C) (st : SessionStatus) (j : Nat) :
    keyAt (m.setSessionStatus st) j =
      if m.sessionStatus.currentIndex ≤ st.currentIndex ∧ st.currentIndex ≤ m.sessionStatus.currentIndex + 2 ∧
        (j = st.currentIndex ∨ j = st.currentIndex + 1 ∨ (j + 1 = st.currentIndex ∧ st.phase ≠ .disconnectFromPrev))
      then keyAt m j else none := by
  have hneed : ∀ p : SessionPhase, p.needPrev = true ↔ p ≠ .disconnectFromPrev := by
    intro p; cases p <;> simp [SessionPhase.needPrev, SessionPhase.rank]
  have hdropcur : ∀ ss, (dropPrev st ss).current = ss.current := by
    intro ss; unfold dropPrev; split <;> rfl
  have hdropprev : ∀ ss, j + 1 = st.currentIndex → slotKey (dropPrev st ss).prev =
      if st.phase ≠ .disconnectFromPrev then slotKey ss.prev else none := by
    intro ss hj
    unfold dropPrev
    by_cases hp : st.phase = .disconnectFromPrev
    · have : st.phase.needPrev = false := by rw [hp]; rfl
      rw [this, if_pos (by simp), if_neg (by simp [hp])]; rfl
    · have : st.phase.needPrev = true := (hneed _).2 hp
      rw [this, if_neg, if_pos hp]
      simp
      omega
  have hprevI : m.sessionStatus.currentIndex = 0 ∨ m.sessionStatus.phase.needPrev = false → slotKey m.sessions.prev = none := by
    intro h; rw [hI.prev h]; rfl
  have hc := setSessionStatus_cases m st
  generalize m.setSessionStatus st = m2 at hc
  cases hc with
  | same h =>
    subst h
    unfold keyAt
    by_cases h1 : j = m.sessionStatus.currentIndex + 1
    · rw [if_pos h1, if_pos ⟨by omega, by omega, by omega⟩]
    · rw [if_neg h1]
      by_cases h2 : j = m.sessionStatus.currentIndex
      · rw [if_pos h2, if_pos ⟨by omega, by omega, by omega⟩]
      · rw [if_neg h2]
        by_cases h3 : j + 1 = m.sessionStatus.currentIndex
        · rw [if_pos h3]
          by_cases h4 : m.sessionStatus.phase = .disconnectFromPrev
          · rw [hprevI (.inr (by rw [h4]; rfl)), if_neg]
            rintro ⟨-, -, h | h | ⟨-, h⟩⟩
            · omega
            · omega
            · exact h h4
          · rw [if_pos ⟨by omega, by omega, .inr (.inr ⟨h3, h4⟩)⟩]
        · rw [if_neg h3, ite_self]
  | phase h1 h2 =>
    unfold keyAt
    dsimp only
    rw [hdropcur, h2]
    by_cases e1 : j = st.currentIndex + 1
    · simp [e1]
    · by_cases e2 : j = st.currentIndex
      · simp [e2]
      · by_cases e3 : j + 1 = st.currentIndex
        · rw [hdropprev _ e3]
          by_cases h4 : st.phase = .disconnectFromPrev <;> simp [e1, e2, e3, h4]
        · simp [e1, e2, e3]
  | shift h =>
    have hnk : slotKey (Node.nextSlot m.nextKxPair) = m.nextKxPair.map (·.pub) := by
      cases m.nextKxPair <;> rfl
    unfold keyAt
    dsimp only
    rw [hdropcur]
    by_cases e3 : j + 1 = st.currentIndex
    · rw [if_neg (by omega), if_neg (by omega), if_pos e3, hdropprev _ e3]
      rcases Node.shift_cases m.sessions m.nextKxPair m.sessionStatus.currentIndex st.currentIndex with
        ⟨hn, e⟩ | ⟨hn, e⟩ | ⟨hn1, hn2, e⟩ <;> rw [e] <;> dsimp only
      · by_cases h4 : st.phase = .disconnectFromPrev
        · rw [if_neg (by simp [h4]), if_neg]
          rintro ⟨-, -, h | h | ⟨-, h⟩⟩
          · omega
          · omega
          · exact h h4
        · rw [if_pos h4, if_pos ⟨by omega, by omega, .inr (.inr ⟨e3, h4⟩)⟩, if_neg (by omega), if_pos (by omega)]
      · by_cases h4 : st.phase = .disconnectFromPrev
        · rw [if_neg (by simp [h4]), if_neg]
          rintro ⟨-, -, h | h | ⟨-, h⟩⟩
          · omega
          · omega
          · exact h h4
        · rw [if_pos h4, if_pos ⟨by omega, by omega, .inr (.inr ⟨e3, h4⟩)⟩, if_pos (by omega), hnk]
      · rw [if_neg (c := _ ∧ _) (by omega)]
        show (if _ then none else none) = none
        rw [ite_self]
    · rw [if_neg e3]
      rcases Node.shift_cases m.sessions m.nextKxPair m.sessionStatus.currentIndex st.currentIndex with
        ⟨hn, e⟩ | ⟨hn, e⟩ | ⟨hn1, hn2, e⟩ <;> rw [e] <;> dsimp only
      · by_cases e1 : j = st.currentIndex + 1
        · rw [if_pos e1, if_neg (c := j = m.sessionStatus.currentIndex + 1) (by omega),
            if_neg (c := j = m.sessionStatus.currentIndex) (by omega),
            if_neg (c := j + 1 = m.sessionStatus.currentIndex) (by omega), ite_self]; rfl
        · rw [if_neg e1]
          by_cases e2 : j = st.currentIndex
          · rw [if_pos e2, if_pos ⟨by omega, by omega, by omega⟩, if_pos (by omega), hnk]
          · rw [if_neg e2, if_neg]
            rintro ⟨-, -, h | h | ⟨h, -⟩⟩ <;> omega
      · by_cases e1 : j = st.currentIndex + 1
        · rw [if_pos e1, if_neg (c := j = m.sessionStatus.currentIndex + 1) (by omega),
            if_neg (c := j = m.sessionStatus.currentIndex) (by omega),
            if_neg (c := j + 1 = m.sessionStatus.currentIndex) (by omega), ite_self]; rfl
        · rw [if_neg e1]
          by_cases e2 : j = st.currentIndex
          · rw [if_pos e2, if_neg (c := j = m.sessionStatus.currentIndex + 1) (by omega),
              if_neg (c := j = m.sessionStatus.currentIndex) (by omega),
              if_neg (c := j + 1 = m.sessionStatus.currentIndex) (by omega), ite_self]; rfl
          · rw [if_neg e2, if_neg]
            rintro ⟨-, -, h | h | ⟨h, -⟩⟩ <;> omega
      · rw [if_neg (c := _ ∧ _) (by omega)]
        by_cases e1 : j = st.currentIndex + 1
        · rw [if_pos e1]; rfl
        · rw [if_neg e1]
          show (if _ then none else none) = none
          rw [ite_self]

/-- **C31.** When the status is set, each session keeps the key it has, if it is still the current, next or (when
needed) previous one, and the index advances by at most two; all other keys are discarded, in particular all
of them when the index jumps further or backwards. No key moves from one session to another. -/
theorem status_keys (hr : Node.Reachable C config m) (st : SessionStatus) :
    ∃ m', m.step C (.setSessionStatus st) = .ok (m', .unit) ∧ m'.sessionStatus = st ∧ ∀ j, keyAt m' j =
      if m.sessionStatus.currentIndex ≤ st.currentIndex ∧ st.currentIndex ≤ m.sessionStatus.currentIndex + 2 ∧
        (j = st.currentIndex ∨ j = st.currentIndex + 1 ∨ (j + 1 = st.currentIndex ∧ st.phase ≠ .disconnectFromPrev))
      then keyAt m j else none := by
  obtain ⟨hI, -⟩ := hr.inv hC
  refine ⟨_, rfl, ?_, status_keys' hI st⟩
  have hc := setSessionStatus_cases m st
  generalize m.setSessionStatus st = m2 at hc
  cases hc with
  | same h => exact h
  | phase => rfl
  | shift => rfl

omit hC in
theorem keyAt_pending {rel : RelSessionIndex} {rng : Rng} {s : Session} {m' : Node} {ms : List Mixnode} {j : Nat}
    {k : KxPublic} (hk : keyAt m' j = some k) (hp : (m.sessions.get rel).pending = true)
    (h3 : m'.sessions = m.sessions.set rel (.full s))
    (h1 : m'.sessionStatus = m.sessionStatus) (h2 : m'.nextKxPair = m.nextKxPair)
    (hs : s.kxPair = (m.sessions.get rel).pairFor C rng) :
    keyAt m j = some k ∨ MakesKey C m j (.maybeSetMixnodes rel (.ok ms) rng) k := by
  unfold keyAt at hk
  rw [h1, h2, h3] at hk
  by_cases e1 : j = m.sessionStatus.currentIndex + 1
  · rw [if_pos e1] at hk
    left; unfold keyAt; rw [if_pos e1]; exact hk
  rw [if_neg e1] at hk
  cases rel with
  | current =>
    by_cases e2 : j = m.sessionStatus.currentIndex
    · rw [if_pos e2] at hk
      simp only [Sessions.set, slotKey, hs, Option.some.injEq] at hk
      have hkey : keyAt m j = slotKey m.sessions.current := by unfold keyAt; rw [if_neg e1, if_pos e2]
      cases hc : m.sessions.current with
      | kxPair k' =>
        left; rw [hkey, hc, ← hk]; simp [Sessions.get, hc, SessionSlot.pairFor, slotKey]
      | empty =>
        right
        refine ⟨by rw [hkey, hc]; rfl, rng, ?_, .inr ⟨ms, .inl ⟨rfl, e2⟩⟩⟩
        rw [← hk]; simp [Sessions.get, hc, SessionSlot.pairFor, KxPair.gen, KxPair.ofSecret]
      | disabled => simp [Sessions.get, hc, SessionSlot.pending] at hp
      | full _ => simp [Sessions.get, hc, SessionSlot.pending] at hp
    · rw [if_neg e2] at hk
      left; unfold keyAt; rw [if_neg e1, if_neg e2]; exact hk
  | prev =>
    by_cases e2 : j = m.sessionStatus.currentIndex
    · rw [if_pos e2] at hk
      left; unfold keyAt; rw [if_neg e1, if_pos e2]; exact hk
    · rw [if_neg e2] at hk
      by_cases e3 : j + 1 = m.sessionStatus.currentIndex
      · rw [if_pos e3] at hk
        simp only [Sessions.set, slotKey, hs, Option.some.injEq] at hk
        have hkey : keyAt m j = slotKey m.sessions.prev := by unfold keyAt; rw [if_neg e1, if_neg e2, if_pos e3]
        cases hc : m.sessions.prev with
        | kxPair k' =>
          left; rw [hkey, hc, ← hk]; simp [Sessions.get, hc, SessionSlot.pairFor, slotKey]
        | empty =>
          right
          refine ⟨by rw [hkey, hc]; rfl, rng, ?_, .inr ⟨ms, .inr ⟨rfl, e3⟩⟩⟩
          rw [← hk]; simp [Sessions.get, hc, SessionSlot.pairFor, KxPair.gen, KxPair.ofSecret]
        | disabled => simp [Sessions.get, hc, SessionSlot.pending] at hp
        | full _ => simp [Sessions.get, hc, SessionSlot.pending] at hp
      · rw [if_neg e3] at hk; cases hk

omit hC in
theorem keyAt_disabled {rel : RelSessionIndex} {m' : Node} {j : Nat} {k : KxPublic}
    (hk : keyAt m' j = some k) (h1 : m'.sessionStatus = m.sessionStatus)
    (h2 : m'.nextKxPair = m.nextKxPair) (h3 : m'.sessions = m.sessions.set rel .disabled) : keyAt m j = some k := by
  unfold keyAt at hk ⊢
  rw [h1, h2, h3] at hk
  split at hk
  · rw [if_pos (by assumption)]; exact hk
  · rw [if_neg (by assumption)]
    split at hk
    · rw [if_pos (by assumption)]
      cases rel with
      | current => cases hk
      | prev => exact hk
    · rw [if_neg (by assumption)]
      split at hk
      · rw [if_pos (by assumption)]
        cases rel with
        | prev => cases hk
        | current => exact hk
      · cases hk

/-- **C31** (one call). A key that a node has for a session after a call is the key it had for that same
session, or was made by the call for that session, which had none. -/
theorem key_step (hI : m.Inv C) {call : Call} {out : Outcome} (hw : call.WellTyped)
    (h : m.step C call = .ok (m', out)) {j : Nat} {k : KxPublic} (hk : keyAt m' j = some k) :
    keyAt m j = some k ∨ MakesKey C m j call k := by
  have hc := Node.step_cases hC hI hw h
  have same : m'.sessionStatus = m.sessionStatus → m'.nextKxPair = m.nextKxPair →
      slotKey m'.sessions.current = slotKey m.sessions.current →
      slotKey m'.sessions.prev = slotKey m.sessions.prev → keyAt m j = some k ∨ MakesKey C m j call k := by
    intro h1 h2 h3 h4
    rw [keyAt_congr h1 h2 h3 h4] at hk
    exact .inl hk
  cases hc with
  | status st =>
    rw [status_keys' hI] at hk
    split at hk
    · exact .inl hk
    · cases hk
  | mixnodes rel answer rng m' b hc =>
    cases hc with
    | skip => exact .inl hk
    | permanent => exact .inl (keyAt_disabled (rel := rel) hk rfl rfl rfl)
    | transient => exact .inl hk
    | notWanted => exact .inl (keyAt_disabled (rel := rel) hk rfl rfl rfl)
    | set ms t rng1 rng2 sc h1 h2 h3 h4 =>
      exact keyAt_pending (m := m) hk h1 rfl rfl rfl rfl
  | nextKx rng =>
    unfold Node.nextKxPublic at hk
    cases hn : m.nextKxPair with
    | some k' => rw [hn] at hk; exact .inl hk
    | none =>
      rw [hn] at hk
      unfold keyAt at hk
      dsimp only at hk
      by_cases e1 : j = m.sessionStatus.currentIndex + 1
      · rw [if_pos e1] at hk
        right
        refine ⟨by unfold keyAt; rw [if_pos e1, hn]; rfl, rng, ?_, .inl ⟨rfl, e1⟩⟩
        simp only [Option.map_some, Option.some.injEq] at hk
        rw [← hk]; rfl
      · rw [if_neg e1] at hk
        left; unfold keyAt; rw [if_neg e1]; exact hk
  | popForward => exact .inl hk
  | popAuthored rng ns m' p hc =>
    cases hc with
    | idle => exact .inl hk
    | queued rel s rng1 rng2 p rest h1 h2 h3 h4 h5 =>
      obtain ⟨a, b⟩ := slotKey_set (s' := { s with authoredPacketQueue := { s.authoredPacketQueue with queue := rest } }) h3 rfl
      exact same rfl rfl a b
    | cover => exact .inl hk
  | take => exact .inl hk
  | reply surbs i mid data m' surbs' r hc =>
    cases hc with
    | posted bps rel s rest used ps h1 h2 h3 =>
      obtain ⟨-, -, p3⟩ := postSession_ok h3
      obtain ⟨a, b⟩ := slotKey_set (s' := { s with authoredPacketQueue := { s.authoredPacketQueue with queue := s.authoredPacketQueue.queue ++ ps } }) p3 rfl
      exact same rfl rfl a b
    | failed bps rel s rest used ps e done bp left bad h1 h2 h3 =>
      obtain ⟨-, -, p3⟩ := postSession_ok h3
      obtain ⟨a, b⟩ := slotKey_set (s' := { s with authoredPacketQueue := { s.authoredPacketQueue with queue := s.authoredPacketQueue.queue ++ ps } }) p3 rfl
      exact same rfl rfl a b
    | _ => exact .inl hk
  | post rng i d mid data n ns m' d' r hc =>
    cases hc with
    | posted bps rel s b rng1 acc infos met qd h1 h2 h3 =>
      obtain ⟨-, -, p3⟩ := postSession_ok h3
      obtain ⟨a, b⟩ := slotKey_set (s' := { s with authoredPacketQueue := acc.queue }) p3 rfl
      exact same rfl rfl a b
    | failed bps rel s b rng1 acc e h1 h2 h3 =>
      obtain ⟨-, -, p3⟩ := postSession_ok h3
      obtain ⟨a, b⟩ := slotKey_set (s' := { s with authoredPacketQueue := acc.queue }) p3 rfl
      exact same rfl rfl a b
    | _ => exact .inl hk
  | handle now packet m' msg hc =>
    cases hc with
    | ignored hno => exact .inl hk
    | accepted o a rel s m' msg ha he =>
      have hseen := slotKey_set (s' := s.seen C packet) ha.slot rfl
      cases he with
      | forwardNowhere => exact same rfl rfl hseen.1 hseen.2
      | forward => exact same rfl rfl hseen.1 hseen.2
      | request => exact same rfl rfl hseen.1 hseen.2
      | _ => exact .inl hk

/-- **C31** (history). A key that a node has for a session is one it had for that session before, or was
made for that very session. So a key made for one session is never used for another. -/
theorem key_history (hr : Node.Reachable C config m) {calls outs} (hw : ∀ c ∈ calls, c.WellTyped)
    (hruns : Node.Runs C m calls outs m') {j : Nat} {k : KxPublic} (hk : keyAt m' j = some k) :
    keyAt m j = some k ∨ ∃ before call after outs₁ m₁, calls = before ++ call :: after ∧
      Node.Runs C m before outs₁ m₁ ∧ MakesKey C m₁ j call k := by
  obtain ⟨hI, -⟩ := hr.inv hC
  clear hr
  induction hruns with
  | nil => exact .inl hk
  | @cons m call m1 out calls outs m2 hs hrest ih =>
    have h1 := Node.inv_step hC hI (hw _ List.mem_cons_self) hs
    rcases ih (fun c hc => hw c (List.mem_cons_of_mem _ hc)) hk h1.1 with h | ⟨b, c, a, o, m3, rfl, h2, h3⟩
    · rcases key_step hC hI (hw _ List.mem_cons_self) hs h with h | h
      · exact .inl h
      · exact .inr ⟨[], call, calls, [], m, rfl, .nil _, h⟩
    · exact .inr ⟨call :: b, c, a, out :: o, m3, rfl, .cons hs h2, h3⟩

/-- **C31** (constancy). As long as a node has a key for a session, it is the same key. -/
theorem key_constant (hr : Node.Reachable C config m) {calls outs} (hw : ∀ c ∈ calls, c.WellTyped) {j : Nat}
    (hkeep : KeepsKey C j m calls outs m') : keyAt m' j = keyAt m j := by
  obtain ⟨hI, -⟩ := hr.inv hC
  clear hr
  induction hkeep with
  | nil => rfl
  | @cons m call m1 out calls outs m2 hsome hs hrest ih =>
    have h1 := Node.inv_step hC hI (hw _ List.mem_cons_self) hs
    rw [ih (fun c hc => hw c (List.mem_cons_of_mem _ hc)) h1.1]
    have hsome1 : (keyAt m1 j).isSome := by cases hrest <;> assumption
    obtain ⟨k, hk⟩ := Option.isSome_iff_exists.1 hsome1
    rcases key_step hC hI (hw _ List.mem_cons_self) hs hk with h | h
    · rw [h, hk]
    · rw [h.1] at hsome; cases hsome

/-- **C31.** The key that `next_kx_public` hands out is the node's key for the session after the current one: the
one it had, or a new one. Nothing else changes. -/
theorem next_key (rng : Rng) : ∃ m' k, m.step C (.nextKxPublic rng) = .ok (m', .kxPublic k) ∧
    keyAt m' (m.sessionStatus.currentIndex + 1) = some k ∧
    (keyAt m (m.sessionStatus.currentIndex + 1) = some k ∨
      (keyAt m (m.sessionStatus.currentIndex + 1) = none ∧ k = C.deriveKxPublic (Crypto.genKxSecret rng).1)) ∧
    m' = { m with nextKxPair := m'.nextKxPair } := by
  have hs : m.step C (.nextKxPublic rng) = .ok ((m.nextKxPublic C rng).1, .kxPublic (m.nextKxPublic C rng).2) := rfl
  refine ⟨_, _, hs, ?_⟩
  unfold Node.nextKxPublic
  cases hn : m.nextKxPair with
  | some k =>
    have : keyAt m (m.sessionStatus.currentIndex + 1) = some k.pub := by unfold keyAt; rw [if_pos rfl, hn]; rfl
    exact ⟨this, .inl this, rfl⟩
  | none =>
    refine ⟨?_, .inr ⟨?_, rfl⟩, rfl⟩
    · unfold keyAt; rw [if_pos rfl]; rfl
    · unfold keyAt; rw [if_pos rfl, hn]; rfl

/-- **C31.** The key of a session is the public key of the secret with which it peels packets, and the one
by which it recognises the local node among the mixnodes. -/
theorem session_key (hr : Node.Reachable C config m) {i s} (hs : m.sessionAt i = some s) :
    keyAt m i = some (C.deriveKxPublic s.kxPair.secret) ∧ s.topology.localKxPublic = C.deriveKxPublic s.kxPair.secret := by
  obtain ⟨hI, -⟩ := hr.inv hC
  obtain ⟨rel, h1, h2⟩ := Node.sessionAt_eq.1 hs
  have hi := hI.sessions rel s h2
  rw [hi.isLocal, hi.pair]
  refine ⟨?_, rfl⟩
  rcases fromSessionIndex_some.1 h1 with ⟨rfl, h⟩ | ⟨rfl, h⟩
  · unfold keyAt
    rw [if_neg (by omega), if_pos (by omega)]
    have h2 : m.sessions.current = .full s := h2
    rw [h2, slotKey, hi.pair]
  · unfold keyAt
    rw [if_neg (by omega), if_neg (by omega), if_pos (by omega)]
    have h2 : m.sessions.prev = .full s := h2
    rw [h2, slotKey, hi.pair]

/-- **C32.** In every reachable state, if the current index is 0 or the phase is the last one, the slot of the
previous session is disabled. -/
theorem no_previous_session (hr : Node.Reachable C config m)
    (h : m.sessionStatus.currentIndex = 0 ∨ m.sessionStatus.phase = .disconnectFromPrev) :
    m.sessions.prev = .disabled := by
  obtain ⟨hI, -⟩ := hr.inv hC
  refine hI.prev ?_
  rcases h with h | h
  · exact .inl h
  · rw [h]; exact .inr rfl

/-- **C32.** The calls that compute the index of a session never panic. -/
theorem no_index_underflow (hr : Node.Reachable C config m) :
    (∀ now packet, packet.length = PACKET_SIZE → ∃ x, m.step C (.handlePacket now packet) = .ok x) ∧
    (∀ rel answer rng, ∃ x, m.step C (.maybeSetMixnodes rel answer rng) = .ok x) := by
  obtain ⟨hI, -⟩ := hr.inv hC
  constructor
  · intro now packet hp
    rcases handlePacket_spec hC m now hp hI.assembler hI.index_of_full with ⟨-, he⟩ | ⟨_, _, _, _, m3, msg, -, -, he⟩
    · refine ⟨(m, .message none), ?_⟩
      show (m.handlePacket C now packet >>= _) = _
      rw [he]; rfl
    · refine ⟨(m3, .message msg), ?_⟩
      show (m.handlePacket C now packet >>= _) = _
      rw [he]; rfl
  · intro rel answer rng
    obtain ⟨m2, b, h2, -⟩ := maybeSetMixnodes_cases C m rng rel answer hI.index_of_pending
    refine ⟨(m2, .consulted b), ?_⟩
    show (m.maybeSetMixnodes C rng rel answer >>= _) = _
    rw [h2]; rfl

/-- What `maybe_set_mixnodes` does to a slot that is neither disabled nor set, for each answer. -/
def SetResult (C : Crypto) (config : Config) (m : Node) (rel : RelSessionIndex) (rng : Rng) (m' : Node) :
    Except MixnodesErr (List Mixnode) → Prop
  | .error .transient => m' = m
  | .error .permanent => m' = { m with sessions := m.sessions.set rel .disabled }
  | .ok ms => ∃ key : KxPublic, (∀ k, slotKey (m.sessions.get rel) = some k → key = k) ∧
    (slotKey (m.sessions.get rel) = none → key = C.deriveKxPublic (Crypto.genKxSecret rng).1) ∧
    -- the local node is a mixnode if its key is among the first 65280
    ((¬ (∃ mx ∈ ms.take 65280, mx.kxPublic = key) ∧ config.nonMixnodeSession = none ∧
        m' = { m with sessions := m.sessions.set rel .disabled }) ∨
      ∃ s sc, m' = { m with
          sessions := m.sessions.set rel (.full s)
          events := { m.events with reservedPeersChanged := true, nextAuthoredPacketDeadlineChanged := true } } ∧
        s.kxPair.pub = key ∧ s.topology.mixnodes = ms.take 65280 ∧
        (s.topology.isMixnode = true ↔ ∃ mx ∈ ms.take 65280, mx.kxPublic = key) ∧
        (if s.topology.isMixnode then some config.mixnodeSession else config.nonMixnodeSession) = some sc ∧
        s.authoredPacketQueue.queue = [] ∧ s.authoredPacketQueue.config = sc.authoredPacketQueue ∧
        s.meanAuthoredPacketPeriod = sc.meanAuthoredPacketPeriod)

/-- **C33.** The callback is consulted exactly when the slot is neither disabled nor set; otherwise nothing
changes. What happens then depends on the answer as `SetResult` says. -/
theorem set_mixnodes (hr : Node.Reachable C config m) (rel : RelSessionIndex) (answer : Except MixnodesErr (List Mixnode))
    (rng : Rng) :
    ∃ m' b, m.step C (.maybeSetMixnodes rel answer rng) = .ok (m', .consulted b) ∧
      (b = false ↔ m.sessions.get rel = .disabled ∨ ∃ s, m.sessions.get rel = .full s) ∧
      (b = false → m' = m) ∧ (b = true → SetResult C config m rel rng m' answer) := by
  obtain ⟨hI, rfl⟩ := hr.inv hC
  obtain ⟨m2, b, h2, hc⟩ := maybeSetMixnodes_cases C m rng rel answer hI.index_of_pending
  have hstep : m.step C (.maybeSetMixnodes rel answer rng) = .ok (m2, .consulted b) := by
    show (m.maybeSetMixnodes C rng rel answer >>= _) = _
    rw [h2]; rfl
  refine ⟨m2, b, hstep, ?_⟩
  have hpend : ∀ slot : SessionSlot, slot.pending = true → ¬ (slot = .disabled ∨ ∃ s, slot = .full s) := by
    intro slot h
    cases slot <;> simp [SessionSlot.pending] at h ⊢
  have hpend' : ∀ slot : SessionSlot, slot.pending = false → (slot = .disabled ∨ ∃ s, slot = .full s) := by
    intro slot h
    cases slot <;> simp [SessionSlot.pending] at h ⊢
  have topo : ∀ {rng1 rng2 : Rng} {ms : List Mixnode} {key : KxPublic} {k : Nat} {t : Topology},
      Topology.new rng1 (ms.take 65280) key k = .ok (t, rng2) →
      t.mixnodes = ms.take 65280 ∧ (t.isMixnode = true ↔ ∃ mx ∈ ms.take 65280, mx.kxPublic = key) := by
    intro rng1 rng2 ms key k t ht
    obtain ⟨t', r', e, -, e1, e2, e3⟩ := Topology.new_spec rng1 (ms.take 65280) key k
      (by rw [List.length_take]; exact Nat.min_le_left ..)
    rw [ht] at e; cases e
    refine ⟨e1, ?_⟩
    rcases e3 with ⟨i, h1, ⟨mx, h2, h3⟩, -⟩ | ⟨gs, h1, -, -, -, h3⟩
    · simp only [Topology.isMixnode, h1, true_iff]
      exact ⟨mx, List.mem_of_getElem? h2, h3⟩
    · simp only [Topology.isMixnode, h1, Bool.false_eq_true, false_iff]
      rintro ⟨mx, h, h'⟩
      exact h3 mx h h'
  have hkey : ∀ k, slotKey (m.sessions.get rel) = some k → (m.sessions.get rel).pending = true →
      ((m.sessions.get rel).pairFor C rng).pub = k := by
    intro k h hp
    cases hs : m.sessions.get rel with
    | kxPair k' => rw [hs] at h; simpa [slotKey, SessionSlot.pairFor] using h
    | empty => rw [hs] at h; cases h
    | disabled => rw [hs] at h; cases h
    | full s => rw [hs] at hp; cases hp
  have hkey' : slotKey (m.sessions.get rel) = none → (m.sessions.get rel).pending = true →
      ((m.sessions.get rel).pairFor C rng).pub = C.deriveKxPublic (Crypto.genKxSecret rng).1 := by
    intro h hp
    cases hs : m.sessions.get rel with
    | kxPair k' => rw [hs] at h; cases h
    | empty => rfl
    | disabled => rw [hs] at hp; cases hp
    | full s => rw [hs] at hp; cases hp
  cases hc with
  | skip _ h => exact ⟨⟨fun _ => hpend' _ h, fun _ => rfl⟩, fun _ => rfl, fun h => (by cases h)⟩
  | permanent h => exact ⟨⟨fun h => (by cases h), fun h' => absurd h' (hpend _ h)⟩, fun h => (by cases h), fun _ => rfl⟩
  | transient h => exact ⟨⟨fun h => (by cases h), fun h' => absurd h' (hpend _ h)⟩, fun h => (by cases h), fun _ => rfl⟩
  | notWanted ms t rng1 rng2 h h3 h4 h5 =>
    refine ⟨⟨fun h => (by cases h), fun h' => absurd h' (hpend _ h)⟩, fun h => (by cases h), fun _ => ?_⟩
    obtain ⟨-, t2⟩ := topo h3
    refine ⟨_, fun k hk => hkey k hk h, fun hk => hkey' hk h, .inl ⟨?_, ?_, rfl⟩⟩
    · intro hmix
      rw [t2.2 hmix] at h5
      simp [Config.sessionConfig] at h5
    · cases hm : t.isMixnode with
      | true => rw [hm] at h5; simp [Config.sessionConfig] at h5
      | false => rw [hm] at h5; simpa [Config.sessionConfig] using h5
  | set ms t rng1 rng2 sc h h3 h4 h5 =>
    refine ⟨⟨fun h => (by cases h), fun h' => absurd h' (hpend _ h)⟩, fun h => (by cases h), fun _ => ?_⟩
    obtain ⟨t1, t2⟩ := topo h3
    exact ⟨_, fun k hk => hkey k hk h, fun hk => hkey' hk h, .inr ⟨_, sc, rfl, rfl, t1, t2, h5, rfl, rfl, rfl⟩⟩

/-- **C33.** After a permanent error the callback is not consulted again while the slot stays as it is. -/
theorem permanent_error_sticks (hr : Node.Reachable C config m) (rel : RelSessionIndex) (rng rng' : Rng)
    (answer : Except MixnodesErr (List Mixnode)) {m'} {b}
    (h : m.step C (.maybeSetMixnodes rel (.error .permanent) rng) = .ok (m', .consulted b))
    (hb : b = true) :
    m'.step C (.maybeSetMixnodes rel answer rng') = .ok (m', .consulted false) := by
  have hr' : Node.Reachable C config m' := hr.step hC (by trivial) h
  obtain ⟨m1, b1, e1, -, -, e4⟩ := set_mixnodes hC hr rel (.error .permanent) rng
  rw [h] at e1
  simp only [Except.ok.injEq, Prod.mk.injEq, Outcome.consulted.injEq] at e1
  obtain ⟨rfl, rfl⟩ := e1
  have hm' := e4 hb
  obtain ⟨m2, b2, f1, f2, f3, -⟩ := set_mixnodes hC hr' rel answer rng'
  have hf : b2 = false := f2.2 (.inl (by rw [hm']; exact get_set_self ..))
  rw [f1, hf, f3 hf]

/-! ### The hypotheses can be met -/
section Examples
omit hC
open World

/-- Alice's key for session 1, and what becomes of it. -/
example : ∃ m₁ k m₂ m₃, alice.step World.C (.nextKxPublic World.rng) = .ok (m₁, .kxPublic k) ∧ keyAt m₁ 1 = some k ∧
    m₁.step World.C (.setSessionStatus ⟨1, .coverToCurrent⟩) = .ok (m₂, .unit) ∧ keyAt m₂ 1 = some k ∧
    keyAt m₂ 0 = some (World.C.deriveKxPublic (sec 3)) ∧
    m₂.step World.C (.setSessionStatus ⟨4, .coverToCurrent⟩) = .ok (m₃, .unit) ∧ ∀ j, keyAt m₃ j = none := by
  have h0 : alice.sessionStatus.currentIndex = 0 := by decide +kernel
  obtain ⟨m1, k, e1, e2, -, e3⟩ := next_key toyLaws (C := World.C) (m := alice) World.rng
  have h1 : m1.sessionStatus.currentIndex = 0 := by rw [e3]; exact h0
  rw [h0] at e2
  have r1 := alice_reachable.step toyLaws (by trivial) e1
  obtain ⟨m2, f1, f2, f3⟩ := status_keys toyLaws r1 ⟨1, .coverToCurrent⟩
  have r2 := r1.step toyLaws (by trivial) f1
  obtain ⟨m3, g1, -, g3⟩ := status_keys toyLaws r2 ⟨4, .coverToCurrent⟩
  refine ⟨m1, k, m2, m3, e1, e2, f1, ?_, ?_, g1, ?_⟩
  · rw [f3, if_pos ⟨by rw [h1]; decide, by rw [h1]; decide, .inl rfl⟩]; exact e2
  · rw [f3, if_pos ⟨by rw [h1]; decide, by rw [h1]; decide, .inr (.inr ⟨rfl, by simp⟩)⟩]
    have : keyAt m1 0 = keyAt alice 0 := by
      rw [e3]; unfold keyAt; dsimp only; rw [h0]; rfl
    rw [this]
    decide +kernel
  · intro j
    rw [g3, if_neg]
    rintro ⟨-, h, -⟩
    rw [f2] at h
    exact absurd h (by decide)

/-- A slot that has a key but no mixnodes yet. -/
example : ∃ m₀ m', Node.new World.C (cfg 3) = .ok m₀ ∧
    m₀.step World.C (.maybeSetMixnodes .current (.error .permanent) World.rng) = .ok (m', .consulted true) ∧
    m'.step World.C (.maybeSetMixnodes .current (.ok mixes) World.rng) = .ok (m', .consulted false) := by
  obtain ⟨m0, h0⟩ : ∃ m0, Node.new World.C (cfg 3) = .ok m0 := ⟨_, rfl⟩
  have hr : Node.Reachable World.C (cfg 3) m0 := ⟨m0, [], [], h0, by simp, .nil _⟩
  obtain ⟨m', b, e1, e2, -⟩ := set_mixnodes toyLaws hr .current (.error .permanent) World.rng
  have hb : b = true := by
    cases b with
    | true => rfl
    | false =>
      have := e2.1 rfl
      have hslot : m0.sessions.get .current = .kxPair (KxPair.ofSecret World.C (sec 3)) := by
        cases h0; rfl
      rw [hslot] at this
      rcases this with h | ⟨s, h⟩ <;> cases h
  subst hb
  exact ⟨m0, m', h0, e1, permanent_error_sticks toyLaws hr .current _ _ _ e1 rfl⟩

end Examples
end Mixnet.Props
