import Verif.Props.Queues
import Verif.Props.ReplayFilter
/-!
# C14: no replay
-/
namespace Mixnet.Props
open Mixnet Spec
variable {C : Crypto} {m m1 m2 : Node} {config : Config}

/-- A session that exists throughout a history keeps its keys, its topology and the key of its replay
filter, and its replay filter forgets nothing. -/
theorem session_kept (hC : CryptoLaws C) (hI : m.Inv C) (hk : m.config.numHops ≤ 6) {i calls outs}
    (hw : ∀ c ∈ calls, c.WellTyped) (hkeep : Node.Keeps C i m calls outs m2) {s} (hs : m.sessionAt i = some s) :
    ∃ s2, m2.sessionAt i = some s2 ∧ s2.kxPair = s.kxPair ∧ s2.topology = s.topology ∧
      s2.replayFilter.key = s.replayFilter.key ∧
      ∀ t, s.replayFilter.contains t = true → s2.replayFilter.contains t = true := by
  induction hkeep generalizing s with
  | nil h => exact ⟨s, hs, rfl, rfl, rfl, fun _ h => h⟩
  | @cons m0 call m1 out calls outs m2 h hst hrest ih =>
    have hw0 := hw _ List.mem_cons_self
    have hcase := Node.step_cases hC hI hw0 hst
    have hsome : (m1.sessionAt i).isSome := by cases hrest <;> assumption
    obtain ⟨s1, hs1⟩ := Option.isSome_iff_exists.1 hsome
    obtain ⟨s2, h1, h2, h3, h4, h5⟩ := ih (Node.inv_stepCase hI hcase)
      (by rw [Node.stepCase_config hcase]; exact hk) (fun c hc => hw c (List.mem_cons_of_mem _ hc)) hs1
    have hev := Node.kept_step hI hk hw0 hcase hs hs1
    cases hev with
    | same => exact ⟨s2, h1, h2, h3, h4, h5⟩
    | seen now packet msg m1 rel out a => exact ⟨s2, h1, h2, h3, h4, fun t ht => h5 t ((filter_insert _ _ _).2 ht)⟩
    | popped => exact ⟨s2, h1, h2, h3, h4, h5⟩
    | posted => exact ⟨s2, h1, h2, h3, h4, h5⟩
    | replied => exact ⟨s2, h1, h2, h3, h4, h5⟩

theorem add_ok_iff {rel : RelSessionIndex} {cur i : Nat} :
    rel.add cur = .ok i ↔ RelSessionIndex.fromSessionIndex i cur = some rel := by
  rw [fromSessionIndex_some]
  cases rel with
  | current => simp [RelSessionIndex.add, eq_comm]
  | prev =>
    simp only [RelSessionIndex.add, reduceCtorEq, false_and, false_or, true_and]
    split
    · simp only [Except.ok.injEq]; omega
    · simp only [panic, reduceCtorEq, false_iff]; omega

/-- C14. A mixnode has accepted a packet in session `i`: it delivered its fragment, or forwarded it (there was
room). After any history during which the session exists, handling any packet for which that session
derives the same shared secret does nothing, unless session `i` is now the previous one and it is the current
session that accepts the packet. In no case is it accepted by session `i`. -/
theorem no_replay (hC : CryptoLaws C) (hr : Node.Reachable C config m) (hk : config.numHops ≤ 6)
    {now packet} (hp : packet.length = PACKET_SIZE) {rel s out a} (hacc : Accepts C m packet rel s out a)
    (hmix : s.topology.isMixnode = true)
    (hact : a = .deliverRequest ∨
      ∃ t d, a = .forwardTo t d ∧ m.forwardPacketQueue.queue.length < config.forwardPacketQueueCapacity)
    {o} (hstep : m.step C (.handlePacket now packet) = .ok (m1, o))
    {i} (hi : rel.add m.sessionStatus.currentIndex = .ok i)
    {calls outs} (hw : ∀ c ∈ calls, c.WellTyped) (hkeep : Node.Keeps C i m1 calls outs m2)
    {packet'} (hp' : packet'.length = PACKET_SIZE)
    (hsame : C.deriveKxSharedSecret (packet'.take 32) s.kxPair.secret =
      C.deriveKxSharedSecret (packet.take 32) s.kxPair.secret) (now' : Nat) :
    (∀ rel' s' out' a', Accepts C m2 packet' rel' s' out' a' → rel'.add m2.sessionStatus.currentIndex ≠ .ok i) ∧
    (m2.step C (.handlePacket now' packet') = .ok (m2, .message none) ∨
      (i + 1 = m2.sessionStatus.currentIndex ∧
        ∃ s' out' a', Accepts C m2 packet' .current s' out' a')) := by
  have hr1 := hr.step hC (call := .handlePacket now packet) hp hstep
  obtain ⟨hI, rfl⟩ := hr.inv hC
  have hcase := Node.step_cases hC hI (call := .handlePacket now packet) hp hstep
  rw [add_ok_iff] at hi
  have hs1 : m1.sessionAt i = some (s.seen C packet) := by
    have key : ∀ m3 : Node, m3.sessionStatus = m.sessionStatus →
        m3.sessions = m.sessions.set rel (.full (s.seen C packet)) → m3.sessionAt i = some (s.seen C packet) := by
      intro m3 h1 h2
      exact Node.sessionAt_eq.2 ⟨rel, by rw [h1]; exact hi, by rw [h2, get_set_self]⟩
    generalize hcall : Call.handlePacket now packet = call at hcase
    cases hcase with
    | handle now0 packet0 m' msg h =>
      cases hcall
      cases h with
      | ignored hno => exact absurd hacc (hno _ _ _ _)
      | accepted out' a' rel' s' m' msg ha he =>
        obtain ⟨rfl, rfl, rfl, rfl⟩ := accepts_unique hacc ha
        cases he with
        | cover => rcases hact with h | ⟨t, d, h, -⟩ <;> cases h
        | forwardNotMixnode t d hm => rw [hmix] at hm; cases hm
        | forwardFull t d hm hf =>
          rcases hact with h | ⟨t, d, h, h'⟩
          · cases h
          · rw [hI.forwardCapacity] at hf; omega
        | forwardNowhere t d e hm => exact key _ rfl rfl
        | forward t d peer ev hm => exact key _ rfl rfl
        | requestNotMixnode hm => rw [hmix] at hm; cases hm
        | request a o index hm => exact key _ rfl rfl
        | replyUnknown => rcases hact with h | ⟨t, d, h, -⟩ <;> cases h
        | replyBad => rcases hact with h | ⟨t, d, h, -⟩ <;> cases h
        | reply => rcases hact with h | ⟨t, d, h, -⟩ <;> cases h
    | _ => cases hcall
  have hI1 := (hr1.inv hC).1
  have hcfg := (hr1.inv hC).2
  obtain ⟨s2, h1, h2, h3, h4, h5⟩ := session_kept hC hI1 (by rw [hcfg]; exact hk) hw hkeep hs1
  have hseen : s2.replayFilter.contains (s2.tagFor C packet') = true := by
    have e : s2.tagFor C packet' = s.tagFor C packet := by
      unfold Session.tagFor ReplayFilter.tag Session.secretFor
      rw [h2, h4]
      show (⟨_, _⟩ : ReplayTag) = ⟨_, _⟩
      have : (s.seen C packet).kxPair = s.kxPair := rfl
      rw [this, hsame]
      rfl
    rw [e]
    exact h5 _ (filter_insert s.replayFilter (s.tagFor C packet) (s.tagFor C packet)).1
  have hnot : ∀ rel' s' out' a', Accepts C m2 packet' rel' s' out' a' →
      rel'.add m2.sessionStatus.currentIndex ≠ .ok i := by
    intro rel' s' out' a' ha hadd
    rw [add_ok_iff] at hadd
    have : m2.sessionAt i = some s' := Node.sessionAt_eq.2 ⟨rel', hadd, ha.slot⟩
    rw [h1] at this; cases this
    rw [ha.fresh] at hseen; cases hseen
  refine ⟨hnot, ?_⟩
  have hI2 := (Node.inv_runs hC (keeps_runs hkeep) hw hI1).1
  rcases handlePacket_spec hC m2 now' hp' hI2.assembler hI2.index_of_full with
    ⟨-, he⟩ | ⟨out', a', rel', s', m3, msg, ha, -, he⟩
  · left
    show (m2.handlePacket C now' packet' >>= _) = _
    rw [he]; rfl
  · right
    obtain ⟨rel2, hr2, hs2⟩ := Node.sessionAt_eq.1 h1
    rcases fromSessionIndex_some.1 hr2 with ⟨rfl, e⟩ | ⟨rfl, e⟩
    · -- session `i` is the current one: it has seen the packet, so nothing accepts it
      exfalso
      cases rel' with
      | current => exact hnot _ _ _ _ ha (by rw [← e]; rfl)
      | prev =>
        have := (ha.first rfl s2 hs2).1
        rw [hseen] at this; cases this
    · refine ⟨e, ?_⟩
      cases rel' with
      | current => exact ⟨s', out', a', ha⟩
      | prev => exact absurd (by rw [add_ok_iff]; exact fromSessionIndex_some.2 (.inr ⟨rfl, e⟩)) (hnot _ _ _ _ ha)

/-- Whoever returns a request message has accepted the packet as a mixnode of a session. -/
theorem request_accepted (hC : CryptoLaws C) (hr : Node.Reachable C config m) {now packet r}
    (hp : packet.length = PACKET_SIZE)
    (h : m.step C (.handlePacket now packet) = .ok (m1, .message (some (.request r)))) :
    ∃ rel s out, Accepts C m packet rel s out .deliverRequest ∧ s.topology.isMixnode = true ∧
      rel.add m.sessionStatus.currentIndex = .ok r.sessionIndex := by
  have hI := (hr.inv hC).1
  have hcase := Node.step_cases hC hI (call := .handlePacket now packet) hp h
  generalize ho : Outcome.message (some (.request r)) = o at hcase
  generalize hcall : Call.handlePacket now packet = call at hcase
  cases hcase with
  | handle now packet m' msg h =>
    cases hcall
    cases h with
    | ignored => cases ho
    | accepted out a rel s m' msg ha he =>
      cases he with
      | request a o index hm h1 h2 hidx =>
        cases o with
        | none => cases ho
        | some msg => cases ho; exact ⟨rel, s, out, ha, hm, hidx⟩
      | reply id v payload a o => cases o <;> cases ho
      | _ => cases ho
  | _ => cases hcall

/-- What Bob did with the packet of Alice's request meets the hypotheses: he ignores it the second time. -/
example : World.bob1.step World.C World.arrive = .ok (World.bob1, .message none) := by
  obtain ⟨r, hr, h0, -⟩ := World.arriveOut_eq
  have hst := World.arrive_step
  rw [hr] at hst
  obtain ⟨rel, s, out, ha, hm, hidx⟩ := request_accepted toyLaws World.bob_reachable World.arrive_typed hst
  rw [h0] at hidx
  have hk : Node.Keeps World.C 0 World.bob1 [] [] World.bob1 := .nil (by decide +kernel)
  rcases (no_replay toyLaws World.bob_reachable (by decide) World.arrive_typed ha hm (.inl rfl) hst
    hidx (by simp) hk World.arrive_typed rfl 5000).2 with h | ⟨h, -⟩
  · exact h
  · have : World.bob1.sessionStatus.currentIndex = 0 := by decide +kernel
    omega

end Mixnet.Props
