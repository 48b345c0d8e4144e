import Verif.Proofs.NodeInv
/-!
# One call, by cases; the invariant holds in every reachable state
-/
namespace Mixnet

/-- What handling a packet does. -/
inductive HandleCase (C : Crypto) (m : Node) (now : Nat) (packet : Bytes) : Node → Option Message → Prop
  | ignored : (∀ out a rel s, ¬ Accepts C m packet rel s out a) → HandleCase C m now packet m none
  | accepted out a rel s m' msg : Accepts C m packet rel s out a → Effect C m now packet rel s out a m' msg →
      HandleCase C m now packet m' msg

/-- One call, by cases. -/
inductive StepCase (C : Crypto) (m : Node) : Call → Node → Outcome → Prop
  | status st : StepCase C m (.setSessionStatus st) (m.setSessionStatus st) .unit
  | mixnodes rel answer rng m' b : SetCase C m rng rel answer m' b →
      StepCase C m (.maybeSetMixnodes rel answer rng) m' (.consulted b)
  | nextKx rng : StepCase C m (.nextKxPublic rng) (m.nextKxPublic C rng).1 (.kxPublic (m.nextKxPublic C rng).2)
  | handle now packet m' msg : HandleCase C m now packet m' msg →
      StepCase C m (.handlePacket now packet) m' (.message msg)
  | popForward tie : StepCase C m (.popNextForwardPacket tie) (m.popNextForwardPacket tie).1
      (.forwardPacket (m.popNextForwardPacket tie).2)
  | popAuthored rng ns m' p : PopCase C m rng ns m' p →
      StepCase C m (.popNextAuthoredPacket rng ns) m' (.authoredPacket p)
  | post rng i d mid data n ns m' d' r : PostCase C m rng i d mid data n ns m' d' r →
      StepCase C m (.postRequest rng i d mid data n ns) m' (.posted d' r)
  | reply surbs i mid data m' surbs' r : ReplyCase C m surbs i mid data m' surbs' r →
      StepCase C m (.postReply surbs i mid data) m' (.replied surbs' r)
  | take : StepCase C m .takeEvents m.takeEvents.1 (.events m.takeEvents.2)

namespace Node
variable {C : Crypto} {m m' : Node}

theorem step_cases (hC : CryptoLaws C) (h : m.Inv C) {call : Call} (hw : call.WellTyped) {out : Outcome}
    (hs : m.step C call = .ok (m', out)) : StepCase C m call m' out := by
  cases call with
  | setSessionStatus st =>
    simp only [step, Except.ok.injEq, Prod.mk.injEq] at hs
    obtain ⟨rfl, rfl⟩ := hs
    exact .status st
  | maybeSetMixnodes rel answer rng =>
    unfold step at hs
    rw [res_bind_eq_ok] at hs
    obtain ⟨⟨m1, b⟩, h1, hs⟩ := hs
    simp only [Except.ok.injEq, Prod.mk.injEq] at hs
    obtain ⟨rfl, rfl⟩ := hs
    obtain ⟨m2, b2, h2, hc⟩ := maybeSetMixnodes_cases C m rng rel answer h.index_of_pending
    rw [h1] at h2
    simp only [Except.ok.injEq, Prod.mk.injEq] at h2
    obtain ⟨rfl, rfl⟩ := h2
    exact .mixnodes _ _ _ _ _ hc
  | nextKxPublic rng =>
    simp only [step, Except.ok.injEq, Prod.mk.injEq] at hs
    obtain ⟨rfl, rfl⟩ := hs
    exact .nextKx rng
  | handlePacket now packet =>
    unfold step at hs
    rw [res_bind_eq_ok] at hs
    obtain ⟨⟨m1, b⟩, h1, hs⟩ := hs
    simp only [Except.ok.injEq, Prod.mk.injEq] at hs
    obtain ⟨rfl, rfl⟩ := hs
    refine .handle _ _ _ _ ?_
    rcases handlePacket_spec hC m now hw h.assembler h.index_of_full with
      ⟨hno, he⟩ | ⟨out, a, rel, s, m2, msg, ha, he, heq⟩
    · rw [h1] at he
      simp only [Except.ok.injEq, Prod.mk.injEq] at he
      obtain ⟨rfl, rfl⟩ := he
      exact .ignored hno
    · rw [h1] at heq
      simp only [Except.ok.injEq, Prod.mk.injEq] at heq
      obtain ⟨rfl, rfl⟩ := heq
      exact .accepted _ _ _ _ _ _ ha he
  | popNextForwardPacket tie =>
    simp only [step, Except.ok.injEq, Prod.mk.injEq] at hs
    obtain ⟨rfl, rfl⟩ := hs
    exact .popForward tie
  | popNextAuthoredPacket rng ns =>
    unfold step at hs
    rw [res_bind_eq_ok] at hs
    obtain ⟨⟨m1, b⟩, h1, hs⟩ := hs
    simp only [Except.ok.injEq, Prod.mk.injEq] at hs
    obtain ⟨rfl, rfl⟩ := hs
    exact .popAuthored _ _ _ _ (popNextAuthored_cases h1)
  | postRequest rng i d mid data n ns =>
    unfold step at hs
    rw [res_bind_eq_ok] at hs
    obtain ⟨⟨m1, d1, r⟩, h1, hs⟩ := hs
    simp only [Except.ok.injEq, Prod.mk.injEq] at hs
    obtain ⟨rfl, rfl⟩ := hs
    exact .post _ _ _ _ _ _ _ _ _ _ (postRequest_cases h1)
  | postReply surbs i mid data =>
    unfold step at hs
    rw [res_bind_eq_ok] at hs
    obtain ⟨⟨m1, d1, r⟩, h1, hs⟩ := hs
    simp only [Except.ok.injEq, Prod.mk.injEq] at hs
    obtain ⟨rfl, rfl⟩ := hs
    exact .reply _ _ _ _ _ _ _ (postReply_cases h1)
  | takeEvents =>
    simp only [step, Except.ok.injEq, Prod.mk.injEq] at hs
    obtain ⟨rfl, rfl⟩ := hs
    exact .take

/-- A call keeps the configuration. -/
theorem stepCase_config {call out} (h : StepCase C m call m' out) : m'.config = m.config := by
  cases h with
  | status st =>
    unfold setSessionStatus
    split
    · rfl
    · dsimp only; split <;> split <;> rfl
  | mixnodes rel answer rng m' b hc => cases hc <;> rfl
  | nextKx rng => unfold nextKxPublic; split <;> rfl
  | handle now packet m' msg hc =>
    cases hc with
    | ignored => rfl
    | accepted out a rel s m' msg ha he => cases he <;> rfl
  | popForward => rfl
  | popAuthored rng ns m' p hc => cases hc <;> rfl
  | post rng i d mid data n ns m' d' r hc => cases hc <;> rfl
  | reply surbs i mid data m' surbs' r hc => cases hc <;> rfl
  | take => rfl

theorem inv_stepCase (h : m.Inv C) {call out} (hc : StepCase C m call m' out) : m'.Inv C := by
  cases hc with
  | status st => exact inv_status h st
  | mixnodes rel answer rng m' b hc => exact inv_set h hc
  | nextKx rng =>
    unfold nextKxPublic
    split
    · exact h
    · refine { h with nextPair := ?_ }
      intro k hk
      cases hk
      rfl
  | handle now packet m' msg hc =>
    cases hc with
    | ignored => exact h
    | accepted out a rel s m' msg ha he => exact inv_effect h ha.slot ha.size he
  | popForward tie =>
    unfold popNextForwardPacket
    refine { h with forward := ?_, forwardCapacity := ?_ }
    · rcases ForwardPacketQueue.pop_spec m.forwardPacketQueue tie with ⟨h1, h2⟩ | ⟨p, hp, -, h2⟩
      · rw [h2]; exact h.forward
      · rw [h2]
        have := h.forward
        have := (List.erase_sublist (a := p) (l := m.forwardPacketQueue.queue)).length_le
        simp only; omega
    · rcases ForwardPacketQueue.pop_spec m.forwardPacketQueue tie with ⟨h1, h2⟩ | ⟨p, hp, -, h2⟩ <;>
        rw [h2] <;> exact h.forwardCapacity
  | popAuthored rng ns m' p hc => exact inv_pop h hc
  | post rng i d mid data n ns m' d' r hc => exact inv_post h hc
  | reply surbs i mid data m' surbs' r hc => exact inv_reply h hc
  | take => exact h.events _

theorem inv_step (hC : CryptoLaws C) (h : m.Inv C) {call : Call} (hw : call.WellTyped) {out : Outcome}
    (hs : m.step C call = .ok (m', out)) : m'.Inv C ∧ m'.config = m.config :=
  ⟨inv_stepCase h (step_cases hC h hw hs), stepCase_config (step_cases hC h hw hs)⟩

theorem inv_runs (hC : CryptoLaws C) {calls outs} (hr : Runs C m calls outs m') (hw : ∀ c ∈ calls, c.WellTyped)
    (h : m.Inv C) : m'.Inv C ∧ m'.config = m.config := by
  induction hr with
  | nil => exact ⟨h, rfl⟩
  | cons hs _ ih =>
    have h1 := inv_step hC h (hw _ List.mem_cons_self) hs
    have h2 := ih (fun c hc => hw c (List.mem_cons_of_mem _ hc)) h1.1
    exact ⟨h2.1, h2.2.trans h1.2⟩

theorem Reachable.inv (hC : CryptoLaws C) {config : Config} (h : Reachable C config m) :
    m.Inv C ∧ m.config = config := by
  obtain ⟨m0, calls, outs, hn, hw, hr⟩ := h
  have h0 := inv_new hn
  have h1 := inv_runs hC hr hw h0.1
  exact ⟨h1.1, h1.2.trans h0.2⟩

theorem Runs.append {calls outs calls' outs' m''} (h : Runs C m calls outs m') (h' : Runs C m' calls' outs' m'') :
    Runs C m (calls ++ calls') (outs ++ outs') m'' := by
  induction h with
  | nil => exact h'
  | cons hs _ ih => exact .cons hs (ih h')

theorem Reachable.step (hC : CryptoLaws C) {config : Config} (h : Reachable C config m) {call out}
    (hw : Call.WellTyped call) (hs : m.step C call = .ok (m', out)) : Reachable C config m' := by
  obtain ⟨m0, calls, outs, hn, hw0, hr⟩ := h
  refine ⟨m0, calls ++ [call], outs ++ [out], hn, ?_, hr.append (.cons hs (.nil _))⟩
  intro c hc
  rcases List.mem_append.1 hc with hc | hc
  · exact hw0 c hc
  · rw [List.mem_singleton.1 hc]; exact hw

end Node
end Mixnet
