import Verif.Spec.Phases
import Verif.Proofs.ManagerNode
import Verif.Props.Sending
import Verif.Props.Posting
import Verif.Spec.ManagerWorld
/-!
# C93: nodes need not change phase at the same moment
-/
namespace Mixnet.Props
open Mixnet Spec

variable {C : Crypto} (hC : CryptoLaws C) {config : Config} {m m' : Node}

theorem stage_bounds (m : Node) : 4 * m.sessionStatus.currentIndex ≤ stage m ∧ stage m ≤ 4 * m.sessionStatus.currentIndex + 3 := by
  unfold stage
  cases m.sessionStatus.phase <;> simp only [phaseNumber] <;> omega

/-- The stages in which a session that exists is the current or the previous one. -/
theorem index_of_stage {m : Node} {i : Nat} (h1 : 4 * i ≤ stage m) (h2 : stage m ≤ 4 * i + 6) :
    i = m.sessionStatus.currentIndex ∨ (i + 1 = m.sessionStatus.currentIndex ∧ m.sessionStatus.phase ≠ .disconnectFromPrev) := by
  have h := stage_bounds m
  by_cases hi : i = m.sessionStatus.currentIndex
  · exact .inl hi
  · refine .inr ⟨by omega, ?_⟩
    intro hp
    have : stage m = 4 * m.sessionStatus.currentIndex + 3 := by unfold stage; rw [hp]; rfl
    omega

include hC

/-- The step of `session_stays`. -/
theorem session_stays_step (hI : m.Inv C) (hk : m.config.numHops ≤ 6) {call out} (hw : call.WellTyped)
    (h : m.step C call = .ok (m', out)) (hle : stage m ≤ stage m') {i : Nat} {s : Session} (hs : m.sessionAt i = some s)
    (hst : stage m' ≤ 4 * i + 6) :
    ∃ s', m'.sessionAt i = some s' ∧ s'.kxPair = s.kxPair ∧ s'.topology = s.topology := by
  have hcase := Node.step_cases hC hI hw h
  have hex : ∃ s', m'.sessionAt i = some s' := by
    obtain ⟨rel, h1, h2⟩ := Node.sessionAt_eq.1 hs
    by_cases hcall : ∃ st, call = .setSessionStatus st
    · obtain ⟨st, rfl⟩ := hcall
      cases hcase
      have hcase := setSessionStatus_cases m st
      generalize m.setSessionStatus st = m1 at *
      have hb := stage_bounds m
      have hb1 := stage_bounds m1
      have hi := fromSessionIndex_some.1 h1
      have hidx : 4 * i ≤ stage m1 := by rcases hi with ⟨-, hi⟩ | ⟨-, hi⟩ <;> omega
      have hwin := index_of_stage hidx hst
      have keep : ∀ ss : Sessions, m1.sessions = dropPrev m1.sessionStatus ss →
          (∃ rel', RelSessionIndex.fromSessionIndex i m1.sessionStatus.currentIndex = some rel' ∧ ss.get rel' = .full s) →
          ∃ s', m1.sessionAt i = some s' := by
        rintro ss hss ⟨rel', e1, e2⟩
        refine ⟨s, Node.sessionAt_eq.2 ⟨rel', e1, ?_⟩⟩
        rw [hss]
        unfold dropPrev
        split
        · rename_i hd
          cases rel' with
          | current => exact e2
          | prev =>
            exfalso
            rcases fromSessionIndex_some.1 e1 with ⟨h, -⟩ | ⟨-, hidx⟩
            · cases h
            rcases hwin with hw' | ⟨-, hph⟩
            · omega
            simp only [Bool.or_eq_true, Bool.not_eq_true', beq_iff_eq] at hd
            rcases hd with hd | hd
            · generalize m1.sessionStatus.phase = ph at hd hph
              cases ph <;> first | exact hph rfl | cases hd
            · omega
        · exact e2
      cases hcase with
      | same => exact ⟨s, hs⟩
      | phase hne hidx' =>
        exact keep m.sessions rfl ⟨rel, by rw [show (_ : SessionStatus).currentIndex = _ from hidx'.symm]; exact h1, h2⟩
      | shift hne =>
        refine keep _ rfl ⟨.prev, ?_⟩
        have hb2 : 4 * m.sessionStatus.currentIndex ≤ stage m := hb.1
        have hidx2 : i = st.currentIndex ∨ (i + 1 = st.currentIndex ∧ st.phase ≠ .disconnectFromPrev) := hwin
        have hb3 : stage _ ≤ 4 * st.currentIndex + 3 := hb1.2
        have hlt : m.sessionStatus.currentIndex < st.currentIndex := by
          have : m.sessionStatus.currentIndex ≤ st.currentIndex := by omega
          omega
        rcases hi with ⟨rfl, hi⟩ | ⟨rfl, hi⟩
        · rcases hidx2 with e | ⟨e, -⟩
          · omega
          · refine ⟨fromSessionIndex_some.2 (.inr ⟨rfl, e⟩), ?_⟩
            have hd : st.currentIndex - m.sessionStatus.currentIndex = 1 := by omega
            unfold Node.shiftSessions
            rw [hd]
            exact h2
        · exfalso
          rcases hidx2 with e | ⟨e, -⟩ <;> omega
    · obtain ⟨k1, k2⟩ := slots_keep hcase fun st hx => hcall ⟨st, hx⟩
      obtain ⟨s', e, -⟩ := (k2 rel).2 s h2
      exact ⟨s', Node.sessionAt_eq.2 ⟨rel, by rw [k1]; exact h1, e⟩⟩
  obtain ⟨s', hs'⟩ := hex
  refine ⟨s', hs', ?_⟩
  cases Node.kept_step hI hk hw hcase hs hs' <;> exact ⟨rfl, rfl⟩

/-- **C93.** Once a node has the mixnodes of session `i`, it keeps the session, with its keys and its mixnodes, until it
disconnects from it: through all stages up to the third phase of session `i + 1`. -/
theorem session_stays (hr : Node.Reachable C config m) (hk : config.numHops ≤ 6) (h : MovesOn C m m') {i : Nat} {s : Session}
    (hs : m.sessionAt i = some s) (hst : stage m' ≤ 4 * i + 6) :
    ∃ s', m'.sessionAt i = some s' ∧ s'.kxPair = s.kxPair ∧ s'.topology = s.topology := by
  suffices hh : Node.Reachable C config m' ∧ (stage m' ≤ 4 * i + 6 →
      ∃ s', m'.sessionAt i = some s' ∧ s'.kxPair = s.kxPair ∧ s'.topology = s.topology) from hh.2 hst
  clear hst
  induction h with
  | refl => exact ⟨hr, fun _ => ⟨s, hs, rfl, rfl⟩⟩
  | step _ hw hstep hle ih =>
    obtain ⟨hr1, ih⟩ := ih
    refine ⟨hr1.step hC hw hstep, fun hst => ?_⟩
    obtain ⟨s1, h1, h2, h3⟩ := ih (by omega)
    obtain ⟨hI, hcfg⟩ := hr1.inv hC
    obtain ⟨s2, h4, h5, h6⟩ := session_stays_step hC hI (by rw [hcfg]; exact hk) hw hstep hle h1 hst
    exact ⟨s2, h4, h5.trans h2, h6.trans h3⟩

/-- **C93.** From then on, the session is gone. -/
theorem session_over (hr : Node.Reachable C config m) {i : Nat} (h : 4 * i + 7 ≤ stage m) : m.sessionAt i = none := by
  obtain ⟨hI, -⟩ := hr.inv hC
  cases hs : m.sessionAt i with
  | none => rfl
  | some s =>
    exfalso
    obtain ⟨rel, h1, h2⟩ := Node.sessionAt_eq.1 hs
    have hb := stage_bounds m
    rcases fromSessionIndex_some.1 h1 with ⟨rfl, hi⟩ | ⟨rfl, hi⟩
    · omega
    · have hp : m.sessionStatus.phase = .disconnectFromPrev := by
        have e : stage m = 4 * m.sessionStatus.currentIndex + phaseNumber m.sessionStatus.phase := rfl
        generalize m.sessionStatus.phase = ph at e
        cases ph <;> simp only [phaseNumber] at e <;> first | rfl | omega
      have := hI.prev (.inr (by rw [hp]; rfl))
      rw [show m.sessions.get .prev = m.sessions.prev from rfl, this] at h2
      cases h2

omit hC in
theorem window_of {i : Nat} {s : Session} (hs : m.sessionAt i = some s) (h1 : ¬ NoLonger m.sessionStatus i)
    (h2 : ¬ NotYet m.sessionStatus i) : 4 * i + 1 ≤ stage m ∧ stage m ≤ 4 * i + 5 := by
  obtain ⟨rel, e, -⟩ := Node.sessionAt_eq.1 hs
  have hst : stage m = 4 * m.sessionStatus.currentIndex + phaseNumber m.sessionStatus.phase := rfl
  unfold NoLonger at h1
  unfold NotYet at h2
  rcases fromSessionIndex_some.1 e with ⟨-, hi⟩ | ⟨-, hi⟩
  · generalize m.sessionStatus.phase = ph at *
    cases ph with
    | coverToCurrent => exact absurd (Or.inr ⟨hi, rfl⟩) h2
    | _ => simp only [phaseNumber] at hst; constructor <;> omega
  · generalize m.sessionStatus.phase = ph at *
    cases ph with
    | coverToPrev => exact absurd (Or.inr ⟨hi, .inl rfl⟩) h1
    | disconnectFromPrev => exact absurd (Or.inr ⟨hi, .inr rfl⟩) h1
    | _ => simp only [phaseNumber] at hst; constructor <;> omega

/-- **C93.** Requests and replies are sent in session `i` only from its second phase to the second phase of session
`i + 1`. -/
theorem sends_in_window (hr : Node.Reachable C config m) {i : Nat} (h : SendsIn C m i) :
    4 * i + 1 ≤ stage m ∧ stage m ≤ 4 * i + 5 := by
  obtain ⟨rng, ns, m', p, s, s', hns, hstep, hs, hs', hq⟩ := h
  have hno : ¬ (NoLonger m.sessionStatus i ∨ NotYet m.sessionStatus i) := by
    intro hno
    have := not_allowed_not_sent hC hr hns hstep hs hno
    rw [hs'] at this
    cases this
    have := congrArg List.length hq
    simp at this
  exact window_of hs (fun h => hno (.inl h)) (fun h => hno (.inr h))

/-- **C93.** They are also taken only then. -/
theorem posts_in_window (hr : Node.Reachable C config m) (hk : config.numHops ≤ 6) {i : Nat} (h : PostsIn C m i) :
    4 * i + 1 ≤ stage m ∧ stage m ≤ 4 * i + 5 := by
  rcases h with ⟨rng, d, mid, data, n, ns, m', d', met, hw, h⟩ | ⟨surbs, mid, data, m', surbs', hw, h⟩
  · obtain ⟨s, dest, packets, hp, -⟩ := request_posted hC hr hk hw (Denotes.of_wf hw.2.2.1) h
    exact window_of hp.session hp.active.1 hp.active.2
  · obtain ⟨s, fs, used, ps, h1, h2, h3, -⟩ := reply_posted hC hr hw (Denotes.of_wf hw.2.2) h
    exact window_of h1 h2 h3

/-- **C93.** While a node `a` sends (or takes) requests and replies in session `i`, every node `b` that is at most one phase
ahead and had the session keeps it: same keys, same mixnodes, so it goes on handling and forwarding the session's packets
(C36, C37), and the connections for the session stay declared. -/
theorem other_has_session {config' : Config} {a b₀ b : Node} (ha : Node.Reachable C config a) (hka : config.numHops ≤ 6) {i : Nat}
    (hsend : SendsIn C a i ∨ PostsIn C a i) (hb : Node.Reachable C config' b₀) (hkb : config'.numHops ≤ 6)
    (hmove : MovesOn C b₀ b) {s : Session} (hs : b₀.sessionAt i = some s) (hclose : stage b ≤ stage a + 1) :
    ∃ s', b.sessionAt i = some s' ∧ s'.kxPair = s.kxPair ∧ s'.topology = s.topology := by
  have hwin : stage a ≤ 4 * i + 5 := by
    rcases hsend with h | h
    · exact (sends_in_window hC ha h).2
    · exact (posts_in_window hC ha hka h).2
  exact session_stays hC hb hkb hmove hs (by omega)

/-- **C93.** And no node that is at most one phase behind or ahead is outside the session: it is its current or, still
needed, its previous one, so that if it does not have the mixnodes yet it is waiting for them. -/
theorem other_in_session {a b : Node} (ha : Node.Reachable C config a) (hka : config.numHops ≤ 6) {i : Nat}
    (hsend : SendsIn C a i ∨ PostsIn C a i) (hbehind : stage a ≤ stage b + 1) (hahead : stage b ≤ stage a + 1) :
    i = b.sessionStatus.currentIndex ∨ (i + 1 = b.sessionStatus.currentIndex ∧ b.sessionStatus.phase ≠ .disconnectFromPrev) := by
  have hwin : 4 * i + 1 ≤ stage a ∧ stage a ≤ 4 * i + 5 := by
    rcases hsend with h | h
    · exact sends_in_window hC ha h
    · exact posts_in_window hC ha hka h
  exact index_of_stage (by omega) (by omega)

/-! ### The hypotheses can be met -/
section Examples
omit hC
open World

/-- Alice, after posting her request in session 0, goes on to session 1 and its second phase. -/
def aliceLate : Node := alice1.setSessionStatus ⟨1, .requestsToCurrent⟩
theorem aliceLate_step : alice1.step World.C (.setSessionStatus ⟨1, .requestsToCurrent⟩) = .ok (aliceLate, .unit) := rfl
theorem aliceLate_reachable : Node.Reachable World.C (cfg 3) aliceLate :=
  (alice_reachable.step toyLaws ask_typed ask_step).step toyLaws (call := .setSessionStatus ⟨1, .requestsToCurrent⟩) trivial
    aliceLate_step
theorem aliceLate_stage : stage aliceLate = 5 := by decide +kernel

/-- The packets queued in session 0 of a node in session 1. -/
def waitingOld (m : Node) : Option (List AddressedPacket) :=
  match m.sessions.prev with
  | .full s => if m.sessionStatus.currentIndex = 1 then some s.authoredPacketQueue.queue else none
  | _ => none

theorem of_waitingOld {m : Node} {l : List AddressedPacket} (h : waitingOld m = some l) :
    ∃ s, m.sessionAt 0 = some s ∧ s.authoredPacketQueue.queue = l := by
  unfold waitingOld at h
  cases hs : m.sessions.prev with
  | full s =>
    rw [hs] at h
    dsimp only at h
    by_cases hi : m.sessionStatus.currentIndex = 1
    · rw [if_pos hi] at h
      refine ⟨s, ?_, Option.some.inj h⟩
      unfold Node.sessionAt
      rw [hi, if_neg (by decide), if_pos rfl, hs]; rfl
    · rw [if_neg hi] at h; cases h
  | _ => rw [hs] at h; cases h

/-- She still sends the request, in session 0. -/
theorem aliceLate_sends : SendsIn World.C aliceLate 0 := by
  obtain ⟨x, hx, h⟩ := Res.of_check (x := aliceLate.step World.C send) (p := fun x => match x.2 with
      | .authoredPacket (some p) => decide (p = packet0) && decide (waitingOld x.1 = some [])
      | _ => false) (by decide +kernel)
  obtain ⟨m', o⟩ := x
  cases o with
  | authoredPacket p =>
    cases p with
    | none => cases h
    | some p =>
      simp only [Bool.and_eq_true, decide_eq_true_eq] at h
      obtain ⟨rfl, h2⟩ := h
      obtain ⟨s, a1, a2⟩ := of_waitingOld (m := aliceLate) (l := [packet0]) (by decide +kernel)
      obtain ⟨s', b1, b2⟩ := of_waitingOld h2
      exact ⟨_, _, m', packet0, s, s', rfl, hx, a1, b1, by rw [a2, b2]⟩
  | _ => cases h

/-- Bob is a phase ahead; he keeps session 0, in which Alice still sends, although he sends nothing in it himself. -/
example : ∃ b s s', bob.step World.C (.setSessionStatus ⟨1, .coverToPrev⟩) = .ok (b, .unit) ∧ stage b = stage aliceLate + 1 ∧
    bob.sessionAt 0 = some s ∧ b.sessionAt 0 = some s' ∧ s'.kxPair = s.kxPair ∧ s'.topology = s.topology ∧
    ¬ SendsIn World.C b 0 := by
  obtain ⟨s, hs⟩ := Option.isSome_iff_exists.1 (show (bob.sessionAt 0).isSome = true by decide +kernel)
  have hstep : bob.step World.C (.setSessionStatus ⟨1, .coverToPrev⟩) =
      .ok (bob.setSessionStatus ⟨1, .coverToPrev⟩, .unit) := rfl
  have hst : stage (bob.setSessionStatus ⟨1, .coverToPrev⟩) = 6 := by decide +kernel
  have hst0 : stage bob = 1 := by decide +kernel
  obtain ⟨s', h1, h2, h3⟩ := other_has_session toyLaws aliceLate_reachable (by decide)
    (.inl aliceLate_sends) bob_reachable (by decide)
    (.step (call := .setSessionStatus ⟨1, .coverToPrev⟩) (.refl _) trivial hstep (by rw [hst, hst0]; decide)) hs
    (by rw [hst, aliceLate_stage])
  refine ⟨_, s, s', hstep, by rw [hst, aliceLate_stage], hs, h1, h2, h3, fun h => ?_⟩
  have := (sends_in_window toyLaws (bob_reachable.step toyLaws (call := .setSessionStatus ⟨1, .coverToPrev⟩) trivial hstep) h).2
  omega

end Examples
end Mixnet.Props
