import Verif.Spec.Steady
import Verif.Props.Turns
import Verif.Proofs.Tail
/-!
# A node whose sessions do not change
-/
namespace Mixnet
open Spec Props

variable {C : Crypto} {config : Config} {m m' : Node}

/-- The same sessions, as far as the rate of sending is concerned. -/
structure Steady (m m' : Node) : Prop where
  config : m'.config = m.config
  status : m'.sessionStatus = m.sessionStatus
  periods : ∀ rel, (m'.sessions.get rel).asOption.map (·.meanAuthoredPacketPeriod) =
    (m.sessions.get rel).asOption.map (·.meanAuthoredPacketPeriod)

namespace Steady

theorem refl (m : Node) : Steady m m := ⟨rfl, rfl, fun _ => rfl⟩

theorem trans {m1 : Node} (h : Steady m m1) (h' : Steady m1 m') : Steady m m' :=
  ⟨h'.config.trans h.config, h'.status.trans h.status, fun r => (h'.periods r).trans (h.periods r)⟩

theorem set {rel : RelSessionIndex} {s s' : Session} (h : m.sessions.get rel = .full s)
    (h3 : m'.sessions = m.sessions.set rel (.full s')) (hp : s'.meanAuthoredPacketPeriod = s.meanAuthoredPacketPeriod)
    (h1 : m'.config = m.config) (h2 : m'.sessionStatus = m.sessionStatus) : Steady m m' := by
  refine ⟨h1, h2, fun r => ?_⟩
  rw [h3]
  by_cases hr : r = rel
  · subst hr
    rw [get_set_self, h]
    simp [SessionSlot.asOption, hp]
  · rw [get_set_ne _ hr]

theorem step {call : Call} {out : Outcome} (hcall : AboutSessions call = false) (h : StepCase C m call m' out) :
    Steady m m' := by
  cases h with
  | status | mixnodes => cases hcall
  | nextKx rng => exact ⟨by unfold Node.nextKxPublic; split <;> rfl, by unfold Node.nextKxPublic; split <;> rfl,
      fun _ => by unfold Node.nextKxPublic; split <;> rfl⟩
  | take => exact ⟨rfl, rfl, fun _ => rfl⟩
  | popForward tie => exact ⟨by unfold Node.popNextForwardPacket; split <;> rfl, by unfold Node.popNextForwardPacket; split <;> rfl,
      fun _ => by unfold Node.popNextForwardPacket; split <;> rfl⟩
  | handle now packet m' msg hc =>
    cases hc with
    | ignored => exact .refl _
    | accepted out a rel s m' msg hacc heff =>
      have hs := hacc.slot
      cases heff
      all_goals first
        | exact ⟨rfl, rfl, fun _ => rfl⟩
        | exact .set hs rfl rfl rfl rfl
  | popAuthored rng ns m' p hc =>
    cases hc with
    | idle => exact .refl _
    | queued rel s rng1 rng2 p rest h1 h2 h3 => exact .set h3 rfl rfl rfl rfl
    | cover => exact ⟨rfl, rfl, fun _ => rfl⟩
  | post rng i d mid data k ns m' d' r hc =>
    cases hc with
    | tooMany | noSession | noSpace | noDestination => exact .refl _
    | failed bps rel s b rng1 acc e h1 h2 h3 => exact .set (postSession_ok h3).2.2 rfl rfl rfl rfl
    | posted bps rel s b rng1 acc infos met qd h1 h2 h3 => exact .set (postSession_ok h3).2.2 rfl rfl rfl rfl
  | reply surbs i mid data m' surbs' r hc =>
    cases hc with
    | tooMany | noSession | noSpace => exact .refl _
    | failed bps rel s rest used ps e done bp left bad h1 h2 h3 => exact .set (postSession_ok h3).2.2 rfl rfl rfl rfl
    | posted bps rel s rest used ps h1 h2 h3 => exact .set (postSession_ok h3).2.2 rfl rfl rfl rfl

theorem sessionAt (h : Steady m m') (i : Nat) :
    (m'.sessionAt i).map (·.meanAuthoredPacketPeriod) = (m.sessionAt i).map (·.meanAuthoredPacketPeriod) := by
  unfold Node.sessionAt
  rw [h.status]
  by_cases c1 : i = m.sessionStatus.currentIndex
  · rw [if_pos c1, if_pos c1]; exact h.periods .current
  · rw [if_neg c1, if_neg c1]
    by_cases c2 : i + 1 = m.sessionStatus.currentIndex
    · rw [if_pos c2, if_pos c2]; exact h.periods .prev
    · rw [if_neg c2, if_neg c2]

theorem isSome (h : Steady m m') {i : Nat} (hi : (m.sessionAt i).isSome) : (m'.sessionAt i).isSome := by
  have := congrArg Option.isSome (h.sessionAt i)
  rw [Option.isSome_map, Option.isSome_map, hi] at this
  exact this

theorem drawn (h : Steady m m') (rng : Rng) : sessionDrawn m' rng = sessionDrawn m rng := by
  have h1 : (currentSession m').map (·.meanAuthoredPacketPeriod) = (currentSession m).map (·.meanAuthoredPacketPeriod) := by
    unfold currentSession; rw [h.status]; exact h.sessionAt _
  have h2 : (previousSession m').map (·.meanAuthoredPacketPeriod) = (previousSession m).map (·.meanAuthoredPacketPeriod) := by
    unfold previousSession; rw [h.status]; split
    · rfl
    · exact h.sessionAt _
  unfold sessionDrawn
  rw [h.status]
  generalize currentSession m = a at h1
  generalize currentSession m' = a' at h1
  generalize previousSession m = b at h2
  generalize previousSession m' = b' at h2
  cases a <;> cases a' <;> cases b <;> cases b' <;> first | rfl | (cases h1; done) | (cases h2; done) | skip
  simp only [Option.map_some, Option.some.injEq] at h1 h2
  dsimp only
  rw [h1, h2]

theorem turn (h : Steady m m') (i : Nat) (rng : Rng) : Turn m' i rng ↔ Turn m i rng := by
  unfold Turn
  rw [h.drawn, h.config, h.status]

theorem mean (h : Steady m m') : m'.meanAuthoredPacketPeriod = m.meanAuthoredPacketPeriod := by
  have h1 := h.periods .current
  have h2 := h.periods .prev
  unfold Node.meanAuthoredPacketPeriod
  rw [h.status]
  have hiter : ∀ ss : Sessions, ss.iter = (ss.get .current).asOption.toList ++ (ss.get .prev).asOption.toList := by
    rintro ⟨c, p⟩
    cases c <;> cases p <;> rfl
  rw [hiter, hiter]
  generalize (m.sessions.get .current).asOption = a at h1
  generalize (m'.sessions.get .current).asOption = a' at h1
  generalize (m.sessions.get .prev).asOption = b at h2
  generalize (m'.sessions.get .prev).asOption = b' at h2
  cases a <;> cases a' <;> cases b <;> cases b' <;> first | rfl | (cases h1; done) | (cases h2; done) | skip
  all_goals
    simp only [Option.map_some, Option.some.injEq] at h1 h2
    simp only [Option.toList, List.cons_append, List.nil_append, List.append_nil]
    first | rw [h1, h2] | rw [h1] | rw [h2]

end Steady

/-- Along a history without calls about sessions the sessions remain, and turns are decided by the draws alone. -/
theorem steady_turns (hC : CryptoLaws C) (hI : m.Inv C) {i : Nat} (hi : (m.sessionAt i).isSome) {calls outs}
    (hw : ∀ c ∈ calls, c.WellTyped) (hq : ∀ c ∈ calls, AboutSessions c = false) (h : Node.Runs C m calls outs m') :
    Steady m m' ∧ Node.Keeps C i m calls outs m' ∧ ∀ ps, Turns C i m calls outs m' ps →
      (∀ p ∈ ps, Outcome.authoredPacket p ∈ outs) ∧
      ∀ [DecidablePred (Turn m i)], ps.length = ((popDraws calls).filter (fun r => decide (Turn m i r))).length := by
  induction h with
  | nil m =>
    refine ⟨.refl _, .nil hi, fun ps hps => ?_⟩
    cases hps
    exact ⟨fun _ hp => absurd hp List.not_mem_nil, rfl⟩
  | @cons m call m1 out calls outs m' hs hrest ih =>
    have hwc := hw _ List.mem_cons_self
    have hst := Steady.step (hq _ List.mem_cons_self) (Node.step_cases hC hI hwc hs)
    obtain ⟨i1, i2, i3⟩ := ih (Node.inv_step hC hI hwc hs).1 (hst.isSome hi)
      (fun c hc => hw c (List.mem_cons_of_mem _ hc)) (fun c hc => hq c (List.mem_cons_of_mem _ hc))
    refine ⟨hst.trans i1, .cons hi hs i2, fun ps hps => ?_⟩
    cases hps with
    | @turn _ rng ns m2 p _ _ _ ps ht hs' hps =>
      rw [hs'] at hs
      cases hs
      obtain ⟨j1, j2⟩ := i3 ps hps
      refine ⟨fun q hq => ?_, ?_⟩
      · rcases List.mem_cons.1 hq with rfl | hq
        · exact List.mem_cons_self
        · exact List.mem_cons_of_mem _ (j1 q hq)
      · intro hd
        haveI : DecidablePred (Turn m1 i) := fun r => decidable_of_iff _ (hst.turn i r).symm
        have e := j2
        unfold popDraws
        rw [List.filterMap_cons]
        dsimp only
        rw [List.filter_cons_of_pos (by simpa using ht), List.length_cons, List.length_cons, e]
        congr 2
        unfold popDraws
        congr 1
        funext r
        exact decide_eq_decide.2 (hst.turn i r)
    | other hno hs' hps =>
      rw [hs'] at hs
      cases hs
      obtain ⟨j1, j2⟩ := i3 ps hps
      refine ⟨fun q hq => List.mem_cons_of_mem _ (j1 q hq), ?_⟩
      intro hd
      haveI : DecidablePred (Turn m1 i) := fun r => decidable_of_iff _ (hst.turn i r).symm
      have e := j2
      rw [e]
      have hfun : (fun r => decide (Turn m1 i r)) = fun r => decide (Turn m i r) := by
        funext r
        exact decide_eq_decide.2 (hst.turn i r)
      rw [hfun]
      unfold popDraws
      rw [List.filterMap_cons]
      by_cases hc : ∃ rng ns, call = .popNextAuthoredPacket rng ns
      · obtain ⟨rng, ns, rfl⟩ := hc
        dsimp only
        rw [List.filter_cons_of_neg (by simpa using hno rng ns rfl)]
      · cases call <;> first | rfl | exact absurd ⟨_, _, rfl⟩ hc

end Mixnet
