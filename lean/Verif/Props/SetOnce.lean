import Verif.Proofs.ManagerNode
import Verif.Props.Sessions
/-!
# Mixnodes are set at most once per session (C33)

`set_mixnodes` and `permanent_error_sticks` (`Props/Sessions.lean`) speak of one call. Here: over any history.
-/
namespace Mixnet.Props
open Spec

/-- The session indices that calls of `set_session_status` make current, in order. -/
def madeCurrent (calls : List Call) : List Nat :=
  calls.filterMap fun
    | .setSessionStatus st => some st.currentIndex
    | _ => none

variable {C : Crypto} (hC : CryptoLaws C) {config : Config} {m m' m1 m2 : Node}

/-- The callback is not consulted for the session with this index, now or later. -/
def Decided (n : Node) (i : Nat) : Prop :=
  i ≤ n.sessionStatus.currentIndex ∧
  (i = n.sessionStatus.currentIndex → n.sessions.current.pending = false) ∧
  (i + 1 = n.sessionStatus.currentIndex → n.sessions.prev.pending = false)

theorem pending_keeps {a b : SessionSlot} (h : SlotKeeps a b) (hp : a.pending = false) : b.pending = false := by
  cases a with
  | empty => cases hp
  | kxPair k => cases hp
  | disabled => rw [h.1 rfl]; rfl
  | full s => obtain ⟨s', e, -⟩ := h.2 s rfl; rw [e]; rfl

theorem Decided.keep {i : Nat} (h : Decided m i) (hk : SlotsKeep m m') : Decided m' i := by
  obtain ⟨hst, hk⟩ := hk
  unfold Decided at *
  rw [hst]
  exact ⟨h.1, fun e => pending_keeps (hk .current) (h.2.1 e), fun e => pending_keeps (hk .prev) (h.2.2 e)⟩

theorem Decided.status {i : Nat} (h : Decided m i) {st : SessionStatus}
    (hst : m.sessionStatus.currentIndex ≤ st.currentIndex) : Decided (m.setSessionStatus st) i := by
  have hcase := setSessionStatus_cases m st
  generalize m.setSessionStatus st = m1 at *
  cases hcase with
  | same => exact h
  | phase hne hidx =>
    refine ⟨by have := h.1; show i ≤ st.currentIndex; omega, fun hi => ?_, fun hi => ?_⟩
    · have hi : i = st.currentIndex := hi
      have e := h.2.1 (by omega)
      show (dropPrev st m.sessions).current.pending = _
      unfold dropPrev
      split <;> exact e
    · have hi : i + 1 = st.currentIndex := hi
      show (dropPrev st m.sessions).prev.pending = false
      unfold dropPrev
      split
      · rfl
      · exact h.2.2 (by omega)
  | shift hne =>
    refine ⟨by have := h.1; show i ≤ st.currentIndex; omega, fun hi => ?_, fun hi => ?_⟩
    · have hi : i = st.currentIndex := hi
      have := h.1
      omega
    · have hi : i + 1 = st.currentIndex := hi
      have := h.1
      have e := h.2.1 (by omega)
      show (dropPrev st _).prev.pending = false
      unfold dropPrev
      split
      · rfl
      · unfold Node.shiftSessions
        have h1 : st.currentIndex - m.sessionStatus.currentIndex = 1 := by omega
        rw [h1]
        exact e

/-- What a step does to the current session index. -/
theorem onward_step {call : Call} {out : Outcome} (hc : StepCase C m call m' out) {is : List Nat}
    (h : (m.sessionStatus.currentIndex :: (madeCurrent [call] ++ is)).Pairwise (· ≤ ·)) :
    Onward m call ∧ (m'.sessionStatus.currentIndex :: is).Pairwise (· ≤ ·) := by
  by_cases hst : ∃ st, call = .setSessionStatus st
  · obtain ⟨st, rfl⟩ := hst
    cases hc
    have h' : (m.sessionStatus.currentIndex :: st.currentIndex :: is).Pairwise (· ≤ ·) := h
    rw [List.pairwise_cons] at h'
    refine ⟨h'.1 _ (List.mem_cons_self ..), ?_⟩
    have : (m.setSessionStatus st).sessionStatus.currentIndex = st.currentIndex := by
      have hcase := setSessionStatus_cases m st
      generalize m.setSessionStatus st = m1 at *
      cases hcase with
      | same e => rw [e]
      | phase => rfl
      | shift => rfl
    rw [this]; exact h'.2
  · have hk := slots_keep hc fun st hx => hst ⟨st, hx⟩
    rw [hk.1]
    cases call with
    | setSessionStatus st => exact absurd ⟨st, rfl⟩ hst
    | _ => exact ⟨trivial, h⟩

theorem madeCurrent_cons (c : Call) (cs : List Call) : madeCurrent (c :: cs) = madeCurrent [c] ++ madeCurrent cs := by
  cases c <;> rfl

include hC in
theorem decided_history (hr : Node.Reachable C config m) {calls outs} (hw : ∀ c ∈ calls, c.WellTyped)
    (hrun : Node.Runs C m calls outs m')
    (ho : (m.sessionStatus.currentIndex :: madeCurrent calls).Pairwise (· ≤ ·)) {i : Nat} (hd : Decided m i) :
    Decided m' i := by
  induction hrun with
  | nil => exact hd
  | @cons m call m1 out calls outs m2 hs hrun ih =>
    have hwc := hw call (List.mem_cons_self ..)
    have hc := Node.step_cases hC (hr.inv hC).1 hwc hs
    rw [madeCurrent_cons] at ho
    obtain ⟨h1, h2⟩ := onward_step hc ho
    refine ih (hr.step hC hwc hs) (fun c hc => hw c (List.mem_cons_of_mem _ hc)) h2 ?_
    by_cases hst : ∃ st, call = .setSessionStatus st
    · obtain ⟨st, rfl⟩ := hst
      cases hc
      exact hd.status h1
    · exact hd.keep (slots_keep hc fun st hx => hst ⟨st, hx⟩)

theorem decided_of {rel : RelSessionIndex} {i : Nat} (hi : rel.add m.sessionStatus.currentIndex = .ok i)
    (hp : (m.sessions.get rel).pending = false) : Decided m i := by
  cases rel with
  | current =>
    cases hi
    exact ⟨Nat.le_refl _, fun _ => hp, fun h => by omega⟩
  | prev =>
    unfold RelSessionIndex.add at hi
    dsimp only at hi
    split at hi
    · rename_i h1
      cases hi
      exact ⟨by omega, fun h => by omega, fun _ => hp⟩
    · cases hi

theorem decided_slot {rel : RelSessionIndex} {i : Nat} (hi : rel.add m.sessionStatus.currentIndex = .ok i)
    (hd : Decided m i) : (m.sessions.get rel).pending = false := by
  cases rel with
  | current =>
    cases hi
    exact hd.2.1 rfl
  | prev =>
    unfold RelSessionIndex.add at hi
    dsimp only at hi
    split at hi
    · rename_i h1
      cases hi
      exact hd.2.2 (by omega)
    · cases hi

include hC in
/-- **C33** (at most once). Once `maybe_set_mixnodes` has been called for a session and the callback, if consulted, did not
report a transient error (so the mixnodes were set, or the session was disabled), no later call for the session with that
index consults the callback or changes anything, whatever happens in between; in particular whether the session is still the
current one or has become the previous one. (Session indices must not go back.) -/
theorem set_once (hr : Node.Reachable C config m) {rel rel' : RelSessionIndex} {answer : Except MixnodesErr (List Mixnode)}
    {rng : Rng} {out : Outcome} (hw : (Call.maybeSetMixnodes rel answer rng).WellTyped)
    (h : m.step C (.maybeSetMixnodes rel answer rng) = .ok (m1, out)) (ha : answer ≠ .error .transient)
    {calls outs} (hws : ∀ c ∈ calls, c.WellTyped) (hrun : Node.Runs C m1 calls outs m2)
    (ho : (m.sessionStatus.currentIndex :: madeCurrent calls).Pairwise (· ≤ ·)) {i : Nat}
    (hi : rel.add m.sessionStatus.currentIndex = .ok i) (hi' : rel'.add m2.sessionStatus.currentIndex = .ok i)
    (answer' : Except MixnodesErr (List Mixnode)) (rng' : Rng) :
    m2.step C (.maybeSetMixnodes rel' answer' rng') = .ok (m2, .consulted false) := by
  have hr1 : Node.Reachable C config m1 := hr.step hC hw h
  have hst : m1.sessionStatus = m.sessionStatus :=
    (slots_keep (Node.step_cases hC (hr.inv hC).1 hw h) fun st e => by cases e).1
  have hd1 : Decided m1 i := by
    refine decided_of (rel := rel) (by rw [hst]; exact hi) ?_
    have hc := Node.step_cases hC (hr.inv hC).1 hw h
    cases hc with
    | mixnodes _ _ _ _ b hc =>
      cases hc with
      | skip _ hp => exact hp
      | permanent h => rw [get_set_self]; rfl
      | transient h => exact absurd rfl ha
      | notWanted ms t rng1 rng2 h h3 h4 h5 => rw [get_set_self]; rfl
      | set ms t rng1 rng2 sc h h3 h4 h5 => rw [get_set_self]; rfl
  have hd2 := decided_history hC hr1 hws hrun (by rw [hst]; exact ho) hd1
  have hr2 : Node.Reachable C config m2 := by
    obtain ⟨m0, cs, os, e1, e2, e3⟩ := hr1
    refine ⟨m0, cs ++ calls, os ++ outs, e1, fun c hc => ?_, e3.append hrun⟩
    rcases List.mem_append.1 hc with h | h
    · exact e2 c h
    · exact hws c h
  obtain ⟨m3, b, f1, f2, f3, -⟩ := set_mixnodes hC hr2 rel' answer' rng'
  have hp := decided_slot hi' hd2
  have hb : b = false := f2.2 (by
    cases hs : m2.sessions.get rel' with
    | empty => rw [hs] at hp; cases hp
    | kxPair => rw [hs] at hp; cases hp
    | disabled => exact .inl rfl
    | full s => exact .inr ⟨s, rfl⟩)
  rw [f1, hb, f3 hb]

/-- If there is a session with this index, then it has this topology; and it will not be replaced. -/
def HasTopology (n : Node) (i : Nat) (d : Topology) : Prop :=
  i ≤ n.sessionStatus.currentIndex ∧
  (i = n.sessionStatus.currentIndex → ∃ s, n.sessions.current = .full s ∧ s.topology = d) ∧
  (i + 1 = n.sessionStatus.currentIndex → n.sessions.prev = .disabled ∨
    ∃ s, n.sessions.prev = .full s ∧ s.topology = d)

theorem HasTopology.exists {n : Node} {i : Nat} {d : Topology} (h : HasTopology n i d) {s : Session} (hs : n.sessionAt i = some s) :
    s.topology = d := by
  obtain ⟨rel, h1, h2⟩ := Node.sessionAt_eq.1 hs
  rcases fromSessionIndex_some.1 h1 with ⟨rfl, hi⟩ | ⟨rfl, hi⟩
  · obtain ⟨s', e, hd⟩ := h.2.1 hi
    have : n.sessions.current = .full s := h2
    rw [e] at this; cases this; exact hd
  · have hp : n.sessions.prev = .full s := h2
    rcases h.2.2 hi with e | ⟨s', e, hd⟩
    · rw [e] at hp; cases hp
    · rw [e] at hp; cases hp; exact hd

theorem HasTopology.of {n : Node} {i : Nat} {d : Topology} {s : Session} (hs : n.sessionAt i = some s)
    (hd : s.topology = d) : HasTopology n i d := by
  obtain ⟨rel, h1, h2⟩ := Node.sessionAt_eq.1 hs
  rcases fromSessionIndex_some.1 h1 with ⟨rfl, hi⟩ | ⟨rfl, hi⟩
  · exact ⟨by omega, fun _ => ⟨s, h2, hd⟩, fun h => by omega⟩
  · exact ⟨by omega, fun h => by omega, fun _ => .inr ⟨s, h2, hd⟩⟩

theorem HasTopology.keep {n n' : Node} {i : Nat} {d : Topology} (h : HasTopology n i d) (hk : SlotsKeep n n') : HasTopology n' i d := by
  obtain ⟨hst, hk⟩ := hk
  refine ⟨by rw [hst]; exact h.1, fun hi => ?_, fun hi => ?_⟩
  · rw [hst] at hi
    obtain ⟨s, e, hd⟩ := h.2.1 hi
    obtain ⟨s', e', ht⟩ := (hk .current).2 s e
    exact ⟨s', e', by rw [ht]; exact hd⟩
  · rw [hst] at hi
    rcases h.2.2 hi with e | ⟨s, e, hd⟩
    · exact .inl ((hk .prev).1 e)
    · obtain ⟨s', e', ht⟩ := (hk .prev).2 s e
      exact .inr ⟨s', e', by rw [ht]; exact hd⟩

theorem HasTopology.status {n : Node} {i : Nat} {d : Topology} (h : HasTopology n i d) {st : SessionStatus}
    (hst : n.sessionStatus.currentIndex ≤ st.currentIndex) : HasTopology (n.setSessionStatus st) i d := by
  have hcase := setSessionStatus_cases n st
  generalize n.setSessionStatus st = m1 at *
  cases hcase with
  | same => exact h
  | phase hne hidx =>
    refine ⟨by have := h.1; show i ≤ st.currentIndex; omega, fun hi => ?_, fun hi => ?_⟩
    · have hi : i = st.currentIndex := hi
      obtain ⟨s, e, hd⟩ := h.2.1 (by omega)
      refine ⟨s, ?_, hd⟩
      show (dropPrev st n.sessions).current = _
      unfold dropPrev
      split <;> exact e
    · have hi : i + 1 = st.currentIndex := hi
      show (dropPrev st n.sessions).prev = .disabled ∨ ∃ s, (dropPrev st n.sessions).prev = _ ∧ _
      unfold dropPrev
      split
      · exact .inl rfl
      · exact h.2.2 (by omega)
  | shift hne =>
    refine ⟨by have := h.1; show i ≤ st.currentIndex; omega, fun hi => ?_, fun hi => ?_⟩
    · have hi : i = st.currentIndex := hi
      have := h.1
      omega
    · have hi : i + 1 = st.currentIndex := hi
      have := h.1
      obtain ⟨s, e, hd⟩ := h.2.1 (by omega)
      show (dropPrev st _).prev = .disabled ∨ ∃ s, (dropPrev st _).prev = _ ∧ _
      unfold dropPrev
      split
      · exact .inl rfl
      · refine .inr ⟨s, ?_, hd⟩
        unfold Node.shiftSessions
        have h1 : st.currentIndex - n.sessionStatus.currentIndex = 1 := by omega
        rw [h1]
        exact e


include hC in
/-- **C33** (once set, they stay). A session keeps its mixnodes and the node's place among them as long as it exists. -/
theorem mixnodes_stay (hr : Node.Reachable C config m) {calls outs} (hws : ∀ c ∈ calls, c.WellTyped)
    (hrun : Node.Runs C m calls outs m2)
    (ho : (m.sessionStatus.currentIndex :: madeCurrent calls).Pairwise (· ≤ ·)) {i : Nat} {s s' : Session}
    (hs : m.sessionAt i = some s) (hs' : m2.sessionAt i = some s') : s'.topology = s.topology := by
  have hh := HasTopology.of hs rfl
  clear hs
  refine HasTopology.exists ?_ hs'
  clear hs'
  induction hrun with
  | nil => exact hh
  | @cons m call m1 out calls outs m2 h hrun ih =>
    have hwc := hws call (List.mem_cons_self ..)
    have hc := Node.step_cases hC (hr.inv hC).1 hwc h
    rw [madeCurrent_cons] at ho
    obtain ⟨h1, h2⟩ := onward_step hc ho
    refine ih (hr.step hC hwc h) (fun c hc => hws c (List.mem_cons_of_mem _ hc)) h2 ?_
    by_cases hst : ∃ st, call = .setSessionStatus st
    · obtain ⟨st, rfl⟩ := hst
      cases hc
      exact hh.status h1
    · exact hh.keep (slots_keep hc fun st hx => hst ⟨st, hx⟩)

/-! ### The hypotheses can be met -/
section Examples
open World

/-- The mixnodes of session 0 are set; when it has become the previous session, the callback is not consulted for it. -/
example : ∃ m₀ m₁ m₂, Node.new World.C (cfg 3) = .ok m₀ ∧
    m₀.step World.C (.maybeSetMixnodes .current (.ok mixes) World.rng) = .ok (m₁, .consulted true) ∧
    m₁.step World.C (.setSessionStatus ⟨1, .coverToCurrent⟩) = .ok (m₂, .unit) ∧
    m₂.step World.C (.maybeSetMixnodes .prev (.ok []) World.rng) = .ok (m₂, .consulted false) := by
  obtain ⟨m0, h0⟩ : ∃ m0, Node.new World.C (cfg 3) = .ok m0 := ⟨_, rfl⟩
  have hr : Node.Reachable World.C (cfg 3) m0 := ⟨m0, [], [], h0, by simp, .nil _⟩
  have hwt : (Call.maybeSetMixnodes .current (.ok mixes) World.rng).WellTyped :=
    setup_typed _ (List.mem_cons_of_mem _ (List.mem_cons_self ..))
  have hz : m0.sessionStatus.currentIndex = 0 := by cases h0; rfl
  have hnone : m0.nextKxPair = none := by cases h0; rfl
  obtain ⟨m1, b, e1, e2, -⟩ := set_mixnodes toyLaws hr .current (.ok mixes) World.rng
  have hb : b = true := by
    cases b with
    | true => rfl
    | false =>
      have := e2.1 rfl
      have hslot : m0.sessions.get .current = .kxPair (KxPair.ofSecret World.C (sec 3)) := by
        cases h0; rfl
      rw [hslot] at this
      rcases this with h | ⟨s, h⟩ <;> cases h
  subst hb
  obtain ⟨hst, -⟩ := slots_keep (Node.step_cases toyLaws (hr.inv toyLaws).1 hwt e1) fun st e => by cases e
  have r1 := hr.step toyLaws hwt e1
  obtain ⟨m2, f1, f2, -⟩ := status_keys toyLaws r1 ⟨1, .coverToCurrent⟩
  have r2 := r1.step toyLaws (by trivial) f1
  have hp := set_once toyLaws hr hwt e1 (by simp) (calls := [.setSessionStatus ⟨1, .coverToCurrent⟩]) (by simp [Call.WellTyped])
    (.cons f1 (.nil _)) (by rw [hz]; decide) (i := 0) (rel' := .prev) (by rw [hz]; rfl) (by rw [f2]; rfl) (.ok []) World.rng
  exact ⟨m0, m1, m2, h0, e1, f1, hp⟩

end Examples
end Mixnet.Props
