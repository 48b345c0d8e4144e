import Verif.Proofs.Observe
import Verif.Spec.World
/-!
# C62: what is posted cannot be told from when packets are sent
-/
namespace Mixnet.Props
open Mixnet Spec

variable {C : Crypto} {config : Config} {m m' n n' : Node}

theorem coverAlways_head {c : Call} {cs : List Call} (h : CoverAlwaysPossible C m (c :: cs)) :
    ∀ rng ns, c = .popNextAuthoredPacket rng ns → ∀ s loop,
      (currentSession m = some s ∨ previousSession m = some s) → CoverPossible s.topology ns m.config.numHops loop := by
  intro rng ns hc s loop hs
  subst hc
  exact h [] [] rng ns cs m rfl (.nil _) s loop hs

theorem coverAlways_tail {c : Call} {cs : List Call} {o : Outcome} (hs : m.step C c = .ok (m', o))
    (h : CoverAlwaysPossible C m (c :: cs)) : CoverAlwaysPossible C m' cs := by
  intro before outs rng ns rest now he hr
  exact h (c :: before) (o :: outs) rng ns rest now (by rw [he]; rfl) (.cons hs hr)

theorem seenOf_private (hC : CryptoLaws C) (hI : m.Inv C) {c : Call} {o : Outcome} (hp : Private c = true)
    (hw : c.WellTyped) (h : m.step C c = .ok (m', o)) : Alike m m' ∧ seenOf (c, o) = none := by
  have s := Node.step_cases hC hI hw h
  refine ⟨alike_private hp s, ?_⟩
  cases s <;> first | rfl | cases hp

theorem observed_cons (c : Call) (o : Outcome) (cs : List Call) (os : List Outcome) :
    observed (c :: cs) (o :: os) = (seenOf (c, o)).toList ++ observed cs os := by
  unfold observed
  rw [List.zip_cons_cons, List.filterMap_cons]
  cases seenOf (c, o) <;> rfl

/-- Private calls made before the first other one do not matter. -/
theorem skip_private (hC : CryptoLaws C) {calls outs} (h : Node.Runs C n calls outs n') (hJ : n.Inv C)
    (hw : ∀ c ∈ calls, c.WellTyped) :
    (∀ c cs, calls.filter (fun c => !Private c) = c :: cs →
      ∃ n1 n2 o calls1 outs1, Alike n n1 ∧ n1.Inv C ∧ n1.step C c = .ok (n2, o) ∧ n2.Inv C ∧
        Node.Runs C n2 calls1 outs1 n' ∧ (∀ c ∈ calls1, c.WellTyped) ∧ calls1.filter (fun c => !Private c) = cs ∧
        c.WellTyped ∧ Private c = false ∧ observed calls outs = (seenOf (c, o)).toList ++ observed calls1 outs1) ∧
    (calls.filter (fun c => !Private c) = [] → Alike n n' ∧ observed calls outs = []) := by
  induction h with
  | nil n => exact ⟨fun c cs h => (by cases h), fun _ => ⟨.refl _, rfl⟩⟩
  | @cons n call n1 out calls outs n' hs hr ih =>
    have hw0 := hw call List.mem_cons_self
    have hw1 : ∀ c ∈ calls, c.WellTyped := fun c hc => hw c (List.mem_cons_of_mem _ hc)
    have hI1 := (Node.inv_step hC hJ hw0 hs).1
    obtain ⟨ih1, ih2⟩ := ih hI1 hw1
    cases hp : Private call with
    | true =>
      obtain ⟨ha, hn⟩ := seenOf_private hC hJ hp hw0 hs
      rw [observed_cons, hn]
      simp only [List.filter_cons, hp, Bool.not_true, Bool.false_eq_true, if_false, Option.toList_none, List.nil_append]
      refine ⟨?_, fun h => ⟨ha.trans (ih2 h).1, (ih2 h).2⟩⟩
      intro c cs h
      obtain ⟨a, b, o, cs1, os1, h1, h2⟩ := ih1 c cs h
      exact ⟨a, b, o, cs1, os1, ha.trans h1, h2⟩
    | false =>
      simp only [List.filter_cons, hp, Bool.not_false, if_true]
      refine ⟨?_, fun h => (by cases h)⟩
      intro c cs h
      simp only [List.cons.injEq] at h
      obtain ⟨rfl, rfl⟩ := h
      exact ⟨n, n1, out, calls, outs, .refl _, hJ, hs, hI1, hr, hw1, rfl, hw0, hp, observed_cons _ _ _ _⟩

theorem unobservable (hC : CryptoLaws C) {calls outs} (h : Node.Runs C m calls outs m') :
    ∀ {n calls' outs'}, Alike m n → Node.Runs C n calls' outs' n' → m.Inv C → n.Inv C →
      (∀ c ∈ calls, c.WellTyped) → (∀ c ∈ calls', c.WellTyped) →
      m.config.numHops ≤ 6 → m.config.genCoverPackets = true → CoverAlwaysPossible C m calls →
      calls.filter (fun c => !Private c) = calls'.filter (fun c => !Private c) →
      Alike m' n' ∧ observed calls outs = observed calls' outs' := by
  induction h with
  | nil m =>
    intro n calls' outs' ha hr hI hJ hw hw' hk hg hcov he
    obtain ⟨h1, h2⟩ := (skip_private hC hr hJ hw').2 he.symm
    exact ⟨ha.trans h1, by rw [h2]; rfl⟩
  | @cons m call m1 out calls outs m' hs hr ih =>
    intro n calls' outs' ha hr' hI hJ hw hw' hk hg hcov he
    have hw0 := hw call List.mem_cons_self
    have hw1 : ∀ c ∈ calls, c.WellTyped := fun c hc => hw c (List.mem_cons_of_mem _ hc)
    obtain ⟨hI1, hc1⟩ := Node.inv_step hC hI hw0 hs
    have hcov1 := coverAlways_tail hs hcov
    rw [observed_cons]
    cases hp : Private call with
    | true =>
      obtain ⟨ha1, hn⟩ := seenOf_private hC hI hp hw0 hs
      rw [hn]
      simp only [List.filter_cons, hp, Bool.not_true, Bool.false_eq_true, if_false] at he
      exact ih (ha1.symm.trans ha) hr' hI1 hJ hw1 hw' (by rw [hc1]; exact hk) (by rw [hc1]; exact hg) hcov1 he
    | false =>
      simp only [List.filter_cons, hp, Bool.not_false, if_true] at he
      obtain ⟨n1, n2, o, cs1, os1, e1, e2, e3, e4, e5, e6, e7, e8, e9, e10⟩ :=
        (skip_private hC hr' hJ hw').1 call _ he.symm
      obtain ⟨ha1, hseen⟩ := alike_step (ha.trans e1) hI e2 hC hp hw0 hk hg (coverAlways_head hcov) hs e3
      obtain ⟨h1, h2⟩ := ih ha1 e5 hI1 e4 hw1 e6 (by rw [hc1]; exact hk) (by rw [hc1]; exact hg) hcov1 e7.symm
      exact ⟨h1, by rw [e10, hseen, h2]⟩

/-- **C62.** Two histories of a node that differ only in what its user posts (requests and replies: how many, when,
to whom, with what content) look the same from outside: the same packets are forwarded, a packet of the node's own
is sent at the same opportunities, the same keys are announced. Afterwards the deadline for forwarding, the
delay until the next opportunity and the peers to be connected to are the same as well. This needs cover packets
to be enabled, and possible. -/
theorem posting_unobservable (hC : CryptoLaws C) (hr : Node.Reachable C config m) (hk : config.numHops ≤ 6)
    (hg : config.genCoverPackets = true) {calls calls' outs outs'}
    (h : Node.Runs C m calls outs m') (h' : Node.Runs C m calls' outs' n')
    (hw : ∀ c ∈ calls, c.WellTyped) (hw' : ∀ c ∈ calls', c.WellTyped)
    (hsame : calls.filter (fun c => !Private c) = calls'.filter (fun c => !Private c))
    (hcov : CoverAlwaysPossible C m calls) :
    observed calls outs = observed calls' outs' ∧
    m'.nextForwardPacketDeadline = n'.nextForwardPacketDeadline ∧
    (∀ e, m'.nextAuthoredPacketDelay e = n'.nextAuthoredPacketDelay e) ∧
    m'.reservedPeers = n'.reservedPeers := by
  obtain ⟨hI, hcfg⟩ := hr.inv hC
  obtain ⟨ha, ho⟩ := unobservable hC h (.refl m) h' hI hI hw hw' (by rw [hcfg]; exact hk) (by rw [hcfg]; exact hg) hcov hsame
  obtain ⟨o1, o2⟩ := outline_congr ha.status (alike_outline ha)
  refine ⟨ho, ?_, ?_, o1.symm⟩
  · unfold Node.nextForwardPacketDeadline
    rw [ha.forward]
  · intro e
    unfold Node.nextAuthoredPacketDelay
    rw [o2]

/-- A mixnode can always generate cover packets in a session with more mixnodes than there are hops. -/
theorem cover_possible_mixnode {t : Topology} {ns : NetworkStatus} {k i : Nat} (hl : t.localNode = .mixnode i)
    (hi : i < t.mixnodes.length) (h0 : 0 < k) (hk : k < t.mixnodes.length) (loop : Bool) : CoverPossible t ns k loop := by
  have nogw : ∀ gs, ¬ ConnectedGateways t ns gs := by
    rintro gs ⟨g, hg, -⟩
    rw [hl] at hg; cases hg
  have fits : ∀ (kind : RouteKind) (others : List Nat), others.Nodup → k - 1 ≤ others.length →
      (∀ x ∈ others, x < t.mixnodes.length ∧ x ≠ i) → (∀ d, otherEnd kind = some d → d ∉ others) →
      Fits t ns kind k (others.take (k - 1)) := by
    intro kind others hn hlen hx hd
    refine ⟨⟨1, ⟨fun _ _ => rfl, fun gs hgs => absurd hgs (nogw gs)⟩, ?_⟩, ?_, ?_, ?_, .inl ⟨hn.sublist (List.take_sublist _ _), ?_⟩⟩
    · rw [List.length_take, Nat.min_eq_left hlen]; omega
    · intro x hxm
      obtain ⟨h1, h2⟩ := hx x (List.mem_of_mem_take hxm)
      refine ⟨h1, ?_⟩
      rw [hl]
      intro h
      cases h
      exact h2 rfl
    · intro gs hgs; exact absurd hgs (nogw gs)
    · intro gs hgs; exact absurd hgs (nogw gs)
    · intro d hk hm
      exact hd d hk (List.mem_of_mem_take hm)
  have hmem : i ∈ List.range t.mixnodes.length := List.mem_range.2 hi
  have hnd : ((List.range t.mixnodes.length).erase i).Nodup := List.nodup_range.erase _
  have hlen : ((List.range t.mixnodes.length).erase i).length = t.mixnodes.length - 1 := by
    rw [List.length_erase_of_mem hmem, List.length_range]
  cases loop with
  | true =>
    refine ⟨_, fits .loop ((List.range t.mixnodes.length).erase i) hnd (by omega) ?_ (by intro d hd; cases hd)⟩
    intro x hx
    rw [List.nodup_range.mem_erase_iff] at hx
    exact ⟨List.mem_range.1 hx.2, hx.1⟩
  | false =>
    obtain ⟨d, hd⟩ : ∃ d, d ∈ (List.range t.mixnodes.length).erase i := by
      cases he : (List.range t.mixnodes.length).erase i with
      | nil => rw [he] at hlen; simp only [List.length_nil] at hlen; omega
      | cons a l => exact ⟨a, List.mem_cons_self⟩
    have hd' := hd
    rw [List.nodup_range.mem_erase_iff] at hd'
    refine ⟨d, _, ⟨List.mem_range.1 hd'.2, ?_, nogw _⟩,
      fits (.toMixnode d) (((List.range t.mixnodes.length).erase i).erase d) (hnd.erase _) ?_ ?_ ?_⟩
    · rw [hl]
      intro h
      cases h
      exact hd'.1 rfl
    · rw [List.length_erase_of_mem hd]; omega
    · intro x hx
      have := List.mem_of_mem_erase hx
      rw [List.nodup_range.mem_erase_iff] at this
      exact ⟨List.mem_range.1 this.2, this.1⟩
    · intro d' he
      cases he
      rw [hnd.mem_erase_iff]
      exact fun h => h.1 rfl

/-! ### The hypotheses can be met -/
section Examples
open World

/-- Alice sends a packet although she has not posted anything. -/
theorem idle_ok : (alice.step World.C send).isOk = true := by decide +kernel
def aliceIdle : Node := ((alice.step World.C send).get idle_ok).1
def idleOut : Outcome := ((alice.step World.C send).get idle_ok).2
theorem idle_step : alice.step World.C send = .ok (aliceIdle, idleOut) := by
  unfold aliceIdle idleOut
  exact Res.eq_get2 _ idle_ok
/-- Not the packet of her request. -/
example : (match idleOut with | .authoredPacket (some p) => decide (p ≠ packet0) | _ => false) = true := by decide +kernel

/-- Alice posts a request and then sends its packet; or she does not post and sends a cover packet. -/
example : observed [ask, send] [askOut, sendOut] = observed [send] [idleOut] ∧
    observed [send] [idleOut] = [.authored true] := by
  refine ⟨(posting_unobservable toyLaws alice_reachable (by decide) (by decide)
    (.cons ask_step (.cons send_step (.nil _))) (.cons idle_step (.nil _)) ?_ ?_ rfl ?_).1, by decide +kernel⟩
  · intro c hc
    simp only [List.mem_cons, List.not_mem_nil, or_false] at hc
    rcases hc with rfl | rfl
    · exact ask_typed
    · exact send_typed
  · intro c hc
    simp only [List.mem_cons, List.not_mem_nil, or_false] at hc
    subst hc
    exact send_typed
  · intro before outs rng ns rest now he hruns s loop hs
    have hb : before = [ask] := by
      match before, he with
      | [], he => cases he
      | [a], he => simp only [List.cons_append, List.nil_append, List.cons.injEq] at he; rw [← he.1]
      | a :: b :: l, he =>
        simp only [List.cons_append, List.cons.injEq, List.append_eq, List.nil_eq, List.append_eq_nil_iff,
          reduceCtorEq, and_false] at he
    subst hb
    have hnow : now = alice1 := by
      cases hruns with
      | cons h1 h2 =>
        rw [ask_step] at h1
        cases h1
        cases h2
        rfl
    subst hnow
    have hk : alice1.config.numHops = 2 := by decide +kernel
    rw [hk]
    have : (alice1.sessionAt 0).map (fun s => decide (s.topology.localNode = .mixnode 0 ∧ s.topology.mixnodes.length = 3)) =
      some true := by decide +kernel
    have hidx : alice1.sessionStatus.currentIndex = 0 := by decide +kernel
    unfold currentSession previousSession at hs
    rw [hidx] at hs
    rcases hs with hs | hs
    · rw [hs] at this
      simp only [Option.map_some, Option.some.injEq, decide_eq_true_eq] at this
      exact cover_possible_mixnode this.1 (by omega) (by omega) (by omega) loop
    · cases hs

end Examples
end Mixnet.Props
