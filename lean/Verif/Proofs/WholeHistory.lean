import Verif.Proofs.WholeStep
/-!
# Everything that happens in a whole network
-/
namespace Mixnet
open Spec Props

variable {C : Crypto} {L : Layout C} {config : Nat → Config} {es : List (Event C)} {nodes : Nat → Node}

theorem IdsMean.sub {es' : List (Event C)} (h : IdsMean es') (hs : ∀ e ∈ es, e ∈ es') : IdsMean es :=
  ⟨fun e he e' he' => h.requests e (hs e he) e' (hs e' he'), fun e he e' he' => h.replies e (hs e he) e' (hs e' he'),
    fun e he e' he' => h.kinds e (hs e he) e' (hs e' he')⟩

theorem SurbsDiffer.sub {es' : List (Event C)} (h : SurbsDiffer es') (hs : ∀ e ∈ es, e ∈ es') : SurbsDiffer es :=
  fun e he e' he' => h e (hs e he) e' (hs e' he')

/-- What holds of a network after `es`. -/
structure WholeSound (L : Layout C) (config : Nat → Config) (es : List (Event C)) (nodes : Nat → Node) : Prop where
  reach : ∀ j, Node.Reachable C (config j) (nodes j)
  agree : ∀ j, Agrees L j (nodes j)
  node : ∀ j, NodeSound L es j (nodes j)
  good : ∀ e ∈ es, Event.Good L e
  sent : ∀ p ∈ sentPackets es, Genuine L es p
  surbs : ∀ j, ∀ s ∈ deliveredSurbs j es, SurbFor L es j s
  caused : ∀ a e b, es = a ++ e :: b → e.Caused L a

theorem new_node {c : Config} {m : Node} (h : Node.new C c = .ok m) : (∀ rel s, m.sessions.get rel ≠ .full s) ∧
    m.forwardPacketQueue.queue = [] ∧ storedFragments m.fragmentAssembler = [] ∧ m.surbKeystore.surbs = [] := by
  unfold Node.new at h
  rw [res_bind_eq_ok] at h
  obtain ⟨k, hk, h⟩ := h
  simp only [Except.ok.injEq] at h
  subst h
  refine ⟨fun rel s h => ?_, rfl, rfl, ?_⟩
  · cases rel with
    | current => cases hc : c.session0KxSecret <;> simp [Sessions.get, hc] at h
    | prev => cases h
  · unfold SurbKeystore.new at hk
    rw [res_bind_eq_ok] at hk
    obtain ⟨-, -, hk⟩ := hk
    cases hk
    rfl

theorem whole_sound (hC : CryptoLaws C) (hk : ∀ j, (config j).numHops ≤ 6) (h : History C L config es nodes)
    (hids : IdsMean es) (hdiff : SurbsDiffer es) (hone : OpenedByOne L es) : WholeSound L config es nodes := by
  induction h with
  | @start nodes hnew =>
    refine ⟨fun j => ⟨_, [], [], hnew j, fun c h => (by cases h), .nil _⟩, fun j i s hs => ?_, fun j => ?_,
      fun e h => (by cases h), fun p h => (by cases h), fun j s h => (by cases h), fun a e b h => ?_⟩
    · obtain ⟨rel, -, h⟩ := Node.sessionAt_eq.1 hs
      exact absurd h ((new_node (hnew j)).1 rel s)
    · obtain ⟨n1, n2, n3, n4⟩ := new_node (hnew j)
      refine ⟨fun p ⟨rel, s, h, _⟩ => absurd h (n1 rel s), ?_, ?_, ?_⟩
      · rw [n2]; intro p h; cases h
      · rw [n3]; intro p h; cases h
      · rw [n4]; intro p h; cases h
    · simp at h
  | @step es nodes n' e hh hw hal hstep hrec hagree ih =>
    have hmono : ∀ e' ∈ es, e' ∈ es ++ [e] := fun e' h => List.mem_append_left _ h
    have hids' := IdsMean.sub hids hmono
    have hdiff' := SurbsDiffer.sub hdiff hmono
    have hone' : OpenedByOne L es := fun p hp => hone p (sentPackets_sub hmono p hp)
    have S := ih hids' hdiff' hone'
    obtain ⟨g1, g2, g3, g4⟩ := step_sound hC (S.reach _) (hk _) S.good hids' hdiff' hone' S.sent (S.surbs _) e rfl
      (S.agree _) (S.node _) hw hal hstep hrec
    refine ⟨fun j => ?_, fun j => ?_, fun j => ?_, fun e' h => ?_, fun p hp => ?_, fun j s hs => ?_, fun a e' b h => ?_⟩
    · by_cases hj : j = e.machine
      · subst hj; rw [Function.update_self]; exact (S.reach _).step hC hw hstep
      · rw [Function.update_of_ne hj]; exact S.reach j
    · by_cases hj : j = e.machine
      · subst hj; rw [Function.update_self]; exact hagree
      · rw [Function.update_of_ne hj]; exact S.agree j
    · by_cases hj : j = e.machine
      · subst hj; rw [Function.update_self]; exact g2
      · rw [Function.update_of_ne hj]; exact (S.node j).mono hmono
    · rcases List.mem_append.1 h with h | h
      · exact S.good e' h
      · rw [List.mem_singleton.1 h]; exact g1
    · rw [sentPackets_eq, List.flatMap_append] at hp
      rcases List.mem_append.1 hp with hp | hp
      · exact (S.sent p (by rw [sentPackets_eq]; exact hp)).mono hmono
      · exact (g3 p (by simpa using hp)).mono hmono
    · unfold deliveredSurbs at hs
      rw [List.flatMap_append] at hs
      replace hs := List.mem_append.1 hs
      rcases hs with hs | hs
      · exact (S.surbs j s hs).mono hmono
      · simp only [List.flatMap_cons, List.flatMap_nil, List.append_nil] at hs
        split at hs
        · rename_i msg hout
          split at hs
          · rename_i hj
            subst hj
            obtain ⟨_, _, _, _, _, _, _, hc⟩ := g4.request msg hout
            obtain ⟨e', he', x, hx, rfl, i', d', hr, hh⟩ := hc s hs
            exact ⟨e', hmono e' he', x, hx, rfl, i', d', _, _, _, hr, hh⟩
          · cases hs
        · cases hs
    · rcases List.eq_nil_or_concat b with rfl | ⟨b', e'', rfl⟩
      · have := List.append_inj' h rfl
        obtain ⟨rfl, h2⟩ := this
        cases h2
        exact g4
      · have h' : es ++ [e] = (a ++ e' :: b') ++ [e''] := by rw [h]; simp
        obtain ⟨rfl, -⟩ := List.append_inj' h' rfl
        exact S.caused a e' b' rfl

end Mixnet
