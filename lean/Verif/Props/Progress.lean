import Verif.Proofs.Progress
/-!
# C81: a request waiting in the request manager is tried when it is its turn
-/
namespace Mixnet.Props
open Mixnet Spec

variable {R Ctx : Type} {C : Crypto} {T : RequestTrait R Ctx} {m m' : RequestManager R} {rs cs : List (Round R)} {s : RequestState R}

theorem in_turn {rel : Option RelSessionIndex} (h : Rounds C T m rs m')
    (hst : rel = none ∨ ((∀ r ∈ rs, r.before.sessionStatus = m.sessionStatus) ∧ m'.sessionStatus = m.sessionStatus)) {k : Nat}
    (hp : Behind rel s k m) (hsub : cs.Sublist rs) (hc : ∀ c ∈ cs, c.Chance rel) (hk : k < cs.length) :
    ∃ r ∈ rs, r.Frees s := by
  induction h generalizing k cs with
  | nil m =>
    rw [List.sublist_nil.1 hsub] at hk
    exact absurd hk (by simp)
  | @cons m n env ns ctx call m1 n1 log out rs m' hstep hrest ih =>
    have hrel : rel = none ∨ m1.sessionStatus = m.sessionStatus := by
      rcases hst with h | ⟨h1, h2⟩
      · exact .inl h
      · right
        cases hrest with
        | nil => exact h2
        | cons => exact h1 _ (List.mem_cons_of_mem _ List.mem_cons_self)
    have hst' : rel = none ∨ ((∀ r ∈ rs, r.before.sessionStatus = m1.sessionStatus) ∧ m'.sessionStatus = m1.sessionStatus) := by
      rcases hst with h | ⟨h1, h2⟩
      · exact .inl h
      · rcases hrel with h | h
        · exact .inl h
        · exact .inr ⟨fun r hr => by rw [h]; exact h1 r (List.mem_cons_of_mem _ hr), by rw [h]; exact h2⟩
    have done : ∀ {k' : Nat} {cs' : List (Round R)}, Behind rel s k' m1 → cs'.Sublist rs → (∀ c ∈ cs', c.Chance rel) →
        k' < cs'.length → ∃ r ∈ (⟨m, n, call, log, out⟩ : Round R) :: rs, r.Frees s := fun a b c d => by
      obtain ⟨r, hr, hf⟩ := ih hst' a b c d
      exact ⟨r, List.mem_cons_of_mem _ hr, hf⟩
    cases hsub with
    | cons _ hsub =>
      rcases place_step hstep hrel hp with hf | hp'
      · exact ⟨_, List.mem_cons_self, hf⟩
      · exact done hp' hsub hc hk
    | cons_cons _ hsub =>
      rcases place_chance hstep (hc _ List.mem_cons_self) hp with hf | ⟨j, hj, hp'⟩
      · exact ⟨_, List.mem_cons_self, hf⟩
      · refine done hp' hsub (fun c h => hc c (List.mem_cons_of_mem _ h)) ?_
        simp only [List.length_cons] at hk
        omega

/-- **C81.** A request waits in the default queue of a request manager behind some others. Then whatever is done with the
manager and the node, when `process_post_queues` has been called once more often than there were requests before it, each time
with no packets of the user left in the session, it has been tried (posted, or refused for another reason than lack of space)
or was removed. Session changes and requests inserted or retried later make no difference. -/
theorem tried_in_turn (h : Rounds C T m rs m') {before after : List (RequestState R)}
    (hq : m.postQueues.default = before ++ s :: after) (hsub : cs.Sublist rs) (hc : ∀ c ∈ cs, c.Chance none)
    (hk : before.length < cs.length) : ∃ r ∈ rs, r.Frees s :=
  in_turn h (.inl rfl) ⟨before, after, hq, Nat.le_refl _⟩ hsub hc hk

/-- **C81.** The same for requests bound to a session, as long as the session status is the same; here only those calls count
at which no request in the default queue waits for that session, because those go first. -/
theorem bound_tried_in_turn (h : Rounds C T m rs m') {rel : RelSessionIndex}
    (hst : ∀ r ∈ rs, r.before.sessionStatus = m.sessionStatus) (hst' : m'.sessionStatus = m.sessionStatus)
    {before after : List (RequestState R)} (hq : m.postQueues.get (some rel) = before ++ s :: after) (hsub : cs.Sublist rs)
    (hc : ∀ c ∈ cs, c.Chance (some rel)) (hk : before.length < cs.length) : ∃ r ∈ rs, r.Frees s :=
  in_turn h (.inr ⟨hst, hst'⟩) ⟨before, after, hq, Nat.le_refl _⟩ hsub hc hk

/-- **C81.** From `insert` on: when `process_post_queues` has been called as often as the manager has capacity for requests, each
time with no packets of the user left in the session, the request has been posted, or was refused for another reason than lack
of space, or was removed. -/
theorem inserted_tried {n n1 : Node} {env : Env} {ns : NetworkStatus} {ctx : Ctx} {m1 : RequestManager R} {log out} {r : R}
    (hi : m.step C T n env ns ctx (.insert r) = .ok (m1, n1, log, out)) (hd : 1 ≤ m.config.numDestinations)
    (h : Rounds C T m1 rs m') (hsub : cs.Sublist rs) (hc : ∀ c ∈ cs, c.Chance none) (hk : m.config.capacity ≤ cs.length) :
    ∃ mid, .newId r mid ∈ log ∧
      ((∃ i d d' res, .post r i d mid d' res ∈ log ++ rs.flatMap (·.log) ∧ res ≠ .error .notEnoughSpaceInQueue) ∨
        ∃ t ∈ rs, t.call = .remove mid ∧ t.out = .removed (some r)) := by
  unfold RequestManager.step at hi
  rw [res_bind_eq_ok] at hi
  obtain ⟨w, hw, hi⟩ := hi
  cases hi
  unfold Work.insert at hw
  rw [res_bind_eq_ok] at hw
  obtain ⟨_, hsp, hw⟩ := hw
  have hsp : m.hasSpace = true := assert_of_ok hsp
  obtain ⟨-, w1, l, e1, -, e3, e4⟩ := retry_spec hw
  dsimp only at e1 e3
  generalize hm1 : w1.mgr = m1 at e1
  cases e1 with
  | limit _ h0 => dsimp only at h0; omega
  | @again s1 l1 rel s2 l2 _ hrec hpl =>
    cases hrec with
    | attempt h0 => cases h0
    | @destination d id h1 h2 h3 =>
      have hrel : rel = none ∧ s2.messageId = id ∧ s2.request = r ∧ l2 = [] := by
        cases hpl with
        | unbound => exact ⟨rfl, rfl, rfl, rfl⟩
        | bound h => cases h
        | moved h => cases h
      obtain ⟨rfl, rfl, rfl, rfl⟩ := hrel
      have hb : Behind none s2 m.postQueues.default.length w1.mgr := by
        rw [hm1]
        exact ⟨m.postQueues.default, [], rfl, Nat.le_refl _⟩
      have hlen : m.postQueues.default.length < cs.length := by
        refine Nat.lt_of_lt_of_le ?_ hk
        unfold RequestManager.hasSpace at hsp
        have := of_decide_eq_true hsp
        simp only [PostQueues.iter, List.map_cons, List.map_nil, List.sum_cons, List.sum_nil] at this
        omega
      have hnew : ∀ l' : List (LogEntry R), .newId s2.request s2.messageId ∈ w1.log ++ l' := fun l' => by
        rw [e3]; simp
      obtain ⟨l', hl'⟩ : ∃ l', w.log = w1.log ++ l' := calms_log (e4 [] [])
      refine ⟨s2.messageId, by rw [hl']; exact hnew l', ?_⟩
      have conv : ∀ {lg : List (LogEntry R)}, TriedIn s2 lg → (∀ x ∈ lg, x ∈ w.log ++ rs.flatMap (·.log)) →
          ∃ i d d' res, .post s2.request i d s2.messageId d' res ∈ w.log ++ rs.flatMap (·.log) ∧
            res ≠ .error .notEnoughSpaceInQueue := by
        rintro lg ⟨i, d', res, a, b⟩ hx
        exact ⟨i, _, d', res, hx _ a, b⟩
      rcases placed_calms (rel := none) (s := s2) (k := m.postQueues.default.length) (.inr (.inr hb)) (e4 [] []) with hx | hx | hx
      · exact .inl (conv hx fun x hx => List.mem_append_left _ hx)
      · cases hx
      · obtain ⟨t, ht, hf | ⟨hf1, hf2⟩⟩ := in_turn h (.inl rfl) hx hsub hc hlen
        · exact .inl (conv hf fun x hx => List.mem_append_right _ (List.mem_flatMap.2 ⟨t, ht, hx⟩))
        · exact .inr ⟨t, ht, hf1, hf2⟩

end Mixnet.Props
