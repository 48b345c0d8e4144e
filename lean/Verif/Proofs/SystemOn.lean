import Verif.Proofs.SystemIds
import Verif.Props.Whole
import Verif.Props.Together
/-!
# What the calls of managers do can be told as calls of nodes; and nothing panics
-/
namespace Mixnet
open Spec Props

variable {R Ctx : Type} {C : Crypto} {T : RequestTrait R Ctx} {L : Layout C} {config : Nat → Config}
  {mc : Nat → RequestManagerConfig} {rc : Nat → ReplyManagerConfig}
  {ds : Story R Ctx} {es : List (Event C)} {ms : Nat → Machine R}

/-! ### Posting does not change whom a node knows -/

theorem agrees_same {j : Nat} {m m' : Node} (h : Agrees L j m) (h1 : m'.sessionStatus = m.sessionStatus)
    (h2 : m'.sessions = m.sessions) : Agrees L j m' := by
  intro i s hs
  refine h i s ?_
  unfold Node.sessionAt at *
  rw [h1, h2] at hs
  exact hs

theorem agrees_setFull {j : Nat} {m m' : Node} (h : Agrees L j m) (h1 : m'.sessionStatus = m.sessionStatus)
    {rel : RelSessionIndex} {s t : Session} (hs : m.sessions.get rel = .full s)
    (h2 : m'.sessions = m.sessions.set rel (.full t)) (hk : t.kxPair = s.kxPair) (ht : t.topology = s.topology) :
    Agrees L j m' := by
  intro i s' hs'
  obtain ⟨rel', a, b⟩ := Node.sessionAt_eq.1 hs'
  rw [h1] at a
  rw [h2] at b
  by_cases hr : rel' = rel
  · subst hr
    rw [get_set_self] at b
    cases b
    rw [hk, ht]
    exact h i s (Node.sessionAt_eq.2 ⟨_, a, hs⟩)
  · rw [get_set_ne _ hr] at b
    exact h i s' (Node.sessionAt_eq.2 ⟨_, a, b⟩)

/-- The call posts something. -/
def Posts : Call → Prop
  | .postRequest .. => True
  | .postReply .. => True
  | _ => False

theorem agrees_post {j : Nat} {m m' : Node} {call : Call} {out : Outcome} (h : Agrees L j m)
    (hc : StepCase C m call m' out) (hp : Posts call) : Agrees L j m' := by
  cases hc with
  | post rng j d mid data n ns m' d' r hcase =>
    cases hcase with
    | tooMany => exact agrees_same h rfl rfl
    | noSession => exact agrees_same h rfl rfl
    | noSpace => exact agrees_same h rfl rfl
    | noDestination => exact agrees_same h rfl rfl
    | failed bps rel0 s0 b rng1 acc e h1 h2 h3 h4 h5 hf => exact agrees_setFull h rfl (postSession_ok h3).2.2 rfl rfl rfl
    | posted bps rel s b rng1 acc infos met qd h1 h2 h3 => exact agrees_setFull h rfl (postSession_ok h3).2.2 rfl rfl rfl
  | reply surbs j mid data m' surbs' r hcase =>
    cases hcase with
    | tooMany => exact agrees_same h rfl rfl
    | noSession => exact agrees_same h rfl rfl
    | noSpace => exact agrees_same h rfl rfl
    | failed bps rel s rest used ps e' done bp left bad h1 h2 h3 => exact agrees_setFull h rfl (postSession_ok h3).2.2 rfl rfl rfl
    | posted bps rel s rest used ps h1 h2 h3 => exact agrees_setFull h rfl (postSession_ok h3).2.2 rfl rfl rfl
  | _ => cases hp

theorem agrees_new {j : Nat} {c : Config} {m : Node} (h : Node.new C c = .ok m) : Agrees L j m := by
  intro i s hs
  obtain ⟨rel, -, hf⟩ := Node.sessionAt_eq.1 hs
  exact absurd hf ((new_node h).1 rel s)

/-! ### Calls of nodes -/

theorem Spec.NodeCalls.append {j : Nat} {n n' n'' : Node} {a b : List (Event C)} (h : NodeCalls C L j n a n')
    (h' : NodeCalls C L j n' b n'') : NodeCalls C L j n (a ++ b) n'' := by
  induction h with
  | nil => exact h'
  | cons h1 h2 h3 h4 h5 _ ih => exact .cons h1 h2 h3 h4 h5 (ih h')

theorem Spec.NodeCalls.reachable (hC : CryptoLaws C) {j : Nat} {c : Config} {n n' : Node} {evs : List (Event C)}
    (h : NodeCalls C L j n evs n') (hr : Node.Reachable C c n) : Node.Reachable C c n' := by
  induction h with
  | nil => exact hr
  | cons h1 h2 h3 h4 h5 _ ih => exact ih (hr.step hC h2 h3)

theorem Spec.NodeCalls.agrees {j : Nat} {n n' : Node} {evs : List (Event C)}
    (h : NodeCalls C L j n evs n') (hr : Agrees L j n) : Agrees L j n' := by
  induction h with
  | nil => exact hr
  | cons h1 h2 h3 h4 h5 _ ih => exact ih h5

/-- One call that posts something. -/
theorem one_call (hC : CryptoLaws C) {j : Nat} {c : Config} {n n' : Node} (hk : c.numHops ≤ 6)
    (hr : Node.Reachable C c n) (ha : Agrees L j n) {call : Call} {out : Outcome} (hw : call.WellTyped)
    (h : n.step C call = .ok (n', out)) (ha' : Posts call ∨ Agrees L j n') :
    ∃ e : Event C, e.call = call ∧ e.out = out ∧ NodeCalls C L j n [e] n' := by
  obtain ⟨packets, hp⟩ := records_exist hC hk hr hw h j
  refine ⟨⟨j, call, out, packets⟩, rfl, rfl, .cons rfl hw h hp ?_ (.nil _)⟩
  rcases ha' with ha' | ha'
  · exact agrees_post ha (Node.step_cases hC (hr.inv hC).1 hw h) ha'
  · exact ha'

/-- What a request manager does. -/
theorem feeds_calls (hC : CryptoLaws C) {j : Nat} {c : Config} {n n' : Node} (hk : c.numHops ≤ 6)
    (hr : Node.Reachable C c n) (ha : Agrees L j n) {ns : NetworkStatus} {ctx : Ctx} {log : List (LogEntry R)}
    (h : Feeds C T ns ctx n log n') :
    ∃ evs, List.Forall₂ (PostIs T ns ctx) (log.filter isPost) evs ∧ NodeCalls C L j n evs n' := by
  induction h with
  | nil => exact ⟨[], .nil, .nil _⟩
  | @post log n1 rng i d mid r d' res n' now hf hw hp ih =>
    obtain ⟨evs, h1, h2⟩ := ih
    obtain ⟨e, he1, he2, h3⟩ := one_call hC hk (h2.reachable hC hr) (h2.agrees ha) hw
      (show n1.step C _ = .ok (n', .posted d' res) by
        show (n1.postRequest C _ _ _ _ _ _ _ >>= _) = _
        rw [hp]; rfl) (.inl trivial)
    refine ⟨evs ++ [e], ?_, h2.append h3⟩
    rw [List.filter_append]
    exact List.rel_append h1 (.cons ⟨r, i, d, mid, d', res, rng, now, rfl, he1, he2⟩ .nil)
  | @other log n1 x hf hx ih =>
    obtain ⟨evs, h1, h2⟩ := ih
    refine ⟨evs, ?_, h2⟩
    have : isPost x = false := by
      cases x with
      | post => exact absurd rfl (hx _ _ _ _ _ _)
      | _ => rfl
    rw [List.filter_append, List.filter_singleton, this]
    simpa using h1

/-- What `post_reply` of a reply context does. -/
theorem copies_calls (hC : CryptoLaws C) {j : Nat} {c : Config} (hk : c.numHops ≤ 6) {reply : Reply}
    (hid : reply.messageId.length = 16) :
    ∀ {k : Nat} {ctx ctx' : ReplyContext} {n n' : Node} {log : List ReplyPost}, Node.Reachable C c n → Agrees L j n →
    (∀ s ∈ ctx.surbs, s.length = SURB_SIZE) → ReplyContext.postReply C reply k ctx n = .ok (ctx', n', log) →
    ∃ evs, List.Forall₂ ReplyIs log evs ∧ NodeCalls C L j n evs n'
  | 0, ctx, ctx', n, n', log, _, _, _, h => by cases h; exact ⟨[], .nil, .nil _⟩
  | k + 1, ctx, ctx', n, n', log, hr, ha, hs, h => by
    have hw : Call.WellTyped (.postReply ctx.surbs ctx.sessionIndex reply.messageId (Scattered.ofSlice reply.data)) :=
      ⟨hs, hid, by simp [Scattered.ofSlice, Scattered.len, Scattered.toVec]⟩
    unfold ReplyContext.postReply at h
    rw [res_bind_eq_ok] at h
    obtain ⟨⟨n1, surbs, res⟩, h1, h⟩ := h
    obtain ⟨s1, -⟩ := postReply_surbs hid h1
    obtain ⟨e, he1, he2, h3⟩ := one_call hC hk hr ha hw
      (show n.step C _ = .ok (n1, .replied surbs res) by
        show (n.postReply C _ _ _ _ >>= _) = _
        rw [h1]; rfl) (.inl trivial)
    dsimp only at h
    cases res with
    | error err =>
      cases h
      exact ⟨[e], .cons ⟨he1, he2⟩ .nil, h3⟩
    | ok u =>
      cases u
      dsimp only at h
      rw [res_bind_eq_ok] at h
      obtain ⟨⟨ctx2, n2, log2⟩, h2, h⟩ := h
      cases h
      obtain ⟨evs, h4, h5⟩ := copies_calls hC hk hid (h3.reachable hC hr) (h3.agrees ha)
        (fun s h => hs s (s1.subset h)) h2
      exact ⟨e :: evs, .cons ⟨he1, he2⟩ h4, h3.append h5⟩

/-- What a reply manager does. -/
theorem reply_calls (hC : CryptoLaws C) {j : Nat} {c : Config} (hk : c.numHops ≤ 6) {rc : ReplyManagerConfig}
    {m m' : ReplyManager} (hI : m.Inv rc) {n n' : Node} (hr : Node.Reachable C c n) (ha : Agrees L j n) {rng : Rng}
    {now : Nat} {call : ReplyCall} (hw : ReplyCall.WellTyped call) {log : List ReplyPost} {out}
    (h : m.step C n rng now call = .ok (m', n', log, out)) :
    ∃ evs, List.Forall₂ ReplyIs log evs ∧ NodeCalls C L j n evs n' := by
  cases ReplyManager.step_does h with
  | @again message _ _ _ _ _ h1 h2 h3 =>
    exact copies_calls hC hk (hI.ids _ _ _ (LinkedMap.get?_some_mem h1)) hr ha
      (show ∀ s ∈ (⟨message.sessionIndex, message.id, message.surbs⟩ : ReplyContext).surbs, s.length = SURB_SIZE from hw) h3
  | completed h1 h2 h3 => exact copies_calls hC hk (fillBytes_length _ _) hr ha hw h2
  | _ => exact ⟨[], .nil, .nil _⟩

/-! ### The managers are in use -/

theorem Spec.NodeCalls.inUse {j : Nat} {c : Config} {rm : RequestManagerConfig} {m : RequestManager R} {n n' : Node}
    {evs : List (Event C)} (h : NodeCalls C L j n evs n') (hi : InUse C T c rm m n) (hp : ∀ e ∈ evs, Posts e.call) :
    InUse C T c rm m n' := by
  induction h with
  | nil => exact hi
  | @cons n n1 n2 e evs h1 h2 h3 h4 h5 _ ih =>
    refine ih (.node hi h2 ?_ h3) fun e' he' => hp e' (List.mem_cons_of_mem _ he')
    have := hp e List.mem_cons_self
    generalize e.call = call at *
    cases call with
    | setSessionStatus => cases this
    | _ => trivial

theorem Spec.NodeCalls.replyInUse {j : Nat} {c : Config} {rm : ReplyManagerConfig} {m : ReplyManager} {n n' : Node}
    {evs : List (Event C)} (h : NodeCalls C L j n evs n') (hi : ReplyInUse C c rm m n) : ReplyInUse C c rm m n' := by
  induction h with
  | nil => exact hi
  | cons h1 h2 h3 h4 h5 _ ih => exact ih (.node hi h2 h3)

/-- Every machine is in use. -/
theorem running_in_use (h : Running C T L config mc rc ds es ms) (j : Nat) :
    InUse C T (config j) (mc j) (ms j).requests (ms j).node ∧
    ReplyInUse C (config j) (rc j) (ms j).replies (ms j).node ∧ Agrees L j (ms j).node := by
  induction h with
  | start h1 h2 h3 =>
    obtain ⟨now, h2⟩ := h2 j
    rw [h2, h3 j]
    exact ⟨.start (h1 j), .start (h1 j), agrees_new (h1 j)⟩
  | @step ds es ms m' k d evs hr hw hp hd hm hn ih =>
    by_cases hj : j = k
    · subst hj
      rw [Function.update_self]
      obtain ⟨i1, i2, i3⟩ := ih
      cases d with
      | node call out =>
        obtain ⟨h1, h2, h3⟩ := hd
        rw [h2, h3]
        refine ⟨.node i1 hw ?_ h1, .node i2 hw h1, hn.agrees i3⟩
        cases call with
        | setSessionStatus st => exact hp
        | _ => trivial
      | request env ns ctx call log out =>
        obtain ⟨h1, h2⟩ := hd
        rw [h2]
        exact ⟨.manager i1 hw h1, hn.replyInUse i2, hn.agrees i3⟩
      | reply rng now call log out =>
        obtain ⟨h1, h2⟩ := hd
        rw [h2]
        refine ⟨hn.inUse i1 fun e he => ?_, .manager i2 hw h1, hn.agrees i3⟩
        obtain ⟨x, -, hx, -⟩ := forall₂_mem_right (show List.Forall₂ ReplyIs log evs from hm) he
        rw [hx]
        trivial
    · rw [Function.update_of_ne hj]
      exact ih

end Mixnet
