import Verif.Proofs.SystemOn
/-!
# C76, C77: a whole network, with request managers and reply managers
-/
namespace Mixnet.Props
open Mixnet.Spec

variable {R Ctx : Type} {C : Crypto} {T : RequestTrait R Ctx} {L : Layout C} {config : Nat → Config}
  {mc : Nat → RequestManagerConfig} {rc : Nat → ReplyManagerConfig} {ds : Story R Ctx} {es : List (Event C)}
  {ms : Nat → Machine R}

/-- Message IDs are drawn for requests that were inserted. -/
theorem id_inserted (h : Running C T L config mc rc ds es ms) {j : Nat} {r : R} {mid : MessageId} (hi : IdOf ds j r mid) :
    Inserted ds j r := by
  obtain ⟨now, h⟩ := running_requests h j
  haveI := Classical.decEq R
  obtain ⟨k, hk, -⟩ := changes_counted h
  have hb := nodup_owned hk (List.nodup_singleton mid) (r := r) fun id hid => by
    rw [List.mem_singleton] at hid
    subst hid
    exact idOf_iff.1 hi
  have hm : r ∈ inserted (requestCalls j ds) := by
    rw [← List.count_pos_iff]
    rcases Nat.eq_zero_or_pos ((inserted (requestCalls j ds)).count r) with h0 | h0
    · rw [h0] at hb; simp at hb
    · exact h0
  unfold inserted at hm
  obtain ⟨call, hm, hr⟩ := List.mem_flatMap.1 hm
  unfold requestCalls at hm
  obtain ⟨⟨j', d⟩, hd, hm⟩ := List.mem_flatMap.1 hm
  dsimp only at hm
  split at hm
  · rename_i hj
    subst hj
    cases d with
    | request env ns ctx call' log out =>
      rw [List.mem_singleton] at hm
      subst hm
      cases call <;> simp at hr
      subst hr
      exact ⟨_, _, _, _, _, hd⟩
    | _ => cases hm
  · cases hm

/-- A request that a node delivered is a request of some machine. -/
theorem got_handles (hC : CryptoLaws C) (hk : ∀ j, (config j).numHops ≤ 6) (h : Running C T L config mc rc ds es ms)
    (hf : IdsFresh ds) (hT : Constant T) (hdiff : SurbsDiffer es) (hone : OpenedByOne L es) {k : Nat} {r : RequestMessage}
    (hg : Got ds k r) : ∃ j q, HandlesFor T L ds k ⟨r.sessionIndex, r.id, r.surbs⟩ r.data j q := by
  obtain ⟨e, he, rfl, ho⟩ := got_event h hg
  obtain ⟨a, b, rfl⟩ := List.append_of_mem he
  obtain ⟨e1, he1, d, n, hreq, hhost, hn, -⟩ := requests_have_cause hC hk (running_history h) (ids_mean h hf hT) hdiff hone
    rfl ho
  obtain ⟨q, c, hs, hid, hd, hnum⟩ := request_event h (List.mem_append_left _ he1) hreq
  refine ⟨e1.machine, q, id_inserted h hid, hid, ⟨d, ?_, hhost⟩, c, hd, hn.trans hnum⟩
  obtain ⟨d0, est, hp⟩ := mem_sendings.1 hs
  obtain ⟨env, ns, ctx, call, log, out, hm, hx⟩ := mem_requestLog.1 hp
  exact ⟨env, ns, ctx, call, log, out, hm, d0, est, hx⟩

theorem surbsDiffer_sub {es es' : List (Event C)} (h : SurbsDiffer es) (hs : ∀ e ∈ es', e ∈ es) : SurbsDiffer es' :=
  fun e he e' he' => h e (hs e he) e' (hs e' he')

theorem surbsUnlike_sub {es es' : List (Event C)} (h : SurbsUnlike es) (hs : ∀ e ∈ es', e ∈ es) : SurbsUnlike es' :=
  fun e he e' he' => h e (hs e he) e' (hs e' he')

theorem openedByOne_sub {es es' : List (Event C)} (h : OpenedByOne L es) (hs : ∀ e ∈ es', e ∈ es) : OpenedByOne L es' := by
  intro p hp
  obtain ⟨e, he, hx⟩ := List.mem_flatMap.1 hp
  exact h p (List.mem_flatMap.2 ⟨e, hs e he, hx⟩)

/-- C76: whatever a reply manager gives a program to handle is a request that was inserted before into the request
manager of some machine, and sent to this machine; its data are unaltered. -/
theorem handled_is_request (hC : CryptoLaws C) (hk : ∀ j, (config j).numHops ≤ 6)
    (h : Running C T L config mc rc ds es ms) (hf : IdsFresh ds) (hT : Constant T) (hdiff : SurbsDiffer es)
    (hone : OpenedByOne L es) {before after : Story R Ctx} {k : Nat} {rng : Rng} {now : Nat} {msg : RequestMessage}
    {log : List ReplyPost} {ctx : ReplyContext} {data : Bytes}
    (hd : ds = before ++ (k, .reply rng now (.insert msg) log (some (ctx, data))) :: after) :
    ∃ j r, HandlesFor T L before k ctx data j r := by
  obtain ⟨ea, evs, eb, ms', m', rfl, hr, -, hp, hd', -, -⟩ := h.split hd
  subst hd
  have hsub : ∀ e ∈ ea, e ∈ ea ++ evs ++ eb := fun e he => by simp [he]
  obtain ⟨j, r, hh⟩ := got_handles hC hk hr (Spec.IdsFresh.prefix hf) hT (surbsDiffer_sub hdiff hsub)
    (openedByOne_sub hone hsub) (hp : Got before k msg)
  refine ⟨j, r, ?_⟩
  have hc := ReplyManager.step_does hd'.1
  generalize m'.replies = mr at hc
  generalize m'.node = mn at hc
  cases hc with
  | handOut => exact hh

/-- C76: every reply a node delivers is what a program said about a request of this machine. -/
theorem reply_is_answer (hC : CryptoLaws C) (hk : ∀ j, (config j).numHops ≤ 6)
    (h : Running C T L config mc rc ds es ms) (hf : IdsFresh ds) (hT : Constant T) (hdiff : SurbsDiffer es)
    (hunlike : SurbsUnlike es) (hone : OpenedByOne L es) {before after : Story R Ctx} {j : Nat} {call : Call}
    {msg : ReplyMessage} (hd : ds = before ++ (j, .node call (.message (some (.reply msg)))) :: after) :
    ∃ r, AnswerTo T L before msg j r := by
  obtain ⟨ea, evs, eb, ms', m', rfl, hr, -, -, -, hmade, hn⟩ := h.split hd
  subst hd
  obtain ⟨e, rfl, rfl, ho⟩ := hmade
  have hj : e.machine = j := hn.machine e (by simp)
  subst hj
  obtain ⟨e1, he1, e2, he2, hm1, i, d, l, n, hreq, hhost, surbs, mid, hrep, x, hx, hxs⟩ := replies_have_cause hC hk
    (running_history h) (ids_mean h hf hT) hdiff hone (List.append_assoc ea [e] eb) ho
  have hsub : ∀ e' ∈ ea, e' ∈ ea ++ [e] ++ eb := fun e he => by simp [he]
  have hf' := Spec.IdsFresh.prefix hf
  have hdiff' := surbsDiffer_sub hdiff hsub
  have hunlike' := surbsUnlike_sub hunlike hsub
  have hone' := openedByOne_sub hone hsub
  have hmean := ids_mean hr hf' hT
  obtain ⟨q, c, hs, hid, hl, hnum⟩ := request_event hr he1 hreq
  obtain ⟨r', hg, hsurbs, rng, now, ctx, log, out, y, hcomp, hcid, -⟩ := reply_event hr he2 hrep
  -- the request completed is the one asked
  have hrid : r'.id = msg.requestId := by
    obtain ⟨e3, he3, -, ho3⟩ := got_event hr hg
    obtain ⟨a, b, rfl⟩ := List.append_of_mem he3
    obtain ⟨_, _, _, _, _, _, _, hall⟩ := requests_have_cause hC hk (running_history hr) hmean hdiff' hone' rfl ho3
    obtain ⟨e', he', x', hx', hxe, i', d', hreq', -⟩ := hall _ (hsurbs _ hxs)
    obtain ⟨rfl, -⟩ := hunlike' e' (List.mem_append_left _ he') e1 he1 x' hx' x hx hxe
    rw [hreq] at hreq'
    simp only [Option.some.injEq, Prod.mk.injEq] at hreq'
    exact hreq'.2.2.1.symm
  obtain ⟨a, b, hab⟩ := List.append_of_mem hcomp
  obtain ⟨_, _, _, _, _, _, _, _, hp, -, -, -⟩ := hr.split hab
  obtain ⟨data', rng', now', msg', log', hho⟩ : ∃ data', HandedOut a e2.machine ctx data' := hp
  have hmem := List.mem_append_left ((e2.machine, .reply rng now (.complete ctx msg.data) (y :: log) out) :: b) hho
  rw [← hab] at hmem
  obtain ⟨a2, b2, hab2⟩ := List.append_of_mem hmem
  have hho' : HandedOut before e2.machine ctx data' := ⟨_, _, _, _, hmem⟩
  obtain ⟨j', r, hh⟩ := handled_is_request hC hk hr hf' hT hdiff' hone' hab2
  have hcid' : ctx.messageId = msg.requestId := hcid.trans hrid
  have mono : ∀ z ∈ a2, z ∈ before := fun z hz => by rw [hab2]; simp [hz]
  have hh' : HandlesFor T L before e2.machine ctx data' j' r := by
    obtain ⟨⟨a, b, c, d, e, h1⟩, ⟨a', b', c', d', e', f', h2, h2'⟩, ⟨f, ⟨g1, g2, g3, g4, g5, g6, h3, h3'⟩, h4⟩, h5⟩ := hh
    exact ⟨⟨a, b, c, d, e, mono _ h1⟩, ⟨a', b', c', d', e', f', mono _ h2, h2'⟩,
      ⟨f, ⟨g1, g2, g3, g4, g5, g6, mono _ h3, h3'⟩, h4⟩, h5⟩
  obtain ⟨rfl, rfl⟩ := id_unique hf' (hcid' ▸ hh'.2.1) hid
  rw [hm1] at hh'
  exact ⟨r, e2.machine, ctx, data', hho', hh', hcid', rng, now, ctx, y :: log, out, hcomp, hcid'⟩

/-- C76: when the request manager gives back a request for the message ID that a delivered reply answers, the reply is
what a program said about this request. -/
theorem removed_is_answered (hC : CryptoLaws C) (hk : ∀ j, (config j).numHops ≤ 6)
    (h : Running C T L config mc rc ds es ms) (hf : IdsFresh ds) (hT : Constant T) (hdiff : SurbsDiffer es)
    (hunlike : SurbsUnlike es) (hone : OpenedByOne L es) {before after : Story R Ctx} {j : Nat} {call : Call}
    {msg : ReplyMessage} (hgot : (j, .node call (.message (some (.reply msg)))) ∈ before) {env ns c log} {r : R}
    (hd : ds = before ++ (j, .request env ns c (.remove msg.requestId) log (.removed (some r))) :: after) :
    AnswerTo T L before msg j r := by
  obtain ⟨ea, evs, eb, ms', m', rfl, hr, -, -, ⟨hd', -⟩, -, -⟩ := h.split hd
  subst hd
  have hsub : ∀ e' ∈ ea, e' ∈ ea ++ evs ++ eb := fun e he => by simp [he]
  have hf' := Spec.IdsFresh.prefix hf
  obtain ⟨a, b, rfl⟩ := List.append_of_mem hgot
  obtain ⟨q, k, ctx, data, ⟨rng', now', msg', log', h1⟩, hh, hcid, ⟨w1, w2, w3, w4, w5, h3, h3'⟩⟩ :=
    reply_is_answer hC hk hr hf' hT (surbsDiffer_sub hdiff hsub) (surbsUnlike_sub hunlike hsub)
    (openedByOne_sub hone hsub) rfl
  have mono : ∀ z ∈ a, z ∈ a ++ (j, .node call (.message (some (.reply msg)))) :: b := fun z hz => by simp [hz]
  have hh' : HandlesFor T L (a ++ (j, .node call (.message (some (.reply msg)))) :: b) k ctx data j q := by
    obtain ⟨⟨a, b, c, d, e, h1⟩, ⟨a', b', c', d', e', f', h2, h2'⟩, ⟨f, ⟨g1, g2, g3, g4, g5, g6, h3, h3'⟩, h4⟩, h5⟩ := hh
    exact ⟨⟨a, b, c, d, e, mono _ h1⟩, ⟨a', b', c', d', e', f', mono _ h2, h2'⟩,
      ⟨f, ⟨g1, g2, g3, g4, g5, g6, mono _ h3, h3'⟩, h4⟩, h5⟩
  have hrm : ((ms' j).requests.remove msg.requestId).2 = some r := by
    have h0 : (Except.ok (((ms' j).requests.remove msg.requestId).1, (ms' j).node, [],
      ManagerOutcome.removed ((ms' j).requests.remove msg.requestId).2) : Res _) =
        .ok (m'.requests, m'.node, log, .removed (some r)) := hd'
    generalize (ms' j).requests.remove msg.requestId = z at h0
    simp only [Except.ok.injEq, Prod.mk.injEq, ManagerOutcome.removed.injEq] at h0
    exact h0.2.2.2
  obtain ⟨s, rfl, hsid, hs, -⟩ := (remove_returns (m := (ms' j).requests) msg.requestId).1 _ hrm
  rw [states_iff] at hs
  obtain ⟨now, hreach⟩ := running_requests hr j
  have hown := (owned_reached hreach).states s hs
  rw [hsid] at hown
  obtain ⟨-, rfl⟩ := id_unique hf' (idOf_iff.2 hown) (hcid ▸ hh'.2.1)
  exact ⟨k, ctx, data, ⟨rng', now', msg', log', mono _ h1⟩, hh', hcid, ⟨w1, w2, w3, w4, w5, mono _ h3, h3'⟩⟩

/-! ### C77 -/

section
variable (hC : CryptoLaws C) (hs : ∀ j, Sane (config j)) (hT : ∀ r ctx, (T.data r ctx).len = (T.data r ctx).toVec.length)
  (h1 : ∀ j, 1 ≤ (mc j).numPostsPerAttempt) (h2 : ∀ j, 1 ≤ (mc j).numAttemptsPerDestination)
  (h : Running C T L config mc rc ds es ms) (j : Nat)
include hC hs hT h1 h2 h

/-- Whatever was called, permitted, and succeeded, is something that can happen in the network, if the node still knows
the right mixnodes. -/
theorem explained {d : Deed R Ctx} {m' : Machine R} (hw : d.WellTyped) (hp : Permitted C ds es j (ms j).node d)
    (hd : d.Does C T (ms j) m') (ha' : Agrees L j m'.node) :
    ∃ evs, Running C T L config mc rc (ds ++ [(j, d)]) (es ++ evs) (Function.update ms j m') := by
  have hr := nodes_reachable hC (running_history h) j
  obtain ⟨hin, -, ha⟩ := running_in_use h j
  cases d with
  | node call out =>
    obtain ⟨e, he1, he2, hn⟩ := one_call hC (hs j).hops hr ha hw hd.1 (.inr ha')
    exact ⟨[e], .step j (.node call out) [e] h hw hp hd ⟨e, rfl, he1, he2⟩ hn⟩
  | request env ns ctx call log out =>
    obtain ⟨-, hg, hb, hc⟩ := in_use hC (hs j) hT (h1 j) (h2 j) hin
    have hsp : ∀ r, call = .insert r → (ms j).requests.hasSpace = true := by
      rintro r rfl
      cases hh : (ms j).requests.hasSpace with
      | true => rfl
      | false =>
        exfalso
        have : (ms j).requests.step C T (ms j).node env ns ctx (.insert r) = .error ⟨"self.has_space()"⟩ := by
          show ((do assertP "self.has_space()" (ms j).requests.hasSpace; _) >>= _) = _
          rw [hh]; rfl
        have hx := hd.1
        rw [this] at hx; cases hx
    obtain ⟨-, -, hfeeds⟩ := (manager_fine hC (hs j) hT hw (env := env) (ctx := ctx) (call := call) hr hg hb
      (by rw [hc]; exact h1 j) (by rw [hc]; exact h2 j) hsp).2 _ hd.1
    obtain ⟨evs, e1, e2⟩ := feeds_calls hC (hs j).hops hr ha hfeeds
    exact ⟨evs, .step j _ evs h hw hp hd e1 e2⟩
  | reply rng now call log out =>
    obtain ⟨evs, e1, e2⟩ := reply_calls hC (hs j).hops (Props.ReplyReached.inv (running_replies h j)) hr ha hw hd.1
    exact ⟨evs, .step j _ evs h hw hp hd e1 e2⟩

omit hT h1 h2 in
/-- C77: any call of a node that is permitted succeeds, and what happened then is again something that can happen in
the network, provided that the node is told the right mixnodes. -/
theorem node_goes_on {call : Call} (hw : call.WellTyped)
    (hp : ∀ out, Permitted C ds es j (ms j).node (.node call out : Deed R Ctx)) :
    ∃ n' out, (ms j).node.step C call = .ok (n', out) ∧
      (Agrees L j n' → ∃ evs, Running C T L config mc rc (ds ++ [(j, .node call out)]) (es ++ evs)
        (Function.update ms j { ms j with node := n' })) := by
  have hr := nodes_reachable hC (running_history h) j
  have hnp : ∀ rng i d mid data n ns, call ≠ .postRequest rng i d mid data n ns := by
    rintro rng i d mid data n ns rfl
    exact hp (.message none)
  have hde : DestinationExists (ms j).node call := by
    cases call with
    | postRequest => exact absurd rfl (hnp _ _ _ _ _ _ _)
    | _ => trivial
  rcases ((no_panic hC (hs j)).2 _ hr).1 call hw hde with ⟨n', out, hst⟩ | ⟨rng, i, d, mid, data, n, ns, rfl, -⟩
  · refine ⟨n', out, hst, fun ha => ?_⟩
    obtain ⟨e, he1, he2, hn⟩ := one_call hC (hs j).hops hr (running_in_use h j).2.2 hw hst (.inr ha)
    exact ⟨[e], .step j (.node call out) [e] h hw (hp out) ⟨hst, rfl, rfl⟩ ⟨e, rfl, he1, he2⟩ hn⟩
  · exact absurd rfl (hnp _ _ _ _ _ _ _)

/-- C77: any call of a request manager succeeds, unless a random SURB ID repeats, and what happened then is again
something that can happen in the network. -/
theorem request_goes_on (env : Env) {ns : NetworkStatus} (hns : ns.localPeerId.length = PEER_ID_SIZE) (ctx : Ctx)
    (call : ManagerCall R) (hsp : ∀ r, call = .insert r → (ms j).requests.hasSpace = true) :
    (∃ m' n' log out evs, (ms j).requests.step C T (ms j).node env ns ctx call = .ok (m', n', log, out) ∧
      Running C T L config mc rc (ds ++ [(j, .request env ns ctx call log out)]) (es ++ evs)
        (Function.update ms j { ms j with node := n', requests := m' })) ∨
    ((ms j).requests.step C T (ms j).node env ns ctx call = .error surbIdRepeated ∧
      ∃ n' k, PostsFrom C (ms j).node n' ∧ IdRepeats n' (env k).rng) := by
  obtain ⟨hin, -, ha⟩ := running_in_use h j
  obtain ⟨hr, hg, hb, hc⟩ := in_use hC (hs j) hT (h1 j) (h2 j) hin
  have hf := manager_fine hC (hs j) hT hns (env := env) (ctx := ctx) (call := call) hr hg hb (by rw [hc]; exact h1 j)
    (by rw [hc]; exact h2 j) hsp
  cases hx : (ms j).requests.step C T (ms j).node env ns ctx call with
  | ok x =>
    obtain ⟨m', n', log, out⟩ := x
    obtain ⟨-, -, hfeeds⟩ := hf.2 _ hx
    obtain ⟨evs, e1, e2⟩ := feeds_calls hC (hs j).hops hr ha hfeeds
    exact .inl ⟨m', n', log, out, evs, rfl, .step j _ evs h hns trivial ⟨hx, rfl⟩ e1 e2⟩
  | error p =>
    rw [hx] at hf
    obtain ⟨rfl, hk⟩ := hf.1 p rfl
    exact .inr ⟨rfl, hk⟩

omit hT h1 h2 in
/-- C77: any call of a reply manager that is permitted succeeds, and what happened then is again something that can
happen in the network. -/
theorem reply_goes_on (rng : Rng) (now : Nat) {call : ReplyCall} (hw : ReplyCall.WellTyped call)
    (hp : ∀ log out, Permitted C ds es j (ms j).node (.reply rng now call log out : Deed R Ctx)) :
    ∃ m' n' log out evs, (ms j).replies.step C (ms j).node rng now call = .ok (m', n', log, out) ∧
      Running C T L config mc rc (ds ++ [(j, .reply rng now call log out)]) (es ++ evs)
        (Function.update ms j { ms j with node := n', replies := m' }) := by
  obtain ⟨-, hin, ha⟩ := running_in_use h j
  obtain ⟨m', n', log, out, hst⟩ := reply_manager_no_panic hC hin rng now hw
  obtain ⟨evs, e1, e2⟩ := reply_calls hC (hs j).hops (Props.ReplyReached.inv (running_replies h j))
    (nodes_reachable hC (running_history h) j) ha hw hst
  exact ⟨m', n', log, out, evs, hst, .step j _ evs h hw (hp log out) ⟨hst, rfl⟩ e1 e2⟩
end

/-! ### C78 -/

theorem postedTo_iff {j : Nat} {r : R} {i d mid} :
    PostedTo ds j r i d mid ↔ (r, i, mid, some d) ∈ sendings (requestLog j ds) := by
  rw [mem_sendings]
  constructor
  · rintro ⟨env, ns, ctx, call, log, out, hm, d0, est, hx⟩
    exact ⟨d0, est, mem_requestLog.2 ⟨env, ns, ctx, call, log, out, hm, hx⟩⟩
  · rintro ⟨d0, est, hp⟩
    obtain ⟨env, ns, ctx, call, log, out, hm, hx⟩ := mem_requestLog.1 hp
    exact ⟨env, ns, ctx, call, log, out, hm, d0, est, hx⟩

/-- C78: what is handed out with one message ID is one request, from one machine, at one machine, in one session, with
the same data. -/
theorem one_meaning (h : Running C T L config mc rc ds es ms) (hf : IdsFresh ds) (hT : Constant T) {k k' j j' : Nat}
    {r r' : R} {ctx ctx' : ReplyContext} {data data' : Bytes} (h1 : HandlesFor T L ds k ctx data j r)
    (h2 : HandlesFor T L ds k' ctx' data' j' r') (he : ctx.messageId = ctx'.messageId) :
    k = k' ∧ j = j' ∧ r = r' ∧ ctx.sessionIndex = ctx'.sessionIndex ∧ data = data' := by
  obtain ⟨-, a1, ⟨d, a2, a3⟩, c, a4, -⟩ := h1
  obtain ⟨-, b1, ⟨d', b2, b3⟩, c', b4, -⟩ := h2
  rw [he] at a1 a2
  obtain ⟨rfl, rfl⟩ := id_unique hf a1 b1
  obtain ⟨now, hr⟩ := running_requests h j
  obtain ⟨-, e1, e2, -⟩ := id_one_destination hr (Spec.IdsFresh.log hf j) (postedTo_iff.1 a2) (postedTo_iff.1 b2)
  cases e2
  refine ⟨?_, rfl, rfl, e1, ?_⟩
  · rw [← a3, ← b3, e1]
  · rw [a4, b4, (hT r c c').1]

theorem replyRuns_split {m m' : ReplyManager} {a b : List ReplyRecord} (h : ReplyManager.Runs C m (a ++ b) m') :
    ∃ m1, ReplyManager.Runs C m a m1 ∧ ReplyManager.Runs C m1 b m' := by
  induction a generalizing m with
  | nil => exact ⟨m, .nil _, h⟩
  | cons x a ih =>
    cases h with
    | cons h1 h2 =>
      obtain ⟨m1, i1, i2⟩ := ih h2
      exact ⟨m1, .cons h1 i1, i2⟩

theorem replyRecords_append {a b : Story R Ctx} {k : Nat} : replyRecords k (a ++ b) = replyRecords k a ++ replyRecords k b :=
  List.flatMap_append

theorem mem_replyRecords {k : Nat} {x : ReplyRecord} : x ∈ replyRecords k ds ↔
    ∃ rng, (k, .reply rng x.time x.call x.log x.out) ∈ ds := by
  unfold replyRecords
  rw [List.mem_flatMap]
  constructor
  · rintro ⟨⟨k', d⟩, hm, hx⟩
    by_cases hk : k' = k
    · subst hk
      cases d with
      | reply rng now call log out =>
        rw [if_pos rfl] at hx
        rw [List.mem_singleton] at hx
        subst hx
        exact ⟨rng, hm⟩
      | _ => simp at hx
    · rw [if_neg hk] at hx; cases hx
  · rintro ⟨rng, hm⟩
    exact ⟨_, hm, by simp⟩

theorem handlesFor_mono {a b : Story R Ctx} (hs : ∀ z ∈ a, z ∈ b) {k j : Nat} {r : R} {ctx : ReplyContext} {data : Bytes}
    (h : HandlesFor T L a k ctx data j r) : HandlesFor T L b k ctx data j r := by
  obtain ⟨⟨a, b, c, d, e, h1⟩, ⟨a', b', c', d', e', f', h2, h2'⟩, ⟨f, ⟨g1, g2, g3, g4, g5, g6, h3, h3'⟩, h4⟩, h5⟩ := h
  exact ⟨⟨a, b, c, d, e, hs _ h1⟩, ⟨a', b', c', d', e', f', hs _ h2, h2'⟩,
    ⟨f, ⟨g1, g2, g3, g4, g5, g6, hs _ h3, h3'⟩, h4⟩, h5⟩

/-- C78: if requests with the same message ID are handed out twice, then by the same machine, and in between the
program has abandoned the request or the reply manager was busy with as many other requests as it can remember. -/
theorem handled_twice (hC : CryptoLaws C) (hk : ∀ j, (config j).numHops ≤ 6)
    (h : Running C T L config mc rc ds es ms) (hf : IdsFresh ds) (hT : Constant T) (hdiff : SurbsDiffer es)
    (hone : OpenedByOne L es) {a b c : Story R Ctx} {k k' : Nat} {rng rng' : Rng} {now now' : Nat}
    {msg msg' : RequestMessage} {log log' : List ReplyPost} {ctx ctx' : ReplyContext} {data data' : Bytes}
    (hd : ds = a ++ (k, .reply rng now (.insert msg) log (some (ctx, data))) ::
      (b ++ (k', .reply rng' now' (.insert msg') log' (some (ctx', data'))) :: c))
    (he : ctx.messageId = ctx'.messageId) :
    k = k' ∧
    ((∃ rng now x log out, (k, .reply rng now (.abandon x) log out) ∈ b ∧ x.messageId = ctx.messageId) ∨
      (rc k).capacity ≤ others ctx.messageId (replyRecords k b)) := by
  have hd2 : ds = (a ++ (k, .reply rng now (.insert msg) log (some (ctx, data))) :: b) ++
      (k', .reply rng' now' (.insert msg') log' (some (ctx', data'))) :: c := by rw [hd]; simp
  obtain ⟨j1, r1, g1⟩ := handled_is_request hC hk h hf hT hdiff hone hd
  obtain ⟨j2, r2, g2⟩ := handled_is_request hC hk h hf hT hdiff hone hd2
  have hkk := (one_meaning h hf hT (handlesFor_mono (fun z hz => by rw [hd]; simp [hz]) g1)
    (handlesFor_mono (fun z hz => by rw [hd2]; exact List.mem_append_left _ hz) g2) he).1
  refine ⟨hkk, ?_⟩
  subst hkk
  have hid : ∀ {m m' : ReplyManager} {n n' : Node} {rng now msg log ctx} {data : Bytes},
      m.step C n rng now (.insert msg) = .ok (m', n', log, some (ctx, data)) → ctx.messageId = msg.id := by
    intro m m' n n' rng now msg log ctx data hst
    have hc := ReplyManager.step_does hst
    cases hc
    rfl
  have hruns := running_replies h k
  have e1 : replyRecords k ds = replyRecords k a ++ ⟨.insert msg, now, log, some (ctx, data)⟩ ::
      ((replyRecords k b ++ [⟨.insert msg', now', log', some (ctx', data')⟩]) ++ replyRecords k c) := by
    rw [hd]
    simp [replyRecords]
  rw [e1] at hruns
  obtain ⟨m1, r1, r2⟩ := replyRuns_split hruns
  cases r2 with
  | cons s1 r3 =>
    obtain ⟨m3, r4, -⟩ := replyRuns_split r3
    have i1 := hid s1
    have i2 : ctx'.messageId = msg'.id := by
      obtain ⟨m4, -, r6⟩ := replyRuns_split r4
      cases r6 with
      | cons s2 _ => exact hid s2
    by_contra hcon
    rw [not_or, not_le] at hcon
    obtain ⟨c1, c2⟩ := hcon
    have hsame : msg'.id = msg.id := by rw [← i2, ← he, i1]
    have hna : ∀ x ∈ replyRecords k b ++ [⟨.insert msg', now', log', some (ctx', data')⟩], ∀ cx, x.call = .abandon cx →
        cx.messageId ≠ msg.id := by
      intro x hx cx hcx hcid
      rcases List.mem_append.1 hx with hx | hx
      · obtain ⟨g, hg⟩ := mem_replyRecords.1 hx
        rw [hcx] at hg
        exact c1 ⟨g, x.time, cx, x.log, x.out, hg, by rw [hcid, i1]⟩
      · rw [List.mem_singleton] at hx
        subst hx
        cases hcx
    have hroom : others msg.id (replyRecords k b ++ [⟨.insert msg', now', log', some (ctx', data')⟩]) < (rc k).capacity := by
      unfold others at c2 ⊢
      rw [List.countP_append, List.countP_singleton]
      rw [i1] at c2
      simpa [ReplyCall.id, hsame] using c2
    obtain ⟨-, -, hout⟩ := handed_out_once r1 s1 r4 hna hroom
    have := hout ⟨.insert msg', now', log', some (ctx', data')⟩ (by simp) msg' rfl hsame
    cases this

theorem timesInserted_eq [DecidableEq R] {j : Nat} {r : R} :
    (inserted (requestCalls j ds)).count r = timesInserted ds j r := by
  induction ds with
  | nil => rfl
  | cons x ds ih =>
    have e1 : requestCalls j (x :: ds) = requestCalls j [x] ++ requestCalls j ds := by
      unfold requestCalls; rw [← List.flatMap_append]; rfl
    have e2 : timesInserted (x :: ds) j r = timesInserted [x] j r + timesInserted ds j r := by
      unfold timesInserted
      rw [← List.countP_append]; rfl
    have e3 : ∀ a b : List (ManagerCall R), inserted (a ++ b) = inserted a ++ inserted b := fun a b => List.flatMap_append
    rw [e1, e2, e3, List.count_append, ih]
    congr 1
    obtain ⟨k, d⟩ := x
    by_cases hk : k = j
    · cases d with
      | request env ns ctx call log out =>
        cases call with
        | insert r' => 
          by_cases hr : r' = r <;> simp [requestCalls, inserted, timesInserted, hk, hr]
        | _ => simp [requestCalls, inserted, timesInserted, hk]
      | _ => simp [requestCalls, inserted, timesInserted, hk]
    · simp [requestCalls, inserted, timesInserted, hk]

theorem statusUpdates_eq {j : Nat} : ((requestCalls j ds).filter fun c => match c with
    | .updateSessionStatus => true | _ => false).length = statusUpdates ds j := by
  induction ds with
  | nil => rfl
  | cons x ds ih =>
    have e1 : requestCalls j (x :: ds) = requestCalls j [x] ++ requestCalls j ds := by
      unfold requestCalls; rw [← List.flatMap_append]; rfl
    have e2 : statusUpdates (x :: ds) j = statusUpdates [x] j + statusUpdates ds j := by
      unfold statusUpdates
      rw [← List.countP_append]; rfl
    rw [e1, e2, List.filter_append, List.length_append, ih]
    congr 1
    obtain ⟨k, d⟩ := x
    by_cases hk : k = j
    · cases d with
      | request env ns ctx call log out =>
        cases call <;> simp [requestCalls, statusUpdates, hk]
      | _ => simp [requestCalls, statusUpdates, hk]
    · simp [requestCalls, statusUpdates, hk]

/-- C78: a request is handled by few machines: at most as many as the request manager is configured to try, plus one for
every time it was told to look at the session status (after which it may start anew). -/
theorem handled_by_few [DecidableEq R] (h : Running C T L config mc rc ds es ms) (hf : IdsFresh ds) (hT : Constant T)
    {j : Nat} {r : R} {ks : List Nat} (hn : ks.Nodup) (hks : ∀ k ∈ ks, ∃ ctx data, HandlesFor T L ds k ctx data j r) :
    ks.length ≤ ((mc j).numDestinations + statusUpdates ds j) * timesInserted ds j r := by
  obtain ⟨now, hr⟩ := running_requests h j
  obtain ⟨n, hn', hle⟩ := changes_counted hr
  replace hle : n ≤ statusUpdates ds j := by
    rw [← statusUpdates_eq]
    exact hle
  have hex : ∀ k, ∃ id, k ∈ ks → ∃ ctx data, HandlesFor T L ds k ctx data j r ∧ ctx.messageId = id := by
    intro k
    by_cases hk : k ∈ ks
    · obtain ⟨ctx, data, hh⟩ := hks k hk
      exact ⟨ctx.messageId, fun _ => ⟨ctx, data, hh, rfl⟩⟩
    · exact ⟨[], fun h => absurd h hk⟩
  choose id hid using hex
  have hb := nodup_owned hn' (r := r) (ids := ks.map id) ?_ ?_
  · rw [List.length_map, timesInserted_eq] at hb
    exact Nat.le_trans hb (Nat.mul_le_mul_right _ (by omega))
  · refine List.Nodup.map_on ?_ hn
    intro k hk k' hk' he
    obtain ⟨ctx, data, h1, h2⟩ := hid k hk
    obtain ⟨ctx', data', h1', h2'⟩ := hid k' hk'
    exact (one_meaning h hf hT h1 h1' (h2.trans (he.trans h2'.symm))).1
  · intro x hx
    obtain ⟨k, hk, rfl⟩ := List.mem_map.1 hx
    obtain ⟨ctx, data, h1, h2⟩ := hid k hk
    exact idOf_iff.1 (h2 ▸ h1.2.1)

end Mixnet.Props
