import Verif.Proofs.System
/-!
# A whole network with managers: message IDs
-/
namespace Mixnet
open Spec Props

variable {R Ctx : Type} {C : Crypto} {T : RequestTrait R Ctx} {L : Layout C} {config : Nat → Config}
  {mc : Nat → RequestManagerConfig} {rc : Nat → ReplyManagerConfig}
  {ds : Story R Ctx} {es : List (Event C)} {ms : Nat → Machine R}

/-! ### The request managers -/

def requestCalls (j : Nat) (ds : Story R Ctx) : List (ManagerCall R) :=
  ds.flatMap fun x => if x.1 = j then match x.2 with | .request _ _ _ call _ _ => [call] | _ => [] else []

def requestOuts (j : Nat) (ds : Story R Ctx) : List (ManagerOutcome R) :=
  ds.flatMap fun x => if x.1 = j then match x.2 with | .request _ _ _ _ _ out => [out] | _ => [] else []

def requestLog (j : Nat) (ds : Story R Ctx) : List (LogEntry R) :=
  ds.flatMap fun x => if x.1 = j then match x.2 with | .request _ _ _ _ log _ => log | _ => [] else []

theorem requestRuns_snoc {m m' m'' : RequestManager R} {calls : List (ManagerCall R)} {outs logs}
    (h : RequestManager.Runs C T m calls outs logs m') {n n' : Node}
    {env : Env} {ns : NetworkStatus} {ctx : Ctx} {call : ManagerCall R} {log out}
    (hs : m'.step C T n env ns ctx call = .ok (m'', n', log, out)) :
    RequestManager.Runs C T m (calls ++ [call]) (outs ++ [out]) (logs ++ log) m'' := by
  induction h with
  | nil => simpa using RequestManager.Runs.cons hs (.nil _)
  | cons h1 _ ih => simpa using RequestManager.Runs.cons h1 (ih hs)

theorem running_requests (h : Running C T L config mc rc ds es ms) (j : Nat) :
    ∃ now, Reached C T (mc j) now (requestCalls j ds) (requestOuts j ds) (requestLog j ds) (ms j).requests := by
  induction h with
  | start _ h _ => obtain ⟨now, h⟩ := h j; exact ⟨now, by rw [h]; exact .nil _⟩
  | @step ds es ms m' k d' evs hr hw hp hd hm hn ih =>
    obtain ⟨now, ih⟩ := ih
    refine ⟨now, ?_⟩
    unfold Reached requestCalls requestOuts requestLog at *
    rw [List.flatMap_append, List.flatMap_append, List.flatMap_append]
    by_cases hj : j = k
    · subst hj
      rw [Function.update_self]
      cases d' with
      | node call out =>
        obtain ⟨-, h3, -⟩ := hd
        rw [h3]
        simpa using ih
      | request env ns ctx call log out =>
        obtain ⟨h1, -⟩ := hd
        have := requestRuns_snoc ih h1
        simpa using this
      | reply rng now call log out =>
        obtain ⟨-, h3⟩ := hd
        rw [h3]
        simpa using ih
    · rw [Function.update_of_ne hj]
      simpa [Ne.symm hj] using ih

theorem mem_requestLog {j : Nat} {x : LogEntry R} : x ∈ requestLog j ds ↔
    ∃ env ns ctx call log out, (j, .request env ns ctx call log out) ∈ ds ∧ x ∈ log := by
  unfold requestLog
  rw [List.mem_flatMap]
  constructor
  · rintro ⟨⟨k, d⟩, hm, hx⟩
    by_cases hk : k = j
    · subst hk
      cases d with
      | request env ns ctx call log out => exact ⟨env, ns, ctx, call, log, out, hm, by simpa using hx⟩
      | _ => simp at hx
    · simp [hk] at hx
  · rintro ⟨env, ns, ctx, call, log, out, hm, hx⟩
    exact ⟨_, hm, by simpa using hx⟩

theorem mem_owners {r : R} {id : MessageId} {log : List (LogEntry R)} : (r, id) ∈ owners log ↔ .newId r id ∈ log := by
  unfold owners
  rw [List.mem_flatMap]
  constructor
  · rintro ⟨x, hm, hx⟩
    cases x <;> simp at hx
    obtain ⟨rfl, rfl⟩ := hx
    exact hm
  · intro h
    exact ⟨_, h, by simp⟩

theorem mem_sendings {r : R} {i : SessionIndex} {id : MessageId} {d : Option MixnodeIndex} {log : List (LogEntry R)} :
    (r, i, id, d) ∈ sendings log ↔ ∃ d0 est, .post r i d0 id d (.ok est) ∈ log := by
  unfold sendings
  rw [List.mem_flatMap]
  constructor
  · rintro ⟨x, hm, hx⟩
    cases x with
    | post r' i' d0 id' d' res =>
      cases res with
      | ok est =>
        simp at hx
        obtain ⟨rfl, rfl, rfl, rfl⟩ := hx
        exact ⟨d0, est, hm⟩
      | error => simp at hx
    | _ => simp at hx
  · rintro ⟨d0, est, h⟩
    exact ⟨_, h, by simp⟩

theorem idOf_iff {j : Nat} {r : R} {mid : MessageId} : IdOf ds j r mid ↔ (r, mid) ∈ owners (requestLog j ds) := by
  rw [mem_owners, mem_requestLog]
  rfl

theorem mem_drawn {id : MessageId} {log : List (LogEntry R)} : id ∈ drawn log ↔ ∃ r, .newId r id ∈ log := by
  unfold drawn
  rw [List.mem_flatMap]
  constructor
  · rintro ⟨x, hm, hx⟩
    cases x <;> simp at hx
    subst hx
    exact ⟨_, hm⟩
  · rintro ⟨r, h⟩
    exact ⟨_, h, by simp⟩

/-! ### Nothing is drawn twice -/

theorem flatMap_unique {α β : Type} {f : α → List β} {l : List α} (h : (l.flatMap f).Nodup) {a b : α} {x : β}
    (ha : a ∈ l) (hb : b ∈ l) (hxa : x ∈ f a) (hxb : x ∈ f b) : a = b := by
  induction l with
  | nil => cases ha
  | cons c l ih =>
    rw [List.flatMap_cons, List.nodup_append] at h
    obtain ⟨-, h2, h3⟩ := h
    rcases List.mem_cons.1 ha with ea | ha' <;> rcases List.mem_cons.1 hb with eb | hb'
    · rw [ea, eb]
    · exact absurd rfl (h3 x (ea ▸ hxa) x (List.mem_flatMap.2 ⟨b, hb', hxb⟩))
    · exact absurd rfl (h3 x (eb ▸ hxb) x (List.mem_flatMap.2 ⟨a, ha', hxa⟩))
    · exact ih h2 ha' hb'

theorem requestLog_drawn (j : Nat) (ds : Story R Ctx) : (drawn (requestLog j ds)).Sublist (ds.flatMap (·.2.ids)) := by
  induction ds with
  | nil => exact .slnil
  | cons x ds ih =>
    have h1 : requestLog j (x :: ds) = (requestLog j [x]) ++ requestLog j ds := by
      unfold requestLog; rw [← List.flatMap_append]; rfl
    rw [h1, show ∀ a b : List (LogEntry R), drawn (a ++ b) = drawn a ++ drawn b from fun a b => List.flatMap_append,
      List.flatMap_cons]
    refine List.Sublist.append ?_ ih
    obtain ⟨k, d⟩ := x
    unfold requestLog
    by_cases hk : k = j
    · subst hk
      cases d with
      | request => simp [Deed.ids]
      | node => simp [drawn]
      | reply => simp [drawn]
    · simp [hk, drawn]

theorem Spec.IdsFresh.log (h : IdsFresh ds) (j : Nat) : (drawn (requestLog j ds)).Nodup := h.sublist (requestLog_drawn j ds)

theorem Spec.IdsFresh.prefix {a b : Story R Ctx} (h : IdsFresh (a ++ b)) : IdsFresh a := by
  unfold IdsFresh at *
  rw [List.flatMap_append] at h
  exact (List.nodup_append.1 h).1

/-- A message ID belongs to one request of one machine. -/
theorem id_unique (h : IdsFresh ds) {j j' : Nat} {r r' : R} {mid : MessageId} (h1 : IdOf ds j r mid)
    (h2 : IdOf ds j' r' mid) : j = j' ∧ r = r' := by
  have hj : j = j' := by
    obtain ⟨env, ns, ctx, call, log, out, hm, hx⟩ := h1
    obtain ⟨env', ns', ctx', call', log', out', hm', hx'⟩ := h2
    have := flatMap_unique h hm hm' (x := mid) (mem_drawn.2 ⟨r, hx⟩) (mem_drawn.2 ⟨r', hx'⟩)
    exact (Prod.mk.inj this).1
  subst hj
  exact ⟨rfl, owner_unique (Spec.IdsFresh.log h j) (idOf_iff.1 h1) (idOf_iff.1 h2)⟩

/-! ### Events -/

/-- A request posted by a node was posted by its request manager. -/
theorem request_event (h : Running C T L config mc rc ds es ms) {e : Event C} (he : e ∈ es) {i d mid l n}
    (hreq : e.request = some (i, d, mid, l, n)) :
    ∃ r ctx, (r, i, mid, some d) ∈ sendings (requestLog e.machine ds) ∧ IdOf ds e.machine r mid ∧
      l = (T.data r ctx).toVec ∧ n = T.numSurbs r ctx := by
  obtain ⟨a, dd, b, ea, evs, ms', m', rfl, hev, hr, hw, hp, hd, hm, hn⟩ := h.deed he
  unfold Event.request at hreq
  have main : ∀ {call out}, e.call = call → e.out = out →
      (match call, out with
        | .postRequest _ i _ mid data n _, .posted (some dest) (.ok _) => some (i, dest, mid, data.toVec, n)
        | _, _ => none) = some (i, d, mid, l, n) →
      ∃ rng d0 data ns met, call = .postRequest rng i d0 mid data n ns ∧ out = .posted (some d) (.ok met) ∧ l = data.toVec := by
    intro call out _ _ hx
    split at hx
    · cases hx
      exact ⟨_, _, _, _, _, rfl, rfl, rfl⟩
    · cases hx
  obtain ⟨rng, d0, data, ns, met, hc, ho, hl⟩ := main rfl rfl hreq
  cases dd with
  | node call out =>
    obtain ⟨e', rfl, h1, -⟩ := hm
    rw [List.mem_singleton] at hev
    subst hev
    rw [← h1, hc] at hp
    exact hp.elim
  | request env ns' ctx call log out =>
    obtain ⟨x, hx, r, i', d', mid', d'', res, rng', now, hxe, hc', ho'⟩ := forall₂_mem_right hm hev
    rw [hc] at hc'
    rw [ho] at ho'
    cases hc'
    cases ho'
    have hx' := (List.mem_filter.1 hx).1
    rw [hxe] at hx'
    have hs : (r, i, mid, some d) ∈ sendings (requestLog e.machine (a ++ (e.machine, .request env ns ctx call log out) :: b)) :=
      mem_sendings.2 ⟨_, _, mem_requestLog.2 ⟨env, ns, ctx, call, log, out, by simp, hx'⟩⟩
    refine ⟨r, ctx, hs, ?_, hl, rfl⟩
    obtain ⟨now, hreach⟩ := running_requests h e.machine
    exact idOf_iff.2 ((owned_reached hreach).sent _ hs)
  | reply rng' now call log out =>
    obtain ⟨x, hx, hc', -⟩ := forall₂_mem_right hm hev
    rw [hc] at hc'
    cases hc'

/-- The reply was made when a request was completed at machine `j`. -/
def CompletedAs (ds : Story R Ctx) (j : Nat) (mid : MessageId) (reply : Reply) : Prop :=
  ∃ rng now ctx log out x, (j, .reply rng now (.complete ctx reply.data) (x :: log) out) ∈ ds ∧ ctx.messageId = mid ∧
    x.reply = reply

/-- A reply posted by a node was posted by its reply manager, with SURBs of a request; and the request was completed with
this reply. -/
theorem reply_event (h : Running C T L config mc rc ds es ms) {e : Event C} (he : e ∈ es) {surbs mid l}
    (hrep : e.reply = some (surbs, mid, l)) :
    ∃ r, Got ds e.machine r ∧ (∀ s ∈ surbs, s ∈ r.surbs) ∧ CompletedAs ds e.machine r.id ⟨mid, l⟩ := by
  obtain ⟨a, dd, b, ea, evs, ms', m', rfl, hev, hr, hw, hp, hd, hm, hn⟩ := h.deed he
  obtain ⟨i, data, hc, hl⟩ : ∃ i data, e.call = .postReply surbs i mid data ∧ l = data.toVec := by
    unfold Event.reply at hrep
    split at hrep
    · rename_i hx
      cases hrep
      exact ⟨_, _, hx, rfl⟩
    · cases hrep
  cases dd with
  | node call out =>
    obtain ⟨e', rfl, h1, -⟩ := hm
    rw [List.mem_singleton] at hev
    subst hev
    rw [← h1, hc] at hp
    exact hp.elim
  | request env ns' ctx call log out =>
    obtain ⟨x, hx, r, i', d', mid', d'', res, rng', now, hxe, hc', ho'⟩ := forall₂_mem_right hm hev
    rw [hc] at hc'
    cases hc'
  | reply rng now call log out =>
    obtain ⟨x, hx, hc', -⟩ := forall₂_mem_right hm hev
    rw [hc] at hc'
    cases hc'
    obtain ⟨r, hg, hsub, hid⟩ := reply_surbs hr hp hd.1 hx
    have hI := Props.ReplyReached.inv (running_replies hr e.machine)
    have hmax : 0 < (rc e.machine).maxPosts := by
      rcases Nat.eq_zero_or_pos (rc e.machine).maxPosts with h0 | h0
      · exfalso
        rw [← hI.config] at h0
        have hdo := ReplyManager.step_does hd.1
        generalize m'.replies = mr at hdo
        generalize m'.node = mn at hdo
        cases hdo with
        | again _ _ h3 => rw [h0] at h3; cases h3; cases hx
        | completed _ h3 _ => rw [h0] at h3; cases h3; cases hx
        | _ => cases hx
      · exact h0
    refine ⟨r, ?_, fun s hs => hsub.subset hs, ?_⟩
    · obtain ⟨c, hg⟩ := hg
      exact ⟨c, List.mem_append_left _ hg⟩
    · have hdata : (⟨x.reply.messageId, (Scattered.ofSlice x.reply.data).toVec⟩ : Reply) = x.reply := by
        rw [show (Scattered.ofSlice x.reply.data).toVec = x.reply.data by simp [Scattered.ofSlice, Scattered.toVec]]
      rw [hl, hdata, hid]
      rcases reply_log hI hd.1 x hx with ⟨msg, t, rfl, h1, h2⟩ | ⟨ctx, data, rfl, h1, h2⟩
      · obtain ⟨rng', now', ctx, log', out', x', a1, a2, a3⟩ := stored_completed hr h2 hmax
        exact ⟨rng', now', ctx, log', out', x', List.mem_append_left _ a1, a2, a3⟩
      · have hdo := ReplyManager.step_does hd.1
        generalize m'.replies = mr at hdo
        generalize m'.node = mn at hdo
        cases hdo with
        | twice => cases hx
        | completed _ h3 _ =>
          have hall := postReply_log (fillBytes_length _ _) h3
          cases log with
          | nil => cases hx
          | cons x0 log =>
            have hx0 := (hall x0 List.mem_cons_self).2.1
            refine ⟨rng, now, ctx, log, none, x0, ?_, rfl, by rw [hx0, h2]⟩
            rw [h2]
            exact List.mem_append_right _ List.mem_cons_self

/-- A reply's message ID tells the reply. -/
theorem reply_unique (h : IdsFresh ds) {j j' : Nat} {mid mid' : MessageId} {x x' : Reply} (h1 : CompletedAs ds j mid x)
    (h2 : CompletedAs ds j' mid' x') (he : x.messageId = x'.messageId) : x = x' := by
  obtain ⟨rng, now, ctx, log, out, y, hm, -, hx⟩ := h1
  obtain ⟨rng', now', ctx', log', out', y', hm', -, hx'⟩ := h2
  have := flatMap_unique h hm hm' (x := x.messageId) (by simp [Deed.ids, hx]) (by simp [Deed.ids, hx', he])
  simp only [Prod.mk.injEq, Deed.reply.injEq, List.cons.injEq] at this
  rw [← hx, ← hx', this.2.2.2.2.1.1]

/-- Message IDs stand for one message, if none is drawn twice. -/
theorem ids_mean (h : Running C T L config mc rc ds es ms) (hf : IdsFresh ds) (hT : Constant T) : IdsMean es := by
  refine ⟨?_, ?_, ?_⟩
  · intro e he e' he' i d i' d' mid l l' n n' h1 h2
    obtain ⟨r, ctx, -, a1, rfl, rfl⟩ := request_event h he h1
    obtain ⟨r', ctx', -, a2, rfl, rfl⟩ := request_event h he' h2
    obtain ⟨-, rfl⟩ := id_unique hf a1 a2
    exact hT r ctx ctx'
  · intro e he e' he' surbs surbs' mid l l' h1 h2
    obtain ⟨r, -, -, a1⟩ := reply_event h he h1
    obtain ⟨r', -, -, a2⟩ := reply_event h he' h2
    have := reply_unique hf a1 a2 rfl
    exact (Reply.mk.inj this).2
  · intro e he e' he' i d mid l n surbs l' h1 h2
    obtain ⟨r, ctx, -, ⟨env, ns, c, call, log, out, hm, hx⟩, -⟩ := request_event h he h1
    obtain ⟨r', -, -, ⟨rng', now', ctx', log', out', y', hm', -, hx'⟩⟩ := reply_event h he' h2
    have := flatMap_unique hf hm hm' (x := mid) (mem_drawn.2 ⟨r, hx⟩) (by simp [Deed.ids, hx'])
    simp at this

end Mixnet
