import Verif.Spec.System
import Verif.Proofs.WholeHistory
import Verif.Props.Whole
import Verif.Props.Together
import Verif.Props.Tries
import Verif.Props.Settle
import Verif.Props.ReplyManager
/-!
# A whole network with managers: its story and the calls of its nodes
-/
namespace Mixnet
open Spec Props

variable {R Ctx : Type} {C : Crypto} {T : RequestTrait R Ctx} {L : Layout C} {config : Nat → Config}
  {mc : Nat → RequestManagerConfig} {rc : Nat → ReplyManagerConfig}
  {ds : Story R Ctx} {es : List (Event C)} {ms : Nat → Machine R}

/-! ### What a reply manager posts -/

theorem postReply_log {reply : Reply} (hid : reply.messageId.length = 16) :
    ∀ {n : Nat} {ctx ctx' : ReplyContext} {mixnet mixnet' : Node} {log : List ReplyPost},
    ReplyContext.postReply C reply n ctx mixnet = .ok (ctx', mixnet', log) →
    ∀ x ∈ log, x.surbs <+: ctx.surbs ∧ x.reply = reply ∧ x.request = ctx.messageId
  | 0, ctx, ctx', mixnet, mixnet', log, h => by cases h; exact fun _ h => (by cases h)
  | n + 1, ctx, ctx', mixnet, mixnet', log, h => by
    unfold ReplyContext.postReply at h
    rw [res_bind_eq_ok] at h
    obtain ⟨⟨mixnet1, surbs, res⟩, h1, h⟩ := h
    obtain ⟨s1, -⟩ := postReply_surbs hid h1
    dsimp only at h
    cases res with
    | error e =>
      cases h
      intro p hp
      rw [List.mem_singleton] at hp
      subst hp
      exact ⟨List.prefix_refl _, rfl, rfl⟩
    | ok u =>
      cases u
      dsimp only at h
      rw [res_bind_eq_ok] at h
      obtain ⟨⟨ctx2, mixnet2, log2⟩, h2, h⟩ := h
      cases h
      have ih := postReply_log hid h2
      intro p hp
      rcases List.mem_cons.1 hp with rfl | hp
      · exact ⟨List.prefix_refl _, rfl, rfl⟩
      · obtain ⟨a, b, c⟩ := ih p hp
        exact ⟨a.trans s1, b, c⟩

/-- What a call of a reply manager posts: a reply that was stored, or a new one. -/
theorem reply_log {c : ReplyManagerConfig} {m m' : ReplyManager} {n n' : Node} {rng : Rng} {now : Nat} {call : ReplyCall}
    {log : List ReplyPost} {out : Option (ReplyContext × Bytes)} (hI : m.Inv c)
    (h : m.step C n rng now call = .ok (m', n', log, out)) : ∀ x ∈ log,
    (∃ message t, call = .insert message ∧ x.surbs <+: message.surbs ∧ (message.id, .complete x.reply t) ∈ m.states) ∨
    (∃ ctx data, call = .complete ctx data ∧ x.surbs <+: ctx.surbs ∧ x.reply = Reply.new rng data) := by
  intro x hx
  cases ReplyManager.step_does h with
  | @again message reply last ctx' _ _ h1 h2 h3 =>
    have hm := LinkedMap.get?_some_mem h1
    obtain ⟨a, b, -⟩ := postReply_log (hI.ids _ _ _ hm) h3 x hx
    exact .inl ⟨message, last, rfl, a, b ▸ hm⟩
  | @completed ctx data m1 ctx' _ _ _ h1 h2 h3 =>
    obtain ⟨a, b, -⟩ := postReply_log (fillBytes_length _ _) h2 x hx
    exact .inr ⟨ctx, data, rfl, a, b⟩
  | _ => cases hx

/-- The replies stored after a call were stored before it, or the call completed a request. -/
theorem reply_entries {c : ReplyManagerConfig} {m m' : ReplyManager} {n n' : Node} {rng : Rng} {now : Nat} {call : ReplyCall}
    {log : List ReplyPost} {out : Option (ReplyContext × Bytes)} (hI : m.Inv c)
    (h : m.step C n rng now call = .ok (m', n', log, out)) {k : MessageId} {reply : Reply} {t : Nat}
    (hm : (k, .complete reply t) ∈ m'.states) :
    (∃ t0, (k, .complete reply t0) ∈ m.states) ∨
    (∃ ctx data, call = .complete ctx data ∧ ctx.messageId = k ∧ reply = Reply.new rng data ∧
      ∃ ctx' n'', ReplyContext.postReply C reply m.config.maxPosts ctx n = .ok (ctx', n'', log)) := by
  have hb : m.states.length ≤ m.config.capacity := by
    rw [← ReplyManager.length_remembered, hI.config]; exact hI.bounded
  cases ReplyManager.step_does h with
  | @again message reply' last ctx' _ _ h1 h2 h3 =>
    rcases LinkedMap.mem_set hm with hm | hm
    · exact .inl ⟨t, hm⟩
    · cases hm
      exact .inl ⟨_, LinkedMap.get?_some_mem h1⟩
  | handOut h1 h2 =>
    rw [ReplyManager.maybeEvict_eq (by simp [LinkedMap.pushBack]; exact hb)] at h2
    cases h2
    have := (ReplyManager.lastN_sublist _ _).subset hm
    simp only [LinkedMap.pushBack, List.mem_append, List.mem_singleton] at this
    rcases this with this | this
    · exact .inl ⟨t, this⟩
    · cases this
  | abandoned h1 => exact .inl ⟨t, (LinkedMap.remove_sublist _ _).subset hm⟩
  | completed h1 h2 h3 =>
    rcases h1 with ⟨h1, rfl⟩ | ⟨h1, rfl⟩
    · rw [ReplyManager.maybeEvict_eq (by simp [LinkedMap.set]; omega)] at h3
      cases h3
      rcases LinkedMap.mem_set ((ReplyManager.lastN_sublist _ _).subset hm) with hm | hm
      · exact .inl ⟨t, hm⟩
      · cases hm
        exact .inr ⟨_, _, rfl, rfl, rfl, _, _, h2⟩
    · rw [ReplyManager.maybeEvict_eq (by simp [LinkedMap.set, LinkedMap.pushBack]; exact hb)] at h3
      cases h3
      rcases LinkedMap.mem_set ((ReplyManager.lastN_sublist _ _).subset hm) with hm | hm
      · simp only [LinkedMap.pushBack, List.mem_append, List.mem_singleton] at hm
        rcases hm with hm | hm
        · exact .inl ⟨t, hm⟩
        · cases hm
      · cases hm
        exact .inr ⟨_, _, rfl, rfl, rfl, _, _, h2⟩
  | _ => exact .inl ⟨t, hm⟩

/-! ### Taking a story apart -/

theorem Spec.Running.split (h : Running C T L config mc rc ds es ms) {a b : Story R Ctx} {j : Nat} {d : Deed R Ctx}
    (he : ds = a ++ (j, d) :: b) :
    ∃ ea evs eb ms' m', es = ea ++ evs ++ eb ∧ Running C T L config mc rc a ea ms' ∧ d.WellTyped ∧
      Permitted C a ea j (ms' j).node d ∧ d.Does C T (ms' j) m' ∧ d.Made T evs ∧
      NodeCalls C L j (ms' j).node evs m'.node := by
  induction h generalizing b with
  | start => simp at he
  | @step ds es ms m' k d' evs hr hw hp hd hm hn ih =>
    rcases List.eq_nil_or_concat b with rfl | ⟨b', x, rfl⟩
    · obtain ⟨h1, h2⟩ := List.append_inj' he rfl
      cases h2
      subst h1
      exact ⟨es, evs, [], ms, m', by simp, hr, hw, hp, hd, hm, hn⟩
    · have he' : ds ++ [(k, d')] = (a ++ (j, d) :: b') ++ [x] := by simpa using he
      obtain ⟨h1, -⟩ := List.append_inj' he' rfl
      obtain ⟨ea, evs0, eb, ms', m1, h2, h3⟩ := ih h1
      exact ⟨ea, evs0, eb ++ evs, ms', m1, by rw [h2]; simp, h3⟩

theorem Spec.NodeCalls.machine {j : Nat} {n n' : Node} {evs : List (Event C)} (h : NodeCalls C L j n evs n') :
    ∀ e ∈ evs, e.machine = j := by
  induction h with
  | nil => exact fun _ h => (by cases h)
  | cons h1 _ _ _ _ _ ih =>
    intro e he
    rcases List.mem_cons.1 he with rfl | he
    · exact h1
    · exact ih e he

theorem Spec.Running.deed (h : Running C T L config mc rc ds es ms) {e : Event C} (he : e ∈ es) :
    ∃ a d b ea evs ms' m', ds = a ++ (e.machine, d) :: b ∧ e ∈ evs ∧ Running C T L config mc rc a ea ms' ∧ d.WellTyped ∧
      Permitted C a ea e.machine (ms' e.machine).node d ∧ d.Does C T (ms' e.machine) m' ∧ d.Made T evs ∧
      NodeCalls C L e.machine (ms' e.machine).node evs m'.node := by
  induction h with
  | start => cases he
  | @step ds es ms m' k d' evs hr hw hp hd hm hn ih =>
    rcases List.mem_append.1 he with he | he
    · obtain ⟨a, d, b, ea, evs, ms', m', h1, h2⟩ := ih he
      exact ⟨a, d, b ++ [(k, d')], ea, evs, ms', m', by rw [h1]; simp, h2⟩
    · have hk : e.machine = k := hn.machine e he
      subst hk
      exact ⟨ds, d', [], es, evs, ms, m', by simp, he, hr, hw, hp, hd, hm, hn⟩

theorem got_event (h : Running C T L config mc rc ds es ms) {j : Nat} {r : RequestMessage} (hg : Got ds j r) :
    ∃ e ∈ es, e.machine = j ∧ e.out = .message (some (.request r)) := by
  obtain ⟨call, hm⟩ := hg
  obtain ⟨a, b, rfl⟩ := List.append_of_mem hm
  obtain ⟨ea, evs, eb, ms', m', rfl, -, -, -, -, hmade, hn⟩ := h.split rfl
  obtain ⟨e, rfl, rfl, ho⟩ := hmade
  exact ⟨e, by simp, hn.machine e (by simp), ho⟩

/-- Requests handed out are those the node delivered. -/
theorem handedOut_got (h : Running C T L config mc rc ds es ms) {j : Nat} {ctx : ReplyContext} {data : Bytes}
    (hg : HandedOut ds j ctx data) :
    ∃ r, Got ds j r ∧ ctx = ⟨r.sessionIndex, r.id, r.surbs⟩ ∧ data = r.data := by
  obtain ⟨rng, now, msg, log, hm⟩ := hg
  obtain ⟨a, b, rfl⟩ := List.append_of_mem hm
  obtain ⟨ea, evs, eb, ms', m', rfl, -, -, hp, hd, -, -⟩ := h.split rfl
  obtain ⟨call, hp⟩ : Got a j msg := hp
  refine ⟨msg, ⟨call, List.mem_append_left _ hp⟩, ?_⟩
  obtain ⟨hd, -⟩ := hd
  have hc := ReplyManager.step_does hd
  generalize m'.replies = mr at hc
  generalize m'.node = mn at hc
  cases hc with
  | handOut => exact ⟨rfl, rfl⟩

theorem deliveredSurbs_mem {j : Nat} {e : Event C} (he : e ∈ es) (hj : e.machine = j) {r : RequestMessage}
    (ho : e.out = .message (some (.request r))) {s : Surb} (hs : s ∈ r.surbs) : s ∈ deliveredSurbs j es := by
  unfold deliveredSurbs
  refine List.mem_flatMap.2 ⟨e, he, ?_⟩
  rw [ho]
  dsimp only
  rw [if_pos hj]
  exact hs

/-! ### The reply managers -/

theorem replyRuns_snoc {m m' m'' : ReplyManager} {rs : List ReplyRecord} (h : ReplyManager.Runs C m rs m') {n n' : Node}
    {rng : Rng} {now : Nat} {call : ReplyCall} {log out} (hs : m'.step C n rng now call = .ok (m'', n', log, out)) :
    ReplyManager.Runs C m (rs ++ [⟨call, now, log, out⟩]) m'' := by
  induction h with
  | nil => exact .cons hs (.nil _)
  | cons h1 _ ih => exact .cons h1 (ih hs)

theorem running_replies (h : Running C T L config mc rc ds es ms) (j : Nat) :
    ReplyReached C (rc j) (replyRecords j ds) (ms j).replies := by
  induction h with
  | start _ _ h => rw [h j]; exact .nil _
  | @step ds es ms m' k d' evs hr hw hp hd hm hn ih =>
    unfold ReplyReached replyRecords at *
    rw [List.flatMap_append]
    by_cases hj : j = k
    · subst hj
      rw [Function.update_self]
      cases d' with
      | node call out =>
        obtain ⟨-, -, h3⟩ := hd
        rw [h3]
        simpa using ih
      | request env ns ctx call log out =>
        obtain ⟨-, h3⟩ := hd
        rw [h3]
        simpa using ih
      | reply rng now call log out =>
        obtain ⟨h1, -⟩ := hd
        have := replyRuns_snoc ih h1
        simpa using this
    · rw [Function.update_of_ne hj]
      simpa [Ne.symm hj] using ih

/-- The replies stored are those that were posted first when the request was completed. -/
theorem stored_completed (h : Running C T L config mc rc ds es ms) {j : Nat} {k : MessageId} {reply : Reply} {t : Nat}
    (hm : (k, .complete reply t) ∈ (ms j).replies.states) (hp : 0 < (rc j).maxPosts) :
    ∃ rng now ctx log out x, (j, .reply rng now (.complete ctx reply.data) (x :: log) out) ∈ ds ∧ ctx.messageId = k ∧
      x.reply = reply := by
  induction h generalizing k reply t with
  | start _ _ h => rw [h j] at hm; cases hm
  | @step ds es ms m' k' d' evs hr hw hpm hd hm' hn ih =>
    have lift : ∀ {t0 : Nat}, (k, .complete reply t0) ∈ (ms j).replies.states →
        ∃ rng now ctx log out x, (j, .reply rng now (.complete ctx reply.data) (x :: log) out) ∈ ds ++ [(k', d')] ∧
          ctx.messageId = k ∧ x.reply = reply := by
      intro t0 h0
      obtain ⟨rng, now, ctx, log, out, x, h1, h2⟩ := ih h0
      exact ⟨rng, now, ctx, log, out, x, List.mem_append_left _ h1, h2⟩
    by_cases hj : j = k'
    · subst hj
      rw [Function.update_self] at hm
      have hI : (ms j).replies.Inv (rc j) := Props.ReplyReached.inv (running_replies hr j)
      cases d' with
      | node call out =>
        obtain ⟨-, -, h3⟩ := hd
        rw [h3] at hm
        exact lift hm
      | request env ns ctx call log out =>
        obtain ⟨-, h3⟩ := hd
        rw [h3] at hm
        exact lift hm
      | reply rng now call log out =>
        obtain ⟨h1, -⟩ := hd
        rcases reply_entries hI h1 hm with ⟨t0, h0⟩ | ⟨ctx, data, rfl, hk, rfl, ctx', n'', h2⟩
        · exact lift h0
        · have hcopies := postReply_log (reply := Reply.new rng data) (fillBytes_length _ _) h2
          cases log with
          | nil =>
            exfalso
            rw [hI.config] at h2
            obtain ⟨p, hp'⟩ : ∃ p, (rc j).maxPosts = p + 1 := ⟨_, (Nat.succ_pred_eq_of_pos hp).symm⟩
            rw [hp'] at h2
            unfold ReplyContext.postReply at h2
            rw [res_bind_eq_ok] at h2
            obtain ⟨⟨_, _, res⟩, _, h2⟩ := h2
            dsimp only at h2
            cases res with
            | error => cases h2
            | ok u =>
              cases u
              dsimp only at h2
              rw [res_bind_eq_ok] at h2
              obtain ⟨_, _, h2⟩ := h2
              cases h2
          | cons x log =>
            exact ⟨rng, now, ctx, log, out, x, List.mem_append_right _ (List.mem_singleton.2 rfl), hk,
              (hcopies x List.mem_cons_self).2.1⟩
    · rw [Function.update_of_ne hj] at hm
      exact lift hm

/-! ### The calls of the nodes -/

theorem allowed_mono {es es' : List (Event C)} {j : Nat} {c : Call} (h : Allowed es j c) (hs : ∀ e ∈ es, e ∈ es') :
    Allowed es' j c := by
  cases c with
  | handlePacket now p =>
    obtain ⟨e, he, hx⟩ := List.mem_flatMap.1 h
    exact List.mem_flatMap.2 ⟨e, hs e he, hx⟩
  | postReply surbs i mid data =>
    intro s hs'
    obtain ⟨e, he, hx⟩ := List.mem_flatMap.1 (h s hs')
    exact List.mem_flatMap.2 ⟨e, hs e he, hx⟩
  | _ => trivial

theorem history_calls {j : Nat} {n n' : Node} {evs : List (Event C)} (hn : NodeCalls C L j n evs n') :
    ∀ {es : List (Event C)} {nodes : Nat → Node}, History C L config es nodes → nodes j = n →
    (∀ e ∈ evs, Allowed es j e.call) → History C L config (es ++ evs) (Function.update nodes j n') := by
  induction hn with
  | nil n =>
    intro es nodes h hj _
    rw [List.append_nil, ← hj, Function.update_eq_self]
    exact h
  | @cons n n1 n2 e evs h1 h2 h3 h4 h5 h6 ih =>
    intro es nodes h hj hal
    subst h1
    subst hj
    have := ih (History.step e h h2 (hal e List.mem_cons_self) h3 h4 h5) (Function.update_self ..) fun e' he' =>
      allowed_mono (hal e' (List.mem_cons_of_mem _ he')) fun x hx => List.mem_append_left _ hx
    rw [Function.update_idem] at this
    simpa using this

theorem forall₂_mem_right {α β : Type} {P : α → β → Prop} {a : List α} {b : List β} (h : List.Forall₂ P a b) {y : β}
    (hy : y ∈ b) : ∃ x ∈ a, P x y := by
  induction h with
  | nil => cases hy
  | cons h1 _ ih =>
    rcases List.mem_cons.1 hy with rfl | hy
    · exact ⟨_, List.mem_cons_self, h1⟩
    · obtain ⟨x, hx, hp⟩ := ih hy
      exact ⟨x, List.mem_cons_of_mem _ hx, hp⟩

/-- The SURBs with which a reply manager posts came with requests that the node delivered. -/
theorem reply_surbs (h : Running C T L config mc rc ds es ms) {j : Nat} {rng : Rng} {now : Nat} {call : ReplyCall}
    {log : List ReplyPost} {out} {m' : ReplyManager} {n' : Node}
    (hp : Permitted C ds es j (ms j).node (.reply rng now call log out : Deed R Ctx))
    (hd : (ms j).replies.step C (ms j).node rng now call = .ok (m', n', log, out)) {x : ReplyPost} (hx : x ∈ log) :
    ∃ r, Got ds j r ∧ x.surbs <+: r.surbs ∧ r.id = ReplyCall.id call := by
  rcases reply_log (Props.ReplyReached.inv (running_replies h j)) hd x hx with ⟨msg, t, rfl, h1, h2⟩ | ⟨ctx, data, rfl, h1, h2⟩
  · exact ⟨msg, hp, h1, rfl⟩
  · obtain ⟨data', hp⟩ : ∃ data', HandedOut ds j ctx data' := hp
    obtain ⟨r, hg, rfl, -⟩ := handedOut_got h hp
    exact ⟨r, hg, h1, rfl⟩

/-- The calls of the nodes are a history of the network of nodes. -/
theorem running_history (h : Running C T L config mc rc ds es ms) : History C L config es fun j => (ms j).node := by
  induction h with
  | start h => exact .start h
  | @step ds es ms m' j d evs hr hw hp hd hm hn ih =>
    have hal : ∀ e ∈ evs, Allowed es j e.call := by
      intro e he
      cases d with
      | node call out =>
        obtain ⟨e', rfl, rfl, rfl⟩ := hm
        rw [List.mem_singleton] at he
        subst he
        generalize e.call = c at *
        unfold Permitted at hp
        cases c with
        | handlePacket now p => exact hp
        | postReply => exact hp.elim
        | _ => trivial
      | request env ns ctx call log out =>
        obtain ⟨x, -, r, i, d, mid, d', res, rng, now, -, hc, -⟩ := forall₂_mem_right hm he
        rw [hc]
        trivial
      | reply rng now call log out =>
        obtain ⟨x, hx, hc, -⟩ := forall₂_mem_right hm he
        rw [hc]
        intro s hs
        obtain ⟨r, hg, h1, -⟩ := reply_surbs hr hp hd.1 hx
        obtain ⟨e0, he0, hj, ho⟩ := got_event hr hg
        exact deliveredSurbs_mem he0 hj ho (h1.subset hs)
    have := history_calls hn ih rfl hal
    convert this using 1
    funext i
    by_cases hi : i = j
    · subst hi; rw [Function.update_self, Function.update_self]
    · rw [Function.update_of_ne hi, Function.update_of_ne hi]

end Mixnet
