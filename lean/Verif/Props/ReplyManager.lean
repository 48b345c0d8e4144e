import Verif.Spec.ReplyWorld
import Verif.Proofs.ReplyManager
/-!
# C47-C49: the reply manager

`ReplyReached C config records m`: a new manager has received the calls in `records`, each with an arbitrary
mixnet and random numbers and at an arbitrary time; it is in state `m`. A record says what the call was, when
it was made, what it posted and what it returned.
-/
namespace Mixnet.Props
open Mixnet Spec

variable {C : Crypto} {config : ReplyManagerConfig} {records : List ReplyRecord} {m m' : ReplyManager}
  {mixnet mixnet' : Node} {rng : Rng} {now : Nat} {log : List ReplyPost} {out : Option (ReplyContext × Bytes)}

theorem ReplyReached.inv (h : ReplyReached C config records m) : m.Inv config :=
  ReplyManager.runs_inv h (ReplyManager.new_inv config)

/-! ### C48 -/

/-- C48: the manager remembers each request once, and no more requests than its capacity. -/
theorem memory_bounded (h : ReplyReached C config records m) :
    (kept m).Nodup ∧ (kept m).length ≤ config.capacity :=
  ⟨(ReplyReached.inv h).nodup, (ReplyReached.inv h).bounded⟩

/-- C48: `insert` and `complete` of a request not kept put it last and leave the `capacity` newest ones;
of one kept, they leave the requests kept as they are. -/
theorem evicts_oldest (h : ReplyReached C config records m) {call : ReplyCall}
    (hs : m.step C mixnet rng now call = .ok (m', mixnet', log, out)) (hc : ReplyCall.abandons call = false) :
    kept m' = if ReplyCall.id call ∈ kept m then kept m
      else lastN config.capacity (kept m ++ [ReplyCall.id call]) := by
  have hr := ReplyManager.does_remembered (ReplyReached.inv h) (ReplyManager.step_does hs)
  cases call with
  | insert message => exact hr
  | complete ctx data => exact hr
  | abandon ctx => cases hc

/-- `abandon` forgets a request that is not completed and nothing else; it never posts. -/
theorem abandon_forgets (h : ReplyReached C config records m) {ctx : ReplyContext}
    (hs : m.step C mixnet rng now (.abandon ctx) = .ok (m', mixnet', log, out)) :
    mixnet' = mixnet ∧ log = [] ∧ out = none ∧
    (m.states.get? ctx.messageId = some .pending →
      kept m' = (kept m).filter (· ≠ ctx.messageId)) ∧
    (m.states.get? ctx.messageId ≠ some .pending → m' = m) := by
  have hr := ReplyManager.does_remembered (ReplyReached.inv h) (ReplyManager.step_does hs)
  dsimp only at hr
  cases ReplyManager.step_does hs with
  | abandoned h1 =>
    refine ⟨rfl, rfl, rfl, fun h => ?_, fun h => absurd h1 h⟩
    rw [if_pos h] at hr
    exact hr
  | notAbandoned h1 => exact ⟨rfl, rfl, rfl, fun h => absurd h h1, fun _ => rfl⟩

/-! ### C47 -/

/-- C47: `insert` hands out a request exactly if it is not kept. Its context then has the session, the
message id and the SURBs of the message, and nothing is posted. -/
theorem handed_out_iff {message : RequestMessage}
    (hs : m.step C mixnet rng now (.insert message) = .ok (m', mixnet', log, out)) :
    (message.id ∉ kept m → mixnet' = mixnet ∧ log = [] ∧
      out = some (⟨message.sessionIndex, message.id, message.surbs⟩, message.data)) ∧
    (message.id ∈ kept m → out = none) := by
  have key := ReplyManager.get?_none_iff (m := m) (id := message.id)
  cases ReplyManager.step_does hs with
  | busy h => exact ⟨fun hn => absurd (key.2 hn) (by rw [h]; simp), fun _ => rfl⟩
  | cool h _ => exact ⟨fun hn => absurd (key.2 hn) (by rw [h]; simp), fun _ => rfl⟩
  | again h _ _ => exact ⟨fun hn => absurd (key.2 hn) (by rw [h]; simp), fun _ => rfl⟩
  | handOut h1 h2 => exact ⟨fun _ => ⟨rfl, rfl, rfl⟩, fun hm => absurd hm (key.1 h1)⟩

/-- C47: after `insert` has handed out a request, it stays kept and is not handed out again until it is
abandoned or at least `capacity` later calls were about other requests, whatever calls are made. -/
theorem handed_out_once (h : ReplyReached C config records m) {message : RequestMessage} {x : ReplyContext × Bytes}
    (hs : m.step C mixnet rng now (.insert message) = .ok (m', mixnet', log, some x))
    {later : List ReplyRecord} {m'' : ReplyManager} (hl : ReplyManager.Runs C m' later m'')
    (hna : ∀ r ∈ later, ∀ ctx, r.call = .abandon ctx → ctx.messageId ≠ message.id)
    (hroom : others message.id later < config.capacity) :
    Remembering C message.id m' later m'' ∧ message.id ∈ kept m'' ∧
    ∀ r ∈ later, ∀ message', r.call = .insert message' → message'.id = message.id → r.out = none := by
  have hI := ReplyReached.inv h
  have hd := ReplyManager.step_does hs
  have hn : message.id ∉ kept m := fun hm => by
    have := (handed_out_iff hs).2 hm
    cases this
  have hr := evicts_oldest h hs rfl
  rw [show ReplyCall.id (.insert message) = message.id from rfl, if_neg hn] at hr
  have hx : ∃ a, kept m' = a ++ message.id :: [] := by
    refine ⟨(kept m).drop ((kept m ++ [message.id]).length - config.capacity), ?_⟩
    rw [hr]
    unfold lastN
    rw [List.drop_append]
    have := hI.bounded
    have : (kept m ++ [message.id]).length - config.capacity - (kept m).length = 0 := by
      simp only [List.length_append, List.length_cons, List.length_nil]
      omega
    rw [this, List.drop_zero]
  obtain ⟨a, hx⟩ := hx
  exact ReplyManager.runs_stays hl (ReplyManager.does_inv hI hd) hx hna (by simpa using hroom)

/-- The same of any request kept, with `b` newer ones. -/
theorem remembered_until_evicted (h : ReplyReached C config records m) {id : MessageId} {a b : List MessageId}
    (hm : kept m = a ++ id :: b)
    {later : List ReplyRecord} (hl : ReplyManager.Runs C m later m')
    (hna : ∀ r ∈ later, ∀ ctx, r.call = .abandon ctx → ctx.messageId ≠ id)
    (hroom : b.length + others id later < config.capacity) :
    Remembering C id m later m' ∧ id ∈ kept m' ∧
    ∀ r ∈ later, ∀ message, r.call = .insert message → message.id = id → r.out = none :=
  ReplyManager.runs_stays hl (ReplyReached.inv h) hm hna hroom

/-! ### C49 -/

/-- C49: a repeat of a completed request is not handed out. If less than the cooldown has passed since the last
posting, nothing happens; otherwise up to `max_posts` copies of the cached reply are posted with the SURBs of
the repeat. -/
theorem repeat_answered (h : ReplyReached C config records m) {message : RequestMessage} {reply : Reply} {last : Nat}
    (hc : m.states.get? message.id = some (.complete reply last))
    (hs : m.step C mixnet rng now (.insert message) = .ok (m', mixnet', log, out)) :
    out = none ∧
    (now - last < config.cooldown → m' = m ∧ mixnet' = mixnet ∧ log = []) ∧
    (config.cooldown ≤ now - last →
      m'.states.get? message.id = some (.complete reply now) ∧
      Copies message.id message.sessionIndex reply message.surbs config.maxPosts log) := by
  have hI := ReplyReached.inv h
  cases ReplyManager.step_does hs with
  | busy h1 => rw [hc] at h1; cases h1
  | cool h1 h2 =>
    rw [hc] at h1; cases h1
    rw [hI.config] at h2
    exact ⟨rfl, fun _ => ⟨rfl, rfl, rfl⟩, fun h => absurd h (Nat.not_le.2 h2)⟩
  | again h1 h2 h3 =>
    rw [hc] at h1; cases h1
    rw [hI.config] at h2 h3
    refine ⟨rfl, fun h => absurd h2 (Nat.not_le.2 h), fun _ => ⟨?_, ?_⟩⟩
    · exact LinkedMap.get?_set_self _ (ReplyManager.get?_some_mem hc)
    · exact postReply_copies (hI.ids _ _ _ (LinkedMap.get?_some_mem hc)) h3
  | handOut h1 h2 => rw [hc] at h1; cases h1

/-- A repeat of a request being handled is ignored. -/
theorem repeat_ignored {message : RequestMessage} (hc : m.states.get? message.id = some .pending)
    (hs : m.step C mixnet rng now (.insert message) = .ok (m', mixnet', log, out)) :
    out = none ∧ m' = m ∧ mixnet' = mixnet ∧ log = [] := by
  cases ReplyManager.step_does hs with
  | busy h1 => exact ⟨rfl, rfl, rfl, rfl⟩
  | cool h1 h2 => rw [hc] at h1; cases h1
  | again h1 h2 h3 => rw [hc] at h1; cases h1
  | handOut h1 h2 => rw [hc] at h1; cases h1

/-- C49: completing a request that is completed does nothing. Completing another one posts up to `max_posts`
copies of a reply with the data given, and caches that reply. -/
theorem completes_once (h : ReplyReached C config records m) {ctx : ReplyContext} {data : Bytes}
    (hs : m.step C mixnet rng now (.complete ctx data) = .ok (m', mixnet', log, out)) :
    ((∃ reply last, m.states.get? ctx.messageId = some (.complete reply last)) →
      m' = m ∧ mixnet' = mixnet ∧ log = []) ∧
    ((¬ ∃ reply last, m.states.get? ctx.messageId = some (.complete reply last)) →
      ∃ reply : Reply, reply.data = data ∧ reply.messageId.length = 16 ∧
        Copies ctx.messageId ctx.sessionIndex reply ctx.surbs config.maxPosts log ∧
        (1 ≤ config.capacity → m'.states.get? ctx.messageId = some (.complete reply now))) := by
  have hI := ReplyReached.inv h
  have hd := ReplyManager.step_does hs
  have hr := evicts_oldest h hs rfl
  cases hd with
  | twice h1 => exact ⟨fun _ => ⟨rfl, rfl, rfl⟩, fun hn => absurd ⟨_, _, h1⟩ hn⟩
  | completed h1 h2 h3 =>
    have hn : ¬ ∃ reply last, m.states.get? ctx.messageId = some (.complete reply last) := by
      rintro ⟨reply, last, hc⟩
      rcases h1 with ⟨h1, -⟩ | ⟨h1, -⟩ <;> rw [h1] at hc <;> cases hc
    refine ⟨fun hc => absurd hc hn, fun _ => ⟨Reply.new rng data, rfl, fillBytes_length .., ?_, fun hcap => ?_⟩⟩
    · rw [← hI.config]
      exact postReply_copies (reply := Reply.new rng data) (fillBytes_length ..) h2
    · have hid : ctx.messageId ∈ kept m' := by
        rw [hr, show ReplyCall.id (.complete ctx data) = ctx.messageId from rfl]
        split
        · assumption
        · unfold lastN
          rw [List.drop_append_of_le_length]
          · simp
          · have := hI.bounded
            simp only [List.length_append, List.length_cons, List.length_nil]
            omega
      have hb : m.states.length ≤ m.config.capacity := by
        rw [← ReplyManager.length_remembered, hI.config]; exact hI.bounded
      rcases h1 with ⟨h1, rfl⟩ | ⟨h1, rfl⟩
      all_goals
        rw [ReplyManager.maybeEvict_eq (by simp [LinkedMap.set, LinkedMap.pushBack]; omega)] at h3
        cases h3
        dsimp only
        rw [ReplyManager.get?_lastN _ _ hid, LinkedMap.get?_set_self]
      · exact ReplyManager.get?_some_mem h1
      · rw [LinkedMap.keys_set]; exact hI.nodup
      · rw [LinkedMap.keys_pushBack]; simp
      · rw [LinkedMap.keys_set]; exact LinkedMap.nodup_pushBack hI.nodup (ReplyManager.get?_none_iff.1 h1)

/-- C49: while a request is kept, everything posted for it is one and the same reply, and the times of
the postings are apart by at least the cooldown. -/
theorem answers_spaced (h : ReplyReached C config records m) {id : MessageId} {later : List ReplyRecord}
    (hl : Remembering C id m later m') :
    (∃ reply, ∀ r ∈ answers id later, ∀ p ∈ r.log, p.request = id ∧ p.reply = reply) ∧
    ((answers id later).map (·.time)).IsChain fun t t' => config.cooldown ≤ t' - t :=
  ReplyManager.remembering_any hl (ReplyReached.inv h)

/-- The SURBs used for copies of a reply are those given, each once: every post starts with a beginning of
the list of SURBs and the posts together use no more than there are. -/
theorem copies_surbs {id : MessageId} {i : SessionIndex} {reply : Reply} {surbs : List Surb} {limit : Nat}
    (h : Copies id i reply surbs limit log) :
    (∀ p ∈ log, p.surbs <+: surbs) ∧
    (log.map fun p => p.surbs.length - p.left.length).sum ≤ surbs.length := by
  obtain ⟨-, -, -, -, h5, h6, h7, -⟩ := h
  revert surbs
  induction log with
  | nil => intro surbs _; exact ⟨fun _ h => (by cases h), Nat.zero_le _⟩
  | cons p log ih =>
    intro surbs h5
    have e := h5 p rfl
    have hp := h7 p List.mem_cons_self
    obtain ⟨i1, i2⟩ := ih h6.tail (fun q hq => h7 q (List.mem_cons_of_mem _ hq)) (surbs := p.left) (fun q hq => by
      rw [List.isChain_cons] at h6
      exact h6.1 q hq)
    have hl := hp.length_le
    rw [← e]
    refine ⟨fun q hq => ?_, ?_⟩
    · rcases List.mem_cons.1 hq with rfl | hq
      · exact List.prefix_refl _
      · exact (i1 q hq).trans hp
    · rw [List.map_cons, List.sum_cons]
      omega

/-- A call panics only if a call of `post_reply` does, on the mixnet given or what earlier calls of
`post_reply` left of it. -/
theorem reply_panics_only_in_mixnet (h : ReplyReached C config records m) {call : ReplyCall} {p : Panic}
    (he : m.step C mixnet rng now call = .error p) :
    ∃ node surbs i id data, RepliesFrom C mixnet node ∧ node.postReply C surbs i id data = .error p :=
  ReplyManager.step_panic (ReplyReached.inv h) he

/-! ### The hypotheses can be met -/

/-- A history in which a request is handed out, a repeat is ignored, the request is completed (two copies are
posted), a repeat within the cooldown is ignored and a later one is answered with the same reply. -/
example : ∃ records m, ReplyReached World.C World.replyConfig records m ∧
    records.map (fun r => (r.out.isSome, r.log.length)) =
      [(true, 0), (false, 0), (false, 2), (false, 0), (false, 1), (false, 0), (true, 0)] ∧
    kept m = [World.mid, List.replicate 16 4] ∧
    (answers World.mid records).map (·.time) = [1010, 1025] ∧ others World.mid records.tail = 1 := World.reply_history

end Mixnet.Props
