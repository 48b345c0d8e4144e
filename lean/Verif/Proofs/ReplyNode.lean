import Verif.Props.Panics
import Verif.Proofs.ReplyManager
import Verif.Spec.Together
/-!
# A reply manager used with a node
-/
namespace Mixnet
open Spec Props

/-- Posting copies of a reply from a reachable node never panics and leaves a reachable node. -/
theorem copies_total {C : Crypto} (hC : CryptoLaws C) {config : Config} {reply : Reply} (hid : reply.messageId.length = 16) :
    ∀ (k : Nat) (ctx : ReplyContext) (n : Node), Node.Reachable C config n → (∀ s ∈ ctx.surbs, s.length = SURB_SIZE) →
    ∃ ctx' n' log, ReplyContext.postReply C reply k ctx n = .ok (ctx', n', log) ∧ Node.Reachable C config n'
  | 0, ctx, n, hr, _ => ⟨ctx, n, [], rfl, hr⟩
  | k + 1, ctx, n, hr, hs => by
    have hw : Call.WellTyped (.postReply ctx.surbs ctx.sessionIndex reply.messageId (Scattered.ofSlice reply.data)) :=
      ⟨hs, hid, by simp [Scattered.ofSlice, Scattered.len, Scattered.toVec]⟩
    obtain ⟨hI, -⟩ := hr.inv hC
    obtain ⟨⟨n1, surbs, res⟩, h1⟩ := postReply_total hC hI hw
    have hr1 : Node.Reachable C config n1 := by
      refine hr.step hC hw (out := .replied surbs res) ?_
      show (n.postReply C _ _ _ _ >>= _) = _
      rw [h1]; rfl
    obtain ⟨hp, -⟩ := postReply_surbs hid h1
    unfold ReplyContext.postReply
    rw [h1, res_bind_ok]
    dsimp only
    cases res with
    | error e => exact ⟨_, _, _, rfl, hr1⟩
    | ok u =>
      obtain ⟨c2, n2, l2, h2, hr2⟩ := copies_total hC hid k { ctx with surbs := surbs } n1 hr1
        (fun s h => hs s (hp.subset h))
      dsimp only
      rw [h2, res_bind_ok]
      exact ⟨_, _, _, rfl, hr2⟩

/-- A call of a reply manager with a reachable node never panics and leaves a reachable node. -/
theorem reply_step_total {C : Crypto} (hC : CryptoLaws C) {config : Config} {rc : ReplyManagerConfig} {m : ReplyManager}
    {n : Node} (hr : Node.Reachable C config n) (hm : m.Inv rc) (rng : Rng) (now : Nat) {call : ReplyCall}
    (hw : ReplyCall.WellTyped call) :
    ∃ m' n' log out, m.step C n rng now call = .ok (m', n', log, out) ∧ Node.Reachable C config n' := by
  have hb : m.states.length ≤ m.config.capacity := by
    rw [← ReplyManager.length_remembered, hm.config]; exact hm.bounded
  cases call with
  | insert message =>
    unfold ReplyManager.step ReplyManager.insert
    dsimp only
    obtain ⟨o, ho⟩ : ∃ o, m.states.get? message.id = o := ⟨_, rfl⟩
    rw [ho]
    rcases o with _ | _ | ⟨reply, last⟩
    · dsimp only
      rw [ReplyManager.maybeEvict_eq (by simp [LinkedMap.pushBack]; exact hb), res_bind_ok]
      exact ⟨_, _, _, _, rfl, hr⟩
    · exact ⟨_, _, _, _, rfl, hr⟩
    · dsimp only
      split
      · exact ⟨_, _, _, _, rfl, hr⟩
      · obtain ⟨c, n', l, h, hr'⟩ := copies_total hC (hm.ids _ _ _ (LinkedMap.get?_some_mem ho)) m.config.maxPosts
          ⟨message.sessionIndex, message.id, message.surbs⟩ n hr hw
        rw [h, res_bind_ok]
        exact ⟨_, _, _, _, rfl, hr'⟩
  | abandon ctx => exact ⟨_, _, _, _, rfl, hr⟩
  | complete ctx data =>
    obtain ⟨c, n', l, h, hr'⟩ := copies_total hC (reply := Reply.new rng data) (by simp [Reply.new, Rng.fillBytes]) m.config.maxPosts ctx n hr hw
    have key : ∃ m' n' log, m.complete C ctx data n rng now = .ok (m', n', log) ∧ Node.Reachable C config n' := by
      unfold ReplyManager.complete
      obtain ⟨o, ho⟩ : ∃ o, m.states.get? ctx.messageId = o := ⟨_, rfl⟩
      rcases o with _ | _ | ⟨reply, last⟩
      · have e : m.startComplete ctx.messageId = some { m with states := m.states.pushBack ctx.messageId .pending } := by
          unfold ReplyManager.startComplete; rw [ho]
        rw [e]
        dsimp only
        rw [h, res_bind_ok]
        dsimp only
        rw [ReplyManager.maybeEvict_eq (by simp [LinkedMap.set, LinkedMap.pushBack]; exact hb), res_bind_ok]
        exact ⟨_, _, _, rfl, hr'⟩
      · have e : m.startComplete ctx.messageId = some m := by
          unfold ReplyManager.startComplete; rw [ho]
        rw [e]
        dsimp only
        rw [h, res_bind_ok]
        dsimp only
        rw [ReplyManager.maybeEvict_eq (by simp [LinkedMap.set]; omega), res_bind_ok]
        exact ⟨_, _, _, rfl, hr'⟩
      · have e : m.startComplete ctx.messageId = none := by
          unfold ReplyManager.startComplete; rw [ho]
        rw [e]
        exact ⟨_, _, _, rfl, hr⟩
    obtain ⟨m', n', log, h, hr'⟩ := key
    refine ⟨m', n', log, none, ?_, hr'⟩
    show (m.complete C ctx data n rng now >>= _) = _
    rw [h]; rfl

end Mixnet
