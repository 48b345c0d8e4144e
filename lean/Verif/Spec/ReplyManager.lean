import Verif.Model.ReplyManager
import Verif.Props.Posting
/-!
# Vocabulary for the properties of a reply manager
-/
namespace Mixnet.Spec

/-- The message ids of the requests kept, oldest first. -/
def kept (m : ReplyManager) : List MessageId := m.states.map (·.1)

/-- The message id a call is about. -/
def ReplyCall.id : ReplyCall → MessageId
  | .insert message => message.id
  | .abandon ctx => ctx.messageId
  | .complete ctx _ => ctx.messageId

/-- The call is an `abandon`. -/
def ReplyCall.abandons : ReplyCall → Bool
  | .abandon _ => true
  | _ => false

/-- The number of calls that may have made the manager remember another request than `id`. -/
def others (id : MessageId) (records : List ReplyRecord) : Nat :=
  records.countP fun r => decide (ReplyCall.id r.call ≠ id) && !ReplyCall.abandons r.call

/-- Up to `limit` copies of a reply to the request `id` were posted in a session with these SURBs, until a post
failed. -/
structure Copies (id : MessageId) (session : SessionIndex) (reply : Reply) (surbs : List Surb) (limit : Nat)
    (log : List ReplyPost) : Prop where
  each : ∀ p ∈ log, p.request = id ∧ p.session = session ∧ p.reply = reply
  atMost : log.length ≤ limit
  succeeded : ∀ p ∈ log.dropLast, p.result = .ok ()
  stopped : log.length < limit → ∃ p e, log.getLast? = some p ∧ p.result = .error e
  firstSurbs : ∀ p, log.head? = some p → p.surbs = surbs
  nextSurbs : log.IsChain fun p q => q.surbs = p.left
  taken : ∀ p ∈ log, p.left <+: p.surbs
  used : ∀ p ∈ log, p.result = .ok () →
    ∃ fs, Props.Sent reply.messageId reply.data [] fs ∧ p.surbs.length = p.left.length + fs.length

/-- The state of a new manager after a history. -/
def ReplyReached (C : Crypto) (config : ReplyManagerConfig) (records : List ReplyRecord) (m : ReplyManager) : Prop :=
  ReplyManager.Runs C (.new config) records m

/-- A history in which the request `id` is kept after every call. -/
inductive Remembering (C : Crypto) (id : MessageId) : ReplyManager → List ReplyRecord → ReplyManager → Prop
  | nil (m) : Remembering C id m [] m
  | cons {m call mixnet rng now m' mixnet' log out records m''} :
      m.step C mixnet rng now call = .ok (m', mixnet', log, out) → id ∈ kept m' →
      Remembering C id m' records m'' →
      Remembering C id m (⟨call, now, log, out⟩ :: records) m''

/-- The calls that posted, or tried to post, answers to the request `id`. -/
def answers (id : MessageId) (records : List ReplyRecord) : List ReplyRecord :=
  records.filter fun r => decide (ReplyCall.id r.call = id) && !r.log.isEmpty

/-- A mixnet as left by calls of `post_reply`. -/
inductive RepliesFrom (C : Crypto) (mixnet : Node) : Node → Prop
  | refl : RepliesFrom C mixnet mixnet
  | post {n n' : Node} {surbs i id data surbs' res} : RepliesFrom C mixnet n →
      n.postReply C surbs i id data = .ok (n', surbs', res) → RepliesFrom C mixnet n'

end Mixnet.Spec
