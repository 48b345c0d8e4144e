import Verif.Spec.Whole
import Verif.Spec.Together
/-!
# A whole network with request managers and reply managers

Every machine has a node, a request manager and a reply manager. Programs post requests and replies only through the
managers. The network between the machines is that of `Verif.Spec.Whole`.
-/
namespace Mixnet.Spec
variable {R Ctx : Type}

structure Machine (R : Type) where
  node : Node
  requests : RequestManager R
  replies : ReplyManager

/-- A call of a method at a machine, with what it was given, what it did and what it returned. -/
inductive Deed (R Ctx : Type) where
  | node (call : Call) (out : Outcome)
  | request (env : Env) (ns : NetworkStatus) (ctx : Ctx) (call : ManagerCall R) (log : List (LogEntry R))
      (out : ManagerOutcome R)
  | reply (rng : Rng) (now : Nat) (call : ReplyCall) (log : List ReplyPost) (out : Option (ReplyContext × Bytes))

/-- The call takes the machine from `m` to `m'`. The managers are called with the node of the machine. -/
def Deed.Does (C : Crypto) (T : RequestTrait R Ctx) (m m' : Machine R) : Deed R Ctx → Prop
  | .node call out => m.node.step C call = .ok (m'.node, out) ∧ m'.requests = m.requests ∧ m'.replies = m.replies
  | .request env ns ctx call log out =>
    m.requests.step C T m.node env ns ctx call = .ok (m'.requests, m'.node, log, out) ∧ m'.replies = m.replies
  | .reply rng now call log out =>
    m.replies.step C m.node rng now call = .ok (m'.replies, m'.node, log, out) ∧ m'.requests = m.requests

/-- Constraints that the Rust types put on the inputs. -/
def Deed.WellTyped : Deed R Ctx → Prop
  | .node call _ => call.WellTyped
  | .request _ ns _ _ _ _ => ns.localPeerId.length = PEER_ID_SIZE
  | .reply _ _ call _ _ => ReplyCall.WellTyped call

/-- What has happened, and where. -/
abbrev Story (R Ctx : Type) := List (Nat × Deed R Ctx)

/-- The node of machine `j` has delivered this request. -/
def Got (ds : Story R Ctx) (j : Nat) (r : RequestMessage) : Prop :=
  ∃ call, (j, .node call (.message (some (.request r)))) ∈ ds

/-- `insert` has handed out this request, to be handled by the program at machine `j`. -/
def HandedOut (ds : Story R Ctx) (j : Nat) (ctx : ReplyContext) (data : Bytes) : Prop :=
  ∃ rng now msg log, (j, .reply rng now (.insert msg) log (some (ctx, data))) ∈ ds

/-- The program at machine `j` has given `complete` this reply to the request with this message ID. -/
def Completed (ds : Story R Ctx) (j : Nat) (mid : MessageId) (data : Bytes) : Prop :=
  ∃ rng now ctx log out, (j, .reply rng now (.complete ctx data) log out) ∈ ds ∧ ctx.messageId = mid

/-- The request `r` was inserted into the request manager of machine `j`. -/
def Inserted (ds : Story R Ctx) (j : Nat) (r : R) : Prop :=
  ∃ env ns ctx log out, (j, .request env ns ctx (.insert r) log out) ∈ ds

/-- The request manager of machine `j` has drawn this message ID for the request `r`. -/
def IdOf (ds : Story R Ctx) (j : Nat) (r : R) (mid : MessageId) : Prop :=
  ∃ env ns ctx call log out, (j, .request env ns ctx call log out) ∈ ds ∧ .newId r mid ∈ log

/-- The request manager of machine `j` has posted the request `r`, with message ID `mid`, to mixnode `d` in session `i`. -/
def PostedTo (ds : Story R Ctx) (j : Nat) (r : R) (i : SessionIndex) (d : MixnodeIndex) (mid : MessageId) : Prop :=
  ∃ env ns ctx call log out, (j, .request env ns ctx call log out) ∈ ds ∧
    ∃ d0 est, .post r i d0 mid (some d) (.ok est) ∈ log

/-- What programs, and the network, may do at machine `j`, whose node is `n`: packets have been sent, session indices do
not decrease, nothing is posted without the managers, the reply manager is given the requests that the node delivers
and the contexts that it handed out. -/
def Permitted (C : Crypto) (ds : Story R Ctx) (es : List (Event C)) (j : Nat) (n : Node) : Deed R Ctx → Prop
  | .node call _ => match call with
    | .handlePacket _ packet => packet ∈ sentPackets es
    | .setSessionStatus st => n.sessionStatus.currentIndex ≤ st.currentIndex
    | .postRequest .. => False
    | .postReply .. => False
    | _ => True
  | .request .. => True
  | .reply _ _ call _ _ => match call with
    | .insert msg => Got ds j msg
    | .abandon ctx => ∃ data, HandedOut ds j ctx data
    | .complete ctx _ => ∃ data, HandedOut ds j ctx data

/-- The calls at machine `j` in `evs`, one after the other, take the node from `n` to the other one. -/
inductive NodeCalls (C : Crypto) (L : Layout C) (j : Nat) : Node → List (Event C) → Node → Prop
  | nil (n) : NodeCalls C L j n [] n
  | cons {n n' n''} {e : Event C} {evs} : e.machine = j → e.call.WellTyped → n.step C e.call = .ok (n', e.out) →
      e.Records n n' → Agrees L j n' → NodeCalls C L j n' evs n'' → NodeCalls C L j n (e :: evs) n''

/-- The entry of the log of a request manager says that `e` was called. -/
def PostIs {C : Crypto} (T : RequestTrait R Ctx) (ns : NetworkStatus) (ctx : Ctx) (x : LogEntry R) (e : Event C) : Prop :=
  ∃ r i d mid d' res rng now,
    x = .post r i d mid d' (res.map fun met => ⟨met, T.handlingDelay r mid ctx, now⟩) ∧
    e.call = .postRequest rng i d mid (T.data r ctx) (T.numSurbs r ctx) ns ∧ e.out = .posted d' res

/-- The entry of the log of a reply manager says that `e` was called. -/
def ReplyIs {C : Crypto} (x : ReplyPost) (e : Event C) : Prop :=
  e.call = .postReply x.surbs x.session x.reply.messageId (Scattered.ofSlice x.reply.data) ∧
    e.out = .replied x.left x.result

/-- It is an entry for a call of `post_request`. -/
def isPost : LogEntry R → Bool
  | .post .. => true
  | _ => false

/-- `evs` are the calls of the node that were made: that by the program, or those by the manager according to its log. -/
def Deed.Made {C : Crypto} (T : RequestTrait R Ctx) (d : Deed R Ctx) (evs : List (Event C)) : Prop :=
  match d with
  | .node call out => ∃ e, evs = [e] ∧ e.call = call ∧ e.out = out
  | .request _ ns ctx _ log _ => List.Forall₂ (PostIs T ns ctx) (log.filter isPost) evs
  | .reply _ _ _ log _ => List.Forall₂ ReplyIs log evs

/-- What can happen in a network: the calls at the machines, in their order; the calls of the nodes that were made, by
programs and by managers; and the machines afterwards. -/
inductive Running (C : Crypto) (T : RequestTrait R Ctx) (L : Layout C) (config : Nat → Config)
    (mc : Nat → RequestManagerConfig) (rc : Nat → ReplyManagerConfig) :
    Story R Ctx → List (Event C) → (Nat → Machine R) → Prop
  | start {ms : Nat → Machine R} : (∀ j, Node.new C (config j) = .ok (ms j).node) →
      (∀ j, ∃ now, (ms j).requests = RequestManager.new (mc j) now) → (∀ j, (ms j).replies = ReplyManager.new (rc j)) →
      Running C T L config mc rc [] [] ms
  | step {ds es ms m'} (j : Nat) (d : Deed R Ctx) (evs : List (Event C)) : Running C T L config mc rc ds es ms →
      d.WellTyped → Permitted C ds es j (ms j).node d → d.Does C T (ms j) m' → d.Made T evs →
      NodeCalls C L j (ms j).node evs m'.node →
      Running C T L config mc rc (ds ++ [(j, d)]) (es ++ evs) (Function.update ms j m')

/-- The message IDs drawn: by request managers for requests, and by reply managers for replies. -/
def Deed.ids : Deed R Ctx → List MessageId
  | .node .. => []
  | .request _ _ _ _ log _ => drawn log
  | .reply _ _ (.complete _ _) (x :: _) _ => [x.reply.messageId]
  | .reply .. => []

/-- No message ID was drawn twice, by whatever machine. -/
def IdsFresh (ds : Story R Ctx) : Prop := (ds.flatMap (·.2.ids)).Nodup

/-- What a request asks to send does not depend on the context. -/
def Constant (T : RequestTrait R Ctx) : Prop :=
  ∀ r ctx ctx', (T.data r ctx).toVec = (T.data r ctx').toVec ∧ T.numSurbs r ctx = T.numSurbs r ctx'

/-- What the program at machine `k` was given to handle, `ctx` and `data`, is a request `r` of machine `j`: it was inserted
there, then posted with the message ID of the context to a mixnode that is machine `k`, and the data, and the number of
SURBs, are what `r` asked to send. -/
def HandlesFor {C : Crypto} (T : RequestTrait R Ctx) (L : Layout C) (ds : Story R Ctx) (k : Nat) (ctx : ReplyContext)
    (data : Bytes) (j : Nat) (r : R) : Prop :=
  Inserted ds j r ∧ IdOf ds j r ctx.messageId ∧
    (∃ d, PostedTo ds j r ctx.sessionIndex d ctx.messageId ∧ L.host ctx.sessionIndex d = k) ∧
    ∃ c, data = (T.data r c).toVec ∧ ctx.surbs.length = T.numSurbs r c

/-- The reply `msg` is what a program said about the request `r` of machine `j`: some machine was given `r` to handle, and
the program there completed it with this reply. -/
def AnswerTo {C : Crypto} (T : RequestTrait R Ctx) (L : Layout C) (ds : Story R Ctx) (msg : ReplyMessage) (j : Nat) (r : R) :
    Prop :=
  ∃ k ctx data, HandedOut ds k ctx data ∧ HandlesFor T L ds k ctx data j r ∧ ctx.messageId = msg.requestId ∧
    Completed ds k msg.requestId msg.data

/-- The calls of the reply manager of machine `j`. -/
def replyRecords (j : Nat) (ds : Story R Ctx) : List ReplyRecord :=
  ds.flatMap fun x => if x.1 = j then
    match x.2 with
    | .reply _ now call log out => [⟨call, now, log, out⟩]
    | _ => []
    else []

/-- How often the request `r` was inserted at machine `j`. -/
def timesInserted [DecidableEq R] (ds : Story R Ctx) (j : Nat) (r : R) : Nat :=
  ds.countP fun x => decide (x.1 = j) && match x.2 with
    | .request _ _ _ (.insert r') _ _ => decide (r' = r)
    | _ => false

/-- How often the request manager of machine `j` was told to look at the session status. -/
def statusUpdates (ds : Story R Ctx) (j : Nat) : Nat :=
  ds.countP fun x => decide (x.1 = j) && match x.2 with
    | .request _ _ _ .updateSessionStatus _ _ => true
    | _ => false

/-- No two SURBs made are the same. -/
def SurbsUnlike {C : Crypto} (es : List (Event C)) : Prop :=
  ∀ e ∈ es, ∀ e' ∈ es, ∀ x ∈ e.surbs, ∀ x' ∈ e'.surbs, x.surb = x'.surb → e = e' ∧ x = x'

end Mixnet.Spec
