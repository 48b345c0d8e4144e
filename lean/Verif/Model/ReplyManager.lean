import Verif.Model.Api
/-!
# `src/reply_manager.rs`
-/
namespace Mixnet

/-- `reply_manager::Config`, `/repo/src/reply_manager.rs:31-47`, without the log target. Nanoseconds. -/
structure ReplyManagerConfig where
  capacity : Nat
  maxPosts : Nat
  cooldown : Nat
deriving Repr, DecidableEq

/-- `Config::default`, `/repo/src/reply_manager.rs:49-58` -/
def ReplyManagerConfig.default : ReplyManagerConfig := ⟨400, 2, 10000000000⟩

/-- `Reply`, `/repo/src/reply_manager.rs:60-64` -/
structure Reply where
  messageId : MessageId
  data : Bytes
deriving Repr, DecidableEq

/-- `Reply::new`, `/repo/src/reply_manager.rs:66-72` -/
def Reply.new (rng : Rng) (data : Bytes) : Reply := ⟨(rng.fillBytes MESSAGE_ID_SIZE).1, data⟩

/-- `ReplyContext`, `/repo/src/reply_manager.rs:74-80` -/
structure ReplyContext where
  sessionIndex : SessionIndex
  messageId : MessageId
  surbs : List Surb
deriving Repr, DecidableEq

/-- A call of `mixnet.post_reply` made by the manager: an entry of the log, which is not part of the
program. -/
structure ReplyPost where
  /-- the message id of the request answered -/
  request : MessageId
  session : SessionIndex
  reply : Reply
  /-- the SURBs before the call -/
  surbs : List Surb
  /-- the SURBs after the call -/
  left : List Surb
  result : Except PostErr Unit

/-- `ReplyContext::post_reply`, `/repo/src/reply_manager.rs:88-102`, with `n` iterations to go. The log messages
are left out. `reply.data.as_slice().into()` is one slice (`/repo/src/core/scattered.rs`). -/
def ReplyContext.postReply (C : Crypto) (reply : Reply) :
    Nat → ReplyContext → Node → Res (ReplyContext × Node × List ReplyPost)
  | 0, ctx, mixnet => .ok (ctx, mixnet, [])
  | n + 1, ctx, mixnet => do
    let (mixnet, surbs, res) ← mixnet.postReply C ctx.surbs ctx.sessionIndex reply.messageId
      (Scattered.ofSlice reply.data)
    let entry : ReplyPost := ⟨ctx.messageId, ctx.sessionIndex, reply, ctx.surbs, surbs, res⟩
    let ctx := { ctx with surbs := surbs }
    match res with
    | .error _ => .ok (ctx, mixnet, [entry])
    | .ok () => do
      let (ctx, mixnet, log) ← postReply C reply n ctx mixnet
      .ok (ctx, mixnet, entry :: log)

/-- `ReplyState`, `/repo/src/reply_manager.rs:105-110` -/
inductive ReplyState where
  | pending
  | complete (reply : Reply) (lastPost : Nat)
deriving Repr, DecidableEq

/-- `ReplyManager`, `/repo/src/reply_manager.rs:112-116` -/
structure ReplyManager where
  config : ReplyManagerConfig
  states : LinkedMap MessageId ReplyState
deriving Repr, DecidableEq

namespace ReplyManager

/-- `new`, `/repo/src/reply_manager.rs:120-126`. The capacity allocated is left out. -/
def new (config : ReplyManagerConfig) : ReplyManager := ⟨config, []⟩

/-- `maybe_evict`, `/repo/src/reply_manager.rs:128-133` -/
def maybeEvict (m : ReplyManager) : Res ReplyManager :=
  if m.states.length > m.config.capacity then do
    let states := m.states.popFront.2
    assertP "self.states.len() == self.config.capacity" (decide (states.length = m.config.capacity))
    .ok { m with states := states }
  else .ok m

/-- `insert`, `/repo/src/reply_manager.rs:143-180`. `now` is the result of `Instant::now()`;
`saturating_duration_since` is the subtraction of natural numbers. Also returns the mixnet and the log. -/
def insert (C : Crypto) (m : ReplyManager) (message : RequestMessage) (mixnet : Node) (now : Nat) :
    Res (ReplyManager × Node × List ReplyPost × Option (ReplyContext × Bytes)) :=
  let ctx : ReplyContext := ⟨message.sessionIndex, message.id, message.surbs⟩
  match m.states.get? message.id with
  | some .pending => .ok (m, mixnet, [], none)
  | some (.complete reply lastPost) =>
    if now - lastPost < m.config.cooldown then .ok (m, mixnet, [], none)
    else do
      let m := { m with states := m.states.set message.id (.complete reply now) }
      let (_, mixnet, log) ← ctx.postReply C reply m.config.maxPosts mixnet
      .ok (m, mixnet, log, none)
  | none => do
    let m ← { m with states := m.states.pushBack message.id .pending }.maybeEvict
    .ok (m, mixnet, [], some (ctx, message.data))

/-- `abandon`, `/repo/src/reply_manager.rs:185-198` -/
def abandon (m : ReplyManager) (ctx : ReplyContext) : ReplyManager :=
  match m.states.get? ctx.messageId with
  | some .pending => { m with states := m.states.remove ctx.messageId }
  | some (.complete _ _) => m
  | none => m

/-- The entry used by `complete`, `/repo/src/reply_manager.rs:207-219`: the map with a pending entry for the id,
`none` if the request is completed already. -/
def startComplete (m : ReplyManager) (id : MessageId) : Option ReplyManager :=
  match m.states.get? id with
  | some .pending => some m
  | some (.complete _ _) => none
  | none => some { m with states := m.states.pushBack id .pending }

/-- `complete`, `/repo/src/reply_manager.rs:201-225`. `now` is the result of `Instant::now()` after
posting. -/
def complete (C : Crypto) (m : ReplyManager) (ctx : ReplyContext) (data : Bytes) (mixnet : Node) (rng : Rng)
    (now : Nat) : Res (ReplyManager × Node × List ReplyPost) :=
  match m.startComplete ctx.messageId with
  | none => .ok (m, mixnet, [])
  | some m => do
    let reply := Reply.new rng data
    let (_, mixnet, log) ← ctx.postReply C reply m.config.maxPosts mixnet
    let m := { m with states := m.states.set ctx.messageId (.complete reply now) }
    let m ← m.maybeEvict
    .ok (m, mixnet, log)

end ReplyManager

/-- A call of a method of `ReplyManager`, `/repo/src/reply_manager.rs:118-226`. -/
inductive ReplyCall where
  | insert (message : RequestMessage)
  | abandon (ctx : ReplyContext)
  | complete (ctx : ReplyContext) (data : Bytes)

/-- One call at time `now`, with the mixnet it is given and the random numbers. Returns the manager, the mixnet,
the log, and what `insert` returned. -/
def ReplyManager.step (C : Crypto) (m : ReplyManager) (mixnet : Node) (rng : Rng) (now : Nat) :
    ReplyCall → Res (ReplyManager × Node × List ReplyPost × Option (ReplyContext × Bytes))
  | .insert message => m.insert C message mixnet now
  | .abandon ctx => .ok (m.abandon ctx, mixnet, [], none)
  | .complete ctx data => do
    let (m, mixnet, log) ← m.complete C ctx data mixnet rng now
    .ok (m, mixnet, log, none)

/-- What a call did: when it was made, what it posted, what it returned. -/
structure ReplyRecord where
  call : ReplyCall
  time : Nat
  log : List ReplyPost
  out : Option (ReplyContext × Bytes)

/-- A manager's history: calls with arbitrary mixnets, random numbers and times. -/
inductive ReplyManager.Runs (C : Crypto) : ReplyManager → List ReplyRecord → ReplyManager → Prop
  | nil (m) : Runs C m [] m
  | cons {m call mixnet rng now m' mixnet' log out records m''} :
      m.step C mixnet rng now call = .ok (m', mixnet', log, out) →
      Runs C m' records m'' →
      Runs C m (⟨call, now, log, out⟩ :: records) m''

end Mixnet
