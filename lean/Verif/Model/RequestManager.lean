import Verif.Model.Api
/-!
# `src/request_manager/`

The manager calls `Mixnet::post_request` and the user's `Request` methods while it runs, so every method
returns a `Work`: the manager, the mixnet, what the environment will still decide (random numbers, the
clock) and the log of what happened. The log is not part of the program; it records the calls the manager
makes, so that theorems can speak about them.
-/
namespace Mixnet

/-- `request_manager::Config`, `/repo/src/request_manager/config.rs:21-37` -/
structure RequestManagerConfig where
  capacity : Nat
  numDestinations : Nat
  numAttemptsPerDestination : Nat
  numPostsPerAttempt : Nat
deriving Repr, DecidableEq

/-- `request_manager::Config::default`, `/repo/src/request_manager/config.rs:39-50` -/
def RequestManagerConfig.default : RequestManagerConfig := ⟨20, 3, 2, 2⟩

/-- The answers of an implementation of the trait `Request`, `/repo/src/request_manager/mod.rs:42-60`:
`with_data` calls its argument once, with this data. `handle_post_err` and `handle_retry_limit_reached` are
entries of the log. `Ctx` is `Context`. Durations in nanoseconds. -/
structure RequestTrait (R Ctx : Type) where
  data : R → Ctx → Scattered Byte
  numSurbs : R → Ctx → Nat
  handlingDelay : R → MessageId → Ctx → Nat

/-- `RequestState`, `/repo/src/request_manager/mod.rs:62-75` -/
structure RequestState (R : Type) where
  request : R
  destinationsRemaining : Nat
  attemptsRemaining : Nat
  postsRemaining : Nat
  messageId : MessageId
  sessionIndex : Option SessionIndex
  destinationIndex : Option MixnodeIndex
  retryDeadline : Nat

/-- What the environment decides for one operation: the numbers drawn from `rand::thread_rng()` and the
result of `Instant::now()`. -/
structure Draw where
  rng : Rng
  now : Nat

/-- What the environment will decide for the operations to come. -/
abbrev Env := Nat → Draw

/-- What is known after a successful post: the metrics returned by `post_request`, the time the destination is
expected to take, according to the request, and the time. -/
structure Estimate where
  metrics : RequestMetrics
  handlingDelay : Nat
  now : Nat

/-- An entry of the log. -/
inductive LogEntry (R : Type) where
  /-- `mixnet.post_request` was called for a request, with this session index, destination index and message
  id. `d'` is the destination index afterwards. -/
  | post (r : R) (session : SessionIndex) (d : Option MixnodeIndex) (id : MessageId)
      (d' : Option MixnodeIndex) (res : Except PostErr Estimate)
  /-- `handle_post_err` was called. -/
  | postErr (r : R) (e : PostErr)
  /-- `handle_retry_limit_reached` was called. -/
  | retryLimit (r : R)
  /-- A message id was drawn at random for a request. -/
  | newId (r : R) (id : MessageId)

/-- `PostQueues`, `/repo/src/request_manager/post_queues.rs:24-32`. A `VecDeque` is a list, front first. -/
structure PostQueues (T : Type) where
  current : List T
  prev : List T
  default : List T

namespace PostQueues
variable {T : Type}

/-- `new`, `/repo/src/request_manager/post_queues.rs:35-41` -/
def new : PostQueues T := ⟨[], [], []⟩

/-- `iter`, `/repo/src/request_manager/post_queues.rs:43-45` -/
def iter (q : PostQueues T) : List (List T) := [q.current, q.prev, q.default]

/-- `Index`, `/repo/src/request_manager/post_queues.rs:52-62` -/
def get (q : PostQueues T) : Option RelSessionIndex → List T
  | some .current => q.current
  | some .prev => q.prev
  | none => q.default

/-- `IndexMut`, `/repo/src/request_manager/post_queues.rs:64-72` -/
def set (q : PostQueues T) (i : Option RelSessionIndex) (l : List T) : PostQueues T :=
  match i with
  | some .current => { q with current := l }
  | some .prev => { q with prev := l }
  | none => { q with default := l }

end PostQueues

/-- `RequestManager`, `/repo/src/request_manager/mod.rs:97-112` -/
structure RequestManager (R : Type) where
  config : RequestManagerConfig
  createdAt : Nat
  sessionStatus : SessionStatus
  postQueues : PostQueues (RequestState R)
  retryQueue : List (RequestState R)
  nextRetryDeadlineChanged : Bool

/-- The state while a method of the manager runs. -/
structure Work (R : Type) where
  mgr : RequestManager R
  mixnet : Node
  env : Env
  log : List (LogEntry R)

namespace RequestManager
variable {R Ctx : Type}

/-- `new`, `/repo/src/request_manager/mod.rs:115-126`. `now` is `Instant::now()`. -/
def new (config : RequestManagerConfig) (now : Nat) : RequestManager R :=
  ⟨config, now, ⟨0, .coverToCurrent⟩, .new, [], false⟩

/-- `has_space`, `/repo/src/request_manager/mod.rs:172-177` -/
def hasSpace (m : RequestManager R) : Bool :=
  let len := (m.postQueues.iter.map List.length).sum + m.retryQueue.length
  decide (len < m.config.capacity)

/-- `next_retry_deadline`, `/repo/src/request_manager/mod.rs:395-399` -/
def nextRetryDeadline (m : RequestManager R) : Option Nat := m.retryQueue.head?.map (·.retryDeadline)

/-- `next_retry_deadline_changed`, `/repo/src/request_manager/mod.rs:419-425` -/
def takeNextRetryDeadlineChanged (m : RequestManager R) : RequestManager R × Bool :=
  ({ m with nextRetryDeadlineChanged := false }, m.nextRetryDeadlineChanged)

/-- `remove`, `/repo/src/request_manager/mod.rs:214-231`. The loop over the post queues, then the retry
queue; `findIdx?` is `iter().position`. -/
def remove (m : RequestManager R) (messageId : MessageId) : RequestManager R × Option R :=
  let find (l : List (RequestState R)) : Option (Nat × RequestState R) :=
    (l.findIdx? fun s => s.messageId == messageId).bind fun i => l[i]?.map fun s => (i, s)
  match find m.postQueues.current with
  | some (i, s) =>
    ({ m with postQueues := { m.postQueues with current := m.postQueues.current.eraseIdx i } }, some s.request)
  | none =>
    match find m.postQueues.prev with
    | some (i, s) =>
      ({ m with postQueues := { m.postQueues with prev := m.postQueues.prev.eraseIdx i } }, some s.request)
    | none =>
      match find m.postQueues.default with
      | some (i, s) =>
        ({ m with postQueues := { m.postQueues with default := m.postQueues.default.eraseIdx i } },
          some s.request)
      | none =>
        match find m.retryQueue with
        | some (i, s) =>
          ({ m with
            nextRetryDeadlineChanged := if i = 0 then true else m.nextRetryDeadlineChanged
            retryQueue := m.retryQueue.eraseIdx i }, some s.request)
        | none => (m, none)

/-- `session_post_queues_empty`, `/repo/src/request_manager/mod.rs:327-338` -/
def sessionPostQueuesEmpty (m : RequestManager R) (rel : Option RelSessionIndex) : Bool :=
  if !(m.postQueues.get rel).isEmpty then false
  else
    let default := m.sessionStatus.phase.defaultRequestSession
    match rel with
    | some rel => if rel = default then m.postQueues.default.isEmpty else true
    | none => (m.postQueues.get (some default)).isEmpty

end RequestManager

namespace Work
variable {R Ctx : Type}

/-- The environment's decisions for the next operation. -/
def draw (w : Work R) : Draw × Work R := (w.env 0, { w with env := fun k => w.env (k + 1) })

/-- Append an entry to the log. -/
def note (w : Work R) (e : LogEntry R) : Work R := { w with log := w.log ++ [e] }

/-- `RequestState::new_destination`, `/repo/src/request_manager/mod.rs:78-94` -/
def newDestination (w : Work R) (state : RequestState R) (past : Nat) : RequestState R × Work R :=
  let (d, w) := w.draw
  let id := (d.rng.fillBytes MESSAGE_ID_SIZE).1
  ({ state with messageId := id, sessionIndex := none, destinationIndex := none, retryDeadline := past },
    w.note (.newId state.request id))

/-- `self.post_queues[rel] = l` -/
def setQueue (w : Work R) (rel : Option RelSessionIndex) (l : List (RequestState R)) : Work R :=
  { w with mgr := { w.mgr with postQueues := w.mgr.postQueues.set rel l } }

/-- `self.post_queues[rel]` -/
def queue (w : Work R) (rel : Option RelSessionIndex) : List (RequestState R) := w.mgr.postQueues.get rel

/-- Insertion into the retry queue, `/repo/src/request_manager/mod.rs:288-296`. `partition_point` is a binary
search; in a sorted queue (`Props.RequestManager`) it finds the length of the prefix satisfying the
predicate. -/
def insertRetry (w : Work R) (state : RequestState R) : Work R :=
  let i := (w.mgr.retryQueue.takeWhile fun s => s.retryDeadline < state.retryDeadline).length
  { w with mgr := { w.mgr with
      retryQueue := w.mgr.retryQueue.insertIdx i state
      nextRetryDeadlineChanged := if i = 0 then true else w.mgr.nextRetryDeadlineChanged } }

/-- One iteration of the loop of `process_post_queue`, `/repo/src/request_manager/mod.rs:256-307`. The boolean
says whether the loop goes on. `session` is `session_index`, `sessionOrDefault` is
`session_index_or_default`, `relOrDefault` is `rel_session_index_or_default`. -/
def postNext (C : Crypto) (T : RequestTrait R Ctx) (ns : NetworkStatus) (ctx : Ctx)
    (rel : Option RelSessionIndex) (relOrDefault : RelSessionIndex) (session : Option SessionIndex)
    (sessionOrDefault : SessionIndex) (w : Work R) : Res (Bool × Work R) :=
  match w.queue rel with
  | [] => .ok (false, w)
  | state :: rest => do
    let w := w.setQueue rel rest
    assertP "state.session_index == session_index" (decide (state.sessionIndex = session))
    let (d, w) := w.draw
    let (mixnet, destination, res) ← w.mixnet.postRequest C d.rng sessionOrDefault state.destinationIndex
      state.messageId (T.data state.request ctx) (T.numSurbs state.request ctx) ns
    let w := { w with mixnet := mixnet }.note
      (.post state.request sessionOrDefault state.destinationIndex state.messageId destination
        (res.map fun metrics => ⟨metrics, T.handlingDelay state.request state.messageId ctx, d.now⟩))
    let state := { state with destinationIndex := destination }
    match res with
    | .ok metrics =>
      let state := { state with sessionIndex := some sessionOrDefault }
      let rtt := metrics.estimateRtt (T.handlingDelay state.request state.messageId ctx)
      let state := { state with retryDeadline := max state.retryDeadline (d.now + rtt) }
      match state.postsRemaining with
      | postsRemaining + 1 =>
        let state := { state with postsRemaining := postsRemaining }
        .ok (true, w.setQueue (some relOrDefault) (w.queue (some relOrDefault) ++ [state]))
      | 0 => .ok (true, w.insertRetry state)
    | .error .notEnoughSpaceInQueue => .ok (false, w.setQueue rel (state :: w.queue rel))
    | .error e => .ok (true, w.note (.postErr state.request e))

/-- The loop of `process_post_queue`, `/repo/src/request_manager/mod.rs:256-307`, for at most `n` iterations:
`none` if it has not ended by then. -/
def postLoop (C : Crypto) (T : RequestTrait R Ctx) (ns : NetworkStatus) (ctx : Ctx)
    (rel : Option RelSessionIndex) (relOrDefault : RelSessionIndex) (session : Option SessionIndex)
    (sessionOrDefault : SessionIndex) : Nat → Work R → Res (Option (Work R))
  | 0, _ => .ok none
  | n + 1, w => do
    let (again, w) ← postNext C T ns ctx rel relOrDefault session sessionOrDefault w
    if again then postLoop C T ns ctx rel relOrDefault session sessionOrDefault n w else .ok (some w)

/-- A number of iterations after which the loop has ended (`Props.RequestManager`). -/
def iterations (l : List (RequestState R)) : Nat := (l.map fun s => s.postsRemaining + 1).sum + 1

/-- `session_index` of `process_post_queue`, `/repo/src/request_manager/mod.rs:251-252` -/
def queueSession (currentIndex : SessionIndex) : Option RelSessionIndex → Res (Option SessionIndex)
  | none => .ok none
  | some rel => do
    let i ← rel.add currentIndex
    .ok (some i)

/-- `process_post_queue`, `/repo/src/request_manager/mod.rs:233-308` -/
def processPostQueue (C : Crypto) (T : RequestTrait R Ctx) (ns : NetworkStatus) (ctx : Ctx)
    (rel : Option RelSessionIndex) (w : Work R) : Res (Work R) :=
  let status := w.mgr.sessionStatus
  let relOrDefault := rel.getD status.phase.defaultRequestSession
  if relOrDefault = .prev ∧ status.currentIndex = 0 then do
    assertP "self.post_queues.prev.is_empty()" w.mgr.postQueues.prev.isEmpty
    .ok w
  else do
    let session ← queueSession status.currentIndex rel
    let sessionOrDefault ← relOrDefault.add status.currentIndex
    match ← postLoop C T ns ctx rel relOrDefault session sessionOrDefault (iterations (w.queue rel)) w with
    | none => panic "the loop does not end"
    | some w => .ok w

/-- `process_post_queues`, `/repo/src/request_manager/mod.rs:310-325` -/
def processPostQueues (C : Crypto) (T : RequestTrait R Ctx) (ns : NetworkStatus) (ctx : Ctx) (w : Work R) :
    Res (Work R) := do
  let w ← w.processPostQueue C T ns ctx none
  let w ← w.processPostQueue C T ns ctx (some .current)
  w.processPostQueue C T ns ctx (some .prev)

/-- The loop of `update_session_status` over the requests appended to the default queue,
`/repo/src/request_manager/mod.rs:161-163`. -/
def newDestinations : Work R → List (RequestState R) → Nat → List (RequestState R) × Work R
  | w, [], _ => ([], w)
  | w, s :: ss, past =>
    let (s, w) := w.newDestination s past
    let (ss, w) := newDestinations w ss past
    (s :: ss, w)

/-- The moves between the queues in `update_session_status`, `/repo/src/request_manager/mod.rs:143-159`, from
the old session status to the new one. -/
def moveQueues (q : PostQueues (RequestState R)) (old new : SessionStatus) : PostQueues (RequestState R) :=
  let q := if old.currentIndex ≠ new.currentIndex then
      let q := { q with default := q.default ++ q.prev, prev := [] }
      if new.currentIndex - old.currentIndex = 1 then  -- saturating_sub
        { q with current := q.prev, prev := q.current }
      else { q with default := q.default ++ q.current, current := [] }
    else q
  let q := if !new.phase.allowRequestsAndReplies .current then
      { q with default := q.default ++ q.current, current := [] }
    else q
  if !new.phase.allowRequestsAndReplies .prev then
    { q with default := q.default ++ q.prev, prev := [] }
  else q

/-- `update_session_status`, `/repo/src/request_manager/mod.rs:128-170` -/
def updateSessionStatus (C : Crypto) (T : RequestTrait R Ctx) (ns : NetworkStatus) (ctx : Ctx) (w : Work R) :
    Res (Work R) :=
  let status := w.mixnet.sessionStatus
  if w.mgr.sessionStatus = status then .ok w
  else
    let prevDefaultLen := w.mgr.postQueues.default.length
    let q := moveQueues w.mgr.postQueues w.mgr.sessionStatus status
    let (moved, w) := w.newDestinations (q.default.drop prevDefaultLen) w.mgr.createdAt
    let q := { q with default := q.default.take prevDefaultLen ++ moved }
    processPostQueues C T ns ctx { w with mgr := { w.mgr with postQueues := q, sessionStatus := status } }

/-- The session of the queue for a retry, `/repo/src/request_manager/mod.rs:363-375`: that of the request if
requests are still allowed in it, otherwise the default one, with a new destination. -/
def retrySession (w : Work R) (state : RequestState R) : Option RelSessionIndex × RequestState R × Work R :=
  match state.sessionIndex with
  | none => (none, state, w)
  | some i =>
    match RelSessionIndex.fromSessionIndex i w.mgr.sessionStatus.currentIndex with
    | some rel =>
      if w.mgr.sessionStatus.phase.allowRequestsAndReplies rel then (some rel, state, w)
      else
        let (state, w) := w.newDestination state w.mgr.createdAt
        (none, state, w)
    | none =>
      let (state, w) := w.newDestination state w.mgr.createdAt
      (none, state, w)

/-- The second half of `retry`, `/repo/src/request_manager/mod.rs:361-393`. -/
def enqueue (C : Crypto) (T : RequestTrait R Ctx) (ns : NetworkStatus) (ctx : Ctx) (w : Work R)
    (state : RequestState R) : Res (Work R) := do
  assertP "num_posts_per_attempt - 1" (decide (1 ≤ w.mgr.config.numPostsPerAttempt))
  let state := { state with postsRemaining := w.mgr.config.numPostsPerAttempt - 1 }
  let (rel, state, w) := w.retrySession state
  let empty := w.mgr.sessionPostQueuesEmpty rel
  let w := w.setQueue rel (w.queue rel ++ [state])
  if empty then do
    let w ← w.processPostQueue C T ns ctx rel
    if rel.isNone then
      w.processPostQueue C T ns ctx (some w.mgr.sessionStatus.phase.defaultRequestSession)
    else .ok w
  else .ok w

/-- `retry`, `/repo/src/request_manager/mod.rs:340-393` -/
def retry (C : Crypto) (T : RequestTrait R Ctx) (ns : NetworkStatus) (ctx : Ctx) (w : Work R)
    (state : RequestState R) : Res (Work R) := do
  assertP "state.posts_remaining == 0" (decide (state.postsRemaining = 0))
  match state.attemptsRemaining with
  | attemptsRemaining + 1 => enqueue C T ns ctx w { state with attemptsRemaining := attemptsRemaining }
  | 0 =>
    match state.destinationsRemaining with
    | 0 => .ok (w.note (.retryLimit state.request))
    | destinationsRemaining + 1 => do
      assertP "num_attempts_per_destination - 1" (decide (1 ≤ w.mgr.config.numAttemptsPerDestination))
      let (state, w) := w.newDestination
        { state with
          destinationsRemaining := destinationsRemaining
          attemptsRemaining := w.mgr.config.numAttemptsPerDestination - 1 } w.mgr.createdAt
      enqueue C T ns ctx w state

/-- `insert`, `/repo/src/request_manager/mod.rs:179-212` -/
def insert (C : Crypto) (T : RequestTrait R Ctx) (ns : NetworkStatus) (ctx : Ctx) (w : Work R) (request : R) :
    Res (Work R) := do
  assertP "self.has_space()" w.mgr.hasSpace
  retry C T ns ctx w {
    request := request
    destinationsRemaining := w.mgr.config.numDestinations
    attemptsRemaining := 0
    postsRemaining := 0
    messageId := List.replicate MESSAGE_ID_SIZE 0
    sessionIndex := none
    destinationIndex := none
    retryDeadline := w.mgr.createdAt }

/-- `pop_next_retry`, `/repo/src/request_manager/mod.rs:401-417` -/
def popNextRetry (C : Crypto) (T : RequestTrait R Ctx) (ns : NetworkStatus) (ctx : Ctx) (w : Work R) :
    Res (Work R × Bool) :=
  match w.mgr.retryQueue with
  | [] => .ok (w, false)
  | state :: rest => do
    let w ← retry C T ns ctx { w with mgr := { w.mgr with retryQueue := rest, nextRetryDeadlineChanged := true } } state
    .ok (w, true)

end Work

/-- A call of a method of `RequestManager`, `/repo/src/request_manager/mod.rs:114-426`. -/
inductive ManagerCall (R : Type) where
  | updateSessionStatus
  | insert (request : R)
  | remove (messageId : MessageId)
  | processPostQueues
  | popNextRetry
  | nextRetryDeadlineChanged

/-- What a call returns. -/
inductive ManagerOutcome (R : Type) where
  | unit
  | removed (r : Option R)
  | popped (b : Bool)
  | changed (b : Bool)

/-- One call, with the mixnet it is given and what the environment decides. Returns the manager, the mixnet
and the log of the call. -/
def RequestManager.step {R Ctx : Type} (C : Crypto) (T : RequestTrait R Ctx) (m : RequestManager R)
    (mixnet : Node) (env : Env) (ns : NetworkStatus) (ctx : Ctx) :
    ManagerCall R → Res (RequestManager R × Node × List (LogEntry R) × ManagerOutcome R)
  | .updateSessionStatus => do
    let w ← Work.updateSessionStatus C T ns ctx ⟨m, mixnet, env, []⟩
    .ok (w.mgr, w.mixnet, w.log, .unit)
  | .insert request => do
    let w ← Work.insert C T ns ctx ⟨m, mixnet, env, []⟩ request
    .ok (w.mgr, w.mixnet, w.log, .unit)
  | .remove id =>
    let (m, r) := m.remove id
    .ok (m, mixnet, [], .removed r)
  | .processPostQueues => do
    let w ← Work.processPostQueues C T ns ctx ⟨m, mixnet, env, []⟩
    .ok (w.mgr, w.mixnet, w.log, .unit)
  | .popNextRetry => do
    let (w, b) ← Work.popNextRetry C T ns ctx ⟨m, mixnet, env, []⟩
    .ok (w.mgr, w.mixnet, w.log, .popped b)
  | .nextRetryDeadlineChanged =>
    let (m, b) := m.takeNextRetryDeadlineChanged
    .ok (m, mixnet, [], .changed b)

/-- A manager's history: calls with arbitrary mixnets (the program may use the mixnet in any way between
two calls), environments, network states and contexts. `log` collects the logs of the calls. -/
inductive RequestManager.Runs {R Ctx : Type} (C : Crypto) (T : RequestTrait R Ctx) :
    RequestManager R → List (ManagerCall R) → List (ManagerOutcome R) → List (LogEntry R) → RequestManager R → Prop
  | nil (m) : Runs C T m [] [] [] m
  | cons {m call mixnet env ns ctx m' mixnet' log out calls outs logs m''} :
      m.step C T mixnet env ns ctx call = .ok (m', mixnet', log, out) →
      Runs C T m' calls outs logs m'' →
      Runs C T m (call :: calls) (out :: outs) (log ++ logs) m''

end Mixnet
