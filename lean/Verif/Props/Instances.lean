import Verif.Props.Handling
import Verif.Props.Queues
import Verif.Props.Sending
import Verif.Props.Peel
import Verif.Spec.ManagerWorld
/-!
# More concrete cases

Concrete, non-trivial cases that meet the hypotheses of theorems of other files: of C13 (`Props/Peel.lean`), C18 and C20
(`Props/Queues.lean`), C34 (`Props/Sending.lean`) and C37 (`Props/Handling.lean`).
-/
namespace Mixnet.World.Instances
open Spec Props World

/-- A node with this configuration after some calls, and the outcomes. -/
def runCfg (config : Config) (calls : List Call) : Res (Node × List Outcome) := do
  let m ← Node.new C config
  runAll m calls

theorem runCfg_reachable {config calls m os} (h : runCfg config calls = .ok (m, os)) (hw : ∀ c ∈ calls, c.WellTyped) :
    Node.Reachable C config m := by
  unfold runCfg at h
  obtain ⟨x, hx⟩ : ∃ x, Node.new C config = x := ⟨_, rfl⟩
  rw [hx] at h
  cases x with
  | error e => cases h
  | ok m0 => exact ⟨m0, calls, os, hx, hw, runAll_runs h⟩

/-- Setting up with other mixnodes. -/
def setupWith (ms : List Mixnode) : List Call :=
  [.setSessionStatus ⟨0, .requestsToCurrent⟩, .maybeSetMixnodes .current (.ok ms) rng]

theorem setupWith_typed {l : List UInt8} : ∀ c ∈ setupWith (l.map mix), c.WellTyped := by
  intro c hc
  simp only [setupWith, List.mem_cons, List.not_mem_nil, or_false] at hc
  rcases hc with rfl | rfl
  · trivial
  · intro m hm
    obtain ⟨b, -, rfl⟩ := List.mem_map.1 hm
    exact ⟨rfl, rfl⟩

/-- The node's current session accepts the packet, as one to be forwarded, with this property of session and target. -/
def forwardCheck (p : Session → Target → Bool) (packet : Bytes) (n : Node) : Bool :=
  match n.sessions.current with
  | .full s => (!s.replayFilter.contains (s.tagFor C packet)) &&
    (match peel C zeroPacket packet (s.secretFor C packet) with
     | .ok (out, .ok (.forwardTo t _)) => out.length == PACKET_SIZE && p s t
     | _ => false)
  | _ => false

theorem forwardCheck_ok {p : Session → Target → Bool} {packet : Bytes} {n : Node} (h : forwardCheck p packet n = true) :
    ∃ s out t d, Accepts C n packet .current s out (.forwardTo t d) ∧ p s t = true := by
  unfold forwardCheck at h
  obtain ⟨slot, hslot⟩ : ∃ slot, n.sessions.current = slot := ⟨_, rfl⟩
  rw [hslot] at h
  match slot, hslot, h with
  | .full s, hslot, h =>
    dsimp only at h
    rw [Bool.and_eq_true] at h
    obtain ⟨h1, h2⟩ := h
    obtain ⟨x, hx⟩ : ∃ x, peel C zeroPacket packet (s.secretFor C packet) = x := ⟨_, rfl⟩
    rw [hx] at h2
    match x, hx, h2 with
    | .ok (out, .ok (.forwardTo t d)), hx, h2 =>
      dsimp only at h2
      rw [Bool.and_eq_true] at h2
      exact ⟨s, out, t, d, ⟨hslot, by simpa using h1, hx, fun h => (by cases h), by simpa using h2.1⟩, h2.2⟩

/-! ### C37 -/

/-- Carol with room for one packet. -/
def cfgOne : Config := { cfg 7 with forwardPacketQueueCapacity := 1 }

theorem one_full : ∃ x, runCfg cfgOne (setup ++ [relay]) = .ok x ∧ x.1.forwardPacketQueue.queue.length = 1 ∧
    forwardCheck (fun _ _ => true) packet2.packet x.1 = true := by
  obtain ⟨x, h1, h2⟩ := Res.of_check (x := runCfg cfgOne (setup ++ [relay]))
    (p := fun x => decide (x.1.forwardPacketQueue.queue.length = 1) && forwardCheck (fun _ _ => true) packet2.packet x.1)
    (by decide +kernel)
  rw [Bool.and_eq_true] at h2
  exact ⟨x, h1, of_decide_eq_true h2.1, h2.2⟩

/-- `full_queue_drops`: Carol has Alice's packet in her queue and no room for Bob's, which she would forward. -/
example : ∃ n : Node, n.forwardPacketQueue.queue.length = 1 ∧
    (∃ s out t d, Accepts C n packet2.packet .current s out (.forwardTo t d)) ∧
    n.step C (.handlePacket 2000 packet2.packet) = .ok (n, .message none) := by
  obtain ⟨⟨n, os⟩, h, hl, hf⟩ := one_full
  obtain ⟨s, out, t, d, hacc, -⟩ := forwardCheck_ok hf
  have hr := runCfg_reachable h (fun c hc => by
    rcases List.mem_append.1 hc with hc | hc
    · exact setup_typed c hc
    · rw [List.mem_singleton.1 hc]; exact relay_typed)
  exact ⟨n, hl, ⟨s, out, t, d, hacc⟩, full_queue_drops toyLaws hr packet2_length hacc (by rw [hl]; decide)⟩

theorem lonely : ∃ x, runCfg (cfg 7) (setupWith ([7].map mix)) = .ok x ∧
    forwardCheck (fun s t => decide (peerOf s.topology t = none)) packet0.packet x.1 = true :=
  Res.of_check (x := runCfg (cfg 7) (setupWith ([7].map mix)))
    (p := fun x => forwardCheck (fun s t => decide (peerOf s.topology t = none)) packet0.packet x.1) (by decide +kernel)

/-- `unknown_target_drops`: Carol knows of no other mixnode; Alice's packet is to go to the second one. -/
example : ∃ n m' : Node, (∃ s out t d, Accepts C n packet0.packet .current s out (.forwardTo t d)) ∧
    n.step C (.handlePacket 1000 packet0.packet) = .ok (m', .message none) ∧ m'.forwardPacketQueue = n.forwardPacketQueue := by
  obtain ⟨⟨n, os⟩, h, hf⟩ := lonely
  obtain ⟨s, out, t, d, hacc, hp⟩ := forwardCheck_ok hf
  have hr := runCfg_reachable h setupWith_typed
  obtain ⟨m', h1, h2, -⟩ := unknown_target_drops toyLaws hr (now := 1000) packet0_length hacc (of_decide_eq_true hp)
  exact ⟨n, m', ⟨s, out, t, d, hacc⟩, h1, h2⟩

theorem outsider : ∃ x, runCfg (cfg 7) (setupWith ([3, 5].map mix)) = .ok x ∧
    forwardCheck (fun s _ => !s.topology.isMixnode) packet0.packet x.1 = true :=
  Res.of_check (x := runCfg (cfg 7) (setupWith ([3, 5].map mix)))
    (p := fun x => forwardCheck (fun s _ => !s.topology.isMixnode) packet0.packet x.1) (by decide +kernel)

/-- `non_mixnode_only_replies`: Carol is told that she is not a mixnode, and drops the packet she can peel. -/
example : ∃ n : Node, (∃ s out t d, Accepts C n packet0.packet .current s out (.forwardTo t d)) ∧
    n.step C (.handlePacket 1000 packet0.packet) = .ok (n, .message none) := by
  obtain ⟨⟨n, os⟩, h, hf⟩ := outsider
  obtain ⟨s, out, t, d, hacc, hp⟩ := forwardCheck_ok hf
  have hr := runCfg_reachable h setupWith_typed
  exact ⟨n, ⟨s, out, t, d, hacc⟩, (non_mixnode_only_replies toyLaws hr packet0_length hacc (by simpa using hp)).2 (fun _ h => by cases h)⟩

/-! ### C18 -/

/-- `forward_conservation`: Carol takes Alice's packet in and sends it on. -/
example : ∃ (m' : Node) (q : Option AddressedPacket),
    Node.Runs C carol [relay, .popNextForwardPacket 0] [relayOut, .forwardPacket q] m' ∧
    (∃ arrived left, ForwardLog C carol [relay, .popNextForwardPacket 0] [relayOut, .forwardPacket q] m' arrived left) := by
  have hruns : Node.Runs C carol [relay, .popNextForwardPacket 0] [relayOut, .forwardPacket (carol1.popNextForwardPacket 0).2]
      (carol1.popNextForwardPacket 0).1 := .cons relay_step (.cons rfl (.nil _))
  refine ⟨_, _, hruns, (forward_conservation toyLaws carol_reachable (fun c hc => ?_) hruns).1⟩
  rcases List.mem_cons.1 hc with rfl | hc
  · exact relay_typed
  · rw [List.mem_singleton.1 hc]; trivial

/-! ### C20 -/

/-- Alice with room for one packet of her own. -/
def cfgNarrow : Config := { cfg 3 with mixnodeSession := { (cfg 3).mixnodeSession with authoredPacketQueue := ⟨1, true⟩ } }

def narrow : Res (Node × Node × Node × Outcome × Except PostErr RequestMetrics × Except PostErr RequestMetrics) := do
  let (a, _) ← runCfg cfgNarrow (setup ++ [ask])
  let (_, _, r1) ← a.postRequest C rng 0 (some 1) mid (Scattered.ofSlice [4]) 0 (ns 3)
  let (b, o) ← a.step C send
  let (c, _, r2) ← b.postRequest C rng 0 (some 1) mid (Scattered.ofSlice [4]) 0 (ns 3)
  .ok (a, b, c, o, r1, r2)

theorem narrow_ok : ∃ x, narrow = .ok x ∧ (x.1.sessionAt 0).isSome = true ∧ (x.2.1.sessionAt 0).isSome = true ∧
    x.2.2.2.2.1 = .error .notEnoughSpaceInQueue ∧ x.2.2.2.2.2.isOk = true := by
  obtain ⟨x, h1, h2⟩ := Res.of_check (x := narrow)
    (p := fun x => decide ((x.1.sessionAt 0).isSome = true ∧ (x.2.1.sessionAt 0).isSome = true) &&
      (match x.2.2.2.2.1 with | .error .notEnoughSpaceInQueue => true | _ => false) && x.2.2.2.2.2.isOk) (by decide +kernel)
  simp only [Bool.and_eq_true, decide_eq_true_eq] at h2
  obtain ⟨⟨⟨h2, h3⟩, h4⟩, h5⟩ := h2
  refine ⟨x, h1, h2, h3, ?_, h5⟩
  split at h4
  · assumption
  · cases h4

/-- Bob with room for one packet of his own; he has a request of his own to send. -/
def cfgNarrowB : Config := { cfgNarrow with session0KxSecret := some (sec 5) }

def askB : Call := .postRequest rng 0 (some 0) mid (Scattered.ofSlice [1, 2, 3]) 1 (ns 5)
theorem askB_typed : askB.WellTyped := ⟨by intro i hi; cases hi; decide, rfl, rfl, rfl⟩
def sendB : Call := .popNextAuthoredPacket (fun _ => 2 ^ 64 - 1) (ns 5)
theorem sendB_typed : sendB.WellTyped := rfl

def narrowB : Res (Node × Node × Node × Outcome × Except PostErr Unit × Except PostErr Unit) := do
  let (a, _) ← runCfg cfgNarrowB (setup ++ [askB])
  let (_, _, r1) ← a.postReply C surbs 0 mid (Scattered.ofSlice [4])
  let (b, o) ← a.step C sendB
  let (c, _, r2) ← b.postReply C surbs 0 mid (Scattered.ofSlice [4])
  .ok (a, b, c, o, r1, r2)

theorem narrowB_ok : ∃ x, narrowB = .ok x ∧ (x.1.sessionAt 0).isSome = true ∧ (x.2.1.sessionAt 0).isSome = true ∧
    x.2.2.2.2.1 = .error .notEnoughSpaceInQueue ∧ x.2.2.2.2.2.isOk = true := by
  obtain ⟨x, h1, h2⟩ := Res.of_check (x := narrowB)
    (p := fun x => decide ((x.1.sessionAt 0).isSome = true ∧ (x.2.1.sessionAt 0).isSome = true) &&
      (match x.2.2.2.2.1 with | .error .notEnoughSpaceInQueue => true | _ => false) && x.2.2.2.2.2.isOk) (by decide +kernel)
  simp only [Bool.and_eq_true, decide_eq_true_eq] at h2
  obtain ⟨⟨⟨h2, h3⟩, h4⟩, h5⟩ := h2
  refine ⟨x, h1, h2, h3, ?_, h5⟩
  split at h4
  · assumption
  · cases h4

/-- Alice without cover traffic. -/
def cfgBare : Config := { cfg 3 with genCoverPackets := false }

theorem bare_ok : ∃ x, runCfg cfgBare setup = .ok x ∧
    x.1.sessions.prev.asOption = none ∧ (x.1.sessionAt 0).isSome = true ∧ x.1.sessionStatus.currentIndex = 0 ∧
    (∀ s ∈ x.1.sessionAt 0, s.authoredPacketQueue.queue = []) ∧
    (x.1.step C send).says (fun o => match o with | .authoredPacket _ => true | _ => false) = true := by
  obtain ⟨x, h1, h2⟩ := Res.of_check (x := runCfg cfgBare setup)
    (p := fun x => decide (x.1.sessions.prev.asOption.isNone = true ∧ (x.1.sessionAt 0).isSome = true ∧ x.1.sessionStatus.currentIndex = 0 ∧
      ((x.1.sessionAt 0).all fun s => s.authoredPacketQueue.queue.isEmpty) = true ∧
      (x.1.step C send).says (fun o => match o with | .authoredPacket _ => true | _ => false) = true)) (by decide +kernel)
  obtain ⟨a, b, c, d, e⟩ := of_decide_eq_true h2
  refine ⟨x, h1, by simpa using a, b, c, fun s hs => ?_, e⟩
  rw [Option.mem_def.1 hs] at d
  simpa using d

/-- Carol's shared secret for Alice's packet. -/
def carolSecret : SharedSecret :=
  match carol.sessions.current with
  | .full s => s.secretFor C packet0.packet
  | _ => []

/-- Alice's packet with another MAC, and with another routing field. -/
def otherMac : Bytes := splice packet0.packet 32 (List.replicate 16 0)
def otherActions : Bytes := splice packet0.packet 48 [0, 1]

theorem carol_peels : (match peel C zeroPacket packet0.packet carolSecret with
    | .ok (_, .ok (.forwardTo _ _)) => true | _ => false) = true := by decide +kernel
theorem other_parts : otherMac.length = PACKET_SIZE ∧ otherActions.length = PACKET_SIZE ∧
    actionsOf otherMac = actionsOf packet0.packet ∧ macOf otherMac ≠ macOf packet0.packet ∧
    actionsOf otherActions ≠ actionsOf packet0.packet ∧ macOf otherActions = macOf packet0.packet := by decide +kernel

attribute [local irreducible] Node.step Node.postRequest Node.postReply runCfg peel

/-- `request_space_event`: Alice has a packet to send and no room for another; after sending it, she has, and says so. -/
example : ∃ (a b a' c : Node) (o : Outcome) (d1 d2 : Option MixnodeIndex) (met : RequestMetrics),
    a.postRequest C rng 0 (some 1) mid (Scattered.ofSlice [4]) 0 (ns 3) = .ok (a', d1, .error .notEnoughSpaceInQueue) ∧
    Node.Keeps C 0 a [send] [o] b ∧
    b.postRequest C rng 0 (some 1) mid (Scattered.ofSlice [4]) 0 (ns 3) = .ok (c, d2, .ok met) ∧
    (b.events.spaceInAuthoredPacketQueue = true ∨ ∃ e, .events e ∈ [o] ∧ e.spaceInAuthoredPacketQueue = true) := by
  obtain ⟨⟨a, b, c, o, r1, r2⟩, h, s1, s2, e1, e2⟩ := narrow_ok
  dsimp only at s1 s2 e1 e2
  unfold narrow at h
  rw [res_bind_eq_ok] at h
  obtain ⟨⟨a0, os⟩, h1, h⟩ := h
  rw [res_bind_eq_ok] at h
  obtain ⟨⟨a', d1, r⟩, h2, h⟩ := h
  rw [res_bind_eq_ok] at h
  obtain ⟨⟨b0, o0⟩, h3, h⟩ := h
  rw [res_bind_eq_ok] at h
  obtain ⟨⟨c0, d2, r'⟩, h4, h⟩ := h
  cases h
  subst e1
  cases r2 with
  | error e => cases e2
  | ok met =>
    have hr := runCfg_reachable h1 (fun c hc => by
      rcases List.mem_append.1 hc with hc | hc
      · exact setup_typed c hc
      · rw [List.mem_singleton.1 hc]; exact ask_typed)
    have hk : Node.Keeps C 0 a [send] [o] b := .cons s1 h3 (.nil s2)
    exact ⟨a, b, a', c, o, d1, d2, met, h2, hk, h4, request_space_event toyLaws hr (by decide +kernel)
      (fun c hc => by rw [List.mem_singleton.1 hc]; exact send_typed) hk h2 h4⟩

/-- `reply_space_event`: Bob has a request to send and no room for a reply; after sending it, he has, and says so. -/
example : ∃ (a b a' c : Node) (o : Outcome) (l1 l2 : List Surb),
    a.postReply C surbs 0 mid (Scattered.ofSlice [4]) = .ok (a', l1, .error .notEnoughSpaceInQueue) ∧
    Node.Keeps C 0 a [sendB] [o] b ∧
    b.postReply C surbs 0 mid (Scattered.ofSlice [4]) = .ok (c, l2, .ok ()) ∧
    (b.events.spaceInAuthoredPacketQueue = true ∨ ∃ e, .events e ∈ [o] ∧ e.spaceInAuthoredPacketQueue = true) := by
  obtain ⟨⟨a, b, c, o, r1, r2⟩, h, s1, s2, e1, e2⟩ := narrowB_ok
  dsimp only at s1 s2 e1 e2
  unfold narrowB at h
  rw [res_bind_eq_ok] at h
  obtain ⟨⟨a0, os⟩, h1, h⟩ := h
  rw [res_bind_eq_ok] at h
  obtain ⟨⟨a', d1, r⟩, h2, h⟩ := h
  rw [res_bind_eq_ok] at h
  obtain ⟨⟨b0, o0⟩, h3, h⟩ := h
  rw [res_bind_eq_ok] at h
  obtain ⟨⟨c0, d2, r'⟩, h4, h⟩ := h
  cases h
  subst e1
  cases r2 with
  | error e => cases e2
  | ok met =>
    have hr := runCfg_reachable h1 (fun c hc => by
      rcases List.mem_append.1 hc with hc | hc
      · exact setup_typed c hc
      · rw [List.mem_singleton.1 hc]; exact askB_typed)
    have hk : Node.Keeps C 0 a [sendB] [o] b := .cons s1 h3 (.nil s2)
    exact ⟨a, b, a', c, o, d1, d2, h2, hk, h4, reply_space_event toyLaws hr (by decide +kernel)
      (fun c hc => by rw [List.mem_singleton.1 hc]; exact sendB_typed) hk h2 h4⟩

/-! ### C34 -/

/-- `no_cover_no_packet`: without cover traffic and with nothing to say, Alice sends nothing. -/
example : ∃ n m' : Node, (n.sessionAt 0).isSome = true ∧ n.step C send = .ok (m', .authoredPacket none) := by
  obtain ⟨⟨n, os⟩, h, h1, h2, h3, h4, h5⟩ := bare_ok
  dsimp only at h1 h2 h3 h4 h5
  have hr := runCfg_reachable h setup_typed
  obtain ⟨m', o, he, ho⟩ := Res.of_says h5
  match o, ho with
  | .authoredPacket p, _ =>
    have he' := he
    unfold send at he'
    have := no_cover_no_packet toyLaws hr send_typed he' rfl (fun i s hs => .inr (.inr ?_))
    · subst this
      exact ⟨n, m', h2, he⟩
    · unfold Node.sessionAt at hs
      split at hs
      · rename_i hi
        rw [h3] at hi
        subst hi
        refine h4 s (Option.mem_def.2 ?_)
        unfold Node.sessionAt
        rw [if_pos h3.symm]
        exact hs
      · split at hs
        · rw [h1] at hs; cases hs
        · cases hs

/-! ### C13 -/

/-- `tampered_header_rejected`: Carol would forward Alice's packet. With another MAC it is rejected; with another routing field and the
same MAC it is rejected unless the two routing fields have the same MAC. -/
example : (∃ out', peel C zeroPacket otherMac carolSecret = .ok (out', .error .mac)) ∧
    ∃ out' r', peel C zeroPacket otherActions carolSecret = .ok (out', r') ∧
      (r' ≠ .error .mac → ∃ a a', a ≠ a' ∧ C.blakeMac (C.macKey carolSecret) a = C.blakeMac (C.macKey carolSecret) a') := by
  obtain ⟨h1, h2, h3, h4, h5, h6⟩ := other_parts
  obtain ⟨x, hx⟩ : ∃ x, peel C zeroPacket packet0.packet carolSecret = x := ⟨_, rfl⟩
  have h := carol_peels
  rw [hx] at h
  match x, hx, h with
  | .ok (out, .ok (.forwardTo t d)), hx, _ =>
    obtain ⟨o1, r1, e1, -, -, f1⟩ := tampered_header_rejected toyLaws zeroPacket packet0.packet otherMac out carolSecret List.length_replicate packet0_length h1
      _ hx (by simp)
    obtain ⟨o2, r2, e2, -, f2, -⟩ := tampered_header_rejected toyLaws zeroPacket packet0.packet otherActions out carolSecret List.length_replicate packet0_length h2
      _ hx (by simp)
    rw [f1 h3 h4] at e1
    exact ⟨⟨o1, e1⟩, o2, r2, e2, f2 h5 h6⟩

end Mixnet.World.Instances
