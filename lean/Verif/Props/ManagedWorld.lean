import Verif.Props.Managed
/-!
# The hypotheses of C82 can be met

Alice's request manager posts a request; Carol relays it, Bob's reply manager hands it out and completes it; Carol relays
the reply, and Alice gets it.
-/
namespace Mixnet.World
open Mixnet.Spec Mixnet.Props

def askStep := (RequestManager.new mgrConfig 5).step C trait alice (mgrEnv 0) (ns 3) () .updateSessionStatus
theorem askStep_ok : askStep.isOk = true := by decide +kernel
def mgrA : RequestManager Nat := (askStep.get askStep_ok).1
def nodeA : Node := (askStep.get askStep_ok).2.1

def postStep := mgrA.step C trait nodeA (mgrEnv 1) (ns 3) () (.insert 7)
theorem postStep_ok : postStep.isOk = true := by decide +kernel
def mgrB : RequestManager Nat := (postStep.get postStep_ok).1
def nodeB : Node := (postStep.get postStep_ok).2.1
def logB : List (LogEntry Nat) := (postStep.get postStep_ok).2.2.1
def outB : ManagerOutcome Nat := (postStep.get postStep_ok).2.2.2
/-- The message ID drawn. -/
def midB : Bytes := ((mgrEnv 1 0).rng.fillBytes 16).1

theorem post_eq : mgrA.step C trait nodeA (mgrEnv 1) (ns 3) () (.insert 7) = .ok (mgrB, nodeB, logB, outB) := by
  have := Res.eq_get postStep postStep_ok
  exact this

theorem inUseA : InUse C trait (cfg 3) mgrConfig mgrA nodeA := by
  have h := Res.eq_get askStep askStep_ok
  exact .manager alice_inUse rfl (show _ = Except.ok (mgrA, nodeA, _, _) from h)

theorem logB_posts : ∃ d0 est, .post 7 0 d0 midB (some 1) (.ok est) ∈ logB := by
  have h : (logB.any fun x => match x with
      | .post r i _ m d (.ok _) => decide (r = 7 ∧ i = 0 ∧ m = midB ∧ d = some 1)
      | _ => false) = true := by decide +kernel
  obtain ⟨x, hx, h⟩ := List.any_eq_true.1 h
  match x, hx, h with
  | .post r i d0 m d (.ok est), hx, h =>
    obtain ⟨rfl, rfl, rfl, rfl⟩ := of_decide_eq_true h
    exact ⟨d0, est, hx⟩

/-- The packet of the request. -/
def reqPacket : AddressedPacket := (waiting nodeB).headD ⟨[], []⟩
theorem reqPacket_only : ((nodeB.sessionAt 0).map (·.authoredPacketQueue.queue)) = some [reqPacket] := by decide +kernel
theorem reqPacket_peer : reqPacket.peerId = peer 7 := by decide +kernel

def relayA : Call := .handlePacket 1000 reqPacket.packet
theorem relayA_ok : (carol.step C relayA).isOk = true := by decide +kernel
def carolA : Node := ((carol.step C relayA).get relayA_ok).1
def relayAOut : Outcome := ((carol.step C relayA).get relayA_ok).2
theorem relayA_step : carol.step C relayA = .ok (carolA, relayAOut) := Res.eq_get2 _ relayA_ok
def reqPacket1 : ForwardPacket := carolA.forwardPacketQueue.queue.headD ⟨0, ⟨[], []⟩⟩
theorem relayAOut_eq : relayAOut = .message none := by
  have h : (match relayAOut with | .message none => true | _ => false) = true := by decide +kernel
  generalize relayAOut = o at *
  match o, h with
  | .message none, _ => rfl
theorem reqPacket_typed : reqPacket.packet.length = 2252 := by decide +kernel
theorem carolA_reachable : Node.Reachable C (cfg 7) carolA := carol_reachable.step toyLaws (call := relayA) reqPacket_typed relayA_step

theorem relayedA : Relay C net0 reqPacket reqPacket1.packet := by
  refine ⟨cfg 7, carol, carolA, sec 7, 1000, reqPacket1.deadline, carol_reachable, ⟨2, mix 7, rfl, reqPacket_peer.symm, rfl⟩,
    takes_of (by decide +kernel), ?_, ?_⟩
  · rw [← relayAOut_eq]; exact relayA_step
  · rw [show carolA.forwardPacketQueue.queue = reqPacket1 :: carol.forwardPacketQueue.queue by decide +kernel]

/-- Bob gets it. -/
def arriveA : Call := .handlePacket 5000 reqPacket1.packet.packet
theorem arriveA_ok : (bob.step C arriveA).isOk = true := by decide +kernel
def bobA : Node := ((bob.step C arriveA).get arriveA_ok).1
def arriveAOut : Outcome := ((bob.step C arriveA).get arriveA_ok).2
theorem arriveA_step : bob.step C arriveA = .ok (bobA, arriveAOut) := Res.eq_get2 _ arriveA_ok
theorem arriveAOut_eq : ∃ r, arriveAOut = .message (some (.request r)) := by
  have h : (match arriveAOut with | .message (some (.request _)) => true | _ => false) = true := by decide +kernel
  generalize arriveAOut = o at *
  match o, h with
  | .message (some (.request r)), _ => exact ⟨r, rfl⟩
theorem reqPacket1_typed : reqPacket1.packet.packet.length = 2252 := by decide +kernel
theorem bobA_reachable : Node.Reachable C (cfg 5) bobA := bob_reachable.step toyLaws (call := arriveA) reqPacket1_typed arriveA_step
theorem bob_takesA : Takes C net0 (sec 5) bob reqPacket1.packet.packet := takes_of (by decide +kernel)
def surbsA : List Surb :=
  match arriveAOut with
  | .message (some (.request r)) => r.surbs
  | _ => []

/-- Bob's reply manager takes it and completes it. -/
def takeStep := (ReplyManager.new replyConfig).step C bobA rng 10 (.insert ⟨0, midB, [1, 2, 3], surbsA⟩)
theorem takeStep_ok : takeStep.isOk = true := by decide +kernel
def replyMgr : ReplyManager := (takeStep.get takeStep_ok).1
def bobA' : Node := (takeStep.get takeStep_ok).2.1
def doneStep := replyMgr.step C bobA' rng 20 (.complete ⟨0, midB, surbsA⟩ [7, 8])
theorem doneStep_ok : doneStep.isOk = true := by decide +kernel
def bobB : Node := (doneStep.get doneStep_ok).2.1
def replyLog : List ReplyPost := (doneStep.get doneStep_ok).2.2.1
theorem replyLog_post : ∃ x ∈ replyLog, x.result = .ok () := by
  have h : (replyLog.any fun x => match x.result with | .ok () => true | _ => false) = true := by decide +kernel
  obtain ⟨x, hx, h⟩ := List.any_eq_true.1 h
  refine ⟨x, hx, ?_⟩
  revert h
  generalize x.result = r
  intro h
  match r, h with
  | .ok (), _ => rfl

theorem surbsA_length : ∀ s ∈ surbsA, s.length = SURB_SIZE := by decide +kernel

theorem replyInUseA : ReplyInUse C (cfg 5) replyConfig replyMgr bobA' := by
  have h := Res.eq_get takeStep takeStep_ok
  exact .manager (replyInUse_of_reachable _ bobA_reachable) (call := .insert ⟨0, midB, [1, 2, 3], surbsA⟩) surbsA_length
    (show _ = Except.ok (replyMgr, bobA', _, _) from h)

def repPacket : AddressedPacket := (waiting bobB).headD ⟨[], []⟩
theorem repPacket_only : ((bobB.sessionAt 0).map (·.authoredPacketQueue.queue)) = some [repPacket] := by decide +kernel
theorem repPacket_peer : repPacket.peerId = peer 7 := by decide +kernel

def relayB : Call := .handlePacket 6000 repPacket.packet
theorem relayB_ok : (carolA.step C relayB).isOk = true := by decide +kernel
def carolB : Node := ((carolA.step C relayB).get relayB_ok).1
def relayBOut : Outcome := ((carolA.step C relayB).get relayB_ok).2
theorem relayB_step : carolA.step C relayB = .ok (carolB, relayBOut) := Res.eq_get2 _ relayB_ok
def repPacket1 : ForwardPacket := carolB.forwardPacketQueue.queue.headD ⟨0, ⟨[], []⟩⟩
theorem relayBOut_eq : relayBOut = .message none := by
  have h : (match relayBOut with | .message none => true | _ => false) = true := by decide +kernel
  generalize relayBOut = o at *
  match o, h with
  | .message none, _ => rfl

theorem relayedB : Relay C net0 repPacket repPacket1.packet := by
  refine ⟨cfg 7, carolA, carolB, sec 7, 6000, repPacket1.deadline, carolA_reachable, ⟨2, mix 7, rfl, repPacket_peer.symm, rfl⟩,
    takes_of (by decide +kernel), ?_, ?_⟩
  · rw [← relayBOut_eq]; exact relayB_step
  · rw [show carolB.forwardPacketQueue.queue = repPacket1 :: carolA.forwardPacketQueue.queue by decide +kernel]

/-- Alice gets it. -/
def backA : Call := .handlePacket 7000 repPacket1.packet.packet
theorem backA_ok : (nodeB.step C backA).isOk = true := by decide +kernel
def nodeC : Node := ((nodeB.step C backA).get backA_ok).1
def backAOut : Outcome := ((nodeB.step C backA).get backA_ok).2
theorem backA_step : nodeB.step C backA = .ok (nodeC, backAOut) := Res.eq_get2 _ backA_ok
theorem backAOut_eq : ∃ r, backAOut = .message (some (.reply r)) := by
  have h : (match backAOut with | .message (some (.reply _)) => true | _ => false) = true := by decide +kernel
  generalize backAOut = o at *
  match o, h with
  | .message (some (.reply r)), _ => exact ⟨r, rfl⟩
theorem alice_takesA : Takes C net0 (sec 3) nodeB repPacket1.packet.packet := takes_of (by decide +kernel)

attribute [irreducible] mgrA nodeA mgrB nodeB logB outB reqPacket carolA relayAOut reqPacket1 bobA arriveAOut surbsA replyMgr
  bobA' bobB replyLog repPacket carolB relayBOut repPacket1 nodeC backAOut

theorem knowsA : KnowsNet net0 nodeA := by
  intro s hs
  have : ((nodeA.sessionAt 0).map (·.topology.mixnodes)) = some mixes := by decide +kernel
  rw [show nodeA.sessionAt 0 = some s from hs] at this
  exact Option.some.inj this

theorem knowsB : KnowsNet net0 bobA' := by
  intro s hs
  have : ((bobA'.sessionAt 0).map (·.topology.mixnodes)) = some mixes := by decide +kernel
  rw [show bobA'.sessionAt 0 = some s from hs] at this
  exact Option.some.inj this

/-- A packet that is passed on by Carol and taken by its recipient has one mixnode to pass. -/
theorem one_hop {k : Nat} {final : PeerId} {p : AddressedPacket} {q : ForwardPacket} {key : KxSecret} {config : Config}
    {n n' : Node} {now : Nat} {msg : Message} (h : FindsWay C net0 k final p) (hp : p.peerId ≠ final) (hr : Relay C net0 p q.packet)
    (hat : net0.At q.packet.peerId key) (hn : Node.Reachable C config n) (ht : Takes C net0 key n q.packet.packet)
    (hs : n.step C (.handlePacket now q.packet.packet) = .ok (n', .message (some msg)))
    (hc : n.forwardPacketQueue.queue.length < config.forwardPacketQueueCapacity) : k = 1 := by
  match k with
  | 0 => exact absurd ((h 0 p (.here p)).1 rfl) hp
  | 1 => rfl
  | k + 2 =>
    obtain ⟨-, h2⟩ := (h 1 q.packet (.next hr (.here _))).2 (by omega)
    obtain ⟨n'', dl, nx, h3, -⟩ := h2 config n key now hn hat ht hc
    rw [hs] at h3
    cases h3

/-- All the hypotheses of `request_answered` are met: the request is delivered to Bob and handed out, and the reply is
delivered to Alice. -/
example : ∃ sb, arriveAOut = .message (some (.request ⟨0, midB, [1, 2, 3], sb⟩)) ∧ sb.length = 1 ∧
    (∃ rm, (ReplyManager.new replyConfig).step C bobA rng 10 (.insert ⟨0, midB, [1, 2, 3], sb⟩) =
      .ok (rm, bobA, [], some (⟨0, midB, sb⟩, [1, 2, 3]))) ∧
    backAOut = .message (some (.reply ⟨midB, [7, 8]⟩)) := by
  obtain ⟨d0, est, hpost⟩ := logB_posts
  have huse := inUseA
  obtain ⟨mx, key, s, packets, home, h1, h2, h3, h4, h5, h6, h7, h8, h9, h10, h11⟩ :=
    request_answered (net := net0) toyLaws world_sane (fun _ _ => rfl) (by decide) (by decide) huse knowsA rfl post_eq hpost
  have hmx : mx = mix 5 := (Option.some.inj h1).symm
  have hkey : key = sec 5 := (Option.some.inj h2).symm
  subst hmx
  subst hkey
  obtain ⟨p, rfl⟩ := List.length_eq_one_iff.1 (show packets.length = 1 from h5)
  have only : ∀ {n : Node} {q x : AddressedPacket}, ((n.sessionAt 0).map (·.authoredPacketQueue.queue)) = some [q] →
      InQueue n 0 x → x = q := by
    rintro n q x hq ⟨t, ht, hx⟩
    rw [ht] at hq
    have hq : t.authoredPacketQueue.queue = [q] := Option.some.inj hq
    rw [hq] at hx
    exact List.mem_singleton.1 hx
  obtain ⟨i1, i2, i3⟩ := h8 p (List.mem_singleton.2 rfl)
  have hp : p.packet = reqPacket := only reqPacket_only i1
  rw [hp] at i3
  obtain ⟨r, hr⟩ := arriveAOut_eq
  have hstep := arriveA_step
  rw [hr] at hstep
  have hlen := one_hop i3 (by rw [reqPacket_peer]; decide) relayedA
    ⟨1, mix 5, rfl, by rw [show reqPacket1.packet.peerId = peer 5 by decide +kernel]; rfl, rfl⟩ bob_reachable bob_takesA hstep
    (by decide +kernel)
  have hmsg := h9 [reqPacket1.packet] (.cons (by dsimp only; rw [hlen, hp]; exact .next relayedA (.here _)) .nil)
    [reqPacket1.packet.packet] (List.Perm.refl _) (cfg 5) bob bobA [some (.request r)] bob_reachable
    ⟨show 1 ≤ (cfg 5).maxFragmentsPerMessage by decide, .inl rfl⟩ (by
      have : (match storedOf bob midB with | none => true | _ => false) = true := by decide +kernel
      revert this
      generalize storedOf bob midB = o
      intro h
      match o, h with
      | none, _ => rfl) (.arrive bob_takesA hstep (.done _))
  have hreq : r = ⟨0, midB, [1, 2, 3], surbsIn [p]⟩ := by
    have := List.cons.inj hmsg
    exact (Message.request.inj (Option.some.inj this.1))
  subst hreq
  refine ⟨_, hr, h6, h10 replyConfig _ (cfg 5) bobA rng 10 (replyInUse_of_reachable _ bobA_reachable) (by simp [kept, ReplyManager.new]; try decide), ?_⟩
  have hsurbs : surbsA = surbsIn [p] := by unfold surbsA; rw [hr]
  obtain ⟨x, hx, hok⟩ := replyLog_post
  have hdone := Res.eq_get doneStep doneStep_ok
  obtain ⟨used, ps, j1, j2, j3, j4, j5⟩ := h11 replyConfig replyMgr (cfg 5) bobA' rng 20 [7, 8] (doneStep.get doneStep_ok).1 bobB replyLog
    (doneStep.get doneStep_ok).2.2.2 replyInUseA (by decide) knowsB
    (by rw [← hsurbs]; unfold bobB replyLog; exact hdone) x hx hok
  obtain ⟨q, rfl⟩ := List.length_eq_one_iff.1 (show ps.length = 1 from j2)
  obtain ⟨u, rfl⟩ := List.length_eq_one_iff.1 j3
  obtain ⟨k1, k2, k3⟩ := j4 (u, q) (by simp)
  have hq : q = repPacket := only repPacket_only k1
  subst hq
  obtain ⟨r, hr⟩ := backAOut_eq
  have hstep := backA_step
  rw [hr] at hstep
  have hB : Node.Reachable C (cfg 3) nodeB :=
    (in_use toyLaws world_sane (fun _ _ => rfl) (by decide) (by decide) (.manager huse rfl post_eq)).1
  have hsec : s.kxPair.secret = sec 3 := by
    have : (nodeA.sessionAt 0).map (·.kxPair.secret) = some (sec 3) := by decide +kernel
    rw [show nodeA.sessionAt 0 = some s from h3] at this
    exact Option.some.inj this
  have hhome : home = peer 3 := by
    have : (match nodeA.sessionAt 0 with | some s => decide (homeOf s.topology (ns 3) = some (peer 3)) | none => false) = true := by
      decide +kernel
    rw [show nodeA.sessionAt 0 = some s from h3] at this
    have := of_decide_eq_true this
    rw [h4] at this
    exact Option.some.inj this
  subst hhome
  have hlen := one_hop k3 (by rw [repPacket_peer]; decide) relayedB
    ⟨0, mix 3, rfl, by rw [show repPacket1.packet.peerId = peer 3 by decide +kernel]; rfl, rfl⟩ hB alice_takesA hstep
    (by decide +kernel)
  have hent := h7 (by decide +kernel) u (j1 u (List.mem_singleton.2 rfl))
  have := j5 [repPacket1.packet] (.cons (by dsimp only; rw [hlen]; exact .next relayedB (.here _)) .nil)
    [(u, repPacket1.packet.packet)] (List.Perm.refl _) (cfg 3) nodeB nodeC [some (.reply r)] hB
    ⟨show 1 ≤ (cfg 3).maxFragmentsPerMessage by decide, .inl rfl⟩ (by
      unfold storedOf
      rw [show nodeB.fragmentAssembler.incomplete = [] by
        have : nodeB.fragmentAssembler.incomplete.isEmpty = true := by decide +kernel
        exact List.isEmpty_iff.1 this]
      rfl) (.arrive ⟨by rw [hsec]; exact alice_takesA, hent⟩ hstep (.done _))
  rw [hr]
  have hrep : r = ⟨midB, [7, 8]⟩ := Message.reply.inj (Option.some.inj (List.cons.inj this).1)
  rw [hrep]

end Mixnet.World
