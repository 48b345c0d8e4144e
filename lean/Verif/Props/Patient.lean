import Verif.Props.Timely
import Verif.Props.Managed
import Verif.Props.Punctual
/-!
# C98: a request is not posted again before a timely reply
-/
namespace Mixnet.Props
open Mixnet Spec

variable {R Ctx : Type} {C : Crypto} {T : RequestTrait R Ctx} {config : Config} {mc : RequestManagerConfig}
  {m m' : RequestManager R} {n n' : Node}

/-- **C98.** A request manager has posted the request `r` under the message ID `mid`, at time `est.now`. -/
theorem answered_before_retry (hC : CryptoLaws C) (F : F64Delays C) (hpos : ∀ seed, 0 ≤ F.value (C.expSample seed)) (hs : Sane config)
    (hf : 100 * config.meanForwardingDelay ≤ 2 ^ 49)
    (hT : ∀ r ctx, (T.data r ctx).len = (T.data r ctx).toVec.length) (h1 : 1 ≤ mc.numPostsPerAttempt)
    (h2 : 1 ≤ mc.numAttemptsPerDestination) (hu : InUse C T config mc m n) {net : Network C} (hnet : KnowsNet net n)
    {env : Env} {ns : NetworkStatus} (hns : ns.localPeerId.length = PEER_ID_SIZE) {ctx : Ctx} {call : ManagerCall R}
    {log : List (LogEntry R)} {out : ManagerOutcome R} (hst : m.step C T n env ns ctx call = .ok (m', n', log, out))
    {r : R} {d0 : Option MixnodeIndex} {mid : MessageId} {d : MixnodeIndex} {est : Estimate}
    (hpost : .post r net.session d0 mid (some d) (.ok est) ∈ log) :
    ∃ n1 n2 s0 s packets, Node.Reachable C config n1 ∧ n.sessionAt net.session = some s0 ∧ s.topology = s0.topology ∧
      PostedRequest C n1 net.session d0 mid (T.data r ctx).toVec (T.numSurbs r ctx) ns n2 (some d) est.metrics s d packets ∧
      -- its packets are in the queue of the node
      (∀ p ∈ packets, InQueue n' net.session p.packet) ∧
      -- the destination gets one of them after it has waited for its turn
      ∀ p ∈ packets, ∀ wait q arrival,
        ReachesBy C net config.meanForwardingDelay config.perHopNetDelay p.route.targets.length p.packet (est.now + wait) q arrival →
      -- somebody in the same network posts a reply with some of the SURBs
      ∀ (xs : List (NewSurb C)), (∀ x ∈ xs, x ∈ packets.flatMap (·.surbs)) →
      ∀ config2 bob bob' rid rdata rl rest, Node.Reachable C config2 bob → KnowsNet net bob →
        (Call.postReply (xs.map (·.surb)) net.session rid rdata).WellTyped → Denotes rdata rl →
        bob.step C (.postReply (xs.map (·.surb)) net.session rid rdata) = .ok (bob', .replied rest (.ok ())) →
      ∃ (sb : Session) (left used : List (NewSurb C)) (ps : List AddressedPacket), bob.sessionAt net.session = some sb ∧
        bob' = withSession bob net.session (enqueue sb ps) ∧ xs = left ++ used.reverse ∧ ps.length = used.length ∧
        ∀ y ∈ used.zip ps, ∀ replied wait' q' arrival',
          ReachesBy C net config.meanForwardingDelay config.perHopNetDelay y.1.route.targets.length y.2 (replied + wait') q' arrival' →
          -- no later than the manager was told to expect
          replied ≤ arrival + est.handlingDelay → wait + wait' ≤ est.metrics.authoredPacketQueueDelay →
          -- then in every history of a manager with this post, the request is not due for a retry before the reply is there
          ∀ now calls outs logs mm, Reached C T mc now calls outs logs mm → (drawn logs).Nodup →
            .post r net.session d0 mid (some d) (.ok est) ∈ logs →
            ∀ w ∈ mm.retryQueue, w.messageId = mid → w.request = r ∧ arrival' ≤ w.retryDeadline ∧
              -- and until then nothing the user does makes the manager post it again, if retries are popped when due
              ∀ calls' outs' logs' mm', Punctual C T arrival' mm calls' outs' logs' mm' → .remove mid ∉ calls' →
                (drawn (logs ++ logs')).Nodup → w ∈ mm'.retryQueue ∧ Unposted mid logs' := by
  obtain ⟨hr, hg, hb, hc⟩ := in_use hC hs hT h1 h2 hu
  have hsp : ∀ r, call = .insert r → m.hasSpace = true := by
    rintro r rfl
    cases hh : m.hasSpace with
    | true => rfl
    | false =>
      exfalso
      have : m.step C T n env ns ctx (.insert r) = .error ⟨"self.has_space()"⟩ := by
        show ((do assertP "self.has_space()" m.hasSpace; _) >>= _) = _
        rw [hh]; rfl
      rw [this] at hst; cases hst
  have hfine := manager_fine (ctx := ctx) (env := env) hC hs hT hns hr hg hb (by rw [hc]; exact h1) (by rw [hc]; exact h2) hsp
  obtain ⟨-, -, hfeeds⟩ := hfine.2 _ hst
  obtain ⟨hr', -, hall⟩ := feeds_split hC hs.hops hfeeds hr
  obtain ⟨n1, n2, rng1, now1, res, hr1, g1, g2, -, hres, hw, hst1⟩ := hall _ _ _ _ _ _ hpost
  cases res with
  | error e => cases hres
  | ok met =>
  cases hres
  have hnet1 : ∀ s, n1.sessionAt net.session = some s → s.topology.mixnodes = net.mixnodes := by
    intro s hs1
    obtain ⟨s0, hs0, l1, -⟩ := g1.2 _ _ hs1
    rw [l1]; exact hnet s0 hs0
  obtain ⟨s, dest, packets, hp, htime⟩ := reply_in_time hC F hpos hr1 hs.hops hf hw (Denotes.of_wf (hT r ctx)) hnet1 hst1
  obtain ⟨s0, hs0, l1, -⟩ := g1.2 _ _ hp.session
  have hdest : dest = d := (Option.some.inj hp.destination.1).symm
  subst hdest
  refine ⟨n1, n2, s0, s, packets, hr1, hs0, l1, hp, ?_, ?_⟩
  · intro p hpm
    refine Spec.InQueue.grown g2 ?_
    refine ⟨enqueue s (packets.map (·.packet)), ?_, List.mem_append_right _ (List.mem_map_of_mem hpm)⟩
    rw [hp.after]
    exact withSession_at hp.session
  · intro p hpm wait q arrival hreach xs hxs config2 bob bob' rid rdata rl rest hrb hnb hwb hdb hstb
    obtain ⟨sb, left, used, ps, e1, e2, e3, e4, e5⟩ := htime p hpm now1 wait q arrival hreach xs hxs config2 bob bob' rid rdata rl rest hrb
      hnb hwb hdb hstb
    refine ⟨sb, left, used, ps, e1, e2, e3, e4, ?_⟩
    intro y hy replied wait' q' arrival' hreach' hrep hwait now calls outs logs mm hrun hdist hmem w hwq hwid
    have hle := e5 y hy replied wait' q' arrival' _ hreach' hrep hwait
    obtain ⟨-, hdl, -, i', d', hsent⟩ := retry_when_overdue hrun hdist hwq
    have hsend : (r, net.session, mid, some dest) ∈ sendings logs := List.mem_flatMap.2 ⟨_, hmem, List.mem_singleton.2 rfl⟩
    rw [hwid] at hsent
    have hlast : arrival' ≤ w.retryDeadline := by
      refine le_trans hle (hdl _ ?_)
      refine List.mem_flatMap.2 ⟨_, hmem, ?_⟩
      dsimp only
      rw [if_pos hwid.symm]
      exact List.mem_singleton.2 rfl
    refine ⟨(id_one_destination hrun hdist hsent hsend).1, hlast, ?_⟩
    intro calls' outs' logs' mm' hpun hrem hd'
    have := waits_until_due hrun hwq (punctual_later hlast hpun) (hwid ▸ hrem)
    exact ⟨this.1, hwid ▸ this.2 hd'⟩

end Mixnet.Props

namespace Mixnet.World
open Spec Props

/-- As `trait`, expecting the destination of a request to take 5 ms. -/
def traitP : RequestTrait Nat Unit := ⟨fun _ _ => Scattered.ofSlice [1, 2, 3], fun _ _ => 1, fun _ _ _ => 5000000⟩

/-- The managers, nodes and packets of a round trip. -/
structure ManagedTrip where
  alice : Node
  mgr1 : RequestManager Nat
  alice1 : Node
  log1 : List (LogEntry Nat)
  out1 : ManagerOutcome Nat
  mgr2 : RequestManager Nat
  alice2 : Node
  log2 : List (LogEntry Nat)
  out2 : ManagerOutcome Nat
  packet0 : AddressedPacket
  carol : Node
  carol1 : Node
  relayOut : Outcome
  packet1 : ForwardPacket
  bob : Node
  bob1 : Node
  arriveOut : Outcome
  surbs : List Surb
  bob2 : Node
  answerOut : Outcome
  packet2 : AddressedPacket
  carol2 : Node
  relay2Out : Outcome
  packet3 : ForwardPacket
  mgr3 : RequestManager Nat
  alice3 : Node
  log3 : List (LogEntry Nat)
  out3 : ManagerOutcome Nat

/-- Alice inserts a request into her manager, which posts it to Bob at time 4. The node sends it by way of Carol after 1 s; Bob answers
by way of Carol. In the meantime, Alice inserts another request. -/
def managedRes : Res ManagedTrip := do
  let (alice, _) ← startD 3
  let (bob, _) ← startD 5
  let (carol, _) ← startD 7
  let (mgr1, alice1, log1, out1) ← (RequestManager.new mgrConfig 2).step Cd traitP alice (mgrEnv 3) (ns 3) () .updateSessionStatus
  let (mgr2, alice2, log2, out2) ← mgr1.step Cd traitP alice1 (mgrEnv 4) (ns 3) () (.insert 7)
  let packet0 := (waiting alice2).headD ⟨[], []⟩
  let (carol1, relayOut) ← carol.step Cd (.handlePacket 1200000000 packet0.packet)
  let packet1 := carol1.forwardPacketQueue.queue.headD ⟨0, ⟨[], []⟩⟩
  let (bob1, arriveOut) ← bob.step Cd (.handlePacket 6700000000 packet1.packet.packet)
  let surbs := match arriveOut with
    | .message (some (.request r)) => r.surbs
    | _ => []
  let (bob2, answerOut) ← bob1.step Cd (.postReply surbs 0 (List.replicate 16 9) (Scattered.ofSlice [7, 8]))
  let packet2 := (waiting bob2).headD ⟨[], []⟩
  let (carol2, relay2Out) ← carol1.step Cd (.handlePacket 21900000000 packet2.packet)
  let packet3 := carol2.forwardPacketQueue.queue.headD ⟨0, ⟨[], []⟩⟩
  let (mgr3, alice3, log3, out3) ← mgr2.step Cd traitP alice2 (mgrEnv 7) (ns 3) () (.insert 8)
  .ok ⟨alice, mgr1, alice1, log1, out1, mgr2, alice2, log2, out2, packet0, carol, carol1, relayOut, packet1, bob, bob1, arriveOut, surbs,
    bob2, answerOut, packet2, carol2, relay2Out, packet3, mgr3, alice3, log3, out3⟩

/-- The only post in the log is that of the request 7 to mixnode 1. -/
def postedP : List (LogEntry Nat) → Option (MessageId × Estimate)
  | [.newId 7 mid', .post 7 0 none mid (some 1) (.ok est)] => if mid' = mid then some (mid, est) else none
  | _ => none

theorem postedP_iff {log : List (LogEntry Nat)} {mid est} (h : postedP log = some (mid, est)) :
    log = [.newId 7 mid, .post 7 0 none mid (some 1) (.ok est)] := by
  unfold postedP at h
  split at h
  · split at h
    · rename_i e; cases h; rw [e]
    · cases h
  · cases h

def goodManaged (t : ManagedTrip) : Bool :=
  freshD t.alice1 0 && freshD t.bob1 1 && t.log1.isEmpty &&
  decide ((postedP t.log2).map (fun x => (x.2.now, x.2.handlingDelay, x.2.metrics.estimateRtt x.2.handlingDelay,
      x.2.metrics.authoredPacketQueueDelay)) = some (4, 5000000, 38803912608, 22298912608)) &&
  decide ((postedP t.log2).map (·.1) = t.mgr2.retryQueue.head?.map (·.messageId) ∧
    (postedP t.log2).map (fun x => storedOf t.bob x.1) = some none ∧ (postedP t.log2).map (fun x => x.1.length) = some 16) &&
  decide (waiting t.alice2 = [t.packet0] ∧ t.packet0.peerId = peer 7 ∧ t.carol.forwardPacketQueue.queue = [] ∧
    t.carol1.forwardPacketQueue.queue = [t.packet1] ∧ t.packet1.deadline = 6500000000 ∧
    waiting t.bob2 = [t.packet2] ∧ t.packet2.peerId = peer 7 ∧
    t.carol2.forwardPacketQueue.queue = t.packet3 :: t.carol1.forwardPacketQueue.queue ∧ t.packet3.deadline = 31900000000 ∧
    t.packet0.packet.length = 2252 ∧ t.packet1.packet.packet.length = 2252 ∧ t.packet2.packet.length = 2252 ∧
    (∀ x ∈ t.surbs, x.length = 222) ∧ t.alice2.sessionStatus.currentIndex = 0) &&
  silentD t.relayOut && silentD t.relay2Out &&
  takesD (sec 7) t.carol t.packet0.packet && takesD (sec 5) t.bob t.packet1.packet.packet && takesD (sec 7) t.carol1 t.packet2.packet &&
  decide ((askedD t.arriveOut).map (·.surbs) = some t.surbs) && (answeredD t.answerOut).isSome &&
  decide (Spec.posted t.log3 = [8] ∧ (drawn (t.log2 ++ t.log3)).Nodup)

theorem managed_ok : (match managedRes with | .ok a => goodManaged a | .error _ => false) = true := by decide +kernel

theorem managed_good : ∃ t, managedRes = .ok t ∧ goodManaged t = true := by
  have h := managed_ok
  generalize managedRes = x at h
  cases x with
  | error e => cases h
  | ok t => exact ⟨t, rfl, h⟩

attribute [local irreducible] Cd mixes cfg Node.step Node.new managedRes RequestManager.step

theorem startD_steps {b : UInt8} {n : Node} {os : List Outcome} (h : startD b = .ok (n, os)) :
    ∃ n0 n1 o1 o2, Node.new Cd (cfg b) = .ok n0 ∧ n0.step Cd (.setSessionStatus ⟨0, .requestsToCurrent⟩) = .ok (n1, o1) ∧
      n1.step Cd (.maybeSetMixnodes .current (.ok mixes) rng) = .ok (n, o2) := by
  unfold startD at h
  rw [res_bind_eq_ok] at h
  obtain ⟨n0, h0, h⟩ := h
  rw [res_bind_eq_ok] at h
  obtain ⟨⟨n1, o1⟩, h1, h⟩ := h
  rw [res_bind_eq_ok] at h
  obtain ⟨⟨n2, o2⟩, h2, h⟩ := h
  cases h
  exact ⟨n0, n1, o1, o2, h0, h1, h2⟩

/-- The steps of the round trip. -/
theorem managed_steps {t : ManagedTrip} (h : managedRes = .ok t) : (∃ os, startD 3 = .ok (t.alice, os)) ∧
    (∃ os, startD 5 = .ok (t.bob, os)) ∧ (∃ os, startD 7 = .ok (t.carol, os)) ∧
    (RequestManager.new mgrConfig 2).step Cd traitP t.alice (mgrEnv 3) (ns 3) () .updateSessionStatus =
      .ok (t.mgr1, t.alice1, t.log1, t.out1) ∧
    t.mgr1.step Cd traitP t.alice1 (mgrEnv 4) (ns 3) () (.insert 7) = .ok (t.mgr2, t.alice2, t.log2, t.out2) ∧
    t.carol.step Cd (.handlePacket 1200000000 t.packet0.packet) = .ok (t.carol1, t.relayOut) ∧
    t.bob.step Cd (.handlePacket 6700000000 t.packet1.packet.packet) = .ok (t.bob1, t.arriveOut) ∧
    t.bob1.step Cd (.postReply t.surbs 0 (List.replicate 16 9) (Scattered.ofSlice [7, 8])) = .ok (t.bob2, t.answerOut) ∧
    t.carol1.step Cd (.handlePacket 21900000000 t.packet2.packet) = .ok (t.carol2, t.relay2Out) ∧
    t.mgr2.step Cd traitP t.alice2 (mgrEnv 7) (ns 3) () (.insert 8) = .ok (t.mgr3, t.alice3, t.log3, t.out3) := by
  unfold managedRes at h
  rw [res_bind_eq_ok] at h
  obtain ⟨⟨alice, o1⟩, h1, h⟩ := h
  rw [res_bind_eq_ok] at h
  obtain ⟨⟨bob, o2⟩, h2, h⟩ := h
  rw [res_bind_eq_ok] at h
  obtain ⟨⟨carol, o3⟩, h3, h⟩ := h
  rw [res_bind_eq_ok] at h
  obtain ⟨⟨mgr1, alice1, log1, out1⟩, h4, h⟩ := h
  rw [res_bind_eq_ok] at h
  obtain ⟨⟨mgr2, alice2, log2, out2⟩, h5, h⟩ := h
  rw [res_bind_eq_ok] at h
  obtain ⟨⟨carol1, relayOut⟩, h6, h⟩ := h
  rw [res_bind_eq_ok] at h
  obtain ⟨⟨bob1, arriveOut⟩, h7, h⟩ := h
  rw [res_bind_eq_ok] at h
  obtain ⟨⟨bob2, answerOut⟩, h8, h⟩ := h
  rw [res_bind_eq_ok] at h
  obtain ⟨⟨carol2, relay2Out⟩, h9, h⟩ := h
  rw [res_bind_eq_ok] at h
  obtain ⟨⟨mgr3, alice3, log3, out3⟩, h10, h⟩ := h
  cases h
  exact ⟨⟨_, h1⟩, ⟨_, h2⟩, ⟨_, h3⟩, h4, h5, h6, h7, h8, h9, h10⟩

/-- All the hypotheses of `answered_before_retry` are met. A manager posts a request at time 4. It waits 1 s, Carol holds it for 5.3 s
and Bob gets it at 6.7 s. Bob answers 5 ms later; the reply waits 15 s, and Carol holds it for 10 s. Alice gets it at 32.1 s; the
manager would have tried again at 38.8 s. Inserting another request, at 20 s, does not make it post the first again. -/
example : ∃ t, managedRes = .ok t ∧ ∃ w ∈ t.mgr2.retryQueue, w.request = 7 ∧ 32100000000 ≤ w.retryDeadline ∧
    Spec.posted t.log3 = [8] ∧ w ∈ t.mgr3.retryQueue ∧ Unposted w.messageId t.log3 := by
  obtain ⟨t, ht, hgood⟩ := managed_good
  obtain ⟨⟨_, s1⟩, ⟨_, s2⟩, ⟨_, s3⟩, hup, hins, hrelay, harrive, hanswer, hrelay2, hagain⟩ := managed_steps ht
  have rb := startD_reachable s2
  have rc := startD_reachable s3
  unfold goodManaged at hgood
  simp only [Bool.and_eq_true, decide_eq_true_eq] at hgood
  obtain ⟨⟨⟨⟨⟨⟨⟨⟨⟨⟨⟨⟨⟨f1, f2⟩, f0⟩, f3⟩, f4, f5, f6⟩, w1, w2, w3, w4, w5, w6, w7, w8, w9, w10, w11, w12, w13, w14⟩, q1⟩, q2⟩, k1⟩, k2⟩, k3⟩, a1⟩, a2⟩, v1, v2⟩ := hgood
  obtain ⟨⟨mid, est⟩, hm⟩ : ∃ x, postedP t.log2 = some x := by
    cases h : postedP t.log2 with
    | none => rw [h] at f3; cases f3
    | some x => exact ⟨x, rfl⟩
  have hlog := postedP_iff hm
  rw [hm] at f3 f4 f5 f6
  have f3 := Option.some.inj f3
  dsimp only at f3
  simp only [Prod.mk.injEq] at f3
  obtain ⟨g1, g2, g3, g4⟩ := f3
  have f5 := Option.some.inj f5
  dsimp only at f5
  have f6 := Option.some.inj f6
  dsimp only at f6
  have hlog1 : t.log1 = [] := List.isEmpty_iff.1 f0
  refine ⟨t, ht, ?_⟩
  -- the manager and the node, in use
  obtain ⟨n0, n1, o1, o2, hn, hs1, hs2⟩ := startD_steps s1
  have h0 : n0.sessionStatus = ⟨0, .coverToCurrent⟩ := by
    unfold Node.new at hn
    rw [res_bind_eq_ok] at hn
    obtain ⟨k, -, hn⟩ := hn
    cases hn; rfl
  have u0 : InUse Cd traitP (cfg 3) mgrConfig (RequestManager.new mgrConfig 2) n0 := .start hn
  have u1 := InUse.node u0 (call := .setSessionStatus ⟨0, .requestsToCurrent⟩) trivial
    (by show n0.sessionStatus.currentIndex ≤ 0; rw [h0]) hs1
  have u2 := InUse.node u1 (call := .maybeSetMixnodes .current (.ok mixes) rng)
    (setup_typed _ (by unfold setup; exact List.mem_cons_of_mem _ List.mem_cons_self)) trivial hs2
  have u3 := InUse.manager u2 rfl hup
  obtain ⟨fa1, fa2⟩ := freshD_iff f1
  obtain ⟨fb1, fb2⟩ := freshD_iff f2
  have hpost : LogEntry.post 7 netD.session none mid (some 1) (.ok est) ∈ t.log2 := by
    rw [hlog]; exact List.mem_cons_of_mem _ List.mem_cons_self
  obtain ⟨na, nb, sa, s, packets, ra, hsa, htop, hp, hq, h⟩ := answered_before_retry (net := netD) Cd_laws Cd_delays samples_pos world_sane
    (by decide +kernel) (fun _ _ => rfl) (by decide) (by decide) u3 (fun s hs => (fa2 s hs).1) rfl hins hpost
  obtain ⟨sm, sl, -⟩ := fa2 sa hsa
  rw [← htop] at sm sl
  have hat : (Call.postRequest rng netD.session none mid (Scattered.ofSlice [1, 2, 3]) 1 (ns 3)).WellTyped :=
    ⟨fun i hi => (by cases hi), f6, rfl, rfl⟩
  -- the packet of the request
  have hone : packets.length = 1 := by
    rw [← List.length_map (as := packets) (f := NewPacket.fragment), hp.bytes, messageFragments_length, List.length_map, hp.surbCount]
    rfl
  obtain ⟨p, rfl⟩ := List.length_eq_one_iff.1 hone
  have hpk : p.packet = t.packet0 := by
    obtain ⟨sq, hsq, hmem⟩ := hq p (by simp)
    have hw : waiting t.alice2 = sq.authoredPacketQueue.queue := by
      unfold Node.sessionAt at hsq
      rw [if_pos (show netD.session = t.alice2.sessionStatus.currentIndex from w14.symm), asOption_eq] at hsq
      unfold waiting
      rw [hsq]
    rw [← hw, w1] at hmem
    exact List.mem_singleton.1 hmem
  have hpb := hp.built p (by simp)
  have hlen := route_of_two ra hp.session sl hp.destination.2.1 (.inl rfl) hpb.route
  -- Carol relays it
  rw [silentD_iff q1] at hrelay
  rw [silentD_iff q2] at hrelay2
  have r1 : RelayAt Cd netD (cfg 3).meanForwardingDelay t.packet0 1200000000 t.packet1.packet 6500000000 := by
    refine ⟨cfg 7, t.carol, t.carol1, sec 7, by decide +kernel, rc, ⟨2, mix 7, by decide +kernel, w2.symm, rfl⟩, takesD_iff k1, hrelay, ?_⟩
    rw [w4, w3, ← w5]
  have r2 : RelayAt Cd netD (cfg 3).meanForwardingDelay t.packet2 21900000000 t.packet3.packet 31900000000 := by
    refine ⟨cfg 7, t.carol1, t.carol2, sec 7, by decide +kernel, rc.step Cd_laws (show Call.WellTyped (.handlePacket 1200000000 t.packet0.packet) from w10) hrelay, ⟨2, mix 7, by decide +kernel, w7.symm, rfl⟩,
      takesD_iff k3, hrelay2, ?_⟩
    rw [w8, ← w9]
  have j1 : Journey Cd netD (cfg 3).meanForwardingDelay (cfg 3).perHopNetDelay 1 t.packet0 (est.now + 1000000000) t.packet1.packet
      6500000000 := .next (by rw [g1]; decide +kernel) r1 (.here _ _)
  have j2 : Journey Cd netD (cfg 3).meanForwardingDelay (cfg 3).perHopNetDelay 1 t.packet2 (6705000000 + 15000000000) t.packet3.packet
      31900000000 := .next (by decide +kernel) r2 (.here _ _)
  -- Bob gets it
  obtain ⟨r, hr⟩ : ∃ r, askedD t.arriveOut = some r := by
    cases h : askedD t.arriveOut with
    | none => rw [h] at a1; cases a1
    | some r => exact ⟨r, rfl⟩
  rw [hr] at a1
  have a1 := Option.some.inj a1
  have hstep := harrive
  rw [askedD_iff hr] at hstep
  obtain ⟨mx, key, -, hkey, -, harr⟩ := posted_arrives (net := netD) Cd_laws ra (by rw [two_hopsD]; decide) hat hp sm
  cases hkey
  obtain ⟨surbs, h1, h2, h3⟩ := harr [t.packet1.packet] (.cons (by rw [hlen, hpk]; exact j1.relays) .nil)
    [t.packet1.packet.packet] (List.Perm.refl _) (cfg 5) t.bob t.bob1 [some (.request r)] rb
    ⟨show 1 ≤ (cfg 5).maxFragmentsPerMessage by decide +kernel, .inl rfl⟩ f5 (.arrive (takesD_iff k2) hstep (.done _))
  have hsurbs : t.surbs = (List.flatMap (·.surbs) [p]).map (·.surb) := by
    have : r = ⟨netD.session, mid, (traitP.data 7 ()).toVec, surbs⟩ := by simpa using h3
    rw [← a1, this, ← h2]
  -- Bob answers
  obtain ⟨rest, hans⟩ := Option.isSome_iff_exists.1 a2
  rw [answeredD_iff hans, hsurbs] at hanswer
  have htyped : (Call.postReply ((List.flatMap (·.surbs) [p]).map (·.surb)) netD.session (List.replicate 16 9)
      (Scattered.ofSlice [7, 8])).WellTyped := ⟨by rw [← hsurbs]; exact w13, rfl, rfl⟩
  obtain ⟨sb, left, used, ps, b1, b2, b3, b4, b5⟩ := h p (by simp) 1000000000 t.packet1.packet 6700000000
    ⟨6500000000, by rw [hlen, hpk]; exact j1, by decide +kernel⟩ _ (fun _ h => h) (cfg 5) t.bob1 t.bob2 _ _ _ rest
    (rb.step Cd_laws (show Call.WellTyped (.handlePacket 6700000000 t.packet1.packet.packet) from w11) harrive) (fun sb hsb => (fb2 sb hsb).1) htyped (Denotes.ofSlice _) hanswer
  have hw : waiting t.bob2 = sb.authoredPacketQueue.queue ++ ps := by
    rw [b2]
    unfold withSession
    rw [if_pos (show netD.session = t.bob1.sessionStatus.currentIndex from fb1.symm)]
    rfl
  rw [(fb2 sb b1).2.2, List.nil_append, w6] at hw
  subst hw
  obtain ⟨x, rfl⟩ := List.length_eq_one_iff.1 b4.symm
  have hx : x ∈ p.surbs := by
    have : x ∈ List.flatMap (·.surbs) [p] := by rw [b3]; simp
    simpa using this
  have hxl := route_of_two ra hp.session sl hp.destination.2.1 (.inr rfl) (hpb.surbs x hx).route
  -- the manager waits
  have hrun : Reached Cd traitP mgrConfig 2 [.updateSessionStatus, .insert 7] [t.out1, t.out2] (t.log1 ++ (t.log2 ++ [])) t.mgr2 :=
    .cons hup (.cons hins (.nil _))
  rw [hlog1, List.nil_append, List.append_nil] at hrun
  have hdist : (drawn t.log2).Nodup := by rw [hlog]; exact List.nodup_singleton _
  cases hqueue : t.mgr2.retryQueue with
  | nil => rw [hqueue] at f4; cases f4
  | cons w ws =>
    rw [hqueue] at f4
    have hwid : w.messageId = mid := (Option.some.inj f4).symm
    obtain ⟨z1, z2, z3⟩ := b5 (x, t.packet2) (by simp) 6705000000 15000000000 t.packet3.packet 32100000000
      ⟨31900000000, by rw [hxl]; exact j2, by decide +kernel⟩ (by rw [g2]) (by rw [g4]; decide) _ _ _ _ _ hrun hdist hpost w
      (by rw [hqueue]; exact List.mem_cons_self) hwid
    have hlater : Punctual Cd traitP 32100000000 t.mgr2 [.insert 8] [t.out3] (t.log3 ++ []) t.mgr3 :=
      .cons (now := 20000000000) (by decide) (fun h => by cases h) hagain (.nil _)
    rw [List.append_nil] at hlater
    obtain ⟨y1, y2⟩ := z3 _ _ _ _ hlater (by simp) v2
    exact ⟨w, List.mem_cons_self, z1, z2, v1, y1, hwid ▸ y2⟩

end Mixnet.World
