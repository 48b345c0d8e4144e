import Verif.Proofs.Managed
import Verif.Props.Settle
/-!
# C82: a request put into a request manager is answered, by way of nodes, network and a reply manager
-/
namespace Mixnet.Props
open Mixnet.Spec

variable {R Ctx : Type} {C : Crypto} {T : RequestTrait R Ctx} {config : Config} {mc : RequestManagerConfig}
  {m m' : RequestManager R} {n n' : Node}

theorem reply_in_use (hC : CryptoLaws C) {rc : ReplyManagerConfig} {rm : ReplyManager} (h : ReplyInUse C config rc rm n) :
    Node.Reachable C config n ∧ rm.Inv rc := by
  induction h with
  | start hn => exact ⟨⟨_, [], [], hn, fun _ h => (by cases h), .nil _⟩, ReplyManager.new_inv rc⟩
  | node _ hw hst ih => exact ⟨ih.1.step hC hw hst, ih.2⟩
  | manager _ hw hst ih =>
    obtain ⟨m', n', log, out, h1, h2⟩ := reply_step_total hC ih.1 ih.2 _ _ hw
    rw [hst] at h1
    cases h1
    exact ⟨h2, ReplyManager.does_inv ih.2 (ReplyManager.step_does hst)⟩

theorem carried_map {net : Network C} {α : Type} {f : α → Nat × AddressedPacket} {ps : List α} {qs : List AddressedPacket}
    (h : Carried C net (ps.map f) qs) : List.Forall₂ (fun p q => Relays C net (f p).1 (f p).2 q) ps qs :=
  List.forall₂_map_left_iff.1 h

theorem withSession_at {m : Node} {i : Nat} {s t : Session} (h : m.sessionAt i = some s) :
    (withSession m i t).sessionAt i = some t := by
  obtain ⟨rel, h1, h2⟩ := Node.sessionAt_eq.1 h
  refine Node.sessionAt_eq.2 ⟨rel, ?_, ?_⟩
  · rw [withSession_eq h1]; exact h1
  · rw [withSession_eq h1]; exact get_set_self ..

/-- The SURBs in the packets of a request, as the recipient finds them. -/
def surbsIn (packets : List (NewPacket C)) : List Surb := (packets.flatMap (·.surbs)).map (·.surb)

/-- **C82.** A request manager has posted the request `r`, under the message ID `mid`, to mixnode `d`. -/
theorem request_answered (hC : CryptoLaws C) (hs : Sane config)
    (hT : ∀ r ctx, (T.data r ctx).len = (T.data r ctx).toVec.length) (h1 : 1 ≤ mc.numPostsPerAttempt)
    (h2 : 1 ≤ mc.numAttemptsPerDestination) (hu : InUse C T config mc m n) {net : Network C} (hnet : KnowsNet net n)
    {env : Env} {ns : NetworkStatus} (hns : ns.localPeerId.length = PEER_ID_SIZE) {ctx : Ctx} {call : ManagerCall R}
    {log : List (LogEntry R)} {out : ManagerOutcome R} (hst : m.step C T n env ns ctx call = .ok (m', n', log, out))
    {r : R} {d0 : Option MixnodeIndex} {mid : MessageId} {d : MixnodeIndex} {est : Estimate}
    (hpost : .post r net.session d0 mid (some d) (.ok est) ∈ log) :
    ∃ mx key s packets home, net.mixnodes[d]? = some mx ∧ net.keys[d]? = some key ∧
      n.sessionAt net.session = some s ∧ homeOf s.topology ns = some home ∧
      packets.length = fragmentCount (T.data r ctx).toVec.length (T.numSurbs r ctx) ∧
      (surbsIn (C := C) packets).length = T.numSurbs r ctx ∧
      -- the node keeps the keys of the SURBs, unless too many were made in the same call
      (surbsMade T ctx log ≤ config.surbKeystoreCapacity → ∀ y ∈ packets.flatMap (·.surbs),
        n'.surbKeystore.entry y.id = some ⟨y.keys, mid⟩) ∧
      -- its packets are in the queue of the node, and each finds its way to the mixnode
      (∀ p ∈ packets, InQueue n' net.session p.packet ∧ p.route.targets.length ≤ 5 ∧
        FindsWay C net p.route.targets.length mx.peerId p.packet) ∧
      -- once they have arrived there, in any order, the node there delivers the request
      (∀ qs, Carried C net (packets.map fun p => (p.route.targets.length, p.packet)) qs →
        ∀ arrived : List Bytes, arrived.Perm (qs.map (·.packet)) →
        ∀ config' b b' msgs, Node.Reachable C config' b → CanHold config' packets.length → storedOf b mid = none →
          Receives C mid id (Takes C net key) b arrived msgs b' →
          msgs = List.replicate (packets.length - 1) none ++
            [some (.request ⟨net.session, mid, (T.data r ctx).toVec, surbsIn packets⟩)]) ∧
      -- a reply manager given the request hands it out, unless it keeps a request with that message ID
      (∀ rc rm config' b rng now, ReplyInUse C config' rc rm b → mid ∉ kept rm →
        ∃ rm', rm.step C b rng now (.insert ⟨net.session, mid, (T.data r ctx).toVec, surbsIn packets⟩) =
          .ok (rm', b, [], some (⟨net.session, mid, surbsIn packets⟩, (T.data r ctx).toVec))) ∧
      -- if the request is completed with a reply, then for each copy of the reply that is posted
      ∀ rc rm config' b rng now data rm' b' log' out', ReplyInUse C config' rc rm b → config'.numHops ≤ 6 → KnowsNet net b →
        rm.step C b rng now (.complete ⟨net.session, mid, surbsIn packets⟩ data) = .ok (rm', b', log', out') →
        ∀ x ∈ log', x.result = .ok () →
        -- packets made with SURBs of the request are in the queue of the node, and each finds its way back
        ∃ (used : List (NewSurb C)) (ps : List AddressedPacket), (∀ u ∈ used, u ∈ packets.flatMap (·.surbs)) ∧
          ps.length = fragmentCount data.length 0 ∧ used.length = ps.length ∧
          (∀ y ∈ used.zip ps, InQueue b' net.session y.2 ∧ y.1.route.targets.length ≤ 5 ∧
            FindsWay C net y.1.route.targets.length home y.2) ∧
          -- once they have arrived, in any order, the node that posted the request delivers the reply
          ∀ qs, Carried C net ((used.zip ps).map fun y => (y.1.route.targets.length, y.2)) qs →
          ∀ arrived : List (NewSurb C × Bytes), arrived.Perm (used.zip (qs.map (·.packet))) →
          ∀ config3 a a' msgs, Node.Reachable C config3 a → CanHold config3 ps.length →
            storedOf a x.reply.messageId = none →
            Receives C x.reply.messageId (·.2) (fun nd y => Takes C net s.kxPair.secret nd y.2 ∧
              nd.surbKeystore.entry y.1.id = some ⟨y.1.keys, mid⟩) a arrived msgs a' →
            msgs = List.replicate (ps.length - 1) none ++ [some (.reply ⟨mid, data⟩)] := by
  obtain ⟨hr, hg, hb, hc⟩ := in_use hC hs hT h1 h2 hu
  have hsp : ∀ r, call = .insert r → m.hasSpace = true := by
    rintro r rfl
    cases hh : m.hasSpace with
    | true => rfl
    | false =>
      exfalso
      have : m.step C T n env ns ctx (.insert r) = .error ⟨"self.has_space()"⟩ := by
        show ((do assertP "self.has_space()" m.hasSpace; _) >>= _) = _
        rw [hh]; rfl
      rw [this] at hst; cases hst
  have hf := manager_fine (ctx := ctx) (env := env) hC hs hT hns hr hg hb (by rw [hc]; exact h1) (by rw [hc]; exact h2) hsp
  obtain ⟨-, -, hfeeds⟩ := hf.2 _ hst
  obtain ⟨hr', -, hall⟩ := feeds_split hC hs.hops hfeeds hr
  obtain ⟨n1, n2, rng1, now1, res, hr1, g1, g2, ⟨ks, hadd, hmade⟩, hres, hw, hst1⟩ := hall _ _ _ _ _ _ hpost
  cases res with
  | error e => cases hres
  | ok met =>
  obtain ⟨s1, dest, packets, hp, -⟩ := request_posted hC hr1 hs.hops hw (Denotes.of_wf (hT r ctx)) hst1
  obtain ⟨s, hs0, l1, l2, -⟩ := g1.2 _ _ hp.session
  have hdest : dest = d := (Option.some.inj hp.destination.1).symm
  subst hdest
  have hmix : s1.topology.mixnodes = net.mixnodes := by rw [l1]; exact hnet s hs0
  obtain ⟨mx, key, a1, a2, a3, a4⟩ := posted_arrives hC hr1 hs.hops hw hp hmix
  obtain ⟨home, c1, c2⟩ := posted_answered hC hr1 hs.hops hw hp hmix
  have hsurbs : ∀ x ∈ surbsIn packets, x.length = SURB_SIZE := by
    intro x hx
    obtain ⟨y, hy, rfl⟩ := List.mem_map.1 hx
    obtain ⟨p, hpm, hy⟩ := List.mem_flatMap.1 hy
    obtain ⟨-, -, old, r, r', hol, hbs⟩ := (hp.built p hpm).surbs y hy
    exact buildSurb_length hC hol hbs
  refine ⟨mx, key, s, packets, home, a1, a2, hs0, by rw [← l1]; exact c1, ?_, ?_, ?_, ?_, ?_, ?_, ?_⟩
  · rw [← hp.surbCount, ← List.length_map (as := packets.flatMap _) (f := NewSurb.surb), ← messageFragments_length mid, ← hp.bytes,
      List.length_map]
  · unfold surbsIn; rw [List.length_map]; exact hp.surbCount
  · intro hle y hy
    obtain ⟨hI, hcfg⟩ := hr'.inv hC
    refine LinkedMap.get?_of_mem hI.keystore.nodup ?_
    obtain ⟨-, l, q1, q2⟩ := hadd
    have hm : T.numSurbs r ctx + ks ≤ surbsMade T ctx log := hmade met rfl
    rw [q2, hp.after]
    dsimp only
    rw [lastN_lastN_append, show n1.surbKeystore.capacity = config.surbKeystoreCapacity from
      ((hr1.inv hC).1.keystoreCapacity).trans (by rw [(hr1.inv hC).2]), List.append_assoc]
    have hc := hp.surbCount
    unfold lastN
    rw [List.drop_append_of_le_length (by simp only [List.length_append, List.length_map]; omega)]
    exact List.mem_append_right _ (List.mem_append_left _ (List.mem_map.2 ⟨y, hy, rfl⟩))
  · intro p hpm
    refine ⟨Spec.InQueue.grown g2 ?_, a3 p hpm⟩
    refine ⟨enqueue s1 (packets.map (·.packet)), ?_, List.mem_append_right _ (List.mem_map_of_mem hpm)⟩
    rw [hp.after]
    exact withSession_at hp.session
  · intro qs hqs arrived harr config' b b' msgs hb hhold hnone hrec
    obtain ⟨surbs, -, rfl, e⟩ := a4 qs (carried_map hqs) arrived harr config' b b' msgs hb hhold hnone hrec
    exact e
  · intro rc rm config' b rng now hru hk
    obtain ⟨rm', b', log, out, e⟩ := reply_manager_no_panic hC hru rng now
      (call := .insert ⟨net.session, mid, (T.data r ctx).toVec, surbsIn packets⟩) hsurbs
    obtain ⟨rfl, rfl, rfl⟩ := (handed_out_iff e).1 hk
    exact ⟨rm', e⟩
  · intro rc rm config' b rng now data rm' b' log' out' hru hk hkn hstep x hx hok
    obtain ⟨hrb, hI⟩ := reply_in_use hC hru
    generalize hcall : ReplyCall.complete ⟨net.session, mid, surbsIn packets⟩ data = rcall at hstep
    cases ReplyManager.step_does hstep with
    | completed k1 k2 k3 =>
      cases hcall
      obtain ⟨-, -, hcop⟩ := copies_split hC hk (fillBytes_length _ _) hrb hsurbs k2
      obtain ⟨e1, e2, e3, e4, b1, b2, rb1, gb1, gb2, wb, sb⟩ := hcop x hx
      obtain ⟨xs0, ys0, hxy, hxs, -⟩ := List.map_eq_append_iff.1 (show (packets.flatMap (·.surbs)).map (·.surb) = x.surbs ++ e4.choose from e4.choose_spec.symm)
      rw [hok, e2, ← hxs] at sb
      rw [e2, ← hxs] at wb
      have hsub : ∀ y ∈ xs0, y ∈ packets.flatMap (·.surbs) := fun y hy => by rw [hxy]; exact List.mem_append_left _ hy
      obtain ⟨sb0, left, used, ps, t1, t2, t3, t4, t5, t6, t7⟩ := c2 xs0 hsub config' b1 b2 _ _ data _ rb1
        (hkn.grown gb1) wb (by have := Denotes.of_wf wb.2.2; simpa [Scattered.ofSlice, Scattered.toVec, Reply.new] using this) sb
      have hlen : ps.length = fragmentCount data.length 0 := by
        obtain ⟨_, _, used', -, -, w3, w4, -⟩ := reply_on_the_wire hC rb1 wb
          (l := data) (by have := Denotes.of_wf wb.2.2; simpa [Scattered.ofSlice, Scattered.toVec, Reply.new] using this) sb
        have e1 := congrArg List.length w3
        have e2 := congrArg List.length t3
        have e3 := congrArg List.length t4
        rw [messageFragments_length] at w4
        simp only [List.length_append, List.length_reverse, List.length_map, List.length_nil] at e1 e2 e3 w4
        exact t5.trans (by omega)
      refine ⟨used, ps, fun u hu => hsub u ?_, hlen, t5.symm, fun y hy => ⟨Spec.InQueue.grown gb2 ?_, t6 y hy⟩, ?_⟩
      · rw [t3]; exact List.mem_append_right _ (List.mem_reverse.2 hu)
      · refine ⟨enqueue sb0 ps, ?_, List.mem_append_right _ (List.of_mem_zip hy).2⟩
        rw [t2]; exact withSession_at t1
      · intro qs hqs arrived harr config3 a a' msgs ha hhold hnone hrec
        rw [e1] at hnone hrec
        refine t7 qs (carried_map hqs) arrived harr config3 a a' msgs ha hhold hnone ?_
        rw [l2]
        exact hrec
    | twice => cases hcall; cases hx
    | _ => cases hcall

/-- **C82.** The message ID of the post, which is that of the request delivered and of the reply, settles the request with
the request manager, if it is still there and no other message ID was drawn for it after the post. (The random message IDs
are supposed to be different.) -/
theorem answer_settles [DecidableEq R] {now : Nat} {calls : List (ManagerCall R)} {outs : List (ManagerOutcome R)}
    {log : List (LogEntry R)} (h : Reached C T mc now calls outs log m) (hd : (drawn log).Nodup) {r : R}
    (hr : (inserted calls).count r ≤ 1) {a b : List (LogEntry R)} {i : SessionIndex} {d d' : Option MixnodeIndex}
    {mid : MessageId} {res : Except PostErr Estimate} (hlog : log = a ++ .post r i d mid d' res :: b)
    (hb : ∀ id, .newId r id ∉ b) (hm : r ∈ managed m) : (m.remove mid).2 = some r := by
  have := manager_induction (P := fun c => LatestIn r c ∧ (c.inserted.count r ≤ 1 → PostsUnder r c.log))
    (fun _ _ => underIn_micro) (fun _ _ _ _ _ h => h) h [] [] []
    ⟨⟨rfl, fun _ s hs => (by cases hs)⟩, fun _ a b i d mid d' res he => by simp at he⟩
  simp only [List.nil_append] at this
  have hl := this.2 hr _ _ _ _ _ _ _ hlog
  refine (remove_iff h hd hr mid).2 ⟨hm, ?_⟩
  rw [hlog, latestId_same ?_]
  · exact hl
  · unfold idsOf
    rw [List.flatMap_cons, List.nil_append, List.flatMap_eq_nil_iff]
    intro x hx
    cases x with
    | newId r' id =>
      by_cases e : r' = r
      · subst e; exact absurd hx (hb id)
      · exact if_neg e
    | _ => rfl

/-- The hypotheses of `answer_settles` can be met: request 7 is posted twice, under different message IDs, and request 8
in between; the second post of 7 is the last entry of the log. -/
example : ∃ m os log a i d mid d' res, Reached World.C World.trait ⟨3, 2, 1, 1⟩ 5
      [.updateSessionStatus, .insert 7, .insert 8, .popNextRetry] os log m ∧ (drawn log).Nodup ∧
    log = a ++ [.post 7 i d mid d' res] ∧ 7 ∈ managed m ∧ (idsOf 7 log).length = 2 ∧ (m.remove mid).2 = some 7 := by
  have h : (match World.runManager World.alice (.new ⟨3, 2, 1, 1⟩ 5) 0
        [.updateSessionStatus, .insert 7, .insert 8, .popNextRetry] with
      | .ok (m, _, log) => decide ((drawn log).Nodup ∧ 7 ∈ managed m ∧ (idsOf 7 log).length = 2) &&
          (match log.getLast? with | some (.post r _ _ _ _ _) => decide (r = 7) | _ => false)
      | .error _ => false) = true := by decide +kernel
  obtain ⟨x, hx⟩ : ∃ x, World.runManager World.alice (.new ⟨3, 2, 1, 1⟩ 5) 0
        [.updateSessionStatus, .insert 7, .insert 8, .popNextRetry] = x := ⟨_, rfl⟩
  rw [hx] at h
  cases x with
  | error e => cases h
  | ok p =>
    obtain ⟨m, os, log⟩ := p
    rw [Bool.and_eq_true] at h
    obtain ⟨h1, h2⟩ := h
    obtain ⟨h1, h3, h4⟩ := of_decide_eq_true h1
    have hr : Reached World.C World.trait ⟨3, 2, 1, 1⟩ 5 [.updateSessionStatus, .insert 7, .insert 8, .popNextRetry] os log m :=
      World.runManager_runs hx
    cases hl : log.getLast? with
    | none => rw [hl] at h2; cases h2
    | some y =>
      obtain ⟨a, ha⟩ := List.getLast?_eq_some_iff.1 hl
      rw [hl] at h2
      match y, h2, ha with
      | .post r i d mid d' res, h2, ha =>
        have h2 : r = 7 := of_decide_eq_true h2
        subst h2
        exact ⟨m, os, log, a, i, d, mid, d', res, hr, h1, ha, h3, h4,
          answer_settles hr h1 (by decide) ha (fun id h => (by cases h)) h3⟩

end Mixnet.Props
