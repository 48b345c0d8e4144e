import Verif.Proofs.TotalPost
import Verif.Props.Handling
import Verif.Props.Sending
import Verif.Spec.World
import Verif.Spec.Panics
/-!
# C54: nothing panics
-/
namespace Mixnet.Props
open Mixnet Spec

variable {C : Crypto} (hC : CryptoLaws C) {config : Config} {m m' : Node}
include hC

omit hC in
theorem genBool_total (rng : Rng) {p : Rat} (h0 : 0 ≤ p) (h1 : p ≤ 1) : ∃ r, rng.genBool p = .ok r := by
  unfold Rng.genBool
  by_cases h : p = 1
  · rw [if_pos h]; exact ⟨_, rfl⟩
  · rw [if_neg h, if_pos ⟨h0, lt_of_le_of_ne h1 h⟩]; exact ⟨_, rfl⟩

omit hC in
theorem period_pos (hI : m.Inv C) (hs : Sane m.config) {rel s} (h : m.sessions.get rel = .full s) :
    1 ≤ s.meanAuthoredPacketPeriod := by
  obtain ⟨sc, h1, -, h2⟩ := (hI.sessions rel s h).config
  rw [h2]
  unfold Config.sessionConfig at h1
  split at h1
  · cases h1; exact hs.mixnodePeriod
  · exact hs.clientPeriod sc h1

omit hC in
theorem pickSession_total (hI : m.Inv C) (hs : Sane m.config) (rng : Rng) : ∃ r, m.pickSession rng = .ok r := by
  unfold Node.pickSession
  split
  · rename_i a b hab
    obtain ⟨s, t, rfl, rfl, hss⟩ := enumerate_two hab
    have h1 : 1 ≤ s.meanAuthoredPacketPeriod := period_pos hI hs (rel := .current) (by rw [hss]; rfl)
    have h2 : 1 ≤ t.meanAuthoredPacketPeriod := period_pos hI hs (rel := .prev) (by rw [hss]; rfl)
    have h1' : (1 : Rat) ≤ s.meanAuthoredPacketPeriod := by exact_mod_cast h1
    have h2' : (1 : Rat) ≤ t.meanAuthoredPacketPeriod := by exact_mod_cast h2
    dsimp only
    rw [if_neg (by linarith)]
    obtain ⟨⟨f, r⟩, hb⟩ := genBool_total rng (p := (t.meanAuthoredPacketPeriod : Rat) /
      ((s.meanAuthoredPacketPeriod : Rat) + t.meanAuthoredPacketPeriod)) (by positivity)
      (by rw [div_le_one (by linarith)]; linarith)
    rw [hb]
    exact ⟨_, rfl⟩
  · exact ⟨_, rfl⟩
  · exact ⟨_, rfl⟩

theorem coverInstead_total (hI : m.Inv C) (hs : Sane m.config) (rng : Rng) {ns : NetworkStatus}
    (hns : ns.localPeerId.length = PEER_ID_SIZE) {rel s} (h : m.sessions.get rel = .full s) (kind : CoverKind) :
    ∃ r, m.coverInstead C rng ns s kind = .ok r := by
  have hwf := (hI.sessions rel s h).topology
  obtain ⟨r0, ms, r0', hm⟩ := (hI.sessions rel s h).made
  obtain ⟨hg, -⟩ := RouteGenerator.new_spec ns hwf
  have v : View s.topology ns ⟨s.topology, ns.localPeerId, connectedOf s.topology ns⟩ := ⟨⟨_, _, _, _, _, hm⟩, hg⟩
  unfold Node.coverInstead
  split
  · exact ⟨_, rfl⟩
  · unfold genCoverPacket
    rw [hg, res_bind_ok]
    obtain ⟨r, hr, hgood⟩ : ∃ r, coverRouteKind ⟨s.topology, ns.localPeerId, connectedOf s.topology ns⟩ rng kind = .ok r ∧
        ∀ k rng', r = .ok (k, rng') → ∀ d, otherEnd k = some d → d < s.topology.mixnodes.length := by
      cases kind with
      | loop =>
        refine ⟨_, rfl, ?_⟩
        intro k rng' e d hd
        cases e; cases hd
      | drop =>
        unfold coverRouteKind
        obtain ⟨ex, hex, ⟨-, e⟩ | ⟨n, f, ⟨h0, h1, -⟩, e⟩⟩ := choose_destination_uniform v
        · rw [e]; exact ⟨_, rfl, fun _ _ h => by cases h⟩
        · rw [e]
          refine ⟨_, rfl, ?_⟩
          intro k rng' ek d hd
          cases ek; cases hd
          exact (h1 (rng 0 % n) (Nat.mod_lt _ h0)).1
    rw [hr]
    cases r with
    | error e => exact ⟨_, rfl⟩
    | ok x =>
      obtain ⟨k, rng1⟩ := x
      have hd := hgood k rng1 rfl
      obtain ⟨r, hr⟩ := genRoute_total v rng1 hs.hops hd
      simp only [res_bind_ok]
      rw [hr]
      cases r with
      | error e => exact ⟨_, rfl⟩
      | ok x =>
        obtain ⟨route, rng2⟩ := x
        obtain ⟨p, hp⟩ := peerId_total v hs.hops hd hr
        simp only [res_bind_ok]
        rw [hp]
        obtain ⟨⟨pk, d, rng3⟩, hc⟩ := buildCoverPacket_total hC zeroPacket_length rng2 (route_good v hns hs.hops hd hr)
        dsimp only
        rw [hc]
        exact ⟨_, rfl⟩

theorem popAuthored_total (hI : m.Inv C) (hs : Sane m.config) (rng : Rng) {ns : NetworkStatus}
    (hns : ns.localPeerId.length = PEER_ID_SIZE) : ∃ r, m.popNextAuthoredPacket C rng ns = .ok r := by
  obtain ⟨⟨o, rng1⟩, hp⟩ := pickSession_total hI hs rng
  unfold Node.popNextAuthoredPacket
  rw [hp, res_bind_ok]
  rcases pickSession_cases hp with ⟨rfl, -⟩ | ⟨rel, s, rfl, hslot⟩
  · exact ⟨_, rfl⟩
  · dsimp only
    obtain ⟨⟨isLoop, rng2⟩, hb⟩ := genBool_total rng1 hs.loops.1 hs.loops.2.le
    rw [hb, res_bind_ok]
    have hcov : ∀ (x : Node), x.config = m.config → ∀ kind, ∃ r, x.coverInstead C rng2 ns s kind = .ok r := by
      intro x hx kind
      have := coverInstead_total hC hI hs rng2 hns hslot kind
      unfold Node.coverInstead at this ⊢
      rw [hx]; exact this
    dsimp only
    have hcov' : ∀ (x : Node), x.config = m.config → ∀ kind,
        ∃ r, (x.coverInstead C rng2 ns s kind >>= fun p => Except.ok (x, p)) = (.ok r : Res _) := by
      intro x hx kind
      obtain ⟨p, hp⟩ := hcov x hx kind
      rw [hp]
      exact ⟨_, rfl⟩
    generalize (if isLoop = true then CoverKind.loop else CoverKind.drop) = kind
    generalize s.authoredPacketQueue.pop = pp
    obtain ⟨⟨packet, space⟩, q⟩ := pp
    by_cases hc : (decide (kind = CoverKind.drop) && m.sessionStatus.phase.allowRequestsAndReplies rel) = true
    · rw [if_pos hc]
      cases packet with
      | some p => exact ⟨_, rfl⟩
      | none =>
        dsimp only
        cases space
        · (apply hcov'; rfl)
        · (apply hcov'; rfl)
    · rw [if_neg hc]
      (apply hcov'; rfl)

omit hC in
theorem space_of_check {q : AuthoredPacketQueue} {n : Nat} (h : q.checkSpace n = .ok ()) :
    q.queue.length + n ≤ q.config.capacity := by
  obtain ⟨h1, h2 | ⟨-, h2⟩⟩ := AuthoredPacketQueue.checkSpace_ok.1 h
  · rw [h2]; simpa using h1
  · exact h2

omit hC in
theorem slot_of_postSession {i rel s} (h : postSession m.sessions m.sessionStatus i = .ok (rel, s)) :
    m.sessions.get rel = .full s ∧ m.sessionAt i = some s := by
  unfold postSession at h
  cases hr : RelSessionIndex.fromSessionIndex i m.sessionStatus.currentIndex with
  | none =>
    rw [hr] at h
    dsimp only at h
    split at h <;> cases h
  | some rel' =>
    rw [hr] at h
    dsimp only at h
    split at h
    · cases rel' <;> cases h
    · split at h
      · cases h
      · cases h
      · cases h
      · rename_i s' hs'
        cases h
        exact ⟨hs', Node.sessionAt_eq.2 ⟨_, hr, hs'⟩⟩

omit hC in
theorem blueprints_total (mid : MessageId) {data : Scattered Byte} (n : Nat) (hw : data.WF) :
    ∃ r, fragmentBlueprints mid data n = .ok r := by
  rcases fragmentBlueprints_spec mid data n hw with ⟨e, -⟩ | ⟨bs, e, -⟩
  · exact ⟨_, e⟩
  · exact ⟨_, e⟩

omit hC in
/-- The request builder `post_request` uses. -/
theorem builder_good (hI : m.Inv C) {rel s} (hslot : m.sessions.get rel = .full s) (rng : Rng) {ns : NetworkStatus}
    (hns : ns.localPeerId.length = PEER_ID_SIZE) {d : Option MixnodeIndex}
    (hd : ∀ j, d = some j → j < s.topology.mixnodes.length) :
    ∃ r, RequestBuilder.new rng s.topology ns d = .ok r ∧
      ∀ b rng', r = .ok (b, rng') → GoodBuilder s.topology ns b := by
  have hwf := (hI.sessions rel s hslot).topology
  obtain ⟨r0, ms, r0', hm⟩ := (hI.sessions rel s hslot).made
  obtain ⟨hg, -⟩ := RouteGenerator.new_spec ns hwf
  have v : View s.topology ns ⟨s.topology, ns.localPeerId, connectedOf s.topology ns⟩ := ⟨⟨_, _, _, _, _, hm⟩, hg⟩
  unfold RequestBuilder.new
  rw [hg, res_bind_ok]
  cases d with
  | some j =>
    refine ⟨_, rfl, ?_⟩
    intro b rng' e
    cases e
    exact ⟨v, hns, hd j rfl⟩
  | none =>
    dsimp only
    obtain ⟨ex, hex, ⟨-, e⟩ | ⟨n, f, ⟨h0, h1, -⟩, e⟩⟩ := choose_destination_uniform v
    · rw [e]; exact ⟨_, rfl, fun _ _ h => by cases h⟩
    · rw [e]
      refine ⟨_, rfl, ?_⟩
      intro b rng' ek
      cases ek
      exact ⟨v, hns, (h1 (rng 0 % n) (Nat.mod_lt _ h0)).1⟩

theorem postRequest_only (hI : m.Inv C) (hs : Sane m.config) (rng : Rng) (i : Nat) {d : Option MixnodeIndex}
    {mid : MessageId} {data : Scattered Byte} {n : Nat} {ns : NetworkStatus}
    (hw : (Call.postRequest rng i d mid data n ns).WellTyped)
    (hd : DestinationExists m (.postRequest rng i d mid data n ns)) :
    OnlyRepeated (n ≠ 0 ∧ IdRepeats m rng) (m.postRequest C rng i d mid data n ns) := by
  obtain ⟨-, hmid, hdw, hns⟩ := hw
  unfold Node.postRequest
  obtain ⟨r, hr⟩ := blueprints_total mid n (show data.WF from hdw)
  rw [hr, res_bind_ok]
  cases r with
  | none => exact .ok _
  | some bps =>
    dsimp only
    split
    · exact .ok _
    · cases hps : postSession m.sessions m.sessionStatus i with
      | error e => exact .ok _
      | ok x =>
        obtain ⟨rel, s⟩ := x
        obtain ⟨hslot, hat⟩ := slot_of_postSession hps
        dsimp only
        cases hsp : s.authoredPacketQueue.checkSpace bps.length with
        | error e => exact .ok _
        | ok u =>
          dsimp only
          obtain ⟨r, hr', hgood⟩ := builder_good hI hslot rng hns (d := d) (by
            rintro j rfl; exact hd s hat)
          rw [hr', res_bind_ok]
          cases r with
          | error e => exact .ok _
          | ok x =>
            obtain ⟨b, rng1⟩ := x
            dsimp only
            have hor : Origin (fun id => ∃ v, m.surbKeystore.entry id = some v) rng m.surbKeystore rng :=
              ⟨0, rfl, fun id hid => .inl (by
                cases he : m.surbKeystore.entry id with
                | some v => exact ⟨v, he⟩
                | none => exact absurd hid (LinkedMap.get?_eq_none.1 he))⟩
            obtain ⟨k, hk⟩ : ∃ k, rng1 = skip rng k := by
              rcases (newBuilder hr').2 with ⟨j, rfl, -⟩ | ⟨-, hc⟩
              · refine ⟨0, ?_⟩
                unfold RequestBuilder.new at hr'
                rw [res_bind_eq_ok] at hr'
                obtain ⟨g, -, hr'⟩ := hr'
                cases hr'
                rfl
              · exact ⟨1, (RouteGenerator.chooseMixnodeIndex_takes hc).1⟩
            refine ((postLoop_only' hC (hgood b rng1 rfl) mid hs.hops bps _ (good_blueprints hmid hdw hr) hI.keystore
              (hor.advance hk) (space_of_check hsp)).mono ?_).bind ?_
            · rintro ⟨⟨bp, hbp, hne⟩, hrep⟩
              refine ⟨?_, hrep⟩
              rintro rfl
              rcases fragmentBlueprints_spec mid data 0 hdw with ⟨e, -⟩ | ⟨bs, e, -, -, -, -, -, -, hsum⟩
              · rw [e] at hr; cases hr
              · rw [e] at hr; cases hr
                have h0 : bp.numSurbs = 0 := List.sum_eq_zero_iff.1 hsum _ (List.mem_map_of_mem hbp)
                have := surbOffsets_length bp
                rw [h0] at this
                exact hne (List.eq_nil_of_length_eq_zero (by simpa using this))
            rintro ⟨acc, res⟩ -
            cases res with
            | error e => exact .ok _
            | ok u =>
              dsimp only
              unfold estimateAuthoredPacketQueueDelay
              rw [assertP_pos (decide_eq_true hs.loops.2), res_bind_ok]
              dsimp only
              rw [assertP_pos (decide_eq_true (by have := hs.mixnodePeriod; omega)), res_bind_ok]
              exact .ok _

theorem postReply_total (hI : m.Inv C) {surbs : List Surb} {i : Nat} {mid : MessageId} {data : Scattered Byte}
    (hw : (Call.postReply surbs i mid data).WellTyped) : ∃ r, m.postReply C surbs i mid data = .ok r := by
  obtain ⟨-, hmid, hdw⟩ := hw
  unfold Node.postReply
  obtain ⟨r, hr⟩ := blueprints_total mid 0 (show data.WF from hdw)
  rw [hr, res_bind_ok]
  cases r with
  | none => exact ⟨_, rfl⟩
  | some bps =>
    dsimp only
    split
    · exact ⟨_, rfl⟩
    · rename_i hle
      cases hps : postSession m.sessions m.sessionStatus i with
      | error e => exact ⟨_, rfl⟩
      | ok x =>
        obtain ⟨rel, s⟩ := x
        dsimp only
        cases hsp : s.authoredPacketQueue.checkSpace bps.length with
        | error e => exact ⟨_, rfl⟩
        | ok u =>
          dsimp only
          obtain ⟨⟨su, q, res⟩, hl⟩ := postReplyLoop_total (C := C) (t := s.topology) bps surbs s.authoredPacketQueue
            (good_blueprints hmid hdw hr) (by omega) (space_of_check hsp)
          rw [hl]
          exact ⟨_, rfl⟩

/-- **C54.** A node can be created with a sane configuration; and then no call panics in any state it can
reach, with any random numbers, clock, connectivity, packets and other inputs, as long as the
destinations given to `post_request` exist: except that posting a request that asks for SURBs may panic because a random SURB
ID repeats, which it can only if 16 bytes of the random numbers given are the ID of a SURB still waiting for its reply,
or come twice. -/
theorem no_panic (hs : Sane config) :
    (∃ m, Node.new C config = .ok m) ∧
    ∀ m, Node.Reachable C config m →
      (∀ call, call.WellTyped → DestinationExists m call →
        (∃ m' out, m.step C call = .ok (m', out)) ∨
        ∃ rng i d mid data n ns, call = .postRequest rng i d mid data n ns ∧ m.step C call = .error surbIdRepeated ∧
          n ≠ 0 ∧ IdRepeats m rng) ∧
      (∃ peers, m.reservedPeers = .ok peers) ∧
      ∀ e, ∃ delay, m.nextAuthoredPacketDelay e = .ok delay := by
  constructor
  · unfold Node.new SurbKeystore.new
    rw [assertP_pos (decide_eq_true (by have := hs.keystore; omega))]
    exact ⟨_, rfl⟩
  intro m hr
  obtain ⟨hI, hcfg⟩ := hr.inv hC
  subst hcfg
  refine ⟨?_, ?_, ?_⟩
  · intro call hw hd
    cases call with
    | setSessionStatus st => exact .inl ⟨_, _, rfl⟩
    | maybeSetMixnodes rel answer rng =>
      obtain ⟨m', b, h, -⟩ := maybeSetMixnodes_cases C m rng rel answer hI.index_of_pending
      refine .inl ⟨m', .consulted b, ?_⟩
      show (m.maybeSetMixnodes C rng rel answer >>= _) = _
      rw [h]; rfl
    | nextKxPublic rng => exact .inl ⟨_, _, rfl⟩
    | handlePacket now packet =>
      obtain ⟨m', msg, h, -⟩ := handle_packet_safe hC hr now packet hw
      exact .inl ⟨m', _, h⟩
    | popNextForwardPacket tie => exact .inl ⟨_, _, rfl⟩
    | popNextAuthoredPacket rng ns =>
      obtain ⟨⟨m', p⟩, h⟩ := popAuthored_total hC hI hs rng (ns := ns) hw
      refine .inl ⟨m', .authoredPacket p, ?_⟩
      show (m.popNextAuthoredPacket C rng ns >>= _) = _
      rw [h]; rfl
    | postRequest rng i d mid data n ns =>
      have ho := postRequest_only hC hI hs rng i hw hd
      cases h : m.postRequest C rng i d mid data n ns with
      | ok x =>
        refine .inl ⟨x.1, .posted x.2.1 x.2.2, ?_⟩
        show (m.postRequest C rng i d mid data n ns >>= _) = _
        rw [h]; rfl
      | error p =>
        refine .inr ⟨rng, i, d, mid, data, n, ns, rfl, ?_, (ho p h).2⟩
        show (m.postRequest C rng i d mid data n ns >>= _) = _
        rw [h, (ho p h).1]; rfl
    | postReply surbs i mid data =>
      obtain ⟨⟨m', su, r⟩, h⟩ := postReply_total hC hI hw
      refine .inl ⟨m', .replied su r, ?_⟩
      show (m.postReply C surbs i mid data >>= _) = _
      rw [h]; rfl
    | takeEvents => exact .inl ⟨_, _, rfl⟩
  · obtain ⟨ps, qs, h, -⟩ := node_reserved_peers hC hr
    exact ⟨_, h⟩
  · intro e
    obtain ⟨x, hx⟩ : ∃ x, m.meanAuthoredPacketPeriod = .ok x := by
      unfold Node.meanAuthoredPacketPeriod
      split
      · rename_i a b hab
        have hss : m.sessions = ⟨.full a, .full b⟩ := by
          revert hab
          generalize m.sessions = ss
          obtain ⟨c, p⟩ := ss
          cases c <;> cases p <;> intro hab <;> first | (cases hab; rfl) | cases hab
        have h1 : (1 : Rat) ≤ a.meanAuthoredPacketPeriod := by
          exact_mod_cast period_pos hI hs (rel := .current) (s := a) (by rw [hss]; rfl)
        have h2 : (1 : Rat) ≤ b.meanAuthoredPacketPeriod := by
          exact_mod_cast period_pos hI hs (rel := .prev) (s := b) (by rw [hss]; rfl)
        dsimp only
        rw [if_neg (by linarith)]
        exact ⟨_, rfl⟩
      · exact ⟨_, rfl⟩
      · exact ⟨_, rfl⟩
    unfold Node.nextAuthoredPacketDelay
    rw [hx, res_bind_ok]
    cases x <;> exact ⟨_, rfl⟩

/-! ### A concrete case, and why each condition is there -/

omit hC in
theorem world_sane : Sane (World.cfg 3) where
  hops := by decide
  keystore := by decide
  loops := by decide +kernel
  mixnodePeriod := by decide
  clientPeriod := by intro sc h; cases h; decide

/-- A node of the small network of `Spec/World.lean` posts its request without panicking. -/
example : ∃ m' out, World.alice.step World.C World.ask = .ok (m', out) := by
  rcases ((no_panic toyLaws world_sane).2 World.alice World.alice_reachable).1 World.ask World.ask_typed (by
    intro s hs
    have h : (match World.alice.sessionAt 0 with
      | some s => decide (1 < s.topology.mixnodes.length)
      | none => true) = true := by decide +kernel
    rw [hs] at h
    exact of_decide_eq_true h) with h | ⟨_, _, _, _, _, _, _, _, h, -⟩
  · exact h
  · exact ⟨_, _, World.ask_step⟩

/-- Whether a call panics. -/
def panics {α} : Res α → Bool
  | .ok _ => false
  | .error _ => true

/-- The exception happens: the same random numbers twice. -/
example : (match World.alice1.step World.C World.ask with
    | .ok _ => none
    | .error p => some p.site) = some surbIdRepeated.site := by decide +kernel

/-- A destination that does not exist. -/
example : panics (World.alice.step World.C
    (.postRequest World.rng 0 (some 3) World.mid (Scattered.ofSlice [1]) 0 (World.ns 3))) = true := by decide +kernel

/-- More hops than a header has room for. -/
example : panics (do
    let m ← Node.new World.C { World.cfg 3 with numHops := 7 }
    let (m, _) ← World.runAll m [
      .setSessionStatus ⟨0, .requestsToCurrent⟩,
      .maybeSetMixnodes .current (.ok ([3, 5, 7, 9, 11, 13, 15, 17].map World.mix)) World.rng]
    m.step World.C World.ask) = true := by decide +kernel

/-- All authored packets are loop cover traffic. -/
example : panics (do
    let m ← Node.new World.C { World.cfg 3 with loopCoverProportion := 1 }
    let (m, _) ← World.runAll m World.setup
    m.step World.C World.ask) = true := by decide +kernel

/-- A keystore without room. -/
example : panics (Node.new World.C { World.cfg 3 with surbKeystoreCapacity := 0 }) = true := by decide +kernel

end Mixnet.Props
