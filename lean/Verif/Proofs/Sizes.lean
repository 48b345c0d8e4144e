import Verif.Proofs.WholeHistory
/-!
# The sizes of what a node keeps
-/
namespace Mixnet
open Spec Props

variable {C : Crypto} {m m' : Node}

theorem payloadKey_length (hC : CryptoLaws C) (sec : SharedSecret) : (C.payloadEncryptionKey sec).length = 192 := by
  simp [Crypto.payloadEncryptionKey, Crypto.deriveSecret, List.range_succ, hC.blake64_length]

theorem genSecrets_length (hC : CryptoLaws C) {rng rng' : Rng} {theirs : List KxPublic} {k : KxPublic} {secs : List SharedSecret}
    (hl : theirs.length ≤ 6) (h : C.genKxPublicAndSharedSecrets rng theirs = .ok (k, secs, rng')) :
    secs.length = theirs.length := by
  unfold Crypto.genKxPublicAndSharedSecrets at h
  dsimp only at h
  have := genSecrets_shared theirs (C.scalarOfClamped (Crypto.genKxSecret rng).1) hl
  rw [show C.deriveKxPublic (Crypto.genKxSecret rng).1 = C.mulBase (C.scalarOfClamped (Crypto.genKxSecret rng).1) from
    hC.mulBaseClamped _, this,
    res_bind_ok] at h
  simp only [Except.ok.injEq, Prod.mk.injEq] at h
  obtain ⟨-, rfl, -⟩ := h
  exact sharedSecrets_length ..

theorem buildHeader_secrets (hC : CryptoLaws C) {header rng targets theirs kind header' secs d rng'}
    (h : buildHeader C header rng targets theirs kind = .ok (header', secs, d, rng')) :
    secs.length ≤ 6 := by
  unfold buildHeader at h
  rw [res_bind_eq_ok] at h
  obtain ⟨-, -, h⟩ := h
  rw [res_bind_eq_ok] at h
  obtain ⟨_, h6, h⟩ := h
  rw [res_bind_eq_ok] at h
  obtain ⟨⟨k, secs', r⟩, h1, h⟩ := h
  have hl : theirs.length ≤ 6 := by
    by_contra hn
    have hd : decide (theirs.length ≤ MAX_HOPS) = false := decide_eq_false hn
    rw [hd] at h6
    cases h6
  have hs := genSecrets_length hC hl h1
  dsimp only at h
  rw [res_bind_eq_ok] at h
  obtain ⟨_, -, h⟩ := h
  rw [res_bind_eq_ok] at h
  obtain ⟨_, -, h⟩ := h
  rw [res_bind_eq_ok] at h
  obtain ⟨⟨_, _⟩, -, h⟩ := h
  dsimp only at h
  rw [res_bind_eq_ok] at h
  obtain ⟨⟨_, _⟩, -, h⟩ := h
  simp only [Except.ok.injEq, Prod.mk.injEq] at h
  obtain ⟨-, rfl, -⟩ := h
  omega

theorem completeRequestPacket_length (hC : CryptoLaws C) {packet rng targets theirs out d rng'} (hp : packet.length = PACKET_SIZE)
    (h : completeRequestPacket C packet rng targets theirs = .ok (out, d, rng')) : out.length = 2252 := by
  unfold completeRequestPacket at h
  rw [res_bind_eq_ok] at h
  obtain ⟨-, -, h⟩ := h
  rw [res_bind_eq_ok] at h
  obtain ⟨-, -, h⟩ := h
  dsimp only at h
  rw [res_bind_eq_ok] at h
  obtain ⟨⟨hd, ss, dl, r1⟩, h1, h⟩ := h
  have a1 := buildHeader_length hC (by rw [List.length_take, hp]; rfl) h1
  dsimp only at h
  rw [res_bind_eq_ok] at h
  obtain ⟨p, h2, h⟩ := h
  have a2 := arraySet_length h2
  simp only [Except.ok.injEq, Prod.mk.injEq] at h
  obtain ⟨rfl, -⟩ := h
  have a3 : p.length = PAYLOAD_SIZE := by rw [a2, List.length_drop, hp]; rfl
  have a4 : (ss.foldr (fun sec p => C.encryptPayload p (C.payloadEncryptionKey sec)) p).length = PAYLOAD_SIZE := by
    clear h1
    induction ss with
    | nil => exact a3
    | cons s ss ih => exact hC.encrypt_length _ _ ih
  rw [List.length_append, a1, a4]; rfl

theorem completeReplyPacket_length (hC : CryptoLaws C) {packet surb out o} (hp : packet.length = PACKET_SIZE)
    (hs : surb.length = SURB_SIZE) (h : completeReplyPacket C packet surb = .ok (out, o)) : out.length = 2252 := by
  unfold completeReplyPacket at h
  dsimp only at h
  rw [res_bind_eq_ok] at h
  obtain ⟨p, h2, h⟩ := h
  have a2 := arraySet_length h2
  simp only [Except.ok.injEq, Prod.mk.injEq] at h
  obtain ⟨rfl, -⟩ := h
  have a3 : p.length = PAYLOAD_SIZE := by rw [a2, List.length_drop, hp]; rfl
  rw [List.length_append, slice, List.length_take, List.length_drop, hs]
  rw [show (C.decryptPayload p _).length = PAYLOAD_SIZE from hC.decrypt_length _ _ a3]
  rfl

theorem buildCoverPacket_length (hC : CryptoLaws C) {packet rng targets theirs id out d rng'} (hp : packet.length = PACKET_SIZE)
    (h : buildCoverPacket C packet rng targets theirs id = .ok (out, d, rng')) : out.length = 2252 := by
  unfold buildCoverPacket at h
  rw [res_bind_eq_ok] at h
  obtain ⟨-, -, h⟩ := h
  rw [res_bind_eq_ok] at h
  obtain ⟨-, -, h⟩ := h
  dsimp only at h
  rw [res_bind_eq_ok] at h
  obtain ⟨⟨hd, ss, dl, r1⟩, h1, h⟩ := h
  have a1 := buildHeader_length hC (by rw [List.length_take, hp]; rfl) h1
  simp only [Except.ok.injEq, Prod.mk.injEq] at h
  obtain ⟨rfl, -⟩ := h
  rw [List.length_append, a1, fillBytes_length]; rfl

theorem buildSurb_keys (hC : CryptoLaws C) {old rng first targets theirs id surb keys d rng'}
    (h : buildSurb C old rng first targets theirs id = .ok (surb, keys, d, rng')) :
    keys.length ≤ 6 ∧ ∀ k ∈ keys, k.length = 192 := by
  unfold buildSurb at h
  rw [res_bind_eq_ok] at h
  obtain ⟨-, -, h⟩ := h
  rw [res_bind_eq_ok] at h
  obtain ⟨-, -, h⟩ := h
  dsimp only at h
  rw [res_bind_eq_ok] at h
  obtain ⟨⟨hd, ss, dl, r1⟩, h1, h⟩ := h
  have a1 := buildHeader_secrets hC h1
  simp only [Except.ok.injEq, Prod.mk.injEq] at h
  obtain ⟨-, rfl, -⟩ := h
  constructor
  · rw [List.length_cons, List.length_map, List.length_dropLast]; omega
  · intro k hk
    rcases List.mem_cons.1 hk with rfl | hk
    · exact payloadKey_length hC _
    · obtain ⟨x, -, rfl⟩ := List.mem_map.1 hk
      exact payloadKey_length hC _

/-- Packets, ids and keys have the right sizes. -/
structure Sized (m : Node) : Prop where
  queued : ∀ p, Queued m p → p.packet.length = 2252
  forward : ∀ p ∈ m.forwardPacketQueue.queue, p.packet.packet.length = 2252
  keys : ∀ y ∈ m.surbKeystore.surbs, y.1.length = 16 ∧ y.2.messageId.length = 16 ∧ y.2.keys.length ≤ 6 ∧
    ∀ k ∈ y.2.keys, k.length = 192

theorem Sized.less (h : Sized m) (h1 : ∀ p, Queued m' p → Queued m p)
    (h2 : ∀ p ∈ m'.forwardPacketQueue.queue, p ∈ m.forwardPacketQueue.queue)
    (h4 : ∀ y ∈ m'.surbKeystore.surbs, y ∈ m.surbKeystore.surbs) : Sized m' :=
  ⟨fun p hp => h.queued p (h1 p hp), fun p hp => h.forward p (h2 p hp), fun y hy => h.keys y (h4 y hy)⟩

/-- The packet a call hands out. -/
def outSize : Outcome → Prop
  | .forwardPacket (some p) => p.packet.length = 2252
  | .authoredPacket (some p) => p.packet.length = 2252
  | _ => True

theorem sized_step (hC : CryptoLaws C) {config : Config} (hreach : Node.Reachable C config m) (hk : config.numHops ≤ 6)
    (hn : Sized m) {call : Call} {out : Outcome} (hw : call.WellTyped) (h : m.step C call = .ok (m', out)) :
    Sized m' ∧ outSize out := by
  obtain ⟨hI, rfl⟩ := hreach.inv hC
  have hc := Node.step_cases hC hI hw h
  cases hc with
  | status st =>
    have hst := setSessionStatus_cases m st
    obtain ⟨o1, o2, o3⟩ := status_other hst
    exact ⟨hn.less (status_queued hst) (by rw [o1]; exact fun p h => h) (by rw [o3]; exact fun p h => h), trivial⟩
  | mixnodes rel answer rng _ b hset =>
    obtain ⟨o1, o2, o3⟩ := set_other hset
    exact ⟨hn.less (set_queued hset) (by rw [o1]; exact fun p h => h) (by rw [o3]; exact fun p h => h), trivial⟩
  | nextKx rng =>
    have hm : ∃ k, (m.nextKxPublic C rng).1 = { m with nextKxPair := k } := by
      unfold Node.nextKxPublic
      split
      · exact ⟨m.nextKxPair, rfl⟩
      · exact ⟨_, rfl⟩
    obtain ⟨k, hm⟩ := hm
    rw [hm]
    exact ⟨hn.less (fun p h => h) (fun p h => h) (fun p h => h), trivial⟩
  | handle now packet _ msg hh =>
    refine ⟨?_, trivial⟩
    cases hh with
    | ignored => exact hn
    | accepted out a rel s _ _ hacc he =>
      have seen : ∀ m1 : Node, m1.sessions = m.sessions.set rel (.full (s.seen C packet)) → ∀ p, Queued m1 p → Queued m p :=
        fun m1 h1 p hq => queued_same (s' := s.seen C packet) hacc.slot (fun q hq => hq) h1 p hq
      cases he with
      | cover => exact hn
      | forwardNotMixnode => exact hn
      | forwardFull => exact hn
      | forwardNowhere => exact hn.less (seen _ rfl) (fun p h => h) (fun p h => h)
      | forward t d peer ev h1 h2 h3 h4 =>
        refine ⟨fun p hq => hn.queued p (seen _ rfl p hq), fun p hp => ?_, hn.keys⟩
        rcases List.mem_cons.1 hp with rfl | hp
        · exact hacc.size
        · exact hn.forward p hp
      | requestNotMixnode => exact hn
      | request => exact hn.less (seen _ rfl) (fun p h => h) (fun p h => h)
      | replyUnknown => exact hn
      | replyBad => exact hn.less (fun p h => h) (fun p h => h) (fun y hy => (LinkedMap.remove_sublist _ _).subset hy)
      | reply => exact hn.less (fun p h => h) (fun p h => h) (fun y hy => (LinkedMap.remove_sublist _ _).subset hy)
  | popForward tie =>
    have hm : (m.popNextForwardPacket tie) = ({ m with
      events := { m.events with nextForwardPacketDeadlineChanged := true }
      forwardPacketQueue := (m.forwardPacketQueue.pop tie).2 }, (m.forwardPacketQueue.pop tie).1) := rfl
    clear h
    rcases ForwardPacketQueue.pop_spec m.forwardPacketQueue tie with ⟨-, hq⟩ | ⟨p, hp, -, hq⟩
    · rw [hq] at hm
      dsimp only at hm
      generalize m.popNextForwardPacket tie = pp at hm ⊢
      subst hm
      exact ⟨hn.less (fun p h => h) (fun p h => h) (fun p h => h), trivial⟩
    · rw [hq] at hm
      dsimp only at hm
      generalize m.popNextForwardPacket tie = pp at hm ⊢
      subst hm
      exact ⟨hn.less (fun p h => h) (fun p h => List.mem_of_mem_erase h) (fun p h => h), hn.forward p hp⟩
  | popAuthored rng ns _ p hp =>
    cases hp with
    | idle => exact ⟨hn, trivial⟩
    | queued rel s rng1 rng2 p rest h1 h2 h3 h4 h5 =>
      refine ⟨hn.less (fun q hq => queued_same h3 (fun q h => ?_) rfl q hq) (fun p h => h) (fun p h => h),
        hn.queued p ⟨rel, s, h3, by rw [h5]; exact List.mem_cons_self⟩⟩
      rw [h5]; exact List.mem_cons_of_mem _ h
    | cover rel s rng1 isLoop rng2 _ h1 h2 h3 h4 h5 =>
      refine ⟨hn.less (fun q hq => hq) (fun p h => h) (fun p h => h), ?_⟩
      cases p with
      | none => trivial
      | some p =>
        obtain ⟨-, kind, route, -, -, -, -, old, r, r', delay, ho, hb⟩ := coverBuilt hI h3 h5
        exact buildCoverPacket_length hC ho hb
  | post rng i d mid data n ns _ d' r hp =>
    refine ⟨?_, trivial⟩
    cases r with
    | error err =>
      obtain ⟨rfl, rfl⟩ := request_refused hC hreach hk hw h
      exact hn
    | ok met =>
      obtain ⟨s, dest, packets, hp, -⟩ := request_posted hC hreach hk hw (Denotes.of_wf hw.2.2.1) h
      have haft := hp.after
      obtain ⟨rel, hrel, hslot⟩ := Node.sessionAt_eq.1 hp.session
      rw [withSession_eq hrel] at haft
      rw [haft]
      refine ⟨fun q hq => ?_, hn.forward, ?_⟩
      · rcases queued_set rfl hq with h | h
        · rcases List.mem_append.1 h with h | h
          · exact hn.queued q ⟨rel, s, hslot, h⟩
          · obtain ⟨p, hp1, rfl⟩ := List.mem_map.1 h
            obtain ⟨old, r, r', ho, -, hb⟩ := (hp.built p hp1).built
            exact completeRequestPacket_length hC ho hb
        · exact hn.queued q h
      · intro y hy
        rcases List.mem_append.1 (List.mem_of_mem_drop hy) with h | h
        · exact hn.keys y h
        · obtain ⟨x, hx, rfl⟩ := List.mem_map.1 h
          obtain ⟨p, hp1, hx⟩ := List.mem_flatMap.1 hx
          obtain ⟨-, hid, old, r, r', -, hb⟩ := (hp.built p hp1).surbs x hx
          exact ⟨hid, hw.2.1, buildSurb_keys hC hb⟩
  | reply surbs i mid data _ surbs' r hp =>
    obtain ⟨⟨o1, o2, o3⟩, hq⟩ := reply_queued hw hp
    refine ⟨⟨fun p h => ?_, fun p h => ?_, fun y h => ?_⟩, trivial⟩
    · rcases hq p h with h | ⟨t, f, surb, h1, h2, old, first, mx, ho, -, hb, -⟩
      · exact hn.queued p h
      · exact completeReplyPacket_length hC ho (hw.1 surb h1) hb
    · rw [o1] at h; exact hn.forward p h
    · rw [o3] at h; exact hn.keys y h
  | take => exact ⟨hn.less (fun p h => h) (fun p h => h) (fun p h => h), trivial⟩

theorem sized_runs (hC : CryptoLaws C) {config : Config} (hk : config.numHops ≤ 6) {calls outs}
    (hr : Node.Runs C m calls outs m') (hw : ∀ c ∈ calls, c.WellTyped) (hreach : Node.Reachable C config m) (hn : Sized m) :
    Sized m' := by
  induction hr with
  | nil => exact hn
  | cons hs _ ih =>
    exact ih (fun c hc => hw c (List.mem_cons_of_mem _ hc)) (hreach.step hC (hw _ List.mem_cons_self) hs)
      (sized_step hC hreach hk hn (hw _ List.mem_cons_self) hs).1

theorem sized (hC : CryptoLaws C) {config : Config} (hk : config.numHops ≤ 6) (hr : Node.Reachable C config m) : Sized m := by
  obtain ⟨m₀, calls, outs, hn, hw, hr⟩ := hr
  refine sized_runs hC hk hr hw ⟨m₀, [], [], hn, fun c h => (by cases h), .nil _⟩ ?_
  obtain ⟨a1, a2, a3, a4⟩ := new_node hn
  exact ⟨fun p ⟨rel, s, h, _⟩ => absurd h (a1 rel s), fun p h => (by rw [a2] at h; cases h), fun y h => (by rw [a4] at h; cases h)⟩

end Mixnet
