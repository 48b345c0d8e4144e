import Verif.Proofs.SphinxBuild
/-! What `peel` computes. -/
namespace Mixnet

/-- The decrypted actions of a packet, with the generated padding. -/
def decActions (C : Crypto) (actions : Bytes) (sec : SharedSecret) : Bytes :=
  applyKeystream (actions ++ List.replicate 50 0) (hopKs C sec)

@[simp] theorem decActions_length (C : Crypto) (actions : Bytes) (sec : SharedSecret) :
    (decActions C actions sec).length = actions.length + 50 := by
  simp [decActions]

/-- A packet in its four parts. -/
structure Parts (packet kx mac actions payload : Bytes) : Prop where
  eq : packet = kx ++ mac ++ actions ++ payload
  kx : kx.length = 32
  mac : mac.length = 16
  actions : actions.length = 140
  payload : payload.length = 2064

theorem parts_exist (packet : Bytes) (h : packet.length = PACKET_SIZE) :
    ∃ kx mac actions payload, Parts packet kx mac actions payload := by
  csimp at h
  obtain ⟨a, b, c, e, ha, hb, hc⟩ := split3 packet 32 16 (by omega)
  obtain ⟨d, f, g, e', hd, hf, hg⟩ := split3 c 140 2064 (by omega)
  have : g = [] := List.eq_nil_of_length_eq_zero (by omega)
  subst this
  exact ⟨a, b, d, f, by rw [e, e']; simp, ha, hb, hd, hf⟩

namespace Parts
variable {packet kx mac actions payload : Bytes} (h : Parts packet kx mac actions payload)
include h

theorem length : packet.length = 2252 := by
  rw [h.eq]; simp [h.kx, h.mac, h.actions, h.payload]

theorem slice_kx : slice packet 0 32 = kx := by
  rw [h.eq]
  have := slice_mid [] kx (mac ++ actions ++ payload) 0 32 rfl h.kx
  simpa using this

theorem slice_mac : slice packet 32 16 = mac := by
  rw [h.eq]
  have := slice_mid kx mac (actions ++ payload) 32 16 h.kx h.mac
  simpa using this

theorem slice_actions : slice packet 48 140 = actions := by
  rw [h.eq]
  have := slice_mid (kx ++ mac) actions payload 48 140 (by simp [h.kx, h.mac]) h.actions
  simpa using this

theorem slice_payload : slice packet 188 2064 = payload := by
  rw [h.eq]
  have := slice_mid (kx ++ mac ++ actions) payload [] 188 2064 (by simp [h.kx, h.mac, h.actions]) h.payload
  simpa using this

end Parts

/-- The final buffer of the forward case: the next packet. `n` is the size of the action. -/
def nextPacket (C : Crypto) (kx actions payload : Bytes) (sec : SharedSecret) (n : Nat) : Bytes :=
  C.blindKxPublic kx sec ++ slice (decActions C actions sec) n 156 ++
    C.decryptPayload payload (C.payloadEncryptionKey sec)

/-- `peel` as a pure case distinction. -/
theorem peel_eq {C : Crypto} (hC : CryptoLaws C) {out packet kx mac actions payload : Bytes}
    (sec : SharedSecret) (h : Parts packet kx mac actions payload) (hout : out.length = 2252) :
    (C.blakeMac (C.macKey sec) actions ≠ mac → peel C out packet sec = .ok (out, .error .mac)) ∧
    (C.blakeMac (C.macKey sec) actions = mac →
      ∀ code, code = fromLe16 (slice (decActions C actions sec) 0 2) →
      (code = 0xff01 → ∃ out', out'.length = 2252 ∧
        out'.take 2064 = C.decryptPayload payload (C.payloadEncryptionKey sec) ∧
        peel C out packet sec = .ok (out',
          if slice (C.decryptPayload payload (C.payloadEncryptionKey sec)) 2048 16 = PAYLOAD_TAG
          then .ok .deliverRequest else .error .payloadTag)) ∧
      (code = 0xff02 → ∃ out', out'.length = 2252 ∧ out'.take 2064 = payload ∧
        peel C out packet sec =
          .ok (out', .ok (.deliverReply (slice (decActions C actions sec) 2 16)))) ∧
      (code = 0xff03 → ∃ out', out'.length = 2252 ∧ peel C out packet sec = .ok (out', .ok (.deliverCover none))) ∧
      (code = 0xff04 → ∃ out', out'.length = 2252 ∧ peel C out packet sec =
        .ok (out', .ok (.deliverCover (some (slice (decActions C actions sec) 2 16))))) ∧
      (code = 0xff00 → peel C out packet sec = .ok (nextPacket C kx actions payload sec 34,
        .ok (.forwardTo (.peerId (slice (decActions C actions sec) 2 32)) (C.delayExp (C.delaySeed sec))))) ∧
      (code ≤ 0xfeff → peel C out packet sec = .ok (nextPacket C kx actions payload sec 2,
        .ok (.forwardTo (.mixnodeIndex code) (C.delayExp (C.delaySeed sec))))) ∧
      (0xff04 < code → ∃ out', out'.length = 2252 ∧ peel C out packet sec = .ok (out', .error .action))) := by
  have hpl := h.length
  have hpay : (C.decryptPayload payload (C.payloadEncryptionKey sec)).length = 2064 :=
    hC.decrypt_length _ _ h.payload
  have hdl : (decActions C actions sec).length = 190 := by rw [decActions_length, h.actions]
  have hdec : C.applyActionsEncryptionKeystream (actions ++ List.replicate MAX_ACTIONS_PAD_SIZE 0)
      (C.actionsEncryptionKey sec) = decActions C actions sec := by
    rw [applyActions_eq C _ _ 190 (by rw [List.length_append, List.length_replicate, h.actions]; decide)]
    rfl
  have hbl : (C.blindKxPublic kx sec).length = 32 := hC.mulClamped_length _ _
  generalize hD : decActions C actions sec = D at *
  have hout1 : (splice out 30 D).length = 2252 := by rw [splice_length _ _ _ (by omega), hout]
  have e1 : arrayRef "kx_public" packet 0 KX_PUBLIC_SIZE = .ok kx := by
    rw [arrayRef_ok "kx_public" packet 0 32 (by omega), h.slice_kx]
  have e2 : arrayRef "mac" packet KX_PUBLIC_SIZE MAC_SIZE = .ok mac := by
    rw [arrayRef_ok "mac" packet 32 16 (by omega), h.slice_mac]
  have e3 : arrayRef "actions" packet (KX_PUBLIC_SIZE + MAC_SIZE) ACTIONS_SIZE = .ok actions := by
    rw [← h.slice_actions]; exact arrayRef_ok "actions" packet 48 140 (by omega)
  have e4 : arrayRef "payload" packet HEADER_SIZE PAYLOAD_SIZE = .ok payload := by
    rw [← h.slice_payload]; exact arrayRef_ok "payload" packet 188 2064 (by omega)
  constructor
  · intro hm
    have e5 : C.macOk mac actions (C.macKey sec) = false := by
      rw [Crypto.macOk]; exact beq_eq_false_iff_ne.2 hm
    unfold peel
    rw [e1, res_bind_ok, e2, res_bind_ok, e3, res_bind_ok, e4, res_bind_ok, e5]
    rfl
  · intro hm code hcode
    have start : peel C out packet sec = (do
      let out := splice out 30 D
      let rawAction := code
      if rawAction = RAW_ACTION_DELIVER_REQUEST then do
        let p := C.decryptPayload payload (C.payloadEncryptionKey sec)
        let out ← arraySet "out[..PAYLOAD_SIZE]" out 0 p
        let tag ← arrayRef "tag" p PAYLOAD_DATA_SIZE PAYLOAD_TAG_SIZE
        match checkPayloadTag tag with
        | .error e => .ok (out, .error e)
        | .ok () => .ok (out, .ok .deliverRequest)
      else if rawAction = RAW_ACTION_DELIVER_REPLY then do
        let surbId ← arrayRef "surb_id" D RAW_ACTION_SIZE SURB_ID_SIZE
        let out ← arraySet "out[..PAYLOAD_SIZE]" out 0 payload
        .ok (out, .ok (.deliverReply surbId))
      else if rawAction = RAW_ACTION_DELIVER_COVER then .ok (out, .ok (.deliverCover none))
      else if rawAction = RAW_ACTION_DELIVER_COVER_WITH_ID then do
        let coverId ← arrayRef "cover_id" D RAW_ACTION_SIZE COVER_ID_SIZE
        .ok (out, .ok (.deliverCover (some coverId)))
      else do
        let r ← (if rawAction = RAW_ACTION_FORWARD_TO_PEER_ID then do
            let peerId ← arrayRef "peer_id" D RAW_ACTION_SIZE PEER_ID_SIZE
            let src ← arrayRef "copy_within" D (RAW_ACTION_SIZE + PEER_ID_SIZE) (MAC_SIZE + ACTIONS_SIZE)
            let out ← arraySet "copy_within" out KX_PUBLIC_SIZE src
            .ok (out, some (Target.peerId peerId))
          else .ok (out, (mixnodeIndexTryFrom rawAction).map Target.mixnodeIndex) :
            Res (Bytes × Option Target))
        match r with
        | (out, none) => .ok (out, .error .action)
        | (out, some target) => do
          let delay := C.delayExp (C.delaySeed sec)
          let out ← arraySet "out[..KX_PUBLIC_SIZE]" out 0 (C.blindKxPublic kx sec)
          let out ← arraySet "out_payload" out HEADER_SIZE (C.decryptPayload payload (C.payloadEncryptionKey sec))
          .ok (out, .ok (.forwardTo target delay))) := by
      subst hcode
      have e5 : C.macOk mac actions (C.macKey sec) = true := by simp [Crypto.macOk, hm]
      have e6 : arraySet "decrypted_actions" out (KX_PUBLIC_SIZE - RAW_ACTION_SIZE) D = .ok (splice out 30 D) :=
        arraySet_ok "decrypted_actions" out 30 D (by omega)
      unfold peel
      rw [e1, res_bind_ok, e2, res_bind_ok, e3, res_bind_ok, e4, res_bind_ok, e5, hdec]
      simp only [Bool.not_true, Bool.false_eq_true, if_false]
      rw [e6, res_bind_ok]
      rfl
    rw [start]
    clear start
    obtain ⟨o1, o2, o3, eo, ho1, ho2, ho3⟩ := split3 out 30 190 (by omega)
    have hsp : splice out 30 D = o1 ++ D ++ o3 := by
      rw [eo, splice_mid _ _ _ _ _ ho1 (by omega)]
    have fin : ∀ (out : Bytes) (x : Bytes), out.length = 2252 → slice out 32 156 = x →
        arraySet "out[..KX_PUBLIC_SIZE]" out 0 (C.blindKxPublic kx sec) =
          .ok (splice out 0 (C.blindKxPublic kx sec)) ∧
        arraySet "out_payload" (splice out 0 (C.blindKxPublic kx sec)) HEADER_SIZE
          (C.decryptPayload payload (C.payloadEncryptionKey sec)) =
          .ok (C.blindKxPublic kx sec ++ x ++ C.decryptPayload payload (C.payloadEncryptionKey sec)) := by
      intro out x hl hx
      refine ⟨arraySet_ok _ _ _ _ (by omega), ?_⟩
      rw [arraySet_ok _ _ _ _ (by rw [splice_length _ _ _ (by omega)]; csimp; omega)]
      csimp
      obtain ⟨a, b, c, e, ha, hb, hc⟩ := split3 out 32 156 (by omega)
      have hbx : b = x := by rw [← hx, e, slice_mid _ _ _ _ _ ha hb]
      subst hbx
      have s1 : splice out 0 (C.blindKxPublic kx sec) = C.blindKxPublic kx sec ++ b ++ c := by
        have := splice_mid [] a (b ++ c) (C.blindKxPublic kx sec) 0 rfl (by omega)
        rw [e, List.append_assoc]; simpa using this
      rw [s1]
      have := splice_mid (C.blindKxPublic kx sec ++ b) c []
        (C.decryptPayload payload (C.payloadEncryptionKey sec)) 188 (by simp [hbl, hb]) (by omega)
      rw [List.append_nil, List.append_nil] at this
      rw [this]
    have pay : ∀ (out x : Bytes), out.length = 2252 → x.length = 2064 →
        (splice out 0 x).length = 2252 ∧ (splice out 0 x).take 2064 = x := by
      intro out x hl hx
      refine ⟨by rw [splice_length _ _ _ (by omega), hl], ?_⟩
      have := take_splice_end out 0 x (by omega)
      rw [hx] at this
      rw [show (2064 : Nat) = 0 + 2064 from rfl, this]; rfl
    refine ⟨?_, ?_, ?_, ?_, ?_, ?_, ?_⟩
    · rintro rfl
      refine ⟨splice (splice out 30 D) 0 (C.decryptPayload payload (C.payloadEncryptionKey sec)),
        (pay _ _ hout1 hpay).1, (pay _ _ hout1 hpay).2, ?_⟩
      simp only
      rw [if_pos trivial, arraySet_ok _ _ _ _ (by omega), res_bind_ok,
        arrayRef_ok _ _ _ _ (by csimp; omega), res_bind_ok]
      unfold checkPayloadTag
      csimp
      by_cases ht : slice (C.decryptPayload payload (C.payloadEncryptionKey sec)) 2048 16 = PAYLOAD_TAG
      · rw [if_pos ht, if_pos ht]
      · rw [if_neg ht, if_neg ht]
    · rintro rfl
      refine ⟨splice (splice out 30 D) 0 payload,
        (pay _ _ hout1 h.payload).1, (pay _ _ hout1 h.payload).2, ?_⟩
      simp only
      rw [if_neg (by decide), if_pos trivial, arrayRef_ok _ _ _ _ (by csimp; omega), res_bind_ok,
        arraySet_ok _ _ _ _ (by have := h.payload; omega), res_bind_ok]
    · rintro rfl
      refine ⟨_, hout1, ?_⟩
      simp only
      rw [if_neg (by decide), if_neg (by decide), if_pos trivial]
    · rintro rfl
      refine ⟨_, hout1, ?_⟩
      simp only
      rw [if_neg (by decide), if_neg (by decide), if_neg (by decide), if_pos trivial,
        arrayRef_ok _ _ _ _ (by csimp; omega), res_bind_ok]
    · rintro rfl
      obtain ⟨d1, d2, d3, ed, hd1, hd2, hd3⟩ := split3 D 34 156 (by omega)
      have hd3' : d3 = [] := List.eq_nil_of_length_eq_zero (by omega)
      subst hd3'
      have hsrc : slice D 34 156 = d2 := by rw [ed, slice_mid _ _ _ _ _ hd1 hd2]
      have hcw : (splice (splice out 30 D) 32 d2).length = 2252 := by
        rw [splice_length _ _ _ (by omega), hout1]
      have hcs : slice (splice (splice out 30 D) 32 d2) 32 156 = d2 := by
        obtain ⟨a, b, c, e, ha, hb, hc⟩ := split3 (splice out 30 D) 32 156 (by omega)
        rw [e, splice_mid _ _ _ _ _ ha (by omega), slice_mid _ _ _ _ _ ha hd2]
      obtain ⟨f1, f2⟩ := fin _ _ hcw hcs
      simp only
      rw [if_neg (by decide), if_neg (by decide), if_neg (by decide), if_neg (by decide), if_pos trivial,
        arrayRef_ok _ _ _ _ (by csimp; omega), res_bind_ok,
        arrayRef_ok _ _ _ _ (by csimp; omega), res_bind_ok]
      have hsrc' : slice D (RAW_ACTION_SIZE + PEER_ID_SIZE) (MAC_SIZE + ACTIONS_SIZE) = d2 := hsrc
      rw [hsrc', arraySet_ok _ _ _ _ (by csimp; omega), res_bind_ok, res_bind_ok]
      simp only
      csimp
      csimp at f2
      rw [f1, res_bind_ok, f2, res_bind_ok]
      simp only [nextPacket, hD, hsrc]
    · intro hle
      have hsl : slice (splice out 30 D) 32 156 = slice D 2 156 := by
        obtain ⟨d1, d2, d3, ed, hd1, hd2, hd3⟩ := split3 D 2 156 (by omega)
        rw [hsp, ed, slice_mid _ _ _ _ _ hd1 hd2]
        rw [show o1 ++ (d1 ++ d2 ++ d3) ++ o3 = (o1 ++ d1) ++ d2 ++ (d3 ++ o3) by simp,
          slice_mid _ _ _ _ _ (by simp; omega) hd2]
      obtain ⟨f1, f2⟩ := fin _ _ hout1 hsl
      simp only
      csimp
      csimp at f2
      rw [if_neg (by omega), if_neg (by omega), if_neg (by omega), if_neg (by omega), if_neg (by omega),
        res_bind_ok]
      simp only [mixnodeIndexTryFrom]
      csimp
      rw [if_pos hle]
      simp only [Option.map]
      rw [f1, res_bind_ok, f2, res_bind_ok]
      simp only [nextPacket, hD]
    · intro hgt
      refine ⟨_, hout1, ?_⟩
      simp only
      csimp
      rw [if_neg (by omega), if_neg (by omega), if_neg (by omega), if_neg (by omega), if_neg (by omega),
        res_bind_ok]
      simp only [mixnodeIndexTryFrom]
      csimp
      rw [if_neg (by omega)]
      rfl

end Mixnet
