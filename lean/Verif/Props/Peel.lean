import Verif.Proofs.SphinxPeel
import Verif.Model.ToyCrypto
/-!
# C11 (second part), C12, C13: `peel` on arbitrary packets
-/
namespace Mixnet.Props
open Mixnet

/-- The fields of a packet: `/repo/src/core/sphinx/packet.rs:17-97`. -/
def macOf (packet : Bytes) : Bytes := (packet.drop 32).take 16
def actionsOf (packet : Bytes) : Bytes := (packet.drop 48).take 140
def payloadOf (packet : Bytes) : Bytes := (packet.drop 188).take 2064

/-- The decrypted routing actions: XOR with the ChaCha20 keystream. -/
def plainActions (C : Crypto) (packet : Bytes) (sec : SharedSecret) : Bytes :=
  (List.range 140).map (fun i => (actionsOf packet).getD i 0 ^^^ C.chacha (C.actionsEncryptionKey sec) i)

/-- The action code: the first two plain bytes, little endian. -/
def codeOf (C : Crypto) (packet : Bytes) (sec : SharedSecret) : Nat :=
  ((plainActions C packet sec).getD 0 0).toNat + 256 * ((plainActions C packet sec).getD 1 0).toNat

theorem applyKeystream_getD (d k : Bytes) (i : Nat) (h : i < d.length) (hk : d.length ≤ k.length) :
    (applyKeystream d k).getD i 0 = d.getD i 0 ^^^ k.getD i 0 := by
  induction d generalizing k i with
  | nil => simp at h
  | cons x d ih => cases k with
    | nil => simp at hk
    | cons y k => cases i with
      | zero => simp [applyKeystream]
      | succ i =>
        simp only [List.length_cons] at h hk
        simpa [applyKeystream] using ih k i (by omega) (by omega)

theorem decActions_getD (C : Crypto) (actions : Bytes) (sec : SharedSecret) (i : Nat) (hi : i < 140)
    (hl : actions.length = 140) :
    (decActions C actions sec).getD i 0 = actions.getD i 0 ^^^ C.chacha (C.actionsEncryptionKey sec) i := by
  rw [decActions, applyKeystream_getD _ _ _ (by rw [List.length_append]; omega)
    (by rw [List.length_append, List.length_replicate, hopKs_length]; omega)]
  congr 1
  · rw [List.getD_eq_getElem?_getD, List.getD_eq_getElem?_getD, List.getElem?_append_left (by omega)]
  · rw [hopKs, Crypto.keystream, List.getD_eq_getElem?_getD, List.getElem?_map,
      List.getElem?_range (by omega)]
    rfl

theorem decActions_take (C : Crypto) (packet : Bytes) (sec : SharedSecret) (h : (actionsOf packet).length = 140) :
    (decActions C (actionsOf packet) sec).take 140 = plainActions C packet sec := by
  apply List.ext_getElem?
  intro i
  by_cases hi : i < 140
  · have h1 := decActions_getD C _ sec i hi h
    rw [List.getElem?_take_of_lt hi, plainActions, List.getElem?_map, List.getElem?_range hi]
    have hl : i < (decActions C (actionsOf packet) sec).length := by rw [decActions_length, h]; omega
    rw [List.getElem?_eq_getElem hl]
    rw [List.getD_eq_getElem?_getD, List.getElem?_eq_getElem hl] at h1
    exact congrArg some h1
  · rw [List.getElem?_eq_none (by rw [List.length_take]; omega),
      List.getElem?_eq_none (by simp [plainActions]; omega)]

theorem slice_of_take {α} (l : List α) (i n k : Nat) (h : i + n ≤ k) : slice l i n = slice (l.take k) i n := by
  simp only [slice, List.drop_take, List.take_take]
  rw [Nat.min_eq_left (by omega)]

/-- **C12.** Peeling never panics, whatever the packet, the shared secret and the output buffer; the result
is a MAC error exactly when the MAC does not match, and otherwise is determined by the action code. -/
theorem peel_total {C : Crypto} (hC : CryptoLaws C) (old packet : Bytes) (sec : SharedSecret)
    (hold : old.length = PACKET_SIZE) (hp : packet.length = PACKET_SIZE) :
    ∃ out r, peel C old packet sec = .ok (out, r) ∧ out.length = PACKET_SIZE ∧
      (r = .error .mac ↔ C.blakeMac (C.macKey sec) (actionsOf packet) ≠ macOf packet) ∧
      (r ≠ .error .mac →
        let code := codeOf C packet sec
        let plain := plainActions C packet sec
        let payload := C.lionessDecrypt (C.payloadEncryptionKey sec) (payloadOf packet)
        (code ≤ 0xfeff → r = .ok (.forwardTo (.mixnodeIndex code) (C.delayExp (C.delaySeed sec)))) ∧
        (code = 0xff00 →
          r = .ok (.forwardTo (.peerId ((plain.drop 2).take 32)) (C.delayExp (C.delaySeed sec)))) ∧
        (code = 0xff01 → out.take 2064 = payload ∧
          r = if payload.drop 2048 = List.replicate 16 0 then .ok .deliverRequest else .error .payloadTag) ∧
        (code = 0xff02 → out.take 2064 = payloadOf packet ∧
          r = .ok (.deliverReply ((plain.drop 2).take 16))) ∧
        (code = 0xff03 → r = .ok (.deliverCover none)) ∧
        (code = 0xff04 → r = .ok (.deliverCover (some ((plain.drop 2).take 16)))) ∧
        (0xff04 < code → r = .error .action)) := by
  obtain ⟨kx, mac, actions, payload, parts⟩ := parts_exist packet hp
  have e1 : macOf packet = mac := parts.slice_mac
  have e2 : actionsOf packet = actions := parts.slice_actions
  have e3 : payloadOf packet = payload := parts.slice_payload
  have hal : (actionsOf packet).length = 140 := by rw [e2]; exact parts.actions
  have hD := decActions_take C packet sec hal
  rw [e2] at hD
  have hcode : codeOf C packet sec = fromLe16 (slice (decActions C actions sec) 0 2) := by
    rw [slice_of_take _ 0 2 140 (by omega), hD]
    simp [codeOf, fromLe16, slice, plainActions]
  have h16 : slice (decActions C actions sec) 2 16 = ((plainActions C packet sec).drop 2).take 16 := by
    rw [slice_of_take _ 2 16 140 (by omega), hD]; rfl
  have h32 : slice (decActions C actions sec) 2 32 = ((plainActions C packet sec).drop 2).take 32 := by
    rw [slice_of_take _ 2 32 140 (by omega), hD]; rfl
  have hpl : (C.lionessDecrypt (C.payloadEncryptionKey sec) payload).length = 2064 :=
    hC.decrypt_length _ _ parts.payload
  have hnl : ∀ n, n + 156 ≤ 190 → (nextPacket C kx actions payload sec n).length = PACKET_SIZE := by
    intro n hn
    rw [nextPacket, List.length_append, List.length_append,
      show (C.blindKxPublic kx sec).length = 32 from hC.mulClamped_length _ _,
      slice_length _ _ _ (by rw [decActions_length, parts.actions]; omega), Crypto.decryptPayload, hpl]; rfl
  obtain ⟨hbad, hgood⟩ := peel_eq hC sec parts hold
  by_cases hm : C.blakeMac (C.macKey sec) actions = mac
  · obtain ⟨hreq, hrep, hcov, hcovid, hpeer, hmix, herr⟩ := hgood hm _ hcode
    have htg : slice (C.decryptPayload payload (C.payloadEncryptionKey sec)) 2048 16 =
        (C.lionessDecrypt (C.payloadEncryptionKey sec) payload).drop 2048 := by
      rw [slice, List.take_of_length_le (by rw [List.length_drop, Crypto.decryptPayload, hpl]; decide)]; rfl
    rw [htg] at hreq
    rw [h16] at hrep hcovid
    rw [h32] at hpeer
    rw [e1, e2, e3]
    rcases Nat.lt_or_ge 0xff04 (codeOf C packet sec) with hc | hc
    · obtain ⟨o, ho, h⟩ := herr hc
      refine ⟨o, _, h, ho, by simp [hm], ?_⟩
      intro _; refine ⟨?_, ?_, ?_, ?_, ?_, ?_, ?_⟩ <;> intro hc' <;> first | rfl | omega
    rcases Nat.lt_or_ge 0xfeff (codeOf C packet sec) with hc1 | hc1
    · have : codeOf C packet sec = 0xff00 ∨ codeOf C packet sec = 0xff01 ∨ codeOf C packet sec = 0xff02 ∨
        codeOf C packet sec = 0xff03 ∨ codeOf C packet sec = 0xff04 := by omega
      rcases this with h0 | h0 | h0 | h0 | h0
      · refine ⟨_, _, hpeer h0, hnl _ (by omega), by simp [hm], ?_⟩
        intro _; refine ⟨?_, ?_, ?_, ?_, ?_, ?_, ?_⟩ <;> intro hc' <;> first | rfl | omega
      · obtain ⟨o, ho, ho2, h⟩ := hreq h0
        refine ⟨o, _, h, ho, ?_, ?_⟩
        · simp only [hm, ne_eq, not_true_eq_false, iff_false]
          split <;> simp
        intro _; refine ⟨?_, ?_, ?_, ?_, ?_, ?_, ?_⟩ <;> intro hc' <;> first | omega | skip
        exact ⟨ho2, rfl⟩
      · obtain ⟨o, ho, ho2, h⟩ := hrep h0
        refine ⟨o, _, h, ho, by simp [hm], ?_⟩
        intro _; refine ⟨?_, ?_, ?_, ?_, ?_, ?_, ?_⟩ <;> intro hc' <;> first | omega | skip
        exact ⟨ho2, rfl⟩
      · obtain ⟨o, ho, h⟩ := hcov h0
        refine ⟨o, _, h, ho, by simp [hm], ?_⟩
        intro _; refine ⟨?_, ?_, ?_, ?_, ?_, ?_, ?_⟩ <;> intro hc' <;> first | rfl | omega
      · obtain ⟨o, ho, h⟩ := hcovid h0
        refine ⟨o, _, h, ho, by simp [hm], ?_⟩
        intro _; refine ⟨?_, ?_, ?_, ?_, ?_, ?_, ?_⟩ <;> intro hc' <;> first | rfl | omega
    · refine ⟨_, _, hmix hc1, hnl _ (by omega), by simp [hm], ?_⟩
      intro _; refine ⟨?_, ?_, ?_, ?_, ?_, ?_, ?_⟩ <;> intro hc' <;> first | rfl | omega
  · refine ⟨old, _, hbad hm, hold, ?_, ?_⟩
    · rw [e1, e2]; simp [hm]
    · intro h; exact absurd rfl h

/-- **C12.** A mixnode index produced by peeling is always in range. -/
theorem peel_index_in_range {C : Crypto} (hC : CryptoLaws C) (old packet out : Bytes) (sec : SharedSecret)
    (hold : old.length = PACKET_SIZE) (hp : packet.length = PACKET_SIZE) (i : Nat) (d : C.Delay)
    (h : peel C old packet sec = .ok (out, .ok (.forwardTo (.mixnodeIndex i) d))) : i ≤ 0xfeff := by
  obtain ⟨out', r, h1, -, -, h2⟩ := peel_total hC old packet sec hold hp
  rw [h1] at h
  injection h with h
  injection h with _ hr
  subst hr
  obtain ⟨hmix, hpeer, hreq, hrep, hcov, hcovid, herr⟩ := h2 (by simp)
  by_cases hc : codeOf C packet sec ≤ 0xfeff
  · have := hmix hc
    simp only [Except.ok.injEq, Action.forwardTo.injEq, Target.mixnodeIndex.injEq] at this
    omega
  · by_cases hc' : 0xff04 < codeOf C packet sec
    · have := herr hc'; simp at this
    · have : codeOf C packet sec = 0xff00 ∨ codeOf C packet sec = 0xff01 ∨ codeOf C packet sec = 0xff02 ∨
        codeOf C packet sec = 0xff03 ∨ codeOf C packet sec = 0xff04 := by omega
      rcases this with h0 | h0 | h0 | h0 | h0
      · have := hpeer h0; simp at this
      · have := (hreq h0).2; split at this <;> simp at this
      · have := (hrep h0).2; simp at this
      · have := hcov h0; simp at this
      · have := hcovid h0; simp at this

/-- **C11.** The delay a hop is told to apply is a function of its shared secret only. -/
theorem delay_depends_on_secret_only {C : Crypto} (hC : CryptoLaws C) (sec : SharedSecret) :
    ∃ delay, ∀ (old packet out : Bytes) (t : Target) (d : C.Delay), old.length = PACKET_SIZE →
      packet.length = PACKET_SIZE → peel C old packet sec = .ok (out, .ok (.forwardTo t d)) → d = delay := by
  refine ⟨C.delayExp (C.delaySeed sec), ?_⟩
  intro old packet out t d hold hp h
  obtain ⟨out', r, h1, -, -, h2⟩ := peel_total hC old packet sec hold hp
  rw [h1] at h
  injection h with h
  injection h with _ hr
  subst hr
  obtain ⟨hmix, hpeer, hreq, hrep, hcov, hcovid, herr⟩ := h2 (by simp)
  by_cases hc : codeOf C packet sec ≤ 0xfeff
  · have := hmix hc
    simp only [Except.ok.injEq, Action.forwardTo.injEq] at this
    exact this.2
  · by_cases hc' : 0xff04 < codeOf C packet sec
    · have := herr hc'; simp at this
    · have : codeOf C packet sec = 0xff00 ∨ codeOf C packet sec = 0xff01 ∨ codeOf C packet sec = 0xff02 ∨
        codeOf C packet sec = 0xff03 ∨ codeOf C packet sec = 0xff04 := by omega
      rcases this with h0 | h0 | h0 | h0 | h0
      · have := hpeer h0
        simp only [Except.ok.injEq, Action.forwardTo.injEq] at this
        exact this.2
      · have := (hreq h0).2; split at this <;> simp at this
      · have := (hrep h0).2; simp at this
      · have := hcov h0; simp at this
      · have := hcovid h0; simp at this

/-- **C13.** Tampering with the header of an accepted packet. `packet` is accepted with `sec`, i.e. its MAC
matches; `packet'` is any other packet.
* If the routing bytes differ and the MAC is kept, acceptance exhibits two routing fields with the same MAC
  under the same key.
* If the MAC differs and the routing bytes are kept, the packet is rejected with a MAC error.
* In any case acceptance means the MAC function maps the altered routing bytes to the MAC carried. -/
theorem tampered_header_rejected {C : Crypto} (hC : CryptoLaws C) (old packet packet' out : Bytes)
    (sec : SharedSecret) (hold : old.length = PACKET_SIZE) (hp : packet.length = PACKET_SIZE)
    (hp' : packet'.length = PACKET_SIZE) (r : Except PeelErr (Action C))
    (hacc : peel C old packet sec = .ok (out, r)) (hr : r ≠ .error .mac) :
    ∃ out' r', peel C old packet' sec = .ok (out', r') ∧
      (r' ≠ .error .mac → C.blakeMac (C.macKey sec) (actionsOf packet') = macOf packet') ∧
      (actionsOf packet' ≠ actionsOf packet → macOf packet' = macOf packet → r' ≠ .error .mac →
        ∃ a a', a ≠ a' ∧ C.blakeMac (C.macKey sec) a = C.blakeMac (C.macKey sec) a') ∧
      (actionsOf packet' = actionsOf packet → macOf packet' ≠ macOf packet → r' = .error .mac) := by
  obtain ⟨o1, r1, h1, -, h1m, -⟩ := peel_total hC old packet sec hold hp
  rw [h1] at hacc
  injection hacc with hacc
  injection hacc with _ hr1
  subst hr1
  have hok : C.blakeMac (C.macKey sec) (actionsOf packet) = macOf packet := by
    by_cases h : C.blakeMac (C.macKey sec) (actionsOf packet) = macOf packet
    · exact h
    · exact absurd (h1m.2 h) hr
  obtain ⟨o2, r2, h2, -, h2m, -⟩ := peel_total hC old packet' sec hold hp'
  have key : r2 ≠ .error .mac → C.blakeMac (C.macKey sec) (actionsOf packet') = macOf packet' := by
    intro h
    by_cases h' : C.blakeMac (C.macKey sec) (actionsOf packet') = macOf packet'
    · exact h'
    · exact absurd (h2m.2 h') h
  refine ⟨o2, r2, h2, key, ?_, ?_⟩
  · intro ha hm hr2
    exact ⟨_, _, ha, by rw [key hr2, hm, hok]⟩
  · intro ha hm
    exact h2m.2 (by rw [ha, hok]; exact fun h => hm h.symm)

/-- Altering the encrypted payload of a request always alters the delivered payload: two packets that the
same hop delivers (same shared secret) with the same result have the same encrypted payload. -/
theorem tampered_payload_detected {C : Crypto} (hC : CryptoLaws C) (old packet packet' out out' : Bytes)
    (sec : SharedSecret) (hold : old.length = PACKET_SIZE) (hp : packet.length = PACKET_SIZE)
    (hp' : packet'.length = PACKET_SIZE)
    (h : peel C old packet sec = .ok (out, .ok .deliverRequest))
    (h' : peel C old packet' sec = .ok (out', .ok .deliverRequest))
    (hdata : out.take PAYLOAD_DATA_SIZE = out'.take PAYLOAD_DATA_SIZE) : payloadOf packet = payloadOf packet' := by
  have key : ∀ (packet out : Bytes), packet.length = PACKET_SIZE →
      peel C old packet sec = .ok (out, .ok .deliverRequest) →
      C.lionessDecrypt (C.payloadEncryptionKey sec) (payloadOf packet) =
        out.take 2048 ++ List.replicate 16 0 ∧ (payloadOf packet).length = 2064 := by
    intro packet out hp h
    have hpl : (payloadOf packet).length = 2064 := by
      obtain ⟨kx, mac, actions, payload, parts⟩ := parts_exist packet hp
      rw [show payloadOf packet = payload from parts.slice_payload]; exact parts.payload
    obtain ⟨o, r, h1, -, -, h2⟩ := peel_total hC old packet sec hold hp
    rw [h1] at h
    injection h with h
    injection h with ho hr
    subst hr ho
    obtain ⟨hmix, hpeer, hreq, hrep, hcov, hcovid, herr⟩ := h2 (by simp)
    have hc : codeOf C packet sec = 0xff01 := by
      by_cases hc : codeOf C packet sec ≤ 0xfeff
      · have := hmix hc; simp at this
      · by_cases hc' : 0xff04 < codeOf C packet sec
        · have := herr hc'; simp at this
        · have : codeOf C packet sec = 0xff00 ∨ codeOf C packet sec = 0xff01 ∨ codeOf C packet sec = 0xff02 ∨
            codeOf C packet sec = 0xff03 ∨ codeOf C packet sec = 0xff04 := by omega
          rcases this with h0 | h0 | h0 | h0 | h0
          · have := hpeer h0; simp at this
          · exact h0
          · have := (hrep h0).2; simp at this
          · have := hcov h0; simp at this
          · have := hcovid h0; simp at this
    obtain ⟨e1, e2⟩ := hreq hc
    split at e2
    · rename_i ht
      refine ⟨?_, hpl⟩
      rw [← ht, ← e1, show o.take 2048 = (o.take 2064).take 2048 by rw [List.take_take]; rfl,
        List.take_append_drop]
    · simp at e2
  obtain ⟨k1, l1⟩ := key packet out hp h
  obtain ⟨k2, l2⟩ := key packet' out' hp' h'
  have : C.lionessDecrypt (C.payloadEncryptionKey sec) (payloadOf packet) =
      C.lionessDecrypt (C.payloadEncryptionKey sec) (payloadOf packet') := by
    rw [k1, k2, show out.take 2048 = out'.take 2048 from hdata]
  have := congrArg (C.lionessEncrypt (C.payloadEncryptionKey sec)) this
  rwa [hC.encrypt_decrypt _ _ l1, hC.encrypt_decrypt _ _ l2] at this

/-- All layers of a reply payload taken off at once (the specification of what the kept keys are for). -/
def openReply (C : Crypto) (keys : List Bytes) (payload : Bytes) : Bytes :=
  keys.reverse.foldl (fun p key => C.lionessEncrypt key p) payload

theorem openReply_length {C : Crypto} (hC : CryptoLaws C) (keys : List Bytes) : ∀ payload : Bytes,
    payload.length = 2064 → (openReply C keys payload).length = 2064 := by
  unfold openReply
  induction keys.reverse with
  | nil => exact fun _ h => h
  | cons k ks ih => exact fun p h => ih _ (hC.encrypt_length _ _ h)

theorem openReply_inj {C : Crypto} (hC : CryptoLaws C) (keys : List Bytes) : ∀ p p' : Bytes,
    p.length = 2064 → p'.length = 2064 → openReply C keys p = openReply C keys p' → p = p' := by
  unfold openReply
  induction keys.reverse with
  | nil => exact fun _ _ _ _ h => h
  | cons k ks ih =>
    intro p p' h h' e
    have := ih _ _ (hC.encrypt_length _ _ h) (hC.encrypt_length _ _ h') e
    rw [← hC.decrypt_encrypt k p h, this, hC.decrypt_encrypt k p' h']

/-- C13 (replies). Opening a reply payload with any kept keys never panics; the result is accepted exactly if
its last 16 bytes are zero. -/
theorem reply_payload_checked {C : Crypto} (hC : CryptoLaws C) (payload : Bytes) (keys : List Bytes)
    (h : payload.length = 2064) :
    decryptReplyPayload C payload keys = .ok (openReply C keys payload,
      if (openReply C keys payload).drop 2048 = List.replicate 16 0 then .ok () else .error .payloadTag) := by
  have hl := openReply_length hC keys payload h
  have e : keys.foldr (fun key p => C.encryptPayload p key) payload = openReply C keys payload := by
    rw [openReply, List.foldl_reverse]; rfl
  unfold decryptReplyPayload arrayRef
  rw [e]
  dsimp only
  rw [if_pos (by rw [hl]; decide), res_bind_ok]
  have : ((openReply C keys payload).drop 2048).take 16 = (openReply C keys payload).drop 2048 :=
    List.take_of_length_le (by rw [List.length_drop, hl]; decide)
  show Except.ok _ = Except.ok _
  rw [show slice (openReply C keys payload) PAYLOAD_DATA_SIZE PAYLOAD_TAG_SIZE =
    (openReply C keys payload).drop 2048 from this]
  rfl

/-- C13 (replies). Altering the payload of a reply on its way always alters what is read: two payloads that are
accepted with the same data are the same. -/
theorem tampered_reply_detected {C : Crypto} (hC : CryptoLaws C) (p p' q q' : Bytes) (keys : List Bytes)
    (h : p.length = 2064) (h' : p'.length = 2064) (hd : decryptReplyPayload C p keys = .ok (q, .ok ()))
    (hd' : decryptReplyPayload C p' keys = .ok (q', .ok ())) (he : q.take 2048 = q'.take 2048) : p = p' := by
  rw [reply_payload_checked hC p keys h] at hd
  rw [reply_payload_checked hC p' keys h'] at hd'
  injection hd with hd
  injection hd' with hd'
  injection hd with h1 h2
  injection hd' with h1' h2'
  split at h2
  · split at h2'
    · rename_i z z'
      apply openReply_inj hC keys p p' h h'
      rw [← List.take_append_drop 2048 (openReply C keys p), ← List.take_append_drop 2048 (openReply C keys p'),
        z, z', h1, h1', he]
    · cases h2'
  · cases h2

/-- Concrete case: a payload that is accepted with two keys. -/
example : ∃ p : Bytes, p.length = 2064 ∧
    ∃ q, decryptReplyPayload toyCrypto p [[1], [2]] = .ok (q, .ok ()) :=
  by
  obtain ⟨z, hz⟩ : ∃ z : Bytes, z = List.replicate 2064 0 := ⟨_, rfl⟩
  have hl : z.length = 2064 := by rw [hz, List.length_replicate]
  have hl1 := toyLaws.decrypt_length [1] z hl
  have hl2 := toyLaws.decrypt_length [2] _ hl1
  have e : openReply toyCrypto [[1], [2]] (toyCrypto.lionessDecrypt [2] (toyCrypto.lionessDecrypt [1] z)) = z := by
    show toyCrypto.lionessEncrypt [1] (toyCrypto.lionessEncrypt [2] _) = _
    rw [toyLaws.encrypt_decrypt _ _ hl1, toyLaws.encrypt_decrypt _ _ hl]
  refine ⟨_, hl2, z, ?_⟩
  rw [reply_payload_checked toyLaws _ _ hl2, e]
  rw [if_pos (by rw [hz, List.drop_replicate])]

/-- Concrete case: `peel_total` for a packet of all zeroes under the toy primitives. -/
example := peel_total toyLaws (List.replicate PACKET_SIZE 0) (List.replicate PACKET_SIZE 0) (List.replicate 32 1)
  List.length_replicate List.length_replicate

/-- Concrete case for the hypotheses of `tampered_header_rejected`: the all-zero packet is accepted with the
all-zero secret under the toy primitives, and is to be forwarded to mixnode 256. -/
example : ∃ out d, peel toyCrypto (List.replicate PACKET_SIZE 0) (List.replicate PACKET_SIZE 0) (List.replicate 32 0)
    = .ok (out, .ok (.forwardTo (.mixnodeIndex 256) d)) := by
  obtain ⟨out, r, h, -, hm, hr⟩ := peel_total toyLaws (List.replicate PACKET_SIZE 0) (List.replicate PACKET_SIZE 0)
    (List.replicate 32 0) List.length_replicate List.length_replicate
  have hok : toyCrypto.blakeMac (toyCrypto.macKey (List.replicate 32 0)) (actionsOf (List.replicate PACKET_SIZE 0)) =
      macOf (List.replicate PACKET_SIZE 0) := by decide +kernel
  have hne : r ≠ .error .mac := fun h => absurd hok (hm.1 h)
  have hcode : codeOf toyCrypto (List.replicate PACKET_SIZE 0) (List.replicate 32 0) = 256 := by decide +kernel
  have := (hr hne).1 (by rw [hcode]; decide)
  rw [hcode] at this
  exact ⟨out, _, by rw [h, this]⟩

end Mixnet.Props
