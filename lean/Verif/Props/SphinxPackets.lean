import Verif.Proofs.SphinxPayload
import Verif.Model.ToyCrypto
/-!
# C08, C09, C10 (packet part), C11: packets travel the path they were built for
-/
namespace Mixnet.Props
open Mixnet Spec

/-- **C08, C11.** A request packet built for a valid path, with any random choices, is accepted and
forwarded hop by hop along exactly that path, and the last hop is told to deliver a request and finds
exactly the payload data that was in the packet before. The total delay reported to the builder is the
sum of the delays the hops are told to apply. -/
theorem request_packet_travels {C : Crypto} (hC : CryptoLaws C) (rng : Rng) (packet : Bytes)
    (hpacket : packet.length = PACKET_SIZE) (keys : List KxSecret) (targets : List Target)
    (hpath : ValidPath keys targets) :
    ∃ packet' delay rng' delays,
      completeRequestPacket C packet rng targets (keys.map C.deriveKxPublic) = .ok (packet', delay, rng') ∧
      packet'.length = PACKET_SIZE ∧
      delay = totalDelay delays ∧
      Travels C packet' keys targets delays (fun out action =>
        action = .deliverRequest ∧ out.take PAYLOAD_DATA_SIZE = payloadData packet) := by
  have hh : (packet.take HEADER_SIZE).length = 188 := by
    csimp at hpacket ⊢; rw [List.length_take]; omega
  obtain ⟨lastSec, filler, rng', hlast, hfill, hb⟩ :=
    buildHeader_spec hC (packet.take HEADER_SIZE) hh rng keys targets hpath .request trivial
  obtain ⟨htag, hdl⟩ := tagged_payload packet hpacket
  generalize C.scalarOfClamped (Crypto.genKxSecret rng).1 = x at *
  have hsecs : (hopSecrets C x keys).length = keys.length := hopSecrets_length _ _ _
  have hsize := header_size hpath (hopSecrets C x keys) hsecs .request trivial
  have hfl : (payloadData packet ++ PAYLOAD_TAG).length = 2064 := by
    rw [List.length_append, hdl, show PAYLOAD_TAG.length = 16 from List.length_replicate]
  obtain ⟨hdec, hplen⟩ := decrypt_layers hC (hopSecrets C x keys) (payloadData packet ++ PAYLOAD_TAG) hfl
  generalize hP : (hopSecrets C x keys).foldr (fun sec p => C.encryptPayload p (C.payloadEncryptionKey sec))
    (payloadData packet ++ PAYLOAD_TAG) = P at *
  have hplen' : P.length = 2064 := hplen
  refine ⟨C.mulBase x ++ ((hdr C (encKind .request ++ filler) lastSec [] (targets.zip (hopSecrets C x keys))).1 ++
    (hdr C (encKind .request ++ filler) lastSec [] (targets.zip (hopSecrets C x keys))).2) ++ P,
    totalDelay (hopDelays C (targets.zip (hopSecrets C x keys))), rng', _, ?_, ?_, rfl, ?_⟩
  · unfold completeRequestPacket
    rw [assertP_ok _ (by rw [List.length_map]; exact hpath.length.symm), res_bind_ok,
      assertP_ok _ (by rw [List.length_map]; exact hpath.hops), res_bind_ok]
    simp only
    rw [hb, res_bind_ok]
    simp only
    rw [htag, res_bind_ok, hP]
  · rw [List.length_append, List.length_append, List.length_append, hC.mulBase_length, hdr_mac_length hC,
      hdr_length hC, List.length_append, hfill, hplen']
    csimp; omega
  · have := travel hC .request trivial filler lastSec keys targets x [] P hpath.length (validPath_sized hpath)
      hlast hplen' (by rw [List.length_append, hfill]; simp only [List.length_nil]; omega) (by
        intro _; rw [hdec]
        have := slice_mid (payloadData packet) PAYLOAD_TAG [] 2048 16 hdl List.length_replicate
        rw [List.append_nil] at this; exact this)
    have hfin : Final C .request lastSec (peelPayload C (hopSecrets C x keys).dropLast P) =
        (fun out action => action = .deliverRequest ∧ out.take 2064 = payloadData packet ++ PAYLOAD_TAG) := by
      funext out a
      simp only [Final]
      have := dropLast_foldl (fun p s => C.decryptPayload p (C.payloadEncryptionKey s)) _ _ hlast P
      rw [peelPayload, this, show List.foldl _ P (hopSecrets C x keys) = peelPayload C _ P from rfl, hdec]
    rw [hfin] at this
    simp only [List.append_nil] at this
    rw [← List.append_assoc]
    exact travels_mono (fun o a h => ⟨h.1, take_data _ _ _ hdl h.2⟩) this

/-- **C09, C11.** A SURB built for a valid path, with any random choices, completes any reply packet: the
first hop named by the SURB is the given one; the packet is forwarded hop by hop along exactly the path;
the last hop is told to deliver a reply with the SURB's id, and decrypting the payload it finds with the
keys kept by the builder gives exactly the payload data of the reply. The total delay reported to the
builder is the sum of the delays the hops are told to apply. -/
theorem reply_packet_travels {C : Crypto} (hC : CryptoLaws C) (rng : Rng) (oldSurb : Bytes)
    (hsurb : oldSurb.length = SURB_SIZE) (first : Nat) (hfirst : first ≤ MAX_MIXNODE_INDEX) (id : Bytes)
    (hid : id.length = SURB_ID_SIZE) (keys : List KxSecret) (targets : List Target)
    (hpath : ValidPath keys targets) :
    ∃ surb payloadKeys delay rng' delays,
      buildSurb C oldSurb rng first targets (keys.map C.deriveKxPublic) id =
        .ok (surb, payloadKeys, delay, rng') ∧
      surb.length = SURB_SIZE ∧
      payloadKeys.length = keys.length ∧
      delay = totalDelay delays ∧
      ∀ packet : Bytes, packet.length = PACKET_SIZE →
        ∃ packet', completeReplyPacket C packet surb = .ok (packet', some first) ∧
          packet'.length = PACKET_SIZE ∧
          Travels C packet' keys targets delays (fun out action =>
            action = .deliverReply id ∧
            ∃ payload, decryptReplyPayload C (out.take PAYLOAD_SIZE) payloadKeys = .ok (payload, .ok ()) ∧
              payload.take PAYLOAD_DATA_SIZE = payloadData packet) := by
  have hsl : oldSurb.length = 222 := hsurb
  have hh : (slice oldSurb RAW_MIXNODE_INDEX_SIZE HEADER_SIZE).length = 188 := slice_length _ _ _ (by csimp; omega)
  obtain ⟨lastSec, filler, rng', hlast, hfill, hb⟩ :=
    buildHeader_spec hC (slice oldSurb RAW_MIXNODE_INDEX_SIZE HEADER_SIZE) hh rng keys targets hpath (.reply id) hid
  generalize C.scalarOfClamped (Crypto.genKxSecret rng).1 = x at *
  have hsecs : (hopSecrets C x keys).length = keys.length := hopSecrets_length _ _ _
  have hsize := header_size hpath (hopSecrets C x keys) hsecs (.reply id) hid
  obtain ⟨hd, hhd⟩ : ∃ hd, hd = hdr C (encKind (.reply id) ++ filler) lastSec []
    (targets.zip (hopSecrets C x keys)) := ⟨_, rfl⟩
  have hd1 : hd.1.length = 16 := by rw [hhd]; exact hdr_mac_length hC _ _ _ _
  have hd2 : hd.2.length = 140 := by
    rw [hhd, hdr_length hC, List.length_append, hfill]; omega
  have hl : (C.mulBase x ++ (hd.1 ++ hd.2)).length = 188 := by
    rw [List.length_append, List.length_append, hC.mulBase_length, hd1, hd2]
  have hss : (rng'.fillBytes SHARED_SECRET_SIZE).1.length = 32 := fillBytes_length _ _
  generalize hS : (rng'.fillBytes SHARED_SECRET_SIZE).1 = S at *
  rw [← hhd] at hb
  refine ⟨toLe16 first ++ (C.mulBase x ++ (hd.1 ++ hd.2)) ++ S,
    C.payloadEncryptionKey S :: (hopSecrets C x keys).dropLast.map C.payloadEncryptionKey,
    totalDelay (hopDelays C (targets.zip (hopSecrets C x keys))), (rng'.fillBytes SHARED_SECRET_SIZE).2,
    hopDelays C (targets.zip (hopSecrets C x keys)), ?_, ?_, ?_, rfl, ?_⟩
  · unfold buildSurb
    rw [assertP_ok _ (by rw [List.length_map]; exact hpath.length.symm), res_bind_ok,
      assertP_ok _ (by rw [List.length_map]; exact hpath.hops), res_bind_ok]
    simp only
    rw [hb, res_bind_ok]
    simp only [hS]
  · rw [List.length_append, List.length_append, toLe16_length, hl, hss]; rfl
  · rw [List.length_cons, List.length_map, List.length_dropLast, hsecs]
    have := hpath.length; omega
  · intro packet hpacket
    obtain ⟨htag, hdl⟩ := tagged_payload packet hpacket
    have hfl : (payloadData packet ++ PAYLOAD_TAG).length = 2064 := by
      rw [List.length_append, hdl, show PAYLOAD_TAG.length = 16 from List.length_replicate]
    obtain ⟨P, hP⟩ : ∃ P, P = C.decryptPayload (payloadData packet ++ PAYLOAD_TAG) (C.payloadEncryptionKey S) :=
      ⟨_, rfl⟩
    have hPl : P.length = 2064 := by rw [hP]; exact hC.decrypt_length _ _ hfl
    refine ⟨C.mulBase x ++ (hd.1 ++ hd.2) ++ P, ?_, ?_, ?_⟩
    · unfold completeReplyPacket
      simp only
      rw [htag, res_bind_ok]
      have e1 : slice (toLe16 first ++ (C.mulBase x ++ (hd.1 ++ hd.2)) ++ S) 0 RAW_MIXNODE_INDEX_SIZE = toLe16 first := by
        rw [List.append_assoc]; exact slice_le16 _ _
      have e2 : slice (toLe16 first ++ (C.mulBase x ++ (hd.1 ++ hd.2)) ++ S) RAW_MIXNODE_INDEX_SIZE HEADER_SIZE =
          C.mulBase x ++ (hd.1 ++ hd.2) := slice_mid _ _ _ _ _ rfl hl
      have e3 : slice (toLe16 first ++ (C.mulBase x ++ (hd.1 ++ hd.2)) ++ S)
          (RAW_MIXNODE_INDEX_SIZE + HEADER_SIZE) SHARED_SECRET_SIZE = S := by
        have := slice_mid (toLe16 first ++ (C.mulBase x ++ (hd.1 ++ hd.2))) S [] 190 32
          (by rw [List.length_append, hl]; rfl) hss
        rw [List.append_nil] at this; exact this
      have hf : first ≤ 65279 := hfirst
      rw [e1, e2, e3, fromLe16_toLe16 _ (by omega), mixnodeIndexTryFrom, if_pos hfirst, hP]
    · rw [List.length_append, hl, hPl]; rfl
    · have := travel hC (.reply id) hid filler lastSec keys targets x [] P hpath.length (validPath_sized hpath)
        hlast hPl (by rw [List.length_append, hfill]; simp only [List.length_nil]; omega) (by
          intro h; cases h)
      rw [← hhd, List.append_nil, ← List.append_assoc] at *
      refine travels_mono ?_ this
      rintro out action ⟨h1, h2⟩
      refine ⟨h1, payloadData packet ++ PAYLOAD_TAG, ?_, List.take_left' hdl⟩
      have hk := encrypt_layers hC (S :: (hopSecrets C x keys).dropLast) (payloadData packet ++ PAYLOAD_TAG) hfl
      have hp' : peelPayload C (S :: (hopSecrets C x keys).dropLast) (payloadData packet ++ PAYLOAD_TAG) =
          peelPayload C (hopSecrets C x keys).dropLast P := by rw [hP]; rfl
      rw [hp'] at hk
      unfold decryptReplyPayload
      rw [show out.take PAYLOAD_SIZE = _ from h2, ← List.map_cons, hk]
      simp only
      rw [arrayRef_ok _ _ _ _ (by rw [hfl]; decide), res_bind_ok]
      have := slice_mid (payloadData packet) PAYLOAD_TAG [] 2048 16 hdl List.length_replicate
      rw [List.append_nil] at this
      rw [show slice _ PAYLOAD_DATA_SIZE PAYLOAD_TAG_SIZE = _ from this, checkPayloadTag, if_pos rfl]

/-- **C10 (packets), C11.** A cover packet built for a valid path, with or without id, is forwarded hop by hop
along exactly the path and ends as a deliver-cover action carrying the id. -/
theorem cover_packet_travels {C : Crypto} (hC : CryptoLaws C) (rng : Rng) (packet : Bytes)
    (hpacket : packet.length = PACKET_SIZE) (id : Option Bytes) (hid : ∀ i ∈ id, i.length = COVER_ID_SIZE)
    (keys : List KxSecret) (targets : List Target) (hpath : ValidPath keys targets) :
    ∃ packet' delay rng' delays,
      buildCoverPacket C packet rng targets (keys.map C.deriveKxPublic) id = .ok (packet', delay, rng') ∧
      packet'.length = PACKET_SIZE ∧
      delay = totalDelay delays ∧
      Travels C packet' keys targets delays (fun _ action => action = .deliverCover id) := by
  have hk : (PacketKind.cover id).Sized := by
    cases id with
    | none => trivial
    | some i => exact hid i rfl
  have hh : (packet.take HEADER_SIZE).length = 188 := by
    csimp at hpacket ⊢; rw [List.length_take]; omega
  obtain ⟨lastSec, filler, rng', hlast, hfill, hb⟩ :=
    buildHeader_spec hC (packet.take HEADER_SIZE) hh rng keys targets hpath (.cover id) hk
  generalize C.scalarOfClamped (Crypto.genKxSecret rng).1 = x at *
  have hsecs : (hopSecrets C x keys).length = keys.length := hopSecrets_length _ _ _
  have hsize := header_size hpath (hopSecrets C x keys) hsecs (.cover id) hk
  have hplen : (rng'.fillBytes PAYLOAD_SIZE).1.length = 2064 := fillBytes_length _ _
  generalize hP : (rng'.fillBytes PAYLOAD_SIZE).1 = P at *
  refine ⟨C.mulBase x ++ ((hdr C (encKind (.cover id) ++ filler) lastSec [] (targets.zip (hopSecrets C x keys))).1 ++
    (hdr C (encKind (.cover id) ++ filler) lastSec [] (targets.zip (hopSecrets C x keys))).2) ++ P,
    totalDelay (hopDelays C (targets.zip (hopSecrets C x keys))), (rng'.fillBytes PAYLOAD_SIZE).2, _, ?_, ?_,
    rfl, ?_⟩
  · unfold buildCoverPacket
    rw [assertP_ok _ (by rw [List.length_map]; exact hpath.length.symm), res_bind_ok,
      assertP_ok _ (by rw [List.length_map]; exact hpath.hops), res_bind_ok]
    simp only
    rw [hb, res_bind_ok]
    simp only [hP]
  · rw [List.length_append, List.length_append, List.length_append, hC.mulBase_length, hdr_mac_length hC,
      hdr_length hC, List.length_append, hfill, hplen]
    csimp; omega
  · have := travel hC (.cover id) hk filler lastSec keys targets x [] P hpath.length (validPath_sized hpath)
      hlast hplen (by rw [List.length_append, hfill]; simp only [List.length_nil]; omega) (by
        intro h; cases h)
    simp only [List.append_nil] at this
    rw [← List.append_assoc]
    exact travels_mono (fun o a h => h) this

/-- A concrete path: six hops, the fourth target given by peer ID. -/
theorem example_path : ValidPath (List.replicate 6 [7, 1])
    [.mixnodeIndex 3, .mixnodeIndex 0xfeff, .mixnodeIndex 0, .peerId (List.replicate 32 9), .mixnodeIndex 1] where
  length := rfl
  hops := by decide
  target := by simp
  onePeerId := by decide

/-- The hypotheses of the theorems above are met by a six-hop path under the toy primitives. -/
example := request_packet_travels toyLaws (fun n => n) (List.replicate PACKET_SIZE 5) List.length_replicate _ _
  example_path

example := reply_packet_travels toyLaws (fun n => 3 * n) (List.replicate SURB_SIZE 1) List.length_replicate 17
  (by decide) (List.replicate 16 2) rfl _ _ example_path

example := cover_packet_travels toyLaws (fun n => n) (List.replicate PACKET_SIZE 1) List.length_replicate
  (some (List.replicate 16 4)) (by simp) _ _ example_path

end Mixnet.Props
