import Verif.Proofs.Total
import Verif.Spec.Wire
/-!
# The functions that build fragments and packets give the bytes of `Spec/Wire.lean`
-/
namespace Mixnet
open Spec Props

/-! ### Fragments -/

theorem le16_eq (n : Nat) : toLe16 n = le16 n := rfl

theorem writeFragment_bytes (b : FragmentBlueprint) (ss : List Surb)
    (hid : b.messageId.length = 16) (hw : b.data.WF) (hfit : b.data.toVec.length + 222 * b.numSurbs ≤ 2025)
    (hss : ss.length = b.numSurbs) (hs : ∀ s ∈ ss, s.length = 222) :
    ∃ f0, b.writeExceptSurbs (List.replicate 2048 0) = .ok f0 ∧
      writeSurbs f0 b.surbOffsets ss = fragmentBytes b.messageId b.lastIndex b.index b.data.toVec ss := by
  have hw' : b.data.len = b.data.toVec.length := hw
  have hz : slice (List.replicate 2048 (0 : Byte)) 23 2025 = List.replicate 2025 0 := by
    simp only [slice, List.drop_replicate, List.take_replicate]; rfl
  have hpl : (slice (List.replicate 2048 (0 : Byte)) 23 2025).length = 2025 := by rw [hz, List.length_replicate]
  refine ⟨_, by
    simp only [FragmentBlueprint.writeExceptSurbs]
    csimp
    rw [slicePrefix, if_pos (by rw [hpl, hw']; omega), res_bind_ok, Scattered.copyToSlice_ok _ _ (by
      rw [List.length_take, hpl, hw']; omega), res_bind_ok], ?_⟩
  have hH : (b.messageId ++ toLe16 b.lastIndex ++ toLe16 b.index ++ toLe16 b.data.len ++ toLe8 b.numSurbs).length = 23 := by
    simp [hid, toLe16, toLe8]
  have hsp : (splice (slice (List.replicate 2048 (0 : Byte)) 23 2025) 0 b.data.toVec) =
      b.data.toVec ++ List.replicate (2025 - b.data.toVec.length) 0 := by
    rw [hz]; simp only [splice, List.take_zero, List.nil_append, Nat.zero_add, List.drop_replicate]
  have hfull : (b.messageId ++ toLe16 b.lastIndex ++ toLe16 b.index ++ toLe16 b.data.len ++
      toLe8 b.numSurbs ++ splice (slice (List.replicate 2048 0) 23 2025) 0 b.data.toVec).length = 2048 := by
    rw [List.length_append, hH, hsp, List.length_append, List.length_replicate]; omega
  have hwr := writeSurbs_eq _ hfull ss 0 hs (by omega)
  rw [hss] at hwr
  rw [surbOffsets_eq b (by omega), hwr]
  simp only [Nat.zero_add, Nat.mul_zero, Nat.sub_zero]
  rw [List.drop_eq_nil_of_le (Nat.le_of_eq hfull), List.append_nil, hw', hsp]
  have e1 : 2048 - 222 * b.numSurbs = 23 + (b.data.toVec.length + (2025 - b.data.toVec.length - 222 * b.numSurbs)) := by
    omega
  rw [hw'] at hH
  unfold fragmentBytes
  rw [← Nat.sub_sub, hss]
  have hh : le16 b.lastIndex = toLe16 b.lastIndex := rfl
  have hh2 : le16 b.index = toLe16 b.index := rfl
  have hh3 : le16 b.data.toVec.length = toLe16 b.data.toVec.length := rfl
  have hh4 : [UInt8.ofNat b.numSurbs] = toLe8 b.numSurbs := rfl
  rw [hh, hh2, hh3, hh4]
  generalize hk : 2025 - b.data.toVec.length - 222 * b.numSurbs = k at e1 ⊢
  have hk2 : min k (2025 - b.data.toVec.length) = k := by omega
  generalize hHH : b.messageId ++ toLe16 b.lastIndex ++ toLe16 b.index ++ toLe16 b.data.toVec.length ++ toLe8 b.numSurbs = H at hH ⊢
  rw [e1, ← hH, List.take_length_add_append, List.take_length_add_append, List.take_replicate, hk2]
  simp only [List.append_assoc]

theorem loop_bytes (id : MessageId) (hid : id.length = 16) (last : Nat) (hl : last ≤ 65535) :
    ∀ (n i : Nat) (data : Scattered Byte) (ss : List Surb), data.WF → (∀ s ∈ ss, s.length = 222) → i + n ≤ last + 1 →
    ∃ bs, blueprintsLoop id last n i data ss.length = .ok bs ∧ bs.length = n ∧
      writeFragments bs (List.replicate n (List.replicate 2048 0)) ss = .ok (fragmentsFrom id last n i data.toVec ss)
  | 0, i, data, ss, _, _, _ => ⟨[], rfl, rfl, rfl⟩
  | n + 1, i, data, ss, hw, hs, hi => by
    have hw' : data.len = data.toVec.length := hw
    obtain ⟨l, r, e, wl, wr, tl, tr⟩ := Scattered.splitAt_spec data hw
      (min data.toVec.length (2025 - min ss.length 9 * 222)) (by omega)
    have hdl : (ss.drop 9).length = ss.length - min ss.length 9 := by rw [List.length_drop]; omega
    obtain ⟨bs, e2, len, e3⟩ := loop_bytes id hid last hl n (i + 1) r (ss.drop 9) wr
      (fun s h => hs s (List.mem_of_mem_drop h)) (by omega)
    rw [hdl] at e2
    have hm : min ss.length 9 % 256 = min ss.length 9 := by omega
    have htl : l.toVec = data.toVec.take (2025 - 222 * min 9 ss.length) := by
      rw [tl, Nat.min_comm ss.length, Nat.mul_comm, List.take_eq_take_iff]; omega
    have htr : r.toVec = data.toVec.drop (2025 - 222 * min 9 ss.length) := by
      rw [tr, Nat.min_comm ss.length, Nat.mul_comm]
      by_cases h : data.toVec.length ≤ 2025 - 222 * min 9 ss.length
      · rw [Nat.min_eq_left h, List.drop_length, List.drop_eq_nil_of_le h]
      · rw [Nat.min_eq_right (by omega)]
    refine ⟨⟨id, last % 65536, i % 65536, l, min ss.length 9 % 256⟩ :: bs, ?_, by simp [len], ?_⟩
    · simp only [blueprintsLoop]
      csimp
      rw [subP_ok _ (by omega)]
      simp only [res_bind_ok, hw', e, e2]
    · obtain ⟨f0, e4, e5⟩ := writeFragment_bytes ⟨id, last % 65536, i % 65536, l, min ss.length 9 % 256⟩
        (ss.take 9) hid wl (by
          show l.toVec.length + 222 * (min ss.length 9 % 256) ≤ 2025
          rw [hm, htl, List.length_take]; omega) (by
          show (ss.take 9).length = min ss.length 9 % 256
          rw [hm, List.length_take, Nat.min_comm]) (fun s h => hs s (List.mem_of_mem_take h))
      have htk : ss.take (min ss.length 9 % 256) = ss.take 9 := by
        rw [hm, List.take_eq_take_iff]; omega
      have hdk : ss.drop (min ss.length 9 % 256) = ss.drop 9 := by
        rw [hm]
        by_cases h : ss.length ≤ 9
        · rw [Nat.min_eq_left h, List.drop_length, List.drop_eq_nil_of_le h]
        · rw [Nat.min_eq_right (by omega)]
      rw [List.replicate_succ]
      simp only [writeFragments, htk, hdk]
      rw [e4, res_bind_ok, e3, res_bind_ok, e5]
      simp only [fragmentsFrom]
      rw [Nat.mod_eq_of_lt (by omega : last < 65536), Nat.mod_eq_of_lt (by omega : i < 65536), htl, htr]

theorem fragmentCount_eq {n d s : Nat} (h1 : 1 ≤ n) (hf : Feasible n d s)
    (hmin : ∀ m, 1 ≤ m → Feasible m d s → n ≤ m) : n = fragmentCount d s := by
  unfold fragmentCount
  unfold Feasible at hf hmin
  have := hmin (max 1 (max ((s + 8) / 9) ((d + 222 * s + 2024) / 2025))) (by omega) (by omega)
  omega

/-- The fragments written into empty buffers. -/
theorem fragments_bytes {id : MessageId} (hid : id.length = 16) {data : Scattered Byte} (hw : data.WF) {ss : List Surb}
    (hs : ∀ s ∈ ss, s.length = 222) {bs : List FragmentBlueprint} {fs : List Fragment}
    (h : fragmentBlueprints id data ss.length = .ok (some bs))
    (hf : writeFragments bs (List.replicate bs.length (payloadData zeroPacket)) ss = .ok fs) :
    fs = messageFragments id data.toVec ss := by
  have hz : payloadData zeroPacket = List.replicate 2048 0 := by
    unfold payloadData zeroPacket slice
    csimp
    rw [List.drop_replicate, List.take_replicate]; rfl
  rcases fragmentBlueprints_spec id data ss.length hw with ⟨e, -⟩ | ⟨bs', e, f1, f2, f3, f4, -⟩
  · rw [h] at e; cases e
  rw [h] at e
  simp only [Except.ok.injEq, Option.some.injEq] at e
  subst e
  have hn := fragmentCount_eq f1 f3 f4
  unfold fragmentBlueprints at h
  rw [res_bind_eq_ok] at h
  obtain ⟨n, -, h⟩ := h
  dsimp only at h
  split at h
  case isFalse => cases h
  case isTrue hle =>
    have hle' : n - 1 ≤ 65535 := hle
    rw [res_bind_eq_ok] at h
    obtain ⟨bs', hb, h⟩ := h
    simp only [Except.ok.injEq, Option.some.injEq] at h
    subst h
    obtain ⟨bs2, e2, len, e3⟩ := loop_bytes id hid (n - 1) hle' n 0 data ss hw hs (by omega)
    rw [hb] at e2
    cases e2
    rw [hz, len, e3] at hf
    cases hf
    unfold messageFragments
    rw [← hn, len]

/-! ### Headers -/

theorem encTarget_eq (t : Target) : encTarget t = forwardAction t := by cases t <;> rfl
theorem encKind_eq (k : PacketKind) : encKind k = deliverAction k := by rcases k with _ | _ | _ | _ <;> rfl

theorem masked_eq (C : Crypto) (sec : SharedSecret) : ∀ (data : Bytes) (off : Nat), off + data.length ≤ 190 →
    applyKeystream data ((hopKs C sec).drop off) = masked C sec off data
  | [], off, _ => by simp [masked]
  | b :: data, off, h => by
    simp only [List.length_cons] at h
    have hk : (hopKs C sec).drop off = C.chacha (C.actionsEncryptionKey sec) off :: (hopKs C sec).drop (off + 1) := by
      rw [List.drop_eq_getElem_cons (by rw [hopKs_length]; omega)]
      simp [hopKs, Crypto.keystream]
    rw [hk, applyKeystream, masked_eq C sec data (off + 1) (by omega)]
    unfold masked
    rw [List.mapIdx_cons]
    congr 1
    apply List.ext_getElem (by simp)
    intro j h1 h2
    simp only [List.getElem_mapIdx]
    congr 2
    omega

theorem masked_length (C : Crypto) (sec : SharedSecret) (off : Nat) (data : Bytes) :
    (masked C sec off data).length = data.length := by simp [masked]

theorem layers_eq {C : Crypto} (hC : CryptoLaws C) (last : Bytes) (lastSec : SharedSecret) :
    ∀ (L : List (Target × SharedSecret)) (F : Bytes), (∀ x ∈ L, x.1.Sized) →
    F.length + pathSize L + last.length ≤ 140 → hdr C last lastSec F L = layers C last lastSec F L
  | [], F, _, h => by
    simp only [hdr, layers, Crypto.computeMac]
    have := masked_eq C lastSec last 0 (by simp only [pathSize] at h; omega)
    rw [List.drop_zero] at this
    rw [this]
  | (t, sec) :: L, F, hL, h => by
    have ht := encTarget_le t (hL (t, sec) (by simp))
    simp only [pathSize] at h
    have hn : nextPad C sec t F = masked C sec (140 - F.length) (F ++ List.replicate ((forwardAction t).length + 16) 0) := by
      unfold nextPad
      rw [encTarget_eq, masked_eq]
      rw [← encTarget_eq]
      simp only [List.length_append, List.length_replicate]; omega
    have ih := layers_eq hC last lastSec L (nextPad C sec t F) (fun x hx => hL x (List.mem_cons_of_mem _ hx)) (by
      rw [nextPad_length]; omega)
    simp only [hdr, layers, Crypto.computeMac]
    have hm := hdr_mac_length hC last lastSec (nextPad C sec t F) L
    have hm2 := hdr_length hC last lastSec (nextPad C sec t F) L
    have := masked_eq C sec (encTarget t ++ (hdr C last lastSec (nextPad C sec t F) L).1 ++
      (hdr C last lastSec (nextPad C sec t F) L).2) 0 (by
        simp only [List.length_append, hm, hm2]; omega)
    rw [List.drop_zero] at this
    rw [this, ih, encTarget_eq, hn]

/-! ### Shared secrets -/

theorem genSecretsLoop_shared {C : Crypto} : ∀ (theirs : List KxPublic) (i : Nat) (x : C.Scalar)
    (pub : KxPublic) (secs : List SharedSecret) (s : SharedSecret), i ≠ 0 →
    (i = 1 → pub = C.mulBase x) → secs.getLast? = some s → secs.length + theirs.length ≤ 6 →
    C.genSecretsLoop theirs i x pub secs =
      .ok (secs ++ sharedSecrets C
        (C.scalarMul x (C.scalarOfClamped (C.deriveKxBlindingFactor (C.mulBase x) s))) theirs)
  | [], _, _, _, _, _, _, _, _, _ => by simp [Crypto.genSecretsLoop, sharedSecrets]
  | k :: ks, i, x, pub, secs, s, hi, hpub, hlast, hlen => by
    have hp : (if i ≠ 1 then C.mulBase x else pub) = C.mulBase x := by
      by_cases h : i = 1
      · simp [h, hpub h]
      · simp [h]
    simp only [List.length_cons] at hlen
    simp only [Crypto.genSecretsLoop]
    rw [if_pos hi]
    simp only [hp, hlast, expectSome, res_bind_ok]
    rw [assertP_ok _ (by csimp; omega), res_bind_ok]
    rw [genSecretsLoop_shared ks (i + 1) _ _ _ _ (by omega) (by omega) List.getLast?_concat (by simp; omega)]
    simp [sharedSecrets]

theorem genSecrets_shared {C : Crypto} (theirs : List KxPublic) (x : C.Scalar) (hlen : theirs.length ≤ 6) :
    C.genSecretsLoop theirs 0 x (C.mulBase x) [] = .ok (sharedSecrets C x theirs) := by
  cases theirs with
  | nil => rfl
  | cons k ks =>
    simp only [List.length_cons] at hlen
    simp only [Crypto.genSecretsLoop, ne_eq, not_true_eq_false, if_false, res_bind_ok]
    rw [assertP_ok _ (by simp), res_bind_ok]
    rw [genSecretsLoop_shared ks 1 _ _ _ _ (by omega) (fun _ => rfl) List.getLast?_concat (by simp; omega)]
    simp [sharedSecrets]

theorem sharedSecrets_length (C : Crypto) : ∀ (theirs : List KxPublic) (x : C.Scalar),
    (sharedSecrets C x theirs).length = theirs.length
  | [], _ => rfl
  | _ :: ps, x => by simp only [sharedSecrets, List.length_cons, sharedSecrets_length C ps]

theorem pathSize_eq : ∀ (targets : List Target) (secs : List SharedSecret), targets.length ≤ secs.length →
    pathSize (targets.zip secs) = forwardSize targets
  | [], _, _ => rfl
  | t :: ts, [], h => by simp at h
  | t :: ts, s :: ss, h => by
    have := pathSize_eq ts ss (by simpa using h)
    simp only [List.zip_cons_cons, pathSize, this, forwardSize, List.map_cons, List.sum_cons, encTarget_eq]

/-- The random bytes drawn by `fill_bytes`. -/
def taken (rng : Rng) (n : Nat) : Bytes := (rng.fillBytes n).1

theorem buildHeader_bytes {C : Crypto} (hC : CryptoLaws C) {header : Bytes} (hh : header.length = 188) (rng : Rng)
    {targets : List Target} {theirs : List KxPublic} (hp : GoodPath targets theirs) {kind : PacketKind}
    (hk : kind.Sized) :
    buildHeader C header rng targets theirs kind =
      .ok (headerBytes C (taken rng 32) (taken (rng.fillBytes 32).2 (fillerSize targets kind)) targets theirs kind,
        packetSecrets C (taken rng 32) theirs, packetDelay C (taken rng 32) theirs,
        ((rng.fillBytes 32).2.fillBytes (fillerSize targets kind)).2) := by
  have h1 := hp.length
  have h2 := hp.hops
  have hgen := genSecrets_shared theirs (C.scalarOfClamped (Crypto.genKxSecret rng).1) h2
  have hsl := sharedSecrets_length C theirs (C.scalarOfClamped (Crypto.genKxSecret rng).1)
  obtain ⟨secs, hsecs⟩ : ∃ secs, sharedSecrets C (C.scalarOfClamped (Crypto.genKxSecret rng).1) theirs = secs := ⟨_, rfl⟩
  rw [hsecs] at hgen hsl
  have hne : secs ≠ [] := by rintro rfl; simp at hsl; omega
  obtain ⟨lastSec, hlast⟩ : ∃ l, secs.getLast? = some l := by
    rw [List.getLast?_eq_some_getLast hne]; exact ⟨_, rfl⟩
  have hps := pathSize_eq targets secs (by omega)
  have hsize : pathSize (targets.zip secs) + (encKind kind).length ≤ 140 := by
    rw [pathSize_zip _ _ (by omega) hp.sized]
    have := hp.onePeer
    have := encKind_le kind hk
    omega
  have hL : ∀ y ∈ targets.zip secs, y.1.Sized := fun y hy =>
    hp.sized _ (List.of_mem_zip (show (y.1, y.2) ∈ _ from hy)).1
  have hLl : (targets.zip secs).length ≤ 5 := by simp only [List.length_zip]; omega
  let s0 : BuildState C := ⟨header.drop KX_PUBLIC_SIZE, 0, C.delayZero, [],
    List.replicate (ACTIONS_SIZE - RAW_ACTION_SIZE) 0⟩
  have hs0 : FwdInv C s0 [] := ⟨by simp only [s0, List.length_drop, hh]; csimp, rfl, rfl⟩
  obtain ⟨H, s1, s2, pad', hf, hh1, hd1, hl, hh2, hd2, hbk, -, -⟩ :=
    header_core hC kind lastSec (Crypto.genKxSecret rng).2 hk _ hL s0 [] hs0 (by simpa using hsize) (by
      simpa [s0] using hLl)
  have hfill : fillerSize targets kind = 140 - (0 + pathSize (targets.zip secs) + (encKind kind).length) := by
    unfold fillerSize; rw [hps, encKind_eq, Nat.zero_add]
  have hlay := layers_eq hC (lastPlain kind (Crypto.genKxSecret rng).2 (0 + pathSize (targets.zip secs))) lastSec
    (targets.zip secs) [] hL (by
      unfold lastPlain
      simp only [List.length_nil, List.length_append, fillBytes_length]; omega)
  unfold buildHeader
  rw [assertP_pos (decide_eq_true h1), res_bind_ok, assertP_pos (decide_eq_true h2), res_bind_ok]
  unfold Crypto.genKxPublicAndSharedSecrets
  simp only
  rw [Crypto.deriveKxPublic, hC.mulBaseClamped, hgen]
  simp only [res_bind_ok]
  rw [show buildForward C (targets.zip secs) _ = _ from hf]
  simp only [res_bind_ok, hlast, expectSome]
  rw [hl]
  simp only [res_bind_ok]
  rw [hh2, hh1]
  simp only [s0, List.nil_append]
  rw [hbk]
  simp only [res_bind_ok, List.length_nil, List.take_zero, List.nil_append]
  rw [hd2, hd1, hlay]
  have hdl : hopDelays C (targets.zip secs) = secs.dropLast.map (forwardingDelay C) := by
    unfold hopDelays forwardingDelay
    apply List.ext_getElem
    · simp only [List.length_map, List.length_zip, List.length_dropLast]; omega
    · intro j g1 g2
      simp only [List.getElem_map, List.getElem_zip, List.getElem_dropLast]
  have hgl : secs.getLastD [] = lastSec := by
    rw [List.getLastD_eq_getLast?, hlast]; rfl
  unfold headerBytes packetSecrets packetDelay
  simp only [packetSecrets, taken]
  have hg : (Crypto.genKxSecret rng) = rng.fillBytes 32 := rfl
  rw [hg] at hsecs
  rw [hsecs, hdl, hgl, hg]
  unfold lastPlain
  rw [encKind_eq, hfill, encKind_eq]
  simp only [List.append_assoc]
  rfl

/-! ### Packets -/

theorem tagged_eq {packet : Bytes} (hl : packet.length = PACKET_SIZE) :
    arraySet "payload tag" (packet.drop HEADER_SIZE) PAYLOAD_DATA_SIZE PAYLOAD_TAG =
      .ok (taggedPayload (payloadData packet)) := by
  have hl' : packet.length = 2252 := hl
  have h : (packet.drop HEADER_SIZE).length = 2064 := by rw [List.length_drop, hl']; csimp
  unfold arraySet
  rw [if_pos (by rw [h, PAYLOAD_TAG, List.length_replicate]; csimp; omega)]
  unfold splice taggedPayload payloadData slice PAYLOAD_TAG
  generalize packet.drop HEADER_SIZE = q at h ⊢
  rw [List.drop_eq_nil_of_le (as := q) (by rw [h, List.length_replicate]; csimp; omega), List.append_nil]

theorem completeRequestPacket_bytes {C : Crypto} (hC : CryptoLaws C) {packet : Bytes} (hl : packet.length = PACKET_SIZE)
    (rng : Rng) {targets : List Target} {theirs : List KxPublic} (hp : GoodPath targets theirs) :
    completeRequestPacket C packet rng targets theirs =
      .ok (requestPacketBytes C (taken rng 32) (taken (rng.fillBytes 32).2 (fillerSize targets .request)) targets theirs
          (payloadData packet), packetDelay C (taken rng 32) theirs,
        ((rng.fillBytes 32).2.fillBytes (fillerSize targets .request)).2) := by
  have hl' : packet.length = 2252 := hl
  have he := buildHeader_bytes hC (header := packet.take HEADER_SIZE)
    (by rw [List.length_take, hl']; csimp; omega) rng hp (kind := .request) trivial
  unfold completeRequestPacket
  rw [assertP_pos (decide_eq_true hp.length), res_bind_ok, assertP_pos (decide_eq_true hp.hops), res_bind_ok]
  dsimp only
  rw [he, res_bind_ok]
  dsimp only
  rw [tagged_eq hl]
  rfl

theorem buildSurb_bytes {C : Crypto} (hC : CryptoLaws C) {old : Bytes} (hl : old.length = SURB_SIZE) (rng : Rng)
    (first : Nat) {targets : List Target} {theirs : List KxPublic} (hp : GoodPath targets theirs) {id : Bytes}
    (hid : id.length = SURB_ID_SIZE) :
    let rng1 := (rng.fillBytes 32).2
    let rng2 := (rng1.fillBytes (fillerSize targets (.reply id))).2
    buildSurb C old rng first targets theirs id =
      .ok (surbBytes C (taken rng 32) (taken rng1 (fillerSize targets (.reply id))) first targets theirs id
            (taken rng2 32),
          surbPayloadKeys C (taken rng 32) theirs (taken rng2 32), packetDelay C (taken rng 32) theirs,
          (rng2.fillBytes 32).2) := by
  have hl' : old.length = 222 := hl
  have he := buildHeader_bytes hC (header := slice old RAW_MIXNODE_INDEX_SIZE HEADER_SIZE)
    (by unfold slice; rw [List.length_take, List.length_drop, hl']; csimp; omega) rng hp (kind := .reply id) hid
  unfold buildSurb
  rw [assertP_pos (decide_eq_true hp.length), res_bind_ok, assertP_pos (decide_eq_true hp.hops), res_bind_ok]
  dsimp only
  rw [he]
  rfl

theorem buildCoverPacket_bytes {C : Crypto} (hC : CryptoLaws C) {packet : Bytes} (hl : packet.length = PACKET_SIZE)
    (rng : Rng) {targets : List Target} {theirs : List KxPublic} (hp : GoodPath targets theirs) (id : Option Bytes)
    (hid : ∀ i ∈ id, i.length = COVER_ID_SIZE) :
    let rng1 := (rng.fillBytes 32).2
    let rng2 := (rng1.fillBytes (fillerSize targets (.cover id))).2
    buildCoverPacket C packet rng targets theirs id =
      .ok (coverPacketBytes C (taken rng 32) (taken rng1 (fillerSize targets (.cover id))) targets theirs id
          (taken rng2 2064), packetDelay C (taken rng 32) theirs, (rng2.fillBytes 2064).2) := by
  have hl' : packet.length = 2252 := hl
  have hs : (PacketKind.cover id).Sized := by
    cases id with
    | none => trivial
    | some i => exact hid i rfl
  have he := buildHeader_bytes hC (header := packet.take HEADER_SIZE)
    (by rw [List.length_take, hl']; csimp; omega) rng hp (kind := .cover id) hs
  unfold buildCoverPacket
  rw [assertP_pos (decide_eq_true hp.length), res_bind_ok, assertP_pos (decide_eq_true hp.hops), res_bind_ok]
  dsimp only
  rw [he]
  rfl

theorem completeReplyPacket_bytes {C : Crypto} {packet : Bytes} (hl : packet.length = PACKET_SIZE) (surb : Bytes) :
    ∃ o, completeReplyPacket C packet surb = .ok (replyPacketBytes C surb (payloadData packet), o) := by
  unfold completeReplyPacket
  dsimp only
  rw [tagged_eq hl, res_bind_ok]
  exact ⟨_, rfl⟩

end Mixnet
