import Verif.Proofs.Xor
/-! `build_header` computes a recursively defined header. -/
namespace Mixnet

/-- The bytes of a forward action. -/
def encTarget : Target → Bytes
  | .mixnodeIndex i => toLe16 i
  | .peerId p => toLe16 RAW_ACTION_FORWARD_TO_PEER_ID ++ p

/-- The bytes of a deliver action. -/
def encKind : PacketKind → Bytes
  | .request => toLe16 RAW_ACTION_DELIVER_REQUEST
  | .reply id => toLe16 RAW_ACTION_DELIVER_REPLY ++ id
  | .cover none => toLe16 RAW_ACTION_DELIVER_COVER
  | .cover (some id) => toLe16 RAW_ACTION_DELIVER_COVER_WITH_ID ++ id

/-- Sizes of ids in a packet kind. -/
def PacketKind.Sized : PacketKind → Prop
  | .request => True
  | .reply id => id.length = SURB_ID_SIZE
  | .cover none => True
  | .cover (some id) => id.length = COVER_ID_SIZE

def Target.Sized : Target → Prop
  | .mixnodeIndex i => i ≤ MAX_MIXNODE_INDEX
  | .peerId p => p.length = PEER_ID_SIZE

@[simp] theorem toLe16_length (n : Nat) : (toLe16 n).length = 2 := rfl

theorem encTarget_le (t : Target) (h : t.Sized) : 2 ≤ (encTarget t).length ∧ (encTarget t).length ≤ 34 := by
  cases t with
  | mixnodeIndex i => simp [encTarget]
  | peerId p => simp only [Target.Sized] at h; csimp at h; simp [encTarget, h]

theorem encKind_le (k : PacketKind) (h : k.Sized) : 2 ≤ (encKind k).length ∧ (encKind k).length ≤ 18 := by
  rcases k with _ | id | _ | id <;> simp only [PacketKind.Sized] at h <;> (try csimp at h) <;> simp [encKind, *]

/-- The keystream of a hop. -/
def hopKs (C : Crypto) (sec : SharedSecret) : Bytes := C.keystream (C.actionsEncryptionKey sec) 190

@[simp] theorem hopKs_length (C : Crypto) (sec : SharedSecret) : (hopKs C sec).length = 190 := by
  simp [hopKs]

/-- The padding the next hop sees. -/
def nextPad (C : Crypto) (sec : SharedSecret) (t : Target) (F : Bytes) : Bytes :=
  applyKeystream (F ++ List.replicate ((encTarget t).length + 16) 0) ((hopKs C sec).drop (140 - F.length))

@[simp] theorem nextPad_length (C : Crypto) (sec : SharedSecret) (t : Target) (F : Bytes) :
    (nextPad C sec t F).length = F.length + ((encTarget t).length + 16) := by
  simp [nextPad]

/-- MAC and encrypted actions for a packet whose padding is `F` and whose remaining forwarding hops
are `L`. `last` is the plain text for the last hop. -/
def hdr (C : Crypto) (last : Bytes) (lastSec : SharedSecret) : Bytes → List (Target × SharedSecret) → Bytes × Bytes
  | F, [] =>
    let E := applyKeystream last (hopKs C lastSec)
    (C.computeMac E F (C.macKey lastSec), E)
  | F, (t, sec) :: rest =>
    let m := hdr C last lastSec (nextPad C sec t F) rest
    let E := applyKeystream (encTarget t ++ m.1 ++ m.2) (hopKs C sec)
    (C.computeMac E F (C.macKey sec), E)

/-- Bytes used by forward actions and next-hop MACs. -/
def pathSize : List (Target × SharedSecret) → Nat
  | [] => 0
  | (t, _) :: rest => (encTarget t).length + 16 + pathSize rest

theorem hdr_mac_length {C : Crypto} (hC : CryptoLaws C) (last : Bytes) (lastSec : SharedSecret) (F : Bytes)
    (L : List (Target × SharedSecret)) : (hdr C last lastSec F L).1.length = 16 := by
  cases L with
  | nil => simp [hdr, Crypto.computeMac, hC.blakeMac_length]
  | cons x L => obtain ⟨t, sec⟩ := x; simp [hdr, Crypto.computeMac, hC.blakeMac_length]

theorem hdr_length {C : Crypto} (hC : CryptoLaws C) (last : Bytes) (lastSec : SharedSecret) (F : Bytes)
    (L : List (Target × SharedSecret)) : (hdr C last lastSec F L).2.length = pathSize L + last.length := by
  induction L generalizing F with
  | nil => simp [hdr, pathSize]
  | cons x L ih =>
    obtain ⟨t, sec⟩ := x
    simp [hdr, pathSize, ih, hdr_mac_length hC]; omega

/-- State after the forward loop has handled the hops whose padding is `F`. -/
structure FwdInv (C : Crypto) (s : BuildState C) (F : Bytes) : Prop where
  buf : s.buf.length = 156
  off : s.offset = F.length
  pad : s.pad = F ++ List.replicate (138 - F.length) 0

theorem hopKs_eq (C : Crypto) (sec : SharedSecret) :
    C.applyActionsEncryptionKeystream (List.replicate (ACTIONS_SIZE + MAX_ACTIONS_PAD_SIZE) 0)
      (C.actionsEncryptionKey sec) = hopKs C sec := by
  rw [applyActions_eq C _ _ 190 (by rw [List.length_replicate]; decide), hopKs,
    applyKeystream_zeros _ _ (by rw [keystream_length]; rfl)]

theorem take_append_replicate (F : Bytes) (n m : Nat) (h : F.length ≤ n) (hm : n ≤ F.length + m) :
    (F ++ List.replicate m (0 : Byte)).take n = F ++ List.replicate (n - F.length) 0 := by
  rw [List.take_append, List.take_of_length_le h, List.take_replicate, Nat.min_eq_left (by omega)]

theorem drop_append_replicate (F : Bytes) (n m : Nat) (h : F.length ≤ n) :
    (F ++ List.replicate m (0 : Byte)).drop n = List.replicate (m - (n - F.length)) 0 := by
  rw [List.drop_append, List.drop_eq_nil_of_le h, List.nil_append, List.drop_replicate]

theorem forwardStep_spec (C : Crypto) (t : Target) (sec : SharedSecret) (s : BuildState C) (F : Bytes)
    (ht : t.Sized) (hs : FwdInv C s F) (hsize : F.length + (encTarget t).length + 16 ≤ 138)
    (hhops : s.hops.length < 5) :
    ∃ buf', buildForwardStep C t sec s =
        .ok ⟨buf', (nextPad C sec t F).length, C.delayAdd s.totalDelay (C.delayExp (C.delaySeed sec)),
          s.hops ++ [(⟨C.macKey sec, hopKs C sec, F.length⟩ : HopData)],
          nextPad C sec t F ++ List.replicate (138 - (nextPad C sec t F).length) 0⟩ ∧
      buf'.length = 156 ∧ buf'.take (nextPad C sec t F).length = s.buf.take (16 + F.length) ++ encTarget t := by
  obtain ⟨hb, ho, hp⟩ := hs
  have key : ∀ (buf' : Bytes) (off' : Nat), off' = F.length + (encTarget t).length + 16 →
      (do
        assertP "hops.push: ArrayVec is full" (decide (s.hops.length < MAX_HOPS - 1))
        let keystream := C.applyActionsEncryptionKeystream
          (List.replicate (ACTIONS_SIZE + MAX_ACTIONS_PAD_SIZE) 0) (C.actionsEncryptionKey sec)
        let padPrefix ← sliceTo "pad[..offset]" s.pad off'
        assertP "ACTIONS_SIZE - start_offset" (decide (F.length ≤ ACTIONS_SIZE))
        let ks ← sliceFrom "keystream[ACTIONS_SIZE - start_offset..]" keystream (ACTIONS_SIZE - F.length)
        (.ok ⟨buf', off', C.delayAdd s.totalDelay (C.delayExp (C.delaySeed sec)),
          s.hops ++ [(⟨C.macKey sec, keystream, F.length⟩ : HopData)],
          applyKeystream padPrefix ks ++ s.pad.drop off'⟩ : Res (BuildState C))) =
      .ok ⟨buf', (nextPad C sec t F).length, C.delayAdd s.totalDelay (C.delayExp (C.delaySeed sec)),
          s.hops ++ [(⟨C.macKey sec, hopKs C sec, F.length⟩ : HopData)],
          nextPad C sec t F ++ List.replicate (138 - (nextPad C sec t F).length) 0⟩ := by
    intro buf' off' hoff
    rw [assertP_ok _ (by csimp; exact hhops), res_bind_ok]
    simp only [hopKs_eq]
    rw [sliceTo_ok _ _ _ (by rw [hp, List.length_append, List.length_replicate]; omega), res_bind_ok,
      assertP_ok _ (by csimp; omega), res_bind_ok, sliceFrom_ok _ _ _ (by rw [hopKs_length]; csimp; omega),
      res_bind_ok, hp, take_append_replicate _ _ _ (by omega) (by omega),
      drop_append_replicate _ _ _ (by omega)]
    have e1 : off' - F.length = (encTarget t).length + 16 := by omega
    have e2 : off' = (nextPad C sec t F).length := by simp; omega
    have e3 : 138 - F.length - (off' - F.length) = 138 - (nextPad C sec t F).length := by
      simp; omega
    rw [e3, e1, e2]; rfl
  cases t with
  | mixnodeIndex i =>
    refine ⟨splice s.buf (16 + F.length) (toLe16 i), ?_, ?_, ?_⟩
    · unfold buildForwardStep
      simp only [res_bind_ok, ho]
      rw [arraySet_ok _ _ _ _ (by simp [encTarget] at hsize; rw [hb, toLe16_length]; csimp; omega), res_bind_ok]
      exact key _ _ (by simp [encTarget])
    · rw [splice_length _ _ _ (by simp [encTarget] at hsize ⊢; omega), hb]
    · have : (nextPad C sec (.mixnodeIndex i) F).length = 16 + F.length + (toLe16 i).length := by
        simp [encTarget]; omega
      rw [this, take_splice_end _ _ _ (by simp [encTarget] at hsize; omega)]; rfl
  | peerId p =>
    have hpl : p.length = 32 := ht
    have hel : (encTarget (.peerId p)).length = 34 := by simp [encTarget, hpl]
    rw [hel] at hsize
    refine ⟨splice (splice s.buf (16 + (F.length + 2)) p) (16 + F.length)
      (toLe16 RAW_ACTION_FORWARD_TO_PEER_ID), ?_, ?_, ?_⟩
    · unfold buildForwardStep
      simp only [res_bind_ok, ho]
      rw [arraySet_ok _ _ _ p (by rw [hb, hpl]; csimp; omega), res_bind_ok]
      rw [arraySet_ok _ _ _ _ (by
        rw [splice_length _ _ _ (by rw [hb, hpl]; csimp; omega), hb, toLe16_length]; csimp; omega),
        res_bind_ok]
      exact key _ _ (by rw [hel]; csimp)
    · rw [splice_length _ _ _ (by
        rw [splice_length _ _ _ (by rw [hb, hpl]; omega), hb, toLe16_length]; omega),
        splice_length _ _ _ (by rw [hb, hpl]; omega), hb]
    · obtain ⟨a, b, c, e, ha, hb', -⟩ := split3 s.buf (16 + F.length) (2 + 32) (by omega)
      obtain ⟨b1, b2, b3, e', hb1, hb2, hb3⟩ := split3 b 2 32 (by omega)
      have : b3 = [] := List.eq_nil_of_length_eq_zero (by omega)
      subst this
      have e1 : s.buf = (a ++ b1) ++ b2 ++ c := by rw [e, e']; simp
      rw [e1, splice_mid (a ++ b1) b2 c p _ (by simp; omega) (by omega),
        show a ++ b1 ++ p ++ c = a ++ b1 ++ (p ++ c) by simp, splice_mid a b1 (p ++ c) _ _ ha (by simp [hb1])]
      have e2 : (nextPad C sec (.peerId p) F).length
          = (a ++ toLe16 RAW_ACTION_FORWARD_TO_PEER_ID ++ p).length := by
        simp [encTarget, ha, hpl]; omega
      have e3 : (a ++ b1 ++ b2 ++ c).take (16 + F.length) = a := by
        rw [← ha]; simp [List.append_assoc]
      rw [e2, e3, ← List.append_assoc, List.take_left']
      · simp [encTarget]
      · rfl


/-- The plain text of the last hop: the deliver action and random filler. -/
def lastPlain (kind : PacketKind) (rng : Rng) (o : Nat) : Bytes :=
  encKind kind ++ (rng.fillBytes (140 - (o + (encKind kind).length))).1

@[simp] theorem fillBytes_length (rng : Rng) (n : Nat) : (rng.fillBytes n).1.length = n := by
  simp [Rng.fillBytes]

theorem buildLast_spec {C : Crypto} (hC : CryptoLaws C) (kind : PacketKind) (sec : SharedSecret) (rng : Rng)
    (s : BuildState C) (F : Bytes) (hk : kind.Sized) (hs : FwdInv C s F)
    (hsize : F.length + (encKind kind).length ≤ 140) :
    ∃ off', buildLast C kind sec rng s =
      .ok ({ s with
              buf := s.buf.take F.length ++ (hdr C (lastPlain kind rng F.length) sec F []).1 ++
                (hdr C (lastPlain kind rng F.length) sec F []).2
              offset := off' },
        (rng.fillBytes (140 - (F.length + (encKind kind).length))).2) := by
  obtain ⟨hb, ho, hp⟩ := hs
  have h2 := encKind_le kind hk
  have key : ∀ (buf' : Bytes) (off' : Nat), buf'.length = 156 → off' = F.length + (encKind kind).length →
      buf'.take (16 + off') = s.buf.take (16 + F.length) ++ encKind kind →
      (do
        assertP "actions[offset..]" (decide (MAC_SIZE + off' ≤ buf'.length))
        let (random, rng) := rng.fillBytes (buf'.length - (MAC_SIZE + off'))
        let buf := buf'.take (MAC_SIZE + off') ++ random
        let enc := C.applyActionsEncryptionKeystream (buf.drop (MAC_SIZE + F.length))
          (C.actionsEncryptionKey sec)
        let buf := buf.take (MAC_SIZE + F.length) ++ enc
        let pad ← sliceTo "pad[..start_offset]" s.pad F.length
        let mac := C.computeMac enc pad (C.macKey sec)
        let buf ← arraySet "mut_arr_at(mac_plus_actions, start_offset)" buf F.length mac
        (.ok ({ s with buf := buf, offset := off' }, rng) : Res (BuildState C × Rng))) =
      .ok ({ s with
              buf := s.buf.take F.length ++ (hdr C (lastPlain kind rng F.length) sec F []).1 ++
                (hdr C (lastPlain kind rng F.length) sec F []).2
              offset := off' },
        (rng.fillBytes (140 - (F.length + (encKind kind).length))).2) := by
    intro buf' off' hb' hoff htake
    rw [assertP_ok _ (by rw [hb']; csimp; omega), res_bind_ok]
    csimp
    have e1 : buf'.length - (16 + off') = 140 - (F.length + (encKind kind).length) := by omega
    have hlen16 : (s.buf.take (16 + F.length)).length = 16 + F.length := by simp; omega
    rw [e1, htake]
    have e2 : s.buf.take (16 + F.length) ++ encKind kind ++
        (rng.fillBytes (140 - (F.length + (encKind kind).length))).1 =
        s.buf.take (16 + F.length) ++ lastPlain kind rng F.length := by simp [lastPlain]
    simp only [e2]
    rw [List.drop_left' hlen16, List.take_left' hlen16,
      applyActions_eq C _ _ 190 (by simp [lastPlain]; omega),
      sliceTo_ok _ _ _ (by rw [hp, List.length_append]; omega), res_bind_ok, hp, List.take_left]
    rw [arraySet_ok _ _ _ _ (by
      simp [Crypto.computeMac, hC.blakeMac_length, lastPlain]; omega), res_bind_ok]
    have e3 : s.buf.take (16 + F.length) = s.buf.take F.length ++ (s.buf.drop F.length).take 16 := by
      rw [Nat.add_comm, List.take_add]
    rw [e3, splice_mid _ _ _ _ _ (by simp; omega) (by
      simp [Crypto.computeMac, hC.blakeMac_length]; omega)]
    rfl
  have idcase : ∀ (id : Bytes) (n : Nat), id.length = 16 → F.length + 18 ≤ 140 →
      arraySet "mut_arr_at(actions, offset)" s.buf (MAC_SIZE + (F.length + RAW_ACTION_SIZE)) id =
        .ok (splice s.buf (18 + F.length) id) ∧
      arraySet "mut_arr_at(actions, start_offset)" (splice s.buf (18 + F.length) id) (MAC_SIZE + F.length)
        (toLe16 n) = .ok (splice (splice s.buf (18 + F.length) id) (16 + F.length) (toLe16 n)) ∧
      (splice (splice s.buf (18 + F.length) id) (16 + F.length) (toLe16 n)).length = 156 ∧
      (splice (splice s.buf (18 + F.length) id) (16 + F.length) (toLe16 n)).take
        (16 + (F.length + 18)) = s.buf.take (16 + F.length) ++ (toLe16 n ++ id) := by
    intro id n hid hle
    have hl1 : (splice s.buf (18 + F.length) id).length = 156 := by
      rw [splice_length _ _ _ (by omega), hb]
    refine ⟨?_, ?_, ?_, ?_⟩
    · rw [arraySet_ok _ _ _ _ (by csimp; omega)]; csimp
      rw [show 16 + (F.length + 2) = 18 + F.length by omega]
    · rw [arraySet_ok _ _ _ _ (by rw [hl1, toLe16_length]; csimp; omega)]
    · rw [splice_length _ _ _ (by rw [hl1, toLe16_length]; omega), hl1]
    · obtain ⟨a, b, c, e, ha, hb', -⟩ := split3 s.buf (16 + F.length) (2 + 16) (by omega)
      obtain ⟨b1, b2, b3, e', hb1, hb2, hb3⟩ := split3 b 2 16 (by omega)
      have : b3 = [] := List.eq_nil_of_length_eq_zero (by omega)
      subst this
      have e1 : s.buf = (a ++ b1) ++ b2 ++ c := by rw [e, e']; simp
      rw [e1, splice_mid (a ++ b1) b2 c id _ (by simp; omega) (by omega),
        show a ++ b1 ++ id ++ c = a ++ b1 ++ (id ++ c) by simp,
        splice_mid a b1 (id ++ c) _ _ ha (by simp [hb1])]
      have e2 : 16 + (F.length + 18) = (a ++ toLe16 n ++ id).length := by
        simp [ha, hid]; omega
      have e3 : (a ++ b1 ++ b2 ++ c).take (16 + F.length) = a := by
        rw [← ha]; simp [List.append_assoc]
      rw [e2, e3, ← List.append_assoc, List.take_left']
      · simp
      · rfl
  have nocase : ∀ (n : Nat), F.length + 2 ≤ 140 →
      arraySet "mut_arr_at(actions, start_offset)" s.buf (MAC_SIZE + F.length)
        (toLe16 n) = .ok (splice s.buf (16 + F.length) (toLe16 n)) ∧
      (splice s.buf (16 + F.length) (toLe16 n)).length = 156 ∧
      (splice s.buf (16 + F.length) (toLe16 n)).take
        (16 + (F.length + 2)) = s.buf.take (16 + F.length) ++ toLe16 n := by
    intro n hle
    refine ⟨arraySet_ok _ _ _ _ (by rw [hb, toLe16_length]; csimp; omega), ?_, ?_⟩
    · rw [splice_length _ _ _ (by rw [hb, toLe16_length]; omega), hb]
    · rw [show 16 + (F.length + 2) = 16 + F.length + (toLe16 n).length by simp; omega,
        take_splice_end _ _ _ (by omega)]
  rcases kind with _ | id | _ | id
  · simp only [encKind, toLe16_length] at hsize
    obtain ⟨h1, h2, h3⟩ := nocase RAW_ACTION_DELIVER_REQUEST hsize
    refine ⟨F.length + 2, ?_⟩
    unfold buildLast
    simp only [res_bind_ok, ho]
    rw [h1, res_bind_ok]
    exact key _ (F.length + 2) h2 rfl h3
  · have hid : id.length = 16 := hk
    simp only [encKind, toLe16_length, List.length_append, hid] at hsize
    obtain ⟨h0, h1, h2, h3⟩ := idcase id RAW_ACTION_DELIVER_REPLY hid hsize
    refine ⟨F.length + 18, ?_⟩
    unfold buildLast
    simp only [res_bind_ok, ho]
    rw [h0, res_bind_ok, h1, res_bind_ok]
    exact key _ (F.length + 18) h2 (by simp [encKind, hid]) h3
  · simp only [encKind, toLe16_length] at hsize
    obtain ⟨h1, h2, h3⟩ := nocase RAW_ACTION_DELIVER_COVER hsize
    refine ⟨F.length + 2, ?_⟩
    unfold buildLast
    simp only [res_bind_ok, ho]
    rw [h1, res_bind_ok]
    exact key _ (F.length + 2) h2 rfl h3
  · have hid : id.length = 16 := hk
    simp only [encKind, toLe16_length, List.length_append, hid] at hsize
    obtain ⟨h0, h1, h2, h3⟩ := idcase id RAW_ACTION_DELIVER_COVER_WITH_ID hid hsize
    refine ⟨F.length + 18, ?_⟩
    unfold buildLast
    simp only [res_bind_ok, ho]
    rw [h0, res_bind_ok, h1, res_bind_ok]
    exact key _ (F.length + 18) h2 (by simp [encKind, hid]) h3

theorem nextPad_inv (C : Crypto) (sec : SharedSecret) (t : Target) (F : Bytes) :
    applyKeystream ((nextPad C sec t F).take F.length) ((hopKs C sec).drop (140 - F.length)) = F := by
  rw [nextPad, take_applyKeystream, applyKeystream_cancel, List.take_left]

/-- The delays of the forwarding hops. -/
def hopDelays (C : Crypto) (L : List (Target × SharedSecret)) : List C.Delay :=
  L.map (fun x => C.delayExp (C.delaySeed x.2))

theorem header_core {C : Crypto} (hC : CryptoLaws C) (kind : PacketKind) (lastSec : SharedSecret) (rng : Rng)
    (hk : kind.Sized) (L : List (Target × SharedSecret)) (hL : ∀ x ∈ L, x.1.Sized) (s : BuildState C)
    (F : Bytes) (hs : FwdInv C s F) (hsize : F.length + pathSize L + (encKind kind).length ≤ 140)
    (hhops : s.hops.length + L.length ≤ 5) :
    ∃ (H : List HopData) (s1 s2 : BuildState C) (pad' : Bytes),
      buildForward C L s = .ok s1 ∧ s1.hops = s.hops ++ H ∧
      s1.totalDelay = (hopDelays C L).foldl C.delayAdd s.totalDelay ∧
      buildLast C kind lastSec rng s1 =
        .ok (s2, (rng.fillBytes (140 - (F.length + pathSize L + (encKind kind).length))).2) ∧
      s2.hops = s1.hops ∧ s2.totalDelay = s1.totalDelay ∧
      buildBackward C H (s2.buf, s2.pad) =
        .ok (s.buf.take F.length ++
            (hdr C (lastPlain kind rng (F.length + pathSize L)) lastSec F L).1 ++
            (hdr C (lastPlain kind rng (F.length + pathSize L)) lastSec F L).2, pad') ∧
      pad'.length = 138 ∧ pad'.take F.length = F := by
  have h2 := encKind_le kind hk
  induction L generalizing s F with
  | nil =>
    obtain ⟨off', hl⟩ := buildLast_spec hC kind lastSec rng s F hk hs (by simpa [pathSize] using hsize)
    refine ⟨[], s, _, s.pad, rfl, by simp, rfl, hl, rfl, rfl, rfl, ?_, ?_⟩
    · rw [hs.pad, List.length_append, List.length_replicate]
      have := hsize; simp only [pathSize] at this; omega
    · rw [hs.pad, List.take_left]
  | cons x L ih =>
    obtain ⟨t, sec⟩ := x
    have ht : t.Sized := hL (t, sec) (by simp)
    have h3 := encTarget_le t ht
    simp only [pathSize] at hsize
    simp only [List.length_cons] at hhops
    obtain ⟨buf', hstep, hb', htake⟩ := forwardStep_spec C t sec s F ht hs (by omega) (by omega)
    have hinv : FwdInv C (⟨buf', (nextPad C sec t F).length,
        C.delayAdd s.totalDelay (C.delayExp (C.delaySeed sec)),
        s.hops ++ [(⟨C.macKey sec, hopKs C sec, F.length⟩ : HopData)],
        nextPad C sec t F ++ List.replicate (138 - (nextPad C sec t F).length) 0⟩ : BuildState C)
        (nextPad C sec t F) := ⟨hb', rfl, rfl⟩
    obtain ⟨H, s1, s2, pad', hf, hh, hd, hl, hh2, hd2, hbk, hpl, hpt⟩ :=
      ih (fun y hy => hL y (by simp [hy])) _ _ hinv (by simp; omega) (by simp; omega)
    have esz : (nextPad C sec t F).length + pathSize L = F.length + pathSize ((t, sec) :: L) := by
      simp [pathSize]; omega
    rw [esz] at hbk hl
    simp only at hbk
    rw [htake] at hbk
    have hlen16 : (s.buf.take (16 + F.length)).length = 16 + F.length := by
      have := hs.buf; simp; omega
    generalize hM : hdr C (lastPlain kind rng (F.length + pathSize ((t, sec) :: L))) lastSec
      (nextPad C sec t F) L = m at hbk
    have hm1 : m.1.length = 16 := by rw [← hM]; exact hdr_mac_length hC _ _ _ _
    have hm2 : m.2.length = pathSize L + (140 - (F.length + pathSize ((t, sec) :: L))) := by
      rw [← hM, hdr_length hC]; simp [lastPlain, pathSize]; omega
    have esz' : pathSize ((t, sec) :: L) = (encTarget t).length + 16 + pathSize L := rfl
    refine ⟨⟨C.macKey sec, hopKs C sec, F.length⟩ :: H, s1, s2, F ++ pad'.drop F.length, ?_, ?_, ?_, hl,
      hh2, hd2, ?_, ?_, ?_⟩
    · simp only [buildForward]; rw [hstep, res_bind_ok, hf]
    · rw [hh]; simp
    · rw [hd]; rfl
    · simp only [buildBackward]; rw [hbk, res_bind_ok]
      unfold buildBackwardStep
      simp only
      csimp
      rw [sliceFrom_ok _ _ _ (by simp; have := hs.buf; omega), res_bind_ok]
      have e1 : (s.buf.take (16 + F.length) ++ encTarget t ++ m.1 ++ m.2) =
          s.buf.take (16 + F.length) ++ (encTarget t ++ m.1 ++ m.2) := by simp
      rw [e1, List.drop_left' hlen16, List.take_left' hlen16, sliceTo_ok _ _ _ (by omega), res_bind_ok,
        sliceFrom_ok _ _ _ (by rw [hopKs_length]; omega), res_bind_ok]
      have e2 : applyKeystream (pad'.take F.length) ((hopKs C sec).drop (140 - F.length)) = F := by
        have : pad'.take F.length = (nextPad C sec t F).take F.length := by
          rw [← hpt, List.take_take, Nat.min_eq_left (by simp)]
        rw [this, nextPad_inv]
      rw [e2]
      rw [arraySet_ok _ _ _ _ (by
        rw [List.length_append, hlen16, Crypto.computeMac, hC.blakeMac_length]; omega), res_bind_ok]
      have e3 : s.buf.take (16 + F.length) = s.buf.take F.length ++ (s.buf.drop F.length).take 16 := by
        rw [Nat.add_comm, List.take_add]
      rw [e3, splice_mid _ _ _ _ _ (by simp; have := hs.buf; omega) (by
        simp [Crypto.computeMac, hC.blakeMac_length]; have := hs.buf; omega)]
      simp only [hdr, hM]
    · simp; omega
    · rw [List.take_left]

end Mixnet
