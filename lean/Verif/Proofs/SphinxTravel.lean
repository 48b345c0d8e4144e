import Verif.Proofs.SphinxPeel
import Verif.Spec.Sphinx
/-! Shared-secret agreement and the journey of a packet. -/
namespace Mixnet
open Spec

/-- Shared secrets of the hops with secret keys `keys` for a packet with ephemeral secret `x`, as the
hops compute them. -/
def hopSecrets (C : Crypto) (x : C.Scalar) : List KxSecret → List SharedSecret
  | [] => []
  | key :: keys =>
    let s := C.deriveKxSharedSecret (C.mulBase x) key
    s :: hopSecrets C (C.scalarMul x (C.scalarOfClamped (C.deriveKxBlindingFactor (C.mulBase x) s))) keys

@[simp] theorem hopSecrets_length (C : Crypto) (x : C.Scalar) (keys : List KxSecret) :
    (hopSecrets C x keys).length = keys.length := by
  induction keys generalizing x with
  | nil => rfl
  | cons k ks ih => simp [hopSecrets, ih]

theorem builder_secret {C : Crypto} (hC : CryptoLaws C) (x : C.Scalar) (key : KxSecret) :
    C.mul (C.deriveKxPublic key) x = C.deriveKxSharedSecret (C.mulBase x) key := by
  rw [Crypto.deriveKxPublic, hC.mulBaseClamped, hC.mul_mulBase, Crypto.deriveKxSharedSecret,
    hC.mulClamped_mulBase, hC.scalar_comm]

theorem genSecretsLoop_spec {C : Crypto} (hC : CryptoLaws C) (keys : List KxSecret) (i : Nat) (x : C.Scalar)
    (pub : KxPublic) (secs : List SharedSecret) (s : SharedSecret) (hi : i ≠ 0)
    (hpub : i = 1 → pub = C.mulBase x) (hlast : secs.getLast? = some s) (hlen : secs.length + keys.length ≤ 6) :
    C.genSecretsLoop (keys.map C.deriveKxPublic) i x pub secs =
      .ok (secs ++ hopSecrets C
        (C.scalarMul x (C.scalarOfClamped (C.deriveKxBlindingFactor (C.mulBase x) s))) keys) := by
  induction keys generalizing i x pub secs s with
  | nil => simp [Crypto.genSecretsLoop, hopSecrets]
  | cons k ks ih =>
    have hp : (if i ≠ 1 then C.mulBase x else pub) = C.mulBase x := by
      by_cases h : i = 1
      · simp [h, hpub h]
      · simp [h]
    simp only [List.length_cons] at hlen
    simp only [List.map_cons, Crypto.genSecretsLoop]
    rw [if_pos hi]
    simp only [hp, hlast, expectSome, res_bind_ok]
    rw [assertP_ok _ (by csimp; omega), res_bind_ok, builder_secret hC]
    rw [ih (i + 1) _ _ _ _ (by omega) (by omega) List.getLast?_concat (by simp; omega)]
    simp [hopSecrets]

theorem genSecrets_spec {C : Crypto} (hC : CryptoLaws C) (keys : List KxSecret) (x : C.Scalar)
    (hlen : keys.length ≤ 6) :
    C.genSecretsLoop (keys.map C.deriveKxPublic) 0 x (C.mulBase x) [] = .ok (hopSecrets C x keys) := by
  cases keys with
  | nil => rfl
  | cons k ks =>
    simp only [List.length_cons] at hlen
    simp only [List.map_cons, Crypto.genSecretsLoop, ne_eq, not_true_eq_false, if_false, res_bind_ok]
    rw [assertP_ok _ (by simp), res_bind_ok, builder_secret hC]
    rw [genSecretsLoop_spec hC ks 1 _ _ _ _ (by omega) (fun _ => rfl) List.getLast?_concat (by simp; omega)]
    simp [hopSecrets]

/-! ### Sizes -/

def nPeer (targets : List Target) : Nat :=
  (targets.filter (fun t => match t with | .peerId _ => true | _ => false)).length

theorem pathSize_zip (targets : List Target) (secs : List SharedSecret) (h : targets.length ≤ secs.length)
    (ht : ∀ t ∈ targets, t.Sized) :
    pathSize (targets.zip secs) = 18 * targets.length + 32 * nPeer targets := by
  induction targets generalizing secs with
  | nil => simp [pathSize, nPeer]
  | cons t ts ih =>
    cases secs with
    | nil => simp at h
    | cons s ss =>
      simp only [List.length_cons] at h
      have := ih ss (by omega) (fun t' h' => ht t' (by simp [h']))
      have h1 := ht t (by simp)
      cases t with
      | mixnodeIndex i => simp [pathSize, encTarget, this, nPeer]; omega
      | peerId p =>
        have : p.length = 32 := h1
        simp [pathSize, encTarget, *, nPeer]; omega

theorem validPath_sized {keys : List KxSecret} {targets : List Target} (h : ValidPath keys targets) :
    ∀ t ∈ targets, t.Sized := by
  intro t ht
  have := h.target t ht
  cases t <;> exact this

theorem header_size {keys : List KxSecret} {targets : List Target} (h : ValidPath keys targets)
    (secs : List SharedSecret) (hs : secs.length = keys.length) (kind : PacketKind) (hk : kind.Sized) :
    pathSize (targets.zip secs) + (encKind kind).length ≤ 140 := by
  rw [pathSize_zip _ _ (by have := h.length; omega) (validPath_sized h)]
  have h1 := h.length
  have h2 := h.hops
  have h3 : nPeer targets ≤ 1 := h.onePeerId
  have := encKind_le kind hk
  omega

/-! ### Building -/

/-- The random bytes `fill_bytes` leaves. -/
theorem fillBytes_snd (rng : Rng) (n : Nat) : (rng.fillBytes n).2 = fun k => rng (k + n) := rfl

/-- What `build_header` returns. -/
theorem buildHeader_spec {C : Crypto} (hC : CryptoLaws C) (header : Bytes) (hh : header.length = 188)
    (rng : Rng) (keys : List KxSecret) (targets : List Target) (hp : ValidPath keys targets)
    (kind : PacketKind) (hk : kind.Sized) :
    let x := C.scalarOfClamped (Crypto.genKxSecret rng).1
    let secs := hopSecrets C x keys
    let L := targets.zip secs
    ∃ (lastSec : SharedSecret) (filler : Bytes) (rng' : Rng),
      secs.getLast? = some lastSec ∧
      filler.length = 140 - (pathSize L + (encKind kind).length) ∧
      buildHeader C header rng targets (keys.map C.deriveKxPublic) kind =
        .ok (C.mulBase x ++ ((hdr C (encKind kind ++ filler) lastSec [] L).1 ++
          (hdr C (encKind kind ++ filler) lastSec [] L).2), secs,
          totalDelay (hopDelays C L), rng') := by
  intro x secs L
  have hsl : secs.length = keys.length := hopSecrets_length _ _ _
  have hsize := header_size hp secs hsl kind hk
  have hne : secs ≠ [] := by
    intro h; rw [h] at hsl; have := hp.length; simp at hsl; omega
  obtain ⟨lastSec, hlast⟩ : ∃ l, secs.getLast? = some l := by
    rw [List.getLast?_eq_some_getLast hne]; exact ⟨_, rfl⟩
  have hgen : C.genSecretsLoop (keys.map C.deriveKxPublic) 0 x (C.deriveKxPublic (Crypto.genKxSecret rng).1) []
      = .ok secs := by
    rw [Crypto.deriveKxPublic, hC.mulBaseClamped]
    exact genSecrets_spec hC keys x (by have := hp.hops; omega)
  have hL : ∀ y ∈ L, y.1.Sized := by
    intro y hy
    exact validPath_sized hp _ (List.of_mem_zip (show (y.1, y.2) ∈ _ from hy)).1
  have hLl : L.length ≤ 5 := by
    have h1 := hp.length
    have h2 := hp.hops
    simp only [L, List.length_zip]; omega
  let s0 : BuildState C := ⟨header.drop KX_PUBLIC_SIZE, 0, C.delayZero, [],
    List.replicate (ACTIONS_SIZE - RAW_ACTION_SIZE) 0⟩
  have hs0 : FwdInv C s0 [] := ⟨by simp only [s0, List.length_drop, hh]; csimp, rfl, rfl⟩
  obtain ⟨H, s1, s2, pad', hf, hh1, hd1, hl, hh2, hd2, hbk, -, -⟩ :=
    header_core hC kind lastSec (Crypto.genKxSecret rng).2 hk L hL s0 [] hs0 (by simpa [L] using hsize) (by
      simpa [s0] using hLl)
  refine ⟨lastSec, ((Crypto.genKxSecret rng).2.fillBytes (140 - (pathSize L + (encKind kind).length))).1,
    ((Crypto.genKxSecret rng).2.fillBytes (140 - (0 + pathSize L + (encKind kind).length))).2,
    hlast, by simp, ?_⟩
  unfold buildHeader
  rw [assertP_ok _ (by rw [List.length_map]; exact hp.length.symm), res_bind_ok,
    assertP_ok _ (by rw [List.length_map]; exact hp.hops), res_bind_ok]
  unfold Crypto.genKxPublicAndSharedSecrets
  simp only
  rw [hgen]
  simp only [res_bind_ok]
  rw [show buildForward C (targets.zip secs) _ = _ from hf]
  simp only [res_bind_ok, hlast, expectSome]
  rw [hl]
  simp only [res_bind_ok]
  rw [hh2, hh1]
  simp only [s0, List.nil_append]
  rw [hbk]
  simp only [res_bind_ok, hd2, hd1, List.length_nil, List.take_zero, List.nil_append, Nat.zero_add]
  rw [Crypto.deriveKxPublic, hC.mulBaseClamped]
  rfl

/-! ### The journey -/

theorem fromLe16_toLe16 (n : Nat) (h : n < 65536) : fromLe16 (toLe16 n) = n := by
  simp only [fromLe16, toLe16, List.getD_cons_zero, List.getD_cons_succ]
  simp
  omega

theorem slice_zero_append {α} (a b : List α) (n : Nat) (h : a.length = n) : slice (a ++ b) 0 n = a := by
  have := slice_mid [] a b 0 n rfl h
  simpa using this

theorem slice_le16 (n : Nat) (rest : Bytes) : slice (toLe16 n ++ rest) 0 2 = toLe16 n :=
  slice_zero_append _ _ _ rfl

theorem slice_after_le16 (n : Nat) (id rest : Bytes) (k : Nat) (h : id.length = k) :
    slice (toLe16 n ++ id ++ rest) 2 k = id := slice_mid _ _ _ _ _ rfl h

/-- Decryption of a header layer. -/
theorem dec_layer (C : Crypto) (sec : SharedSecret) (plain F : Bytes) (hl : plain.length + F.length = 140) :
    decActions C (applyKeystream plain (hopKs C sec) ++ F) sec =
      plain ++ applyKeystream (F ++ List.replicate 50 0) ((hopKs C sec).drop (140 - F.length)) := by
  have e : 140 - F.length = plain.length := by omega
  rw [decActions, List.append_assoc, applyKeystream_append, applyKeystream_cancel, applyKeystream_length, e]

theorem pad_layer (C : Crypto) (sec : SharedSecret) (t : Target) (F : Bytes) (ht : (encTarget t).length ≤ 34) :
    ∃ junk, applyKeystream (F ++ List.replicate 50 0) ((hopKs C sec).drop (140 - F.length)) =
      nextPad C sec t F ++ junk := by
  have e : (50 : Nat) = ((encTarget t).length + 16) + (34 - (encTarget t).length) := by omega
  rw [e, ← List.replicate_append_replicate, ← List.append_assoc, applyKeystream_append]
  exact ⟨_, rfl⟩

/-- The payload as the last hop receives it, and as it is after the last hop's decryption. -/
def peelPayload (C : Crypto) (secs : List SharedSecret) (p : Bytes) : Bytes :=
  secs.foldl (fun p s => C.decryptPayload p (C.payloadEncryptionKey s)) p

/-- What the last hop ends with, for each kind, given the payload it receives. -/
def Final (C : Crypto) (kind : PacketKind) (lastSec : SharedSecret) (p : Bytes) (out : Bytes) (a : Action C) : Prop :=
  match kind with
  | .request => a = .deliverRequest ∧ out.take 2064 = C.decryptPayload p (C.payloadEncryptionKey lastSec)
  | .reply id => a = .deliverReply id ∧ out.take 2064 = p
  | .cover id => a = .deliverCover id

theorem travel {C : Crypto} (hC : CryptoLaws C) (kind : PacketKind) (hk : kind.Sized) (filler : Bytes)
    (lastSec : SharedSecret) (keys : List KxSecret) (targets : List Target) (x : C.Scalar) (F payload : Bytes)
    (hlen : keys.length = targets.length + 1) (ht : ∀ t ∈ targets, t.Sized)
    (hlast : (hopSecrets C x keys).getLast? = some lastSec) (hpl : payload.length = 2064)
    (hsize : F.length + (pathSize (targets.zip (hopSecrets C x keys)) + (encKind kind ++ filler).length) = 140)
    (htag : kind = .request → slice (peelPayload C (hopSecrets C x keys) payload) 2048 16 = PAYLOAD_TAG) :
    Travels C (C.mulBase x ++
        (hdr C (encKind kind ++ filler) lastSec F (targets.zip (hopSecrets C x keys))).1 ++
        ((hdr C (encKind kind ++ filler) lastSec F (targets.zip (hopSecrets C x keys))).2 ++ F) ++ payload)
      keys targets (hopDelays C (targets.zip (hopSecrets C x keys)))
      (Final C kind lastSec (peelPayload C (hopSecrets C x keys).dropLast payload)) := by
  induction targets generalizing keys x F payload with
  | nil =>
    match keys, hlen with
    | [key], _ =>
      simp only [hopSecrets, List.getLast?_singleton, Option.some.injEq] at hlast
      simp only [List.zip_nil_left, pathSize, Nat.zero_add] at hsize
      simp only [hopDelays, List.zip_nil_left, List.map_nil, Travels, hopSecrets, List.dropLast_singleton]
      intro old hold
      have parts : Parts (C.mulBase x ++ (hdr C (encKind kind ++ filler) lastSec F []).1 ++
          ((hdr C (encKind kind ++ filler) lastSec F []).2 ++ F) ++ payload) (C.mulBase x)
          (hdr C (encKind kind ++ filler) lastSec F []).1
          ((hdr C (encKind kind ++ filler) lastSec F []).2 ++ F) payload :=
        ⟨rfl, hC.mulBase_length _, hdr_mac_length hC _ _ _ _, by
          rw [List.length_append, hdr_length hC]; simp only [pathSize]; omega, hpl⟩
      have hkx : kxPublicOf (C.mulBase x ++ (hdr C (encKind kind ++ filler) lastSec F []).1 ++
          ((hdr C (encKind kind ++ filler) lastSec F []).2 ++ F) ++ payload) = C.mulBase x := parts.slice_kx
      rw [hkx, hlast]
      have hmac : C.blakeMac (C.macKey lastSec) ((hdr C (encKind kind ++ filler) lastSec F []).2 ++ F) =
          (hdr C (encKind kind ++ filler) lastSec F []).1 := rfl
      obtain ⟨hreq, hrep, hcov, hcovid, -⟩ := (peel_eq hC lastSec parts hold).2 hmac _ rfl
      have hdec := dec_layer C lastSec (encKind kind ++ filler) F (by omega)
      have hE : (hdr C (encKind kind ++ filler) lastSec F []).2 =
        applyKeystream (encKind kind ++ filler) (hopKs C lastSec) := rfl
      rw [hE, hdec] at hreq hrep hcov hcovid
      rcases kind with _ | id | _ | id
      · have hc : fromLe16 (slice (encKind PacketKind.request ++ filler ++
            applyKeystream (F ++ List.replicate 50 0) ((hopKs C lastSec).drop (140 - F.length))) 0 2)
            = 0xff01 := by
          rw [List.append_assoc, encKind, slice_le16, fromLe16_toLe16 _ (by decide)]
        obtain ⟨out', h1, h2, h3⟩ := hreq hc
        have htag' := htag rfl
        simp only [hopSecrets, hlast, peelPayload, List.foldl_cons, List.foldl_nil] at htag'
        rw [if_pos htag'] at h3
        exact ⟨out', _, h3, rfl, h2⟩
      · have hid : id.length = 16 := hk
        have hc : fromLe16 (slice (encKind (PacketKind.reply id) ++ filler ++
            applyKeystream (F ++ List.replicate 50 0) ((hopKs C lastSec).drop (140 - F.length))) 0 2)
            = 0xff02 := by
          rw [encKind, List.append_assoc, List.append_assoc, slice_le16,
            fromLe16_toLe16 _ (by decide)]
        obtain ⟨out', h1, h2, h3⟩ := hrep hc
        have hs : slice (encKind (PacketKind.reply id) ++ filler ++
            applyKeystream (F ++ List.replicate 50 0) ((hopKs C lastSec).drop (140 - F.length))) 2 16 = id := by
          rw [encKind, List.append_assoc, slice_after_le16 _ _ _ _ hid]
        rw [hs] at h3
        exact ⟨out', _, h3, rfl, h2⟩
      · have hc : fromLe16 (slice (encKind (PacketKind.cover none) ++ filler ++
            applyKeystream (F ++ List.replicate 50 0) ((hopKs C lastSec).drop (140 - F.length))) 0 2)
            = 0xff03 := by
          rw [List.append_assoc, encKind, slice_le16, fromLe16_toLe16 _ (by decide)]
        obtain ⟨out', h1, h3⟩ := hcov hc
        exact ⟨out', _, h3, rfl⟩
      · have hid : id.length = 16 := hk
        have hc : fromLe16 (slice (encKind (PacketKind.cover (some id)) ++ filler ++
            applyKeystream (F ++ List.replicate 50 0) ((hopKs C lastSec).drop (140 - F.length))) 0 2)
            = 0xff04 := by
          rw [encKind, List.append_assoc, List.append_assoc, slice_le16,
            fromLe16_toLe16 _ (by decide)]
        obtain ⟨out', h1, h3⟩ := hcovid hc
        have hs : slice (encKind (PacketKind.cover (some id)) ++ filler ++
            applyKeystream (F ++ List.replicate 50 0) ((hopKs C lastSec).drop (140 - F.length))) 2 16 = id := by
          rw [encKind, List.append_assoc, slice_after_le16 _ _ _ _ hid]
        rw [hs] at h3
        exact ⟨out', _, h3, rfl⟩
  | cons t ts ih =>
    match keys, hlen with
    | key :: keys, hlen =>
      simp only [List.length_cons] at hlen
      have ht1 : t.Sized := ht t (by simp)
      have het := encTarget_le t ht1
      -- abbreviations
      obtain ⟨sec, hsec⟩ : ∃ sec, sec = C.deriveKxSharedSecret (C.mulBase x) key := ⟨_, rfl⟩
      obtain ⟨x', hx'⟩ : ∃ x', x' = C.scalarMul x
        (C.scalarOfClamped (C.deriveKxBlindingFactor (C.mulBase x) sec)) := ⟨_, rfl⟩
      have hsecs : hopSecrets C x (key :: keys) = sec :: hopSecrets C x' keys := by
        simp only [hopSecrets, hx', hsec]
      have hne : hopSecrets C x' keys ≠ [] := by
        intro h
        have := hopSecrets_length C x' keys
        rw [h] at this; simp at this; omega
      rw [hsecs] at hlast hsize htag ⊢
      simp only [List.zip_cons_cons] at hsize ⊢
      rw [List.getLast?_cons_of_ne_nil hne] at hlast
      rw [List.dropLast_cons_of_ne_nil hne]
      simp only [pathSize] at hsize
      obtain ⟨m, hM⟩ : ∃ m, m = hdr C (encKind kind ++ filler) lastSec (nextPad C sec t F)
        (ts.zip (hopSecrets C x' keys)) := ⟨_, rfl⟩
      have hm1 : m.1.length = 16 := by rw [hM]; exact hdr_mac_length hC _ _ _ _
      have hm2 : m.2.length = pathSize (ts.zip (hopSecrets C x' keys)) + (encKind kind ++ filler).length := by
        rw [hM, hdr_length hC]
      have hdrE : hdr C (encKind kind ++ filler) lastSec F ((t, sec) :: ts.zip (hopSecrets C x' keys)) =
          (C.computeMac (applyKeystream (encTarget t ++ m.1 ++ m.2) (hopKs C sec)) F (C.macKey sec),
            applyKeystream (encTarget t ++ m.1 ++ m.2) (hopKs C sec)) := by
        simp only [hdr, hM]
      rw [hdrE]
      simp only [hopDelays, List.map_cons, Travels]
      intro old hold
      have hpl1 : (encTarget t ++ m.1 ++ m.2).length + F.length = 140 := by
        simp only [List.length_append, hm1, hm2] at hsize ⊢; omega
      have parts : Parts (C.mulBase x ++ C.computeMac (applyKeystream (encTarget t ++ m.1 ++ m.2) (hopKs C sec)) F
            (C.macKey sec) ++ (applyKeystream (encTarget t ++ m.1 ++ m.2) (hopKs C sec) ++ F) ++ payload)
          (C.mulBase x) (C.computeMac (applyKeystream (encTarget t ++ m.1 ++ m.2) (hopKs C sec)) F (C.macKey sec))
          (applyKeystream (encTarget t ++ m.1 ++ m.2) (hopKs C sec) ++ F) payload :=
        ⟨rfl, hC.mulBase_length _, hC.blakeMac_length _ _, by
          rw [List.length_append, applyKeystream_length]; exact hpl1, hpl⟩
      have hkx := parts.slice_kx
      rw [show kxPublicOf _ = _ from hkx, ← hsec]
      obtain ⟨-, -, -, -, hpeer, hmix, -⟩ := (peel_eq hC sec parts hold).2 rfl _ rfl
      have hdec := dec_layer C sec (encTarget t ++ m.1 ++ m.2) F hpl1
      obtain ⟨junk, hj⟩ := pad_layer C sec t F het.2
      rw [hj] at hdec
      have hnl := nextPad_length C sec t F
      have hm12 : (m.1 ++ m.2 ++ nextPad C sec t F).length = 156 := by
        simp only [List.length_append] at hpl1 ⊢; omega
      have hnext : nextPacket C (C.mulBase x) (applyKeystream (encTarget t ++ m.1 ++ m.2) (hopKs C sec) ++ F)
          payload sec (encTarget t).length =
          C.mulBase x' ++ m.1 ++ (m.2 ++ nextPad C sec t F) ++
            C.decryptPayload payload (C.payloadEncryptionKey sec) := by
        rw [nextPacket, hdec]
        rw [show encTarget t ++ m.1 ++ m.2 ++ (nextPad C sec t F ++ junk) =
          encTarget t ++ (m.1 ++ m.2 ++ nextPad C sec t F) ++ junk by simp only [List.append_assoc],
          slice_mid _ _ _ _ _ rfl hm12, Crypto.blindKxPublic, hC.mulClamped_mulBase, ← hx']
        simp only [List.append_assoc]
      have hdp : (C.decryptPayload payload (C.payloadEncryptionKey sec)).length = 2064 :=
        hC.decrypt_length _ _ hpl
      have hrec := ih keys x' (nextPad C sec t F) (C.decryptPayload payload (C.payloadEncryptionKey sec))
        (by omega) (fun t' h' => ht t' (by simp [h'])) hlast hdp (by rw [hnl]; omega) (by
          intro h
          have := htag h
          simpa only [peelPayload, List.foldl_cons] using this)
      rw [← hM] at hrec
      have hfin : peelPayload C (sec :: (hopSecrets C x' keys).dropLast) payload =
        peelPayload C (hopSecrets C x' keys).dropLast (C.decryptPayload payload (C.payloadEncryptionKey sec)) := by
        simp only [peelPayload, List.foldl_cons]
      rw [hfin]
      refine ⟨C.mulBase x' ++ m.1 ++ (m.2 ++ nextPad C sec t F) ++
            C.decryptPayload payload (C.payloadEncryptionKey sec), ?_, ?_, hrec⟩
      · rw [hdec] at hpeer hmix
        cases t with
        | mixnodeIndex i =>
          have hi : i ≤ 65279 := ht1
          have hc : fromLe16 (slice (encTarget (Target.mixnodeIndex i) ++ m.1 ++ m.2 ++
              (nextPad C sec (Target.mixnodeIndex i) F ++ junk)) 0 2) = i := by
            rw [List.append_assoc, List.append_assoc, encTarget, slice_le16,
              fromLe16_toLe16 _ (by omega)]
          rw [hc] at hmix
          have := hmix hi
          rw [show (2 : Nat) = (encTarget (Target.mixnodeIndex i)).length from rfl, hnext] at this
          exact this
        | peerId p =>
          have hp : p.length = 32 := ht1
          have hc : fromLe16 (slice (encTarget (Target.peerId p) ++ m.1 ++ m.2 ++
              (nextPad C sec (Target.peerId p) F ++ junk)) 0 2) = 0xff00 := by
            rw [encTarget, List.append_assoc, List.append_assoc, List.append_assoc,
              slice_le16, fromLe16_toLe16 _ (by decide)]
          have hs : slice (encTarget (Target.peerId p) ++ m.1 ++ m.2 ++
              (nextPad C sec (Target.peerId p) F ++ junk)) 2 32 = p := by
            rw [encTarget, List.append_assoc, List.append_assoc, slice_after_le16 _ _ _ _ hp]
          have := hpeer hc
          rw [hs, show (34 : Nat) = (encTarget (Target.peerId p)).length by simp [encTarget, hp], hnext] at this
          exact this
      · simp only [List.length_append] at hm12 ⊢
        rw [hC.mulBase_length, hdp]; csimp; omega

end Mixnet
