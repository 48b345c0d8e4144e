import Verif.Proofs.SphinxTravel
/-! Payload layers. -/
namespace Mixnet
open Spec

theorem decrypt_layers {C : Crypto} (hC : CryptoLaws C) (secs : List SharedSecret) (p : Bytes)
    (hp : p.length = PAYLOAD_SIZE) :
    peelPayload C secs (secs.foldr (fun sec p => C.encryptPayload p (C.payloadEncryptionKey sec)) p) = p ∧
    (secs.foldr (fun sec p => C.encryptPayload p (C.payloadEncryptionKey sec)) p).length = PAYLOAD_SIZE := by
  induction secs with
  | nil => exact ⟨rfl, hp⟩
  | cons s ss ih =>
    constructor
    · simp only [peelPayload, List.foldl_cons, List.foldr_cons]
      rw [show C.decryptPayload (C.encryptPayload _ _) _ = _ from hC.decrypt_encrypt _ _ ih.2]
      exact ih.1
    · exact hC.encrypt_length _ _ ih.2

theorem encrypt_layers {C : Crypto} (hC : CryptoLaws C) (secs : List SharedSecret) (p : Bytes)
    (hp : p.length = PAYLOAD_SIZE) :
    (secs.map C.payloadEncryptionKey).foldr (fun key p => C.encryptPayload p key) (peelPayload C secs p) = p := by
  induction secs generalizing p with
  | nil => rfl
  | cons s ss ih =>
    simp only [peelPayload, List.foldl_cons, List.map_cons, List.foldr_cons]
    rw [show List.foldl (fun p s => C.decryptPayload p (C.payloadEncryptionKey s)) _ ss = peelPayload C ss _ from rfl,
      ih (C.decryptPayload p (C.payloadEncryptionKey s)) (hC.decrypt_length _ _ hp)]
    exact hC.encrypt_decrypt _ _ hp

theorem tagged_payload (packet : Bytes) (hp : packet.length = PACKET_SIZE) :
    arraySet "payload tag" (packet.drop HEADER_SIZE) PAYLOAD_DATA_SIZE PAYLOAD_TAG =
      .ok (payloadData packet ++ PAYLOAD_TAG) ∧ (payloadData packet).length = 2048 := by
  csimp at hp
  obtain ⟨a, b, c, e, ha, hb, hc⟩ := split3 packet 188 2048 (by omega)
  have h1 : packet.drop HEADER_SIZE = b ++ c := by
    csimp
    rw [e, List.append_assoc, List.drop_left' ha]
  have h2 : payloadData packet = b := by
    unfold payloadData
    csimp
    rw [e, slice_mid _ _ _ _ _ ha hb]
  have ht : PAYLOAD_TAG.length = 16 := List.length_replicate
  rw [h1, h2]
  refine ⟨?_, hb⟩
  rw [arraySet_ok _ _ _ _ (by rw [List.length_append]; csimp; omega)]
  csimp
  have := splice_mid b c [] PAYLOAD_TAG 2048 hb (by omega)
  rw [List.append_nil, List.append_nil] at this
  rw [this]

theorem take_data (data tag : Bytes) (out : Bytes) (hd : data.length = 2048)
    (h : out.take 2064 = data ++ tag) : out.take PAYLOAD_DATA_SIZE = data := by
  csimp
  have : out.take 2048 = (out.take 2064).take 2048 := by
    rw [List.take_take]; rfl
  rw [this, h, List.take_left' hd]

theorem dropLast_foldl {α β} (f : β → α → β) (l : List α) (a : α) (h : l.getLast? = some a) (b : β) :
    f (l.dropLast.foldl f b) a = l.foldl f b := by
  have : l = l.dropLast ++ [a] := by
    have hne : l ≠ [] := by intro h'; simp [h'] at h
    rw [List.getLast?_eq_some_getLast hne] at h
    injection h with h
    rw [← h, List.dropLast_concat_getLast]
  conv => rhs; rw [this]
  simp

theorem travels_cons (C : Crypto) (packet : Bytes) (k : KxSecret) (ks : List KxSecret) (t : Target)
    (ts : List Target) (d : C.Delay) (ds : List C.Delay) (f : Bytes → Action C → Prop) :
    Travels C packet (k :: ks) (t :: ts) (d :: ds) f ↔
      ∀ old : Bytes, old.length = PACKET_SIZE →
        ∃ out, peel C old packet (C.deriveKxSharedSecret (kxPublicOf packet) k)
          = .ok (out, .ok (.forwardTo t d)) ∧ out.length = PACKET_SIZE ∧ Travels C out ks ts ds f := by
  simp only [Travels]

theorem travels_mono {C : Crypto} {packet : Bytes} {keys : List KxSecret} {targets : List Target}
    {delays : List C.Delay} {f g : Bytes → Action C → Prop} (hfg : ∀ o a, f o a → g o a) :
    Travels C packet keys targets delays f → Travels C packet keys targets delays g := by
  induction keys generalizing packet targets delays with
  | nil => intro h; cases targets <;> cases delays <;> simp [Travels] at h
  | cons k ks ih =>
    intro h
    match ks, targets, delays with
    | [], [], [] =>
      intro old ho
      obtain ⟨o, a, h1, h2⟩ := h old ho
      exact ⟨o, a, h1, hfg _ _ h2⟩
    | ks, t :: ts, d :: ds =>
      rw [travels_cons] at h ⊢
      intro old ho
      obtain ⟨o, h1, h2, h3⟩ := h old ho
      exact ⟨o, h1, h2, ih h3⟩
    | [], [], d :: ds => simp [Travels] at h
    | [], t :: ts, [] => simp [Travels] at h
    | k' :: ks, [], _ => simp [Travels] at h
    | k' :: ks, t :: ts, [] => simp [Travels] at h

end Mixnet
