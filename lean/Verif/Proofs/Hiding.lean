import Verif.Spec.Hiding
import Verif.Proofs.Wire
/-! What a hop reads is as random as the keystreams of its neighbours. -/
namespace Mixnet
open Spec

/-! ### `masked` -/

theorem masked_append (C : Crypto) (s : SharedSecret) (off : Nat) (a b : Bytes) :
    masked C s off (a ++ b) = masked C s off a ++ masked C s (off + a.length) b := by
  unfold masked
  rw [List.mapIdx_append]
  congr 1
  apply List.ext_getElem (by simp)
  intro i h1 h2
  simp only [List.getElem_mapIdx]
  congr 2
  omega

theorem masked_masked (C : Crypto) (s : SharedSecret) (off : Nat) (a : Bytes) :
    masked C s off (masked C s off a) = a := by
  apply List.ext_getElem (by simp [masked])
  intro i h1 h2
  simp only [masked, List.getElem_mapIdx]
  exact byte_xor_xor _ _

theorem masked_congr {C : Crypto} {ks1 ks2 : Keystreams} {s : SharedSecret} {off : Nat} {a : Bytes}
    (h : ∀ n, off ≤ n → n < off + a.length → ks1 (C.actionsEncryptionKey s) n = ks2 (C.actionsEncryptionKey s) n) :
    masked (withKeystreams C ks1) s off a = masked (withKeystreams C ks2) s off a := by
  apply List.ext_getElem (by simp [masked])
  intro i h1 h2
  simp only [masked, List.length_mapIdx] at h1
  simp only [masked, List.getElem_mapIdx]
  exact congrArg _ (h _ (by omega) (by omega))

theorem byte_xor_cancel {a b c : Byte} (h : a ^^^ b = a ^^^ c) : b = c := by
  have h1 := byte_xor_xor b a
  have h2 := byte_xor_xor c a
  rw [UInt8.xor_comm b a] at h1
  rw [UInt8.xor_comm c a] at h2
  rw [← h1, h, h2]

theorem masked_inj {C : Crypto} {ks1 ks2 : Keystreams} {s : SharedSecret} {off : Nat} {a : Bytes}
    (h : masked (withKeystreams C ks1) s off a = masked (withKeystreams C ks2) s off a) {n : Nat} (h1 : off ≤ n)
    (h2 : n < off + a.length) : ks1 (C.actionsEncryptionKey s) n = ks2 (C.actionsEncryptionKey s) n := by
  have hl : ∀ ks, n - off < (masked (withKeystreams C ks) s off a).length := fun ks => by simp [masked]; omega
  have := List.getElem_of_eq h (hl ks1)
  simp only [masked, List.getElem_mapIdx] at this
  have := byte_xor_cancel this
  rw [show off + (n - off) = n by omega] at this
  exact this

/-- The keystreams changed so that `a` is masked to `d`. -/
def patch (ks : Keystreams) (key : Bytes) (off : Nat) (a d : Bytes) : Keystreams := fun k n =>
  if k = key ∧ off ≤ n ∧ n < off + a.length then a.getD (n - off) 0 ^^^ d.getD (n - off) 0 else ks k n

theorem patch_masks (C : Crypto) (ks : Keystreams) (s : SharedSecret) (off : Nat) {a d : Bytes} (h : d.length = a.length) :
    masked (withKeystreams C (patch ks (C.actionsEncryptionKey s) off a d)) s off a = d := by
  apply List.ext_getElem (by simp [masked, h])
  intro i h1 h2
  simp only [masked, List.getElem_mapIdx]
  show a[i] ^^^ patch ks (C.actionsEncryptionKey s) off a d (C.actionsEncryptionKey s) (off + i) = d[i]
  rw [patch, if_pos ⟨rfl, by omega, by omega⟩, Nat.add_sub_cancel_left, ← List.getElem_eq_getD (h := by omega),
    ← List.getElem_eq_getD (h := h2), ← UInt8.xor_assoc, UInt8.xor_self, UInt8.zero_xor]

theorem patch_elsewhere {ks : Keystreams} {key : Bytes} {off : Nat} {a d : Bytes} {k : Bytes} {n : Nat}
    (h : ¬(k = key ∧ off ≤ n ∧ n < off + a.length)) : patch ks key off a d k n = ks k n := if_neg h

/-! ### Padding -/

/-- The padding after some hops. -/
def padOf (C : Crypto) : Bytes → List (Target × SharedSecret) → Bytes
  | pad, [] => pad
  | pad, (t, s) :: hops =>
    padOf C (masked C s (140 - pad.length) (pad ++ List.replicate ((forwardAction t).length + 16) 0)) hops

def hopsSize (hops : List (Target × SharedSecret)) : Nat := (hops.map fun x => (forwardAction x.1).length + 16).sum

theorem padOf_length (C : Crypto) : ∀ (hops : List (Target × SharedSecret)) (pad : Bytes),
    (padOf C pad hops).length = pad.length + hopsSize hops
  | [], pad => rfl
  | (t, s) :: hops, pad => by
    rw [padOf, padOf_length C hops]
    simp only [masked_length, List.length_append, List.length_replicate, hopsSize, List.map_cons, List.sum_cons]
    omega

theorem padOf_append (C : Crypto) : ∀ (a b : List (Target × SharedSecret)) (pad : Bytes),
    padOf C pad (a ++ b) = padOf C (padOf C pad a) b
  | [], b, pad => rfl
  | (t, s) :: a, b, pad => by rw [List.cons_append, padOf, padOf_append C a, padOf]

theorem padOf_congr {C : Crypto} {ks1 ks2 : Keystreams} : ∀ (hops : List (Target × SharedSecret)) (pad : Bytes),
    (∀ x ∈ hops, ∀ n, ks1 (C.actionsEncryptionKey x.2) n = ks2 (C.actionsEncryptionKey x.2) n) →
    padOf (withKeystreams C ks1) pad hops = padOf (withKeystreams C ks2) pad hops
  | [], pad, _ => rfl
  | (t, s) :: hops, pad, h => by
    rw [padOf, padOf, masked_congr (fun n _ _ => h (t, s) (by simp) n)]
    exact padOf_congr hops _ fun x hx => h x (List.mem_cons_of_mem _ hx)

theorem hopsSize_append (a b : List (Target × SharedSecret)) : hopsSize (a ++ b) = hopsSize a + hopsSize b := by
  simp [hopsSize]

/-! ### Layers -/

theorem layers_congr {C : Crypto} {ks1 ks2 : Keystreams} {last : Bytes} {lastSec : SharedSecret}
    (hl : ∀ n, ks1 (C.actionsEncryptionKey lastSec) n = ks2 (C.actionsEncryptionKey lastSec) n) :
    ∀ (hops : List (Target × SharedSecret)) (pad : Bytes),
    (∀ x ∈ hops, ∀ n, ks1 (C.actionsEncryptionKey x.2) n = ks2 (C.actionsEncryptionKey x.2) n) →
    layers (withKeystreams C ks1) last lastSec pad hops = layers (withKeystreams C ks2) last lastSec pad hops
  | [], pad, _ => by
    unfold layers
    rw [masked_congr (fun n _ _ => hl n)]
    rfl
  | (t, s) :: hops, pad, h => by
    have hs := h (t, s) (by simp)
    have e : masked (withKeystreams C ks1) s (140 - pad.length) (pad ++ List.replicate ((forwardAction t).length + 16) 0) =
        masked (withKeystreams C ks2) s (140 - pad.length) (pad ++ List.replicate ((forwardAction t).length + 16) 0) :=
      masked_congr fun n _ _ => hs n
    have ih := layers_congr (last := last) hl hops (masked (withKeystreams C ks2) s (140 - pad.length)
      (pad ++ List.replicate ((forwardAction t).length + 16) 0)) fun x hx => h x (List.mem_cons_of_mem _ hx)
    unfold layers
    dsimp only
    rw [e, ih, masked_congr (fun n _ _ => hs n)]
    rfl

theorem layers_mac_length {C : Crypto} (hC : CryptoLaws C) (last : Bytes) (lastSec : SharedSecret) (pad : Bytes)
    (hops : List (Target × SharedSecret)) : (layers C last lastSec pad hops).1.length = 16 := by
  rcases hops with _ | ⟨⟨t, s⟩, hops⟩ <;> simp [layers, hC.blakeMac_length]

theorem layers_length {C : Crypto} (hC : CryptoLaws C) (last : Bytes) (lastSec : SharedSecret) :
    ∀ (hops : List (Target × SharedSecret)) (pad : Bytes),
    (layers C last lastSec pad hops).2.length = hopsSize hops + last.length
  | [], pad => by simp [layers, masked_length, hopsSize]
  | (t, s) :: hops, pad => by
    have := layers_length hC last lastSec hops
    simp [layers, masked_length, hopsSize, layers_mac_length hC] at this ⊢
    rw [this]; omega

/-- The plain text of the actions of a hop. -/
def plainOf (C : Crypto) (last : Bytes) (lastSec : SharedSecret) (pad : Bytes) : List (Target × SharedSecret) → Bytes
  | [] => last
  | (t, s) :: hops =>
    let next := layers C last lastSec (masked C s (140 - pad.length)
      (pad ++ List.replicate ((forwardAction t).length + 16) 0)) hops
    forwardAction t ++ next.1 ++ next.2

def secOf (lastSec : SharedSecret) : List (Target × SharedSecret) → SharedSecret
  | [] => lastSec
  | (_, s) :: _ => s

theorem layers_plain (C : Crypto) (last : Bytes) (lastSec : SharedSecret) (pad : Bytes) (hops : List (Target × SharedSecret)) :
    (layers C last lastSec pad hops).2 = masked C (secOf lastSec hops) 0 (plainOf C last lastSec pad hops) := by
  rcases hops with _ | ⟨⟨t, s⟩, hops⟩ <;> rfl

theorem layers_mac (C : Crypto) (last : Bytes) (lastSec : SharedSecret) (pad : Bytes) (hops : List (Target × SharedSecret)) :
    (layers C last lastSec pad hops).1 =
      C.blakeMac (C.macKey (secOf lastSec hops)) ((layers C last lastSec pad hops).2 ++ pad) := by
  rcases hops with _ | ⟨⟨t, s⟩, hops⟩ <;> rfl

theorem plainOf_length {C : Crypto} (hC : CryptoLaws C) (last : Bytes) (lastSec : SharedSecret) (pad : Bytes)
    (hops : List (Target × SharedSecret)) :
    (plainOf C last lastSec pad hops).length = hopsSize hops + last.length := by
  rw [← layers_length hC last lastSec hops pad, layers_plain, masked_length]

/-! ### What arrives -/

structure HeadForm (C : Crypto) (last : Bytes) (lastSec : SharedSecret) (pad : Bytes) (hops : List (Target × SharedSecret))
    (packet : Bytes) : Prop where
  form : ∃ pub payload, packet = pub ++ (layers C last lastSec pad hops).1 ++ ((layers C last lastSec pad hops).2 ++ pad) ++
    payload ∧ pub.length = 32
  size : hopsSize hops + last.length + pad.length = 140

theorem HeadForm.actions {C : Crypto} (hC : CryptoLaws C) {last : Bytes} {lastSec : SharedSecret} {pad : Bytes}
    {hops : List (Target × SharedSecret)} {packet : Bytes} (h : HeadForm C last lastSec pad hops packet) :
    (packet.drop 48).take 140 = (layers C last lastSec pad hops).2 ++ pad ∧
    (packet.drop 32).take 16 = (layers C last lastSec pad hops).1 := by
  obtain ⟨⟨pub, payload, rfl, hpub⟩, hs⟩ := h
  have h1 := layers_mac_length hC last lastSec pad hops
  have h2 := layers_length hC last lastSec hops pad
  constructor
  · rw [List.append_assoc (pub ++ _), List.drop_append, List.drop_eq_nil_of_le (by rw [List.length_append]; omega),
      List.nil_append, List.length_append, show 48 - (pub.length + _) = 0 by omega, List.drop_zero,
      List.take_append_of_le_length (by rw [List.length_append]; omega), List.take_of_length_le (by rw [List.length_append]; omega)]
  · rw [List.append_assoc, List.append_assoc, List.drop_append, List.drop_eq_nil_of_le (by omega),
      List.nil_append, show 32 - pub.length = 0 by omega, List.drop_zero,
      List.take_append_of_le_length (by omega), List.take_of_length_le (by omega)]

theorem HeadForm.step {C : Crypto} (hC : CryptoLaws C) {last : Bytes} {lastSec : SharedSecret} {pad : Bytes} {t : Target}
    {s : SharedSecret} {hops : List (Target × SharedSecret)} {packet : Bytes}
    (h : HeadForm C last lastSec pad ((t, s) :: hops) packet) :
    HeadForm C last lastSec (padOf C pad [(t, s)]) hops (forwardedBytes C s t packet) := by
  have ha := (h.actions hC).1
  have hs := h.size
  simp only [hopsSize, List.map_cons, List.sum_cons] at hs
  refine ⟨⟨_, C.lionessDecrypt (C.payloadEncryptionKey s) ((packet.drop 188).take 2064), ?_,
    hC.mulClamped_length (packet.take 32) (C.deriveKxBlindingFactor (packet.take 32) s)⟩, ?_⟩
  · unfold forwardedBytes
    dsimp only
    rw [ha, layers]
    dsimp only [padOf]
    generalize hn : layers C last lastSec _ hops = next
    have hnl : next.2.length = hopsSize hops + last.length := by rw [← hn, layers_length hC]
    have hnm : next.1.length = 16 := by rw [← hn, layers_mac_length hC]
    rw [List.append_assoc (masked C s 0 _), masked_append, masked_masked, masked_length, Nat.zero_add]
    have e : (forwardAction t ++ next.1 ++ next.2).length = 140 - pad.length := by
      simp only [List.length_append, hnl, hnm, hopsSize]; omega
    rw [e, List.append_assoc (forwardAction t), List.append_assoc (forwardAction t), List.drop_left]
    simp only [List.append_assoc]
  · rw [padOf_length]
    simp only [hopsSize, List.map_cons, List.map_nil, List.sum_cons, List.sum_nil] at hs ⊢
    omega

theorem HeadForm.steps {C : Crypto} (hC : CryptoLaws C) {last : Bytes} {lastSec : SharedSecret} :
    ∀ (pre : List (Target × SharedSecret)) {pad : Bytes} {post : List (Target × SharedSecret)} {packet : Bytes},
    HeadForm C last lastSec pad (pre ++ post) packet →
    HeadForm C last lastSec (padOf C pad pre) post (pre.foldl (fun p hop => forwardedBytes C hop.2 hop.1 p) packet)
  | [], _, _, _, h => h
  | (t, s) :: pre, pad, post, packet, h => HeadForm.steps hC pre (HeadForm.step hC h)

/-- What a forwarding hop reads. -/
theorem HeadForm.reads {C : Crypto} (hC : CryptoLaws C) {last : Bytes} {lastSec : SharedSecret} {pad : Bytes} {t : Target}
    {s : SharedSecret} {hops : List (Target × SharedSecret)} {packet : Bytes}
    (h : HeadForm C last lastSec pad ((t, s) :: hops) packet) :
    shown C s packet = forwardAction t ++ (layers C last lastSec (padOf C pad [(t, s)]) hops).1 ++
      ((layers C last lastSec (padOf C pad [(t, s)]) hops).2 ++ masked C s (140 - pad.length) pad) := by
  have hs := h.size
  have hl := layers_length hC last lastSec ((t, s) :: hops) pad
  unfold shown
  rw [(h.actions hC).1, masked_append, hl, Nat.zero_add, show hopsSize ((t, s) :: hops) + last.length = 140 - pad.length by omega]
  rw [layers_plain, secOf, masked_masked, plainOf]
  simp only [padOf, List.append_assoc]

/-- What the last hop reads. -/
theorem HeadForm.reads_last {C : Crypto} (hC : CryptoLaws C) {last : Bytes} {lastSec : SharedSecret} {pad : Bytes}
    {packet : Bytes} (h : HeadForm C last lastSec pad [] packet) :
    shown C lastSec packet = last ++ masked C lastSec (140 - pad.length) pad := by
  have hs := h.size
  have hl := layers_length hC last lastSec [] pad
  unfold shown
  rw [(h.actions hC).1, masked_append, hl, Nat.zero_add, show hopsSize [] + last.length = 140 - pad.length by omega]
  rw [layers_plain, secOf, masked_masked, plainOf]

/-! ### The window of the hop before -/

/-- The part of the keystream of the hop before that masks the padding. -/
def PrevW (C : Crypto) (pre : List (Target × SharedSecret)) (key : Bytes) (n : Nat) : Prop :=
  ∃ pre' t' s', pre = pre' ++ [(t', s')] ∧ key = C.actionsEncryptionKey s' ∧ 140 - hopsSize pre' ≤ n ∧
    n < 140 - hopsSize pre' + hopsSize pre

theorem PrevW.mem {C : Crypto} {pre : List (Target × SharedSecret)} {key : Bytes} {n : Nat} (h : PrevW C pre key n) :
    key ∈ pre.map fun x => C.actionsEncryptionKey x.2 := by
  obtain ⟨pre', t', s', rfl, rfl, -⟩ := h
  simp

theorem padOf_snoc (C : Crypto) (pre' : List (Target × SharedSecret)) (t' : Target) (s' : SharedSecret) :
    padOf C [] (pre' ++ [(t', s')]) = masked C s' (140 - hopsSize pre')
      (padOf C [] pre' ++ List.replicate ((forwardAction t').length + 16) 0) := by
  rw [padOf_append]
  simp only [padOf, padOf_length, List.length_nil, Nat.zero_add]

variable {C : Crypto}

theorem prev_exists {pre : List (Target × SharedSecret)} (hd : (pre.map fun x => C.actionsEncryptionKey x.2).Nodup)
    (ks : Keystreams) {D : Bytes} (hD : D.length = hopsSize pre) :
    ∃ ks' : Keystreams, (∀ key n, ¬PrevW C pre key n → ks' key n = ks key n) ∧ padOf (withKeystreams C ks') [] pre = D := by
  rcases List.eq_nil_or_concat pre with rfl | ⟨pre', ⟨t', s'⟩, rfl⟩
  · exact ⟨ks, fun _ _ _ => rfl, (List.eq_nil_of_length_eq_zero hD).symm⟩
  · rw [List.concat_eq_append] at hd hD ⊢
    have hlen : (padOf (withKeystreams C ks) [] pre' ++ List.replicate ((forwardAction t').length + 16) 0).length =
        hopsSize (pre' ++ [(t', s')]) := by
      rw [List.length_append, padOf_length, hopsSize_append]
      simp [hopsSize]
    refine ⟨patch ks (C.actionsEncryptionKey s') (140 - hopsSize pre')
      (padOf (withKeystreams C ks) [] pre' ++ List.replicate ((forwardAction t').length + 16) 0) D, ?_, ?_⟩
    · intro key n hn
      apply patch_elsewhere
      rintro ⟨rfl, h1, h2⟩
      exact hn ⟨pre', t', s', rfl, rfl, h1, by rw [hlen] at h2; exact h2⟩
    · generalize hq : padOf (withKeystreams C ks) [] pre' ++ List.replicate ((forwardAction t').length + 16) 0 = Q at hlen ⊢
      rw [padOf_snoc, padOf_congr (ks2 := ks), hq]
      · exact patch_masks C ks s' _ (by rw [hD, hlen])
      · intro x hx n
        apply patch_elsewhere
        rintro ⟨h, -⟩
        rw [List.map_append, List.nodup_append] at hd
        exact hd.2.2 _ (List.mem_map.2 ⟨x, hx, h⟩) _ (by simp) rfl

theorem prev_unique {pre : List (Target × SharedSecret)} (hd : (pre.map fun x => C.actionsEncryptionKey x.2).Nodup)
    {ks1 ks2 : Keystreams}
    (h : ∀ key ∈ pre.map fun x => C.actionsEncryptionKey x.2, ∀ n, ¬PrevW C pre key n → ks1 key n = ks2 key n)
    (hp : padOf (withKeystreams C ks1) [] pre = padOf (withKeystreams C ks2) [] pre) {key : Bytes} {n : Nat}
    (hw : PrevW C pre key n) : ks1 key n = ks2 key n := by
  obtain ⟨pre', t', s', rfl, rfl, h1, h2⟩ := hw
  rw [padOf_snoc, padOf_snoc, padOf_congr (ks1 := ks1) (ks2 := ks2)] at hp
  · exact masked_inj hp h1 (by
      rw [List.length_append, padOf_length]
      rw [hopsSize_append] at h2
      simpa [hopsSize] using h2)
  · intro x hx n
    refine h _ (List.mem_map.2 ⟨x, by simp [hx], rfl⟩) n ?_
    rintro ⟨q, t, s, e, hk, -⟩
    obtain ⟨rfl, e2⟩ := List.append_inj' e rfl
    cases e2
    rw [List.map_append, List.nodup_append] at hd
    exact hd.2.2 _ (List.mem_map.2 ⟨x, hx, hk⟩) _ (by simp) rfl

/-! ### The window of the hop after -/

theorem plainOf_congr {ks1 ks2 : Keystreams} {last : Bytes} {lastSec : SharedSecret} {hops : List (Target × SharedSecret)}
    {pad : Bytes} (hsz : hopsSize hops + last.length + pad.length = 140) {key0 : Bytes}
    (hkey0 : key0 = C.actionsEncryptionKey (secOf lastSec hops))
    (hd : (hops.map (fun x => C.actionsEncryptionKey x.2) ++ [C.actionsEncryptionKey lastSec]).Nodup)
    (h : ∀ key ∈ hops.map (fun x => C.actionsEncryptionKey x.2) ++ [C.actionsEncryptionKey lastSec], ∀ n,
      ¬(key = key0 ∧ n < 140 - pad.length) → ks1 key n = ks2 key n) :
    plainOf (withKeystreams C ks1) last lastSec pad hops = plainOf (withKeystreams C ks2) last lastSec pad hops := by
  rcases hops with _ | ⟨⟨t, s⟩, hops⟩
  · rfl
  · subst hkey0
    simp only [secOf, List.map_cons, List.cons_append, List.nodup_cons] at hd h
    have hne : ∀ key ∈ hops.map (fun x => C.actionsEncryptionKey x.2) ++ [C.actionsEncryptionKey lastSec], ∀ n,
        ks1 key n = ks2 key n := fun key hk n => h key (List.mem_cons_of_mem _ hk) n (by
      rintro ⟨rfl, -⟩; exact hd.1 hk)
    unfold plainOf
    dsimp only
    rw [masked_congr (ks2 := ks2) (fun n h1 _ => h _ (by simp) n (by omega)),
      layers_congr (ks2 := ks2) (fun n => hne _ (by simp) n) hops _
        (fun x hx n => hne _ (List.mem_append_left _ (List.mem_map.2 ⟨x, hx, rfl⟩)) n)]

theorem withKeystreams_laws (hC : CryptoLaws C) (ks : Keystreams) : CryptoLaws (withKeystreams C ks) := by
  obtain ⟨h1, h2, h3, h4, h5, h6, h7, h8, h9, h10, h11, h12, h13, h14, h15, h16, h17⟩ := hC
  exact ⟨h1, h2, h3, h4, h5, h6, h7, h8, h9, h10, h11, h12, h13, h14, h15, h16, h17⟩

/-! ### A forwarding hop -/

/-- What a forwarding hop reads beyond its action and the MAC. -/
def beyond (C : Crypto) (last : Bytes) (lastSec : SharedSecret) (pre : List (Target × SharedSecret)) (t : Target)
    (s : SharedSecret) (post : List (Target × SharedSecret)) : Bytes :=
  (layers C last lastSec (padOf C (padOf C [] pre) [(t, s)]) post).2 ++
    masked C s (140 - (padOf C [] pre).length) (padOf C [] pre)

/-- All keys of a path. -/
def keysOf (C : Crypto) (hops : List (Target × SharedSecret)) (lastSec : SharedSecret) : List Bytes :=
  hops.map (fun x => C.actionsEncryptionKey x.2) ++ [C.actionsEncryptionKey lastSec]

def NextW (C : Crypto) (lastSec : SharedSecret) (pre : List (Target × SharedSecret)) (t : Target) (s : SharedSecret)
    (post : List (Target × SharedSecret)) (key : Bytes) (n : Nat) : Prop :=
  key = C.actionsEncryptionKey (secOf lastSec post) ∧ n < 140 - hopsSize (pre ++ [(t, s)])

theorem secOf_mem (lastSec : SharedSecret) (post : List (Target × SharedSecret)) :
    C.actionsEncryptionKey (secOf lastSec post) ∈ keysOf C post lastSec := by
  rcases post with _ | ⟨⟨t, s⟩, post⟩ <;> simp [secOf, keysOf]

theorem beyond_unique (hC : CryptoLaws C) {last : Bytes} {lastSec : SharedSecret} {pre post : List (Target × SharedSecret)}
    {t : Target} {s : SharedSecret} (hsz : hopsSize (pre ++ (t, s) :: post) + last.length = 140)
    (hd : (keysOf C (pre ++ (t, s) :: post) lastSec).Nodup) (ks : Keystreams) {R : Bytes}
    (hR : R.length = 140 - ((forwardAction t).length + 16)) :
    ∃! ks' : Keystreams, (∀ key n, ¬(PrevW C pre key n ∨ NextW C lastSec pre t s post key n) → ks' key n = ks key n) ∧
      beyond (withKeystreams C ks') last lastSec pre t s post = R := by
  have hk : keysOf C (pre ++ (t, s) :: post) lastSec =
      pre.map (fun x => C.actionsEncryptionKey x.2) ++ (C.actionsEncryptionKey s :: keysOf C post lastSec) := by
    simp [keysOf]
  rw [hk, List.nodup_append, List.nodup_cons] at hd
  obtain ⟨hdpre, ⟨hs1, hdpost⟩, hdisj⟩ := hd
  have hpre : ∀ key ∈ pre.map (fun x => C.actionsEncryptionKey x.2), key ≠ C.actionsEncryptionKey (secOf lastSec post) :=
    fun key h1 h2 => hdisj _ h1 _ (List.mem_cons_of_mem _ (secOf_mem lastSec post)) h2
  have hsown : ∀ n, ¬(PrevW C pre (C.actionsEncryptionKey s) n ∨ NextW C lastSec pre t s post (C.actionsEncryptionKey s) n) := by
    rintro n (h | h)
    · exact hdisj _ h.mem _ (by simp) rfl
    · exact hs1 (h.1 ▸ secOf_mem lastSec post)
  have hsz' : hopsSize pre + ((forwardAction t).length + 16) + hopsSize post + last.length = 140 := by
    rw [hopsSize_append] at hsz
    simp only [hopsSize, List.map_cons, List.sum_cons] at hsz ⊢
    omega
  -- the two parts of `R`
  obtain ⟨R1, R2, rfl, hR1, hR2⟩ : ∃ R1 R2, R = R1 ++ R2 ∧ R1.length = hopsSize post + last.length ∧
      R2.length = hopsSize pre :=
    ⟨R.take (hopsSize post + last.length), R.drop (hopsSize post + last.length), (List.take_append_drop _ _).symm,
      by rw [List.length_take]; omega, by rw [List.length_drop]; omega⟩
  -- in terms of the two parts
  have hparts : ∀ ks' : Keystreams, (∀ n, ks' (C.actionsEncryptionKey s) n = ks (C.actionsEncryptionKey s) n) →
      (beyond (withKeystreams C ks') last lastSec pre t s post = R1 ++ R2 ↔
        padOf (withKeystreams C ks') [] pre = masked (withKeystreams C ks) s (140 - hopsSize pre) R2 ∧
        masked (withKeystreams C ks') (secOf lastSec post) 0 (plainOf (withKeystreams C ks') last lastSec
          (padOf (withKeystreams C ks') (padOf (withKeystreams C ks') [] pre) [(t, s)]) post) = R1) := by
    intro ks' hown
    unfold beyond
    rw [padOf_length, List.length_nil, Nat.zero_add, layers_plain, masked_congr (ks1 := ks') (ks2 := ks) (fun n _ _ => hown n)]
    constructor
    · intro h
      obtain ⟨h1, h2⟩ := List.append_inj h (by
        rw [masked_length, plainOf_length (withKeystreams_laws hC ks'), hR1])
      exact ⟨by rw [← h2, masked_masked], h1⟩
    · rintro ⟨h1, h2⟩
      rw [h2, h1, masked_masked]
  have hpadlen : ∀ ks' : Keystreams, (padOf (withKeystreams C ks') (padOf (withKeystreams C ks') [] pre) [(t, s)]).length =
      hopsSize (pre ++ [(t, s)]) := by
    intro ks'
    rw [padOf_length, padOf_length, hopsSize_append, List.length_nil, Nat.zero_add]
  have hsz3 : hopsSize post + last.length + hopsSize (pre ++ [(t, s)]) = 140 := by
    rw [hopsSize_append]
    simp only [hopsSize, List.map_cons, List.sum_cons, List.map_nil, List.sum_nil] at hsz' ⊢
    omega
  -- the plain text does not depend on the window
  have hplain : ∀ k1 k2 : Keystreams, (∀ n, k1 (C.actionsEncryptionKey s) n = k2 (C.actionsEncryptionKey s) n) →
      padOf (withKeystreams C k1) [] pre = padOf (withKeystreams C k2) [] pre →
      (∀ key ∈ keysOf C post lastSec, ∀ n, ¬NextW C lastSec pre t s post key n → k1 key n = k2 key n) →
      plainOf (withKeystreams C k1) last lastSec
          (padOf (withKeystreams C k1) (padOf (withKeystreams C k1) [] pre) [(t, s)]) post =
        plainOf (withKeystreams C k2) last lastSec
          (padOf (withKeystreams C k2) (padOf (withKeystreams C k2) [] pre) [(t, s)]) post := by
    intro k1 k2 hown hpad hag
    have e : padOf (withKeystreams C k1) (padOf (withKeystreams C k1) [] pre) [(t, s)] =
        padOf (withKeystreams C k2) (padOf (withKeystreams C k2) [] pre) [(t, s)] := by
      rw [hpad]
      refine padOf_congr _ _ ?_
      intro x hx n
      rw [List.mem_singleton] at hx
      subst hx
      exact hown n
    rw [e]
    refine plainOf_congr (by rw [hpadlen]; exact hsz3) rfl hdpost ?_
    intro key hkey n hn
    refine hag key hkey n ?_
    rintro ⟨h1, h2⟩
    exact hn ⟨h1, by rw [hpadlen]; exact h2⟩
  have hplainlen : ∀ ks' : Keystreams, (plainOf (withKeystreams C ks') last lastSec
      (padOf (withKeystreams C ks') (padOf (withKeystreams C ks') [] pre) [(t, s)]) post).length =
        140 - hopsSize (pre ++ [(t, s)]) := by
    intro ks'
    rw [plainOf_length (withKeystreams_laws hC ks')]; omega
  -- existence
  obtain ⟨k1, hk1, hpad1⟩ := prev_exists hdpre ks (D := masked (withKeystreams C ks) s (140 - hopsSize pre) R2) (by
    rw [masked_length, hR2])
  obtain ⟨P, hP⟩ : ∃ P, P = plainOf (withKeystreams C k1) last lastSec
      (padOf (withKeystreams C k1) (padOf (withKeystreams C k1) [] pre) [(t, s)]) post := ⟨_, rfl⟩
  have hPl : P.length = 140 - hopsSize (pre ++ [(t, s)]) := by rw [hP, hplainlen]
  obtain ⟨k2, hk2⟩ : ∃ k2, k2 = patch k1 (C.actionsEncryptionKey (secOf lastSec post)) 0 P R1 := ⟨_, rfl⟩
  have hk2e : ∀ key n, ¬NextW C lastSec pre t s post key n → k2 key n = k1 key n := by
    intro key n hn
    rw [hk2]
    apply patch_elsewhere
    rintro ⟨h1, -, h2⟩
    exact hn ⟨h1, by rw [hPl] at h2; omega⟩
  have hag2 : ∀ key n, ¬(PrevW C pre key n ∨ NextW C lastSec pre t s post key n) → k2 key n = ks key n := by
    intro key n hn
    rw [not_or] at hn
    rw [hk2e key n hn.2, hk1 key n hn.1]
  have hpad2 : padOf (withKeystreams C k2) [] pre = padOf (withKeystreams C k1) [] pre := by
    refine padOf_congr _ _ ?_
    intro x hx n
    exact hk2e _ _ fun h => hpre _ (List.mem_map.2 ⟨x, hx, rfl⟩) h.1
  have hplain2 := hplain k2 k1 (fun n => hk2e _ _ fun h => hsown n (.inr h)) hpad2 fun key _ n hn => hk2e key n hn
  refine ⟨k2, ⟨hag2, (hparts k2 fun n => hag2 _ n (hsown n)).2 ⟨by rw [hpad2, hpad1], ?_⟩⟩, ?_⟩
  · rw [hplain2, ← hP, hk2]
    exact patch_masks C k1 _ 0 (by rw [hPl, hR1]; omega)
  -- uniqueness
  · rintro k3 ⟨hag3, hb3⟩
    obtain ⟨hp3, hm3⟩ := (hparts k3 fun n => hag3 _ n (hsown n)).1 hb3
    have hpad3 : padOf (withKeystreams C k3) [] pre = padOf (withKeystreams C k2) [] pre := by rw [hp3, hpad2, hpad1]
    have hplain3 := hplain k3 k2 (fun n => by rw [hag3 _ n (hsown n), hag2 _ n (hsown n)]) hpad3 (by
      intro key hkey n hn
      have : ¬(PrevW C pre key n ∨ NextW C lastSec pre t s post key n) := by
        rintro (h | h)
        · exact hdisj _ h.mem _ (List.mem_cons_of_mem _ hkey) rfl
        · exact hn h
      rw [hag3 _ _ this, hag2 _ _ this])
    funext key n
    by_cases hw : PrevW C pre key n ∨ NextW C lastSec pre t s post key n
    · rcases hw with hw | hw
      · refine prev_unique hdpre ?_ hpad3 hw
        intro key' hkey' n' hn'
        have : ¬(PrevW C pre key' n' ∨ NextW C lastSec pre t s post key' n') := by
          rintro (h | h)
          · exact hn' h
          · exact hpre _ hkey' h.1
        rw [hag3 _ _ this, hag2 _ _ this]
      · obtain ⟨rfl, hn⟩ := hw
        have hm2 : masked (withKeystreams C k2) (secOf lastSec post) 0 (plainOf (withKeystreams C k2) last lastSec
          (padOf (withKeystreams C k2) (padOf (withKeystreams C k2) [] pre) [(t, s)]) post) = R1 := by
          rw [hplain2, ← hP, hk2]
          exact patch_masks C k1 _ 0 (by rw [hPl, hR1]; omega)
        rw [hplain3, ← hm2] at hm3
        exact masked_inj hm3 (Nat.zero_le _) (by rw [hplainlen]; omega)
    · rw [hag3 _ _ hw, hag2 _ _ hw]

/-! ### The last hop -/

theorem beyond_last_unique {lastSec : SharedSecret} {pre : List (Target × SharedSecret)} {act : Bytes} {k : Nat}
    (hsz : hopsSize pre + act.length + k = 140) (hd : (keysOf C pre lastSec).Nodup) (ks : Keystreams) {R : Bytes}
    (hR : R.length = 140 - act.length) :
    ∃! x : Keystreams × Bytes, x.2.length = k ∧ (∀ key n, ¬PrevW C pre key n → x.1 key n = ks key n) ∧
      x.2 ++ masked (withKeystreams C x.1) lastSec (140 - (padOf (withKeystreams C x.1) [] pre).length)
        (padOf (withKeystreams C x.1) [] pre) = R := by
  obtain ⟨R1, R2, rfl, hR1, hR2⟩ : ∃ R1 R2, R = R1 ++ R2 ∧ R1.length = k ∧ R2.length = hopsSize pre :=
    ⟨R.take k, R.drop k, (List.take_append_drop _ _).symm, by rw [List.length_take]; omega, by rw [List.length_drop]; omega⟩
  rw [keysOf, List.nodup_append] at hd
  obtain ⟨hdpre, -, hdisj⟩ := hd
  have hown : ∀ n, ¬PrevW C pre (C.actionsEncryptionKey lastSec) n := fun n h => hdisj _ h.mem _ (by simp) rfl
  have hparts : ∀ x : Keystreams × Bytes, x.2.length = k →
      (∀ n, x.1 (C.actionsEncryptionKey lastSec) n = ks (C.actionsEncryptionKey lastSec) n) →
      (x.2 ++ masked (withKeystreams C x.1) lastSec (140 - (padOf (withKeystreams C x.1) [] pre).length)
        (padOf (withKeystreams C x.1) [] pre) = R1 ++ R2 ↔
        x.2 = R1 ∧ padOf (withKeystreams C x.1) [] pre = masked (withKeystreams C ks) lastSec (140 - hopsSize pre) R2) := by
    rintro ⟨ks', f⟩ hf h
    dsimp only at hf h ⊢
    rw [padOf_length, List.length_nil, Nat.zero_add, masked_congr (ks1 := ks') (ks2 := ks) (fun n _ _ => h n)]
    constructor
    · intro h
      obtain ⟨h1, h2⟩ := List.append_inj h (by omega)
      exact ⟨h1, by rw [← h2, masked_masked]⟩
    · rintro ⟨rfl, h2⟩
      rw [h2, masked_masked]
  obtain ⟨k1, hk1, hpad1⟩ := prev_exists hdpre ks (D := masked (withKeystreams C ks) lastSec (140 - hopsSize pre) R2) (by
    rw [masked_length, hR2])
  refine ⟨(k1, R1), ⟨hR1, hk1, (hparts (k1, R1) hR1 fun n => hk1 _ n (hown n)).2 ⟨rfl, hpad1⟩⟩, ?_⟩
  rintro ⟨k3, f3⟩ ⟨hf3, hag3, hb3⟩
  obtain ⟨h1, h2⟩ := (hparts (k3, f3) hf3 fun n => hag3 _ n (hown n)).1 hb3
  dsimp only at h1 h2 hag3
  subst h1
  congr 1
  funext key n
  by_cases hw : PrevW C pre key n
  · refine prev_unique hdpre ?_ (by rw [h2, hpad1]) hw
    intro key' _ n' hn'
    rw [hag3 _ _ hn', hk1 _ _ hn']
  · rw [hag3 _ _ hw, hk1 _ _ hw]

end Mixnet
