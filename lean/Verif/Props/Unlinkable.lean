import Verif.Props.Forged
import Verif.Spec.Unlinkable
/-!
# C95: the bytes a relay sends on say nothing about the packet they come from
-/
namespace Mixnet.Props
open Mixnet Spec

variable {C : Crypto} (hC : CryptoLaws C)

theorem le16_of_bytes {l : Bytes} (h : l.length = 2) : le16 (fromLe16 l) = l := by
  match l, h with
  | [a, b], _ =>
    show [UInt8.ofNat _, UInt8.ofNat _] = [a, b]
    have e : fromLe16 [a, b] = a.toNat + 256 * b.toNat := rfl
    have ha := a.toNat_lt
    have hb := b.toNat_lt
    rw [e]
    congr 1
    · apply UInt8.toNat_inj.1
      rw [UInt8.toNat_ofNat']; omega
    · congr 1
      apply UInt8.toNat_inj.1
      rw [UInt8.toNat_ofNat']; omega

theorem action_length (t : Target) (ht : Nameable t) : (forwardAction t).length = 2 ∨ (forwardAction t).length = 34 := by
  cases t with
  | mixnodeIndex i => exact .inl rfl
  | peerId p =>
    right
    have : p.length = 32 := ht
    show (le16 0xff00 ++ p).length = 34
    rw [List.length_append, this]; rfl

include hC

/-- What is handed on, in terms of the unmasked actions and the decrypted payload. -/
theorem handsOn_iff {sec : SharedSecret} {packet : Bytes} (hm : RightMac C sec packet) {t : Target} (ht : Nameable t)
    {R P : Bytes} (hR : R.length = 156) (hP : P.length = 2064) :
    HandsOn C sec packet t (R ++ P) ↔
      (decActions C ((packet.drop 48).take 140) sec).take ((forwardAction t).length + 156) = forwardAction t ++ R ∧
      C.lionessDecrypt (C.payloadEncryptionKey sec) (packet.drop 188) = P := by
  obtain ⟨hp, hmac⟩ := hm
  obtain ⟨kx, mac, actions, payload, parts⟩ := parts_exist packet hp
  have e1 : (packet.drop 32).take 16 = mac := parts.slice_mac
  have e2 : (packet.drop 48).take 140 = actions := parts.slice_actions
  have e3 : packet.drop 188 = payload := by rw [← payloadOf_eq hp]; exact parts.slice_payload
  rw [e1, e2] at hmac
  rw [e2, e3]
  obtain ⟨-, hgood⟩ := peel_eq hC sec parts zeroPacket_length
  obtain ⟨hreq, hrep, hcov, hcovid, hpeer, hmix, herr⟩ := hgood hmac _ rfl
  have hD : (decActions C actions sec).length = 190 := by rw [decActions_length, parts.actions]
  have hbl : (C.blindKxPublic kx sec).length = 32 := hC.mulClamped_length _ _
  have hdrop : ∀ n, (nextPacket C kx actions payload sec n).drop 32 =
      slice (decActions C actions sec) n 156 ++ C.lionessDecrypt (C.payloadEncryptionKey sec) payload := by
    intro n
    unfold nextPacket
    rw [List.append_assoc, List.drop_left' hbl]; rfl
  generalize hDe : decActions C actions sec = D at *
  have hsplit : ∀ n, n + 156 ≤ 190 → (slice D n 156 ++ C.lionessDecrypt (C.payloadEncryptionKey sec) payload = R ++ P ↔
      slice D n 156 = R ∧ C.lionessDecrypt (C.payloadEncryptionKey sec) payload = P) := by
    intro n hn
    constructor
    · intro h
      exact List.append_inj h (by rw [slice_length _ _ _ (by omega), hR])
    · rintro ⟨h1, h2⟩; rw [h1, h2]
  have h2l : (slice D 0 2).length = 2 := slice_length _ _ _ (by omega)
  have hle := le16_of_bytes h2l
  have htake2 : ∀ k, D.take (2 + k) = slice D 0 2 ++ slice D 2 k := fun k => List.take_add
  have hcase : fromLe16 (slice D 0 2) ≤ 0xfeff ∨ fromLe16 (slice D 0 2) = 0xff00 ∨
      ∀ out d, peel C zeroPacket packet sec ≠ .ok (out, .ok (.forwardTo t d)) := by
    rcases Nat.lt_or_ge 0xff04 (fromLe16 (slice D 0 2)) with hc | hc
    · obtain ⟨o, -, h'⟩ := herr hc
      exact .inr (.inr fun out d h => by rw [h'] at h; cases h)
    rcases Nat.lt_or_ge 0xfeff (fromLe16 (slice D 0 2)) with hc1 | hc1
    · have : fromLe16 (slice D 0 2) = 0xff00 ∨ fromLe16 (slice D 0 2) = 0xff01 ∨ fromLe16 (slice D 0 2) = 0xff02 ∨
        fromLe16 (slice D 0 2) = 0xff03 ∨ fromLe16 (slice D 0 2) = 0xff04 := by omega
      rcases this with h0 | h0 | h0 | h0 | h0
      · exact .inr (.inl h0)
      · obtain ⟨o, -, -, h'⟩ := hreq h0
        refine .inr (.inr fun out d h => ?_)
        rw [h'] at h
        split at h <;> cases h
      · obtain ⟨o, -, -, h'⟩ := hrep h0
        exact .inr (.inr fun out d h => by rw [h'] at h; cases h)
      · obtain ⟨o, -, h'⟩ := hcov h0
        exact .inr (.inr fun out d h => by rw [h'] at h; cases h)
      · obtain ⟨o, -, h'⟩ := hcovid h0
        exact .inr (.inr fun out d h => by rw [h'] at h; cases h)
    · exact .inl hc1
  cases t with
  | mixnodeIndex i =>
    have hi : i ≤ 0xfeff := ht
    have hact : forwardAction (.mixnodeIndex i) = le16 i := rfl
    have hlen : (forwardAction (.mixnodeIndex i)).length = 2 := rfl
    rw [hlen, hact, htake2]
    constructor
    · rintro ⟨out, d, h, hb⟩
      have hc : fromLe16 (slice D 0 2) ≤ 0xfeff := by
        rcases hcase with hc | hc | hc
        · exact hc
        · rw [hpeer hc] at h; cases h
        · exact absurd h (hc _ _)
      have h' := hmix hc
      rw [h] at h'
      cases h'
      rw [hdrop 2] at hb
      obtain ⟨h1, h2⟩ := (hsplit 2 (by omega)).1 hb
      rw [h1, hle]
      exact ⟨rfl, h2⟩
    · rintro ⟨h1, h2⟩
      obtain ⟨h3, h4⟩ := List.append_inj h1 (by rw [h2l]; rfl)
      have hc : fromLe16 (slice D 0 2) = i := by rw [h3]; exact fromLe16_toLe16 i (by omega)
      refine ⟨_, _, by rw [hmix (by omega), hc], ?_⟩
      rw [hdrop 2]
      exact (hsplit 2 (by omega)).2 ⟨h4, h2⟩
  | peerId p =>
    have hpl : p.length = 32 := ht
    have hact : forwardAction (.peerId p) = le16 0xff00 ++ p := rfl
    have hlen : (forwardAction (.peerId p)).length = 34 := by rw [hact, List.length_append, hpl]; rfl
    have htake : D.take (34 + 156) = slice D 0 2 ++ slice D 2 32 ++ slice D 34 156 := by
      rw [show (34 + 156 : Nat) = 2 + (32 + 156) from rfl, htake2]
      have : slice D 2 (32 + 156) = slice D 2 32 ++ slice D 34 156 := by
        unfold slice
        rw [List.take_add, List.drop_drop]
      rw [this, List.append_assoc]
    rw [hlen, hact, htake]
    constructor
    · rintro ⟨out, d, h, hb⟩
      have hc : fromLe16 (slice D 0 2) = 0xff00 := by
        rcases hcase with hc | hc | hc
        · rw [hmix hc] at h; cases h
        · exact hc
        · exact absurd h (hc _ _)
      have h' := hpeer hc
      rw [h] at h'
      cases h'
      rw [hdrop 34] at hb
      obtain ⟨h1, h2⟩ := (hsplit 34 (by omega)).1 hb
      rw [h1]
      refine ⟨?_, h2⟩
      rw [← hc, hle]
    · rintro ⟨h1, h2⟩
      obtain ⟨h3, h4⟩ := List.append_inj h1 (by
        rw [List.length_append, List.length_append, h2l, slice_length _ _ _ (by omega), hpl]; rfl)
      obtain ⟨h5, h6⟩ := List.append_inj h3 (by rw [h2l]; rfl)
      have hc : fromLe16 (slice D 0 2) = 0xff00 := by rw [h5]; exact fromLe16_toLe16 0xff00 (by omega)
      refine ⟨_, _, by rw [hpeer hc, h6], ?_⟩
      rw [hdrop 34]
      exact (hsplit 34 (by omega)).2 ⟨h4, h2⟩

theorem relay_laws (sec : SharedSecret) (x : RelayKeys) : CryptoLaws (withRelay C sec x) :=
  { cipher_laws hC (C.payloadEncryptionKey sec) x.2 with }

omit hC in
theorem hopKs_relay (sec : SharedSecret) (x : RelayKeys) : hopKs (withRelay C sec x) sec = x.1.1 := by
  have hx := x.1.2
  unfold hopKs Crypto.keystream
  apply List.ext_getElem
  · rw [List.length_map, List.length_range, hx]
  · intro n h1 h2
    rw [List.getElem_map, List.getElem_range]
    have hn : n < 190 := by rw [hx] at h2; exact h2
    show (if (withRelay C sec x).actionsEncryptionKey sec = C.actionsEncryptionKey sec ∧ n < 190 then x.1.1.getD n 0 else _) = _
    rw [if_pos ⟨rfl, hn⟩, List.getD_eq_getElem?_getD, List.getElem?_eq_getElem h2]; rfl

omit hC in
theorem keystream_back : ∀ (d k : Bytes), d.length = k.length → applyKeystream d (applyKeystream d k) = k
  | [], [], _ => rfl
  | a :: d, b :: k, h => by
    have := keystream_back d k (by simpa using h)
    show (a ^^^ (a ^^^ b)) :: applyKeystream d (applyKeystream d k) = b :: k
    rw [this, ← UInt8.xor_assoc, UInt8.xor_self, UInt8.zero_xor]

omit hC in
/-- How many keystreams unmask data to something with a given beginning. -/
theorem unmask_count {d pre : Bytes} {n m : Nat} (hd : d.length = n + m) (hp : pre.length = n) :
    {k : Strings (n + m) | (applyKeystream d k.1).take n = pre}.ncard = 256 ^ m := by
  rw [← card_beginning n m pre hp]
  refine Set.ncard_congr (fun k _ => ⟨applyKeystream d k.1, by rw [applyKeystream_length, hd]⟩) ?_ ?_ ?_
  · intro k hk; exact hk
  · intro k k' _ _ h
    have h' := congrArg (fun s : Strings (n + m) => applyKeystream d s.1) h
    dsimp only at h'
    rw [keystream_back d k.1 (hd.trans k.2.symm), keystream_back d k'.1 (hd.trans k'.2.symm)] at h'
    exact Subtype.ext h'
  · intro q hq
    refine ⟨⟨applyKeystream d q.1, by rw [applyKeystream_length, hd]⟩, ?_, ?_⟩
    · show (applyKeystream d (applyKeystream d q.1)).take n = pre
      rw [keystream_back d q.1 (hd.trans q.2.symm)]; exact hq
    · exact Subtype.ext (keystream_back d q.1 (hd.trans q.2.symm))

omit hC in
theorem symm_count (x y : Block) :
    256 ^ 2064 * {π : Equiv.Perm Block | π.symm x = y}.ncard = Nat.card (Equiv.Perm Block) := by
  rw [← card_strings 2064, ← perm_share (α := Block) y x]
  congr 2
  ext π
  show π.symm x = y ↔ π y = x
  rw [Equiv.symm_apply_eq]
  exact eq_comm

/-- The choices of keystream and cipher with which a relay hands on given bytes. -/
theorem handsOn_set {sec : SharedSecret} {packet : Bytes} (hm : RightMac C sec packet) {t : Target} (ht : Nameable t)
    {R P : Bytes} (hR : R.length = 156) (hP : P.length = 2064) (hx : (packet.drop 188).length = 2064) :
    {x : RelayKeys | HandsOn (withRelay C sec x) sec packet t (R ++ P)} =
      {k : Strings 190 | (applyKeystream ((packet.drop 48).take 140 ++ List.replicate 50 0) k.1).take ((forwardAction t).length + 156) =
        forwardAction t ++ R} ×ˢ {π : Equiv.Perm Block | π.symm ⟨packet.drop 188, hx⟩ = ⟨P, hP⟩} := by
  ext x
  show HandsOn (withRelay C sec x) sec packet t (R ++ P) ↔ _
  rw [handsOn_iff (relay_laws hC sec x) (show RightMac (withRelay C sec x) sec packet from hm) ht hR hP]
  unfold decActions
  rw [hopKs_relay]
  refine and_congr Iff.rfl ?_
  show (withCipher C (C.payloadEncryptionKey sec) x.2).lionessDecrypt (C.payloadEncryptionKey sec) (packet.drop 188) = P ↔ _
  rw [cipher_decrypt _ _ hx]
  exact ⟨fun h => Subtype.ext h, fun h => congrArg Subtype.val h⟩

/-- **C95.** Whatever the packet, the target and the bytes: the share of the relay's keystreams and payload ciphers with which the
packet's action names the target and the rest of what is handed on is exactly these bytes, is the same. (The count of
keystreams depends on the size of the action only.) -/
theorem relay_share {sec : SharedSecret} {packet : Bytes} (hm : RightMac C sec packet) {t : Target} (ht : Nameable t)
    {bytes : Bytes} (hb : bytes.length = 2220) :
    256 ^ 2064 * {x : RelayKeys | HandsOn (withRelay C sec x) sec packet t bytes}.ncard =
      256 ^ (34 - (forwardAction t).length) * Nat.card (Equiv.Perm Block) := by
  have hx : (packet.drop 188).length = 2064 := by rw [List.length_drop, hm.1]
  have hR : (bytes.take 156).length = 156 := by rw [List.length_take, hb]; rfl
  have hP : (bytes.drop 156).length = 2064 := by rw [List.length_drop, hb]
  rw [← List.take_append_drop 156 bytes, handsOn_set hC hm ht hR hP hx, Set.ncard_prod, ← symm_count ⟨packet.drop 188, hx⟩ ⟨_, hP⟩]
  have hd : ((packet.drop 48).take 140 ++ List.replicate 50 0).length = 190 := by
    rw [List.length_append, List.length_take, List.length_drop, hm.1, List.length_replicate]; rfl
  have hcount : {k : Strings 190 | (applyKeystream ((packet.drop 48).take 140 ++ List.replicate 50 0) k.1).take
      ((forwardAction t).length + 156) = forwardAction t ++ bytes.take 156}.ncard = 256 ^ (34 - (forwardAction t).length) := by
    rcases action_length t ht with h | h
    · have := unmask_count (d := (packet.drop 48).take 140 ++ List.replicate 50 0) (pre := forwardAction t ++ bytes.take 156)
        (n := 158) (m := 32) hd (by rw [List.length_append, h, hR])
      rw [h]; exact this
    · have := unmask_count (d := (packet.drop 48).take 140 ++ List.replicate 50 0) (pre := forwardAction t ++ bytes.take 156)
        (n := 190) (m := 0) hd (by rw [List.length_append, h, hR])
      rw [h]; exact this
  rw [hcount]
  generalize 256 ^ 2064 = a
  generalize 256 ^ (34 - (forwardAction t).length) = b
  rw [← Nat.mul_assoc, ← Nat.mul_assoc, Nat.mul_comm a b]

/-- **C95.** Two packets: each is handed on as given bytes with equally many keys. -/
theorem relay_same {sec sec' : SharedSecret} {packet packet' : Bytes} (hm : RightMac C sec packet) (hm' : RightMac C sec' packet')
    {t t' : Target} (ht : Nameable t) (ht' : Nameable t') (hsize : (forwardAction t).length = (forwardAction t').length)
    {bytes bytes' : Bytes} (hb : bytes.length = 2220) (hb' : bytes'.length = 2220) :
    {x : RelayKeys | HandsOn (withRelay C sec x) sec packet t bytes}.ncard =
      {x : RelayKeys | HandsOn (withRelay C sec' x) sec' packet' t' bytes'}.ncard := by
  have h1 := relay_share hC hm ht hb
  have h2 := relay_share hC hm' ht' hb'
  rw [hsize, ← h2] at h1
  exact Nat.eq_of_mul_eq_mul_left (Nat.pow_pos (by decide)) h1

omit hC in
theorem relays_commute {sec₁ sec₂ : SharedSecret} (ha : C.actionsEncryptionKey sec₁ ≠ C.actionsEncryptionKey sec₂)
    (hp : C.payloadEncryptionKey sec₁ ≠ C.payloadEncryptionKey sec₂) (x₁ x₂ : RelayKeys) :
    withRelay (withRelay C sec₁ x₁) sec₂ x₂ = withRelay (withRelay C sec₂ x₂) sec₁ x₁ := by
  have swap : ∀ {γ : Type} (p q : Prop) [Decidable p] [Decidable q] (u v w : γ), (p → ¬ q) →
      (if p then u else if q then v else w) = (if q then v else if p then u else w) := by
    intro γ p q _ _ u v w h
    by_cases hp : p
    · rw [if_pos hp, if_neg (h hp), if_pos hp]
    · rw [if_neg hp, if_neg hp]
  have e1 : (withRelay (withRelay C sec₁ x₁) sec₂ x₂).chacha = (withRelay (withRelay C sec₂ x₂) sec₁ x₁).chacha := by
    funext key n
    exact swap (key = C.actionsEncryptionKey sec₂ ∧ n < 190) (key = C.actionsEncryptionKey sec₁ ∧ n < 190) _ _ _
      (fun h h' => ha (h'.1.symm.trans h.1))
  have e2 : (withRelay (withRelay C sec₁ x₁) sec₂ x₂).lionessEncrypt = (withRelay (withRelay C sec₂ x₂) sec₁ x₁).lionessEncrypt := by
    funext key p
    exact swap (key = C.payloadEncryptionKey sec₂) (key = C.payloadEncryptionKey sec₁) _ _ _ (fun h h' => hp (h'.symm.trans h))
  have e3 : (withRelay (withRelay C sec₁ x₁) sec₂ x₂).lionessDecrypt = (withRelay (withRelay C sec₂ x₂) sec₁ x₁).lionessDecrypt := by
    funext key p
    exact swap (key = C.payloadEncryptionKey sec₂) (key = C.payloadEncryptionKey sec₁) _ _ _ (fun h h' => hp (h'.symm.trans h))
  calc withRelay (withRelay C sec₁ x₁) sec₂ x₂
      = { C with
          chacha := (withRelay (withRelay C sec₁ x₁) sec₂ x₂).chacha
          lionessEncrypt := (withRelay (withRelay C sec₁ x₁) sec₂ x₂).lionessEncrypt
          lionessDecrypt := (withRelay (withRelay C sec₁ x₁) sec₂ x₂).lionessDecrypt } := rfl
    _ = { C with
          chacha := (withRelay (withRelay C sec₂ x₂) sec₁ x₁).chacha
          lionessEncrypt := (withRelay (withRelay C sec₂ x₂) sec₁ x₁).lionessEncrypt
          lionessDecrypt := (withRelay (withRelay C sec₂ x₂) sec₁ x₁).lionessDecrypt } := by rw [e1, e2, e3]
    _ = withRelay (withRelay C sec₂ x₂) sec₁ x₁ := rfl

/-- With the keys of another secret given, the same choices lead to the same bytes. -/
theorem handsOn_other {sec other : SharedSecret} (y : RelayKeys) {packet : Bytes} (hm : RightMac C sec packet) {t : Target}
    (ht : Nameable t) {bytes : Bytes} (hb : bytes.length = 2220) (x : RelayKeys) :
    HandsOn (withRelay (withRelay C other y) sec x) sec packet t bytes ↔ HandsOn (withRelay C sec x) sec packet t bytes := by
  have hx : (packet.drop 188).length = 2064 := by rw [List.length_drop, hm.1]
  have hR : (bytes.take 156).length = 156 := by rw [List.length_take, hb]; rfl
  have hP : (bytes.drop 156).length = 2064 := by rw [List.length_drop, hb]
  have e1 := handsOn_set hC hm ht hR hP hx
  have e2 := handsOn_set (relay_laws hC other y) (show RightMac (withRelay C other y) sec packet from hm) ht hR hP hx
  rw [List.take_append_drop] at e1 e2
  exact Set.ext_iff.1 (e2.trans e1.symm) x

/-- **C95.** Someone sees two packets go in and two come out. With exactly as many choices of keystreams and ciphers, the first that came
out is the first or the second that went in. -/
theorem relay_unlinkable {sec₁ sec₂ : SharedSecret} (ha : C.actionsEncryptionKey sec₁ ≠ C.actionsEncryptionKey sec₂)
    (hp : C.payloadEncryptionKey sec₁ ≠ C.payloadEncryptionKey sec₂) {in₁ in₂ : Bytes} (hm₁ : RightMac C sec₁ in₁)
    (hm₂ : RightMac C sec₂ in₂) {t₁ t₂ : Target} (ht₁ : Nameable t₁) (ht₂ : Nameable t₂) {out₁ out₂ : Bytes}
    (hb₁ : out₁.length = 2220) (hb₂ : out₂.length = 2220) :
    {x : RelayKeys × RelayKeys | HandsOn (withRelay (withRelay C sec₁ x.1) sec₂ x.2) sec₁ in₁ t₁ out₁ ∧
        HandsOn (withRelay (withRelay C sec₁ x.1) sec₂ x.2) sec₂ in₂ t₂ out₂}.ncard =
      {x : RelayKeys × RelayKeys | HandsOn (withRelay (withRelay C sec₁ x.1) sec₂ x.2) sec₁ in₁ t₂ out₂ ∧
        HandsOn (withRelay (withRelay C sec₁ x.1) sec₂ x.2) sec₂ in₂ t₁ out₁}.ncard := by
  have prod : ∀ {t t' : Target} {b b' : Bytes}, Nameable t → Nameable t' → b.length = 2220 → b'.length = 2220 →
      {x : RelayKeys × RelayKeys | HandsOn (withRelay (withRelay C sec₁ x.1) sec₂ x.2) sec₁ in₁ t b ∧
        HandsOn (withRelay (withRelay C sec₁ x.1) sec₂ x.2) sec₂ in₂ t' b'}.ncard =
      {x : RelayKeys | HandsOn (withRelay C sec₁ x) sec₁ in₁ t b}.ncard *
        {x : RelayKeys | HandsOn (withRelay C sec₂ x) sec₂ in₂ t' b'}.ncard := by
    intro t t' b b' ht ht' hb hb'
    rw [← Set.ncard_prod]
    congr 1
    ext ⟨x₁, x₂⟩
    show HandsOn _ sec₁ in₁ t b ∧ HandsOn _ sec₂ in₂ t' b' ↔ HandsOn _ sec₁ in₁ t b ∧ HandsOn _ sec₂ in₂ t' b'
    refine and_congr ?_ (handsOn_other hC x₁ hm₂ ht' hb' x₂)
    rw [show withRelay (withRelay C sec₁ (x₁, x₂).1) sec₂ (x₁, x₂).2 = _ from relays_commute ha hp x₁ x₂]
    exact handsOn_other hC x₂ hm₁ ht hb x₁
  rw [prod ht₁ ht₂ hb₁ hb₂, prod ht₂ ht₁ hb₂ hb₁]
  have s1 := relay_share hC hm₁ ht₁ hb₁
  have s2 := relay_share hC hm₂ ht₂ hb₂
  have s3 := relay_share hC hm₁ ht₂ hb₂
  have s4 := relay_share hC hm₂ ht₁ hb₁
  have hpos : 0 < 256 ^ 2064 := Nat.pow_pos (by decide)
  generalize 256 ^ 2064 = a at *
  have e1 := Nat.eq_of_mul_eq_mul_left hpos (s1.trans s4.symm)
  have e2 := Nat.eq_of_mul_eq_mul_left hpos (s3.trans s2.symm)
  rw [e1, e2, Nat.mul_comm]

/-- **C95.** What a node forwards is what is handed on with the secret of the session that accepts the packet. -/
theorem forwards_handsOn {m : Node} {now : Nat} {packet : Bytes} {p : ForwardPacket} (hp : packet.length = 2252)
    (h : Forwards C m now packet p) : ∃ (s : Session) (target : Target), RightMac C (s.secretFor C packet) packet ∧ Nameable target ∧
      HandsOn C (s.secretFor C packet) packet target (p.packet.packet.drop 32) := by
  obtain ⟨rel, s, out, target, delay, peer, hacc, h1, h2, h3, rfl⟩ := h
  obtain ⟨hm, hl, hd, hcase⟩ := code_of_action hC hp hacc.peels
  refine ⟨s, target, ⟨hp, hm⟩, ?_, out, delay, hacc.peels, rfl⟩
  rcases hcase with ⟨hc, rfl⟩ | ⟨hc, rfl⟩
  · exact hc
  · show (((plainActions C packet (s.secretFor C packet)).drop 2).take 32).length = 32
    rw [List.length_take, List.length_drop]
    simp [plainActions]

/-- **C95.** The actual keystream and cipher are one of the choices. -/
theorem actual_relay (sec : SharedSecret) : ∃ x : RelayKeys, ∀ packet t bytes, RightMac C sec packet → Nameable t → bytes.length = 2220 →
    (HandsOn (withRelay C sec x) sec packet t bytes ↔ HandsOn C sec packet t bytes) := by
  obtain ⟨π, hπ⟩ := actual_cipher hC (C.payloadEncryptionKey sec)
  refine ⟨(⟨hopKs C sec, hopKs_length C sec⟩, π), fun packet t bytes hm ht hb => ?_⟩
  have hx : (packet.drop 188).length = 2064 := by rw [List.length_drop, hm.1]
  have hR : (bytes.take 156).length = 156 := by rw [List.length_take, hb]; rfl
  have hP : (bytes.drop 156).length = 2064 := by rw [List.length_drop, hb]
  rw [← List.take_append_drop 156 bytes, handsOn_iff (relay_laws hC sec _) (show RightMac (withRelay C sec _) sec packet from hm) ht hR hP,
    handsOn_iff hC hm ht hR hP]
  unfold decActions
  rw [hopKs_relay]
  refine and_congr Iff.rfl ?_
  rw [show (withRelay C sec (⟨hopKs C sec, hopKs_length C sec⟩, π)).lionessDecrypt
    ((withRelay C sec (⟨hopKs C sec, hopKs_length C sec⟩, π)).payloadEncryptionKey sec) (packet.drop 188) =
    C.lionessDecrypt (C.payloadEncryptionKey sec) (packet.drop 188) from (hπ _ hx).1]

/-! ### The hypotheses can be met -/
section Examples
omit hC
open World

/-- The packet that Carol forwards for Alice: any other 2220 bytes to any other mixnode are as likely. -/
example : ∃ (sec : SharedSecret) (t : Target) (bytes : Bytes), RightMac World.C sec packet0.packet ∧ Nameable t ∧ bytes.length = 2220 ∧
    HandsOn World.C sec packet0.packet t bytes ∧
    0 < {x : RelayKeys | HandsOn (withRelay World.C sec x) sec packet0.packet t bytes}.ncard ∧
    ∀ t' bytes', Nameable t' → (forwardAction t).length = (forwardAction t').length → bytes'.length = 2220 →
      {x : RelayKeys | HandsOn (withRelay World.C sec x) sec packet0.packet t bytes}.ncard =
        {x : RelayKeys | HandsOn (withRelay World.C sec x) sec packet0.packet t' bytes'}.ncard := by
  obtain ⟨p, hF⟩ := carol_forwards
  obtain ⟨s, t, hm, ht, hh⟩ := forwards_handsOn toyLaws packet0_length hF
  have hb : (p.packet.packet.drop 32).length = 2220 := by
    obtain ⟨rel, s, out, target, delay, peer, hacc, -, -, -, rfl⟩ := hF
    rw [List.length_drop, show out.length = 2252 from hacc.size]
  refine ⟨_, t, _, hm, ht, hb, hh, ?_, fun t' bytes' ht' hs hb' => relay_same toyLaws hm hm ht ht' hs hb hb'⟩
  rw [Set.ncard_pos (Set.toFinite _)]
  obtain ⟨x, hx⟩ := actual_relay toyLaws (s.secretFor World.C packet0.packet)
  exact ⟨x, (hx _ _ _ hm ht hb).2 hh⟩

/-- A packet made up for a secret. -/
def madeUp (sec : SharedSecret) : Bytes :=
  List.replicate 32 7 ++ World.C.blakeMac (World.C.macKey sec) (List.replicate 140 7) ++ List.replicate 140 7 ++ List.replicate 2064 7

theorem madeUp_right (sec : SharedSecret) : RightMac World.C sec (madeUp sec) := by
  have hl : (World.C.blakeMac (World.C.macKey sec) (List.replicate 140 7)).length = 16 := toyLaws.blakeMac_length _ _
  unfold madeUp
  constructor
  · simp only [List.length_append, List.length_replicate, hl]
  · rw [List.append_assoc, List.append_assoc, List.drop_left' List.length_replicate, List.take_left' hl, ← List.append_assoc,
      ← List.append_assoc, List.append_assoc, List.drop_left' (by rw [List.length_append, List.length_replicate, hl]),
      List.take_left' List.length_replicate]

example : ∃ sec₁ sec₂ : SharedSecret, World.C.actionsEncryptionKey sec₁ ≠ World.C.actionsEncryptionKey sec₂ ∧
    World.C.payloadEncryptionKey sec₁ ≠ World.C.payloadEncryptionKey sec₂ ∧ ∀ out₁ out₂ : Bytes, out₁.length = 2220 → out₂.length = 2220 →
    {x : RelayKeys × RelayKeys |
        HandsOn (withRelay (withRelay World.C sec₁ x.1) sec₂ x.2) sec₁ (madeUp sec₁) (.mixnodeIndex 3) out₁ ∧
        HandsOn (withRelay (withRelay World.C sec₁ x.1) sec₂ x.2) sec₂ (madeUp sec₂) (.mixnodeIndex 5) out₂}.ncard =
      {x : RelayKeys × RelayKeys |
        HandsOn (withRelay (withRelay World.C sec₁ x.1) sec₂ x.2) sec₁ (madeUp sec₁) (.mixnodeIndex 5) out₂ ∧
        HandsOn (withRelay (withRelay World.C sec₁ x.1) sec₂ x.2) sec₂ (madeUp sec₂) (.mixnodeIndex 3) out₁}.ncard := by
  have ha : World.C.actionsEncryptionKey (List.replicate 32 1) ≠ World.C.actionsEncryptionKey (List.replicate 32 2) := by decide +kernel
  have hp : World.C.payloadEncryptionKey (List.replicate 32 1) ≠ World.C.payloadEncryptionKey (List.replicate 32 2) := by decide +kernel
  exact ⟨_, _, ha, hp, fun out₁ out₂ h₁ h₂ => relay_unlinkable toyLaws ha hp (madeUp_right _) (madeUp_right _) (show Nameable (.mixnodeIndex 3) from (by decide : (3 : Nat) ≤ 0xfeff))
    (show Nameable (.mixnodeIndex 5) from (by decide : (5 : Nat) ≤ 0xfeff)) h₁ h₂⟩

end Examples
end Mixnet.Props
