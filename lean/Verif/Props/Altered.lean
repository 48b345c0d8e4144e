import Verif.Props.Handling
import Verif.Props.Wire
import Verif.Props.Peel
import Verif.Props.Surbs
import Verif.Proofs.Perms
import Verif.Spec.Altered
/-!
# C92: a packet whose payload was altered on the way is dropped
-/
namespace Mixnet.Props
open Mixnet Spec

/-! ### The header decides how a packet is peeled -/

theorem payloadOf_eq {p : Bytes} (hp : p.length = 2252) : payloadOf p = p.drop 188 :=
  List.take_of_length_le (by rw [List.length_drop, hp])

end Mixnet.Props

namespace Mixnet.Spec
open Props

section
variable {packet packet' : Bytes} (h : Altered packet packet')
include h

theorem Altered.symm : Altered packet' packet := ⟨h.size', h.size, h.header.symm, h.payload.symm⟩

theorem Altered.part (i n : Nat) (hn : i + n ≤ 188) : (packet.drop i).take n = (packet'.drop i).take n := by
  have e : ∀ l : Bytes, (l.drop i).take n = ((l.take 188).drop i).take n := fun l => by
    rw [List.drop_take, List.take_take, Nat.min_eq_left (by omega)]
  rw [e packet, e packet', h.header]

theorem Altered.kx : packet.take 32 = packet'.take 32 := h.part 0 32 (by decide)
theorem Altered.mac : macOf packet = macOf packet' := h.part 32 16 (by decide)
theorem Altered.actions : actionsOf packet = actionsOf packet' := h.part 48 140 (by decide)

theorem Altered.payloads : payloadOf packet ≠ payloadOf packet' := by
  rw [payloadOf_eq h.size, payloadOf_eq h.size']; exact h.payload

theorem Altered.plain (C : Crypto) (sec : SharedSecret) : plainActions C packet sec = plainActions C packet' sec := by
  unfold plainActions; rw [h.actions]

theorem Altered.code (C : Crypto) (sec : SharedSecret) : codeOf C packet sec = codeOf C packet' sec := by
  unfold codeOf; rw [h.plain]

theorem Altered.secretFor (C : Crypto) (s : Session) : s.secretFor C packet = s.secretFor C packet' := by
  unfold Session.secretFor; rw [h.kx]

theorem Altered.tagFor (C : Crypto) (s : Session) : s.tagFor C packet = s.tagFor C packet' := by
  unfold Session.tagFor; rw [h.secretFor]

end

end Mixnet.Spec

namespace Mixnet.Props
open Mixnet Spec

theorem payloadOf_length {p : Bytes} (hp : p.length = 2252) : (payloadOf p).length = 2064 := by
  rw [payloadOf_eq hp, List.length_drop, hp]

theorem zeroPacket_length : zeroPacket.length = 2252 := List.length_replicate

theorem peel_bad_mac {C : Crypto} (hC : CryptoLaws C) {packet : Bytes} {sec : SharedSecret} (hp : packet.length = 2252) :
    (∃ out, peel C zeroPacket packet sec = .ok (out, .error .mac)) ↔ C.blakeMac (C.macKey sec) (actionsOf packet) ≠ macOf packet := by
  obtain ⟨o, r, h1, -, h2, -⟩ := peel_total hC zeroPacket packet sec zeroPacket_length hp
  rw [h1, ← h2]
  constructor
  · rintro ⟨out, h⟩; cases h; rfl
  · rintro rfl; exact ⟨_, rfl⟩

theorem peel_bad_mac_out {C : Crypto} (hC : CryptoLaws C) {packet : Bytes} {sec : SharedSecret} (hp : packet.length = 2252)
    (hm : C.blakeMac (C.macKey sec) (actionsOf packet) ≠ macOf packet) :
    peel C zeroPacket packet sec = .ok (zeroPacket, .error .mac) := by
  obtain ⟨kx, mac, actions, payload, parts⟩ := parts_exist packet hp
  have e1 : macOf packet = mac := parts.slice_mac
  have e2 : actionsOf packet = actions := parts.slice_actions
  exact (peel_eq hC sec parts zeroPacket_length).1 (by rw [← e1, ← e2]; exact hm)

/-- The action code of a packet that is accepted. -/
theorem code_of_action {C : Crypto} (hC : CryptoLaws C) {packet out : Bytes} {sec : SharedSecret} {a : Action C}
    (hp : packet.length = 2252) (h : peel C zeroPacket packet sec = .ok (out, .ok a)) :
    C.blakeMac (C.macKey sec) (actionsOf packet) = macOf packet ∧ out.length = 2252 ∧
    match a with
    | .deliverRequest => codeOf C packet sec = 0xff01 ∧
        (C.lionessDecrypt (C.payloadEncryptionKey sec) (payloadOf packet)).drop 2048 = List.replicate 16 0 ∧
        out.take 2064 = C.lionessDecrypt (C.payloadEncryptionKey sec) (payloadOf packet)
    | .deliverReply id => codeOf C packet sec = 0xff02 ∧ id = ((plainActions C packet sec).drop 2).take 16 ∧
        out.take 2064 = payloadOf packet
    | .forwardTo t d => d = C.delayExp (C.delaySeed sec) ∧ (codeOf C packet sec ≤ 0xfeff ∧ t = .mixnodeIndex (codeOf C packet sec) ∨
        codeOf C packet sec = 0xff00 ∧ t = .peerId (((plainActions C packet sec).drop 2).take 32))
    | .deliverCover _ => True := by
  obtain ⟨o, r, h1, hl, hm, h2⟩ := peel_total hC zeroPacket packet sec zeroPacket_length hp
  rw [h1] at h
  obtain ⟨rfl, rfl⟩ : o = out ∧ r = .ok a := by cases h; exact ⟨rfl, rfl⟩
  refine ⟨Classical.not_not.mp fun hn => absurd (hm.2 hn) (by simp), hl, ?_⟩
  obtain ⟨hmix, hpeer, hreq, hrep, hcov, hcovid, herr⟩ := h2 (by simp)
  rcases Nat.lt_or_ge 0xff04 (codeOf C packet sec) with hc | hc
  · have := herr hc; cases this
  rcases Nat.lt_or_ge 0xfeff (codeOf C packet sec) with hc1 | hc1
  · have : codeOf C packet sec = 0xff00 ∨ codeOf C packet sec = 0xff01 ∨ codeOf C packet sec = 0xff02 ∨
      codeOf C packet sec = 0xff03 ∨ codeOf C packet sec = 0xff04 := by omega
    rcases this with h0 | h0 | h0 | h0 | h0
    · have := hpeer h0; cases this; exact ⟨rfl, .inr ⟨h0, rfl⟩⟩
    · obtain ⟨e1, e2⟩ := hreq h0
      split at e2
      · rename_i ht
        cases e2; exact ⟨h0, ht, e1⟩
      · cases e2
    · obtain ⟨e1, e2⟩ := hrep h0
      cases e2; exact ⟨h0, rfl, e1⟩
    · have := hcov h0; cases this; trivial
    · have := hcovid h0; cases this; trivial
  · have := hmix hc1; cases this; exact ⟨rfl, .inl ⟨hc1, rfl⟩⟩

/-! ### Hops that forward -/
section Hops
variable {C : Crypto} (hC : CryptoLaws C)
include hC

theorem decrypt_inj (key : Bytes) {p p' : Bytes} (hp : p.length = 2064) (hp' : p'.length = 2064)
    (h : C.lionessDecrypt key p = C.lionessDecrypt key p') : p = p' := by
  rw [← hC.encrypt_decrypt key p hp, h, hC.encrypt_decrypt key p' hp']

/-- **C92.** A hop peels the altered packet to the same action, and hands on a packet with the same header and another
payload: the hop cannot tell, and the alteration is never undone. -/
theorem altered_peel {packet packet' out : Bytes} {sec : SharedSecret} {target : Target} {delay : C.Delay}
    (h : peel C zeroPacket packet sec = .ok (out, .ok (.forwardTo target delay))) (ha : Altered packet packet') :
    ∃ out', peel C zeroPacket packet' sec = .ok (out', .ok (.forwardTo target delay)) ∧ Altered out out' := by
  obtain ⟨hm, hl, hd, hcase⟩ := code_of_action hC ha.size h
  obtain ⟨o, r, h1, hl', hm', h2⟩ := peel_total hC zeroPacket packet' sec zeroPacket_length ha.size'
  have hr : r = .ok (.forwardTo target delay) := by
    have hne : r ≠ .error .mac := fun hr => absurd (hm'.1 hr) (by rw [← ha.mac, ← ha.actions]; exact fun h => h hm)
    obtain ⟨hmix, hpeer, -⟩ := h2 hne
    rw [← ha.code] at hmix hpeer
    rw [← ha.plain] at hpeer
    rcases hcase with ⟨hc, ht⟩ | ⟨hc, ht⟩
    · rw [hmix hc, ht, hd]
    · rw [hpeer hc, ht, hd]
  subst hr
  refine ⟨o, h1, hl, hl', ?_, ?_⟩
  all_goals
    have e := forwarded_bytes hC zeroPacket_length ha.size h
    have e' := forwarded_bytes hC zeroPacket_length ha.size' h1
    unfold forwardedBytes at e e'
    dsimp only at e e'
    rw [← ha.kx, ← ha.part 48 140 (by decide)] at e'
    generalize C.mulClamped (packet.take 32) _ ++ List.drop _ _ = X at e e'
    have hX : X.length = 188 := by
      have := congrArg List.length e
      have hd : (C.lionessDecrypt (C.payloadEncryptionKey sec) ((packet.drop 188).take 2064)).length = 2064 :=
        hC.decrypt_length _ _ (payloadOf_length ha.size)
      rw [hl, List.length_append, hd] at this
      omega
  · rw [e, e', List.take_left' hX, List.take_left' hX]
  · rw [e, e', List.drop_left' hX, List.drop_left' hX]
    exact fun he => ha.payloads (decrypt_inj hC _ (payloadOf_length ha.size) (payloadOf_length ha.size') he)

/-- **C92.** The same over any number of hops. -/
theorem altered_handed {packet packet' last : Bytes} {hops} (h : Handed C packet hops last) (ha : Altered packet packet') :
    ∃ last', Handed C packet' hops last' ∧ Altered last last' := by
  induction h generalizing packet' with
  | here packet => exact ⟨packet', .here _, ha⟩
  | hop hp _ ih =>
    obtain ⟨out', h1, h2⟩ := altered_peel hC hp ha
    obtain ⟨last', h3, h4⟩ := ih h2
    exact ⟨last', .hop h1 h3, h4⟩

/-- **C92.** A node that would forward the packet forwards the altered one, to the same peer with the same deadline. -/
theorem altered_forwards {m : Node} {now : Nat} {packet packet' : Bytes} {p : ForwardPacket}
    (h : Forwards C m now packet p) (ha : Altered packet packet') :
    ∃ out', Forwards C m now packet' ⟨p.deadline, ⟨p.packet.peerId, out'⟩⟩ ∧ Altered p.packet.packet out' := by
  obtain ⟨rel, s, out, target, delay, peer, hacc, h1, h2, h3, rfl⟩ := h
  obtain ⟨out', hp, hout⟩ := altered_peel hC hacc.peels ha
  refine ⟨out', ⟨rel, s, out', target, delay, peer, ⟨hacc.slot, ?_, ?_, ?_, hout.size'⟩, h1, h2, h3, rfl⟩, hout⟩
  · rw [← ha.tagFor]; exact hacc.fresh
  · rw [← ha.secretFor]; exact hp
  · intro hrel s' hs'
    obtain ⟨f1, f2⟩ := hacc.first hrel s' hs'
    refine ⟨by rw [← ha.tagFor]; exact f1, ?_⟩
    rw [← ha.secretFor]
    refine peel_bad_mac_out hC ha.size' ?_
    rw [← ha.actions, ← ha.mac]
    exact (peel_bad_mac hC ha.size).1 ⟨_, f2⟩

end Hops

/-! ### Payload ciphers -/
section Ciphers
variable {C : Crypto} (hC : CryptoLaws C)
include hC

theorem cipher_laws (key : Bytes) (π : Equiv.Perm Block) : CryptoLaws (withCipher C key π) :=
  { hC with
    decrypt_encrypt := by
      intro k p (hp : p.length = 2064)
      show (if k = key then _ else _) = _
      by_cases hk : k = key
      · have e : (withCipher C key π).lionessEncrypt k p = (π ⟨p, hp⟩).1 := by
          show (if k = key then _ else _) = _
          rw [if_pos hk, dif_pos hp]
        rw [if_pos hk, e, dif_pos (π ⟨p, hp⟩).2, Equiv.symm_apply_apply]
      · have e : (withCipher C key π).lionessEncrypt k p = C.lionessEncrypt k p := by
          show (if k = key then _ else _) = _
          rw [if_neg hk]
        rw [if_neg hk, e]; exact hC.decrypt_encrypt k p hp
    encrypt_decrypt := by
      intro k p (hp : p.length = 2064)
      show (if k = key then _ else _) = _
      by_cases hk : k = key
      · have e : (withCipher C key π).lionessDecrypt k p = (π.symm ⟨p, hp⟩).1 := by
          show (if k = key then _ else _) = _
          rw [if_pos hk, dif_pos hp]
        rw [if_pos hk, e, dif_pos (π.symm ⟨p, hp⟩).2, Equiv.apply_symm_apply]
      · have e : (withCipher C key π).lionessDecrypt k p = C.lionessDecrypt k p := by
          show (if k = key then _ else _) = _
          rw [if_neg hk]
        rw [if_neg hk, e]; exact hC.encrypt_decrypt k p hp
    encrypt_length := by
      intro k p (hp : p.length = 2064)
      show (if k = key then _ else _ : Bytes).length = _
      by_cases hk : k = key
      · rw [if_pos hk, dif_pos hp]; exact (π ⟨p, hp⟩).2
      · rw [if_neg hk]; exact hC.encrypt_length k p hp
    decrypt_length := by
      intro k p (hp : p.length = 2064)
      show (if k = key then _ else _ : Bytes).length = _
      by_cases hk : k = key
      · rw [if_pos hk, dif_pos hp]; exact (π.symm ⟨p, hp⟩).2
      · rw [if_neg hk]; exact hC.decrypt_length k p hp }

omit hC in
theorem cipher_decrypt (key : Bytes) (π : Equiv.Perm Block) {p : Bytes} (hp : p.length = 2064) :
    (withCipher C key π).lionessDecrypt key p = (π.symm ⟨p, hp⟩).1 := by
  show (if key = key then _ else _) = _
  rw [if_pos rfl, dif_pos hp]

omit hC in
theorem cipher_encrypt (key : Bytes) (π : Equiv.Perm Block) {p : Bytes} (hp : p.length = 2064) :
    (withCipher C key π).lionessEncrypt key p = (π ⟨p, hp⟩).1 := by
  show (if key = key then _ else _) = _
  rw [if_pos rfl, dif_pos hp]

omit hC in
theorem cipher_encrypt_other {key k : Bytes} (hk : k ≠ key) (π : Equiv.Perm Block) (p : Bytes) :
    (withCipher C key π).lionessEncrypt k p = C.lionessEncrypt k p := by
  show (if k = key then _ else _) = _
  rw [if_neg hk]

/-- **C92.** The actual cipher is one of these permutations, so the sets counted below are not empty. -/
theorem actual_cipher (key : Bytes) : ∃ π : Equiv.Perm Block, ∀ p : Bytes, p.length = 2064 →
    π ∈ decryptsAlike C key p ∧ π ∈ encryptsAlike C key p := by
  refine ⟨⟨fun p => ⟨C.lionessEncrypt key p.1, hC.encrypt_length _ _ p.2⟩,
    fun p => ⟨C.lionessDecrypt key p.1, hC.decrypt_length _ _ p.2⟩,
    fun p => Subtype.ext (hC.decrypt_encrypt _ _ p.2), fun p => Subtype.ext (hC.encrypt_decrypt _ _ p.2)⟩, fun p hp => ⟨?_, ?_⟩⟩
  · show (withCipher C key _).lionessDecrypt key p = _
    rw [cipher_decrypt key _ hp]; rfl
  · show (withCipher C key _).lionessEncrypt key p = _
    rw [cipher_encrypt key _ hp]; rfl

omit hC in
theorem tag_share : 2 ^ 128 * {p : Block | p.1.drop 2048 = List.replicate 16 0}.ncard = Nat.card Block := by
  have e1 : {p : Block | p.1.drop 2048 = List.replicate 16 0}.ncard = 256 ^ 2048 :=
    card_ending 2048 16 (List.replicate 16 0) (List.length_replicate)
  have e2 : Nat.card Block = 256 ^ (2048 + 16) := card_strings 2064
  rw [e1, e2, Nat.pow_add, Nat.mul_comm]
  congr 1

omit hC in
theorem hits_symm {x x' y : Block} (hx : x ≠ x') (hy : y.1.drop 2048 = List.replicate 16 0) :
    2 ^ 128 * {π : Equiv.Perm Block | π.symm x = y ∧ (π.symm x').1.drop 2048 = List.replicate 16 0}.ncard ≤
      {π : Equiv.Perm Block | π.symm x = y}.ncard := by
  have flip : ∀ P : Equiv.Perm Block → Prop, {π : Equiv.Perm Block | P π.symm}.ncard = {π | P π}.ncard := by
    intro P
    rw [← Set.ncard_image_of_injective _ (Equiv.symm_bijective (α := Block) (β := Block)).injective]
    congr 1
    ext π
    constructor
    · rintro ⟨σ, hσ, rfl⟩; exact hσ
    · intro h; exact ⟨π.symm, h, rfl⟩
  rw [flip (fun π => π x = y ∧ (π x').1.drop 2048 = List.replicate 16 0), flip (fun π => π x = y)]
  exact hits_ncard hx (T := {p : Block | p.1.drop 2048 = List.replicate 16 0}) hy (by decide) tag_share

end Ciphers

/-! ### The last hop -/
section Last
variable {C : Crypto} (hC : CryptoLaws C) {config : Config} {m : Node}
include hC

/-- If the header is accepted by a session, no other session gets the packet. -/
theorem only_session {packet : Bytes} (hp : packet.length = 2252) {rel : RelSessionIndex} {s : Session}
    (hslot : m.sessions.get rel = .full s)
    (hmac : C.blakeMac (C.macKey (s.secretFor C packet)) (actionsOf packet) = macOf packet)
    (hfirst : rel = .prev → ∀ s', m.sessions.current = .full s' →
      C.blakeMac (C.macKey (s'.secretFor C packet)) (actionsOf packet) ≠ macOf packet)
    {rel' s' out a} (h : Accepts C m packet rel' s' out a) : rel' = rel ∧ s' = s := by
  have hrel : rel' = rel := by
    cases rel <;> cases rel'
    · rfl
    · exfalso
      obtain ⟨-, h2⟩ := h.first rfl s hslot
      exact (peel_bad_mac hC hp).1 ⟨_, h2⟩ hmac
    · exfalso
      exact hfirst rfl s' h.slot (code_of_action hC hp h.peels).1
    · rfl
  subst hrel
  have := h.slot
  rw [hslot] at this
  cases this
  exact ⟨rfl, rfl⟩

/-- Handling a packet that no session accepts does nothing. -/
theorem unaccepted (hfa : FAInv m.fragmentAssembler) (hidx : ∀ s, m.sessions.prev = .full s → 1 ≤ m.sessionStatus.currentIndex)
    {packet : Bytes} (hp : packet.length = 2252) (now : Nat) (h : ∀ out a rel s, ¬ Accepts C m packet rel s out a) :
    m.step C (.handlePacket now packet) = .ok (m, .message none) := by
  rcases handlePacket_spec hC m now hp hfa hidx with ⟨-, h1⟩ | ⟨out, a, rel, s, m', msg, h1, -⟩
  · show (m.handlePacket C now packet >>= _) = _
    rw [h1]; rfl
  · exact absurd h1 (h _ _ _ _)

/-- **C92.** Requests. A node accepts a packet as a (fragment of a) request; the payload of the packet is altered on the way.
Whatever the payload cipher does with the key in question, as long as it decrypts the original payload as it does: for
all but a share of at most `2⁻¹²⁸` of the permutations, the node drops the altered packet, and nothing at all changes. -/
theorem altered_request_dropped (hr : Node.Reachable C config m) {packet packet' out : Bytes} {rel : RelSessionIndex}
    {s : Session} (hacc : Accepts C m packet rel s out .deliverRequest) (ha : Altered packet packet') (now : Nat) :
    2 ^ 128 * {π | π ∈ decryptsAlike C (C.payloadEncryptionKey (s.secretFor C packet)) (packet.drop 188) ∧
        m.step (withCipher C (C.payloadEncryptionKey (s.secretFor C packet)) π) (.handlePacket now packet') ≠
          .ok (m, .message none)}.ncard ≤
      (decryptsAlike C (C.payloadEncryptionKey (s.secretFor C packet)) (packet.drop 188)).ncard := by
  obtain ⟨hI, -⟩ := hr.inv hC
  obtain ⟨hmac, hl, hcode, htag, hout⟩ := code_of_action hC ha.size hacc.peels
  obtain ⟨key, hkey⟩ : ∃ key, C.payloadEncryptionKey (s.secretFor C packet) = key := ⟨_, rfl⟩
  rw [payloadOf_eq ha.size, hkey] at htag
  rw [hkey]
  have hx : (packet.drop 188).length = 2064 := by rw [List.length_drop, ha.size]
  have hx' : (packet'.drop 188).length = 2064 := by rw [List.length_drop, ha.size']
  have hy : (C.lionessDecrypt key (packet.drop 188)).length = 2064 := hC.decrypt_length _ _ hx
  have hne : (⟨packet.drop 188, hx⟩ : Block) ≠ ⟨packet'.drop 188, hx'⟩ := fun h => ha.payload (congrArg Subtype.val h)
  have hshare := hits_symm hne (y := ⟨C.lionessDecrypt key (packet.drop 188), hy⟩) htag
  have halike : decryptsAlike C key (packet.drop 188) =
      {π : Equiv.Perm Block | π.symm ⟨packet.drop 188, hx⟩ = ⟨C.lionessDecrypt key (packet.drop 188), hy⟩} := by
    ext π
    show (withCipher C key π).lionessDecrypt key (packet.drop 188) = _ ↔ _
    rw [cipher_decrypt key π hx]
    exact ⟨fun h => Subtype.ext h, fun h => congrArg Subtype.val h⟩
  rw [halike]
  refine le_trans (Nat.mul_le_mul_left _ (Set.ncard_le_ncard ?_ (Set.toFinite _))) hshare
  rintro π ⟨h1, h2⟩
  refine ⟨h1, Classical.not_not.mp fun hbad => h2 ?_⟩
  have hC' := cipher_laws hC key π
  refine unaccepted hC' hI.assembler hI.index_of_full ha.size' now ?_
  intro out' a rel' s' h
  have hmac' : (withCipher C key π).blakeMac ((withCipher C key π).macKey (s.secretFor (withCipher C key π) packet'))
      (actionsOf packet') = macOf packet' := by
    rw [← ha.secretFor, ← ha.actions, ← ha.mac]; exact hmac
  obtain ⟨rfl, rfl⟩ := only_session hC' ha.size' hacc.slot hmac' (by
    intro hrel s1 hs1
    rw [← ha.secretFor, ← ha.actions, ← ha.mac]
    exact (peel_bad_mac hC ha.size).1 ⟨_, (hacc.first hrel s1 hs1).2⟩) h
  obtain ⟨o, r, p1, -, p2, p3⟩ := peel_total hC' zeroPacket packet' (s'.secretFor (withCipher C key π) packet')
    zeroPacket_length ha.size'
  have hne : r ≠ .error .mac := fun hr => p2.1 hr hmac'
  obtain ⟨-, -, hreq, -⟩ := p3 hne
  have hc : codeOf (withCipher C key π) packet' (s'.secretFor (withCipher C key π) packet') = 0xff01 := by
    rw [← ha.secretFor, ← ha.code]; exact hcode
  obtain ⟨-, hr'⟩ := hreq hc
  have hk : (withCipher C key π).payloadEncryptionKey (s'.secretFor (withCipher C key π) packet') = key := by
    rw [← ha.secretFor]; exact hkey
  rw [hk, payloadOf_eq ha.size', cipher_decrypt key π hx', if_neg hbad] at hr'
  have := h.peels
  rw [p1, hr'] at this
  cases this

/-- **C92.** From the sender to the destination: a request packet altered anywhere on the way is handed on by the remaining
hops as the original would have been, and dropped at the end. -/
theorem altered_on_the_way (hr : Node.Reachable C config m) {packet packet' last out : Bytes} {hops}
    (hway : Handed C packet hops last) {rel : RelSessionIndex} {s : Session}
    (hacc : Accepts C m last rel s out .deliverRequest) (ha : Altered packet packet') (now : Nat) :
    ∃ last', Handed C packet' hops last' ∧ Altered last last' ∧
    2 ^ 128 * {π | π ∈ decryptsAlike C (C.payloadEncryptionKey (s.secretFor C last)) (last.drop 188) ∧
        m.step (withCipher C (C.payloadEncryptionKey (s.secretFor C last)) π) (.handlePacket now last') ≠
          .ok (m, .message none)}.ncard ≤
      (decryptsAlike C (C.payloadEncryptionKey (s.secretFor C last)) (last.drop 188)).ncard := by
  obtain ⟨last', h1, h2⟩ := altered_handed hC hway ha
  exact ⟨last', h1, h2, altered_request_dropped hC hr hacc h2 now⟩

/-- **C92.** With each of the permutations that are counted, the node accepts the original packet, with the same
contents. -/
theorem original_request_accepted {packet out : Bytes} {rel : RelSessionIndex} {s : Session} (hp : packet.length = 2252)
    (hacc : Accepts C m packet rel s out .deliverRequest) {π : Equiv.Perm Block}
    (hπ : π ∈ decryptsAlike C (C.payloadEncryptionKey (s.secretFor C packet)) (packet.drop 188)) :
    ∃ out', Accepts (withCipher C (C.payloadEncryptionKey (s.secretFor C packet)) π) m packet rel s out' .deliverRequest ∧
      out'.take 2064 = out.take 2064 := by
  obtain ⟨hmac, hl, hcode, htag, hout⟩ := code_of_action hC hp hacc.peels
  obtain ⟨key, hkey⟩ : ∃ key, C.payloadEncryptionKey (s.secretFor C packet) = key := ⟨_, rfl⟩
  rw [payloadOf_eq hp, hkey] at htag hout
  rw [hkey] at hπ ⊢
  have hC' := cipher_laws hC key π
  obtain ⟨o, r, p1, hl', p2, p3⟩ := peel_total hC' zeroPacket packet (s.secretFor (withCipher C key π) packet)
    zeroPacket_length hp
  obtain ⟨-, -, hreq, -⟩ := p3 (fun hr => p2.1 hr hmac)
  obtain ⟨ho, hr'⟩ := hreq hcode
  have hk : (withCipher C key π).payloadEncryptionKey (s.secretFor (withCipher C key π) packet) = key := hkey
  have hd : (withCipher C key π).lionessDecrypt key (packet.drop 188) = C.lionessDecrypt key (packet.drop 188) := hπ
  rw [hk, payloadOf_eq hp, hd] at ho hr'
  rw [if_pos htag] at hr'
  refine ⟨o, ⟨hacc.slot, hacc.fresh, by rw [p1, hr'], ?_, hl'⟩, ho.trans hout.symm⟩
  intro hrel s1 hs1
  obtain ⟨f1, f2⟩ := hacc.first hrel s1 hs1
  exact ⟨f1, peel_bad_mac_out hC' hp ((peel_bad_mac hC hp).1 ⟨_, f2⟩)⟩

omit hC in
theorem openReply_other {key : Bytes} {keys : List Bytes} (hk : key ∉ keys) (π : Equiv.Perm Block) (p : Bytes) :
    openReply (withCipher C key π) keys p = openReply C keys p := by
  unfold openReply
  have hk' : key ∉ keys.reverse := fun h => hk (List.mem_reverse.mp h)
  clear hk
  generalize keys.reverse = l at hk'
  induction l generalizing p with
  | nil => rfl
  | cons k ks ih =>
    rw [List.mem_cons, not_or] at hk'
    rw [List.foldl_cons, List.foldl_cons, cipher_encrypt_other (fun h => hk'.1 h.symm) π p]
    exact ih _ hk'.2

omit hC in
theorem openReply_cons (key : Bytes) (keys : List Bytes) (p : Bytes) :
    openReply C (key :: keys) p = C.lionessEncrypt key (openReply C keys p) := by
  unfold openReply
  rw [List.reverse_cons, List.foldl_append]; rfl

/-- **C92.** Replies. A node has the keys of the SURB a reply packet names, and they open its payload; the payload of the
packet is altered on the way. For all but a share of at most `2⁻¹²⁸` of the permutations the payload cipher can be with
the key of the SURB's sender, that encrypt the original as it does: the node gets nothing from the altered packet; all
that changes is that the SURB is used up. (The keys of a SURB are hashes of different shared secrets;
`hrest` says that they do not collide.) -/
theorem altered_reply_dropped (hr : Node.Reachable C config m) {packet packet' out : Bytes} {rel : RelSessionIndex}
    {s : Session} {id : SurbId} (hacc : Accepts C m packet rel s out (.deliverReply id)) {v : SurbValue}
    (hv : m.surbKeystore.entry id = some v) {key : Bytes} {rest : List Bytes} (hkeys : v.keys = key :: rest)
    (hrest : key ∉ rest) {data : Bytes} (hopen : decryptReplyPayload C (packet.drop 188) v.keys = .ok (data, .ok ()))
    (ha : Altered packet packet') (now : Nat) :
    2 ^ 128 * {π | π ∈ encryptsAlike C key (openReply C rest (packet.drop 188)) ∧
        m.step (withCipher C key π) (.handlePacket now packet') ≠
          .ok ({ m with surbKeystore := m.surbKeystore.remove id }, .message none)}.ncard ≤
      (encryptsAlike C key (openReply C rest (packet.drop 188))).ncard := by
  obtain ⟨hI, -⟩ := hr.inv hC
  obtain ⟨hmac, hl, hcode, hid, hout⟩ := code_of_action hC ha.size hacc.peels
  have hx : (packet.drop 188).length = 2064 := by rw [List.length_drop, ha.size]
  have hx' : (packet'.drop 188).length = 2064 := by rw [List.length_drop, ha.size']
  have hz : (openReply C rest (packet.drop 188)).length = 2064 := openReply_length hC rest _ hx
  have hz' : (openReply C rest (packet'.drop 188)).length = 2064 := openReply_length hC rest _ hx'
  have hy : (C.lionessEncrypt key (openReply C rest (packet.drop 188))).length = 2064 := hC.encrypt_length _ _ hz
  have htag : (C.lionessEncrypt key (openReply C rest (packet.drop 188))).drop 2048 = List.replicate 16 0 := by
    rw [reply_payload_checked hC _ _ hx, hkeys, openReply_cons] at hopen
    split at hopen
    · rename_i h; exact h
    · cases hopen
  have hne : (⟨openReply C rest (packet.drop 188), hz⟩ : Block) ≠ ⟨openReply C rest (packet'.drop 188), hz'⟩ :=
    fun h => ha.payload (openReply_inj hC rest _ _ hx hx' (congrArg Subtype.val h))
  have hshare := hits_ncard hne (y := ⟨_, hy⟩) (T := {p : Block | p.1.drop 2048 = List.replicate 16 0}) htag (by decide : 0 < 2 ^ 128) tag_share
  have halike : encryptsAlike C key (openReply C rest (packet.drop 188)) =
      {π : Equiv.Perm Block | π ⟨openReply C rest (packet.drop 188), hz⟩ = ⟨_, hy⟩} := by
    ext π
    show (withCipher C key π).lionessEncrypt key _ = _ ↔ _
    rw [cipher_encrypt key π hz]
    exact ⟨fun h => Subtype.ext h, fun h => congrArg Subtype.val h⟩
  rw [halike]
  refine le_trans (Nat.mul_le_mul_left _ (Set.ncard_le_ncard ?_ (Set.toFinite _))) hshare
  rintro π ⟨h1, h2⟩
  refine ⟨h1, Classical.not_not.mp fun hbad => h2 ?_⟩
  have hC' := cipher_laws hC key π
  have hmac' : (withCipher C key π).blakeMac ((withCipher C key π).macKey (s.secretFor (withCipher C key π) packet'))
      (actionsOf packet') = macOf packet' := by
    rw [← ha.secretFor, ← ha.actions, ← ha.mac]; exact hmac
  obtain ⟨o, r, p1, hl', p2, p3⟩ := peel_total hC' zeroPacket packet' (s.secretFor (withCipher C key π) packet')
    zeroPacket_length ha.size'
  obtain ⟨-, -, -, hrep, -⟩ := p3 (fun hr => p2.1 hr hmac')
  have hc : codeOf (withCipher C key π) packet' (s.secretFor (withCipher C key π) packet') = 0xff02 := by
    rw [← ha.secretFor, ← ha.code]; exact hcode
  obtain ⟨ho, hr'⟩ := hrep hc
  have hid' : ((plainActions (withCipher C key π) packet' (s.secretFor (withCipher C key π) packet')).drop 2).take 16 = id := by
    rw [← ha.secretFor, ← ha.plain]; exact hid.symm
  rw [hid'] at hr'
  have hacc' : Accepts (withCipher C key π) m packet' rel s o (.deliverReply id) := by
    refine ⟨hacc.slot, ?_, by rw [p1, hr'], ?_, hl'⟩
    · rw [← ha.tagFor]; exact hacc.fresh
    · intro hrel s1 hs1
      obtain ⟨f1, f2⟩ := hacc.first hrel s1 hs1
      refine ⟨by rw [← ha.tagFor]; exact f1, peel_bad_mac_out hC' ha.size' ?_⟩
      rw [← ha.secretFor, ← ha.actions, ← ha.mac]
      exact (peel_bad_mac hC ha.size).1 ⟨_, f2⟩
  have hd : decryptReplyPayload (withCipher C key π) (o.take PAYLOAD_SIZE) v.keys =
      .ok (openReply (withCipher C key π) v.keys (packet'.drop 188), .error .payloadTag) := by
    rw [show o.take PAYLOAD_SIZE = packet'.drop 188 from ho.trans (payloadOf_eq ha.size'),
      reply_payload_checked hC' _ _ hx', if_neg]
    rw [hkeys, openReply_cons, openReply_other hrest, cipher_encrypt key π hz']
    exact hbad
  rcases handlePacket_spec hC' m now ha.size' hI.assembler hI.index_of_full with
    ⟨hno, -⟩ | ⟨out2, a2, rel2, s2, m3, msg, ha2, he, heq⟩
  · exact absurd hacc' (hno _ _ _ _)
  · obtain ⟨rfl, rfl, rfl, rfl⟩ := accepts_unique hacc' ha2
    show (m.handlePacket (withCipher C key π) now packet' >>= _) = _
    rw [heq]
    cases he with
    | replyUnknown _ h => rw [hv] at h; cases h
    | replyBad _ w payload e h h' => rfl
    | reply _ w payload a o h h' =>
      rw [hv] at h; cases h
      rw [hd] at h'; cases h'

end Last
/-! ### The hypotheses can be met -/
section Examples
open World

/-- A packet with each byte of its payload increased by one. -/
def spoiled (packet : Bytes) : Bytes := packet.take 188 ++ (packet.drop 188).map (· + 1)

theorem spoiled_altered {packet : Bytes} (h : packet.length = 2252) : Altered packet (spoiled packet) := by
  have hl : (packet.take 188).length = 188 := by rw [List.length_take, h]; rfl
  refine ⟨h, ?_, ?_, ?_⟩
  · rw [spoiled, List.length_append, hl, List.length_map, List.length_drop, h]
  · rw [spoiled, List.take_left' hl]
  · rw [spoiled, List.drop_left' hl]
    have : (packet.drop 188).length = 2064 := by rw [List.length_drop, h]
    intro he
    cases hd : packet.drop 188 with
    | nil => rw [hd] at this; cases this
    | cons b l =>
      rw [hd, List.map_cons] at he
      have hb : b = b + 1 := (List.cons.inj he).1
      have h0 : b.toNat = (b.toNat + 1) % 256 := by
        have := congrArg UInt8.toNat hb
        rwa [UInt8.toNat_add] at this
      have := b.toNat_lt
      omega

/-- Bob accepts Alice's request. -/
theorem bob_accepts : ∃ rel s out, Accepts World.C bob packet1.packet.packet rel s out .deliverRequest := by
  obtain ⟨r, hr, -⟩ := arriveOut_eq
  have hstep := arrive_step
  rw [hr] at hstep
  obtain ⟨hI, -⟩ := bob_reachable.inv toyLaws
  rcases handlePacket_spec toyLaws bob 5000 packet1_length hI.assembler hI.index_of_full with
    ⟨-, h⟩ | ⟨out, a, rel, s, m', msg, hacc, he, h⟩
  · change (bob.handlePacket World.C 5000 packet1.packet.packet >>= _) = _ at hstep
    rw [h, res_bind_ok] at hstep
    have hm := congrArg Prod.snd (Except.ok.inj hstep)
    cases hm
  · change (bob.handlePacket World.C 5000 packet1.packet.packet >>= _) = _ at hstep
    rw [h, res_bind_ok] at hstep
    have hm : msg = some (.request r) := Outcome.message.inj (congrArg Prod.snd (Except.ok.inj hstep))
    cases he with
    | request => exact ⟨_, _, _, hacc⟩
    | reply _ _ _ _ o => cases o <;> cases hm
    | _ => cases hm

example (now : Nat) : ∃ key : Bytes, 0 < (decryptsAlike World.C key (packet1.packet.packet.drop 188)).ncard ∧
    2 ^ 128 * {π | π ∈ decryptsAlike World.C key (packet1.packet.packet.drop 188) ∧
      bob.step (withCipher World.C key π) (.handlePacket now (spoiled packet1.packet.packet)) ≠ .ok (bob, .message none)}.ncard ≤
    (decryptsAlike World.C key (packet1.packet.packet.drop 188)).ncard := by
  obtain ⟨rel, s, out, hacc⟩ := bob_accepts
  refine ⟨_, ?_, altered_request_dropped toyLaws bob_reachable hacc (spoiled_altered packet1_length) now⟩
  obtain ⟨π, hπ⟩ := actual_cipher toyLaws (World.C.payloadEncryptionKey (s.secretFor World.C packet1.packet.packet))
  rw [Set.ncard_pos (Set.toFinite _)]
  exact ⟨π, (hπ _ (by rw [List.length_drop, packet1_length])).1⟩

/-- Carol forwards Alice's request. -/
theorem carol_forwards : ∃ p, Forwards World.C carol 1000 packet0.packet p := by
  obtain ⟨hI, -⟩ := carol_reachable.inv toyLaws
  have hstep := relay_step
  change (carol.handlePacket World.C 1000 packet0.packet >>= _) = _ at hstep
  have hq := carol1_queue.1
  have hq0 : carol.forwardPacketQueue.queue = [] := by decide +kernel
  rcases handlePacket_spec toyLaws carol 1000 packet0_length hI.assembler hI.index_of_full with
    ⟨-, h⟩ | ⟨out, a, rel, s, m', msg, hacc, he, h⟩
  · rw [h, res_bind_ok] at hstep
    have : carol = carol1 := congrArg Prod.fst (Except.ok.inj hstep)
    rw [← this, hq0] at hq; cases hq
  · rw [h, res_bind_ok] at hstep
    have hm : m' = carol1 := congrArg Prod.fst (Except.ok.inj hstep)
    rw [← hm] at hq
    cases he with
    | forward t d peer ev h1 h2 h3 h4 =>
      exact ⟨⟨1000 + World.C.delayToDuration d carol.config.meanForwardingDelay, ⟨peer, out⟩⟩,
        rel, s, out, t, d, peer, hacc, h1, by rw [hq0]; decide +kernel, targetToPeerId_ok.1 h3, rfl⟩
    | _ => exact absurd (hq0.symm.trans hq) (by simp)

/-- She does so when its payload has been altered. -/
example : ∃ p out', Forwards World.C carol 1000 packet0.packet p ∧
    Forwards World.C carol 1000 (spoiled packet0.packet) ⟨p.deadline, ⟨p.packet.peerId, out'⟩⟩ ∧ Altered p.packet.packet out' := by
  obtain ⟨p, hF⟩ := carol_forwards
  obtain ⟨out', h5, h6⟩ := altered_forwards toyLaws hF (spoiled_altered packet0_length)
  exact ⟨_, out', hF, h5, h6⟩

/-- Alice gets nothing from Bob's reply when its payload has been altered. -/
example (now : Nat) : ∃ (id : SurbId) (key : Bytes) (rest : List Bytes),
    0 < (encryptsAlike World.C key (openReply World.C rest (packet3.packet.packet.drop 188))).ncard ∧
    2 ^ 128 * {π | π ∈ encryptsAlike World.C key (openReply World.C rest (packet3.packet.packet.drop 188)) ∧
      alice1.step (withCipher World.C key π) (.handlePacket now (spoiled packet3.packet.packet)) ≠
        .ok ({ alice1 with surbKeystore := alice1.surbKeystore.remove id }, .message none)}.ncard ≤
    (encryptsAlike World.C key (openReply World.C rest (packet3.packet.packet.drop 188))).ncard := by
  obtain ⟨hI, -⟩ := alice1_reachable.inv toyLaws
  obtain ⟨r, hr, -⟩ := backOut_eq
  have hstep := back_step
  rw [hr] at hstep
  change (alice1.handlePacket World.C 7000 packet3.packet.packet >>= _) = _ at hstep
  rcases handlePacket_spec toyLaws alice1 7000 packet3_length hI.assembler hI.index_of_full with
    ⟨-, h⟩ | ⟨out, a, rel, s, m', msg, hacc, he, h⟩
  · rw [h, res_bind_ok] at hstep
    have hm := congrArg Prod.snd (Except.ok.inj hstep)
    cases hm
  · rw [h, res_bind_ok] at hstep
    have hm : msg = some (.reply r) := Outcome.message.inj (congrArg Prod.snd (Except.ok.inj hstep))
    cases he with
    | request _ o => cases o <;> cases hm
    | reply id v payload a o hv hd =>
      have hk : ∀ x ∈ alice1.surbKeystore.surbs, x.2.keys.Nodup ∧ x.2.keys ≠ [] := by decide +kernel
      obtain ⟨h1, h2⟩ := hk _ (mem_of_entry hv)
      obtain ⟨key, rest, hkeys⟩ := List.exists_cons_of_ne_nil h2
      have hout := (code_of_action toyLaws packet3_length hacc.peels).2.2.2.2
      rw [show out.take PAYLOAD_SIZE = packet3.packet.packet.drop 188 from hout.trans (payloadOf_eq packet3_length)] at hd
      refine ⟨id, key, rest, ?_, altered_reply_dropped toyLaws alice1_reachable hacc hv hkeys
        (by rw [hkeys] at h1; exact (List.nodup_cons.mp h1).1) hd (spoiled_altered packet3_length) now⟩
      obtain ⟨π, hπ⟩ := actual_cipher toyLaws key
      rw [Set.ncard_pos (Set.toFinite _)]
      exact ⟨π, (hπ _ (openReply_length toyLaws _ _ (by rw [List.length_drop, packet3_length]))).2⟩
    | _ => cases hm

end Examples
end Mixnet.Props
