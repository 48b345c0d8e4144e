import Verif.Proofs.SphinxTravel
import Verif.Proofs.Keystore
/-!
# Building a header keeps the size of the buffer
-/
namespace Mixnet

theorem arraySet_length {site : String} {l xs l' : Bytes} {off : Nat} (h : arraySet site l off xs = .ok l') :
    l'.length = l.length := by
  unfold arraySet at h
  split at h
  · simp only [Except.ok.injEq] at h
    subst h
    simp only [splice, List.length_append, List.length_take, List.length_drop]
    omega
  · cases h

theorem buildForwardStep_length {C : Crypto} {t sec} {s s' : BuildState C}
    (h : buildForwardStep C t sec s = .ok s') : s'.buf.length = s.buf.length := by
  unfold buildForwardStep at h
  cases t with
  | mixnodeIndex i =>
    dsimp only at h
    rw [res_bind_eq_ok] at h
    obtain ⟨⟨buf, offset, raw⟩, h1, h⟩ := h
    simp only [Except.ok.injEq, Prod.mk.injEq] at h1
    obtain ⟨rfl, -⟩ := h1
    dsimp only at h
    rw [res_bind_eq_ok] at h
    obtain ⟨buf2, h2, h⟩ := h
    rw [res_bind_eq_ok] at h
    obtain ⟨-, -, h⟩ := h
    rw [res_bind_eq_ok] at h
    obtain ⟨pp, -, h⟩ := h
    rw [res_bind_eq_ok] at h
    obtain ⟨-, -, h⟩ := h
    rw [res_bind_eq_ok] at h
    obtain ⟨ks, -, h⟩ := h
    simp only [Except.ok.injEq] at h
    subst h
    exact arraySet_length h2
  | peerId p =>
    dsimp only at h
    rw [res_bind_eq_ok] at h
    obtain ⟨b, h1, h⟩ := h
    rw [res_bind_eq_ok] at h
    obtain ⟨⟨buf, offset, raw⟩, h0, h⟩ := h
    simp only [Except.ok.injEq, Prod.mk.injEq] at h0
    obtain ⟨rfl, -⟩ := h0
    dsimp only at h
    rw [res_bind_eq_ok] at h
    obtain ⟨buf2, h2, h⟩ := h
    rw [res_bind_eq_ok] at h
    obtain ⟨-, -, h⟩ := h
    rw [res_bind_eq_ok] at h
    obtain ⟨pp, -, h⟩ := h
    rw [res_bind_eq_ok] at h
    obtain ⟨-, -, h⟩ := h
    rw [res_bind_eq_ok] at h
    obtain ⟨ks, -, h⟩ := h
    simp only [Except.ok.injEq] at h
    subst h
    exact (arraySet_length h2).trans (arraySet_length h1)

theorem buildForward_length {C : Crypto} : ∀ {l} {s s' : BuildState C}, buildForward C l s = .ok s' →
    s'.buf.length = s.buf.length
  | [], s, s', h => by
    simp only [buildForward, Except.ok.injEq] at h
    rw [h]
  | (t, sec) :: l, s, s', h => by
    unfold buildForward at h
    rw [res_bind_eq_ok] at h
    obtain ⟨s1, h1, h⟩ := h
    exact (buildForward_length h).trans (buildForwardStep_length h1)

theorem buildLast_length {C : Crypto} {kind sec rng rng'} {s s' : BuildState C}
    (h : buildLast C kind sec rng s = .ok (s', rng')) : s'.buf.length = s.buf.length := by
  unfold buildLast at h
  rcases kind with - | id | (- | id)
  · dsimp only at h
    rw [res_bind_eq_ok] at h
    obtain ⟨⟨buf, offset, raw⟩, h0, h⟩ := h
    simp only [Except.ok.injEq, Prod.mk.injEq] at h0
    obtain ⟨rfl, -⟩ := h0
    dsimp only at h
    rw [res_bind_eq_ok] at h
    obtain ⟨buf2, h2, h⟩ := h
    have e2 := arraySet_length h2
    rw [res_bind_eq_ok] at h
    obtain ⟨_, h3, h⟩ := h
    have h3' : MAC_SIZE + offset ≤ buf2.length := by
      by_contra hn
      simp [assertP, hn, panic] at h3
    rw [res_bind_eq_ok] at h
    obtain ⟨pad, -, h⟩ := h
    rw [res_bind_eq_ok] at h
    obtain ⟨buf3, h4, h⟩ := h
    simp only [Except.ok.injEq, Prod.mk.injEq] at h
    obtain ⟨rfl, -⟩ := h
    dsimp only
    rw [arraySet_length h4]
    simp only [Crypto.applyActionsEncryptionKeystream, applyKeystream_length, List.length_append, List.length_take,
      List.length_drop, fillBytes_length]
    omega
  · dsimp only at h
    rw [res_bind_eq_ok] at h
    obtain ⟨b, h1, h⟩ := h
    have e1 := arraySet_length h1
    rw [res_bind_eq_ok] at h
    obtain ⟨⟨buf, offset, raw⟩, h0, h⟩ := h
    simp only [Except.ok.injEq, Prod.mk.injEq] at h0
    obtain ⟨rfl, -⟩ := h0
    dsimp only at h
    rw [res_bind_eq_ok] at h
    obtain ⟨buf2, h2, h⟩ := h
    have e2 := arraySet_length h2
    rw [res_bind_eq_ok] at h
    obtain ⟨_, h3, h⟩ := h
    have h3' : MAC_SIZE + offset ≤ buf2.length := by
      by_contra hn
      simp [assertP, hn, panic] at h3
    rw [res_bind_eq_ok] at h
    obtain ⟨pad, -, h⟩ := h
    rw [res_bind_eq_ok] at h
    obtain ⟨buf3, h4, h⟩ := h
    simp only [Except.ok.injEq, Prod.mk.injEq] at h
    obtain ⟨rfl, -⟩ := h
    dsimp only
    rw [arraySet_length h4]
    simp only [Crypto.applyActionsEncryptionKeystream, applyKeystream_length, List.length_append, List.length_take,
      List.length_drop, fillBytes_length]
    omega
  · dsimp only at h
    rw [res_bind_eq_ok] at h
    obtain ⟨⟨buf, offset, raw⟩, h0, h⟩ := h
    simp only [Except.ok.injEq, Prod.mk.injEq] at h0
    obtain ⟨rfl, -⟩ := h0
    dsimp only at h
    rw [res_bind_eq_ok] at h
    obtain ⟨buf2, h2, h⟩ := h
    have e2 := arraySet_length h2
    rw [res_bind_eq_ok] at h
    obtain ⟨_, h3, h⟩ := h
    have h3' : MAC_SIZE + offset ≤ buf2.length := by
      by_contra hn
      simp [assertP, hn, panic] at h3
    rw [res_bind_eq_ok] at h
    obtain ⟨pad, -, h⟩ := h
    rw [res_bind_eq_ok] at h
    obtain ⟨buf3, h4, h⟩ := h
    simp only [Except.ok.injEq, Prod.mk.injEq] at h
    obtain ⟨rfl, -⟩ := h
    dsimp only
    rw [arraySet_length h4]
    simp only [Crypto.applyActionsEncryptionKeystream, applyKeystream_length, List.length_append, List.length_take,
      List.length_drop, fillBytes_length]
    omega
  · dsimp only at h
    rw [res_bind_eq_ok] at h
    obtain ⟨b, h1, h⟩ := h
    have e1 := arraySet_length h1
    rw [res_bind_eq_ok] at h
    obtain ⟨⟨buf, offset, raw⟩, h0, h⟩ := h
    simp only [Except.ok.injEq, Prod.mk.injEq] at h0
    obtain ⟨rfl, -⟩ := h0
    dsimp only at h
    rw [res_bind_eq_ok] at h
    obtain ⟨buf2, h2, h⟩ := h
    have e2 := arraySet_length h2
    rw [res_bind_eq_ok] at h
    obtain ⟨_, h3, h⟩ := h
    have h3' : MAC_SIZE + offset ≤ buf2.length := by
      by_contra hn
      simp [assertP, hn, panic] at h3
    rw [res_bind_eq_ok] at h
    obtain ⟨pad, -, h⟩ := h
    rw [res_bind_eq_ok] at h
    obtain ⟨buf3, h4, h⟩ := h
    simp only [Except.ok.injEq, Prod.mk.injEq] at h
    obtain ⟨rfl, -⟩ := h
    dsimp only
    rw [arraySet_length h4]
    simp only [Crypto.applyActionsEncryptionKeystream, applyKeystream_length, List.length_append, List.length_take,
      List.length_drop, fillBytes_length]
    omega

theorem buildBackward_length {C : Crypto} : ∀ {l} {s s' : Bytes × Bytes}, buildBackward C l s = .ok s' →
    s'.1.length = s.1.length
  | [], s, s', h => by
    simp only [buildBackward, Except.ok.injEq] at h
    rw [h]
  | hop :: l, s, s', h => by
    unfold buildBackward at h
    rw [res_bind_eq_ok] at h
    obtain ⟨⟨b1, p1⟩, h1, h⟩ := h
    refine Eq.trans ?_ (buildBackward_length h1)
    unfold buildBackwardStep at h
    dsimp only at h
    rw [res_bind_eq_ok] at h
    obtain ⟨rest, h2, h⟩ := h
    have hr : rest = b1.drop (MAC_SIZE + hop.startOffset) ∧ MAC_SIZE + hop.startOffset ≤ b1.length := by
      unfold sliceFrom at h2
      split at h2
      · simp only [Except.ok.injEq] at h2
        exact ⟨h2.symm, by assumption⟩
      · cases h2
    rw [res_bind_eq_ok] at h
    obtain ⟨pp, -, h⟩ := h
    rw [res_bind_eq_ok] at h
    obtain ⟨ks, -, h⟩ := h
    rw [res_bind_eq_ok] at h
    obtain ⟨b2, h3, h⟩ := h
    simp only [Except.ok.injEq] at h
    subst h
    dsimp only
    rw [arraySet_length h3]
    simp only [applyKeystream_length, List.length_append, List.length_take, hr.1, List.length_drop]
    omega

theorem buildHeader_length {C : Crypto} (hC : CryptoLaws C) {header rng targets theirs kind header' secs d rng'}
    (hh : header.length = HEADER_SIZE)
    (h : buildHeader C header rng targets theirs kind = .ok (header', secs, d, rng')) :
    header'.length = HEADER_SIZE := by
  unfold buildHeader at h
  rw [res_bind_eq_ok] at h
  obtain ⟨-, -, h⟩ := h
  rw [res_bind_eq_ok] at h
  obtain ⟨-, -, h⟩ := h
  rw [res_bind_eq_ok] at h
  obtain ⟨⟨kx, ss, r1⟩, h1, h⟩ := h
  dsimp only at h
  rw [res_bind_eq_ok] at h
  obtain ⟨s1, h2, h⟩ := h
  rw [res_bind_eq_ok] at h
  obtain ⟨ls, -, h⟩ := h
  rw [res_bind_eq_ok] at h
  obtain ⟨⟨s2, r2⟩, h3, h⟩ := h
  dsimp only at h
  rw [res_bind_eq_ok] at h
  obtain ⟨⟨b, p⟩, h4, h⟩ := h
  simp only [Except.ok.injEq, Prod.mk.injEq] at h
  obtain ⟨rfl, -⟩ := h
  have e1 := buildForward_length h2
  have e2 := buildLast_length h3
  have e3 := buildBackward_length h4
  dsimp only at e1 e3
  have hk : kx.length = 32 := by
    unfold Crypto.genKxPublicAndSharedSecrets at h1
    dsimp only at h1
    rw [res_bind_eq_ok] at h1
    obtain ⟨sx, -, h1⟩ := h1
    simp only [Except.ok.injEq, Prod.mk.injEq] at h1
    obtain ⟨rfl, -⟩ := h1
    rw [Crypto.deriveKxPublic, hC.mulBaseClamped]
    exact hC.mulBase_length _
  rw [List.length_append, hk, e3, e2, e1, List.length_drop, hh]
  rfl

theorem buildSurb_length {C : Crypto} (hC : CryptoLaws C) {old rng first targets theirs id surb keys d rng'}
    (hold : old.length = SURB_SIZE)
    (h : buildSurb C old rng first targets theirs id = .ok (surb, keys, d, rng')) : surb.length = SURB_SIZE := by
  unfold buildSurb at h
  rw [res_bind_eq_ok] at h
  obtain ⟨-, -, h⟩ := h
  rw [res_bind_eq_ok] at h
  obtain ⟨-, -, h⟩ := h
  dsimp only at h
  rw [res_bind_eq_ok] at h
  obtain ⟨⟨hd, ss, dl, r1⟩, h1, h⟩ := h
  have := buildHeader_length hC (by rw [slice, List.length_take, List.length_drop, hold]; rfl) h1
  simp only [Except.ok.injEq, Prod.mk.injEq] at h
  obtain ⟨rfl, -⟩ := h
  rw [List.length_append, List.length_append, this, fillBytes_length]
  rfl

end Mixnet
