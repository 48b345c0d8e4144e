import Verif.Spec.Load
import Verif.Proofs.Load
import Verif.Proofs.Keep
import Verif.Props.RoundTrip
/-!
# C79: reassembly under load
-/
namespace Mixnet.Props
open Mixnet Spec

/-- **C79** (reassembly). A reachable receiver `a` that has nothing of message `id` gets a stream `gs` of fragments of
any length in which, in any order, are exactly the fragments of the message. If between two of them that follow each other at
most `K` other messages get fragments, and the limits leave room for `K` other messages, then for the message's own
fragments it hands out nothing but the message, on the last one. -/
theorem reassembled_under_load {id data : Bytes} {surbs : List Surb} {fs : List Bytes} (hid : id.length = 16)
    (hs : ∀ s ∈ surbs, s.length = 222) (h : Sent id data surbs fs)
    {a : FragmentAssembler} (hr : ReachableReceiver a) (hfresh : ∀ e ∈ a.incomplete, e.1 ≠ id)
    {gs : List Bytes} (hl : AllFragments gs) (hperm : (gs.filter (fun g => idOf g = id)).Perm fs)
    (hmax : fs.length ≤ a.maxFragmentsPerMessage) {K : Nat}
    (hroom : fs.length = 1 ∨
      RoomFor a.maxIncompleteMessages a.maxIncompleteFragments a.maxFragmentsPerMessage K (fs.length - 1))
    (hgaps : GapsAtMost K id gs) :
    ∃ a' outs, a.insertAll gs = .ok (a', outs) ∧ outs.length = gs.length ∧
      ((gs.zip outs).filter (fun p => idOf p.1 = id)).map (·.2) =
        List.replicate (fs.length - 1) none ++ [some ⟨id, data, surbs⟩] := by
  obtain ⟨hw, has⟩ := sent_whole hid hs h
  have hnone : a.incomplete.get? id = none := by
    rw [LinkedMap.get?_eq_none]; intro hk
    obtain ⟨e, he, e1⟩ := List.mem_map.1 hk
    exact hfresh e he e1
  obtain ⟨a', outs, e, hol, hout⟩ := load_run hw gs hl a hr.inv [] (List.length_pos_iff.2 hw.1)
    (by unfold Knows; rw [hnone]) hmax hroom (by rw [List.nil_append]; exact hperm) hgaps (fun h => absurd rfl h)
  refine ⟨a', outs, e, hol, ?_⟩
  rw [has] at hout
  exact hout

/-- Only handling packets changes what is stored of incomplete messages. -/
theorem assembler_kept {C : Crypto} (hC : CryptoLaws C) {m m' : Node} (hI : m.Inv C) {call : Call} (hw : call.WellTyped)
    (hn : ∀ now p, call ≠ .handlePacket now p) {out : Outcome} (h : m.step C call = .ok (m', out)) :
    m'.fragmentAssembler = m.fragmentAssembler := by
  have hc := Node.step_cases hC hI hw h
  cases hc with
  | status st =>
    have h := setSessionStatus_cases m st
    generalize m.setSessionStatus st = m1 at h
    cases h <;> rfl
  | mixnodes rel answer rng _ b hcase => cases hcase <;> rfl
  | nextKx rng => unfold Node.nextKxPublic; split <;> rfl
  | handle now packet _ msg hh => exact absurd rfl (hn _ _)
  | popForward tie => rfl
  | popAuthored rng ns _ p hp => cases hp <;> rfl
  | post rng i d mid data n ns _ d' r hp => cases hp <;> rfl
  | reply surbs i mid data _ surbs' r hp => cases hp <;> rfl
  | take => rfl

/-- What handling a packet does to the fragments stored. -/
theorem assembler_handled {C : Crypto} (hC : CryptoLaws C) {m m' : Node} (hI : m.Inv C) {now : Nat} {p : Bytes}
    (hp : p.length = PACKET_SIZE) {out : Outcome} (h : m.step C (.handlePacket now p) = .ok (m', out)) :
    (m'.fragmentAssembler = m.fragmentAssembler ∧ out = .message none) ∨
    ∃ f o msg, InsertCase m.fragmentAssembler f m'.fragmentAssembler o ∧ out = .message msg ∧ msg.isSome = o.isSome := by
  have hc := Node.step_cases hC hI (call := .handlePacket now p) hp h
  cases hc with
  | handle _ _ _ msg hh =>
    cases hh with
    | ignored => exact .inl ⟨rfl, rfl⟩
    | accepted o a rel s _ _ hacc he =>
      cases he with
      | request a o index hm hins hcase hidx => exact .inr ⟨_, _, _, hcase, rfl, by cases o <;> rfl⟩
      | reply id v payload a o hv hd hpl hins hcase => exact .inr ⟨_, _, _, hcase, rfl, by cases o <;> rfl⟩
      | _ => exact .inl ⟨rfl, rfl⟩

/-- What a fragment does to the message it belongs to. -/
theorem own_effect {a a' : FragmentAssembler} {f o} (ha : FAInv a) (hc : InsertCase a f a' o) {im : IncompleteMessage}
    (hg : a.incomplete.get? (idOf f) = some im) :
    a' = a ∨ (a'.incomplete.get? (idOf f) = none ∧ im.numReceived + 1 = im.fragments.length ∧ o.isSome) ∨
    (a' = evictRaw (storeRaw a f) ∧ ∃ im', (storeRaw a f).incomplete.get? (idOf f) = some im' ∧
      im'.numReceived = im.numReceived + 1 ∧ (LinkedMap.keys (storeRaw a f).incomplete).Nodup ∧
      (a.incomplete.remove (idOf f) = [] → a.numIncompleteFragments = im.numReceived)) := by
  cases hc with
  | completes im1 fs hv h1 h2 him h4 h5 h6 h7 h8 =>
    rw [hg] at him
    cases him
    exact .inr (.inl ⟨LinkedMap.get?_remove_self .., by omega, rfl⟩)
  | stored hv h1 h2 g1 g2 g3 =>
    refine .inr (.inr ⟨rfl, _, LinkedMap.get?_pushBack_self _ (LinkedMap.not_mem_keys_remove _ _), ?_,
      (storeRaw_pre ha hv g1 g2 g3).1, fun hnil => ?_⟩)
    all_goals have hcnt : im.numReceived = (im.fragments.filterMap _root_.id).length :=
      (ha.entries _ (LinkedMap.get?_some_mem hg)).cnt
    rotate_left
    · have := storedFragments_split ha.nodup hg
      rw [hnil] at this
      rw [ha.count, this.length_eq, hcnt]
      simp
    have hsb : slotsBefore a (idOf f) (countOf f) = im.fragments := by unfold slotsBefore; rw [hg]
    show ((slotsBefore a (idOf f) (countOf f)).filterMap _root_.id).length + 1 = _
    rw [hsb]
    omega
  | _ => exact .inl rfl

/-- Whatever a fragment does, the last message of the list survives, if it has room. -/
theorem evict_get {b : FragmentAssembler} {k : MessageId} {im : IncompleteMessage}
    (h : (evictRaw b).incomplete.get? k = some im) (hn : (LinkedMap.keys b.incomplete).Nodup) :
    b.incomplete.get? k = some im := by
  have hm := LinkedMap.get?_some_mem h
  refine LinkedMap.get?_of_mem hn ?_
  unfold evictRaw at hm
  split at hm
  · exact List.mem_of_mem_drop hm
  · exact hm

/-- A fragment that changes what is stored of a message is one of the message, and makes it the last of the list. -/
theorem touched {a a' : FragmentAssembler} {f o} (ha : FAInv a) (hc : InsertCase a f a' o) {id : MessageId}
    {im : IncompleteMessage} (h1 : a'.incomplete.get? id = some im) (h0 : a.incomplete.get? id ≠ some im) :
    HeldSince a' id im [] := by
  cases hc with
  | completes im1 fs hv k1 k2 him k4 k5 k6 k7 k8 =>
    by_cases he : id = idOf f
    · subst he
      rw [show LinkedMap.get? (a.incomplete.remove (idOf f)) (idOf f) = none from LinkedMap.get?_remove_self ..] at h1
      cases h1
    · exact absurd ((LinkedMap.get?_remove_ne _ he).symm.trans h1) h0
  | stored hv k1 k2 g1 g2 g3 =>
    by_cases he : id = idOf f
    · subst he; exact held_own h1
    · have := evict_get h1 (storeRaw_pre ha hv g1 g2 g3).1
      refine absurd ?_ h0
      rw [← this]
      simp only [storeRaw]
      rw [LinkedMap.get?_pushBack_ne _ _ he, LinkedMap.get?_remove_ne _ he]
  | _ => exact absurd h1 h0

theorem HeldSince.more {a : FragmentAssembler} {id im ids} (h : HeldSince a id im ids) (k : MessageId) :
    HeldSince a id im (k :: ids) := by
  obtain ⟨l, t, e, ht⟩ := h
  exact ⟨l, t, e, fun x hx => List.mem_cons_of_mem _ (ht x hx)⟩

/-- The message is still held after the packets that passed. -/
theorem passing_held {C : Crypto} (hC : CryptoLaws C) {config : Config} {id : MessageId} {im : IncompleteMessage} {K k : Nat}
    {n1 n2 : Node} (hpass : Passing C id n1 k n2) (hr : Node.Reachable C config n1)
    (h1 : HeldSince n1.fragmentAssembler id im [])
    (hroom : RoomFor config.maxIncompleteMessages config.maxIncompleteFragments config.maxFragmentsPerMessage K
      im.numReceived) (hk : k ≤ K) :
    Node.Reachable C config n2 ∧ ∃ ids, ids.length ≤ k ∧ HeldSince n2.fragmentAssembler id im ids := by
  induction hpass with
  | start => exact ⟨hr, [], Nat.le_refl _, h1⟩
  | @other k n' call n'' out hp hw hn hs ih =>
    obtain ⟨i1, ids, i2, i3⟩ := ih hk
    refine ⟨i1.step hC hw hs, ids, i2, ?_⟩
    rw [assembler_kept hC (i1.inv hC).1 hw hn hs]
    exact i3
  | @packet k n' now p n'' out hp hl hs hsame ih =>
    obtain ⟨i1, ids, i2, i3⟩ := ih (by omega)
    obtain ⟨hI, hcfg⟩ := i1.inv hC
    refine ⟨i1.step hC (call := .handlePacket now p) hl hs, ?_⟩
    rcases assembler_handled hC hI hl hs with ⟨e, -⟩ | ⟨f, o, msg, hc, -, -⟩
    · exact ⟨ids, by omega, by rw [e]; exact i3⟩
    · refine ⟨idOf f :: ids, by simp only [List.length_cons]; omega, ?_⟩
      by_cases hf : idOf f = id
      · have hg := i3.get? hI.assembler
        subst hf
        unfold storedOf at hsame
        rw [hg] at hsame
        rcases own_effect hI.assembler hc hg with e | ⟨e, -⟩ | ⟨e, im', e2, e3, hnd, -⟩
        · rw [e]; exact HeldSince.more i3 _
        · rw [e] at hsame; cases hsame
        · exfalso
          rw [e] at hsame
          have := evict_get hsame hnd
          rw [e2] at this
          cases this
          omega
      · exact held_other hI.assembler (K := K) hc hf i3 (by
          refine Nat.le_trans (List.dedup_sublist _).length_le ?_
          simp only [List.length_cons]; omega) (by
          unfold HasRoom
          rw [hI.maxMessages, hI.maxFragments, hI.maxPerMessage, hcfg]
          exact hroom)

/-- **C79** (at the node). A packet brought a fragment of the message `id`, which the node now stores as `im`. Then it
handled `k < K` packets which brought none, and any other calls were made. If there is room for `K` other messages, the
next call does not drop the message: what is stored of it stays the same, or gets one fragment more, or the message is
complete and handed out. -/
theorem not_dropped {C : Crypto} (hC : CryptoLaws C) {config : Config} {id : MessageId} {im : IncompleteMessage} {K k : Nat}
    {n0 n1 n2 n3 : Node} {now : Nat} {p : Bytes} {out1 out : Outcome} {call : Call}
    (hr : Node.Reachable C config n0) (hp : p.length = PACKET_SIZE)
    (h0 : n0.step C (.handlePacket now p) = .ok (n1, out1))
    (hnew : storedOf n1 id = some im) (hold : storedOf n0 id ≠ some im)
    (hpass : Passing C id n1 k n2) (hk : k < K)
    (hroom : RoomFor config.maxIncompleteMessages config.maxIncompleteFragments config.maxFragmentsPerMessage K
      im.numReceived)
    (hw : call.WellTyped) (h : n2.step C call = .ok (n3, out)) :
    storedOf n3 id = some im ∨
    (∃ im', storedOf n3 id = some im' ∧ im'.numReceived = im.numReceived + 1) ∨
    (storedOf n3 id = none ∧ im.numReceived + 1 = im.fragments.length ∧ ∃ msg, out = .message (some msg)) := by
  have hr1 := hr.step hC (call := .handlePacket now p) hp h0
  obtain ⟨hI0, hcfg0⟩ := hr.inv hC
  have hheld : HeldSince n1.fragmentAssembler id im [] := by
    rcases assembler_handled hC hI0 hp h0 with ⟨e, -⟩ | ⟨f, o, msg, hc, -, -⟩
    · exact absurd (by unfold storedOf at hnew ⊢; rw [← e]; exact hnew) hold
    · exact touched hI0.assembler hc hnew hold
  obtain ⟨hr2, ids, hids, hh⟩ := passing_held hC hpass hr1 hheld hroom (by omega)
  obtain ⟨hI2, hcfg⟩ := hr2.inv hC
  have hg := hh.get? hI2.assembler
  by_cases hcall : ∃ now p, call = .handlePacket now p
  swap
  · left
    unfold storedOf
    rw [assembler_kept hC hI2 hw (fun now p e => hcall ⟨now, p, e⟩) h]
    exact hg
  obtain ⟨now', p', rfl⟩ := hcall
  rcases assembler_handled hC hI2 hw h with ⟨e, -⟩ | ⟨f, o, msg, hc, rfl, hmsg⟩
  · left; unfold storedOf; rw [e]; exact hg
  by_cases hf : idOf f = id
  swap
  · left
    have := held_other (K := K) hI2.assembler hc hf hh (by
      refine Nat.le_trans (List.dedup_sublist _).length_le ?_
      simp only [List.length_cons]; omega) (by
      unfold HasRoom
      rw [hI2.maxMessages, hI2.maxFragments, hI2.maxPerMessage, hcfg]
      exact hroom)
    exact this.get? (hc.inv hI2.assembler)
  subst hf
  rcases own_effect hI2.assembler hc hg with e | ⟨e, e1, e2⟩ | ⟨e, im', e2, e3, hnd, hnil⟩
  · left; unfold storedOf; rw [e]; exact hg
  · right; right
    refine ⟨e, e1, ?_⟩
    rw [e2] at hmsg
    exact Option.isSome_iff_exists.1 hmsg |>.imp fun m h => by rw [h]
  · right; left
    refine ⟨im', ?_, e3⟩
    unfold storedOf
    rw [e]
    have hx : (storeRaw n2.fragmentAssembler f).incomplete =
        LinkedMap.pushBack (n2.fragmentAssembler.incomplete.remove (idOf f)) (idOf f)
          ⟨(slotsBefore n2.fragmentAssembler (idOf f) (countOf f)).set (indexOf f) (some f),
            ((slotsBefore n2.fragmentAssembler (idOf f) (countOf f)).filterMap _root_.id).length + 1⟩ := rfl
    have hinv := hI2.assembler.entries _ (LinkedMap.get?_some_mem hg)
    have hcap : im.fragments.length ≤ _ := hI2.assembler.capped _ (LinkedMap.get?_some_mem hg)
    rw [hI2.maxPerMessage, hcfg] at hcap
    have hpos : 0 < im.numReceived := hinv.pos
    have hlt : im.numReceived < im.fragments.length := hinv.lt
    obtain ⟨q1, q2⟩ := hroom
    have q3 : 1 * 1 ≤ K * (config.maxFragmentsPerMessage - 1) := Nat.mul_le_mul (by omega) (by omega)
    unfold evictRaw
    split
    · rename_i hov
      dsimp only
      cases hrem : n2.fragmentAssembler.incomplete.remove (idOf f) with
      | nil =>
        exfalso
        have h1 := hnil hrem
        have h2 : (storeRaw n2.fragmentAssembler f).numIncompleteFragments = n2.fragmentAssembler.numIncompleteFragments + 1 := rfl
        have h3 : (storeRaw n2.fragmentAssembler f).maxIncompleteFragments = config.maxIncompleteFragments := by
          rw [← hcfg, ← hI2.maxFragments]; rfl
        have h4 : (storeRaw n2.fragmentAssembler f).maxIncompleteMessages = config.maxIncompleteMessages := by
          rw [← hcfg, ← hI2.maxMessages]; rfl
        have h5 : (storeRaw n2.fragmentAssembler f).incomplete.length = 1 := by rw [hx, hrem]; rfl
        omega
      | cons y l =>
        have hnk := LinkedMap.not_mem_keys_remove n2.fragmentAssembler.incomplete (idOf f)
        rw [hrem] at hnk
        have hnk' : idOf f ∉ LinkedMap.keys l := fun h => hnk (List.mem_cons_of_mem _ h)
        rw [hx, hrem] at e2 ⊢
        rw [LinkedMap.get?_pushBack_self _ hnk] at e2
        exact (LinkedMap.get?_pushBack_self _ hnk').trans e2
    · exact e2

end Mixnet.Props
