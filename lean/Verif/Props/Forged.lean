import Verif.Props.Altered
import Verif.Spec.Forged
import Verif.Proofs.Functions
/-!
# C94: forged and altered headers are rejected
-/
namespace Mixnet.Props
open Mixnet Spec

variable {C : Crypto} (hC : CryptoLaws C) {config : Config} {m : Node}
include hC

theorem mac_laws (f : MacFunction) : CryptoLaws (withMac C f) :=
  { hC with
    blakeMac_length := by
      intro k a
      show (dite _ _ _ : Bytes).length = 16
      by_cases h : k.length = 16 ∧ a.length = 140
      · rw [dif_pos h]; exact (f _).2
      · rw [dif_neg h]; exact hC.blakeMac_length k a }

theorem macKey_length (sec : SharedSecret) : (C.macKey sec).length = 16 := by
  unfold Crypto.macKey
  refine slice_length _ _ _ ?_
  have : (C.smallDerivedSecrets sec).length = 64 := by
    simp [Crypto.smallDerivedSecrets, Crypto.deriveSecret, hC.blake64_length]
  rw [this]; decide

/-- **C94.** The actual MAC function is one of those counted, so the sets are not empty. -/
theorem actual_mac : ∃ f : MacFunction, ∀ k a : Bytes, (withMac C f).blakeMac k a = C.blakeMac k a := by
  refine ⟨fun x => ⟨C.blakeMac x.1.1 x.2.1, hC.blakeMac_length _ _⟩, fun k a => ?_⟩
  show dite _ _ _ = _
  by_cases h : k.length = 16 ∧ a.length = 140
  · rw [dif_pos h]
  · rw [dif_neg h]

omit hC in
theorem withMac_at (f : MacFunction) {k a : Bytes} (hk : k.length = 16) (ha : a.length = 140) :
    (withMac C f).blakeMac k a = (f (⟨k, hk⟩, ⟨a, ha⟩)).1 := by
  show dite _ _ _ = _
  rw [dif_pos ⟨hk, ha⟩]

omit hC in
/-- A share of exactly `2⁻¹²⁸` of the MAC functions has a given value at a place not in `seen`. -/
theorem mac_share {seen : Set (Bytes × Bytes)} {k a mac : Bytes} (hk : k.length = 16) (ha : a.length = 140)
    (hm : mac.length = 16) (hnew : (k, a) ∉ seen) :
    2 ^ 128 * {f | f ∈ agreeing C seen ∧ (withMac C f).blakeMac k a = mac}.ncard = (agreeing C seen).ncard := by
  have h := at_ncard (A := agreeing C seen) (x := (⟨k, hk⟩, ⟨a, ha⟩)) ?_ ⟨mac, hm⟩
  · rw [card_strings 16] at h
    rw [← h]
    have e : {f | f ∈ agreeing C seen ∧ (withMac C f).blakeMac k a = mac} =
        {f | f ∈ agreeing C seen ∧ f (⟨k, hk⟩, ⟨a, ha⟩) = ⟨mac, hm⟩} := by
      ext f
      refine and_congr_right fun _ => ?_
      rw [withMac_at f hk ha]
      exact ⟨fun h => Subtype.ext h, fun h => congrArg Subtype.val h⟩
    rw [e]
    congr 1
  · intro f v hf x hx
    rw [← hf x hx]
    by_cases hl : x.1.length = 16 ∧ x.2.length = 140
    · rw [withMac_at _ hl.1 hl.2, withMac_at _ hl.1 hl.2, Function.update_of_ne]
      intro he
      have h1 : x.1 = k := congrArg (fun y : Strings 16 × Strings 140 => y.1.1) he
      have h2 : x.2 = a := congrArg (fun y : Strings 16 × Strings 140 => y.2.1) he
      exact hnew (by rw [← h1, ← h2]; exact hx)
    · show dite _ _ _ = dite _ _ _
      rw [dif_neg hl, dif_neg hl]

/-- A session at a relative index is a session at an index. -/
theorem session_of_slot (hr : Node.Reachable C config m) {rel : RelSessionIndex} {s : Session}
    (h : m.sessions.get rel = .full s) : ∃ i, m.sessionAt i = some s := by
  obtain ⟨hI, -⟩ := hr.inv hC
  cases rel with
  | current => exact ⟨_, Node.sessionAt_eq.2 ⟨.current, fromSessionIndex_some.2 (.inl ⟨rfl, rfl⟩), h⟩⟩
  | prev =>
    have := hI.index_of_full s h
    exact ⟨m.sessionStatus.currentIndex - 1, Node.sessionAt_eq.2 ⟨.prev, fromSessionIndex_some.2 (.inr ⟨rfl, by omega⟩), h⟩⟩

/-- **C94.** A packet for which no MAC that the node would check has been seen: for all but a share of `2 · 2⁻¹²⁸` of the MAC
functions that agree with everything seen, the node drops the packet, and nothing at all changes. -/
theorem forged_dropped (hr : Node.Reachable C config m) {seen : Set (Bytes × Bytes)} {packet : Bytes}
    (h : Forged C m seen packet) (now : Nat) :
    2 ^ 128 * {f | f ∈ agreeing C seen ∧ m.step (withMac C f) (.handlePacket now packet) ≠ .ok (m, .message none)}.ncard ≤
      2 * (agreeing C seen).ncard := by
  obtain ⟨hp, hnew⟩ := h
  obtain ⟨hI, -⟩ := hr.inv hC
  have hal : ((packet.drop 48).take 140).length = 140 := by rw [List.length_take, List.length_drop, hp]; rfl
  have hml : (macOf packet).length = 16 := by unfold macOf; rw [List.length_take, List.length_drop, hp]; rfl
  let bad (rel : RelSessionIndex) : Set MacFunction := {f | f ∈ agreeing C seen ∧ ∃ s, m.sessions.get rel = .full s ∧
    (withMac C f).blakeMac (C.macKey (s.secretFor C packet)) ((packet.drop 48).take 140) = macOf packet}
  have hbad : ∀ rel, 2 ^ 128 * (bad rel).ncard ≤ (agreeing C seen).ncard := by
    intro rel
    by_cases hs : ∃ s, m.sessions.get rel = .full s
    · obtain ⟨s, hs⟩ := hs
      obtain ⟨i, hi⟩ := session_of_slot hC hr hs
      rw [← mac_share (macKey_length hC (s.secretFor C packet)) hal hml (hnew i s hi)]
      refine Nat.mul_le_mul_left _ (Set.ncard_le_ncard ?_ (Set.toFinite _))
      rintro f ⟨h1, s', h2, h3⟩
      rw [hs] at h2
      cases h2
      exact ⟨h1, h3⟩
    · have : bad rel = ∅ := by
        ext f
        simp only [Set.mem_empty_iff_false, iff_false]
        rintro ⟨-, s, h2, -⟩
        exact hs ⟨s, h2⟩
      rw [this, Set.ncard_empty]; exact Nat.zero_le _
  have hsub : {f | f ∈ agreeing C seen ∧ m.step (withMac C f) (.handlePacket now packet) ≠ .ok (m, .message none)} ⊆
      bad .current ∪ bad .prev := by
    rintro f ⟨h1, h2⟩
    have hC' := mac_laws hC f
    by_cases hacc : ∃ out a rel s, Accepts (withMac C f) m packet rel s out a
    · obtain ⟨out, a, rel, s, hacc⟩ := hacc
      have hm := (code_of_action hC' hp hacc.peels).1
      have : f ∈ bad rel := ⟨h1, s, hacc.slot, hm⟩
      cases rel
      · exact .inl this
      · exact .inr this
    · exact absurd (unaccepted hC' hI.assembler hI.index_of_full hp now fun out a rel s h => hacc ⟨out, a, rel, s, h⟩) h2
  have h1 := Set.ncard_le_ncard hsub (Set.toFinite _)
  have h2 := Set.ncard_union_le (bad .current) (bad .prev)
  have h3 := hbad .current
  have h4 := hbad .prev
  omega

/-- **C94.** Any number of tries: as rejected packets have no effect, the node cannot be told apart from one that was sent
nothing. -/
theorem all_forged_dropped (hr : Node.Reachable C config m) {seen : Set (Bytes × Bytes)} (tries : List (Nat × Bytes))
    (h : ∀ t ∈ tries, Forged C m seen t.2) :
    2 ^ 128 * {f | f ∈ agreeing C seen ∧ ¬ Node.Runs (withMac C f) m (tries.map fun t => .handlePacket t.1 t.2)
        (tries.map fun _ => .message none) m}.ncard ≤
      2 * tries.length * (agreeing C seen).ncard := by
  induction tries with
  | nil =>
    have : {f | f ∈ agreeing C seen ∧ ¬ Node.Runs (withMac C f) m [] [] m} = ∅ := by
      ext f
      simp only [Set.mem_empty_iff_false, iff_false]
      rintro ⟨-, h⟩
      exact h (.nil m)
    simp only [List.map_nil, this, Set.ncard_empty, Nat.mul_zero, Nat.zero_le]
  | cons t ts ih =>
    have h1 := ih fun t ht => h t (List.mem_cons_of_mem _ ht)
    have h2 := forged_dropped hC hr (h t List.mem_cons_self) t.1
    have hsub : {f | f ∈ agreeing C seen ∧ ¬ Node.Runs (withMac C f) m ((t :: ts).map fun t => .handlePacket t.1 t.2)
          ((t :: ts).map fun _ => .message none) m} ⊆
        {f | f ∈ agreeing C seen ∧ m.step (withMac C f) (.handlePacket t.1 t.2) ≠ .ok (m, .message none)} ∪
        {f | f ∈ agreeing C seen ∧ ¬ Node.Runs (withMac C f) m (ts.map fun t => .handlePacket t.1 t.2)
          (ts.map fun _ => .message none) m} := by
      rintro f ⟨h3, h4⟩
      by_cases h5 : m.step (withMac C f) (.handlePacket t.1 t.2) = .ok (m, .message none)
      · exact .inr ⟨h3, fun h6 => h4 (.cons h5 h6)⟩
      · exact .inl ⟨h3, h5⟩
    have h3 := Set.ncard_le_ncard hsub (Set.toFinite _)
    have h4 := Set.ncard_union_le {f | f ∈ agreeing C seen ∧ m.step (withMac C f) (.handlePacket t.1 t.2) ≠ .ok (m, .message none)}
        {f | f ∈ agreeing C seen ∧ ¬ Node.Runs (withMac C f) m (ts.map fun t => .handlePacket t.1 t.2)
          (ts.map fun _ => .message none) m}
    rw [List.length_cons, Nat.mul_add, Nat.add_mul]
    omega

/-- **C94.** In particular, someone who sees a packet cannot change its routing field, even if the MAC may be changed
too. -/
theorem altered_header_dropped (hr : Node.Reachable C config m) {packet packet' : Bytes} (hp' : packet'.length = 2252)
    (hne : (packet'.drop 48).take 140 ≠ (packet.drop 48).take 140) (now : Nat) :
    2 ^ 128 * {f | f ∈ agreeing C {x | ∃ i s, m.sessionAt i = some s ∧ x = checked C s packet} ∧
        m.step (withMac C f) (.handlePacket now packet') ≠ .ok (m, .message none)}.ncard ≤
      2 * (agreeing C {x | ∃ i s, m.sessionAt i = some s ∧ x = checked C s packet}).ncard := by
  refine forged_dropped hC hr ⟨hp', ?_⟩ now
  rintro i s hs ⟨i', s', hs', he⟩
  exact hne (congrArg Prod.snd he)

/-- **C94.** If only the MAC is changed, an accepted packet is always rejected. -/
theorem altered_mac_dropped (hr : Node.Reachable C config m) {packet packet' out : Bytes} {rel : RelSessionIndex} {s : Session}
    {a : Action C} (hp : packet.length = 2252) (hacc : Accepts C m packet rel s out a) (hp' : packet'.length = 2252)
    (hkx : packet'.take 32 = packet.take 32) (hact : packet'.drop 48 = packet.drop 48)
    (hmac : (packet'.drop 32).take 16 ≠ (packet.drop 32).take 16)
    (hother : ∀ i s', m.sessionAt i = some s' → s' ≠ s → C.blakeMac (checked C s' packet).1 (checked C s' packet).2 ≠ (packet'.drop 32).take 16)
    (now : Nat) : m.step C (.handlePacket now packet') = .ok (m, .message none) := by
  obtain ⟨hI, -⟩ := hr.inv hC
  refine unaccepted hC hI.assembler hI.index_of_full hp' now ?_
  intro out' a' rel' s' h
  have h1 := (code_of_action hC hp hacc.peels).1
  have h2 := (code_of_action hC hp' h.peels).1
  have e : s'.secretFor C packet' = s'.secretFor C packet := by unfold Session.secretFor; rw [hkx]
  have ea : actionsOf packet' = (packet.drop 48).take 140 := by unfold actionsOf; rw [hact]
  rw [e, ea] at h2
  by_cases hs : s' = s
  · subst hs
    exact hmac (h2.symm.trans h1)
  · obtain ⟨i, hi⟩ := session_of_slot hC hr h.slot
    exact hother i s' hi hs h2

omit hC in
/-- The same action, with other primitives. -/
def sameAction (f : MacFunction) : Action C → Action (withMac C f)
  | .forwardTo t d => .forwardTo t d
  | .deliverRequest => .deliverRequest
  | .deliverReply id => .deliverReply id
  | .deliverCover id => .deliverCover id

omit hC in
theorem bind_same {α β γ : Type} {x : Res α} {g : α → Res β} {g' : α → Res γ} {k : β → Res γ} (h : ∀ a, x = .ok a → g' a = g a >>= k) :
    (x >>= g') = (x >>= g) >>= k := by
  cases x with
  | error e => rfl
  | ok a => exact h a rfl

omit hC in
theorem peel_same (f : MacFunction) (old : Bytes) (packet : Bytes) (sec : SharedSecret)
    (h : (withMac C f).blakeMac (C.macKey sec) (actionsOf packet) = C.blakeMac (C.macKey sec) (actionsOf packet)) :
    peel (withMac C f) old packet sec = peel C old packet sec >>= fun r => .ok (r.1, r.2.map (sameAction f)) := by
  unfold peel
  refine bind_same fun kx _ => bind_same fun mac _ => bind_same fun actions ha => bind_same fun payload _ => ?_
  have ha : actions = actionsOf packet := by
    unfold arrayRef at ha
    split at ha
    · cases ha; rfl
    · cases ha
  have hm : (withMac C f).macOk mac actions ((withMac C f).macKey sec) = C.macOk mac actions (C.macKey sec) := by
    show ((withMac C f).blakeMac (C.macKey sec) actions == mac) = (C.blakeMac (C.macKey sec) actions == mac)
    rw [ha, h]
  rw [hm]
  by_cases h0 : (!C.macOk mac actions (C.macKey sec)) = true
  · rw [if_pos h0, if_pos h0]; rfl
  rw [if_neg h0, if_neg h0]
  dsimp only
  refine bind_same fun out _ => ?_
  generalize hraw : fromLe16 (slice (C.applyActionsEncryptionKeystream (actions ++ List.replicate MAX_ACTIONS_PAD_SIZE 0)
    (C.actionsEncryptionKey sec)) 0 RAW_ACTION_SIZE) = raw
  have hraw' : fromLe16 (slice ((withMac C f).applyActionsEncryptionKeystream (actions ++ List.replicate MAX_ACTIONS_PAD_SIZE 0)
    ((withMac C f).actionsEncryptionKey sec)) 0 RAW_ACTION_SIZE) = raw := hraw
  rw [hraw']
  by_cases h1 : raw = RAW_ACTION_DELIVER_REQUEST
  · rw [if_pos h1, if_pos h1]
    refine bind_same fun out _ => bind_same fun tag _ => ?_
    cases checkPayloadTag tag <;> rfl
  rw [if_neg h1, if_neg h1]
  by_cases h2 : raw = RAW_ACTION_DELIVER_REPLY
  · rw [if_pos h2, if_pos h2]
    exact bind_same fun id _ => bind_same fun out _ => rfl
  rw [if_neg h2, if_neg h2]
  by_cases h3 : raw = RAW_ACTION_DELIVER_COVER
  · rw [if_pos h3, if_pos h3]; rfl
  rw [if_neg h3, if_neg h3]
  by_cases h4 : raw = RAW_ACTION_DELIVER_COVER_WITH_ID
  · rw [if_pos h4, if_pos h4]
    exact bind_same fun id _ => rfl
  rw [if_neg h4, if_neg h4]
  refine bind_same fun r _ => ?_
  obtain ⟨out, t⟩ := r
  cases t with
  | none => rfl
  | some t => exact bind_same fun out _ => bind_same fun out _ => rfl

omit hC in
/-- The same, for what is found in the sessions. -/
def sameFound (f : MacFunction) : Node.PeelResult C → Node.PeelResult (withMac C f)
  | .none => .none
  | .discard => .discard
  | .action out a rel s tag => .action out (sameAction f a) rel s tag

omit hC in
theorem find_same (f : MacFunction) (packet : Bytes) (l : List (RelSessionIndex × Session))
    (h : ∀ x ∈ l, (withMac C f).blakeMac (checked C x.2 packet).1 (checked C x.2 packet).2 =
      C.blakeMac (checked C x.2 packet).1 (checked C x.2 packet).2) (old : Bytes) :
    Node.findSession (withMac C f) packet l old = Node.findSession C packet l old >>= fun r => .ok (sameFound f r) := by
  induction l generalizing old with
  | nil => rfl
  | cons x l ih =>
    obtain ⟨rel, s⟩ := x
    unfold Node.findSession
    dsimp only
    have htag : s.replayFilter.tag (withMac C f) (s.kxPair.exchange (withMac C f) (kxPublicOf packet)) =
      s.replayFilter.tag C (s.kxPair.exchange C (kxPublicOf packet)) := rfl
    rw [htag]
    by_cases hc : s.replayFilter.contains (s.replayFilter.tag C (s.kxPair.exchange C (kxPublicOf packet))) = true
    · rw [if_pos hc, if_pos hc]; rfl
    rw [if_neg hc, if_neg hc]
    have hpeel := peel_same f old packet (s.kxPair.exchange C (kxPublicOf packet)) (h (rel, s) List.mem_cons_self)
    have hx : s.kxPair.exchange (withMac C f) (kxPublicOf packet) = s.kxPair.exchange C (kxPublicOf packet) := rfl
    rw [hx, hpeel]
    cases peel C old packet (s.kxPair.exchange C (kxPublicOf packet)) with
    | error e => rfl
    | ok r =>
      obtain ⟨out, r⟩ := r
      cases r with
      | ok a => rfl
      | error e =>
        cases e with
        | mac => exact ih (fun x hx => h x (List.mem_cons_of_mem _ hx)) out
        | _ => rfl

/-- **C94.** All these MAC functions treat the packets whose checks have been seen as the actual one does, so that what the
sessions' users do is not affected by counting over the functions. -/
theorem seen_unaffected (hr : Node.Reachable C config m) {seen : Set (Bytes × Bytes)} {packet : Bytes}
    (hseen : ∀ i s, m.sessionAt i = some s → checked C s packet ∈ seen) {f : MacFunction} (hf : f ∈ agreeing C seen) (now : Nat) :
    m.step (withMac C f) (.handlePacket now packet) = m.step C (.handlePacket now packet) := by
  have h : ∀ x ∈ m.sessions.enumerate, (withMac C f).blakeMac (checked C x.2 packet).1 (checked C x.2 packet).2 =
      C.blakeMac (checked C x.2 packet).1 (checked C x.2 packet).2 := by
    rintro ⟨rel, s⟩ hx
    have hslot : m.sessions.get rel = .full s := mem_enumerate.1 hx
    obtain ⟨i, hi⟩ := session_of_slot hC hr hslot
    exact hf _ (hseen i s hi)
  have he : m.handlePacket (withMac C f) now packet = m.handlePacket C now packet := by
    unfold Node.handlePacket
    rw [find_same f packet _ h]
    cases Node.findSession C packet m.sessions.enumerate (List.replicate PACKET_SIZE 0) with
    | error e => rfl
    | ok r =>
      cases r with
      | none => rfl
      | discard => rfl
      | action out a rel s tag => cases a <;> rfl
  show (m.handlePacket (withMac C f) now packet >>= _) = (m.handlePacket C now packet >>= _)
  rw [he]

/-! ### The hypotheses can be met -/
section Examples
omit hC
open World

/-- Alice's packet with another routing field, and whatever MAC. -/
def redirected (mac : Bytes) : Bytes :=
  packet0.packet.take 32 ++ mac ++ (packet0.packet.drop 48).map (· + 1)

theorem redirected_length {mac : Bytes} (hm : mac.length = 16) : (redirected mac).length = 2252 := by
  have h := packet0_length
  unfold redirected
  rw [List.length_append, List.length_append, List.length_take, List.length_map, List.length_drop, h, hm]; rfl

theorem redirected_actions {mac : Bytes} (hm : mac.length = 16) :
    ((redirected mac).drop 48).take 140 ≠ (packet0.packet.drop 48).take 140 := by
  have h := packet0_length
  have hl : (packet0.packet.take 32 ++ mac).length = 48 := by
    rw [List.length_append, List.length_take, h, hm]; rfl
  unfold redirected
  rw [List.drop_left' hl]
  have : (packet0.packet.drop 48).length = 2204 := by rw [List.length_drop, h]
  intro he
  cases hd : packet0.packet.drop 48 with
  | nil => rw [hd] at this; cases this
  | cons b l =>
    rw [hd, List.map_cons, List.take_succ_cons, List.take_succ_cons] at he
    have hb : b + 1 = b := (List.cons.inj he).1
    have h0 : (b.toNat + 1) % 256 = b.toNat := by
      have := congrArg UInt8.toNat hb
      rwa [UInt8.toNat_add] at this
    have := b.toNat_lt
    omega

/-- Nobody who sees Alice's packet to Carol can change where it goes: Carol forwards the packet itself (`relay_step`, with each
of the MAC functions), and drops it with another routing field, whatever the MAC, with nearly all of them. -/
example (mac : Bytes) (hm : mac.length = 16) (now : Nat) : ∃ A : Set MacFunction, 0 < A.ncard ∧
    (∀ f ∈ A, carol.step (withMac World.C f) (.handlePacket 1000 packet0.packet) = .ok (carol1, relayOut)) ∧
    2 ^ 128 * {f | f ∈ A ∧ carol.step (withMac World.C f) (.handlePacket now (redirected mac)) ≠ .ok (carol, .message none)}.ncard ≤
      2 * A.ncard := by
  refine ⟨agreeing World.C {x | ∃ i s, carol.sessionAt i = some s ∧ x = checked World.C s packet0.packet}, ?_, fun f hf => ?_,
    altered_header_dropped toyLaws carol_reachable (redirected_length hm) (redirected_actions hm) now⟩
  · rw [Set.ncard_pos (Set.toFinite _)]
    obtain ⟨f, hf⟩ := actual_mac toyLaws
    exact ⟨f, fun x _ => hf _ _⟩
  · have := seen_unaffected toyLaws carol_reachable (packet := packet0.packet)
      (seen := {x | ∃ i s, carol.sessionAt i = some s ∧ x = checked World.C s packet0.packet})
      (fun i s hs => ⟨i, s, hs, rfl⟩) hf 1000
    rw [this]
    exact relay_step

/-- And a million tries do not help. -/
example (tries : List (Nat × Bytes)) (hn : tries.length = 1000000) (h : ∀ t ∈ tries, ∃ mac : Bytes, mac.length = 16 ∧ t.2 = redirected mac) :
    2 ^ 128 * {f | f ∈ agreeing World.C {x | ∃ i s, carol.sessionAt i = some s ∧ x = checked World.C s packet0.packet} ∧
      ¬ Node.Runs (withMac World.C f) carol (tries.map fun t => .handlePacket t.1 t.2) (tries.map fun _ => .message none) carol}.ncard ≤
    2000000 * (agreeing World.C {x | ∃ i s, carol.sessionAt i = some s ∧ x = checked World.C s packet0.packet}).ncard := by
  have := all_forged_dropped (seen := {x | ∃ i s, carol.sessionAt i = some s ∧ x = checked World.C s packet0.packet}) toyLaws
    carol_reachable tries ?_
  · rwa [hn] at this
  · intro t ht
    obtain ⟨mac, hm, e⟩ := h t ht
    rw [e]
    refine ⟨redirected_length hm, ?_⟩
    rintro i s hs ⟨i', s', hs', he⟩
    exact redirected_actions hm (congrArg Prod.snd he)

/-- Bob drops Alice's request if only its MAC is changed. -/
example (mac : Bytes) (hm : mac.length = 16) (hne : mac ≠ (packet1.packet.packet.drop 32).take 16) (now : Nat) :
    bob.step World.C (.handlePacket now (packet1.packet.packet.take 32 ++ mac ++ packet1.packet.packet.drop 48)) =
      .ok (bob, .message none) := by
  obtain ⟨rel, s, out, hacc⟩ := bob_accepts
  have h := packet1_length
  have h32 : (packet1.packet.packet.take 32).length = 32 := by rw [List.length_take, h]; rfl
  have h48 : (packet1.packet.packet.take 32 ++ mac).length = 48 := by rw [List.length_append, h32, hm]
  refine altered_mac_dropped toyLaws bob_reachable h hacc ?_ ?_ ?_ ?_ ?_ now
  · rw [List.length_append, h48, List.length_drop, h]
  · rw [List.append_assoc, List.take_left' h32]
  · rw [List.drop_left' h48]
  · rw [List.append_assoc, List.drop_left' h32, List.take_left' hm]; exact hne
  · intro i s' hs' hs
    exfalso
    have hprev : bob.sessions.prev.asOption.isNone = true := by decide +kernel
    have hslot := hacc.slot
    obtain ⟨rel', -, hslot'⟩ := Node.sessionAt_eq.1 hs'
    have : ∀ r t, bob.sessions.get r = .full t → bob.sessions.current = .full t := by
      intro r t ht
      cases r with
      | current => exact ht
      | prev =>
        rw [show bob.sessions.prev = .full t from ht] at hprev
        cases hprev
    have e := (this _ _ hslot').symm.trans (this _ _ hslot)
    cases e
    exact hs rfl

end Examples
end Mixnet.Props
