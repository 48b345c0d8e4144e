import Verif.Proofs.Total
import Verif.Props.Posting
import Verif.Spec.Panics
/-!
# Posting panics only if a random SURB ID is repeated
-/
namespace Mixnet
open Spec Props

variable {C : Crypto}

/-- The only panic is that of a repeated SURB ID, and it happens only if `P`. -/
def OnlyRepeated {α : Type} (P : Prop) (x : Res α) : Prop := ∀ p, x = .error p → p = surbIdRepeated ∧ P

theorem OnlyRepeated.ok {α : Type} {P : Prop} (a : α) : OnlyRepeated P (.ok a : Res α) := fun _ h => by cases h

theorem OnlyRepeated.mono {α : Type} {P Q : Prop} {x : Res α} (h : OnlyRepeated P x) (hPQ : P → Q) :
    OnlyRepeated Q x := fun p hp => ⟨(h p hp).1, hPQ (h p hp).2⟩

theorem OnlyRepeated.bind {α β : Type} {P : Prop} {x : Res α} {f : α → Res β} (h : OnlyRepeated P x)
    (h' : ∀ a, x = .ok a → OnlyRepeated P (f a)) : OnlyRepeated P (x >>= f) := by
  intro p hp
  cases x with
  | error q => cases hp; exact h p rfl
  | ok a => exact h' a rfl p hp

/-- A request builder as `post_request` uses it. -/
structure GoodBuilder (t : Topology) (ns : NetworkStatus) (b : RequestBuilder) : Prop where
  view : View t ns b.routeGenerator
  peer : ns.localPeerId.length = PEER_ID_SIZE
  dest : b.destinationIndex < t.mixnodes.length

/-- 16 bytes of the random numbers are one of the IDs in `known`, or come twice. -/
def Repeats (known : SurbId → Prop) (rng0 : Rng) : Prop :=
  ∃ b, known (bytesAt rng0 b 16) ∨ ∃ a, a + 16 ≤ b ∧ bytesAt rng0 a 16 = bytesAt rng0 b 16

/-- The IDs of the keystore are in `known`, or are among the random numbers used already. -/
def Origin (known : SurbId → Prop) (rng0 : Rng) (k : SurbKeystore) (rng : Rng) : Prop :=
  ∃ o, rng = skip rng0 o ∧ ∀ id ∈ LinkedMap.keys k.surbs, known id ∨ ∃ a, a + 16 ≤ o ∧ id = bytesAt rng0 a 16

theorem Origin.advance {known : SurbId → Prop} {rng0 : Rng} {k : SurbKeystore} {rng rng' : Rng}
    (h : Origin known rng0 k rng) {n : Nat} (hr : rng' = skip rng n) : Origin known rng0 k rng' := by
  obtain ⟨o, rfl, h⟩ := h
  refine ⟨o + n, by rw [hr, skip_skip], fun id hid => ?_⟩
  rcases h id hid with h | ⟨a, ha, e⟩
  · exact .inl h
  · exact .inr ⟨a, by omega, e⟩

theorem keystore_insert {known : SurbId → Prop} {rng0 : Rng} {k : SurbKeystore} (h : k.Inv) (rng : Rng)
    (ho : Origin known rng0 k rng) (mid : MessageId) :
    OnlyRepeated (Repeats known rng0) (k.insert rng mid) ∧
      ∀ k' id rng', k.insert rng mid = .ok (k', id, rng') → ∀ v, Origin known rng0 (k.created id v) rng' := by
  obtain ⟨o, hr, hids⟩ := ho
  have hid : (rng.fillBytes SURB_ID_SIZE).1 = bytesAt rng0 o 16 := by rw [hr]; exact fillBytes_skip _ _ _
  constructor
  · unfold SurbKeystore.insert
    rw [assertP_pos (decide_eq_true h.len), res_bind_ok]
    dsimp only
    split
    · rename_i v hv
      rintro p h; cases h
      refine ⟨rfl, o, ?_⟩
      have hmem : (rng.fillBytes SURB_ID_SIZE).1 ∈ LinkedMap.keys k.surbs := by
        have := LinkedMap.get?_some_mem hv
        have hin : ((rng.fillBytes SURB_ID_SIZE).1, v) ∈ k.surbs := by
          split at this
          · cases hks : k.surbs with
            | nil => rw [hks] at this; cases this
            | cons x xs => rw [hks] at this; exact List.mem_cons_of_mem _ this
          · exact this
        exact List.mem_map_of_mem (f := Prod.fst) hin
      rw [hid] at hmem
      rcases hids _ hmem with h | ⟨a, ha, e⟩
      · exact .inl h
      · exact .inr ⟨a, ha, e.symm⟩
    · exact .ok _
  · intro k' id rng' hins v
    obtain ⟨-, -, -, rfl, rfl⟩ := SurbKeystore.insert_ok hins
    refine ⟨o + 16, by rw [← skip_skip, ← hr]; rfl, fun id hin => ?_⟩
    have hin' : id ∈ LinkedMap.keys k.room ∨ id = (rng.fillBytes SURB_ID_SIZE).1 := by
      have : id ∈ LinkedMap.keys (LinkedMap.pushBack k.room (rng.fillBytes SURB_ID_SIZE).1 v) := hin
      rw [LinkedMap.keys_pushBack] at this
      simpa using this
    rcases hin' with h1 | rfl
    · have h2 : id ∈ LinkedMap.keys k.surbs := by
        obtain ⟨x, hx, rfl⟩ := List.mem_map.1 h1
        exact List.mem_map_of_mem (f := Prod.fst) ((SurbKeystore.room_sublist k).subset hx)
      rcases hids _ h2 with h | ⟨a, ha, e⟩
      · exact .inl h
      · exact .inr ⟨a, by omega, e⟩
    · exact .inr ⟨o, by omega, hid⟩

theorem splice_length' {l xs : Bytes} {off : Nat} (h : off + xs.length ≤ l.length) :
    (splice l off xs).length = l.length := by
  unfold splice
  simp only [List.length_append, List.length_take, List.length_drop]
  omega

theorem writeSurbsLoop_only (hC : CryptoLaws C) {known : SurbId → Prop} {rng0 : Rng} {t : Topology} {ns : NetworkStatus} {b : RequestBuilder}
    (hb : GoodBuilder t ns b) (mid : MessageId) {numHops : Nat} (hk : numHops ≤ 6) :
    ∀ (offs : List Nat) (f : Fragment) (acc : SurbAcc C), acc.keystore.Inv → Origin known rng0 acc.keystore acc.rng →
      f.length = FRAGMENT_SIZE → (∀ off ∈ offs, off + SURB_SIZE ≤ FRAGMENT_SIZE) →
      OnlyRepeated (offs ≠ [] ∧ Repeats known rng0) (writeSurbsLoop C b mid numHops offs f acc) ∧
      ∀ acc' f', writeSurbsLoop C b mid numHops offs f acc = .ok (acc', .ok f') →
        acc'.keystore.Inv ∧ Origin known rng0 acc'.keystore acc'.rng ∧ f'.length = FRAGMENT_SIZE
  | [], f, acc, hks, hor, hf, _ => by
    refine ⟨.ok _, ?_⟩
    intro acc' f' h
    simp only [writeSurbsLoop, Except.ok.injEq, Prod.mk.injEq] at h
    obtain ⟨rfl, rfl⟩ := h
    exact ⟨hks, hor, hf⟩
  | off :: offs, f, acc, hks, hor, hf, ho => by
    have hd : ∀ d, otherEnd (.fromMixnode b.destinationIndex) = some d → d < t.mixnodes.length := by
      intro d h; cases h; exact hb.dest
    have hoff := ho off List.mem_cons_self
    have hslice : (slice f off SURB_SIZE).length = SURB_SIZE := by
      unfold slice
      rw [List.length_take, List.length_drop, hf]
      omega
    -- what one iteration does
    have hone : ∀ (ks : SurbKeystore) (id : SurbId) (rng : Rng), acc.keystore.insert acc.rng mid = .ok (ks, id, rng) →
        ∃ r, b.buildSurb C (slice f off SURB_SIZE) rng id numHops = .ok r ∧
          ∀ surb keys met rng', r = .ok (surb, keys, met, rng') → surb.length = SURB_SIZE ∧ ∃ n, rng' = skip rng n := by
      intro ks id rng hins
      obtain ⟨-, -, -, hid, -⟩ := SurbKeystore.insert_ok hins
      have hidl : id.length = SURB_ID_SIZE := by rw [hid]; exact fillBytes_length _ _
      unfold RequestBuilder.buildSurb
      obtain ⟨r, hr⟩ := genRoute_total hb.view rng hk hd
      rw [hr, res_bind_ok]
      cases r with
      | error e => exact ⟨_, rfl, fun _ _ _ _ h => by cases h⟩
      | ok x =>
        obtain ⟨route, rng1⟩ := x
        dsimp only
        have hgood := route_good hb.view hb.peer hk hd hr
        obtain ⟨⟨surb, keys, delay, rng2⟩, hs⟩ := buildSurb_total hC hslice rng1 route.first hgood hidl
        rw [hs, res_bind_ok]
        refine ⟨_, rfl, ?_⟩
        intro surb' keys' met rng' h
        simp only [Except.ok.injEq, Prod.mk.injEq] at h
        obtain ⟨rfl, -, -, rfl⟩ := h
        have hl := buildSurb_length hC hslice hs
        obtain ⟨k1, t1⟩ := RouteGenerator.genRoute_takes hr
        have hs' := hs
        rw [buildSurb_bytes hC hslice rng1 route.first hgood hidl] at hs'
        simp only [Except.ok.injEq, Prod.mk.injEq] at hs'
        rw [t1.1] at hs'
        simp only [rest_skip] at hs'
        exact ⟨hl, _, hs'.2.2.2.symm⟩
    have hrec : ∀ (ks : SurbKeystore) (id : SurbId) (rng rng' : Rng) (surb : Surb) (keys : List Bytes),
        acc.keystore.insert acc.rng mid = .ok (ks, id, rng) → surb.length = SURB_SIZE → (∃ n, rng' = skip rng n) →
        (ks.setKeys id keys).Inv ∧ Origin known rng0 (ks.setKeys id keys) rng' ∧
          (splice f off surb).length = FRAGMENT_SIZE := by
      intro ks id rng rng' surb keys hins hl hn
      have hor' := (keystore_insert hks _ hor mid).2 _ _ _ hins
      obtain ⟨-, hid, rfl, -, -⟩ := SurbKeystore.insert_ok hins
      obtain ⟨n, hn⟩ := hn
      rw [SurbKeystore.setKeys_created hid]
      exact ⟨SurbKeystore.created_inv hks hid _, (hor' _).advance hn,
        by rw [splice_length' (by rw [hl, hf]; exact hoff)]; exact hf⟩
    have ih := fun f acc h1 h2 h3 => writeSurbsLoop_only (known := known) (rng0 := rng0) hC hb mid hk offs f acc h1 h2 h3
      (fun o h => ho o (List.mem_cons_of_mem _ h))
    constructor
    · unfold writeSurbsLoop
      refine ((keystore_insert hks _ hor _).1.mono (fun h => ⟨List.cons_ne_nil _ _, h⟩)).bind ?_
      rintro ⟨ks, id, rng⟩ hins
      dsimp only
      obtain ⟨r, hr, hrl⟩ := hone ks id rng hins
      rw [hr, res_bind_ok]
      cases r with
      | error e => exact .ok _
      | ok x =>
        obtain ⟨surb, keys, met, rng'⟩ := x
        obtain ⟨hl, hn⟩ := hrl _ _ _ _ rfl
        obtain ⟨h1, h2, h3⟩ := hrec ks id rng rng' surb keys hins hl hn
        exact (ih _ _ h1 h2 h3).1.mono (fun h => ⟨List.cons_ne_nil _ _, h.2⟩)
    · intro acc' f' h
      unfold writeSurbsLoop at h
      rw [res_bind_eq_ok] at h
      obtain ⟨⟨ks, id, rng⟩, hins, h⟩ := h
      dsimp only at h
      obtain ⟨r, hr, hrl⟩ := hone ks id rng hins
      rw [hr, res_bind_ok] at h
      cases r with
      | error e => cases h
      | ok x =>
        obtain ⟨surb, keys, met, rng'⟩ := x
        obtain ⟨hl, hn⟩ := hrl _ _ _ _ rfl
        obtain ⟨h1, h2, h3⟩ := hrec ks id rng rng' surb keys hins hl hn
        exact (ih _ _ h1 h2 h3).2 acc' f' h

/-- A blueprint as `fragment_blueprints` makes them. -/
structure GoodBlueprint (bp : FragmentBlueprint) : Prop where
  id : bp.messageId.length = 16
  last : bp.lastIndex ≤ 65535
  index : bp.index ≤ bp.lastIndex
  wf : bp.data.WF
  fits : bp.data.toVec.length + 222 * bp.numSurbs ≤ 2025

theorem good_blueprints {mid : MessageId} {data : Scattered Byte} {n : Nat} {bps : List FragmentBlueprint}
    (hmid : mid.length = 16) (hw : data.WF) (h : fragmentBlueprints mid data n = .ok (some bps)) :
    ∀ bp ∈ bps, GoodBlueprint bp := by
  rcases fragmentBlueprints_spec mid data n hw with ⟨e, -⟩ | ⟨bs, e, h1, h2, -, -, hall, -⟩
  · rw [e] at h; cases h
  · rw [e] at h; cases h
    intro bp hbp
    obtain ⟨j, hj, rfl⟩ := List.mem_iff_getElem.1 hbp
    obtain ⟨a1, a2, a3, a4, a5, a6⟩ := hall j hj
    exact ⟨by rw [a1]; exact hmid, by omega, by omega, a4, a6⟩

theorem GoodBlueprint.write {bp : FragmentBlueprint} (h : GoodBlueprint bp) :
    ∃ f, bp.writeExceptSurbs (payloadData zeroPacket) = .ok f ∧ f.length = FRAGMENT_SIZE := by
  obtain ⟨f, hf, -⟩ := writeFragment_spec bp (payloadData zeroPacket) (List.replicate bp.numSurbs (List.replicate 222 0))
    (bp.lastIndex + 1) payloadData_zero_length h.id rfl (by have := h.last; omega) (by have := h.index; omega) h.wf h.fits
    (by simp) (by intro s hs; rw [List.eq_of_mem_replicate hs]; exact List.length_replicate)
  exact ⟨f, hf, fragment_length hf payloadData_zero_length h.id h.wf⟩

theorem packet_length {f : Fragment} (h : f.length = FRAGMENT_SIZE) :
    (splice zeroPacket HEADER_SIZE f).length = PACKET_SIZE := by
  rw [splice_length' (by rw [h, zeroPacket_length]; csimp; omega), zeroPacket_length]

theorem buildPacket_only (hC : CryptoLaws C) {known : SurbId → Prop} {rng0 : Rng} {t : Topology} {ns : NetworkStatus} {b : RequestBuilder}
    (hb : GoodBuilder t ns b) (mid : MessageId) {numHops : Nat} (hk : numHops ≤ 6) {bp : FragmentBlueprint}
    (hbp : GoodBlueprint bp) {acc : SurbAcc C} (hks : acc.keystore.Inv) (hor : Origin known rng0 acc.keystore acc.rng) :
    OnlyRepeated (bp.surbOffsets ≠ [] ∧ Repeats known rng0) (b.buildPacket C mid numHops bp acc) ∧
      ∀ acc' x, b.buildPacket C mid numHops bp acc = .ok (acc', .ok x) →
        acc'.keystore.Inv ∧ Origin known rng0 acc'.keystore acc'.rng := by
  have hd : ∀ d, otherEnd (.toMixnode b.destinationIndex) = some d → d < t.mixnodes.length := by
    intro d h; cases h; exact hb.dest
  have hgt : b.routeGenerator.topology = t := by rw [hb.view.wf.2.1]
  obtain ⟨r, hr⟩ := genRoute_total hb.view acc.rng hk hd
  unfold RequestBuilder.buildPacket
  rw [hr, res_bind_ok]
  cases r with
  | error e => exact ⟨.ok _, fun _ _ h => by cases h⟩
  | ok x =>
    obtain ⟨route, rng1⟩ := x
    dsimp only
    rw [hgt]
    obtain ⟨p, hp⟩ := peerId_total hb.view hk hd hr
    rw [hp]
    dsimp only
    obtain ⟨f, hf, hfl⟩ := hbp.write
    rw [hf, res_bind_ok]
    obtain ⟨k1, t1⟩ := RouteGenerator.genRoute_takes hr
    obtain ⟨w1, w2⟩ := writeSurbsLoop_only (known := known) (rng0 := rng0) hC hb mid hk bp.surbOffsets f
      { acc with rng := rng1 } hks (hor.advance t1.1) hfl (surbOffsets_fit bp)
    have hgood := route_good hb.view hb.peer hk hd hr
    constructor
    · refine w1.bind ?_
      rintro ⟨acc1, r1⟩ hloop
      cases r1 with
      | error e => exact .ok _
      | ok f1 =>
        dsimp only
        obtain ⟨-, -, hl1⟩ := w2 _ _ hloop
        obtain ⟨⟨pk, d, rng2⟩, hq⟩ := completeRequestPacket_total hC (packet_length hl1) acc1.rng hgood
        rw [hq]
        exact .ok _
    · intro acc' x h
      rw [res_bind_eq_ok] at h
      obtain ⟨⟨acc1, r1⟩, hloop, h⟩ := h
      cases r1 with
      | error e => cases h
      | ok f1 =>
        dsimp only at h
        rw [res_bind_eq_ok] at h
        obtain ⟨⟨pk, d, rng2⟩, hc, h⟩ := h
        cases h
        obtain ⟨v1, v2, hl1⟩ := w2 _ _ hloop
        rw [completeRequestPacket_bytes hC (packet_length hl1) acc1.rng hgood] at hc
        simp only [Except.ok.injEq, Prod.mk.injEq] at hc
        exact ⟨v1, v2.advance (hc.2.2.symm.trans (skip_skip acc1.rng 32 _))⟩

theorem postLoop_only' (hC : CryptoLaws C) {known : SurbId → Prop} {rng0 : Rng} {t : Topology} {ns : NetworkStatus} {b : RequestBuilder}
    (hb : GoodBuilder t ns b) (mid : MessageId) {numHops : Nat} (hk : numHops ≤ 6) :
    ∀ (bps : List FragmentBlueprint) (acc : Node.PostAcc C), (∀ bp ∈ bps, GoodBlueprint bp) →
      acc.surbs.keystore.Inv → Origin known rng0 acc.surbs.keystore acc.surbs.rng →
      acc.queue.queue.length + bps.length ≤ acc.queue.config.capacity →
      OnlyRepeated ((∃ bp ∈ bps, bp.surbOffsets ≠ []) ∧ Repeats known rng0) (Node.postLoop C b mid numHops bps acc)
  | [], acc, _, _, _, _ => .ok _
  | bp :: bps, acc, hbp, hks, hor, hq => by
    obtain ⟨b1, b2⟩ := buildPacket_only hC hb mid hk (hbp bp List.mem_cons_self) hks hor
    have hq' : acc.queue.queue.length + (bps.length + 1) ≤ acc.queue.config.capacity := hq
    unfold Node.postLoop
    refine (b1.mono (fun h => ⟨⟨bp, List.mem_cons_self, h.1⟩, h.2⟩)).bind ?_
    rintro ⟨acc1, r⟩ h1
    cases r with
    | error e => exact .ok _
    | ok x =>
      obtain ⟨packet, met⟩ := x
      dsimp only
      rw [AuthoredPacketQueue.push_spec (by omega), res_bind_ok]
      refine OnlyRepeated.mono (postLoop_only' (known := known) (rng0 := rng0) hC hb mid hk bps _
        (fun bp h => hbp bp (List.mem_cons_of_mem _ h)) (b2 _ _ h1).1 (b2 _ _ h1).2
        (by simp only [List.length_append, List.length_singleton]; omega)) ?_
      rintro ⟨⟨bp', h, h'⟩, hr⟩
      exact ⟨⟨bp', List.mem_cons_of_mem _ h, h'⟩, hr⟩

theorem postReplyLoop_total {t : Topology} :
    ∀ (bps : List FragmentBlueprint) (surbs : List Surb) (q : AuthoredPacketQueue), (∀ bp ∈ bps, GoodBlueprint bp) →
      bps.length ≤ surbs.length → q.queue.length + bps.length ≤ q.config.capacity →
      ∃ r, Node.postReplyLoop C t bps surbs q = .ok r
  | [], surbs, q, _, _, _ => ⟨_, rfl⟩
  | bp :: bps, surbs, q, hbp, hs, hq => by
    have hq' : q.queue.length + (bps.length + 1) ≤ q.config.capacity := hq
    have hs' : bps.length + 1 ≤ surbs.length := hs
    obtain ⟨f, hf, hfl⟩ := (hbp bp List.mem_cons_self).write
    have hne : surbs ≠ [] := by rintro rfl; simp at hs'
    obtain ⟨⟨packet, o⟩, hc⟩ := completeReplyPacket_total (C := C) (packet_length hfl) (surbs.getLast hne)
    unfold Node.postReplyLoop
    rw [hf, res_bind_ok]
    dsimp only
    rw [List.getLast?_eq_some_getLast hne]
    simp only [expectSome, res_bind_ok]
    rw [hc, res_bind_ok]
    cases o with
    | none => exact ⟨_, rfl⟩
    | some i =>
      dsimp only
      cases t.mixnodeIndexToPeerId i with
      | error e => exact ⟨_, rfl⟩
      | ok p =>
        dsimp only
        rw [AuthoredPacketQueue.push_spec (by omega), res_bind_ok]
        exact postReplyLoop_total bps _ _ (fun bp h => hbp bp (List.mem_cons_of_mem _ h))
          (by rw [List.length_dropLast]; omega) (by simp only [List.length_append, List.length_singleton]; omega)

end Mixnet
