import Verif.Proofs.Posting
import Verif.Props.Routes
/-!
# Building packets does not panic
-/
namespace Mixnet
open Spec Props

variable {C : Crypto}

theorem genSecretsLoop_total : ∀ (theirs : List KxPublic) (x : C.Scalar) (pub : KxPublic) (secs : List SharedSecret),
    secs.length + theirs.length ≤ 6 →
    ∃ secs', C.genSecretsLoop theirs secs.length x pub secs = .ok secs' ∧
      secs'.length = secs.length + theirs.length
  | [], x, pub, secs, _ => ⟨secs, rfl, rfl⟩
  | t :: theirs, x, pub, secs, h => by
    have hl : secs.length + (theirs.length + 1) ≤ 6 := h
    have hlt : decide (secs.length < MAX_HOPS) = true := decide_eq_true (by csimp; omega)
    unfold Crypto.genSecretsLoop
    by_cases h0 : secs.length ≠ 0
    · rw [if_pos h0]
      have hne : secs ≠ [] := by rintro rfl; exact h0 rfl
      dsimp only
      rw [List.getLast?_eq_some_getLast hne]
      simp only [expectSome, res_bind_ok]
      rw [assertP_pos hlt, res_bind_ok]
      obtain ⟨s', e, l⟩ := genSecretsLoop_total theirs
        (C.scalarMul x (C.scalarOfClamped (C.deriveKxBlindingFactor (if secs.length ≠ 1 then C.mulBase x else pub)
          (secs.getLast hne)))) (if secs.length ≠ 1 then C.mulBase x else pub)
        (secs ++ [C.mul t (C.scalarMul x (C.scalarOfClamped (C.deriveKxBlindingFactor
          (if secs.length ≠ 1 then C.mulBase x else pub) (secs.getLast hne))))]) (by simp; omega)
      rw [List.length_append] at e l
      refine ⟨s', e, ?_⟩
      simp at l ⊢; omega
    · rw [if_neg h0]
      simp only [res_bind_ok]
      rw [assertP_pos hlt, res_bind_ok]
      obtain ⟨s', e, l⟩ := genSecretsLoop_total theirs x pub (secs ++ [C.mul t x]) (by simp; omega)
      rw [List.length_append] at e l
      refine ⟨s', e, ?_⟩
      simp at l ⊢; omega

/-- A path a header can be built for. -/
structure GoodPath (targets : List Target) (theirs : List KxPublic) : Prop where
  length : targets.length + 1 = theirs.length
  hops : theirs.length ≤ 6
  sized : ∀ t ∈ targets, t.Sized
  onePeer : nPeer targets ≤ 1

theorem buildHeader_total (hC : CryptoLaws C) {header : Bytes} (hh : header.length = 188) (rng : Rng)
    {targets : List Target} {theirs : List KxPublic} (hp : GoodPath targets theirs) {kind : PacketKind}
    (hk : kind.Sized) :
    ∃ h secs d rng', buildHeader C header rng targets theirs kind = .ok (h, secs, d, rng') := by
  obtain ⟨secs, hgen, hsl⟩ := genSecretsLoop_total (C := C) theirs (C.scalarOfClamped (Crypto.genKxSecret rng).1)
    (C.deriveKxPublic (Crypto.genKxSecret rng).1) [] (by simpa using hp.hops)
  simp only [List.length_nil, Nat.zero_add] at hgen hsl
  have h1 := hp.length
  have h2 := hp.hops
  have hne : secs ≠ [] := by rintro rfl; simp at hsl; omega
  obtain ⟨lastSec, hlast⟩ : ∃ l, secs.getLast? = some l := by
    rw [List.getLast?_eq_some_getLast hne]; exact ⟨_, rfl⟩
  have hsize : pathSize (targets.zip secs) + (encKind kind).length ≤ 140 := by
    rw [pathSize_zip _ _ (by omega) hp.sized]
    have := hp.onePeer
    have := encKind_le kind hk
    omega
  have hL : ∀ y ∈ targets.zip secs, y.1.Sized := fun y hy =>
    hp.sized _ (List.of_mem_zip (show (y.1, y.2) ∈ _ from hy)).1
  have hLl : (targets.zip secs).length ≤ 5 := by simp only [List.length_zip]; omega
  let s0 : BuildState C := ⟨header.drop KX_PUBLIC_SIZE, 0, C.delayZero, [],
    List.replicate (ACTIONS_SIZE - RAW_ACTION_SIZE) 0⟩
  have hs0 : FwdInv C s0 [] := ⟨by simp only [s0, List.length_drop, hh]; csimp, rfl, rfl⟩
  obtain ⟨H, s1, s2, pad', hf, hh1, hd1, hl, hh2, hd2, hbk, -, -⟩ :=
    header_core hC kind lastSec (Crypto.genKxSecret rng).2 hk _ hL s0 [] hs0 (by simpa using hsize) (by
      simpa [s0] using hLl)
  unfold buildHeader
  rw [assertP_pos (decide_eq_true h1), res_bind_ok, assertP_pos (decide_eq_true h2), res_bind_ok]
  unfold Crypto.genKxPublicAndSharedSecrets
  simp only
  rw [hgen]
  simp only [res_bind_ok]
  rw [show buildForward C (targets.zip secs) _ = _ from hf]
  simp only [res_bind_ok, hlast, expectSome]
  rw [hl]
  simp only [res_bind_ok]
  rw [hh2, hh1]
  simp only [s0, List.nil_append]
  rw [hbk]
  exact ⟨_, _, _, _, rfl⟩

theorem payload_tag_ok {p : Bytes} (h : p.length = 2064) :
    ∃ p', arraySet "payload tag" p PAYLOAD_DATA_SIZE PAYLOAD_TAG = .ok p' := by
  unfold arraySet
  rw [if_pos (by rw [h, PAYLOAD_TAG, List.length_replicate]; csimp; omega)]
  exact ⟨_, rfl⟩

theorem completeRequestPacket_total (hC : CryptoLaws C) {packet : Bytes} (hl : packet.length = PACKET_SIZE) (rng : Rng)
    {targets : List Target} {theirs : List KxPublic} (hp : GoodPath targets theirs) :
    ∃ r, completeRequestPacket C packet rng targets theirs = .ok r := by
  have hl' : packet.length = 2252 := hl
  obtain ⟨h, secs, d, rng', he⟩ := buildHeader_total hC (header := packet.take HEADER_SIZE)
    (by rw [List.length_take, hl']; csimp; omega) rng hp (kind := .request) trivial
  obtain ⟨p', hp'⟩ := payload_tag_ok (p := packet.drop HEADER_SIZE) (by rw [List.length_drop, hl']; csimp)
  unfold completeRequestPacket
  rw [assertP_pos (decide_eq_true hp.length), res_bind_ok, assertP_pos (decide_eq_true hp.hops), res_bind_ok]
  dsimp only
  rw [he, res_bind_ok]
  dsimp only
  rw [hp']
  exact ⟨_, rfl⟩

theorem buildSurb_total (hC : CryptoLaws C) {old : Bytes} (hl : old.length = SURB_SIZE) (rng : Rng) (first : Nat)
    {targets : List Target} {theirs : List KxPublic} (hp : GoodPath targets theirs) {id : Bytes}
    (hid : id.length = SURB_ID_SIZE) :
    ∃ r, buildSurb C old rng first targets theirs id = .ok r := by
  have hl' : old.length = 222 := hl
  obtain ⟨h, secs, d, rng', he⟩ := buildHeader_total hC (header := slice old RAW_MIXNODE_INDEX_SIZE HEADER_SIZE)
    (by unfold slice; rw [List.length_take, List.length_drop, hl']; csimp; omega) rng hp (kind := .reply id) hid
  unfold buildSurb
  rw [assertP_pos (decide_eq_true hp.length), res_bind_ok, assertP_pos (decide_eq_true hp.hops), res_bind_ok]
  dsimp only
  rw [he]
  exact ⟨_, rfl⟩

theorem buildCoverPacket_total (hC : CryptoLaws C) {packet : Bytes} (hl : packet.length = PACKET_SIZE) (rng : Rng)
    {targets : List Target} {theirs : List KxPublic} (hp : GoodPath targets theirs) :
    ∃ r, buildCoverPacket C packet rng targets theirs none = .ok r := by
  have hl' : packet.length = 2252 := hl
  obtain ⟨h, secs, d, rng', he⟩ := buildHeader_total hC (header := packet.take HEADER_SIZE)
    (by rw [List.length_take, hl']; csimp; omega) rng hp (kind := .cover none) trivial
  unfold buildCoverPacket
  rw [assertP_pos (decide_eq_true hp.length), res_bind_ok, assertP_pos (decide_eq_true hp.hops), res_bind_ok]
  dsimp only
  rw [he]
  exact ⟨_, rfl⟩

theorem completeReplyPacket_total {packet : Bytes} (hl : packet.length = PACKET_SIZE) (surb : Bytes) :
    ∃ r, completeReplyPacket C packet surb = .ok r := by
  have hl' : packet.length = 2252 := hl
  obtain ⟨p', hp'⟩ := payload_tag_ok (p := packet.drop HEADER_SIZE) (by rw [List.length_drop, hl']; csimp)
  unfold completeReplyPacket
  dsimp only
  rw [hp']
  exact ⟨_, rfl⟩

/-! ### Routes -/

theorem nPeer_append (a b : List Target) : nPeer (a ++ b) = nPeer a + nPeer b := by
  simp [nPeer]

theorem nPeer_map (l : List Nat) : nPeer (l.map Target.mixnodeIndex) = 0 := by
  induction l with
  | nil => rfl
  | cons a l ih => simpa [nPeer] using ih

/-- A header can be built for a generated route. -/
theorem route_good {t : Topology} {ns : NetworkStatus} {g : RouteGenerator} (v : View t ns g)
    (hns : ns.localPeerId.length = PEER_ID_SIZE) {kind : RouteKind} {k : Nat} (hk : k ≤ 6)
    (hd : ∀ d, otherEnd kind = some d → d < t.mixnodes.length) {rng rng' : Rng} {route : Route}
    (h : g.genRoute rng kind k = .ok (.ok (route, rng'))) : GoodPath route.targets route.kxPublics := by
  obtain ⟨-, h6, -, -, -, hkx⟩ := route_shape v hk hd h
  obtain ⟨inner, e, hin, -⟩ := route_no_repeats v hk hd h
  have hsz := v.wf.1.size
  have hlen : route.targets.length + 1 = route.kxPublics.length := by
    have := congrArg List.length hkx
    simp only [List.length_map, hops, List.length_cons] at this
    omega
  have hlen6 : route.kxPublics.length ≤ 6 := by
    rw [← hlen]; simpa [hops] using h6
  have hfs : (finalHop t ns kind).Sized := by
    have hloc : (localTarget t ns).Sized := by
      unfold localTarget
      cases hl : t.localNode with
      | mixnode i =>
        obtain ⟨m, hm, -⟩ := v.wf.1.isLocal i hl
        have := (List.getElem?_eq_some_iff.1 hm).1
        show i ≤ MAX_MIXNODE_INDEX
        csimp; omega
      | nonMixnode gs => exact hns
    cases kind with
    | toMixnode d =>
      have := hd d rfl
      show d ≤ MAX_MIXNODE_INDEX
      csimp; omega
    | fromMixnode d => exact hloc
    | loop => exact hloc
  have hall : ∀ x ∈ hops route, x.Sized := by
    rw [e]
    intro x hx
    rw [List.mem_append, List.mem_map] at hx
    rcases hx with ⟨i, hi, rfl⟩ | hx
    · have := (hin i hi).1
      show i ≤ MAX_MIXNODE_INDEX
      csimp; omega
    · rw [List.mem_singleton.1 hx]; exact hfs
  have hone : nPeer (hops route) ≤ 1 := by
    rw [e, nPeer_append, nPeer_map]
    have : nPeer [finalHop t ns kind] ≤ 1 := List.length_filter_le _ _
    omega
  refine ⟨hlen, hlen6, fun x hx => hall x (List.mem_cons_of_mem _ hx), ?_⟩
  have : nPeer (hops route) = nPeer [.mixnodeIndex route.first] + nPeer route.targets :=
    nPeer_append [.mixnodeIndex route.first] route.targets
  omega

/-- Route generation does not panic. -/
theorem genRoute_total {t : Topology} {ns : NetworkStatus} {g : RouteGenerator} (v : View t ns g)
    (rng : Rng) {kind : RouteKind} {k : Nat} (hk : k ≤ 6)
    (hd : ∀ d, otherEnd kind = some d → d < t.mixnodes.length) :
    ∃ r, g.genRoute rng kind k = .ok r := by
  have hg := v.wf
  have hd' : ∀ d, RouteGenerator.endpoint kind = some d → d < g.topology.mixnodes.length := by
    rw [endpoint_eq, hg.2.1]; exact hd
  rcases RouteGenerator.genRoute_spec hg.2.2 rng kind hk hd' with
    ⟨-, h⟩ | ⟨-, ⟨-, h⟩ | ⟨-, _, _, _, _, _, _, _, -, -, -, h, -⟩⟩
  · exact ⟨_, h⟩
  · exact ⟨_, h⟩
  · exact ⟨_, h⟩

theorem peerId_total {t : Topology} {ns : NetworkStatus} {g : RouteGenerator} (v : View t ns g)
    {rng rng' : Rng} {kind : RouteKind} {k : Nat} (hk : k ≤ 6)
    (hd : ∀ d, otherEnd kind = some d → d < t.mixnodes.length) {route : Route}
    (h : g.genRoute rng kind k = .ok (.ok (route, rng'))) :
    ∃ p, t.mixnodeIndexToPeerId route.first = .ok p := by
  have hg := v.wf
  have hd' : ∀ d, RouteGenerator.endpoint kind = some d → d < g.topology.mixnodes.length := by
    rw [endpoint_eq, hg.2.1]; exact hd
  have hl := genRoute_first_lt hg.2.2 hk hd' h
  rw [hg.2.1] at hl
  have hl : route.first < t.mixnodes.length := hl
  unfold Topology.mixnodeIndexToPeerId
  rw [List.getElem?_eq_getElem hl]
  exact ⟨_, rfl⟩

end Mixnet
