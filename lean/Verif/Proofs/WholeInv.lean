import Verif.Proofs.Whole
import Verif.Props.Wire
import Verif.Props.Reassembly
/-!
# Everything in a whole network comes from something posted
-/
namespace Mixnet
open Spec Props

/-! ### Fragments of a message, from different posts of it -/

theorem fragmentBytes_getD {id data : Bytes} {last index : Nat} {surbs : List Bytes} (hid : id.length = 16) :
    (fragmentBytes id last index data surbs).getD 20 0 = UInt8.ofNat data.length ∧
    (fragmentBytes id last index data surbs).getD 21 0 = UInt8.ofNat (data.length / 256) ∧
    (fragmentBytes id last index data surbs).getD 22 0 = UInt8.ofNat surbs.length ∧
    ∃ rest, (fragmentBytes id last index data surbs).drop 23 = data ++ rest := by
  obtain ⟨rest, h⟩ : ∃ rest, fragmentBytes id last index data surbs = (id ++ [UInt8.ofNat last, UInt8.ofNat (last / 256),
      UInt8.ofNat index, UInt8.ofNat (index / 256), UInt8.ofNat data.length, UInt8.ofNat (data.length / 256),
      UInt8.ofNat surbs.length]) ++ (data ++ rest) := by
    refine ⟨List.replicate (2025 - (data.length + 222 * surbs.length)) 0 ++ surbs.reverse.flatten, ?_⟩
    simp [fragmentBytes, le16]
  rw [h]
  match id, hid with
  | [_, _, _, _, _, _, _, _, _, _, _, _, _, _, _, _], _ => exact ⟨rfl, rfl, rfl, rest, rfl⟩

theorem dataOf_fragmentBytes {id data : Bytes} {last index : Nat} {surbs : List Bytes} (hid : id.length = 16)
    (hd : data.length ≤ 2025) : dataOf (fragmentBytes id last index data surbs) = data := by
  obtain ⟨h1, h2, -, rest, h3⟩ := fragmentBytes_getD (last := last) (index := index) (data := data) (surbs := surbs) hid
  unfold dataOf dataSizeOf u16At
  rw [h1, h2, h3, toNat_ofNat8, toNat_ofNat8]
  rw [show data.length % 256 + 256 * (data.length / 256 % 256) = data.length by omega]
  simp

theorem surbCount_fragmentBytes {id data : Bytes} {last index : Nat} {surbs : List Bytes} (hid : id.length = 16)
    (hs : surbs.length ≤ 9) : surbCountOf (fragmentBytes id last index data surbs) = surbs.length := by
  obtain ⟨-, -, h1, -⟩ := fragmentBytes_getD (last := last) (index := index) (data := data) (surbs := surbs) hid
  unfold surbCountOf
  rw [h1, toNat_ofNat8]
  omega

theorem fragmentsFrom_same {id : Bytes} (hid : id.length = 16) (last : Nat) : ∀ (n index : Nat) (data : Bytes)
    (S S' : List Bytes), S.length = S'.length →
    (fragmentsFrom id last n index data S).map dataOf = (fragmentsFrom id last n index data S').map dataOf ∧
    (fragmentsFrom id last n index data S).map surbCountOf = (fragmentsFrom id last n index data S').map surbCountOf
  | 0, _, _, _, _, _ => ⟨rfl, rfl⟩
  | n + 1, index, data, S, S', h => by
    obtain ⟨i1, i2⟩ := fragmentsFrom_same hid last n (index + 1) (data.drop (2025 - 222 * min 9 S.length)) (S.drop 9) (S'.drop 9)
      (by simp [h])
    unfold fragmentsFrom
    dsimp only
    rw [← h]
    constructor
    · rw [List.map_cons, List.map_cons, i1, dataOf_fragmentBytes hid (by simp), dataOf_fragmentBytes hid (by simp)]
    · rw [List.map_cons, List.map_cons, i2, surbCount_fragmentBytes hid (by simp), surbCount_fragmentBytes hid (by simp)]
      simp [h]

/-- A fragment of a message with `n` SURBs. -/
def FromPost (mid l : Bytes) (n : Nat) (f : Fragment) : Prop :=
  ∃ (S : List Surb) (F : List Fragment), mid.length = 16 ∧ S.length = n ∧ (∀ s ∈ S, s.length = 222) ∧ Sent mid l S F ∧
    F = messageFragments mid l S ∧ f ∈ F

theorem FromPost.id {mid l : Bytes} {n : Nat} {f : Fragment} (h : FromPost mid l n f) : idOf f = mid := by
  obtain ⟨S, F, h0, h1, h2, h3, h4, h5⟩ := h
  obtain ⟨hw, -⟩ := sent_whole h0 h2 h3
  exact (hw.mem h5).2.1

/-- Fragments of the same message make that message, even if they are from different posts of it. -/
theorem mixed_assemble {mid l : Bytes} {n : Nat} {id : Bytes} {fs : List Bytes} (hw : IsWhole id fs)
    (h : ∀ f ∈ fs, FromPost mid l n f) :
    id = mid ∧ (assemble id fs).data = l ∧ (assemble id fs).surbs.length = n := by
  obtain ⟨hne, hw⟩ := hw
  have h0 : 0 < fs.length := List.length_pos_of_ne_nil hne
  obtain ⟨S, F, a0, a1, a2, a3, a4, a5⟩ := h fs[0] (List.getElem_mem h0)
  obtain ⟨hF, hFa⟩ := sent_whole a0 a2 a3
  have hid : id = mid := by rw [← (hw 0 h0).2.1]; exact (hF.mem a5).2.1
  have hlen : fs.length = F.length := by
    rw [← (hw 0 h0).2.2.1]; exact (hF.mem a5).2.2.1
  have key : ∀ k (hk : k < fs.length) (hk' : k < F.length), dataOf fs[k] = dataOf F[k] ∧
      surbCountOf fs[k] = surbCountOf F[k] := by
    intro k hk hk'
    obtain ⟨S', F', b0, b1, b2, b3, b4, b5⟩ := h fs[k] (List.getElem_mem hk)
    obtain ⟨⟨hF1, hF2⟩, -⟩ := sent_whole b0 b2 b3
    obtain ⟨k', hk1, hk2⟩ := List.getElem_of_mem b5
    have e1 := (hw k hk).2.2.2
    rw [← hk2, (hF2 k' hk1).2.2.2] at e1
    subst e1
    rw [← hk2]
    have hsame := fragmentsFrom_same b0 (fragmentCount l.length S.length - 1) (fragmentCount l.length S.length) 0 l S S' (by omega)
    have ea : F = fragmentsFrom mid (fragmentCount l.length S.length - 1) (fragmentCount l.length S.length) 0 l S := a4
    have eb : F' = fragmentsFrom mid (fragmentCount l.length S.length - 1) (fragmentCount l.length S.length) 0 l S' := by
      rw [b4, a1, ← b1]; rfl
    rw [← ea, ← eb] at hsame
    have e2 := congrArg (·[k']?) hsame.1
    have e3 := congrArg (·[k']?) hsame.2
    simp only [List.getElem?_map, List.getElem?_eq_getElem hk1, List.getElem?_eq_getElem hk', Option.map_some,
      Option.some.injEq] at e2 e3
    exact ⟨e2.symm, e3.symm⟩
  have hdata : fs.map dataOf = F.map dataOf := by
    apply List.ext_getElem (by simp [hlen])
    intro k h1 h2
    simp only [List.length_map] at h1 h2
    simp only [List.getElem_map]
    exact (key k h1 h2).1
  have hsurbs : fs.map (fun f => (surbsOf f).length) = F.map (fun f => (surbsOf f).length) := by
    apply List.ext_getElem (by simp [hlen])
    intro k h1 h2
    simp only [List.length_map] at h1 h2
    simp only [List.getElem_map]
    unfold surbsOf
    simp only [List.length_map, List.length_range]
    exact (key k h1 h2).2
  have hl : (assemble mid F).data = l := by rw [hFa]
  have hn : (assemble mid F).surbs.length = n := by rw [hFa]; exact a1
  refine ⟨hid, ?_, ?_⟩
  · unfold assemble at hl ⊢
    dsimp only at hl ⊢
    rw [hdata]; exact hl
  · unfold assemble at hn ⊢
    dsimp only at hn ⊢
    rw [List.length_flatten, List.map_map] at hn ⊢
    have : (List.length ∘ surbsOf) = fun f => (surbsOf f).length := rfl
    rw [this] at hn ⊢
    rw [hsurbs]; exact hn


/-! ### The invariant -/

variable {C : Crypto}

/-- What an event tells by itself. -/
structure Event.Good (L : Layout C) (e : Event C) : Prop where
  nothing : e.request = none → e.packets = []
  request : ∀ i d mid l n, e.request = some (i, d, mid, l, n) → mid.length = 16 ∧ e.surbs.length = n ∧
    (∀ x ∈ e.surbs, x.surb.length = 222) ∧ Sent mid l (e.surbs.map (·.surb)) (e.packets.map (·.fragment)) ∧
    e.packets.map (·.fragment) = messageFragments mid l (e.surbs.map (·.surb)) ∧
    ∀ p ∈ e.packets, surbsOf p.fragment = p.surbs.map (·.surb)
  surbs : ∀ x ∈ e.surbs, ∃ i, ∀ t f p, ReplyBuilt C t f x.surb p → OnWay L i e.machine (ReplyFor x f) p.packet

theorem Event.Good.posted {L : Layout C} {e : Event C} (h : Event.Good L e) {i d mid l n}
    (hr : e.request = some (i, d, mid, l, n)) {p : NewPacket C} (hp : p ∈ e.packets) : FromPost mid l n p.fragment := by
  obtain ⟨h1, h2, h3, h4, h5, -⟩ := h.request i d mid l n hr
  refine ⟨_, _, h1, by simpa using h2, ?_, h4, h5, List.mem_map_of_mem hp⟩
  intro s hs
  obtain ⟨x, hx, rfl⟩ := List.mem_map.1 hs
  exact h3 x hx

/-- The SURB was made for a request to machine `j`. -/
def SurbFor (L : Layout C) (es : List (Event C)) (j : Nat) (s : Surb) : Prop :=
  ∃ e ∈ es, ∃ x ∈ e.surbs, x.surb = s ∧ e.RequestTo L j

/-- The fragment is of a reply with the SURB `x`, which was made by `e`. -/
def ReplyWith (L : Layout C) (es : List (Event C)) (e : Event C) (x : NewSurb C) (f : Fragment) : Prop :=
  e ∈ es ∧ x ∈ e.surbs ∧ ∃ e' ∈ es, ∃ surbs mid l, e'.reply = some (surbs, mid, l) ∧ x.surb ∈ surbs ∧
    e.RequestTo L e'.machine ∧ FromPost mid l 0 f

/-- What packets are made for: session, machine, what it will find, and the packet as it was made. -/
inductive Purpose (L : Layout C) (es : List (Event C)) : Nat → Nat → (Bytes → Action C → Prop) → Bytes → Prop
  | request {e p i d mid l n} : e ∈ es → e.request = some (i, d, mid, l, n) → p ∈ e.packets →
      Purpose L es i (L.host i d) (RequestFor p.fragment) p.packet.packet
  | reply {e x f} (i p0) : ReplyWith L es e x f → Purpose L es i e.machine (ReplyFor x f) p0
  | cover (i j p0) : Purpose L es i j (fun _ a => a = .deliverCover none) p0

/-- The packet `p0` becomes `p` when it is forwarded. -/
inductive Stage (L : Layout C) (es : List (Event C)) (i : Nat) (p0 : Bytes) : Bytes → Prop
  | here : Stage L es i p0 p0
  | next {p j out t d} : Stage L es i p0 p → p ∈ sentPackets es →
      peel C zeroPacket p (C.deriveKxSharedSecret (kxPublicOf p) (L.key j i)) = .ok (out, .ok (.forwardTo t d)) →
      Stage L es i p0 out

def Genuine (L : Layout C) (es : List (Event C)) (p : Bytes) : Prop :=
  ∃ i j fin p0, Purpose L es i j fin p0 ∧ Stage L es i p0 p ∧ OnWay L i j fin p

theorem sentPackets_sub {es es' : List (Event C)} (hs : ∀ e ∈ es, e ∈ es') (p : Bytes) (hp : p ∈ sentPackets es) :
    p ∈ sentPackets es' := by
  unfold sentPackets at hp ⊢
  obtain ⟨e, he, h⟩ := List.mem_flatMap.1 hp
  exact List.mem_flatMap.2 ⟨e, hs e he, h⟩

theorem Stage.mono {L : Layout C} {es es' : List (Event C)} (hs : ∀ e ∈ es, e ∈ es') {i p0 p} (h : Stage L es i p0 p) :
    Stage L es' i p0 p := by
  induction h with
  | here => exact .here
  | next _ h1 h2 ih => exact .next ih (sentPackets_sub hs _ h1) h2

/-- What machine `j` may have stored. -/
inductive FragmentOf (L : Layout C) (es : List (Event C)) (j : Nat) : Fragment → Prop
  | request {e p i d mid l n} : e ∈ es → e.request = some (i, d, mid, l, n) → p ∈ e.packets → L.host i d = j →
      FragmentOf L es j p.fragment
  | reply {e x f} : ReplyWith L es e x f → e.machine = j → FragmentOf L es j f

theorem SurbFor.mono {L : Layout C} {es es' : List (Event C)} (hs : ∀ e ∈ es, e ∈ es') {j s} (h : SurbFor L es j s) :
    SurbFor L es' j s := by
  obtain ⟨e, he, h⟩ := h
  exact ⟨e, hs e he, h⟩

theorem ReplyWith.mono {L : Layout C} {es es' : List (Event C)} (hs : ∀ e ∈ es, e ∈ es') {e x f}
    (h : ReplyWith L es e x f) : ReplyWith L es' e x f := by
  obtain ⟨h1, h2, e', h3, h⟩ := h
  exact ⟨hs _ h1, h2, e', hs _ h3, h⟩

theorem Genuine.mono {L : Layout C} {es es' : List (Event C)} (hs : ∀ e ∈ es, e ∈ es') {p} (h : Genuine L es p) :
    Genuine L es' p := by
  obtain ⟨i, j, fin, p0, h1, h2, h3⟩ := h
  refine ⟨i, j, fin, p0, ?_, h2.mono hs, h3⟩
  cases h1 with
  | request a b c => exact .request (hs _ a) b c
  | reply i p0 a => exact .reply i p0 (a.mono hs)
  | cover i j p0 => exact .cover i j p0

theorem FragmentOf.mono {L : Layout C} {es es' : List (Event C)} (hs : ∀ e ∈ es, e ∈ es') {j f}
    (h : FragmentOf L es j f) : FragmentOf L es' j f := by
  cases h with
  | request a b c d => exact .request (hs _ a) b c d
  | reply a b => exact .reply (a.mono hs) b

/-- A packet in one of the queues of authored packets. -/
def Queued (m : Node) (p : AddressedPacket) : Prop :=
  ∃ rel s, m.sessions.get rel = .full s ∧ p ∈ s.authoredPacketQueue.queue

/-- What is at machine `j` comes from something in `es`. -/
structure NodeSound (L : Layout C) (es : List (Event C)) (j : Nat) (m : Node) : Prop where
  queued : ∀ p, Queued m p → Genuine L es p.packet
  forward : ∀ p ∈ m.forwardPacketQueue.queue, Genuine L es p.packet.packet
  stored : ∀ f ∈ storedFragments m.fragmentAssembler, FragmentOf L es j f
  keys : ∀ y ∈ m.surbKeystore.surbs, ∃ e ∈ es, e.machine = j ∧ ∃ x ∈ e.surbs, ∃ i d mid l n,
    e.request = some (i, d, mid, l, n) ∧ y = (x.id, ⟨x.keys, mid⟩)

theorem NodeSound.mono {L : Layout C} {es es' : List (Event C)} (hs : ∀ e ∈ es, e ∈ es') {j m} (h : NodeSound L es j m) :
    NodeSound L es' j m :=
  ⟨fun p hp => (h.queued p hp).mono hs, fun p hp => (h.forward p hp).mono hs, fun f hf => (h.stored f hf).mono hs,
    fun y hy => by obtain ⟨e, he, h⟩ := h.keys y hy; exact ⟨e, hs e he, h⟩⟩

/-- A change that only takes things away. -/
theorem NodeSound.less {L : Layout C} {es : List (Event C)} {j} {m m' : Node} (h : NodeSound L es j m)
    (h1 : ∀ p, Queued m' p → Queued m p) (h2 : ∀ p ∈ m'.forwardPacketQueue.queue, p ∈ m.forwardPacketQueue.queue)
    (h3 : m'.fragmentAssembler = m.fragmentAssembler) (h4 : ∀ y ∈ m'.surbKeystore.surbs, y ∈ m.surbKeystore.surbs) :
    NodeSound L es j m' :=
  ⟨fun p hp => h.queued p (h1 p hp), fun p hp => h.forward p (h2 p hp), fun f hf => h.stored f (by rw [← h3]; exact hf),
    fun y hy => h.keys y (h4 y hy)⟩

theorem queued_set {m : Node} {ss : Sessions} {rel : RelSessionIndex} {s : Session} {p : AddressedPacket}
    (hm : m.sessions = ss.set rel (.full s)) (h : Queued m p) :
    p ∈ s.authoredPacketQueue.queue ∨ ∃ rel' s', ss.get rel' = .full s' ∧ p ∈ s'.authoredPacketQueue.queue := by
  obtain ⟨rel', s', h1, h2⟩ := h
  rw [hm] at h1
  by_cases hr : rel' = rel
  · subst hr
    rw [get_set_self] at h1
    cases h1
    exact .inl h2
  · rw [get_set_ne _ hr] at h1
    exact .inr ⟨rel', s', h1, h2⟩

end Mixnet
