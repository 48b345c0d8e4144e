import Verif.Proofs.WholeHistory
import Verif.Proofs.ManagerNode
import Verif.Props.Replay
/-!
# Nothing arrives more often than it was posted
-/
namespace Mixnet
open Spec Props

variable {C : Crypto} {L : Layout C} {config : Nat → Config} {es : List (Event C)} {nodes : Nat → Node} {m m' : Node}

/-! ### Packets that will not be accepted again -/

def SlotBurnt (C : Crypto) (slot : SessionSlot) (q : Bytes) : Prop :=
  slot = .disabled ∨ ∃ s, slot = .full s ∧ s.replayFilter.contains (s.tagFor C q) = true

/-- The packet will not be accepted in session `i`. -/
def Burnt (C : Crypto) (i : Nat) (m : Node) (q : Bytes) : Prop :=
  i ≤ m.sessionStatus.currentIndex ∧ (i = m.sessionStatus.currentIndex → SlotBurnt C m.sessions.current q) ∧
    (i + 1 = m.sessionStatus.currentIndex → SlotBurnt C m.sessions.prev q)

theorem Burnt.status {i q} (h : Burnt C i m q) {st : SessionStatus}
    (hst : m.sessionStatus.currentIndex ≤ st.currentIndex) : Burnt C i (m.setSessionStatus st) q := by
  have hcase := setSessionStatus_cases m st
  generalize m.setSessionStatus st = m1 at *
  cases hcase with
  | same => exact h
  | phase hne hidx =>
    refine ⟨by have := h.1; show i ≤ st.currentIndex; omega, fun hi => ?_, fun hi => ?_⟩
    · have hi : i = st.currentIndex := hi
      show SlotBurnt C (dropPrev st m.sessions).current q
      unfold dropPrev
      split <;> exact h.2.1 (by omega)
    · have hi : i + 1 = st.currentIndex := hi
      show SlotBurnt C (dropPrev st m.sessions).prev q
      unfold dropPrev
      split
      · exact .inl rfl
      · exact h.2.2 (by omega)
  | shift hne =>
    refine ⟨by have := h.1; show i ≤ st.currentIndex; omega, fun hi => ?_, fun hi => ?_⟩
    · have hi : i = st.currentIndex := hi
      have := h.1
      omega
    · have hi : i + 1 = st.currentIndex := hi
      have := h.1
      show SlotBurnt C (dropPrev st _).prev q
      unfold dropPrev
      split
      · exact .inl rfl
      · unfold Node.shiftSessions
        have h1 : st.currentIndex - m.sessionStatus.currentIndex = 1 := by omega
        rw [h1]
        exact h.2.1 (by omega)

theorem burnt_slot (hI : m.Inv C) (hk : m.config.numHops ≤ 6) {call : Call} {out : Outcome} (hw : call.WellTyped)
    (hc : StepCase C m call m' out) (hst : ∀ st, call ≠ .setSessionStatus st) {i : Nat} {rel : RelSessionIndex}
    (hrel : RelSessionIndex.fromSessionIndex i m.sessionStatus.currentIndex = some rel) {q : Bytes}
    (h : SlotBurnt C (m.sessions.get rel) q) : SlotBurnt C (m'.sessions.get rel) q := by
  obtain ⟨k1, k2⟩ := slots_keep hc hst
  rcases h with h | ⟨s, h1, h2⟩
  · exact .inl ((k2 rel).1 h)
  · obtain ⟨s', h3, -⟩ := (k2 rel).2 s h1
    refine .inr ⟨s', h3, ?_⟩
    have hev := Node.kept_step hI hk hw hc (Node.sessionAt_eq.2 ⟨rel, hrel, h1⟩)
      (Node.sessionAt_eq.2 ⟨rel, by rw [k1]; exact hrel, h3⟩)
    cases hev with
    | same => exact h2
    | seen now packet msg m1 rel out a => exact (filter_insert _ _ _).2 h2
    | popped => exact h2
    | posted => exact h2
    | replied => exact h2

theorem Burnt.step (hI : m.Inv C) (hk : m.config.numHops ≤ 6) {call : Call} {out : Outcome} (hw : call.WellTyped)
    (hc : StepCase C m call m' out) (ho : Onward m call) {i : Nat} {q : Bytes} (h : Burnt C i m q) : Burnt C i m' q := by
  by_cases hst : ∃ st, call = .setSessionStatus st
  · obtain ⟨st, rfl⟩ := hst
    cases hc
    exact h.status ho
  · have hst : ∀ st, call ≠ .setSessionStatus st := fun st hx => hst ⟨st, hx⟩
    obtain ⟨k1, k2⟩ := slots_keep hc hst
    refine ⟨by rw [k1]; exact h.1, fun hi => ?_, fun hi => ?_⟩
    · rw [k1] at hi
      exact burnt_slot hI hk hw hc hst (rel := .current) (fromSessionIndex_some.2 (.inl ⟨rfl, hi⟩)) (h.2.1 hi)
    · rw [k1] at hi
      exact burnt_slot hI hk hw hc hst (rel := .prev) (fromSessionIndex_some.2 (.inr ⟨rfl, hi⟩)) (h.2.2 hi)

theorem Burnt.refuses {i q} (h : Burnt C i m q) {rel s out a} (hacc : Accepts C m q rel s out a)
    (hrel : RelSessionIndex.fromSessionIndex i m.sessionStatus.currentIndex = some rel) : False := by
  have hslot := hacc.slot
  have hb : SlotBurnt C (m.sessions.get rel) q := by
    rcases fromSessionIndex_some.1 hrel with ⟨rfl, hi⟩ | ⟨rfl, hi⟩
    · exact h.2.1 hi
    · exact h.2.2 hi
  rcases hb with hb | ⟨s', h1, h2⟩
  · rw [hslot] at hb; cases hb
  · rw [hslot] at h1
    cases h1
    rw [hacc.fresh] at h2
    cases h2

theorem burnt_seen {i q rel} {s : Session}
    (hrel : RelSessionIndex.fromSessionIndex i m.sessionStatus.currentIndex = some rel)
    (h1 : m'.sessionStatus = m.sessionStatus) (h2 : m'.sessions = m.sessions.set rel (.full (s.seen C q))) :
    Burnt C i m' q := by
  have hs : SlotBurnt C (.full (s.seen C q)) q := .inr ⟨_, rfl, (filter_insert _ _ (s.tagFor C q)).1⟩
  rcases fromSessionIndex_some.1 hrel with ⟨rfl, hi⟩ | ⟨rfl, hi⟩
  · refine ⟨by rw [h1]; omega, fun _ => ?_, fun h => ?_⟩
    · rw [h2]; exact hs
    · rw [h1] at h; omega
  · refine ⟨by rw [h1]; omega, fun h => ?_, fun _ => ?_⟩
    · rw [h1] at h; omega
    · rw [h2]; exact hs

/-! ### A packet has one way only -/

theorem Stage.head {i p0 q} (h : Stage L es i p0 q) : p0 = q ∨ ∃ j out t d, p0 ∈ sentPackets es ∧
    peel C zeroPacket p0 (C.deriveKxSharedSecret (kxPublicOf p0) (L.key j i)) = .ok (out, .ok (.forwardTo t d)) ∧
    Stage L es i out q := by
  induction h with
  | here => exact .inl rfl
  | @next p j out t d h1 h2 h3 ih =>
    right
    rcases ih with rfl | ⟨j0, out0, t0, d0, h4, h5, h6⟩
    · exact ⟨j, out, t, d, h2, h3, .here⟩
    · exact ⟨j0, out0, t0, d0, h4, h5, .next h6 h2 h3⟩

theorem Stage.compare (hone : OpenedByOne L es) {i p0 q q'} (h : Stage L es i p0 q) (h' : Stage L es i p0 q') :
    Stage L es i q q' ∨ Stage L es i q' q := by
  induction h with
  | here => exact .inl h'
  | @next p j out t d h1 h2 h3 ih =>
    rcases ih with ih | ih
    · rcases ih.head with rfl | ⟨j0, out0, t0, d0, h4, h5, h6⟩
      · exact .inr (.next .here h2 h3)
      · obtain ⟨rfl, -⟩ := hone p h2 _ _ _ _ ⟨_, _, h3⟩ ⟨_, _, h5⟩
        rw [h3] at h5
        cases h5
        exact .inl h6
    · exact .inr (.next ih h2 h3)

/-- The packet delivers a request to machine `j` in session `i`. -/
def Delivers (L : Layout C) (i j : Nat) (q : Bytes) : Prop :=
  ∃ out, peel C zeroPacket q (C.deriveKxSharedSecret (kxPublicOf q) (L.key j i)) = .ok (out, .ok .deliverRequest)

theorem Delivers.last (hone : OpenedByOne L es) {i j q q'} (h : Delivers L i j q) (h' : Stage L es i q q') : q' = q := by
  rcases h'.head with rfl | ⟨j0, out0, t0, d0, h4, h5, h6⟩
  · rfl
  · obtain ⟨out, h⟩ := h
    obtain ⟨rfl, -⟩ := hone q h4 _ _ _ _ ⟨_, _, h⟩ ⟨_, _, h5⟩
    rw [h] at h5
    cases h5

theorem stage_unique (hone : OpenedByOne L es) {i j p0 q q'} (h : Stage L es i p0 q) (h' : Stage L es i p0 q')
    (hd : Delivers L i j q) (hd' : Delivers L i j q') : q = q' := by
  rcases h.compare hone h' with h | h
  · exact (hd.last hone h).symm
  · exact hd'.last hone h

/-! ### Counting -/

/-- If everything in `A`, without repetition, belongs to something in `B`, and two things never to the same. -/
theorem length_le_of_injective {α β : Type} {R : α → β → Prop} : ∀ {A : List α} {B : List β}, A.Nodup → (∀ a ∈ A, ∃ b ∈ B, R a b) →
    (∀ a ∈ A, ∀ a' ∈ A, ∀ b, R a b → R a' b → a = a') → A.length ≤ B.length
  | [], _, _, _, _ => Nat.zero_le _
  | a :: A, B, hn, h1, h2 => by
    classical
    obtain ⟨b, hb, hr⟩ := h1 a List.mem_cons_self
    obtain ⟨ha, hn⟩ := List.nodup_cons.1 hn
    have := length_le_of_injective (A := A) (B := B.erase b) (R := R) hn
      (fun a' ha' => by
        obtain ⟨b', hb', hr'⟩ := h1 a' (List.mem_cons_of_mem _ ha')
        refine ⟨b', (List.mem_erase_of_ne ?_).2 hb', hr'⟩
        rintro rfl
        have := h2 a List.mem_cons_self a' (List.mem_cons_of_mem _ ha') _ hr hr'
        exact ha (this ▸ ha'))
      (fun a1 h a2 h' => h2 a1 (List.mem_cons_of_mem _ h) a2 (List.mem_cons_of_mem _ h'))
    rw [List.length_erase_of_mem hb] at this
    have := List.length_pos_of_mem hb
    simp only [List.length_cons]
    omega

/-- The first fragment of the message with this ID. -/
def isFirst (mid : MessageId) (f : Fragment) : Bool := decide (idOf f = mid ∧ indexOf f = 0)

/-- The packet brought the first fragment of a request. -/
def Brought (L : Layout C) (es : List (Event C)) (j : Nat) (mid : MessageId) (m : Node) (q : Bytes) : Prop :=
  ∃ e ∈ es, ∃ p ∈ e.packets, ∃ i d l n, e.request = some (i, d, mid, l, n) ∧ L.host i d = j ∧
    indexOf p.fragment = 0 ∧ Stage L es i p.packet.packet q ∧ Delivers L i j q ∧ Burnt C i m q

/-- The packets that brought the first fragments of a request. -/
structure Once (L : Layout C) (es : List (Event C)) (j : Nat) (mid : MessageId) (m : Node) (A : List Bytes) : Prop where
  nodup : A.Nodup
  origin : ∀ q ∈ A, Brought L es j mid m q
  count : timesDelivered es j mid + (storedFragments m.fragmentAssembler).countP (isFirst mid) ≤ A.length

theorem once_posted (hone : OpenedByOne L es) (hgood : ∀ e ∈ es, Event.Good L e) {j mid A} (h : Once L es j mid m A) :
    timesDelivered es j mid ≤ timesPosted L es j mid := by
  refine Nat.le_trans (Nat.le_trans (Nat.le_add_right _ _) h.count) ?_
  unfold timesPosted
  rw [List.countP_eq_length_filter]
  refine length_le_of_injective (R := fun q e => ∃ p ∈ e.packets, ∃ i d l n, e ∈ es ∧ e.request = some (i, d, mid, l, n) ∧
    indexOf p.fragment = 0 ∧ Stage L es i p.packet.packet q ∧ Delivers L i j q) h.nodup ?_ ?_
  · intro q hq
    obtain ⟨e, he, p, hp, i, d, l, n, h1, h2, h3, h4, h5, -⟩ := h.origin q hq
    refine ⟨e, List.mem_filter.2 ⟨he, ?_⟩, p, hp, i, d, l, n, he, h1, h3, h4, h5⟩
    rw [h1]
    simp [h2]
  · rintro q - q' - e ⟨p, hp, i, d, l, n, he, h1, h2, h3, h4⟩ ⟨p', hp', i', d', l', n', -, h1', h2', h3', h4'⟩
    rw [h1] at h1'
    cases h1'
    have hpp : p = p' := by
      obtain ⟨g1, g2, g3, g4, -⟩ := (hgood e he).request _ _ _ _ _ h1
      obtain ⟨⟨-, hw⟩, -⟩ := sent_whole g1 (fun s hs => by
        obtain ⟨x, hx, rfl⟩ := List.mem_map.1 hs
        exact g3 x hx) g4
      obtain ⟨k, hk, rfl⟩ := List.getElem_of_mem hp
      obtain ⟨k', hk', rfl⟩ := List.getElem_of_mem hp'
      have e1 := (hw k (by simpa using hk)).2.2.2
      have e2 := (hw k' (by simpa using hk')).2.2.2
      simp only [List.getElem_map] at e1 e2
      have : k = k' := by omega
      subst this
      rfl
    subst hpp
    exact stage_unique hone h3 h3' h4 h4'

/-! ### One call -/

/-- The message with this ID has been completed. -/
def doneOf (mid : MessageId) : Option GenericMessage → Nat
  | some msg => if msg.id = mid then 1 else 0
  | none => 0

def doneMsg (mid : MessageId) : Option Message → Nat
  | some (.request r) => if r.id = mid then 1 else 0
  | _ => 0

theorem first_count {a a' : FragmentAssembler} {f o} (ha : FAInv a) (hc : InsertCase a f a' o) (mid : MessageId) :
    doneOf mid o + (storedFragments a').countP (isFirst mid) ≤
      (if isFirst mid f then 1 else 0) + (storedFragments a).countP (isFirst mid) := by
  have hacc := insert_accounting ha hc
  have key : (f :: storedFragments a).countP (isFirst mid) =
      (if isFirst mid f then 1 else 0) + (storedFragments a).countP (isFirst mid) := by
    rw [List.countP_cons, Nat.add_comm]
  rw [← key]
  cases o with
  | none =>
    have := List.Subperm.countP_le (isFirst mid) hacc
    simpa [doneOf] using this
  | some msg =>
    obtain ⟨g, w1, -, -, sp⟩ := hacc
    have h1 := List.Subperm.countP_le (isFirst mid) sp
    rw [List.countP_append] at h1
    refine Nat.le_trans (Nat.add_le_add_right ?_ _) h1
    show (if msg.id = mid then 1 else 0) ≤ _
    by_cases hid : msg.id = mid
    · rw [if_pos hid]
      obtain ⟨hne, hw⟩ := w1
      have hpos : 0 < g.length := List.length_pos_iff.2 hne
      obtain ⟨-, b1, -, b2⟩ := hw 0 hpos
      refine List.countP_pos_iff.2 ⟨g[0], List.getElem_mem _, ?_⟩
      simp [isFirst, b1, b2, hid]
    · rw [if_neg hid]; exact Nat.zero_le _

theorem Brought.mono {es' : List (Event C)} (hs : ∀ e ∈ es, e ∈ es') {j mid q} (h : Brought L es j mid m q)
    (hb : ∀ i, Burnt C i m q → Burnt C i m' q) : Brought L es' j mid m' q := by
  obtain ⟨e, he, p, hp, i, d, l, n, h1, h2, h3, h4, h5, h6⟩ := h
  exact ⟨e, hs e he, p, hp, i, d, l, n, h1, h2, h3, h4.mono hs, h5, hb i h6⟩

theorem handle_once (hC : CryptoLaws C) (hI : m.Inv C) (hk : m.config.numHops ≤ 6) {j : Nat} (ha : Agrees L j m)
    (hgood : ∀ e ∈ es, Event.Good L e) (hdiff : SurbsDiffer es) (hn : NodeSound L es j m)
    {now : Nat} {packet : Bytes}
    (hone : ∀ j i j' i', Opens C (L.key j i) packet → Opens C (L.key j' i') packet → j = j' ∧ i = i')
    (hw : (Call.handlePacket now packet).WellTyped)
    (hp : Genuine L es packet) {msg} (hc : HandleCase C m now packet m' msg) {mid : MessageId}
    (hno : ∀ e ∈ es, ∀ surbs l, e.reply ≠ some (surbs, mid, l)) {A : List Bytes} (hA : A.Nodup)
    (ho : ∀ q ∈ A, Brought L es j mid m q) :
    ∃ A' : List Bytes, A'.Nodup ∧ (∀ q ∈ A', Brought L es j mid m' q) ∧
      doneMsg mid msg + (storedFragments m'.fragmentAssembler).countP (isFirst mid) + A.length ≤
        (storedFragments m.fragmentAssembler).countP (isFirst mid) + A'.length := by
  have hkeep : ∀ q ∈ A, Brought L es j mid m' q := fun q hq =>
    (ho q hq).mono (fun e h => h) (fun i hb => hb.step hI hk hw (.handle _ _ _ _ hc) trivial)
  cases hc with
  | ignored => exact ⟨A, hA, ho, by simp [doneMsg]⟩
  | accepted out a rel s _ _ hacc heff =>
    obtain ⟨i, last, fin, p0, hpur, hstage, hway⟩ := hp
    obtain ⟨hs, hrel, hpeel, hfin⟩ := hway.accepted hC hI ha hone hacc
    cases heff with
    | cover => exact ⟨A, hA, ho, by simp [doneMsg]⟩
    | forwardNotMixnode => exact ⟨A, hA, ho, by simp [doneMsg]⟩
    | forwardFull => exact ⟨A, hA, ho, by simp [doneMsg]⟩
    | forwardNowhere => exact ⟨A, hA, hkeep, by simp [doneMsg]⟩
    | forward => exact ⟨A, hA, hkeep, by simp [doneMsg]⟩
    | requestNotMixnode => exact ⟨A, hA, ho, by simp [doneMsg]⟩
    | replyUnknown => exact ⟨A, hA, ho, by simp [doneMsg]⟩
    | replyBad => exact ⟨A, hA, hkeep, by simp [doneMsg]⟩
    | request a o index h1 h2 h3 h4 =>
      rcases hfin with ⟨rfl, hfin⟩ | ⟨⟨t, d, hf⟩, -⟩
      swap
      · cases hf
      cases hpur with
      | reply => cases hfin.1
      | cover => cases hfin
      | @request e p _ d mid' l n g1 g2 g3 =>
        have hfe : out.take PAYLOAD_DATA_SIZE = p.fragment := hfin.2
        rw [hfe] at h3
        have hcount := first_count hI.assembler h3 mid
        have hd : doneMsg mid (o.map fun msg => Message.request ⟨index, msg.id, msg.data, msg.surbs⟩) = doneOf mid o := by
          cases o <;> rfl
        by_cases hfirst : isFirst mid p.fragment = true
        · rw [if_pos hfirst] at hcount
          obtain ⟨f1, f2⟩ := of_decide_eq_true hfirst
          have hmid : mid' = mid := by rw [← f1, ((hgood e g1).posted g2 g3).id]
          subst hmid
          have hdel : Delivers L i (L.host i d) packet := ⟨_, hpeel⟩
          refine ⟨packet :: A, List.nodup_cons.2 ⟨fun hmem => ?_, hA⟩, fun q hq => ?_, ?_⟩
          · obtain ⟨_, _, _, _, i', _, _, _, _, _, _, _, ⟨out', hd'⟩, hb⟩ := ho packet hmem
            obtain ⟨-, rfl⟩ := hone _ _ _ _ ⟨_, _, hpeel⟩ ⟨_, _, hd'⟩
            exact hb.refuses hacc hrel
          · rcases List.mem_cons.1 hq with rfl | hq
            · exact ⟨e, g1, p, g3, i, d, l, n, g2, rfl, f2, hstage, hdel, burnt_seen hrel rfl rfl⟩
            · exact hkeep q hq
          · rw [hd]
            simp only [List.length_cons]
            omega
        · rw [if_neg hfirst] at hcount
          refine ⟨A, hA, hkeep, ?_⟩
          rw [hd]
          show _ + (storedFragments a).countP _ + _ ≤ _
          omega
    | reply id v payload a o h1 h2 h3 h4 h5 =>
      rcases hfin with ⟨rfl, hfin⟩ | ⟨⟨t, d, hf⟩, -⟩
      swap
      · cases hf
      cases hpur with
      | request => cases hfin.1
      | cover => cases hfin
      | @reply e x f _ _ hw =>
        obtain ⟨hact, payload', q1, q2⟩ := hfin
        simp only [Action.deliverReply.injEq] at hact
        subst hact
        obtain ⟨e1, he1, hm1, x1, hx1, i1, d1, mid1, l1, n1, hr1, hy⟩ := hn.keys _ (LinkedMap.get?_some_mem h1)
        simp only [Prod.mk.injEq] at hy
        obtain ⟨hy1, rfl⟩ := hy
        obtain ⟨he, hx, e', he', surbs, mid', l, hr', hsurb, hto, hfrom⟩ := hw
        obtain ⟨rfl, rfl⟩ := hdiff _ he _ he1 _ hx _ hx1 hm1.symm hy1
        rw [q1] at h2
        simp only [Except.ok.injEq, Prod.mk.injEq, and_true] at h2
        subst h2
        rw [q2] at h5
        have hcount := first_count hI.assembler h5 mid
        have hnf : ¬ isFirst mid f = true := by
          intro h
          have := (of_decide_eq_true h).1
          rw [hfrom.id] at this
          subst this
          exact hno e' he' _ _ hr'
        rw [if_neg hnf] at hcount
        refine ⟨A, hA, hkeep, ?_⟩
        have hd : doneMsg mid (o.map fun msg => Message.reply ⟨mid1, msg.data⟩) = 0 := by
          cases o <;> rfl
        rw [hd]
        show 0 + (storedFragments a).countP _ + _ ≤ _
        omega

/-- Only handling packets changes what is stored. -/
theorem assembler_same (hC : CryptoLaws C) {config : Config} (hreach : Node.Reachable C config m) (hk : config.numHops ≤ 6)
    (e : Event C) (hw : e.call.WellTyped) (h : m.step C e.call = .ok (m', e.out)) (hrec : e.Records m m') :
    (∃ now packet, e.call = .handlePacket now packet) ∨
      (m'.fragmentAssembler = m.fragmentAssembler ∧ ∀ msg, e.out ≠ .message msg) := by
  obtain ⟨hI, hcfg⟩ := hreach.inv hC
  have hc := Node.step_cases hC hI hw h
  obtain ⟨j', call, out, packets⟩ := e
  dsimp only at *
  cases hc with
  | status st => exact .inr ⟨(status_other (setSessionStatus_cases m st)).2.1, fun msg h => (by cases h)⟩
  | mixnodes rel answer rng _ b hcase =>
    refine .inr ⟨?_, fun msg h => (by cases h)⟩
    cases hcase <;> rfl
  | nextKx rng =>
    refine .inr ⟨?_, fun msg h => (by cases h)⟩
    unfold Node.nextKxPublic
    split <;> rfl
  | handle now packet _ msg hh => exact .inl ⟨_, _, rfl⟩
  | popForward tie => exact .inr ⟨rfl, fun msg h => (by cases h)⟩
  | popAuthored rng ns _ p hp =>
    refine .inr ⟨?_, fun msg h => (by cases h)⟩
    cases hp <;> rfl
  | post rng i d mid data n ns _ d' r hp =>
    refine .inr ⟨?_, fun msg h => (by cases h)⟩
    cases r with
    | error err =>
      obtain ⟨rfl, rfl⟩ := request_refused hC hreach hk hw h
      rfl
    | ok met =>
      obtain ⟨s, dest, hp⟩ := hrec
      dsimp only at hp
      have haft := hp.after
      obtain ⟨rel, hrel, hslot⟩ := Node.sessionAt_eq.1 hp.session
      rw [withSession_eq hrel] at haft
      rw [haft]
  | reply surbs i mid data _ surbs' r hp =>
    refine .inr ⟨?_, fun msg h => (by cases h)⟩
    obtain ⟨⟨o1, o2, o3⟩, hq⟩ := reply_queued hw hp
    exact o2
  | take => exact .inr ⟨rfl, fun msg h => (by cases h)⟩

/-- Where the current session index comes from. -/
def IndexFrom (es : List (Event C)) (j : Nat) (m : Node) : Prop :=
  m.sessionStatus.currentIndex = 0 ∨ ∃ e ∈ es, e.machine = j ∧ ∃ st, e.call = .setSessionStatus st ∧
    st.currentIndex = m.sessionStatus.currentIndex

theorem index_from {j : Nat} (e : Event C) (hj : e.machine = j) (hc : StepCase C m e.call m' e.out)
    (h : IndexFrom es j m) : IndexFrom (es ++ [e]) j m' := by
  by_cases hst : ∃ st, e.call = .setSessionStatus st
  · obtain ⟨st, hst⟩ := hst
    refine .inr ⟨e, List.mem_append_right _ List.mem_cons_self, hj, st, hst, ?_⟩
    rw [hst] at hc
    generalize e.out = out at hc
    cases hc
    have hcase := setSessionStatus_cases m st
    generalize m.setSessionStatus st = m1 at *
    cases hcase with
    | same h => rw [← h]
    | phase => rfl
    | shift => rfl
  · obtain ⟨k1, -⟩ := slots_keep hc (fun st hx => hst ⟨st, hx⟩)
    unfold IndexFrom
    rw [k1]
    rcases h with h | ⟨e', he', h⟩
    · exact .inl h
    · exact .inr ⟨e', List.mem_append_left _ he', h⟩

theorem timesDelivered_append (e : Event C) (j : Nat) (mid : MessageId) :
    timesDelivered (es ++ [e]) j mid = timesDelivered es j mid +
      if e.machine = j then (match e.out with | .message msg => doneMsg mid msg | _ => 0) else 0 := by
  unfold timesDelivered
  rw [List.countP_append, List.countP_singleton]
  congr 1
  by_cases hj : e.machine = j
  · rw [if_pos hj]
    simp only [hj, decide_true, Bool.true_and]
    rcases e.out with _ | _ | _ | msg | _ | _ | _ | _ | _ <;> try rfl
    rcases msg with _ | msg
    · rfl
    · cases msg with
      | reply => rfl
      | request r =>
        by_cases hr : r.id = mid <;> simp [doneMsg, hr]
  · rw [if_neg hj]
    simp [hj]

theorem once_history (hC : CryptoLaws C) (hk : ∀ j, (config j).numHops ≤ 6) (h : History C L config es nodes)
    (hids : IdsMean es) (hdiff : SurbsDiffer es) (hone : OpenedByOne L es) (hadv : SessionsAdvance es) {j : Nat}
    {mid : MessageId} (hno : ∀ e ∈ es, ∀ surbs l, e.reply ≠ some (surbs, mid, l)) :
    IndexFrom es j (nodes j) ∧ ∃ A, Once L es j mid (nodes j) A := by
  induction h with
  | @start nodes hnew =>
    obtain ⟨n1, n2, n3, n4⟩ := new_node (hnew j)
    refine ⟨.inl ?_, [], List.nodup_nil, fun q h => (by cases h), ?_⟩
    · have h := hnew j
      unfold Node.new at h
      rw [res_bind_eq_ok] at h
      obtain ⟨k, hk, h⟩ := h
      simp only [Except.ok.injEq] at h
      rw [← h]
    · rw [n3]; simp [timesDelivered]
  | @step es nodes n' e hh hw hal hstep hrec hagree ih =>
    have hmono : ∀ e' ∈ es, e' ∈ es ++ [e] := fun e' h => List.mem_append_left _ h
    have hids' := IdsMean.sub hids hmono
    have hdiff' := SurbsDiffer.sub hdiff hmono
    have hone' : OpenedByOne L es := fun p hp => hone p (sentPackets_sub hmono p hp)
    have S := whole_sound hC hk hh hids' hdiff' hone'
    obtain ⟨hidx, A, hA⟩ := ih hids' hdiff' hone' (fun a e' b h => hadv a e' (b ++ [e]) (by rw [h]; simp))
      (fun e' he' => hno e' (hmono e' he'))
    by_cases hj : j = e.machine
    swap
    · rw [Function.update_of_ne hj]
      refine ⟨?_, A, hA.nodup, fun q hq => (hA.origin q hq).mono hmono (fun i h => h), ?_⟩
      · rcases hidx with h | ⟨e', he', h⟩
        · exact .inl h
        · exact .inr ⟨e', hmono e' he', h⟩
      · rw [timesDelivered_append, if_neg (fun h => hj h.symm)]
        exact hA.count
    subst hj
    rw [Function.update_self]
    obtain ⟨hI, hcfg⟩ := (S.reach e.machine).inv hC
    have hc := Node.step_cases hC hI hw hstep
    refine ⟨index_from e rfl hc hidx, ?_⟩
    have hkc : (nodes e.machine).config.numHops ≤ 6 := by rw [hcfg]; exact hk _
    have hon : Onward (nodes e.machine) e.call := by
      unfold Onward
      split
      · rename_i st hst
        rcases hidx with h | ⟨e', he', hj', st', hst', h⟩
        · rw [h]; exact Nat.zero_le _
        · rw [← h]
          exact hadv es e [] rfl st hst e' he' hj' st' hst'
      · trivial
    rcases assembler_same hC (S.reach _) (hk _) e hw hstep hrec with ⟨now, packet, hcall⟩ | ⟨h1, h2⟩
    · have hc' := hc
      have hal' : packet ∈ sentPackets es := by rw [hcall] at hal; exact hal
      have hout : ∃ msg, e.out = .message msg ∧ HandleCase C (nodes e.machine) now packet n' msg := by
        rw [hcall] at hc'
        generalize e.out = out at hc'
        cases hc' with
        | handle _ _ _ msg hh => exact ⟨msg, rfl, hh⟩
      obtain ⟨msg, hout, hcase⟩ := hout
      rw [hcall] at hw
      obtain ⟨A', a1, a2, a3⟩ := handle_once hC hI hkc (S.agree _) S.good hdiff' (S.node _) (hone' packet hal') hw
        (S.sent packet hal') hcase (fun e' he' => hno e' (hmono e' he')) hA.nodup hA.origin
      refine ⟨A', a1, fun q hq => (a2 q hq).mono hmono (fun i h => h), ?_⟩
      rw [timesDelivered_append, if_pos rfl, hout]
      have := hA.count
      dsimp only
      omega
    · refine ⟨A, hA.nodup, fun q hq => (hA.origin q hq).mono hmono (fun i h => h.step hI hkc hw hc hon), ?_⟩
      rw [h1, timesDelivered_append, if_pos rfl]
      have := hA.count
      split
      · rename_i msg hm; exact absurd hm (h2 msg)
      · exact this

/-- A request arrives at a machine at most as often as it was posted to it. -/
theorem at_most_as_posted (hC : CryptoLaws C) (hk : ∀ j, (config j).numHops ≤ 6) (h : History C L config es nodes)
    (hids : IdsMean es) (hdiff : SurbsDiffer es) (hone : OpenedByOne L es) (hadv : SessionsAdvance es) (j : Nat)
    (mid : MessageId) : timesDelivered es j mid ≤ timesPosted L es j mid := by
  have S := whole_sound hC hk h hids hdiff hone
  by_cases h0 : timesDelivered es j mid = 0
  · rw [h0]; exact Nat.zero_le _
  · have hpos : 0 < timesDelivered es j mid := Nat.pos_of_ne_zero h0
    unfold timesDelivered at hpos
    obtain ⟨e, he, hx⟩ := List.countP_pos_iff.1 hpos
    obtain ⟨hj, hx⟩ := Bool.and_eq_true_iff.1 hx
    have hj := of_decide_eq_true hj
    split at hx
    · rename_i r hout
      have hr := of_decide_eq_true hx
      obtain ⟨a, b, rfl⟩ := List.append_of_mem he
      obtain ⟨e', he', d, n, hreq, -⟩ := (S.caused a e b rfl).request r hout
      rw [hr] at hreq
      obtain ⟨-, A, hA⟩ := once_history hC hk h hids hdiff hone hadv (j := j) (mid := mid) (fun e2 he2 surbs l =>
        hids.kinds e' (List.mem_append_left _ he') e2 he2 _ _ _ _ _ _ _ hreq)
      exact once_posted hone S.good hA
    · cases hx

end Mixnet
