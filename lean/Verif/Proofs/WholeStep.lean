import Verif.Proofs.WholeInv
/-!
# One call at one machine of a whole network
-/
namespace Mixnet
open Spec Props

variable {C : Crypto} {L : Layout C} {es : List (Event C)} {j : Nat} {m m' : Node}

theorem FragmentOf.request_of (hgood : ∀ e ∈ es, Event.Good L e) (hids : IdsMean es) {e : Event C} (he : e ∈ es) {i d mid l n}
    (hr : e.request = some (i, d, mid, l, n)) {f : Fragment} (h : FragmentOf L es j f) (hf : idOf f = mid) :
    FromPost mid l n f ∧ ∀ s ∈ surbsOf f, ∃ e' ∈ es, ∃ x ∈ e'.surbs, x.surb = s ∧
      ∃ i' d', e'.request = some (i', d', mid, l, n) ∧ L.host i' d' = j := by
  cases h with
  | @request e1 p i1 d1 mid1 l1 n1 h1 h2 h3 h4 =>
    have hp := (hgood e1 h1).posted h2 h3
    obtain rfl : mid1 = mid := by rw [← hf, hp.id]
    obtain ⟨rfl, rfl⟩ := hids.requests _ he _ h1 _ _ _ _ _ _ _ _ _ hr h2
    refine ⟨hp, fun s hs => ?_⟩
    obtain ⟨-, -, -, -, -, hc⟩ := (hgood e1 h1).request _ _ _ _ _ h2
    rw [hc p h3] at hs
    obtain ⟨x, hx, rfl⟩ := List.mem_map.1 hs
    exact ⟨e1, h1, x, List.mem_flatMap.2 ⟨p, h3, hx⟩, rfl, i1, d1, h2, h4⟩
  | reply hw =>
    obtain ⟨-, -, e', h3, surbs, mid', l', h4, -, -, h5⟩ := hw
    obtain rfl : mid' = mid := by rw [← hf, h5.id]
    exact absurd h4 (hids.kinds _ he _ h3 _ _ _ _ _ _ _ hr)

theorem FragmentOf.reply_of (hgood : ∀ e ∈ es, Event.Good L e) (hids : IdsMean es) {e : Event C} (he : e ∈ es)
    {surbs mid l} (hr : e.reply = some (surbs, mid, l)) {f : Fragment} (h : FragmentOf L es j f) (hf : idOf f = mid) :
    FromPost mid l 0 f := by
  cases h with
  | @request e1 p i1 d1 mid1 l1 n1 h1 h2 h3 h4 =>
    have hp := (hgood e1 h1).posted h2 h3
    obtain rfl : mid1 = mid := by rw [← hf, hp.id]
    exact absurd hr (hids.kinds _ h1 _ he _ _ _ _ _ _ _ h2)
  | reply hw =>
    obtain ⟨-, -, e', h3, surbs, mid', l', h4, -, -, h5⟩ := hw
    obtain rfl : mid' = mid := by rw [← hf, h5.id]
    obtain rfl := hids.replies _ he _ h3 _ _ _ _ _ hr h4
    exact h5

/-- Storing a fragment. -/
theorem insert_sound (hI : FAInv m.fragmentAssembler) (hs : ∀ f ∈ storedFragments m.fragmentAssembler, FragmentOf L es j f)
    {f a o} (hf : FragmentOf L es j f) (hc : InsertCase m.fragmentAssembler f a o) :
    (∀ g ∈ storedFragments a, FragmentOf L es j g) ∧
    ∀ msg, o = some msg → ∃ g, IsWhole msg.id g ∧ msg = assemble msg.id g ∧ f ∈ g ∧ ∀ f' ∈ g, FragmentOf L es j f' := by
  have hall : ∀ f' ∈ f :: storedFragments m.fragmentAssembler, FragmentOf L es j f' := by
    intro f' h
    rcases List.mem_cons.1 h with rfl | h
    · exact hf
    · exact hs f' h
  have := insert_accounting hI hc
  cases o with
  | none => exact ⟨fun g hg => hall g (this.subset hg), fun msg h => by cases h⟩
  | some msg =>
    obtain ⟨g, h1, h2, h3, h4⟩ := this
    refine ⟨fun g' hg => hall g' (h4.subset (List.mem_append_right _ hg)), ?_⟩
    intro msg' h
    cases h
    exact ⟨g, h1, h2, h3, fun f' h => hall f' (h4.subset (List.mem_append_left _ h))⟩

theorem queued_same {rel : RelSessionIndex} {s s' : Session} (hs : m.sessions.get rel = .full s)
    (hq : ∀ p ∈ s'.authoredPacketQueue.queue, p ∈ s.authoredPacketQueue.queue)
    (hm : m'.sessions = m.sessions.set rel (.full s')) (p : AddressedPacket) (h : Queued m' p) : Queued m p := by
  rcases queued_set hm h with h | h
  · exact ⟨rel, s, hs, hq p h⟩
  · exact h

theorem handle_sound (hC : CryptoLaws C) (hI : m.Inv C) (ha : Agrees L j m) (hgood : ∀ e ∈ es, Event.Good L e)
    (hids : IdsMean es) (hdiff : SurbsDiffer es) (hn : NodeSound L es j m) {now : Nat} {packet : Bytes}
    (hone : ∀ j i j' i', Opens C (L.key j i) packet → Opens C (L.key j' i') packet → j = j' ∧ i = i')
    (hsent : packet ∈ sentPackets es) (hp : Genuine L es packet) {msg} (hc : HandleCase C m now packet m' msg) :
    NodeSound L es j m' ∧ (∀ r, msg = some (.request r) → RequestCaused L es j r) ∧
      ∀ r, msg = some (.reply r) → ReplyCaused L es j r := by
  have quiet : NodeSound L es j m ∧ (∀ r, (none : Option Message) = some (.request r) → RequestCaused L es j r) ∧
      ∀ r, (none : Option Message) = some (.reply r) → ReplyCaused L es j r :=
    ⟨hn, fun r h => (by cases h), fun r h => (by cases h)⟩
  cases hc with
  | ignored => exact quiet
  | accepted out a rel s _ _ hacc heff =>
    obtain ⟨i, last, fin, p0, hpur, hstage, hway⟩ := hp
    obtain ⟨hs, hrel, hpeel, hfin⟩ := hway.accepted hC hI ha hone hacc
    have seen : ∀ m'', m''.sessions = m.sessions.set rel (.full (s.seen C packet)) → ∀ p, Queued m'' p → Queued m p :=
      fun m'' h p hq => queued_same (s' := s.seen C packet) hacc.slot (fun p h => h) h p hq
    cases heff with
    | cover => exact quiet
    | forwardNotMixnode => exact quiet
    | forwardFull => exact quiet
    | forwardNowhere t d e h1 h2 h3 =>
      exact ⟨hn.less (seen _ rfl) (fun p h => h) rfl (fun y h => h), quiet.2⟩
    | forward t d peer ev h1 h2 h3 h4 =>
      refine ⟨⟨fun p h => hn.queued p (seen _ rfl p h), ?_, hn.stored, hn.keys⟩, quiet.2⟩
      intro p h
      rcases List.mem_cons.1 h with rfl | h
      · rcases hfin with ⟨-, hfin⟩ | ⟨-, hfin⟩
        · exfalso
          cases hpur with
          | request => cases hfin.1
          | reply => cases hfin.1
          | cover => cases hfin
        · exact ⟨i, last, fin, p0, hpur, .next hstage hsent hpeel, hfin⟩
      · exact hn.forward p h
    | requestNotMixnode => exact quiet
    | request a o index h1 h2 h3 h4 =>
      rcases hfin with ⟨rfl, hfin⟩ | ⟨⟨t, d, hf⟩, -⟩
      swap
      · cases hf
      cases hpur with
      | reply => cases hfin.1
      | cover => cases hfin
      | @request e p _ d mid l n g1 g2 g3 =>
        have hfe : out.take PAYLOAD_DATA_SIZE = p.fragment := hfin.2
        rw [hfe] at h3
        have hidx : index = i := by
          rcases fromSessionIndex_some.1 hrel with ⟨rfl, hi⟩ | ⟨rfl, hi⟩
          · simp only [RelSessionIndex.add, Except.ok.injEq] at h4
            omega
          · unfold RelSessionIndex.add at h4
            dsimp only at h4
            rw [if_pos (by omega)] at h4
            cases h4
            omega
        subst hidx
        obtain ⟨k1, k2⟩ := insert_sound hI.assembler hn.stored (.request g1 g2 g3 rfl) h3
        refine ⟨⟨fun p h => hn.queued p (seen _ rfl p h), hn.forward, k1, hn.keys⟩, ?_, ?_⟩
        · intro r hr
          cases o with
          | none => cases hr
          | some msg =>
            cases hr
            obtain ⟨g, w1, w2, w3, w4⟩ := k2 msg rfl
            have hmid : msg.id = mid := by
              rw [← (w1.mem w3).2.1, ((hgood e g1).posted g2 g3).id]
            have hall := fun f hf => FragmentOf.request_of hgood hids g1 g2 (w4 f hf) (by rw [(w1.mem hf).2.1, hmid])
            obtain ⟨-, a2, a3⟩ := mixed_assemble w1 (fun f hf => (hall f hf).1)
            rw [← w2] at a2 a3
            refine ⟨e, g1, d, n, ?_, rfl, a3, ?_⟩
            · show e.request = some (_, d, msg.id, msg.data, n)
              rw [hmid, a2]; exact g2
            · intro s hs
              have hs' : s ∈ (g.map surbsOf).flatten := by
                have : s ∈ msg.surbs := hs
                rw [w2] at this
                exact this
              obtain ⟨l', hl', hs2⟩ := List.mem_flatten.1 hs'
              obtain ⟨f, hf, rfl⟩ := List.mem_map.1 hl'
              obtain ⟨e', b1, x, b2, b3, i', d', b4, b5⟩ := (hall f hf).2 s hs2
              refine ⟨e', b1, x, b2, b3, i', d', ?_, b5⟩
              show e'.request = some (_, _, msg.id, msg.data, n)
              rw [hmid, a2]; exact b4
        · intro r hr
          cases o <;> cases hr
    | replyUnknown => exact quiet
    | replyBad id v payload e h1 h2 =>
      refine ⟨hn.less (fun p h => h) (fun p h => h) rfl ?_, quiet.2⟩
      intro y hy
      exact (LinkedMap.remove_sublist _ _).subset hy
    | reply id v payload a o h1 h2 h3 h4 h5 =>
      rcases hfin with ⟨rfl, hfin⟩ | ⟨⟨t, d, hf⟩, -⟩
      swap
      · cases hf
      cases hpur with
      | request => cases hfin.1
      | cover => cases hfin
      | @reply e x f _ _ hw =>
        obtain ⟨hact, payload', q1, q2⟩ := hfin
        simp only [Action.deliverReply.injEq] at hact
        subst hact
        obtain ⟨e1, he1, hm1, x1, hx1, i1, d1, mid1, l1, n1, hr1, hy⟩ := hn.keys _ (LinkedMap.get?_some_mem h1)
        simp only [Prod.mk.injEq] at hy
        obtain ⟨hy1, rfl⟩ := hy
        have hw' := hw
        obtain ⟨he, hx, e', he', surbs, mid, l, hr', hsurb, hto, hfrom⟩ := hw'
        obtain ⟨rfl, rfl⟩ := hdiff _ he _ he1 _ hx _ hx1 hm1.symm hy1
        rw [q1] at h2
        simp only [Except.ok.injEq, Prod.mk.injEq, and_true] at h2
        subst h2
        rw [q2] at h5
        obtain ⟨k1, k2⟩ := insert_sound hI.assembler hn.stored (.reply hw rfl) h5
        refine ⟨⟨hn.queued, hn.forward, k1, ?_⟩, ?_, ?_⟩
        · intro y hy
          exact hn.keys y ((LinkedMap.remove_sublist _ _).subset hy)
        · intro r hr
          cases o <;> cases hr
        · intro r hr
          cases o with
          | none => cases hr
          | some msg =>
            cases hr
            obtain ⟨g, w1, w2, w3, w4⟩ := k2 msg rfl
            have hmid : msg.id = mid := by
              rw [← (w1.mem w3).2.1, hfrom.id]
            have hall := fun f hf => FragmentOf.reply_of hgood hids he' hr' (w4 f hf) (by rw [(w1.mem hf).2.1, hmid])
            obtain ⟨-, a2, -⟩ := mixed_assemble w1 hall
            rw [← w2] at a2
            obtain ⟨i2, d2, mid2, l2, n2, t1, t2⟩ := hto
            rw [hr1] at t1
            cases t1
            refine ⟨e, he, e', he', rfl, i1, d1, l1, n1, hr1, t2, surbs, mid, ?_, x, hx, hsurb⟩
            show e'.reply = some (surbs, mid, msg.data)
            rw [a2]; exact hr'


/-! ### The other calls -/

theorem status_queued {st : SessionStatus} (h : StatusCase m st m') (p : AddressedPacket) (hq : Queued m' p) : Queued m p := by
  obtain ⟨rel, s, h1, h2⟩ := hq
  cases h with
  | same => exact ⟨rel, s, h1, h2⟩
  | phase => exact ⟨rel, s, dropPrev_full h1, h2⟩
  | shift =>
    obtain ⟨-, -, h3⟩ := Node.shift_full (dropPrev_full h1)
    exact ⟨.current, s, h3, h2⟩

theorem status_other {st : SessionStatus} (h : StatusCase m st m') : m'.forwardPacketQueue = m.forwardPacketQueue ∧
    m'.fragmentAssembler = m.fragmentAssembler ∧ m'.surbKeystore = m.surbKeystore := by
  cases h <;> exact ⟨rfl, rfl, rfl⟩

theorem set_disabled_queued {rel : RelSessionIndex} (hm : m'.sessions = m.sessions.set rel .disabled) (p : AddressedPacket)
    (h : Queued m' p) : Queued m p := by
  obtain ⟨rel', s', h1, h2⟩ := h
  rw [hm] at h1
  by_cases hr : rel' = rel
  · subst hr; rw [get_set_self] at h1; cases h1
  · rw [get_set_ne _ hr] at h1; exact ⟨rel', s', h1, h2⟩

theorem set_queued {rng rel answer b} (h : SetCase C m rng rel answer m' b) (p : AddressedPacket) (hq : Queued m' p) :
    Queued m p := by
  cases h with
  | skip => exact hq
  | permanent => exact set_disabled_queued rfl p hq
  | transient => exact hq
  | notWanted => exact set_disabled_queued rfl p hq
  | set =>
    rcases queued_set rfl hq with h | h
    · cases h
    · exact h

theorem set_other {rng rel answer b} (h : SetCase C m rng rel answer m' b) : m'.forwardPacketQueue = m.forwardPacketQueue ∧
    m'.fragmentAssembler = m.fragmentAssembler ∧ m'.surbKeystore = m.surbKeystore := by
  cases h <;> exact ⟨rfl, rfl, rfl⟩

/-- What is in the queues after a reply was posted, or tried to. -/
theorem reply_queued {surbs surbs' : List Surb} {i : Nat} {mid : MessageId} {data : Scattered Byte} {r}
    (hw : (Call.postReply surbs i mid data).WellTyped) (h : ReplyCase C m surbs i mid data m' surbs' r) :
    (m'.forwardPacketQueue = m.forwardPacketQueue ∧ m'.fragmentAssembler = m.fragmentAssembler ∧
      m'.surbKeystore = m.surbKeystore) ∧
    ∀ p, Queued m' p → Queued m p ∨ ∃ t f surb, surb ∈ surbs ∧ FromPost mid data.toVec 0 f ∧ ReplyBuilt C t f surb p := by
  have built : ∀ {t : Topology} {fs : List Fragment} {used : List Surb} {ps : List AddressedPacket},
      RepliesBuilt C t fs used ps → ∀ p ∈ ps, ∃ f ∈ fs, ∃ surb ∈ used, ReplyBuilt C t f surb p := by
    intro t fs used ps h
    induction h with
    | nil => intro p hp; cases hp
    | cons h1 _ ih =>
      intro p hp
      rcases List.mem_cons.1 hp with rfl | hp
      · exact ⟨_, List.mem_cons_self, _, List.mem_cons_self, h1⟩
      · obtain ⟨f, hf, surb, hs, hb⟩ := ih p hp
        exact ⟨f, List.mem_cons_of_mem _ hf, surb, List.mem_cons_of_mem _ hs, hb⟩
  have made : ∀ {t : Topology} {bps done left : List FragmentBlueprint} {used : List Surb} {ps : List AddressedPacket},
      fragmentBlueprints mid data 0 = .ok (some bps) → bps = done ++ left → (∀ s ∈ used, s ∈ surbs) →
      RepliesMade C t done used ps → ∀ p ∈ ps, ∃ f surb, surb ∈ surbs ∧ FromPost mid data.toVec 0 f ∧ ReplyBuilt C t f surb p := by
    intro t bps done left used ps h1 h2 h3 h4 p hp
    obtain ⟨b1, fs, b2, b3, b4, b5⟩ := sent_blueprints hw.2.1 (Denotes.of_wf hw.2.2) h1
    obtain ⟨fs', g1, g2⟩ := replies_built h4 (fun s hs => hw.1 s (h3 s hs))
      (fun bp hbp => b1 bp (by rw [h2]; exact List.mem_append_left _ hbp))
    subst h2
    rw [writeFragments_append b4] at g1
    cases g1
    obtain ⟨f, hf, surb, hs, hb⟩ := built g2 p hp
    exact ⟨f, surb, h3 surb hs, ⟨[], fs, hw.2.1, rfl, fun s h => (by cases h), b2, b5, List.mem_of_mem_take hf⟩, hb⟩
  cases h with
  | tooMany => exact ⟨⟨rfl, rfl, rfl⟩, fun p hp => .inl hp⟩
  | noSession => exact ⟨⟨rfl, rfl, rfl⟩, fun p hp => .inl hp⟩
  | noSpace => exact ⟨⟨rfl, rfl, rfl⟩, fun p hp => .inl hp⟩
  | failed bps rel s _ used ps e done bp left bad h1 h2 h3 h4 h5 h6 h7 h8 h9 =>
    refine ⟨⟨rfl, rfl, rfl⟩, fun p hp => ?_⟩
    rcases queued_set rfl hp with h | h
    · rcases List.mem_append.1 h with h | h
      · exact .inl ⟨rel, s, (postSession_ok h3).2.2, h⟩
      · obtain ⟨f, surb, g⟩ := made h1 h5 (fun s hs => by rw [h6]; simp [hs]) h7 p h
        exact .inr ⟨_, f, surb, g⟩
    · exact .inl h
  | posted bps rel s _ used ps h1 h2 h3 h4 h5 h6 h7 =>
    refine ⟨⟨rfl, rfl, rfl⟩, fun p hp => ?_⟩
    rcases queued_set rfl hp with h | h
    · rcases List.mem_append.1 h with h | h
      · exact .inl ⟨rel, s, (postSession_ok h3).2.2, h⟩
      · obtain ⟨f, surb, g⟩ := made h1 (left := []) (by simp) (fun s hs => by rw [h5]; simp [hs]) h6 p h
        exact .inr ⟨_, f, surb, g⟩
    · exact .inl h

/-- The packets an event sends. -/
def Spec.Event.sent (e : Event C) : List Bytes :=
  match e.out with
  | .forwardPacket (some p) => [p.packet]
  | .authoredPacket (some p) => [p.packet]
  | _ => []

theorem sentPackets_eq (es : List (Event C)) : sentPackets es = es.flatMap Event.sent := by
  unfold sentPackets
  congr 1

/-- What an event hands to the application was caused. -/
structure Spec.Event.Caused (L : Layout C) (es : List (Event C)) (e : Event C) : Prop where
  request : ∀ r, e.out = .message (some (.request r)) → RequestCaused L es e.machine r
  reply : ∀ r, e.out = .message (some (.reply r)) → ReplyCaused L es e.machine r

theorem requestTo_mem {e : Event C} {i d mid l n} (hr : e.request = some (i, d, mid, l, n)) : e.RequestTo L (L.host i d) :=
  ⟨i, d, mid, l, n, hr, rfl⟩

/-- An event that is no posted request. -/
theorem good_nothing {e : Event C} (hp : e.packets = []) (hr : e.request = none) : Event.Good L e := by
  have hs : e.surbs = [] := by unfold Event.surbs; rw [hp]; rfl
  refine ⟨fun _ => hp, fun i d mid l n h => ?_, fun x hx => ?_⟩
  · rw [hr] at h; cases h
  · rw [hs] at hx; cases hx

theorem lessMono {es' : List (Event C)} (hs : ∀ e ∈ es, e ∈ es') (h : NodeSound L es j m)
    (h1 : ∀ p, Queued m' p → Queued m p) (h2 : ∀ p ∈ m'.forwardPacketQueue.queue, p ∈ m.forwardPacketQueue.queue)
    (h3 : m'.fragmentAssembler = m.fragmentAssembler) (h4 : ∀ y ∈ m'.surbKeystore.surbs, y ∈ m.surbKeystore.surbs) :
    NodeSound L es' j m' := (h.less h1 h2 h3 h4).mono hs

theorem step_sound (hC : CryptoLaws C) {config : Config} (hreach : Node.Reachable C config m) (hk : config.numHops ≤ 6)
    (hgood : ∀ e ∈ es, Event.Good L e) (hids : IdsMean es) (hdiff : SurbsDiffer es)
    (hone : OpenedByOne L es) (hsent : ∀ p ∈ sentPackets es, Genuine L es p)
    (hsurbs : ∀ s ∈ deliveredSurbs j es, SurbFor L es j s) (e : Event C) (hj : e.machine = j)
    (ha : Agrees L j m) (hn : NodeSound L es j m) (hw : e.call.WellTyped) (hal : Allowed es j e.call)
    (h : m.step C e.call = .ok (m', e.out)) (hrec : e.Records m m') :
    Event.Good L e ∧ NodeSound L (es ++ [e]) j m' ∧ (∀ p ∈ e.sent, Genuine L es p) ∧ e.Caused L es := by
  obtain ⟨hI, rfl⟩ := hreach.inv hC
  have hmono : ∀ e' ∈ es, e' ∈ es ++ [e] := fun e' h => List.mem_append_left _ h
  obtain ⟨j', call, out, packets⟩ := e
  dsimp only at hj hw hal h
  subst hj
  have hc := Node.step_cases hC hI hw h
  cases hc with
  | status st =>
    have hst := setSessionStatus_cases m st
    obtain ⟨o1, o2, o3⟩ := status_other hst
    exact ⟨good_nothing hrec rfl, lessMono hmono hn (status_queued hst) (by rw [o1]; exact fun p h => h) o2
      (by rw [o3]; exact fun p h => h), fun p h => (by cases h), ⟨fun r h => (by cases h), fun r h => (by cases h)⟩⟩
  | mixnodes rel answer rng _ b hset =>
    obtain ⟨o1, o2, o3⟩ := set_other hset
    exact ⟨good_nothing hrec rfl, lessMono hmono hn (set_queued hset) (by rw [o1]; exact fun p h => h) o2
      (by rw [o3]; exact fun p h => h), fun p h => (by cases h), ⟨fun r h => (by cases h), fun r h => (by cases h)⟩⟩
  | nextKx rng =>
    have hm : ∃ k, (m.nextKxPublic C rng).1 = { m with nextKxPair := k } := by
      unfold Node.nextKxPublic
      split
      · exact ⟨m.nextKxPair, rfl⟩
      · exact ⟨_, rfl⟩

    obtain ⟨k, hm⟩ := hm
    rw [hm]
    exact ⟨good_nothing hrec rfl, lessMono hmono hn (fun p h => h) (fun p h => h) rfl (fun p h => h),
      fun p h => (by cases h), ⟨fun r h => (by cases h), fun r h => (by cases h)⟩⟩
  | handle now packet _ msg hh =>
    obtain ⟨g1, g2, g3⟩ := handle_sound hC hI ha hgood hids hdiff hn (hone packet hal) hal (hsent packet hal) hh
    refine ⟨good_nothing hrec rfl, g1.mono hmono, fun p h => (by cases h), ⟨fun r h => g2 r ?_, fun r h => g3 r ?_⟩⟩
    · simpa using h
    · simpa using h
  | popForward tie =>
    have hsp := ForwardPacketQueue.pop_spec m.forwardPacketQueue tie
    have hm : (m.popNextForwardPacket tie) = ({ m with
      events := { m.events with nextForwardPacketDeadlineChanged := true }
      forwardPacketQueue := (m.forwardPacketQueue.pop tie).2 }, (m.forwardPacketQueue.pop tie).1) := rfl
    clear h
    rcases hsp with ⟨-, hq⟩ | ⟨p, hp, -, hq⟩
    · rw [hq] at hm
      dsimp only at hm
      generalize m.popNextForwardPacket tie = pp at hm hrec hmono ⊢
      subst hm
      exact ⟨good_nothing hrec rfl, lessMono hmono hn (fun p h => h) (fun p h => h) rfl (fun p h => h),
        fun p h => (by cases h), ⟨fun r h => (by cases h), fun r h => (by cases h)⟩⟩
    · rw [hq] at hm
      dsimp only at hm
      generalize m.popNextForwardPacket tie = pp at hm hrec hmono ⊢
      subst hm
      refine ⟨good_nothing hrec rfl, lessMono hmono hn (fun p h => h) (fun p h => List.mem_of_mem_erase h) rfl (fun p h => h),
        fun q h => ?_, ⟨fun r h => (by cases h), fun r h => (by cases h)⟩⟩
      have : q = p.packet.packet := by simpa [Event.sent] using h
      rw [this]
      exact hn.forward p hp
  | popAuthored rng ns _ p hp =>
    cases hp with
    | idle => 
      exact ⟨good_nothing hrec rfl, hn.mono hmono,
        fun p h => (by cases h), ⟨fun r h => (by cases h), fun r h => (by cases h)⟩⟩
    | queued rel s rng1 rng2 p rest h1 h2 h3 h4 h5 =>
      refine ⟨good_nothing hrec rfl, lessMono hmono hn (fun q hq => ?_) (fun p h => h) rfl (fun p h => h),
        fun q h => ?_, ⟨fun r h => (by cases h), fun r h => (by cases h)⟩⟩
      · refine queued_same h3 (fun q h => ?_) rfl q hq
        rw [h5]; exact List.mem_cons_of_mem _ h
      · have : q = p.packet := by simpa [Event.sent] using h
        rw [this]
        exact hn.queued p ⟨rel, s, h3, by rw [h5]; exact List.mem_cons_self⟩
    | cover rel s rng1 isLoop rng2 _ h1 h2 h3 h4 h5 =>
      refine ⟨good_nothing hrec rfl, lessMono hmono hn (fun q hq => hq) (fun p h => h) rfl (fun p h => h),
        fun q h => ?_, ⟨fun r h => (by cases h), fun r h => (by cases h)⟩⟩
      cases p with
      | none => cases h
      | some p =>
        have : q = p.packet := by simpa [Event.sent] using h
        rw [this]
        obtain ⟨-, hb⟩ := coverBuilt hI h3 h5
        obtain ⟨i, -, hs⟩ := sessionAt_of_slot hI h3
        obtain ⟨last, ho⟩ := cover_onWay hC hI ha hs hw hk hb
        exact ⟨i, last, _, _, .cover i last _, .here, ho⟩
  | post rng i d mid data n ns _ d' r hp =>
    cases r with
    | error err =>
      obtain ⟨rfl, rfl⟩ := request_refused hC hreach hk hw h
      refine ⟨good_nothing hrec ?_, hn.mono hmono, fun p h => (by cases h), ⟨fun r h => (by cases h), fun r h => (by cases h)⟩⟩
      unfold Event.request
      cases d' <;> rfl
    | ok met =>
      obtain ⟨s, dest, hp⟩ := hrec
      dsimp only at hp
      obtain rfl := hp.destination.1
      have hsl : ∀ p ∈ packets, ∀ x ∈ p.surbs, x.surb.length = 222 := by
        intro p hp1 x hx
        obtain ⟨-, -, old, r, r', ho, hb⟩ := (hp.built p hp1).surbs x hx
        exact buildSurb_length hC ho hb
      have hreq : (⟨j', .postRequest rng i d mid data n ns, .posted (some dest) (.ok met), packets⟩ : Event C).request =
          some (i, dest, mid, data.toVec, n) := rfl
      refine ⟨⟨fun h => (by rw [hreq] at h; cases h), ?_, ?_⟩, ?_, fun p h => (by cases h), ⟨fun r h => (by cases h), fun r h => (by cases h)⟩⟩
      · intro i1 d1 mid1 l1 n1 h1
        rw [hreq] at h1
        cases h1
        refine ⟨hw.2.1, hp.surbCount, ?_, hp.fragments, hp.bytes, fun p hp1 => (hp.built p hp1).carries⟩
        intro x hx
        obtain ⟨p, hp1, hx⟩ := List.mem_flatMap.1 hx
        exact hsl p hp1 x hx
      · intro x hx
        obtain ⟨p, hp1, hx⟩ := List.mem_flatMap.1 hx
        exact ⟨i, fun t f q hq => reply_onWay hC hI ha hp.session hw.2.2.2 hk hp.destination.2.1
          ((hp.built p hp1).surbs x hx) hq⟩
      · have haft := hp.after
        obtain ⟨rel, hrel, hslot⟩ := Node.sessionAt_eq.1 hp.session
        rw [withSession_eq hrel] at haft
        rw [haft]
        refine ⟨fun q hq => ?_, fun q hq => (hn.forward q hq).mono hmono, fun f hf => (hn.stored f hf).mono hmono, ?_⟩
        · rcases queued_set rfl hq with h | h
          · rcases List.mem_append.1 h with h | h
            · exact (hn.queued q ⟨rel, s, hslot, h⟩).mono hmono
            · obtain ⟨p, hp1, rfl⟩ := List.mem_map.1 h
              exact ⟨i, L.host i dest, _, _, .request (List.mem_append_right _ List.mem_cons_self) hreq hp1, .here,
                request_onWay hC hI ha hp.session hw.2.2.2 hk hp.destination.2.1 (hp.built p hp1)⟩
          · exact (hn.queued q h).mono hmono
        · intro y hy
          rcases List.mem_append.1 (List.mem_of_mem_drop hy) with h | h
          · obtain ⟨e, he, h⟩ := hn.keys y h
            exact ⟨e, hmono e he, h⟩
          · obtain ⟨x, hx, rfl⟩ := List.mem_map.1 h
            exact ⟨_, List.mem_append_right _ List.mem_cons_self, rfl, x, hx, _, _, _, _, _, hreq, rfl⟩
  | reply surbs i mid data _ surbs' r hp =>
    obtain ⟨⟨o1, o2, o3⟩, hq⟩ := reply_queued hw hp
    refine ⟨good_nothing hrec rfl, ⟨fun p h => ?_, fun p h => ?_, fun f h => ?_, fun y h => ?_⟩, fun p h => (by cases h),
      ⟨fun r h => (by cases h), fun r h => (by cases h)⟩⟩
    · rcases hq p h with h | ⟨t, f, surb, h1, h2, h3⟩
      · exact (hn.queued p h).mono hmono
      · obtain ⟨e, he, x, hx, rfl, hto⟩ := hsurbs surb (hal surb h1)
        obtain ⟨i', hway⟩ := (hgood e he).surbs x hx
        exact ⟨i', _, _, _, .reply i' _ ⟨hmono e he, hx, _, List.mem_append_right _ List.mem_cons_self, surbs, mid, data.toVec, rfl, h1,
          hto, h2⟩, .here, hway t f p h3⟩
    · rw [o1] at h; exact (hn.forward p h).mono hmono
    · rw [o2] at h; exact (hn.stored f h).mono hmono
    · rw [o3] at h
      obtain ⟨e, he, h⟩ := hn.keys y h
      exact ⟨e, hmono e he, h⟩
  | take =>
    exact ⟨good_nothing hrec rfl, lessMono hmono hn (fun p h => h) (fun p h => h) rfl (fun p h => h),
      fun p h => (by cases h), ⟨fun r h => (by cases h), fun r h => (by cases h)⟩⟩

end Mixnet
