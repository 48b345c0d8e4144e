import Verif.Props.Posting
import Verif.Props.Queues
import Verif.Spec.Surbs
/-!
# C16, C17: SURBs answer once; the keys of the newest ones are kept
-/
namespace Mixnet.Props
open Mixnet Spec

/-- What a call does to the SURBs of a node. -/
inductive SurbStep (C : Crypto) (m : Node) : Call → Outcome → Node → List SurbEvent → Prop
  /-- a request is posted: its SURBs are created, those really put into the packets -/
  | posted {rng i d mid data l n ns m' d' met s dest packets} : Denotes data l →
      PostedRequest C m i d mid l n ns m' d' met s dest packets →
      SurbStep C m (.postRequest rng i d mid data n ns) (.posted d' (.ok met)) m'
        ((packets.flatMap (·.surbs)).map fun x => .created x.id x.keys mid)
  /-- a reply with a SURB that is remembered is handled -/
  | used {now packet rel s out id v m' msg} : Accepts C m packet rel s out (.deliverReply id) →
      (id, v) ∈ m.surbKeystore.surbs → SurbStep C m (.handlePacket now packet) (.message msg) m' [.used id]
  /-- anything else -/
  | nothing {call out m'} :
      (∀ rng i d mid data n ns, call ≠ .postRequest rng i d mid data n ns ∨
        ∃ e, out = .posted d (.error e)) →
      (∀ now packet rel s o id v, call = .handlePacket now packet → Accepts C m packet rel s o (.deliverReply id) →
        (id, v) ∉ m.surbKeystore.surbs) →
      SurbStep C m call out m' []

/-- A history, with what happens to the SURBs of the node. -/
inductive SurbLog (C : Crypto) : Node → List Call → List Outcome → Node → List SurbEvent → Prop
  | nil m : SurbLog C m [] [] m []
  | cons {m call m' out calls outs m'' evs evs'} : m.step C call = .ok (m', out) → SurbStep C m call out m' evs →
      SurbLog C m' calls outs m'' evs' → SurbLog C m (call :: calls) (out :: outs) m'' (evs ++ evs')

/-! ### The specification -/

theorem remembered_append (cap : Nat) (a b : List SurbEvent) (st) :
    remembered cap (a ++ b) st = remembered cap b (remembered cap a st) := List.foldl_append

theorem creations_append (a b : List SurbEvent) : creations (a ++ b) = creations a + creations b := by
  induction a with
  | nil => simp [creations]
  | cons e a ih => cases e <;> simp only [List.cons_append, creations, ih] <;> omega

theorem lastN_length_le {α} (n : Nat) (l : List α) : (lastN n l).length ≤ n := by
  unfold lastN; rw [List.length_drop]; omega

theorem lastN_of_le {α} {n : Nat} {l : List α} (h : l.length ≤ n) : lastN n l = l := by
  unfold lastN; rw [show l.length - n = 0 from by omega]; rfl

theorem remembered_created (cap : Nat) (mid : MessageId) (xs : List (SurbId × List Bytes)) (st : List (SurbId × SurbValue))
    (h : st.length ≤ cap) :
    remembered cap (xs.map fun x => .created x.1 x.2 mid) st = lastN cap (st ++ xs.map fun x => (x.1, ⟨x.2, mid⟩)) := by
  induction xs generalizing st with
  | nil => rw [List.map_nil, List.map_nil, List.append_nil, lastN_of_le h]; rfl
  | cons x xs ih =>
    rw [List.map_cons, remembered, List.foldl_cons]
    have := ih (remember cap st (.created x.1 x.2 mid)) (lastN_length_le _ _)
    rw [remembered] at this
    rw [this, remember, lastN_append, List.append_assoc]
    rfl

theorem remembered_length (cap : Nat) (evs : List SurbEvent) (st : List (SurbId × SurbValue)) (h : st.length ≤ cap) :
    (remembered cap evs st).length ≤ cap := by
  induction evs generalizing st with
  | nil => exact h
  | cons e evs ih =>
    rw [remembered, List.foldl_cons]
    apply ih
    cases e with
    | created => exact lastN_length_le _ _
    | used => exact (List.length_filter_le ..).trans h

/-- What is remembered was there before or was created. -/
theorem remembered_from {cap : Nat} {id : SurbId} {v : SurbValue} : ∀ {evs : List SurbEvent} {st : List (SurbId × SurbValue)},
    (id, v) ∈ remembered cap evs st →
    ((id, v) ∈ st ∧ .used id ∉ evs) ∨
      ∃ a b, evs = a ++ .created id v.keys v.messageId :: b ∧ .used id ∉ b
  | [], st, h => .inl ⟨h, by simp⟩
  | e :: evs, st, h => by
    rw [remembered, List.foldl_cons] at h
    rcases remembered_from h with ⟨h1, h2⟩ | ⟨a, b, rfl, hb⟩
    · cases e with
      | created id' keys mid =>
        have := List.mem_of_mem_drop h1
        rcases List.mem_append.1 this with hm | hm
        · exact .inl ⟨hm, by simpa using h2⟩
        · rw [List.mem_singleton] at hm
          cases hm
          exact .inr ⟨[], evs, rfl, h2⟩
      | used id' =>
        have hm := List.mem_filter.1 h1
        refine .inl ⟨hm.1, ?_⟩
        have : id ≠ id' := by simpa using hm.2
        rw [List.mem_cons, not_or]
        exact ⟨by rintro ⟨⟩; exact this rfl, h2⟩
    · exact .inr ⟨e :: a, b, rfl, hb⟩

/-- A SURB stays remembered until it is used or as many as the capacity are created after it. -/
theorem remembered_stays {cap : Nat} {e : SurbId × SurbValue} : ∀ {evs : List SurbEvent} {pre post : List (SurbId × SurbValue)},
    .used e.1 ∉ evs → post.length + creations evs < cap → e ∈ remembered cap evs (pre ++ e :: post)
  | [], pre, post, _, _ => by simp [remembered]
  | ev :: evs, pre, post, hu, hc => by
    rw [remembered, List.foldl_cons]
    have hu' : .used e.1 ∉ evs := fun h => hu (List.mem_cons_of_mem _ h)
    cases ev with
    | created id keys mid =>
      simp only [creations] at hc
      have : lastN cap (pre ++ e :: post ++ [(id, ⟨keys, mid⟩)]) =
          (pre.drop (pre.length + post.length + 2 - cap)) ++ e :: (post ++ [(id, ⟨keys, mid⟩)]) := by
        unfold lastN
        rw [List.append_assoc, List.cons_append]
        rw [show (pre ++ e :: (post ++ [(id, (⟨keys, mid⟩ : SurbValue))])).length = pre.length + post.length + 2 from by
          simp; omega]
        rw [List.drop_append_of_le_length (by omega)]
      rw [remember, this]
      exact remembered_stays hu' (by simp; omega)
    | used id =>
      simp only [creations] at hc
      have hne : e.1 ≠ id := by rintro rfl; exact hu List.mem_cons_self
      have : (pre ++ e :: post).filter (fun e => e.1 ≠ id) =
          pre.filter (fun e => e.1 ≠ id) ++ e :: post.filter (fun e => e.1 ≠ id) := by
        rw [List.filter_append, List.filter_cons_of_pos (by simpa using hne)]
      rw [remember, this]
      refine remembered_stays hu' ?_
      have := List.length_filter_le (fun e : SurbId × SurbValue => decide (e.1 ≠ id)) post
      omega

/-! ### The node follows the specification -/

variable {C : Crypto} (hC : CryptoLaws C) {config : Config} {m m' : Node}
include hC

omit hC in
theorem mem_of_entry {k : SurbKeystore} {id : SurbId} {v : SurbValue} (h : k.entry id = some v) : (id, v) ∈ k.surbs :=
  LinkedMap.get?_some_mem h

omit hC in
theorem not_mem_of_entry {k : SurbKeystore} {id : SurbId} (h : k.entry id = none) (v : SurbValue) : (id, v) ∉ k.surbs := by
  intro hm
  exact LinkedMap.get?_eq_none.1 h (List.mem_map_of_mem (f := Prod.fst) hm)

omit hC in
theorem remove_eq (k : SurbKeystore) (id : SurbId) :
    (k.remove id).surbs = remembered k.capacity [.used id] k.surbs := by
  simp only [SurbKeystore.remove, LinkedMap.remove, remembered, List.foldl_cons, List.foldl_nil, remember]
  congr 1
  funext e
  by_cases h : e.1 = id <;> simp [h]

omit hC in
theorem entry_none_iff {k : SurbKeystore} {id : SurbId} : k.entry id = none ↔ ∀ v, (id, v) ∉ k.surbs := by
  constructor
  · exact not_mem_of_entry
  · intro h
    cases he : k.entry id with
    | none => rfl
    | some v => exact absurd (mem_of_entry he) (h v)

/-- One call: there is an account of what happened to SURBs, and the node remembers what it should. -/
theorem surb_step (hI : m.Inv C) (hk : m.config.numHops ≤ 6) {call : Call} {out : Outcome} (hw : call.WellTyped)
    (h : m.step C call = .ok (m', out)) :
    ∃ evs, SurbStep C m call out m' evs ∧ m'.surbKeystore.capacity = m.surbKeystore.capacity ∧
      m'.surbKeystore.surbs = remembered m.surbKeystore.capacity evs m.surbKeystore.surbs := by
  have hlen := hI.keystore.len
  have hc := Node.step_cases hC hI hw h
  have triv : m'.surbKeystore = m.surbKeystore →
      (∀ rng i d mid data n ns, call ≠ .postRequest rng i d mid data n ns ∨
        ∃ e, out = .posted d (.error e)) →
      (∀ now packet rel s o id v, call = .handlePacket now packet → Accepts C m packet rel s o (.deliverReply id) →
        (id, v) ∉ m.surbKeystore.surbs) →
      ∃ evs, SurbStep C m call out m' evs ∧ m'.surbKeystore.capacity = m.surbKeystore.capacity ∧
        m'.surbKeystore.surbs = remembered m.surbKeystore.capacity evs m.surbKeystore.surbs := by
    intro h1 h2 h3
    exact ⟨[], .nothing h2 h3, by rw [h1], by rw [h1]; rfl⟩
  cases hc with
  | status st =>
    refine triv ?_ (fun _ _ _ _ _ _ _ => .inl (by simp)) (fun _ _ _ _ _ _ _ h => (by cases h))
    unfold Node.setSessionStatus
    split
    · rfl
    · dsimp only; split <;> split <;> rfl
  | mixnodes rel answer rng m' b hc =>
    refine triv ?_ (fun _ _ _ _ _ _ _ => .inl (by simp)) (fun _ _ _ _ _ _ _ h => (by cases h))
    cases hc <;> rfl
  | nextKx rng =>
    refine triv ?_ (fun _ _ _ _ _ _ _ => .inl (by simp)) (fun _ _ _ _ _ _ _ h => (by cases h))
    unfold Node.nextKxPublic; split <;> rfl
  | popForward =>
    exact triv rfl (fun _ _ _ _ _ _ _ => .inl (by simp)) (fun _ _ _ _ _ _ _ h => (by cases h))
  | popAuthored rng ns m' p hc =>
    refine triv ?_ (fun _ _ _ _ _ _ _ => .inl (by simp)) (fun _ _ _ _ _ _ _ h => (by cases h))
    cases hc <;> rfl
  | take => exact triv rfl (fun _ _ _ _ _ _ _ => .inl (by simp)) (fun _ _ _ _ _ _ _ h => (by cases h))
  | reply surbs i mid data m' surbs' r hc =>
    refine triv ?_ (fun _ _ _ _ _ _ _ => .inl (by simp)) (fun _ _ _ _ _ _ _ h => (by cases h))
    cases hc <;> rfl
  | post rng i d mid data n ns m' d' r hc =>
    cases r with
    | ok met =>
      obtain ⟨s, dest, packets, hp, -⟩ := posted_of_case hC hI hk (Denotes.of_wf hw.2.2.1) hw.2.1 hw.2.2.2 hc
      refine ⟨_, .posted (Denotes.of_wf hw.2.2.1) hp, ?_, ?_⟩
      · rw [hp.after]
      · rw [hp.after]
        have := remembered_created m.surbKeystore.capacity mid
          ((packets.flatMap (·.surbs)).map fun x => (x.id, x.keys)) _ hlen
        rw [List.map_map, List.map_map] at this
        exact this.symm
    | error e =>
      generalize hr : (Except.error e : Except PostErr RequestMetrics) = r at hc
      have other : m' = m → d' = d → ∃ evs,
          SurbStep C m (.postRequest rng i d mid data n ns) (.posted d' (.error e)) m' evs ∧
          m'.surbKeystore.capacity = m.surbKeystore.capacity ∧
          m'.surbKeystore.surbs = remembered m.surbKeystore.capacity evs m.surbKeystore.surbs := by
        rintro rfl rfl
        refine ⟨[], .nothing ?_ (fun _ _ _ _ _ _ _ h => (by cases h)), rfl, rfl⟩
        intro rng' i' d2 mid' data' n' ns'
        by_cases he : d2 = d'
        · subst he; exact .inr ⟨e, rfl⟩
        · left; simp only [ne_eq, Call.postRequest.injEq]; rintro ⟨-, -, h, -⟩; exact he h.symm
      cases hc with
      | tooMany => cases hr; exact other rfl rfl
      | noSession => cases hr; exact other rfl rfl
      | noSpace => cases hr; exact other rfl rfl
      | noDestination => cases hr; exact other rfl rfl
      | posted => cases hr
      | failed bps rel s b rng1 acc e' h1 h2 h3 h4 h5 h6 =>
        cases hr
        obtain ⟨p1, -, p3⟩ := postSession_ok h3
        have hview := view_of_inv hI (Node.sessionAt_eq.2 ⟨rel, p1, p3⟩) (newBuilder h5).1
        refine other ?_ rfl
        rw [postFailed_first hk hview.wf.2.2 hw.2.2.1 h1 h6, (postFailed_none hk hview.wf.2.2 h6).1]
        have : m.sessions.set rel (.full { s with authoredPacketQueue := s.authoredPacketQueue }) = m.sessions :=
          sessions_set_self p3
        rw [this]
  | handle now packet m' msg hc =>
    cases hc with
    | ignored hno =>
      refine triv rfl (fun _ _ _ _ _ _ _ => .inl (by simp)) ?_
      intro now' packet' rel s o id v hcall hacc
      cases hcall
      exact absurd hacc (hno _ _ _ _)
    | accepted o a rel s m' msg ha he =>
      have key : m'.surbKeystore = m.surbKeystore → (∀ id v, a = .deliverReply id → (id, v) ∉ m.surbKeystore.surbs) →
          ∃ evs, SurbStep C m (.handlePacket now packet) (.message msg) m' evs ∧
          m'.surbKeystore.capacity = m.surbKeystore.capacity ∧
          m'.surbKeystore.surbs = remembered m.surbKeystore.capacity evs m.surbKeystore.surbs := by
        intro h1 h2
        refine triv h1 (fun _ _ _ _ _ _ _ => .inl (by simp)) ?_
        intro now' packet' rel' s' o' id v hcall hacc
        cases hcall
        have := (accepts_unique ha hacc).2.2.2
        exact h2 id v this
      cases he with
      | replyUnknown id h1 =>
        refine key rfl ?_
        intro id' v hid
        cases hid
        exact not_mem_of_entry h1 v
      | replyBad id v payload e h1 h2 =>
        exact ⟨_, .used ha (mem_of_entry h1), rfl, remove_eq _ _⟩
      | reply id v payload a o h1 h2 h3 h4 h5 =>
        exact ⟨_, .used ha (mem_of_entry h1), rfl, remove_eq _ _⟩
      | _ => exact key rfl (fun _ _ h => (by cases h))

theorem surb_runs (hk : config.numHops ≤ 6) {calls outs} (hr : Node.Runs C m calls outs m')
    (hw : ∀ c ∈ calls, c.WellTyped) (hI : m.Inv C) (hcfg : m.config = config) :
    ∃ evs, SurbLog C m calls outs m' evs ∧ m'.surbKeystore.capacity = m.surbKeystore.capacity ∧
      m'.surbKeystore.surbs = remembered m.surbKeystore.capacity evs m.surbKeystore.surbs := by
  induction hr with
  | nil m => exact ⟨[], .nil _, rfl, rfl⟩
  | @cons m call m1 out calls outs m2 hs _ ih =>
    have h1 := Node.inv_step hC hI (hw _ List.mem_cons_self) hs
    obtain ⟨evs, e1, e2, e3⟩ := surb_step hC hI (by rw [hcfg]; exact hk) (hw _ List.mem_cons_self) hs
    obtain ⟨evs', f1, f2, f3⟩ := ih (fun c hc => hw c (List.mem_cons_of_mem _ hc)) h1.1 (h1.2.trans hcfg)
    refine ⟨evs ++ evs', .cons hs e1 f1, f2.trans e2, ?_⟩
    rw [f3, remembered_append, e2, e3]

/-- **C17.** In every history the node remembers exactly the newest SURBs not yet used, as many as the
capacity. In particular: never more than the capacity; a SURB is remembered, with its keys and the id of
its request, unless it was used or at least `capacity` were created since; and what is remembered was
created and has not been used since. -/
theorem surbs_remembered (hk : config.numHops ≤ 6) {m₀ : Node} (hn : Node.new C config = .ok m₀) {calls outs}
    (hw : ∀ c ∈ calls, c.WellTyped) (hr : Node.Runs C m₀ calls outs m) :
    ∃ evs, SurbLog C m₀ calls outs m evs ∧
      m.surbKeystore.surbs = remembered config.surbKeystoreCapacity evs [] ∧
      m.surbKeystore.surbs.length ≤ config.surbKeystoreCapacity ∧
      (∀ a id keys mid b, evs = a ++ .created id keys mid :: b → .used id ∉ b → creations b < config.surbKeystoreCapacity →
        (id, ⟨keys, mid⟩) ∈ m.surbKeystore.surbs) ∧
      (∀ id v, (id, v) ∈ m.surbKeystore.surbs →
        ∃ a b, evs = a ++ .created id v.keys v.messageId :: b ∧ .used id ∉ b) := by
  obtain ⟨hI, hcfg⟩ := Node.inv_new hn
  have hnew : m₀.surbKeystore.surbs = [] ∧ m₀.surbKeystore.capacity = config.surbKeystoreCapacity := by
    unfold Node.new at hn
    simp only [res_bind_eq_ok] at hn
    obtain ⟨k, hk, hn⟩ := hn
    simp only [Except.ok.injEq] at hn
    subst hn
    unfold SurbKeystore.new at hk
    rw [res_bind_eq_ok] at hk
    obtain ⟨_, -, hk⟩ := hk
    simp only [Except.ok.injEq] at hk
    subst hk
    exact ⟨rfl, rfl⟩
  obtain ⟨evs, e1, e2, e3⟩ := surb_runs hC hk hr hw hI hcfg
  rw [hnew.1, hnew.2] at e3
  refine ⟨evs, e1, e3, ?_, ?_, ?_⟩
  · rw [e3]; exact remembered_length _ _ _ (by simp)
  · rintro a id keys mid b rfl hu hb
    rw [e3, remembered_append, remembered, List.foldl_cons]
    have hle : (remembered config.surbKeystoreCapacity a []).length ≤ config.surbKeystoreCapacity :=
      remembered_length _ _ _ (by simp)
    generalize remembered config.surbKeystoreCapacity a [] = st at hle
    have : remember config.surbKeystoreCapacity st (.created id keys mid) =
        st.drop (st.length + 1 - config.surbKeystoreCapacity) ++ [(id, ⟨keys, mid⟩)] := by
      rw [remember, lastN, List.length_append, List.length_singleton, List.drop_append_of_le_length (by omega)]
    rw [this]
    exact remembered_stays (e := (id, ⟨keys, mid⟩)) hu (by simpa using hb)
  · intro id v hm
    rw [e3] at hm
    rcases remembered_from hm with ⟨h, -⟩ | h
    · cases h
    · exact h

/-- **C16.** After a reply with some SURB id has been handled, whether it could be decrypted or not, another
reply with the same id does nothing, for as long as no new SURB happens to be created with the same id. -/
theorem surb_answers_once (hk : config.numHops ≤ 6) (hr : Node.Reachable C config m) {now packet rel s o id out}
    (hw : (Call.handlePacket now packet).WellTyped) (hacc : Accepts C m packet rel s o (.deliverReply id))
    (h : m.step C (.handlePacket now packet) = .ok (m', out)) {calls outs m''}
    (hws : ∀ c ∈ calls, c.WellTyped) (hruns : Node.Runs C m' calls outs m'') :
    ∃ evs, SurbLog C m' calls outs m'' evs ∧
      ((∀ keys mid, .created id keys mid ∉ evs) → ∀ now' packet' rel' s' o',
        (Call.handlePacket now' packet').WellTyped →
        Accepts C m'' packet' rel' s' o' (.deliverReply id) →
        m''.step C (.handlePacket now' packet') = .ok (m'', .message none)) := by
  obtain ⟨hI, hcfg⟩ := hr.inv hC
  have h1 := Node.inv_step hC hI hw h
  have hgone : ∀ v, (id, v) ∉ m'.surbKeystore.surbs := by
    have hc := Node.step_cases hC hI hw h
    generalize hcall : Call.handlePacket now packet = call at hc
    cases hc with
    | handle now' packet' m' msg hc =>
      cases hcall
      cases hc with
      | ignored hno => exact absurd hacc (hno _ _ _ _)
      | accepted o' a rel' s' m' msg ha he =>
        have := (accepts_unique hacc ha).2.2.2
        subst this
        have hrem : ∀ v, (id, v) ∉ (m.surbKeystore.remove id).surbs := by
          intro v hm
          have := (List.mem_filter.1 hm).2
          simp at this
        cases he with
        | replyUnknown _ hu => exact not_mem_of_entry hu
        | replyBad _ v payload e h1 h2 => exact hrem
        | reply _ v payload a o h1 h2 h3 h4 h5 => exact hrem
    | _ => cases hcall
  obtain ⟨evs, e1, e2, e3⟩ := surb_runs hC hk hruns hws h1.1 (h1.2.trans hcfg)
  refine ⟨evs, e1, fun hev now' packet' rel' s' o' hw' hacc' => ?_⟩
  have hI2 := Node.inv_runs hC hruns hws h1.1
  have hnone : m''.surbKeystore.entry id = none := by
    rw [entry_none_iff]
    intro v hm
    rw [e3] at hm
    rcases remembered_from hm with ⟨h, -⟩ | ⟨a, b, h, -⟩
    · exact hgone v h
    · exact hev _ _ (h ▸ List.mem_append_right _ List.mem_cons_self)
  rcases handlePacket_spec hC m'' now' hw' hI2.1.assembler hI2.1.index_of_full with
    ⟨hno, -⟩ | ⟨out2, a2, rel2, s2, m3, msg, ha, he, heq⟩
  · exact absurd hacc' (hno _ _ _ _)
  · have := (accepts_unique hacc' ha).2.2.2
    subst this
    show (m''.handlePacket C now' packet' >>= _) = _
    rw [heq]
    generalize hmm : m3 = m3' at he
    cases he with
    | replyUnknown => subst hmm; rfl
    | replyBad _ v payload e h1 h2 => rw [hnone] at h1; cases h1
    | reply _ v payload a o h1 h2 h3 h4 h5 => rw [hnone] at h1; cases h1

/-! ### The hypotheses can be met -/
section Examples
omit hC
open World

theorem alice1_reachable : Node.Reachable World.C (cfg 3) alice1 := alice_reachable.step toyLaws ask_typed ask_step

/-- Alice accepts the reply, with the id of her SURB. -/
theorem back_accepted : ∃ rel s o id v, Accepts World.C alice1 packet3.packet.packet rel s o (.deliverReply id) ∧
    (id, v) ∈ alice1.surbKeystore.surbs ∧ v.messageId = World.mid ∧ alice2.sessions = alice1.sessions := by
  obtain ⟨hI, -⟩ := alice1_reachable.inv toyLaws
  have h := back_step
  obtain ⟨r, hr, hmid, -⟩ := backOut_eq
  rw [hr] at h
  clear hr
  generalize alice2 = x at h ⊢
  have hc := Node.step_cases toyLaws hI back_typed h
  generalize hcall : back = call at hc
  generalize hout : Outcome.message (some (.reply r)) = out at hc
  cases hc with
  | handle now' packet' m' msg hc =>
    cases hcall; cases hout
    generalize hmsg : (some (Message.reply r)) = msg at hc
    cases hc with
    | ignored hno => cases hmsg
    | accepted o' a rel' s' m' msg ha he =>
      cases he with
      | reply id v payload a o h1 h2 h3 h4 h5 =>
        refine ⟨_, _, _, id, v, ha, mem_of_entry h1, ?_, rfl⟩
        cases o with
        | none => cases hmsg
        | some x => cases hmsg; exact hmid
      | request a o index h1 h2 h3 h4 => cases o <;> cases hmsg
      | _ => cases hmsg
  | _ => cases hcall

/-- The same reply again does nothing. -/
example : alice2.step World.C back = .ok (alice2, .message none) := by
  obtain ⟨rel, s, o, id, v, ha, -, -, hs⟩ := back_accepted
  obtain ⟨evs, hl, h⟩ := surb_answers_once toyLaws (by decide) alice1_reachable back_typed ha back_step
    (by simp) (.nil _)
  have hacc : Accepts World.C alice2 packet3.packet.packet rel s o (.deliverReply id) :=
    ⟨by rw [hs]; exact ha.slot, ha.fresh, ha.peels, fun h => by rw [hs]; exact ha.first h, ha.size⟩
  refine h ?_ _ _ _ _ _ back_typed hacc
  cases hl
  simp

/-- Before that, the SURB is remembered. -/
example : ∃ m₀ calls outs evs id keys, Node.new World.C (cfg 3) = .ok m₀ ∧ SurbLog World.C m₀ calls outs alice1 evs ∧
    .created id keys World.mid ∈ evs ∧ (id, ⟨keys, World.mid⟩) ∈ alice1.surbKeystore.surbs := by
  obtain ⟨rel, s, o, id, v, -, hm, hv, -⟩ := back_accepted
  obtain ⟨m0, calls, outs, hn, hw, hr⟩ := alice1_reachable
  obtain ⟨evs, e1, -, -, -, e5⟩ := surbs_remembered toyLaws (by decide) hn hw hr
  obtain ⟨a, b, he, -⟩ := e5 id v hm
  refine ⟨m0, calls, outs, evs, id, v.keys, hn, e1, ?_, ?_⟩
  · rw [he, ← hv]; exact List.mem_append_right _ List.mem_cons_self
  · rw [← hv]; exact hm

end Examples
end Mixnet.Props
