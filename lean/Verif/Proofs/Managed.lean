import Verif.Spec.Managed
import Verif.Proofs.SystemOn
import Verif.Props.EndToEnd
import Verif.Props.Surbs
import Verif.Props.Wire
/-!
# Lemmas for C82
-/
namespace Mixnet
open Spec Props

variable {R Ctx : Type} {C : Crypto} {T : RequestTrait R Ctx} {config : Config}

/-- A session that differs only in the packets added to its queue. -/
def Longer (s s' : Session) : Prop :=
  s'.topology = s.topology ∧ s'.kxPair = s.kxPair ∧
    ∃ added, s'.authoredPacketQueue.queue = s.authoredPacketQueue.queue ++ added

theorem Longer.refl (s : Session) : Longer s s := ⟨rfl, rfl, [], by simp⟩

theorem Longer.trans {a b c : Session} (h : Longer a b) (h' : Longer b c) : Longer a c := by
  obtain ⟨h1, h2, x, h3⟩ := h
  obtain ⟨h4, h5, y, h6⟩ := h'
  exact ⟨h4.trans h1, h5.trans h2, x ++ y, by rw [h6, h3, List.append_assoc]⟩

/-- The sessions of the two nodes are the same but for packets added. -/
def Grown (m m' : Node) : Prop :=
  (∀ i s, m.sessionAt i = some s → ∃ s', m'.sessionAt i = some s' ∧ Longer s s') ∧
    ∀ i s', m'.sessionAt i = some s' → ∃ s, m.sessionAt i = some s ∧ Longer s s'

theorem Grown.refl (m : Node) : Grown m m := ⟨fun _ s h => ⟨s, h, .refl s⟩, fun _ s h => ⟨s, h, .refl s⟩⟩

theorem Grown.trans {a b c : Node} (h : Grown a b) (h' : Grown b c) : Grown a c := by
  refine ⟨fun i s hs => ?_, fun i s hs => ?_⟩
  · obtain ⟨s1, h1, l1⟩ := h.1 i s hs
    obtain ⟨s2, h2, l2⟩ := h'.1 i s1 h1
    exact ⟨s2, h2, l1.trans l2⟩
  · obtain ⟨s1, h1, l1⟩ := h'.2 i s hs
    obtain ⟨s2, h2, l2⟩ := h.2 i s1 h1
    exact ⟨s2, h2, l2.trans l1⟩

theorem sessionAt_same {m m' : Node} (h1 : m'.sessionStatus = m.sessionStatus) (h2 : m'.sessions = m.sessions) (i : Nat) :
    m'.sessionAt i = m.sessionAt i := by
  unfold Node.sessionAt
  rw [h1, h2]

theorem has_same {m m' : Node} (h1 : m'.sessionStatus = m.sessionStatus) {rel : RelSessionIndex} {s t : Session}
    (hs : m.sessions.get rel = .full s) (h2 : m'.sessions = m.sessions.set rel (.full t)) (i : Nat) :
    (m'.sessionAt i).isSome = (m.sessionAt i).isSome := by
  rw [Bool.eq_iff_iff, Option.isSome_iff_exists, Option.isSome_iff_exists]
  simp only [Node.sessionAt_eq, h1, h2]
  constructor
  · rintro ⟨s', rel', a, b⟩
    by_cases hr : rel' = rel
    · subst hr; exact ⟨s, rel', a, hs⟩
    · rw [get_set_ne _ hr] at b; exact ⟨s', rel', a, b⟩
  · rintro ⟨s', rel', a, b⟩
    by_cases hr : rel' = rel
    · subst hr; exact ⟨t, rel', a, get_set_self ..⟩
    · exact ⟨s', rel', a, by rw [get_set_ne _ hr]; exact b⟩

theorem posts_has {m m' : Node} {call : Call} {out : Outcome} (hc : StepCase C m call m' out) (hp : Posts call) (i : Nat) :
    (m'.sessionAt i).isSome = (m.sessionAt i).isSome := by
  cases hc with
  | post rng j d mid data n ns m' d' r hcase =>
    cases hcase with
    | tooMany => rfl
    | noSession => rfl
    | noSpace => rfl
    | noDestination => rfl
    | failed bps rel0 s0 b rng1 acc e h1 h2 h3 h4 h5 hf => exact has_same (by rfl) (postSession_ok h3).2.2 (by rfl) i
    | posted bps rel s b rng1 acc infos met qd h1 h2 h3 => exact has_same (by rfl) (postSession_ok h3).2.2 (by rfl) i
  | reply surbs j mid data m' surbs' r hcase =>
    cases hcase with
    | tooMany => rfl
    | noSession => rfl
    | noSpace => rfl
    | failed bps rel s rest used ps e' done bp left bad h1 h2 h3 => exact has_same (by rfl) (postSession_ok h3).2.2 (by rfl) i
    | posted bps rel s rest used ps h1 h2 h3 => exact has_same (by rfl) (postSession_ok h3).2.2 (by rfl) i
  | _ => cases hp

theorem grown_step (hC : CryptoLaws C) (hk : config.numHops ≤ 6) {m m' : Node} (hr : Node.Reachable C config m)
    {call : Call} {out : Outcome} (hw : call.WellTyped) (hp : Posts call) (h : m.step C call = .ok (m', out)) : Grown m m' := by
  obtain ⟨hI, hcfg⟩ := hr.inv hC
  have hc := Node.step_cases hC hI hw h
  have key : ∀ i s s', m.sessionAt i = some s → m'.sessionAt i = some s' → Longer s s' := by
    intro i s s' h1 h2
    have hev := Node.kept_step hI (by rw [hcfg]; exact hk) hw hc h1 h2
    cases hev with
    | same => exact .refl _
    | seen => exact ⟨rfl, rfl, [], by simp [Session.seen]⟩
    | popped => cases hp
    | posted _ _ _ _ _ _ _ _ _ _ ps => exact ⟨rfl, rfl, ps, rfl⟩
    | replied _ _ _ _ _ _ _ ps => exact ⟨rfl, rfl, ps, rfl⟩
  have hh := posts_has hc hp
  refine ⟨fun i s hs => ?_, fun i s hs => ?_⟩
  · have := hh i
    rw [hs, Option.isSome_some] at this
    obtain ⟨s', hs'⟩ := Option.isSome_iff_exists.1 this
    exact ⟨s', hs', key i s s' hs hs'⟩
  · have := hh i
    rw [hs, Option.isSome_some] at this
    obtain ⟨s', hs'⟩ := Option.isSome_iff_exists.1 this.symm
    exact ⟨s', hs', key i s' s hs' hs⟩

theorem Spec.InQueue.grown {m m' : Node} (h : Grown m m') {i : Nat} {p : AddressedPacket} (hq : InQueue m i p) : InQueue m' i p := by
  obtain ⟨s, h1, h2⟩ := hq
  obtain ⟨s', h3, -, -, x, h4⟩ := h.1 i s h1
  exact ⟨s', h3, by rw [h4]; exact List.mem_append_left _ h2⟩

theorem Spec.KnowsNet.grown {net : Network C} {m m' : Node} (h : Grown m m') (hk : KnowsNet net m) : KnowsNet net m' := by
  intro s hs
  obtain ⟨s0, h1, h2, -⟩ := h.2 _ s hs
  rw [h2]
  exact hk s0 h1

/-- This many SURBs were added to the keystore, the oldest giving way. -/
def Adds (n n' : Node) (k : Nat) : Prop :=
  n'.surbKeystore.capacity = n.surbKeystore.capacity ∧ ∃ l, l.length = k ∧
    n'.surbKeystore.surbs = lastN n.surbKeystore.capacity (n.surbKeystore.surbs ++ l)

theorem Adds.refl {n : Node} (h : n.surbKeystore.surbs.length ≤ n.surbKeystore.capacity) : Adds n n 0 :=
  ⟨rfl, [], rfl, by rw [List.append_nil, lastN_of_le h]⟩

theorem lastN_lastN_append {α : Type} (c : Nat) (a b : List α) : lastN c (lastN c a ++ b) = lastN c (a ++ b) := by
  unfold lastN
  rw [List.drop_append, List.drop_append, List.drop_drop]
  simp only [List.length_append, List.length_drop]
  congr 2 <;> omega

theorem Adds.trans {a b c : Node} {j k : Nat} (h : Adds a b j) (h' : Adds b c k) : Adds a c (j + k) := by
  obtain ⟨h1, l, h2, h3⟩ := h
  obtain ⟨h4, l', h5, h6⟩ := h'
  refine ⟨h4.trans h1, l ++ l', by rw [List.length_append, h2, h5], ?_⟩
  rw [h6, h3, h1, lastN_lastN_append, List.append_assoc]

/-- The SURBs made for a post. -/
def madeBy (k : Nat) : Except PostErr RequestMetrics → Nat
  | .ok _ => k
  | .error _ => 0

/-- What posting adds to the keystore. -/
theorem adds_post (hC : CryptoLaws C) (hk : config.numHops ≤ 6) {n n' : Node} (hr : Node.Reachable C config n) {rng i d mid data k ns d' res}
    (hw : (Call.postRequest rng i d mid data k ns).WellTyped)
    (h : n.step C (.postRequest rng i d mid data k ns) = .ok (n', .posted d' res)) :
    Adds n n' (madeBy k res) := by
  obtain ⟨hI, hcfg⟩ := hr.inv hC
  obtain ⟨evs, e1, e2, e3⟩ := surb_step hC hI (by rw [hcfg]; exact hk) hw h
  refine ⟨e2, ?_⟩
  generalize ho : Outcome.posted d' res = out at e1
  cases e1 with
  | posted hd hp =>
    cases ho
    refine ⟨_, ?_, by rw [hp.after]⟩
    rw [List.length_map]; exact hp.surbCount
  | nothing h1 _ =>
    subst ho
    rcases h1 rng i d mid data k ns with h1 | ⟨e, he⟩
    · exact absurd rfl h1
    · cases he
      exact ⟨[], rfl, by rw [e3, List.append_nil, lastN_of_le hI.keystore.len]; rfl⟩

theorem surbsMade_append {ctx : Ctx} : ∀ (a b : List (LogEntry R)), surbsMade T ctx (a ++ b) = surbsMade T ctx a + surbsMade T ctx b
  | [], b => by simp [surbsMade]
  | x :: a, b => by
    have := surbsMade_append (ctx := ctx) a b
    rw [List.cons_append]
    cases x with
    | post r i d mid d' res => cases res <;> simp only [surbsMade] <;> omega
    | _ => exact this

/-- A call of `post_request` in the log of a manager, with the node as it was before and after. -/
theorem feeds_split (hC : CryptoLaws C) (hk : config.numHops ≤ 6) {ns : NetworkStatus} {ctx : Ctx} {n n' : Node}
    {log : List (LogEntry R)} (h : Feeds C T ns ctx n log n') (hr : Node.Reachable C config n) :
    Node.Reachable C config n' ∧ Grown n n' ∧
    ∀ r i d mid d' res, .post r i d mid d' res ∈ log → ∃ n1 n2 rng now res', Node.Reachable C config n1 ∧ Grown n n1 ∧ Grown n2 n' ∧
      (∃ k, Adds n2 n' k ∧ ∀ met, res' = .ok met → T.numSurbs r ctx + k ≤ surbsMade T ctx log) ∧
      res = res'.map (fun met => ⟨met, T.handlingDelay r mid ctx, now⟩) ∧
      (Call.postRequest rng i d mid (T.data r ctx) (T.numSurbs r ctx) ns).WellTyped ∧
      n1.step C (.postRequest rng i d mid (T.data r ctx) (T.numSurbs r ctx) ns) = .ok (n2, .posted d' res') := by
  induction h with
  | nil => exact ⟨hr, .refl _, fun r i d mid d' res h => by cases h⟩
  | @post log n1 rng i d mid r d' res n' now hf hw hp ih =>
    obtain ⟨r1, g1, ih⟩ := ih
    have hmade : surbsMade T ctx (log ++ [.post r i d mid d' (res.map fun met => ⟨met, T.handlingDelay r mid ctx, now⟩)]) =
        surbsMade T ctx log + madeBy (T.numSurbs r ctx) res := by
      rw [surbsMade_append]
      cases res <;> simp [surbsMade, Except.map, madeBy]
    have hst : n1.step C (.postRequest rng i d mid (T.data r ctx) (T.numSurbs r ctx) ns) = .ok (n', .posted d' res) := by
      show (n1.postRequest C _ _ _ _ _ _ _ >>= _) = _
      rw [hp]; rfl
    have g2 := grown_step hC hk r1 hw trivial hst
    have ha := adds_post hC hk r1 hw hst
    refine ⟨r1.step hC hw hst, g1.trans g2, ?_⟩
    intro r' i' d1 mid' d2 res' hm
    rcases List.mem_append.1 hm with hm | hm
    · obtain ⟨a, b, x, y, z, h1, h2, h3, ⟨k, h5, h6⟩, h4⟩ := ih _ _ _ _ _ _ hm
      refine ⟨a, b, x, y, z, h1, h2, h3.trans g2, ⟨_, h5.trans ha, fun met he => ?_⟩, h4⟩
      have := h6 met he
      rw [hmade]
      omega
    · rw [List.mem_singleton] at hm
      cases hm
      refine ⟨n1, n', rng, now, res, r1, g1, .refl _, ⟨0, .refl ?_, fun met he => ?_⟩, rfl, hw, hst⟩
      · exact ((r1.step hC hw hst).inv hC).1.keystore.len
      · subst he
        rw [hmade, Nat.add_zero]
        exact Nat.le_add_left ..
  | @other log n1 x hf hx ih =>
    obtain ⟨r1, g1, ih⟩ := ih
    refine ⟨r1, g1, ?_⟩
    intro r' i' d1 mid' d2 res' hm
    rcases List.mem_append.1 hm with hm | hm
    · obtain ⟨a, b, x, y, z, h1, h2, h3, ⟨k, h5, h6⟩, h4⟩ := ih _ _ _ _ _ _ hm
      refine ⟨a, b, x, y, z, h1, h2, h3, ⟨k, h5, fun met he => ?_⟩, h4⟩
      rw [surbsMade_append]
      exact Nat.le_trans (h6 met he) (Nat.le_add_right ..)
    · rw [List.mem_singleton] at hm
      exact absurd hm.symm (hx _ _ _ _ _ _)

/-- The copies of a reply, with the node as it was before and after each; the SURBs of a copy are the first ones. -/
theorem copies_split (hC : CryptoLaws C) (hk : config.numHops ≤ 6) {reply : Reply} (hid : reply.messageId.length = 16) :
    ∀ {k : Nat} {ctx ctx' : ReplyContext} {n n' : Node} {log : List ReplyPost}, Node.Reachable C config n →
    (∀ s ∈ ctx.surbs, s.length = SURB_SIZE) → ReplyContext.postReply C reply k ctx n = .ok (ctx', n', log) →
    Node.Reachable C config n' ∧ Grown n n' ∧
    ∀ x ∈ log, x.reply = reply ∧ x.session = ctx.sessionIndex ∧ x.request = ctx.messageId ∧ x.surbs <+: ctx.surbs ∧
      ∃ n1 n2, Node.Reachable C config n1 ∧ Grown n n1 ∧ Grown n2 n' ∧
      (Call.postReply x.surbs x.session reply.messageId (Scattered.ofSlice reply.data)).WellTyped ∧
      n1.step C (.postReply x.surbs x.session reply.messageId (Scattered.ofSlice reply.data)) =
        .ok (n2, .replied x.left x.result)
  | 0, ctx, ctx', n, n', log, hr, _, h => by cases h; exact ⟨hr, .refl _, fun x hx => by cases hx⟩
  | k + 1, ctx, ctx', n, n', log, hr, hs, h => by
    have hw : Call.WellTyped (.postReply ctx.surbs ctx.sessionIndex reply.messageId (Scattered.ofSlice reply.data)) :=
      ⟨hs, hid, by simp [Scattered.ofSlice, Scattered.len, Scattered.toVec]⟩
    unfold ReplyContext.postReply at h
    rw [res_bind_eq_ok] at h
    obtain ⟨⟨n1, surbs, res⟩, h1, h⟩ := h
    obtain ⟨s1, -⟩ := postReply_surbs hid h1
    have hst : n.step C (.postReply ctx.surbs ctx.sessionIndex reply.messageId (Scattered.ofSlice reply.data)) =
        .ok (n1, .replied surbs res) := by
      show (n.postReply C _ _ _ _ >>= _) = _
      rw [h1]; rfl
    have g1 := grown_step hC hk hr hw trivial hst
    have r1 := hr.step hC hw hst
    dsimp only at h
    cases res with
    | error err =>
      cases h
      refine ⟨r1, g1, fun x hx => ?_⟩
      rw [List.mem_singleton] at hx
      subst hx
      exact ⟨rfl, rfl, rfl, List.prefix_refl _, n, _, hr, .refl _, .refl _, hw, hst⟩
    | ok u =>
      cases u
      dsimp only at h
      rw [res_bind_eq_ok] at h
      obtain ⟨⟨ctx2, n2, log2⟩, h2, h⟩ := h
      cases h
      obtain ⟨r2, g2, ih⟩ := copies_split hC hk hid r1 (fun s h => hs s (s1.subset h)) h2
      refine ⟨r2, g1.trans g2, fun x hx => ?_⟩
      rcases List.mem_cons.1 hx with rfl | hx
      · exact ⟨rfl, rfl, rfl, List.prefix_refl _, n, n1, hr, .refl _, g2, hw, hst⟩
      · obtain ⟨e1, e2, e3, e4, a, b, a1, a2, a3⟩ := ih x hx
        exact ⟨e1, e2, e3, e4.trans s1, a, b, a1, g1.trans a2, a3⟩

theorem fragmentsFrom_length {id : Bytes} {last : Nat} : ∀ (n index : Nat) (data : Bytes) (surbs : List Bytes),
    (fragmentsFrom id last n index data surbs).length = n
  | 0, _, _, _ => rfl
  | n + 1, index, data, surbs => by rw [fragmentsFrom]; simp [fragmentsFrom_length n]

theorem messageFragments_length (id data : Bytes) (surbs : List Bytes) :
    (messageFragments id data surbs).length = fragmentCount data.length surbs.length := fragmentsFrom_length ..

/-! ### A post is under the message ID last drawn for the request -/

theorem split_append {α : Type} {x : α} {l l' a b : List α} (h : l ++ l' = a ++ x :: b) :
    (∃ b', l = a ++ x :: b' ∧ b = b' ++ l') ∨ ∃ a', a = l ++ a' ∧ l' = a' ++ x :: b := by
  rcases List.append_eq_append_iff.1 h with ⟨a', h1, h2⟩ | ⟨b', h1, h2⟩
  · exact .inr ⟨a', h1, h2⟩
  · cases b' with
    | nil => exact .inr ⟨[], by simpa using h1.symm, by simpa using h2.symm⟩
    | cons y b' =>
      rw [List.cons_append, List.cons.injEq] at h2
      obtain ⟨rfl, h2⟩ := h2
      exact .inl ⟨b', h1, h2⟩

/-- The posts of `r` in the log are under the ID last drawn for it before. -/
def PostsUnder [DecidableEq R] (r : R) (log : List (LogEntry R)) : Prop :=
  ∀ a b i d mid d' res, log = a ++ .post r i d mid d' res :: b → latestId r a = some mid

theorem PostsUnder.quiet [DecidableEq R] {r : R} {log l : List (LogEntry R)} (h : PostsUnder r log)
    (hl : ∀ i d mid d' res, .post r i d mid d' res ∉ l) : PostsUnder r (log ++ l) := by
  intro a b i d mid d' res he
  rcases split_append he with ⟨b', h1, -⟩ | ⟨a', -, h2⟩
  · exact h _ _ _ _ _ _ _ h1
  · exact absurd (by rw [h2]; simp) (hl i d mid d' res)

theorem PostsUnder.post [DecidableEq R] {r : R} {log : List (LogEntry R)} (h : PostsUnder r log) {r' : R} {i : Nat}
    {d d' : Option MixnodeIndex} {mid : MessageId} {res : Except PostErr Estimate} (hl : r' = r → latestId r log = some mid) :
    PostsUnder r (log ++ [.post r' i d mid d' res]) := by
  intro a b i' d1 mid' d2 res' he
  rcases split_append he with ⟨b', h1, -⟩ | ⟨a', h1, h2⟩
  · exact h _ _ _ _ _ _ _ h1
  · cases a' with
    | nil =>
      rw [List.nil_append, List.cons.injEq] at h2
      obtain ⟨h2, -⟩ := h2
      cases h2
      rw [h1, List.append_nil]
      exact hl rfl
    | cons y a' => simp at h2

theorem retry_quiet {m m' : RequestManager R} {s : RequestState R} {l : List (LogEntry R)} (h : Retry m s m' l) (r : R) :
    ∀ i d mid d' res, .post r i d mid d' res ∉ l := by
  intro i d mid d' res hm
  cases h with
  | limit => simp at hm
  | again _ h2 h3 => cases h2 <;> cases h3 <;> simp at hm

theorem underIn_micro [DecidableEq R] {r : R} {c c' : Cfg R}
    (h : LatestIn r c ∧ (c.inserted.count r ≤ 1 → PostsUnder r c.log)) (hm : Micro c c') :
    LatestIn r c' ∧ (c'.inserted.count r ≤ 1 → PostsUnder r c'.log) := by
  obtain ⟨h1, h2⟩ := h
  refine ⟨latest_micro h1 hm, fun hc => ?_⟩
  have front : ∀ {m : RequestManager R} {log : List (LogEntry R)} {rel : Option RelSessionIndex} {s : RequestState R}
      {rest : List (RequestState R)}, Latest m.states r log → m.postQueues.get rel = s :: rest →
      s.request = r → latestId r log = some s.messageId := by
    intro m log rel s rest hl hq he
    refine hl s ?_ he
    unfold RequestManager.states
    rw [PostQueues.bag_pop hq]
    exact Multiset.mem_add.2 (.inl (Multiset.mem_cons_self ..))
  cases hm with
  | requeue hq => exact (h2 hc).post (front (h1.2 hc) hq)
  | wait hq => exact (h2 hc).post (front (h1.2 hc) hq)
  | refused hq => exact (h2 hc).post (front (h1.2 hc) hq)
  | @failed m log ins rem rel s rest i e hq =>
    have k := (h2 hc).post (i := i) (d := s.destinationIndex) (d' := s.destinationIndex) (res := .error e) (front (h1.2 hc) hq)
    have := k.quiet (l := [.postErr s.request e]) (by simp)
    simpa using this
  | pop _ _ h3 => exact (h2 hc).quiet (retry_quiet h3 r)
  | insert _ _ _ _ h3 =>
    refine (h2 ?_).quiet (retry_quiet h3 r)
    dsimp only at hc ⊢
    rw [List.count_append] at hc
    omega
  | update => exact (h2 hc).quiet (by simp)
  | remove => exact h2 hc
  | removeRetry => exact h2 hc

end Mixnet
