import Verif.Props.Panics
import Verif.Props.RouteChoice
import Verif.Spec.Answer
/-!
# C55: what posting a request answers
-/
namespace Mixnet.Props
open Mixnet Spec

/-- The answer without the metrics. -/
def plain {α : Type} : Except PostErr α → Except PostErr Unit
  | .ok _ => .ok ()
  | .error e => .error e

theorem sessionAnswer_eq (m : Node) (i : Nat) :
    sessionAnswer m i = (match postSession m.sessions m.sessionStatus i with
      | .error e => .error e
      | .ok (_, s) => .ok s) := by
  obtain ⟨a, b, c, d, -⟩ := postSession_iff m i
  unfold sessionAnswer
  by_cases h1 : NoLonger m.sessionStatus i
  · rw [if_pos h1, (a i).2 ⟨rfl, h1⟩]
  rw [if_neg h1]
  by_cases h2 : NotYet m.sessionStatus i
  · rw [if_pos h2, (b i).2 ⟨rfl, h2⟩]
  rw [if_neg h2]
  cases hs : slotOf m i with
  | empty => rw [(c i).2 ⟨rfl, h1, h2, .inl hs⟩]
  | kxPair k => rw [(c i).2 ⟨rfl, h1, h2, .inr ⟨k, hs⟩⟩]
  | disabled => rw [(d i).2 ⟨rfl, h1, h2, hs⟩]
  | full s =>
    dsimp only
    cases hp : postSession m.sessions m.sessionStatus i with
    | ok x =>
      obtain ⟨rel, s'⟩ := x
      obtain ⟨p1, -, p3⟩ := postSession_ok hp
      have hslot : slotOf m i = m.sessions.get rel := by
        unfold slotOf
        rcases fromSessionIndex_some.1 p1 with ⟨rfl, h⟩ | ⟨rfl, h⟩
        · rw [if_pos h]; rfl
        · rw [if_neg (by omega)]; rfl
      rw [hslot, p3] at hs
      cases hs; rfl
    | error e =>
      exfalso
      unfold postSession at hp
      cases hr : RelSessionIndex.fromSessionIndex i m.sessionStatus.currentIndex with
      | none =>
        have hn := fromSessionIndex_none.1 hr
        by_cases hlt : i < m.sessionStatus.currentIndex
        · exact h1 (.inl (by omega))
        · exact h2 (.inl (by omega))
      | some rel =>
        rw [hr] at hp
        have hal := (allowed_iff hr).2 ⟨h1, h2⟩
        have hslot : slotOf m i = m.sessions.get rel := by
          unfold slotOf
          rcases fromSessionIndex_some.1 hr with ⟨rfl, h⟩ | ⟨rfl, h⟩
          · rw [if_pos h]; rfl
          · rw [if_neg (by omega)]; rfl
        rw [hslot] at hs
        dsimp only at hp
        rw [hal, hs] at hp
        cases hp

theorem queueAnswer_eq (q : AuthoredPacketQueue) {len n k : Nat} (h1 : 1 ≤ k) (hk : CanCarry k len n)
    (hmin : ∀ j, 1 ≤ j → CanCarry j len n → k ≤ j) :
    queueAnswer q len n = (match q.checkSpace k with
      | .error e => .error e.toPostErr
      | .ok () => .ok ()) := by
  obtain ⟨c1, c2, c3⟩ := checkSpace_admits (q := q) (n := k)
  unfold queueAnswer
  by_cases ha : Admits q.config q.queue.length k
  · rw [if_pos ⟨k, h1, hk, ha⟩, c1.2 ha]
  rw [if_neg (by
    rintro ⟨j, j1, j2, j3⟩
    have := hmin j j1 j2
    apply ha
    unfold Admits at j3 ⊢
    rcases j3 with ⟨a, b | ⟨b, c⟩⟩
    · exact ⟨by omega, .inl b⟩
    · exact ⟨by omega, .inr ⟨b, by omega⟩⟩)]
  by_cases hc : k ≤ q.config.capacity
  · rw [if_pos ⟨k, h1, hk, hc⟩, c3.2 ⟨hc, ha⟩]; rfl
  · rw [if_neg (by
      rintro ⟨j, j1, j2, j3⟩
      have := hmin j j1 j2
      omega), c2.2 (by omega)]; rfl

/-- For a destination chosen at random it does not matter which. -/
theorem fits_other {t : Topology} {ns : NetworkStatus} {g : RouteGenerator} (v : View t ns g) {k a b : Nat}
    (ha : Candidate t ns none a) (hb : Candidate t ns none b)
    (h : ∃ inner, Fits t ns (.toMixnode a) k inner) : ∃ inner, Fits t ns (.toMixnode b) k inner := by
  obtain ⟨a1, a2, a3⟩ := ha
  obtain ⟨b1, b2, b3⟩ := hb
  have ka := fits_exists_iff v (.toMixnode a) (k := k) (by intro d h; cases h; exact a1)
  have kb := fits_exists_iff v (.toMixnode b) (k := k) (by intro d h; cases h; exact b1)
  obtain ⟨ht, hge, hg⟩ := v.wf
  have hgt : g.topology = t := by rw [hge]
  rw [ka] at h
  rw [kb]
  refine ⟨h.1, ?_⟩
  have hm : g.midCount (.toMixnode b) k = g.midCount (.toMixnode a) k := by
    unfold RouteGenerator.midCount RouteGenerator.leastHops RouteGenerator.fixedHops
    cases g.topology.localNode <;> rfl
  have hu : g.usedCount (.toMixnode b) = g.usedCount (.toMixnode a) := by
    unfold RouteGenerator.usedCount
    rw [hgt]
    cases hl : t.localNode with
    | mixnode i =>
      rw [hl] at a2 b2
      dsimp only
      rw [if_neg (by rintro rfl; exact b2 rfl), if_neg (by rintro rfl; exact a2 rfl)]
    | nonMixnode gs =>
      obtain ⟨cs, hcs, hcg⟩ := connected_of_view v hl
      dsimp only
      rw [hcg, if_neg (by rw [take5_single]; rintro rfl; exact b3 hcs),
        if_neg (by rw [take5_single]; rintro rfl; exact a3 hcs)]
  rw [hm, hu]; exact h.2

/-- What a builder and the first route say. -/
theorem routeAnswer_eq {t : Topology} {ns : NetworkStatus} {g : RouteGenerator} (v : View t ns g) {k : Nat} (hk : k ≤ 6)
    {d : Option Nat} (hd : ∀ j, d = some j → j < t.mixnodes.length) :
    (∀ rng e, RequestBuilder.new rng t ns d = .ok (.error e) → routeAnswer t ns d k = .error (.topology e)) ∧
    (∀ rng b rng', RequestBuilder.new rng t ns d = .ok (.ok (b, rng')) →
      (∀ rng e, b.routeGenerator.genRoute rng (.toMixnode b.destinationIndex) k = .ok (.error e) →
        routeAnswer t ns d k = .error (.topology e)) ∧
      (∀ rng x, b.routeGenerator.genRoute rng (.toMixnode b.destinationIndex) k = .ok (.ok x) →
        routeAnswer t ns d k = .ok ())) := by
  have hgnew : RouteGenerator.new t ns = .ok g := v.2
  obtain ⟨ex, hex, hch⟩ := choose_destination_uniform v
  -- a candidate decides
  have hdec : ∀ dest, Candidate t ns d dest → dest < t.mixnodes.length →
      (∀ rng e, g.genRoute rng (.toMixnode dest) k = .ok (.error e) → routeAnswer t ns d k = .error (.topology e)) ∧
      (∀ rng x, g.genRoute rng (.toMixnode dest) k = .ok (.ok x) → routeAnswer t ns d k = .ok ()) := by
    intro dest hc hlt
    have hne : t.mixnodes ≠ [] := by rintro h; rw [h] at hlt; simp at hlt
    rcases route_exists_iff v (.toMixnode dest) hk (by intro d h; cases h; exact hlt) with
      ⟨⟨inner, h1⟩, h2⟩ | ⟨h1, h2⟩
    · refine ⟨?_, ?_⟩
      · intro rng e he
        obtain ⟨_, _, h⟩ := h2 rng
        rw [he] at h; cases h
      · intro rng x _
        unfold routeAnswer
        rw [if_pos ⟨dest, inner, hc, h1⟩]
    · have hno : ¬ ∃ dest inner, Candidate t ns d dest ∧ Fits t ns (.toMixnode dest) k inner := by
        rintro ⟨dest', inner, hc', hf⟩
        apply h1
        cases d with
        | some j =>
          have e1 : dest = j := hc
          have e2 : dest' = j := hc'
          rw [e1, ← e2]
          exact ⟨inner, hf⟩
        | none => exact fits_other v hc' hc ⟨inner, hf⟩
      unfold routeAnswer
      rw [if_neg hno]
      rcases h2 with ⟨hcg, h2⟩ | ⟨hcg, h2⟩
      · rw [if_pos ⟨hcg, hne⟩]
        refine ⟨?_, ?_⟩
        · intro rng e he; rw [h2 rng] at he; cases he; rfl
        · intro rng e he; rw [h2 rng] at he; cases he
      · rw [if_neg (by rintro ⟨h, -⟩; exact hcg h)]
        refine ⟨?_, ?_⟩
        · intro rng e he; rw [h2 rng] at he; cases he; rfl
        · intro rng e he; rw [h2 rng] at he; cases he
  refine ⟨?_, ?_⟩
  · intro rng e h
    unfold RequestBuilder.new at h
    rw [hgnew, res_bind_ok] at h
    cases d with
    | some j => cases h
    | none =>
      dsimp only at h
      rcases hch with ⟨hall, he⟩ | ⟨n, f, -, he⟩
      · rw [he] at h
        cases h
        unfold routeAnswer
        rw [if_neg, if_neg]
        · rintro ⟨hcg, hne⟩
          obtain ⟨x, hx⟩ := List.exists_mem_of_ne_nil _ hne
          have h0 := hall 0 (List.length_pos_of_mem hx)
          rw [hex] at h0
          rcases h0 with h0 | h0
          · obtain ⟨gs, hgs, -⟩ := hcg
            rw [h0] at hgs; cases hgs
          · cases connected_unique hcg h0
        · rintro ⟨dest, inner, ⟨c1, c2, c3⟩, -⟩
          rcases (hex dest).1 (hall dest c1) with h | h
          · exact c2 h
          · exact c3 h
      · rw [he] at h; cases h
  · intro rng b rng' h
    obtain ⟨hg', hd'⟩ := newBuilder h
    rw [hgnew] at hg'
    cases hg'
    rcases hd' with ⟨j, rfl, hj⟩ | ⟨rfl, hcd⟩
    · exact hdec _ hj (by rw [hj]; exact hd j rfl)
    · rcases hch with ⟨-, he⟩ | ⟨n, f, ⟨h0, h1, -⟩, he⟩
      · rw [he] at hcd; cases hcd
      · rw [he] at hcd
        have hf : f (rng 0 % n) = b.destinationIndex := by
          simp only [Except.ok.injEq, Prod.mk.injEq] at hcd
          exact hcd.1
        have := h1 (rng 0 % n) (Nat.mod_lt _ h0)
        rw [hf] at this
        refine hdec _ ⟨this.1, ?_, ?_⟩ this.1
        · intro hh; exact this.2 ((hex _).2 (.inl hh))
        · intro hh; exact this.2 ((hex _).2 (.inr hh))

variable {C : Crypto} (hC : CryptoLaws C) {config : Config} {m m' : Node}
include hC

/-- **C55.** Whether a request is accepted, and if not why, is determined by the configuration, the phase, the
topology, the connectivity and the length of the queue, as `requestAnswer` says; random numbers have no
influence. -/
theorem request_answer (hr : Node.Reachable C config m) (hk : config.numHops ≤ 6) {rng : Rng} {i : Nat}
    {d d' : Option MixnodeIndex} {mid : MessageId} {data : Scattered Byte} {l : Bytes} {n : Nat} {ns : NetworkStatus}
    {r : Except PostErr RequestMetrics} (hw : (Call.postRequest rng i d mid data n ns).WellTyped)
    (hd : Denotes data l) (he : DestinationExists m (.postRequest rng i d mid data n ns))
    (h : m.step C (.postRequest rng i d mid data n ns) = .ok (m', .posted d' r)) :
    plain r = requestAnswer m i d l.length n ns := by
  obtain ⟨hI, rfl⟩ := hr.inv hC
  have hc := post_case hC hI hw h
  have hyes : ∀ bps, fragmentBlueprints mid data n = .ok (some bps) → bps.length ≤ m.config.maxFragmentsPerMessage →
      requestAnswer m i d l.length n ns = (match postSession m.sessions m.sessionStatus i with
        | .error e => .error e
        | .ok (_, s) => match s.authoredPacketQueue.checkSpace bps.length with
          | .error e => .error e.toPostErr
          | .ok () => routeAnswer s.topology ns d m.config.numHops) := by
    intro bps hb hle
    obtain ⟨⟨b1, b2, b3, b4⟩, -⟩ := split_exact mid hd n hb
    unfold requestAnswer
    rw [if_neg (not_not_intro ⟨_, b1, hle, b2, b3⟩), sessionAnswer_eq]
    cases postSession m.sessions m.sessionStatus i with
    | error e => rfl
    | ok x =>
      dsimp only
      rw [queueAnswer_eq _ b1 b3 b4]
      cases AuthoredPacketQueue.checkSpace x.2.authoredPacketQueue bps.length with
      | error e => rfl
      | ok u => rfl
  have hroute : ∀ {rel s b rng1}, postSession m.sessions m.sessionStatus i = .ok (rel, s) →
      RequestBuilder.new rng s.topology ns d = .ok (.ok (b, rng1)) → View s.topology ns b.routeGenerator := by
    intro rel s b rng1 h3 h5
    exact view_of_inv hI (slot_of_postSession h3).2 (newBuilder h5).1
  have hdest : ∀ {rel s}, postSession m.sessions m.sessionStatus i = .ok (rel, s) →
      ∀ j, d = some j → j < s.topology.mixnodes.length := by
    rintro rel s h3 j rfl
    exact he s (slot_of_postSession h3).2
  cases hc with
  | tooMany h1 =>
    unfold requestAnswer
    rw [if_pos]
    · rfl
    · rintro ⟨k, k1, k2, k3, k4⟩
      rcases h1 with h1 | ⟨bps, h1, h2⟩
      · apply (split_refuses_iff mid hd n).2.1 h1
        rw [canCarry_iff] at k4 ⊢
        unfold Feasible at *
        omega
      · have := (split_exact mid hd n h1).1.2.2.2 k k1 k4
        omega
  | noSession bps e h1 h2 h3 => rw [hyes _ h1 h2, h3]; rfl
  | noSpace bps rel s e h1 h2 h3 h4 => rw [hyes _ h1 h2, h3]; dsimp only; rw [h4]; rfl
  | noDestination bps rel s e h1 h2 h3 h4 h5 =>
    rw [hyes _ h1 h2, h3]; dsimp only; rw [h4]
    obtain ⟨hslot, -⟩ := slot_of_postSession h3
    have hwf := (hI.sessions rel s hslot).topology
    obtain ⟨r0, ms, r0', hm⟩ := (hI.sessions rel s hslot).made
    obtain ⟨hg, -⟩ := RouteGenerator.new_spec ns hwf
    have v : View s.topology ns ⟨s.topology, ns.localPeerId, connectedOf s.topology ns⟩ := ⟨⟨_, _, _, _, _, hm⟩, hg⟩
    exact ((routeAnswer_eq v hk (hdest h3)).1 _ _ h5).symm
  | failed bps rel s b rng1 acc e h1 h2 h3 h4 h5 h6 =>
    rw [hyes _ h1 h2, h3]; dsimp only; rw [h4]
    have v := hroute h3 h5
    obtain ⟨-, r', hr'⟩ := postFailed_none hk v.wf.2.2 h6
    exact (((routeAnswer_eq v hk (hdest h3)).2 _ _ _ h5).1 _ _ hr').symm
  | posted bps rel s b rng1 acc infos met qd h1 h2 h3 h4 h5 h6 =>
    rw [hyes _ h1 h2, h3]; dsimp only; rw [h4]
    have v := hroute h3 h5
    obtain ⟨b1, -⟩ := (split_exact mid hd n h1).1
    cases h6.made with
    | nil => simp at b1
    | cons hp _ =>
      obtain ⟨_, _, _, _, _, e1, -⟩ := hp
      exact (((routeAnswer_eq v hk (hdest h3)).2 _ _ _ h5).2 _ _ e1).symm

omit hC in
theorem fewest_eq {len n k : Nat} (h1 : 1 ≤ k) (hk : CanCarry k len n)
    (hmin : ∀ j, 1 ≤ j → CanCarry j len n → k ≤ j) : fewest len n = k := by
  have hmem : sInf {k | 1 ≤ k ∧ CanCarry k len n} ∈ {k | 1 ≤ k ∧ CanCarry k len n} := Nat.sInf_mem ⟨k, h1, hk⟩
  exact le_antisymm (Nat.sInf_le ⟨h1, hk⟩) (hmin _ hmem.1 hmem.2)

omit hC in
theorem surbAnswer_bad {t : Topology} {surb : Surb} {e : PostErr} (h : BadSurb t surb e) : surbAnswer t surb = .error e := by
  unfold surbAnswer
  rcases h with ⟨h, rfl⟩ | ⟨h1, h2, rfl⟩
  · rw [if_pos h]
  · rw [if_neg (by omega), if_pos h2]

omit hC in
theorem surbAnswer_good {t : Topology} {f : Fragment} {surb : Surb} {p : AddressedPacket} (hl : surb.length = 222)
    (h : ReplyBuilt C t f surb p) : surbAnswer t surb = .ok () := by
  obtain ⟨old, first, mx, -, -, h1, rfl, h2, -⟩ := h
  obtain ⟨hlt, -⟩ := List.getElem?_eq_some_iff.1 h2
  have : u16At surb 0 ≤ 0xfeff := by
    rcases completeReply_first hl h1 with ⟨h, -⟩ | ⟨-, h⟩
    · exact h
    · cases h
  unfold surbAnswer
  rw [if_neg (by omega), if_neg (by omega)]

omit hC in
theorem surbAnswer_all {t : Topology} {fs : List Fragment} {used : List Surb} {ps : List AddressedPacket}
    (h : RepliesBuilt C t fs used ps) (hl : ∀ s ∈ used, s.length = 222) (more : List (Except PostErr Unit)) :
    firstError (used.map (surbAnswer t) ++ more) = firstError more := by
  induction h with
  | nil => rfl
  | cons h _ ih =>
    rw [List.map_cons, surbAnswer_good (hl _ List.mem_cons_self) h]
    exact ih (fun s hs => hl s (List.mem_cons_of_mem _ hs))

/-- **C55** for replies: also the SURBs matter; the answer is that of the first of those needed, from the end,
that cannot be used. -/
theorem reply_answer (hr : Node.Reachable C config m) {i : Nat} {surbs surbs' : List Surb} {mid : MessageId}
    {data : Scattered Byte} {l : Bytes} {r : Except PostErr Unit} (hw : (Call.postReply surbs i mid data).WellTyped)
    (hd : Denotes data l)
    (h : m.step C (.postReply surbs i mid data) = .ok (m', .replied surbs' r)) :
    r = replyAnswer m surbs i l.length := by
  obtain ⟨hI, rfl⟩ := hr.inv hC
  have hc := reply_case hC hI hw h
  have hyes : ∀ bps, fragmentBlueprints mid data 0 = .ok (some bps) →
      bps.length ≤ min m.config.maxFragmentsPerMessage surbs.length →
      replyAnswer m surbs i l.length = (match postSession m.sessions m.sessionStatus i with
        | .error e => .error e
        | .ok (_, s) => match s.authoredPacketQueue.checkSpace bps.length with
          | .error e => .error e.toPostErr
          | .ok () => firstError ((surbs.reverse.take bps.length).map (surbAnswer s.topology))) := by
    intro bps hb hle
    obtain ⟨⟨b1, b2, b3, b4⟩, -⟩ := split_exact mid hd 0 hb
    unfold replyAnswer
    rw [if_neg (not_not_intro ⟨_, b1, by omega, by omega, b2, b3⟩), sessionAnswer_eq]
    cases postSession m.sessions m.sessionStatus i with
    | error e => rfl
    | ok x =>
      dsimp only
      rw [queueAnswer_eq _ b1 b3 b4, fewest_eq b1 b3 b4]
      cases AuthoredPacketQueue.checkSpace x.2.authoredPacketQueue bps.length with
      | error e => rfl
      | ok u => rfl
  cases hc with
  | tooMany h1 =>
    unfold replyAnswer
    rw [if_pos]
    rintro ⟨k, k1, k2, k2', k3, k4⟩
    rcases h1 with h1 | ⟨bps, h1, h2⟩
    · apply (split_refuses_iff mid hd 0).2.1 h1
      rw [canCarry_iff] at k4 ⊢
      unfold Feasible at *
      omega
    · have := (split_exact mid hd 0 h1).1.2.2.2 k k1 k4
      omega
  | noSession bps e h1 h2 h3 => rw [hyes _ h1 h2, h3]
  | noSpace bps rel s e h1 h2 h3 h4 => rw [hyes _ h1 h2, h3]; dsimp only; rw [h4]
  | failed bps rel s rest used ps e' done bp left bad h1 h2 h3 h4 h5 h6 h7 h8 h9 =>
    rw [hyes _ h1 h2, h3]; dsimp only; rw [h4]
    have hl : ∀ s ∈ bad :: used.reverse, s.length = 222 := fun s hs => hw.1 s (by rw [h6]; exact List.mem_append_right _ hs)
    obtain ⟨b1, -⟩ := sent_blueprints hw.2.1 hd h1
    obtain ⟨fs', g1, g2⟩ := replies_built h7 (fun s hs => hl s (by simp [hs]))
      (fun bp hbp => b1 bp (by rw [h5]; exact List.mem_append_left _ hbp))
    have hlen := h7.lengths
    have hbl : bps.length = used.length + (left.length + 1) := by rw [h5]; simp; omega
    have htake : surbs.reverse.take bps.length = used ++ bad :: (surbs'.reverse.take left.length) := by
      rw [h6, List.reverse_append, List.reverse_cons, List.reverse_reverse, hbl, List.append_assoc,
        List.take_length_add_append]
      rfl
    rw [htake, List.map_append, List.map_cons, surbAnswer_all g2 (fun s hs => hl s (by simp [hs])),
      surbAnswer_bad (reply_bad (hl bad List.mem_cons_self) h8)]
    rfl
  | posted bps rel s rest used ps h1 h2 h3 h4 h5 h6 h7 =>
    rw [hyes _ h1 h2, h3]; dsimp only; rw [h4]
    have hl : ∀ s ∈ used, s.length = 222 := fun s hs => hw.1 s (by rw [h5]; exact List.mem_append_right _ (by simp [hs]))
    obtain ⟨b1, -⟩ := sent_blueprints hw.2.1 hd h1
    obtain ⟨fs', g1, g2⟩ := replies_built h6 hl b1
    have hlen := h6.lengths
    have htake : surbs.reverse.take bps.length = used := by
      rw [h5, List.reverse_append, List.reverse_reverse]
      have : bps.length = used.length := by omega
      rw [this, List.take_left]
    have := surbAnswer_all g2 hl []
    rw [List.append_nil] at this
    rw [htake, this]
    rfl

/-- C54 and C55 together: a request to an existing destination is answered as `requestAnswer` says, unless a
random SURB ID is repeated. -/
theorem request_always_answered (hs : Sane config) (hr : Node.Reachable C config m) {rng : Rng} {i : Nat}
    {d : Option MixnodeIndex} {mid : MessageId} {data : Scattered Byte} {l : Bytes} {n : Nat} {ns : NetworkStatus}
    (hw : (Call.postRequest rng i d mid data n ns).WellTyped)
    (hd : Denotes data l) (he : DestinationExists m (.postRequest rng i d mid data n ns)) :
    (∃ m' d' r, m.step C (.postRequest rng i d mid data n ns) = .ok (m', .posted d' r) ∧
      plain r = requestAnswer m i d l.length n ns) ∨
    m.step C (.postRequest rng i d mid data n ns) = .error surbIdRepeated ∧ n ≠ 0 ∧ IdRepeats m rng := by
  rcases ((no_panic hC hs).2 m hr).1 _ hw he with ⟨m', out, h⟩ | ⟨_, _, _, _, _, _, _, hcall, h, h'⟩
  · left
    have h' := h
    rw [show m.step C (.postRequest rng i d mid data n ns) = (m.postRequest C rng i d mid data n ns >>= fun x =>
      Except.ok (x.1, Outcome.posted x.2.1 x.2.2)) from rfl, res_bind_eq_ok] at h'
    obtain ⟨x, -, hx⟩ := h'
    cases hx
    exact ⟨_, _, _, h, request_answer hC hr hs.hops hw hd he h⟩
  · cases hcall; exact .inr ⟨h, h'⟩

/-! ### Concrete cases -/
open World in
example : requestAnswer alice 0 (some 1) 3 1 (ns 3) = .ok () := by
  obtain ⟨met, hout⟩ := askOut_eq
  have h := ask_step
  rw [hout] at h
  exact (request_answer toyLaws alice_reachable (by decide) ask_typed (Denotes.ofSlice _) (by
    intro s hs
    have h : (match alice.sessionAt 0 with
      | some s => decide (1 < s.topology.mixnodes.length)
      | none => true) = true := by decide +kernel
    rw [hs] at h
    exact of_decide_eq_true h) h).symm

open World in
example : requestAnswer alice 5 none 1 0 (ns 3) = .error (.sessionNotActiveYet 5) := by
  have hcan : CanCarry 1 1 0 := by rw [canCarry_iff]; unfold Feasible; decide
  have hst : alice.sessionStatus = ⟨0, .requestsToCurrent⟩ := by decide +kernel
  have hcfg : 1 ≤ alice.config.maxFragmentsPerMessage := by decide +kernel
  unfold requestAnswer sessionAnswer
  rw [if_neg (not_not_intro ⟨1, le_rfl, hcfg, by decide, hcan⟩), if_neg, if_pos]
  · rw [hst]; left; decide
  · rw [hst]; unfold NoLonger; decide

open World in
example : replyAnswer bob1 surbs 0 2 = .ok () := by
  obtain ⟨surbs', hout⟩ := answerOut_eq
  have h := answer_step
  rw [hout] at h
  exact (reply_answer toyLaws (bob_reachable.step toyLaws arrive_typed arrive_step) answer_typed (Denotes.ofSlice _) h).symm

end Mixnet.Props
