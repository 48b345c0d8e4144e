import Verif.Spec.Turns
import Verif.Props.Sending
import Verif.Props.Panics
/-!
# C63: what is posted gets sent
-/
namespace Mixnet.Props
open Mixnet Spec

variable {C : Crypto} {config : Config} {m m' : Node}

theorem genBool_chance {p : Rat} (h0 : 0 ≤ p) (h1 : p < 1) (rng : Rng) :
    rng.genBool p = .ok (chance p (rng 0), fun k => rng (k + 1)) := by
  unfold Rng.genBool chance
  rw [if_neg (by linarith), if_pos ⟨h0, h1⟩]
  congr 2
  rw [decide_eq_decide, Int.lt_iff_add_one_le, Rat.le_floor_iff]
  push_cast
  exact Iff.rfl

theorem session_period (hs : Sane config) (hI : m.Inv C) (hcfg : m.config = config) {i : Nat} {s : Session}
    (h : m.sessionAt i = some s) : (0 : Rat) < s.meanAuthoredPacketPeriod := by
  obtain ⟨rel, -, hslot⟩ := Node.sessionAt_eq.1 h
  obtain ⟨sc, h1, -, h3⟩ := (hI.sessions rel s hslot).config
  rw [h3]
  rw [hcfg] at h1
  unfold Config.sessionConfig at h1
  have : 1 ≤ sc.meanAuthoredPacketPeriod := by
    split at h1
    · cases h1; exact hs.mixnodePeriod
    · exact hs.clientPeriod sc h1
  exact_mod_cast this

/-- The draws of `pop_next_authored_packet`. -/
theorem drawn (hC : CryptoLaws C) (hs : Sane config) (hr : Node.Reachable C config m) (rng : Rng) :
    (sessionDrawn m rng = none → ∀ i, m.sessionAt i = none) ∧
    ∀ {i rel s rng1 isLoop rng2}, RelSessionIndex.fromSessionIndex i m.sessionStatus.currentIndex = some rel →
      m.pickSession rng = .ok (some (rel, s), rng1) →
      rng1.genBool m.config.loopCoverProportion = .ok (isLoop, rng2) →
      ∃ k, sessionDrawn m rng = some (i, k) ∧ isLoop = chance m.config.loopCoverProportion (rng k) ∧
        rng2 = fun n => rng (n + (k + 1)) := by
  obtain ⟨hI, hcfg⟩ := hr.inv hC
  have hl : 0 ≤ m.config.loopCoverProportion ∧ m.config.loopCoverProportion < 1 := by rw [hcfg]; exact hs.loops
  obtain ⟨d1, d2, d3⟩ := session_share hC hr
  constructor
  · intro h i
    unfold sessionDrawn at h
    cases hc : currentSession m with
    | some s => rw [hc] at h; cases hp : previousSession m <;> rw [hp] at h <;> cases h
    | none =>
      rw [hc] at h
      cases hp : previousSession m with
      | some s => rw [hp] at h; cases h
      | none =>
        unfold currentSession at hc
        unfold previousSession at hp
        unfold Node.sessionAt at *
        by_cases e1 : i = m.sessionStatus.currentIndex
        · rw [if_pos e1]; simpa using hc
        · rw [if_neg e1]
          by_cases e2 : i + 1 = m.sessionStatus.currentIndex
          · rw [if_pos e2]
            rw [← e2] at hp
            dsimp only at hp
            rw [if_neg (by omega), if_pos rfl] at hp
            exact hp
          · rw [if_neg e2]
  · intro i rel s rng1 isLoop rng2 hi hp hb
    rw [genBool_chance hl.1 hl.2] at hb
    simp only [Except.ok.injEq, Prod.mk.injEq] at hb
    obtain ⟨hb, hb2⟩ := hb
    unfold sessionDrawn
    cases hc : currentSession m with
    | some s0 =>
      cases hv : previousSession m with
      | some t0 =>
        have p1 := session_period hs hI hcfg hc
        have p2 : (0 : Rat) < t0.meanAuthoredPacketPeriod := by
          unfold previousSession at hv
          split at hv
          · cases hv
          · exact session_period hs hI hcfg hv
        obtain ⟨e1, e2⟩ := slots hI
        have hm : m.sessions = ⟨.full s0, .full t0⟩ := by
          rw [hc] at e1
          rw [hv] at e2
          generalize m.sessions = ss at e1 e2
          obtain ⟨a, b⟩ := ss
          dsimp only at e1 e2
          cases a <;> cases e1
          cases b <;> cases e2
          rfl
        unfold Node.pickSession at hp
        rw [hm] at hp
        simp only [Sessions.enumerate, SessionSlot.asOption, Option.map_some, List.filterMap_cons, List.filterMap_nil] at hp
        rw [if_neg (by positivity), genBool_chance (by positivity) (by rw [div_lt_one (by positivity)]; linarith), res_bind_ok] at hp
        simp only [Except.ok.injEq, Prod.mk.injEq] at hp
        obtain ⟨hp, rfl⟩ := hp
        refine ⟨1, ?_, hb.symm, hb2.symm⟩
        dsimp only
        cases hch : chance ((t0.meanAuthoredPacketPeriod : Rat) / (s0.meanAuthoredPacketPeriod + t0.meanAuthoredPacketPeriod)) (rng 0) with
        | true =>
          rw [hch] at hp
          cases hp
          rcases fromSessionIndex_some.1 hi with ⟨-, h⟩ | ⟨h, -⟩
          · simp [h]
          · cases h
        | false =>
          rw [hch] at hp
          cases hp
          rcases fromSessionIndex_some.1 hi with ⟨h, -⟩ | ⟨-, h⟩
          · cases h
          · simp [← h]
      | none =>
        rw [d2 s0 hc hv] at hp
        cases hp
        refine ⟨0, ?_, hb.symm, hb2.symm⟩
        rcases fromSessionIndex_some.1 hi with ⟨-, h⟩ | ⟨h, -⟩
        · simp [h]
        · cases h
    | none =>
      cases hv : previousSession m with
      | some t0 =>
        rw [d3 t0 hc hv] at hp
        cases hp
        refine ⟨0, ?_, hb.symm, hb2.symm⟩
        rcases fromSessionIndex_some.1 hi with ⟨h, -⟩ | ⟨-, h⟩
        · cases h
        · simp [← h]
      | none =>
        exfalso
        obtain ⟨e1, e2⟩ := slots hI
        rw [hc] at e1
        rw [hv] at e2
        rcases pickSession_cases hp with ⟨h, -⟩ | ⟨rel', s', h, hslot⟩
        · cases h
        · cases rel'
          · rw [show m.sessions.current = _ from hslot] at e1; cases e1
          · rw [show m.sessions.prev = _ from hslot] at e2; cases e2

/-- One call and the queue of session `i`: when it is its turn, its first packet is sent; otherwise its packets stay
where they are, and packets may be added at the end. -/
theorem turn_step (hC : CryptoLaws C) (hs : Sane config) (hr : Node.Reachable C config m) {i : Nat} {s s' : Session}
    {call : Call} {out : Outcome} (hw : call.WellTyped) (h : m.step C call = .ok (m', out))
    (hat : m.sessionAt i = some s) (hat' : m'.sessionAt i = some s') :
    (∀ rng ns, call = .popNextAuthoredPacket rng ns → Turn m i rng → ∃ p, out = .authoredPacket p ∧
      ∀ x rest, s.authoredPacketQueue.queue = x :: rest → p = some x ∧ s'.authoredPacketQueue.queue = rest) ∧
    ((∀ rng ns, call = .popNextAuthoredPacket rng ns → ¬ Turn m i rng) →
      ∃ added, s'.authoredPacketQueue.queue = s.authoredPacketQueue.queue ++ added) := by
  obtain ⟨hI, hcfg⟩ := hr.inv hC
  by_cases hcall : ∃ rng ns, call = .popNextAuthoredPacket rng ns
  · obtain ⟨rng, ns, rfl⟩ := hcall
    obtain ⟨p, rfl⟩ : ∃ p, out = .authoredPacket p := by
      have := Node.step_cases hC hI hw h
      cases this
      exact ⟨_, rfl⟩
    have key : (Turn m i rng → ∀ x rest, s.authoredPacketQueue.queue = x :: rest →
          p = some x ∧ s'.authoredPacketQueue.queue = rest) ∧
        (¬ Turn m i rng → s'.authoredPacketQueue.queue = s.authoredPacketQueue.queue) := by
      rcases dispatch_drawn hC hI hw h with ⟨hno, -, -⟩ | ⟨j, rel, t, isLoop, rng1, rng2, hj, hrel, hpick, hbool, hd⟩
      · rw [hno i] at hat; cases hat
      obtain ⟨k, hk1, hk2, -⟩ := (drawn hC hs hr rng).2 hrel hpick hbool
      have hturn : Turn m i rng → j = i ∧ isLoop = false ∧ ¬ NoLonger m.sessionStatus i ∧ ¬ NotYet m.sessionStatus i := by
        rintro ⟨k', e1, e2, e3⟩
        rw [hk1] at e1
        cases e1
        exact ⟨rfl, by rw [hk2, e2], e3⟩
      cases hd with
      | queued x rest hl hn hy hq =>
        by_cases hji : j = i
        · subst hji
          rw [hat] at hj; cases hj
          have hq' : s'.authoredPacketQueue.queue = rest := by
            obtain ⟨r0, a1, a2⟩ := Node.sessionAt_eq.1 hat
            obtain ⟨r1, b1, b2⟩ := Node.sessionAt_eq.1 hat'
            obtain ⟨-, this⟩ := Node.At.set_same (m := m) ⟨a1, a2⟩ ⟨b1, b2⟩
              (by rw [withSession_eq hrel]) (by rw [withSession_eq a1])
            rw [this]
          refine ⟨fun _ x' rest' he => ?_, fun hno => absurd ⟨k, hk1, by rw [← hk2, hl], hn, hy⟩ hno⟩
          rw [hq] at he
          cases he
          exact ⟨rfl, hq'⟩
        · refine ⟨fun ht => absurd (hturn ht).1 hji, fun _ => ?_⟩
          have : s' = s := by
            obtain ⟨r0, a1, a2⟩ := Node.sessionAt_eq.1 hat
            obtain ⟨r1, b1, b2⟩ := Node.sessionAt_eq.1 hat'
            obtain ⟨rj, c1, c2⟩ := Node.sessionAt_eq.1 hj
            rw [hrel] at c1; cases c1
            rcases (Node.At.set_any (m := m) ⟨a1, a2⟩ c2 ⟨b1, b2⟩
              (by rw [withSession_eq hrel]) (by rw [withSession_eq hrel])).2 with ⟨e, -⟩ | ⟨-, e⟩
            · subst e
              exact absurd (Node.fromSessionIndex_inj hrel a1) hji
            · exact e
          rw [this]
      | cover p' hwhy _ _ =>
        have hss : s' = s := by
          have e : m.sessionAt i = some s' := hat'
          rw [hat] at e
          exact (Option.some.inj e).symm
        refine ⟨fun ht x rest hq => ?_, fun _ => by rw [hss]⟩
        obtain ⟨rfl, hl, hn, hy⟩ := hturn ht
        rw [hat] at hj; cases hj
        rcases hwhy with h | h | h | h
        · rw [hl] at h; cases h
        · exact absurd h hn
        · exact absurd h hy
        · rw [hq] at h; cases h
    refine ⟨?_, fun hno => ⟨[], by rw [key.2 (hno rng ns rfl), List.append_nil]⟩⟩
    intro rng' ns' he ht
    cases he
    exact ⟨p, rfl, key.1 ht⟩
  · refine ⟨fun rng ns he => absurd ⟨rng, ns, he⟩ hcall, fun _ => ?_⟩
    have hev := Node.kept_step hI (by rw [hcfg]; exact hs.hops) hw (Node.step_cases hC hI hw h) hat hat'
    cases hev with
    | same => exact ⟨[], by simp⟩
    | seen => exact ⟨[], by simp [Session.seen]⟩
    | popped rng ns => exact absurd ⟨rng, ns, rfl⟩ hcall
    | posted _ _ _ _ _ _ _ _ _ _ ps => exact ⟨ps, rfl⟩
    | replied _ _ _ _ _ _ _ ps => exact ⟨ps, rfl⟩

/-- **C63.** While a session exists, its queued packets are sent one by one, in order, each time it is the turn of its
queue, and at no other time: the packet at position `k` is what is sent at turn number `k` from now. What is
posted later goes behind. -/
theorem sent_in_turn (hC : CryptoLaws C) (hs : Sane config) (hr : Node.Reachable C config m) {i : Nat} {calls outs}
    (hw : ∀ c ∈ calls, c.WellTyped) (hkeep : Node.Keeps C i m calls outs m') :
    (∃ ps, Turns C i m calls outs m' ps) ∧
    ∃ s s', m.sessionAt i = some s ∧ m'.sessionAt i = some s' ∧ ∀ ps, Turns C i m calls outs m' ps →
      (∀ k x, s.authoredPacketQueue.queue[k]? = some x → k < ps.length → ps[k]? = some (some x)) ∧
      s.authoredPacketQueue.queue.drop ps.length <+: s'.authoredPacketQueue.queue := by
  induction hkeep with
  | @nil m h =>
    obtain ⟨s, hat⟩ := Option.isSome_iff_exists.1 h
    refine ⟨⟨[], .nil _⟩, s, s, hat, hat, ?_⟩
    intro ps ht
    cases ht
    exact ⟨fun k x _ hk => absurd hk (Nat.not_lt_zero _), List.prefix_refl _⟩
  | @cons m call m1 out calls outs m' h hstep hkeep ih =>
    have hw0 := hw call List.mem_cons_self
    have hr1 := hr.step hC hw0 hstep
    obtain ⟨⟨ps1, hps1⟩, s1, s', hat1, hat', ih⟩ := ih hr1 (fun c hc => hw c (List.mem_cons_of_mem _ hc))
    obtain ⟨s, hat⟩ := Option.isSome_iff_exists.1 h
    obtain ⟨t1, t2⟩ := turn_step hC hs hr hw0 hstep hat hat1
    refine ⟨?_, s, s', hat, hat', ?_⟩
    · by_cases ht : ∃ rng ns, call = .popNextAuthoredPacket rng ns ∧ Turn m i rng
      · obtain ⟨rng, ns, rfl, ht⟩ := ht
        obtain ⟨p, rfl, -⟩ := t1 rng ns rfl ht
        exact ⟨_, .turn ht hstep hps1⟩
      · exact ⟨_, .other (fun rng ns he htn => ht ⟨rng, ns, he, htn⟩) hstep hps1⟩
    · intro ps hps
      cases hps with
      | @turn _ rng ns m2 p _ _ _ ps ht hst hps =>
        rw [hst] at hstep
        cases hstep
        obtain ⟨i1, i2⟩ := ih ps hps
        obtain ⟨p', hp', hq⟩ := t1 rng ns rfl ht
        cases hp'
        cases hqueue : s.authoredPacketQueue.queue with
        | nil => exact ⟨fun k x hk => (by simp at hk), by simp⟩
        | cons x rest =>
          obtain ⟨rfl, hq'⟩ := hq x rest hqueue
          rw [hq'] at i1 i2
          refine ⟨?_, by simpa using i2⟩
          intro k y hk hlt
          cases k with
          | zero => simpa using hk
          | succ k => simpa using i1 k y (by simpa using hk) (by simpa using hlt)
      | other hno hst hps =>
        rw [hst] at hstep
        cases hstep
        obtain ⟨i1, i2⟩ := ih ps hps
        obtain ⟨added, hadd⟩ := t2 hno
        rw [hadd] at i1 i2
        refine ⟨?_, ?_⟩
        · intro k x hk hlt
          refine i1 k x ?_ hlt
          rw [List.getElem?_append_left (List.getElem?_eq_some_iff.1 hk).1]
          exact hk
        · rw [List.drop_append] at i2
          exact (List.prefix_append _ _).trans i2

/-! ## A case -/
section Examples
open World

private theorem alice1_reachable : Node.Reachable World.C (cfg 3) alice1 :=
  alice_reachable.step toyLaws ask_typed ask_step

private theorem alice_turn : Turn alice1 0 (fun _ => 2 ^ 64 - 1) := by
  have h1 : (currentSession alice1).isSome = true := by decide +kernel
  have h2 : previousSession alice1 = none := by
    have : (previousSession alice1).isNone = true := by decide +kernel
    exact Option.isNone_iff_eq_none.1 this
  have h3 : alice1.sessionStatus.currentIndex = 0 := by decide +kernel
  have h4 : alice1.sessionStatus.phase ≠ .coverToCurrent := by decide +kernel
  obtain ⟨s, hs⟩ := Option.isSome_iff_exists.1 h1
  refine ⟨0, by unfold sessionDrawn; rw [hs, h2]; dsimp only; rw [h3], by decide +kernel, ?_, ?_⟩
  · rintro (h | ⟨h, -⟩)
    · rw [h3] at h; omega
    · rw [h3] at h; cases h
  · unfold NotYet
    rw [h3]
    rintro (h | ⟨-, h⟩)
    · omega
    · exact h4 h

/-- Alice has posted a request; the next time it is the turn of her queue its packet is sent. -/
example : ∃ s ps, alice1.sessionAt 0 = some s ∧ s.authoredPacketQueue.queue[0]? = some packet0 ∧
    Turns World.C 0 alice1 [send] [sendOut] aliceSent ps ∧ ps[0]? = some (some packet0) := by
  have hk : Node.Keeps World.C 0 alice1 [send] [sendOut] aliceSent :=
    .cons (by decide +kernel) send_step (.nil (by decide +kernel))
  obtain ⟨⟨ps, hps⟩, s, s', h1, h2, h⟩ := sent_in_turn toyLaws world_sane alice1_reachable
    (fun c hc => by rw [List.mem_singleton.1 hc]; exact send_typed) hk
  have hq : s.authoredPacketQueue.queue[0]? = some packet0 := by
    have : (alice1.sessionAt 0).map (fun s => s.authoredPacketQueue.queue[0]?) = some (some packet0) := by decide +kernel
    rw [h1] at this
    exact Option.some.inj this
  refine ⟨s, ps, h1, hq, hps, (h ps hps).1 0 packet0 hq ?_⟩
  have hlen : ∀ {out : Outcome}, Turns World.C 0 alice1 [send] [out] aliceSent ps → 0 < ps.length := by
    intro out hps
    cases hps with
    | turn _ _ h => simp
    | other hno _ _ => exact absurd alice_turn (hno _ _ rfl)
  exact hlen hps

end Examples
end Mixnet.Props
