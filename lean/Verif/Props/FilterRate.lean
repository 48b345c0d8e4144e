import Verif.Props.ReplayFilter
import Verif.Proofs.Keep
import Verif.Proofs.WholeHistory
import Verif.Spec.World
import Mathlib.Data.Finset.Card
import Mathlib.Data.Finset.Prod
import Mathlib.Data.Rat.Cast.Order
import Mathlib.Tactic.NormNum
import Mathlib.Tactic.Positivity
import Mathlib.Tactic.GCongr
/-!
# C80: how many packets the replay filter takes for replays
-/
namespace Mixnet.Props
open Mixnet ReplayFilter Spec

/-- The bits of the filter set by these insertions. -/
def bitsOf (ts : List ReplayTag) : Finset Nat := (ts.flatMap fun u => (List.range 8).map (probe u)).toFinset

theorem bitsOf_card (ts : List ReplayTag) : (bitsOf ts).card ≤ 8 * ts.length := by
  refine Nat.le_trans (List.toFinset_card_le _) ?_
  induction ts with
  | nil => simp
  | cons t ts ih => simp only [List.flatMap_cons, List.length_append, List.length_map, List.length_range, List.length_cons]; omega

theorem mem_bitsOf {ts : List ReplayTag} {a : Nat} : a ∈ bitsOf ts ↔ ∃ u ∈ ts, ∃ j < 8, a = probe u j := by
  unfold bitsOf
  simp only [List.mem_toFinset, List.mem_flatMap, List.mem_map, List.mem_range]
  constructor
  · rintro ⟨u, hu, j, hj, rfl⟩; exact ⟨u, hu, j, hj, rfl⟩
  · rintro ⟨u, hu, j, hj, rfl⟩; exact ⟨u, hu, j, hj, rfl⟩

theorem reported_count (rng : Rng) (ts : List ReplayTag) (T : Finset ReplayTag)
    (h : ∀ t ∈ T, (insertTags (ReplayFilter.new rng).1 ts).contains t = true) :
    T.card ≤ (8 * ts.length) ^ 2 * 2 ^ 12 := by
  have hB : ∀ t ∈ T, ∀ k < 8, probe t k ∈ bitsOf ts := fun t ht k hk =>
    mem_bitsOf.2 ((filter_contains_iff rng ts t).1 (h t ht) k hk)
  have key : T.card ≤ (bitsOf ts ×ˢ bitsOf ts ×ˢ Finset.range 64 ×ˢ Finset.range 64).card := by
    refine Finset.card_le_card_of_injOn
      (fun t => (probe t 0, probe t 1, t.base.toNat / 67108864, t.inc.toNat / 67108864)) ?_ ?_
    · intro t ht
      have h1 := t.base.toNat_lt
      have h2 := t.inc.toNat_lt
      simp only [Finset.coe_product, Finset.coe_range, Set.mem_prod, Finset.mem_coe, Set.mem_Iio]
      exact ⟨hB t ht 0 (by omega), hB t ht 1 (by omega), by omega, by omega⟩
    · intro t ht u hu he
      have h1 := t.base.toNat_lt
      have h2 := t.inc.toNat_lt
      have h3 := u.base.toNat_lt
      have h4 := u.inc.toNat_lt
      simp only [Prod.mk.injEq, probe] at he
      obtain ⟨e1, e2, e3, e4⟩ := he
      have b : t.base.toNat = u.base.toNat := by omega
      have i : t.inc.toNat = u.inc.toNat := by omega
      obtain ⟨tb, ti⟩ := t
      obtain ⟨ub, ui⟩ := u
      rw [ReplayTag.mk.injEq]
      exact ⟨UInt32.toNat_inj.1 b, UInt32.toNat_inj.1 i⟩
  rw [Finset.card_product, Finset.card_product, Finset.card_product, Finset.card_range] at key
  have hc := Nat.mul_le_mul (bitsOf_card ts) (bitsOf_card ts)
  calc T.card ≤ _ := key
    _ = (bitsOf ts).card * (bitsOf ts).card * 2 ^ 12 := by ring
    _ ≤ _ := by rw [pow_two]; exact Nat.mul_le_mul_right _ hc

/-- **C80** (the filter). After `n` insertions, whichever they are, at most the share `(n / 2^23)²` of all `2^64` tags is reported
as contained. -/
theorem few_reported (rng : Rng) (ts : List ReplayTag) (T : Finset ReplayTag)
    (h : ∀ t ∈ T, (ts.foldl ReplayFilter.insert (ReplayFilter.new rng).1).contains t = true) :
    (T.card : ℚ) / 2 ^ 64 ≤ ((ts.length : ℚ) / 2 ^ 23) ^ 2 := by
  have := reported_count rng ts T h
  have h' : (T.card : ℚ) ≤ (8 * ts.length) ^ 2 * 2 ^ 12 := by exact_mod_cast this
  rw [div_pow, div_le_div_iff₀ (by positivity) (by positivity)]
  exact (mul_le_mul_of_nonneg_right h' (by positivity : (0 : ℚ) ≤ (2 ^ 23) ^ 2)).trans (le_of_eq (by ring))

/-- The number of packets handled. -/
def handledPackets (calls : List Call) : Nat :=
  (calls.filter fun c => match c with | .handlePacket .. => true | _ => false).length

/-- The replay filter of the session was made with at most `k` insertions. -/
def FilterMade (k : Nat) (s : Session) : Prop :=
  ∃ rng ts, ts.length ≤ k ∧ s.replayFilter = insertTags (ReplayFilter.new rng).1 ts

def FiltersMade (k : Nat) (m : Node) : Prop := ∀ rel s, m.sessions.get rel = .full s → FilterMade k s

theorem FilterMade.mono {k k' : Nat} {s : Session} (h : FilterMade k s) (hk : k ≤ k') : FilterMade k' s := by
  obtain ⟨rng, ts, h1, h2⟩ := h
  exact ⟨rng, ts, by omega, h2⟩

theorem FiltersMade.set {k : Nat} {m m' : Node} (h : FiltersMade k m) {rel : RelSessionIndex} {slot : SessionSlot}
    (hs : m'.sessions = m.sessions.set rel slot) (hn : ∀ s, slot = .full s → FilterMade k s) : FiltersMade k m' := by
  intro rel' s' h'
  rw [hs] at h'
  by_cases e : rel' = rel
  · subst e
    rw [get_set_self] at h'
    exact hn s' h'
  · rw [get_set_ne _ e] at h'
    exact h rel' s' h'

theorem FiltersMade.mono {k k' : Nat} {m : Node} (h : FiltersMade k m) (hk : k ≤ k') : FiltersMade k' m :=
  fun rel s hs => (h rel s hs).mono hk

theorem seen_made {C : Crypto} {k : Nat} {s : Session} (h : FilterMade k s) (packet : Bytes) : FilterMade (k + 1) (s.seen C packet) := by
  obtain ⟨rng, ts, h1, h2⟩ := h
  refine ⟨rng, ts ++ [s.tagFor C packet], by simp [h1], ?_⟩
  unfold Session.seen insertTags
  rw [List.foldl_append]
  show s.replayFilter.insert _ = _
  rw [h2]
  rfl

theorem filters_step {C : Crypto} {m m' : Node} {call : Call} {out : Outcome} (hc : StepCase C m call m' out) {k : Nat}
    (h : FiltersMade k m) : FiltersMade (k + handledPackets [call]) m' := by
  cases hc with
  | status st =>
    have hcase := setSessionStatus_cases m st
    generalize m.setSessionStatus st = m1 at *
    cases hcase with
    | same => exact h
    | phase => exact fun rel s hs => h rel s (dropPrev_full hs)
    | shift =>
      intro rel s hs
      obtain ⟨-, -, h3⟩ := Node.shift_full (dropPrev_full hs)
      exact h .current s h3
  | mixnodes rel answer rng _ b hcase =>
    cases hcase with
    | skip => exact h
    | permanent => exact h.set rfl fun s hs => (by cases hs)
    | transient => exact h
    | notWanted => exact h.set rfl fun s hs => (by cases hs)
    | set ms t rng1 rng2 sc =>
      refine h.set rfl fun s hs => ?_
      cases hs
      exact ⟨rng2, [], Nat.zero_le _, rfl⟩
  | nextKx rng => unfold Node.nextKxPublic; split <;> exact h
  | handle now packet _ msg hh =>
    have h' : FiltersMade (k + 1) m := h.mono (by omega)
    have hseen : ∀ {rel s out a} {m1 : Node}, Accepts C m packet rel s out a →
        m1.sessions = m.sessions.set rel (.full (s.seen C packet)) → FiltersMade (k + 1) m1 := by
      intro rel s out a m1 hacc he
      refine h'.set he fun s' hs => ?_
      cases hs
      exact seen_made (h rel s hacc.slot) packet
    show FiltersMade (k + 1) _
    cases hh with
    | ignored => exact h'
    | accepted o a rel s _ _ hacc he =>
      cases he with
      | forwardNowhere => exact hseen hacc rfl
      | forward => exact hseen hacc rfl
      | request => exact hseen hacc rfl
      | _ => exact h'
  | popForward tie => exact h
  | popAuthored rng ns _ p hp =>
    cases hp with
    | idle => exact h
    | queued rel s rng1 rng2 p rest h1 h2 h3 =>
      refine h.set rfl fun s' hs => ?_
      cases hs
      exact h rel s h3
    | cover => exact h
  | post rng i d mid data n ns _ d' r hp =>
    cases hp with
    | failed bps rel s b rng1 acc e h1 h2 h3 =>
      refine h.set rfl fun s' hs => ?_
      cases hs
      exact h rel s (postSession_ok h3).2.2
    | posted bps rel s b rng1 acc infos met queueDelay h1 h2 h3 =>
      refine h.set rfl fun s' hs => ?_
      cases hs
      exact h rel s (postSession_ok h3).2.2
    | _ => exact h
  | reply surbs i mid data _ surbs' r hp =>
    cases hp with
    | failed bps rel s rest used ps e done bp left bad h1 h2 h3 =>
      refine h.set rfl fun s' hs => ?_
      cases hs
      exact h rel s (postSession_ok h3).2.2
    | posted bps rel s rest used ps h1 h2 h3 =>
      refine h.set rfl fun s' hs => ?_
      cases hs
      exact h rel s (postSession_ok h3).2.2
    | _ => exact h
  | take => exact h

theorem filters_runs {C : Crypto} (hC : CryptoLaws C) {config : Config} {m m' : Node} {calls outs} (hr : Node.Runs C m calls outs m')
    (hre : Node.Reachable C config m) (hw : ∀ c ∈ calls, c.WellTyped) {k : Nat} (h : FiltersMade k m) :
    FiltersMade (k + handledPackets calls) m' := by
  induction hr generalizing k with
  | nil => exact h
  | @cons m call m1 out calls outs m2 hs _ ih =>
    have hwc := hw call List.mem_cons_self
    have := ih (hre.step hC hwc hs) (fun c hc => hw c (List.mem_cons_of_mem _ hc))
      (filters_step (Node.step_cases hC (hre.inv hC).1 hwc hs) h)
    have e : handledPackets (call :: calls) = handledPackets [call] + handledPackets calls := by
      unfold handledPackets
      rw [show call :: calls = [call] ++ calls from rfl, List.filter_append, List.length_append]
    rw [e, ← Nat.add_assoc]
    exact this

/-- **C80** (at the node). Whatever a node has been through: if it has handled `n` packets in all, the replay filter of a session takes
at most the share `(n / 2^23)²` of all `2^64` tags for tags of packets already seen. -/
theorem few_dropped {C : Crypto} (hC : CryptoLaws C) {config : Config} {m₀ m : Node} (hn : Node.new C config = .ok m₀)
    {calls outs} (hw : ∀ c ∈ calls, c.WellTyped) (hr : Node.Runs C m₀ calls outs m) {i : Nat} {s : Session}
    (hs : m.sessionAt i = some s) (T : Finset ReplayTag) (h : ∀ t ∈ T, s.replayFilter.contains t = true) :
    (T.card : ℚ) / 2 ^ 64 ≤ ((handledPackets calls : ℚ) / 2 ^ 23) ^ 2 := by
  have h0 : FiltersMade 0 m₀ := fun rel s h => absurd h ((new_node hn).1 rel s)
  obtain ⟨rel, -, hslot⟩ := Node.sessionAt_eq.1 hs
  obtain ⟨rng, ts, hl, hf⟩ := filters_runs hC hr ⟨m₀, [], [], hn, by simp, .nil _⟩ hw h0 rel s hslot
  rw [hf] at h
  refine (few_reported rng ts T h).trans ?_
  have : (ts.length : ℚ) ≤ handledPackets calls := by exact_mod_cast (by omega : ts.length ≤ handledPackets calls)
  gcongr

/-- With `800 000` packets inserted, less than one tag in a hundred is taken for a replay. -/
example (rng : Rng) (ts : List ReplayTag) (hl : ts.length = 800000) (T : Finset ReplayTag)
    (h : ∀ t ∈ T, (ts.foldl ReplayFilter.insert (ReplayFilter.new rng).1).contains t = true) : (T.card : ℚ) / 2 ^ 64 < 1 / 100 := by
  have := few_reported rng ts T h
  rw [hl] at this
  exact lt_of_le_of_lt this (by norm_num)

/-- Carol sets up her session and relays a packet: the filter of her session then reports the tag of that packet, so the hypotheses
of `few_dropped` hold for a one-element set of tags, after one packet. -/
example : ∃ m₀ calls outs s t, Node.new World.C (World.cfg 7) = .ok m₀ ∧ (∀ c ∈ calls, c.WellTyped) ∧
    Node.Runs World.C m₀ calls outs World.carol1 ∧ handledPackets calls = 1 ∧ World.carol1.sessionAt 0 = some s ∧
    s.replayFilter.contains t = true ∧ ((({t} : Finset ReplayTag).card : ℚ) / 2 ^ 64 ≤ ((1 : ℚ) / 2 ^ 23) ^ 2) := by
  have h := Res.eq_get2 _ World.carol_ok
  rw [show ((World.startRes 7 World.setup).get World.carol_ok).1 = World.carol from by unfold World.carol; rfl] at h
  unfold World.startRes at h
  rw [res_bind_eq_ok] at h
  obtain ⟨m₀, hn, h⟩ := h
  have hr := (World.runAll_runs h).append (.cons World.relay_step (.nil _))
  have hw : ∀ c ∈ World.setup ++ [World.relay], c.WellTyped := by
    intro c hc
    rcases List.mem_append.1 hc with hc | hc
    · exact World.setup_typed c hc
    · rw [List.mem_singleton.1 hc]; exact World.relay_typed
  obtain ⟨s, hs⟩ : ∃ s, World.carol1.sessionAt 0 = some s := Option.isSome_iff_exists.1 (by decide +kernel)
  have hb : (match World.carol1.sessionAt 0 with
      | some s => s.replayFilter.contains (s.tagFor World.C World.packet0.packet)
      | none => false) = true := by decide +kernel
  have hc : s.replayFilter.contains (s.tagFor World.C World.packet0.packet) = true := by rw [hs] at hb; exact hb
  exact ⟨m₀, _, _, s, _, hn, hw, hr, rfl, hs, hc, by
    have := few_dropped toyLaws hn hw hr hs {s.tagFor World.C World.packet0.packet} (fun t ht => by rw [Finset.mem_singleton.1 ht]; exact hc)
    rw [show handledPackets (World.setup ++ [World.relay]) = 1 from rfl, Nat.cast_one] at this
    exact this⟩

end Mixnet.Props
