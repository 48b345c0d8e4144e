import Verif.Props.Posting
/-!
# C50: the round-trip estimate covers all its parts
-/
namespace Mixnet.Props
open Mixnet Spec

variable {C : Crypto} (hC : CryptoLaws C) {config : Config} {m m' : Node}
include hC

theorem delayLe_max (a b : C.Delay) : C.delayLe a (delayMax C a b) = true ∧ C.delayLe b (delayMax C a b) = true := by
  have refl : ∀ a, C.delayLe a a = true := fun a => (hC.delay_total a a).elim id id
  unfold delayMax
  split
  · exact ⟨by assumption, refl b⟩
  · rename_i h
    exact ⟨refl a, (hC.delay_total a b).resolve_left h⟩

omit hC in
theorem foldl_delayMax_mem (l : List C.Delay) (a : C.Delay) : l.foldl (delayMax C) a ∈ a :: l := by
  induction l generalizing a with
  | nil => exact List.mem_cons_self
  | cons b l ih =>
    simp only [List.foldl_cons]
    rcases List.mem_cons.1 (ih (delayMax C a b)) with h | h
    · rw [h]; unfold delayMax
      split
      · exact List.mem_cons_of_mem _ List.mem_cons_self
      · exact List.mem_cons_self
    · exact List.mem_cons_of_mem _ (List.mem_cons_of_mem _ h)

theorem foldl_delayMax (l : List C.Delay) (a : C.Delay) :
    C.delayLe a (l.foldl (delayMax C) a) = true ∧ ∀ x ∈ l, C.delayLe x (l.foldl (delayMax C) a) = true := by
  induction l generalizing a with
  | nil => exact ⟨(hC.delay_total a a).elim id id, fun x hx => (by cases hx)⟩
  | cons b l ih =>
    obtain ⟨h1, h2⟩ := delayLe_max hC a b
    obtain ⟨i1, i2⟩ := ih (delayMax C a b)
    refine ⟨hC.delay_trans _ _ _ h1 i1, fun x hx => ?_⟩
    rcases List.mem_cons.1 hx with rfl | hx
    · exact hC.delay_trans _ _ _ h2 i1
    · exact i2 x hx

omit hC in
theorem foldl_max (l : List Nat) (a : Nat) : a ≤ l.foldl max a ∧ (∀ x ∈ l, x ≤ l.foldl max a) ∧
    (l.foldl max a = a ∨ l.foldl max a ∈ l) := by
  induction l generalizing a with
  | nil => exact ⟨Nat.le_refl _, fun x hx => (by cases hx), .inl rfl⟩
  | cons b l ih =>
    obtain ⟨i1, i2, i3⟩ := ih (max a b)
    refine ⟨by simp only [List.foldl_cons]; omega, fun x hx => ?_, ?_⟩
    · rcases List.mem_cons.1 hx with rfl | hx
      · simp only [List.foldl_cons]; omega
      · exact i2 x hx
    · simp only [List.foldl_cons]
      rcases i3 with h | h
      · rw [h]
        rcases Nat.le_total a b with h' | h'
        · right; rw [Nat.max_eq_right h']; exact List.mem_cons_self
        · left; exact Nat.max_eq_left h'
      · right; exact List.mem_cons_of_mem _ h

theorem PostedRequest.surb_length {i d mid l n ns d' met s dest packets}
    (hp : PostedRequest C m i d mid l n ns m' d' met s dest packets) :
    ∀ x ∈ (packets.flatMap (·.surbs)).map (·.surb), x.length = 222 := by
  intro x hx
  obtain ⟨x, hx', rfl⟩ := List.mem_map.1 hx
  obtain ⟨p, hpm, hx⟩ := List.mem_flatMap.1 hx'
  obtain ⟨old, rng, rng', h1, h2⟩ := ((hp.built p hpm).surbs x hx).built
  exact buildSurb_length hC h1 h2

/-- **C50** (metrics). The metrics of a posted request cover every one of its packets followed by a reply
packet that uses any of its SURBs: the number of hops there and back, and the delays on the way there and
back. They come from some packet and some SURB, so they are not larger than needed. -/
theorem metrics_cover (hr : Node.Reachable C config m) (hk : config.numHops ≤ 6) {rng : Rng} {i : Nat}
    {d d' : Option MixnodeIndex} {mid : MessageId} {data : Scattered Byte} {l : Bytes} {n : Nat} {ns : NetworkStatus}
    {met : RequestMetrics} (hw : (Call.postRequest rng i d mid data n ns).WellTyped) (hd : Denotes data l)
    (h : m.step C (.postRequest rng i d mid data n ns) = .ok (m', .posted d' (.ok met))) :
    ∃ s dest packets, PostedRequest C m i d mid l n ns m' d' met s dest packets ∧
      met.perHopNetDelay = config.perHopNetDelay ∧
      (∀ p ∈ packets, (hops p.route).length ≤ met.numHops ∧
        C.delayToDuration (C.delayAdd p.delay C.delayZero) config.meanForwardingDelay ≤ met.forwardingDelay) ∧
      (∀ p ∈ packets, ∀ x ∈ packets.flatMap (·.surbs),
        (hops p.route).length + (hops x.route).length ≤ met.numHops ∧
        C.delayToDuration (C.delayAdd p.delay x.delay) config.meanForwardingDelay ≤ met.forwardingDelay) ∧
      (n = 0 → ∃ p ∈ packets, met.numHops = (hops p.route).length) ∧
      (0 < n → ∃ p ∈ packets, ∃ x ∈ packets.flatMap (·.surbs),
        met.numHops = (hops p.route).length + (hops x.route).length) ∧
      ∃ there ∈ C.delayZero :: packets.map (·.delay), ∃ back ∈ C.delayZero :: (packets.flatMap (·.surbs)).map (·.delay),
        met.forwardingDelay = C.delayToDuration (C.delayAdd there back) config.meanForwardingDelay := by
  obtain ⟨hI, hcfg⟩ := hr.inv hC
  obtain ⟨s, dest, packets, hp, -⟩ := request_posted hC hr hk hw hd h
  refine ⟨s, dest, packets, hp, ?_⟩
  have hk' : m.config.numHops ≤ 6 := by rw [hcfg]; exact hk
  obtain ⟨qd, -, hmet⟩ := hp.metrics
  have hph : ∀ p ∈ packets, (hops p.route).length = p.route.kxPublics.length := by
    intro p hpm
    obtain ⟨g, r, r', hg, hgen⟩ := (hp.built p hpm).route
    have := (route_shape (view_of_inv hI hp.session hg) hk'
      (fun d hd => by cases hd; exact hp.destination.2.1) hgen).2.2.2.2.2
    have := congrArg List.length this
    simpa using this.symm
  have hxh : ∀ x ∈ packets.flatMap (·.surbs), (hops x.route).length = x.route.kxPublics.length := by
    intro x hx
    obtain ⟨p, hpm, hx⟩ := List.mem_flatMap.1 hx
    obtain ⟨g, r, r', hg, hgen⟩ := ((hp.built p hpm).surbs x hx).route
    have := (route_shape (view_of_inv hI hp.session hg) hk'
      (fun d hd => by cases hd; exact hp.destination.2.1) hgen).2.2.2.2.2
    have := congrArg List.length this
    simpa using this.symm
  have hne : packets ≠ [] := by
    have := (sent_whole hw.2.1 (hp.surb_length hC) hp.fragments).1.1
    intro h; apply this; rw [h]; rfl
  have hmean : m.config.meanForwardingDelay = config.meanForwardingDelay := by rw [hcfg]
  rw [hmet]
  dsimp only
  rw [hmean]
  have hP := foldl_max (packets.map fun p => p.route.kxPublics.length) 0
  have hX := foldl_max ((packets.flatMap (·.surbs)).map fun x => x.route.kxPublics.length) 0
  have dP := foldl_delayMax hC (packets.map (·.delay)) C.delayZero
  have dX := foldl_delayMax hC ((packets.flatMap (·.surbs)).map (·.delay)) C.delayZero
  -- the longest route of a packet
  have hPmax : ∃ p ∈ packets, (packets.map fun p => p.route.kxPublics.length).foldl max 0 = p.route.kxPublics.length := by
    rcases hP.2.2 with h | h
    · obtain ⟨p, hpm⟩ := List.exists_mem_of_ne_nil _ hne
      refine ⟨p, hpm, ?_⟩
      have := hP.2.1 _ (List.mem_map_of_mem hpm)
      omega
    · obtain ⟨p, hpm, he⟩ := List.mem_map.1 h
      exact ⟨p, hpm, he.symm⟩
  have hXmax : packets.flatMap (·.surbs) ≠ [] → ∃ x ∈ packets.flatMap (·.surbs),
      ((packets.flatMap (·.surbs)).map fun x => x.route.kxPublics.length).foldl max 0 = x.route.kxPublics.length := by
    intro hnx
    rcases hX.2.2 with h | h
    · obtain ⟨p, hpm⟩ := List.exists_mem_of_ne_nil _ hnx
      refine ⟨p, hpm, ?_⟩
      have := hX.2.1 _ (List.mem_map_of_mem hpm)
      omega
    · obtain ⟨p, hpm, he⟩ := List.mem_map.1 h
      exact ⟨p, hpm, he.symm⟩
  refine ⟨by rw [hcfg], fun p hpm => ⟨?_, ?_⟩, fun p hpm x hx => ⟨?_, ?_⟩, fun h0 => ?_, fun h0 => ?_,
    _, foldl_delayMax_mem _ _, _, foldl_delayMax_mem _ _, rfl⟩
  · rw [hph p hpm]
    have := hP.2.1 _ (List.mem_map_of_mem hpm)
    omega
  · exact hC.delay_duration_mono _ _ _ (hC.delay_add_mono _ _ _ _ (dP.2 _ (List.mem_map_of_mem hpm)) dX.1)
  · rw [hph p hpm, hxh x hx]
    have h1 := hP.2.1 _ (List.mem_map_of_mem hpm)
    have h2 := hX.2.1 _ (List.mem_map_of_mem hx)
    omega
  · exact hC.delay_duration_mono _ _ _
      (hC.delay_add_mono _ _ _ _ (dP.2 _ (List.mem_map_of_mem hpm)) (dX.2 _ (List.mem_map_of_mem hx)))
  · obtain ⟨p, hpm, he⟩ := hPmax
    have hnil : packets.flatMap (·.surbs) = [] := List.eq_nil_of_length_eq_zero (by rw [hp.surbCount]; exact h0)
    refine ⟨p, hpm, ?_⟩
    rw [hnil, he, hph p hpm]; rfl
  · obtain ⟨p, hpm, he⟩ := hPmax
    obtain ⟨x, hx, he'⟩ := hXmax (by
      intro hnil
      have := hp.surbCount
      rw [hnil, List.length_nil] at this
      omega)
    exact ⟨p, hpm, x, hx, by rw [he, he', hph p hpm, hxh x hx]⟩

omit hC in
/-- **C50** (estimate). The estimated round-trip time is the sum of its parts: the delay of the relays, that of
the queues, a delay for each hop and the time the destination takes. So it is at least each of them and grows with
each. -/
theorem estimate_covers (a b : RequestMetrics) (x y : Nat) :
    a.estimateRtt x = a.forwardingDelay + a.authoredPacketQueueDelay + a.numHops * a.perHopNetDelay + x ∧
    (a.forwardingDelay ≤ b.forwardingDelay → a.authoredPacketQueueDelay ≤ b.authoredPacketQueueDelay →
      a.numHops ≤ b.numHops → a.perHopNetDelay ≤ b.perHopNetDelay → x ≤ y → a.estimateRtt x ≤ b.estimateRtt y) := by
  unfold RequestMetrics.estimateRtt
  constructor
  · rw [Nat.mul_comm a.numHops]
  · intro h1 h2 h3 h4 h5
    have := Nat.mul_le_mul h4 h3
    dsimp only
    omega

/-- Alice's request has one packet and one SURB, both with routes of two hops. -/
example : ∃ met s dest packets, PostedRequest World.C World.alice 0 (some 1) World.mid [1, 2, 3] 1 (World.ns 3) World.alice1
    (some 1) met s dest packets ∧ met.numHops = 4 ∧ World.askOut = .posted (some 1) (.ok met) := by
  obtain ⟨met, hmet⟩ := World.askOut_eq
  have h := World.ask_step
  rw [hmet] at h
  obtain ⟨s, dest, packets, hp, -⟩ := metrics_cover toyLaws World.alice_reachable (by decide) World.ask_typed (Denotes.ofSlice _) h
  refine ⟨met, s, dest, packets, hp, ?_, hmet⟩
  have hn : (match World.askOut with | .posted _ (.ok x) => decide (x.numHops = 4) | _ => false) = true := by decide +kernel
  rw [hmet] at hn
  exact of_decide_eq_true hn

end Mixnet.Props
