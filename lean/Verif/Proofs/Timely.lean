import Verif.Spec.Timely
import Verif.Proofs.Deadline
import Verif.Props.EndToEnd
import Verif.Props.Delay
/-!
# Lemmas for C97
-/
set_option exponentiation.threshold 2000
namespace Mixnet
open Spec Props

/-! ### Rounding -/

namespace Binary64

/-- The error of rounding, also of the smallest numbers. -/
theorem round_error {q : Rat} (h : 0 ≤ q) : |round q - q| ≤ q / 2 ^ 53 + 1 / 2 ^ 1074 := by
  rcases h.eq_or_lt with rfl | hq
  · have : round 0 = 0 := rfl
    rw [this]
    norm_num
  · unfold round
    rw [if_neg hq.ne', if_pos hq]
    by_cases hn : (2 : Rat) ^ (-1022 : ℤ) ≤ q
    · have h0 : (0 : Rat) ≤ 1 / 2 ^ 1074 := by positivity
      have := roundPos_error hn
      linarith
    · have hlog : Int.log 2 q < -1022 := by
        rw [← not_le, ← Int.zpow_le_iff_le_log (by norm_num) hq]
        exact_mod_cast hn
      unfold roundPos
      dsimp only
      rw [max_eq_right hlog.le]
      have hpos : (0 : Rat) < 2 ^ (-1022 - 52 : ℤ) := by positivity
      have herr := roundEven_error (q / 2 ^ (-1022 - 52 : ℤ))
      have e1 : (roundEven (q / 2 ^ (-1022 - 52 : ℤ)) : Rat) * 2 ^ (-1022 - 52 : ℤ) - q =
          ((roundEven (q / 2 ^ (-1022 - 52 : ℤ)) : Rat) - q / 2 ^ (-1022 - 52 : ℤ)) * 2 ^ (-1022 - 52 : ℤ) := by
        rw [sub_mul, div_mul_cancel₀ _ hpos.ne']
      rw [e1, abs_mul, abs_of_pos hpos]
      have e2 : (2 : Rat) ^ (-1022 - 52 : ℤ) = 1 / 2 ^ 1074 := by
        rw [show (-1022 - 52 : ℤ) = -((1074 : ℕ) : ℤ) by norm_num, zpow_neg, zpow_natCast, one_div]
      rw [e2]
      have h0 : (0 : Rat) ≤ 1 / 2 ^ 1074 := by positivity
      have h1 : 0 ≤ q / 2 ^ 53 := by positivity
      rw [e2] at herr
      have := mul_le_mul_of_nonneg_right herr h0
      linarith

/-- What a rounded sum of delays loses at most. -/
def loss : Rat := 1 / 2 ^ 46

theorem round_loses {q : Rat} (h0 : 0 ≤ q) (h : q ≤ 110) : q - loss ≤ round q := by
  have := (abs_le.1 (round_error h0)).1
  have h1 : q / 2 ^ 53 ≤ 110 / 2 ^ 53 := div_le_div_of_nonneg_right h (by positivity)
  have h2 : (110 : Rat) / 2 ^ 53 + 1 / 2 ^ 1074 ≤ loss := by unfold loss; norm_num
  linarith

/-- Delays added up one by one. -/
theorem sum_loses (l : List Rat) (h0 : ∀ x ∈ l, 0 ≤ x) (h : ∀ x ∈ l, x ≤ 10) : ∀ (j : ℕ) (acc : Rat), 0 ≤ acc → acc ≤ 10 * j → j + l.length ≤ 11 →
    acc + l.sum - l.length * loss ≤ l.foldl (fun a b => round (a + b)) acc := by
  induction l with
  | nil => intro j acc _ _ _; simp
  | cons x l ih =>
    intro j acc hacc ha hj
    rw [List.length_cons] at hj
    have hx0 := h0 x List.mem_cons_self
    have hx := h x List.mem_cons_self
    have hj' : ((j : ℕ) : Rat) ≤ 10 := by exact_mod_cast (by omega : j ≤ 10)
    have h1 : round (acc + x) ≤ 10 * ((j + 1 : ℕ) : Rat) := by
      have e : ((10 * (j + 1) : ℕ) : Rat) = 10 * ((j + 1 : ℕ) : Rat) := by push_cast; ring
      rw [← e, ← Binary64.round_nat (n := 10 * (j + 1)) (by omega)]
      refine Binary64.round_mono ?_
      push_cast
      linarith
    have h2 := round_loses (q := acc + x) (by linarith) (by linarith)
    have := ih (fun y hy => h0 y (List.mem_cons_of_mem _ hy)) (fun y hy => h y (List.mem_cons_of_mem _ hy)) (j + 1) _
      (round_nonneg (by linarith)) h1 (by omega)
    rw [List.foldl_cons, List.sum_cons, List.length_cons]
    push_cast
    linarith

theorem asSecs_upper {u : ℕ} (h : 100 * u ≤ 2 ^ 49) : asSecs u * 10 ^ 9 ≤ 2 ^ 49 / 99 := by
  have hr := (asSecs_rel u).right
  have hu : (u : ℝ) ≤ 2 ^ 49 / 100 := by
    rw [le_div_iff₀ (by norm_num), mul_comm]; exact_mod_cast h
  have h1 : ((asSecs u : Rat) : ℝ) * (1 - ulp) ^ 2 ≤ 2 ^ 49 / 100 / 10 ^ 9 := le_trans hr (div_le_div_of_nonneg_right hu (by positivity))
  have h2 : (99.5 / 100 : ℝ) ≤ (1 - ulp) ^ 2 := by unfold ulp; norm_num
  have h0 : (0 : ℝ) ≤ ((asSecs u : Rat) : ℝ) := by exact_mod_cast asSecs_nonneg u
  have h3 := mul_le_mul_of_nonneg_left h2 h0
  have : ((asSecs u : Rat) : ℝ) * 10 ^ 9 ≤ 2 ^ 49 / 99 := by
    norm_num at h1 h3 ⊢
    linarith
  have h4 : ((asSecs u * 10 ^ 9 : Rat) : ℝ) ≤ ((2 ^ 49 / 99 : Rat) : ℝ) := by push_cast; exact this
  exact Rat.cast_le.1 h4

theorem mulDuration_near {d : Rat} (h0 : 0 ≤ d) {u : ℕ} :
    |(mulDuration d u : Rat) - d * (asSecs u * 10 ^ 9)| ≤ 1 / 2 + d * (asSecs u * 10 ^ 9) / 2 ^ 53 + 10 ^ 9 / 2 ^ 1074 := by
  have hs := asSecs_nonneg u
  have hds : 0 ≤ d * asSecs u := mul_nonneg h0 hs
  have h1 := abs_le.1 (round_error hds)
  have hr : 0 ≤ round (d * asSecs u) := round_nonneg hds
  have h2 := abs_le.1 (roundEven_error (round (d * asSecs u) * 10 ^ 9))
  unfold mulDuration
  have h3 : 0 ≤ roundEven (round (d * asSecs u) * 10 ^ 9) := by
    have : (-1 : Rat) < (roundEven (round (d * asSecs u) * 10 ^ 9) : Rat) := by
      have h4 : 0 ≤ round (d * asSecs u) * 10 ^ 9 := by positivity
      have h5 := h2.1
      clear h1 h2
      generalize round (d * asSecs u) * 10 ^ 9 = y at *
      generalize ((roundEven y : ℤ) : Rat) = z at *
      linarith
    have : (-1 : ℤ) < roundEven (round (d * asSecs u) * 10 ^ 9) := by exact_mod_cast this
    omega
  have e : (((roundEven (round (d * asSecs u) * 10 ^ 9)).toNat : ℕ) : Rat) = (roundEven (round (d * asSecs u) * 10 ^ 9) : Rat) := by
    exact_mod_cast Int.toNat_of_nonneg h3
  rw [e, abs_le]
  have e2 : d * (asSecs u * 10 ^ 9) / 2 ^ 53 + 10 ^ 9 / 2 ^ 1074 = (d * asSecs u / 2 ^ 53 + 1 / 2 ^ 1074) * 10 ^ 9 := by ring
  have e3 : d * (asSecs u * 10 ^ 9) = d * asSecs u * 10 ^ 9 := by ring
  have a1 := mul_le_mul_of_nonneg_right h1.1 (show (0 : Rat) ≤ 10 ^ 9 by norm_num)
  have a2 := mul_le_mul_of_nonneg_right h1.2 (show (0 : Rat) ≤ 10 ^ 9 by norm_num)
  rw [neg_mul, sub_mul] at a1
  rw [sub_mul] at a2
  rw [add_assoc, e2, e3]
  constructor
  · linarith [h2.1]
  · linarith [h2.2]

theorem sum_durations (l : List Rat) (h0 : ∀ x ∈ l, 0 ≤ x) (u : ℕ) :
    ((l.map fun d => mulDuration d u).sum : Rat) ≤ l.sum * (asSecs u * 10 ^ 9) * (1 + 1 / 2 ^ 53) + l.length * (1 / 2 + 10 ^ 9 / 2 ^ 1074) := by
  induction l with
  | nil => simp
  | cons x l ih =>
    have h1 := (abs_le.1 (mulDuration_near (h0 x List.mem_cons_self) (u := u))).2
    have h2 := ih fun y hy => h0 y (List.mem_cons_of_mem _ hy)
    rw [List.map_cons, List.sum_cons, List.sum_cons, List.length_cons]
    push_cast
    push_cast at h2
    nlinarith [h1, h2]

/-- The time for which relays hold a packet and its reply is, up to a nanosecond for each and two more, what the sender computed. -/
theorem durations_le {ds es : List Rat} (h0 : ∀ x ∈ ds ++ es, 0 ≤ x) (h : ∀ x ∈ ds ++ es, x ≤ 10) (hd : ds.length ≤ 5) (he : es.length ≤ 5)
    {u : ℕ} (hu : 100 * u ≤ 2 ^ 49) :
    ((ds.map fun d => mulDuration d u).sum + (es.map fun d => mulDuration d u).sum) ≤
      mulDuration (round (ds.foldl (fun a b => round (a + b)) 0 + es.foldl (fun a b => round (a + b)) 0)) u + (ds.length + es.length + 2) := by
  have hd0 : ∀ x ∈ ds, 0 ≤ x := fun x hx => h0 x (List.mem_append_left _ hx)
  have he0 : ∀ x ∈ es, 0 ≤ x := fun x hx => h0 x (List.mem_append_right _ hx)
  have hd1 : ∀ x ∈ ds, x ≤ 10 := fun x hx => h x (List.mem_append_left _ hx)
  have he1 : ∀ x ∈ es, x ≤ 10 := fun x hx => h x (List.mem_append_right _ hx)
  have a1 := sum_loses ds hd0 hd1 0 0 le_rfl (by simp) (by omega)
  have a2 := sum_loses es he0 he1 0 0 le_rfl (by simp) (by omega)
  have b1 := sum_le_ten ds hd1 0 0 (by simp) (by omega)
  have b2 := sum_le_ten es he1 0 0 (by simp) (by omega)
  have c1 := sum_nonneg' ds hd0 0 le_rfl
  have c2 := sum_nonneg' es he0 0 le_rfl
  have hd5 : ((ds.length : ℕ) : Rat) ≤ 5 := by exact_mod_cast hd
  have he5 : ((es.length : ℕ) : Rat) ≤ 5 := by exact_mod_cast he
  have hdn : (0 : Rat) ≤ (ds.length : ℕ) := by positivity
  have hen : (0 : Rat) ≤ (es.length : ℕ) := by positivity
  rw [Nat.zero_add] at b1 b2
  generalize hT1 : ds.foldl (fun a b => round (a + b)) 0 = T1 at *
  generalize hT2 : es.foldl (fun a b => round (a + b)) 0 = T2 at *
  have hT0 : 0 ≤ T1 + T2 := add_nonneg c1 c2
  have hT : T1 + T2 - loss ≤ round (T1 + T2) := round_loses hT0 (by linarith)
  have hr0 : 0 ≤ round (T1 + T2) := round_nonneg hT0
  have hup : round (T1 + T2) ≤ 101 := by
    have := (abs_le.1 (round_error hT0)).2
    have h1 : (T1 + T2) / 2 ^ 53 ≤ 100 / 2 ^ 53 := div_le_div_of_nonneg_right (by linarith) (by positivity)
    have h2 : (100 : Rat) / 2 ^ 53 + 1 / 2 ^ 1074 ≤ 1 := by norm_num
    linarith
  generalize round (T1 + T2) = T at *
  have hS0 : 0 ≤ asSecs u * 10 ^ 9 := mul_nonneg (asSecs_nonneg u) (by norm_num)
  have hS := asSecs_upper hu
  have m0 := (abs_le.1 (mulDuration_near hr0 (u := u))).1
  have m1 := sum_durations ds hd0 u
  have m2 := sum_durations es he0 u
  generalize asSecs u * 10 ^ 9 = S at *
  have hlsum : ds.sum + es.sum - 11 * loss ≤ T := by
    have : 0 ≤ loss := by unfold loss; norm_num
    nlinarith
  have hbig : ds.sum + es.sum ≤ 102 := by
    have : 11 * loss ≤ 1 := by unfold loss; norm_num
    linarith
  have k1 : (ds.sum + es.sum) * S ≤ T * S + 11 * loss * S := by nlinarith
  have k2 : 11 * loss * S ≤ 9 / 10 := by
    have : 11 * loss * S ≤ 11 * loss * (2 ^ 49 / 99) := mul_le_mul_of_nonneg_left hS (by unfold loss; norm_num)
    refine le_trans this ?_
    unfold loss; norm_num
  have k3 : (ds.sum + es.sum) * S / 2 ^ 53 ≤ 1 / 10 := by
    have : (ds.sum + es.sum) * S ≤ 102 * (2 ^ 49 / 99) := mul_le_mul hbig hS hS0 (by norm_num)
    rw [div_le_iff₀ (by norm_num)]
    refine le_trans this ?_
    norm_num
  have k4 : T * S / 2 ^ 53 ≤ 1 / 10 := by
    have : T * S ≤ 101 * (2 ^ 49 / 99) := mul_le_mul hup hS hS0 (by norm_num)
    rw [div_le_iff₀ (by norm_num)]
    refine le_trans this ?_
    norm_num
  have k5 : (10 : Rat) ^ 9 / 2 ^ 1074 ≤ 1 / 1000 := by norm_num
  have k6 : (0 : Rat) ≤ 10 ^ 9 / 2 ^ 1074 := by positivity
  generalize (10 : Rat) ^ 9 / 2 ^ 1074 = z at *
  have fin : (((ds.map fun d => mulDuration d u).sum + (es.map fun d => mulDuration d u).sum : ℕ) : Rat) ≤
      ((mulDuration T u + (ds.length + es.length + 2) : ℕ) : Rat) := by
    push_cast at m1 m2 ⊢
    nlinarith
  exact_mod_cast fin

end Binary64

/-! ### The way of a packet, with the delays -/

variable {C : Crypto} (hC : CryptoLaws C) {config : Config} {m m' : Node}
include hC

theorem relay_at {net : Network C} {final : PeerId} {fin : Bytes → Action C → Prop}
    {p q : AddressedPacket} {t : Target} {targets : List Target} {keys : List KxSecret} {delay : C.Delay} {delays : List C.Delay}
    (hl : p.packet.length = PACKET_SIZE) (ho : OnRoute net final p.peerId (t :: targets) keys)
    (htr : Travels C p.packet keys (t :: targets) (delay :: delays) fin) {mean now due : Nat} (h : RelayAt C net mean p now q due) :
    ∃ keys', keys.tail = keys' ∧ q.packet.length = PACKET_SIZE ∧ OnRoute net final q.peerId targets keys' ∧
      Travels C q.packet keys' targets delays fin ∧ due = now + C.delayToDuration delay mean := by
  obtain ⟨config, n, n', key, hmean, hr, hat, ht, hs, hp⟩ := h
  obtain ⟨hI, hcfg⟩ := hr.inv hC
  generalize hpp : p.peerId = pp at ho hat
  cases ho with
  | @hop _ _ _ key0 ks peer' hat0 hpeer ho =>
    cases hat.unique hat0
    rw [Travels] at htr
    obtain ⟨out, hpeel, hol, htr⟩ := htr zeroPacket zeroPacket_length
    obtain ⟨rel, s, hrel, hacc, hkey, hmix, hat'⟩ := ht.accepts hC hl hpeel
    obtain ⟨n1, msg, he, hstep⟩ := handled hC hI (now := now) hl hacc
    have hm : s.topology.isMixnode = true := listed_isMixnode hI hacc.slot (by
      rw [hmix, hkey]; exact Network.key_listed hat)
    rw [hs] at hstep
    cases hstep
    refine ⟨ks, rfl, ?_⟩
    generalize hn1 : n' = n1 at he
    generalize hmsg : (none : Option Message) = msg1 at he
    cases he with
    | forwardNotMixnode _ _ h => rw [hm] at h; cases h
    | forwardFull _ _ h1 h2 =>
      subst hn1
      have := hp.length_eq
      simp at this
    | forwardNowhere _ _ e h1 h2 h3 => rw [targetToPeerId_of hmix hpeer] at h3; cases h3
    | forward _ _ peer ev h1 h2 h3 h4 =>
      rw [targetToPeerId_of hmix hpeer] at h3
      cases h3
      subst hn1
      have := perm_cons_left hp
      cases this
      exact ⟨hol, ho, htr, by rw [hcfg, hmean]⟩

/-- How long a packet takes to its last hop. -/
theorem journey_due {net : Network C} {final : PeerId} {fin : Bytes → Action C → Prop} {mean hop k t t' : Nat}
    {p q : AddressedPacket} (h : Journey C net mean hop k p t q t') : ∀ {targets : List Target} {keys : List KxSecret}
    {delays : List C.Delay}, p.packet.length = PACKET_SIZE → OnRoute net final p.peerId targets keys →
    Travels C p.packet keys targets delays fin → k = targets.length →
    t' + k ≤ t + k * hop + (delays.map fun d => C.delayToDuration d mean).sum := by
  induction h with
  | here p t => intro ts ks ds _ _ _ _; simp
  | @next k p t now q due r t' hlt h1 _ ih =>
    intro ts ks ds hl ho htr hk
    cases ts with
    | nil => simp at hk
    | cons u ts =>
      cases ds with
      | nil =>
        cases ks with
        | nil => simp [Travels] at htr
        | cons => simp [Travels] at htr
      | cons d ds =>
        obtain ⟨ks', -, hl', ho', htr', hdue⟩ := relay_at hC hl ho htr h1
        have := ih hl' ho' htr' (by simpa using hk)
        rw [List.map_cons, List.sum_cons, Nat.succ_mul]
        omega

omit hC in
theorem Spec.Journey.relays {net : Network C} {mean hop k t t' : Nat} {p q : AddressedPacket}
    (h : Journey C net mean hop k p t q t') : Relays C net k p q := by
  induction h with
  | here p t => exact .here p
  | next _ h1 _ ih =>
    obtain ⟨config, n, n', key, -, h1⟩ := h1
    exact .next ⟨config, n, n', key, _, _, h1⟩ ih

/-- The delays are samples of the distribution. -/
theorem travels_delays {fin : Bytes → Action C → Prop} : ∀ {targets : List Target} {packet : Bytes} {keys : List KxSecret}
    {delays : List C.Delay}, packet.length = PACKET_SIZE → Travels C packet keys targets delays fin →
    delays.length = targets.length ∧ ∀ d ∈ delays, ∃ sec, d = forwardingDelay C sec := by
  intro targets
  induction targets with
  | nil =>
    intro packet keys delays hl h
    match keys, delays, h with
    | [key], [], _ => simp
  | cons t ts ih =>
    intro packet keys delays hl h
    match keys, delays, h with
    | _ :: _, [], h => simp [Travels] at h
    | key :: keys, d :: delays, h =>
      rw [Travels] at h
      obtain ⟨out, hpeel, hol, htr⟩ := h zeroPacket zeroPacket_length
      obtain ⟨h1, h2⟩ := ih hol htr
      refine ⟨by simp [h1], fun x hx => ?_⟩
      rcases List.mem_cons.1 hx with rfl | hx
      · exact ⟨_, peeled_delay hC hl hpeel⟩
      · exact h2 x hx

theorem packet_delays (hI : m.Inv C) {i : Nat} {s : Session} (hs : m.sessionAt i = some s) {ns : NetworkStatus}
    (hns : ns.localPeerId.length = 32) {dest k : Nat} (hk : k ≤ 6) (hd : dest < s.topology.mixnodes.length) {net : Network C}
    (hmix : s.topology.mixnodes = net.mixnodes) {mx : Mixnode} {key : KxSecret} (hmx : net.mixnodes[dest]? = some mx)
    (hkey : net.keys[dest]? = some key) {p : NewPacket C} (hp : p.Built s.topology ns dest k) :
    ∃ keys delays, p.packet.packet.length = PACKET_SIZE ∧ OnRoute net mx.peerId p.packet.peerId p.route.targets keys ∧
      Travels C p.packet.packet keys p.route.targets delays (RequestFor p.fragment) ∧ p.delay = totalDelay delays ∧
      p.route.targets.length ≤ 5 := by
  obtain ⟨⟨g, rng, rng', hg, hgen⟩, ⟨mx', hmx', hpeer⟩, -, -, old, r, r', hol, hof, hb⟩ := hp
  have hpub : mx.kxPublic = C.deriveKxPublic key := by
    have := congrArg (·[dest]?) net.keyed
    simp only [List.getElem?_map, hmx, hkey, Option.map_some, Option.some.injEq] at this
    exact this
  obtain ⟨keys, peer, k1, k2, k3, k4, k5, k6⟩ := route_way (C := C) (net := net) (key := key) (fpeer := mx.peerId) hmix hns
    (view_of_inv hI hs hg) hk (fun d h => by cases h; exact hd) hgen
    (by
      show (s.topology.mixnodes[dest]?).map _ = _
      rw [hmix, hmx, ← hpub]; rfl)
    (by
      show (net.mixnodes[dest]?).map _ = _
      rw [hmx]; rfl)
  obtain ⟨packet', delay, rng2, delays, t1, t2, t3, t4⟩ := request_packet_travels hC r old hol keys p.route.targets k5
  rw [k3, t1] at hb
  cases hb
  refine ⟨keys, delays, t2, ?_, ?_, t3, by have := k5.length; have := k5.hops; omega⟩
  · have : p.packet.peerId = peer := by
      unfold Network.peerOf at k1
      dsimp only at k1
      rw [← hmix, hmx'] at k1
      cases k1
      exact hpeer
    rw [this]
    exact k2
  · rw [hof] at t4
    exact t4

theorem surb_delays (hI : m.Inv C) {i : Nat} {s : Session} (hs : m.sessionAt i = some s) {ns : NetworkStatus}
    (hns : ns.localPeerId.length = 32) {dest k : Nat} (hk : k ≤ 6) (hd : dest < s.topology.mixnodes.length) {net : Network C}
    (hmix : s.topology.mixnodes = net.mixnodes) {x : NewSurb C} (hx : x.Built s.topology ns dest k) {t : Topology}
    (ht : t.mixnodes = net.mixnodes) {f : Fragment} {p : AddressedPacket} (hp : ReplyBuilt C t f x.surb p) :
    ∃ keys delays home, p.packet.length = PACKET_SIZE ∧ OnRoute net home p.peerId x.route.targets keys ∧
      Travels C p.packet keys x.route.targets delays (ReplyFor x f) ∧ x.delay = totalDelay delays ∧ x.route.targets.length ≤ 5 := by
  obtain ⟨⟨g, rng, rng', hg, hgen⟩, hid, old, r, r', hol, hb⟩ := hx
  obtain ⟨old2, first, mx, o1, o2, o3, o4, o5, o6⟩ := hp
  obtain ⟨rel, -, hslot⟩ := Node.sessionAt_eq.1 hs
  have hi := hI.sessions rel s hslot
  have hloc : s.topology.localKxPublic = C.deriveKxPublic s.kxPair.secret := by rw [hi.isLocal, hi.pair]
  have hwf := (view_of_inv hI hs hg).wf.1
  obtain ⟨home, hh1, hh2, hh3⟩ : ∃ home, homeOf s.topology ns = some home ∧
      keyOf s.topology (finalHop s.topology ns (.fromMixnode dest)) = some (C.deriveKxPublic s.kxPair.secret) ∧
      net.peerOf (finalHop s.topology ns (.fromMixnode dest)) = some home := by
    unfold homeOf finalHop localTarget
    dsimp only
    cases hl : s.topology.localNode with
    | mixnode j =>
      obtain ⟨mx, e1, e2⟩ := hwf.isLocal j hl
      refine ⟨mx.peerId, ?_, ?_, ?_⟩
      · show (s.topology.mixnodes[j]?).map _ = _
        rw [e1]; rfl
      · show (s.topology.mixnodes[j]?).map _ = _
        rw [e1, ← hloc, ← e2]; rfl
      · show (net.mixnodes[j]?).map _ = _
        rw [← hmix, e1]; rfl
    | nonMixnode gs => exact ⟨_, rfl, by rw [← hloc]; rfl, rfl⟩
  obtain ⟨keys, peer, k1, k2, k3, k4, k5, k6⟩ := route_way (C := C) (net := net) (key := s.kxPair.secret) (fpeer := home) hmix hns
    (view_of_inv hI hs hg) hk (fun d h => by cases h; exact hd) hgen hh2 hh3
  obtain ⟨surb, pkeys, delay, rng2, delays, t1, t2, -, t4, t5⟩ := reply_packet_travels hC r old hol x.route.first k6 x.id hid keys
    x.route.targets k5
  rw [k3, t1] at hb
  cases hb
  obtain ⟨packet', c1, c2, c3⟩ := t5 old2 o1
  rw [c1] at o3
  cases o3
  refine ⟨keys, delays, home, c2, ?_, ?_, t4, by have := k5.length; have := k5.hops; omega⟩
  · have : p.peerId = peer := by
      unfold Network.peerOf at k1
      dsimp only at k1
      rw [← ht, o5] at k1
      cases k1
      exact o6
    rw [this]
    exact k2
  · rw [o2] at c3
    exact c3

end Mixnet
