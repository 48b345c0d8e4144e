import Verif.Model.RealCrypto
import Verif.Proofs.Curve25519
import Verif.Proofs.Xor
/-!
# The laws of the primitives
-/
namespace Mixnet
open X25519 (force force_eq fromLe toLe)

namespace X25519

theorem toLe_length : ∀ (k n : Nat), (toLe k n).length = k
  | 0, _ => rfl
  | k + 1, n => by rw [toLe, List.length_cons, toLe_length k]

theorem fromLe_toLe : ∀ (k n : Nat), fromLe (toLe k n) = n % 256 ^ k
  | 0, n => by simp [toLe, fromLe, Nat.mod_one]
  | k + 1, n => by
    rw [toLe, fromLe, fromLe_toLe k, UInt8.toNat_ofNat', pow_succ' (256 : Nat), Nat.mod_mul (a := 256)]

theorem fromLe_lt : ∀ (b : Bytes), fromLe b < 256 ^ b.length
  | [] => by simp [fromLe]
  | x :: xs => by
    have h1 := fromLe_lt xs
    have h2 := x.toNat_lt
    rw [fromLe, List.length_cons, pow_succ]
    omega

theorem fromLe_append : ∀ (a b : Bytes), fromLe (a ++ b) = fromLe a + 256 ^ a.length * fromLe b
  | [], b => by simp [fromLe]
  | x :: xs, b => by
    rw [List.cons_append, fromLe, fromLe, fromLe_append xs b, List.length_cons, pow_succ]
    ring

theorem decode_encode {u : Nat} (h : u < p) : decode (encode u) = u := by
  have h2 : p < 2 ^ 255 := by decide
  have h3 : (2 : Nat) ^ 255 < 256 ^ 32 := by decide
  rw [decode, encode, List.take_of_length_le (by rw [toLe_length]), fromLe_toLe, Nat.mod_eq_of_lt (show u < 256 ^ 32 by omega),
    Nat.mod_eq_of_lt (show u < 2 ^ 255 by omega), Nat.mod_eq_of_lt h]

theorem clamp_lt (b : Bytes) : clamp b < 2 ^ 255 := by
  unfold clamp
  rw [fromLe_append]
  have h1 : fromLe ((b.getD 0 0 &&& 0xf8) :: (List.range 30).map fun i => b.getD (i + 1) 0) < 256 ^ 31 := by
    have := fromLe_lt ((b.getD 0 0 &&& 0xf8) :: (List.range 30).map fun i => b.getD (i + 1) 0)
    rwa [List.length_cons, List.length_map, List.length_range] at this
  have h2 : ((b.getD 31 0 &&& 0x7f) ||| 0x40).toNat ≤ 127 := by
    generalize b.getD 31 0 = x
    rw [UInt8.toNat_or, UInt8.toNat_and]
    have : (x.toNat &&& (127 : UInt8).toNat) ||| (64 : UInt8).toNat < 2 ^ 7 :=
      Nat.or_lt_two_pow (Nat.and_lt_two_pow _ (by decide)) (by decide)
    omega
  have h3 : fromLe [(b.getD 31 0 &&& 0x7f) ||| 0x40] = ((b.getD 31 0 &&& 0x7f) ||| 0x40).toNat := by
    rw [fromLe, fromLe]; omega
  rw [h3, List.length_cons, List.length_map, List.length_range]
  have h4 : (2 : Nat) ^ 255 = 256 ^ 31 * 128 := by decide
  rw [h4]
  calc _ < 256 ^ 31 + 256 ^ 31 * 127 := by
        have := Nat.mul_le_mul_left (256 ^ 31) h2
        omega
    _ = _ := by ring

theorem order_lt : order < 2 ^ 255 := by decide

theorem scalar_lt (a : Scalar) : a.val < 2 ^ 255 := lt_trans a.isLt order_lt

theorem multiple_congr {a b : Nat} (ha : a < 2 ^ 255) (hb : b < 2 ^ 255) (h : a % order = b % order) :
    multiple base a = multiple base b := by
  refine eq_of_cast (multiple_lt _ _) (multiple_lt _ _) ?_
  rw [multiple_base ha, multiple_base hb, ← mod_order a, ← mod_order b, h]

theorem multiple_twice {a b c : Nat} (ha : a < 2 ^ 255) (hb : b < 2 ^ 255) (hc : c < 2 ^ 255)
    (h : a * b % order = c % order) : multiple (multiple base a) b = multiple base c := by
  refine eq_of_cast (multiple_lt _ _) (multiple_lt _ _) ?_
  rw [multiple_multiple ha hb, multiple_base hc, ← mod_order (a * b), ← mod_order c, h]

end X25519

namespace Blake2b

theorem rounds_length (h m : List Nat) : ∀ (ss : List (List Nat)) (v0 v1 v2 v3 v4 v5 v6 v7 v8 v9 v10 v11 v12 v13 v14 v15 : Nat),
    (rounds h m ss v0 v1 v2 v3 v4 v5 v6 v7 v8 v9 v10 v11 v12 v13 v14 v15).length = 8
  | [], _, _, _, _, _, _, _, _, _, _, _, _, _, _, _, _ => rfl
  | s :: ss, _, _, _, _, _, _, _, _, _, _, _, _, _, _, _, _ => by
    rw [rounds]
    simp only [mix, force_eq]
    exact rounds_length h m ss ..

end Blake2b

theorem forceList_eq {α : Type} : ∀ (l : List Nat) (k : List Nat → α), forceList l k = k l
  | [], _ => rfl
  | x :: xs, k => by rw [forceList, force_eq, forceList_eq xs]

theorem leWords_length (size : Nat) : ∀ (n : Nat) (b : Bytes), (leWords size n b).length = n
  | 0, _ => rfl
  | n + 1, b => by rw [leWords, List.length_cons, leWords_length size n]

namespace Blake2b

theorem compress_length (h : List Nat) (b : Bytes) (t : Nat) (last : Bool) : (compress h b t last).length = 8 := by
  unfold compress
  rw [forceList_eq]
  exact rounds_length ..

theorem blocks_length : ∀ (fuel : Nat) (h : List Nat) (t : Nat) (data : Bytes), h.length = 8 → (blocks fuel h t data).length = 8
  | 0, _, _, _, hh => hh
  | fuel + 1, h, t, data, _ => by
    rw [blocks]
    by_cases hd : data.length ≤ 128
    · rw [if_pos hd]
      exact compress_length ..
    · rw [if_neg hd, forceList_eq]
      exact blocks_length fuel _ _ _ (compress_length ..)

theorem start_length (size : Nat) (key salt personal : Bytes) : (start size key salt personal).length = 8 := by
  unfold start
  rw [List.length_zipWith, List.length_append, List.length_append, leWords_length, leWords_length]
  rfl

theorem bytes_length : ∀ (l : List Nat) (k : Nat), (l.flatMap (toLe k)).length = k * l.length
  | [], _ => rfl
  | x :: xs, k => by
    rw [List.flatMap_cons, List.length_append, X25519.toLe_length, bytes_length xs, List.length_cons]
    ring

theorem hash_length {size : Nat} (h : size ≤ 64) (key salt personal msg : Bytes) : (hash size key salt personal msg).length = size := by
  unfold hash
  rw [forceList_eq, List.length_take, bytes_length, blocks_length _ _ _ _ (start_length ..)]
  omega

end Blake2b

namespace ChaCha

theorem rounds_length : ∀ (n x0 x1 x2 x3 x4 x5 x6 x7 x8 x9 x10 x11 x12 x13 x14 x15 : Nat),
    (rounds n x0 x1 x2 x3 x4 x5 x6 x7 x8 x9 x10 x11 x12 x13 x14 x15).length = 16
  | 0, _, _, _, _, _, _, _, _, _, _, _, _, _, _, _, _ => by rw [rounds]; rfl
  | n + 1, _, _, _, _, _, _, _, _, _, _, _, _, _, _, _, _ => by
    rw [rounds]
    simp only [quarter, force_eq]
    exact rounds_length n ..

theorem block_length (key : Bytes) (i : Nat) : (block key i).length = 64 := by
  unfold block
  rw [forceList_eq, force_eq, force_eq, Blake2b.bytes_length, List.length_zipWith, rounds_length, List.length_append,
    List.length_append, leWords_length]
  rfl

theorem stream_length (key : Bytes) : ∀ (n i : Nat), (stream key n i).length = 64 * n
  | 0, _ => rfl
  | n + 1, i => by
    rw [stream, List.length_append, block_length, stream_length key n]
    ring

/-- The blocks in a row are the bytes of the keystream. -/
theorem stream_byte (key : Bytes) : ∀ (n i j : Nat), j < 64 * n → (stream key n i).getD j 0 = byte key (64 * i + j)
  | 0, _, _, h => by omega
  | n + 1, i, j, h => by
    rw [stream, List.getD_eq_getElem?_getD]
    by_cases hj : j < 64
    · rw [List.getElem?_append_left (by rw [block_length]; exact hj), ← List.getD_eq_getElem?_getD, byte]
      congr 1
      · congr 1; omega
      · omega
    · rw [List.getElem?_append_right (by rw [block_length]; omega), block_length, ← List.getD_eq_getElem?_getD,
        stream_byte key n (i + 1) (j - 64) (by omega)]
      congr 1
      omega

end ChaCha

namespace Lioness

theorem streamStep_length (k l r : Bytes) : (streamStep k l r).length = r.length := applyKeystream_length ..
theorem hashStep_length (k r l : Bytes) : (hashStep k r l).length = l.length := applyKeystream_length ..

theorem _root_.Mixnet.applyKeystream_byte : ∀ (d k : Bytes) (i : Nat), i < d.length →
    (applyKeystream d k).getD i 0 = d.getD i 0 ^^^ k.getD i 0
  | x :: d, y :: k, 0, _ => rfl
  | x :: d, y :: k, i + 1, h => by
    have := Mixnet.applyKeystream_byte d k i (Nat.lt_of_succ_lt_succ h)
    simpa [applyKeystream] using this
  | x :: d, [], i, _ => by simp [applyKeystream]
  | [], _, _, h => absurd h (Nat.not_lt_zero _)

theorem streamStep_byte (k l r : Bytes) {i : Nat} (h : i < r.length) :
    (streamStep k l r).getD i 0 = r.getD i 0 ^^^ ChaCha.byte (applyKeystream l k) i := by
  unfold streamStep
  rw [Mixnet.applyKeystream_byte _ _ _ h, ChaCha.stream_byte _ _ _ _ (by omega), Nat.mul_zero, Nat.zero_add]

theorem streamStep_cancel (k l r : Bytes) : streamStep k l (streamStep k l r) = r := by
  unfold streamStep
  rw [applyKeystream_length, applyKeystream_cancel]

theorem hashStep_cancel (k r l : Bytes) : hashStep k r (hashStep k r l) = l := by
  unfold hashStep
  rw [applyKeystream_cancel]

theorem encrypt_eq (key p : Bytes) : encrypt key p =
    hashStep (slice key 128 64) (streamStep (slice key 96 32)
      (hashStep (slice key 32 64) (streamStep (slice key 0 32) (p.take 32) (p.drop 32)) (p.take 32))
      (streamStep (slice key 0 32) (p.take 32) (p.drop 32)))
      (hashStep (slice key 32 64) (streamStep (slice key 0 32) (p.take 32) (p.drop 32)) (p.take 32)) ++
    streamStep (slice key 96 32)
      (hashStep (slice key 32 64) (streamStep (slice key 0 32) (p.take 32) (p.drop 32)) (p.take 32))
      (streamStep (slice key 0 32) (p.take 32) (p.drop 32)) := rfl

theorem encrypt_length (key p : Bytes) : (encrypt key p).length = p.length := by
  unfold encrypt
  simp only [List.length_append, streamStep_length, hashStep_length, List.length_take, List.length_drop]
  omega

theorem decrypt_length (key p : Bytes) : (decrypt key p).length = p.length := by
  unfold decrypt
  simp only [List.length_append, streamStep_length, hashStep_length, List.length_take, List.length_drop]
  omega

theorem take_parts {l r : Bytes} (h : l.length = 32) : (l ++ r).take 32 = l ∧ (l ++ r).drop 32 = r := by
  rw [← h]
  exact ⟨List.take_left, List.drop_left⟩

theorem decrypt_encrypt (key p : Bytes) (h : 32 ≤ p.length) : decrypt key (encrypt key p) = p := by
  unfold encrypt decrypt
  dsimp only
  obtain ⟨e1, e2⟩ := take_parts (l := hashStep (slice key 128 64)
      (streamStep (slice key 96 32)
        (hashStep (slice key 32 64) (streamStep (slice key 0 32) (p.take 32) (p.drop 32)) (p.take 32))
        (streamStep (slice key 0 32) (p.take 32) (p.drop 32)))
      (hashStep (slice key 32 64) (streamStep (slice key 0 32) (p.take 32) (p.drop 32)) (p.take 32)))
    (r := streamStep (slice key 96 32)
        (hashStep (slice key 32 64) (streamStep (slice key 0 32) (p.take 32) (p.drop 32)) (p.take 32))
        (streamStep (slice key 0 32) (p.take 32) (p.drop 32)))
    (by rw [hashStep_length, hashStep_length, List.length_take]; omega)
  rw [e1, e2, hashStep_cancel, streamStep_cancel, hashStep_cancel, streamStep_cancel, List.take_append_drop]

theorem encrypt_decrypt (key p : Bytes) (h : 32 ≤ p.length) : encrypt key (decrypt key p) = p := by
  unfold encrypt decrypt
  dsimp only
  obtain ⟨e1, e2⟩ := take_parts (l := hashStep (slice key 32 64)
      (streamStep (slice key 96 32) (hashStep (slice key 128 64) (p.drop 32) (p.take 32)) (p.drop 32))
      (hashStep (slice key 128 64) (p.drop 32) (p.take 32)))
    (r := streamStep (slice key 0 32)
      (hashStep (slice key 32 64)
        (streamStep (slice key 96 32) (hashStep (slice key 128 64) (p.drop 32) (p.take 32)) (p.drop 32))
        (hashStep (slice key 128 64) (p.drop 32) (p.take 32)))
      (streamStep (slice key 96 32) (hashStep (slice key 128 64) (p.drop 32) (p.take 32)) (p.drop 32)))
    (by rw [hashStep_length, hashStep_length, List.length_take]; omega)
  rw [e1, e2, streamStep_cancel, hashStep_cancel, streamStep_cancel, hashStep_cancel, List.take_append_drop]

end Lioness

namespace Binary64

theorem roundEven_int (n : Int) : roundEven n = n := by
  have : (n : Rat) - ((n : Rat).floor : Rat) = 0 := by rw [Rat.floor_intCast]; ring
  unfold roundEven
  rw [this, if_pos (by norm_num), Rat.floor_intCast]

theorem roundEven_bounds (q : Rat) : roundEven q = q.floor ∨ roundEven q = q.floor + 1 := by
  unfold roundEven
  split
  · exact .inl rfl
  · split
    · exact .inr rfl
    · split
      · exact .inl rfl
      · exact .inr rfl

theorem roundEven_mono {a b : Rat} (h : a ≤ b) : roundEven a ≤ roundEven b := by
  have hf : a.floor ≤ b.floor := Rat.floor_monotone h
  by_cases he : a.floor = b.floor
  · unfold roundEven
    rw [he]
    have hs : a - (b.floor : Rat) ≤ b - (b.floor : Rat) := by linarith
    generalize a - (b.floor : Rat) = x at hs
    generalize b - (b.floor : Rat) = y at hs
    split_ifs <;> first | omega | (exfalso; linarith)
  · rcases roundEven_bounds a with h1 | h1 <;> rcases roundEven_bounds b with h2 | h2 <;> omega

theorem scale53 (m : Int) : ((2 ^ 53 : Int) : Rat) * 2 ^ (m - 52) = 2 ^ (m + 1) := by
  have : ((2 ^ 53 : Int) : Rat) = (2 : Rat) ^ (53 : Int) := by norm_num
  rw [this, ← zpow_add₀ (by norm_num)]
  congr 1
  ring

theorem scale52 (m : Int) : ((2 ^ 52 : Int) : Rat) * 2 ^ (m - 52) = 2 ^ m := by
  have : ((2 ^ 52 : Int) : Rat) = (2 : Rat) ^ (52 : Int) := by norm_num
  rw [this, ← zpow_add₀ (by norm_num)]
  congr 1
  ring

theorem roundPos_mono {a b : Rat} (ha : 0 < a) (h : a ≤ b) : roundPos a ≤ roundPos b := by
  have hb : 0 < b := lt_of_lt_of_le ha h
  have hl : Int.log 2 a ≤ Int.log 2 b := Int.log_mono_right ha h
  have l1 : ((2 : Nat) : Rat) ^ Int.log 2 b ≤ b := Int.zpow_log_le_self (by decide) hb
  have l2 : a < ((2 : Nat) : Rat) ^ (Int.log 2 a + 1) := Int.lt_zpow_succ_log_self (by decide) a
  rw [Nat.cast_ofNat] at l1 l2
  unfold roundPos
  dsimp only
  generalize Int.log 2 a = la at *
  generalize Int.log 2 b = lb at *
  have two : (1 : Rat) < 2 := by norm_num
  have pow_pos' : ∀ e : Int, (0 : Rat) < 2 ^ e := fun e => zpow_pos (by norm_num) e
  by_cases he : max la (-1022) = max lb (-1022)
  · rw [he]
    refine mul_le_mul_of_nonneg_right ?_ (pow_pos' _).le
    exact_mod_cast roundEven_mono (div_le_div_of_nonneg_right h (pow_pos' _).le)
  · have hlt : max la (-1022) < max lb (-1022) := by omega
    have hlb : max lb (-1022) = lb := by omega
    generalize hm : max la (-1022) = m at *
    rw [hlb]
    calc (roundEven (a / 2 ^ (m - 52)) : Rat) * 2 ^ (m - 52)
        ≤ (2 ^ 53 : Int) * 2 ^ (m - 52) := by
          refine mul_le_mul_of_nonneg_right ?_ (pow_pos' _).le
          have : roundEven (a / 2 ^ (m - 52)) ≤ 2 ^ 53 := by
            rw [← roundEven_int (2 ^ 53)]
            refine roundEven_mono ?_
            rw [div_le_iff₀ (pow_pos' _)]
            have : ((2 ^ 53 : Int) : Rat) * 2 ^ (m - 52) = 2 ^ (m + 1) := by
              exact scale53 m
            rw [this]
            exact le_trans l2.le (zpow_le_zpow_right₀ two.le (by omega))
          exact_mod_cast this
      _ = 2 ^ (m + 1) := by
          exact scale53 m
      _ ≤ 2 ^ lb := zpow_le_zpow_right₀ two.le (by omega)
      _ = (2 ^ 52 : Int) * 2 ^ (lb - 52) := by
          exact (scale52 lb).symm
      _ ≤ _ := by
          refine mul_le_mul_of_nonneg_right ?_ (pow_pos' _).le
          have : 2 ^ 52 ≤ roundEven (b / 2 ^ (lb - 52)) := by
            rw [← roundEven_int (2 ^ 52)]
            refine roundEven_mono ?_
            rw [le_div_iff₀ (pow_pos' _)]
            have : ((2 ^ 52 : Int) : Rat) * 2 ^ (lb - 52) = 2 ^ lb := by
              exact scale52 lb
            rw [this]
            exact l1
          exact_mod_cast this

theorem roundPos_nonneg {a : Rat} (ha : 0 < a) : 0 ≤ roundPos a := by
  unfold roundPos
  dsimp only
  have pow_pos' : ∀ e : Int, (0 : Rat) < 2 ^ e := fun e => zpow_pos (by norm_num) e
  refine mul_nonneg ?_ (pow_pos' _).le
  have : 0 ≤ roundEven (a / 2 ^ (max (Int.log 2 a) (-1022) - 52)) := by
    rw [← roundEven_int 0]
    exact roundEven_mono (by push_cast; exact div_nonneg ha.le (pow_pos' _).le)
  exact_mod_cast this

theorem round_mono {a b : Rat} (h : a ≤ b) : round a ≤ round b := by
  unfold round
  by_cases ha : a = 0
  · rw [if_pos ha]
    by_cases hb : b = 0
    · rw [if_pos hb]
    · have : 0 < b := lt_of_le_of_ne (by linarith) (Ne.symm hb)
      rw [if_neg hb, if_pos this]
      exact roundPos_nonneg this
  · rw [if_neg ha]
    by_cases ha' : 0 < a
    · rw [if_pos ha', if_neg (by linarith : b ≠ 0) , if_pos (by linarith)]
      exact roundPos_mono ha' h
    · have hneg : 0 < -a := by
        rcases lt_or_gt_of_ne ha with h | h
        · linarith
        · exact absurd h ha'
      rw [if_neg ha']
      have h1 := roundPos_nonneg hneg
      by_cases hb : b = 0
      · rw [if_pos hb]; linarith
      · rw [if_neg hb]
        by_cases hb' : 0 < b
        · rw [if_pos hb']
          have := roundPos_nonneg hb'
          linarith
        · rw [if_neg hb']
          have hnb : 0 < -b := by
            rcases lt_or_gt_of_ne hb with h | h
            · linarith
            · exact absurd h hb'
          have := roundPos_mono hnb (by linarith : -b ≤ -a)
          linarith

theorem round_nonneg {a : Rat} (h : 0 ≤ a) : 0 ≤ round a := by
  have := round_mono h
  have e : round 0 = 0 := by unfold round; rw [if_pos rfl]
  rwa [e] at this

theorem asSecs_nonneg (ns : Nat) : 0 ≤ asSecs ns := by
  unfold asSecs
  refine round_nonneg (add_nonneg (round_nonneg (by positivity)) (round_nonneg (by positivity)))

theorem mulDuration_mono {a b : Rat} (h : a ≤ b) (u : Nat) : mulDuration a u ≤ mulDuration b u := by
  unfold mulDuration
  refine Int.toNat_le_toNat (roundEven_mono ?_)
  refine mul_le_mul_of_nonneg_right (round_mono ?_) (by positivity)
  exact mul_le_mul_of_nonneg_right h (asSecs_nonneg u)

end Binary64
end Mixnet
