import Verif.Arith.BitLemmas
import Mathlib.Data.Nat.Size
/-! # C07 (shifts) and C10 (bit operations) -/
namespace Verif.Arith
open Verif.Value

/-! ## C07 -/

theorem small_of_nat {n : Nat} (h : n < 2^62) : InI63 (n : Int) := by unfold InI63; omega

theorem toInt_shl {a : Int} (n : Nat) (ha : InI64 a) :
    (BitVec.ofInt 64 a <<< n).toInt = Int.bmod (a * 2^n) (2^64) := by
  rw [BitVec.toInt_shiftLeft, Nat.shiftLeft_eq, BitVec.toNat_ofInt]
  push_cast
  rw [Int.toNat_of_nonneg (Int.emod_nonneg _ (by decide))]
  exact Int.emod_mul_bmod a 18446744073709551616

/-! The following lemmas are stated over an integer amount `m` (not a cast of a natural number). -/

theorem shl_small_aux (a m : Int) (ha : InI63 a) (h0 : 0 ≤ m) (h64 : m < 64) :
    invoke_shl (num a) (num m) = .ok (num (Int.bmod (a * 2^m.toNat) (2^64))) := by
  have hm3 : InI63 m := by unfold InI63; omega
  have hres : InI64 (Int.bmod (a * 2^m.toNat) (2^64)) := by
    rw [← toInt_shl m.toNat (inI64_of_inI63 ha)]; exact toInt_inI64 _
  unfold invoke_shl
  rw [as_fixnum_num, as_fixnum_num, if_pos ha, if_pos hm3]
  simp only [shl_fixnum, shl_fixnum_sub, checked_shl]
  rw [if_pos h0, if_pos (by omega), if_pos (by omega), toInt_shl _ (inI64_of_inI63 ha)]
  simp only [integer_eq_num hres]

theorem shl_large_aux (a m : Int) (h64 : 64 ≤ m) (hm3 : InI63 m) :
    invoke_shl (num a) (num m) = .ok (num (a * 2^m.toNat)) := by
  have h0 : 0 ≤ m := by omega
  unfold invoke_shl
  rw [as_fixnum_num, as_fixnum_num, as_bignum_num, if_pos hm3]
  by_cases ha : InI63 a
  · rw [if_pos ha]
    simp only [shl_fixnum, shl_fixnum_sub, checked_shl]
    rw [if_pos h0, if_neg (show ¬ m.toNat < 64 by omega)]
    by_cases h : m < 4294967295
    · rw [if_pos h]; rfl
    · rw [if_neg h]; rfl
  · rw [if_neg ha, if_neg ha]
    simp only
    rw [if_pos h0]; rfl

theorem shl_big_aux (a m : Int) (ha : ¬ InI63 a) (h0 : 0 ≤ m) (hm3 : InI63 m) :
    invoke_shl (num a) (num m) = .ok (num (a * 2^m.toNat)) := by
  unfold invoke_shl
  rw [as_fixnum_num, as_fixnum_num, as_bignum_num, if_pos hm3, if_neg ha, if_neg ha]
  simp only
  rw [if_pos h0]; rfl

/-- What `a << n` computes for a small `a` and `0 ≤ n < 64`: the product wrapped to 64 bits. -/
theorem C07_shl_small_exact (a : Int) (n : Nat) (ha : -2^62 ≤ a ∧ a < 2^62) (hn : n < 64) :
    invoke_shl (num a) (num n) = .ok (num (Int.bmod (a * 2^n) (2^64))) := by
  have := shl_small_aux a n ha (by omega) (by omega)
  rwa [Int.toNat_natCast] at this

/-- C07, left shift: `a << n` is `a * 2^n` whenever `a` is a big integer, or `n ≥ 64`, or the product fits in
64 bits. -/
theorem C07_shl_partial (a : Int) (n : Nat) (hn : n < 2^62)
    (h : ¬ (-2^62 ≤ a ∧ a < 2^62) ∨ 64 ≤ n ∨ (-2^63 ≤ a * 2^n ∧ a * 2^n < 2^63)) :
    invoke_shl (num a) (num n) = .ok (num (a * 2^n)) := by
  have hn3 : InI63 (n : Int) := small_of_nat hn
  by_cases ha : InI63 a
  · by_cases hn64 : n < 64
    · rw [C07_shl_small_exact a n ha hn64]
      have hp : InI64 (a * 2^n) := by
        rcases h with h | h | h
        · exact absurd ha h
        · omega
        · exact h
      congr 2
      unfold InI64 at hp
      generalize a * 2^n = x at *
      apply Int.bmod_eq_of_le <;> omega
    · have := shl_large_aux a n (by omega) hn3
      rwa [Int.toNat_natCast] at this
  · have := shl_big_aux a n ha (by omega) hn3
    rwa [Int.toNat_natCast] at this

example : invoke_shl (num 5) (num (100 : Nat)) = .ok (num (5 * 2^100)) ∧
    invoke_shl (num (-3)) (num (10 : Nat)) = .ok (num (-3072)) := by
  constructor
  · exact C07_shl_partial 5 100 (by norm_num) (by right; left; norm_num)
  · rw [C07_shl_partial (-3) 10 (by norm_num) (by right; right; norm_num)]; norm_num

/-- C07 fails in the code for left shifts that overflow 64 bits with an amount below 64: `2**61 << 2` is negative. -/
theorem C07_shl_fails : invoke_shl (num (2^61)) (num 2) = .ok (num (-2^63)) ∧
    num (-2^63) ≠ num (2^61 * 2^2) := by decide

theorem shr_div_inI64 {a : Int} (k : Nat) (ha : InI63 a) : InI64 (a / 2^k) := by
  unfold InI63 at ha
  unfold InI64
  have h1 : (a / 2^k).natAbs ≤ a.natAbs := Int.natAbs_ediv_le_natAbs a _
  generalize a / 2^k = x at *
  omega

theorem shr_small_aux (a m : Int) (ha : InI63 a) (h0 : 0 ≤ m) (h64 : m < 64) :
    invoke_shr (num a) (num m) = .ok (num (a / 2^m.toNat)) := by
  have hm3 : InI63 m := by unfold InI63; omega
  have hres := shr_div_inI64 m.toNat ha
  unfold invoke_shr
  rw [as_fixnum_num, as_fixnum_num, if_pos ha, if_pos hm3]
  simp only [shr_fixnum, shr_fixnum_sub, checked_shr]
  rw [if_pos h0, if_pos (by omega), if_pos (by omega), BitVec.toInt_sshiftRight,
    toInt_ofInt_of_inI64 a (inI64_of_inI63 ha), Int.shiftRight_eq_div_pow]
  push_cast
  simp only [integer_eq_num hres]

theorem shr_mid_aux (a m : Int) (ha : InI63 a) (hm3 : InI63 m) (ha0 : 0 ≤ a) (h64 : 64 ≤ m)
    (hb : m < 4294967295) : invoke_shr (num a) (num m) = .ok (num (a / 2^m.toNat)) := by
  unfold invoke_shr
  rw [as_fixnum_num, as_fixnum_num, if_pos ha, if_pos hm3]
  simp only [shr_fixnum, shr_fixnum_sub, checked_shr]
  rw [if_pos (show m ≥ 0 by omega), if_pos hb, if_neg (show ¬ m.toNat < 64 by omega)]
  have h1 : a < 2^m.toNat := by
    unfold InI63 at ha
    have : (2:Int)^62 ≤ 2^m.toNat := pow_le_pow_right₀ (by decide) (by omega)
    generalize (2:Int)^m.toNat = x at *
    omega
  rw [Int.ediv_eq_zero_of_lt ha0 h1]
  rfl

theorem shr_far_aux (a m : Int) (hm3 : InI63 m) (hb : 4294967295 ≤ m) :
    invoke_shr (num a) (num m) = .ok (num (a / 2^m.toNat)) := by
  have hsr : ∀ x : Int, x >>> m.toNat = x / 2^m.toNat := by
    intro x; rw [Int.shiftRight_eq_div_pow]; push_cast; rfl
  unfold invoke_shr
  rw [as_fixnum_num, as_fixnum_num, as_bignum_num, if_pos hm3]
  by_cases ha : InI63 a
  · rw [if_pos ha]
    simp only [shr_fixnum, shr_fixnum_sub]
    rw [if_pos (show m ≥ 0 by omega), if_neg (by omega), hsr]; rfl
  · rw [if_neg ha, if_neg ha]
    simp only
    rw [if_pos (show m ≥ 0 by omega), hsr]; rfl

theorem shr_big_aux (a m : Int) (ha : ¬ InI63 a) (h0 : 0 ≤ m) (hm3 : InI63 m) :
    invoke_shr (num a) (num m) = .ok (num (a / 2^m.toNat)) := by
  have hsr : ∀ x : Int, x >>> m.toNat = x / 2^m.toNat := by
    intro x; rw [Int.shiftRight_eq_div_pow]; push_cast; rfl
  unfold invoke_shr
  rw [as_fixnum_num, as_fixnum_num, as_bignum_num, if_pos hm3, if_neg ha, if_neg ha]
  simp only
  rw [if_pos h0, hsr]; rfl

/-- C07, right shift: `a >> n` is `⌊a / 2^n⌋` for every big `a`, every non-negative `a`, every amount below 64 and
every amount from `2^32 - 1` on. -/
theorem C07_shr_partial (a : Int) (n : Nat) (hn : n < 2^62)
    (h : ¬ (-2^62 ≤ a ∧ a < 2^62) ∨ 0 ≤ a ∨ n < 64 ∨ 2^32 - 1 ≤ n) :
    invoke_shr (num a) (num n) = .ok (num (a / 2^n)) := by
  have hn3 : InI63 (n : Int) := small_of_nat hn
  have key : invoke_shr (num a) (num n) = .ok (num (a / 2^(n:Int).toNat)) := by
    by_cases ha : InI63 a
    · by_cases hn64 : n < 64
      · exact shr_small_aux a n ha (by omega) (by omega)
      · by_cases hb : 4294967295 ≤ n
        · exact shr_far_aux a n hn3 (by omega)
        · have ha0 : 0 ≤ a := by
            rcases h with h | h | h | h
            · exact absurd ha h
            · exact h
            · omega
            · omega
          exact shr_mid_aux a n ha hn3 ha0 (by omega) (by omega)
    · exact shr_big_aux a n ha (by omega) hn3
  rwa [Int.toNat_natCast] at key

example : invoke_shr (num (-5)) (num (1 : Nat)) = .ok (num (-3)) := by decide

/-- C07 fails in the code for negative numbers shifted right by 64 or more: `-1 >> 64` is 0 instead of -1. -/
theorem C07_shr_fails : invoke_shr (num (-1)) (num 64) = .ok (num 0) ∧
    num 0 ≠ num ((-1) / 2^64) := by decide

/-- C07: a negative amount shifts the other way, for all operands. -/
theorem C07_negative_amount (a m : Int) (hm : 0 < m ∧ m < 2^62) :
    invoke_shl (num a) (num (-m)) = invoke_shr (num a) (num m) ∧
    invoke_shr (num a) (num (-m)) = invoke_shl (num a) (num m) := by
  have hn3 : InI63 m := by unfold InI63; omega
  have hm3 : InI63 (-m) := by unfold InI63 at *; omega
  unfold invoke_shl invoke_shr shl_fixnum shr_fixnum
  rw [as_fixnum_num, as_fixnum_num, as_fixnum_num, as_bignum_num]
  have h1 : ¬ (-m ≥ 0) := by omega
  have h2 : m ≥ 0 := by omega
  by_cases ha : InI63 a <;> simp only [ha, if_true, if_false, hn3, hm3, if_neg h1, if_pos h2, neg_neg, and_self]

example : (0 < (3:Int) ∧ (3:Int) < 2^62) ∧ invoke_shl (num 40) (num (-3)) = .ok (num 5) := by decide

/-- C07: amounts from `2^62` on.  A right shift gives 0, which is `⌊a / 2^n⌋` for all `a` from 0 below `2^n`; a left shift raises
(its result would not fit into the memory). -/
theorem C07_huge_amount_partial (a n : Int) (hn : 2^62 ≤ n) :
    (0 ≤ a → a < 2^n.toNat → invoke_shr (num a) (num n) = .ok (num (a / 2^n.toNat)) ∧
      invoke_shl (num a) (num (-n - 1)) = .ok (num (a / 2^n.toNat))) ∧
    invoke_shl (num a) (num n) = .error .runtime ∧ invoke_shr (num a) (num (-n - 1)) = .error .runtime := by
  have h1 : ¬ InI63 n := by unfold InI63; omega
  have h2 : ¬ InI63 (-n - 1) := by unfold InI63; omega
  have h3 : ¬ n < 0 := by omega
  have h4 : -n - 1 < 0 := by omega
  have h0 : Value.integer 0 = num 0 := integer_eq_num (by unfold InI64; omega)
  refine ⟨fun ha hlt => ?_, ?_, ?_⟩
  · rw [Int.ediv_eq_zero_of_lt ha hlt]
    constructor
    · unfold invoke_shr shr_bignum
      rw [as_fixnum_num, as_fixnum_num, as_bignum_num, as_bignum_num, if_neg h1, if_neg h1]
      by_cases ha : InI63 a <;> simp [ha, h3, h0]
    · unfold invoke_shl shl_bignum
      rw [as_fixnum_num, as_fixnum_num, as_bignum_num, as_bignum_num, if_neg h2, if_neg h2]
      by_cases ha : InI63 a <;> simp only [ha, if_true, if_false, h4, h0]
  · unfold invoke_shl shl_bignum
    rw [as_fixnum_num, as_fixnum_num, as_bignum_num, as_bignum_num, if_neg h1, if_neg h1]
    by_cases ha : InI63 a <;> simp only [ha, if_true, if_false, h3]
  · unfold invoke_shr shr_bignum
    rw [as_fixnum_num, as_fixnum_num, as_bignum_num, as_bignum_num, if_neg h2, if_neg h2]
    by_cases ha : InI63 a <;> simp [ha, h4]

example : (2:Int)^62 ≤ 2^62 ∧ 0 ≤ (5:Int) ∧ invoke_shr (num 5) (num (2^62)) = .ok (num 0) := by decide

/-- C07 fails in the code for negative numbers shifted right by huge amounts: `-1 >> 2**62` is 0 instead of -1; and `0 << 2**62`
raises instead of being 0. -/
theorem C07_huge_amount_fails : invoke_shr (num (-1)) (num (2^62)) = .ok (num 0) ∧ (-1 : Int) / 2^62 = -1 ∧
    invoke_shl (num 0) (num (2^62)) = .error .runtime := by decide

/-! ## C10 -/

/-- C10: `even?` is divisibility by two, of small and big integers. -/
theorem C10_even (a : Int) : integer_even (num a) = .ok (decide (2 ∣ a)) := by
  have h : (a % 2 == 0) = decide (2 ∣ a) := by rw [Bool.eq_iff_iff]; simp; omega
  unfold integer_even
  rw [as_fixnum_num, as_bignum_num]
  by_cases ha : InI63 a <;> simp only [ha, if_true, if_false, h]

theorem to_real_small {a : Int} (h : InI63 a) : to_real (num a) = some (.Integer a) := by
  rw [to_real_num, if_pos h]
theorem to_real_big {a : Int} (h : ¬ InI63 a) : to_real (num a) = some (.Bignum a) := by
  rw [to_real_num, if_neg h]

/-- C10: `a & b`. -/
theorem C10_and (a b : Int) : ∃ r, invoke_bitand (num a) (num b) = .ok (num r) ∧
    ∀ i, bitOf r i = (bitOf a i && bitOf b i) := by
  unfold invoke_bitand
  rw [as_fixnum_num, as_fixnum_num]
  by_cases ha : InI63 a <;> by_cases hb : InI63 b
  · refine ⟨(BitVec.ofInt 64 a &&& BitVec.ofInt 64 b).toInt, by simp only [ha, hb, if_true, integer_eq_num (toInt_inI64 _)], fun i => ?_⟩
    exact bitwise64 (· && ·) (· &&& ·) (fun x y i _ => by simp) (fun x y => by simp)
      (inI64_of_inI63 ha) (inI64_of_inI63 hb) i
  all_goals
    refine ⟨Int.land a b, ?_, fun i => ?_⟩
    · simp only [ha, hb, if_true, if_false, to_real_small, to_real_big, not_false_eq_true]; rfl
    · rw [← testBit_eq_bitOf, Int.testBit_land, testBit_eq_bitOf, testBit_eq_bitOf]

/-- C10: `a | b`. -/
theorem C10_or (a b : Int) : ∃ r, invoke_bitor (num a) (num b) = .ok (num r) ∧
    ∀ i, bitOf r i = (bitOf a i || bitOf b i) := by
  unfold invoke_bitor
  rw [as_fixnum_num, as_fixnum_num]
  by_cases ha : InI63 a <;> by_cases hb : InI63 b
  · refine ⟨(BitVec.ofInt 64 a ||| BitVec.ofInt 64 b).toInt, by simp only [ha, hb, if_true, integer_eq_num (toInt_inI64 _)], fun i => ?_⟩
    exact bitwise64 (· || ·) (· ||| ·) (fun x y i _ => by simp) (fun x y => by simp)
      (inI64_of_inI63 ha) (inI64_of_inI63 hb) i
  all_goals
    refine ⟨Int.lor a b, ?_, fun i => ?_⟩
    · simp only [ha, hb, if_true, if_false, to_real_small, to_real_big, not_false_eq_true]; rfl
    · rw [← testBit_eq_bitOf, Int.testBit_lor, testBit_eq_bitOf, testBit_eq_bitOf]

/-- C10: `a ^ b`, for operands of at most 63 bits. -/
theorem C10_xor_partial (a b : Int) (ha : -2^62 ≤ a ∧ a < 2^62) (hb : -2^62 ≤ b ∧ b < 2^62) :
    ∃ r, invoke_bitxor (num a) (num b) = .ok (num r) ∧
    ∀ i, bitOf r i = (bitOf a i ^^ bitOf b i) := by
  have ha : InI63 a := ha
  have hb : InI63 b := hb
  unfold invoke_bitxor
  rw [unpack_num, unpack_num]
  refine ⟨(BitVec.ofInt 64 a ^^^ BitVec.ofInt 64 b).toInt, by
    rw [if_pos ha, if_pos hb]; simp only [integer_eq_num (toInt_inI64 _)], fun i => ?_⟩
  exact bitwise64 (· ^^ ·) (· ^^^ ·) (fun x y i _ => by simp) (fun x y => by simp)
      (inI64_of_inI63 ha) (inI64_of_inI63 hb) i

example : (-2^62 ≤ (12:Int) ∧ (12:Int) < 2^62) ∧ invoke_bitxor (num 12) (num 10) = .ok (num 6) := by decide

/-- C10: `~a`, for operands of at most 63 bits: every bit is flipped, i.e. the result is `-a - 1`. -/
theorem C10_not_partial (a : Int) (ha : -2^62 ≤ a ∧ a < 2^62) :
    ∃ r, invoke_bitnot (num a) = .ok (num r) ∧ (∀ i, bitOf r i = !bitOf a i) ∧ r = -a - 1 := by
  have ha' : InI63 a := ha
  have key : ∀ i, bitOf (~~~(BitVec.ofInt 64 a)).toInt i = !bitOf a i := fun i =>
    bitwise64 (fun x _ => !x) (fun x _ => ~~~x) (fun x y i h => by simp [h]) (fun x y => by simp)
      (inI64_of_inI63 ha') (inI64_of_inI63 ha') i
  unfold invoke_bitnot
  rw [unpack_num]
  refine ⟨(~~~(BitVec.ofInt 64 a)).toInt, by
    rw [if_pos ha']; simp only [integer_eq_num (toInt_inI64 _)], key, ?_⟩
  apply bitOf_ext
  intro i
  rw [key i]
  unfold bitOf
  have : (-a - 1) / 2^i = -(a / 2^i) - 1 := by
    have hpos : (0:Int) < 2^i := by positivity
    have h1 := Int.emod_nonneg a (ne_of_gt hpos)
    have h2 := Int.emod_lt_of_pos a hpos
    have h3 := Int.mul_ediv_add_emod a (2^i)
    rw [Int.ediv_eq_iff_of_pos hpos]
    constructor <;> nlinarith
  rw [this]
  rcases Int.emod_two_eq (a / 2^i) with h | h
  · have h' : (-(a / 2^i) - 1) % 2 = 1 := by omega
    rw [h, h']; rfl
  · have h' : (-(a / 2^i) - 1) % 2 = 0 := by omega
    rw [h, h']; rfl

/-- C10 fails in the code for `^` and `~` on big integers: NoMethodError. -/
theorem C10_xor_not_fails : invoke_bitxor (num (2^62)) (num 1) = .error .noMethod ∧
    invoke_bitnot (num (2^62)) = .error .noMethod := by decide

theorem coerce_num {m : Int} (h : InI63 m) : coerce_to_fixnum (num m) = .ok m := by
  unfold coerce_to_fixnum; rw [unpack_num, if_pos h]
theorem not_big_num {m : Int} (h : InI63 m) : (num m).as_bignum.isSome = false := by
  rw [as_bignum_num, if_pos h]; rfl
theorem int01 : ∀ b : Bool, Value.integer (if b then 1 else 0) = num (if b then 1 else 0) := by decide

theorem index_small_aux (a m : Int) (ha : InI63 a) (h0 : 0 ≤ m) (h64 : m < 64) :
    integer_index (num a) (num m) = .ok (num (if bitOf a m.toNat then 1 else 0)) := by
  have hm : InI63 m := by unfold InI63; omega
  unfold integer_index
  rw [as_fixnum_num, as_bignum_num a, not_big_num hm, coerce_num hm]
  simp only [ha, if_true, Bool.false_eq_true, if_false, ok_map]
  rw [if_neg (by omega), word_and_one, BitVec.getLsbD_sshiftRight]
  have : (!decide (64 ≤ 0) && if m.toNat + 0 < 64 then (BitVec.ofInt 64 a).getLsbD (m.toNat + 0)
      else (BitVec.ofInt 64 a).msb) = bitOf a m.toNat := by
    have h : m.toNat < 64 := by omega
    simp only [Nat.add_zero, if_pos h, getLsbD_ofInt_num (inI64_of_inI63 ha) _ h]
    simp
  rw [this, int01]

theorem index_out_aux (a m : Int) (ha : InI63 a) (hm : InI63 m) (h : m < 0 ∨ 63 < m) :
    integer_index (num a) (num m) = .ok (num 0) := by
  unfold integer_index
  rw [as_fixnum_num, as_bignum_num a, not_big_num hm, coerce_num hm]
  simp only [ha, if_true, Bool.false_eq_true, if_false, ok_map]
  rw [if_pos h]; rfl

theorem index_big_aux (a m : Int) (ha : ¬ InI63 a) (hm : InI63 m) (h0 : 0 ≤ m) :
    integer_index (num a) (num m) = .ok (num (if bitOf a m.toNat then 1 else 0)) := by
  unfold integer_index
  rw [as_fixnum_num, as_bignum_num a, not_big_num hm, coerce_num hm]
  simp only [ha, if_false, Bool.false_eq_true, ok_map]
  rw [if_neg (by omega), land_one, bitOf_eq_shiftRight]
  congr 2
  by_cases hh : a >>> m.toNat % 2 = 1 <;> simp [hh]

/-- C10: `a[i]` for a big receiver, or a small one with `i < 64`, or a non-negative one. -/
theorem C10_index_partial (a : Int) (i : Nat) (hi : i < 2^62)
    (h : ¬ (-2^62 ≤ a ∧ a < 2^62) ∨ i < 64 ∨ 0 ≤ a) :
    integer_index (num a) (num i) = .ok (num (if bitOf a i then 1 else 0)) := by
  have hi3 : InI63 (i : Int) := small_of_nat hi
  have e : bitOf a (i:Int).toNat = bitOf a i := by rw [Int.toNat_natCast]
  rw [← e]
  by_cases ha : InI63 a
  · by_cases h64 : i < 64
    · exact index_small_aux a i ha (by omega) (by omega)
    · have ha0 : 0 ≤ a := by
        rcases h with h | h | h
        · exact absurd ha h
        · omega
        · exact h
      have hb : bitOf a i = false := by
        unfold InI63 at ha
        rw [bitOf_high (k := 62) ha.1 ha.2 (by omega)]; simp; omega
      rw [e, hb, index_out_aux a i ha hi3 (by omega)]; rfl
  · exact index_big_aux a i ha hi3 (by omega)

example : (5 : Nat) < 2^62 ∧ integer_index (num (-1)) (num (5 : Nat)) = .ok (num 1) ∧
    integer_index (num (2^80)) (num (80 : Nat)) = .ok (num 1) := by decide

/-- C10: a negative bit position reads 0. -/
theorem C10_index_negative (a : Int) (i : Int) (hi : -2^62 ≤ i ∧ i < 0) :
    integer_index (num a) (num i) = .ok (num 0) := by
  have hi3 : InI63 i := by unfold InI63; omega
  have c : coerce_to_fixnum (num i) = .ok i := by
    unfold coerce_to_fixnum; rw [unpack_num, if_pos hi3]
  have nb : (num i).as_bignum.isSome = false := by rw [as_bignum_num, if_pos hi3]; rfl
  unfold integer_index
  rw [as_fixnum_num, as_bignum_num a, nb, c]
  by_cases ha : InI63 a
  · simp only [ha, if_true, Bool.false_eq_true, if_false, ok_map]
    rw [if_pos (by omega)]; rfl
  · simp only [ha, if_false, Bool.false_eq_true, ok_map]
    rw [if_pos (by omega)]; rfl

example : (-2^62 ≤ (-3:Int) ∧ (-3:Int) < 0) := by decide

/-- C10 fails in the code for a negative small receiver at position 64: `-1[64]` is 0 instead of 1. -/
theorem C10_index_fails : integer_index (num (-1)) (num 64) = .ok (num 0) ∧ bitOf (-1) 64 = true := by
  decide

theorem index_imm_aux (a m : Int) (ha : InI63 a) (h0 : 0 ≤ m) (hm : m < 4294967296) :
    integer_index (num a) (num m) = .ok (index_imm_fixnum a m.toNat) := by
  have hm3 : InI63 m := by unfold InI63; omega
  unfold integer_index index_imm_fixnum
  rw [as_fixnum_num, as_bignum_num a, not_big_num hm3, coerce_num hm3]
  simp only [ha, if_true, Bool.false_eq_true, if_false, ok_map]
  by_cases h : 63 < m.toNat
  · rw [if_pos (show m < 0 ∨ 63 < m by omega), if_pos h]
  · rw [if_neg (show ¬ (m < 0 ∨ 63 < m) by omega), if_neg h]

/-- C10: the instruction for a literal index (`a[5]`) agrees with the method for every small receiver and index. -/
theorem C10_index_imm_agrees (a : Int) (ha : -2^62 ≤ a ∧ a < 2^62) (i : Nat) (hi : i < 2^32) :
    integer_index (num a) (num i) = .ok (index_imm_fixnum a i) := by
  have := index_imm_aux a i ha (by omega) (by omega)
  rwa [Int.toNat_natCast] at this

/-! ### bit_length -/

theorem size_spec (m : Nat) : (m : Int) < 2 ^ m.size ∧ ∀ k, k < m.size → (2:Int)^k ≤ m := by
  refine ⟨?_, fun k hk => ?_⟩
  · exact_mod_cast Nat.lt_size_self m
  · exact_mod_cast Nat.lt_size.1 hk

/-- The number of two's complement digits of `n` without the sign. -/
def IsBitLength (n : Int) (L : Nat) : Prop :=
  (-2^L ≤ n ∧ n < 2^L) ∧ ∀ k, k < L → ¬ (-2^k ≤ n ∧ n < 2^k)

theorem isBitLength_size (n : Int) (m : Nat) (h : n = m ∨ n = -m - 1) : IsBitLength n m.size := by
  have hs := size_spec m
  have hp : ∀ k : Nat, (0:Int) < 2^k := fun k => by positivity
  refine ⟨?_, fun k hk => ?_⟩
  · have := hp m.size
    rcases h with h | h <;> constructor <;> omega
  · have := hs.2 k hk
    rcases h with h | h <;> omega

theorem find_bit (m all : Nat) (h1 : m.size ≤ all) (h2 : 2 ≤ m) :
    ((List.range all).find? (fun x => Nat.testBit m (all - x))).getD all = all - (m.size - 1) := by
  have hsz : 2 ≤ m.size := by
    rw [show 2 = Nat.size 2 by decide]; exact Nat.size_le_size h2
  have : (List.range all).find? (fun x => Nat.testBit m (all - x)) = some (all - (m.size - 1)) := by
    rw [List.find?_range_eq_some]
    refine ⟨?_, ?_, ?_⟩
    · have e : all - (all - (m.size - 1)) = m.size - 1 := by omega
      rw [e]
      have h3 : 2^(m.size - 1) ≤ m := Nat.lt_size.1 (by omega)
      have h4 : m < 2^(m.size - 1 + 1) := by
        have := Nat.lt_size_self m
        have e : m.size - 1 + 1 = m.size := by omega
        rw [e]; exact this
      rw [Nat.testBit_eq_decide_div_mod_eq]
      have : m / 2^(m.size - 1) = 1 := by
        apply Nat.div_eq_of_lt_le
        · simpa using h3
        · rw [pow_succ] at h4; omega
      simp [this]
    · simp; omega
    · intro j hj
      have : m < 2^(all - j) := lt_of_lt_of_le (Nat.lt_size_self m)
        (Nat.pow_le_pow_right (by decide) (by omega))
      rw [Nat.testBit_lt_two_pow this]; rfl
  rw [this]; rfl

/-- C10: `bit_length`, for integers of any size. -/
theorem C10_bit_length (n : Int) (hb : Nat.size n.natAbs < 2^31) :
    ∃ L : Nat, bit_length (num n) = .ok (num L) ∧ IsBitLength n L := by
  unfold bit_length
  rw [as_fixnum_num, as_bignum_num]
  by_cases hn : InI63 n
  · simp only [hn, if_true]
    by_cases h0 : n ≥ 0
    · have hm := toInt_ofInt_of_inI64 n (inI64_of_inI63 hn)
      obtain ⟨m, rfl⟩ := Int.eq_ofNat_of_zero_le h0
      have ht : (BitVec.ofInt 64 (m:Int)).toNat = m := by
        rw [BitVec.toInt_eq_toNat_cond] at hm
        have := (BitVec.ofInt 64 (m:Int)).isLt
        split at hm <;> omega
      refine ⟨m.size, ?_, isBitLength_size _ m (Or.inl rfl)⟩
      have hs : m.size ≤ 64 := by
        unfold InI63 at hn
        rw [Nat.size_le]; omega
      simp only [if_pos h0, leading_zeros, ht]
      rw [show 64 - (64 - m.size) = m.size by omega]
      rw [integer_eq_num (by unfold InI64; omega)]
    · have hm := toInt_ofInt_of_inI64 n (inI64_of_inI63 hn)
      obtain ⟨m, hmn⟩ : ∃ m : Nat, n = -(m:Int) - 1 := ⟨(-n-1).toNat, by omega⟩
      have ht : (~~~(BitVec.ofInt 64 n)).toNat = m := by
        rw [BitVec.toNat_not]
        rw [BitVec.toInt_eq_toNat_cond] at hm
        have := (BitVec.ofInt 64 n).isLt
        split at hm <;> omega
      refine ⟨m.size, ?_, isBitLength_size _ m (Or.inr hmn)⟩
      have hs : m.size ≤ 64 := by
        unfold InI63 at hn
        rw [Nat.size_le]; omega
      simp only [if_neg h0, leading_ones, leading_zeros, ht]
      rw [show 64 - (64 - m.size) = m.size by omega]
      rw [integer_eq_num (by unfold InI64; omega)]
  · simp only [hn, if_false]
    have hall : ∀ k : Nat, k ≤ (k + 63) / 64 * 64 := fun k => by omega
    obtain ⟨m, hmn, hneg⟩ : ∃ m : Nat, (n = m ∨ n = -(m:Int) - 1) ∧ (n < 0 ↔ n = -(m:Int) - 1) := by
      by_cases h : n < 0
      · exact ⟨(-n-1).toNat, Or.inr (by omega), by omega⟩
      · exact ⟨n.toNat, Or.inl (by omega), by omega⟩
    refine ⟨m.size, ?_, isBitLength_size _ m hmn⟩
    have hm2 : 2 ≤ m := by unfold InI63 at hn; omega
    have hsb : m.size ≤ bigBits n := by
      unfold bigBits
      apply Nat.size_le_size; omega
    have hpred : ∀ j, (if ¬ n < 0 then Int.testBit n j else !Int.testBit n j) = Nat.testBit m j := by
      intro j
      by_cases h : n < 0
      · have e := hneg.1 h
        have e2 : n = Int.negSucc m := by rw [Int.negSucc_eq]; omega
        simp only [h, not_true, if_false]
        rw [e2]; simp [Int.testBit]
      · have e : n = (m : Int) := by
          rcases hmn with e | e
          · exact e
          · exact absurd (hneg.2 e) h
        simp only [h, not_false_eq_true, if_true]
        rw [e]; rfl
    have hb' : bigBits n < 2^31 := hb
    generalize hA : (bigBits n + 63) / 64 * 64 = all
    have hall' : m.size ≤ all := by rw [← hA]; have := hall (bigBits n); omega
    have hfun : (fun x => if ¬ n < 0 then Int.testBit n (all - x) else !Int.testBit n (all - x))
        = (fun x => Nat.testBit m (all - x)) := by funext x; exact hpred (all - x)
    rw [hfun, find_bit m all hall' hm2]
    have hsz : 2 ≤ m.size := by
      rw [show 2 = Nat.size 2 by decide]; exact Nat.size_le_size hm2
    rw [show all - (all - (m.size - 1)) + 1 = m.size by omega]
    rw [integer_eq_num (by unfold InI64; omega)]

example : IsBitLength (-256) 8 ∧ bit_length (num (-256)) = .ok (num 8) := by
  refine ⟨⟨by norm_num, fun k hk => ?_⟩, by decide⟩
  interval_cases k <;> norm_num

end Verif.Arith
