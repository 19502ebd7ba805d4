import Verif.Arith.Lemmas
import Mathlib.Tactic.Ring
import Mathlib.Tactic.Linarith
/-!
# C04–C06, C09: integer operators

`num n` is the value a program holds for the mathematical integer `n`: packed when `n` fits in 63 bits, a
heap integer otherwise (`Verif.Value.store`, characterised by `C01_integer_roundtrip`).
So `op (num a) (num b) = .ok (num c)` says: the operator returns `c`, in its canonical representation.
-/
namespace Verif.Arith
open Verif.Value

/-- C04: `a + b`. -/
theorem C04_add (a b : Int) : invoke_op (· + ·) (num a) (num b) = .ok (num (a + b)) :=
  invoke_op_num (· + ·) (fun x y => by omega) a b

/-- C04: `a - b`. -/
theorem C04_sub (a b : Int) : invoke_op (· - ·) (num a) (num b) = .ok (num (a - b)) :=
  invoke_op_num (· - ·) (fun x y => by omega) a b

/-- C04: `a + imm` with the immediate-operand instruction. -/
theorem C04_addi (a imm : Int) (h : -2^31 ≤ imm ∧ imm < 2^31) :
    invoke_op_i (· + ·) (num a) imm = .ok (num (a + imm)) :=
  invoke_op_i_num (· + ·) (fun x y => by omega) a imm h

/-- C04: `a - imm` with the immediate-operand instruction. -/
theorem C04_subi (a imm : Int) (h : -2^31 ≤ imm ∧ imm < 2^31) :
    invoke_op_i (· - ·) (num a) imm = .ok (num (a - imm)) :=
  invoke_op_i_num (· - ·) (fun x y => by omega) a imm h

/-- C04: `a * b`. -/
theorem C04_mul (a b : Int) : invoke_mul (num a) (num b) = .ok (num (a * b)) := by
  have hn := numeric_op_num (· * ·) a b
  unfold invoke_mul
  rw [as_fixnum_num, as_fixnum_num]
  by_cases ha : InI63 a <;> by_cases hb : InI63 b <;> simp only [ha, hb, if_true, if_false, hn]
  by_cases hc : InI64 (a * b)
  · simp only [checked_pos hc, integer_eq_num hc]
  · simp only [checked_neg hc]; rfl

/-- C04: `-a`. -/
theorem C04_neg (a : Int) : invoke_neg (num a) = .ok (num (-a)) := by
  unfold invoke_neg
  rw [unpack_num]
  by_cases ha : InI63 a
  · have hn : InI64 (-a) := by unfold InI63 InI64 at *; omega
    simp only [ha, if_true, checked_pos hn, integer_eq_num hn]
  · simp only [ha, if_false, integer_minus, to_real_num, Real.neg, ok_map]; rfl

/-- C04: `succ`, `pred`, `abs`. -/
theorem C04_next_pred_abs (a : Int) :
    integer_next (num a) = .ok (num (a + 1)) ∧ integer_pred (num a) = .ok (num (a - 1)) ∧
    integer_abs (num a) = .ok (num |a|) := by
  refine ⟨?_, ?_, ?_⟩
  · unfold integer_next
    rw [as_fixnum_num, as_bignum_num]
    by_cases ha : InI63 a
    · have hn : InI64 (a + 1) := by unfold InI63 InI64 at *; omega
      simp only [ha, if_true, checked_pos hn, integer_eq_num hn]
    · simp only [ha, if_false]; rfl
  · unfold integer_pred
    rw [as_fixnum_num, as_bignum_num]
    by_cases ha : InI63 a
    · have hn : InI64 (a - 1) := by unfold InI63 InI64 at *; omega
      simp only [ha, if_true, checked_pos hn, integer_eq_num hn]
    · simp only [ha, if_false]; rfl
  · have habs : (a.natAbs : Int) = |a| := Int.natCast_natAbs a
    unfold integer_abs
    rw [as_fixnum_num, as_bignum_num]
    by_cases ha : InI63 a
    · have hn : InI64 (a.natAbs : Int) := by unfold InI63 InI64 at *; omega
      simp only [ha, if_true, absI64, exactI64_ok hn, ok_map, integer_eq_num hn]; rw [habs]
    · simp only [ha, if_false, habs]; rfl

/-- The operands cross the representation border in both directions. -/
example : num (2^62 - 1) = .word 0x7fffffffffffffff#64 ∧ num (2^62) = .big (2^62) ∧
    invoke_op (· + ·) (num (2^62 - 1)) (num 1) = .ok (.big (2^62)) ∧
    invoke_op (· - ·) (num (2^62)) (num 1) = .ok (.word 0x7fffffffffffffff#64) := by decide

/-! ## C05 -/

theorem fdiv_inI64 {a b : Int} (ha : InI63 a) (hb : b ≠ 0) : InI64 (Int.fdiv a b) := by
  have h1 : (Int.fdiv a b).natAbs ≤ a.natAbs := by
    rcases Int.lt_or_gt_of_ne hb with h | h
    · have hq := Int.mul_fdiv_add_fmod a b
      have hr1 : b < Int.fmod a b ∧ Int.fmod a b ≤ 0 := by
        have := Int.neg_fmod_neg (-a) (-b)
        rw [neg_neg, neg_neg] at this
        have p1 := Int.fmod_nonneg_of_pos (-a) (show 0 < -b by omega)
        have p2 := Int.fmod_lt_of_pos (-a) (show 0 < -b by omega)
        omega
      generalize Int.fdiv a b = q at *
      generalize Int.fmod a b = r at *
      by_cases hq0 : 0 ≤ q
      · -- b*q + r = a, b ≤ -1, r ≤ 0 → a ≤ -q
        have : b * q ≤ -1 * q := by nlinarith
        omega
      · -- q ≤ -1: b*q ≥ -q ... and r > b
        have : b * (q + 1) ≥ -1 * (q + 1) := by nlinarith
        have h2 : b * (q + 1) = b * q + b := by ring
        omega
    · have hq := Int.mul_fdiv_add_fmod a b
      have p1 := Int.fmod_nonneg_of_pos a h
      have p2 := Int.fmod_lt_of_pos a h
      generalize Int.fdiv a b = q at *
      generalize Int.fmod a b = r at *
      by_cases hq0 : 0 ≤ q
      · have : b * q ≥ 1 * q := by nlinarith
        omega
      · have : b * (q + 1) ≤ 1 * (q + 1) := by nlinarith
        have h2 : b * (q + 1) = b * q + b := by ring
        omega
  unfold InI63 InI64 at *; omega

theorem invoke_div_num (a b : Int) (hb : b ≠ 0) :
    invoke_div (num a) (num b) = .ok (num (Int.fdiv a b)) := by
  have hn : numeric_div (num a) (num b) = .ok (num (Int.fdiv a b)) := by
    unfold numeric_div
    rw [to_real_num, to_real_num]
    by_cases ha : InI63 a <;> by_cases hb' : InI63 b <;>
      simp only [ha, hb', if_true, if_false, Real.is_zero, beq_iff_eq, hb, Real.div, ok_map, into_val_integer]
    have hc := fdiv_inI64 ha hb
    simp only [exactI64_ok hc, ok_map, into_val_Integer hc]
  unfold invoke_div
  rw [as_fixnum_num, as_fixnum_num]
  by_cases ha : InI63 a <;> by_cases hb' : InI63 b <;> simp only [ha, hb', if_true, if_false, hn]
  have hc := fdiv_inI64 ha hb
  simp only [hb, if_false, exactI64_ok hc, ok_map, integer_eq_num hc]

theorem fmod_bounds (a b : Int) (hb : b ≠ 0) :
    (0 < b → 0 ≤ Int.fmod a b ∧ Int.fmod a b < b) ∧ (b < 0 → b < Int.fmod a b ∧ Int.fmod a b ≤ 0) := by
  constructor
  · intro h; exact ⟨Int.fmod_nonneg_of_pos a h, Int.fmod_lt_of_pos a h⟩
  · intro h
    have := Int.neg_fmod_neg (-a) (-b)
    rw [neg_neg, neg_neg] at this
    have p1 := Int.fmod_nonneg_of_pos (-a) (show 0 < -b by omega)
    have p2 := Int.fmod_lt_of_pos (-a) (show 0 < -b by omega)
    omega

theorem invoke_rem_num (a b : Int) (hb : b ≠ 0) :
    invoke_rem (num a) (num b) = .ok (num (Int.fmod a b)) := by
  have hbd := fmod_bounds a b hb
  unfold invoke_rem
  rw [as_fixnum_num, as_float_num, as_bignum_num]
  by_cases ha : InI63 a
  · simp only [ha, if_true, rem_fixnum, as_fixnum_num, as_float_num, as_bignum_num]
    by_cases hb' : InI63 b
    · have hc : InI64 (Int.fmod a b) := by
        unfold InI63 InI64 at *
        rcases Int.lt_or_gt_of_ne hb with h | h
        · have := hbd.2 h; omega
        · have := hbd.1 h; omega
      simp only [hb', if_true, hb, if_false, integer_eq_num hc]
    · simp only [hb', if_false, hb]; rfl
  · simp only [ha, if_false, rem_bignum, as_fixnum_num, as_float_num, as_bignum_num]
    by_cases hb' : InI63 b
    · simp only [hb', if_true, hb, if_false]; rfl
    · simp only [hb', if_false, hb]; rfl

/-- C05: for a non-zero divisor, `a / b` and `a % b` satisfy the floor law. -/
theorem C05_divmod_law (a b : Int) (hb : b ≠ 0) :
    ∃ q r, invoke_div (num a) (num b) = .ok (num q) ∧ invoke_rem (num a) (num b) = .ok (num r) ∧
      a = q * b + r ∧ (0 < b → 0 ≤ r ∧ r < b) ∧ (b < 0 → b < r ∧ r ≤ 0) := by
  refine ⟨_, _, invoke_div_num a b hb, invoke_rem_num a b hb, ?_, (fmod_bounds a b hb).1,
    (fmod_bounds a b hb).2⟩
  have := Int.mul_fdiv_add_fmod a b
  rw [mul_comm]; exact this.symm

/-- The law determines quotient and remainder, so C05 pins the results down completely. -/
theorem C05_law_unique (a b q r q' r' : Int) (h : a = q * b + r) (h' : a = q' * b + r')
    (h1 : (0 < b → 0 ≤ r ∧ r < b) ∧ (b < 0 → b < r ∧ r ≤ 0))
    (h2 : (0 < b → 0 ≤ r' ∧ r' < b) ∧ (b < 0 → b < r' ∧ r' ≤ 0)) (hb : b ≠ 0) :
    q = q' ∧ r = r' := by
  have e : (q - q') * b = r' - r := by ring_nf; omega
  have hq : q = q' := by
    by_contra hne
    have hne' : q - q' ≤ -1 ∨ 1 ≤ q - q' := by omega
    rcases Int.lt_or_gt_of_ne hb with h | h
    · have a1 := h1.2 h; have a2 := h2.2 h
      rcases hne' with g | g <;> nlinarith
    · have a1 := h1.1 h; have a2 := h2.1 h
      rcases hne' with g | g <;> nlinarith
  subst hq
  exact ⟨rfl, by omega⟩

/-- C05: division and remainder by zero raise ZeroDivisionError, in every representation of the dividend. -/
theorem C05_zero_division (a : Int) :
    invoke_div (num a) (num 0) = .error .zeroDiv ∧ invoke_rem (num a) (num 0) = .error .zeroDiv := by
  have h0 : InI63 0 := by unfold InI63; omega
  constructor
  · unfold invoke_div numeric_div
    rw [as_fixnum_num, as_fixnum_num, to_real_num, to_real_num]
    by_cases ha : InI63 a <;> simp [ha, h0, Real.is_zero]
  · unfold invoke_rem rem_fixnum rem_bignum
    rw [as_fixnum_num, as_fixnum_num, as_float_num, as_bignum_num]
    by_cases ha : InI63 a <;> simp [ha, h0]

example : invoke_div (num (-7)) (num 2) = .ok (num (-4)) ∧ invoke_rem (num (-7)) (num 2) = .ok (num 1) ∧
    invoke_rem (num (2^70)) (num (-3)) = .ok (num (-2)) := by decide

/-! ## C06 -/

theorem compare_small_big {a b : Int} (ha : InI63 a) (hb : ¬ InI63 b) :
    (if b > 0 then Ordering.lt else Ordering.gt) = compare a b := by
  unfold InI63 at *
  by_cases h : b > 0
  · rw [if_pos h]; symm; rw [Int.compare_eq_lt]; omega
  · rw [if_neg h]; symm; rw [Int.compare_eq_gt]; omega

theorem compare_big_small {a b : Int} (ha : ¬ InI63 a) (hb : InI63 b) :
    (if a > 0 then Ordering.gt else Ordering.lt) = compare a b := by
  unfold InI63 at *
  by_cases h : a > 0
  · rw [if_pos h]; symm; rw [Int.compare_eq_gt]; omega
  · rw [if_neg h]; symm; rw [Int.compare_eq_lt]; omega

theorem cmp_fixnum_num {a : Int} (b : Int) (ha : InI63 a) :
    cmp_fixnum a (num b) = .ok (some (compare a b)) := by
  unfold cmp_fixnum
  rw [as_fixnum_num, as_float_num, as_bignum_num]
  by_cases hb : InI63 b
  · simp only [hb, if_true]
  · simp only [hb, if_false]; rw [compare_small_big ha hb]

theorem cmp_bignum_num {a : Int} (b : Int) (ha : ¬ InI63 a) :
    cmp_bignum a (num b) = .ok (some (compare a b)) := by
  unfold cmp_bignum
  rw [as_fixnum_num, as_float_num, as_bignum_num]
  by_cases hb : InI63 b
  · simp only [hb, if_true]; rw [compare_big_small ha hb]
  · simp only [hb, if_false]

theorem into_val_to_real (b : Int) :
    (if InI63 b then Real.Integer b else Real.Bignum b).into_val = num b := by
  by_cases hb : InI63 b
  · rw [if_pos hb]; exact into_val_Integer (inI64_of_inI63 hb)
  · rw [if_neg hb]; rfl

theorem ofOrd_compare (op : CmpOp) (a b : Int) : op.ofOrd (some (compare a b)) = op.onInt a b := by
  rcases Int.lt_trichotomy a b with h | h | h
  · have : compare a b = .lt := Int.compare_eq_lt.2 h
    rw [this]; cases op <;> simp [CmpOp.ofOrd, CmpOp.onInt] <;> omega
  · subst h
    have : compare a a = .eq := Int.compare_eq_eq.2 rfl
    rw [this]; cases op <;> simp [CmpOp.ofOrd, CmpOp.onInt]
  · have : compare a b = .gt := Int.compare_eq_gt.2 h
    rw [this]; cases op <;> simp [CmpOp.ofOrd, CmpOp.onInt] <;> omega

theorem numeric_cmp_num (op : CmpOp) (a b : Int) :
    numeric_cmp op (num a) (num b) = .ok (op.onInt a b) := by
  unfold numeric_cmp
  rw [to_real_num, to_real_num]
  simp only [Real.partial_cmp]
  rw [into_val_to_real]
  by_cases ha : InI63 a
  · simp only [ha, if_true, cmp_fixnum_num b ha, ok_map, ofOrd_compare]
  · simp only [ha, if_false, cmp_bignum_num b ha, ok_map, ofOrd_compare]

theorem eval_cmp_num (op : CmpOp) (a b : Int) : eval_cmp op (num a) (num b) = .ok (op.onInt a b) := by
  have hn := numeric_cmp_num op a b
  unfold eval_cmp
  rw [as_fixnum_num, as_fixnum_num]
  by_cases ha : InI63 a <;> by_cases hb : InI63 b
  · simp only [ha, hb, if_true]
  · simp only [ha, if_true, hb, if_false]
    rw [num_big hb] at *; simpa using hn
  · simp only [ha, if_false]
    rw [num_big ha] at *; simpa using hn
  · simp only [ha, if_false]
    rw [num_big ha] at *; simpa using hn

theorem eval_cmp_i_num (op : CmpOp) (a i : Int) (hi : -2^31 ≤ i ∧ i < 2^31) :
    eval_cmp_i op (num a) i = .ok (op.onInt a i) := by
  have hi3 : InI63 i := by unfold InI63; omega
  have hn := numeric_cmp_num op a i
  unfold eval_cmp_i
  rw [as_fixnum_num]
  by_cases ha : InI63 a
  · simp only [ha, if_true]
  · simp only [ha, if_false]
    rw [num_big ha, num_small hi3] at *; simpa using hn

/-- C06: the order operators agree with the mathematical order. -/
theorem C06_order (a b : Int) :
    eval_cmp .lt (num a) (num b) = .ok (decide (a < b)) ∧
    eval_cmp .le (num a) (num b) = .ok (decide (a ≤ b)) ∧
    eval_cmp .gt (num a) (num b) = .ok (decide (a > b)) ∧
    eval_cmp .ge (num a) (num b) = .ok (decide (a ≥ b)) :=
  ⟨eval_cmp_num .lt a b, eval_cmp_num .le a b, eval_cmp_num .gt a b, eval_cmp_num .ge a b⟩

/-- C06: the immediate-operand comparisons agree with the mathematical order. -/
theorem C06_order_imm (a i : Int) (hi : -2^31 ≤ i ∧ i < 2^31) :
    eval_cmp_i .lt (num a) i = .ok (decide (a < i)) ∧
    eval_cmp_i .le (num a) i = .ok (decide (a ≤ i)) ∧
    eval_cmp_i .gt (num a) i = .ok (decide (a > i)) ∧
    eval_cmp_i .ge (num a) i = .ok (decide (a ≥ i)) :=
  ⟨eval_cmp_i_num .lt a i hi, eval_cmp_i_num .le a i hi, eval_cmp_i_num .gt a i hi,
   eval_cmp_i_num .ge a i hi⟩

/-- C06: `==` agrees with mathematical equality. -/
theorem C06_eq (a b : Int) : eval_eq (num a) (num b) = .ok (decide (a = b)) := by
  unfold eval_eq
  rw [as_fixnum_num, as_fixnum_num]
  by_cases ha : InI63 a <;> by_cases hb : InI63 b
  · simp only [ha, hb, if_true]; rfl
  · simp only [ha, if_true, hb, if_false]
    rw [num_big hb, num_small ha]
    have : a ≠ b := fun h => hb (h ▸ ha)
    simp [this]
  · simp only [hb, if_true, ha, if_false]
    rw [num_big ha, num_small hb]
    have : a ≠ b := fun h => ha (h ▸ hb)
    simp [this]
  · simp only [ha, hb, if_false]
    rw [num_big ha, num_big hb]; rfl

/-- C06: `==` with an immediate operand, and the method `Integer#==`. -/
theorem C06_eq_imm (a i : Int) (hi : -2^31 ≤ i ∧ i < 2^31) :
    eval_eqi (num a) i = .ok (decide (a = i)) ∧ ∀ b, integer_eq (num a) (num b) = .ok (decide (a = b)) := by
  have hm : ∀ b, integer_eq (num a) (num b) = .ok (decide (a = b)) := by
    intro b
    unfold integer_eq
    rw [to_real_num, to_real_num]
    by_cases ha : InI63 a <;> by_cases hb : InI63 b
    · simp only [ha, hb, if_true, Real.eq]; rfl
    · have : a ≠ b := fun h => hb (h ▸ ha)
      simp [ha, hb, Real.eq, this]
    · have : a ≠ b := fun h => ha (h ▸ hb)
      simp [ha, hb, Real.eq, this]
    · simp only [ha, hb, if_false, Real.eq]; rfl
  refine ⟨?_, hm⟩
  have hi3 : InI63 i := by unfold InI63; omega
  unfold eval_eqi
  rw [as_fixnum_num, unpack_num, integer_eq_num (inI64_of_inI63 hi3)]
  by_cases ha : InI63 a
  · simp only [ha, if_true]; rfl
  · simp only [ha, if_false]; exact hm i

/-- C06: an integer is not `==` to anything but a number (`Integer#==`). -/
theorem C06_other (a : Int) (v : Val) (h : (∀ i, unpack v ≠ .integer i) ∧ (∀ f, unpack v ≠ .float f) ∧ ∀ n, unpack v ≠ .bignum n) :
    integer_eq (num a) v = .ok false := by
  have hv : to_real v = none := by
    unfold to_real
    cases e : unpack v <;> simp_all
  unfold integer_eq
  rw [to_real_num, hv]

example : (∀ i, unpack (.word NIL_VALUE) ≠ .integer i) ∧ (∀ f, unpack (.word NIL_VALUE) ≠ .float f) ∧
    ∀ n, unpack (.word NIL_VALUE) ≠ .bignum n := by
  have : unpack (.word NIL_VALUE) = .nil := by decide
  simp [this]

/-- C06: `<=>` is -1, 0 or 1 according to the mathematical order. -/
theorem C06_compare (a b : Int) :
    invoke_compare (num a) (num b) =
      .ok (num (if a < b then -1 else if a = b then 0 else 1)) := by
  have key : from_ord (some (compare a b)) = num (if a < b then -1 else if a = b then 0 else 1) := by
    rcases Int.lt_trichotomy a b with h | h | h
    · rw [Int.compare_eq_lt.2 h, if_pos h]; decide
    · subst h; rw [Int.compare_eq_eq.2 rfl]; simp only [lt_irrefl, if_false, if_true]; decide
    · rw [Int.compare_eq_gt.2 h, if_neg (by omega), if_neg (by omega)]; decide
  unfold invoke_compare integer_cmp
  rw [as_fixnum_num, as_float_num, as_bignum_num]
  by_cases ha : InI63 a
  · simp only [ha, if_true, cmp_fixnum_num b ha, ok_map, key]
  · simp only [ha, if_false, cmp_bignum_num b ha, ok_map, key]

example : eval_cmp .lt (num (-2^70)) (num 5) = .ok true ∧ eval_eq (num (2^62)) (num (2^62)) = .ok true ∧
    invoke_compare (num 3) (num (2^63)) = .ok (num (-1)) := by decide

/-! ## C09 -/

/-- C09: `a ** n` for an exponent below `2^32` (larger exponents make the code answer with a float). -/
theorem C09_pow_partial (a : Int) (n : Nat) (hn : n < 4294967296) :
    invoke_exp (num a) (num n) = .ok (num (a ^ n)) := by
  have hn3 : InI63 (n : Int) := by unfold InI63; omega
  exact invoke_exp_aux a n (num n) (by omega) (by rw [as_fixnum_num, if_pos hn3])

example : (100 : Nat) < 4294967296 ∧ invoke_exp (num (-3)) (num (100 : Nat)) = .ok (num (3^100)) := by
  refine ⟨by decide, ?_⟩
  rw [C09_pow_partial _ _ (by decide)]; norm_num

/-- C09 in full fails: from exponent `2^32` on the code leaves the integers, e.g. for `1 ** (2**32)`. -/
theorem C09_pow_fails : invoke_exp (num 1) (num (2^32)) = .error .unmodelled ∧
    invoke_exp (num 1) (num (2^32)) ≠ .ok (num (1 ^ (2^32))) := by
  refine ⟨by decide, ?_⟩
  have : invoke_exp (num 1) (num (2^32)) = .error .unmodelled := by decide
  rw [this]; simp

end Verif.Arith
