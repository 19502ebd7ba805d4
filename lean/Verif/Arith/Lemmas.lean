import Verif.Arith.Model
import Verif.Value.Lemmas
import Verif.Value.Spec
namespace Verif.Arith
open Verif.Value

/-- The value a program holds for the integer `n` (canonical representation). -/
abbrev num (n : Int) : Val := store (.int n)

theorem num_eq (n : Int) : num n = Value.bignum n := rfl

theorem inI64_of_inI63 {n : Int} (h : InI63 n) : InI64 n := by
  unfold InI63 InI64 at *; omega

theorem integer_eq_num {n : Int} (h : InI64 n) : Value.integer n = num n := by
  show _ = Value.bignum n
  unfold Value.bignum; rw [if_pos h]

theorem num_small {n : Int} (h : InI63 n) : num n = .word (fixnumW (BitVec.ofInt 64 n)) := by
  rw [← integer_eq_num (inI64_of_inI63 h)]
  unfold Value.integer
  rw [if_pos ((is_i63_iff n (inI64_of_inI63 h)).2 h)]

theorem num_big {n : Int} (h : ¬ InI63 n) : num n = .big n := by
  by_cases h64 : InI64 n
  · rw [← integer_eq_num h64]
    unfold Value.integer
    rw [if_neg (fun hh => h ((is_i63_iff n h64).1 hh))]
  · show Value.bignum n = _
    unfold Value.bignum; rw [if_neg h64]

theorem is_fnum_fixnumW (w : Word) : is_fnum (fixnumW w) = true := by
  unfold is_fnum; rw [and_one_eq_one, fixnumW_bit0]

theorem as_flonum_fixnumW (w : Word) : as_flonum (fixnumW w) = none := by
  unfold as_flonum; rw [and_three_eq_two, fixnumW_bit0]; simp

@[simp] theorem as_fixnum_num (n : Int) :
    Val.as_fixnum (num n) = if InI63 n then some n else none := by
  by_cases h : InI63 n
  · rw [num_small h, if_pos h]
    simp only [Val.as_fixnum, Value.as_fixnum, is_fnum_fixnumW, if_true, as_fnum_fixnumW n h]
  · rw [num_big h, if_neg h]; rfl

@[simp] theorem as_bignum_num (n : Int) :
    Val.as_bignum (num n) = if InI63 n then none else some n := by
  by_cases h : InI63 n
  · rw [num_small h, if_pos h]; rfl
  · rw [num_big h, if_neg h]; rfl

@[simp] theorem as_float_num (n : Int) : Val.as_float (num n) = none := by
  by_cases h : InI63 n
  · rw [num_small h]; exact as_flonum_fixnumW _
  · rw [num_big h]; rfl

theorem unpack_num (n : Int) : unpack (num n) = if InI63 n then .integer n else .bignum n :=
  unpack_bignum n

theorem to_real_num (n : Int) :
    to_real (num n) = some (if InI63 n then .Integer n else .Bignum n) := by
  unfold to_real; rw [unpack_num]
  by_cases h : InI63 n
  · rw [if_pos h, if_pos h]
  · rw [if_neg h, if_neg h]

theorem into_val_integer (n : Int) : (Real.integer n).into_val = num n := by
  unfold Real.integer
  by_cases h : InI64 n
  · rw [if_pos h]; exact integer_eq_num h
  · rw [if_neg h]; rfl

theorem into_val_Integer {n : Int} (h : InI64 n) : (Real.Integer n).into_val = num n :=
  integer_eq_num h

theorem into_val_Bignum (n : Int) : (Real.Bignum n).into_val = num n := rfl

theorem ok_map {α β : Type} (f : α → β) (a : α) : (Except.ok a : Res α).map f = .ok (f a) := rfl

theorem checked_pos {x : Int} (h : InI64 x) : checked x = some x := by unfold checked; rw [if_pos h]
theorem checked_neg {x : Int} (h : ¬ InI64 x) : checked x = none := by unfold checked; rw [if_neg h]

theorem exactI64_ok {x : Int} (h : InI64 x) : exactI64 x = .ok x := by unfold exactI64; rw [if_pos h]

theorem numeric_op_num (op : Int → Int → Int) (a b : Int) :
    numeric_op op (num a) (num b) = .ok (num (op a b)) := by
  unfold numeric_op
  rw [to_real_num, to_real_num]
  by_cases ha : InI63 a <;> by_cases hb : InI63 b <;>
    simp only [ha, hb, if_true, if_false, Real.op, ok_map, into_val_integer]
  by_cases hc : InI64 (op a b)
  · simp only [checked_pos hc, ok_map, into_val_Integer hc]
  · simp only [checked_neg hc, ok_map, into_val_Bignum]

theorem toInt_fixnumW_sub_one {a : Int} (h : InI63 a) :
    (fixnumW (BitVec.ofInt 64 a) - 1#64).toInt = 2 * a := by
  have := toInt_fixnumW a h
  unfold InI63 at h
  rw [BitVec.toInt_sub, this]
  have e : (1#64).toInt = 1 := by decide
  rw [e]
  have : 2 * a + 1 - 1 = 2 * a := by omega
  rw [this]
  apply Int.bmod_eq_of_le <;> omega

theorem as_fnum_num {a : Int} (h : InI63 a) : as_fnum (fixnumW (BitVec.ofInt 64 a)) = a :=
  as_fnum_fixnumW a h

theorem invoke_op_num (op : Int → Int → Int) (hop : ∀ x y, op (2*x) (2*y) = 2 * op x y) (a b : Int) :
    invoke_op op (num a) (num b) = .ok (num (op a b)) := by
  by_cases ha : InI63 a
  · by_cases hb : InI63 b
    · rw [num_small ha, num_small hb]
      simp only [invoke_op, is_fnum_fixnumW, if_true, toInt_fixnumW_sub_one ha,
        toInt_fixnumW_sub_one hb, hop, as_fnum_num ha, as_fnum_num hb]
      by_cases hc : InI64 (2 * op a b)
      · rw [checked_pos hc]
        have h3 : InI63 (op a b) := by unfold InI63 InI64 at *; omega
        have : (2 * op a b) >>> (1 : Nat) = op a b := by rw [Int.shiftRight_eq_div_pow]; omega
        simp only [this, num_small h3]
      · rw [checked_neg hc]; rfl
    · have := numeric_op_num op a b
      rw [num_small ha, num_big hb] at *
      simpa only [invoke_op] using this
  · have := numeric_op_num op a b
    rw [num_big ha] at *
    simpa only [invoke_op] using this

theorem invoke_op_i_num (op : Int → Int → Int) (hop : ∀ x y, op (2*x) (2*y) = 2 * op x y)
    (a imm : Int) (himm : -2^31 ≤ imm ∧ imm < 2^31) :
    invoke_op_i op (num a) imm = .ok (num (op a imm)) := by
  have hi3 : InI63 imm := by unfold InI63; omega
  by_cases ha : InI63 a
  · rw [num_small ha]
    have hsh : (BitVec.ofInt 64 imm <<< 1).toInt = 2 * imm := by
      rw [BitVec.toInt_shiftLeft]
      have hlt := (BitVec.ofInt 64 imm).isLt
      have h64 := toInt_ofInt_of_inI64 imm (inI64_of_inI63 hi3)
      rw [BitVec.toInt_eq_toNat_cond] at h64
      rw [Nat.shiftLeft_eq]
      unfold InI63 at hi3
      split at h64
      · rw [Int.bmod_eq_of_le] <;> push_cast <;> omega
      · have : (((BitVec.ofInt 64 imm).toNat * 2^1 : Nat) : Int) = 2 * imm + 2 * (2:Int)^64 := by
          push_cast; omega
        rw [this, show (2 * imm + 2 * (2:Int)^64) = 2 * imm + ((2^64 : Nat) : Int) * 2 by push_cast; omega,
          Int.add_mul_bmod_self_left]
        apply Int.bmod_eq_of_le <;> omega
    simp only [invoke_op_i, is_fnum_fixnumW, if_true, toInt_fixnumW_sub_one ha, hsh, hop, as_fnum_num ha]
    by_cases hc : InI64 (2 * op a imm)
    · rw [checked_pos hc]
      have h3 : InI63 (op a imm) := by unfold InI63 InI64 at *; omega
      rw [num_small h3]
      have : BitVec.ofInt 64 (2 * op a imm) + 1#64 = fixnumW (BitVec.ofInt 64 (op a imm)) := by
        apply BitVec.eq_of_toInt_eq
        rw [toInt_fixnumW _ h3, BitVec.toInt_add, toInt_ofInt_of_inI64 _ hc]
        have e : (1#64).toInt = 1 := by decide
        rw [e]
        unfold InI63 at h3
        apply Int.bmod_eq_of_le <;> omega
      simp only [this]
    · rw [checked_neg hc]; rfl
  · have := numeric_op_num op a imm
    rw [num_big ha, num_small hi3] at this
    rw [num_big ha]
    simpa only [invoke_op_i] using this

theorem exp_fixnum_aux (a : Int) (n : Nat) (v : Val) (hr : (0:Int) ≤ (n : Int) ∧ (n : Int) < 4294967296) (hv : v.as_fixnum = some (n : Int)): 
    exp_fixnum a v = .ok (num (a ^ n)) := by
  unfold exp_fixnum
  rw [hv]
  simp only [if_pos hr, Int.toNat_natCast]
  by_cases hc : InI64 (a ^ n)
  · simp only [checked_pos hc, integer_eq_num hc]
  · simp only [checked_neg hc, num_eq]
theorem invoke_exp_aux (a : Int) (n : Nat) (v : Val) (hr : (0:Int) ≤ (n : Int) ∧ (n : Int) < 4294967296) (hv : v.as_fixnum = some (n : Int)): 
    invoke_exp (num a) v = .ok (num (a ^ n)) := by
  unfold invoke_exp
  rw [as_fixnum_num]
  by_cases ha : InI63 a
  · simp only [if_pos ha]
    exact exp_fixnum_aux a n v hr hv
  · rw [as_float_num a, as_bignum_num a]
    simp only [if_neg ha, hv, if_pos hr, Int.toNat_natCast, num_eq]

end Verif.Arith
