import Verif.Value.Model
import Mathlib.Data.Int.Bitwise
/-!
# Integer operators and Integer methods

Sources: `ruruby/src/vm/executor/ops.rs`, `ruruby/src/arith.rs`, `ruruby/src/value/real.rs`,
`ruruby/src/builtin/numeric.rs`, `ruruby/src/builtin/integer.rs`.

Conventions: an `i64` is an `Int`; `checked_*` are range tests; an unchecked `i64` operation whose
result leaves the range is the error `panic`.  `BigInt` is `Int` (the `num` crate's documented
behaviour: exact arithmetic, floor division, two's complement bit operations and shifts).
Floating-point results are not modelled: the branch yields `unmodelled`.
`invoke_send1(id, …)` on integers is resolved to the builtin of class `Integer`/`Numeric`
(i.e. the program has not redefined integer operators).
-/
namespace Verif.Arith
open Verif.Value

/-- Errors an operation can end in. -/
inductive Err where
  | zeroDiv          -- ZeroDivisionError
  | typeErr          -- cannot coerce / no implicit conversion
  | runtime          -- RuntimeError
  | argument         -- ArgumentError
  | noMethod         -- NoMethodError
  | domain           -- Math::DomainError
  | panic            -- Rust panic: the interpreter aborts
  | unmodelled       -- floating-point branch, outside the model
  deriving DecidableEq, Repr

abbrev Res (α : Type) := Except Err α

/-- `i64::checked_*`: the exact result if it fits. -/
def checked (x : Int) : Option Int := if InI64 x then some x else none
/-- An unchecked `i64` operation (overflow checks on: panic). -/
def exactI64 (x : Int) : Res Int := if InI64 x then .ok x else .error .panic

/-! ## `Real` -/

/-- `value/real.rs:6-10` -/
inductive Real where
  | Bignum (n : Int)
  | Integer (i : Int)
  | Float (bits : Word)
  deriving DecidableEq, Repr

/-- `value/value.rs:1255-1265` `to_real` -/
def to_real (v : Val) : Option Real :=
  match unpack v with
  | .integer i => some (.Integer i)
  | .float f => some (.Float f)
  | .bignum n => some (.Bignum n)
  | _ => none

/-- `value/real.rs:13-19` -/
def Real.into_val : Real → Val
  | .Bignum n => Value.bignum n
  | .Integer i => Value.integer i
  | .Float f => Value.float f

/-- `value/real.rs:21-26` -/
def Real.integer (n : Int) : Real := if InI64 n then .Integer n else .Bignum n

/-- `value/real.rs:35-41` -/
def Real.is_zero : Real → Bool
  | .Bignum n => n == 0
  | .Integer i => i == 0
  | .Float f => isZeroBits f

/-- `value/real.rs:90-122` `impl_ops!`; `op` is the operation on mathematical integers. -/
def Real.op (op : Int → Int → Int) : Real → Real → Res Real
  | .Bignum n1, .Bignum n2 => .ok (Real.integer (op n1 n2))
  | .Bignum n1, .Integer i2 => .ok (Real.integer (op n1 i2))
  | .Integer i1, .Bignum n2 => .ok (Real.integer (op i1 n2))
  | .Integer i1, .Integer i2 =>
    match checked (op i1 i2) with
    | some i => .ok (.Integer i)
    | none => .ok (.Bignum (op i1 i2))
  | _, _ => .error .unmodelled

/-- `value/real.rs:126-141` `Div`; `i64::div_floor` panics on overflow (std `int_roundings`). -/
def Real.div : Real → Real → Res Real
  | .Bignum n1, .Bignum n2 => .ok (Real.integer (Int.fdiv n1 n2))
  | .Bignum n1, .Integer i2 => .ok (Real.integer (Int.fdiv n1 i2))
  | .Integer i1, .Bignum n2 => .ok (Real.integer (Int.fdiv i1 n2))
  | .Integer i1, .Integer i2 => (exactI64 (Int.fdiv i1 i2)).map .Integer
  | _, _ => .error .unmodelled

/-- `value/real.rs:143-157` `PartialEq` (float rows not modelled). -/
def Real.eq : Real → Real → Res Bool
  | .Bignum n1, .Bignum n2 => .ok (n1 == n2)
  | .Bignum _, .Integer _ => .ok false
  | .Integer _, .Bignum _ => .ok false
  | .Integer i1, .Integer i2 => .ok (i1 == i2)
  | _, _ => .error .unmodelled

/-- `value/real.rs:159-168` `Neg`; `-i` on `i64` panics on overflow. -/
def Real.neg : Real → Res Real
  | .Bignum n => .ok (.Bignum (-n))
  | .Integer i => (exactI64 (-i)).map .Integer
  | .Float _ => .error .unmodelled

/-- `arith.rs:129-143` `cmp_fixnum`; `none` = not comparable. -/
def cmp_fixnum (lhsi : Int) (rhs : Val) : Res (Option Ordering) :=
  match rhs.as_fixnum with
  | some rhsi => .ok (some (compare lhsi rhsi))
  | none =>
    match rhs.as_float with
    | some _ => .error .unmodelled
    | none =>
      match rhs.as_bignum with
      | some rhsb => .ok (some (if rhsb > 0 then .lt else .gt))
      | none => .ok none

/-- `arith.rs:186-211` `cmp_bignum` -/
def cmp_bignum (lhsb : Int) (rhs : Val) : Res (Option Ordering) :=
  match rhs.as_fixnum with
  | some _ => .ok (some (if lhsb > 0 then .gt else .lt))
  | none =>
    match rhs.as_float with
    | some _ => .error .unmodelled
    | none =>
      match rhs.as_bignum with
      | some rhsb => .ok (some (compare lhsb rhsb))
      | none => .ok none

/-- `value/real.rs:170-178` `PartialOrd` -/
def Real.partial_cmp (a b : Real) : Res (Option Ordering) :=
  match a with
  | .Bignum n1 => cmp_bignum n1 b.into_val
  | .Integer i1 => cmp_fixnum i1 b.into_val
  | .Float _ => .error .unmodelled

/-! ## Numeric builtins (`builtin/numeric.rs`) -/

/-- `builtin/numeric.rs:46-95` `add`/`sub`/`mul` (complex arguments not modelled). -/
def numeric_op (op : Int → Int → Int) (self arg0 : Val) : Res Val :=
  match to_real self with
  | none => .error .panic
  | some lhs =>
    match to_real arg0 with
    | some rhs => (Real.op op lhs rhs).map Real.into_val
    | none => .error .typeErr

/-- `builtin/numeric.rs:97-121` `div` -/
def numeric_div (self arg0 : Val) : Res Val :=
  match to_real self with
  | none => .error .panic
  | some lhs =>
    match to_real arg0 with
    | some rhs => if rhs.is_zero then .error .zeroDiv else (Real.div lhs rhs).map Real.into_val
    | none => .error .typeErr

/-- The four order operators of `define_cmp!`, `PartialOrd`'s provided methods. -/
inductive CmpOp | lt | le | gt | ge
  deriving DecidableEq, Repr

def CmpOp.ofOrd : CmpOp → Option Ordering → Bool
  | .lt, o => o == some .lt
  | .le, o => o == some .lt || o == some .eq
  | .gt, o => o == some .gt
  | .ge, o => o == some .gt || o == some .eq

def CmpOp.onInt : CmpOp → Int → Int → Bool
  | .lt, a, b => decide (a < b)
  | .le, a, b => decide (a ≤ b)
  | .gt, a, b => decide (a > b)
  | .ge, a, b => decide (a ≥ b)

/-- `builtin/numeric.rs:123-148` `define_cmp!` -/
def numeric_cmp (op : CmpOp) (self arg0 : Val) : Res Bool :=
  match to_real self with
  | none => .error .panic
  | some lhs =>
    match to_real arg0 with
    | some rhs => (Real.partial_cmp lhs rhs).map op.ofOrd
    | none => .error .argument

/-- `builtin/integer.rs:131-138` `eq` -/
def integer_eq (self arg0 : Val) : Res Bool :=
  match to_real self with
  | none => .error .panic
  | some lhs =>
    match to_real arg0 with
    | some rhs => Real.eq lhs rhs
    | none => .ok false

/-- `builtin/integer.rs:102-106` `minus` -/
def integer_minus (self : Val) : Res Val :=
  match to_real self with
  | none => .error .panic
  | some r => (Real.neg r).map Real.into_val

/-- `builtin/integer.rs:149-158` `cmp` followed by `Value::from_ord` (`value.rs:1158-1160`). -/
def from_ord (o : Option Ordering) : Val :=
  match o with
  | none => Value.nil
  | some .lt => Value.integer (-1)
  | some .eq => Value.integer 0
  | some .gt => Value.integer 1

def integer_cmp (self arg0 : Val) : Res Val :=
  match self.as_fixnum with
  | some i => (cmp_fixnum i arg0).map from_ord
  | none =>
    match self.as_bignum with
    | some n => (cmp_bignum n arg0).map from_ord
    | none => .error .panic

/-! ## Operator instructions (`vm/executor/ops.rs`) -/

/-- `ops.rs:30-63` `invoke_op!` (`invoke_add`, `invoke_sub`): tagged arithmetic on the raw words. -/
def invoke_op (op : Int → Int → Int) (lhs rhs : Val) : Res Val :=
  match lhs, rhs with
  | .word l, .word r =>
    if is_fnum l then
      if is_fnum r then
        match checked (op (l - 1#64).toInt (r - 1#64).toInt) with
        | some res => .ok (.word (fixnumW (BitVec.ofInt 64 (res >>> (1 : Nat)))))
        | none => .ok (Value.bignum (op (as_fnum l) (as_fnum r)))
      else if (as_flonum r).isSome then .error .unmodelled
      else numeric_op op lhs rhs
    else if (as_flonum l).isSome then .error .unmodelled
    else .error .noMethod       -- other immediates: not an integer receiver
  | _, _ => numeric_op op lhs rhs

/-- `ops.rs:9-28` `invoke_op_i!` (`invoke_addi`, `invoke_subi`), `imm` an `i32`. -/
def invoke_op_i (op : Int → Int → Int) (lhs : Val) (imm : Int) : Res Val :=
  match lhs with
  | .word l =>
    if is_fnum l then
      match checked (op (l - 1#64).toInt (BitVec.ofInt 64 imm <<< 1).toInt) with
      | some res => .ok (.word (BitVec.ofInt 64 res + 1#64))
      | none => .ok (Value.bignum (op (as_fnum l) imm))
    else if (as_flonum l).isSome then .error .unmodelled
    else .error .noMethod
  | _ => numeric_op op lhs (.word (fixnumW (BitVec.ofInt 64 imm)))

/-- `ops.rs:69-96` `invoke_mul` -/
def invoke_mul (lhs rhs : Val) : Res Val :=
  match lhs.as_fixnum, rhs.as_fixnum with
  | some lhsi, some rhsi =>
    match checked (lhsi * rhsi) with
    | some res => .ok (Value.integer res)
    | none => .ok (Value.bignum (lhsi * rhsi))
  | _, _ => numeric_op (· * ·) lhs rhs

/-- `ops.rs:101-126` `invoke_div` -/
def invoke_div (lhs rhs : Val) : Res Val :=
  match lhs.as_fixnum, rhs.as_fixnum with
  | some lhsi, some rhsi =>
    if rhsi = 0 then .error .zeroDiv
    else (exactI64 (Int.fdiv lhsi rhsi)).map Value.integer
  | _, _ => numeric_div lhs rhs

/-- `arith.rs:11-31` `rem_fixnum` (`rem_floor` of crate `divrem`: floor remainder) -/
def rem_fixnum (lhsi : Int) (rhs : Val) : Res Val :=
  match rhs.as_fixnum with
  | some i2 => if i2 = 0 then .error .zeroDiv else .ok (Value.integer (Int.fmod lhsi i2))
  | none =>
    match rhs.as_float with
    | some _ => .error .unmodelled
    | none =>
      match rhs.as_bignum with
      | some b2 => if b2 = 0 then .error .zeroDiv else .ok (Value.bignum (Int.fmod lhsi b2))
      | none => .error .typeErr

/-- `arith.rs:33-53` `rem_bignum` -/
def rem_bignum (lhsb : Int) (rhs : Val) : Res Val :=
  match rhs.as_fixnum with
  | some i2 => if i2 = 0 then .error .zeroDiv else .ok (Value.bignum (Int.fmod lhsb i2))
  | none =>
    match rhs.as_float with
    | some _ => .error .unmodelled
    | none =>
      match rhs.as_bignum with
      | some b2 => if b2 = 0 then .error .zeroDiv else .ok (Value.bignum (Int.fmod lhsb b2))
      | none => .error .typeErr

/-- `ops.rs:128-138` `invoke_rem`, falling back to `builtin/integer.rs:63-72`. -/
def invoke_rem (lhs rhs : Val) : Res Val :=
  match lhs.as_fixnum with
  | some l => rem_fixnum l rhs
  | none =>
    match lhs.as_float with
    | some _ => .error .unmodelled
    | none =>
      match lhs.as_bignum with
      | some n => rem_bignum n rhs
      | none => .error .noMethod

/-- `arith.rs:88-110` `exp_fixnum`; `try_into::<u32>`, `checked_pow`. -/
def exp_fixnum (lhsi : Int) (rhs : Val) : Res Val :=
  match rhs.as_fixnum with
  | some rhsi =>
    if 0 ≤ rhsi ∧ rhsi < 4294967296 then
      match checked (lhsi ^ rhsi.toNat) with
      | some i => .ok (Value.integer i)
      | none => .ok (Value.bignum (lhsi ^ rhsi.toNat))
    else .error .unmodelled          -- `powf`
  | none =>
    match rhs.as_float, rhs.as_bignum with
    | none, none => .error .typeErr
    | _, _ => .error .unmodelled     -- `powf`

/-- `ops.rs:140-150` `invoke_exp`, falling back to `builtin/integer.rs:74-95`. -/
def invoke_exp (lhs rhs : Val) : Res Val :=
  match lhs.as_fixnum with
  | some i => exp_fixnum i rhs
  | none =>
    match lhs.as_float with
    | some _ => .error .unmodelled
    | none =>
      match lhs.as_bignum with
      | none => .error .noMethod
      | some n =>
        match rhs.as_fixnum with
        | some rhsi =>
          if 0 ≤ rhsi ∧ rhsi < 4294967296 then .ok (Value.bignum (n ^ rhsi.toNat))
          else .error .unmodelled
        | none =>
          match rhs.as_float, rhs.as_bignum with
          | none, none => .error .typeErr
          | _, _ => .error .unmodelled

/-- `ops.rs:152-163` `invoke_neg` -/
def invoke_neg (lhs : Val) : Res Val :=
  match unpack lhs with
  | .integer i =>
    match checked (-i) with
    | some i => .ok (Value.integer i)
    | none => .error .runtime
  | .float _ => .error .unmodelled
  | .bignum _ => integer_minus lhs
  | _ => .error .noMethod

/-! ### Shifts -/

/-- `i64::checked_shr`: `None` iff the amount is at least 64; arithmetic shift. -/
def checked_shr (lhs : Int) (rhs : Nat) : Option Int :=
  if rhs < 64 then some ((BitVec.ofInt 64 lhs).sshiftRight rhs).toInt else none
/-- `i64::checked_shl`: `None` iff the amount is at least 64; bits shifted out are lost. -/
def checked_shl (lhs : Int) (rhs : Nat) : Option Int :=
  if rhs < 64 then some (BitVec.ofInt 64 lhs <<< rhs).toInt else none

/-- `arith.rs:250-259` -/
def shr_fixnum_sub (lhs rhs : Int) : Val :=
  if rhs < 4294967295 then
    match checked_shr lhs rhs.toNat with
    | some i => Value.integer i
    | none => Value.integer 0
  else Value.bignum (lhs >>> rhs.toNat)

/-- `arith.rs:262-274` -/
def shl_fixnum_sub (lhs rhs : Int) : Val :=
  if rhs < 4294967295 then
    match checked_shl lhs rhs.toNat with
    | some i => Value.integer i
    | none => Value.bignum (lhs * 2 ^ rhs.toNat)
  else Value.bignum (lhs * 2 ^ rhs.toNat)

/-- `arith.rs:223-229` -/
def shl_fixnum (lhs rhs : Int) : Val :=
  if rhs ≥ 0 then shl_fixnum_sub lhs rhs else shr_fixnum_sub lhs (-rhs)
/-- `arith.rs:241-247` -/
def shr_fixnum (lhs rhs : Int) : Val :=
  if rhs ≥ 0 then shr_fixnum_sub lhs rhs else shl_fixnum_sub lhs (-rhs)

/-- `builtin/integer.rs:218-229` -/
def shr_bignum (rhs : Val) : Res Val :=
  match rhs.as_bignum with
  | some r => if ¬ r < 0 then .ok (Value.integer 0) else .error .runtime
  | none => .error .typeErr
/-- `builtin/integer.rs:255-266` -/
def shl_bignum (rhs : Val) : Res Val :=
  match rhs.as_bignum with
  | some r => if r < 0 then .ok (Value.integer 0) else .error .runtime
  | none => .error .typeErr

/-- `ops.rs:181-190` `invoke_shr` with `builtin/integer.rs:194-216` `shr`. -/
def invoke_shr (lhs rhs : Val) : Res Val :=
  match lhs.as_fixnum with
  | some l =>
    match rhs.as_fixnum with
    | some r => .ok (shr_fixnum l r)
    | none => shr_bignum rhs
  | none =>
    match lhs.as_bignum with
    | some l =>
      match rhs.as_fixnum with
      | some r => if r ≥ 0 then .ok (Value.bignum (l >>> r.toNat))
                  else .ok (Value.bignum (l * 2 ^ (-r).toNat))
      | none => shr_bignum rhs
    | none => .error .noMethod

/-- `ops.rs:165-179` `invoke_shl` with `builtin/integer.rs:231-253` `shl`. -/
def invoke_shl (lhs rhs : Val) : Res Val :=
  match lhs.as_fixnum with
  | some l =>
    match rhs.as_fixnum with
    | some r => .ok (shl_fixnum l r)
    | none => shl_bignum rhs
  | none =>
    match lhs.as_bignum with
    | some l =>
      match rhs.as_fixnum with
      | some r => if r ≥ 0 then .ok (Value.bignum (l * 2 ^ r.toNat))
                  else .ok (Value.bignum (l >>> (-r).toNat))
      | none => shl_bignum rhs
    | none => .error .noMethod

/-! ### Bit operations -/

/-- `ops.rs:192-210` `invoke_bitand` with `builtin/integer.rs:268-297` `band`. -/
def invoke_bitand (lhs rhs : Val) : Res Val :=
  match lhs.as_fixnum, rhs.as_fixnum with
  | some l, some r => .ok (Value.integer (BitVec.ofInt 64 l &&& BitVec.ofInt 64 r).toInt)
  | _, _ =>
    match to_real lhs, to_real rhs with
    | some (.Integer l), some (.Bignum r) => .ok (Value.bignum (Int.land l r))
    | some (.Bignum l), some (.Integer r) => .ok (Value.bignum (Int.land l r))
    | some (.Bignum l), some (.Bignum r) => .ok (Value.bignum (Int.land l r))
    | _, _ => .error .typeErr

/-- `ops.rs:212-229` `invoke_bitor` with `builtin/integer.rs:268-298` `bor`. -/
def invoke_bitor (lhs rhs : Val) : Res Val :=
  match lhs.as_fixnum, rhs.as_fixnum with
  | some l, some r => .ok (Value.integer (BitVec.ofInt 64 l ||| BitVec.ofInt 64 r).toInt)
  | _, _ =>
    match to_real lhs, to_real rhs with
    | some (.Integer l), some (.Bignum r) => .ok (Value.bignum (Int.lor l r))
    | some (.Bignum l), some (.Integer r) => .ok (Value.bignum (Int.lor l r))
    | some (.Bignum l), some (.Bignum r) => .ok (Value.bignum (Int.lor l r))
    | _, _ => .error .typeErr

/-- `ops.rs:231-240` `invoke_bitxor`: `Integer` defines no `^` method, so a big operand ends in
`NoMethodError`. -/
def invoke_bitxor (lhs rhs : Val) : Res Val :=
  match unpack lhs, unpack rhs with
  | .integer l, .integer r => .ok (Value.integer (BitVec.ofInt 64 l ^^^ BitVec.ofInt 64 r).toInt)
  | _, _ => .error .noMethod

/-- `ops.rs:242-249` `invoke_bitnot` -/
def invoke_bitnot (lhs : Val) : Res Val :=
  match unpack lhs with
  | .integer l => .ok (Value.integer (~~~ (BitVec.ofInt 64 l)).toInt)
  | _ => .error .noMethod

/-- `value/value.rs:565-571` `coerce_to_fixnum` (floats not modelled). -/
def coerce_to_fixnum (v : Val) : Res Int :=
  match unpack v with
  | .integer i => .ok i
  | .float _ => .error .unmodelled
  | _ => .error .typeErr

/-- `builtin/integer.rs:165-192` `index` -/
def integer_index (self arg0 : Val) : Res Val :=
  match self.as_fixnum with
  | some i =>
    if arg0.as_bignum.isSome then .ok (Value.integer 0)
    else
      (coerce_to_fixnum arg0).map fun (index : Int) =>
        Value.integer (if index < 0 ∨ 63 < index then 0
          else ((BitVec.ofInt 64 i).sshiftRight index.toNat &&& 1#64).toInt)
  | none =>
    match self.as_bignum with
    | some i =>
      if arg0.as_bignum.isSome then .ok (Value.integer 0)
      else
        (coerce_to_fixnum arg0).map fun (index : Int) =>
          Value.bignum (if index < 0 then 0 else Int.land (i >>> index.toNat) 1)
    | none => .error .panic

/-- `ops.rs:588-592` (`invoke_get_index_imm`, fixnum receiver): index is a `u32`. -/
def index_imm_fixnum (i : Int) (idx : Nat) : Val :=
  Value.integer (if 63 < idx then 0 else ((BitVec.ofInt 64 i).sshiftRight idx &&& 1#64).toInt)

/-- Bits of the magnitude, `BigInt::bits`. -/
def bigBits (b : Int) : Nat := Nat.size b.natAbs

/-- `i64::leading_zeros` of a 64-bit word. -/
def leading_zeros (w : Word) : Nat := 64 - Nat.size w.toNat
/-- `i64::leading_ones` -/
def leading_ones (w : Word) : Nat := leading_zeros (~~~ w)

/-- `builtin/integer.rs:501-522` `bit_length`; `BigInt::bit` is the two's complement bit. -/
def bit_length (self : Val) : Res Val :=
  match self.as_fixnum with
  | some i =>
    .ok (Value.integer (if i ≥ 0 then (64 - leading_zeros (BitVec.ofInt 64 i) : Nat)
                        else (64 - leading_ones (BitVec.ofInt 64 i) : Nat)))
  | none =>
    match self.as_bignum with
    | some b =>
      let all := (bigBits b + 63) / 64 * 64
      let lead := ((List.range all).find? (fun x =>
        if ¬ b < 0 then Int.testBit b (all - x) else !Int.testBit b (all - x))).getD all
      .ok (Value.integer ((all - lead + 1 : Nat)))
    | none => .error .panic

/-! ### Comparison instructions -/

/-- `ops.rs:252-287` `eval_cmp!`/`eval_cmp2!` -/
def eval_cmp (op : CmpOp) (lhs rhs : Val) : Res Bool :=
  match lhs.as_fixnum with
  | some lhsi =>
    match rhs.as_fixnum with
    | some rhsi => .ok (op.onInt lhsi rhsi)
    | none => if (match rhs with | .word w => (as_flonum w).isSome | _ => false) then .error .unmodelled
              else numeric_cmp op lhs rhs
  | none =>
    if (match lhs with | .word w => (as_flonum w).isSome | _ => false) then .error .unmodelled
    else numeric_cmp op lhs rhs

/-- `ops.rs:289-304` `eval_cmp_i!`; `i` an `i32`. -/
def eval_cmp_i (op : CmpOp) (lhs : Val) (i : Int) : Res Bool :=
  match lhs.as_fixnum with
  | some lhsi => .ok (op.onInt lhsi i)
  | none =>
    if (match lhs with | .word w => (as_flonum w).isSome | _ => false) then .error .unmodelled
    else numeric_cmp op lhs (.word (fixnumW (BitVec.ofInt 64 i)))

/-- `ops.rs:358-433` `eval_eq2`, integer rows.  A heap object equals itself by address; two bignums are
compared by value, so the address shortcut is subsumed. -/
def eval_eq (lhs rhs : Val) : Res Bool :=
  match lhs.as_fixnum, rhs.as_fixnum with
  | some lhsi, some rhsi => .ok (lhsi == rhsi)
  | _, _ =>
    match lhs, rhs with
    | .word l, .word r =>
      if (as_flonum l).isSome || (as_flonum r).isSome then .error .unmodelled else .ok (l == r)
    | .word _, _ => .ok false          -- one packed, one heap: identities differ
    | _, .word _ => .ok false
    | .big a, .big b => .ok (a == b)
    | _, _ => .error .unmodelled

/-- `ops.rs:453-470` `eval_eqi` -/
def eval_eqi (lhs : Val) (i : Int) : Res Bool :=
  match lhs.as_fixnum with
  | some lhsi => .ok (lhsi == i)
  | none =>
    match unpack lhs with
    | .integer l => .ok (l == i)
    | .float _ => .error .unmodelled
    | .bignum _ => integer_eq lhs (Value.integer i)
    | _ => .error .unmodelled

/-- `ops.rs:484-493` `invoke_compare` with `builtin/integer.rs:149-158`. -/
def invoke_compare (lhs rhs : Val) : Res Val :=
  match lhs.as_fixnum with
  | some lhsi => (cmp_fixnum lhsi rhs).map from_ord
  | none =>
    match lhs.as_float with
    | some _ => .error .unmodelled
    | none => integer_cmp lhs rhs

/-! ### gcd / lcm -/

/-- `trailing_zeros` of a non-zero word (64 for zero). -/
def tz (n : Nat) : Nat :=
  if h : n = 0 then 64 else if n % 2 = 0 then tz (n / 2) + 1 else 0
decreasing_by omega

/-- `arith.rs:326-332`: the loop of Stein's algorithm on positive numbers (`m`, `n` are the loop
variables; the shift and subtraction stay inside `i64` because the values only shrink). -/
def steinLoop (m n : Nat) : Nat :=
  if _h : m = 0 then n
  else
    let m1 := m >>> tz m
    if n > m1 then
      steinLoop (n - m1) m1
    else if n = 0 then n   -- not reached: `n` stays odd
    else steinLoop (m1 - n) n
termination_by m + n
decreasing_by
  · have : m >>> tz m ≤ m := by rw [Nat.shiftRight_eq_div_pow]; exact Nat.div_le_self _ _
    have hpos : 0 < m >>> tz m := by
      clear * - _h
      induction m using Nat.strongRecOn with
      | _ m ih =>
        unfold tz
        rw [dif_neg _h]
        by_cases h2 : m % 2 = 0
        · rw [if_pos h2, Nat.shiftRight_succ_inside]
          exact ih (m/2) (by omega) (by omega)
        · rw [if_neg h2]; simpa using Nat.pos_of_ne_zero _h
    omega
  · have : m >>> tz m ≤ m := by rw [Nat.shiftRight_eq_div_pow]; exact Nat.div_le_self _ _
    omega

/-- `i64::abs`: panics on `i64::MIN`. -/
def absI64 (x : Int) : Res Int := exactI64 (x.natAbs : Int)

/-- `arith.rs:292-338` `safe_gcd` -/
def safe_gcd (m n : Int) : Res Val := do
  let mn := (BitVec.ofInt 64 m ||| BitVec.ofInt 64 n)
  if m = 0 ∨ n = 0 then return Value.integer (← absI64 mn.toInt)
  let shift := tz mn.toNat
  if m = -2^63 ∨ n = -2^63 then
    match checked_shl 1 shift with
    | some i => return Value.integer (← absI64 i)
    | none => return Value.bignum ((n * 2 ^ shift).natAbs : Int)
  let m ← absI64 m
  let n ← absI64 n
  let n1 := n.toNat >>> tz n.toNat
  let g := steinLoop m.toNat n1
  match checked_shl g shift with
  | some i => return Value.integer i
  | none => return Value.bignum (g * 2 ^ shift)

/-- `arith.rs:355-371` `safe_lcm`; `/` on `i64` and `BigInt` truncates; `x / 0` panics. -/
def safe_lcm (self_ other : Int) : Res Val := do
  if self_ = 0 ∧ other = 0 then return Value.integer 0
  let gcd ← safe_gcd self_ other
  match gcd.as_fixnum with
  | some i =>
    if i = 0 then throw .panic
    match checked (self_ * Int.tdiv other i) with
    | some i => return Value.integer (← absI64 i)
    | none => return Value.bignum ((self_ * Int.tdiv other i).natAbs : Int)
  | none =>
    match gcd.as_bignum with
    | some b => if b = 0 then throw .panic
                return Value.bignum ((self_ * Int.tdiv other b).natAbs : Int)
    | none => throw .panic

/-- `builtin/integer.rs:611-635` `gcd`; `BigInt::gcd` is the non-negative gcd. -/
def integer_gcd (self rhs : Val) : Res Val :=
  match self.as_fixnum with
  | some i =>
    match rhs.as_bignum with
    | some b2 => .ok (Value.bignum (Int.gcd i b2))
    | none =>
      match rhs.as_fixnum with
      | some i2 => safe_gcd i i2
      | none => .error .typeErr
  | none =>
    match self.as_bignum with
    | some b =>
      match rhs.as_bignum with
      | some b2 => .ok (Value.bignum (Int.gcd b b2))
      | none =>
        match rhs.as_fixnum with
        | some i2 => .ok (Value.bignum (Int.gcd b i2))
        | none => .error .typeErr
    | none => .error .panic

/-- `builtin/integer.rs:640-664` `lcm` -/
def integer_lcm (self rhs : Val) : Res Val :=
  match self.as_fixnum with
  | some i =>
    match rhs.as_bignum with
    | some b2 => .ok (Value.bignum (Int.lcm i b2))
    | none =>
      match rhs.as_fixnum with
      | some i2 => safe_lcm i i2
      | none => .error .typeErr
  | none =>
    match self.as_bignum with
    | some b =>
      match rhs.as_bignum with
      | some b2 => .ok (Value.bignum (Int.lcm b b2))
      | none =>
        match rhs.as_fixnum with
        | some i2 => .ok (Value.bignum (Int.lcm b i2))
        | none => .error .typeErr
    | none => .error .panic

/-! ### digits, next, pred, abs, parity, chr -/

/-- `builtin/integer.rs:824-831`: the loop of `digits`.  For base 1 the remainder is 0 at once; for a base
of at least 2 the receiver shrinks. -/
def digitsLoop (self_ base : Nat) (fuel : Nat) : List Nat :=
  match fuel with
  | 0 => []
  | fuel + 1 =>
    let r := self_ % base
    let self_ := self_ / base
    if r = 0 then [] else r :: digitsLoop self_ base fuel

/-- `builtin/integer.rs:808-836` `digits` (`base` already defaulted to 10).  The receiver must be a
fixnum (`unwrap`).  The loop stops at the first zero remainder, at the latest when the
receiver has become 0, so `self_ + 1` rounds always suffice (`Props.digits_fuel`). -/
def integer_digits (self base : Val) : Res (List Val) := do
  let base ← coerce_to_fixnum base
  if base < 0 then throw .argument
  if base = 0 then throw .argument
  match self.as_fixnum with
  | none => throw .panic
  | some s =>
    if s < 0 then throw .domain
    let ary := digitsLoop s.toNat base.toNat (s.toNat + 1)
    return (if ary.length = 0 then [Value.integer 0] else ary.map (fun (d : Nat) => Value.integer d))

/-- `builtin/integer.rs:757-769` `next` -/
def integer_next (self : Val) : Res Val :=
  match self.as_fixnum with
  | some i =>
    match checked (i + 1) with
    | some i => .ok (Value.integer i)
    | none => .ok (Value.bignum (i + 1))
  | none =>
    match self.as_bignum with
    | some n => .ok (Value.bignum (n + 1))
    | none => .error .panic

/-- `builtin/integer.rs:771-783` `pred` -/
def integer_pred (self : Val) : Res Val :=
  match self.as_fixnum with
  | some i =>
    match checked (i - 1) with
    | some i => .ok (Value.integer i)
    | none => .ok (Value.bignum (i - 1))
  | none =>
    match self.as_bignum with
    | some n => .ok (Value.bignum (n - 1))
    | none => .error .panic

/-- `builtin/integer.rs:558-567` `abs` -/
def integer_abs (self : Val) : Res Val :=
  match self.as_fixnum with
  | some i => (absI64 i).map Value.integer
  | none =>
    match self.as_bignum with
    | some n => .ok (Value.bignum (n.natAbs : Int))
    | none => .error .panic

/-- `builtin/integer.rs:583-592` `even?` -/
def integer_even (self : Val) : Res Bool :=
  match self.as_fixnum with
  | some i => .ok (i % 2 == 0)
  | none =>
    match self.as_bignum with
    | some n => .ok (n % 2 == 0)
    | none => .error .panic

/-! ### Iteration -/

/-- A block call: may change the state or stop the iteration with an exception (`raise`, `break`, …). -/
abbrev Body (σ ε : Type) := Val → σ → Except ε σ

/-- `vm/executor/method.rs:86-139` `eval_block_each1_iter`: run the block on every item the iterator
produces, then return `default`.  Generic over the iterator state. -/
def evalBlockEach {σ ε ι : Type} (next : ι → Option (Val × ι)) (body : Body σ ε) (dflt : Val) :
    Nat → ι → σ → Except (Option ε) (Val × σ)
  | 0, _, _ => .error none            -- out of fuel (the loop would go on)
  | fuel + 1, it, s =>
    match next it with
    | none => .ok (dflt, s)
    | some (v, it') =>
      match body v s with
      | .error e => .error (some e)
      | .ok s' => evalBlockEach next body dflt fuel it' s'

/-- Rust's `Range<i64>` iterator (`a..b`), mapped through `Value::integer`. -/
def rangeNext (it : Int × Int) : Option (Val × (Int × Int)) :=
  if it.1 < it.2 then some (Value.integer it.1, (it.1 + 1, it.2)) else none

/-- `(a..b).rev()`. -/
def rangeNextBack (it : Int × Int) : Option (Val × (Int × Int)) :=
  if it.1 < it.2 then some (Value.integer (it.2 - 1), (it.1, it.2 - 1)) else none

/-- `num::range(0, n)` over `BigInt`, mapped through `Value::bignum`. -/
def bigRangeNext (it : Int × Int) : Option (Val × (Int × Int)) :=
  if it.1 < it.2 then some (Value.bignum it.1, (it.1 + 1, it.2)) else none

/-- `builtin/integer.rs:412-423` `PosStep::next` (state: cur, limit, step); the addition is an unchecked
`i64` operation: `Props` shows that it never leaves the range for the values that can occur. -/
def posStepNext (it : Int × Int × Int) : Option (Val × (Int × Int × Int)) :=
  if it.1 > it.2.1 then none else some (Value.integer it.1, (it.1 + it.2.2, it.2.1, it.2.2))

/-- `builtin/integer.rs:431-442` `NegStep::next` -/
def negStepNext (it : Int × Int × Int) : Option (Val × (Int × Int × Int)) :=
  if it.2.1 > it.1 then none else some (Value.integer it.1, (it.1 + it.2.2, it.2.1, it.2.2))

/-- Result of an iteration method with a block. -/
abbrev IterRes (σ ε : Type) := Except (Err ⊕ Option ε) (Val × σ)

def liftIter {σ ε : Type} : Except (Option ε) (Val × σ) → IterRes σ ε
  | .ok x => .ok x
  | .error e => .error (.inr e)

/-- `builtin/integer.rs:325-356` `times` with a block. -/
def integer_times {σ ε : Type} (fuel : Nat) (self : Val) (body : Body σ ε) (s : σ) : IterRes σ ε :=
  match self.as_fixnum with
  | some num =>
    if num < 1 then .ok (self, s)
    else liftIter (evalBlockEach rangeNext body self fuel (0, num) s)
  | none =>
    match self.as_bignum with
    | some num =>
      if ¬ num > 0 then .ok (self, s)
      else liftIter (evalBlockEach bigRangeNext body self fuel (0, num) s)
    | none => .error (.inl .panic)

/-- `builtin/integer.rs:361-380` `upto` with a block. -/
def integer_upto {σ ε : Type} (fuel : Nat) (self arg0 : Val) (body : Body σ ε) (s : σ) : IterRes σ ε :=
  match self.as_fixnum with
  | none => .error (.inl .panic)
  | some num =>
    match coerce_to_fixnum arg0 with
    | .error e => .error (.inl e)
    | .ok max =>
      if num ≤ max then
        match exactI64 (max + 1) with
        | .error e => .error (.inl e)
        | .ok m1 => liftIter (evalBlockEach rangeNext body self fuel (num, m1) s)
      else .ok (self, s)

/-- `builtin/integer.rs:385-404` `downto` with a block. -/
def integer_downto {σ ε : Type} (fuel : Nat) (self arg0 : Val) (body : Body σ ε) (s : σ) : IterRes σ ε :=
  match self.as_fixnum with
  | none => .error (.inl .panic)
  | some num =>
    match coerce_to_fixnum arg0 with
    | .error e => .error (.inl e)
    | .ok min =>
      if num ≥ min then
        match exactI64 (num + 1) with
        | .error e => .error (.inl e)
        | .ok n1 => liftIter (evalBlockEach rangeNextBack body self fuel (min, n1) s)
      else .ok (self, s)

/-- `builtin/integer.rs:444-473` `step` with a block; `arg1 = none` when the step is omitted. -/
def integer_step {σ ε : Type} (fuel : Nat) (self arg0 : Val) (arg1 : Option Val) (body : Body σ ε)
    (s : σ) : IterRes σ ε :=
  match self.as_fixnum with
  | none => .error (.inl .panic)
  | some cur =>
    match coerce_to_fixnum arg0 with
    | .error e => .error (.inl e)
    | .ok limit =>
      match (match arg1 with
        | none => Except.ok 1
        | some v => match coerce_to_fixnum v with
          | .error e => .error e
          | .ok st => if st = 0 then .error .argument else .ok st) with
      | .error e => .error (.inl e)
      | .ok step =>
        if step > 0 then liftIter (evalBlockEach posStepNext body self fuel (cur, limit, step) s)
        else liftIter (evalBlockEach negStepNext body self fuel (cur, limit, step) s)

end Verif.Arith
