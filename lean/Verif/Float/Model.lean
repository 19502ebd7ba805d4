import Verif.Value.Model
import Mathlib.Algebra.Order.Field.Rat
import Mathlib.Algebra.Order.Floor.Ring
import Mathlib.Algebra.Order.Group.Unbundled.Abs
import Mathlib.Algebra.Order.Field.Power
import Mathlib.Data.Rat.Floor
import Mathlib.Order.WithBot
import Mathlib.Tactic.Ring
import Mathlib.Tactic.Linarith
import Mathlib.Tactic.NormNum
import Mathlib.Tactic.Positivity
/-! # Floating-point numbers

Model of what the interpreter does with `f64`: comparison with floats and integers, conversion to and from integers, and remainder
(`arith.rs`, `value/real.rs`, `builtin/float.rs`, `builtin/integer.rs`, `builtin/kernel.rs`, `vm/executor/ops.rs`).  The operations of
the machine are those of IEEE 754 binary64 as Rust documents them; they are defined here on decoded bit patterns. -/
namespace Verif.Float

open Verif.Value (Word)

/-! ## The machine's floats -/

/-- What a bit pattern stands for: `± m · 2^e`, an infinity or not a number. -/
inductive F64
  | nan
  | inf (neg : Bool)
  | fin (neg : Bool) (m : Nat) (e : Int)
  deriving DecidableEq, Repr

/-- IEEE 754 binary64 (`f64::from_bits`, used at value/value.rs:535-550). -/
def decode (w : Word) : F64 :=
  let neg := w.msb
  let ex : Nat := w.toNat / 2 ^ 52 % 2 ^ 11
  let m : Nat := w.toNat % 2 ^ 52
  if ex = 2047 then (if m = 0 then .inf neg else .nan)
  else if ex = 0 then .fin neg m (-1074)
  else .fin neg (2 ^ 52 + m) ((ex : Int) - 1075)

/-- The rational number `± m · 2^e`. -/
def rat (neg : Bool) (m : Nat) (e : Int) : ℚ := (if neg then -1 else 1) * m * 2 ^ e

/-- `f64::partial_cmp` (IEEE 754). -/
def partial_cmp : F64 → F64 → Option Ordering
  | .nan, _ => none
  | _, .nan => none
  | .inf a, .inf b => some (if a = b then .eq else if a then .lt else .gt)
  | .inf a, .fin .. => some (if a then .lt else .gt)
  | .fin .., .inf b => some (if b then .gt else .lt)
  | .fin a m e, .fin a' m' e' =>
    let x := rat a m e
    let y := rat a' m' e'
    some (if x < y then .lt else if x = y then .eq else .gt)

/-- `i as f64` of an `i64`: to nearest, ties to even (Rust reference, numeric casts). -/
def ofInt (i : Int) : F64 :=
  let a := i.natAbs
  if a < 2 ^ 53 then .fin (i < 0) a 0
  else
    let k := Nat.log2 a - 52
    let q := a / 2 ^ k
    let r := a % 2 ^ k
    .fin (i < 0) (if 2 ^ (k - 1) < r ∨ (r = 2 ^ (k - 1) ∧ q % 2 = 1) then q + 1 else q) k

/-- The limits of `i64`. -/
def clamp (i : Int) : Int := max (-2 ^ 63) (min i (2 ^ 63 - 1))

/-- Truncation to an integer, towards zero. -/
def truncRat (q : ℚ) : Int := if 0 ≤ q then ⌊q⌋ else ⌈q⌉

/-- `f as i64`: truncated and saturated; not-a-number is 0 (Rust reference, numeric casts). -/
def as_i64 : F64 → Int
  | .nan => 0
  | .inf neg => if neg then -2 ^ 63 else 2 ^ 63 - 1
  | .fin n m e => clamp (truncRat (rat n m e))

/-- `f.floor() as i64`; `floor` is exact on floats. -/
def floor_as_i64 : F64 → Int
  | .nan => 0
  | .inf neg => if neg then -2 ^ 63 else 2 ^ 63 - 1
  | .fin n m e => clamp ⌊rat n m e⌋

/-! ## Comparison -/

/-- A packed integer or a float. -/
inductive Num
  | int (i : Int)
  | flo (w : Word)
  deriving DecidableEq, Repr

/-- `<=>` (`invoke_compare`, vm/executor/ops.rs:484-493): `cmp_fixnum` (arith.rs:129-143) and `cmp_float` (arith.rs:145-165), for packed
integers and floats. -/
def compare3 : Num → Num → Option Ordering
  | .int a, .int b => some (if a < b then .lt else if a = b then .eq else .gt)
  | .int a, .flo b => partial_cmp (ofInt a) (decode b)
  | .flo a, .int b => partial_cmp (decode a) (ofInt b)
  | .flo a, .flo b => partial_cmp (decode a) (decode b)

/-- The operators the virtual machine compares with. -/
inductive Rel | lt | le | gt | ge
  deriving DecidableEq, Repr

/-- `f64::lt`, `le`, `gt`, `ge`: by `partial_cmp` (core, `PartialOrd`). -/
def relF (r : Rel) (x y : F64) : Bool :=
  match r, partial_cmp x y with
  | .lt, some .lt => true
  | .le, some .lt | .le, some .eq => true
  | .gt, some .gt => true
  | .ge, some .gt | .ge, some .eq => true
  | _, _ => false

/-- `i64::lt`, `le`, `gt`, `ge`. -/
def relI (r : Rel) (a b : Int) : Bool :=
  match r with
  | .lt => a < b
  | .le => a ≤ b
  | .gt => a > b
  | .ge => a ≥ b

/-- The macro `eval_cmp2` (vm/executor/ops.rs:262-287) on packed integers and packed floats. -/
def eval_cmp (r : Rel) : Num → Num → Bool
  | .int a, .int b => relI r a b
  | .int a, .flo b => relF r (ofInt a) (decode b)
  | .flo a, .int b => relF r (decode a) (ofInt b)
  | .flo a, .flo b => relF r (decode a) (decode b)

/-- The macro `eval_cmp_i` (vm/executor/ops.rs:289-304): the second operand is a literal of 32 bits. -/
def eval_cmp_i (r : Rel) : Num → Int → Bool
  | .int a, i => relI r a i
  | .flo a, i => relF r (decode a) (ofInt i)

/-- `f64 == f64`. -/
def eqF (x y : F64) : Bool := partial_cmp x y == some .eq

/-- `f.is_nan()` -/
def F64.isNan : F64 → Bool
  | .nan => true
  | _ => false

/-- `eval_eq2` (vm/executor/ops.rs:358-375) on packed integers and packed floats. -/
def eval_eq : Num → Num → Bool
  | .int a, .int b => a == b
  | .int a, .flo b => eqF (ofInt a) (decode b)
  | .flo a, .flo b => if (decode a).isNan && (decode b).isNan then false else eqF (decode a) (decode b)
  | .flo a, .int b => eqF (ofInt b) (decode a)

/-- `eval_eqi` (vm/executor/ops.rs:453-470). -/
def eval_eqi : Num → Int → Bool
  | .int a, i => a == i
  | .flo a, i => eqF (decode a) (ofInt i)

/-! ## Conversion -/

/-- `Float#floor` (builtin/float.rs:94-98). -/
def floor (w : Word) : Int := floor_as_i64 (decode w)

/-- `Float#to_i` (builtin/float.rs:110-114): `f.trunc() as i64`; the cast truncates what is already truncated. -/
def to_i (w : Word) : Int := as_i64 (decode w)

/-- `Integer(f)` (builtin/kernel.rs:326-328): `num as i64`. -/
def kernel_integer (w : Word) : Int := as_i64 (decode w)

/-- `Integer#to_f` (builtin/integer.rs:569-573) of an `i64`. -/
def to_f (i : Int) : F64 := ofInt i

/-- `Float#nan?` (builtin/float.rs:36-40). -/
def nan? (w : Word) : Bool := (decode w).isNan

/-- `Float#infinite?` (builtin/float.rs:42-53). -/
def infinite? (w : Word) : Option Int :=
  match decode w with
  | .inf neg => some (if neg then -1 else 1)
  | _ => none

/-- `Float#abs` (builtin/float.rs:104-108): `f64::abs` clears the sign bit. -/
def abs (w : Word) : Word := w &&& 0x7fffffffffffffff#64

/-! ## Specification -/

/-- The number a float stands for, infinities at the ends; none for not-a-number. -/
def F64.num : F64 → Option (WithBot (WithTop ℚ))
  | .nan => none
  | .inf neg => some (if neg then ⊥ else ((⊤ : WithTop ℚ) : WithBot (WithTop ℚ)))
  | .fin n m e => some (((rat n m e : ℚ) : WithTop ℚ) : WithBot (WithTop ℚ))

/-- The number an operand stands for. -/
def Num.num : Num → Option (WithBot (WithTop ℚ))
  | .int i => some (((i : ℚ) : WithTop ℚ) : WithBot (WithTop ℚ))
  | .flo w => (decode w).num

/-- The rational numbers that are floats: at most 53 bits, from the smallest to the largest exponent. -/
def IsFloat (q : ℚ) : Prop := ∃ m e : Int, q = m * 2 ^ e ∧ |m| < 2 ^ 53 ∧ -1074 ≤ e ∧ e ≤ 971

end Verif.Float
