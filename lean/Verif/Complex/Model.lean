import Verif.Arith.Lemmas
/-!
# Complex numbers

Model of ruruby/src/builtin/complex.rs, of the complex arguments in ruruby/src/builtin/numeric.rs:46-121,
of `Value::to_complex` (ruruby/src/value/value.rs:1269-1282) and of the comparison of two complex
numbers by `==` (ruruby/src/vm/executor/ops.rs:358-396).  Arithmetic of the parts is that of `Real`
(`Arith/Model.lean`); floating-point parts end in the error `unmodelled`, as there.
-/
namespace Verif.Complex
open Verif.Value Verif.Arith

/-- A value: a complex object with its two parts, or any other value. `value/rvalue.rs:148-151`. -/
inductive CVal
  | plain (v : Val)
  | complex (r i : Val)
deriving DecidableEq, Repr

/-- `self.to_real().unwrap()` -/
def unwrapReal (v : Val) : Res Real :=
  match to_real v with
  | some r => .ok r
  | none => .error .panic

/-- `value/value.rs:1269-1282` `to_complex`: integers of 63 bits, floats and complex numbers, but not
big integers. -/
def to_complex : CVal → Res (Option (Real × Real))
  | .plain v =>
    match unpack v with
    | .integer i => .ok (some (.Integer i, .Integer 0))
    | .float f => .ok (some (.Float f, .Integer 0))
    | _ => .ok none
  | .complex r i => do
    let r ← unwrapReal r
    let i ← unwrapReal i
    .ok (some (r, i))

/-- `self_val.to_complex().unwrap()`; `builtin/complex.rs:42` and the like. -/
def unwrapComplex (v : CVal) : Res (Real × Real) := do
  match ← to_complex v with
  | some p => .ok p
  | none => .error .panic

/-- The argument: `builtin/complex.rs:43-46` and the like. -/
def argComplex (v : CVal) : Res (Real × Real) := do
  match ← to_complex v with
  | some p => .ok p
  | none => .error .typeErr

/-- `value.rs:350-355` `is_real` -/
def is_real (v : Val) : Bool :=
  match unpack v with
  | .integer _ => true
  | .float _ => true
  | _ => false

/-- `builtin/complex.rs:22-36` `Complex.rect`. -/
def complex_rect (r : CVal) (i : Option CVal) : Res CVal :=
  match r with
  | .complex _ _ => .error .typeErr
  | .plain r =>
    if !is_real r then .error .typeErr
    else match i with
      | none => .ok (.complex r (Value.integer 0))
      | some (.plain i) => if is_real i then .ok (.complex r i) else .error .typeErr
      | some (.complex _ _) => .error .typeErr

def val (r i : Real) : CVal := .complex r.into_val i.into_val

/-- `builtin/complex.rs:40-48` `add`. -/
def add (self arg : CVal) : Res CVal := do
  let (r1, i1) ← unwrapComplex self
  let (r2, i2) ← argComplex arg
  .ok (val (← Real.op (· + ·) r1 r2) (← Real.op (· + ·) i1 i2))

/-- `builtin/complex.rs:50-58` `sub`. -/
def sub (self arg : CVal) : Res CVal := do
  let (r1, i1) ← unwrapComplex self
  let (r2, i2) ← argComplex arg
  .ok (val (← Real.op (· - ·) r1 r2) (← Real.op (· - ·) i1 i2))

/-- `builtin/complex.rs:60-70` `mul`. -/
def mul (self arg : CVal) : Res CVal := do
  let (r1, i1) ← unwrapComplex self
  let (r2, i2) ← argComplex arg
  let r ← Real.op (· - ·) (← Real.op (· * ·) r1 r2) (← Real.op (· * ·) i1 i2)
  let i ← Real.op (· + ·) (← Real.op (· * ·) i1 r2) (← Real.op (· * ·) i2 r1)
  .ok (val r i)

/-- `Real / Real` with the panic of `div_floor` for a zero divisor (`value/real.rs:126-141`), which
the callers in `numeric.rs` exclude and `complex.rs` does not. -/
def divOrPanic (a b : Real) : Res Real := if b.is_zero then .error .panic else Real.div a b

/-- `builtin/complex.rs:72-83` `div`. -/
def div (self arg : CVal) : Res CVal := do
  let (r1, i1) ← unwrapComplex self
  let (r2, i2) ← argComplex arg
  let abs2 ← Real.op (· + ·) (← Real.op (· * ·) r2 r2) (← Real.op (· * ·) i2 i2)
  let r ← divOrPanic (← Real.op (· + ·) (← Real.op (· * ·) r2 r1) (← Real.op (· * ·) i2 i1)) abs2
  let i ← divOrPanic (← Real.op (· - ·) (← Real.op (· * ·) r2 i1) (← Real.op (· * ·) r1 i2)) abs2
  .ok (val r i)

/-- `builtin/complex.rs:96-100` `abs2`. -/
def abs2 (self : CVal) : Res Val := do
  let (r, i) ← unwrapComplex self
  .ok (← Real.op (· + ·) (← Real.op (· * ·) r r) (← Real.op (· * ·) i i)).into_val

/-- `builtin/complex.rs:108-112` `rect`. -/
def rect (self : CVal) : Res (List Val) := do
  let (r, i) ← unwrapComplex self
  .ok [r.into_val, i.into_val]

/-- `ops.rs:358-396` `==` where one side is a complex number: between two of them the parts are
compared; against an immediate value the words are; against another object (a big integer) the method
`==` of the left side is called (`complex.rs:85-94`, or `integer.rs:131-138`) and an exception counts
as false. Identity of two objects is only a shortcut, as `Real.eq` is reflexive on integers. -/
def eval_eq (lhs rhs : CVal) : Res Bool :=
  match lhs, rhs with
  | .complex r1 i1, .complex r2 i2 => do
    let r1 ← unwrapReal r1
    let r2 ← unwrapReal r2
    let i1 ← unwrapReal i1
    let i2 ← unwrapReal i2
    if ← Real.eq r1 r2 then Real.eq i1 i2 else .ok false
  | .complex _ _, .plain (.word _) => .ok false
  | .plain (.word _), .complex _ _ => .ok false
  | .complex r1 i1, .plain _ =>
    match to_complex rhs with
    | .ok (some (r2, i2)) => do
      let r1 ← unwrapReal r1
      let i1 ← unwrapReal i1
      if ← Real.eq r1 r2 then Real.eq i1 i2 else .ok false
    | .ok none => .ok false
    | .error e => .error e
  | .plain _, .complex _ _ => .ok false
  | .plain a, .plain b => integer_eq a b

/-- `builtin/numeric.rs:46-61` `add` of a real number and anything. -/
def real_add (self : Val) (arg : CVal) : Res CVal := do
  let lhs ← unwrapReal self
  match arg with
  | .plain v => match to_real v with
    | some rhs => .ok (.plain (← Real.op (· + ·) lhs rhs).into_val)
    | none => .error .typeErr
  | .complex _ _ =>
    let (r, i) ← argComplex arg
    .ok (val (← Real.op (· + ·) lhs r) i)

/-- `builtin/numeric.rs:63-78` `sub`. -/
def real_sub (self : Val) (arg : CVal) : Res CVal := do
  let lhs ← unwrapReal self
  match arg with
  | .plain v => match to_real v with
    | some rhs => .ok (.plain (← Real.op (· - ·) lhs rhs).into_val)
    | none => .error .typeErr
  | .complex _ _ =>
    let (r, i) ← argComplex arg
    .ok (val (← Real.op (· - ·) lhs r) (← Real.neg i))

/-- `builtin/numeric.rs:80-95` `mul`. -/
def real_mul (self : Val) (arg : CVal) : Res CVal := do
  let lhs ← unwrapReal self
  match arg with
  | .plain v => match to_real v with
    | some rhs => .ok (.plain (← Real.op (· * ·) lhs rhs).into_val)
    | none => .error .typeErr
  | .complex _ _ =>
    let (r, i) ← argComplex arg
    .ok (val (← Real.op (· * ·) lhs r) (← Real.op (· * ·) lhs i))

end Verif.Complex
