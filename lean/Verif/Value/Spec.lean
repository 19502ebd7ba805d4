import Verif.Value.Model
/-!
# Specification for C01–C03: what a program stores

`Src` is the set of things a Ruby program means by an immediate value; `store` says which constructor
of the implementation is used for each of them.
-/
namespace Verif.Value

/-- An immediate value as the programmer understands it.  Floats are IEEE bit patterns. -/
inductive Src where
  | int (n : Int)
  | float (bits : Word)
  | sym (id : BitVec 32)
  | nil | tru | fls
  deriving DecidableEq, Repr

/-- The value the interpreter creates for it (`Value::bignum`/`integer`, `float`, `symbol`, constants). -/
def store : Src → Val
  | .int n => bignum n
  | .float b => float b
  | .sym id => symbol id
  | .nil => Value.nil
  | .tru => true_val
  | .fls => false_val

/-- What reading (decoding) a value yields, in the programmer's terms; `none` for anything that is not
one of these kinds. -/
def load (v : Val) : Option Src :=
  match unpack v with
  | .integer i => some (.int i)
  | .bignum n => some (.int n)
  | .float b => some (.float b)
  | .symbol id => some (.sym id)
  | .nil => some .nil
  | .true => some .tru
  | .false => some .fls
  | _ => none

/-- `-0.0`. -/
def negZero : Word := 0x8000000000000000#64
/-- `1.7272337110188893e-77` (`2^-255`). -/
def tinyFloat : Word := 0x3000000000000000#64

/-- The two float patterns the packing does not preserve. -/
def Src.floatOK : Src → Prop
  | .float b => b ≠ negZero ∧ b ≠ tinyFloat
  | _ => True

/-- A heap reference is the address of an 8-byte aligned cell, never null. -/
def IsAddress (w : Word) : Prop := w.toNat % 8 = 0 ∧ w ≠ 0#64

end Verif.Value
