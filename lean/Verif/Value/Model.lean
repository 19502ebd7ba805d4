/-!
# Packed values

Model of the tagged 64-bit representation of Ruby values
(`ruruby/src/value/value.rs`).  A machine word is a `BitVec 64`.  An `f64` is its bit pattern
(`f64::to_bits`); an `i64` is an `Int` together with explicit range tests.

What is not modelled: the heap object behind a reference is represented by its payload
(`Value.big`, `Value.flo`) or by an opaque aligned address (`Value.obj`).
-/

namespace Verif.Value

abbrev Word := BitVec 64

/-- `value.rs:8` -/
def UNINITIALIZED : Word := 0x04#64
/-- `value.rs:9` -/
def FALSE_VALUE : Word := 0x14#64
/-- `value.rs:10` -/
def NIL_VALUE : Word := 0x24#64
/-- `value.rs:11` -/
def TRUE_VALUE : Word := 0x1c#64
/-- `value.rs:12` -/
def TAG_SYMBOL : Word := 0x0c#64
/-- `value.rs:13` -/
def BOOL_MASK1 : Word := 0x30#64
/-- `value.rs:14` -/
def BOOL_MASK2 : Word := 0xffffffffffffffcf#64
/-- `value.rs:15`: `!(0b0110u64 << 60)` -/
def FLOAT_MASK1 : Word := ~~~(0b0110#64 <<< 60)
/-- `value.rs:16`: `0b0100u64 << 60` -/
def FLOAT_MASK2 : Word := 0b0100#64 <<< 60
/-- `value.rs:18`: `(0b1000 << 60) | 0b10` -/
def ZERO : Word := (0b1000#64 <<< 60) ||| 0b10#64

/-- A value as a program holds it: a packed word, or a reference to a heap object.
`value.rs:49` (`struct Value(NonZeroU64)`).  Simplification: a reference is represented by what it
points at, for the two numeric object kinds (`ObjKind::BIGNUM`, `ObjKind::FLOAT`), and by its address otherwise. -/
inductive Val where
  | word (w : Word)
  | big (n : Int)
  | flo (bits : Word)
  | obj (addr : Nat)
  deriving DecidableEq, Repr

/-- The `i64` range. -/
def InI64 (i : Int) : Prop := -2^63 ≤ i ∧ i < 2^63
/-- The 63-bit range of packed integers. -/
def InI63 (i : Int) : Prop := -2^62 ≤ i ∧ i < 2^62

instance (i : Int) : Decidable (InI64 i) := inferInstanceAs (Decidable (_ ∧ _))
instance (i : Int) : Decidable (InI63 i) := inferInstanceAs (Decidable (_ ∧ _))

/-- `value.rs:1016-1019` `Value::is_i63`; the argument is the `i64`'s bit pattern. -/
def is_i63 (num : Word) : Bool :=
  let top := (num >>> 62) ^^^ (num >>> 63)
  top &&& 0b1#64 == 0#64

/-- `value.rs:1011-1013` `Value::fixnum`: `(num << 1) as u64 | 1`. -/
def fixnumW (num : Word) : Word := (num <<< 1) ||| 0b1#64

/-- `value.rs:1021-1027` `Value::integer` (argument: an `i64`). -/
def integer (num : Int) : Val :=
  if is_i63 (BitVec.ofInt 64 num) then .word (fixnumW (BitVec.ofInt 64 num)) else .big num

/-- `value.rs:1029-1035` `Value::bignum`; `BigInt::to_i64` succeeds exactly on the `i64` range. -/
def bignum (num : Int) : Val :=
  if InI64 num then integer num else .big num

/-- `num == 0.0` on bit patterns: both zeros compare equal to `0.0` (IEEE 754). -/
def isZeroBits (b : Word) : Bool := b == 0#64 || b == 0x8000000000000000#64

/-- `value.rs:1037-1048` `Value::float` -/
def float (num : Word) : Val :=
  if isZeroBits num then .word ZERO
  else
    let exp := ((num >>> 60) &&& 0b111#64) + 1#64
    if exp &&& 0b0110#64 == 0b0100#64 then
      .word (((num &&& FLOAT_MASK1) ||| FLOAT_MASK2).rotateLeft 3)
    else .flo num

/-- `value.rs:1069-1072` `Value::symbol`; the identifier is a `u32`. -/
def symbol (id : BitVec 32) : Val :=
  .word ((id.zeroExtend 64 <<< 32) ||| TAG_SYMBOL)

/-- `value.rs:982-1008` constants -/
def nil : Val := .word NIL_VALUE
def true_val : Val := .word TRUE_VALUE
def false_val : Val := .word FALSE_VALUE
def uninitialized : Val := .word UNINITIALIZED
def bool (b : Bool) : Val := if b then .word TRUE_VALUE else .word FALSE_VALUE

/-! ## Tag tests and decoders, on words -/

/-- `value.rs:511-513` `is_packed_value` -/
def is_packed_value (w : Word) : Bool := w &&& 0b0111#64 != 0#64
/-- `value.rs:521-523` `is_fnum` -/
def is_fnum (w : Word) : Bool := w &&& 0b1#64 == 0b1#64
/-- `value.rs:516-518` `as_fnum`: arithmetic shift of the word read as `i64`. -/
def as_fnum (w : Word) : Int := (w.sshiftRight 1).toInt
/-- `value.rs:526-532` `as_fixnum` -/
def as_fixnum (w : Word) : Option Int := if is_fnum w then some (as_fnum w) else none
/-- `value.rs:535-548` `as_flonum` (result: bit pattern; `0.0` has pattern 0) -/
def as_flonum (w : Word) : Option Word :=
  if w &&& 0b11#64 == 2#64 then
    if w == ZERO then some 0#64
    else
      let bit := 0b10#64 - ((w >>> 63) &&& 0b1#64)
      some (((w &&& ~~~0b0011#64) ||| bit).rotateRight 3)
  else none
/-- `value.rs:551-553` `is_packed_num` -/
def is_packed_num (w : Word) : Bool := w &&& 0b11#64 != 0#64
/-- `value.rs:556-558` `is_packed_symbol` -/
def is_packed_symbol (w : Word) : Bool := w &&& 0xff#64 == TAG_SYMBOL
/-- `value.rs:561-563` `as_packed_symbol` -/
def as_packed_symbol (w : Word) : BitVec 32 := (w >>> 32).setWidth 32

/-- `value.rs:972-978` `as_symbol` -/
def as_symbol (w : Word) : Option (BitVec 32) :=
  if is_packed_symbol w then some (as_packed_symbol w) else none

/-- `value.rs:1237-1239` `to_bool`, on words (references are words too). -/
def to_bool (w : Word) : Bool := ((w &&& BOOL_MASK2) ||| BOOL_MASK1) != 0x34#64

/-- `RV`, `value.rs:21-30` (decoded view). -/
inductive RV where
  | uninit | nil | true | false
  | integer (i : Int)
  | float (bits : Word)
  | symbol (id : BitVec 32)
  | bignum (n : Int)
  | object (addr : Nat)
  | illegal          -- `unreachable!("Illegal packed value")`
  deriving DecidableEq, Repr

/-- `value.rs:158-184` `unpack` restricted to words with a non-zero tag. -/
def unpackW (w : Word) : RV :=
  match as_fixnum w with
  | some i => .integer i
  | none =>
    match as_flonum w with
    | some f => .float f
    | none =>
      if is_packed_symbol w then .symbol (as_packed_symbol w)
      else if w == NIL_VALUE then .nil
      else if w == TRUE_VALUE then .true
      else if w == FALSE_VALUE then .false
      else if w == UNINITIALIZED then .uninit
      else .illegal

/-- `value.rs:158-184` `unpack`.  A word whose three low bits are zero would be dereferenced; the model
has no object behind it and reports `illegal`. -/
def unpack : Val → RV
  | .word w => if is_packed_value w then unpackW w else .illegal
  | .big n => .bignum n
  | .flo b => .float b
  | .obj a => .object a

/-- `Value::as_fixnum` on values. -/
def Val.as_fixnum : Val → Option Int
  | .word w => Verif.Value.as_fixnum w
  | _ => none
/-- `value.rs:573-581` `Value::as_bignum`. -/
def Val.as_bignum : Val → Option Int
  | .big n => some n
  | _ => none
/-- `value.rs:583-595` `Value::as_float`. -/
def Val.as_float : Val → Option Word
  | .word w => as_flonum w
  | .flo b => some b
  | _ => none
def Val.as_symbol : Val → Option (BitVec 32)
  | .word w => Verif.Value.as_symbol w
  | _ => none

end Verif.Value
