import Verif.Value.Model
/-!
# Hash keys: `eql?` and hashing

Model of `HashKey` (`ruruby/src/value/hash.rs`), `RValue::eql` and the `Hash` instances of
`ruruby/src/value/rvalue.rs`, `value.rs`, `value/string.rs`, `builtin/range.rs`.

A key is a finite tree.  Every heap node carries the address of its object.  Keys that contain themselves are
not modelled (hashing them does not terminate in the code); nor are `Method` objects and compare-by-identity
hashes inside keys.  What a `Hash` implementation feeds into the hasher is a list of tokens; the hash value is
some function of that list (`FxHasher`), so equal lists give equal hash values.
-/
namespace Verif.Hash
open Verif.Value (Word)

/-- `value/string.rs:8-13` `RString`: the same bytes can be held in three ways. -/
inductive RStr where
  | str (b : List UInt8)
  | small (b : List UInt8)
  | bytes (b : List UInt8)
  deriving DecidableEq, Repr

/-- `value/string.rs:171-177` `as_bytes` -/
def RStr.as_bytes : RStr → List UInt8
  | .str b => b
  | .small b => b
  | .bytes b => b

mutual
/-- A value used as a key.  `id` is the address of the heap object. -/
inductive Key where
  | imm (w : Word)                              -- packed value
  | big (id : Nat) (n : Int)
  | flo (id : Nat) (bits : Word)
  | cpx (id : Nat) (r i : Key)
  | str (id : Nat) (s : RStr)
  | arr (id : Nat) (es : Keys)
  | rng (id : Nat) (s e : Key) (exclude : Bool)
  | hash (id : Nat) (es : Pairs)
  | obj (id : Nat)                              -- ordinary object, class, proc, …
inductive Keys where
  | nil
  | cons (k : Key) (ks : Keys)
inductive Pairs where
  | nil
  | cons (k v : Key) (ps : Pairs)
end

def Keys.length : Keys → Nat
  | .nil => 0
  | .cons _ ks => ks.length + 1
def Pairs.length : Pairs → Nat
  | .nil => 0
  | .cons _ _ ps => ps.length + 1

/-- `Value::id`: the word, or the address. -/
inductive Ident where
  | word (w : Word)
  | addr (n : Nat)
  deriving DecidableEq

def Key.id : Key → Ident
  | .imm w => .word w
  | .big id _ => .addr id
  | .flo id _ => .addr id
  | .cpx id _ _ => .addr id
  | .str id _ => .addr id
  | .arr id _ => .addr id
  | .rng id _ _ _ => .addr id
  | .hash id _ => .addr id
  | .obj id => .addr id

/-- `==` of two `f64`: no NaN, and the two zeros are equal. -/
def isNaNBits (b : Word) : Bool :=
  b &&& 0x7ff0000000000000#64 == 0x7ff0000000000000#64 && b &&& 0x000fffffffffffff#64 != 0#64
def f64eq (a b : Word) : Bool :=
  !isNaNBits a && !isNaNBits b && (a == b || (Verif.Value.isZeroBits a && Verif.Value.isZeroBits b))

/-- One call on the hasher. -/
inductive Token where
  | word (w : Word)          -- u64
  | len (n : Nat)            -- the length prefix of a slice, string or number
  | byte (b : UInt8)
  | tag (n : Nat)            -- discriminant of an enum
  | int (n : Int)            -- sign and digits of a `BigInt`
  | bool (b : Bool)
  | addr (n : Nat)
  deriving DecidableEq

/-- `value/string.rs:8-13`: the derived `Hash` feeds the discriminant, then the string. -/
def RStr.stream : RStr → List Token
  | .str b => .tag 0 :: b.map .byte
  | .small b => .tag 1 :: b.map .byte
  | .bytes b => .tag 2 :: .len b.length :: b.map .byte

mutual
/-- `rvalue.rs:82-97` `Hash for RValue` and `value.rs:58-65` `Hash for Value`; `hash.rs:61-78` `Hash for HashKey`
feeds the same tokens. -/
def Key.stream : Key → List Token
  | .imm w => [.word w]
  | .big _ n => [.int n]
  | .flo _ b => [.word b]
  | .cpx _ r i => r.stream ++ i.stream
  | .str _ s => s.stream
  | .arr _ es => .len es.length :: es.stream
  | .rng _ s e x => s.stream ++ e.stream ++ [.bool x]
  | .hash _ ps => ps.stream
  | .obj id => [.addr id]
def Keys.stream : Keys → List Token
  | .nil => []
  | .cons k ks => k.stream ++ ks.stream
def Pairs.stream : Pairs → List Token
  | .nil => []
  | .cons k v ps => k.stream ++ v.stream ++ ps.stream
end

/-- `other.get(k).map_or(false, |v2| *v == *v2)`, given the comparisons with `k` and with `v` -/
def pairFind (isKey isVal : Key → Bool) : Pairs → Bool
  | .nil => false
  | .cons k2 v2 qs => if isKey k2 then isVal v2 else pairFind isKey isVal qs

section
-- `i as f64 == f` (and `to_f64` for big integers): not needed for the properties, so left open.
variable (intEqF : Int → Word → Bool)

mutual
/-- `hash.rs:80-92` `PartialEq for HashKey` with `rvalue.rs:411-445` `RValue::eql`.  Two hashes are compared
with the `PartialEq` of `IndexMap`: as many entries, and every key of the first is found in the second with a
value that is `==`. -/
def eql : Key → Key → Bool
  | .imm a, b => b.id == .word a
  | .big i n, b => b.id == .addr i || (match b with | .big _ m => n == m | _ => false)
  | .flo i x, b => b.id == .addr i || (match b with | .flo _ y => f64eq x y | _ => false)
  | .cpx i r1 i1, b => b.id == .addr i || (match b with | .cpx _ r2 i2 => eql r1 r2 && eql i1 i2 | _ => false)
  | .str i s, b => b.id == .addr i || (match b with | .str _ t => s == t | _ => false)
  | .arr i xs, b => b.id == .addr i || (match b with | .arr _ ys => xs.length == ys.length && eqlAll xs ys | _ => false)
  | .rng i s1 e1 x1, b => b.id == .addr i ||
      (match b with | .rng _ s2 e2 x2 => eql s1 s2 && eql e1 e2 && x1 == x2 | _ => false)
  | .hash i ps, b => b.id == .addr i || (match b with | .hash _ qs => ps.length == qs.length && pairsIn ps qs | _ => false)
  | .obj i, b => b.id == .addr i
termination_by structural a => a
/-- `lhs.iter().zip(rhs.iter()).all(…)` -/
def eqlAll : Keys → Keys → Bool
  | .cons x xs, .cons y ys => eql x y && eqlAll xs ys
  | _, _ => true
termination_by structural a => a
/-- every entry of the first map is in the second -/
def pairsIn : Pairs → Pairs → Bool
  | .nil, _ => true
  | .cons k v ps, qs => pairFind (fun x => eql k x) (fun x => veq v x) qs && pairsIn ps qs
termination_by structural a => a
/-- `value.rs:68-126` `PartialEq for Value` (`==`) on these kinds of values. -/
def veq : Key → Key → Bool
  | .imm a, b => b.id == .word a ||
      (match b with
       | .imm b =>
         match Verif.Value.as_fixnum a, Verif.Value.as_flonum b with
         | some i, some f => intEqF i f
         | _, _ =>
           match Verif.Value.as_flonum a, Verif.Value.as_fixnum b with
           | some f, some i => intEqF i f
           | _, _ => false
       | _ => false)
  | .big i n, b => b.id == .addr i || (match b with | .big _ m => n == m | .flo _ y => intEqF n y | _ => false)
  | .flo i x, b => b.id == .addr i || (match b with | .flo _ y => f64eq x y | .big _ m => intEqF m x | _ => false)
  | .cpx i r1 i1, b => b.id == .addr i || (match b with | .cpx _ r2 i2 => veq r1 r2 && veq i1 i2 | _ => false)
  | .str i s, b => b.id == .addr i || (match b with | .str _ t => s.as_bytes == t.as_bytes | _ => false)
  | .arr i xs, b => b.id == .addr i || (match b with | .arr _ ys => xs.length == ys.length && veqAll xs ys | _ => false)
  | .rng i s1 e1 x1, b => b.id == .addr i ||
      (match b with | .rng _ s2 e2 x2 => x1 == x2 && veq s1 s2 && veq e1 e2 | _ => false)
  | .hash i ps, b => b.id == .addr i || (match b with | .hash _ qs => ps.length == qs.length && pairsIn ps qs | _ => false)
  | .obj i, b => b.id == .addr i
termination_by structural a => a
def veqAll : Keys → Keys → Bool
  | .cons x xs, .cons y ys => veq x y && veqAll xs ys
  | _, _ => true
termination_by structural a => a
end
end

end Verif.Hash
