import Verif.Value.Lemmas
import Verif.Hash.Key
/-!
# `==`

Model of the comparisons of ruruby/src/vm/executor/ops.rs:319-475 (`==`, `!=`, `== literal`, the comparison of
`case`/`when`) on a heap.  What a method `==` does when it is called, to the heap or to anything else, is a
parameter; so are the comparisons of two hashes, two regular expressions and two times, which call nothing.
-/
namespace Verif.Eq
open Verif.Value
open Verif.Hash (RStr f64eq)

/-- A value: a packed word or the address of an object. `value/value.rs:511-513`. -/
inductive V
  | imm (w : Word)
  | ref (a : Nat)
deriving DecidableEq, Repr

/-- The kinds of objects `==` tells apart. `value/rvalue.rs:100-140`. -/
inductive Obj
  | big (n : Int)
  | flo (bits : Word)
  | cpx (r i : V)
  | str (s : RStr)
  | arr (es : List V)
  | rng (s e : V) (exclude : Bool)
  | hash | regexp | time
  | module
  | other                          -- ordinary objects, procs, exceptions, …
deriving DecidableEq, Repr

/-- What the comparison asks its surroundings: the heap, the method `==` (`eval_send1(IdentId::_EQ, …)`), which may
change anything and raise (`none`), the method `===` of modules, the match of a regular expression. -/
structure World (σ : Type) where
  heap : σ → Nat → Obj
  send : V → V → σ → Option V × σ
  teq : V → V → σ → Option V × σ
  rmatch : V → V → σ → Option Bool × σ
  infoEq : Nat → Nat → σ → Bool       -- two hashes, two regular expressions, two times
  intEqF : Int → Word → Bool          -- `n as f64 == f`, `n.to_f64().unwrap() == f`

/-- The outcome: not finished with this fuel; raised (`none`); a truth value. -/
abbrev Out (σ : Type) := Option (Option Bool × σ)

/-- `n as f64`, `n.to_f64().unwrap()`: the bits of the nearest double, of the even one if two are equally near. Numbers
of `2^1024` and more, which become infinite, are left out (used for `|n| < 2^64` only). -/
def asF64 (n : Int) : Word :=
  let a := n.natAbs
  if a = 0 then 0#64
  else
    let e := a.log2
    let m := if e ≤ 52 then a <<< (52 - e)
      else
        let q := a >>> (e - 52)
        let rest := a % 2 ^ (e - 52)
        let half := 2 ^ (e - 53)
        if rest > half ∨ rest = half ∧ q % 2 = 1 then q + 1 else q
    -- a mantissa that has become 2^53 carries into the exponent
    BitVec.ofNat 64 ((if n < 0 then 2 ^ 63 else 0) + (e + 1022) * 2 ^ 52 + m)

/-- `Value::to_bool` on values. -/
def truthy : V → Bool
  | .imm w => to_bool w
  | .ref _ => true

/-- `value/value.rs:526-548` on values. -/
def V.as_fixnum : V → Option Int
  | .imm w => Verif.Value.as_fixnum w
  | .ref _ => none
def V.as_flonum : V → Option Word
  | .imm w => Verif.Value.as_flonum w
  | .ref _ => none

variable {σ : Type}

/-- The loop over two arrays of the same length, ops.rs:403-408. The elements are those at the start of the
comparison: methods that change the array while it is compared are not modelled. -/
def eqAll (eq : V → V → σ → Out σ) : List V → List V → σ → Out σ
  | l :: ls, r :: rs, s =>
    match eq r l s with
    | some (some true, s) => eqAll eq ls rs s
    | x => x
  | _, _, s => some (some true, s)

/-- The parts of a complex number: `r1.to_real() == r2.to_real()`, ops.rs:389-393, with `value/real.rs:143-157`. The
parts are integers or floats; anything else does not occur. -/
def realEq (W : World σ) (s : σ) (a b : V) : Bool :=
  let num : V → Int ⊕ Word := fun v =>
    match v with
    | .imm w => match Verif.Value.as_fixnum w with
      | some i => .inl i
      | none => .inr ((Verif.Value.as_flonum w).getD 0)
    | .ref a => match W.heap s a with
      | .big n => .inl n
      | .flo b => .inr b
      | _ => .inl 0
  match num a, num b with
  | .inl m, .inl n => m == n
  | .inl m, .inr f => W.intEqF m f
  | .inr f, .inl n => W.intEqF n f
  | .inr f, .inr g => f64eq f g

/-- `vm/executor/ops.rs:358-433` `eval_eq2`. The fuel bounds the depth of the recursion. -/
def eval_eq2 (W : World σ) : Nat → V → V → σ → Out σ
  | 0, _, _, _ => none
  | fuel + 1, rhs, lhs, s =>
    let words : Out σ :=
      match rhs, lhs with
      | .ref r, .ref l =>
        if l = r then some (some true, s)
        else match W.heap s l, W.heap s r with
          | .big m, .big n => some (some (m == n), s)
          | .flo f, .flo g => some (some (f64eq f g), s)
          | .big m, .flo g => some (some (W.intEqF m g), s)
          | .flo f, .big n => some (some (W.intEqF n f), s)
          | .cpx r1 i1, .cpx r2 i2 => some (some (realEq W s r1 r2 && realEq W s i1 i2), s)
          | .str a, .str b => some (some (a.as_bytes == b.as_bytes), s)
          | .arr ls, .arr rs =>
            if ls.length ≠ rs.length then some (some false, s)
            else eqAll (eval_eq2 W fuel) ls rs s
          | .rng s1 e1 x1, .rng s2 e2 x2 =>
            if x2 ≠ x1 then some (some false, s)
            else match eval_eq2 W fuel s2 s1 s with
              | some (some true, s) => eval_eq2 W fuel e2 e1 s
              | x => x
          | .hash, .hash => some (some (W.infoEq l r s), s)
          | .regexp, .regexp => some (some (W.infoEq l r s), s)
          | .time, .time => some (some (W.infoEq l r s), s)
          | _, _ =>
            match W.send lhs rhs s with
            | (some v, s) => some (some (truthy v), s)
            | (none, s) => some (some false, s)
      | r, l => some (some (l == r), s)
    match lhs.as_fixnum with
    | some li =>
      match rhs.as_fixnum with
      | some ri => some (some (li == ri), s)
      | none => match rhs.as_flonum with
        | some rf => some (some (W.intEqF li rf), s)
        | none => words
    | none =>
      match lhs.as_flonum with
      | some lf =>
        match rhs.as_flonum with
        | some rf => some (some (f64eq lf rf), s)
        | none => match rhs.as_fixnum with
          | some ri => some (some (W.intEqF ri lf), s)
          | none => words
      | none => words

def negate : Out σ → Out σ
  | some (some b, s) => some (some (!b), s)
  | x => x

/-- `ops.rs:435-438` `eval_eq`: the operands of `a == b` come from the stack, `b` on top. -/
def eval_eq (W : World σ) (fuel : Nat) (a b : V) (s : σ) : Out σ := eval_eq2 W fuel b a s
/-- `ops.rs:440-442` `eval_ne`. -/
def eval_ne (W : World σ) (fuel : Nat) (a b : V) (s : σ) : Out σ := negate (eval_eq W fuel a b s)

/-- `Value::integer` of a literal: 32 bits always fit into a packed word. -/
def lit (i : Int) : V := .imm (fixnumW (BitVec.ofInt 64 i))

/-- `ops.rs:453-471` `eval_eqi`: `a == i` for a literal `i`. Exceptions of the method are passed on. -/
def eval_eqi (W : World σ) (a : V) (i : Int) (s : σ) : Option Bool × σ :=
  match a.as_fixnum with
  | some n => (some (n == i), s)
  | none => match a.as_flonum with
    | some f => (some (W.intEqF i f), s)
    | none =>
      let call := match W.send a (lit i) s with
        | (some v, s) => (some (truthy v), s)
        | (none, s) => (none, s)
      match a with
      | .ref p => match W.heap s p with
        | .flo f => (some (W.intEqF i f), s)
        | _ => call
      | .imm _ => call

/-- `ops.rs:472-474` `eval_nei`. -/
def eval_nei (W : World σ) (a : V) (i : Int) (s : σ) : Option Bool × σ :=
  let r := eval_eqi W a i s
  (r.1.map (!·), r.2)

/-- `ops.rs:307-320` `invoke_teq`: `lhs === rhs`, in particular the test of a `when`. -/
def invoke_teq (W : World σ) (fuel : Nat) (lhs rhs : V) (s : σ) : Out σ :=
  match lhs with
  | .imm _ => eval_eq2 W fuel rhs lhs s
  | .ref a => match W.heap s a with
    | .module => match W.teq lhs rhs s with
      | (some v, s) => some (some (truthy v), s)
      | (none, s) => some (none, s)
    | .regexp => some (W.rmatch lhs rhs s)
    | _ => eval_eq2 W fuel rhs lhs s

/-- `ops.rs:334-347` `eval_teq`, used by `any?`, `all?` and `grep` with the pattern as `lhs`: note that `eval_eq2` takes the right
operand first. -/
def eval_teq (W : World σ) (fuel : Nat) (rhs lhs : V) (s : σ) : Out σ :=
  match lhs with
  | .imm _ => eval_eq2 W fuel lhs rhs s
  | .ref a => match W.heap s a with
    | .module => match W.teq lhs rhs s with
      | (some v, s) => some (some (truthy v), s)
      | (none, s) => some (none, s)
    | .regexp => some (W.rmatch lhs rhs s)
    | _ => eval_eq2 W fuel lhs rhs s

/-- The methods `==` of the interpreter for the classes below: `builtin/integer.rs:131-138`, `builtin/symbol.rs:54-62`,
`builtin/object.rs:178-181` (strings, arrays, ranges, nil, true, false have no method of their own). -/
def builtin_eq (W : World σ) (a b : V) (s : σ) : Bool :=
  match a with
  | .imm w =>
    match Verif.Value.as_symbol w, b with
    | some x, .imm w' => Verif.Value.as_symbol w' == some x
    | some _, .ref _ => false
    | none, _ => a == b
  | .ref p => match W.heap s p with
    | .big n => match b with
      | .imm w => match Verif.Value.as_fixnum w with
        | some _ => false
        | none => match Verif.Value.as_flonum w with
          | some f => W.intEqF n f
          | none => false
      | .ref q => match W.heap s q with
        | .big m => n == m
        | .flo f => W.intEqF n f
        | _ => false
    | _ => a == b

/-- `builtin/array.rs:534-544` `include?`: the loop over the elements. -/
def include_ (W : World σ) (fuel : Nat) (target : V) : List V → σ → Out σ
  | [], s => some (some false, s)
  | item :: items, s =>
    match eval_eq2 W fuel item target s with
    | some (some false, s) => include_ W fuel target items s
    | x => x

/-- `builtin/array.rs:1067-1074` `count(other)`: the loop over the elements. -/
def count (W : World σ) (fuel : Nat) (other : V) : List V → Nat → σ → Option (Option Nat × σ)
  | [], n, s => some (some n, s)
  | elem :: es, n, s =>
    match eval_eq2 W fuel elem other s with
    | some (some true, s) => count W fuel other es (n + 1) s
    | some (some false, s) => count W fuel other es n s
    | some (none, s) => some (none, s)
    | none => none

end Verif.Eq
