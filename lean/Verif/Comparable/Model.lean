import Verif.Arith.Model
/-!
# Model of `Comparable` (`ruruby/src/builtin/comparable.rs`)

`W` is everything a user-defined `<=>` may read and change.  A call of `<=>` gives a value or raises; both
are arbitrary.
-/
namespace Verif.Comparable
open Verif.Value Verif.Arith

/-- What a call of `<=>` does: `ruruby/src/vm/executor/method.rs` (`eval_send`), for arbitrary methods. -/
abbrev CmpMethod (W ε : Type) := Val → Val → W → Except ε (Val × W)

/-- the result of a builtin method: an exception of the called method, or a panic of the interpreter -/
inductive Stop (ε : Type)
  | raised (e : ε)
  | panic
deriving DecidableEq, Repr

abbrev R (W ε : Type) := Except (Stop ε) (Bool × W)

/-- `ruruby/src/builtin/comparable.rs:20`, `:33`, `:46`, `:59`, `:72`: `<=>` is sent to the receiver. -/
def send {W ε : Type} (cmp : CmpMethod W ε) (self arg : Val) (w : W) : Except (Stop ε) (Val × W) :=
  match cmp self arg w with
  | .ok r => .ok r
  | .error e => .error (.raised e)

/-- `ruruby/src/builtin/comparable.rs:18-29` (`==`) -/
def eq {W ε : Type} (cmp : CmpMethod W ε) (self arg : Val) (w : W) : Except (Stop ε) (Bool × W) := do
  let (res, w) ← send cmp self arg w
  match res.as_fixnum with
  | some c => .ok (c == 0, w)
  | none => .ok (false, w)

/-- `ruruby/src/builtin/comparable.rs:31-42` (`<=`) -/
def le {W ε : Type} (cmp : CmpMethod W ε) (self arg : Val) (w : W) : Except (Stop ε) (Bool × W) := do
  let (res, w) ← send cmp self arg w
  match res.as_fixnum with
  | some c => .ok (decide (c ≤ 0), w)
  | none => .ok (false, w)

/-- `ruruby/src/builtin/comparable.rs:44-55` (`<`) -/
def lt {W ε : Type} (cmp : CmpMethod W ε) (self arg : Val) (w : W) : Except (Stop ε) (Bool × W) := do
  let (res, w) ← send cmp self arg w
  match res.as_fixnum with
  | some c => .ok (decide (c < 0), w)
  | none => .error .panic

/-- `ruruby/src/builtin/comparable.rs:57-68` (`>=`) -/
def ge {W ε : Type} (cmp : CmpMethod W ε) (self arg : Val) (w : W) : Except (Stop ε) (Bool × W) := do
  let (res, w) ← send cmp self arg w
  match res.as_fixnum with
  | some c => .ok (decide (c ≥ 0), w)
  | none => .ok (false, w)

/-- `ruruby/src/builtin/comparable.rs:70-81` (`>`) -/
def gt {W ε : Type} (cmp : CmpMethod W ε) (self arg : Val) (w : W) : Except (Stop ε) (Bool × W) := do
  let (res, w) ← send cmp self arg w
  match res.as_fixnum with
  | some c => .ok (decide (c > 0), w)
  | none => .error .panic

/-- The operator `==` on two objects of a class that includes `Comparable`:
`ruruby/src/vm/executor/ops.rs:376-381,427-431` (`eval_eq2`).  An object is equal to itself without a call;
otherwise the method `==` is called, and an exception counts as "not equal" (the changes the call made stay:
the state of a failed call is `lost w`). -/
def opEq {W ε : Type} (cmp : CmpMethod W ε) (lost : W → W) (self arg : Val) (w : W) : R W ε :=
  if self = arg then .ok (true, w)
  else
    match eq cmp self arg w with
    | .error (.raised _) => .ok (false, lost w)
    | r => r

end Verif.Comparable
