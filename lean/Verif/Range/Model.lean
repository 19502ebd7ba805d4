import Verif.Arith.Model
/-!
# Model of ranges (`ruruby/src/builtin/range.rs`)

Values are those of `Verif/Value/Model.lean`.  Checks of the number of arguments are left out; floats are
not modelled (`Err.unmodelled`).  Rust's `a..b` over `i64` is the list of the integers `i` with `a ≤ i < b` in
ascending order; arithmetic on `i64` panics on overflow (`exactI64`).  A block is a function of its argument
and a state; it gives a value or stops the iteration with an exception.
-/
namespace Verif.Range
open Verif.Value Verif.Arith

/-- `ruruby/src/builtin/range.rs:3-8` -/
structure RangeInfo where
  start : Val
  «end» : Val
  exclude : Bool
deriving DecidableEq, Repr

/-- Rust's `a..b` over `i64`. -/
def span (a b : Int) : List Int := (List.range (b - a).toNat).map (fun (i : Nat) => a + i)

/-- an exception of the builtin function or of the block -/
abbrev BRes (ε A : Type) := Except (Err ⊕ ε) A

def lift {ε A : Type} : Res A → BRes ε A
  | .ok a => .ok a
  | .error e => .error (.inl e)

/-- a block with a state -/
abbrev Blk (σ ε : Type) := Val → σ → Except ε (Val × σ)

/-- `as_fixnum().unwrap()` -/
def fixnum! (v : Val) : Res Int :=
  match v.as_fixnum with
  | some i => .ok i
  | none => .error .panic

/-- `ruruby/src/vm/executor.rs:935-940` (`create_range`), with the comparison of
`ruruby/src/vm/executor/ops.rs:480-493` for numbers (the second argument is compared with the first). -/
def create (start «end» : Val) (exclude : Bool) : Res RangeInfo := do
  let c ← invoke_compare «end» start
  if c = Value.nil then .error .argument else .ok ⟨start, «end», exclude⟩

/-- `ruruby/src/builtin/range.rs:93-113` (`first`) with an argument. -/
def first (r : RangeInfo) (arg : Val) : Res (List Val) := do
  let start ← fixnum! r.start
  let e ← fixnum! r.end
  let e ← exactI64 (e - if r.exclude then 1 else 0)
  let arg ← coerce_to_fixnum arg
  if arg < 0 then .error .argument
  else
    let x ← exactI64 (start + arg)
    let x ← exactI64 (x - 1)
    let e := if x < e then x else e
    .ok ((span start (e + 1)).map Value.integer)

/-- `ruruby/src/builtin/range.rs:115-135` (`last`) with an argument. -/
def last (r : RangeInfo) (arg : Val) : Res (List Val) := do
  let start ← fixnum! r.start
  let e ← fixnum! r.end
  let e ← exactI64 (e - if r.exclude then 1 else 0)
  let arg ← coerce_to_fixnum arg
  if arg < 0 then .error .argument
  else
    let x ← exactI64 (e - arg)
    let x ← exactI64 (x + 1)
    let start := if x > start then x else start
    .ok ((span start (e + 1)).map Value.integer)

/-- The bounds of `map`, `flat_map`, `each` and `all?`: `ruruby/src/builtin/range.rs:141-142,151-152,181-182,191-192`. -/
def bounds (r : RangeInfo) : Res (Int × Int) := do
  let start ← coerce_to_fixnum r.start
  let e ← coerce_to_fixnum r.end
  let e ← exactI64 (e + if r.exclude then 0 else 1)
  .ok (start, e)

/-- `ruruby/src/vm/executor/method.rs:141-192` (`eval_block_map1_iter`): the block is run on every item, the
values are collected. -/
def mapIter {σ ε : Type} (f : Blk σ ε) : List Val → σ → Except ε (List Val × σ)
  | [], s => .ok ([], s)
  | v :: vs, s => do
    let (w, s) ← f v s
    let (ws, s) ← mapIter f vs s
    .ok (w :: ws, s)

/-- `ruruby/src/vm/executor/method.rs:86-139` (`eval_block_each1_iter`) -/
def eachIter {σ ε : Type} (f : Blk σ ε) : List Val → σ → Except ε σ
  | [], s => .ok s
  | v :: vs, s => do
    let (_, s) ← f v s
    eachIter f vs s

def liftB {ε A : Type} : Except ε A → BRes ε A
  | .ok a => .ok a
  | .error e => .error (.inr e)

/-- `ruruby/src/builtin/range.rs:137-145` (`map`). -/
def map {σ ε : Type} (r : RangeInfo) (f : Blk σ ε) (s : σ) : BRes ε (List Val × σ) := do
  let (a, b) ← lift (bounds r)
  liftB (mapIter f ((span a b).map Value.integer) s)

/-- `ruruby/src/builtin/range.rs:147-166` (`flat_map`); `asArray` gives the elements of an array value. -/
def flatMap {σ ε : Type} (asArray : Val → Option (List Val)) (r : RangeInfo) (f : Blk σ ε) (s : σ) :
    BRes ε (List Val × σ) := do
  let (a, b) ← lift (bounds r)
  liftB (loop ((span a b).map Value.integer) s)
where
  loop : List Val → σ → Except ε (List Val × σ)
    | [], s => .ok ([], s)
    | v :: vs, s => do
      let (w, s) ← f v s
      let (ws, s) ← loop vs s
      match asArray w with
      | some l => .ok (l ++ ws, s)
      | none => .ok (w :: ws, s)

/-- `ruruby/src/builtin/range.rs:168-185` (`each`) with a block; the value is the range itself. -/
def each {σ ε : Type} (r : RangeInfo) (f : Blk σ ε) (s : σ) : BRes ε (RangeInfo × σ) := do
  let (a, b) ← lift (bounds r)
  let s ← liftB (eachIter f ((span a b).map Value.integer) s)
  .ok (r, s)

/-- truth of a value: `ruruby/src/value/value.rs:1237-1239` (`to_bool`) -/
def truthy : Val → Bool
  | .word w => Value.to_bool w
  | _ => true

/-- `ruruby/src/builtin/range.rs:187-201` (`all?`). -/
def all {σ ε : Type} (r : RangeInfo) (f : Blk σ ε) (s : σ) : BRes ε (Bool × σ) := do
  let (a, b) ← lift (bounds r)
  liftB (loop ((span a b).map Value.integer) s)
where
  loop : List Val → σ → Except ε (Bool × σ)
    | [], s => .ok (true, s)
    | v :: vs, s => do
      let (w, s) ← f v s
      if !truthy w then .ok (false, s) else loop vs s

/-- `ruruby/src/builtin/range.rs:203-216` (`to_a`) for ranges that begin with an integer. -/
def to_a (r : RangeInfo) : Res (List Val) :=
  match r.start.as_fixnum with
  | some start => do
    let e ← coerce_to_fixnum r.end
    let e ← if r.exclude then .ok e else exactI64 (e + 1)
    .ok ((span start e).map Value.integer)
  | none => .error .panic

/-- `ruruby/src/builtin/range.rs:217-235` (`to_a`) for ranges of strings: the bytes of the strings. -/
def to_a_str (start «end» : List UInt8) (exclude : Bool) : Res (List (List UInt8)) :=
  match start, «end» with
  | [a], [b] =>
    if a < 128 ∧ b < 128 then
      if a > b ∨ a = b ∧ exclude then .ok []
      else
        .ok ((span a.toNat (if exclude then b.toNat else b.toNat + 1)).map
          (fun i => [UInt8.ofNat i.toNat]))
    else .error .panic
  | _, _ => .error .panic

/-- `ruruby/src/value/real.rs:71-73` (`included`), where `a <= b` means that `partial_cmp` gives less or
equal. -/
def included (x start «end» : Real) (exclude : Bool) : Res Bool := do
  let c1 ← start.partial_cmp x
  if c1 = some .lt ∨ c1 = some .eq then
    let c2 ← x.partial_cmp «end»
    .ok (if exclude then c2 = some .lt else (c2 = some .lt ∨ c2 = some .eq))
  else .ok false

/-- `ruruby/src/builtin/range.rs:243-280` (`include?`); a bignum as start goes to the last branch, where `<=`,
`>` and `>=` are called. -/
def includes (r : RangeInfo) (arg : Val) : Res Bool :=
  match unpack r.start with
  | .integer start =>
    match to_real r.end with
    | none => .error .panic
    | some e =>
      match to_real arg with
      | none => .ok false
      | some v => included v (.Integer start) e r.exclude
  | .float _ => .error .unmodelled
  | _ => do
    if !(← numeric_cmp .le r.start arg) then .ok false
    else if r.exclude then numeric_cmp .gt r.end arg
    else numeric_cmp .ge r.end arg

end Verif.Range
