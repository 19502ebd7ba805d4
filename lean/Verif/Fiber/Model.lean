/-!
# Model of fibers (`ruruby/src/coroutine.rs`, `ruruby/src/coroutine/stack.rs`, `ruruby/src/coroutine/asm_x64.rs`)

A program is any automaton: a state, looking at the world (everything the contexts share), either ends, does something else, makes a fiber, resumes a fiber or yields,
and says how it goes on with the answer.  A machine context (the registers and the machine stack behind a stack
pointer, together with the `VM` it works on) is modelled by that way to go on.
-/
namespace Verif.Fiber

/-- `VMResult` -/
inductive Res (V E : Type)
  | ok (v : V)
  | err (e : E)
deriving DecidableEq

/-- What a program state does next. -/
inductive Act (V E S W : Type)
  | done (r : Res V E)
  | other (s : S) (w : W)
  | create (block : V → S) (k : Nat → S)
  | resume (fiber : Nat) (v : V) (k : Res V E → S)
  | yield_ (v : V) (k : Res V E → S)
  /-- `Enumerator#next`, where the fiber is that of an enumerator -/
  | enum_next (fiber : Nat) (k : Res V E → S)

/-- Programs, and the exceptions of the interpreter.  `conv` is `conv_localjump_err` for a `return` out of the
block and nothing otherwise (`ruruby/src/coroutine/stack.rs:107-113`). -/
structure Prog (V E S W : Type) where
  next : S → W → Act V E S W
  conv : E → E
  deadFiber : E
  yieldFromMain : E
  stopIteration : E
  nil : V

/-- `ruruby/src/coroutine.rs:17-22` -/
inductive FiberState | Created | Running | Dead
deriving DecidableEq, Repr

/-- A context that waits for the result of `resume`: the fiber whose `VM` it works on (`vm.handle`), and how it
goes on. -/
structure Waiting (V E S : Type) where
  handle : Option Nat
  k : Res V E → S

/-- `ruruby/src/coroutine.rs:52-61`.  `rsp` is the context saved when the fiber yielded last; it can be continued
once, since the machine stack behind it is used again.  `stack` is the operand stack of the fiber's `VM`. -/
structure FiberContext (V E S : Type) where
  state : FiberState
  rsp : Option (Res V E → S)
  main_rsp : Option (Waiting V E S)
  stack : List V
  block : V → S

/-- The interpreter.  `fiber_result` is the global register (`ruruby/src/globals.rs:32`); `undefined` is set when
control goes to a stack pointer that does not point to a saved context. -/
structure Machine (V E S W : Type) where
  fibers : List (FiberContext V E S)
  cur : S
  world : W
  handle : Option Nat
  fiber_result : Option (Res V E)
  halted : Option (Res V E)
  undefined : Bool

variable {V E S W : Type}

def Machine.setFiber (m : Machine V E S W) (f : Nat) (c : FiberContext V E S) : Machine V E S W :=
  { m with fibers := m.fibers.set f c }

/-- Control leaves: there is no context to go to. -/
def Machine.lost (m : Machine V E S W) : Machine V E S W := { m with undefined := true }

/-- `ruruby/src/coroutine/asm_x64.rs:70-96` (`yield_context`): the stack pointer is saved in `rsp` (`saved`), control
goes to `main_rsp`, behind which `resume` reads `fiber_result` (`ruruby/src/coroutine.rs:178`, `:183`). -/
def Machine.yield_context (m : Machine V E S W) (f : Nat) (saved : Option (Res V E → S)) : Machine V E S W :=
  match m.fibers[f]? with
  | none => m.lost
  | some c =>
    match c.main_rsp, m.fiber_result with
    | some w, some r => { m.setFiber f { c with rsp := saved, main_rsp := none } with handle := w.handle, cur := w.k r }
    | _, _ => m.lost

/-- `ruruby/src/coroutine.rs:168-185` (`resume`) with `invoke_context` and `switch_context`
(`ruruby/src/coroutine/asm_x64.rs:15-65`) and the beginning of `new_context` (`stack.rs:91-102`: the value is popped
and becomes the first local variable of the block). -/
def Machine.resume (P : Prog V E S W) (m : Machine V E S W) (f : Nat) (v : V) (k : Res V E → S) : Machine V E S W :=
  match m.fibers[f]? with
  | none => m.lost
  | some c =>
    match c.state with
    | .Dead => { m with cur := k (.err P.deadFiber) }
    | .Created =>
      -- initialize, stack_push, invoke_context
      let c := { c with state := .Running, stack := v :: c.stack, main_rsp := some ⟨m.handle, k⟩ }
      -- new_context
      match c.stack with
      | [] => m.lost
      | val :: rest => { m.setFiber f { c with stack := rest } with handle := some f, cur := c.block val }
    | .Running =>
      -- stack_push, switch_context; the context behind `rsp` is in `fiber_yield`, which pops the value
      let c := { c with stack := v :: c.stack, main_rsp := some ⟨m.handle, k⟩ }
      match c.rsp, c.stack with
      | some s, val :: rest =>
        { m.setFiber f { c with rsp := none, stack := rest } with handle := some f, cur := s (.ok val) }
      | _, _ => m.lost

/-- `ruruby/src/coroutine.rs:95-114` (`fiber_yield`) -/
def Machine.fiber_yield (P : Prog V E S W) (m : Machine V E S W) (v : V) (k : Res V E → S) : Machine V E S W :=
  match m.handle with
  | none => { m with cur := k (.err P.yieldFromMain) }
  | some f => { m with fiber_result := some (.ok v) }.yield_context f (some k)

/-- `ruruby/src/coroutine/stack.rs:107-113` -/
def convResult (P : Prog V E S W) (r : Res V E) : Res V E :=
  match r with
  | .err e => .err (P.conv e)
  | r => r

/-- `ruruby/src/coroutine/stack.rs:104-122`: the end of `new_context`, and `guard`; the end of the main program. -/
def Machine.finish (P : Prog V E S W) (m : Machine V E S W) (r : Res V E) : Machine V E S W :=
  match m.handle with
  | none => { m with halted := some r }
  | some f =>
    let m := { m with fiber_result := some (convResult P r) }
    match m.fibers[f]? with
    | none => m.lost
    | some c => (m.setFiber f { c with state := .Dead }).yield_context f none

/-- `ruruby/src/builtin/enumerator.rs:79-97` (`next`) -/
def Machine.enum_next (P : Prog V E S W) (m : Machine V E S W) (f : Nat) (k : Res V E → S) : Machine V E S W :=
  match m.fibers[f]? with
  | none => m.lost
  | some c => if c.state = .Dead then { m with cur := k (.err P.stopIteration) } else m.resume P f P.nil k

/-- One step. -/
def step (P : Prog V E S W) (m : Machine V E S W) : Machine V E S W :=
  if m.halted.isSome || m.undefined then m
  else
    match P.next m.cur m.world with
    | .done r => m.finish P r
    | .other s w => { m with cur := s, world := w }
    | .create block k =>
      { m with fibers := m.fibers ++ [⟨.Created, none, none, [], block⟩], cur := k m.fibers.length }
    | .resume f v k => m.resume P f v k
    | .yield_ v k => m.fiber_yield P v k
    | .enum_next f k => m.enum_next P f k

def run (P : Prog V E S W) : Nat → Machine V E S W → Machine V E S W
  | 0, m => m
  | n + 1, m => run P n (step P m)

/-- The main program at its start. -/
def start (s : S) (w : W) : Machine V E S W := ⟨[], s, w, none, none, none, false⟩

end Verif.Fiber
