import Verif.Fiber.Model
/-!
# Coroutines: the textbook semantics

A fiber is fresh (it has not been resumed), paused in a `Fiber.yield`, running (it, or a fiber it has resumed, has
control) or finished.  The running fibers form a stack; each waits for nothing but the one above it.  `resume`
puts a fiber on top, `yield` and the end of the block take it off again and give a value to the one below.
-/
namespace Verif.Fiber

inductive Status (V E S : Type)
  | fresh (block : V → S)
  | paused (k : Res V E → S)
  | running
  | finished

/-- `stack`: the running fibers, the one in control first, each with what its resumer does with the result. -/
structure Coroutines (V E S W : Type) where
  fibers : List (Status V E S)
  stack : List (Nat × (Res V E → S))
  cur : S
  world : W
  halted : Option (Res V E)

variable {V E S W : Type}

/-- a `return` out of the block is an error of the fiber; anything else is passed on -/
def conv (P : Prog V E S W) : Res V E → Res V E
  | .ok v => .ok v
  | .err e => .err (P.conv e)

/-- `resume`: a fiber that is fresh or paused gets control; a finished one gives the error `dead`; `none`: a fiber
is resumed that is running, or does not exist. -/
def Coroutines.resume (c : Coroutines V E S W) (f : Nat) (v : V) (dead : E) (k : Res V E → S) :
    Option (Coroutines V E S W) :=
  match c.fibers[f]? with
  | some (.fresh block) =>
    some { c with fibers := c.fibers.set f .running, stack := (f, k) :: c.stack, cur := block v }
  | some (.paused s) =>
    some { c with fibers := c.fibers.set f .running, stack := (f, k) :: c.stack, cur := s (.ok v) }
  | some .finished => some { c with cur := k (.err dead) }
  | some .running => none
  | none => none

/-- The steps of the textbook. -/
def Coroutines.step (P : Prog V E S W) (c : Coroutines V E S W) : Option (Coroutines V E S W) :=
  if c.halted.isSome then some c
  else
    match P.next c.cur c.world with
    | .other s w => some { c with cur := s, world := w }
    | .create block k => some { c with fibers := c.fibers ++ [.fresh block], cur := k c.fibers.length }
    | .resume f v k => c.resume f v P.deadFiber k
    | .enum_next f k => c.resume f P.nil P.stopIteration k
    | .yield_ v k =>
      match c.stack with
      | (f, resumer) :: below =>
        some { c with fibers := c.fibers.set f (.paused k), stack := below, cur := resumer (.ok v) }
      | [] => some { c with cur := k (.err P.yieldFromMain) }
    | .done r =>
      match c.stack with
      | (f, resumer) :: below =>
        some { c with fibers := c.fibers.set f .finished, stack := below, cur := resumer (conv P r) }
      | [] => some { c with halted := some r }

def Coroutines.run (P : Prog V E S W) : Nat → Coroutines V E S W → Option (Coroutines V E S W)
  | 0, c => some c
  | n + 1, c => (c.step P).bind (Coroutines.run P n)

def begin_ (s : S) (w : W) : Coroutines V E S W := ⟨[], [], s, w, none⟩

/-- What the fiber in control gives to its resumer in the next step, if it gives something. -/
def Coroutines.gives (P : Prog V E S W) (c : Coroutines V E S W) : Option (Nat × Res V E) :=
  if c.halted.isSome then none
  else
    match c.stack, P.next c.cur c.world with
    | (f, _) :: _, .yield_ v _ => some (f, .ok v)
    | (f, _) :: _, .done r => some (f, conv P r)
    | _, _ => none

/-- the result, if fiber `f` gave it -/
def ofFiber (f : Nat) : Option (Nat × Res V E) → List (Res V E)
  | some (g, r) => if g = f then [r] else []
  | none => []

/-- What fiber `f` gives during `n` steps, in order. -/
def Coroutines.given (P : Prog V E S W) (f : Nat) : Nat → Coroutines V E S W → List (Res V E)
  | 0, _ => []
  | n + 1, c =>
    ofFiber f (c.gives P) ++
    (match c.step P with
      | some c' => Coroutines.given P f n c'
      | none => [])

end Verif.Fiber
