import Verif.Fiber.Model
/-!
# Enumerator#each, #map and #with_index

The iteration behind an enumerator is abstract here: `init` is the fiber that starts to call the method on the
receiver, and `resume` lets it run to its next result, possibly changing the world `W` (objects, output).
The fiber mechanism itself is modelled in `Model.lean`.
-/
namespace Verif.Fiber.Enum

variable {I G V E W : Type}

/-- The iteration behind enumerators: `I` is what an enumerator remembers (receiver, method, arguments). -/
structure Source (I G V E W : Type) where
  init : I → G
  resume : G → W → Res V E × G × W
  is_stop : E → Bool

/-- An Enumerator object: its information and its own fiber.
/repo/ruruby/src/coroutine.rs:12-63, /repo/ruruby/src/vm/executor/fiber.rs:14-31 (create_enumerator). -/
structure Enumerator (I G : Type) where
  info : I
  fiber : G

def create (S : Source I G V E W) (i : I) : Enumerator I G := ⟨i, S.init i⟩

/-- /repo/ruruby/src/vm/executor/fiber.rs:5-10 (dup_enum): a new fiber with the same information. -/
def dup_enum (S : Source I G V E W) (e : Enumerator I G) : G := S.init e.info

/-- /repo/ruruby/src/builtin/enumerator.rs:77-93 (next); the test for a dead fiber is in `Model.enum_next`. -/
def next (S : Source I G V E W) (e : Enumerator I G) (w : W) : Res V E × Enumerator I G × W :=
  let (r, g, w) := S.resume e.fiber w
  (r, { e with fiber := g }, w)

/-- A block of the program: it gets a value and may change the world. -/
abbrev Block (A V E W : Type) := A → W → Res V E × W

/-- The loop of `each`: /repo/ruruby/src/builtin/enumerator.rs:105-113.  `calls` records the calls of the block
(not in the code); `none`: out of fuel. -/
def eachLoop (S : Source I G V E W) (f : Block V V E W) :
    Nat → G → W → List (V × Res V E) → Option (Option E × List (V × Res V E) × W)
  | 0, _, _, _ => none
  | n + 1, g, w, calls =>
    match S.resume g w with
    | (.ok v, g, w) =>
      match f v w with
      | (.ok x, w) => eachLoop S f n g w (calls ++ [(v, .ok x)])
      | (.err e, w) => some (some e, calls ++ [(v, .err e)], w)
    | (.err e, _, w) => if S.is_stop e then some (none, calls, w) else some (some e, calls, w)

/-- The receiver of an enumerator: another enumerator, or something else. -/
inductive Receiver (V : Type)
  | enumerator (receiver : Receiver V)
  | value (v : V)

/-- /repo/ruruby/src/builtin/enumerator.rs:114-126: the innermost receiver. -/
def innermost : Receiver V → V
  | .enumerator r => innermost r
  | .value v => v

/-- /repo/ruruby/src/builtin/enumerator.rs:95-128 (each, with a block). -/
def each (S : Source I G V E W) (recv : I → Receiver V) (f : Block V V E W) (fuel : Nat) (e : Enumerator I G)
    (w : W) : Option (Res V E × List (V × Res V E) × W) :=
  match eachLoop S f fuel (dup_enum S e) w [] with
  | none => none
  | some (some err, calls, w) => some (.err err, calls, w)
  | some (none, calls, w) => some (.ok (innermost (recv e.info)), calls, w)

/-- The loop of `map`: /repo/ruruby/src/builtin/enumerator.rs:143-155; `temp` is the part of the temporary stack
above `len`. -/
def mapLoop (S : Source I G V E W) (f : Block V V E W) :
    Nat → G → W → List V → List (V × Res V E) → Option (Res (List V) E × List (V × Res V E) × W)
  | 0, _, _, _, _ => none
  | n + 1, g, w, temp, calls =>
    match S.resume g w with
    | (.ok v, g, w) =>
      match f v w with
      | (.ok x, w) => mapLoop S f n g w (temp ++ [x]) (calls ++ [(v, .ok x)])
      | (.err e, w) => some (.err e, calls ++ [(v, .err e)], w)
    | (.err e, _, w) => if S.is_stop e then some (.ok temp, calls, w) else some (.err e, calls, w)

/-- /repo/ruruby/src/builtin/enumerator.rs:130-156 (map, with a block). -/
def map (S : Source I G V E W) (f : Block V V E W) (fuel : Nat) (e : Enumerator I G) (w : W) :
    Option (Res (List V) E × List (V × Res V E) × W) :=
  mapLoop S f fuel (dup_enum S e) w [] []

/-- The loop of `with_index`: /repo/ruruby/src/builtin/enumerator.rs:172-189; `c` is the counter. -/
def withIndexLoop (S : Source I G V E W) (f : Block (V × Nat) V E W) :
    Nat → G → W → Nat → List V → List ((V × Nat) × Res V E) →
    Option (Res (List V) E × List ((V × Nat) × Res V E) × W)
  | 0, _, _, _, _, _ => none
  | n + 1, g, w, c, temp, calls =>
    match S.resume g w with
    | (.ok v, g, w) =>
      match f (v, c) w with
      | (.ok x, w) => withIndexLoop S f n g w (c + 1) (temp ++ [x]) (calls ++ [((v, c), .ok x)])
      | (.err e, w) => some (.err e, calls ++ [((v, c), .err e)], w)
    | (.err e, _, w) => if S.is_stop e then some (.ok temp, calls, w) else some (.err e, calls, w)

/-- /repo/ruruby/src/builtin/enumerator.rs:158-190 (with_index, with a block). -/
def with_index (S : Source I G V E W) (f : Block (V × Nat) V E W) (fuel : Nat) (e : Enumerator I G) (w : W) :
    Option (Res (List V) E × List ((V × Nat) × Res V E) × W) :=
  withIndexLoop S f fuel (dup_enum S e) w 0 [] []

end Verif.Fiber.Enum
