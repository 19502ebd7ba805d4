import Verif.Meaning.NamedProps
/-!
# Calls of methods of the program (model for C82)

The interpreter of C31 and C78 for a program with methods.  `Codegen.World.send` is open there; here a call of a method of the
program runs its code in a new frame.  `World W X` depends on `self` (instance variables, functional calls): `base me`.
-/
namespace Verif.Methods
open Verif.Codegen (Id Env World St R S Steps Const CaseMap CaseMap2 Entry Eff)
open Verif.Meaning.Named (lift)
open Verif.Value (Val)

variable {W X : Type}

/-- What `DEF_METHOD` stores under the name (`ruruby/src/vm/executor/opt_core.rs:527-537`): the parts of `ISeqInfo`
(`ruruby/src/globals/method.rs:437-460`) of a method that has only required parameters. -/
structure Code where
  id : Id
  /-- `params.req` -/
  arity : Nat
  /-- number of slots for local variables -/
  lvars : Nat
  code : ISeq.Code
  ex : List Entry

/-- The tables of the interpreter that belong to no method. -/
structure Tables where
  consts : List Const
  case1 : List (Option CaseMap)
  case2 : List (Option CaseMap2)

/-- `push_method_frame_fast`: the slots of the new frame are the arguments, then `nil`
(`ruruby/src/vm/executor/frame/arg_handler.rs:136-153`; C38 and C40 are about the frame in the stack).  A method has no outer
frame. -/
def slots (lvars : Nat) (vs : List Val) : Nat → Nat → Val
  | 0, j => (vs ++ List.replicate (lvars - vs.length) Value.nil)[j]?.getD Value.nil
  | _ + 1, _ => Value.nil

/-- What the caller gets: the value in `RETURN`, or the error that left the frame
(`ruruby/src/vm/executor/method.rs:488-519`, `ruruby/src/vm/executor.rs:378-460`).  A method's body ends in no other way. -/
def result (stop : X) (w : W) : R W X → Except X Val × W
  | .ret v σ => (.ok v, σ.w)
  | .err x σ => (.error x, σ.w)
  | _ => (.error stop, w)

/-- `vm_send`: find the method (`ruruby/src/vm/executor/opt_core.rs:702-728`), run it if it is one of the program.
Simplifications: every object has the methods of the program (they are methods of Object); a class that has an own method of
that name is left out.  `invoke`: run the code of a method of the program. -/
def world (base : Val → World W X) (M : List Code) (invoke : Code → Val → List Val → W → Except X Val × W) (me : Val) :
    World W X :=
  { base me with
    send := fun i o vs σ =>
      match M.find? (·.id = i) with
      | none => (base me).send i o vs σ
      | some c => lift σ (invoke c o vs σ.w) }

/-- What the interpreter knows while it runs code with `self = me`. -/
def env (base : Val → World W X) (T : Tables) (M : List Code) (invoke : Code → Val → List Val → W → Except X Val × W)
    (ex : List Entry) (me : Val) : Env W X :=
  ⟨world base M invoke me, me, ex, T.consts, T.case1, T.case2⟩

open Classical in
/-- `invoke_method` (`ruruby/src/vm/executor/method.rs:488-519`): check the number of arguments, make the frame, run the code
from its start until the frame is left.  With calls nested at most `d` deep; `stop` stands for the answer of a call that does
not end, or is nested deeper. -/
noncomputable def invoke (base : Val → World W X) (T : Tables) (M : List Code) (wrong stop : X) :
    Nat → Code → Val → List Val → W → Except X Val × W
  | 0, _, _, _, w => (.error stop, w)
  | d + 1, c, o, vs, w =>
    if vs.length ≠ c.arity then (.error wrong, w)
    else if h : ∃ r, Steps (env base T M (invoke base T M wrong stop d) c.ex o) c.code (.at 0 ⟨[], ⟨slots c.lvars vs, w⟩⟩) (.done r)
      then result stop w h.choose
    else (.error stop, w)

/-- The interpreter with calls nested at most `d` deep. -/
noncomputable def machine (base : Val → World W X) (T : Tables) (M : List Code) (wrong stop : X) (d : Nat) (ex : List Entry)
    (me : Val) : Env W X :=
  env base T M (invoke base T M wrong stop d) ex me

end Verif.Methods
