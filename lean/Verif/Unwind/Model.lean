import Verif.Codegen.VM
import Verif.Methods.Model
/-!
# The interpreter with several frames (model for C42)

`run_context_main` (`ruruby/src/vm/executor/opt_core.rs:14-600`) does not call itself when a method of the program is called:
it makes a frame for the method and goes on in it.  `RETURN` removes the frame.  An error that the running frame does not rescue
removes frames until one is found that does (`run_loop`, `ruruby/src/vm/executor.rs:378-460`).
-/
namespace Verif.Unwind
open Verif.Codegen (Id Env World St R S Entry Eff)
open Verif.ISeq (Byte readOperands vmOperands Operand inst_size)
open Verif.ISeq.Op
open Verif.Methods (Code Tables slots)
open Verif.Value (Val)

variable {W X : Type}

/-- A frame of a method (`ruruby/src/vm/executor/frame.rs`).  Simplifications: no block, no outer frame; the operand stack and
the variables are lists of their own (C38, C40 are about their places in the one stack of the interpreter). -/
structure Frame where
  code : ISeq.Code
  ex : List Entry
  self : Val
  pc : Nat
  /-- operand stack, top first -/
  stack : List Val
  locals : Nat → Nat → Val
  /-- not `discard_val`: the caller wants the value -/
  keep : Bool

/-- The interpreter: running frame, the frames below it (the caller first), everything else; or finished. -/
inductive Conf (W X : Type)
  | run (f : Frame) (fs : List Frame) (w : W)
  | done (r : R W X)

/-- The inner loop of `run_loop` from `// Handle Exception.` on (`ruruby/src/vm/executor.rs:419-458`).  The error `x` has
been raised in the first of the frames, at its `pc`; the frame above it is gone.  `locals`: the variables of that frame. -/
def unwind (base : Val → World W X) (x : X) : (locals : Nat → Nat → Val) → List Frame → W → Conf W X
  | locals, [], w => .done (.err x ⟨locals, w⟩)
  | _, f :: fs, w =>
    match f.ex.find? (·.include f.pc) with
    | some en =>
      let (v, σ) := (base f.self).exc x ⟨f.locals, w⟩
      .run { f with pc := en.dest, stack := [v], locals := σ.locals } fs σ.w
    | none => unwind base x f.locals fs w

/-- The running frame is left.  `RETURN` with `invoke_count > 0`: `opt_core.rs:108-124`; with 0: `run_loop` returns
(`executor.rs:383-393`).  `BREAK` and `MRETURN` leave blocks, which are not modelled. -/
def leave (base : Val → World W X) (keep : Bool) : R W X → List Frame → Conf W X
  | r, [] => .done r
  | .ret v σ, f :: fs => .run { f with stack := if keep then v :: f.stack else f.stack } fs σ.w
  | .err x σ, f :: fs => unwind base x σ.locals (f :: fs) σ.w
  | _, _ => .done .stuck

/-- A frame is about to execute a call: whether the value is wanted, method, receiver, arguments, and the operand stack
below them; `vm_fast_send`, `opt_core.rs:664-690`.  Simplification: calls with blocks make no frames here (see C83). -/
def calling (code : ISeq.Code) (pc : Nat) (stack : List Val) : Option (Bool × Id × Val × List Val × List Val) :=
  match code[pc]? with
  | some op =>
    if (op = OPT_SEND ∨ op = OPT_SEND_N) ∧ pc + 15 ≤ code.length then
      match readOperands ((code.drop (pc + 1)).take 14) 0 [.w32, .w16, .w32, .w32] with
      | some ([.o32 m, .o16 n, .o32 block, .o32 _], _) =>
        match stack.drop n.toNat with
        | recv :: st => if block = 0 then some (decide (op = OPT_SEND), m, recv, (stack.take n.toNat).reverse, st) else none
        | [] => none
      | _ => none
    else none
  | none => none

/-- Where an instruction that makes no frame takes the running frame. -/
def within (base : Val → World W X) (f : Frame) (fs : List Frame) : ISeq.Conf (S W) (R W X) → Conf W X
  | .at pc s => .run { f with pc := pc, stack := s.stack, locals := s.st.locals } fs s.st.w
  | .done r => leave base f.keep r fs

/-- What the interpreter knows while it runs code with `self = me`. -/
def env (K : World W X) (T : Tables) (ex : List Entry) (me : Val) : Env W X := ⟨K, me, ex, T.consts, T.case1, T.case2⟩

/-- An instruction that makes no frame. -/
def plain (base : Val → World W X) (T : Tables) (f : Frame) (fs : List Frame) (w : W) : Option (Conf W X) :=
  (ISeq.step (Codegen.machine (env (base f.self) T f.ex f.self)) f.code f.pc ⟨f.stack, ⟨f.locals, w⟩⟩).map
    fun r => within base f fs r.2

/-- One instruction.  `M`: the methods of the program; they are methods of every object, as in `Methods.world`.
A call of one of them: `invoke_method`, `push_method_frame_fast` (`executor/method.rs:488-519`,
`frame/arg_handler.rs:136-153`) and `dispatch!` (`opt_core.rs:22-58`).  The caller's `pc` is behind the call. -/
def step (base : Val → World W X) (T : Tables) (M : List Code) (wrong : X) : Conf W X → Option (Conf W X)
  | .done _ => none
  | .run f fs w =>
    match calling f.code f.pc f.stack with
    | some (keep, m, o, vs, st) =>
      match M.find? (·.id = m) with
      | some c =>
        if vs.length ≠ c.arity then some (unwind base wrong f.locals ({ f with pc := f.pc + 15 } :: fs) w)
        else some (.run ⟨c.code, c.ex, o, 0, [], slots c.lvars vs, keep⟩ ({ f with pc := f.pc + 15, stack := st } :: fs) w)
      | none => plain base T f fs w
    | none => plain base T f fs w

/-- Some number of instructions. -/
inductive Runs (base : Val → World W X) (T : Tables) (M : List Code) (wrong : X) : Conf W X → Conf W X → Prop
  | refl (k) : Runs base T M wrong k k
  | step {k k1 k2} : step base T M wrong k = some k1 → Runs base T M wrong k1 k2 → Runs base T M wrong k k2

end Verif.Unwind
