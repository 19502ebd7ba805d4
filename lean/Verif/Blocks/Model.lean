import Verif.Blocks.Spec
import Verif.Unwind.Model
/-!
# The interpreter with frames of methods and of blocks (model for C83)

`run_context_main` (`ruruby/src/vm/executor/opt_core.rs:14-600`): calls with and without blocks, and `YIELD`, make a frame and
go on in it.
-/
namespace Verif.Blocks
open Verif.Codegen (Id Env World St R S Entry Eff)
open Verif.ISeq (Byte readOperands vmOperands Operand inst_size)
open Verif.ISeq.Op
open Verif.Methods (Code Tables slots)
open Verif.Unwind (env)
open Verif.Value (Val)

variable {W X : Type}

/-- A frame (`ruruby/src/vm/executor/frame.rs`).  Its variables are in `Cells`, under its height in the stack of frames; a frame
that is pushed later at the same height gets the same cells, as in the stack of the interpreter.
Simplifications: the operand stack is a list of its own (C38, C40); a frame keeps the heights of the frames whose variables it
sees (`sees`), and the block of its method (`given`), which the interpreter finds by following the pointers to outer frames
(`outer`, `cur_mfp`, `frame.rs:474-480`): these pointers do not change while the frame exists.  No frame is moved to the heap
(blocks are not made objects). -/
structure Frame where
  code : ISeq.Code
  ex : List Entry
  self : Val
  pc : Nat
  /-- operand stack, top first -/
  stack : List Val
  /-- not `discard_val` -/
  keep : Bool
  sees : List Nat
  given : Given
  /-- `is_method` -/
  isMethod : Bool

/-- What is stored for a block under its number (`ISeqInfo`, `ruruby/src/globals/method.rs:437-510`); required parameters
only. -/
structure BlockCode where
  id : BitVec 32
  /-- `params.req` -/
  req : Nat
  lvars : Nat
  code : ISeq.Code
  ex : List Entry

/-- The code of the program. -/
structure Image where
  methods : List Code
  blocks : List BlockCode

/-- The interpreter: running frame, frames below it, variables, everything else; or finished. -/
inductive Conf (W X : Type)
  | run (f : Frame) (fs : List Frame) (s : Cells) (w : W)
  | done (r : R W X)

/-- The inner loop of `run_loop` from `// Handle Exception.` on (`ruruby/src/vm/executor.rs:419-458`).  `locals`: the variables
of the frame that was left. -/
def unwind (base : Val → World W X) (x : X) : (locals : Nat → Nat → Val) → List Frame → Cells → W → Conf W X
  | locals, [], _, w => .done (.err x ⟨locals, w⟩)
  | _, f :: fs, s, w =>
    match f.ex.find? (·.include f.pc) with
    | some en =>
      let (v, σ) := (base f.self).exc x ⟨look f.sees s, w⟩
      .run { f with pc := en.dest, stack := [v] } fs (store f.sees σ.locals s) σ.w
    | none => unwind base x (look f.sees s) fs s w

/-- `MethodReturn` in `run_loop` (`executor.rs:400-418`): remove frames down to one of a method, give it the value.  It is the
frame of the method that called the block. -/
def methodReturn (v : Val) (σ : St W) : List Frame → Cells → Conf W X
  | [], _ => .done (.mret v σ)
  | f :: fs, s => if f.isMethod then .run { f with stack := v :: f.stack } fs s σ.w else methodReturn v σ fs s

/-- The running frame is left.  `RETURN`: `opt_core.rs:116-134` (`executor.rs:383-393` if it is the last); `BREAK`:
`opt_core.rs:135-151`, the value is in `globals.val`, from where nothing takes it; `MRETURN`: `opt_core.rs:152-158`. -/
def leave (base : Val → World W X) (keep : Bool) : R W X → List Frame → Cells → Conf W X
  | r, [], _ => .done r
  | .ret v σ, f :: fs, s => .run { f with stack := if keep then v :: f.stack else f.stack } fs s σ.w
  | .err x σ, f :: fs, s => unwind base x σ.locals (f :: fs) s σ.w
  | .brk _ σ, f :: fs, s => .run f fs s σ.w
  | .mret v σ, f :: fs, s => methodReturn v σ (f :: fs) s
  | .stuck, _, _ => .done .stuck

/-- A frame is about to execute a call: whether the value is wanted, block, method, receiver, arguments, and the operand stack
below them; `vm_fast_send`, `opt_core.rs:669-690`. -/
def calling (code : ISeq.Code) (pc : Nat) (stack : List Val) : Option (Bool × BitVec 32 × Id × Val × List Val × List Val) :=
  match code[pc]? with
  | some op =>
    if (op = OPT_SEND ∨ op = OPT_SEND_N) ∧ pc + 15 ≤ code.length then
      match readOperands ((code.drop (pc + 1)).take 14) 0 [.w32, .w16, .w32, .w32] with
      | some ([.o32 m, .o16 n, .o32 block, .o32 _], _) =>
        match stack.drop n.toNat with
        | recv :: st => some (decide (op = OPT_SEND), block, m, recv, (stack.take n.toNat).reverse, st)
        | [] => none
      | _ => none
    else none
  | none => none

/-- A frame is about to execute `yield`: arguments, and the operand stack below them; `opt_core.rs:493-497`. -/
def yielding (code : ISeq.Code) (pc : Nat) (stack : List Val) : Option (List Val × List Val) :=
  match code[pc]? with
  | some op =>
    if op = YIELD ∧ pc + 5 ≤ code.length then
      match readOperands ((code.drop (pc + 1)).take 4) 0 [.w32] with
      | some ([.o32 n], _) =>
        if n.toNat ≤ stack.length then some ((stack.take n.toNat).reverse, stack.drop n.toNat) else none
      | _ => none
    else none
  | none => none

/-- Where an instruction that makes no frame takes the running frame. -/
def within (base : Val → World W X) (f : Frame) (fs : List Frame) (s : Cells) : ISeq.Conf (S W) (R W X) → Conf W X
  | .at pc t => .run { f with pc := pc, stack := t.stack } fs (store f.sees t.st.locals s) t.st.w
  | .done r =>
    match r with
    | .ret _ σ | .mret _ σ | .brk _ σ | .err _ σ => leave base f.keep r fs (store f.sees σ.locals s)
    | .stuck => .done .stuck

/-- An instruction that makes no frame. -/
def plain (base : Val → World W X) (T : Tables) (f : Frame) (fs : List Frame) (s : Cells) (w : W) : Option (Conf W X) :=
  (ISeq.step (Codegen.machine (env (base f.self) T f.ex f.self)) f.code f.pc ⟨f.stack, ⟨look f.sees s, w⟩⟩).map
    fun r => within base f fs s r.2

/-- `prepare_block_args` and the shortening in `push_block_frame_fast` (`frame/arg_handler.rs:106-134, 155-165`);
`mularg_flag` is `1 < params.req` (`globals/method.rs:493`). -/
def prepare (K : World W X) (req : Nat) (vs : List Val) (σ : St W) : List Val :=
  let vs :=
    if vs.length = 1 ∧ 1 < req then
      match K.asArray (vs.headD Value.nil) σ with
      | some a => a
      | none => vs
    else vs
  if req < vs.length then vs.take req else vs

/-- The cells of a new frame: the arguments, then `nil` up to the number of variables (`resize_to`, `stack.grow`). -/
def push (h lvars : Nat) (vs : List Val) (s : Cells) : Cells := fun i => if i = h then slots lvars vs else s i

/-- One instruction.  A call of a method of the program: `invoke_method`, `push_method_frame_fast` (`executor/method.rs:488-519`,
`frame/arg_handler.rs:136-153`); `YIELD`: `vm_yield`, `invoke_block`, `push_block_frame_fast` (`opt_core.rs:785-801`,
`executor/method.rs:461-486`, `frame/arg_handler.rs:106-134`).  The methods of the program are methods of every object, as in
`Methods.world`. -/
def step (base : Val → World W X) (T : Tables) (M : Image) (err : Errors X) : Conf W X → Option (Conf W X)
  | .done _ => none
  | .run f fs s w =>
    match calling f.code f.pc f.stack with
    | some (keep, b, m, o, vs, st) =>
      match M.methods.find? (·.id = m) with
      | some c =>
        if vs.length ≠ c.arity then some (unwind base err.wrong (look f.sees s) ({ f with pc := f.pc + 15 } :: fs) s w)
        else
          let h := fs.length + 1
          let given := if b = 0 then .none else .block b f.self f.sees f.given
          some (.run ⟨c.code, c.ex, o, 0, [], keep, [h], given, true⟩ ({ f with pc := f.pc + 15, stack := st } :: fs)
            (push h c.lvars vs s) w)
      | none => plain base T f fs s w
    | none =>
      match yielding f.code f.pc f.stack with
      | some (vs, st) =>
        match f.given with
        | .none => some (unwind base err.noBlock (look f.sees s) ({ f with pc := f.pc + 5 } :: fs) s w)
        | .block b me sees up =>
          match M.blocks.find? (·.id = b) with
          | none => some (.done .stuck)
          | some c =>
            let h := fs.length + 1
            some (.run ⟨c.code, c.ex, me, 0, [], true, h :: sees, up, false⟩ ({ f with pc := f.pc + 5, stack := st } :: fs)
              (push h c.lvars (prepare (base f.self) c.req vs ⟨look f.sees s, w⟩) s) w)
      | none => plain base T f fs s w

/-- Some number of instructions. -/
inductive Runs (base : Val → World W X) (T : Tables) (M : Image) (err : Errors X) : Conf W X → Conf W X → Prop
  | refl (k) : Runs base T M err k k
  | step {k k1 k2} : step base T M err k = some k1 → Runs base T M err k1 k2 → Runs base T M err k k2

end Verif.Blocks
