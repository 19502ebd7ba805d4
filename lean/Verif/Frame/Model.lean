/-!
# The frame stack

Models `ruruby/src/vm/executor/frame.rs`, `frame/heap.rs`, `frame/ruby_stack.rs`, the frame parts of
`frame/arg_handler.rs`, and the parts of `vm/executor.rs`, `vm/executor/method.rs`,
`vm/executor/opt_core.rs` that create and leave frames, access local variables and turn blocks into Procs.

Memory is a function from slot addresses (byte address divided by 8) to slots; the stack occupies the 8192
slots from `base` on, frames moved to the heap lie above it.

Simplifications:
* a slot holds decoded content (a value, a pointer, a flag word, …); `Verif/Frame/WordsProps.lean` proves
  that the words really stored decode to it.  Reading a slot of another shape is the outcome `fault`;
* values are opaque numbers; Proc objects are kept in a table, and any code may call any of them;
* a code object (`iseq`) is a number, the position in it (`pc`) a number;
* the arguments of a call have been brought in the form required by the parameter list (`locals`, see
  `Verif/Args`);
* a push beyond the end of the stack, which the release build does not check, is the outcome `overflow`;
* memory for frames on the heap is taken from ever growing addresses and never freed (the code never frees
  a `HeapContext`: `Ref::new` leaks a box);
* blocks given as symbols, `binding.eval` and fibers are left out.
-/
namespace Verif.Frame

inductive Err where
  | overflow
  | fault
deriving DecidableEq, Repr

/-- `ruruby/src/vm/args.rs:5-10` (`Block`): code and the frame's position above the bottom of the stack,
or a Proc object. -/
inductive Blk where
  | lit (code frame : Nat)
  | proc (p : Nat)
deriving DecidableEq, Repr

inductive Slot where
  | val (v : Nat)
  | ptr (p : Option Nat)
  | flag (len : Nat) (ruby discard : Bool)
  | pc (n : Nat)
  | iseq (i : Nat)
  | blk (b : Option Blk)
deriving DecidableEq, Repr, Inhabited

/-- `ruruby/src/value/procobj.rs` (`ProcInfo`). -/
structure ProcInfo where
  self : Nat
  method : Nat
  outer : Nat
deriving DecidableEq, Repr

/-- The variables of a running builtin function: what `exec_native` keeps
(`ruruby/src/vm/executor/method.rs:544-548`), the block given to it, and the outer frame of this block as
read when the function started (`ruruby/src/vm/executor/method.rs:94-97`). -/
structure Native where
  iseq : Nat
  pc : Nat
  cfp : Nat
  blk : Option Blk
  outer : Option Nat
deriving DecidableEq, Repr

/-- The parts of `VM` (`ruruby/src/vm/executor.rs:20-50`) used here. -/
structure VM where
  mem : Nat → Slot
  base : Nat
  hp : Nat
  sp : Nat
  cfp : Nat
  lfp : Nat
  pc : Nat
  iseq : Nat
  procs : List ProcInfo
  natives : List Native

/-- `ruruby/src/vm/executor/frame/ruby_stack.rs:6` -/
def STACK_SIZE : Nat := 8192

/-- `ruruby/src/vm/executor/frame.rs:10-18`: positions in a frame. -/
def EV_EP := 1
def EV_FLAG := 2
def EV_MFP := 3
def EV_OUTER := 4
def EV_PC := 5
def EV_ISEQ := 6
def EV_BLK := 7

/-- `ruruby/src/vm/executor/frame.rs:20-21` -/
def CONT_FRAME_LEN := 3
def RUBY_FRAME_LEN := 5

def upd (m : Nat → Slot) (a : Nat) (s : Slot) : Nat → Slot := fun x => if x = a then s else m x

/-! ## Reading slots -/

def asVal : Slot → Except Err Nat
  | .val v => .ok v
  | _ => .error .fault

/-- `ruruby/src/vm/executor/frame.rs:53-60` (`dec`). -/
def asPtr : Slot → Except Err (Option Nat)
  | .ptr p => .ok p
  | _ => .error .fault

/-- `dec(..).unwrap()` -/
def asAddr : Slot → Except Err Nat
  | .ptr (some p) => .ok p
  | _ => .error .fault

/-- `ruruby/src/vm/executor/frame.rs:68-70` (`flag_len`). -/
def asLen : Slot → Except Err Nat
  | .flag n _ _ => .ok n
  | _ => .error .fault

/-- `ruruby/src/vm/executor/frame.rs:73-75` (`is_ruby_func`). -/
def asRuby : Slot → Except Err Bool
  | .flag _ r _ => .ok r
  | _ => .error .fault

/-- `ruruby/src/vm/executor/frame.rs:739-741` (`discard_val`). -/
def asDiscard : Slot → Except Err Bool
  | .flag _ _ d => .ok d
  | _ => .error .fault

def asPc : Slot → Except Err Nat
  | .pc n => .ok n
  | _ => .error .fault

def asIseq : Slot → Except Err Nat
  | .iseq n => .ok n
  | _ => .error .fault

def asBlk : Slot → Except Err (Option Blk)
  | .blk b => .ok b
  | _ => .error .fault

/-- `ruruby/src/vm/executor/frame.rs:299-301` (`get_lfp`). -/
def getLfp (m : Nat → Slot) (ep : Nat) : Except Err Nat := do
  .ok (ep - (← asLen (m (ep + EV_FLAG))) - 1)

/-! ## The stack -/

/-- `ruruby/src/vm/executor/frame/ruby_stack.rs:102-106` (`push`). -/
def VM.push (σ : VM) (s : Slot) : Except Err VM :=
  if σ.sp < σ.base + STACK_SIZE then .ok { σ with mem := upd σ.mem σ.sp s, sp := σ.sp + 1 }
  else .error .overflow

/-- `ruruby/src/vm/executor/frame/ruby_stack.rs:135-139` (`extend_from_slice`). -/
def VM.pushAll (σ : VM) : List Slot → Except Err VM
  | [] => .ok σ
  | s :: ss => do (← σ.push s).pushAll ss

/-- `ruruby/src/vm/executor/frame/ruby_stack.rs:109-113` (`pop`). -/
def VM.pop (σ : VM) : Except Err (Nat × VM) := do
  .ok (← asVal (σ.mem (σ.sp - 1)), { σ with sp := σ.sp - 1 })

/-! ## Frames -/

/-- `ruruby/src/vm/executor/frame.rs:679-687` (`push_control_frame`, `control_frame`). -/
def VM.pushControl (σ : VM) (prev : Option Nat) (ep : Nat) (len : Nat) (ruby discard : Bool) :
    Except Err VM :=
  σ.pushAll [.ptr prev, .ptr (some ep), .flag len ruby discard]

/-- `ruruby/src/vm/executor/frame.rs:662-667` (`save_next_pc`). -/
def VM.savePc (σ : VM) : Except Err VM := do
  if ← asRuby (σ.mem (σ.cfp + EV_FLAG)) then
    .ok { σ with mem := upd σ.mem (σ.cfp + EV_PC) (.pc σ.pc) }
  else .ok σ

/-- `ruruby/src/vm/executor/frame.rs:526-566` (`push_method_frame`). -/
def VM.pushMethodFrame (σ : VM) (useValue : Bool) (iseq len : Nat) (block : Option Blk) :
    Except Err VM := do
  let prevSp := σ.sp - len - 1
  let receiver ← asVal (σ.mem prevSp)
  let lfp := prevSp + 1
  let σ ← σ.savePc
  let prevCfp := σ.cfp
  let σ ← σ.push (.val receiver)
  let σ := { σ with cfp := σ.sp }
  let ep := σ.cfp
  let σ ← σ.pushControl (some prevCfp) ep len true (!useValue)
  let σ ← σ.pushAll [.ptr (some ep), .ptr none, .pc 0, .iseq iseq, .blk block]
  .ok { σ with iseq := iseq, pc := 0, lfp := lfp }

/-- `ruruby/src/vm/executor/frame.rs:568-624` (`push_block_frame`) with `heap` = `None` and an outer
frame; `lfp` is `prev_sp + 1` at all calls modelled here
(`ruruby/src/vm/executor/frame/arg_handler.rs:43-51,125-133`). -/
def VM.pushBlockFrame (σ : VM) (prevSp : Nat) (useValue : Bool) (outer : Nat) (iseq len : Nat) :
    Except Err VM := do
  let receiver ← asVal (σ.mem prevSp)
  let σ ← σ.savePc
  let prevCfp := σ.cfp
  let σ ← σ.push (.val receiver)
  let σ := { σ with cfp := σ.sp }
  let mfp ← asAddr (σ.mem (outer + EV_MFP))
  let ep := σ.cfp
  let σ ← σ.pushControl (some prevCfp) ep len true (!useValue)
  let σ ← σ.pushAll [.ptr (some mfp), .ptr (some outer), .pc 0, .iseq iseq, .blk none]
  .ok { σ with iseq := iseq, pc := 0, lfp := prevSp + 1 }

/-- `ruruby/src/vm/executor/frame.rs:620-632` (`push_native_frame`). -/
def VM.pushNativeFrame (σ : VM) (argsLen : Nat) : Except Err VM := do
  let prevCfp := σ.cfp
  let prevSp := σ.sp - argsLen - 1
  let σ ← σ.push (← (asVal (σ.mem prevSp)).map Slot.val)
  let σ := { σ with cfp := σ.sp, lfp := prevSp + 1 }
  σ.pushControl (some prevCfp) σ.cfp argsLen false false

/-- `ruruby/src/vm/executor/frame.rs:175-177` (`get_prev_sp`). -/
def prevSp (m : Nat → Slot) (cfp : Nat) : Except Err Nat := do
  .ok (cfp - (← asLen (m (cfp + EV_FLAG))) - 2)

/-- `ruruby/src/vm/executor/frame.rs:634-649` (`unwind_frame`). -/
def VM.unwind (σ : VM) : Except Err VM := do
  let cfp ← asAddr (σ.mem σ.cfp)
  let sp ← prevSp σ.mem σ.cfp
  let ep ← asAddr (σ.mem (cfp + EV_EP))
  let lfp ← getLfp σ.mem ep
  let σ := { σ with sp := sp, cfp := cfp, lfp := lfp }
  if ← asRuby (σ.mem (cfp + EV_FLAG)) then
    .ok { σ with iseq := ← asIseq (σ.mem (ep + EV_ISEQ)), pc := ← asPc (σ.mem (cfp + EV_PC)) }
  else .ok σ

/-- `ruruby/src/vm/executor/frame.rs:651-660` (`unwind_native_frame`). -/
def VM.unwindNative (σ : VM) (cfp : Nat) : Except Err VM := do
  let sp ← prevSp σ.mem σ.cfp
  let lfp ← getLfp σ.mem (← asAddr (σ.mem (cfp + EV_EP)))
  .ok { σ with sp := sp, cfp := cfp, lfp := lfp }

/-- `ruruby/src/vm/executor/frame.rs:669-677` (`clear_stack`). -/
def VM.clear (σ : VM) : Except Err VM := do
  .ok { σ with sp := σ.cfp + CONT_FRAME_LEN +
    (if ← asRuby (σ.mem (σ.cfp + EV_FLAG)) then RUBY_FRAME_LEN else 0) }

/-- `ruruby/src/vm/executor.rs:820-826` (`get_outer_frame`): `k` frames outwards from `ep`. -/
def outerFrame (m : Nat → Slot) : Nat → Nat → Except Err Nat
  | ep, 0 => .ok ep
  | ep, k + 1 => do outerFrame m (← asAddr (m (ep + EV_OUTER))) k

/-- `ruruby/src/vm/executor.rs:257-259` (`get_dyn_local`). -/
def VM.dynLocal (σ : VM) (k : Nat) : Except Err Nat := do
  getLfp σ.mem (← outerFrame σ.mem (← asAddr (σ.mem (σ.cfp + EV_EP))) k)

/-! ## Moving frames to the heap -/

/-- copy `n` slots from `src` to `dst` -/
def copySlots (m : Nat → Slot) (src dst n : Nat) : Nat → Slot :=
  fun x => if dst ≤ x ∧ x < dst + n then m (src + (x - dst)) else m x

/-- `ruruby/src/vm/executor/frame/heap.rs:107-128` (`dup_frame`), with `frame`
(`ruruby/src/vm/executor/frame.rs:310-317`).  The result is the new frame. -/
def VM.dupFrame (σ : VM) (cur : Nat) (outer : Option Nat) : Except Err (Nat × VM) := do
  let len ← asLen (σ.mem (cur + EV_FLAG))
  let size := len + 2 + CONT_FRAME_LEN + RUBY_FRAME_LEN
  let m := copySlots σ.mem (cur - len - 2) σ.hp size
  let ep := σ.hp + len + 2
  let m := upd m (ep + EV_EP) (.ptr (some ep))
  let m := upd m (cur + EV_EP) (.ptr (some ep))
  let mfp ← match outer with
    | none => .ok ep
    | some o => asAddr (m (o + EV_MFP))
  let m := upd m (ep + EV_MFP) (.ptr (some mfp))
  let m := upd m (cur + EV_MFP) (.ptr (some mfp))
  let m := upd m (ep + EV_OUTER) (.ptr outer)
  let m := upd m (cur + EV_OUTER) (.ptr outer)
  .ok (ep, { σ with mem := m, hp := σ.hp + size })

/-- `ruruby/src/vm/executor/frame.rs:778-792` (`move_ep_to_heap`), with
`ruruby/src/vm/executor/frame/ruby_stack.rs:44-53` (`check_boundary`).  The first argument bounds the
depth of the recursion. -/
def VM.moveEp : Nat → VM → Nat → Except Err (Nat × VM)
  | 0, _, _ => .error .fault
  | fuel + 1, σ, ep => do
    if ¬ (σ.base ≤ ep ∧ ep < σ.base + STACK_SIZE) then .ok (ep, σ)
    else
      let (outer, σ) ←
        match ← asPtr (σ.mem (ep + EV_OUTER)) with
        | none => (.ok (none, σ) : Except Err (Option Nat × VM))
        | some o => do
          let (o, σ) ← VM.moveEp fuel σ o
          .ok (some o, σ)
      let (heapEp, σ) ← σ.dupFrame ep outer
      if σ.cfp = ep then .ok (heapEp, { σ with lfp := ← getLfp σ.mem heapEp })
      else .ok (heapEp, σ)

/-- `ruruby/src/vm/executor/frame.rs:772-775` (`move_cfp_to_heap`). -/
def VM.moveCfp (σ : VM) (cfp : Nat) : Except Err (Nat × VM) := do
  σ.moveEp (σ.base + STACK_SIZE) (← asAddr (σ.mem (cfp + EV_EP)))

/-- `ruruby/src/value/value.rs:1123-1126` (`procobj`): the new entry of the table. -/
def VM.procobj (σ : VM) (self method cfp : Nat) : Except Err (Nat × VM) := do
  let (outer, σ) ← σ.moveCfp cfp
  .ok (σ.procs.length, { σ with procs := σ.procs ++ [⟨self, method, outer⟩] })

/-- `ruruby/src/vm/executor.rs:944-957,961-972` (`create_proc`, `create_lambda`). -/
def VM.createProc (σ : VM) : Blk → Except Err (Nat × VM)
  | .lit code f => do
    let c := σ.base + f
    σ.procobj (← asVal (σ.mem (c - 1))) code c
  | .proc p => .ok (p, σ)

/-! ## Calls -/

/-- The block given to a call: none, a literal block (`ruruby/src/vm/executor/opt_core.rs:633-636`), the
block of the running method or builtin function, or a Proc object. -/
inductive BlockArg where
  | none
  | lit (code : Nat)
  | own
  | proc (p : Nat)
deriving DecidableEq, Repr

/-- The block of the running method (`ruruby/src/vm/executor/frame.rs:474-476`, `get_method_block`); in
a builtin function the block given to it (none in the initial frame). -/
def VM.ownBlock (σ : VM) : Except Err (Option Blk) := do
  if ← asRuby (σ.mem (σ.cfp + EV_FLAG)) then
    let ep ← asAddr (σ.mem (σ.cfp + EV_EP))
    let mfp ← asAddr (σ.mem (ep + EV_MFP))
    asBlk (σ.mem (mfp + EV_BLK))
  else
    match σ.natives with
    | n :: _ => .ok n.blk
    | [] => .ok none

/-- `ruruby/src/vm/executor/frame.rs:429-431` (`cur_frame`): the position of the current frame. -/
def VM.blockArg (σ : VM) : BlockArg → Except Err (Option Blk)
  | .none => .ok none
  | .lit code => .ok (some (.lit code (σ.cfp - σ.base)))
  | .own => σ.ownBlock
  | .proc p => .ok (some (.proc p))

/-- The arguments on the stack are replaced by the local variables (see the head of the file). -/
def VM.setLocals (σ : VM) (args : Nat) (locals : List Nat) : Except Err VM :=
  ({ σ with sp := σ.sp - args } : VM).pushAll (locals.map Slot.val)

/-- `ruruby/src/vm/executor/method.rs:488-519` (`invoke_method`) for a method written in Ruby:
`push_method_frame_slow/fast` (`ruruby/src/vm/executor/frame/arg_handler.rs:60-102,136-151`). -/
def VM.callMethod (σ : VM) (args : Nat) (code : Nat) (locals : List Nat) (useValue : Bool)
    (b : BlockArg) : Except Err VM := do
  let blk ← σ.blockArg b
  let σ ← σ.setLocals args locals
  σ.pushMethodFrame useValue code locals.length blk

/-- What iterating functions remember of their block: the outer frame
(`ruruby/src/vm/executor/method.rs:92-103`). -/
def VM.blockOuter (σ : VM) : Option Blk → Except Err (Option Nat)
  | some (.lit _ f) => do .ok (some (← asAddr (σ.mem (σ.base + f + EV_EP))))
  | some (.proc p) =>
    match σ.procs[p]? with
    | some i => .ok (some i.outer)
    | none => .error .fault
  | none => .ok none

/-- The first part of `ruruby/src/vm/executor/method.rs:523-550` (`exec_native`). -/
def VM.callNative (σ : VM) (args : Nat) (b : BlockArg) : Except Err VM := do
  let blk ← σ.blockArg b
  let outer ← σ.blockOuter blk
  let n : Native := ⟨σ.iseq, σ.pc, σ.cfp, blk, outer⟩
  let σ ← σ.savePc
  let σ ← σ.pushNativeFrame args
  .ok { σ with natives := n :: σ.natives }

/-- `ruruby/src/vm/executor/method.rs:461-486` (`invoke_block`) for a block written in Ruby:
`push_block_frame_slow/fast` (`ruruby/src/vm/executor/frame/arg_handler.rs:4-58,104-134`). -/
def VM.invokeBlock (σ : VM) (args : Nat) (code outer : Nat) (locals : List Nat) (useValue : Bool) :
    Except Err VM := do
  let outer ← asAddr (σ.mem (outer + EV_EP))
  let base := σ.sp - args
  let σ ← σ.setLocals args locals
  σ.pushBlockFrame (base - 1) useValue outer code locals.length

/-- insert the receiver below the arguments: `self.stack.insert(self.sp() - args.len(), ..)`
(`ruruby/src/vm/executor/frame/ruby_stack.rs:95-99`); natives push it before the arguments. -/
def VM.insertBelow (σ : VM) (args : Nat) (v : Nat) : Except Err VM :=
  if σ.sp < σ.base + STACK_SIZE then
    let p := σ.sp - args
    .ok { σ with mem := upd (copySlots σ.mem p (p + 1) args) p (.val v), sp := σ.sp + 1 }
  else .error .overflow

/-- `ruruby/src/vm/executor/opt_core.rs:785-801` (`vm_yield`) and
`ruruby/src/vm/executor/method.rs:432-445` (`invoke_proc`). -/
def VM.yieldTo (σ : VM) (blk : Blk) (args : Nat) (locals : List Nat) (useValue : Bool) :
    Except Err VM := do
  match blk with
  | .lit code f =>
    let outer ← asAddr (σ.mem (σ.base + f + EV_EP))
    let σ ← σ.insertBelow args (← asVal (σ.mem (outer - 1)))
    σ.invokeBlock args code outer locals useValue
  | .proc p =>
    match σ.procs[p]? with
    | some i => do
      let σ ← σ.insertBelow args i.self
      σ.invokeBlock args i.method i.outer locals useValue
    | none => .error .fault

/-- A call of a Proc with another `self` (`ruruby/src/vm/executor/method.rs:432-445`, `invoke_proc`). -/
def VM.callProc (σ : VM) (p : Nat) (self : Option Nat) (args : Nat) (locals : List Nat)
    (useValue : Bool) : Except Err VM := do
  match σ.procs[p]? with
  | some i => do
    let σ ← σ.insertBelow args (self.getD i.self)
    σ.invokeBlock args i.method i.outer locals useValue
  | none => .error .fault

/-- One call of the block in an iterating builtin function, which uses the outer frame read at its start
(`ruruby/src/vm/executor/method.rs:107-135`). -/
def VM.iterate (σ : VM) (args : Nat) (locals : List Nat) (useValue : Bool) : Except Err VM := do
  match σ.natives with
  | n :: _ =>
    match n.blk, n.outer with
    | some (.lit code _), some outer => do
      let σ ← σ.insertBelow args (← asVal (σ.mem (outer - 1)))
      σ.invokeBlock args code outer locals useValue
    | some (.proc p), some outer =>
      match σ.procs[p]? with
      | some i => do
        let σ ← σ.insertBelow args i.self
        σ.invokeBlock args i.method outer locals useValue
      | none => .error .fault
    | _, _ => .error .fault
  | [] => .error .fault

/-- `ruruby/src/vm/executor/frame.rs:448-457` (`caller_cfp`); the first argument bounds the search. -/
def callerCfp (m : Nat → Slot) : Nat → Nat → Except Err Nat
  | 0, _ => .error .fault
  | fuel + 1, c => do
    let p ← asAddr (m c)
    if ← asRuby (m (p + EV_FLAG)) then .ok p else callerCfp m fuel p

/-- What the machine can do in one step. -/
inductive Op where
  /-- push a value -/
  | push (v : Nat)
  /-- pop a value -/
  | pop
  /-- continue at another place of the code -/
  | jump (pc : Nat)
  /-- `self` (`ruruby/src/vm/executor.rs:234-236`) -/
  | self
  /-- local variables (`ruruby/src/vm/executor/opt_core.rs:235-250`) -/
  | getLocal (i : Nat)
  | setLocal (i v : Nat)
  | getDyn (k i : Nat)
  | setDyn (k i v : Nat)
  /-- call of a method written in Ruby, of a builtin function, of a Proc, of the own block -/
  | callMethod (args code : Nat) (locals : List Nat) (useValue : Bool) (b : BlockArg)
  | callNative (args : Nat) (b : BlockArg)
  | callProc (p : Nat) (self : Option Nat) (args : Nat) (locals : List Nat) (useValue : Bool)
  | yield (args : Nat) (locals : List Nat) (useValue : Bool)
  | iterate (args : Nat) (locals : List Nat) (useValue : Bool)
  /-- leave a Ruby frame with a value: `RETURN`
  (`ruruby/src/vm/executor/opt_core.rs:116-134`); `toRust` if it was entered by `run_loop`
  (`ruruby/src/vm/executor.rs:383-393`) -/
  | ret (toRust : Bool)
  /-- leave a Ruby frame because of an exception (`ruruby/src/vm/executor.rs:446-453`) -/
  | raise
  /-- leave a builtin function: the second part of `exec_native`
  (`ruruby/src/vm/executor/method.rs:551-570`), with a value (pushed by the caller) or an exception -/
  | retNative (v : Option Nat)
  /-- enter an exception handler: `clear_stack` (`ruruby/src/vm/executor.rs:433-436`) -/
  | clear
  /-- `CREATE_PROC` (`ruruby/src/vm/executor/opt_core.rs:406-410`) -/
  | createProc (code : Nat)
  /-- a Proc from the own block (`proc`, `lambda`, `&blk` parameters:
  `ruruby/src/vm/executor/frame/arg_handler.rs:250-254`) -/
  | blockToProc
  /-- `Kernel#binding`: the frame of the caller is moved to the heap
  (`ruruby/src/vm/executor.rs:978-982`); recorded in the table of Procs -/
  | binding
deriving DecidableEq, Repr

/-- the state after the step and a value made visible by it -/
def step (σ : VM) : Op → Except Err (VM × Option Nat)
  | .push v => do .ok (← σ.push (.val v), none)
  | .pop => do
    let (v, σ) ← σ.pop
    .ok (σ, some v)
  | .jump n => .ok ({ σ with pc := n }, none)
  | .self => do .ok (σ, some (← asVal (σ.mem (σ.lfp - 1))))
  | .getLocal i => do .ok (σ, some (← asVal (σ.mem (σ.lfp + i))))
  | .setLocal i v => .ok ({ σ with mem := upd σ.mem (σ.lfp + i) (.val v) }, none)
  | .getDyn k i => do .ok (σ, some (← asVal (σ.mem ((← σ.dynLocal k) + i))))
  | .setDyn k i v => do .ok ({ σ with mem := upd σ.mem ((← σ.dynLocal k) + i) (.val v) }, none)
  | .callMethod args code locals u b => do .ok (← σ.callMethod args code locals u b, none)
  | .callNative args b => do .ok (← σ.callNative args b, none)
  | .callProc p s args locals u => do .ok (← σ.callProc p s args locals u, none)
  | .yield args locals u => do
    match ← σ.ownBlock with
    | some b => do .ok (← σ.yieldTo b args locals u, none)
    | none => .error .fault
  | .iterate args locals u => do .ok (← σ.iterate args locals u, none)
  | .ret toRust => do
    let discard ← asDiscard (σ.mem (σ.cfp + EV_FLAG))
    let (v, σ) ← σ.pop
    let σ ← σ.unwind
    if toRust then .ok (σ, some v)
    else if discard then .ok (σ, none)
    else do .ok (← σ.push (.val v), none)
  | .raise => do .ok (← σ.unwind, none)
  | .retNative v => do
    match σ.natives with
    | n :: ns =>
      let σ ← σ.unwindNative n.cfp
      let σ := { σ with pc := n.pc, iseq := n.iseq, natives := ns }
      match v with
      | some v => do .ok (← σ.push (.val v), none)
      | none => .ok (σ, none)
    | [] => .error .fault
  | .clear => do .ok (← σ.clear, none)
  | .createProc code => do
    let self ← asVal (σ.mem (σ.lfp - 1))
    let (p, σ) ← σ.procobj self code σ.cfp
    .ok (σ, some p)
  | .blockToProc => do
    match ← σ.ownBlock with
    | some b => do
      let (p, σ) ← σ.createProc b
      .ok (σ, some p)
    | none => .error .fault
  | .binding => do
    let c ← callerCfp σ.mem (σ.base + STACK_SIZE) σ.cfp
    let (p, σ) ← σ.procobj 0 0 c
    .ok (σ, some p)

/-- a sequence of steps and the values made visible -/
def run (σ : VM) : List Op → Except Err (VM × List (Option Nat))
  | [] => .ok (σ, [])
  | op :: ops => do
    let (σ, o) ← step σ op
    let (σ, os) ← run σ ops
    .ok (σ, o :: os)

/-- `ruruby/src/vm/executor/frame.rs:488-496` (`init_frame`) on an empty stack at `base`.  `nil` is the
value 0. -/
def initVM (base : Nat) : VM :=
  { mem := fun a =>
      if a = base then .val 0
      else if a = base + 1 then .ptr none
      else if a = base + 2 then .ptr (some (base + 1))
      else if a = base + 3 then .flag 0 false false
      else .val 0,
    base, hp := base + STACK_SIZE, sp := base + 4, cfp := base + 1, lfp := base, pc := 0, iseq := 0,
    procs := [], natives := [] }

end Verif.Frame
