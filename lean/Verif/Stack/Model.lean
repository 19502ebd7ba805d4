/-!
# Model of the operand stack in memory (`ruruby/src/vm/executor/frame/ruby_stack.rs`)

The stack is a buffer of `VM_STACK_SIZE` words; `sp` is the index of the first free word.  Access outside the
buffer is undefined behaviour in the code (`debug_assert` is off in release builds); here it gives `none`.
-/
namespace Verif.Stack

/-- `ruruby/src/vm/executor/frame/ruby_stack.rs:6` -/
def VM_STACK_SIZE : Nat := 8192

/-- `ruruby/src/vm/executor/frame/ruby_stack.rs:16-22` -/
structure RubyStack (V : Type) where
  buf : Nat → V
  sp : Nat

variable {V : Type}

/-- `p[0] = v` -/
def RubyStack.write (σ : RubyStack V) (p : Nat) (v : V) : Option (RubyStack V) :=
  if p < VM_STACK_SIZE then some { σ with buf := fun x => if x = p then v else σ.buf x } else none

/-- `p[0]` -/
def RubyStack.read (σ : RubyStack V) (p : Nat) : Option V := if p < VM_STACK_SIZE then some (σ.buf p) else none

/-- `std::ptr::copy(src, dst, n)`: the two parts may overlap. -/
def RubyStack.copy (σ : RubyStack V) (src dst n : Nat) : Option (RubyStack V) :=
  if src + n ≤ VM_STACK_SIZE ∧ dst + n ≤ VM_STACK_SIZE then
    some { σ with buf := fun x => if dst ≤ x ∧ x < dst + n then σ.buf (src + (x - dst)) else σ.buf x }
  else none

/-- `&p[0..n]` and `p[0..n].copy_from_slice(l)` -/
def RubyStack.slice (σ : RubyStack V) (p n : Nat) : Option (List V) :=
  if p + n ≤ VM_STACK_SIZE then some ((List.range n).map (fun i => σ.buf (p + i))) else none
def RubyStack.paste (σ : RubyStack V) (p : Nat) (l : List V) : Option (RubyStack V) :=
  if p + l.length ≤ VM_STACK_SIZE then
    some { σ with buf := fun x => if p ≤ x then (l[x - p]?).getD (σ.buf x) else σ.buf x }
  else none

/-- pointer subtraction that stays inside the buffer -/
def back (p n : Nat) : Option Nat := if n ≤ p then some (p - n) else none

/-- `ruruby/src/vm/executor/frame/ruby_stack.rs:101-106` -/
def RubyStack.push (σ : RubyStack V) (v : V) : Option (RubyStack V) := do
  let σ ← σ.write σ.sp v
  some { σ with sp := σ.sp + 1 }

/-- `ruruby/src/vm/executor/frame/ruby_stack.rs:108-113` -/
def RubyStack.pop (σ : RubyStack V) : Option (V × RubyStack V) := do
  let sp ← back σ.sp 1
  let v ← σ.read sp
  some (v, { σ with sp := sp })

/-- `ruruby/src/vm/executor/frame/ruby_stack.rs:115-121` -/
def RubyStack.pop2 (σ : RubyStack V) : Option ((V × V) × RubyStack V) := do
  let sp ← back σ.sp 2
  let a ← σ.read sp
  let b ← σ.read (sp + 1)
  some ((a, b), { σ with sp := sp })

/-- `ruruby/src/vm/executor/frame/ruby_stack.rs:79-86` -/
def RubyStack.grow (nil : V) (σ : RubyStack V) : Nat → Option (RubyStack V)
  | 0 => some σ
  | n + 1 => do
    let σ ← σ.push nil
    RubyStack.grow nil σ n

/-- The loop of `resize_to` (`ruruby/src/vm/executor/frame/ruby_stack.rs:69-73`): `n` words from `p` on. -/
def RubyStack.fill (nil : V) (σ : RubyStack V) (p : Nat) : Nat → Option (RubyStack V)
  | 0 => some σ
  | n + 1 => do
    let σ ← σ.write p nil
    RubyStack.fill nil σ (p + 1) n

/-- `ruruby/src/vm/executor/frame/ruby_stack.rs:66-76` -/
def RubyStack.resize_to (nil : V) (σ : RubyStack V) (new_sp : Nat) : Option (RubyStack V) := do
  let σ ← if new_sp > σ.sp then σ.fill nil σ.sp (new_sp - σ.sp) else some σ
  some { σ with sp := new_sp }

/-- `ruruby/src/vm/executor/frame/ruby_stack.rs:88-93` -/
def RubyStack.remove (σ : RubyStack V) (p : Nat) : Option (V × RubyStack V) := do
  let v ← σ.read p
  let n ← back σ.sp (p + 1)
  let σ ← σ.copy (p + 1) p n
  let sp ← back σ.sp 1
  some (v, { σ with sp := sp })

/-- `ruruby/src/vm/executor/frame/ruby_stack.rs:95-99` -/
def RubyStack.insert (σ : RubyStack V) (p : Nat) (v : V) : Option (RubyStack V) := do
  let σ := { σ with sp := σ.sp + 1 }
  let n ← back σ.sp (p + 1)
  let σ ← σ.copy p (p + 1) n
  σ.write p v

/-- `ruruby/src/vm/executor/frame/ruby_stack.rs:135-139` -/
def RubyStack.extend_from_slice (σ : RubyStack V) (l : List V) : Option (RubyStack V) := do
  let σ ← σ.paste σ.sp l
  some { σ with sp := σ.sp + l.length }

/-- `ruruby/src/vm/executor/frame/ruby_stack.rs:141-145` -/
def RubyStack.extend_from_within_ptr (σ : RubyStack V) (src len : Nat) : Option (RubyStack V) := do
  let l ← σ.slice src len
  let σ ← σ.paste σ.sp l
  some { σ with sp := σ.sp + len }

/-- `ruruby/src/vm/executor/frame/ruby_stack.rs:147-149`; the range is `start..stop`. -/
def RubyStack.stack_copy_within (σ : RubyStack V) (ptr start stop dest : Nat) : Option (RubyStack V) :=
  σ.copy (ptr + start) (ptr + dest) (stop - start)

/-! ## The instructions -/

/-- `ruruby/src/vm/executor/opt_core.rs:559-562` -/
def DUP (σ : RubyStack V) (len : Nat) : Option (RubyStack V) := do
  let p ← back σ.sp len
  σ.extend_from_within_ptr p len

/-- `ruruby/src/vm/executor/opt_core.rs:563-567` -/
def SINKN (σ : RubyStack V) (len : Nat) : Option (RubyStack V) := do
  let (v, σ) ← σ.pop
  let p ← back σ.sp len
  σ.insert p v

/-- `ruruby/src/vm/executor/opt_core.rs:568-572` -/
def TOPN (σ : RubyStack V) (len : Nat) : Option (RubyStack V) := do
  let p ← back σ.sp 1
  let p ← back p len
  let (v, σ) ← σ.remove p
  σ.push v

/-- `ruruby/src/vm/executor/opt_core.rs:573-592`; `asArray` gives the elements of an array.  `len - 1` with
`len = 0` is an overflow (`none`). -/
def TAKE (nil : V) (asArray : V → Option (List V)) (σ : RubyStack V) (len : Nat) : Option (RubyStack V) := do
  let (v, σ) ← σ.pop
  match asArray v with
  | some info =>
    if len ≤ info.length then σ.extend_from_slice (info.take len)
    else do
      let σ ← σ.extend_from_slice info
      σ.grow nil (len - info.length)
  | none => do
    let σ ← σ.push v
    let n ← back len 1
    σ.grow nil n

/-- What an argument is to `pop_args_to_args`: an ordinary value, a splatted value that stays one value, or a
splatted array or range with its elements. -/
inductive Arg (V : Type)
  | plain
  | one (v : V)
  | many (l : List V)

/-- `ruruby/src/vm/executor.rs:842-896` (`pop_args_to_args`): the loop from `p` on.  `look` tells what kind of
argument a value is; for a range the elements are written one by one.  A range that is just empty
(`ary_len - 1` with `ary_len = 0`) overflows; `look` gives its elements, and the case is left out here
(`Verif/Args` treats it). -/
def popArgs (nil : V) (look : V → Arg V) (σ : RubyStack V) (p : Nat) : Nat → Option (RubyStack V)
  | 0 => some σ
  | fuel + 1 =>
    if p < σ.sp then do
      let v ← σ.read p
      match look v with
      | .plain => popArgs nil look σ (p + 1) fuel
      | .one inner => do
        let σ ← σ.write p inner
        popArgs nil look σ (p + 1) fuel
      | .many a =>
        if a.length = 0 then do
          let (_, σ) ← σ.remove p
          popArgs nil look σ p fuel
        else do
          let prev_sp := σ.sp
          let σ ← σ.grow nil (a.length - 1)
          let σ ← σ.stack_copy_within p 1 (prev_sp - p) a.length
          let σ ← σ.paste p a
          popArgs nil look σ (p + a.length) fuel
    else some σ

end Verif.Stack
