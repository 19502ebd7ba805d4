import Verif.Value.Lemmas

/-!
# Words in a frame

A frame on the stack stores, next to Ruby values, pointers, a flag word, positions and block handles.
Each of them is packed in one 64-bit word (`ruruby/src/vm/executor/frame.rs`, `ruruby/src/vm/args.rs`,
`ruruby/src/lib.rs`).
-/
namespace Verif.Frame
open Verif.Value

/-! ## Flag word -/

/-- `ruruby/src/vm/executor/frame.rs:23-26` -/
def FLG_DISCARD : Word := 0b00000100#64
def FLG_MOD_FUNC : Word := 0b00001000#64
def FLG_IS_RUBY : Word := 0b10000000#64

/-- `ruruby/src/vm/executor/frame.rs:748-753` (`ruby_flag`); the number of locals is a `usize`. -/
def ruby_flag (use_value : Bool) (local_len : Word) : Word :=
  (local_len <<< 32) ||| 1#64 ||| FLG_IS_RUBY ||| (if use_value then 0#64 else FLG_DISCARD)

/-- `ruruby/src/vm/executor/frame.rs:755-757` (`native_flag`). -/
def native_flag (args_len : Word) : Word := (args_len <<< 32) ||| 1#64

/-- `ruruby/src/vm/executor/frame.rs:66-68` (`flag_len`). -/
def flag_len (w : Word) : Word := w >>> 32

/-- `ruruby/src/vm/executor/frame.rs:71-73,744-746` (`is_ruby_func`). -/
def is_ruby_func (w : Word) : Bool := w &&& FLG_IS_RUBY != 0#64

/-- `ruruby/src/vm/executor/frame.rs:739-741` (`discard_val`). -/
def discard_val (w : Word) : Bool := w &&& FLG_DISCARD != 0#64

/-- `ruruby/src/vm/executor/frame.rs:285-288` (`is_module_function`). -/
def is_module_function (w : Word) : Bool := w &&& FLG_MOD_FUNC != 0#64

/-- `ruruby/src/vm/executor/frame.rs:290-293` (`set_module_function`). -/
def set_module_function (w : Word) : Word := w ||| FLG_MOD_FUNC

/-- `ruruby/src/vm/executor/frame.rs:295-297` (`set_local_len`). -/
def set_local_len (w : Word) (new_len : Word) : Word := (w &&& 0xffffffff#64) ||| (new_len <<< 32)

/-! ## Block handles -/

/-- `ruruby/src/vm/args.rs:5-10` (`Block`); a Proc is represented by its word, the address of the
object. -/
inductive Block where
  | block (method : BitVec 32) (frame : BitVec 32)
  | proc (v : Word)
  | sym (id : BitVec 32)
deriving DecidableEq, Repr

/-- What reading a handle can give: the program aborts if the code id is zero
(`FnId::new`, `ruruby-common/src/func_id.rs:13-15`). -/
inductive Decoded where
  | abort
  | none
  | some (b : Block)
deriving DecidableEq, Repr

/-- `ruruby/src/vm/args.rs:42-53` (`encode`) and `ruruby/src/vm/executor/frame.rs:696-699` (no block is
the integer 0). -/
def encode : Option Block → Word
  | .none => fixnumW 0#64
  | .some (.proc p) => p
  | .some (.block m f) => fixnumW ((m.setWidth 64 <<< 32) + f.setWidth 64)
  | .some (.sym id) => symbolW id

/-- `ruruby/src/vm/args.rs:25-40` (`decode`). -/
def decode (w : Word) : Decoded :=
  match as_fixnum w with
  | some i =>
    if i = 0 then .none
    else
      let u : Word := BitVec.ofInt 64 i
      let m : BitVec 32 := (u >>> 32).setWidth 32
      if m = 0#32 then .abort else .some (.block m (u.setWidth 32))
  | none =>
    match as_symbol w with
    | some id => .some (.sym id)
    | none => .some (.proc w)

/-! ## Pointers and code references -/

/-- `ruruby/src/vm/executor/frame.rs:47-49` (`enc`). -/
def enc (p : Word) : Word := p ||| 1#64

/-- `ruruby/src/vm/executor/frame.rs:52-59` (`dec`); `-2i64 as u64` is the complement of 1. -/
def dec (w : Word) : Option Word :=
  let p := w &&& ~~~ 1#64
  if p = 0#64 then none else some p

/-- `ruruby/src/lib.rs:86-88` (`encode`), stored as `Value::fixnum`
(`ruruby/src/vm/executor/frame.rs:694`). -/
def enc_iseq (p : Word) : Word := fixnumW (p.sshiftRight 3)

/-- `ruruby/src/vm/executor/frame.rs:273-278`, `ruruby/src/lib.rs:91-95` (`decode`). -/
def dec_iseq (w : Word) : Word := BitVec.ofInt 64 (as_fnum w) <<< 3

end Verif.Frame
