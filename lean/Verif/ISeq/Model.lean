/-!
# Instruction sequences: bytes, operands, jumps, and the peephole pass

Models `ruruby/src/vm/iseq.rs`, `ruruby-common/src/iseq_util.rs` and
`ruruby-common/src/vm_inst.rs`.
A sequence is a list of bytes, a position is a natural number (a `usize`),
an out-of-range access (a Rust panic in the compiler, undefined behaviour in the interpreter) is
`none`.
-/
namespace Verif.ISeq

/-- A byte of code (`u8`). -/
abbrev Byte := BitVec 8

/-- `ISeq(Vec<u8>)`; `vm/iseq.rs:2-3`. -/
abbrev Code := List Byte

/-! ## Writing -/

/-- `u32::to_le_bytes`, used by `push32`; `vm/iseq.rs:81-83`. -/
def le32 (v : BitVec 32) : Code :=
  [v.setWidth 8, (v >>> 8).setWidth 8, (v >>> 16).setWidth 8, (v >>> 24).setWidth 8]

/-- `u64::to_le_bytes`, used by `push64`; `vm/iseq.rs:85-87`. -/
def le64 (v : BitVec 64) : Code :=
  [v.setWidth 8, (v >>> 8).setWidth 8, (v >>> 16).setWidth 8, (v >>> 24).setWidth 8,
   (v >>> 32).setWidth 8, (v >>> 40).setWidth 8, (v >>> 48).setWidth 8, (v >>> 56).setWidth 8]

/-- `push8`, `push_argflag`; `vm/iseq.rs:129-135`. -/
def push8 (c : Code) (v : Byte) : Code := c ++ [v]

/-- `push16`; `vm/iseq.rs:137-140`. -/
def push16 (c : Code) (v : BitVec 16) : Code := c ++ [v.setWidth 8, (v >>> 8).setWidth 8]

/-- `push32` (also `push_method` with `None` as 0); `vm/iseq.rs:81-83, 142-147`. -/
def push32 (c : Code) (v : BitVec 32) : Code := c ++ le32 v

/-- `push64`; `vm/iseq.rs:85-87`. -/
def push64 (c : Code) (v : BitVec 64) : Code := c ++ le64 v

/-! ## Reading -/

/-- `ISeqPtr::read8`, returning the byte and the advanced pointer; `vm/iseq.rs:475-479`. -/
def read8 (c : Code) (pc : Nat) : Option (Byte × Nat) := (c[pc]?).map fun b => (b, pc + 1)

/-- `ISeqPtr::read16` (native byte order, little endian on the supported x86-64 targets);
`vm/iseq.rs:482-486`. -/
def read16 (c : Code) (pc : Nat) : Option (BitVec 16 × Nat) := do
  let (u1, pc) ← read8 c pc
  let (u2, pc) ← read8 c pc
  pure (u2 ++ u1, pc)

/-- `ISeqPtr::read32`; `vm/iseq.rs:489-495`. -/
def read32 (c : Code) (pc : Nat) : Option (BitVec 32 × Nat) := do
  let (u1, pc) ← read8 c pc
  let (u2, pc) ← read8 c pc
  let (u3, pc) ← read8 c pc
  let (u4, pc) ← read8 c pc
  pure (u4 ++ u3 ++ u2 ++ u1, pc)

/-- `ISeqPtr::read64`; `vm/iseq.rs:498-508`. -/
def read64 (c : Code) (pc : Nat) : Option (BitVec 64 × Nat) := do
  let (u1, pc) ← read8 c pc
  let (u2, pc) ← read8 c pc
  let (u3, pc) ← read8 c pc
  let (u4, pc) ← read8 c pc
  let (u5, pc) ← read8 c pc
  let (u6, pc) ← read8 c pc
  let (u7, pc) ← read8 c pc
  let (u8, pc) ← read8 c pc
  pure (u8 ++ u7 ++ u6 ++ u5 ++ u4 ++ u3 ++ u2 ++ u1, pc)

/-- `ISeq::read32` / `ISeq::read_disp` at a given offset, without moving a pointer;
`vm/iseq.rs:89-95`. -/
def readAt32 (c : Code) (pos : Nat) : Option (BitVec 32) := (read32 c pos).map (·.1)

/-! ## Positions and displacements -/

/-- `ISeqPos + ISeqDisp`: `((self.0) as i64 + other.0 as i64) as usize`;
`iseq_util.rs:13-19`.  The interpreter's pointer `pc + disp` (`vm/iseq.rs:447-453`) is the same
function of the offset from the start of the code. -/
def addDisp (pos : Nat) (d : BitVec 32) : Nat := (BitVec.ofInt 64 ((pos : Int) + d.toInt)).toNat

/-- `src - dest : ISeqDisp`, i.e. `(dest as i64 - src as i64) as i32`; `iseq_util.rs:60-66`. -/
def dispTo (src dest : Nat) : BitVec 32 := BitVec.ofInt 32 ((dest : Int) - src)

/-- `write_disp`: store the displacement of `dest` from `src` in the four bytes before `src`;
`vm/iseq.rs:156-162`.  (`src ≥ 4` at every call; the Rust index panics otherwise.) -/
def write_disp (c : Code) (src dest : Nat) : Code :=
  let num := dispTo src dest
  (((c.set (src - 4) (num.setWidth 8)).set (src - 3) ((num >>> 8).setWidth 8)).set
    (src - 2) ((num >>> 16).setWidth 8)).set (src - 1) ((num >>> 24).setWidth 8)

/-- `write_disp_from_cur`; `vm/iseq.rs:150-153`. -/
def write_disp_from_cur (c : Code) (src : Nat) : Code := write_disp c src c.length

/-! ## Opcodes -/

namespace Op
-- `vm_inst.rs:5-118`
def PUSH_VAL : Byte := 1
def PUSH_NIL : Byte := 5
def PUSH_SELF : Byte := 8
def CREATE_RANGE : Byte := 10
def CREATE_ARRAY : Byte := 11
def CREATE_PROC : Byte := 12
def CREATE_HASH : Byte := 13
def CREATE_REGEXP : Byte := 14
def CONST_VAL : Byte := 15
def SET_LOCAL : Byte := 20
def GET_LOCAL : Byte := 21
def SET_DYNLOCAL : Byte := 22
def GET_DYNLOCAL : Byte := 23
def GET_CONST : Byte := 24
def SET_CONST : Byte := 25
def GET_CONST_TOP : Byte := 26
def GET_SCOPE : Byte := 27
def GET_IVAR : Byte := 28
def SET_IVAR : Byte := 29
def GET_GVAR : Byte := 30
def SET_GVAR : Byte := 31
def GET_CVAR : Byte := 32
def SET_CVAR : Byte := 33
def GET_SVAR : Byte := 34
def SET_SVAR : Byte := 35
def GET_INDEX : Byte := 40
def SET_INDEX : Byte := 41
def GET_IDX_I : Byte := 42
def SET_IDX_I : Byte := 43
def CHECK_LOCAL : Byte := 50
def CHECK_CONST : Byte := 51
def CHECK_SCOPE : Byte := 52
def CHECK_IVAR : Byte := 53
def CHECK_GVAR : Byte := 54
def CHECK_METHOD : Byte := 55
def SEND : Byte := 60
def OPT_SEND : Byte := 66
def OPT_SEND_N : Byte := 68
def POP : Byte := 80
def DUP : Byte := 81
def TAKE : Byte := 82
def SPLAT : Byte := 83
def CONCAT_STRING : Byte := 84
def TO_S : Byte := 85
def SINKN : Byte := 86
def TOPN : Byte := 87
def DEF_CLASS : Byte := 90
def DEF_SCLASS : Byte := 91
def DEF_METHOD : Byte := 92
def DEF_SMETHOD : Byte := 93
def JMP : Byte := 100
def JMP_BACK : Byte := 101
def JMP_F : Byte := 102
def JMP_T : Byte := 103
def RETURN : Byte := 104
def BREAK : Byte := 105
def OPT_CASE : Byte := 106
def MRETURN : Byte := 107
def YIELD : Byte := 108
def RESCUE : Byte := 109
def THROW : Byte := 110
def OPT_CASE2 : Byte := 111
def SUPER : Byte := 112
def ADD : Byte := 120
def SUB : Byte := 121
def MUL : Byte := 122
def DIV : Byte := 123
def REM : Byte := 124
def EQ : Byte := 125
def NE : Byte := 126
def TEQ : Byte := 127
def GT : Byte := 128
def GE : Byte := 129
def LT : Byte := 130
def LE : Byte := 131
def NOT : Byte := 132
def SHR : Byte := 133
def SHL : Byte := 134
def BOR : Byte := 135
def BAND : Byte := 136
def BXOR : Byte := 137
def BNOT : Byte := 138
def POW : Byte := 139
def CMP : Byte := 140
def NEG : Byte := 141
def ADDI : Byte := 150
def SUBI : Byte := 151
def EQI : Byte := 152
def NEI : Byte := 153
def GTI : Byte := 154
def GEI : Byte := 155
def LTI : Byte := 156
def LEI : Byte := 157
def JMP_F_EQ : Byte := 170
def JMP_F_NE : Byte := 171
def JMP_F_GT : Byte := 172
def JMP_F_GE : Byte := 173
def JMP_F_LT : Byte := 174
def JMP_F_LE : Byte := 175
def JMP_F_EQI : Byte := 180
def JMP_F_NEI : Byte := 181
def JMP_F_GTI : Byte := 182
def JMP_F_GEI : Byte := 183
def JMP_F_LTI : Byte := 184
def JMP_F_LEI : Byte := 185
end Op
open Op

/-- Instructions without operand: the first arm of `inst_size`; `vm_inst.rs:264-299`. -/
def ops1 : List Byte :=
  [RETURN, PUSH_NIL, PUSH_SELF, ADD, SUB, MUL, DIV, REM, POW, TEQ, EQ, NE, GT, GE, LT, LE, CMP, NOT,
   SHL, SHR, NEG, BOR, BAND, BXOR, BNOT, CREATE_RANGE, CREATE_REGEXP, GET_INDEX, SET_INDEX, TO_S,
   SPLAT, POP, BREAK, MRETURN, THROW]

/-- The second arm of `inst_size`; `vm_inst.rs:301-353`. -/
def ops5 : List Byte :=
  [SET_LOCAL, GET_LOCAL, SET_CONST, CHECK_CONST, CHECK_SCOPE, CHECK_METHOD, GET_CONST_TOP, GET_SCOPE,
   GET_IVAR, SET_IVAR, CHECK_IVAR, GET_GVAR, SET_GVAR, CHECK_GVAR, GET_SVAR, SET_SVAR, GET_CVAR,
   SET_CVAR, GET_IDX_I, SET_IDX_I, CREATE_ARRAY, CONST_VAL, JMP, JMP_BACK, JMP_F, JMP_T, JMP_F_EQ,
   JMP_F_NE, JMP_F_GT, JMP_F_GE, JMP_F_LT, JMP_F_LE, DUP, TAKE, CONCAT_STRING, SINKN, TOPN, ADDI,
   SUBI, EQI, NEI, GTI, GEI, LTI, LEI, CREATE_PROC, DEF_SCLASS, CREATE_HASH, YIELD, RESCUE]

/-- The nine-byte arm of `inst_size`; `vm_inst.rs:358-373`. -/
def ops9 : List Byte :=
  [PUSH_VAL, SET_DYNLOCAL, GET_DYNLOCAL, CHECK_LOCAL, GET_CONST, OPT_CASE, OPT_CASE2, DEF_METHOD,
   DEF_SMETHOD, JMP_F_EQI, JMP_F_NEI, JMP_F_GTI, JMP_F_GEI, JMP_F_LTI, JMP_F_LEI]

/-- `Inst::inst_size`; `vm_inst.rs:262-382`.  `none`: the panic of the last arm. -/
def inst_size (op : Byte) : Option Nat :=
  if op ∈ ops1 then some 1
  else if op ∈ ops5 then some 5
  else if op = SUPER then some 8
  else if op ∈ ops9 then some 9
  else if op = DEF_CLASS then some 10
  else if op = OPT_SEND ∨ op = OPT_SEND_N then some 15
  else if op = SEND then some 16
  else none

/-! ## Operands -/

/-- Operand widths. -/
inductive Width | w8 | w16 | w32 | w64
  deriving DecidableEq, Repr

/-- Width in bits. -/
def Width.bits : Width → Nat | .w8 => 8 | .w16 => 16 | .w32 => 32 | .w64 => 64

/-- Operands the interpreter reads after each opcode, in the order of the `self.pc.read…` calls of
the corresponding arm of `run_context_main` (and `vm_send`, `vm_fast_send`);
`vm/executor/opt_core.rs:108-575, 686-743`.  `none`: the arm "Unimplemented instruction". -/
def vmOperands (op : Byte) : Option (List Width) :=
  if op ∈ [RETURN, BREAK, MRETURN, THROW, PUSH_NIL, PUSH_SELF, ADD, SUB, MUL, POW, DIV, REM, SHR, SHL,
      NEG, BAND, BOR, BXOR, BNOT, EQ, NE, GT, GE, LT, LE, TEQ, CMP, NOT, SET_INDEX, GET_INDEX, SPLAT,
      CREATE_RANGE, CREATE_REGEXP, TO_S, POP] then some []
  else if op ∈ [ADDI, SUBI, EQI, NEI, GTI, GEI, LTI, LEI, RESCUE, CONCAT_STRING, SET_LOCAL, GET_LOCAL,
      SET_CONST, CHECK_CONST, GET_CONST_TOP, CHECK_SCOPE, GET_SCOPE, SET_IVAR, GET_IVAR, CHECK_IVAR,
      SET_GVAR, GET_GVAR, CHECK_GVAR, GET_SVAR, SET_SVAR, SET_CVAR, GET_CVAR, SET_IDX_I, GET_IDX_I,
      CONST_VAL, CREATE_ARRAY, CREATE_PROC, CREATE_HASH, JMP, JMP_BACK, JMP_F, JMP_T, JMP_F_EQ,
      JMP_F_NE, JMP_F_GT, JMP_F_GE, JMP_F_LT, JMP_F_LE, CHECK_METHOD, YIELD, DEF_SCLASS, DUP, SINKN,
      TOPN, TAKE] then some [.w32]
  else if op = PUSH_VAL then some [.w64]
  else if op ∈ [SET_DYNLOCAL, GET_DYNLOCAL, CHECK_LOCAL, GET_CONST, JMP_F_EQI, JMP_F_NEI, JMP_F_GTI,
      JMP_F_GEI, JMP_F_LTI, JMP_F_LEI, OPT_CASE, OPT_CASE2, DEF_METHOD, DEF_SMETHOD] then
    some [.w32, .w32]
  else if op = SEND then some [.w32, .w16, .w8, .w32, .w32]
  else if op ∈ [OPT_SEND, OPT_SEND_N] then some [.w32, .w16, .w32, .w32]
  else if op = SUPER then some [.w16, .w32, .w8]
  else if op = DEF_CLASS then some [.w8, .w32, .w32]
  else none

/-- Operands the compiler writes after each opcode, in the order of the `push…` calls at the place
that emits it: `vm/iseq.rs:165-346`, `codegen.rs:48-66, 319, 427, 497-543, 646-677, 713, 745-915, 928,
1076-1101, 1256, 1417-1490, 1588, 1620-1750`, `codegen/send.rs:62, 129-160`,
`codegen/defined.rs:21-168`.  `none`: never emitted. -/
def genOperands (op : Byte) : Option (List Width) :=
  if op ∈ [RETURN, BREAK, MRETURN, THROW, PUSH_NIL, PUSH_SELF, ADD, SUB, MUL, POW, DIV, REM, SHR, SHL,
      NEG, BAND, BOR, BXOR, BNOT, EQ, NE, GT, GE, LT, LE, TEQ, CMP, NOT, SET_INDEX, GET_INDEX, SPLAT,
      CREATE_RANGE, CREATE_REGEXP, TO_S, POP] then some []
  else if op ∈ [JMP, JMP_BACK, JMP_F, JMP_T, JMP_F_EQ, JMP_F_NE, JMP_F_GT, JMP_F_GE, JMP_F_LT,
      JMP_F_LE, DUP, TAKE, CONCAT_STRING, SINKN, TOPN, CONST_VAL, CREATE_ARRAY, CREATE_HASH,
      CREATE_PROC, GET_IVAR, SET_IVAR, GET_GVAR, SET_GVAR, GET_SVAR, SET_SVAR, SET_CONST, GET_CVAR,
      SET_CVAR, SET_LOCAL, GET_LOCAL, ADDI, SUBI, EQI, NEI, GTI, GEI, LTI, LEI, GET_IDX_I, SET_IDX_I,
      RESCUE, YIELD, GET_CONST_TOP, GET_SCOPE, CHECK_METHOD, CHECK_GVAR, CHECK_IVAR, CHECK_CONST,
      CHECK_SCOPE, DEF_SCLASS] then some [.w32]
  else if op = PUSH_VAL then some [.w64]
  else if op ∈ [OPT_CASE, OPT_CASE2, JMP_F_EQI, JMP_F_NEI, JMP_F_GTI, JMP_F_GEI, JMP_F_LTI, JMP_F_LEI,
      SET_DYNLOCAL, GET_DYNLOCAL, CHECK_LOCAL, GET_CONST, DEF_METHOD, DEF_SMETHOD] then
    some [.w32, .w32]
  else if op = SEND then some [.w32, .w16, .w8, .w32, .w32]
  else if op ∈ [OPT_SEND, OPT_SEND_N] then some [.w32, .w16, .w32, .w32]
  else if op = SUPER then some [.w16, .w32, .w8]
  else if op = DEF_CLASS then some [.w8, .w32, .w32]
  else none

/-- An operand value of a given width. -/
inductive Operand | o8 (v : BitVec 8) | o16 (v : BitVec 16) | o32 (v : BitVec 32) | o64 (v : BitVec 64)
  deriving DecidableEq, Repr

/-- Its width. -/
def Operand.width : Operand → Width
  | .o8 _ => .w8
  | .o16 _ => .w16
  | .o32 _ => .w32
  | .o64 _ => .w64

/-- Emit one operand. -/
def pushOperand (c : Code) : Operand → Code
  | .o8 v => push8 c v
  | .o16 v => push16 c v
  | .o32 v => push32 c v
  | .o64 v => push64 c v

/-- Emit an instruction: the opcode, then its operands. -/
def emit (c : Code) (op : Byte) (args : List Operand) : Code := args.foldl pushOperand (push8 c op)

/-- Read one operand of a given width. -/
def readOperand (c : Code) (pc : Nat) : Width → Option (Operand × Nat)
  | .w8 => (read8 c pc).map fun (v, pc) => (.o8 v, pc)
  | .w16 => (read16 c pc).map fun (v, pc) => (.o16 v, pc)
  | .w32 => (read32 c pc).map fun (v, pc) => (.o32 v, pc)
  | .w64 => (read64 c pc).map fun (v, pc) => (.o64 v, pc)

/-- Read operands of the given widths in order. -/
def readOperands (c : Code) (pc : Nat) : List Width → Option (List Operand × Nat)
  | [] => some ([], pc)
  | w :: ws => do
    let (v, pc) ← readOperand c pc w
    let (vs, pc) ← readOperands c pc ws
    pure (v :: vs, pc)

/-- Fetch: `self.pc.read8()` and then the operands of the instruction; the program counter ends up
after the instruction; `vm/executor/opt_core.rs:107`. -/
def fetch (c : Code) (pc : Nat) : Option ((Byte × List Operand) × Nat) := do
  let (op, pc) ← read8 c pc
  let ws ← vmOperands op
  let (vs, pc) ← readOperands c pc ws
  pure ((op, vs), pc)

/-! ## Emitting jumps -/

/-- `gen_jmp`, `gen_jmp_if_f`, `gen_jmp_if_t`: opcode, a zero displacement, and the position after it
(to be patched by `write_disp`); `vm/iseq.rs:262-280, 276-280`. -/
def gen_jump (c : Code) (op : Byte) : Code × Nat :=
  let c := push32 (push8 c op) 0
  (c, c.length)

/-- `gen_jmp_back`: `disp = (current - pos).to_i32() - 5`; `vm/iseq.rs:270-274`. -/
def gen_jmp_back (c : Code) (pos : Nat) : Code :=
  let disp := dispTo c.length pos - 5
  push32 (push8 c JMP_BACK) disp

/-! ## Peephole pass -/

/-- `DestKind`; `vm/iseq.rs:413-416`. -/
inductive DestKind | dest (pos : Nat) | inst (op : Byte)
  deriving DecidableEq, Repr

/-- Unconditional jumps. -/
def isJmp (op : Byte) : Bool := op == JMP || op == JMP_BACK

/-- `RETURN | BREAK | MRETURN`. -/
def isTerm (op : Byte) : Bool := op == RETURN || op == BREAK || op == MRETURN

/-- The conditional jumps `optimize` retargets; `vm/iseq.rs:374-381`. -/
def isCond (op : Byte) : Bool :=
  op == JMP_T || op == JMP_F || op == JMP_F_EQ || op == JMP_F_NE || op == JMP_F_GT || op == JMP_F_GE ||
    op == JMP_F_LT || op == JMP_F_LE

/-- Compare-with-immediate jumps (left alone by `optimize`). -/
def isCondI (op : Byte) : Bool :=
  op == JMP_F_EQI || op == JMP_F_NEI || op == JMP_F_GTI || op == JMP_F_GEI || op == JMP_F_LTI ||
    op == JMP_F_LEI

/-- `chase`: follow unconditional jumps; `vm/iseq.rs:394-411`.
The Rust function recurses until it leaves the chain; `fuel` bounds the recursion and `none` is
returned when it runs out (theorems quantify over the fuel) or when an index is out of range. -/
def chase : (fuel : Nat) → Code → Nat → Bool → Option DestKind
  | 0, _, _, _ => none
  | fuel + 1, c, pos, nonCond =>
    match c[pos]? with
    | none => none
    | some inst =>
      if isJmp inst then
        match readAt32 c (pos + 1), inst_size inst with
        | some disp, some sz => chase fuel c (addDisp (pos + sz) disp) nonCond
        | _, _ => none
      else if isTerm inst then
        if nonCond then some (.inst inst) else some (.dest pos)
      else some (.dest pos)

/-- The body of the loop of `optimize` at `pos` (without the advance); `vm/iseq.rs:356-388`. -/
def optStep (fuel : Nat) (c : Code) (pos : Nat) (inst : Byte) : Option Code :=
  if isJmp inst then
    match inst_size inst with
    | none => none
    | some sz =>
      match readAt32 c (pos + sz - 4) with
      | none => none
      | some disp =>
        match chase fuel c (addDisp (pos + sz) disp) true with
        | none => none
        | some (.dest d) => some (write_disp c (pos + sz) d)
        | some (.inst t) =>
          some (((((c.set pos t).set (pos + 1) t).set (pos + 2) t).set (pos + 3) t).set (pos + 4) t)
  else if isCond inst then
    match inst_size inst with
    | none => none
    | some sz =>
      match readAt32 c (pos + sz - 4) with
      | none => none
      | some disp =>
        match chase fuel c (addDisp (pos + sz) disp) false with
        | some (.dest d) => some (write_disp c (pos + sz) d)
        | _ => none
  else some c

/-- The loop of `optimize`; `vm/iseq.rs:350-392`.  `n` bounds the number of rounds (`len` suffices,
since every instruction has at least one byte). -/
def optLoop (fuel : Nat) : (n : Nat) → Code → Nat → Option Code
  | 0, c, _ => some c
  | n + 1, c, pos =>
    match c[pos]? with
    | none => some c
    | some inst =>
      match optStep fuel c pos inst, inst_size inst with
      | some c, some sz => optLoop fuel n c (pos + sz)
      | _, _ => none

/-- `ISeq::optimize`; `vm/iseq.rs:349-392`. -/
def optimize (fuel : Nat) (c : Code) : Option Code := optLoop fuel c.length c 0

end Verif.ISeq
