import Verif.ISeq.Model
import Verif.Value.Model
/-!
# The compiler from syntax trees to instruction sequences

Models `ruruby/src/codegen.rs` and `ruruby/src/codegen/send.rs` for the bodies of methods, blocks and
programs built from: literals, `self`, variables, operators, `&&`/`||`/`!`, array and range
construction, indexing, sequences, `if`, `while`/`until`, `break`, `next`, `return`, assignments (also
`op=` and multiple), method calls with positional arguments, `case`, and `begin`/`rescue`/`else`/`ensure`.

Not modelled: blocks and definitions (they are compiled to sequences of their own), keyword, splat and
block arguments, constants, hashes, string interpolation, `defined?`, class variables, and the source
map (`save_loc`).
-/
namespace Verif.Codegen
open Verif.ISeq Op
open Verif.Value (Val)

/-- `IdentId`; `ruruby-common/src/id_table.rs`. -/
abbrev Id := BitVec 32

/-! ## Syntax trees -/

/-- Comparison operators, `is_cmp_op`; `ruruby-parse/src/node.rs:265-270`. -/
inductive CmpOp | eq | ne | gt | ge | lt | le
  deriving DecidableEq, Repr

/-- `BinOp` without `LAnd`, `LOr` (separate nodes) and `Match` (a method call);
`ruruby-parse/src/node.rs:239-262`. -/
inductive BinOp
  | add | sub | mul | div | rem | exp | shr | shl | band | bor | bxor | teq | cmp
  | c (o : CmpOp)
  deriving DecidableEq, Repr

/-- `UnOp`; `ruruby-parse/src/node.rs:295-301`. -/
inductive UnOp | bitnot | not | neg | pos
  deriving DecidableEq, Repr

/-- Literal nodes `Nil`, `Bool`, `Integer`, `Bignum`, `Float`, `String`, `Symbol`;
`ruruby-parse/src/node.rs:16-26`. -/
inductive Lit
  | nil | bool (b : Bool) | int (i : Int) | big (n : Int) | flt (bits : BitVec 64) | str (s : String)
  | sym (id : Id)
  deriving DecidableEq, Repr

/-- Variables as assignment targets: `LocalVar`/`Ident`, `InstanceVar`, `GlobalVar`. -/
inductive Var | lvar (id : Id) | ivar (id : Id) | gvar (id : Id)
  deriving DecidableEq, Repr

mutual
/-- `NodeKind`; `ruruby-parse/src/node.rs:15-120`.  The targets of `MulAssign` and `AssignOp` are
restricted to variables; assignments to elements and attributes are nodes of their own; `carray` is an `Array` with
`is_const`, of literals other than strings;
`Index` has exactly one argument, not a splat. -/
inductive Node
  | lit (l : Lit)
  | self
  | lvar (id : Id)
  | ivar (id : Id)
  | gvar (id : Id)
  | ident (id : Id)
  | binop (op : BinOp) (lhs rhs : Node)
  | land (lhs rhs : Node)
  | lor (lhs rhs : Node)
  | unop (op : UnOp) (e : Node)
  | array (elems : Nodes)
  | carray (elems : List Lit)
  | range (start stop : Node) (exclude_end : Bool)
  | index (base idx : Node)
  | seq (nodes : Nodes)
  | ite (cond then_ else_ : Node)
  | while_ (cond body : Node) (cond_op : Bool)
  | brk (val : Node)
  | nxt (val : Node)
  | ret (val : Node)
  | assign (t : Var) (rhs : Node)
  | opassign (op : BinOp) (t : Var) (rhs : Node)
  | assignIdx (base idx rhs : Node)
  | attrAssign (recv : Node) (method : Id) (rhs : Node)
  | massign (mlhs : List Var) (mrhs : Nodes)
  | send (recv : Node) (method : Id) (args : Nodes)
  /-- A call with a block literal.  The block is compiled as a method of its own (`get_block`, `codegen.rs:495-528`); `block` is
  the number it gets. -/
  | sendB (recv : Node) (method : Id) (args : Nodes) (block : BitVec 32)
  | yield_ (args : Nodes)
  | case_ (cond : Node) (whens : Whens) (else_ : Node)
  | caseN (whens : Whens) (else_ : Node)
  | begin_ (body : Node) (rescues : Rescues) (else_ ensure : OptNode)

/-- `Vec<Node>`. -/
inductive Nodes
  | nil
  | cons (n : Node) (ns : Nodes)

/-- `Vec<CaseBranch>`: labels and body of each `when`; `ruruby-parse/src/node.rs:160-164`. -/
inductive Whens
  | nil
  | cons (labels : Nodes) (body : Node) (rest : Whens)

/-- `Vec<RescueEntry>`: exception list, variable, body; `ruruby-parse/src/node.rs:175-181`. -/
inductive Rescues
  | nil
  | cons (exceptions : Nodes) (assign : Option Var) (body : Node) (rest : Rescues)

/-- `Option<Box<Node>>`. -/
inductive OptNode
  | none
  | some (n : Node)
end

/-- `Vec::len`. -/
def Nodes.length : Nodes → Nat
  | .nil => 0
  | .cons _ ns => ns.length + 1

/-- How many classes a rescue clause compares with. -/
def Nodes.excLen : Nodes → Nat
  | .nil => 1
  | .cons _ ns => ns.length + 1

/-- A `Vec<Node>` from a list. -/
def Nodes.of : List Node → Nodes
  | [] => .nil
  | n :: ns => .cons n (Nodes.of ns)

/-- `Vec::is_empty`. -/
def Rescues.isEmpty : Rescues → Bool
  | .nil => true
  | .cons .. => false

/-- `Option::is_some`. -/
def OptNode.isSome : OptNode → Bool
  | .none => false
  | .some _ => true

/-- `Node::is_empty`; `ruruby-parse/src/node.rs:322-327`. -/
def Node.isEmpty : Node → Bool
  | .seq .nil => true
  | _ => false

/-- `is_imm_i32`; `ruruby-parse/src/node.rs:743-753`. -/
def Node.is_imm_i32 : Node → Option (BitVec 32)
  | .lit (.int i) => if -2 ^ 31 ≤ i ∧ i ≤ 2 ^ 31 - 1 then some (BitVec.ofInt 32 i) else none
  | _ => none

/-- `is_imm_u32`; `ruruby-parse/src/node.rs:731-741`. -/
def Node.is_imm_u32 : Node → Option (BitVec 32)
  | .lit (.int i) => if 0 ≤ i ∧ i ≤ 2 ^ 32 - 1 then some (BitVec.ofInt 32 i) else none
  | _ => none

/-! ## Compiler state -/

/-- `ContextKind`; `ruruby-common/src/code_context.rs:4-10`. -/
inductive Kind | method | block | class_ | eval
  deriving DecidableEq, Repr

/-- The part of `Context` that is fixed while a body is compiled: its local variable table and kind;
`codegen.rs:1860-1868`. -/
structure Scope where
  table : List Id
  kind : Kind

/-- What a body is compiled in.

* `scopes`: `context_stack`, innermost first, without the `Context::new()` at the bottom
  (`codegen.rs:82-90`);
* `extern`: variable tables of `extern_context` (a binding), innermost first;
* `setter`: from a method name to the name with `=` appended (`codegen.rs:300, 403`);
* `standardError`: the identifier `StandardError`. -/
structure Ctx where
  scopes : List Scope
  extern : List (List Id)
  setter : Id → Id
  standardError : Id

/-- A value in the table of constants (`ConstantValues`; `globals.rs:527-545`): a number on the heap,
a string, or an array. -/
inductive Const | val (v : Val) | str (s : String) | arr (vs : List Val)
  deriving DecidableEq, Repr

/-- `EscapeKind`; `codegen.rs:1851-1855`. -/
inductive EK | brk | nxt
  deriving DecidableEq, Repr

/-- `LoopInfo`: `top` is `LoopState::Top`; `codegen.rs:1805-1836`. -/
structure Loop where
  top : Bool
  escape : List (Nat × EK)

/-- `LocalJumpDest`; `codegen.rs:1895-1915`. -/
structure JumpDest where
  has_ensure : Bool
  rets : List Nat
  mrets : List Nat

/-- `ExceptionEntry` of type `Rescue`; `code_context.rs:18-27`. -/
structure Entry where
  start : Nat
  stop : Nat
  dest : Nat
  deriving DecidableEq, Repr

/-- `ExceptionEntry::include`; `code_context.rs:67-69`. -/
def Entry.include (en : Entry) (pc : Nat) : Bool := decide (en.start < pc) && decide (pc ≤ en.stop)

/-- An entry of `case_dispatch`: label and displacement in the order of insertion;
`globals.rs:567-593`. -/
abbrev CaseMap := List (Lit × BitVec 32)

/-- An entry of `case_dispatch2`: least label, greatest label, displacement for each integer in
between; `globals.rs:600-623`. -/
abbrev CaseMap2 := Int × Int × List (BitVec 32)

/-- State of the compiler.

* `code`: the sequence under construction;
* `consts`, `case1`, `case2`, `caches`: the tables in `Globals` the code refers to by index (`none` in
  the case tables: allocated by `new_entry`, not filled yet);
* `loops`: `loop_stack`, innermost first;
* `jumps`, `ex`: `jump_dest` (innermost first) and `exception_table` of the innermost `Context`. -/
structure G where
  code : Code
  consts : List Const
  case1 : List (Option CaseMap)
  case2 : List (Option CaseMap2)
  caches : Nat
  loops : List Loop
  jumps : List JumpDest
  ex : List Entry

/-- Compile-time errors (and panics). -/
inductive Err | invalidBreak | invalidNext | undefinedLocal | panic
  deriving DecidableEq, Repr

/-- Compiling is a state transformer that may fail. -/
abbrev M (α : Type) := G → Except Err (α × G)

/-- `;` / `?` of Rust. -/
instance : Monad M where
  pure a := fun g => .ok (a, g)
  bind x f := fun g => match x g with
    | .ok (a, g') => f a g'
    | .error e => .error e

/-- Give up with an error. -/
def failM {α} (e : Err) : M α := fun _ => .error e

/-- Emit an instruction. -/
def emitM (op : Byte) (args : List Operand) : M Unit :=
  fun g => .ok ((), { g with code := emit g.code op args })

/-- `ISeq::current`; `vm/iseq.rs:125-127`. -/
def curM : M Nat := fun g => .ok (g.code.length, g)

/-- `gen_jmp`, `gen_jmp_if_t`, `gen_jmp_if_f`: emit with a hole and return the position behind;
`vm/iseq.rs:262-280`. -/
def jumpM (op : Byte) : M Nat :=
  fun g => let (c, p) := gen_jump g.code op; .ok (p, { g with code := c })

/-- `gen_jmp_back`; `vm/iseq.rs:276-280`. -/
def jmpBackM (pos : Nat) : M Unit := fun g => .ok ((), { g with code := gen_jmp_back g.code pos })

/-- `write_disp`; `vm/iseq.rs:156-166`. -/
def patchM (src dest : Nat) : M Unit := fun g => .ok ((), { g with code := write_disp g.code src dest })

/-- `write_disp_from_cur`; `vm/iseq.rs:150-153`. -/
def patchCurM (src : Nat) : M Unit :=
  fun g => .ok ((), { g with code := write_disp_from_cur g.code src })

/-- `for src in list { iseq.write_disp_from_cur(src) }`. -/
def patchAllM : List Nat → M Unit
  | [] => pure ()
  | s :: ss => do patchCurM s; patchAllM ss

/-- A `u32` operand from a `usize` (`as u32`). -/
def u32 (n : Nat) : Operand := .o32 (BitVec.ofNat 32 n)

/-- `if use_value { … }` and `if !use_value { … }`. -/
def whenM (b : Bool) (x : M Unit) : M Unit := if b then x else pure ()

/-- `gen_push_nil`; `vm/iseq.rs:169-171`. -/
def pushNil : M Unit := emitM PUSH_NIL []
/-- `gen_push_self`; `vm/iseq.rs:173-175`. -/
def pushSelf : M Unit := emitM PUSH_SELF []
/-- `gen_pop`; `vm/iseq.rs:177-179`. -/
def pop : M Unit := emitM POP []
/-- `gen_dup`; `vm/iseq.rs:181-184`. -/
def dup (n : Nat) : M Unit := emitM DUP [u32 n]
/-- `gen_sinkn`; `vm/iseq.rs:186-189`. -/
def sinkn (n : Nat) : M Unit := emitM SINKN [u32 n]
/-- `gen_take`; `vm/iseq.rs:196-199`. -/
def take (n : Nat) : M Unit := emitM TAKE [u32 n]
/-- `gen_val`; `vm/iseq.rs:206-209`. -/
def genVal (w : BitVec 64) : M Unit := emitM PUSH_VAL [.o64 w]
/-- `gen_create_array`; `vm/iseq.rs:253-256`. -/
def createArray (n : Nat) : M Unit := emitM CREATE_ARRAY [u32 n]

/-- `gen_const_val` with `ConstantValues::insert`; `vm/iseq.rs:211-218`, `globals.rs:536-540`. -/
def genConst (v : Const) : M Unit := fun g =>
  if g.consts.length ≤ 2 ^ 32 - 1 then
    emitM CONST_VAL [u32 g.consts.length] { g with consts := g.consts ++ [v] }
  else .error .panic

/-- `gen_integer`, `gen_float`: packed values as immediates, others as constants;
`vm/iseq.rs:220-236`. -/
def genNum (v : Val) : M Unit :=
  match v with
  | .word w => genVal w
  | v => genConst (.val v)

/-- The packed word of a value known to be packed (booleans, symbols). -/
def wordOf : Val → BitVec 64
  | .word w => w
  | _ => 0

/-- Literals in value position; `codegen.rs:612-634`. -/
def genLit : Lit → M Unit
  | .nil => pushNil
  | .bool b => genVal (wordOf (Value.bool b))
  | .int i => genNum (Value.integer i)
  | .big n => genConst (.val (Value.bignum n))
  | .flt b => genNum (Value.float b)
  | .str s => genConst (.str s)
  | .sym id => genVal (wordOf (Value.symbol id))

/-- `const_expr` of a literal that is not a string; `codegen.rs:1776-1792`. -/
def Lit.value : Lit → Val
  | .nil => Value.nil
  | .bool b => Value.bool b
  | .int i => Value.integer i
  | .big n => Value.bignum n
  | .flt b => Value.float b
  | .str _ => Value.nil
  | .sym id => Value.symbol id

/-- An array of literals in value position; `codegen.rs:722-731`. -/
def genCArray (l : List Lit) : M Unit :=
  if l.isEmpty then createArray 0 else genConst (.arr (l.map Lit.value))

/-- The literals that emit nothing in statement position (not `Bignum`!); `codegen.rs:597-609`. -/
def Lit.silent : Lit → Bool
  | .big _ => false
  | _ => true

/-! ## Variables -/

/-- `LvarTable::get_lvarid`; `ruruby-common/src/lvar_collector.rs:174-176`. -/
def get_lvarid (t : List Id) (id : Id) : Option Nat := t.findIdx? (· == id)

/-- The second loop of `get_local_var`: up the frames of the binding; `codegen.rs:1692-1699`. -/
def externVar : List (List Id) → Nat → Id → Option (Nat × Nat)
  | [], _, _ => none
  | t :: ts, idx, id =>
    match get_lvarid t id with
    | some j => some (idx, j)
    | none => externVar ts (idx + 1) id

/-- The first loop of `get_local_var`; `i` counts the contexts; `idx` is the last one
visited; `codegen.rs:1681-1691`. -/
def scopeVar : List Scope → List (List Id) → (i idx : Nat) → Id → Option (Nat × Nat)
  | [], ext, _, idx, id => externVar ext idx id
  | s :: ss, ext, i, _, id =>
    match get_lvarid s.table id with
    | some j => some (i, j)
    | none => if s.kind = .method then none else scopeVar ss ext (i + 1) i id

/-- `Context::new()`, at the bottom of `context_stack`; `codegen.rs:82-90, 1870-1880`. -/
def bottom : Scope := ⟨[], .eval⟩

/-- `get_local_var`: how many scopes out, and the slot there; `codegen.rs:1681-1700`. -/
def get_local_var (x : Ctx) (id : Id) : Option (Nat × Nat) :=
  scopeVar (x.scopes ++ [bottom]) x.extern 0 0 id

/-- `emit_set_local`; `codegen.rs:1637-1650`. -/
def emitSetLocal (x : Ctx) (id : Id) : M Unit :=
  match get_local_var x id with
  | none => failM .panic
  | some (outer, j) =>
    if outer = 0 then emitM SET_LOCAL [u32 j] else emitM SET_DYNLOCAL [u32 j, u32 outer]

/-- `emit_get_local`; `codegen.rs:1652-1666`. -/
def emitGetLocal (x : Ctx) (id : Id) : M Unit :=
  match get_local_var x id with
  | none => failM .undefinedLocal
  | some (outer, j) =>
    if outer = 0 then emitM GET_LOCAL [u32 j] else emitM GET_DYNLOCAL [u32 j, u32 outer]

/-- Reading a variable; `codegen.rs:767-778, 800-805`. -/
def emitGetVar (x : Ctx) : Var → M Unit
  | .lvar id => emitGetLocal x id
  | .ivar id => emitM GET_IVAR [.o32 id]
  | .gvar id => emitM GET_GVAR [.o32 id]

/-- `gen_assign` for variables (value on the stack); `codegen.rs:262-277`. -/
def emitSetVar (x : Ctx) : Var → M Unit
  | .lvar id => emitSetLocal x id
  | .ivar id => emitM SET_IVAR [.o32 id]
  | .gvar id => emitM SET_GVAR [.o32 id]

/-- `for lhs in mlhs.into_iter().rev() { gen_assign(lhs) }`; `codegen.rs:1317-1319`. -/
def emitSetVars (x : Ctx) : List Var → M Unit
  | [] => pure ()
  | v :: vs => do emitSetVar x v; emitSetVars x vs

/-- `emit_opt_send`; `codegen/send.rs:137-160`.  `block` is 0 if there is none (`push_method`, `iseq.rs:145-150`). -/
def emitOptSend (method : Id) (args : Nat) (use_value : Bool) (block : BitVec 32 := 0) : M Unit := fun g =>
  emitM (if use_value then OPT_SEND else OPT_SEND_N)
    [.o32 method, .o16 (BitVec.ofNat 16 args), .o32 block, u32 g.caches] { g with caches := g.caches + 1 }

/-- `emit_yield`; `codegen.rs:1626-1630`. -/
def emitYield (n : Nat) : M Unit := emitM YIELD [u32 n]

/-! ## Operators -/

/-- Opcode of a comparison; `codegen.rs:857-872`. -/
def CmpOp.op : CmpOp → Byte
  | .eq => EQ | .ne => NE | .gt => GT | .ge => GE | .lt => LT | .le => LE
/-- … with an immediate operand. -/
def CmpOp.opI : CmpOp → Byte
  | .eq => EQI | .ne => NEI | .gt => GTI | .ge => GEI | .lt => LTI | .le => LEI
/-- … fused with a conditional jump; `codegen.rs:561-570`. -/
def CmpOp.jf : CmpOp → Byte
  | .eq => JMP_F_EQ | .ne => JMP_F_NE | .gt => JMP_F_GT | .ge => JMP_F_GE | .lt => JMP_F_LT | .le => JMP_F_LE
/-- … fused and with an immediate operand; `codegen.rs:545-555`. -/
def CmpOp.jfI : CmpOp → Byte
  | .eq => JMP_F_EQI | .ne => JMP_F_NEI | .gt => JMP_F_GTI | .ge => JMP_F_GEI | .lt => JMP_F_LTI
  | .le => JMP_F_LEI

/-- Opcode of an operator; `codegen.rs:844-872`. -/
def BinOp.op : BinOp → Byte
  | .add => ADD | .sub => SUB | .mul => MUL | .div => DIV | .exp => POW | .rem => REM | .shr => SHR
  | .shl => SHL | .bor => BOR | .band => BAND | .bxor => BXOR | .teq => TEQ | .cmp => CMP
  | .c o => o.op

/-- The operators with an immediate form (`binop_imm!`); `codegen.rs:844-872`. -/
def BinOp.opI : BinOp → Option Byte
  | .add => some ADDI
  | .sub => some SUBI
  | .c o => some o.opI
  | _ => none

/-- `binop!` / `binop_imm!`; `codegen.rs:823-843`.  `imm` is `rhs.is_imm_i32()`. -/
def genBin (op : BinOp) (imm : Option (BitVec 32)) (lhs rhs : M Unit) : M Unit :=
  match op.opI, imm with
  | some opI, some i => do lhs; emitM opI [.o32 i]
  | _, _ => do lhs; rhs; emitM op.op []

/-- `gen_jmp_if_false` for a comparison; `codegen.rs:541-577`. -/
def genJFCmp (o : CmpOp) (imm : Option (BitVec 32)) (lhs rhs : M Unit) : M Nat := do
  lhs
  match imm with
  | some i => emitM o.jfI [.o32 i, .o32 0]
  | none => do rhs; emitM o.jf [.o32 0]
  curM

/-- `gen_jmp_if_false` for other conditions; `codegen.rs:578-582`. -/
def genJF (cond : M Unit) : M Nat := do
  cond
  jumpM JMP_F

/-! ## Loops, `return`, `case` -/

/-- `self.loop_stack.push(LoopInfo::new_loop())`. -/
def pushLoop : M Unit := fun g => .ok ((), { g with loops := ⟨false, []⟩ :: g.loops })

/-- `self.loop_stack.pop().unwrap().escape`. -/
def popLoop : M (List (Nat × EK)) := fun g =>
  match g.loops with
  | [] => .error .panic
  | l :: ls => .ok (l.escape, { g with loops := ls })

/-- The loop that resolves `break` and `next`; `codegen.rs:1034-1041`. -/
def patchEscapes (loop_start : Nat) : List (Nat × EK) → M Unit
  | [] => pure ()
  | (p, .brk) :: es => do patchCurM p; patchEscapes loop_start es
  | (p, .nxt) :: es => do patchM p loop_start; patchEscapes loop_start es

/-- `x.escape.push(EscapeInfo::new(src, kind))`; `codegen.rs:1537-1539`. -/
def addEscape (src : Nat) (k : EK) : M Unit := fun g =>
  match g.loops with
  | [] => .error .panic
  | l :: ls => .ok ((), { g with loops := { l with escape := l.escape ++ [(src, k)] } :: ls })

/-- `self.context().kind`. -/
def Ctx.kind (x : Ctx) : Option Kind := x.scopes.head?.map (·.kind)

/-- `Break`; `codegen.rs:1516-1540`. -/
def genBreak (x : Ctx) (val : M Unit) : M Unit := fun g =>
  match g.loops with
  | [] => .error .panic
  | l :: _ =>
    (if l.top then
      match x.kind with
      | some .block => do val; emitM BREAK []
      | _ => failM .invalidBreak
    else do
      val
      let src ← jumpM JMP
      addEscape src .brk) g

/-- `Next`; `codegen.rs:1541-1566`.  Outside a loop the value is always computed, inside only if
used. -/
def genNext (x : Ctx) (valT valU : M Unit) : M Unit := fun g =>
  match g.loops with
  | [] => .error .panic
  | l :: _ =>
    (if l.top then
      match x.kind with
      | some .block => do valT; emitM RETURN []
      | _ => failM .invalidNext
    else do
      valU
      let src ← jumpM JMP
      addEscape src .nxt) g

/-- The tail of `Return` after the value: through the `ensure` of the innermost `begin` if it has one;
`codegen.rs:1492-1515`. -/
def genRet (x : Ctx) : M Unit := fun g =>
  match g.jumps with
  | d :: ds =>
    if d.has_ensure then
      match jumpM JMP g with
      | .error e => .error e
      | .ok (dest, g) =>
        .ok ((), { g with jumps :=
          (if x.kind = some .block then { d with mrets := d.mrets ++ [dest] }
           else { d with rets := d.rets ++ [dest] }) :: ds })
    else emitM (if x.kind = some .block then MRETURN else RETURN) [] g
  | [] => emitM (if x.kind = some .block then MRETURN else RETURN) [] g

/-- All labels, in order. -/
def Whens.labels : Whens → List Node
  | .nil => []
  | .cons ls _ rest => toList ls ++ rest.labels
where
  toList : Nodes → List Node
  | .nil => []
  | .cons n ns => n :: toList ns

/-- A literal label. -/
def Node.lit? : Node → Option Lit
  | .lit l => some l
  | _ => none

/-- An integer label. -/
def Node.int? : Node → Option Int
  | .lit (.int i) => some i
  | _ => none

/-- `opt_flag`: all labels are literals; `codegen.rs:1173-1206`. -/
def Whens.allLit (ws : Whens) : Bool := ws.labels.all fun n => n.lit?.isSome

/-- `opt_flag && opt_flag2`: all labels are integers. -/
def Whens.allInt (ws : Whens) : Bool := ws.labels.all fun n => n.int?.isSome

/-- `opt_min`, `opt_max`; `codegen.rs:1178-1189`. -/
def Whens.bounds (ws : Whens) : Int × Int :=
  (ws.labels.filterMap Node.int?).foldl
    (fun (lo, hi) i => (if i < lo then i else lo, if i > hi then i else hi)) (2 ^ 63 - 1, -2 ^ 63)

/-- `map.insert(i, disp)` for the labels of one branch. -/
def labelDisps (ls : Nodes) (d : BitVec 32) : CaseMap :=
  (Whens.labels.toList ls).filterMap fun n => n.lit?.map fun l => (l, d)

/-- The displacement table of `OPT_CASE2`: the default everywhere, overwritten by the entries in the order
of insertion (`FxHashMap::insert` replaces); `codegen.rs:1225-1231`. -/
def caseVec (lo hi : Int) (m : CaseMap) (default : BitVec 32) : List (BitVec 32) :=
  m.foldl (fun v (l, d) => match l with
    | .int i => v.set (i - lo).toNat d
    | _ => v) (List.replicate (hi - lo + 1).toNat default)

/-- `case_dispatch.new_entry()` and `gen_opt_case`; `globals.rs:580-584`, `vm/iseq.rs:304-309`. -/
def newCase1 : M (Nat × Nat) := fun g =>
  let id := g.case1.length
  match emitM OPT_CASE [u32 id, .o32 0] { g with case1 := g.case1 ++ [none] } with
  | .ok (_, g) => .ok ((id, g.code.length), g)
  | .error e => .error e

/-- `case_dispatch2.new_entry()` and `gen_opt_case2`; `globals.rs:610-614`, `vm/iseq.rs:311-316`. -/
def newCase2 : M (Nat × Nat) := fun g =>
  let id := g.case2.length
  match emitM OPT_CASE2 [u32 id, .o32 0] { g with case2 := g.case2 ++ [none] } with
  | .ok (_, g) => .ok ((id, g.code.length), g)
  | .error e => .error e

/-- Fill the map of an `OPT_CASE`.  The code inserts the labels of a branch before it compiles the body;
here all are inserted at the end, which leaves the same map. -/
def setCase1 (id : Nat) (m : CaseMap) : M Unit :=
  fun g => .ok ((), { g with case1 := g.case1.set id (some m) })

/-- Fill the table of an `OPT_CASE2`; `codegen.rs:1225-1232`. -/
def setCase2 (id : Nat) (m : CaseMap2) : M Unit :=
  fun g => .ok ((), { g with case2 := g.case2.set id (some m) })

/-- `if let Some(next) = next { iseq.write_disp_from_cur(next) }`. -/
def patchOpt : Option Nat → M Unit
  | none => pure ()
  | some p => patchCurM p

/-! ## `begin` -/

/-- `push_jump_dest`; `codegen.rs:120-124`. -/
def pushJumpDest (has_ensure : Bool) : M Unit :=
  fun g => .ok ((), { g with jumps := ⟨has_ensure, [], []⟩ :: g.jumps })

/-- `pop_jump_dest`; `codegen.rs:126-128`. -/
def popJumpDest : M JumpDest := fun g =>
  match g.jumps with
  | [] => .error .panic
  | d :: ds => .ok (d, { g with jumps := ds })

/-- `push_ex_rescue`; `codegen.rs:130-134`. -/
def pushEx (start stop dest : Nat) : M Unit :=
  fun g => .ok ((), { g with ex := g.ex ++ [⟨start, stop, dest⟩] })

/-- The code for `return` inside a `begin` with `ensure`: one copy of the clause for `RETURN`, one for
`MRETURN`; `codegen.rs:1128-1154`. -/
def genReturnPaths (jd : JumpDest) (ensure : M Unit) : M Unit :=
  if jd.rets.isEmpty && jd.mrets.isEmpty then pure ()
  else do
    let ensure_label ← jumpM JMP
    patchAllM jd.rets
    if jd.rets.isEmpty then pure () else do
      ensure
      emitM RETURN []
    patchAllM jd.mrets
    if jd.mrets.isEmpty then pure () else do
      ensure
      emitM MRETURN []
    patchCurM ensure_label

/-! ## Multiple assignment -/

/-- `for _ in 0..n { … }`. -/
def repeatM : Nat → M Unit → M Unit
  | 0, _ => pure ()
  | n + 1, act => do act; repeatM n act

/-- The rest of `MulAssign` after the right-hand sides; `codegen.rs:1327-1355`. -/
def genManyTail (x : Ctx) (mlhs : List Var) (mrhs_len : Nat) (uv : Bool) : M Unit := do
  if uv then do
    let len := max mlhs.length mrhs_len
    repeatM (len - mrhs_len) pushNil
    dup len
    repeatM (len - mlhs.length) pop
    emitSetVars x mlhs.reverse
    createArray len
  else do
    repeatM (mlhs.length - mrhs_len) pushNil
    emitSetVars x mlhs.reverse

/-! ## The compiler -/

mutual
/-- `gen`; `codegen.rs:585-1614`. -/
def gen (x : Ctx) : Node → (use_value : Bool) → M Unit
  | .lit l, uv => if !uv && l.silent then pure () else genLit l
  | .self, uv => if !uv then pure () else pushSelf
  | .lvar id, uv => do emitGetLocal x id; whenM (!uv) pop
  | .ivar id, uv => do emitM GET_IVAR [.o32 id]; whenM (!uv) pop
  | .gvar id, uv => do emitM GET_GVAR [.o32 id]; whenM (!uv) pop
  | .ident id, uv => do pushSelf; emitOptSend id 0 uv
  | .binop op lhs rhs, uv => do
    genBin op rhs.is_imm_i32 (gen x lhs true) (gen x rhs true)
    whenM (!uv) pop
  | .land lhs rhs, uv => do
    gen x lhs true
    whenM uv (dup 1)
    let src ← jumpM JMP_F
    whenM uv pop
    gen x rhs uv
    patchCurM src
  | .lor lhs rhs, uv => do
    gen x lhs true
    whenM uv (dup 1)
    let src ← jumpM JMP_T
    whenM uv pop
    gen x rhs uv
    patchCurM src
  | .unop op e, uv => do
    gen x e true
    match op with
    | .bitnot => emitM BNOT []
    | .not => emitM NOT []
    | .neg => emitM NEG []
    | .pos => pure ()
    whenM (!uv) pop
  | .array elems, uv => do
    genAll x elems
    createArray elems.length
    whenM (!uv) pop
  | .carray elems, uv => if !uv then pure () else genCArray elems
  | .range start stop excl, uv => do
    genVal (wordOf (Value.bool excl))
    gen x stop true
    gen x start true
    emitM CREATE_RANGE []
    whenM (!uv) pop
  | .index base idx, uv => do
    gen x base true
    match idx.is_imm_u32 with
    | some u => emitM GET_IDX_I [.o32 u]
    | none => do gen x idx true; emitM GET_INDEX []
    whenM (!uv) pop
  | .seq nodes, uv => genSeq x nodes uv
  | .ite cond then_ else_, uv => do
    let src1 ← (match cond with
      | .binop (.c o) l r => genJFCmp o r.is_imm_i32 (gen x l true) (gen x r true)
      | c => genJF (gen x c true))
    gen x then_ uv
    if uv then do
      let src2 ← jumpM JMP
      patchCurM src1
      gen x else_ true
      patchCurM src2
    else if else_.isEmpty then patchCurM src1
    else do
      let src2 ← jumpM JMP
      patchCurM src1
      gen x else_ false
      patchCurM src2
  | .while_ cond body cond_op, uv => do
    pushLoop
    let loop_start ← curM
    let src ← (if cond_op then
        (match cond with
        | .binop (.c o) l r => genJFCmp o r.is_imm_i32 (gen x l true) (gen x r true)
        | c => genJF (gen x c true))
      else do
        gen x cond true
        jumpM JMP_T)
    gen x body false
    jmpBackM loop_start
    patchCurM src
    whenM uv pushNil
    let src ← jumpM JMP
    let esc ← popLoop
    patchEscapes loop_start esc
    whenM (!uv) pop
    patchCurM src
  | .brk val, _ => genBreak x (gen x val true)
  | .nxt val, uv => genNext x (gen x val true) (gen x val uv)
  | .ret val, _ => do gen x val true; genRet x
  | .assign t rhs, uv => do
    gen x rhs true
    whenM uv (dup 1)
    emitSetVar x t
  | .opassign op t rhs, uv => do
    genBin op rhs.is_imm_i32 (emitGetVar x t) (gen x rhs true)
    whenM uv (dup 1)
    emitSetVar x t
  | .assignIdx base idx rhs, uv => do
    gen x base true
    match idx.is_imm_u32 with
    | some u => do
      gen x rhs true
      whenM uv (do dup 1; sinkn 2)
      emitM SET_IDX_I [.o32 u]
    | none => do
      gen x idx true
      gen x rhs true
      whenM uv (do dup 1; sinkn 3)
      emitM SET_INDEX []
  | .attrAssign recv m rhs, uv => do
    gen x recv true
    gen x rhs true
    emitOptSend (x.setter m) 1 uv
  | .massign mlhs mrhs, uv => genMassign x mlhs mrhs uv
  | .send recv m args, uv => do
    gen x recv true
    genAll x args
    emitOptSend m args.length uv
  | .sendB recv m args b, uv => do
    gen x recv true
    genAll x args
    emitOptSend m args.length uv b
  | .yield_ args, uv => do
    genAll x args
    emitYield args.length
    whenM (!uv) pop
  | .case_ cond whens else_, uv => do
    gen x cond true
    if whens.allInt then do
      let (id, start) ← newCase2
      let (map, ends) ← genTable x whens start uv
      let default := dispTo start (← curM)
      let (lo, hi) := whens.bounds
      setCase2 id (lo, hi, caseVec lo hi map default)
      patchCurM start
      gen x else_ uv
      patchAllM ends
    else if whens.allLit then do
      let (id, start) ← newCase1
      let (map, ends) ← genTable x whens start uv
      setCase1 id map
      patchCurM start
      gen x else_ uv
      patchAllM ends
    else do
      let (next, ends) ← genWhens x whens none uv
      patchOpt next
      pop
      gen x else_ uv
      patchAllM ends
  | .caseN whens else_, uv => do
    let ends ← genCondWhens x whens uv
    gen x else_ uv
    patchAllM ends
  | .begin_ body rescues else_ ensure, uv => do
    let body_start ← curM
    pushJumpDest ensure.isSome
    gen x body uv
    let jd ← popJumpDest
    let body_end ← curM
    if rescues.isEmpty then do
      genElse x else_ uv
      genReturnPaths jd (genOpt x ensure)
    else do
      let else_dest ← jumpM JMP
      let dest ← curM
      let (prev, ends) ← genRescues x rescues none uv
      patchOpt prev
      genOpt x ensure
      emitM THROW []
      patchCurM else_dest
      genElse x else_ uv
      genReturnPaths jd (genOpt x ensure)
      patchAllM ends
      pushEx body_start body_end dest
    genOpt x ensure

/-- `for node in nodes { gen(node, true) }`. -/
def genAll (x : Ctx) : Nodes → M Unit
  | .nil => pure ()
  | .cons n ns => do gen x n true; genAll x ns

/-- `gen_comp_stmt`; `codegen.rs:464-487`. -/
def genSeq (x : Ctx) : Nodes → (use_value : Bool) → M Unit
  | .nil, uv => whenM uv pushNil
  | .cons n .nil, uv => gen x n uv
  | .cons n (.cons m ns), uv => do
    gen x n false
    genSeq x (.cons m ns) uv

/-- `for (i, node) in mrhs.enumerate() { gen(node, i < mlhs.len()) }`; `codegen.rs:1324-1326`. -/
def genFirst (x : Ctx) : Nodes → Nat → M Unit
  | .nil, _ => pure ()
  | .cons n ns, k => do
    gen x n (decide (0 < k))
    genFirst x ns (k - 1)

/-- `MulAssign`; `codegen.rs:1304-1357`. -/
def genMassign (x : Ctx) (mlhs : List Var) : (mrhs : Nodes) → (use_value : Bool) → M Unit
  | .cons n .nil, uv =>
    match mlhs with
    | [t] => do
      gen x n true
      whenM uv (dup 1)
      emitSetVar x t
    | _ => do
      gen x n true
      whenM uv (dup 1)
      take mlhs.length
      emitSetVars x mlhs.reverse
  | .nil, uv => genManyTail x mlhs 0 uv
  | .cons n (.cons m ns), uv => do
    if uv then do
      gen x n true
      genAll x (.cons m ns)
    else do
      gen x n (decide (0 < mlhs.length))
      genFirst x (.cons m ns) (mlhs.length - 1)
    genManyTail x mlhs (ns.length + 2) uv

/-- Branches of a table-driven `case`: the labels with the displacement of the body from the end of the
dispatch instruction, and the jumps to the end; `codegen.rs:1211-1223, 1240-1258`. -/
def genTable (x : Ctx) : Whens → (start : Nat) → (use_value : Bool) → M (CaseMap × List Nat)
  | .nil, _, _ => pure ([], [])
  | .cons ls body rest, start, uv => do
    let disp := dispTo start (← curM)
    gen x body uv
    let e ← jumpM JMP
    let (map, ends) ← genTable x rest start uv
    pure (labelDisps ls disp ++ map, e :: ends)

/-- Labels of one branch of a general `case`; `codegen.rs:1271-1279`. -/
def genLabels (x : Ctx) : Nodes → M (List Nat)
  | .nil => pure []
  | .cons n ns => do
    dup 1
    gen x n true
    sinkn 1
    emitM TEQ []
    let j ← jumpM JMP_T
    let js ← genLabels x ns
    pure (j :: js)

/-- Branches of a general `case`; `codegen.rs:1261-1287`. -/
def genWhens (x : Ctx) : Whens → (next : Option Nat) → (use_value : Bool) → M (Option Nat × List Nat)
  | .nil, next, _ => pure (next, [])
  | .cons ls body rest, next, uv => do
    patchOpt next
    let js ← genLabels x ls
    let nx ← jumpM JMP
    patchAllM js
    pop
    gen x body uv
    let e ← jumpM JMP
    let (next, ends) ← genWhens x rest (some nx) uv
    pure (next, e :: ends)

/-- Conditions of one branch of a `case` without subject; `codegen.rs:1307-1312`. -/
def genConds (x : Ctx) : Nodes → M (List Nat)
  | .nil => pure []
  | .cons n ns => do
    gen x n true
    let j ← jumpM JMP_F
    let js ← genConds x ns
    pure (j :: js)

/-- Branches of a `case` without subject; `codegen.rs:1304-1321`. -/
def genCondWhens (x : Ctx) : Whens → (use_value : Bool) → M (List Nat)
  | .nil, _ => pure []
  | .cons ls body rest, uv => do
    let js ← genConds x ls
    gen x body uv
    let e ← jumpM JMP
    patchAllM js
    let ends ← genCondWhens x rest uv
    pure (e :: ends)

/-- The exception list of a rescue clause, or the constant `StandardError`; `codegen.rs:1075-1082`. -/
def genExcs (x : Ctx) : Nodes → M Unit
  | .nil => emitM GET_CONST_TOP [.o32 x.standardError]
  | .cons n ns => do gen x n true; genAll x ns

/-- Rescue clauses; `codegen.rs:1071-1106`. -/
def genRescues (x : Ctx) : Rescues → (prev : Option Nat) → (use_value : Bool) → M (Option Nat × List Nat)
  | .nil, prev, _ => pure (prev, [])
  | .cons excs assign body rest, prev, uv => do
    patchOpt prev
    dup 1
    genExcs x excs
    emitM RESCUE [u32 excs.excLen]
    let p ← jumpM JMP_F
    match assign with
    | some t => emitSetVar x t
    | none => pop
    gen x body uv
    let e ← jumpM JMP
    let (prev, ends) ← genRescues x rest (some p) uv
    pure (prev, e :: ends)

/-- The `else` clause of a `begin`; `codegen.rs:1121-1127`. -/
def genElse (x : Ctx) : OptNode → (use_value : Bool) → M Unit
  | .none, _ => pure ()
  | .some n, uv => do whenM uv pop; gen x n uv

/-- The `ensure` clause, which never leaves a value. -/
def genOpt (x : Ctx) : OptNode → M Unit
  | .none => pure ()
  | .some n => gen x n false
end

/-- `gen_iseq` without parameters: the body with its value, `RETURN`, and then `optimize`;
`codegen.rs:143-240`.  `fuel`: see `Verif.ISeq.chase`. -/
def gen_iseq (x : Ctx) (node : Node) : M Unit := do
  gen x node true
  emitM RETURN []

/-- The compiler state at the start of a body: the tables in `Globals` are whatever earlier
compilations left; `codegen.rs:82-90, 155-165, 989, 1576`. -/
def G.start (consts : List Const) (case1 : List (Option CaseMap)) (case2 : List (Option CaseMap2))
    (caches : Nat) : G := ⟨[], consts, case1, case2, caches, [⟨true, []⟩], [], []⟩

end Verif.Codegen
