import Verif.Codegen.Model
import Verif.ISeq.Machine
/-!
# The interpreter on the compiler's output

Models the instructions of `run_context_main` (`vm/executor/opt_core.rs:14-600`) that the modelled part
of the compiler emits, and the search of the exception table in `run_loop`
(`vm/executor.rs:378-460`), for one frame.  What an operator, a call or an allocation does to values and
to the heap is a parameter (`World`).
-/
namespace Verif.Codegen
open Verif.ISeq Op
open Verif.Value (Val)

/-- What a running body can change: the local variables of its frame and of the frames around it
(`lfp[id]`, `get_dyn_local(outer)[id]`; `opt_core.rs:232-257`, by level and slot), and everything else
(heap, globals, output). -/
structure St (W : Type) where
  locals : Nat → Nat → Val
  w : W

variable {W X : Type}

/-- Result of an operation: a value or an exception, and the new state. -/
abbrev Eff (W X α : Type) := Except X α × St W

/-- The meaning of operators, calls and allocation.  All of them may run user code and so may change
the local variables of this frame (through a closure) and everything else.  A call that returns is one
step; calls that never return are not covered.

The `…_eq` fields are assumptions on the interpreter: an instruction with an immediate operand does what
the general instruction does with the number as operand (`ops.rs:9-60, 252-304, 453-597`), and an
exception re-raised by `THROW` is rescued as the same object (`globals.rs:215-218`,
`executor.rs:441-444`). -/
structure World (W X : Type) where
  /-- `invoke_add`, …, `invoke_teq`, `invoke_compare`; `ops.rs`. -/
  bin : BinOp → Val → Val → St W → Eff W X Val
  /-- `invoke_addi`, `invoke_subi`; `ops.rs:9-28`. -/
  binI : BinOp → Val → BitVec 32 → St W → Eff W X Val
  /-- `eval_eq`, …, `eval_le`; `ops.rs:252-288, 436-450`. -/
  cmp : CmpOp → Val → Val → St W → Eff W X Bool
  /-- `eval_eqi`, …, `eval_lei`; `ops.rs:289-304, 453-478`. -/
  cmpI : CmpOp → Val → BitVec 32 → St W → Eff W X Bool
  /-- `invoke_neg`, `invoke_bitnot` (and what `+v` should do); `ops.rs:225-250`. -/
  un : UnOp → Val → St W → Eff W X Val
  getI : Id → St W → Val
  setI : Id → Val → St W → St W
  getG : Id → St W → Val
  setG : Id → Val → St W → St W
  /-- A method call; `vm_fast_send`, `opt_core.rs:664-690`. -/
  send : Id → Val → List Val → St W → Eff W X Val
  /-- … with a block literal, given by its number. -/
  sendB : BitVec 32 → Id → Val → List Val → St W → Eff W X Val
  /-- `vm_yield`, `opt_core.rs:785-801`. -/
  yield_ : List Val → St W → Eff W X Val
  /-- `create_range` with start, end, exclude_end; `executor.rs:935-940`. -/
  range : Val → Val → Bool → St W → Eff W X Val
  /-- `invoke_get_index`, `invoke_get_index_imm`; `ops.rs:546-597`. -/
  index : Val → Val → St W → Eff W X Val
  indexI : Val → BitVec 32 → St W → Eff W X Val
  /-- `invoke_set_index`, `invoke_set_index_imm` (receiver, index, value); `ops.rs:495-544`. -/
  setIndex : Val → Val → Val → St W → Eff W X Unit
  setIndexI : Val → BitVec 32 → Val → St W → Eff W X Unit
  /-- `pop_args_to_array` without splats: a new array; `executor.rs:898-930`. -/
  mkArray : List Val → St W → Val × St W
  /-- The elements, if the value is an array. -/
  asArray : Val → St W → Option (List Val)
  /-- A fresh copy of a string literal (`shallow_dup`); `globals.rs:542-544`. -/
  newStr : String → St W → Val × St W
  /-- Whether a literal is the same hash key as a value (`HashKey`); `opt_core.rs:446-456`. -/
  keyEq : Lit → Val → St W → Bool
  /-- The exception object of an error; `executor.rs:441-444`, `globals.rs:215-290`. -/
  exc : X → St W → Val × St W
  /-- `RubyError::value()` with `globals.val`: the error `THROW` raises. -/
  thrown : Val → X
  /-- `eval_rescue`: does one of the classes match?  `executor.rs:555-590`. -/
  rescues : Val → List Val → St W → Bool
  /-- A constant of `Object`; `opt_core.rs:300-305`. -/
  constTop : Id → St W → Eff W X Val
  binI_eq : ∀ op, op.opI.isSome → ∀ v i σ, binI op v i σ = bin op v (Value.integer i.toInt) σ
  cmpI_eq : ∀ o v i σ, cmpI o v i σ = cmp o v (Value.integer i.toInt) σ
  indexI_eq : ∀ v i σ, indexI v i σ = index v (Value.integer i.toNat) σ
  setIndexI_eq : ∀ r i v σ, setIndexI r i v σ = setIndex r (Value.integer i.toNat) v σ
  exc_thrown : ∀ v σ, exc (thrown v) σ = (v, σ)

/-- A call; `block` is 0 if there is none. -/
def World.call (K : World W X) (block : BitVec 32) : Id → Val → List Val → St W → Eff W X Val :=
  if block = 0 then K.send else K.sendB block

/-- `Value::to_bool`; `value.rs:1237-1239`. -/
def truthy : Val → Bool
  | .word w => Value.to_bool w
  | _ => true

/-- `as_fixnum` on values; `value.rs:526-532`. -/
def fixnum? : Val → Option Int
  | .word w => Value.as_fixnum w
  | _ => none

/-- Everything fixed while a body runs: the world, `self`, and the tables the code refers to. -/
structure Env (W X : Type) where
  world : World W X
  self : Val
  ex : List Entry
  consts : List Const
  case1 : List (Option CaseMap)
  case2 : List (Option CaseMap2)

/-- State of the interpreter in one frame: operand stack of the frame (top first) and the rest.
Simplification: the stack does not overflow. -/
structure S (W : Type) where
  stack : List Val
  st : St W

/-- How a body ends: `RETURN`, `MRETURN`, `BREAK`, an exception nobody in this frame rescues; or
not at all well (`stuck`: operand stack underflow, bad operand). -/
inductive R (W X : Type)
  | ret (v : Val) (σ : St W)
  | mret (v : Val) (σ : St W)
  | brk (v : Val) (σ : St W)
  | err (x : X) (σ : St W)
  | stuck

/-- Update a local variable. -/
def St.set (σ : St W) (k j : Nat) (v : Val) : St W :=
  { σ with locals := fun k' j' => if k' = k ∧ j' = j then v else σ.locals k' j' }

/-- `run_loop` after an error with the program counter at `pc`: the first entry of the exception table
that includes it takes over with the exception object alone on the operand stack; otherwise the
frame is left; `executor.rs:425-458`, `frame.rs:669-677`. -/
def fail (K : Env W X) (pc : Nat) (x : X) (σ : St W) : Out (S W) (R W X) :=
  match K.ex.find? (·.include pc) with
  | some en => let (v, σ) := K.world.exc x σ; .goto en.dest ⟨[v], σ⟩
  | none => .halt (.err x σ)

/-- `dispatch!(…, true)`: push the value, or fail; `opt_core.rs:23-58`. -/
def pushE (K : Env W X) (pc : Nat) (st : List Val) : Eff W X Val → Out (S W) (R W X)
  | (.ok v, σ) => .next ⟨v :: st, σ⟩
  | (.error x, σ) => fail K pc x σ

/-- `dispatch!(…, false)`. -/
def dropE {α : Type} (K : Env W X) (pc : Nat) (st : List Val) : Eff W X α → Out (S W) (R W X)
  | (.ok _, σ) => .next ⟨st, σ⟩
  | (.error x, σ) => fail K pc x σ

/-- `cmp!`, `cmp_i!`; `opt_core.rs:60-76`. -/
def pushB (K : Env W X) (pc : Nat) (st : List Val) : Eff W X Bool → Out (S W) (R W X)
  | (.ok b, σ) => .next ⟨Value.bool b :: st, σ⟩
  | (.error x, σ) => fail K pc x σ

/-- Binary operator opcodes (not comparisons) and their meaning; `opt_core.rs:171-192, 203, 210`. -/
def binOf (op : Byte) : Option BinOp :=
  if op = ADD then some .add else if op = SUB then some .sub else if op = MUL then some .mul
  else if op = DIV then some .div else if op = REM then some .rem else if op = POW then some .exp
  else if op = SHR then some .shr else if op = SHL then some .shl else if op = BAND then some .band
  else if op = BOR then some .bor else if op = BXOR then some .bxor else if op = TEQ then some .teq
  else if op = CMP then some .cmp else none

/-- Comparison opcodes, plain and fused; `opt_core.rs:197-202, 430-435`. -/
def cmpOf (op : Byte) : Option CmpOp :=
  if op = EQ then some .eq else if op = NE then some .ne else if op = GT then some .gt
  else if op = GE then some .ge else if op = Op.LT then some .lt else if op = Op.LE then some .le else none

/-- … with immediate; `opt_core.rs:204-209`. -/
def cmpIOf (op : Byte) : Option CmpOp :=
  if op = EQI then some .eq else if op = NEI then some .ne else if op = GTI then some .gt
  else if op = GEI then some .ge else if op = LTI then some .lt else if op = LEI then some .le else none

/-- Fused with a jump; `opt_core.rs:430-435`. -/
def jfOf (op : Byte) : Option CmpOp :=
  if op = JMP_F_EQ then some .eq else if op = JMP_F_NE then some .ne else if op = JMP_F_GT then some .gt
  else if op = JMP_F_GE then some .ge else if op = JMP_F_LT then some .lt else if op = JMP_F_LE then some .le
  else none

/-- Fused with a jump, with immediate; `opt_core.rs:437-442`. -/
def jfIOf (op : Byte) : Option CmpOp :=
  if op = JMP_F_EQI then some .eq else if op = JMP_F_NEI then some .ne else if op = JMP_F_GTI then some .gt
  else if op = JMP_F_GEI then some .ge else if op = JMP_F_LTI then some .lt
  else if op = JMP_F_LEI then some .le else none

/-- Value of a constant: strings and arrays are copied (an array with its elements), numbers are immutable;
`globals.rs:542-544`, `value.rs:343-380`. -/
def constVal (K : Env W X) (σ : St W) : Const → Val × St W
  | .val v => (v, σ)
  | .str s => K.world.newStr s σ
  | .arr vs => K.world.mkArray vs σ

/-- The last entry inserted for a key that equals the value: what a hash table built by inserting in
order contains; `opt_core.rs:446-456`. -/
def lookup1 (K : Env W X) (σ : St W) (v : Val) (m : CaseMap) : Option (BitVec 32) :=
  (m.reverse.find? fun (l, _) => K.world.keyEq l v σ).map (·.2)

/-- `OPT_CASE2`; `opt_core.rs:457-474`. -/
def lookup2 (v : Val) (m : CaseMap2) (default : BitVec 32) : Option (BitVec 32) :=
  match fixnum? v with
  | some i => if m.1 ≤ i ∧ i ≤ m.2.1 then m.2.2[(i - m.1).toNat]? else some default
  | none => some default

/-- `TAKE`; `opt_core.rs:545-562`: the values pushed, last on top. -/
def takeVals (K : Env W X) (σ : St W) (v : Val) (n : Nat) : List Val :=
  match K.world.asArray v σ with
  | some vs => if n ≤ vs.length then vs.take n else vs ++ List.replicate (n - vs.length) Value.nil
  | none => v :: List.replicate (n - 1) Value.nil

/-- An ordinary instruction with its operands; `opt_core.rs:149-580`.  `pc`: the position of the
instruction; the program counter seen by a failing instruction is behind it, except for `THROW`. -/
def execOp (K : Env W X) (op : Byte) (args : List Operand) (pc : Nat) (s : S W) : Out (S W) (R W X) :=
  let w := K.world
  if op = PUSH_NIL then .next ⟨Value.nil :: s.stack, s.st⟩
  else if op = PUSH_SELF then .next ⟨K.self :: s.stack, s.st⟩
  else if op = POP then
    match s.stack with
    | _ :: st => .next ⟨st, s.st⟩
    | _ => .halt .stuck
  else if op = NOT then
    match s.stack with
    | v :: st => .next ⟨Value.bool (!truthy v) :: st, s.st⟩
    | _ => .halt .stuck
  else if op = NEG then
    match s.stack with
    | v :: st => pushE K (pc + 1) st (w.un .neg v s.st)
    | _ => .halt .stuck
  else if op = BNOT then
    match s.stack with
    | v :: st => pushE K (pc + 1) st (w.un .bitnot v s.st)
    | _ => .halt .stuck
  else if op = CREATE_RANGE then
    match s.stack with
    | start :: stop :: excl :: st => pushE K (pc + 1) st (w.range start stop (truthy excl) s.st)
    | _ => .halt .stuck
  else if op = GET_INDEX then
    match s.stack with
    | idx :: recv :: st => pushE K (pc + 1) st (w.index recv idx s.st)
    | _ => .halt .stuck
  else if op = SET_INDEX then
    match s.stack with
    | v :: idx :: recv :: st => dropE K (pc + 1) st (w.setIndex recv idx v s.st)
    | _ => .halt .stuck
  else if op = THROW then
    match s.stack with
    | v :: _ => fail K pc (w.thrown v) s.st
    | _ => .halt .stuck
  else match binOf op with
  | some b =>
    match s.stack with
    | rhs :: lhs :: st => pushE K (pc + 1) st (w.bin b lhs rhs s.st)
    | _ => .halt .stuck
  | none =>
  match cmpOf op with
  | some o =>
    match s.stack with
    | rhs :: lhs :: st => pushB K (pc + 1) st (w.cmp o lhs rhs s.st)
    | _ => .halt .stuck
  | none =>
  match args with
  | [.o32 a] =>
    if op = ADDI then
      match s.stack with
      | lhs :: st => pushE K (pc + 5) st (w.binI .add lhs a s.st)
      | _ => .halt .stuck
    else if op = SUBI then
      match s.stack with
      | lhs :: st => pushE K (pc + 5) st (w.binI .sub lhs a s.st)
      | _ => .halt .stuck
    else if op = SET_LOCAL then
      match s.stack with
      | v :: st => .next ⟨st, s.st.set 0 a.toNat v⟩
      | _ => .halt .stuck
    else if op = GET_LOCAL then .next ⟨s.st.locals 0 a.toNat :: s.stack, s.st⟩
    else if op = SET_IVAR then
      match s.stack with
      | v :: st => .next ⟨st, w.setI a v s.st⟩
      | _ => .halt .stuck
    else if op = GET_IVAR then .next ⟨w.getI a s.st :: s.stack, s.st⟩
    else if op = SET_GVAR then
      match s.stack with
      | v :: st => .next ⟨st, w.setG a v s.st⟩
      | _ => .halt .stuck
    else if op = GET_GVAR then .next ⟨w.getG a s.st :: s.stack, s.st⟩
    else if op = GET_CONST_TOP then pushE K (pc + 5) s.stack (w.constTop a s.st)
    else if op = CONST_VAL then
      match K.consts[a.toNat]? with
      | some cv => let (v, σ) := constVal K s.st cv; .next ⟨v :: s.stack, σ⟩
      | none => .halt .stuck
    else if op = GET_IDX_I then
      match s.stack with
      | recv :: st => pushE K (pc + 5) st (w.indexI recv a s.st)
      | _ => .halt .stuck
    else if op = SET_IDX_I then
      match s.stack with
      | v :: recv :: st => dropE K (pc + 5) st (w.setIndexI recv a v s.st)
      | _ => .halt .stuck
    else if op = CREATE_ARRAY then
      if a.toNat ≤ s.stack.length then
        let (v, σ) := w.mkArray (s.stack.take a.toNat).reverse s.st
        .next ⟨v :: s.stack.drop a.toNat, σ⟩
      else .halt .stuck
    else if op = YIELD then
      if a.toNat ≤ s.stack.length then
        pushE K (pc + 5) (s.stack.drop a.toNat) (w.yield_ (s.stack.take a.toNat).reverse s.st)
      else .halt .stuck
    else if op = DUP then
      if a.toNat ≤ s.stack.length then .next ⟨s.stack.take a.toNat ++ s.stack, s.st⟩ else .halt .stuck
    else if op = SINKN then
      match s.stack with
      | v :: st =>
        if a.toNat ≤ st.length then .next ⟨st.take a.toNat ++ v :: st.drop a.toNat, s.st⟩ else .halt .stuck
      | _ => .halt .stuck
    else if op = TAKE then
      match s.stack with
      | v :: st => .next ⟨(takeVals K s.st v a.toNat).reverse ++ st, s.st⟩
      | _ => .halt .stuck
    else if op = RESCUE then
      if a.toNat + 1 ≤ s.stack.length then
        match s.stack.drop a.toNat with
        | v :: st => .next ⟨Value.bool (w.rescues v (s.stack.take a.toNat).reverse s.st) :: st, s.st⟩
        | [] => .halt .stuck
      else .halt .stuck
    else match cmpIOf op with
    | some o =>
      match s.stack with
      | lhs :: st => pushB K (pc + 5) st (w.cmpI o lhs a s.st)
      | _ => .halt .stuck
    | none => .halt .stuck
  | [.o64 a] => if op = PUSH_VAL then .next ⟨.word a :: s.stack, s.st⟩ else .halt .stuck
  | [.o32 a, .o32 b] =>
    if op = SET_DYNLOCAL then
      match s.stack with
      | v :: st => .next ⟨st, s.st.set b.toNat a.toNat v⟩
      | _ => .halt .stuck
    else if op = GET_DYNLOCAL then .next ⟨s.st.locals b.toNat a.toNat :: s.stack, s.st⟩
    else if op = OPT_CASE then
      match s.stack, K.case1[a.toNat]? with
      | v :: st, some (some m) => .goto (addDisp (pc + 9) ((lookup1 K s.st v m).getD b)) ⟨st, s.st⟩
      | _, _ => .halt .stuck
    else if op = OPT_CASE2 then
      match s.stack, K.case2[a.toNat]? with
      | v :: st, some (some m) =>
        match lookup2 v m b with
        | some d => .goto (addDisp (pc + 9) d) ⟨st, s.st⟩
        | none => .halt .stuck
      | _, _ => .halt .stuck
    else .halt .stuck
  | [.o32 m, .o16 n, .o32 b, .o32 _] =>
    if op = OPT_SEND ∨ op = OPT_SEND_N then
      match s.stack.drop n.toNat with
      | recv :: st =>
        let res := w.call b m recv (s.stack.take n.toNat).reverse s.st
        if op = OPT_SEND then pushE K (pc + 15) st res else dropE K (pc + 15) st res
      | [] => .halt .stuck
    else .halt .stuck
  | _ => .halt .stuck

/-- Pop and test: `JMP_F`, `JMP_T` (`true`: do not jump); `opt_core.rs:419-428`. -/
def testOp (K : Env W X) (op : Byte) (imm : Option (BitVec 32)) (pc : Nat) (s : S W) :
    Out (S W) (R W X) ⊕ (Bool × S W) :=
  if op = JMP_F then
    match s.stack with
    | v :: st => .inr (truthy v, ⟨st, s.st⟩)
    | _ => .inl (.halt .stuck)
  else if op = JMP_T then
    match s.stack with
    | v :: st => .inr (!truthy v, ⟨st, s.st⟩)
    | _ => .inl (.halt .stuck)
  else match imm with
  | none =>
    match jfOf op, s.stack with
    | some o, rhs :: lhs :: st =>
      match K.world.cmp o lhs rhs s.st with
      | (.ok b, σ) => .inr (b, ⟨st, σ⟩)
      | (.error x, σ) => .inl (fail K (pc + 1) x σ)
    | _, _ => .inl (.halt .stuck)
  | some i =>
    match jfIOf op, s.stack with
    | some o, lhs :: st =>
      match K.world.cmpI o lhs i s.st with
      | (.ok b, σ) => .inr (b, ⟨st, σ⟩)
      | (.error x, σ) => .inl (fail K (pc + 5) x σ)
    | _, _ => .inl (.halt .stuck)

/-- The interpreter, as an instance of the loop in `Verif.ISeq.Machine`. -/
def machine (K : Env W X) : Machine (S W) (R W X) where
  exec op operands pc s :=
    match vmOperands op with
    | some ws =>
      match readOperands operands 0 ws with
      | some (args, _) => execOp K op args pc s
      | none => .halt .stuck
    | none => .halt .stuck
  test := testOp K
  term op s :=
    match s.stack with
    | v :: _ => if op = RETURN then .ret v s.st else if op = MRETURN then .mret v s.st else .brk v s.st
    | [] => .stuck

end Verif.Codegen
