/-!
# Model of instance variables and class variables
(`ruruby/src/value/rvalue.rs`, `ruruby/src/vm/executor.rs`, `ruruby/src/builtin/{object,module,structobj}.rs`)

Identifiers are modelled by their names (`Verif/IdTable` proves that they correspond one to one).  `V` is the type of
values; an object on the heap is known by its number.  A hash table is the list of its entries.
-/
namespace Verif.Ivar

abbrev Name := List Char

/-- `ValueTable` (`FxHashMap<IdentId, Value>`): at most one entry per name. -/
abbrev Table (V : Type) := List (Name × V)

/-- `HashMap::get` -/
def Table.get {V : Type} (t : Table V) (n : Name) : Option V := List.lookup n t

/-- `HashMap::insert` (the new table). -/
def Table.insert {V : Type} (t : Table V) (n : Name) (v : V) : Table V :=
  if (t.map Prod.fst).contains n then t.map (fun e => if e.1 = n then (n, v) else e) else (n, v) :: t

/-- The part of `RValue` (`ruruby/src/value/rvalue.rs:7-13`) that holds variables. -/
structure RVal (V : Type) where
  var_table : Option (Table V)

/-- `ruruby/src/value/rvalue.rs:822-827` (`get_var`) -/
def RVal.get_var {V : Type} (r : RVal V) (n : Name) : Option V :=
  match r.var_table with
  | some t => t.get n
  | none => none

/-- `ruruby/src/value/rvalue.rs:839-849` (`set_var`) -/
def RVal.set_var {V : Type} (r : RVal V) (n : Name) (v : V) : RVal V :=
  match r.var_table with
  | some t => ⟨some (t.insert n v)⟩
  | none => ⟨some (Table.insert [] n v)⟩

/-- `ruruby/src/value/value.rs:488-496` (`set_var_if_exists`) with `get_mut_var` (`rvalue.rs:830-835`). -/
def RVal.set_var_if_exists {V : Type} (r : RVal V) (n : Name) (v : V) : Option (RVal V) :=
  match r.var_table with
  | some t => match t.get n with
    | some _ => some ⟨some (t.insert n v)⟩
    | none => none
  | none => none

/-- The heap: `next` is the number of the next object. -/
structure Heap (V : Type) where
  obj : Nat → RVal V
  next : Nat

def Heap.put {V : Type} (h : Heap V) (o : Nat) (r : RVal V) : Heap V :=
  { h with obj := fun x => if x = o then r else h.obj x }

def Heap.alloc {V : Type} (h : Heap V) (r : RVal V) : Heap V × Nat :=
  ({ h.put h.next r with next := h.next + 1 }, h.next)

/-- A receiver: an object on the heap, or a value that is held in the word itself (integers, symbols, nil). -/
inductive Recv
  | obj (o : Nat)
  | packed
deriving DecidableEq, Repr

/-- What a program can do with variables. -/
inductive Op (V : Type)
  /-- a new object -/
  | new
  /-- `x.dup` -/
  | dup (x : Recv)
  /-- `@n` in a method of `x` -/
  | get (x : Recv) (n : Name)
  /-- `@n = v` in a method of `x` -/
  | set (x : Recv) (n : Name) (v : V)
  /-- `defined?(@n)` in a method of `x` -/
  | isUndefined (x : Recv) (n : Name)
  /-- `x.s`, where `s` was declared with `attr_reader :s` -/
  | reader (x : Recv) (s : Name)
  /-- `x.s = v`, where `s` was declared with `attr_writer :s` -/
  | writer (x : Recv) (s : Name) (v : V)
  /-- `x.instance_variable_get(n)` -/
  | ivGet (x : Recv) (n : Name)
  /-- `x.instance_variable_set(n, v)` -/
  | ivSet (x : Recv) (n : Name) (v : V)
  /-- `x.instance_variables` -/
  | names (x : Recv)
  /-- `S.new(*vs)` of a class made with `Struct.new(*members)`, for the new object `x` -/
  | structInit (x : Recv) (members : List Name) (vs : List V)

inductive Reply (V : Type)
  | value (v : V)
  | bool (b : Bool)
  | object (x : Recv)
  | names (l : List Name)
  | done
  /-- an exception of the program -/
  | raised
  /-- `unreachable!` -/
  | panic
  /-- a word that is not an address is used as one: the behaviour of the interpreter is undefined -/
  | undefined

variable {V : Type}

/-- `define_reader`, `define_writer`: `ruruby/src/builtin/module.rs:334`, `:343` (`add_prefix("@")`). -/
def ivarName (s : Name) : Name := '@' :: s

/-- One operation; `nil` is the value nil. -/
def step (nil : V) (h : Heap V) : Op V → Heap V × Reply V
  /- `ruruby/src/value/rvalue.rs:617-625` (`RValue::new`) -/
  | .new => let r := h.alloc ⟨none⟩; (r.1, .object (.obj r.2))
  /- `ruruby/src/value/value.rs:343-348`, `rvalue.rs:560-595` (`shallow_dup`) -/
  | .dup (.obj o) => let r := h.alloc ⟨(h.obj o).var_table⟩; (r.1, .object (.obj r.2))
  | .dup .packed => (h, .object .packed)
  /- `ruruby/src/vm/executor/opt_core.rs:322-326` (GET_IVAR) -/
  | .get (.obj o) n => (h, .value (((h.obj o).get_var n).getD nil))
  | .get .packed _ => (h, .undefined)
  /- `ruruby/src/vm/executor/opt_core.rs:317-321` (SET_IVAR) -/
  | .set (.obj o) n v => (h.put o ((h.obj o).set_var n v), .done)
  | .set .packed _ _ => (h, .undefined)
  /- `ruruby/src/vm/executor/opt_core.rs:327-331` (CHECK_IVAR) -/
  | .isUndefined (.obj o) n => (h, .bool ((h.obj o).get_var n).isNone)
  | .isUndefined .packed _ => (h, .undefined)
  /- `ruruby/src/vm/executor/method.rs:575-582` (`exec_getter`) -/
  | .reader (.obj o) s => (h, .value (((h.obj o).get_var (ivarName s)).getD nil))
  | .reader .packed _ => (h, .value nil)
  /- `ruruby/src/vm/executor/method.rs:585-597` (`exec_setter`) -/
  | .writer (.obj o) s v => (h.put o ((h.obj o).set_var (ivarName s) v), .value v)
  | .writer .packed _ _ => (h, .panic)
  /- `ruruby/src/builtin/object.rs:140-150` -/
  | .ivGet (.obj o) n => (h, .value (match (h.obj o).get_var n with | some v => v | none => nil))
  | .ivGet .packed _ => (h, .undefined)
  /- `ruruby/src/builtin/object.rs:131-138` -/
  | .ivSet (.obj o) n v => (h.put o ((h.obj o).set_var n v), .value v)
  | .ivSet .packed _ _ => (h, .undefined)
  /- `ruruby/src/builtin/object.rs:152-164` -/
  | .names (.obj o) =>
    (h, .names (match (h.obj o).var_table with
      | some t => (t.map Prod.fst).filter (fun n => n.head? = some '@')
      | none => []))
  | .names .packed => (h, .undefined)
  /- `ruruby/src/builtin/structobj.rs:65-78` (`initialize`) -/
  | .structInit (.obj o) members vs =>
    if members.length < vs.length then (h, .raised)
    else (h.put o ((members.zip vs).foldl (fun r e => r.set_var (ivarName e.1) e.2) (h.obj o)), .done)
  | .structInit .packed _ _ => (h, .undefined)

/-- A history: the replies to a list of operations. -/
def run (nil : V) : Heap V → List (Op V) → Heap V × List (Reply V)
  | h, [] => (h, [])
  | h, op :: ops =>
    let r := step nil h op
    let rs := run nil r.1 ops
    (rs.1, r.2 :: rs.2)

/-! ## Class variables -/

/-- `ruruby/src/vm/executor.rs:580-604` (`set_class_var`): `chain` is the class of the program text (or of the
object) followed by the classes above it (`upper`); `org` is its first element. -/
def set_class_var (h : Heap V) (n : Name) (v : V) (org : Nat) : List Nat → Heap V
  | [] => h.put org ((h.obj org).set_var n v)
  | c :: cs =>
    match (h.obj c).set_var_if_exists n v with
    | some r => h.put c r
    | none => set_class_var h n v org cs

/-- `ruruby/src/vm/executor.rs:606-631` (`get_class_var`); `none`: a NameError. -/
def get_class_var (h : Heap V) (n : Name) : List Nat → Option V
  | [] => none
  | c :: cs =>
    match (h.obj c).get_var n with
    | some v => some v
    | none => get_class_var h n cs

end Verif.Ivar
