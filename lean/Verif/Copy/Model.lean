/-!
# Model: making and copying objects

Objects as they lie in memory.  An object is a cell with its kind, its class, the address of the table of its instance
variables and a body; the elements of an array, the characters of a string, the entries of a hash, the instance variables,
the state of a fiber and the tables of a class lie in separate allocations (`Box`, `Vec`, `String`, `ClassRef`), which the
cell refers to by address.  So that two objects can share an allocation in the model, as they can in the program.

Not modelled: small arrays and strings that lie in the cell itself (they are copied with it, like a box that is cloned),
ranges, regexps, procs, methods, times, exceptions and bindings (copied field by field, none of the methods of ruruby changes
one in place), freezing (does nothing in ruruby), and `initialize`, which `new` calls afterwards as any other method (C94).
-/
namespace Verif.Copy

/-- A value: nil, an immediate number or the address of a cell (value.rs:24-30). -/
inductive V where
  | nil
  | imm (n : Int)
  | ref (a : Nat)
  deriving DecidableEq

/-- The kind, kept in the flags of the cell (value/rvalue.rs:123-146).  `number` is a big integer or a float on the heap,
`fiber` a fiber or an enumerator, `module` a class or a module. -/
inductive Kind where
  | ordinary | number | complex | string | array | hash | module | fiber
  deriving DecidableEq

/-- A separate allocation. -/
inductive Buf where
  | bytes (b : List UInt8)
  | items (l : List V)
  | entries (l : List (V × V))
  | vars (l : List (Nat × V))
  | ext (methods : List Nat)
  | coroutine (resumed : Nat)
  deriving DecidableEq

/-- The union `ObjKind` (value/rvalue.rs:102-121).  `other` writes nothing: what is read from it is whatever was there. -/
inductive Body where
  | other
  | number (n : Int)
  | complex (r i : V)
  | box (p : Nat)
  | classInfo (upper : Option Nat) (ext : Nat)
  deriving DecidableEq

/-- A cell (value/rvalue.rs:8-13). -/
structure Obj where
  kind : Kind
  cls : Nat
  vars : Option Nat
  body : Body
  deriving DecidableEq

structure Heap where
  objs : List Obj
  bufs : List Buf
  deriving DecidableEq

inductive Err where
  | argument
  | type
  /-- memory is read that was never written, or that is not there -/
  | wild
  deriving DecidableEq

/-- `Box::new` and the like. -/
def Heap.box (h : Heap) (b : Buf) : Heap := { h with bufs := h.bufs ++ [b] }

/-- `pack`: the cell is put in memory (value.rs:33-37). -/
def Heap.pack (h : Heap) (o : Obj) : Heap := { h with objs := h.objs ++ [o] }

/-- `clone` of a `Box`, a `Vec` or a `String`: a new allocation with the same contents. -/
def Heap.cloneBox (h : Heap) (p : Nat) : Except Err (Heap × Nat) :=
  match h.bufs[p]? with
  | some b => .ok (h.box b, h.bufs.length)
  | none => .error .wild

/-- The builtin classes, by number. -/
def cObject : Nat := 0
def cString : Nat := 1
def cArray : Nat := 2
def cHash : Nat := 3
def cClass : Nat := 4
def cFiber : Nat := 5
def cNumber : Nat := 6
def cComplex : Nat := 7

/-- The table of instance variables is cloned with its box (value/rvalue.rs:564). -/
def cloneVars (h : Heap) : Option Nat → Except Err (Heap × Option Nat)
  | none => .ok (h, none)
  | some p => (h.cloneBox p).map (fun r => (r.1, some r.2))

/-- `RValue::shallow_dup` (value/rvalue.rs:560-593) for all kinds but complex numbers: the flags, the class and the
instance variables are copied.  A class copies its `ClassInfo`, a struct that refers to the tables (value/class.rs:310-315); a
fiber and an enumerator get the body `other`. -/
def dupFlat (h : Heap) (o : Obj) : Except Err (Heap × Obj) := do
  let (h, vars) ← cloneVars h o.vars
  match o.kind, o.body with
  | .ordinary, _ => .ok (h, ⟨o.kind, o.cls, vars, .other⟩)
  | .fiber, _ => .ok (h, ⟨o.kind, o.cls, vars, .other⟩)
  | .number, .number n => .ok (h, ⟨o.kind, o.cls, vars, .number n⟩)
  | .string, .box p => do let (h, q) ← h.cloneBox p; .ok (h, ⟨o.kind, o.cls, vars, .box q⟩)
  | .array, .box p => do let (h, q) ← h.cloneBox p; .ok (h, ⟨o.kind, o.cls, vars, .box q⟩)
  | .hash, .box p => do let (h, q) ← h.cloneBox p; .ok (h, ⟨o.kind, o.cls, vars, .box q⟩)
  | .module, .classInfo u e => .ok (h, ⟨o.kind, o.cls, vars, .classInfo u e⟩)
  | _, _ => .error .wild

/-- `Value::shallow_dup` (value.rs:343-348) of a part of a complex number, which is a real number. -/
def dupPart (h : Heap) : V → Except Err (Heap × V)
  | .ref a =>
    match h.objs[a]? with
    | some o => do let (h, o) ← dupFlat h o; .ok (h.pack o, .ref h.objs.length)
    | none => .error .wild
  | v => .ok (h, v)

/-- `Value::shallow_dup` of an object (value.rs:343-348, value/rvalue.rs:560-593). -/
def shallowDup (h : Heap) (o : Obj) : Except Err (Heap × V) :=
  match o.kind, o.body with
  | .complex, .complex r i => do
    let (h, vars) ← cloneVars h o.vars
    let (h, r) ← dupPart h r
    let (h, i) ← dupPart h i
    .ok (h.pack ⟨.complex, o.cls, vars, .complex r i⟩, .ref h.objs.length)
  | _, _ => do
    let (h, o) ← dupFlat h o
    .ok (h.pack o, .ref h.objs.length)

/-- `dup` and `clone`: `Array#dup` (builtin/array.rs:837-841, 59-60), `Hash#clone` (builtin/hash.rs:69-73, 9-10) and
`Object#dup` (builtin/object.rs:92-96, 21-22). -/
def dup (h : Heap) : V → Except Err (Heap × V)
  | .nil => .ok (h, .nil)
  | .imm n => .ok (h, .imm n)
  | .ref a =>
    match h.objs[a]? with
    | none => .error .wild
    | some o =>
      match o.kind, o.body with
      | .array, .box p => do
        let (h, q) ← h.cloneBox p
        .ok (h.pack ⟨.array, cArray, none, .box q⟩, .ref h.objs.length)
      | .hash, .box p => do
        let (h, q) ← h.cloneBox p
        .ok (h.pack ⟨.hash, cHash, none, .box q⟩, .ref h.objs.length)
      | _, _ => shallowDup h o

/-- The number that a value is: the parts of complex numbers are shown by it. -/
def numOf (h : Heap) : V → Option Int
  | .nil => none
  | .imm n => some n
  | .ref a =>
    match h.objs[a]? with
    | some ⟨.number, _, _, .number n⟩ => some n
    | _ => none

/-- The elements of an array. -/
def itemsOf (h : Heap) : V → Except Err (List V)
  | .nil => .error .type
  | .imm _ => .error .type
  | .ref a =>
    match h.objs[a]? with
    | some ⟨.array, _, _, .box p⟩ =>
      match h.bufs[p]? with
      | some (.items l) => .ok l
      | _ => .error .wild
    | some _ => .error .type
    | none => .error .wild

/-- The characters of a string. -/
def bytesOf (h : Heap) : V → Except Err (List UInt8)
  | .nil => .error .type
  | .imm _ => .error .type
  | .ref a =>
    match h.objs[a]? with
    | some ⟨.string, _, _, .box p⟩ =>
      match h.bufs[p]? with
      | some (.bytes l) => .ok l
      | _ => .error .wild
    | some _ => .error .type
    | none => .error .wild

/-- A hash with `h[k] = v` (value/hash.rs `insert`); keys are compared by what they are (C17 has the real comparison). -/
def insert (k v : V) : List (V × V) → List (V × V)
  | [] => [(k, v)]
  | (k', v') :: l => if k' = k then (k', v) :: l else (k', v') :: insert k v l

/-- A table of instance variables with `@x = v`. -/
def setVar (x : Nat) (v : V) : List (Nat × V) → List (Nat × V)
  | [] => [(x, v)]
  | (y, w) :: l => if y = x then (y, v) :: l else (y, w) :: setVar x v l

/-- What a program can do with objects here. -/
inductive Op where
  /-- `c.new` of a class without a `new` of its own (builtin/class.rs:39-46) -/
  | object (c : Nat)
  /-- a computation with a big integer or a float as its result -/
  | number (n : Int)
  /-- `Complex(r, i)` -/
  | complex (r i : V)
  /-- `String.new`, `String.new(s)` and in subclasses (builtin/string.rs:66-79) -/
  | stringNew (c : Nat) (args : List V)
  /-- `Array.new`, `Array.new(n)`, `Array.new(a)`, `Array.new(n, v)` and in subclasses (builtin/array.rs:93-123) -/
  | arrayNew (c : Nat) (args : List V)
  /-- `Array[...]` (builtin/array.rs:131-134) -/
  | arrayOf (c : Nat) (elems : List V)
  /-- `Hash.new` (builtin/hash.rs:46-51) -/
  | hashNew (args : List V)
  /-- `Class.new(superclass)` without a block (builtin/class.rs:19-37) -/
  | classNew (upper : Nat)
  /-- `Fiber.new {…}` -/
  | fiberNew
  /-- `x.dup`, `x.clone` -/
  | dup (x : V)
  /-- `x.push(v)` -/
  | push (x v : V)
  /-- `x << "…"` of a string -/
  | append (x : V) (b : List UInt8)
  /-- `x[k] = v` of a hash -/
  | store (x k v : V)
  /-- `@name = v` in `x`, `instance_variable_set` (value/rvalue.rs:839-849) -/
  | ivarSet (x : V) (name : Nat) (v : V)
  /-- `def m` in the class `x` -/
  | define (x : V) (m : Nat)
  /-- `x.resume`, `x.next` -/
  | resume (x : V)

/-- The object an operation is about, if it changes one. -/
def Op.target : Op → Option V
  | .push x _ => some x
  | .append x _ => some x
  | .store x _ _ => some x
  | .ivarSet x _ _ => some x
  | .define x _ => some x
  | .resume x => some x
  | _ => none

/-- The characters of a new string (builtin/string.rs:68-74). -/
def stringArgs (h : Heap) : List V → Except Err (List UInt8)
  | [] => .ok []
  | [x] => bytesOf h x
  | _ => .error .argument

/-- The elements of a new array (builtin/array.rs:94-119). -/
def arrayArgs (h : Heap) : List V → Except Err (List V)
  | [] => .ok []
  | [.imm n] => if n < 0 then .error .argument else .ok (List.replicate n.toNat .nil)
  | [x] => itemsOf h x
  | [.imm n, v] => if n < 0 then .error .argument else .ok (List.replicate n.toNat v)
  | [_, _] => .error .type
  | _ => .error .argument

/-- One operation; the result of the ones that change an object is the object. -/
def step (h : Heap) : Op → Except Err (Heap × V)
  | .object c => .ok (h.pack ⟨.ordinary, c, none, .other⟩, .ref h.objs.length)
  | .number n => .ok (h.pack ⟨.number, cNumber, none, .number n⟩, .ref h.objs.length)
  | .complex r i =>
    if (numOf h r).isSome ∧ (numOf h i).isSome then
      .ok (h.pack ⟨.complex, cComplex, none, .complex r i⟩, .ref h.objs.length)
    else .error .type
  | .stringNew c args => do
    let s ← stringArgs h args
    .ok ((h.box (.bytes s)).pack ⟨.string, c, none, .box h.bufs.length⟩, .ref h.objs.length)
  | .arrayNew c args => do
    let l ← arrayArgs h args
    .ok ((h.box (.items l)).pack ⟨.array, c, none, .box h.bufs.length⟩, .ref h.objs.length)
  | .arrayOf c l =>
    .ok ((h.box (.items l)).pack ⟨.array, c, none, .box h.bufs.length⟩, .ref h.objs.length)
  | .hashNew args =>
    match args with
    | [] => .ok ((h.box (.entries [])).pack ⟨.hash, cHash, none, .box h.bufs.length⟩, .ref h.objs.length)
    | _ => .error .argument
  | .classNew u =>
    .ok ((h.box (.ext [])).pack ⟨.module, cClass, none, .classInfo (some u) h.bufs.length⟩, .ref h.objs.length)
  | .fiberNew => .ok ((h.box (.coroutine 0)).pack ⟨.fiber, cFiber, none, .box h.bufs.length⟩, .ref h.objs.length)
  | .dup x => dup h x
  | .push x v =>
    match x with
    | .nil => .error .type
    | .imm _ => .error .type
    | .ref a =>
      match h.objs[a]? with
      | some ⟨.array, _, _, .box p⟩ =>
        match h.bufs[p]? with
        | some (.items l) => .ok ({ h with bufs := h.bufs.set p (.items (l ++ [v])) }, x)
        | _ => .error .wild
      | some _ => .error .type
      | none => .error .wild
  | .append x b =>
    match x with
    | .nil => .error .type
    | .imm _ => .error .type
    | .ref a =>
      match h.objs[a]? with
      | some ⟨.string, _, _, .box p⟩ =>
        match h.bufs[p]? with
        | some (.bytes l) => .ok ({ h with bufs := h.bufs.set p (.bytes (l ++ b)) }, x)
        | _ => .error .wild
      | some _ => .error .type
      | none => .error .wild
  | .store x k v =>
    match x with
    | .nil => .error .type
    | .imm _ => .error .type
    | .ref a =>
      match h.objs[a]? with
      | some ⟨.hash, _, _, .box p⟩ =>
        match h.bufs[p]? with
        | some (.entries l) => .ok ({ h with bufs := h.bufs.set p (.entries (insert k v l)) }, x)
        | _ => .error .wild
      | some _ => .error .type
      | none => .error .wild
  | .ivarSet x name v =>
    match x with
    | .nil => .error .type
    | .imm _ => .error .type
    | .ref a =>
      match h.objs[a]? with
      | some o =>
        match o.vars with
        | some p =>
          match h.bufs[p]? with
          | some (.vars l) => .ok ({ h with bufs := h.bufs.set p (.vars (setVar name v l)) }, x)
          | _ => .error .wild
        | none => .ok (⟨h.objs.set a { o with vars := some h.bufs.length }, h.bufs ++ [.vars [(name, v)]]⟩, x)
      | none => .error .wild
  | .define x m =>
    match x with
    | .nil => .error .type
    | .imm _ => .error .type
    | .ref a =>
      match h.objs[a]? with
      | some ⟨.module, _, _, .classInfo _ p⟩ =>
        match h.bufs[p]? with
        | some (.ext l) => .ok ({ h with bufs := h.bufs.set p (.ext (l ++ [m])) }, x)
        | _ => .error .wild
      | some _ => .error .type
      | none => .error .wild
  | .resume x =>
    match x with
    | .nil => .error .argument
    | .imm _ => .error .argument
    | .ref a =>
      match h.objs[a]? with
      | some ⟨.fiber, _, _, .box p⟩ =>
        match h.bufs[p]? with
        | some (.coroutine n) => .ok ({ h with bufs := h.bufs.set p (.coroutine (n + 1)) }, x)
        | _ => .error .wild
      | some ⟨.fiber, _, _, _⟩ => .error .wild
      | some _ => .error .argument
      | none => .error .wild

/-- A history of operations; one that raises is rescued and changes nothing. -/
def run (h : Heap) : List Op → Heap
  | [] => h
  | op :: ops =>
    match step h op with
    | .ok (h, _) => run h ops
    | .error _ => run h ops

end Verif.Copy
