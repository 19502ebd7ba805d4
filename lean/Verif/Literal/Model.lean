/-!
# Model of constant literals (`ruruby/src/codegen.rs`, `ruruby/src/globals.rs`)

A literal made of constants only is built once, when the program is compiled, and copied (one level) each time
it is evaluated.  Integers, floats, symbols, true, false and nil are `imm`: nothing can change them.
-/
namespace Verif.Literal

inductive V
  | imm (n : Int)
  | ref (a : Nat)
deriving DecidableEq, Repr

/-- The contents of an object: `ruruby/src/value/rvalue.rs:17-35` for strings, arrays and hashes. -/
inductive Cell
  | str (s : List UInt8)
  | arr (l : List V)
  | hash (l : List (V × V))
deriving DecidableEq, Repr

/-- A constant literal: the nodes accepted by `is_const_expr` (`ruruby-parse/src/node.rs:333-347`), without regular
expressions. -/
inductive Lit
  | imm (n : Int)
  | str (s : List UInt8)
  | arr (l : List Lit)
  | hash (l : List (Lit × Lit))

structure Heap where
  cell : Nat → Cell
  next : Nat

def Heap.alloc (h : Heap) (c : Cell) : Heap × Nat :=
  (⟨fun x => if x = h.next then c else h.cell x, h.next + 1⟩, h.next)

mutual
/-- `ruruby/src/codegen.rs:1776-1792` (`const_expr`) -/
def build (h : Heap) : Lit → Heap × V
  | .imm n => (h, .imm n)
  | .str s => let r := h.alloc (.str s); (r.1, .ref r.2)
  | .arr l => let r := buildAll h l; let r' := r.1.alloc (.arr r.2); (r'.1, .ref r'.2)
  | .hash l => let r := buildPairs h l; let r' := r.1.alloc (.hash r.2); (r'.1, .ref r'.2)
/-- `ruruby/src/codegen.rs:1805-1811` (`const_array`) -/
def buildAll (h : Heap) : List Lit → Heap × List V
  | [] => (h, [])
  | e :: es => let r := build h e; let rs := buildAll r.1 es; (rs.1, r.2 :: rs.2)
/-- `ruruby/src/codegen.rs:1794-1803` (`const_hash`); the keys are taken to be different, then the insertions keep
the pairs in order (`Verif/Hash`). -/
def buildPairs (h : Heap) : List (Lit × Lit) → Heap × List (V × V)
  | [] => (h, [])
  | e :: es =>
    let k := build h e.1
    let v := build k.1 e.2
    let rs := buildPairs v.1 es
    (rs.1, (k.2, v.2) :: rs.2)
end

/-- `ConstantValues::insert` (`ruruby/src/globals.rs:536-540`) for each literal of the program, in the order of the
text (`ruruby/src/vm/iseq.rs:211-218`). -/
def compile (h : Heap) : List Lit → Heap × List V
  | [] => (h, [])
  | e :: es => let r := build h e; let rs := compile r.1 es; (rs.1, r.2 :: rs.2)

/-- `ruruby/src/value/value.rs:343-348`, `rvalue.rs:560-595` (`shallow_dup`) -/
def shallow_dup (h : Heap) : V → Heap × V
  | .imm n => (h, .imm n)
  | .ref a => let r := h.alloc (h.cell a); (r.1, .ref r.2)

/-- The references in an object. -/
def Cell.refs : Cell → List Nat
  | .str _ => []
  | .arr l => l.filterMap (fun v => match v with | .ref a => some a | .imm _ => none)
  | .hash l => (l.flatMap (fun e => [e.1, e.2])).filterMap (fun v => match v with | .ref a => some a | .imm _ => none)

/-- The running program.  `known` are the objects it has got hold of: it can use no others. -/
structure St where
  heap : Heap
  table : List V
  known : List Nat

/-- What the program does.  All mutating methods are `write`: they put new contents, made of what the program
has, into an object the program has. -/
inductive Op
  /-- evaluate literal number `i` (CONST_VAL) -/
  | eval (i : Nat)
  /-- look into an object: get hold of what it refers to -/
  | read (a : Nat)
  | write (a : Nat) (c : Cell)
  | alloc (c : Cell)

def step (σ : St) : Op → St × Option V
  /- `ruruby/src/vm/executor/opt_core.rs:389-393`, `ruruby/src/globals.rs:542-544` (`ConstantValues::get`) -/
  | .eval i =>
    match σ.table[i]? with
    | none => (σ, none)
    | some v =>
      let r := shallow_dup σ.heap v
      match r.2 with
      | .imm n => ({ σ with heap := r.1 }, some (.imm n))
      | .ref a => ({ σ with heap := r.1, known := a :: σ.known }, some (.ref a))
  | .read a => if a ∈ σ.known then ({ σ with known := (σ.heap.cell a).refs ++ σ.known }, none) else (σ, none)
  | .write a c =>
    if a ∈ σ.known ∧ ∀ r ∈ c.refs, r ∈ σ.known then
      ({ σ with heap := { σ.heap with cell := fun x => if x = a then c else σ.heap.cell x } }, none)
    else (σ, none)
  | .alloc c =>
    if ∀ r ∈ c.refs, r ∈ σ.known then
      let r := σ.heap.alloc c
      ({ σ with heap := r.1, known := r.2 :: σ.known }, some (.ref r.2))
    else (σ, none)

/-- a history -/
def run (σ : St) : List Op → St
  | [] => σ
  | op :: ops => run (step σ op).1 ops

/-- The program with the given literals, before it runs. -/
def start (lits : List Lit) : St :=
  let r := compile ⟨fun _ => .str [], 0⟩ lits
  ⟨r.1, r.2, []⟩

end Verif.Literal
