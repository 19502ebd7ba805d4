import Verif.Unwind.Spec
/-!
# Programs with methods and blocks (specification for C83)

Source trees with calls, calls with blocks, and `yield`.  Bodies are evaluated by the evaluator of C31.

* Each call and each run of a block has variables of its own, under a number (`Cells`); the calls that are going on are
  numbered from 0.
* A block knows the place where it was written: `self`, the numbers under which the variables it can see are found (innermost
  first), and the block of the method it was written in (`Given`).
* `yield` runs the block of the method with new variables for its parameters and the variables of the place where it was
  written.

A call that is nested too deep or does not finish is cut off, and so is a block that ends with `break` or `return`; the flag
goes down then (as in `Verif.Unwind`), and the evaluation does not count.
-/
namespace Verif.Blocks
open Verif.Codegen
open Verif.Unwind (tag untag through flagged)
open Verif.Value (Val)

variable {W X : Type}

/-- Variables: number of the call, how many blocks further out (always 0, except for variables that no source can name,
see `look`), number of the variable. -/
abbrev Cells := Nat → Nat → Nat → Val

/-- The state: objects; variables; nothing has been cut off. -/
abbrev Full (W : Type) := W × (Cells × Bool)

/-- The variables that are seen from a place: those of the innermost call, of the next one outside, and so on.  (There are
no variables further out than the last one; reads and writes of them would go to cells of their own.) -/
def look : List Nat → Cells → Nat → Nat → Val
  | [], _ => fun _ _ => Value.nil
  | [h], s => s h
  | h :: h' :: c, s => fun k =>
    match k with
    | 0 => s h 0
    | k + 1 => look (h' :: c) s k

/-- Change the variables that are seen from a place. -/
def store : List Nat → (Nat → Nat → Val) → Cells → Cells
  | [], _, s => s
  | [h], l, s => fun i => if i = h then l else s i
  | h :: h' :: c, l, s => fun i =>
    if i = h then (fun k => match k with | 0 => l 0 | k + 1 => s h (k + 1)) else store (h' :: c) (fun k => l (k + 1)) s i

/-- New variables under the number `h`: `vs`, then `nil`. -/
def fresh (h : Nat) (vs : List Val) (s : Cells) : Cells := fun i => if i = h then Unwind.start vs else s i

/-- The block of a method: none; or the number of the block, and of the place where it was written: `self`, the numbers of the
calls whose variables it sees, the block of the method there. -/
inductive Given
  | none
  | block (b : BitVec 32) (self : Val) (sees : List Nat) (up : Given)

/-- `{ |p₁, …, p_params| body }` -/
structure Block where
  id : BitVec 32
  params : Nat
  ctx : Ctx
  body : Node

/-- The arguments for the parameters: if there is more than one parameter and the only argument is an array, its elements;
arguments that are too many are left out. -/
def blockArgs (K : World W X) (params : Nat) (vs : List Val) (σ : St W) : List Val :=
  (match vs with
    | [v] => if 1 < params then (K.asArray v σ).getD [v] else [v]
    | _ => vs).take params

/-- The program: methods and blocks. -/
structure Program where
  methods : List Unwind.Method
  blocks : List Block

def Program.method (P : Program) (m : Id) : Option Unwind.Method := P.methods.find? (·.id = m)
def Program.block (P : Program) (b : BitVec 32) : Option Block := P.blocks.find? (·.id = b)

/-- Something was cut off. -/
def cut (σ : St (Full W)) : Eff (Full W) X Val := (.ok Value.nil, ⟨σ.locals, (σ.w.1, (σ.w.2.1, false))⟩)

/-- The state in which a body starts: new variables under the first of the numbers `c'`.  `c`: what is seen from the place of
the call. -/
def enter (c c' : List Nat) (vs : List Val) (σ : St (Full W)) : St (Full W) :=
  let s := fresh (c'.headD 0) vs (store c σ.locals σ.w.2.1)
  ⟨look c' s, (σ.w.1, (s, σ.w.2.2))⟩

/-- The state after a body that has ended in `σ'`, seen from the place of the call again. -/
def resume (c c' : List Nat) (σ σ' : St (Full W)) : St (Full W) :=
  let s := store c' σ'.locals σ'.w.2.1
  ⟨look c s, (σ'.w.1, (s, σ.w.2.2 && σ'.w.2.2))⟩

/-- How a call ends: value or exception. -/
def back (c c' : List Nat) (σ : St (Full W)) : Ans (Full W) X → Eff (Full W) X Val
  | some (.val v, σ') => (.ok v, resume c c' σ σ')
  | some (.ret v _, σ') => (.ok v, resume c c' σ σ')
  | some (.raise x, σ') => (.error x, resume c c' σ σ')
  | _ => cut σ

/-- How a run of a block ends: value (also of `next`) or exception. -/
def backB (c c' : List Nat) (σ : St (Full W)) : Ans (Full W) X → Eff (Full W) X Val
  | some (.val v, σ') => (.ok v, resume c c' σ σ')
  | some (.nxt v, σ') => (.ok v, resume c c' σ σ')
  | some (.raise x, σ') => (.error x, resume c c' σ σ')
  | _ => cut σ

/-- Errors: wrong number of arguments; `yield` in a method that has no block. -/
structure Errors (X : Type) where
  wrong : X
  noBlock : X

/-- Call a method of the program.  `inner`: what calls inside it do, if they are not too deep. -/
def callMethod (err : Errors X) (rb : Bool) (n : Nat) (inner : Option (Nat → Val → List Nat → Given → World (Full W) X))
    (h : Nat) (c : List Nat) (g : Given) (f : Unwind.Method) (o : Val) (vs : List Val) (σ : St (Full W)) : Eff (Full W) X Val :=
  match inner with
  | none => cut σ
  | some K =>
    if vs.length ≠ f.arity then (.error err.wrong, σ)
    else back c [h + 1] σ (eval (K (h + 1) o [h + 1] g) o rb f.ctx n f.body true (enter c [h + 1] vs σ))

/-- Run a block. -/
def runBlock (rb : Bool) (n : Nat) (inner : Option (Nat → Val → List Nat → Given → World (Full W) X)) (h : Nat) (c : List Nat)
    (me : Val) (sees : List Nat) (up : Given) (bl : Block) (vs : List Val) (σ : St (Full W)) : Eff (Full W) X Val :=
  match inner with
  | none => cut σ
  | some K =>
    backB c ((h + 1) :: sees) σ (eval (K (h + 1) me ((h + 1) :: sees) up) me rb bl.ctx n bl.body true (enter c ((h + 1) :: sees) vs σ))

/-- What happens in call number `h`, with `self = me`, which sees the variables under the numbers `c`, in a method with the
block `g`.  `base me`: what code with `self = me` does to objects; in it, calls of other methods than those of the program. -/
def layer (base : Val → World W X) (P : Program) (err : Errors X) (rb : Bool) (n : Nat)
    (inner : Option (Nat → Val → List Nat → Given → World (Full W) X)) (h : Nat) (me : Val) (c : List Nat) (g : Given) :
    World (Full W) X :=
  { flagged (base me) with
    send := fun m o vs σ =>
      match P.method m with
      | none => through ((base me).send m o vs) σ
      | some f => callMethod err rb n inner h c .none f o vs σ
    sendB := fun b m o vs σ =>
      match P.method m with
      | none => through ((base me).sendB b m o vs) σ
      | some f => callMethod err rb n inner h c (.block b me c g) f o vs σ
    yield_ := fun vs σ =>
      match g with
      | .none => (.error err.noBlock, σ)
      | .block b me' sees up =>
        match P.block b with
        | none => cut σ
        | some bl => runBlock rb n inner h c me' sees up bl (blockArgs (base me) bl.params vs (untag σ)) σ }

/-- The same, with calls nested at most `d` deep. -/
def world (base : Val → World W X) (P : Program) (err : Errors X) (rb : Bool) (n : Nat) :
    Nat → Nat → Val → List Nat → Given → World (Full W) X
  | 0 => layer base P err rb n none
  | d + 1 => layer base P err rb n (some (world base P err rb n d))

/-- Evaluate the program `e`; its variables have the number 0. -/
def run (base : Val → World W X) (P : Program) (err : Errors X) (rb : Bool) (n d : Nat) (self : Val) (x : Ctx) (e : Node)
    (σ : St W) : Ans (Full W) X :=
  eval (world base P err rb n d 0 self [0] .none) self rb x n e true ⟨σ.locals, (σ.w, (fun _ => σ.locals, true))⟩

end Verif.Blocks
