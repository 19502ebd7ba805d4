import Verif.Codegen.Sem
/-!
# Programs with methods that raise and rescue (specification for C42)

Source trees with calls.  A call of a method of the program evaluates its body, by the evaluator of C31, with the parameters in
the first variables and all others `nil`; an exception that leaves the body is raised by the call.

A call that is nested too deep or does not finish is cut off.  That must not be mistaken for an exception, which a `rescue`
clause could catch; so the world carries a flag, which no operation looks at or sets, and which says that nothing has been cut
off so far.  An evaluation counts only if its flag is still up at the end.
-/
namespace Verif.Unwind
open Verif.Codegen
open Verif.Value (Val)

variable {W X F : Type}

/-- Add a flag (or anything else, see C83). -/
def tag (b : F) (σ : St W) : St (W × F) := ⟨σ.locals, (σ.w, b)⟩

/-- Forget the flag. -/
def untag (σ : St (W × F)) : St W := ⟨σ.locals, σ.w.1⟩

/-- An operation that leaves the flag alone. -/
def through {α : Type} (f : St W → α × St W) (σ : St (W × F)) : α × St (W × F) :=
  ((f (untag σ)).1, tag σ.w.2 (f (untag σ)).2)

/-- The same world, with a flag that it leaves alone. -/
def flagged (K : World W X) : World (W × F) X where
  bin op a b := through (K.bin op a b)
  binI op a i := through (K.binI op a i)
  cmp o a b := through (K.cmp o a b)
  cmpI o a i := through (K.cmpI o a i)
  un op v := through (K.un op v)
  getI i σ := K.getI i (untag σ)
  setI i v σ := tag σ.w.2 (K.setI i v (untag σ))
  getG i σ := K.getG i (untag σ)
  setG i v σ := tag σ.w.2 (K.setG i v (untag σ))
  send m o vs := through (K.send m o vs)
  sendB b m o vs := through (K.sendB b m o vs)
  yield_ vs := through (K.yield_ vs)
  range a b e := through (K.range a b e)
  index a b := through (K.index a b)
  indexI a i := through (K.indexI a i)
  setIndex a b v := through (K.setIndex a b v)
  setIndexI a i v := through (K.setIndexI a i v)
  mkArray vs := through (K.mkArray vs)
  asArray v σ := K.asArray v (untag σ)
  newStr s := through (K.newStr s)
  keyEq l v σ := K.keyEq l v (untag σ)
  exc x := through (K.exc x)
  thrown := K.thrown
  rescues v vs σ := K.rescues v vs (untag σ)
  constTop i := through (K.constTop i)
  binI_eq op h v i σ := by simp only [through, K.binI_eq op h v i]
  cmpI_eq o v i σ := by simp only [through, K.cmpI_eq o v i]
  indexI_eq v i σ := by simp only [through, K.indexI_eq v i]
  setIndexI_eq r i v σ := by simp only [through, K.setIndexI_eq r i v]
  exc_thrown v σ := by simp only [through, K.exc_thrown v]; rfl

/-- `def id(p₁ … p_arity) body end` -/
structure Method where
  id : Id
  arity : Nat
  /-- The names of the variables and what else the compiler knows. -/
  ctx : Ctx
  body : Node

/-- The variables when a body starts: the arguments, then `nil`. -/
def start (vs : List Val) : Nat → Nat → Val
  | 0, j => vs[j]?.getD Value.nil
  | _ + 1, _ => Value.nil

/-- Something was cut off. -/
def cut (σ : St (W × Bool)) : Eff (W × Bool) X Val := (.ok Value.nil, ⟨σ.locals, (σ.w.1, false)⟩)

/-- The state of a caller after a call: its variables are as before.  A flag that is down stays down. -/
def resume (σ σ' : St (W × Bool)) : St (W × Bool) := ⟨σ.locals, (σ'.w.1, σ.w.2 && σ'.w.2)⟩

/-- What the caller gets: value or exception. -/
def back (σ : St (W × Bool)) : Ans (W × Bool) X → Eff (W × Bool) X Val
  | some (.val v, σ') => (.ok v, resume σ σ')
  | some (.ret v _, σ') => (.ok v, resume σ σ')
  | some (.raise x, σ') => (.error x, resume σ σ')
  | _ => cut σ

/-- Call the method `m` of `o` with arguments `vs`, in code with `self = me`.  `base me`: what code with `self = me` does to
objects; in it, calls of other methods than those of the program `P`.  `wrong`: the error for a wrong number of arguments.
`d`: how deep calls are nested at most; `n`: rounds of a loop.  `rb`: as Ruby does (see `Codegen.eval`). -/
def call (base : Val → World W X) (P : List Method) (wrong : X) (rb : Bool) (n : Nat) :
    Nat → Val → Id → Val → List Val → St (W × Bool) → Eff (W × Bool) X Val
  | d, me, m, o, vs, σ =>
    match P.find? (·.id = m), d with
    | none, _ => (flagged (base me)).send m o vs σ
    | some _, 0 => cut σ
    | some f, d + 1 =>
      if vs.length ≠ f.arity then (.error wrong, σ)
      else back σ (eval { flagged (base o) with send := call base P wrong rb n d o } o rb f.ctx n f.body true ⟨start vs, σ.w⟩)

/-- The world with the methods of the program. -/
def world (base : Val → World W X) (P : List Method) (wrong : X) (rb : Bool) (n d : Nat) (me : Val) : World (W × Bool) X :=
  { flagged (base me) with send := call base P wrong rb n d me }

/-- Evaluate the program `e`. -/
def run (base : Val → World W X) (P : List Method) (wrong : X) (rb : Bool) (n d : Nat) (self : Val) (x : Ctx) (e : Node)
    (σ : St W) : Ans (W × Bool) X :=
  eval (world base P wrong rb n d self) self rb x n e true (tag true σ)

end Verif.Unwind
