import Verif.Meaning.Named
/-!
# Programs with methods (specification for C82)

A program with methods that call each other and themselves, run by names: a call of a method of the program runs its body,
with the parameters bound to the arguments, all other local variables `nil`, and `self` the receiver.
-/
namespace Verif.Methods
open Verif.Lexer (Chars)
open Verif.Parser (Node)
open Verif.Meaning.Named
open Verif.Value (Val)

/-- `def name(params) body end` -/
structure Method where
  name : Chars
  params : List Chars
  body : List Node

/-- The local variables when a body starts. -/
def bind : List Chars → List Val → Chars → Val
  | x :: xs, v :: vs, y => if y = x then v else bind xs vs y
  | _, _, _ => Value.nil

variable {W X : Type}

/-- Run the statements of a body.  A body that comes to its end and one that is left by `return` have a value. -/
def body (O : Objects W X) (self : Val) (n : Nat) (l : List Node) (s : State W) : Option (End X × State W) :=
  match runSeq O self n l true s with
  | some (.value v, s) => some (.returns v, s)
  | some (.ret v, s) => some (.returns v, s)
  | some (.raise x, s) => some (.raises x, s)
  | _ => none

/-- `O me`: what code with `self = me` does to objects; in it, calls of other methods than those of the program.
`wrong`: the error for a wrong number of arguments.  `stop` stands for the answer of a call that is not finished with calls
nested at most `d` deep and loops of at most `n` rounds.

Call the method `m` of the object `o` with the arguments `vs`, in code with `self = me`. -/
def call (O : Val → Objects W X) (P : List Method) (wrong stop : X) (n : Nat) :
    Nat → Val → Chars → Val → List Val → W → Except X Val × W
  | d, me, m, o, vs, w =>
    match P.find? (·.name = m), d with
    | none, _ => (O me).call m o vs w
    | some _, 0 => (.error stop, w)
    | some f, d + 1 =>
      if vs.length ≠ f.params.length then (.error wrong, w)
      else
        match body { O o with call := call O P wrong stop n d o } o n f.body ⟨bind f.params vs, w⟩ with
        | some (.returns v, s) => (.ok v, s.w)
        | some (.raises x, s) => (.error x, s.w)
        | none => (.error stop, w)

/-- The objects, with the methods of the program. -/
def objects (O : Val → Objects W X) (P : List Method) (wrong stop : X) (n d : Nat) (me : Val) : Objects W X :=
  { O me with call := call O P wrong stop n d me }

/-- Run a program: methods and statements. -/
def program (O : Val → Objects W X) (P : List Method) (wrong stop : X) (n d : Nat) (self : Val) (l : List Node) (w : W) :
    Option (End X × State W) :=
  Meaning.Named.program (objects O P wrong stop n d self) self n l w

end Verif.Methods
