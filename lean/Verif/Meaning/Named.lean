import Verif.Parser.Grammar
import Verif.Value.Model
/-!
# What a program means (specification for C76 and C78)

An evaluator for the trees that texts stand for.  Variables, instance variables, global variables and methods go by their
names; what operators and methods do to objects is given (`Objects`).  It knows nothing of identifiers, slots, instructions,
stacks or of the trees of the compiler, and it follows Ruby: operands from left to right, jumps, the values of assignments.

Not described (`none`): what the model of the compiler leaves out, and an assignment with an operator to an element or an
attribute (`a[i] += 1`).
-/
namespace Verif.Meaning.Named
open Verif.Lexer (Chars BinOp)
open Verif.Parser (Node)
open Verif.Value (Val)

/-- What there is in a world `W` of objects, by name.  Each operation gives a value or an exception, and the world after. -/
structure Objects (W X : Type) where
  /-- `a + b` and other operators. -/
  op : BinOp → Val → Val → W → Except X Val × W
  /-- `a == b`, `a != b`, `a < b`, `a <= b`, `a > b`, `a >= b`. -/
  test : BinOp → Val → Val → W → Except X Bool × W
  /-- `-a`, `+a`, `~a`. -/
  unary : Parser.UnOp → Val → W → Except X Val × W
  ivar : Chars → W → Val
  setIvar : Chars → Val → W → W
  gvar : Chars → W → Val
  setGvar : Chars → Val → W → W
  /-- Call the method of this name. -/
  call : Chars → Val → List Val → W → Except X Val × W
  /-- `a..b` (`a...b` if `true`) -/
  range : Val → Val → Bool → W → Except X Val × W
  /-- `a[i]` -/
  index : Val → Val → W → Except X Val × W
  /-- `a[i] = v` -/
  setIndex : Val → Val → Val → W → Except X Unit × W
  /-- A new array. -/
  array : List Val → W → Val × W
  /-- The elements of an array. -/
  elements : Val → W → Option (List Val)
  /-- A new string. -/
  string : Chars → W → Val × W

/-- The local variables, by name, and the world. -/
structure State (W : Type) where
  vars : Chars → Val
  w : W

/-- How a piece of program ends. -/
inductive Out (X : Type)
  | value (v : Val)
  | raise (x : X)
  | brk (v : Val)
  | nxt (v : Val)
  | ret (v : Val)

variable {W X : Type}

abbrev Ans (W X : Type) := Option (Out X × State W)

/-- Only `nil` and `false` count as false.  (No object is represented by the two words in the second line.) -/
def truth (v : Val) : Bool :=
  v ≠ Value.nil ∧ v ≠ Value.bool false ∧
  v ≠ .word 0x04#64 ∧ v ≠ .word 0x34#64

def State.set (s : State W) (x : Chars) (v : Val) : State W := { s with vars := fun y => if y = x then v else s.vars y }

/-- Go on with the value; everything else ends the whole. -/
def onValue (r : Ans W X) (k : Val → State W → Ans W X) : Ans W X :=
  match r with
  | some (.value v, s) => k v s
  | r => r

/-- The answer of an operation in the world. -/
def answer (s : State W) : Except X Val × W → Ans W X
  | (.ok v, w) => some (.value v, { s with w := w })
  | (.error x, w) => some (.raise x, { s with w := w })

/-- Binary operators; `a =~ b` is a method call. -/
def apply (O : Objects W X) (op : BinOp) (a b : Val) (s : State W) : Ans W X :=
  if op ∈ [.Eq, .Ne, .Gt, .Ge, .Lt, .Le] then
    match O.test op a b s.w with
    | (.ok p, w) => some (.value (Value.bool p), { s with w := w })
    | (.error x, w) => some (.raise x, { s with w := w })
  else if op = .Match then answer s (O.call "=~".toList a [b] s.w)
  else answer s (O.op op a b s.w)

/-- A loop that goes on while the condition is `c` (`while`: true, `until`: false), at most `n` rounds. -/
def rounds (cond body : State W → Ans W X) (c : Bool) : Nat → State W → Ans W X
  | 0, _ => none
  | n + 1, s =>
    match cond s with
    | some (.value v, s) =>
      if truth v = c then
        match body s with
        | some (.value _, s) => rounds cond body c n s
        | some (.nxt _, s) => rounds cond body c n s
        | some (.brk v, s) => some (.value v, s)
        | r => r
      else some (.value Value.nil, s)
    | some (.nxt _, s) => rounds cond body c n s
    | some (.brk v, s) => some (.value v, s)
    | r => r

/-- Assign a variable. -/
def assign (O : Objects W X) (t : Node) (v : Val) (s : State W) : Option (State W) :=
  match t with
  | .Ident x => some (s.set x v)
  | .LocalVar x => some (s.set x v)
  | .InstanceVar x => some { s with w := O.setIvar x v s.w }
  | .GlobalVar x => some { s with w := O.setGvar x v s.w }
  | _ => none

/-- Assign several variables from left to right; missing values are nil. -/
def assignAll (O : Objects W X) : List Node → List Val → State W → Option (State W)
  | [], _, s => some s
  | t :: ts, vs, s =>
    match assign O t (vs.headD Value.nil) s with
    | some s => assignAll O ts vs.tail s
    | none => none

/-- Value of an element in an array of literals. -/
def literal : Node → Option Val
  | .Nil => some Value.nil
  | .Bool b => some (Value.bool b)
  | .Integer i => some (Value.integer i)
  | .Bignum n => some (Value.bignum n)
  | .CompStmt [e] => literal e
  | _ => none

def literals : List Node → Option (List Val)
  | [] => some []
  | e :: l =>
    match literal e, literals l with
    | some v, some vs => some (v :: vs)
    | _, _ => none

mutual
/-- Run a tree, at most `n` rounds of each loop.  `used`: its value is needed (strings and arrays of literals are not made
if not).  `none`: not done within these rounds, or not described here. -/
def run (O : Objects W X) (self : Val) (n : Nat) : Node → (used : Bool) → State W → Ans W X
  | .SelfValue, _, s => some (.value self, s)
  | .Nil, _, s => some (.value Value.nil, s)
  | .Bool b, _, s => some (.value (Value.bool b), s)
  | .Integer i, _, s => some (.value (Value.integer i), s)
  | .Bignum i, _, s => some (.value (Value.bignum i), s)
  | .String t, used, s =>
    if used then some (.value (O.string t s.w).1, { s with w := (O.string t s.w).2 }) else some (.value Value.nil, s)
  | .LocalVar x, _, s => some (.value (s.vars x), s)
  | .Ident m, _, s => answer s (O.call m self [] s.w)
  | .InstanceVar x, _, s => some (.value (O.ivar x s.w), s)
  | .GlobalVar x, _, s => some (.value (O.gvar x s.w), s)
  | .Range a b ex false, _, s =>
    onValue (run O self n a true s) fun v s => onValue (run O self n b true s) fun w s => answer s (O.range v w ex s.w)
  | .Array l true, used, s =>
    match literals l with
    | some vs =>
      if used then some (.value (O.array vs s.w).1, { s with w := (O.array vs s.w).2 }) else some (.value Value.nil, s)
    | none => none
  | .Array l false, _, s =>
    match runAll O self n l s with
    | some (.ok vs, s) => some (.value (O.array vs s.w).1, { s with w := (O.array vs s.w).2 })
    | some (.error o, s) => some (o, s)
    | none => none
  | .BinOp .LAnd a b, used, s =>
    onValue (run O self n a true s) fun v s => if truth v then run O self n b used s else some (.value v, s)
  | .BinOp .LOr a b, used, s =>
    onValue (run O self n a true s) fun v s => if truth v then some (.value v, s) else run O self n b used s
  | .BinOp op a b, _, s =>
    onValue (run O self n a true s) fun v s => onValue (run O self n b true s) fun w s => apply O op v w s
  | .UnOp .Not a, _, s => onValue (run O self n a true s) fun v s => some (.value (Value.bool (!truth v)), s)
  | .UnOp op a, _, s => onValue (run O self n a true s) fun v s => answer s (O.unary op v s.w)
  | .Index b [i], _, s =>
    onValue (run O self n b true s) fun v s => onValue (run O self n i true s) fun w s => answer s (O.index v w s.w)
  | .MulAssign [.Index b [i]] [r], _, s =>
    onValue (run O self n b true s) fun o s => onValue (run O self n i true s) fun k s =>
    onValue (run O self n r true s) fun v s =>
      match O.setIndex o k v s.w with
      | (.ok _, w) => some (.value v, { s with w := w })
      | (.error x, w) => some (.raise x, { s with w := w })
  | .MulAssign [.Send q m [] false] [r], _, s =>
    onValue (run O self n q true s) fun o s => onValue (run O self n r true s) fun v s =>
    onValue (answer s (O.call (m ++ ['=']) o [v] s.w)) fun _ s => some (.value v, s)
  | .MulAssign [.Ident x] [r], _, s => onValue (run O self n r true s) fun v s => some (.value v, s.set x v)
  | .MulAssign [.LocalVar x] [r], _, s => onValue (run O self n r true s) fun v s => some (.value v, s.set x v)
  | .MulAssign [.InstanceVar x] [r], _, s =>
    onValue (run O self n r true s) fun v s => some (.value v, { s with w := O.setIvar x v s.w })
  | .MulAssign [.GlobalVar x] [r], _, s =>
    onValue (run O self n r true s) fun v s => some (.value v, { s with w := O.setGvar x v s.w })
  | .MulAssign (t :: t' :: ts) [r], _, s =>
    onValue (run O self n r true s) fun v s =>
      (assignAll O (t :: t' :: ts) ((O.elements v s.w).getD [v]) s).map fun s => (.value v, s)
  | .MulAssign (t :: t' :: ts) (r :: r' :: rs), true, s =>
    match runAll O self n (r :: r' :: rs) s with
    | some (.ok vs, s) => (assignAll O (t :: t' :: ts) vs s).map fun s =>
      (.value (O.array vs s.w).1, { s with w := (O.array vs s.w).2 })
    | some (.error o, s) => some (o, s)
    | none => none
  | .MulAssign (t :: t' :: ts) (r :: r' :: rs), false, s =>
    match runFirst O self n (ts.length + 2) (r :: r' :: rs) s with
    | some (.ok vs, s) => (assignAll O (t :: t' :: ts) vs s).map fun s => (.value Value.nil, s)
    | some (.error o, s) => some (o, s)
    | none => none
  | .AssignOp .LAnd (.LocalVar x) r, _, s =>
    if truth (s.vars x) then onValue (run O self n r true s) fun v s => some (.value v, s.set x v)
    else some (.value (s.vars x), s)
  | .AssignOp .LOr (.LocalVar x) r, _, s =>
    if truth (s.vars x) then some (.value (s.vars x), s)
    else onValue (run O self n r true s) fun v s => some (.value v, s.set x v)
  | .AssignOp op (.LocalVar x) r, _, s =>
    onValue (run O self n r true s) fun b s' =>
    onValue (apply O op (s.vars x) b s') fun v s => some (.value v, s.set x v)
  | .AssignOp op (.InstanceVar x) r, _, s =>
    if op = .LAnd ∨ op = .LOr then none else
      onValue (run O self n r true s) fun b s' =>
      onValue (apply O op (O.ivar x s.w) b s') fun v s => some (.value v, { s with w := O.setIvar x v s.w })
  | .AssignOp op (.GlobalVar x) r, _, s =>
    if op = .LAnd ∨ op = .LOr then none else
      onValue (run O self n r true s) fun b s' =>
      onValue (apply O op (O.gvar x s.w) b s') fun v s => some (.value v, { s with w := O.setGvar x v s.w })
  | .CompStmt l, used, s => runSeq O self n l used s
  | .If c a b, used, s =>
    onValue (run O self n c true s) fun v s => if truth v then run O self n a used s else run O self n b used s
  | .While c b p, _, s => rounds (run O self n c true) (run O self n b false) p n s
  | .Break e, _, s => onValue (run O self n e true s) fun v s => some (.brk v, s)
  | .Next e, _, s => onValue (run O self n e true s) fun v s => some (.nxt v, s)
  | .Return e, _, s => onValue (run O self n e true s) fun v s => some (.ret v, s)
  | .Send q m args false, _, s =>
    onValue (run O self n q true s) fun o s =>
    match runAll O self n args s with
    | some (.ok vs, s) => answer s (O.call m o vs s.w)
    | some (.error o, s) => some (o, s)
    | none => none
  | _, _, _ => none

/-- Statements one after the other; the value is that of the last. -/
def runSeq (O : Objects W X) (self : Val) (n : Nat) : List Node → (used : Bool) → State W → Ans W X
  | [], _, s => some (.value Value.nil, s)
  | [e], used, s => run O self n e used s
  | e :: e' :: l, used, s => onValue (run O self n e false s) fun _ s => runSeq O self n (e' :: l) used s

/-- All values, from left to right. -/
def runAll (O : Objects W X) (self : Val) (n : Nat) : List Node → State W → Option (Except (Out X) (List Val) × State W)
  | [], s => some (.ok [], s)
  | e :: l, s =>
    match run O self n e true s with
    | some (.value v, s) =>
      match runAll O self n l s with
      | some (.ok vs, s) => some (.ok (v :: vs), s)
      | r => r
    | some (o, s) => some (.error o, s)
    | none => none

/-- All values, from left to right, of which only the first `k` are needed. -/
def runFirst (O : Objects W X) (self : Val) (n : Nat) :
    Nat → List Node → State W → Option (Except (Out X) (List Val) × State W)
  | _, [], s => some (.ok [], s)
  | k, e :: l, s =>
    match run O self n e (decide (0 < k)) s with
    | some (.value v, s) =>
      match runFirst O self n (k - 1) l s with
      | some (.ok vs, s) => some (.ok (v :: vs), s)
      | r => r
    | some (o, s) => some (.error o, s)
    | none => none
end

/-- What a whole program comes to. -/
inductive End (X : Type)
  | returns (v : Val)
  | raises (x : X)

/-- Run a program: all variables are `nil` at the start. -/
def program (O : Objects W X) (self : Val) (n : Nat) (l : List Node) (w : W) : Option (End X × State W) :=
  match runSeq O self n l true ⟨fun _ => Value.nil, w⟩ with
  | some (.value v, s) => some (.returns v, s)
  | some (.ret v, s) => some (.returns v, s)
  | some (.raise x, s) => some (.raises x, s)
  | _ => none

end Verif.Meaning.Named
