import Verif.Parser.Grammar
/-!
# What a program over integers means (specification for C77)

An evaluator for the trees that texts stand for.  It knows mathematical integers, `true`, `false`, `nil` and variables by
their names; it knows nothing of identifiers, slots, words, instructions or stacks.
-/
namespace Verif.Meaning
open Verif.Lexer (Chars BinOp)
open Verif.Parser (Node)

inductive V
  | nil
  | bool (b : Bool)
  | int (n : Int)
  deriving DecidableEq

/-- Only `nil` and `false` count as false. -/
def V.truthy : V → Bool
  | .nil => false
  | .bool b => b
  | .int _ => true

/-- Values of the variables. -/
abbrev Store := Chars → V

def Store.set (ρ : Store) (x : Chars) (v : V) : Store := fun y => if y = x then v else ρ y

/-- How a piece of program ends. -/
inductive Out
  | value (v : V)
  | brk (v : V)
  | nxt
  | ret (v : V)
  | zeroDivision
  deriving DecidableEq

/-- Operators on integers; division rounds down, and the remainder has the sign of the divisor. -/
def arith : BinOp → Int → Int → Option Out
  | .Add, a, b => some (.value (.int (a + b)))
  | .Sub, a, b => some (.value (.int (a - b)))
  | .Mul, a, b => some (.value (.int (a * b)))
  | .Div, a, b => some (if b = 0 then .zeroDivision else .value (.int (a.fdiv b)))
  | .Rem, a, b => some (if b = 0 then .zeroDivision else .value (.int (a.fmod b)))
  | .Exp, a, b => if 0 ≤ b ∧ b < 2 ^ 32 then some (.value (.int (a ^ b.toNat))) else none
  | .Lt, a, b => some (.value (.bool (a < b)))
  | .Le, a, b => some (.value (.bool (a ≤ b)))
  | .Gt, a, b => some (.value (.bool (a > b)))
  | .Ge, a, b => some (.value (.bool (a ≥ b)))
  | .Cmp, a, b => some (.value (.int (if a < b then -1 else if a = b then 0 else 1)))
  | _, _, _ => none

/-- Operators.  `none`: other values (an exception that is not described here). -/
def apply : BinOp → V → V → Option Out
  | .Eq, a, b => some (.value (.bool (a = b)))
  | .Ne, a, b => some (.value (.bool (a ≠ b)))
  | op, .int a, .int b => arith op a b
  | _, _, _ => none

/-- Go on with the value; everything else ends the whole. -/
def onValue (r : Option (Out × Store)) (k : V → Store → Option (Out × Store)) : Option (Out × Store) :=
  match r with
  | some (.value v, ρ) => k v ρ
  | r => r

/-- A loop that goes on while the condition is `w` (`while`: true, `until`: false), at most `n` rounds. -/
def rounds (cond body : Store → Option (Out × Store)) (w : Bool) : Nat → Store → Option (Out × Store)
  | 0, _ => none
  | n + 1, ρ =>
    match cond ρ with
    | some (.value v, ρ) =>
      if v.truthy = w then
        match body ρ with
        | some (.value _, ρ) => rounds cond body w n ρ
        | some (.nxt, ρ) => rounds cond body w n ρ
        | some (.brk v, ρ) => some (.value v, ρ)
        | r => r
      else some (.value .nil, ρ)
    | some (.nxt, ρ) => rounds cond body w n ρ
    | some (.brk v, ρ) => some (.value v, ρ)
    | r => r

/-- Assign values to names by position. -/
def setAll : List Node → List V → Store → Store
  | .LocalVar x :: ts, v :: vs, ρ => setAll ts vs (ρ.set x v)
  | .Ident x :: ts, v :: vs, ρ => setAll ts vs (ρ.set x v)
  | _, _, ρ => ρ

mutual
/-- Run a tree, at most `n` rounds of each loop.  `none`: not done within these, or not described here. -/
def run (n : Nat) : Node → Store → Option (Out × Store)
  | .Nil, ρ => some (.value .nil, ρ)
  | .Bool b, ρ => some (.value (.bool b), ρ)
  | .Integer i, ρ => some (.value (.int i), ρ)
  | .Bignum i, ρ => some (.value (.int i), ρ)
  | .LocalVar x, ρ => some (.value (ρ x), ρ)
  | .BinOp .LAnd a b, ρ => onValue (run n a ρ) fun v ρ => if v.truthy then run n b ρ else some (.value v, ρ)
  | .BinOp .LOr a b, ρ => onValue (run n a ρ) fun v ρ => if v.truthy then some (.value v, ρ) else run n b ρ
  | .BinOp op a b, ρ =>
    onValue (run n a ρ) fun v ρ => onValue (run n b ρ) fun w ρ => (apply op v w).map fun o => (o, ρ)
  | .UnOp .Not a, ρ => onValue (run n a ρ) fun v ρ => some (.value (.bool (!v.truthy)), ρ)
  | .UnOp .Neg a, ρ => onValue (run n a ρ) fun v ρ =>
    match v with
    | .int i => some (.value (.int (-i)), ρ)
    | _ => none
  | .If c a b, ρ => onValue (run n c ρ) fun v ρ => if v.truthy then run n a ρ else run n b ρ
  | .While c b w, ρ => rounds (run n c) (run n b) w n ρ
  | .CompStmt l, ρ => runSeq n l ρ
  | .MulAssign [.LocalVar x] [r], ρ => onValue (run n r ρ) fun v ρ => some (.value v, ρ.set x v)
  | .MulAssign [.Ident x] [r], ρ => onValue (run n r ρ) fun v ρ => some (.value v, ρ.set x v)
  -- (`Ints` allows this only where the value, an array, is not used)
  | .MulAssign ts rs, ρ =>
    match runAll n rs ρ with
    | some (.ok vs, ρ) => some (.value .nil, setAll ts vs ρ)
    | some (.error o, ρ) => some (o, ρ)
    | none => none
  | .AssignOp op (.LocalVar x) r, ρ =>
    onValue (run n r ρ) fun w ρ' => onValue ((apply op (ρ x) w).map fun o => (o, ρ')) fun v ρ => some (.value v, ρ.set x v)
  | .Break e, ρ => onValue (run n e ρ) fun v ρ => some (.brk v, ρ)
  | .Next e, ρ => onValue (run n e ρ) fun _ ρ => some (.nxt, ρ)
  | .Return e, ρ => onValue (run n e ρ) fun v ρ => some (.ret v, ρ)
  | _, _ => none
/-- Statements one after the other; the value is that of the last. -/
def runSeq (n : Nat) : List Node → Store → Option (Out × Store)
  | [], ρ => some (.value .nil, ρ)
  | [e], ρ => run n e ρ
  | e :: l, ρ => onValue (run n e ρ) fun _ ρ => runSeq n l ρ
/-- All values, from left to right. -/
def runAll (n : Nat) : List Node → Store → Option (Except Out (List V) × Store)
  | [], ρ => some (.ok [], ρ)
  | e :: l, ρ =>
    match run n e ρ with
    | some (.value v, ρ) =>
      match runAll n l ρ with
      | some (.ok vs, ρ) => some (.ok (v :: vs), ρ)
      | r => r
    | some (o, ρ) => some (.error o, ρ)
    | none => none
end

/-- What a whole program comes to. -/
inductive Answer
  | returns (v : V)
  | divisionByZero
  deriving DecidableEq

/-- Run a program: all variables are `nil` at the start. -/
def program (n : Nat) (l : List Node) : Option (Answer × Store) :=
  match runSeq n l fun _ => .nil with
  | some (.value v, ρ) => some (.returns v, ρ)
  | some (.ret v, ρ) => some (.returns v, ρ)
  | some (.zeroDivision, ρ) => some (.divisionByZero, ρ)
  | _ => none

/-! ## The programs -/

def binOps : List BinOp := [.Add, .Sub, .Mul, .Div, .Rem, .Exp, .Lt, .Le, .Gt, .Ge, .Cmp, .Eq, .Ne]

def opAssigns : List BinOp := [.Add, .Sub, .Mul, .Div, .Rem]

def isLogic : BinOp → Bool
  | .LAnd | .LOr => true
  | _ => false

/-- The name of a variable. -/
def nameOf : Node → Option Chars
  | .LocalVar x => some x
  | .Ident x => some x
  | _ => none

mutual
/-- `Ints vars jump e used`: the tree is a program over integers with these variables.  `jump`: it stands as a statement in
a loop, so that it may be `break` or `next`.  `used`: its value is needed. -/
def Ints (vars : List Chars) : (jump : Bool) → Node → (used : Bool) → Prop
  | _, .Nil, _ => True
  | _, .Bool _, _ => True
  | _, .Integer i, _ => -2 ^ 63 ≤ i ∧ i < 2 ^ 63
  | _, .Bignum i, u => u = true ∧ (i < -2 ^ 62 ∨ 2 ^ 62 ≤ i)
  | _, .LocalVar x, _ => x ∈ vars
  | j, .BinOp op a b, u =>
    if isLogic op then Ints vars false a true ∧ Ints vars j b u
    else op ∈ binOps ∧ Ints vars false a true ∧ Ints vars false b true
  | _, .UnOp op a, _ => (op = .Not ∨ op = .Neg) ∧ Ints vars false a true
  | j, .If c a b, u => Ints vars false c true ∧ Ints vars j a u ∧ Ints vars j b u
  | _, .While c b _, _ => Ints vars false c true ∧ Ints vars true b false
  | j, .CompStmt l, u => IntsSeq vars j l u
  | _, .MulAssign [t] [r], _ => (∃ x, nameOf t = some x ∧ x ∈ vars) ∧ Ints vars false r true
  | _, .MulAssign ts rs, u =>
    u = false ∧ ts.length = rs.length ∧ 2 ≤ rs.length ∧ (∃ xs, ts.map nameOf = xs.map some ∧ xs.Nodup ∧ xs ⊆ vars) ∧
      IntsAll vars rs
  | _, .AssignOp op (.LocalVar x) r, _ => op ∈ opAssigns ∧ x ∈ vars ∧ Ints vars false r true
  | j, .Break e, _ => j = true ∧ Ints vars false e true
  | j, .Next e, u => j = true ∧ u = false ∧ e = .Nil
  | _, .Return e, _ => Ints vars false e true
  | _, _, _ => False
def IntsSeq (vars : List Chars) : (jump : Bool) → List Node → (used : Bool) → Prop
  | _, [], _ => True
  | j, [e], u => Ints vars j e u
  | j, e :: l, u => Ints vars j e false ∧ IntsSeq vars j l u
def IntsAll (vars : List Chars) : List Node → Prop
  | [] => True
  | e :: l => Ints vars false e true ∧ IntsAll vars l
end

mutual
/-- Number of nodes of the tree. -/
def nodes : Node → Nat
  | .BinOp _ a b => 1 + nodes a + nodes b
  | .UnOp _ a => 1 + nodes a
  | .If c a b => 1 + nodes c + nodes a + nodes b
  | .While c b _ => 1 + nodes c + nodes b
  | .CompStmt l => 1 + nodesAll l
  | .MulAssign ts rs => 1 + ts.length + nodesAll rs
  | .AssignOp _ _ r => 2 + nodes r
  | .Break e => 1 + nodes e
  | .Next e => 1 + nodes e
  | .Return e => 1 + nodes e
  | _ => 1
def nodesAll : List Node → Nat
  | [] => 0
  | e :: l => nodes e + nodesAll l
end

end Verif.Meaning
