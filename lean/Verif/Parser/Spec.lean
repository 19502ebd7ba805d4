import Verif.Parser.Model
import Verif.Lexer.Spec
/-!
# The syntax of expressions (specification for C49)

How a tree is written (`body`, `print`), with the parentheses that the precedence table demands and no others, and
which trees a program can consist of (`Tree`).
-/
namespace Verif.Parser
open Verif.Lexer (Chars BinOp Punct Tok Name Text i64Max)

/-! ## Precedence -/

/-- How tightly a binary operator binds. -/
def binLevel : BinOp → Nat
  | .LOr => 5
  | .LAnd => 6
  | .Eq | .Ne | .TEq | .Match => 7
  | .Gt | .Ge | .Lt | .Le | .Cmp => 8
  | .BitOr | .BitXor => 9
  | .BitAnd => 10
  | .Shl | .Shr => 11
  | .Add | .Sub => 12
  | .Mul | .Div | .Rem => 13
  | .Exp => 15

/-- How tightly the left operand of a binary operator must bind to need no parentheses: as tightly as the operator if
that groups to the left, more tightly if it groups to the right (`**`) or not at all (`==` and the like). -/
def leftLevel : BinOp → Nat
  | .Exp => 16
  | .Eq | .Ne | .TEq | .Match => 8
  | op => binLevel op

/-- The same for the right operand. -/
def rightLevel : BinOp → Nat
  | .Exp => 15
  | op => binLevel op + 1

def binText : BinOp → Chars
  | .LOr => ['|', '|'] | .LAnd => ['&', '&'] | .Eq => ['=', '='] | .Ne => ['!', '='] | .TEq => ['=', '=', '=']
  | .Match => ['=', '~'] | .Gt => ['>'] | .Ge => ['>', '='] | .Lt => ['<'] | .Le => ['<', '='] | .Cmp => ['<', '=', '>']
  | .BitOr => ['|'] | .BitXor => ['^'] | .BitAnd => ['&'] | .Shl => ['<', '<'] | .Shr => ['>', '>'] | .Add => ['+']
  | .Sub => ['-'] | .Mul => ['*'] | .Div => ['/'] | .Rem => ['%'] | .Exp => ['*', '*']

def unText : UnOp → Chars
  | .BitNot => ['~'] | .Not => ['!'] | .Pos => ['+'] | .Neg => ['-']

/-- How tightly a tree binds: a statement list 0, an assignment 2, `? :` 3, a range 4, the binary operators 5–13 and 15,
`-x` and negative numbers 14, the other unary operators 16, method calls and indexing 17, and what needs no parentheses
anywhere 18. -/
def lvl : Node → Nat
  | .CompStmt _ => 0
  | .MulAssign _ _ => 2
  | .AssignOp .. => 2
  | .If .. => 3
  | .Range .. => 4
  | .BinOp op _ _ => binLevel op
  | .UnOp .Neg _ => 14
  | .UnOp _ _ => 16
  | .Integer i => if i < 0 then 14 else 18
  | .Bignum n => if n < 0 then 14 else 18
  | .Send .SelfValue _ _ false => 18
  | .Send .. => 17
  | .Index .. => 17
  | _ => 18

/-! ## Writing -/

def digitChar : Nat → Char
  | 0 => '0' | 1 => '1' | 2 => '2' | 3 => '3' | 4 => '4' | 5 => '5' | 6 => '6' | 7 => '7' | 8 => '8' | _ => '9'

/-- A number in decimal. -/
def decimal (n : Nat) : Chars :=
  if n < 10 then [digitChar n] else decimal (n / 10) ++ [digitChar (n % 10)]

/-- A number in decimal, with its sign. -/
def number (n : Int) : Chars :=
  if n < 0 then ' ' :: '-' :: ' ' :: decimal n.natAbs else ' ' :: decimal n.natAbs

/-- The text of a string, with `"`, `\` and `#` behind a backslash. -/
def quoted : Chars → Chars
  | [] => []
  | c :: s => if c = '"' ∨ c = '\\' ∨ c = '#' then '\\' :: c :: quoted s else c :: quoted s

/-- Put parentheses around the text of a tree that binds less tightly than its place demands. -/
def wrap (p : Nat) (e : Node) (text : Chars) : Chars :=
  if lvl e < p then ' ' :: '(' :: (text ++ [' ', ')']) else text

/-- The tree's text starts with a number (that no parenthesis precedes).  -/
def startsNumber : Node → _root_.Bool
  | .Integer i => 0 ≤ i
  | .Bignum n => 0 ≤ n
  | .BinOp op l _ => leftLevel op ≤ lvl l && startsNumber l
  | .Index b _ => 17 ≤ lvl b && startsNumber b
  | .Send r _ _ _ => 17 ≤ lvl r && startsNumber r
  | _ => false

/-- `- 5` is a number, so `-@` of a number, or of something whose text starts with a number, needs parentheses — but
not of a power of a number, since `- 5 ** e` is `-@` of the power. -/
def negLevel (e : Node) : Nat :=
  match e with
  | .BinOp .Exp (.Integer _) _ => 14
  | .BinOp .Exp (.Bignum _) _ => 14
  | _ => if startsNumber e then 19 else 14

mutual
/-- The text of a tree.  Every token is preceded by a space, except the parenthesis of a call and the bracket of an
index. -/
def body : Node → Chars
  | .SelfValue => [' ', 's', 'e', 'l', 'f']
  | .Nil => [' ', 'n', 'i', 'l']
  | .Bool true => [' ', 't', 'r', 'u', 'e']
  | .Bool false => [' ', 'f', 'a', 'l', 's', 'e']
  | .Integer i => number i
  | .Bignum n => number n
  | .String s => ' ' :: '"' :: (quoted s ++ ['"'])
  | .LocalVar x => ' ' :: x
  | .Ident x => ' ' :: x
  | .InstanceVar x => ' ' :: x
  | .GlobalVar x => ' ' :: x
  | .ClassVar x => ' ' :: x
  | .Const _ x => ' ' :: x
  | .Range a b false _ => wrap 5 a (body a) ++ ' ' :: '.' :: '.' :: wrap 5 b (body b)
  | .Range a b true _ => wrap 5 a (body a) ++ ' ' :: '.' :: '.' :: '.' :: wrap 5 b (body b)
  | .Array l _ => ' ' :: '[' :: (items 2 l ++ [' ', ']'])
  | .BinOp op l r =>
    wrap (leftLevel op) l (body l) ++ ' ' :: (binText op ++ wrap (rightLevel op) r (body r))
  | .UnOp .Neg e => ' ' :: '-' :: wrap (negLevel e) e (body e)
  | .UnOp op e => ' ' :: (unText op ++ wrap 16 e (body e))
  | .Index b l => wrap 17 b (body b) ++ '[' :: (items 2 l ++ [' ', ']'])
  | .Splat e => ' ' :: '*' :: wrap 3 e (body e)
  | .AssignOp op l r => wrap 17 l (body l) ++ ' ' :: (binText op ++ '=' :: wrap 2 r (body r))
  | .MulAssign ls rs => items 17 ls ++ ' ' :: '=' :: items 2 rs
  | .CompStmt l => stmts l
  | .If c t e => wrap 4 c (body c) ++ ' ' :: '?' :: (wrap 3 t (body t) ++ ' ' :: ':' :: wrap 3 e (body e))
  | .Send .SelfValue f args false => ' ' :: (f ++ '(' :: (items 3 args ++ [' ', ')']))
  | .Send r m args false => wrap 17 r (body r) ++ ' ' :: '.' :: ' ' :: (m ++ arguments args)
  | .Send r m args true => wrap 17 r (body r) ++ ' ' :: '&' :: '.' :: ' ' :: (m ++ arguments args)
  | .Defined e => " defined? (".toList ++ (wrap 2 e (body e) ++ [' ', ')'])
  | _ => []
/-- Trees with commas between them. -/
def items (p : Nat) : List Node → Chars
  | [] => []
  | e :: l => wrap p e (body e) ++ more p l
def more (p : Nat) : List Node → Chars
  | [] => []
  | e :: l => ' ' :: ',' :: (wrap p e (body e) ++ more p l)
/-- The arguments of a method call, in parentheses if there are any. -/
def arguments : List Node → Chars
  | [] => []
  | e :: l => '(' :: (wrap 3 e (body e) ++ more 3 l ++ [' ', ')'])
/-- Statements with semicolons between them. -/
def stmts : List Node → Chars
  | [] => []
  | e :: l => wrap 1 e (body e) ++ moreStmts l
def moreStmts : List Node → Chars
  | [] => []
  | e :: l => ' ' :: ';' :: (wrap 1 e (body e) ++ moreStmts l)
end

/-- The text of a tree at a place that demands level `p`. -/
def print (p : Nat) (e : Node) : Chars := wrap p e (body e)

/-- A program: statements with semicolons between them. -/
def program (l : List Node) : Chars := stmts l

/-! ## Trees -/

/-- The name of a local variable or method: an identifier that is not a literal. -/
def VarName (x : Chars) : Prop :=
  Text x (.Ident x) ∧ x ∉ ["true", "false", "nil", "self", "__LINE__", "__FILE__"].map String.toList

/-- The variables known after an assignment to the name. -/
def withVar (x : Chars) (Γ : List Chars) : List Chars := if Γ.contains x then Γ else x :: Γ

/-- The variables known after an assignment to the tree. -/
def varsAfter (l : Node) (Γ : List Chars) : List Chars :=
  match l with
  | .Ident x => withVar x Γ
  | _ => Γ

/-- What can be assigned to, beside a new local variable. -/
inductive Target : Node → Prop
  | lvar {x} : Target (.LocalVar x)
  | ivar {x} : Target (.InstanceVar x)
  | gvar {x} : Target (.GlobalVar x)
  | cvar {x} : Target (.ClassVar x)
  | const {b x} : Target (.Const b x)
  | index {b l} : Target (.Index b l)
  | attr {r m safe} : (r = .SelfValue → safe = true) → Target (.Send r m [] safe)

/-- The operators with an assignment form.  (`||=` and `&&=` are shorthands; there is no `**=`.) -/
def assignOps : List BinOp := [.Add, .Sub, .Mul, .Div, .Rem, .Shr, .Shl, .BitAnd, .BitOr, .BitXor]

mutual
/-- `Tree Γ e Γ'`: the tree `e` can stand where the local variables `Γ` are known, and `Γ'` are known after it.  A name
is a local variable if it has been assigned to the left of it, and a method call otherwise. -/
inductive Tree : List Chars → Node → List Chars → Prop
  | self {Γ} : Tree Γ .SelfValue Γ
  | nil {Γ} : Tree Γ .Nil Γ
  | bool {Γ b} : Tree Γ (.Bool b) Γ
  | int {Γ i} : -i64Max ≤ i → i ≤ i64Max → Tree Γ (.Integer i) Γ
  | big {Γ n} : n < -i64Max ∨ i64Max < n → Tree Γ (.Bignum n) Γ
  | string {Γ s} : Tree Γ (.String s) Γ
  | lvar {Γ x} : VarName x → x ∈ Γ → Tree Γ (.LocalVar x) Γ
  | ident {Γ x} : VarName x → x ∉ Γ → Tree Γ (.Ident x) Γ
  | ivar {Γ x} : Text x (.InstanceVar x) → Tree Γ (.InstanceVar x) Γ
  | gvar {Γ x} : Text x (.GlobalVar x) → Tree Γ (.GlobalVar x) Γ
  | cvar {Γ x} : Text x (.ClassVar x) → Tree Γ (.ClassVar x) Γ
  | const {Γ x} : Text x (.Const x) → Tree Γ (.Const false x) Γ
  | range {Γ Γ₁ Γ₂ a b ex c} : Tree Γ a Γ₁ → Tree Γ₁ b Γ₂ → c = (a.is_integer && b.is_integer) →
      Tree Γ (.Range a b ex c) Γ₂
  | array {Γ Γ' l c} : Items Γ l Γ' → c = l.all Node.is_const_expr → Tree Γ (.Array l c) Γ'
  | bin {Γ Γ₁ Γ₂ op l r} : Tree Γ l Γ₁ → Tree Γ₁ r Γ₂ → Tree Γ (.BinOp op l r) Γ₂
  | un {Γ Γ' op e} : Tree Γ e Γ' → Tree Γ (.UnOp op e) Γ'
  | index {Γ Γ₁ Γ₂ b l} : Tree Γ b Γ₁ → Items Γ₁ l Γ₂ → Tree Γ (.Index b l) Γ₂
  | if_ {Γ Γ₁ Γ₂ Γ₃ c t e} : Tree Γ c Γ₁ → Tree Γ₁ t Γ₂ → Tree Γ₂ e Γ₃ → Tree Γ (.If c t e) Γ₃
  | call {Γ Γ' f args} : VarName f ∨ Text f (.Const f) → Items Γ args Γ' → Tree Γ (.Send .SelfValue f args false) Γ'
  | send {Γ Γ₁ Γ₂ r m args safe} : Tree Γ r Γ₁ → (∀ x, r ≠ .Ident x) → (r = .SelfValue → safe = true) →
      Name m → Items Γ₁ args Γ₂ → Tree Γ (.Send r m args safe) Γ₂
  | assign {Γ Γ₁ Γ₂ l r} : Target l → Tree Γ l Γ₁ → Tree Γ₁ r Γ₂ → Tree Γ (.MulAssign [l] [r]) Γ₂
  | assignNew {Γ Γ' x r} : VarName x → x ∉ Γ → Tree (x :: Γ) r Γ' → Tree Γ (.MulAssign [.Ident x] [r]) Γ'
  | assignOp {Γ Γ₁ Γ₂ op l r} : op ∈ assignOps → Target l → Tree Γ l Γ₁ → Tree Γ₁ r Γ₂ → Tree Γ (.AssignOp op l r) Γ₂
  | assignOpNew {Γ Γ' op x r} : op ∈ assignOps → VarName x → x ∉ Γ → Tree Γ r Γ' →
      Tree Γ (.AssignOp op (.Ident x) r) (withVar x Γ')
  | defined {Γ Γ' e} : Tree Γ e Γ' → Tree Γ (.Defined e) Γ'
  | seq {Γ Γ' l} : l.length ≠ 1 → Stmts Γ l Γ' → Tree Γ (.CompStmt l) Γ'
/-- Elements of a list: trees, or `*` and a tree. -/
inductive Items : List Chars → List Node → List Chars → Prop
  | nil {Γ} : Items Γ [] Γ
  | cons {Γ Γ₁ Γ₂ e l} : Tree Γ e Γ₁ → Items Γ₁ l Γ₂ → Items Γ (e :: l) Γ₂
  | splat {Γ Γ₁ Γ₂ e l} : Tree Γ e Γ₁ → Items Γ₁ l Γ₂ → Items Γ (.Splat e :: l) Γ₂
/-- Statements. -/
inductive Stmts : List Chars → List Node → List Chars → Prop
  | nil {Γ} : Stmts Γ [] Γ
  | cons {Γ Γ₁ Γ₂ e l} : Tree Γ e Γ₁ → Stmts Γ₁ l Γ₂ → Stmts Γ (e :: l) Γ₂
end

/-! ## Parentheses -/

/-- A statement list. -/
def isList : Node → _root_.Bool
  | .CompStmt _ => true
  | _ => false

mutual
/-- The tree without the statement lists that parentheses leave around a single statement.  (What is assigned to has no
parentheses around it.) -/
def strip : Node → Node
  | .Range a b ex c => .Range (strip a) (strip b) ex c
  | .Array l c => .Array (stripAll l) c
  | .Scope e x => .Scope (strip e) x
  | .BinOp op l r => .BinOp op (strip l) (strip r)
  | .UnOp op e => .UnOp op (strip e)
  | .Index b l => .Index (strip b) (stripAll l)
  | .Splat e => .Splat (strip e)
  | .AssignOp op l r => .AssignOp op (if isList l then l else strip l) (strip r)
  | .MulAssign ls rs => .MulAssign (stripTargets ls) (stripAll rs)
  | .CompStmt [e] => strip e
  | .CompStmt l => .CompStmt (stripAll l)
  | .If c t e => .If (strip c) (strip t) (strip e)
  | .While c b x => .While (strip c) (strip b) x
  | .Rescue e r => .Rescue (strip e) (strip r)
  | .Break e => .Break (strip e)
  | .Next e => .Next (strip e)
  | .Return e => .Return (strip e)
  | .Send r m args safe => .Send (strip r) m (stripAll args) safe
  | .Defined e => .Defined (strip e)
  | .Def name params (.CompStmt l) vars => .Def name params (.CompStmt (stripAll l)) vars
  | e => e
def stripAll : List Node → List Node
  | [] => []
  | e :: l => strip e :: stripAll l
def stripTargets : List Node → List Node
  | [] => []
  | e :: l => (if isList e then e else strip e) :: stripTargets l
end

end Verif.Parser
