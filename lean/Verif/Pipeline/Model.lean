import Verif.Parser.Grammar
import Verif.Codegen.Supported
import Verif.Codegen.Plain
/-!
# From the parser's trees to the compiler's

In the code, parser and compiler share one type of trees (`ruruby-parse/src/node.rs:8-112`).  Here the models of the two
have types of their own, with different subsets: the parser's has names as texts, the compiler's has names as
identifiers and a form of its own for each way a node is compiled.  `lower` goes from one to the other.  It is not
defined (`none`) for what the model of the compiler leaves out: constants, class variables, floats, `defined?`,
safe navigation, splats, ranges between literal integers, arrays of literals with strings or arrays among them, indexing with
other than one argument, and multiple assignment to other than variables.
-/
namespace Verif.Pipeline
open Verif.Lexer (Chars)
open Verif.Codegen (Id Var Nodes Lit Ctx)

/-- `IdentId::get_id`: names to identifiers; `ruruby-common/src/id_table.rs`. -/
abbrev Names := Chars → Id

/-- A binary operator on compiled operands; `ruruby/src/codegen.rs:815-893`. -/
def bin (id : Names) (op : Lexer.BinOp) (l r : Codegen.Node) : Codegen.Node :=
  match op with
  | .Add => .binop .add l r
  | .Sub => .binop .sub l r
  | .Mul => .binop .mul l r
  | .Div => .binop .div l r
  | .Rem => .binop .rem l r
  | .Exp => .binop .exp l r
  | .Shr => .binop .shr l r
  | .Shl => .binop .shl l r
  | .BitAnd => .binop .band l r
  | .BitOr => .binop .bor l r
  | .BitXor => .binop .bxor l r
  | .Eq => .binop (.c .eq) l r
  | .Ne => .binop (.c .ne) l r
  | .Gt => .binop (.c .gt) l r
  | .Ge => .binop (.c .ge) l r
  | .Lt => .binop (.c .lt) l r
  | .Le => .binop (.c .le) l r
  | .TEq => .binop .teq l r
  | .Cmp => .binop .cmp l r
  | .LAnd => .land l r
  | .LOr => .lor l r
  | .Match => .send l (id "=~".toList) (.cons r .nil)

/-- `ruruby/src/codegen.rs:902-921` -/
def un : Parser.UnOp → Codegen.UnOp
  | .BitNot => .bitnot
  | .Not => .not
  | .Pos => .pos
  | .Neg => .neg

/-- Elements of an array of literals; `ruruby/src/codegen.rs:1776-1792`.  (The parser marks no array with an element
in parentheses as constant.) -/
def lowerLit : Parser.Node → Option Lit
  | .Nil => some .nil
  | .Bool b => some (.bool b)
  | .Integer i => some (.int i)
  | .Bignum n => some (.big n)
  | .CompStmt [e] => lowerLit e
  | _ => none

def lowerLits : List Parser.Node → Option (List Lit)
  | [] => some []
  | e :: l =>
    match lowerLit e, lowerLits l with
    | some a, some s => some (a :: s)
    | _, _ => none

/-- Targets of a multiple assignment; `ruruby/src/codegen.rs:262-277`. -/
def lowerVar (id : Names) : Parser.Node → Option Var
  | .Ident x => some (.lvar (id x))
  | .LocalVar x => some (.lvar (id x))
  | .InstanceVar x => some (.ivar (id x))
  | .GlobalVar x => some (.gvar (id x))
  | _ => none

def lowerVars (id : Names) : List Parser.Node → Option (List Var)
  | [] => some []
  | e :: l =>
    match lowerVar id e, lowerVars id l with
    | some a, some s => some (a :: s)
    | _, _ => none

/-- Two trees, or nothing. -/
def both (f : Codegen.Node → Codegen.Node → Codegen.Node) : Option Codegen.Node → Option Codegen.Node → Option Codegen.Node
  | some a, some b => some (f a b)
  | _, _ => none

/-- Three trees, or nothing. -/
def three (f : Codegen.Node → Codegen.Node → Codegen.Node → Codegen.Node) :
    Option Codegen.Node → Option Codegen.Node → Option Codegen.Node → Option Codegen.Node
  | some a, some b, some c => some (f a b c)
  | _, _, _ => none

/-- A multiple assignment, or nothing. -/
def massign : Option (List Var) → Option Nodes → Option Codegen.Node
  | some ts, some es => some (.massign ts es)
  | _, _ => none

mutual
/-- `Codegen::gen` looks at the kind of a node; `ruruby/src/codegen.rs:592-1614`. -/
def lower (id : Names) : Parser.Node → Option Codegen.Node
  | .SelfValue => some .self
  | .Nil => some (.lit .nil)
  | .Bool b => some (.lit (.bool b))
  | .Integer i => some (.lit (.int i))
  | .Bignum n => some (.lit (.big n))
  | .String s => some (.lit (.str (String.ofList s)))
  | .LocalVar x => some (.lvar (id x))
  | .Ident x => some (.ident (id x))
  | .InstanceVar x => some (.ivar (id x))
  | .GlobalVar x => some (.gvar (id x))
  | .Range a b ex false => both (fun a b => .range a b ex) (lower id a) (lower id b)
  | .Array l true => (lowerLits l).map .carray
  | .Array l false => (lowerAll id l).map .array
  | .BinOp op l r => both (bin id op) (lower id l) (lower id r)
  | .UnOp op e => (lower id e).map (.unop (un op))
  | .Index b [i] => both .index (lower id b) (lower id i)
  | .AssignOp op l r => assign id l (both (bin id op) (lower id l) (lower id r))
  | .MulAssign [l] [r] => assign id l (lower id r)
  | .MulAssign ls rs => massign (lowerVars id ls) (lowerAll id rs)
  | .CompStmt l => (lowerAll id l).map .seq
  | .If c t e => three .ite (lower id c) (lower id t) (lower id e)
  | .While c b x => both (fun c b => .while_ c b x) (lower id c) (lower id b)
  | .Break e => (lower id e).map .brk
  | .Next e => (lower id e).map .nxt
  | .Return e => (lower id e).map .ret
  | .Send r m args false =>
    match lower id r, lowerAll id args with
    | some r, some as => some (.send r (id m) as)
    | _, _ => none
  | _ => none

def lowerAll (id : Names) : List Parser.Node → Option Nodes
  | [] => some .nil
  | e :: l =>
    match lower id e, lowerAll id l with
    | some a, some s => some (.cons a s)
    | _, _ => none

/-- `gen_assign2`: assign the value of a tree; `ruruby/src/codegen.rs:368-458`. -/
def assign (id : Names) : Parser.Node → Option Codegen.Node → Option Codegen.Node
  | .Ident x, r => r.map (.assign (.lvar (id x)))
  | .LocalVar x, r => r.map (.assign (.lvar (id x)))
  | .InstanceVar x, r => r.map (.assign (.ivar (id x)))
  | .GlobalVar x, r => r.map (.assign (.gvar (id x)))
  | .Index b [i], r => three .assignIdx (lower id b) (lower id i) r
  | .Send q m _ _, r => both (fun q r => .attrAssign q (id m) r) (lower id q) r
  | _, _ => none
end

/-- What a program is compiled in: the variables that the parser found, in the order in which they appeared;
`ruruby/src/vm/executor.rs:271-286`, `ruruby/src/codegen.rs:92-118`.  `standardError` and `setter`: see `Ctx`. -/
def context (id : Names) (vars : List Chars) (setter : Id → Id) : Ctx where
  scopes := [⟨vars.reverse.map id, .method⟩]
  extern := []
  setter := setter
  standardError := id "StandardError".toList

end Verif.Pipeline
