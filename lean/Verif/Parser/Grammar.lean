import Verif.Parser.Spec
/-!
# The grammar of statements (specification for C49)

Statements as they are written, beside the trees of `Spec`: `and` and `or`, modifiers, conditionals, loops, jumps and
multiple assignment.  `Statement m Γ text tree Γ'` says: where the local variables `Γ` are known, `text` is a statement
that means `tree`, and `Γ'` are known after it.

`m` is true in the value of an assignment, where the parser reads no multiple assignment.
-/
namespace Verif.Parser
open Verif.Lexer (Chars BinOp Punct Tok Name Text)

/-- A word or sign, with a space before it. -/
def word (w : String) : Chars := ' ' :: w.toList

/-- One statement is that statement; none, or several, are a list. -/
def seq : List Node → Node
  | [e] => e
  | l => .CompStmt l

inductive Jump | ret | brk | nxt

def Jump.text : Jump → String
  | .ret => "return" | .brk => "break" | .nxt => "next"

def Jump.node : Jump → Node → Node
  | .ret, e => .Return e | .brk, e => .Break e | .nxt, e => .Next e

inductive Modifier | if_ | unless_ | while_ | until_

def Modifier.text : Modifier → String
  | .if_ => "if" | .unless_ => "unless" | .while_ => "while" | .until_ => "until"

/-- What a statement with a modifier means. -/
def Modifier.node (cond stmt : Node) : Modifier → Node
  | .if_ => .If cond stmt (.CompStmt [])
  | .unless_ => .If cond (.CompStmt []) stmt
  | .while_ => .While cond stmt true
  | .until_ => .While cond stmt false

/-- Has `*` before it. -/
def starred : Node → _root_.Bool
  | .Splat _ => true
  | _ => false

/-- The values of an assignment: those with `*` among them make an array, and so do several values for one target. -/
def values (targets : Nat) (l : List Node) : List Node :=
  if l.any starred || (targets == 1 && l.length != 1)
  then [.Array l (l.all Node.is_const_expr)] else l

/-- What can be assigned to, or a new name. -/
def Assignable (l : Node) : Prop := Target l ∨ ∃ x, l = .Ident x

/-- The targets of a multiple assignment after the first. -/
inductive Simple : List Chars → Node → Prop
  | lvar {Γ x} : VarName x → x ∈ Γ → Simple Γ (.LocalVar x)
  | ident {Γ x} : VarName x → x ∉ Γ → Simple Γ (.Ident x)
  | ivar {Γ x} : Text x (.InstanceVar x) → Simple Γ (.InstanceVar x)
  | gvar {Γ x} : Text x (.GlobalVar x) → Simple Γ (.GlobalVar x)
  | cvar {Γ x} : Text x (.ClassVar x) → Simple Γ (.ClassVar x)

/-- The variables known after a multiple assignment. -/
def varsAfterAll : List Node → List Chars → List Chars
  | [], Γ => Γ
  | l :: ls, Γ => varsAfterAll ls (varsAfter l Γ)

/-- After the condition of a conditional. -/
def Then (s : Chars) : Prop := s = word "then" ∨ s = word ";"

/-- The parameters of a method, with commas between them. -/
def formals : List Chars → Chars
  | [] => []
  | [x] => ' ' :: x
  | x :: y :: l => ' ' :: (x ++ (word "," ++ formals (y :: l)))

/-- Text of the definition of a method, for the text of its body. -/
def defText (name : Chars) (params : List Chars) (b : Chars) : Chars :=
  word "def" ++ (' ' :: (name ++ ('(' :: (formals params ++ (word ")" ++ (word ";" ++ (b ++ word "end")))))))

mutual
/-- What can be an operand of `and` and `or`. -/
inductive Arg : _root_.Bool → List Chars → Chars → Node → List Chars → Prop
  | tree {m Γ e Γ'} : Tree Γ e Γ' → Arg m Γ (print 2 e) e Γ'
  | if_ {m Γ s e Γ'} : IfThen m Γ s e Γ' → Arg m Γ (word "if" ++ (s ++ word "end")) e Γ'
  | unless {m Γ c cond Γ₁ t b e Γ₂} : Expr m Γ c cond Γ₁ → Then t → Body m Γ₁ b e Γ₂ →
      Arg m Γ (word "unless" ++ (c ++ (t ++ (b ++ word "end")))) (.If cond (.CompStmt []) e) Γ₂
  | unlessElse {m Γ c cond Γ₁ t b e Γ₂ b₂ e₂ Γ₃} : Expr m Γ c cond Γ₁ → Then t → Body m Γ₁ b e Γ₂ → Body m Γ₂ b₂ e₂ Γ₃ →
      Arg m Γ (word "unless" ++ (c ++ (t ++ (b ++ (word "else" ++ (b₂ ++ word "end")))))) (.If cond e₂ e) Γ₃
  | while {m Γ c cond Γ₁ b e Γ₂} : Expr m Γ c cond Γ₁ → Body m Γ₁ b e Γ₂ →
      Arg m Γ (word "while" ++ (c ++ (word ";" ++ (b ++ word "end")))) (.While cond e true) Γ₂
  | until {m Γ c cond Γ₁ b e Γ₂} : Expr m Γ c cond Γ₁ → Body m Γ₁ b e Γ₂ →
      Arg m Γ (word "until" ++ (c ++ (word ";" ++ (b ++ word "end")))) (.While cond e false) Γ₂
  | jump {m Γ e Γ'} (j : Jump) : Tree Γ e Γ' → Arg m Γ (word j.text ++ print 3 e) (j.node e) Γ'
  | jumpList {m Γ e es Γ'} (j : Jump) : Stmts Γ (e :: es) Γ' → es ≠ [] →
      Arg m Γ (word j.text ++ items 3 (e :: es)) (j.node (.Array (e :: es) ((e :: es).all Node.is_const_expr))) Γ'
  | unmatch {m Γ a Γ₁ b Γ₂} : Tree Γ a Γ₁ → Tree Γ₁ b Γ₂ →
      Arg m Γ (print 8 a ++ (word "!~" ++ print 8 b)) (.UnOp .Not (.BinOp .Match a b)) Γ₂
  | assign {m Γ l Γ₁ s r Γ₂} : Assignable l → Tree Γ l Γ₁ → Arg true (varsAfter l Γ₁) s r Γ₂ →
      Arg m Γ (print 17 l ++ (word "=" ++ s)) (.MulAssign [l] [r]) Γ₂
  | assignList {Γ l Γ₁ r Γ₂} : Assignable l → Tree Γ l Γ₁ → r ≠ [] → Items (varsAfter l Γ₁) r Γ₂ →
      Arg false Γ (print 17 l ++ (word "=" ++ items 2 r)) (.MulAssign [l] (values 1 r)) Γ₂
  /-- the definition of a method: its variables are none of those outside -/
  | defn {m Γ name params s l vars} : VarName name → (∀ x ∈ params, VarName x) → params.Nodup →
      Lines m params.reverse s l vars →
      Arg m Γ (defText name params (s ++ word ";")) (.Def name params (.CompStmt l) vars) Γ
  | defEmpty {m Γ name params} : VarName name → (∀ x ∈ params, VarName x) → params.Nodup →
      Arg m Γ (defText name params []) (.Def name params (.CompStmt []) params.reverse) Γ
/-- What can be a condition. -/
inductive Expr : _root_.Bool → List Chars → Chars → Node → List Chars → Prop
  | arg {m Γ s e Γ'} : Arg m Γ s e Γ' → Expr m Γ s e Γ'
  | mulAssign {Γ l Γ₁ ls r Γ₂} : Assignable l → Tree Γ l Γ₁ → ls ≠ [] → (∀ x ∈ ls, Simple Γ₁ x) → r ≠ [] → Items Γ₁ r Γ₂ →
      Expr false Γ (print 17 l ++ (more 17 ls ++ (word "=" ++ items 2 r)))
        (.MulAssign (l :: ls) (values (ls.length + 1) r)) (varsAfterAll (l :: ls) Γ₂)
  | and {m Γ s a Γ₁ t b Γ₂} : Expr m Γ s a Γ₁ → Arg m Γ₁ t b Γ₂ → Expr m Γ (s ++ (word "and" ++ t)) (.BinOp .LAnd a b) Γ₂
  | or {m Γ s a Γ₁ t b Γ₂} : Expr m Γ s a Γ₁ → Arg m Γ₁ t b Γ₂ → Expr m Γ (s ++ (word "or" ++ t)) (.BinOp .LOr a b) Γ₂
/-- A condition and its branches. -/
inductive IfThen : _root_.Bool → List Chars → Chars → Node → List Chars → Prop
  | one {m Γ c cond Γ₁ t b e Γ₂} : Expr m Γ c cond Γ₁ → Then t → Body m Γ₁ b e Γ₂ →
      IfThen m Γ (c ++ (t ++ b)) (.If cond e (.CompStmt [])) Γ₂
  | els {m Γ c cond Γ₁ t b e Γ₂ b₂ e₂ Γ₃} : Expr m Γ c cond Γ₁ → Then t → Body m Γ₁ b e Γ₂ → Body m Γ₂ b₂ e₂ Γ₃ →
      IfThen m Γ (c ++ (t ++ (b ++ (word "else" ++ b₂)))) (.If cond e e₂) Γ₃
  | elsif {m Γ c cond Γ₁ t b e Γ₂ s e₂ Γ₃} : Expr m Γ c cond Γ₁ → Then t → Body m Γ₁ b e Γ₂ → IfThen m Γ₂ s e₂ Γ₃ →
      IfThen m Γ (c ++ (t ++ (b ++ (word "elsif" ++ s)))) (.If cond e e₂) Γ₃
/-- The statements of a branch or loop, each with its semicolon. -/
inductive Body : _root_.Bool → List Chars → Chars → Node → List Chars → Prop
  | none {m Γ} : Body m Γ [] (.CompStmt []) Γ
  | some {m Γ s l Γ'} : Lines m Γ s l Γ' → Body m Γ (s ++ word ";") (seq l) Γ'
/-- Statements, with semicolons between them. -/
inductive Lines : _root_.Bool → List Chars → Chars → List Node → List Chars → Prop
  | one {m Γ s e Γ'} : Line m Γ s e Γ' → Lines m Γ s [e] Γ'
  | more {m Γ s e Γ₁ t l Γ₂} : Line m Γ s e Γ₁ → Lines m Γ₁ t l Γ₂ → Lines m Γ (s ++ (word ";" ++ t)) (e :: l) Γ₂
/-- A statement, or a jump without a value. -/
inductive Line : _root_.Bool → List Chars → Chars → Node → List Chars → Prop
  | statement {m Γ s e Γ'} : Statement m Γ s e Γ' → Line m Γ s e Γ'
  | jump {m Γ} (j : Jump) : Line m Γ (word j.text) (j.node .Nil) Γ
  | jumpIf {m Γ c cond Γ'} (j : Jump) : Expr m Γ c cond Γ' →
      Line m Γ (word j.text ++ (word "if" ++ c)) (.If cond (j.node .Nil) (.CompStmt [])) Γ'
  | jumpUnless {m Γ c cond Γ'} (j : Jump) : Expr m Γ c cond Γ' →
      Line m Γ (word j.text ++ (word "unless" ++ c)) (.If cond (.CompStmt []) (j.node .Nil)) Γ'
/-- A statement, with any number of modifiers. -/
inductive Statement : _root_.Bool → List Chars → Chars → Node → List Chars → Prop
  | expr {m Γ s e Γ'} : Expr m Γ s e Γ' → Statement m Γ s e Γ'
  | modified {m Γ s e Γ₁ c cond Γ₂} (o : Modifier) : Statement m Γ s e Γ₁ → Expr m Γ₁ c cond Γ₂ →
      Statement m Γ (s ++ (word o.text ++ c)) (o.node cond e) Γ₂
end

end Verif.Parser
