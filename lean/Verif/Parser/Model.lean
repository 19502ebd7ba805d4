import Verif.Lexer.Model
/-!
# The parser: expressions and simple statements

Models `ruruby-parse/src/parser/expression.rs`, the helpers of `ruruby-parse/src/parser.rs`, and the parts of
`flow_control.rs` and `literals.rs` they need.

* The position of the lexer is the list of the characters that are left, as in `Verif.Lexer.Model`.
* The stack of scopes (`context_stack`) is one list of names: the scope of the program.  What opens another scope
  (blocks, `class`, `module`, `for`, lambda literals) is left out: the parser answers `unmodelled` there; `def`
  sees no other scope, so it starts with no names and sets the list back.
  So do hash literals, symbols, regular expressions, `%` and character literals, here documents, command literals,
  interpolated strings, `case`, `begin`, `alias`, `yield`, `super`, and keyword, block, `**` and `...` arguments.
* The flags `suppress_acc_assign`, `suppress_mul_assign` and `suppress_do_block` are set before a part is parsed and
  set back after it, so here they are an argument (`Env`).  (A failing parse leaves them set, but then all fails.)
* Source locations are left out.
* The functions of the parser are mutually recursive.  Each is written here as a function of the parsers it calls
  (`Parsers`), and `level n` ties the knot with recursion depth `n`.
-/
namespace Verif.Parser
open Verif.Lexer (Chars Unicode BinOp Punct Reserved Tok NReal read_token is_space is_alpha)

/-- ruruby-parse/src/node.rs:301-307 -/
inductive UnOp | BitNot | Not | Pos | Neg
  deriving DecidableEq, Repr

/-- ruruby-parse/src/node.rs:8-112.  Names are texts instead of ids.  `Send` has only positional and splat arguments;
`Rescue` is the `Begin` that the `rescue` modifier makes; a float is its text and its sign.  `Def` is `MethodDef`; it has only
required parameters, its body is the first part of a `Begin` that has no other part, and the variables are the last first. -/
inductive Node
  | SelfValue | Nil | Integer (i : Int) | Bignum (n : Int) | Float (neg : Bool) (text : Chars) | Imaginary (n : NReal)
  | Bool (b : Bool) | String (s : Chars)
  | Range (start stop : Node) (exclude_end is_const : Bool)
  | Array (l : List Node) (is_const : Bool)
  | LocalVar (x : Chars) | Ident (x : Chars) | InstanceVar (x : Chars) | GlobalVar (x : Chars) | SpecialVar (n : Nat)
  | ClassVar (x : Chars) | Const (toplevel : Bool) (x : Chars) | Scope (e : Node) (x : Chars)
  | BinOp (op : BinOp) (l r : Node) | UnOp (op : UnOp) (e : Node)
  | Index (base : Node) (index : List Node) | Splat (e : Node)
  | AssignOp (op : Lexer.BinOp) (l r : Node) | MulAssign (mlhs mrhs : List Node)
  | CompStmt (l : List Node) | If (c t e : Node) | While (c b : Node) (cond_op : Bool) | Rescue (e r : Node)
  | Break (e : Node) | Next (e : Node) | Return (e : Node)
  | Send (receiver : Node) (method : Chars) (args : List Node) (safe_nav : Bool)
  | Defined (e : Node)
  | Def (name : Chars) (params : List Chars) (body : Node) (lvars : List Chars)
  deriving Repr

/-- Errors: a syntax error, the end of the text, a panic; `unmodelled` and `fuel` are not answers of the parser. -/
inductive Err | syntax | eof | panic | unmodelled | fuel
  deriving DecidableEq, Repr

def Err.ofLexer : Lexer.Err → Err
  | .eof => .eof
  | .syntax => .syntax
  | .panic => .panic

/-- The flags of the parser; ruruby-parse/src/parser.rs:24-34 -/
structure Env where
  U : Unicode
  /-- `suppress_acc_assign` -/
  acc : _root_.Bool
  /-- `suppress_mul_assign` -/
  mul : _root_.Bool
  /-- `suppress_do_block` -/
  noDo : _root_.Bool

/-- The text that is left and the local variables that are known. -/
structure St where
  s : Chars
  lvars : List Chars
  deriving DecidableEq, Repr

def P (α : Type) := Env → St → Except Err (α × St)

instance : Monad P where
  pure a := fun _ st => .ok (a, st)
  bind x f := fun fl st => match x fl st with
    | .error e => .error e
    | .ok (a, st) => f a fl st

def fail {α : Type} (e : Err) : P α := fun _ _ => .error e

/-! ## Helpers -/

/-- ruruby-parse/src/token.rs:270-272 -/
def is_line_tok : Tok → _root_.Bool
  | .LineTerm => true
  | .Punct .Semi => true
  | _ => false

/-- ruruby-parse/src/token.rs:280-285 -/
def is_term : Tok → _root_.Bool
  | .LineTerm => true
  | .Eof => true
  | .Punct .Semi => true
  | _ => false

/-- ruruby-parse/src/token.rs:302-321 -/
def check_stmt_end : Tok → _root_.Bool
  | .Eof => true
  | .Reserved .Else => true
  | .Reserved .Elsif => true
  | .Reserved .End => true
  | .Reserved .When => true
  | .Reserved .Rescue => true
  | .Reserved .Ensure => true
  | .Punct .RParen => true
  | .Punct .RBrace => true
  | .Punct .RBracket => true
  | _ => false

/-- ruruby-parse/src/parser/lexer.rs:122-127 (get_token) -/
def get_token : P Tok := fun fl st => match read_token fl.U st.s with
  | .ok (t, s) => .ok (t, { st with s := s })
  | .error e => .error (.ofLexer e)

/-- ruruby-parse/src/parser/lexer.rs:130-139 (peek_token), parser.rs:203-205 (peek_no_term) -/
def peek_no_term : P Tok := fun fl st => match read_token fl.U st.s with
  | .ok (t, _) => .ok (t, st)
  | .error e => .error (.ofLexer e)

/-- ruruby-parse/src/parser/lexer.rs:146-151: the next token that is not a line terminator, and the text after it.  Every
line terminator takes a character, so the length of the text bounds the loop. -/
def read_skip (U : Unicode) : Nat → Chars → Except Err (Tok × Chars)
  | 0, _ => .error .fuel
  | n + 1, s => match read_token U s with
    | .error e => .error (.ofLexer e)
    | .ok (t, s) => if is_line_tok t then read_skip U n s else .ok (t, s)

/-- ruruby-parse/src/parser.rs:198-200 (peek), lexer.rs:141-156 -/
def peek : P Tok := fun fl st => match read_skip fl.U (st.s.length + 1) st.s with
  | .ok (t, _) => .ok (t, st)
  | .error e => .error e

/-- ruruby-parse/src/parser.rs:230-241 (get) -/
def get : P Tok := fun fl st => match read_skip fl.U (st.s.length + 1) st.s with
  | .ok (.Eof, _) => .error .eof
  | .ok (t, s) => .ok (t, { st with s := s })
  | .error e => .error e

/-- ruruby-parse/src/parser.rs:208-213 (peek_punct_no_term) -/
def peek_punct_no_term (p : Punct) : P _root_.Bool := fun fl st => match read_token fl.U st.s with
  | .ok (t, _) => .ok (decide (t = .Punct p), st)
  | .error _ => .ok (false, st)

/-- ruruby-parse/src/parser.rs:216-218 (is_line_term) -/
def is_line_term : P _root_.Bool := do
  return is_line_tok (← peek_no_term)

/-- ruruby-parse/src/parser.rs:264-272 (consume_punct) -/
def consume_punct (p : Punct) : P _root_.Bool := do
  if (← peek) = .Punct p then
    let _ ← get
    return true
  else return false

/-- ruruby-parse/src/parser.rs:274-281 (consume_punct_no_term) -/
def consume_punct_no_term (p : Punct) : P _root_.Bool := do
  if (← peek_no_term) = .Punct p then
    let _ ← get
    return true
  else return false

/-- ruruby-parse/src/parser.rs:283-289 (consume_assign_op_no_term): only looks. -/
def consume_assign_op_no_term : P (Option BinOp) := do
  match ← peek_no_term with
  | .Punct (.AssignOp op) => return some op
  | _ => return none

/-- ruruby-parse/src/parser.rs:293-301 (consume_reserved) -/
def consume_reserved (r : Reserved) : P _root_.Bool := do
  if (← peek) = .Reserved r then
    let _ ← get
    return true
  else return false

/-- ruruby-parse/src/parser.rs:303-310 (consume_reserved_no_skip_line_term) -/
def consume_reserved_no_term (r : Reserved) : P _root_.Bool := do
  if (← peek_no_term) = .Reserved r then
    let _ ← get
    return true
  else return false

/-- ruruby-parse/src/parser.rs:318-322: the loop of `consume_term`.  Every terminator but the end takes a character. -/
def skip_terms (U : Unicode) : Nat → Chars → Except Err Chars
  | 0, _ => .error .fuel
  | n + 1, s => match read_token U s with
    | .error e => .error (.ofLexer e)
    | .ok (t, s') => if is_term t then (if t = .Eof then .ok s' else skip_terms U n s') else .ok s

/-- ruruby-parse/src/parser.rs:314-324 (consume_term) -/
def consume_term : P _root_.Bool := do
  if is_term (← peek_no_term) then
    fun fl st => match skip_terms fl.U (st.s.length + 1) st.s with
      | .ok s => .ok (true, { st with s := s })
      | .error e => .error e
  else return false

/-- ruruby-parse/src/parser.rs:328-336 (expect_reserved) -/
def expect_reserved (r : Reserved) : P Unit := do
  if (← get) = .Reserved r then return () else fail .syntax

/-- ruruby-parse/src/parser.rs:340-348 (expect_punct) -/
def expect_punct (p : Punct) : P Unit := do
  if (← get) = .Punct p then return () else fail .syntax

/-- ruruby-parse/src/parser.rs:363-368 (expect_const) -/
def expect_const : P Chars := do
  match ← get with
  | .Const s => return s
  | _ => fail .syntax

/-- ruruby-parse/src/parser/lexer.rs:159-164 (trailing_space) -/
def trailing_space : P _root_.Bool := fun _ st => .ok (st.s.head?.elim false is_space, st)

/-- ruruby-parse/src/parser/lexer.rs:167-172 (trailing_lparen) -/
def trailing_lparen : P _root_.Bool := fun _ st => .ok (st.s.head? == some '(', st)

/-- ruruby-parse/src/parser.rs:173-191 (is_local_var), for one scope -/
def is_local_var (x : Chars) : P _root_.Bool := fun _ st => .ok (st.lvars.contains x, st)

/-- ruruby-parse/src/parser.rs:117-129 (add_local_var_if_new), for one scope -/
def add_local_var_if_new (x : Chars) : P Unit := fun _ st =>
  .ok ((), if st.lvars.contains x then st else { st with lvars := x :: st.lvars })

/-- Parse with other flags. -/
def withEnv {α : Type} (f : Env → Env) (x : P α) : P α := fun fl st => x (f fl) st

/-- `save_state`, `restore_state`; ruruby-parse/src/parser.rs:84-90.  The local variables are not restored. -/
def save_state : P Chars := fun _ st => .ok (st.s, st)
def restore_state (s : Chars) : P Unit := fun _ st => .ok ((), { st with s := s })

/-- ruruby-parse/src/parser/expression.rs:1000-1045 (is_command).  `has_trailing_space` (lexer.rs:175-185) looks at the
character after the peeked token. -/
def is_command : P _root_.Bool := fun fl st => .ok (
  match read_token fl.U st.s with
  | .error _ => false
  | .ok (tok, after) =>
    if st.s.head?.elim false is_space then
      match tok with
      | .LineTerm => false
      | .Punct p => match p with
        | .LParen | .LBracket | .Scope | .Arrow => true
        | .Colon | .Plus | .Minus | .Mul | .Div | .BitAnd | .Rem | .Shl => !(after.head?.elim false is_space)
        | _ => false
      | .Reserved r => match r with
        | .Do | .If | .Unless | .While | .Until | .And | .Or | .Then | .End => false
        | _ => true
      | _ => true
    else match tok with
      | .GlobalVar _ | .InstanceVar _ | .StringLit _ | .FloatLit _ | .BignumLit _ | .IntegerLit _ => true
      | _ => false, st)

/-- ruruby-parse/src/parser/lexer.rs:507 (consume_whitespace, consume_newline) -/
def skip_blank : Chars → Chars
  | c :: s => if is_space c then skip_blank s else c :: s
  | [] => []

/-- ruruby-parse/src/parser/lexer.rs:502-560 (read_method_name): a name.  Operators as method names are left out. -/
def read_method_name : P Chars := fun _ st =>
  match skip_blank st.s with
  | [] => .error .eof
  | c :: s =>
    if is_alpha c || c == '_' then
      let (t, s) := Lexer.consume_ident s
      let (x, s) := Lexer.suffix s
      .ok (c :: t ++ x, { st with s := s })
    else if Lexer.is_punct c then .error .unmodelled
    else .error .syntax

/-! ## Nodes -/

/-- ruruby-parse/src/node.rs:329-331 (is_integer) -/
def Node.is_integer : Node → _root_.Bool
  | .Integer _ => true
  | .Bignum _ => true
  | _ => false

/-- ruruby-parse/src/node.rs:333-344 (is_const_expr) -/
def Node.is_const_expr : Node → _root_.Bool
  | .Bool _ | .Integer _ | .Bignum _ | .Float .. | .Nil | .String _ => true
  | _ => false

/-- ruruby-parse/src/node.rs:727-729 (is_splat) -/
def Node.is_splat : Node → _root_.Bool
  | .Splat _ => true
  | _ => false

/-- ruruby-parse/src/node.rs:374-381 (new_array) -/
def new_array (l : List Node) : Node := .Array l (l.all Node.is_const_expr)

/-- ruruby-parse/src/node.rs:383-394 (new_range) -/
def new_range (a b : Node) (exclude_end : _root_.Bool) : Node := .Range a b exclude_end (a.is_integer && b.is_integer)

/-- ruruby-parse/src/node.rs:507-517 (new_mul_assign) -/
def new_mul_assign (mlhs mrhs : List Node) : Node :=
  if mrhs.any Node.is_splat || (mlhs.length == 1 && mrhs.length != 1) then .MulAssign mlhs [new_array mrhs]
  else .MulAssign mlhs mrhs

/-- ruruby-parse/src/parser/expression.rs:983-998 (check_lhs).  The program is not a method, so a constant may be assigned. -/
def check_lhs (lhs : Node) : P Unit :=
  match lhs with
  | .Ident x => add_local_var_if_new x
  | _ => pure ()

/-! ## The parsers -/

/-- The parsers that the functions below call. -/
structure Parsers where
  comp_stmt : P Node
  comp_stmt_loop : List Node → P Node
  stmt : P Node
  stmt_loop : Node → P Node
  expr : P Node
  expr_loop : Node → P Node
  not_ : P Node
  mlhs_loop : List Node → P (List Node)
  mul_assign : Node → P Node
  rhs_if_allowed : P (List Node)
  rhs : Option Punct → P (List Node)
  rhs_loop : Option Punct → List Node → P (List Node)
  arg : P Node
  arg_assign : P Node
  ternary : P Node
  range : P Node
  lor : P Node
  lor_loop : Node → P Node
  land : P Node
  land_loop : Node → P Node
  eq : P Node
  comp : P Node
  comp_loop : Node → P Node
  bitor : P Node
  bitor_loop : Node → P Node
  bitand : P Node
  bitand_loop : Node → P Node
  shift : P Node
  shift_loop : Node → P Node
  add : P Node
  add_loop : Node → P Node
  mul : P Node
  mul_loop : Node → P Node
  unary_minus : P Node
  acc_assign : Node → P Node
  assign_op : Node → BinOp → P Node
  exponent : P Node
  unary : P Node
  method_call : P Node
  method_call_loop : Node → P Node
  primary_method : Node → _root_.Bool → P Node
  primary : _root_.Bool → P Node
  arglist : Option Punct → P (List Node)
  arglist_loop : Option Punct → List Node → P (List Node)
  if_then : P Node
  while_ : _root_.Bool → P Node
  break_sub : P Node
  break_loop : List Node → P (List Node)

/-- ruruby-parse/src/parser/expression.rs:6-26 (parse_comp_stmt): the loop. -/
def parse_comp_stmt_loop (p : Parsers) (nodes : List Node) : P Node := do
  if check_stmt_end (← peek) then return .CompStmt nodes
  let node ← p.stmt
  if ← consume_term then p.comp_stmt_loop (nodes ++ [node])
  else return .CompStmt (nodes ++ [node])

/-- ruruby-parse/src/parser/expression.rs:6-26 (parse_comp_stmt) -/
def parse_comp_stmt (p : Parsers) : P Node := do
  let _ ← peek
  p.comp_stmt_loop []

/-- ruruby-parse/src/parser/expression.rs:49-79 (parse_stmt): the loop. -/
def parse_stmt_loop (p : Parsers) (node : Node) : P Node := do
  if ← consume_reserved_no_term .If then
    let cond ← p.expr
    p.stmt_loop (.If cond node (.CompStmt []))
  else if ← consume_reserved_no_term .Unless then
    let cond ← p.expr
    p.stmt_loop (.If cond (.CompStmt []) node)
  else if ← consume_reserved_no_term .While then
    let cond ← p.expr
    p.stmt_loop (.While cond node true)
  else if ← consume_reserved_no_term .Until then
    let cond ← p.expr
    p.stmt_loop (.While cond node false)
  else if ← consume_reserved_no_term .Rescue then
    let rescue ← p.expr
    p.stmt_loop (.Rescue node rescue)
  else return node

/-- ruruby-parse/src/parser/expression.rs:28-82 (parse_stmt) -/
def parse_stmt (p : Parsers) : P Node := do
  let node ← p.expr
  p.stmt_loop node

/-- ruruby-parse/src/parser/expression.rs:89-99 (parse_expr): the loop. -/
def parse_expr_loop (p : Parsers) (node : Node) : P Node := do
  if ← consume_reserved_no_term .And then
    let rhs ← p.not_
    p.expr_loop (.BinOp .LAnd node rhs)
  else if ← consume_reserved_no_term .Or then
    let rhs ← p.not_
    p.expr_loop (.BinOp .LOr node rhs)
  else return node

/-- ruruby-parse/src/parser/expression.rs:84-100 (parse_expr) -/
def parse_expr (p : Parsers) : P Node := do
  let node ← p.not_
  p.expr_loop node

/-- ruruby-parse/src/parser/expression.rs:102-113 (parse_not) -/
def parse_not (p : Parsers) : P Node := do
  let node ← p.arg
  if ← consume_punct_no_term .Comma then p.mul_assign node
  else return node

/-- ruruby-parse/src/parser/expression.rs:120-129 (parse_mul_assign): the loop over the targets. -/
def parse_mlhs_loop (p : Parsers) (mlhs : List Node) : P (List Node) := do
  if ← peek_punct_no_term .Assign then return mlhs
  let node ← p.method_call
  if ← consume_punct_no_term .Comma then p.mlhs_loop (mlhs ++ [node])
  else return mlhs ++ [node]

/-- ruruby-parse/src/parser/expression.rs:137-139 -/
def check_lhs_all : List Node → P Unit
  | [] => pure ()
  | x :: l => do
    check_lhs x
    check_lhs_all l

/-- ruruby-parse/src/parser/expression.rs:115-142 (parse_mul_assign) -/
def parse_mul_assign (p : Parsers) (node : Node) : P Node := do
  let mlhs ← withEnv (fun fl => { fl with acc := true }) (p.mlhs_loop [node])
  if ← consume_punct_no_term .Assign then
    let mrhs ← p.rhs_if_allowed
    check_lhs_all mlhs
    return new_mul_assign mlhs mrhs
  else fail .syntax

/-- ruruby-parse/src/parser/expression.rs:146-154 (parse_mul_assign_rhs_if_allowed) -/
def parse_mul_assign_rhs_if_allowed (p : Parsers) : P (List Node) := fun fl st =>
  if fl.mul then (do return [← p.arg] : P (List Node)) fl st
  else p.rhs none fl st

/-- ruruby-parse/src/parser/expression.rs:174-190 (parse_mul_assign_rhs): one element, and what follows it. -/
def parse_rhs_item (p : Parsers) (term : Option Punct) (args : List Node) : P (List Node) := do
  let node ← (do
    if ← consume_punct .Mul then
      let array ← p.arg
      return Node.Splat array
    else p.arg : P Node)
  if ← consume_punct .Comma then p.rhs_loop term (args ++ [node])
  else match term with
    | some t => do
      expect_punct t
      return args ++ [node]
    | none => return args ++ [node]

/-- ruruby-parse/src/parser/expression.rs:167-173 (parse_mul_assign_rhs): the loop. -/
def parse_mul_assign_rhs_loop (p : Parsers) (term : Option Punct) (args : List Node) : P (List Node) :=
  match term with
  | some t => do
    if ← consume_punct t then return args
    parse_rhs_item p term args
  | none => parse_rhs_item p term args

/-- ruruby-parse/src/parser/expression.rs:157-192 (parse_mul_assign_rhs) -/
def parse_mul_assign_rhs (p : Parsers) (term : Option Punct) : P (List Node) :=
  withEnv (fun fl => { fl with mul := true }) (p.rhs_loop term [])

/-- ruruby-parse/src/parser/expression.rs:194-206 (parse_arg) -/
def parse_arg (p : Parsers) : P Node := do
  if (← peek) = .Reserved .Defined then
    let save ← save_state
    let _ ← consume_reserved .Defined
    if ← peek_punct_no_term .LParen then
      restore_state save
      p.arg_assign
    else
      let node ← p.arg
      return .Defined node
  else p.arg_assign

/-- ruruby-parse/src/parser/expression.rs:208-223 (parse_arg_assign) -/
def parse_arg_assign (p : Parsers) : P Node := do
  let lhs ← p.ternary
  if ← is_line_term then return lhs
  if ← consume_punct_no_term .Assign then
    check_lhs lhs
    let mrhs ← p.rhs none
    return new_mul_assign [lhs] mrhs
  else match ← consume_assign_op_no_term with
    | some op => p.assign_op lhs op
    | none => return lhs

/-- ruruby-parse/src/parser/expression.rs:225-240 (parse_arg_ternary) -/
def parse_arg_ternary (p : Parsers) : P Node := do
  let cond ← p.range
  if ← consume_punct_no_term .Question then
    let then_ ← p.arg
    if ← consume_punct_no_term .Colon then
      let else_ ← p.arg
      return .If cond then_ else_
    else fail .syntax
  else return cond

/-- ruruby-parse/src/parser/expression.rs:242-258 (parse_arg_range) -/
def parse_arg_range (p : Parsers) : P Node := do
  let lhs ← p.lor
  if ← is_line_term then return lhs
  if ← consume_punct .Range2 then
    let rhs ← p.lor
    return new_range lhs rhs false
  else if ← consume_punct .Range3 then
    let rhs ← p.lor
    return new_range lhs rhs true
  else return lhs

/-- The loop of the left-associative operators: the tests `consume_punct_no_term(..)` of the next token for one operator
after the other are one look into a table. -/
def bin_loop (ops : Punct → Option BinOp) (sub : P Node) (again : Node → P Node) (lhs : Node) : P Node := do
  match ← peek_no_term with
  | .Punct q => match ops q with
    | some op => do
      let _ ← get
      let rhs ← sub
      again (.BinOp op lhs rhs)
    | none => return lhs
  | _ => return lhs

/-- ruruby-parse/src/parser/expression.rs:260-267 (parse_arg_logical_or) -/
def lor_ops : Punct → Option BinOp
  | .LOr => some .LOr
  | _ => none
def parse_arg_logical_or (p : Parsers) : P Node := do
  let lhs ← p.land
  p.lor_loop lhs

/-- ruruby-parse/src/parser/expression.rs:269-276 (parse_arg_logical_and) -/
def land_ops : Punct → Option BinOp
  | .LAnd => some .LAnd
  | _ => none
def parse_arg_logical_and (p : Parsers) : P Node := do
  let lhs ← p.eq
  p.land_loop lhs

/-- ruruby-parse/src/parser/expression.rs:279-301 (parse_arg_eq) -/
def parse_arg_eq (p : Parsers) : P Node := do
  let lhs ← p.comp
  if ← consume_punct_no_term .Eq then
    let rhs ← p.comp
    return .BinOp .Eq lhs rhs
  else if ← consume_punct_no_term .Ne then
    let rhs ← p.comp
    return .BinOp .Ne lhs rhs
  else if ← consume_punct_no_term .TEq then
    let rhs ← p.comp
    return .BinOp .TEq lhs rhs
  else if ← consume_punct_no_term .Match then
    let rhs ← p.comp
    return .BinOp .Match lhs rhs
  else if ← consume_punct_no_term .Unmatch then
    let rhs ← p.comp
    return .UnOp .Not (.BinOp .Match lhs rhs)
  else return lhs

/-- ruruby-parse/src/parser/expression.rs:303-329 (parse_arg_comp) -/
def comp_ops : Punct → Option BinOp
  | .Ge => some .Ge
  | .Gt => some .Gt
  | .Le => some .Le
  | .Lt => some .Lt
  | .Cmp => some .Cmp
  | _ => none
def parse_arg_comp (p : Parsers) : P Node := do
  let lhs ← p.bitor
  if ← is_line_term then return lhs
  p.comp_loop lhs

/-- ruruby-parse/src/parser/expression.rs:331-343 (parse_arg_bitor) -/
def bitor_ops : Punct → Option BinOp
  | .BitOr => some .BitOr
  | .BitXor => some .BitXor
  | _ => none
def parse_arg_bitor (p : Parsers) : P Node := do
  let lhs ← p.bitand
  p.bitor_loop lhs

/-- ruruby-parse/src/parser/expression.rs:345-355 (parse_arg_bitand) -/
def bitand_ops : Punct → Option BinOp
  | .BitAnd => some .BitAnd
  | _ => none
def parse_arg_bitand (p : Parsers) : P Node := do
  let lhs ← p.shift
  p.bitand_loop lhs

/-- ruruby-parse/src/parser/expression.rs:357-369 (parse_arg_shift) -/
def shift_ops : Punct → Option BinOp
  | .Shl => some .Shl
  | .Shr => some .Shr
  | _ => none
def parse_arg_shift (p : Parsers) : P Node := do
  let lhs ← p.add
  p.shift_loop lhs

/-- ruruby-parse/src/parser/expression.rs:371-385 (parse_arg_add) -/
def add_ops : Punct → Option BinOp
  | .Plus => some .Add
  | .Minus => some .Sub
  | _ => none
def parse_arg_add (p : Parsers) : P Node := do
  let lhs ← p.mul
  p.add_loop lhs

/-- ruruby-parse/src/parser/expression.rs:387-407 (parse_arg_mul) -/
def mul_ops : Punct → Option BinOp
  | .Mul => some .Mul
  | .Div => some .Div
  | .Rem => some .Rem
  | _ => none
def parse_arg_mul (p : Parsers) : P Node := do
  let lhs ← p.unary_minus
  if ← is_line_term then return lhs
  p.mul_loop lhs

/-- A number; ruruby-parse/src/parser/expression.rs:415 -/
def is_number : Tok → _root_.Bool
  | .IntegerLit _ | .FloatLit _ | .BignumLit _ => true
  | _ => false

/-- ruruby-parse/src/parser/expression.rs:409-438 (parse_unary_minus) -/
def parse_unary_minus (p : Parsers) : P Node := do
  let save ← save_state
  if ← consume_punct .Minus then
    let save2 ← save_state
    if is_number (← peek_no_term) then
      let _ ← p.primary true
      if ← consume_punct_no_term .DMul then
        restore_state save2
        let lhs ← p.exponent
        p.acc_assign (.UnOp .Neg lhs)
      else
        restore_state save
        p.exponent
    else
      let lhs ← p.unary_minus
      p.acc_assign (.UnOp .Neg lhs)
  else
    let lhs ← p.exponent
    p.acc_assign lhs

/-- ruruby-parse/src/parser/expression.rs:440-451 (parse_accesory_assign) -/
def parse_accesory_assign (p : Parsers) (lhs : Node) : P Node := fun fl st =>
  if fl.acc then .ok (lhs, st)
  else (do
    if ← consume_punct_no_term .Assign then
      check_lhs lhs
      let mrhs ← p.rhs_if_allowed
      return new_mul_assign [lhs] mrhs
    else match ← consume_assign_op_no_term with
      | some op => p.assign_op lhs op
      | none => return lhs : P Node) fl st

/-- ruruby-parse/src/parser/expression.rs:455-475 (parse_assign_op) -/
def parse_assign_op (p : Parsers) (lhs : Node) (op : BinOp) : P Node := do
  let _ ← get
  let rhs ← p.arg
  check_lhs lhs
  match op with
  | .LOr | .LAnd =>
    let lhs := match lhs with
      | .Ident x => Node.LocalVar x
      | e => e
    return .BinOp op lhs (new_mul_assign [lhs] [rhs])
  | _ => return .AssignOp op lhs rhs

/-- ruruby-parse/src/parser/expression.rs:477-485 (parse_exponent) -/
def parse_exponent (p : Parsers) : P Node := do
  let lhs ← p.unary
  if ← consume_punct_no_term .DMul then
    let rhs ← p.exponent
    return .BinOp .Exp lhs rhs
  else return lhs

/-- ruruby-parse/src/parser/expression.rs:487-503 (parse_unary) -/
def parse_unary (p : Parsers) : P Node := do
  if ← consume_punct .BitNot then
    return .UnOp .BitNot (← p.unary)
  else if ← consume_punct .Not then
    return .UnOp .Not (← p.unary)
  else if ← consume_punct .Plus then
    return .UnOp .Pos (← p.unary)
  else p.method_call

/-- ruruby-parse/src/parser/expression.rs:513-534 (parse_method_call): the loop. -/
def parse_method_call_loop (p : Parsers) (node : Node) : P Node := do
  if ← consume_punct .Dot then
    let node ← p.primary_method node false
    p.method_call_loop node
  else if ← consume_punct_no_term .SafeNav then
    let node ← p.primary_method node true
    p.method_call_loop node
  else if ← consume_punct_no_term .Scope then
    match ← peek with
    | .Const _ =>
      let name ← expect_const
      p.method_call_loop (.Scope node name)
    | _ =>
      let node ← p.primary_method node false
      p.method_call_loop node
  else if ← consume_punct_no_term .LBracket then
    let args ← p.rhs (some .RBracket)
    p.method_call_loop (.Index node args)
  else return node

/-- ruruby-parse/src/parser/expression.rs:505-535 (parse_method_call) -/
def parse_method_call (p : Parsers) : P Node := do
  if ← consume_reserved .Yield then fail .unmodelled
  else
    let node ← p.primary false
    p.method_call_loop node

/-- ruruby-parse/src/parser.rs:375-409 (parse_block): no block, or `unmodelled`. -/
def parse_block : P Unit := fun fl st =>
  (do
    if (← if fl.noDo then pure false else consume_reserved_no_term .Do) then fail .unmodelled
    else if ← consume_punct_no_term .LBrace then fail .unmodelled
    else return () : P Unit) fl st

/-- ruruby-parse/src/parser/expression.rs:803-818 (parse_arglist_block) -/
def parse_arglist_block (p : Parsers) (delimiter : Option Punct) : P (List Node) := do
  let args ← p.arglist delimiter
  parse_block
  return args

/-- ruruby-parse/src/parser/expression.rs:570-614 (parse_primary_method) -/
def parse_primary_method (p : Parsers) (receiver : Node) (safe_nav : _root_.Bool) : P Node := do
  if ← consume_punct_no_term .LParen then
    let args ← parse_arglist_block p (some .RParen)
    return .Send receiver ['c', 'a', 'l', 'l'] args false
  else
    let id ← read_method_name
    let recv := match receiver with
      | .Ident x => Node.Send .SelfValue x [] false
      | e => e
    if ← consume_punct_no_term .LParen then
      let args ← parse_arglist_block p (some .RParen)
      return .Send recv id args safe_nav
    else if ← is_command then
      let args ← parse_arglist_block p none
      return .Send receiver id args false
    else
      parse_block
      return .Send recv id [] safe_nav

/-- ruruby-parse/src/parser/expression.rs:942-953 (parse_command) -/
def parse_command (p : Parsers) (operation : Chars) : P Node := do
  let args ← parse_arglist_block p none
  return .Send .SelfValue operation args false

/-- ruruby-parse/src/parser/expression.rs:955-980 (parse_function_args), of the identifier `x` -/
def parse_function_args (p : Parsers) (x : Chars) : P Node := do
  if ← consume_punct_no_term .LParen then
    let args ← parse_arglist_block p (some .RParen)
    return .Send .SelfValue x args false
  else
    parse_block
    return .Ident x

/-- ruruby-parse/src/parser/expression.rs:646-663: an identifier that is not a local variable. -/
def parse_new_ident (p : Parsers) (suppress_unparen_call : _root_.Bool) (name : Chars) : P Node := fun fl st =>
  (match read_token fl.U st.s with
  | .ok (.Punct .Comma, _) => pure (.Ident name)
  | .ok (.Punct .LBrace, _) => parse_function_args p name
  | .ok (.Reserved .Do, _) => parse_function_args p name
  | _ => do
    if !suppress_unparen_call && (← is_command) then parse_command p name
    else return .Ident name : P Node) fl st

/-- ruruby-parse/src/parser/expression.rs:620-665: an identifier.  `__LINE__` and `__FILE__` are left out. -/
def parse_ident (p : Parsers) (suppress_unparen_call : _root_.Bool) (name : Chars) : P Node :=
  if name = ['t', 'r', 'u', 'e'] then return .Bool true
  else if name = ['f', 'a', 'l', 's', 'e'] then return .Bool false
  else if name = ['n', 'i', 'l'] then return .Nil
  else if name = ['s', 'e', 'l', 'f'] then return .SelfValue
  else if name = ['_', '_', 'L', 'I', 'N', 'E', '_', '_'] ∨ name = ['_', '_', 'F', 'I', 'L', 'E', '_', '_'] then
    fail .unmodelled
  else do
    if ← trailing_lparen then parse_function_args p name
    else if ← is_local_var name then return .LocalVar name
    else parse_new_ident p suppress_unparen_call name

/-- ruruby-parse/src/parser/expression.rs:670-680: a constant. -/
def parse_const (p : Parsers) (suppress_unparen_call : _root_.Bool) (name : Chars) : P Node := do
  if ← trailing_lparen then parse_function_args p name
  else if !suppress_unparen_call && (← is_command) then parse_command p name
  else return .Const false name

/-- ruruby-parse/src/parser/expression.rs:698-706: a minus sign and a number; `unreachable!()` if something else follows.
`-i64::MIN` does not arise: a literal is not negative. -/
def parse_minus_literal : P Node := do
  match ← get with
  | .IntegerLit n => return .Integer (-n)
  | .BignumLit n => return .Bignum (-n)
  | .FloatLit t => return .Float true t
  | _ => fail .panic

/-- ruruby-parse/src/parser/literals.rs:15-35 (parse_string_literal).  Adjacent literals are joined; the loop takes at
least one character each time. -/
def join_strings (U : Unicode) : Nat → Chars → Chars → Except Err (Chars × Chars)
  | 0, _, _ => .error .fuel
  | n + 1, acc, s => match read_token U s with
    | .error e => .error (.ofLexer e)
    | .ok (.StringLit t, s) => join_strings U n (acc ++ t) s
    | .ok (.OpenString .., _) => .error .unmodelled
    | .ok _ => .ok (acc, s)

/-- ruruby-parse/src/parser/literals.rs:15-35 (parse_string_literal) -/
def parse_string_literal (t : Chars) : P Node := fun fl st =>
  match join_strings fl.U (st.s.length + 1) t st.s with
  | .ok (t, s) => .ok (.String t, { st with s := s })
  | .error e => .error e

/-- ruruby-parse/src/parser/flow_control.rs:4-14 (parse_if) -/
def parse_if (p : Parsers) : P Node := do
  let node ← p.if_then
  expect_reserved .End
  return node

/-- ruruby-parse/src/parser.rs:453-460 (parse_then) -/
def parse_then : P Unit := do
  if ← consume_term then
    let _ ← consume_reserved .Then
    return ()
  else expect_reserved .Then

/-- ruruby-parse/src/parser.rs:462-468 (parse_do) -/
def parse_do : P Unit := do
  if ← consume_term then return ()
  else expect_reserved .Do

/-- ruruby-parse/src/parser/flow_control.rs:16-33 (parse_if_then) -/
def parse_if_then (p : Parsers) : P Node := do
  let cond ← p.expr
  parse_then
  let then_ ← p.comp_stmt
  if ← consume_reserved .Elsif then
    let else_ ← p.if_then
    return .If cond then_ else_
  else if ← consume_reserved .Else then
    let else_ ← p.comp_stmt
    return .If cond then_ else_
  else return .If cond then_ (.CompStmt [])

/-- ruruby-parse/src/parser/flow_control.rs:35-52 (parse_unless) -/
def parse_unless (p : Parsers) : P Node := do
  let cond ← p.expr
  parse_then
  let then_ ← p.comp_stmt
  let else_ ← (do
    if ← consume_reserved .Else then p.comp_stmt
    else return .CompStmt [] : P Node)
  expect_reserved .End
  return .If cond else_ then_

/-- ruruby-parse/src/parser/flow_control.rs:54-66 (parse_while) -/
def parse_while (p : Parsers) (is_while : _root_.Bool) : P Node := do
  let cond ← withEnv (fun fl => { fl with noDo := true }) p.expr
  parse_do
  let body ← p.comp_stmt
  expect_reserved .End
  return .While cond body is_while

/-- ruruby-parse/src/parser/flow_control.rs:167-172: the loop of `parse_break_sub` -/
def parse_break_loop (p : Parsers) (l : List Node) : P (List Node) := do
  let x ← p.arg
  if ← consume_punct_no_term .Comma then p.break_loop (l ++ [x])
  else return l ++ [x]

/-- ruruby-parse/src/parser/flow_control.rs:152-178 (parse_break_sub) -/
def parse_break_sub (p : Parsers) : P Node := do
  let tok ← peek_no_term
  if is_term tok || tok = .Reserved .Unless || tok = .Reserved .If || check_stmt_end tok then return .Nil
  else
    let val ← p.arg
    if ← consume_punct_no_term .Comma then
      let l ← p.break_loop [val]
      return new_array l
    else return val

/-- ruruby-parse/src/parser.rs:353-358 (expect_ident) -/
def expect_ident : P Chars := do
  match ← get with
  | .Ident s => return s
  | _ => fail .syntax

/-- ruruby-parse/src/parser.rs:133-138 (new_param) -/
def new_param (x : Chars) : P Unit := fun _ st =>
  if st.lvars.contains x then .error .syntax else .ok ((), { st with lvars := x :: st.lvars })

/-- ruruby-parse/src/parser/lexer.rs:590-601 (read_method_ext) -/
def read_method_ext (s : Chars) : P Chars := fun _ st =>
  if !(s.getLast? == some '!' || s.getLast? == some '?') && st.s[1]? != some '>' && st.s.head? == some '=' then
    .ok (s ++ ['='], { st with s := st.s.tail })
  else .ok (s, st)

/-- ruruby-parse/src/parser.rs:497-617 (parse_formal_params): the loop, for required parameters only.  Each round takes at
least one character. -/
def formal_loop : Nat → List Chars → P (List Chars)
  | 0, _ => fail .fuel
  | n + 1, args => do
    if ← consume_punct .Range3 then fail .unmodelled
    else if ← consume_punct .BitAnd then fail .unmodelled
    else if ← consume_punct .Mul then fail .unmodelled
    else if ← consume_punct .DMul then fail .unmodelled
    else
      let id ← expect_ident
      if ← consume_punct .Assign then fail .unmodelled
      else if ← consume_punct_no_term .Colon then fail .unmodelled
      else
        new_param id
        if ← consume_punct_no_term .Comma then formal_loop n (args ++ [id])
        else return args ++ [id]

/-- ruruby-parse/src/parser.rs:472-623 (parse_formal_params) -/
def parse_formal_params (term : Option Punct) : P (List Chars) :=
  match term with
  | some t => do
    if ← consume_punct t then return []
    else
      let args ← (fun fl st => formal_loop (st.s.length + 1) [] fl st : P (List Chars))
      expect_punct t
      return args
  | none => fun fl st => formal_loop (st.s.length + 1) [] fl st

/-- ruruby-parse/src/parser/define.rs:157-170 (parse_def_params) -/
def parse_def_params : P (List Chars) := do
  if ← consume_term then return []
  else if ← consume_punct .LParen then
    let args ← parse_formal_params (some .RParen)
    let _ ← consume_term
    return args
  else
    let args ← parse_formal_params none
    let _ ← consume_term
    return args

/-- ruruby-parse/src/parser/expression.rs:900-940 (parse_begin), without `rescue`, `else` and `ensure` -/
def parse_begin (p : Parsers) : P Node := do
  let body ← p.comp_stmt
  if ← consume_reserved .Rescue then fail .unmodelled
  else if ← consume_reserved .Else then fail .unmodelled
  else if ← consume_reserved .Ensure then fail .unmodelled
  else
    expect_reserved .End
    return body

/-- Parse in a new scope; answer its variables. -/
def inScope {α : Type} (x : P α) : P (α × List Chars) := fun fl st =>
  match x fl { st with lvars := [] } with
  | .error e => .error e
  | .ok (a, st') => .ok ((a, st'.lvars), { st' with lvars := st.lvars })

/-- ruruby-parse/src/parser/define.rs:6-80 (parse_def): the name.  Singleton methods and names that are operators are left
out. -/
def parse_def_name : P Chars := do
  match ← get with
  | .Reserved r => read_method_ext r.text.toList
  | .Ident s =>
    if s = ['s', 'e', 'l', 'f'] then fail .unmodelled
    else do
      if ← consume_punct_no_term .Dot then fail .unmodelled
      else if ← consume_punct_no_term .Scope then fail .unmodelled
      else read_method_ext s
  | .Const s => do
    if ← consume_punct_no_term .Dot then fail .unmodelled
    else if ← consume_punct_no_term .Scope then fail .unmodelled
    else read_method_ext s
  | .GlobalVar _ | .InstanceVar _ | .Punct _ => fail .unmodelled
  | _ => fail .syntax

/-- ruruby-parse/src/parser/define.rs:6-80 (parse_def).  Not modelled: that a constant may not be assigned in a method. -/
def parse_def (p : Parsers) : P Node := do
  let name ← parse_def_name
  let r ← inScope (do
    let params ← parse_def_params
    let body ← parse_begin p
    return (params, body))
  return .Def name r.1.1 r.1.2 r.2

/-- ruruby-parse/src/parser/expression.rs:616-801 (parse_primary) -/
def parse_primary (p : Parsers) (suppress_unparen_call : _root_.Bool) : P Node := do
  match ← get with
  | .Ident name => parse_ident p suppress_unparen_call name
  | .InstanceVar name => return .InstanceVar name
  | .ClassVar name => return .ClassVar name
  | .GlobalVar name => return .GlobalVar name
  | .SpecialVar id => return .SpecialVar id
  | .Const name => parse_const p suppress_unparen_call name
  | .IntegerLit n => return .Integer n
  | .BignumLit n => return .Bignum n
  | .FloatLit t => return .Float false t
  | .ImaginaryLit n => return .Imaginary n
  | .StringLit s => parse_string_literal s
  | .CommandLit _ => fail .unmodelled
  | .OpenString .. => fail .unmodelled
  | .OpenCommand .. => fail .unmodelled
  | .Punct .Minus => parse_minus_literal
  | .Punct .LParen => do
    let node ← p.comp_stmt
    expect_punct .RParen
    return node
  | .Punct .LBracket => do
    let nodes ← p.rhs (some .RBracket)
    return new_array nodes
  | .Punct .LBrace | .Punct .Colon | .Punct .Arrow | .Punct .Div | .Punct .Rem | .Punct .Question | .Punct .Shl =>
    fail .unmodelled
  | .Punct .Scope => do
    let name ← expect_const
    return .Const true name
  | .Reserved .If => parse_if p
  | .Reserved .Unless => parse_unless p
  | .Reserved .While => p.while_ true
  | .Reserved .Until => p.while_ false
  | .Reserved .Return => return .Return (← p.break_sub)
  | .Reserved .Break => return .Break (← p.break_sub)
  | .Reserved .Next => return .Next (← p.break_sub)
  | .Reserved .Defined => do
    if ← consume_punct_no_term .LParen then
      let node ← p.expr
      expect_punct .RParen
      return .Defined node
    else fail .syntax
  | .Reserved .Def => parse_def p
  | .Reserved .For | .Reserved .Case | .Reserved .Class | .Reserved .Module | .Reserved .Begin
  | .Reserved .Alias | .Reserved .Super => fail .unmodelled
  | _ => fail .syntax

/-- ruruby-parse/src/parser/expression.rs:832-893 (parse_arglist): one argument, and the loop. -/
def parse_arglist_item (p : Parsers) (punct : Option Punct) (args : List Node) : P (List Node) := do
  let tok ← peek
  if tok = .Punct .Range3 ∨ tok = .Punct .DMul ∨ tok = .Punct .BitAnd then fail .unmodelled
  else
    let node ← (do
      if ← consume_punct .Mul then
        let array ← p.arg
        return Node.Splat array
      else
        let node ← p.arg
        if ← consume_punct .FatArrow then fail .unmodelled
        else match node with
          | .Ident _ | .LocalVar _ => do
            if ← consume_punct_no_term .Colon then fail .unmodelled
            else return node
          | _ => return node : P Node)
    if ← consume_punct .Comma then p.arglist_loop punct (args ++ [node])
    else match punct with
      | some t => do
        let _ ← consume_punct t
        return args ++ [node]
      | none => return args ++ [node]

/-- ruruby-parse/src/parser/expression.rs:826-831 (parse_arglist): the loop. -/
def parse_arglist_loop (p : Parsers) (punct : Option Punct) (args : List Node) : P (List Node) :=
  match punct with
  | some t => do
    if ← consume_punct t then return args
    parse_arglist_item p punct args
  | none => parse_arglist_item p punct args

/-- ruruby-parse/src/parser/expression.rs:823-898 (parse_arglist) -/
def parse_arglist (p : Parsers) (punct : Option Punct) : P (List Node) := p.arglist_loop punct []

/-- The parsers with recursion depth `n`. -/
def level : Nat → Parsers
  | 0 =>
    { comp_stmt := fail .fuel, comp_stmt_loop := fun _ => fail .fuel, stmt := fail .fuel, stmt_loop := fun _ => fail .fuel,
      expr := fail .fuel, expr_loop := fun _ => fail .fuel, not_ := fail .fuel, mlhs_loop := fun _ => fail .fuel,
      mul_assign := fun _ => fail .fuel, rhs_if_allowed := fail .fuel, rhs := fun _ => fail .fuel,
      rhs_loop := fun _ _ => fail .fuel, arg := fail .fuel, arg_assign := fail .fuel, ternary := fail .fuel,
      range := fail .fuel, lor := fail .fuel, lor_loop := fun _ => fail .fuel, land := fail .fuel,
      land_loop := fun _ => fail .fuel, eq := fail .fuel, comp := fail .fuel, comp_loop := fun _ => fail .fuel,
      bitor := fail .fuel, bitor_loop := fun _ => fail .fuel, bitand := fail .fuel, bitand_loop := fun _ => fail .fuel,
      shift := fail .fuel, shift_loop := fun _ => fail .fuel, add := fail .fuel, add_loop := fun _ => fail .fuel,
      mul := fail .fuel, mul_loop := fun _ => fail .fuel, unary_minus := fail .fuel, acc_assign := fun _ => fail .fuel,
      assign_op := fun _ _ => fail .fuel, exponent := fail .fuel, unary := fail .fuel, method_call := fail .fuel,
      method_call_loop := fun _ => fail .fuel, primary_method := fun _ _ => fail .fuel, primary := fun _ => fail .fuel,
      arglist := fun _ => fail .fuel, arglist_loop := fun _ _ => fail .fuel, if_then := fail .fuel,
      while_ := fun _ => fail .fuel, break_sub := fail .fuel, break_loop := fun _ => fail .fuel }
  | n + 1 =>
    let p := level n
    { comp_stmt := parse_comp_stmt p, comp_stmt_loop := parse_comp_stmt_loop p, stmt := parse_stmt p,
      stmt_loop := parse_stmt_loop p, expr := parse_expr p, expr_loop := parse_expr_loop p, not_ := parse_not p,
      mlhs_loop := parse_mlhs_loop p, mul_assign := parse_mul_assign p,
      rhs_if_allowed := parse_mul_assign_rhs_if_allowed p, rhs := parse_mul_assign_rhs p,
      rhs_loop := parse_mul_assign_rhs_loop p, arg := parse_arg p, arg_assign := parse_arg_assign p,
      ternary := parse_arg_ternary p, range := parse_arg_range p, lor := parse_arg_logical_or p,
      lor_loop := bin_loop lor_ops p.land p.lor_loop, land := parse_arg_logical_and p,
      land_loop := bin_loop land_ops p.eq p.land_loop, eq := parse_arg_eq p, comp := parse_arg_comp p,
      comp_loop := bin_loop comp_ops p.bitor p.comp_loop, bitor := parse_arg_bitor p,
      bitor_loop := bin_loop bitor_ops p.bitand p.bitor_loop, bitand := parse_arg_bitand p,
      bitand_loop := bin_loop bitand_ops p.shift p.bitand_loop, shift := parse_arg_shift p,
      shift_loop := bin_loop shift_ops p.add p.shift_loop, add := parse_arg_add p,
      add_loop := bin_loop add_ops p.mul p.add_loop, mul := parse_arg_mul p,
      mul_loop := bin_loop mul_ops p.unary_minus p.mul_loop, unary_minus := parse_unary_minus p,
      acc_assign := parse_accesory_assign p, assign_op := parse_assign_op p, exponent := parse_exponent p,
      unary := parse_unary p, method_call := parse_method_call p, method_call_loop := parse_method_call_loop p,
      primary_method := parse_primary_method p, primary := parse_primary p, arglist := parse_arglist p,
      arglist_loop := parse_arglist_loop p, if_then := parse_if_then p, while_ := parse_while p,
      break_sub := parse_break_sub p, break_loop := parse_break_loop p }

/-- ruruby-parse/src/parser.rs:61-82 (Parser::new), and the check for the end in `parse` (parser.rs:633-659): the tree and
the local variables of a program. -/
def parse_program (U : Unicode) (n : Nat) (code : Chars) : Except Err (Node × List Chars) :=
  match (level n).comp_stmt ⟨U, false, false, false⟩ ⟨code, []⟩ with
  | .error e => .error e
  | .ok (node, st) => match read_skip U (st.s.length + 1) st.s with
    | .error e => .error e
    | .ok (.Eof, _) => .ok (node, st.lvars)
    | .ok _ => .error .syntax

end Verif.Parser
