/-!
# The lexer

Models `ruruby-parse/src/parser/lexer.rs`.  The lexer's position in the text is the list of the characters that are
left (`self.code[self.pos..]`), so a function of the lexer that moves the position returns the new list.

Left out: source locations, here documents (`heredoc_pos` is 0), and the caching of peeked tokens (`buf`,
`buf_skip_lt`), which does not change what is read.  A floating-point literal carries its text instead of the `f64`
that `str::parse` makes of it.
-/
namespace Verif.Lexer

abbrev Chars := List Char

/-- Errors; `panic` is a panic of the interpreter.  ruruby-parse/src/parser/lexer.rs:70-95 -/
inductive Err | eof | syntax | panic
  deriving DecidableEq, Repr

/-- What the standard library knows about characters beyond ASCII (`char::is_numeric`, `char::is_alphanumeric`). -/
structure Unicode where
  numeric : Char → Bool
  alphanumeric : Char → Bool

/-- ruruby-parse/src/node.rs:239-262 -/
inductive BinOp
  | Add | Sub | Mul | Div | Rem | Exp | Shr | Shl | BitAnd | BitOr | BitXor
  | Eq | Ne | TEq | Gt | Ge | Lt | Le | Cmp | LAnd | LOr | Match
  deriving DecidableEq, Repr

/-- ruruby-parse/src/token.rs:137-195 -/
inductive Punct
  | LParen | RParen | LBracket | RBracket | LBrace | RBrace | Semi | Colon | Scope | Comma | Dot | Question
  | Range2 | Range3
  | Plus | Minus | Mul | Div | Rem | DMul | Shr | Shl | BitOr | BitAnd | BitXor | BitNot | Not | Assign
  | AssignOp (op : BinOp)
  | Eq | TEq | Ne | Gt | Ge | Lt | Le | Cmp | LAnd | LOr | Match | Unmatch | SafeNav
  | Backslash | Arrow | FatArrow
  deriving DecidableEq, Repr

/-- ruruby-parse/src/token.rs:65-96 -/
inductive Reserved
  | BEGIN | END | Alias | And | Begin | Break | Case | Class | Def | Defined | Do | Else | Elsif | End | Ensure
  | For | If | In | Module | Next | Or | Rescue | Return | Super | Then | Until | Unless | When | While | Yield
  deriving DecidableEq, Repr

/-- ruruby-parse/src/token.rs:98-134 (`Debug`), which is also the table of ruruby-parse/src/lib.rs:44-56. -/
def Reserved.text : Reserved → String
  | .BEGIN => "BEGIN" | .END => "END" | .Alias => "alias" | .And => "and" | .Begin => "begin" | .Break => "break"
  | .Case => "case" | .Class => "class" | .Def => "def" | .Defined => "defined?" | .Do => "do" | .Else => "else"
  | .Elsif => "elsif" | .End => "end" | .Ensure => "ensure" | .For => "for" | .If => "if" | .In => "in"
  | .Module => "module" | .Next => "next" | .Or => "or" | .Rescue => "rescue" | .Return => "return"
  | .Super => "super" | .Then => "then" | .Until => "until" | .Unless => "unless" | .When => "when"
  | .While => "while" | .Yield => "yield"

/-- `all::<Reserved>()`; ruruby-parse/src/lib.rs:47 -/
def allReserved : List Reserved :=
  [.BEGIN, .END, .Alias, .And, .Begin, .Break, .Case, .Class, .Def, .Defined, .Do, .Else, .Elsif, .End, .Ensure,
   .For, .If, .In, .Module, .Next, .Or, .Rescue, .Return, .Super, .Then, .Until, .Unless, .When, .While, .Yield]

/-- ruruby-parse/src/lib.rs:40-42 (check_reserved) -/
def check_reserved (s : Chars) : Option Reserved := allReserved.find? (fun r => r.text.toList == s)

/-- `NReal`, the number of an imaginary literal; ruruby-parse/src/parser.rs:755-759 -/
inductive NReal
  | Integer (i : Int) | Bignum (n : Int) | Float (text : Chars)
  deriving DecidableEq, Repr

/-- ruruby-parse/src/token.rs:41-62 -/
inductive Tok
  | Eof
  | Ident (s : Chars)
  | InstanceVar (s : Chars)
  | GlobalVar (s : Chars)
  | SpecialVar (id : Nat)
  | ClassVar (s : Chars)
  | Const (s : Chars)
  | IntegerLit (i : Int)
  | BignumLit (n : Int)
  | FloatLit (text : Chars)
  | ImaginaryLit (n : NReal)
  | StringLit (s : Chars)
  | CommandLit (s : Chars)
  | Reserved (r : Reserved)
  | Punct (p : Punct)
  | OpenString (s : Chars) (term : Option Char) (level : Nat)
  | OpenRegex (s : Chars)
  | OpenCommand (s : Chars) (term : Option Char) (level : Nat)
  | PercentNotation (kind : Char) (s : Chars)
  | LineTerm
  deriving DecidableEq, Repr

/-- The result of reading: what was read and what is left. -/
abbrev Lex (α : Type) := Except Err (α × Chars)

/-- ruruby-parse/src/parser/lexer.rs:70-79 (error_unexpected): looks at the character at the position, and panics if there is none. -/
def error_unexpected : Chars → Err
  | [] => .panic
  | _ :: _ => .syntax

/-! ## Character classes -/

def is_ascii (c : Char) : Bool := c.toNat < 128
def is_digit (c : Char) : Bool := '0' ≤ c ∧ c ≤ '9'
def is_upper (c : Char) : Bool := 'A' ≤ c ∧ c ≤ 'Z'
def is_lower (c : Char) : Bool := 'a' ≤ c ∧ c ≤ 'z'
/-- `is_ascii_alphabetic` -/
def is_alpha (c : Char) : Bool := is_lower c || is_upper c
/-- characters of identifiers; ruruby-parse/src/parser/lexer.rs:1155-1164 (consume_ident) -/
def is_ident (c : Char) : Bool := is_alpha c || is_digit c || c == '_'
/-- `is_ascii_whitespace` -/
def is_space (c : Char) : Bool := c == ' ' || c == '\t' || c == '\n' || c == '\x0c' || c == '\x0d'
/-- `is_ascii_punctuation` -/
def is_punct (c : Char) : Bool :=
  ('!' ≤ c ∧ c ≤ '/') ∨ (':' ≤ c ∧ c ≤ '@') ∨ ('[' ≤ c ∧ c ≤ '`') ∨ ('{' ≤ c ∧ c ≤ '~')

/-- `char::is_numeric` -/
def is_numeric (U : Unicode) (c : Char) : Bool := if is_ascii c then is_digit c else U.numeric c
/-- `char::is_alphanumeric` -/
def is_alphanumeric (U : Unicode) (c : Char) : Bool :=
  if is_ascii c then is_alpha c || is_digit c else U.alphanumeric c

/-! ## Low level -/

/-- ruruby-parse/src/parser/lexer.rs:1131-1139 (get) -/
def get : Chars → Lex Char
  | c :: s => .ok (c, s)
  | [] => .error .eof

/-- ruruby-parse/src/parser/lexer.rs:1155-1164 (consume_ident): the characters consumed, and the rest -/
def consume_ident : Chars → Chars × Chars
  | c :: s => if is_ident c then (c :: (consume_ident s).1, (consume_ident s).2) else ([], c :: s)
  | [] => ([], [])

/-- ruruby-parse/src/parser/lexer.rs:1190-1198 (consume_numeric) -/
def consume_numeric : Chars → Option (Char × Chars)
  | c :: s => if is_digit c then some (c, s) else none
  | [] => none

/-- ruruby-parse/src/parser/lexer.rs:1218-1230 (expect_hex): the digit -/
def expect_hex : Chars → Lex Nat
  | [] => .error .eof
  | c :: s =>
    if is_digit c then .ok (c.toNat - '0'.toNat, s)
    else if 'a' ≤ c ∧ c ≤ 'f' then .ok (c.toNat - 'a'.toNat + 10, s)
    else if 'A' ≤ c ∧ c ≤ 'F' then .ok (c.toNat - 'A'.toNat + 10, s)
    else .error (error_unexpected (c :: s))

/-- ruruby-parse/src/parser/lexer.rs:1202-1210 (consume_octal) -/
def consume_octal : Chars → Option (Nat × Chars)
  | c :: s => if '0' ≤ c ∧ c ≤ '7' then some (c.toNat - '0'.toNat, s) else none
  | [] => none

/-- ruruby-parse/src/parser/lexer.rs:1244-1253 (consume_tri_octal), in `u8` -/
def consume_tri_octal (first : Char) (s : Chars) : Nat × Chars :=
  let o := first.toNat - '0'.toNat
  match consume_octal s with
  | none => (o, s)
  | some (n, s) =>
    let o := o * 8 % 256 + n
    match consume_octal s with
    | none => (o, s)
    | some (n, s) => (o * 8 % 256 + n, s)

/-- ruruby-parse/src/parser/lexer.rs:1279-1286 (goto_eol) -/
def goto_eol : Chars → Chars
  | '\n' :: s => '\n' :: s
  | [] => []
  | _ :: s => goto_eol s

/-- ruruby-parse/src/parser/lexer.rs:1267-1277 (skip_whitespace): whether a newline was skipped, and the rest -/
def skip_whitespace : Chars → Bool × Chars
  | '\n' :: s => (true, (skip_whitespace s).2)
  | '\\' :: '\n' :: s => skip_whitespace s
  | c :: s => if is_space c then skip_whitespace s else (false, c :: s)
  | [] => (false, [])

/-! ## Numbers -/

/-- The value of a digit in a radix, `char::to_digit`; part of num's `from_str_radix`. -/
def to_digit (radix : Nat) (c : Char) : Option Nat :=
  let v := if is_digit c then some (c.toNat - '0'.toNat)
    else if is_lower c then some (c.toNat - 'a'.toNat + 10)
    else if is_upper c then some (c.toNat - 'A'.toNat + 10)
    else none
  match v with
  | some d => if d < radix then some d else none
  | none => none

/-- The digits and underscores of a number; part of num's `from_str_radix`. -/
def parse_digits (radix : Nat) : Chars → Nat → Option Nat
  | [], acc => some acc
  | c :: s, acc =>
    if c = '_' then parse_digits radix s acc
    else match to_digit radix c with
      | some d => parse_digits radix s (acc * radix + d)
      | none => none

/-- num's `BigInt::parse_bytes` for a text without sign: nothing, and a leading underscore, are errors. -/
def parse_bytes (s : Chars) (radix : Nat) : Option Int :=
  match s with
  | [] => none
  | '_' :: _ => none
  | s => (parse_digits radix s 0).map Int.ofNat

/-- `i64::MAX` -/
def i64Max : Int := 9223372036854775807

/-- ruruby-parse/src/parser/lexer.rs:657-664, 687-691: an `i64` if it fits. -/
def number (b : Int) : NReal := if b ≤ i64Max then .Integer b else .Bignum b

/-- the token of a real number; ruruby-parse/src/parser/lexer.rs:667-674 -/
def NReal.tok : NReal → Tok
  | .Integer i => .IntegerLit i
  | .Bignum n => .BignumLit n
  | .Float t => .FloatLit t

/-- The digits of a decimal literal: the text collected, whether it has a fraction, the rest.  ruruby-parse/src/parser/lexer.rs:612-631 -/
def decimal (acc : Chars) (float : Bool) : Chars → Chars × Bool × Chars
  | [] => (acc, float, [])
  | c :: s =>
    if is_digit c then decimal (acc ++ [c]) float s
    else if c = '_' then decimal acc float s
    else if float = false ∧ c = '.' then
      match s with
      | d :: s' => if is_digit d then decimal (acc ++ ['.', d]) true s' else (acc, float, c :: d :: s')
      | [] => (acc, float, ['.'])
    else (acc, float, c :: s)

/-- The digits of an exponent; ruruby-parse/src/parser/lexer.rs:642-649 -/
def exponent (acc : Chars) : Chars → Chars × Chars
  | [] => (acc, [])
  | c :: s =>
    if is_digit c then exponent (acc ++ [c]) s
    else if c = '_' then exponent acc s
    else (acc, c :: s)

/-- The sign of an exponent, ruruby-parse/src/parser/lexer.rs:633-636: the text so far and the rest. -/
def exponent_sign (acc : Chars) : Chars → Chars × Chars
  | '+' :: s => (acc ++ ['e'], s)
  | '-' :: s => (acc ++ ['e', '-'], s)
  | s => (acc ++ ['e'], s)

/-- ruruby-parse/src/parser/lexer.rs:632-651: the exponent part, if there is one. -/
def exponent_part (acc : Chars) (float : Bool) (s : Chars) : Lex (Chars × Bool) :=
  let go (s : Chars) : Lex (Chars × Bool) :=
    let (acc, s) := exponent_sign acc s
    match consume_numeric s with
    | some (c, s) => .ok (((exponent (acc ++ [c]) s).1, true), (exponent (acc ++ [c]) s).2)
    | none => .error (error_unexpected s)
  match s with
  | 'e' :: s => go s
  | 'E' :: s => go s
  | s => .ok ((acc, float), s)

/-- ruruby-parse/src/parser/lexer.rs:684: the digits after the first. -/
def hex_digits : Chars → Chars × Chars
  | [] => ([], [])
  | c :: s =>
    if (to_digit 16 c).isSome || c == '_' then (c :: (hex_digits s).1, (hex_digits s).2) else ([], c :: s)

/-- ruruby-parse/src/parser/lexer.rs:679-694 (read_hex_number) -/
def read_hex_number (s : Chars) : Lex Tok :=
  match expect_hex s with
  | .error _ => .error .syntax
  | .ok _ =>
    let (t, s) := hex_digits s
    match parse_bytes t 16 with
    | some b => .ok ((number b).tok, s)
    | none => .error .syntax

/-- ruruby-parse/src/parser/lexer.rs:706-713: the loop, in `u64` (built without overflow checks). -/
def bin_digits (val : BitVec 64) : Chars → BitVec 64 × Chars
  | [] => (val, [])
  | c :: s =>
    if c = '0' ∨ c = '1' then bin_digits (val * 2 + BitVec.ofNat 64 (c.toNat - '0'.toNat)) s
    else if c = '_' then bin_digits val s
    else (val, c :: s)

/-- ruruby-parse/src/parser/lexer.rs:697-715 (read_bin_number) -/
def read_bin_number (s : Chars) : Lex Tok :=
  match s with
  | [] => .error .eof
  | c :: s =>
    if c = '0' ∨ c = '1' then
      let (v, s) := bin_digits (BitVec.ofNat 64 (c.toNat - '0'.toNat)) s
      .ok (.IntegerLit v.toInt, s)
    else .error (error_unexpected (c :: s))

/-- ruruby-parse/src/parser/lexer.rs:612-676: a decimal literal. -/
def read_decimal (ch : Char) (s : Chars) : Lex Tok :=
  let (t, float, s) := decimal [ch] false s
  match exponent_part t float s with
  | .error e => .error e
  | .ok ((t, float), s) =>
    let num : Except Err NReal :=
      if float then (if is_digit ch then .ok (.Float t) else .error .syntax)
      else match parse_bytes t 10 with
        | some b => .ok (number b)
        | none => .error .syntax
    match num with
    | .error e => .error e
    | .ok n =>
      match s with
      | 'i' :: s => .ok (.ImaginaryLit n, s)
      | s => .ok (n.tok, s)

/-- ruruby-parse/src/parser/lexer.rs:604-676 (read_number_literal) -/
def read_number_literal (ch : Char) (s : Chars) : Lex Tok :=
  match ch, s with
  | '0', 'x' :: s => read_hex_number s
  | '0', 'b' :: s => read_bin_number s
  | ch, s => read_decimal ch s

/-! ## Identifiers -/

/-- ruruby-parse/src/parser/lexer.rs:471-476: `!` (not before `=`) or `?` at the end of an identifier. -/
def suffix : Chars → Chars × Chars
  | '?' :: s => (['?'], s)
  | '!' :: '=' :: s => ([], '!' :: '=' :: s)
  | '!' :: s => (['!'], s)
  | s => ([], s)

/-- ruruby-parse/src/parser/lexer.rs:477-486: a reserved word, a constant or an identifier. -/
def classify (is_const : Bool) (name : Chars) : Tok :=
  match check_reserved name with
  | some r => .Reserved r
  | none => if is_const then .Const name else .Ident name

/-- ruruby-parse/src/parser/lexer.rs:437-487 (read_identifier, `VarKind::Identifier`) -/
def read_identifier (ch : Char) (s : Chars) : Tok × Chars :=
  let (t, s) := consume_ident s
  let (x, s) := suffix s
  (classify (is_upper ch) (ch :: t ++ x), s)

/-- ruruby-parse/src/parser/lexer.rs:444-469: the name of a variable that starts with `pre` (`@`, `@@` or `$`). -/
def read_var (U : Unicode) (pre : Chars) (s : Chars) : Lex Chars :=
  match s with
  | [] => .error .eof
  | c :: s =>
    if is_alphanumeric U c || c == '_' || c == '&' || c == '\'' then
      .ok (pre ++ c :: (consume_ident s).1, (consume_ident s).2)
    else .error (error_unexpected (c :: s))

/-- ruruby-parse/src/parser/lexer.rs:416-420: the sum of the digits. -/
def special_digits (id : Nat) : Chars → Nat × Chars
  | [] => (id, [])
  | c :: s => if is_digit c then special_digits (id + (c.toNat - '0'.toNat)) s else (id, c :: s)

/-- ruruby-parse/src/parser/lexer.rs:410-434 (read_global_var) -/
def read_global_var (U : Unicode) (s : Chars) : Lex Tok :=
  match consume_numeric s with
  | some ('0', s) => .ok (.GlobalVar ['$', '0'], s)
  | some (c, s) =>
    .ok (.SpecialVar ((special_digits (c.toNat - '0'.toNat) s).1 + 100), (special_digits (c.toNat - '0'.toNat) s).2)
  | none =>
    match s with
    | c :: s' =>
      if is_punct c then
        if c = '&' then .ok (.SpecialVar 0, s')
        else if c = '\'' then .ok (.SpecialVar 1, s')
        else .ok (.GlobalVar ['$', c], s')
      else (read_var U ['$'] s).map fun (n, s) => (.GlobalVar n, s)
    | [] => (read_var U ['$'] s).map fun (n, s) => (.GlobalVar n, s)

/-! ## Strings -/

/-- `std::char::from_u32` -/
def from_u32 (n : Nat) : Option Char :=
  if n.isValidChar then some (Char.ofNat n) else none

/-- ruruby-parse/src/parser/lexer.rs:990-1030 (read_escaped_char): the character after a backslash -/
def read_escaped_char (s : Chars) : Lex Char :=
  match s with
  | [] => .error .eof
  | c :: s =>
    if c = '\'' ∨ c = '"' ∨ c = '?' ∨ c = '\\' then .ok (c, s)
    else if c = 'a' then .ok ('\x07', s)
    else if c = 'b' then .ok ('\x08', s)
    else if c = 'e' then .ok ('\x1b', s)
    else if c = 'f' then .ok ('\x0c', s)
    else if c = 'n' then .ok ('\x0a', s)
    else if c = 'r' then .ok ('\x0d', s)
    else if c = 's' then .ok ('\x20', s)
    else if c = 't' then .ok ('\x09', s)
    else if c = 'v' then .ok ('\x0b', s)
    else if c = 'x' then
      (expect_hex s).bind fun (c1, s) =>
      (expect_hex s).bind fun (c2, s) =>
      match from_u32 (c1 * 16 + c2) with
      | some c => .ok (c, s)
      | none => .error (error_unexpected s)
    else if c = 'u' then
      (expect_hex s).bind fun (c1, s) =>
      (expect_hex s).bind fun (c2, s) =>
      (expect_hex s).bind fun (c3, s) =>
      (expect_hex s).bind fun (c4, s) =>
      match from_u32 (((c1 * 16 + c2) * 16 + c3) * 16 + c4) with
      | some c => .ok (c, s)
      | none => .error .syntax
    else if '0' ≤ c ∧ c ≤ '7' then
      .ok (Char.ofNat (consume_tri_octal c s).1, (consume_tri_octal c s).2)
    else .ok (c, s)

/-- ruruby-parse/src/parser/lexer.rs:41-45 (InterpolateState): finished, or an interpolation follows -/
inductive Interpolate
  | finished (s : Chars)
  | interpolation (s : Chars) (level : Nat)
  deriving DecidableEq, Repr

/-- ruruby-parse/src/parser/lexer.rs:748-802 (read_interpolate).  The first argument bounds the number of characters (fuel). -/
def read_interpolate (opn : Option Char) (term : Option Char) : Nat → Nat → Chars → Chars → Lex Interpolate
  | 0, _, _, _ => .error .eof
  | n + 1, level, acc, s =>
    match s with
    | [] => if term.isNone then .ok (.finished acc, []) else .error .eof
    | c :: s =>
      if opn = some c then read_interpolate opn term n (level + 1) (acc ++ [c]) s
      else if term = some c then
        if level = 0 then .ok (.finished acc, s)
        else read_interpolate opn term n (level - 1) (acc ++ [c]) s
      else if c = '\\' then
        match s with
        | '\n' :: s => read_interpolate opn term n level acc s
        | s =>
          match read_escaped_char s with
          | .error e => .error e
          | .ok (e, s) => read_interpolate opn term n level (acc ++ [e]) s
      else if c = '#' then
        match s with
        | '{' :: s => .ok (.interpolation acc level, '{' :: s)
        | '$' :: s => .ok (.interpolation acc level, '$' :: s)
        | '@' :: s => .ok (.interpolation acc level, '@' :: s)
        | s => read_interpolate opn term n level (acc ++ ['#']) s
      else read_interpolate opn term n level (acc ++ [c]) s

/-- ruruby-parse/src/parser/lexer.rs:718-730 (read_string_literal_double) -/
def read_string_literal_double (opn : Option Char) (term : Option Char) (level : Nat) (s : Chars) : Lex Tok :=
  (read_interpolate opn term (s.length + 1) level [] s).map fun
    | (.finished t, s) => (.StringLit t, s)
    | (.interpolation t level, s) => (.OpenString t term level, s)

/-- ruruby-parse/src/parser/lexer.rs:733-745 (read_command_literal) -/
def read_command_literal (opn : Option Char) (term : Option Char) (level : Nat) (s : Chars) : Lex Tok :=
  (read_interpolate opn term (s.length + 1) level [] s).map fun
    | (.finished t, s) => (.CommandLit t, s)
    | (.interpolation t level, s) => (.OpenCommand t term level, s)

/-- ruruby-parse/src/parser/lexer.rs:805-848 (read_string_literal_single) -/
def read_single (opn : Option Char) (term : Char) (escape_backslash : Bool) :
    Nat → Nat → Chars → Chars → Lex Chars
  | 0, _, _, _ => .error .eof
  | n + 1, level, acc, s =>
    match s with
    | [] => .error .eof
    | c :: s =>
      if opn = some c then read_single opn term escape_backslash n (level + 1) (acc ++ [c]) s
      else if c = term then
        if level = 0 then .ok (acc, s)
        else read_single opn term escape_backslash n (level - 1) (acc ++ [c]) s
      else if c = '\\' then
        match s with
        | [] => .error .eof
        | d :: s =>
          if d = '\n' then read_single opn term escape_backslash n level acc s
          else if d = '\'' then read_single opn term escape_backslash n level (acc ++ ['\'']) s
          else if d = '\\' then
            read_single opn term escape_backslash n level
              (acc ++ (if escape_backslash then ['\\', '\\'] else ['\\'])) s
          else read_single opn term escape_backslash n level (acc ++ ['\\', d]) s
      else read_single opn term escape_backslash n level (acc ++ [c]) s

def read_string_literal_single (opn : Option Char) (term : Char) (escape_backslash : Bool) (s : Chars) : Lex Chars :=
  read_single opn term escape_backslash (s.length + 1) 0 [] s

/-! ## Tokens -/

/-- ruruby-parse/src/parser/lexer.rs:229-397: an operator, delimiter, or the like, that starts with `ch`. -/
def read_punct (ch : Char) (s : Chars) : Option (Punct × Chars) :=
  match ch with
  | ';' => some (.Semi, s)
  | ':' => match s with | ':' :: s => some (.Scope, s) | s => some (.Colon, s)
  | ',' => some (.Comma, s)
  | '+' => match s with | '=' :: s => some (.AssignOp .Add, s) | s => some (.Plus, s)
  | '-' =>
    match s with
    | '>' :: s => some (.Arrow, s)
    | '=' :: s => some (.AssignOp .Sub, s)
    | s => some (.Minus, s)
  | '*' =>
    match s with
    | '=' :: s => some (.AssignOp .Mul, s)
    | '*' :: s => some (.DMul, s)
    | s => some (.Mul, s)
  | '%' => match s with | '=' :: s => some (.AssignOp .Rem, s) | s => some (.Rem, s)
  | '/' => match s with | '=' :: s => some (.AssignOp .Div, s) | s => some (.Div, s)
  | '(' => some (.LParen, s)
  | ')' => some (.RParen, s)
  | '^' => match s with | '=' :: s => some (.AssignOp .BitXor, s) | s => some (.BitXor, s)
  | '~' => some (.BitNot, s)
  | '[' => some (.LBracket, s)
  | ']' => some (.RBracket, s)
  | '{' => some (.LBrace, s)
  | '}' => some (.RBrace, s)
  | '.' =>
    match s with
    | '.' :: '.' :: s => some (.Range3, s)
    | '.' :: s => some (.Range2, s)
    | s => some (.Dot, s)
  | '?' => some (.Question, s)
  | '\\' => some (.Backslash, s)
  | '=' =>
    match s with
    | '=' :: '=' :: s => some (.TEq, s)
    | '=' :: s => some (.Eq, s)
    | '>' :: s => some (.FatArrow, s)
    | '~' :: s => some (.Match, s)
    | s => some (.Assign, s)
  | '>' =>
    match s with
    | '=' :: s => some (.Ge, s)
    | '>' :: '=' :: s => some (.AssignOp .Shr, s)
    | '>' :: s => some (.Shr, s)
    | s => some (.Gt, s)
  | '<' =>
    match s with
    | '=' :: '>' :: s => some (.Cmp, s)
    | '=' :: s => some (.Le, s)
    | '<' :: '=' :: s => some (.AssignOp .Shl, s)
    | '<' :: s => some (.Shl, s)
    | s => some (.Lt, s)
  | '!' =>
    match s with
    | '=' :: s => some (.Ne, s)
    | '~' :: s => some (.Unmatch, s)
    | s => some (.Not, s)
  | '&' =>
    match s with
    | '&' :: '=' :: s => some (.AssignOp .LAnd, s)
    | '&' :: s => some (.LAnd, s)
    | '=' :: s => some (.AssignOp .BitAnd, s)
    | '.' :: s => some (.SafeNav, s)
    | s => some (.BitAnd, s)
  | '|' =>
    match s with
    | '|' :: '=' :: s => some (.AssignOp .LOr, s)
    | '|' :: s => some (.LOr, s)
    | '=' :: s => some (.AssignOp .BitOr, s)
    | s => some (.BitOr, s)
  | _ => none

/-- ruruby-parse/src/parser/lexer.rs:394-400: after an `@` -/
def read_at_var (U : Unicode) (s : Chars) : Lex Tok :=
  match s with
  | '@' :: s => (read_var U ['@', '@'] s).map fun (n, s) => (.ClassVar n, s)
  | s => (read_var U ['@'] s).map fun (n, s) => (.InstanceVar n, s)

/-- ruruby-parse/src/parser/lexer.rs:212-408 (read_token), at a character that is not white space. -/
def read_token_at (U : Unicode) (s : Chars) : Lex Tok :=
  match s with
  | [] => .ok (.Eof, [])
  | ch :: s =>
    if is_alpha ch || ch == '_' then .ok (read_identifier ch s)
    else if is_numeric U ch then read_number_literal ch s
    else if is_punct ch then
      if ch = '"' then read_string_literal_double none (some '"') 0 s
      else if ch = '`' then read_command_literal none (some '`') 0 s
      else if ch = '\'' then (read_string_literal_single none '\'' false s).map fun (t, s) => (.StringLit t, s)
      else if ch = '@' then read_at_var U s
      else if ch = '$' then read_global_var U s
      else (read_punct ch s).elim (.error (error_unexpected (ch :: s))) fun (p, s) => .ok (.Punct p, s)
    else .ok (read_identifier ch s)

/-- ruruby-parse/src/parser/lexer.rs:212-408 (read_token).  A comment (`#`) runs to the end of the line: the loop then finds the newline, and
with it the line terminator, or the end of the text. -/
def read_token (U : Unicode) (s : Chars) : Lex Tok :=
  match skip_whitespace s with
  | (true, s) => .ok (.LineTerm, s)
  | (false, '#' :: s) =>
    match goto_eol s with
    | [] => .ok (.Eof, [])
    | s => .ok (.LineTerm, (skip_whitespace s).2)
  | (false, s) => read_token_at U s

end Verif.Lexer
