import Verif.Lexer.Model
/-!
# What texts mean (specification for C50, C73, C74, C75)
-/
namespace Verif.Lexer

/-- The digits, and what they stand for. -/
def digitTable : List (Char × Nat) :=
  [('0', 0), ('1', 1), ('2', 2), ('3', 3), ('4', 4), ('5', 5), ('6', 6), ('7', 7), ('8', 8), ('9', 9),
   ('a', 10), ('b', 11), ('c', 12), ('d', 13), ('e', 14), ('f', 15),
   ('A', 10), ('B', 11), ('C', 12), ('D', 13), ('E', 14), ('F', 15)]

/-- `text` is a sequence of digits of the radix, with underscores anywhere; `ds` are the values of the digits. -/
inductive Spells (radix : Nat) : Chars → List Nat → Prop
  | nil : Spells radix [] []
  | digit {c d t ds} : (c, d) ∈ digitTable → d < radix → Spells radix t ds → Spells radix (c :: t) (d :: ds)
  | underscore {t ds} : Spells radix t ds → Spells radix ('_' :: t) ds

/-- The number that digits denote. -/
def value (radix : Nat) (ds : List Nat) : Nat := ds.foldl (fun v d => v * radix + d) 0

/-- The text after a number does not go on with it. -/
def NumberEnds (radix : Nat) (rest : Chars) : Prop :=
  match rest with
  | [] => True
  | c :: rest => c ≠ '_' ∧ (∀ d, (c, d) ∈ digitTable → ¬ d < radix) ∧
      (radix = 10 → c ≠ 'e' ∧ c ≠ 'E' ∧ c ≠ 'i' ∧
        ∀ d v r, rest = d :: r → c = '.' → (d, v) ∈ digitTable → ¬ v < 10)

/-- The operators and delimiters of the language. -/
def operators : List (String × Punct) :=
  [("(", .LParen), (")", .RParen), ("[", .LBracket), ("]", .RBracket), ("{", .LBrace), ("}", .RBrace),
   (";", .Semi), (":", .Colon), ("::", .Scope), (",", .Comma), (".", .Dot), ("?", .Question), ("..", .Range2),
   ("...", .Range3),
   ("+", .Plus), ("-", .Minus), ("*", .Mul), ("/", .Div), ("%", .Rem), ("**", .DMul), (">>", .Shr), ("<<", .Shl),
   ("|", .BitOr), ("&", .BitAnd), ("^", .BitXor), ("~", .BitNot), ("!", .Not), ("=", .Assign),
   ("+=", .AssignOp .Add), ("-=", .AssignOp .Sub), ("*=", .AssignOp .Mul), ("/=", .AssignOp .Div),
   ("%=", .AssignOp .Rem), (">>=", .AssignOp .Shr), ("<<=", .AssignOp .Shl), ("&=", .AssignOp .BitAnd),
   ("|=", .AssignOp .BitOr), ("^=", .AssignOp .BitXor), ("&&=", .AssignOp .LAnd), ("||=", .AssignOp .LOr),
   ("==", .Eq), ("===", .TEq), ("!=", .Ne), (">", .Gt), (">=", .Ge), ("<", .Lt), ("<=", .Le), ("<=>", .Cmp),
   ("&&", .LAnd), ("||", .LOr), ("=~", .Match), ("!~", .Unmatch), ("&.", .SafeNav),
   ("\\", .Backslash), ("->", .Arrow), ("=>", .FatArrow)]

/-- A name: a letter or underscore, then letters, digits and underscores, then possibly `?` or `!`. -/
inductive Name : Chars → Prop
  | plain {c t} : (is_alpha c = true ∨ c = '_') → (∀ x ∈ t, is_ident x = true) → Name (c :: t)
  | mark {c t m} : (is_alpha c = true ∨ c = '_') → (∀ x ∈ t, is_ident x = true) → m = '?' ∨ m = '!' →
      Name (c :: t ++ [m])

/-- The texts of tokens. -/
inductive Text : Chars → Tok → Prop
  | ident {s} : Name s → (∀ r : Reserved, r.text.toList ≠ s) → (∀ c t, s = c :: t → ¬ is_upper c = true) →
      Text s (.Ident s)
  | const {s} : Name s → (∀ r : Reserved, r.text.toList ≠ s) → (∀ c t, s = c :: t → is_upper c = true) →
      Text s (.Const s)
  | reserved (r : Reserved) : Text r.text.toList (.Reserved r)
  | punct {t p} : (t, p) ∈ operators → p ≠ .Backslash → Text t.toList (.Punct p)
  | ivar {c t} : (is_alpha c = true ∨ c = '_') → (∀ x ∈ t, is_ident x = true) →
      Text ('@' :: c :: t) (.InstanceVar ('@' :: c :: t))
  | cvar {c t} : (is_alpha c = true ∨ c = '_') → (∀ x ∈ t, is_ident x = true) →
      Text ('@' :: '@' :: c :: t) (.ClassVar ('@' :: '@' :: c :: t))
  | gvar {c t} : is_alpha c = true → (∀ x ∈ t, is_ident x = true) →
      Text ('$' :: c :: t) (.GlobalVar ('$' :: c :: t))
  | small {t ds} : Spells 10 t ds → t.head? ≠ some '_' → t ≠ [] → (value 10 ds : Int) ≤ i64Max →
      Text t (.IntegerLit (value 10 ds))
  | big {t ds} : Spells 10 t ds → t.head? ≠ some '_' → t ≠ [] → i64Max < (value 10 ds : Int) →
      Text t (.BignumLit (value 10 ds))

/-- What a character is written as in a double-quoted string. -/
inductive Escape : Chars → Char → Prop
  /-- a character that is not `"`, `\` or `#` stands for itself -/
  | plain {c} : c ≠ '"' → c ≠ '\\' → c ≠ '#' → Escape [c] c
  /-- after a backslash, a character that has no meaning of its own stands for itself -/
  | quoted {c} : c ∉ ("abefnrstvxu01234567\n".toList) → Escape ['\\', c] c
  | bell : Escape ['\\', 'a'] '\x07'
  | backspace : Escape ['\\', 'b'] '\x08'
  | escape : Escape ['\\', 'e'] '\x1b'
  | formfeed : Escape ['\\', 'f'] '\x0c'
  | newline : Escape ['\\', 'n'] '\n'
  | ret : Escape ['\\', 'r'] '\x0d'
  | space : Escape ['\\', 's'] ' '
  | tab : Escape ['\\', 't'] '\t'
  | vtab : Escape ['\\', 'v'] '\x0b'
  | hex {a b x y} : (a, x) ∈ digitTable → (b, y) ∈ digitTable → Escape ['\\', 'x', a, b] (Char.ofNat (x * 16 + y))
  | unicode {a b c d x y z w} : (a, x) ∈ digitTable → (b, y) ∈ digitTable → (c, z) ∈ digitTable →
      (d, w) ∈ digitTable → (((x * 16 + y) * 16 + z) * 16 + w).isValidChar →
      Escape ['\\', 'u', a, b, c, d] (Char.ofNat (((x * 16 + y) * 16 + z) * 16 + w))
  /-- three octal digits: the character of that number, of which eight bits count -/
  | octal {a b c x y z} : (a, x) ∈ digitTable → (b, y) ∈ digitTable → (c, z) ∈ digitTable → x < 8 → y < 8 → z < 8 →
      Escape ['\\', a, b, c] (Char.ofNat (((x * 8 + y) * 8 + z) % 256))

/-- The text of a double-quoted string literal (between the quotes) and the characters it denotes.  A `#` may stand
for itself where no `{`, `$` or `@` follows. -/
inductive Quoted : Chars → Chars → Prop
  | nil : Quoted [] []
  | char {e c t s} : Escape e c → Quoted t s → Quoted (e ++ t) (c :: s)
  | hash {t s} : (∀ c r, t = c :: r → c ≠ '{' ∧ c ≠ '$' ∧ c ≠ '@') → Quoted t s → Quoted ('#' :: t) ('#' :: s)
  | continued {t s} : Quoted t s → Quoted ('\\' :: '\n' :: t) s

/-- The text of a single-quoted string literal: `\'` and `\\` stand for `'` and `\`; a backslash before any other
character (not a newline) stands for itself. -/
inductive SingleQuoted : Chars → Chars → Prop
  | nil : SingleQuoted [] []
  | char {c t s} : c ≠ '\'' → c ≠ '\\' → SingleQuoted t s → SingleQuoted (c :: t) (c :: s)
  | quote {t s} : SingleQuoted t s → SingleQuoted ('\\' :: '\'' :: t) ('\'' :: s)
  | backslash {t s} : SingleQuoted t s → SingleQuoted ('\\' :: '\\' :: t) ('\\' :: s)
  | alone {c t s} : c ≠ '\'' → c ≠ '\\' → c ≠ '\n' → SingleQuoted t s →
      SingleQuoted ('\\' :: c :: t) ('\\' :: c :: s)

/-- What may follow a token: the end of the text, white space, or an opening parenthesis or bracket. -/
def Ends : Chars → Prop
  | [] => True
  | c :: _ => is_space c = true ∨ c = '(' ∨ c = '['

/-- No `#` of the string is followed by `{`, `$` or `@`. -/
def NoInterpolation : Chars → Prop
  | [] => True
  | c :: s => (c = '#' → ∀ d r, s = d :: r → d ≠ '{' ∧ d ≠ '$' ∧ d ≠ '@') ∧ NoInterpolation s

/-- Reading tokens one after the other, to the end of the text, gives these. -/
inductive Reads (U : Unicode) : Chars → List Tok → Prop
  | done {s r} : read_token U s = .ok (.Eof, r) → Reads U s []
  | next {s t r ts} : read_token U s = .ok (t, r) → t ≠ .Eof → Reads U r ts → Reads U s (t :: ts)

end Verif.Lexer
