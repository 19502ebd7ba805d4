/-!
# Model of strings (`ruruby/src/value/string.rs`, `ruruby/src/builtin/string.rs`, `ruruby/src/builtin/array.rs`)

Rust's `str` and `String` are sequences of characters (Unicode scalar values) held in UTF-8; they are
modelled by `List Char`, and `utf8` gives the bytes.  `std::str::from_utf8` accepts exactly the encodings of
character sequences; Lean's decoder plays its part.
-/
namespace Verif.Str

abbrev Text := List Char
abbrev Bytes := List UInt8

/-- `str::as_bytes` -/
def utf8 (s : Text) : Bytes := s.flatMap String.utf8EncodeChar

/-- `std::str::from_utf8` -/
def from_utf8 (b : Bytes) : Option Text := (b.toByteArray.utf8Decode?).map Array.toList

/-- `ruruby/src/value/string.rs:6` -/
def SMALL_STRING_CAPACITY : Nat := 31

/-- `ruruby/src/value/string.rs:9-13`.  A `SmallStr` is an `ArrayString<31>`: a fixed buffer. -/
inductive RString
  | Str (s : Text)
  | SmallStr (s : Text)
  | Bytes (b : Bytes)
deriving DecidableEq

/-- The outcome of a builtin: a value, a Ruby exception, or a panic of the interpreter. -/
inductive Res (α : Type)
  | ok (a : α)
  | raised
  | panic
deriving DecidableEq, Repr

namespace RString

/-- `ruruby/src/value/string.rs:58-65`; `SmallString::from(..).unwrap()` panics if the text does not fit into the
buffer, which the test before excludes. -/
def from_ (s : Text) : RString :=
  if (utf8 s).length ≤ SMALL_STRING_CAPACITY then .SmallStr s else .Str s

/-- `ruruby/src/value/string.rs:70-75` -/
def from_bytes (b : Str.Bytes) : RString :=
  match from_utf8 b with
  | some s => from_ s
  | none => .Bytes b

/-- `ruruby/src/value/string.rs:171-177` -/
def as_bytes : RString → Str.Bytes
  | .Str s => utf8 s
  | .SmallStr s => utf8 s
  | .Bytes b => b

/-- `ruruby/src/value/string.rs:77-130` (`append`), when `rhs` is another object. -/
def append (self rhs : RString) : RString :=
  match self with
  | .Str lhs =>
    match rhs with
    | .Str rhs => .Str (lhs ++ rhs)
    | .SmallStr rhs => .Str (lhs ++ rhs)
    | .Bytes rhs => from_bytes (utf8 lhs ++ rhs)
  | .SmallStr lhs =>
    match rhs with
    | .Str rhs => .Str (lhs ++ rhs)
    | .SmallStr rhs => from_ (lhs ++ rhs)
    | .Bytes rhs => from_bytes (utf8 lhs ++ rhs)
  | .Bytes lhs =>
    match rhs with
    | .Str rhs => from_bytes (lhs ++ utf8 rhs)
    | .SmallStr rhs => from_bytes (lhs ++ utf8 rhs)
    | .Bytes rhs => .Bytes (lhs ++ rhs)

/-- `ruruby/src/value/string.rs:77-130` when `rhs` is the same object as `self` (`s << s`).  For a small string the
contents are taken out of the object (`mem::replace`, line 97) before `rhs` is read, so `rhs` is read as the
empty string.  For the other two representations the buffer may be moved before `rhs` is read: undefined
behaviour (`none`). -/
def append_self : RString → Option RString
  | .SmallStr lhs => some (from_ (lhs ++ []))
  | .Str _ => none
  | .Bytes _ => none

/-- `ruruby/src/value/string.rs:144-158` (`as_string`): the text, and the new representation of the string. -/
def as_string : RString → Res (Text × RString)
  | .Str s => .ok (s, .Str s)
  | .SmallStr s => .ok (s, .SmallStr s)
  | .Bytes b =>
    match from_utf8 b with
    | some s => .ok (s, from_ s)
    | none => .raised

/-- `ruruby/src/value/string.rs:160-166` (`as_str`) -/
def as_str : RString → Res Text
  | .Str s => .ok s
  | .SmallStr s => .ok s
  | .Bytes _ => .panic

/-- `ruruby/src/value/string.rs:179-185` -/
def len : RString → Nat
  | .Str s => (utf8 s).length
  | .SmallStr s => (utf8 s).length
  | .Bytes b => b.length

end RString

/-- `u8::cmp` -/
def cmpByte (a b : UInt8) : Ordering := if a < b then .lt else if a = b then .eq else .gt

/-- The loops of `string_cmp` (`ruruby/src/value/string.rs:253-258`, `:265-270`): the first of `n` positions, from
`i` on, where the bytes differ.  An index outside panics. -/
def cmpLoop (l r : Bytes) (i : Nat) : Nat → Res (Option Ordering)
  | 0 => .ok none
  | n + 1 =>
    match l[i]?, r[i]? with
    | some a, some b => if cmpByte a b = .eq then cmpLoop l r (i + 1) n else .ok (some (cmpByte a b))
    | _, _ => .panic

/-- `ruruby/src/value/string.rs:251-273` (`string_cmp`) -/
def string_cmp (lhs rhs : Bytes) : Res Ordering :=
  if lhs.length ≥ rhs.length then
    match cmpLoop lhs rhs 0 rhs.length with
    | .ok (some o) => .ok o
    | .ok none => if lhs.length = rhs.length then .ok .eq else .ok .gt
    | .raised => .raised
    | .panic => .panic
  else
    match cmpLoop lhs rhs 0 lhs.length with
    | .ok (some o) => .ok o
    | .ok none => .ok .lt
    | .raised => .raised
    | .panic => .panic

/-- An argument: a string, a fixnum, or something else. -/
inductive Arg
  | str (s : RString)
  | int (i : Int)
  | other

/-- `ruruby/src/builtin/string.rs:102-110` (`+`) -/
def add (self : RString) : Arg → Res RString
  | .str r => .ok (self.append r)
  | _ => .raised

/-- `i as i8 as u8` -/
def lowByte (i : Int) : UInt8 := UInt8.ofNat (i % 256).toNat

/-- `ruruby/src/builtin/string.rs:260-274` (`<<`, `concat`), for an argument that is another object. -/
def concat (self : RString) : Arg → Res RString
  | .str r => .ok (self.append r)
  | .int i => .ok (self.append (.Bytes [lowByte i]))
  | .other => .raised

/-- `ruruby/src/builtin/string.rs:112-126` (`*`); `Value::bytes` (`value.rs:1062-1067`) is `from_bytes`. -/
def mul (self : RString) (count : Int) : Res RString :=
  if count < 0 then .raised
  else
    match self with
    | .Str s => .ok (.from_ (List.replicate count.toNat s).flatten)
    | .SmallStr s => .ok (.from_ (List.replicate count.toNat s).flatten)
    | .Bytes b => .ok (.from_bytes (List.replicate count.toNat b).flatten)

/-- `ruruby/src/builtin/string.rs:251-258` (`<=>`): `none` is nil. -/
def cmp (self : RString) : Arg → Res (Option Ordering)
  | .str r =>
    match string_cmp self.as_bytes r.as_bytes with
    | .ok o => .ok (some o)
    | .raised => .raised
    | .panic => .panic
  | _ => .ok none

/-- `ruruby/src/builtin/string.rs:967-1013`: `<`, `<=`, `>`, `>=` -/
def compareWith (test : Ordering → Bool) (self : RString) (arg : Arg) : Res Bool :=
  match cmp self arg with
  | .ok (some o) => .ok (test o)
  | .ok none => .raised
  | .raised => .raised
  | .panic => .panic
def lt := compareWith Ordering.isLT
def le := compareWith Ordering.isLE
def gt := compareWith Ordering.isGT
def ge := compareWith Ordering.isGE

/-- `==` of two strings: `ruruby/src/vm/executor/ops.rs:397-399`, `ruruby/src/value/value.rs:103-105`. -/
def eq (a b : RString) : Bool := a.as_bytes = b.as_bytes

/-! ## join and split -/

/-- `ruruby/src/builtin/array.rs:868-876`: the loop of `join`; `elems` are the texts of the elements
(`val_to_s`). -/
def joinLoop (sep : Text) (res : Text) : List Text → Text
  | [] => res
  | s :: rest => joinLoop sep (if res.isEmpty then s else res ++ sep ++ s) rest

/-- `ruruby/src/builtin/array.rs:857-878` (`join`) -/
def join (elems : List Text) (sep : Text) : Text := joinLoop sep [] elems

/-- `str::find`: the text before the first place where `sep` occurs, and the text after it. -/
def find (sep : Text) : Text → Option (Text × Text)
  | [] => if sep.isPrefixOf [] then some ([], []) else none
  | c :: cs =>
    if sep.isPrefixOf (c :: cs) then some ([], (c :: cs).drop sep.length)
    else (find sep cs).map (fun r => (c :: r.1, r.2))

/-- `str::splitn` for a non-empty separator: at most `n` parts. -/
def splitn (sep : Text) : Nat → Text → List Text
  | 0, _ => []
  | 1, s => [s]
  | n + 2, s =>
    match find sep s with
    | none => [s]
    | some (a, b) => a :: splitn sep (n + 1) b

/-- `str::split` for a non-empty separator.  There are at most `s.length + 1` parts. -/
def splitAll (sep s : Text) : List Text := splitn sep (s.length + 1) s

/-- `char::is_ascii_whitespace` -/
def isAsciiWhitespace (c : Char) : Bool := c = ' ' ∨ c = '\t' ∨ c = '\n' ∨ c = '\x0c' ∨ c = '\r'

/-- `ruruby/src/builtin/string.rs:478-485`: empty strings are removed from the end. -/
def dropEmptyEnd (l : List Text) : List Text := (l.reverse.dropWhile List.isEmpty).reverse

/-- `ruruby/src/builtin/string.rs:453-492` (`split` with a string, without a block), for a non-empty separator. -/
def split (s sep : Text) (lim : Int) : List Text :=
  let s := if sep = [' '] then s.dropWhile isAsciiWhitespace else s
  if lim < 0 then splitAll sep s
  else if lim = 0 then dropEmptyEnd (splitAll sep s)
  else splitn sep lim.toNat s

end Verif.Str
