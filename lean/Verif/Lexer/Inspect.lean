import Verif.Lexer.Model
/-!
# `String#inspect`

Models `ruruby/src/value/string.rs`.  Only strings that hold text (`Str`, `SmallStr`).
-/
namespace Verif.Lexer

/-- `{:02}` of a number below 100: two decimal digits -/
def two_digits (n : Nat) : Chars := [Char.ofNat (48 + n / 10), Char.ofNat (48 + n % 10)]

/-- One character; ruruby/src/value/string.rs:20-34 -/
def write_char (ch : Char) : Chars :=
  if ch = '\'' ∨ ch = '"' ∨ ch = '\\' then ['\\', ch]
  else if '\x00' ≤ ch ∧ ch ≤ '\x06' then '\\' :: 'x' :: two_digits ch.toNat
  else if ch = '\x07' then ['\\', 'a']
  else if ch = '\x08' then ['\\', 'b']
  else if ch = '\x09' then ['\\', 't']
  else if ch = '\x0a' then ['\\', 'n']
  else if ch = '\x0b' then ['\\', 'v']
  else if ch = '\x0c' then ['\\', 'f']
  else if ch = '\x0d' then ['\\', 'r']
  else if ch = '\x1b' then ['\\', 'e']
  else [ch]

/-- The loop; ruruby/src/value/string.rs:18-37 -/
def write : Chars → Chars
  | [] => []
  | ch :: s => write_char ch ++ write s

/-- ruruby/src/value/string.rs:249-251 (inspect) -/
def inspect (s : Chars) : Chars := '"' :: (write s ++ ['"'])

end Verif.Lexer
