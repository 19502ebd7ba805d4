import Verif.Str.Model
/-!
# Model of the methods of `String` that work on characters (`ruruby/src/builtin/string.rs`)

The receiver has been read as text (`expect_string`, `as_string`); see `Verif/Str/Model.lean`.  `none` stands for nil
where the result is `Option`.
-/
namespace Verif.Str

/-- `ruruby/src/builtin/string.rs:129-142` (`conv_index`) -/
def conv_index (i : Int) (len : Nat) : Option Nat :=
  if i ≥ 0 then
    if i < len then some i.toNat else none
  else
    let n := (len : Int) + i
    if n < 0 then none else some n.toNat

/-- `ruruby/src/builtin/string.rs:146-166`: `s[i]` (`n = none`) and `s[i, n]`. -/
def index (lhs : Text) (i : Int) (n : Option Int) : Option Text :=
  match conv_index i lhs.length with
  | none => none
  | some index =>
    let go (len : Nat) : Option Text :=
      let ch := (lhs.drop index).take len
      if ch.isEmpty then none else some ch
    match n with
    | none => go 1
    | some n => if n = 0 then some [] else if n < 0 then none else go n.toNat

/-- `ruruby/src/builtin/string.rs:168-187`: `s[start..stop]`; the range may exclude its end, which is ignored. -/
def indexRange (lhs : Text) (start stop : Int) (_exclude : Bool) : Option Text :=
  let len := lhs.length
  match conv_index start len, conv_index stop len with
  | some start, some stop => if start > stop then some [] else some ((lhs.drop start).take (stop - start + 1))
  | _, _ => none

/-- `char_indices().nth(n)`: the position (in bytes) of the `n`-th character, and the character. -/
def charAt (s : Text) (n : Nat) : Option (Nat × Char) := s[n]?.map (fun c => ((utf8 (s.take n)).length, c))

/-- `ruruby/src/builtin/string.rs:243-246`: the position of the `n`-th character, or the end. -/
def stopAt (s : Text) (n : Nat) : Nat :=
  match charAt s n with
  | some (p, _) => p
  | none => (utf8 s).length

/-- `String::replace_range`, on the bytes. -/
def replace_range (b : Bytes) (start stop : Nat) (t : Bytes) : Bytes := b.take start ++ t ++ b.drop stop

/-- `i as usize` of an `i64` -/
def asUsize (i : Int) : Nat := (i % 2 ^ 64).toNat

/-- The result of `s[i] = t`, `s[i, n] = t`. -/
inductive Assigned
  | bytes (b : Bytes)
  | IndexError
  /-- the subtraction `n - 1` overflows -/
  | overflow
deriving DecidableEq

/-- `ruruby/src/builtin/string.rs:224-249` (`[]=`): `n = none` for `s[i] = t`. -/
def index_assign (s : Text) (i : Int) (n : Option Int) (t : Text) : Assigned :=
  let str_len := s.length
  let start_pos := asUsize i
  let go (len : Nat) : Assigned :=
    if start_pos ≥ str_len then .IndexError
    else
      match charAt s start_pos with
      | none => .overflow
      | some (start, _) =>
        let stop := stopAt s (start_pos + len + 1)
        .bytes (replace_range (utf8 s) start stop (utf8 t))
  match n with
  | none => go 0
  | some n => if asUsize n = 0 then .overflow else go (asUsize n - 1)

/-- `ruruby/src/builtin/string.rs:642-651` (`calc_idx`) -/
def calc_idx (target : Text) (i : Int) : Option Nat :=
  if i ≥ 0 then some i.toNat
  else
    let idx := (target.length : Int) + i
    if idx < 0 then none else some idx.toNat

/-- `ruruby/src/builtin/string.rs:658-670`: `slice!(i)`: the result (nil or a character) and the new bytes. -/
def slice1 (s : Text) (i : Int) : Option Text × Bytes :=
  match calc_idx s i with
  | none => (none, utf8 s)
  | some idx =>
    match charAt s idx with
    | none => (none, utf8 s)
    | some (pos, ch) => (some [ch], replace_range (utf8 s) pos (pos + (utf8 [ch]).length) [])

/-- `ruruby/src/builtin/string.rs:671-699`: `slice!(i, n)`. -/
def slice2 (s : Text) (i n : Int) : Option Text × Bytes :=
  if n < 0 then (none, utf8 s)
  else
    match calc_idx s i with
    | none => (none, utf8 s)
    | some start =>
      let taken := (s.drop start).take n.toNat
      if taken.isEmpty then (none, utf8 s)
      else
        let start_pos := (utf8 (s.take start)).length
        match charAt s (start + n.toNat) with
        | some (end_pos, _) => (some taken, replace_range (utf8 s) start_pos end_pos [])
        | none => (some taken, replace_range (utf8 s) start_pos (utf8 s).length [])

/-! ## Padding -/

/-- `ruruby/src/builtin/string.rs:1015-1020` (`gen_pad`) -/
def gen_pad (padding : Text) (len : Nat) : Text :=
  let pad_len := padding.length
  (List.replicate (len / pad_len) padding).flatten ++ padding.take (len % pad_len)

/-- `ruruby/src/builtin/string.rs:1049-1068` (`ljust`) -/
def ljust (lhs : Text) (width : Int) (padding : Text) : Res Text :=
  if padding.length = 0 then .raised
  else if width ≤ 0 ∨ width.toNat ≤ lhs.length then .ok lhs
  else .ok (lhs ++ gen_pad padding (width.toNat - lhs.length))

/-- `ruruby/src/builtin/string.rs:1070-1089` (`rjust`) -/
def rjust (lhs : Text) (width : Int) (padding : Text) : Res Text :=
  if padding.length = 0 then .raised
  else if width ≤ 0 ∨ width.toNat ≤ lhs.length then .ok lhs
  else .ok (gen_pad padding (width.toNat - lhs.length) ++ lhs)

/-- `ruruby/src/builtin/string.rs:1022-1047` (`center`) -/
def center (lhs : Text) (width : Int) (padding : Text) : Res Text :=
  if padding.length = 0 then .raised
  else if width ≤ 0 ∨ width.toNat ≤ lhs.length then .ok lhs
  else
    let head := (width.toNat - lhs.length) / 2
    let tail := width.toNat - lhs.length - head
    .ok (gen_pad padding head ++ lhs ++ gen_pad padding tail)

/-! ## Lines, stripping -/

/-- `str::split_inclusive('\n')` (`cur` is the line begun). -/
def linesGo (cur : Text) : Text → List Text
  | [] => if cur.isEmpty then [] else [cur]
  | c :: cs => if c = '\n' then (cur ++ [c]) :: linesGo [] cs else linesGo (cur ++ [c]) cs

/-- `ruruby/src/builtin/string.rs:1221-1231` (`lines`) -/
def lines (s : Text) : List Text := linesGo [] s

/-- the characters removed by `strip` -/
def white : List Char := [' ', '\n', '\t', '\x0d', '\x0c', '\x0b']
def white0 : List Char := white ++ ['\x00']

/-- `trim_start_matches`, `trim_end_matches` with a set of characters -/
def trimStart (set : List Char) (s : Text) : Text := s.dropWhile (set.contains ·)
def trimEnd (set : List Char) (s : Text) : Text := (s.reverse.dropWhile (set.contains ·)).reverse

/-- `ruruby/src/builtin/string.rs:888-895`, `:899-905`, `:909-915` -/
def strip (s : Text) : Text := trimStart white (trimEnd white0 s)
def lstrip (s : Text) : Text := trimStart white s
def rstrip (s : Text) : Text := trimEnd white0 s

/-! ## succ -/

/-- `ruruby/src/builtin/string.rs:1100-1110` (`succ_char`); `none`: not a character (the call panics). -/
def succ_char (ch : Char) : Option Char :=
  let u := if ch.toNat = 0x7f then 0x00
    else if ch.toNat = 0xdfbf then 0xe0a080
    else if ch.toNat = 0xefbfbf then 0xf0908080
    else if ch.toNat = 0xf48fbfbf then 0xc2800
    else ch.toNat + 1
  if u.isValidChar then some (Char.ofNat u) else none

/-- The state of the loop of `str_next`. -/
structure Next where
  carry : Bool
  last : Nat
  buf : List Char
deriving DecidableEq

def between? (a c b : Char) : Bool := a ≤ c ∧ c ≤ b

/-- `ruruby/src/builtin/string.rs:1135-1165`: one character.  `isAlnum` is `char::is_alphanumeric`. -/
def nextStep (isAlnum : Char → Bool) (σ : Next) (c : Char) : Option Next :=
  if σ.carry then
    if between? '0' c '8' || between? 'a' c 'y' || between? 'A' c 'Y' || between? '０' c '８' then
      (succ_char c).map (fun d => { σ with carry := false, buf := σ.buf ++ [d] })
    else if c = '9' then some { σ with last := σ.buf.length, buf := σ.buf ++ ['0'] }
    else if c = '９' then some { σ with last := σ.buf.length, buf := σ.buf ++ ['０'] }
    else if c = 'z' then some { σ with last := σ.buf.length, buf := σ.buf ++ ['a'] }
    else if c = 'Z' then some { σ with last := σ.buf.length, buf := σ.buf ++ ['A'] }
    else if !isAlnum c then some { σ with buf := σ.buf ++ [c] }
    else (succ_char c).map (fun d => { σ with carry := false, buf := σ.buf ++ [d] })
  else some { σ with buf := σ.buf ++ [c] }

/-- The loop over the characters, from the last one. -/
def nextLoop (isAlnum : Char → Bool) (σ : Next) : List Char → Option Next
  | [] => some σ
  | c :: cs => (nextStep isAlnum σ c).bind (fun σ => nextLoop isAlnum σ cs)

/-- `Vec::insert` -/
def insertAt (l : List Char) (i : Nat) (c : Char) : List Char := l.take i ++ c :: l.drop i

/-- `ruruby/src/builtin/string.rs:1112-1176` (`str_next`) -/
def str_next (isAlnum : Char → Bool) (s : Text) : Option Text :=
  if s.isEmpty then some []
  else if s.all (fun c => !isAlnum c) then
    match s.reverse with
    | [] => some []
    | c :: cs => (succ_char c).map (fun d => (d :: cs).reverse)
  else do
    let σ ← nextLoop isAlnum ⟨true, 0, []⟩ s.reverse
    if σ.carry then do
      let c ← σ.buf[σ.last]?
      let buf :=
        if c = '0' then insertAt σ.buf (σ.last + 1) '1'
        else if c = '０' then insertAt σ.buf (σ.last + 1) '１'
        else if c = 'a' then insertAt σ.buf (σ.last + 1) 'a'
        else if c = 'A' then insertAt σ.buf (σ.last + 1) 'A'
        else σ.buf
      some buf.reverse
    else some σ.buf.reverse

end Verif.Str
