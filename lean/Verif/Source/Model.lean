/-!
# Model of source locations (`ruruby-common/src/source_info.rs`)

The source text is its UTF-8 bytes.  A newline is the byte 10; no other character contains that byte, so the
byte positions of the character `'\n'` (`char_indices`) are the positions of the byte 10.  Taking a part of
the text panics (`none`) if it does not begin and end between characters.
-/
namespace Verif.Source

abbrev Bytes := List UInt8

def NL : UInt8 := 10

/-- `ruruby-common/src/source_info.rs:17-25` (`Line`): number (from 1), position of the first byte, position of
the line end. -/
structure Line where
  no : Nat
  top : Nat
  «end» : Nat
deriving DecidableEq, Repr

/-- The positions of the newlines: `ruruby-common/src/source_info.rs:71-75`. -/
def newlines (code : Bytes) : List Nat := (List.range code.length).filter (fun i => code[i]? = some NL)

/-- `ruruby-common/src/source_info.rs:76-81`: the lines that end with a newline, and the value of `line_top` after
all of them.  `idx` counts the newlines before. -/
def closed : List Nat → Nat → Nat → List Line × Nat
  | [], _, top => ([], top)
  | pos :: rest, idx, top =>
    let r := closed rest (idx + 1) (pos + 1)
    (⟨idx + 1, top, pos⟩ :: r.1, r.2)

/-- `ruruby-common/src/source_info.rs:68-88` (`get_lines`); the location is the pair `l0`, `l1`. -/
def get_lines (code : Bytes) (l0 l1 : Nat) : List Line :=
  let r := closed (newlines code) 0 0
  let line_top := r.2
  let lines := r.1.filter (fun line => line.end ≥ l0 ∧ line.top ≤ l1)
  if line_top < code.length ∧ code.length - 1 ≥ l0 ∧ line_top ≤ l1 then
    lines ++ [⟨lines.length + 1, line_top, code.length - 1⟩]
  else lines

/-- `str::is_char_boundary` of the standard library: not inside a character. -/
def boundary (code : Bytes) (i : Nat) : Bool :=
  if i = code.length then true
  else
    match code[i]? with
    | some b => b < 0x80 || b ≥ 0xC0
    | none => false

/-- `&code[a..b]` -/
def slice (code : Bytes) (a b : Nat) : Option Bytes :=
  if a ≤ b ∧ boundary code a ∧ boundary code b then some ((code.drop a).take (b - a)) else none

/-- `ruruby-common/src/source_info.rs:64-66` (`get_next_char`): is the next character a newline? -/
def next_is_newline (code : Bytes) (pos : Nat) : Option Bool := do
  let s ← slice code pos code.length
  some (s.head? = some NL)

/-- What is printed for one line: the text, then `lead` blanks and `length` carets. -/
structure Shown where
  text : Bytes
  lead : Nat
  length : Nat
deriving DecidableEq, Repr

/-- `ruruby-common/src/source_info.rs:104-124`: one round of the loop.  `width` is the display width of a text
(`console::measure_text_width`). -/
def show_line (width : Bytes → Nat) (code : Bytes) (l0 l1 : Nat) (line : Line) : Option Shown := do
  let start := line.top
  let e := line.end
  let e := if (← next_is_newline code e) ∧ e > 0 then e - 1 else e
  let text ← slice code start (e + 1)
  let lead ← if l0 ≤ line.top then some 0 else (slice code start l0).map width
  let range_start := max l0 line.top
  let range_end := min l1 line.end
  let length ← (slice code range_start (range_end + 1)).map width
  some ⟨text, lead, length⟩

/-- `ruruby-common/src/source_info.rs:91-125` (`get_location`) when some line is found: the line number of the
heading and what is printed for each line.  The branches for an empty text and for no line at all are not
modelled. -/
def get_location (width : Bytes → Nat) (code : Bytes) (l0 l1 : Nat) : Option (Option Nat × List Shown) := do
  let lines := get_lines code l0 l1
  let shown ← lines.mapM (show_line width code l0 l1)
  some (lines.head?.map Line.no, shown)

end Verif.Source
