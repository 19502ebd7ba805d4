/-!
# Matching texts: `sub`, `gsub`, `scan`, `match`, `=~`

Model of ruruby/src/builtin/regexp.rs:52-394 and of the methods of String that use it
(ruruby/src/builtin/string.rs:565-760).

The matcher itself is the crate `fancy_regex`, which is not part of this code base: it is a
parameter here, `Engine`, a function from a text and a position to an answer.  What is modelled is
everything this code base does with the answers: which positions it asks for, when it stops, how it
cuts and rebuilds the text, what it leaves in `$&`, `$'`, `$1`….

Texts are byte sequences and positions byte offsets, as in the code.  `loop { … }` is modelled with
a step budget; running out of it is the separate answer `spin`, so that "does not terminate" is
"answers `spin` under every budget".
-/
namespace Verif.Regexp

abbrev Bytes := List UInt8

/-- Where one group matched: `start..end_`. fancy_regex `Match`. -/
structure Span where
  start : Nat
  stop : Nat
deriving DecidableEq, Repr

/-- The groups of one match: group 0 (always there) and the others, which may not have taken part.
fancy_regex `Captures`. -/
structure Caps where
  whole : Span
  groups : List (Option Span)
deriving DecidableEq, Repr

/-- What `captures_from_pos(given, pos)` answers: a match, no match, or an error of the matcher
(regexp.rs:305-323). -/
inductive Answer
  | found (c : Caps)
  | none
  | error
deriving DecidableEq, Repr

/-- A compiled pattern applied to a text: the answer at each position.
`re.captures(given)` is `captures_from_pos(given, 0)`. -/
abbrev Engine := Nat → Answer

/-- The outcomes of the methods below. `beyond`: the matcher was asked for a position outside the
text (the crate gives no answer there: it panics). `panic`: a Rust panic in this code. -/
inductive Res (ε α : Type)
  | ok (a : α)
  | internal
  | raised (e : ε)
  | beyond
  | panic
  | spin
deriving DecidableEq, Repr

/-- `given[a..b]`. -/
def slice (t : Bytes) (a b : Nat) : Bytes := (t.take b).drop a

/-- `res.replace_range(start..end, rep)`: panics if the range is not inside the text
(std `String::replace_range`; the panic for positions inside a character is left out, the matcher
never reports such). -/
def replace_range (t : Bytes) (s : Span) (rep : Bytes) : Option Bytes :=
  if s.start ≤ s.stop ∧ s.stop ≤ t.length then some (t.take s.start ++ rep ++ t.drop s.stop)
  else .none

/-- `captures_from_pos(given, pos)`, with the positions the matcher has no answer for. -/
def captures_from_pos (t : Bytes) (re : Engine) (pos : Nat) : Option Answer :=
  if pos ≤ t.length then some (re pos) else .none

/-- `$&`, `$'` and `$1`, `$2`…: `sp_last_match`, `sp_post_match`, `sp_matches`
(vm/executor.rs:547-569). -/
structure Specials where
  last : Option Bytes
  post : Option Bytes
  groups : List (Option Bytes)
deriving DecidableEq, Repr

/-- vm/executor.rs:547-569 `get_captures`. -/
def get_captures (c : Caps) (t : Bytes) : Specials :=
  { last := some (slice t c.whole.start c.whole.stop)
    post := some (t.drop c.whole.stop)
    groups := c.groups.map fun g => g.map fun s => slice t s.start s.stop }

/-- vm/executor.rs:571-576 `get_special_matches`, `$n` for n ≥ 1 (`none` is nil). -/
def get_special_matches (sp : Specials) (nth : Nat) : Option Bytes :=
  match sp.groups[nth - 1]? with
  | .none => .none
  | some s => s

/-- regexp.rs:298-323, the loop of `replace_repeat`: positions of the matches, and the last one. -/
def repeatLoop (t : Bytes) (re : Engine) :
    Nat → Nat → List Span → Option Caps → Res ε (List Span × Option Caps)
  | 0, _, _, _ => .spin
  | fuel + 1, i, range, last =>
    if i ≥ t.length then .ok (range, last)
    else match captures_from_pos t re i with
      | .none => .beyond
      | some .none => .ok (range, last)
      | some .error => .internal
      | some (.found c) =>
        let i' := if c.whole.stop = c.whole.start then c.whole.stop + 1 else c.whole.stop
        repeatLoop t re fuel i' (range ++ [c.whole]) (some c)

/-- regexp.rs:324-327: the ranges are replaced from the last to the first. -/
def replaceBack (rep : Bytes) : List Span → Bytes → Option Bytes
  | [], t => some t
  | s :: l, t => (replaceBack rep l t).bind fun t' => replace_range t' s rep

/-- regexp.rs:285-335 `replace_repeat`: the new text, whether anything was replaced, and what is
left in `$&`… (`none`: as before). -/
def replace_repeat (fuel : Nat) (t : Bytes) (re : Engine) (rep : Bytes) :
    Res ε (Bytes × Bool × Option Specials) :=
  match repeatLoop (ε := ε) t re fuel 0 [] .none with
  | .ok (range, last) =>
    match replaceBack rep range t with
    | some r => .ok (r, range.length != 0, last.map (get_captures · t))
    | .none => .panic
  | .internal => .internal
  | .raised e => .raised e
  | .beyond => .beyond
  | .panic => .panic
  | .spin => .spin

/-- regexp.rs:350-372: the replacement with `\0`…`\9` replaced by groups. The flag is `escape`. -/
def expand (t : Bytes) (c : Caps) : Bool → Bytes → Bytes
  | _, [] => []
  | true, ch :: r =>
    (if 0x30 ≤ ch ∧ ch ≤ 0x39 then
      match (some c.whole :: c.groups)[ch.toNat - 0x30]? with
      | some (some s) => slice t s.start s.stop
      | _ => []
    else [ch]) ++ expand t c false r
  | false, ch :: r => if ch ≠ 0x5c then ch :: expand t c false r else expand t c true r

/-- regexp.rs:338-379 `replace_once`; the second component is the match. -/
def replace_once (t : Bytes) (re : Engine) (rep : Bytes) :
    Res ε (Bytes × Option Caps × Option Specials) :=
  match captures_from_pos t re 0 with
  | .none => .beyond
  | some .none => .ok (t, .none, .none)
  | some .error => .internal
  | some (.found c) =>
    match replace_range t c.whole (expand t c false rep) with
    | some r => .ok (r, some c, some (get_captures c t))
    | .none => .panic

/-- A block: from the world and the matched text to the text of its value (`val_to_s`), or the
exception it raises. -/
abbrev Block (σ ε : Type) := σ → Bytes → Except ε Bytes × σ

/-- regexp.rs:137-158: the loop of `replace_all_block`. The specials are set before the block runs,
so that it can read `$1`: the block gets them with the matched text. -/
def blockLoop (t : Bytes) (re : Engine) (f : Specials → Block σ ε) :
    Nat → Nat → List (Span × Bytes) → σ → Res ε (List (Span × Bytes)) × σ
  | 0, _, _, w => (.spin, w)
  | fuel + 1, i, range, w =>
    match captures_from_pos t re i with
    | .none => (.beyond, w)
    | some .none => (.ok range, w)
    | some .error => (.internal, w)
    | some (.found c) =>
      let i' := c.whole.stop + if c.whole.start = c.whole.stop then 1 else 0
      match f (get_captures c t) w (slice t c.whole.start c.whole.stop) with
      | (.error e, w') => (.raised e, w')
      | (.ok rep, w') => blockLoop t re f fuel i' (range ++ [(c.whole, rep)]) w'

/-- regexp.rs:160-163. -/
def replaceBackWith : List (Span × Bytes) → Bytes → Option Bytes
  | [], t => some t
  | s :: l, t => (replaceBackWith l t).bind fun t' => replace_range t' s.1 s.2

/-- regexp.rs:123-176 `replace_all_block`. -/
def replace_all_block (fuel : Nat) (t : Bytes) (re : Engine) (f : Specials → Block σ ε) (w : σ) :
    Res ε (Bytes × Bool) × σ :=
  match blockLoop t re f fuel 0 [] w with
  | (.ok range, w') =>
    match replaceBackWith range t with
    | some r => (.ok (r, range.length != 0), w')
    | .none => (.panic, w')
  | (.internal, w') => (.internal, w')
  | (.raised e, w') => (.raised e, w')
  | (.beyond, w') => (.beyond, w')
  | (.panic, w') => (.panic, w')
  | (.spin, w') => (.spin, w')

/-- regexp.rs:69-107 `replace_one_block`. -/
def replace_one_block (t : Bytes) (re : Engine) (f : Specials → Block σ ε) (w : σ) :
    Res ε (Bytes × Bool) × σ :=
  match captures_from_pos t re 0 with
  | .none => (.beyond, w)
  | some .none => (.ok (t, false), w)
  | some .error => (.internal, w)
  | some (.found c) =>
    match f (get_captures c t) w (slice t c.whole.start c.whole.stop) with
    | (.error e, w') => (.raised e, w')
    | (.ok rep, w') =>
      match replace_range t c.whole rep with
      | some r => (.ok (r, true), w')
      | .none => (.panic, w')

/-- What `scan` collects for one match: the text of the match if the pattern has no groups, else the
list of the groups (`none` is nil). -/
inductive Item
  | text (b : Bytes)
  | list (l : List (Option Bytes))
deriving DecidableEq, Repr

/-- regexp.rs:244-264. -/
def item (t : Bytes) (c : Caps) : Item :=
  match c.groups with
  | [] => .text (slice t c.whole.start c.whole.stop)
  | gs => .list (gs.map fun g => g.map fun s => slice t s.start s.stop)

/-- regexp.rs:235-270: the loop of `find_all`. The next position is the end of the match, also when
the match is empty. -/
def findLoop (t : Bytes) (re : Engine) :
    Nat → Nat → List Item → Option Caps → Res ε (List Item × Option Caps)
  | 0, _, _, _ => .spin
  | fuel + 1, idx, ary, last =>
    match captures_from_pos t re idx with
    | .none => .beyond
    | some .none => .ok (ary, last)
    | some .error => .internal
    | some (.found c) => findLoop t re fuel c.whole.stop (ary ++ [item t c]) (some c)

/-- regexp.rs:231-277 `find_all`. -/
def find_all (fuel : Nat) (t : Bytes) (re : Engine) : Res ε (List Item × Option Specials) :=
  match findLoop (ε := ε) t re fuel 0 [] .none with
  | .ok (ary, last) => .ok (ary, last.map (get_captures · t))
  | .internal => .internal
  | .raised e => .raised e
  | .beyond => .beyond
  | .panic => .panic
  | .spin => .spin

/-- regexp.rs:218-230 `find_one` with string.rs:736-747 `=~` and regexp.rs:431-443: the position of
the first match, in bytes; `none` is nil. -/
def rmatch (t : Bytes) (re : Engine) : Res ε (Option Nat × Option Specials) :=
  match captures_from_pos t re 0 with
  | .none => .beyond
  | some .none => .ok (.none, .none)
  | some .error => .panic   -- `find_one(…).unwrap()`
  | some (.found c) => .ok (some c.whole.start, some (get_captures c t))

/-- A byte that does not start a character. -/
def isCont (b : UInt8) : Bool := 0x80 ≤ b ∧ b < 0xc0

/-- `given.char_indices().nth(n)`: the byte position of the n-th character, from position `at_`. -/
def charPos (at_ : Nat) : Bytes → Nat → Option Nat
  | [], _ => .none
  | b :: r, n =>
    if isCont b then charPos (at_ + 1) r n
    else match n with
      | 0 => some at_
      | n + 1 => charPos (at_ + 1) r n

/-- `captures.get(i).unwrap().as_str()` for every group (regexp.rs:193-195). -/
def allGroups (t : Bytes) : List (Option Span) → Option (List Bytes)
  | [] => some []
  | .none :: _ => .none
  | some s :: l => (allGroups t l).map (slice t s.start s.stop :: ·)

/-- regexp.rs:178-201 `match_one` (`String#match(re, pos)` without a block): an array of the texts
of all groups; `none` is nil. -/
def match_one (t : Bytes) (re : Engine) (pos : Nat) : Res ε (Option (List Bytes)) :=
  match charPos 0 t pos with
  | .none => .ok .none
  | some p =>
    match captures_from_pos t re p with
    | .none => .beyond
    | some .none => .ok .none
    | some .error => .internal
    | some (.found c) =>
      match allGroups t (some c.whole :: c.groups) with
      | some v => .ok (some v)
      | .none => .panic

end Verif.Regexp
