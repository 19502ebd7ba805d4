import Verif.Regexp.Model
/-!
# Matches of a text, independently of the methods

A pattern on a text says, for each position, which match starts there, if any.
-/
namespace Verif.Regexp

/-- What a pattern matches in one text: `m p = some c` if the match starting at `p` is `c`. -/
abbrev Pattern := Nat → Option Caps

/-- A position where a character begins, or the end of the text. -/
def Boundary (t : Bytes) (p : Nat) : Prop :=
  p = t.length ∨ ∃ b, t[p]? = some b ∧ ¬ (0x80 ≤ b ∧ b < 0xc0)

/-- A pattern speaks about the text: the text begins with a character, the matches lie in the text,
between characters. -/
structure Fits (t : Bytes) (m : Pattern) : Prop where
  begins : Boundary t 0
  starts : ∀ p c, m p = some c → c.whole.start = p
  inside : ∀ p c, m p = some c → p ≤ c.whole.stop ∧ c.whole.stop ≤ t.length
  between : ∀ p c, m p = some c → Boundary t p ∧ Boundary t c.whole.stop

/-- The matcher finds the leftmost match from a position on. This is asked only where the crate
promises it: at positions between characters. -/
structure Finds (t : Bytes) (m : Pattern) (re : Engine) : Prop where
  found : ∀ p s c, Boundary t p → p ≤ s → (∀ q, p ≤ q → q < s → m q = none) → m s = some c →
    re p = .found c
  none : ∀ p, Boundary t p → p ≤ t.length → (∀ q, p ≤ q → m q = none) → re p = .none

/-- After an empty match the implementation goes on one byte later; that is a character later where
characters have one byte. -/
def Narrow (t : Bytes) (m : Pattern) : Prop :=
  ∀ p c, m p = some c → c.whole.stop = p → p < t.length → Boundary t (p + 1)

/-- The matches from position `p` on: the leftmost one, then those after its end, and so on; after
an empty match at `s` the search goes on one character later. -/
inductive Matches (t : Bytes) (m : Pattern) : Nat → List Caps → Prop
  | none {p} : (∀ q, p ≤ q → m q = none) → Matches t m p []
  | text {p s c l} : p ≤ s → (∀ q, p ≤ q → q < s → m q = Option.none) → m s = some c →
      s < c.whole.stop → Matches t m c.whole.stop l → Matches t m p (c :: l)
  | empty {p s n c l} : p ≤ s → (∀ q, p ≤ q → q < s → m q = Option.none) → m s = some c →
      c.whole.stop = s → s < n → (∀ q, s < q → q < n → ¬ Boundary t q) →
      (n ≤ t.length → Boundary t n) →
      Matches t m n l → Matches t m p (c :: l)

/-- The text from `p` on with every match replaced by the text given for it. -/
def fill (t : Bytes) (p : Nat) : List (Caps × Bytes) → Bytes
  | [] => t.drop p
  | (c, r) :: l => (t.take c.whole.start).drop p ++ r ++ fill t c.whole.stop l

/-- The text of a match. -/
def matched (t : Bytes) (c : Caps) : Bytes := (t.take c.whole.stop).drop c.whole.start

/-- What a match leaves behind: `$&` its text, `$'` the text after it, `$1`… its groups. -/
def dollars (t : Bytes) (c : Caps) : Specials :=
  { last := some (matched t c)
    post := some (t.drop c.whole.stop)
    groups := c.groups.map fun g => g.map fun s => (t.take s.stop).drop s.start }

/-- A block called once for each match, in order, with the text of the match, when `$&`… are those
of the match; the first exception ends it. -/
def each (t : Bytes) (f : Specials → Block σ ε) : List Caps → σ → Except ε (List Bytes) × σ
  | [], w => (.ok [], w)
  | c :: l, w =>
    match f (dollars t c) w (matched t c) with
    | (.error e, w') => (.error e, w')
    | (.ok r, w') =>
      match each t f l w' with
      | (.error e, w'') => (.error e, w'')
      | (.ok rs, w'') => (.ok (r :: rs), w'')

/-- What `scan` shows of a match: its text, or its groups if the pattern has groups. -/
def shown (t : Bytes) (c : Caps) : Item :=
  if c.groups = [] then .text (matched t c) else .list (dollars t c).groups

/-- Number of characters before a position. -/
def charsBefore (t : Bytes) (p : Nat) : Nat :=
  ((t.take p).filter fun b => ¬ (0x80 ≤ b ∧ b < 0xc0)).length

/-- A replacement as Ruby's manual describes it: pieces of text without a backslash, and group
numbers. -/
inductive Piece
  | text (b : Bytes)
  | group (n : Fin 10)

/-- How a piece is written. -/
def Piece.write : Piece → Bytes
  | .text b => b
  | .group n => [0x5c, UInt8.ofNat (0x30 + n)]

/-- What a piece stands for. -/
def Piece.value (t : Bytes) (c : Caps) : Piece → Bytes
  | .text b => b
  | .group 0 => matched t c
  | .group ⟨n + 1, _⟩ => match c.groups[n]? with
    | some (some s) => (t.take s.stop).drop s.start
    | _ => []

end Verif.Regexp
