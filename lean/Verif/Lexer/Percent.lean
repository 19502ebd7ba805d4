import Verif.Lexer.StrLemmas
import Mathlib.Data.List.Forall2

/-!
Percent literals (`%q( )`, `%Q( )`, `%( )`, `%w( )`, `%i( )`) and here documents.
-/

namespace Verif.Lexer

/-! ## Model: percent literals -/

/-- ruruby-parse/src/parser/lexer.rs:960-974: the opening and the closing delimiter, or an error. -/
def delimiters (kind : Option Char) (d : Char) (s : Chars) : Except Err (Option Char × Char) :=
  if d = '(' then .ok (some '(', ')')
  else if d = '{' then .ok (some '{', '}')
  else if d = '[' then .ok (some '[', ']')
  else if d = '<' then .ok (some '<', '>')
  else if (d = ' ' ∨ d = '\n') ∧ (kind = some 'i' ∨ kind = some 'I' ∨ kind = some 'w' ∨ kind = some 'W') then
    .error (error_unexpected (d :: s))
  else .ok (none, d)

/-- ruruby-parse/src/parser/lexer.rs:976-990: reads the text of the literal. -/
def percent_text (kind : Option Char) (opn : Option Char) (term : Char) (s : Chars) : Lex Tok :=
  match kind with
  | none => read_string_literal_double opn (some term) 0 s
  | some k =>
    if k = 'q' then (read_string_literal_single opn term false s).map fun (t, s) => (.StringLit t, s)
    else if k = 'Q' then read_string_literal_double opn (some term) 0 s
    else if k = 'r' then (read_string_literal_single opn term true s).map fun (t, s) => (.PercentNotation 'r' t, s)
    else (read_string_literal_single opn term false s).map fun (t, s) => (.PercentNotation k t, s)

/-- ruruby-parse/src/parser/lexer.rs:944-992 (get_percent_notation); the text starts after the `%`. -/
def get_percent_notation : Chars → Lex Tok
  | [] => .error .eof
  | c :: s =>
    if c ∈ ['q', 'Q', 'x', 'r', 'w', 'W', 's', 'i', 'I'] then
      match s with
      | [] => .error .eof
      | d :: s =>
        if is_alpha d || is_digit d then .error .syntax
        else (delimiters (some c) d s).bind fun (o, t) => percent_text (some c) o t s
    else if is_alpha c || is_digit c then .error .syntax
    else (delimiters none c s).bind fun (o, t) => percent_text none o t s

/-- `str::split` with the closure of ruruby-parse/src/parser/literals.rs:92 -/
def split_blank : Chars → List Chars
  | [] => [[]]
  | c :: s =>
    if c = ' ' ∨ c = '\n' then [] :: split_blank s
    else
      match split_blank s with
      | w :: ws => (c :: w) :: ws
      | [] => [[c]]

/-- The nodes that a literal gives: `Node::String`, `Node::Array` of strings or of symbols, `Node::RegExp` of one
string, and a string with an interpolation that is parsed further. -/
inductive Lit
  | string (s : Chars)
  | strings (ws : List Chars)
  | symbols (ws : List Chars)
  | regexp (s : Chars)
  | opened (s : Chars) (term : Option Char) (level : Nat)
  deriving DecidableEq, Repr

/-- ruruby-parse/src/parser/literals.rs:83-120 (parse_percent_notation) -/
def parse_percent_notation (s : Chars) : Lex Lit :=
  (get_percent_notation s).bind fun (tok, s) =>
    match tok with
    | .PercentNotation k t =>
      if k = 'w' then .ok (.strings ((split_blank t).filter (· ≠ [])), s)
      else if k = 'i' then .ok (.symbols ((split_blank t).filter (· ≠ [])), s)
      else if k = 'r' then .ok (.regexp (t ++ ['-']), s)
      else .error .syntax
    | .StringLit t => .ok (.string t, s)
    | .OpenString t term level => .ok (.opened t term level, s)
    | _ => .error .panic

/-! ## Model: here documents -/

/-- ruruby-parse/src/parser/lexer.rs:36-40 (ParseMode) -/
inductive Mode
  | Single | Double | Command
  deriving DecidableEq, Repr

/-- `char::is_whitespace`: ASCII as in Rust's documentation, the other characters a parameter. -/
def is_white (W : Char → Bool) (c : Char) : Bool :=
  if is_ascii c then c == ' ' || (9 ≤ c.toNat && c.toNat ≤ 13) else W c

/-- `str::trim_start` -/
def trim_start (W : Char → Bool) : Chars → Chars
  | [] => []
  | c :: s => if is_white W c then trim_start W s else c :: s

/-- `&self.code[start..end]`.  Positions count characters, not bytes. -/
def slice (code : Chars) (a b : Nat) : Chars := (code.drop a).take (b - a)

/-- ruruby-parse/src/parser/lexer.rs:1279-1286 (goto_eol), as a position -/
def eol (code : Chars) (pos : Nat) : Nat := pos + ((code.drop pos).takeWhile (· ≠ '\n')).length

/-- ruruby-parse/src/parser/lexer.rs:1079-1106: the lines of the document.  The result is `heredoc_end` and the
position behind the closing line.  The first argument bounds the number of lines (fuel). -/
def here_lines (W : Char → Bool) (code : Chars) (trim : Bool) (delim : Chars) : Nat → Nat → Nat → Except Err (Nat × Nat)
  | 0, _, _ => .error .eof
  | n + 1, pos, stop =>
    if (if trim then trim_start W (slice code pos (eol code pos)) else slice code pos (eol code pos)) = delim then
      .ok (stop, if eol code pos < code.length then eol code pos + 1 else eol code pos)
    else if code.length ≤ eol code pos then .error .syntax
    else here_lines W code trim delim n (eol code pos + 1) (eol code pos + 1)

/-- ruruby-parse/src/parser/lexer.rs:1041-1047: `-` or `~` -/
def term_mode : Chars → Bool × Chars
  | '-' :: s => (true, s)
  | '~' :: s => (true, s)
  | s => (false, s)

/-- ruruby-parse/src/parser/lexer.rs:1048-1056: the quote of the identifier -/
def quote_mode : Chars → Mode × Option Char × Chars
  | '\'' :: s => (.Single, some '\'', s)
  | '"' :: s => (.Double, some '"', s)
  | '`' :: s => (.Command, some '`', s)
  | s => (.Double, none, s)

/-- What `read_heredocument` leaves: the kind, `heredoc_start`, `heredoc_end`, the position (behind the identifier)
and `heredoc_pos`. -/
structure Here where
  mode : Mode
  start : Nat
  stop : Nat
  pos : Nat
  hpos : Nat
  deriving DecidableEq, Repr

/-- ruruby-parse/src/parser/lexer.rs:1057-1070: the identifier and its closing quote; the rest of the text -/
def here_ident (q : Option Char) (s : Chars) : Lex Chars :=
  if (consume_ident s).1 = [] then .error (error_unexpected (consume_ident s).2)
  else
    match q with
    | none => .ok (consume_ident s)
    | some q =>
      match (consume_ident s).2 with
      | c :: r => if c = q then .ok ((consume_ident s).1, r) else .error .syntax
      | [] => .error .syntax

/-- ruruby-parse/src/parser/lexer.rs:1072-1077: the position of the first line -/
def here_start (code : Chars) (pos hpos : Nat) : Except Err Nat :=
  if eol code pos < code.length then
    .ok (if hpos > eol code pos + 1 then hpos else eol code pos + 1)
  else .error .eof

/-- ruruby-parse/src/parser/lexer.rs:1032-1110 (read_heredocument); `pos` is the position behind `<<`. -/
def read_heredocument (W : Char → Bool) (code : Chars) (pos hpos : Nat) : Except Err Here :=
  (here_ident (quote_mode (term_mode (code.drop pos)).2).2.1 (quote_mode (term_mode (code.drop pos)).2).2.2).bind
    fun (delim, s) =>
      (here_start code (code.length - s.length) hpos).bind fun start =>
        (here_lines W code (term_mode (code.drop pos)).1 delim (code.length + 1) start start).bind fun (stop, hpos) =>
          .ok ⟨(quote_mode (term_mode (code.drop pos)).2).1, start, stop, code.length - s.length, hpos⟩

/-- ruruby-parse/src/parser/lexer.rs:1166-1175 (consume_newline): the position afterwards, if there is a newline -/
def consume_newline (code : Chars) (pos hpos : Nat) : Option Nat :=
  match code.drop pos with
  | '\n' :: _ => some (if hpos > pos + 1 then hpos else pos + 1)
  | _ => none

/-- ruruby-parse/src/parser/literals.rs:122-164 (parse_heredocument): the string of a document.  A document in
backquotes (a command) is not modelled. -/
def here_value (code : Chars) (h : Here) : Except Err Tok :=
  match h.mode with
  | .Single => .ok (.StringLit (slice code h.start h.stop))
  | .Double => (read_string_literal_double none none 0 (slice code h.start h.stop)).map (·.1)
  | .Command => .error .syntax

/-! ## Specification -/

/-- The delimiter that a literal starts with, the opening delimiter that may be nested in it, and the closing one. -/
inductive Pair : Char → Option Char → Char → Prop
  | paren : Pair '(' (some '(') ')'
  | brace : Pair '{' (some '{') '}'
  | bracket : Pair '[' (some '[') ']'
  | angle : Pair '<' (some '<') '>'
  /-- any other character that is no letter or digit closes the literal itself -/
  | other {d} : is_alpha d = false → is_digit d = false → d ∉ ['(', '{', '[', '<', ' ', '\n', '\\'] → Pair d none d

/-- The text of a literal without escapes and interpolation (`o`, `t` the delimiters), and the string that it stands
for: the delimiters occur in pairs; a doubled backslash stands for one, a backslash before another character that is
neither a delimiter nor a quote nor a newline for itself. -/
inductive Raw (o : Option Char) (t : Char) : Chars → Chars → Prop
  | nil : Raw o t [] []
  | char {c s v} : c ≠ '\\' → o ≠ some c → c ≠ t → Raw o t s v → Raw o t (c :: s) (c :: v)
  | backslash {s v} : Raw o t s v → Raw o t ('\\' :: '\\' :: s) ('\\' :: v)
  | alone {c s v} : c ∉ ['\'', '\\', '\n'] → o ≠ some c → c ≠ t → Raw o t s v →
      Raw o t ('\\' :: c :: s) ('\\' :: c :: v)
  | nest {q s v s' v'} : o = some q → Raw o t s v → Raw o t s' v' → Raw o t (q :: s ++ t :: s') (q :: v ++ t :: v')

/-- The text of a literal with escapes, and the string that it stands for.  `o`, `t`: its delimiters, if any. -/
inductive Cooked (o t : Option Char) : Chars → Chars → Prop
  | nil : Cooked o t [] []
  | char {c s v} : c ≠ '\\' → c ≠ '#' → o ≠ some c → t ≠ some c → Cooked o t s v → Cooked o t (c :: s) (c :: v)
  | escape {e c s v} : Escape ('\\' :: e) c → Cooked o t s v → Cooked o t ('\\' :: e ++ s) (c :: v)
  | hash {s v} : (∀ c r, s = c :: r → c ≠ '{' ∧ c ≠ '$' ∧ c ≠ '@') → Cooked o t s v → Cooked o t ('#' :: s) ('#' :: v)
  | continued {s v} : Cooked o t s v → Cooked o t ('\\' :: '\n' :: s) v
  | nest {q u s v s' v'} : o = some q → t = some u → Cooked o t s v → Cooked o t s' v' →
      Cooked o t (q :: s ++ u :: s') (q :: v ++ u :: v')

/-- The words of a text: what blanks and newlines separate. -/
inductive Words : Chars → List Chars → Prop
  | nil : Words [] []
  | blank {c s ws} : c = ' ' ∨ c = '\n' → Words s ws → Words (c :: s) ws
  | word {w s ws} : w ≠ [] → (∀ c ∈ w, c ≠ ' ' ∧ c ≠ '\n') → (∀ c r, s = c :: r → c = ' ' ∨ c = '\n') → Words s ws →
      Words (w ++ s) (w :: ws)

/-- What may stand behind `<<` for a document that ends with the line `id`; whether that line may be indented, and the
kind of the document. -/
inductive Opening (id : Chars) : Bool → Mode → Chars → Prop
  | bare : Opening id false .Double id
  | single : Opening id false .Single ('\'' :: id ++ ['\''])
  | double : Opening id false .Double ('"' :: id ++ ['"'])
  | dash {m t} : Opening id false m t → Opening id true m ('-' :: t)

/-- The line closes the document. -/
def Closes (W : Char → Bool) (indented : Bool) (id line : Chars) : Prop :=
  ∃ ind, line = ind ++ id ∧ (∀ c ∈ ind, is_white W c = true) ∧ (indented = false → ind = [])

/-- Lines, each with its newline. -/
def unlines (ls : List Chars) : Chars := ls.flatMap (· ++ ['\n'])

/-- A here document: its identifier, kind, lines, and the line that closes it. -/
structure Doc where
  id : Chars
  indented : Bool
  mode : Mode
  opening : Chars
  lines : List Chars
  close : Chars

/-- A document as it should be. -/
structure Doc.Ok (W : Char → Bool) (d : Doc) : Prop where
  id : d.id ≠ [] ∧ ∀ c ∈ d.id, is_ident c = true
  opening : Opening d.id d.indented d.mode d.opening
  line : ∀ l ∈ d.lines, '\n' ∉ l ∧ ¬ Closes W d.indented d.id l
  close : '\n' ∉ d.close ∧ Closes W d.indented d.id d.close

/-- The lines of the documents that were opened in one line of the program, in order. -/
def bodies (ds : List Doc) : Chars := ds.flatMap fun d => unlines (d.lines ++ [d.close])

/-! ## Helpers: percent literals -/

theorem Pair.facts {d t : Char} {o : Option Char} (h : Pair d o t) :
    t ≠ '\\' ∧ o ≠ some '\\' ∧ o ≠ some t ∧ is_alpha d = false ∧ is_digit d = false ∧
      ∀ k s, delimiters k d s = .ok (o, t) := by
  cases h with
  | other h1 h2 h3 =>
    simp only [List.mem_cons, List.not_mem_nil, or_false, not_or] at h3
    obtain ⟨a1, a2, a3, a4, a5, a6, a7⟩ := h3
    refine ⟨a7, by simp, by simp, h1, h2, fun k s => ?_⟩
    simp [delimiters, a1, a2, a3, a4, a5, a6]
  | _ => exact ⟨by decide, by decide, by decide, by decide, by decide, fun k s => rfl⟩

theorem raw_read {o : Option Char} {t : Char} (h1 : t ≠ '\\') (h2 : o ≠ some '\\') (h3 : o ≠ some t) {s v : Chars}
    (h : Raw o t s v) : ∃ k, k ≤ s.length ∧ ∀ n level acc rest,
      read_single o t false (n + k) level acc (s ++ rest) = read_single o t false n level (acc ++ v) rest := by
  induction h with
  | nil => exact ⟨0, by simp, fun n l acc rest => by simp⟩
  | char a b c _ ih =>
    obtain ⟨k, hk, ih⟩ := ih
    refine ⟨k + 1, by simp; omega, fun n l acc rest => ?_⟩
    rw [← Nat.add_assoc, List.cons_append, read_single.eq_def]
    simp [a, b, c, ih]
  | backslash _ ih =>
    obtain ⟨k, hk, ih⟩ := ih
    refine ⟨k + 1, by simp; omega, fun n l acc rest => ?_⟩
    rw [← Nat.add_assoc, List.cons_append, List.cons_append, read_single]
    simp [Ne.symm h1, h2, ih]
  | alone a b c _ ih =>
    obtain ⟨k, hk, ih⟩ := ih
    simp only [List.mem_cons, List.not_mem_nil, or_false, not_or] at a
    obtain ⟨a1, a2, a3⟩ := a
    refine ⟨k + 1, by simp; omega, fun n l acc rest => ?_⟩
    rw [← Nat.add_assoc, List.cons_append, List.cons_append, read_single]
    simp [Ne.symm h1, h2, a1, a2, a3, ih]
  | nest ho _ _ ih ih' =>
    obtain ⟨k, hk, ih⟩ := ih
    obtain ⟨k', hk', ih'⟩ := ih'
    rename_i q s v s' v' _ _
    refine ⟨k' + 1 + k + 1, by simp; omega, fun n l acc rest => ?_⟩
    have e : q :: s ++ t :: s' ++ rest = q :: (s ++ (t :: (s' ++ rest))) := by simp
    have e2 : n + (k' + 1 + k + 1) = ((n + k' + 1) + k) + 1 := by omega
    rw [e, e2, read_single.eq_def]
    dsimp only
    rw [if_pos ho, ih, read_single.eq_def]
    dsimp only
    rw [if_neg h3, if_pos rfl, if_neg (by omega), Nat.add_sub_cancel, ih']
    simp

theorem raw_literal {d t : Char} {o : Option Char} (hd : Pair d o t) {s v : Chars} (h : Raw o t s v) (rest : Chars) :
    read_string_literal_single o t false (s ++ t :: rest) = .ok (v, rest) := by
  obtain ⟨h1, h2, h3, -⟩ := hd.facts
  obtain ⟨k, hk, e⟩ := raw_read h1 h2 h3 h
  have : (s ++ t :: rest).length + 1 = ((s ++ t :: rest).length - k + 1) + k := by simp; omega
  rw [read_string_literal_single, this, e, read_single.eq_def]
  simp [h3]

theorem cooked_read {o t : Option Char} (h1 : t ≠ some '\\') (h2 : o ≠ some '\\') (h3 : ∀ u, t = some u → o ≠ some u)
    (h4 : t ≠ some '#') (h5 : o ≠ some '#') (h6 : ∀ u, t = some u → u ≠ '{' ∧ u ≠ '$' ∧ u ≠ '@') {s v : Chars}
    (h : Cooked o t s v) : ∃ k, k ≤ s.length ∧ ∀ n level acc rest,
      (∀ c r, rest = c :: r → c ≠ '{' ∧ c ≠ '$' ∧ c ≠ '@') →
      read_interpolate o t (n + k) level acc (s ++ rest) = read_interpolate o t n level (acc ++ v) rest := by
  induction h with
  | nil => exact ⟨0, by simp, fun n l acc rest _ => by simp⟩
  | char a b c d _ ih =>
    obtain ⟨k, hk, ih⟩ := ih
    refine ⟨k + 1, by simp; omega, fun n l acc rest hr => ?_⟩
    rw [← Nat.add_assoc, List.cons_append, read_interpolate.eq_def]
    simp [a, b, c, d, ih _ _ _ _ hr]
  | escape he _ ih =>
    obtain ⟨k, hk, ih⟩ := ih
    rename_i e c s v _
    refine ⟨k + 1, by simp; omega, fun n l acc rest hr => ?_⟩
    obtain ⟨a1, a2, a3⟩ := escaped_char he (s ++ rest)
    rw [← Nat.add_assoc, List.append_assoc, List.cons_append, read_interpolate.eq_def]
    simp only [h1, h2, if_false, if_true]
    split
    · rename_i x hx
      cases e with
      | nil => exact absurd rfl a3
      | cons y e => cases hx; exact absurd rfl (a2 '\n' rfl)
    · rw [a1]; dsimp only; rw [ih _ _ _ _ hr, List.append_assoc]; rfl
  | hash hc _ ih =>
    obtain ⟨k, hk, ih⟩ := ih
    rename_i s v _
    refine ⟨k + 1, by simp; omega, fun n l acc rest hr => ?_⟩
    have hx : ∀ c r, s ++ rest = c :: r → c ≠ '{' ∧ c ≠ '$' ∧ c ≠ '@' := by
      intro c r e
      cases s with
      | nil => exact hr c r e
      | cons x t => cases e; exact hc _ _ rfl
    rw [← Nat.add_assoc, List.cons_append, read_interpolate.eq_def]
    simp only [h4, h5, if_false, if_true, show ('#' = '\\') = False from by simp]
    split
    · rename_i e; exact absurd rfl (hx _ _ e).1
    · rename_i e; exact absurd rfl (hx _ _ e).2.1
    · rename_i e; exact absurd rfl (hx _ _ e).2.2
    · rw [ih _ _ _ _ hr, List.append_assoc]; rfl
  | continued _ ih =>
    obtain ⟨k, hk, ih⟩ := ih
    refine ⟨k + 1, by simp; omega, fun n l acc rest hr => ?_⟩
    rw [← Nat.add_assoc, List.cons_append, List.cons_append, read_interpolate.eq_def]
    simp [h1, h2, ih _ _ _ _ hr]
  | nest ho ht _ _ ih ih' =>
    obtain ⟨k, hk, ih⟩ := ih
    obtain ⟨k', hk', ih'⟩ := ih'
    rename_i q u s v s' v' _ _
    refine ⟨k' + 1 + k + 1, by simp; omega, fun n l acc rest hr => ?_⟩
    have e : q :: s ++ u :: s' ++ rest = q :: (s ++ (u :: (s' ++ rest))) := by simp
    have e2 : n + (k' + 1 + k + 1) = ((n + k' + 1) + k) + 1 := by omega
    have hq : o ≠ some u := h3 u ht
    rw [e, e2, read_interpolate.eq_def]
    dsimp only
    rw [if_pos ho, ih _ _ _ _ (by intro c r e; cases e; exact h6 u ht), read_interpolate.eq_def]
    dsimp only
    rw [if_neg hq, if_pos ht, if_neg (by omega), Nat.add_sub_cancel, ih' _ _ _ _ hr]
    simp

theorem cooked_literal {d t : Char} {o : Option Char} (hd : Pair d o t) (hx : d ∉ ['#', '$', '@']) {s v : Chars}
    (h : Cooked o (some t) s v) (rest : Chars) :
    read_string_literal_double o (some t) 0 (s ++ t :: rest) = .ok (.StringLit v, rest) := by
  obtain ⟨h1, h2, h3, -⟩ := hd.facts
  have hh : t ≠ '#' ∧ o ≠ some '#' ∧ t ≠ '{' ∧ t ≠ '$' ∧ t ≠ '@' := by
    cases hd with
    | other b1 b2 b3 =>
      simp only [List.mem_cons, List.not_mem_nil, or_false, not_or] at b3 hx
      exact ⟨hx.1, by simp, b3.2.1, hx.2.1, hx.2.2⟩
    | _ => decide
  obtain ⟨a1, a2, a3, a4, a5⟩ := hh
  obtain ⟨k, hk, e⟩ := cooked_read (o := o) (t := some t) (by simpa using h1) h2
    (by intro u e; cases e; exact h3) (by simpa using a1) a2 (by intro u e; cases e; exact ⟨a3, a4, a5⟩) h
  have : (s ++ t :: rest).length + 1 = ((s ++ t :: rest).length - k + 1) + k := by simp; omega
  rw [read_string_literal_double, this, e _ _ _ _ (by intro c r e; cases e; exact ⟨a3, a4, a5⟩), read_interpolate.eq_def]
  simp [h3, Except.map]

theorem cooked_all {s v : Chars} (h : Cooked none none s v) :
    read_string_literal_double none none 0 s = .ok (.StringLit v, []) := by
  obtain ⟨k, hk, e⟩ := cooked_read (o := none) (t := none) (by simp) (by simp) (by simp) (by simp) (by simp) (by simp) h
  have e1 := e (s.length - k + 1) 0 [] [] (by simp)
  have : s.length + 1 = (s.length - k + 1) + k := by omega
  rw [read_string_literal_double, this]
  rw [List.append_nil] at e1
  rw [e1, read_interpolate.eq_def]
  simp [Except.map]

theorem split_ne (s : Chars) : split_blank s ≠ [] := by
  cases s with
  | nil => simp [split_blank]
  | cons c s => simp only [split_blank]; split; · simp
                split <;> simp

theorem split_word {w s : Chars} (hw : ∀ c ∈ w, c ≠ ' ' ∧ c ≠ '\n') :
    ∀ {u us}, split_blank s = u :: us → split_blank (w ++ s) = (w ++ u) :: us := by
  induction w with
  | nil => intro u us h; simpa using h
  | cons c w ih =>
    intro u us h
    obtain ⟨h1, h2⟩ := hw c (by simp)
    rw [List.cons_append, split_blank, if_neg (by simp [h1, h2]), ih (fun x hx => hw x (by simp [hx])) h]
    rfl

theorem words_split {s : Chars} {ws : List Chars} (h : Words s ws) : (split_blank s).filter (· ≠ []) = ws := by
  induction h with
  | nil => rfl
  | blank hc _ ih => rw [split_blank, if_pos hc]; simpa using ih
  | word hn hw hs _ ih =>
    rename_i w s ws _
    cases s with
    | nil =>
      have := split_word (s := []) hw (u := []) (us := []) rfl
      simp only [List.append_nil] at this ⊢
      rw [this]
      simp [split_blank] at ih
      simp [hn, ih]
    | cons c s =>
      have hc := hs c s rfl
      have e : split_blank (c :: s) = [] :: split_blank s := by rw [split_blank, if_pos hc]
      have := split_word hw e
      rw [this]
      rw [e] at ih
      simp only [List.append_nil]
      simp at ih
      simp [hn, ih]

/-- Every text has words. -/
theorem words_total (s : Chars) : ∃ ws, Words s ws := by
  have : ∀ n (s : Chars), s.length ≤ n → ∃ ws, Words s ws := by
    intro n
    induction n with
    | zero => intro s hs; cases s with
      | nil => exact ⟨_, .nil⟩
      | cons c s => simp at hs
    | succ n ih =>
      intro s hs
      cases s with
      | nil => exact ⟨_, .nil⟩
      | cons c s =>
        by_cases hc : c = ' ' ∨ c = '\n'
        · obtain ⟨ws, h⟩ := ih s (by simpa using hs)
          exact ⟨ws, .blank hc h⟩
        · let p : Char → Bool := fun c => !(c == ' ' || c == '\n')
          have hp : ∀ c, p c = true ↔ c ≠ ' ' ∧ c ≠ '\n' := by intro c; simp [p]
          have e : (c :: s) = (c :: s).takeWhile p ++ (c :: s).dropWhile p := by simp
          have hpc : p c = true := (hp c).2 (by simpa using hc)
          obtain ⟨ws, h⟩ := ih ((c :: s).dropWhile p) (by
            rw [List.dropWhile_cons_of_pos hpc]
            have := (List.dropWhile_sublist p (l := s)).length_le
            simp at hs; omega)
          refine ⟨(c :: s).takeWhile p :: ws, ?_⟩
          rw [e]
          have e2 : List.takeWhile p (List.takeWhile p (c :: s) ++ List.dropWhile p (c :: s)) = (c :: s).takeWhile p := by
            rw [← e]
          rw [e2]
          refine .word ?_ ?_ ?_ h
          · rw [List.takeWhile_cons_of_pos hpc]; simp
          · intro x hx; exact (hp x).1 (List.all_eq_true.1 List.all_takeWhile x hx)
          · intro x r hx
            have := List.head?_dropWhile_not p (c :: s)
            rw [hx] at this
            simp [p] at this
            by_cases h1 : x = ' '
            · exact .inl h1
            · exact .inr (this h1)
  exact this _ s (Nat.le_refl _)

/-! ## Helpers: here documents -/

theorem eol_line {a l b : Chars} (hl : '\n' ∉ l) (hb : b = [] ∨ ∃ r, b = '\n' :: r) :
    eol (a ++ (l ++ b)) a.length = a.length + l.length := by
  have : (l ++ b).takeWhile (· ≠ '\n') = l := by
    rw [List.takeWhile_append_of_pos]
    · rcases hb with rfl | ⟨r, rfl⟩ <;> simp
    · intro x hx; simp; rintro rfl; exact hl hx
  rw [eol, List.drop_left, this]

theorem slice_append (a l b : Chars) : slice (a ++ (l ++ b)) a.length (a.length + l.length) = l := by
  simp [slice]

theorem trim_white (W : Char → Bool) {i : Chars} (h : ∀ c ∈ i, is_white W c = true) (l : Chars) :
    trim_start W (i ++ l) = trim_start W l := by
  induction i with
  | nil => rfl
  | cons c i ih =>
    rw [List.cons_append, trim_start, if_pos (h c (by simp)), ih (fun x hx => h x (by simp [hx]))]

theorem trim_split (W : Char → Bool) (l : Chars) :
    ∃ i, l = i ++ trim_start W l ∧ ∀ c ∈ i, is_white W c = true := by
  induction l with
  | nil => exact ⟨[], rfl, by simp⟩
  | cons c l ih =>
    rw [trim_start]
    split
    · rename_i hc
      obtain ⟨i, h1, h2⟩ := ih
      refine ⟨c :: i, by rw [List.cons_append, ← h1], ?_⟩
      intro x hx
      rcases List.mem_cons.1 hx with rfl | hx
      · exact hc
      · exact h2 x hx
    · exact ⟨[], rfl, by simp⟩

theorem ident_ascii {c : Char} (h : is_ident c = true) :
    (48 ≤ c.toNat ∧ c.toNat ≤ 57) ∨ (65 ≤ c.toNat ∧ c.toNat ≤ 90) ∨ c.toNat = 95 ∨ (97 ≤ c.toNat ∧ c.toNat ≤ 122) := by
  simp only [is_ident, is_alpha, is_lower, is_upper, is_digit, Bool.or_eq_true, decide_eq_true_eq, beq_iff_eq] at h
  have e1 : ∀ a b : Char, a ≤ b ↔ a.toNat ≤ b.toNat := fun a b => Iff.rfl
  simp only [e1] at h
  have t0 : ('0' : Char).toNat = 48 := rfl
  have t9 : ('9' : Char).toNat = 57 := rfl
  have ta : ('a' : Char).toNat = 97 := rfl
  have tz : ('z' : Char).toNat = 122 := rfl
  have tA : ('A' : Char).toNat = 65 := rfl
  have tZ : ('Z' : Char).toNat = 90 := rfl
  rw [t0, t9, ta, tz, tA, tZ] at h
  rcases h with ((h | h) | h) | h
  · omega
  · omega
  · omega
  · subst h; decide

theorem ident_not_white (W : Char → Bool) {c : Char} (h : is_ident c = true) : is_white W c = false := by
  have h1 := ident_ascii h
  have h2 : is_ascii c = true := by simp [is_ascii]; omega
  rw [is_white, if_pos h2]
  have h3 : c ≠ ' ' := by rintro rfl; revert h1; decide
  simp [h3]; omega

theorem ident_ne {c : Char} (h : is_ident c = true) : c ≠ '-' ∧ c ≠ '~' ∧ c ≠ '\'' ∧ c ≠ '"' ∧ c ≠ '`' ∧ c ≠ '\n' := by
  refine ⟨?_, ?_, ?_, ?_, ?_, ?_⟩ <;> (rintro rfl; revert h; decide)

theorem closes_iff (W : Char → Bool) {tr : Bool} {id l : Chars} (hid : id ≠ [] ∧ ∀ c ∈ id, is_ident c = true) :
    (if tr then trim_start W l else l) = id ↔ Closes W tr id l := by
  have hi : trim_start W id = id := by
    cases id with
    | nil => rfl
    | cons c i => rw [trim_start, if_neg (by rw [ident_not_white W (hid.2 c (by simp))]; simp)]
  cases tr with
  | false =>
    constructor
    · intro h; exact ⟨[], h, by simp, by simp⟩
    · rintro ⟨i, h1, h2, h3⟩; rw [h3 rfl] at h1; simpa using h1
  | true =>
    constructor
    · intro h
      obtain ⟨i, h1, h2⟩ := trim_split W l
      refine ⟨i, ?_, h2, by simp⟩
      simp only [if_true] at h
      rw [h] at h1; exact h1
    · rintro ⟨i, h1, h2, h3⟩
      rw [if_pos rfl, h1, trim_white W h2, hi]

theorem unlines_cons (l : Chars) (ls : List Chars) : unlines (l :: ls) = l ++ '\n' :: unlines ls := by
  simp [unlines]

theorem unlines_length (ls : List Chars) : ls.length ≤ (unlines ls).length := by
  induction ls with
  | nil => simp
  | cons l ls ih => rw [unlines_cons]; simp <;> omega

theorem here_lines_read (W : Char → Bool) {tr : Bool} {id close tl : Chars}
    (hid : id ≠ [] ∧ ∀ c ∈ id, is_ident c = true) (hc : '\n' ∉ close ∧ Closes W tr id close)
    (htl : tl = [] ∨ ∃ r, tl = '\n' :: r) :
    ∀ (ls : List Chars) (a : Chars) (n : Nat), (∀ l ∈ ls, '\n' ∉ l ∧ ¬ Closes W tr id l) → ls.length < n →
      here_lines W (a ++ (unlines ls ++ (close ++ tl))) tr id n a.length a.length =
        .ok ((a ++ unlines ls).length, (a ++ unlines ls ++ close).length + (if tl = [] then 0 else 1)) := by
  intro ls
  induction ls with
  | nil =>
    intro a n _ hn
    obtain ⟨m, rfl⟩ : ∃ m, n = m + 1 := ⟨n - 1, by omega⟩
    have e : unlines [] = [] := rfl
    rw [here_lines, e, List.nil_append, eol_line hc.1 htl, slice_append, if_pos ((closes_iff W hid).2 hc.2)]
    rcases htl with rfl | ⟨r, rfl⟩
    · simp
    · rw [if_pos (by simp <;> omega)]; simp
  | cons l ls ih =>
    intro a n hl hn
    obtain ⟨m, rfl⟩ : ∃ m, n = m + 1 := ⟨n - 1, by simp at hn; omega⟩
    obtain ⟨h1, h2⟩ := hl l (by simp)
    have e : a ++ (unlines (l :: ls) ++ (close ++ tl)) = a ++ (l ++ '\n' :: (unlines ls ++ (close ++ tl))) := by
      rw [unlines_cons]; simp
    have e' : a ++ (l ++ '\n' :: (unlines ls ++ (close ++ tl))) = (a ++ l ++ ['\n']) ++ (unlines ls ++ (close ++ tl)) := by
      simp
    rw [e, here_lines, eol_line h1 (.inr ⟨_, rfl⟩), slice_append, if_neg (fun h => h2 ((closes_iff W hid).1 h)),
      if_neg (by simp <;> omega), e']
    have := ih (a ++ l ++ ['\n']) m (fun x hx => hl x (by simp [hx])) (by simp at hn; omega)
    have el : (a ++ l ++ ['\n']).length = a.length + l.length + 1 := by simp <;> omega
    rw [el] at this
    rw [this, unlines_cons]
    simp <;> omega

theorem consume_ident_text {id r : Chars} (h : ∀ c ∈ id, is_ident c = true) (hr : ∀ c t, r = c :: t → is_ident c = false) :
    consume_ident (id ++ r) = (id, r) := by
  induction id with
  | nil =>
    cases r with
    | nil => rfl
    | cons c t => simp [consume_ident, hr c t rfl]
  | cons c id ih =>
    simp [consume_ident, h c (by simp), ih (fun x hx => h x (by simp [hx]))]

theorem opening_read {id t r : Chars} {tr : Bool} {m : Mode} (hid : id ≠ [] ∧ ∀ c ∈ id, is_ident c = true)
    (h : Opening id tr m t) (hr : ∀ c u, r = c :: u → is_ident c = false) :
    (term_mode (t ++ r)).1 = tr ∧ (quote_mode (term_mode (t ++ r)).2).1 = m ∧
    here_ident (quote_mode (term_mode (t ++ r)).2).2.1 (quote_mode (term_mode (t ++ r)).2).2.2 = .ok (id, r) := by
  have key : ∀ {t m}, Opening id false m t → term_mode (t ++ r) = (false, t ++ r) ∧ (quote_mode (t ++ r)).1 = m ∧
      here_ident (quote_mode (t ++ r)).2.1 (quote_mode (t ++ r)).2.2 = .ok (id, r) := by
    intro t m h
    have hi := consume_ident_text hid.2 hr
    cases h with
    | bare =>
      have hq : quote_mode (id ++ r) = (.Double, none, id ++ r) ∧ term_mode (id ++ r) = (false, id ++ r) := by
        cases id with
        | nil => exact absurd rfl hid.1
        | cons c id =>
          obtain ⟨a1, a2, a3, a4, a5, -⟩ := ident_ne (hid.2 c (by simp))
          constructor
          · simp only [List.cons_append]; unfold quote_mode; split <;> simp_all
          · simp only [List.cons_append]; unfold term_mode; split <;> simp_all
      rw [hq.1, hq.2]
      refine ⟨rfl, rfl, ?_⟩
      simp only [here_ident, hi, if_neg hid.1]
    | single =>
      have h2 := consume_ident_text (r := '\'' :: r) hid.2 (by intro c t e; cases e; decide)
      have e : '\'' :: id ++ ['\''] ++ r = '\'' :: (id ++ '\'' :: r) := by simp
      rw [e]
      refine ⟨rfl, rfl, ?_⟩
      simp only [quote_mode, here_ident, h2, if_neg hid.1, if_true]
    | double =>
      have h2 := consume_ident_text (r := '"' :: r) hid.2 (by intro c t e; cases e; decide)
      have e : '"' :: id ++ ['"'] ++ r = '"' :: (id ++ '"' :: r) := by simp
      rw [e]
      refine ⟨rfl, rfl, ?_⟩
      simp only [quote_mode, here_ident, h2, if_neg hid.1, if_true]
  cases tr with
  | false =>
    obtain ⟨k1, k2, k3⟩ := key h
    rw [k1]; exact ⟨rfl, k2, k3⟩
  | true =>
    cases h with
    | dash h =>
      obtain ⟨k1, k2, k3⟩ := key h
      exact ⟨rfl, k2, k3⟩

theorem here_read (W : Char → Bool) {d : Doc} (hd : d.Ok W) {pre tail skipped tl : Chars} {hpos : Nat}
    (ht : '\n' ∉ tail) (hti : ∀ c r, tail = c :: r → is_ident c = false) (htl : tl = [] ∨ ∃ r, tl = '\n' :: r)
    (hh : (skipped = [] ∧ hpos ≤ (pre ++ d.opening ++ tail).length + 1) ∨
      (hpos = (pre ++ d.opening ++ tail).length + 1 + skipped.length)) {code : Chars}
    (hcode : code = pre ++ d.opening ++ tail ++ '\n' :: skipped ++ unlines d.lines ++ d.close ++ tl) :
    ∃ h, read_heredocument W code pre.length hpos = .ok h ∧ h.mode = d.mode ∧
      slice code h.start h.stop = unlines d.lines ∧ h.pos = (pre ++ d.opening).length ∧
      h.hpos = (pre ++ d.opening ++ tail ++ '\n' :: skipped ++ unlines d.lines ++ d.close).length +
        (if tl = [] then 0 else 1) := by
  have hdrop : code.drop pre.length = d.opening ++ (tail ++ '\n' :: (skipped ++ (unlines d.lines ++ (d.close ++ tl)))) := by
    rw [hcode]; simp
  obtain ⟨o1, o2, o3⟩ := opening_read (r := tail ++ '\n' :: (skipped ++ (unlines d.lines ++ (d.close ++ tl)))) hd.id
    hd.opening (by
      intro c u e
      cases tail with
      | nil => cases e; decide
      | cons x t => cases e; exact hti _ _ rfl)
  have hpos' : code.length - (tail ++ '\n' :: (skipped ++ (unlines d.lines ++ (d.close ++ tl)))).length =
      (pre ++ d.opening).length := by
    rw [hcode]; simp <;> omega
  have heol : eol code (pre ++ d.opening).length = (pre ++ d.opening).length + tail.length := by
    have : code = (pre ++ d.opening) ++ (tail ++ '\n' :: (skipped ++ (unlines d.lines ++ (d.close ++ tl)))) := by
      rw [hcode]; simp
    rw [this, eol_line ht (.inr ⟨_, rfl⟩)]
  have hstart : here_start code (pre ++ d.opening).length hpos =
      .ok (pre ++ d.opening ++ tail ++ '\n' :: skipped).length := by
    rw [here_start, heol, if_pos (by rw [hcode]; simp <;> omega)]
    rcases hh with ⟨rfl, h⟩ | h
    · rw [if_neg (by simp at h ⊢ <;> omega)]; simp <;> omega
    · by_cases hs : skipped = []
      · subst hs; rw [if_neg (by simp at h ⊢ <;> omega)]; simp <;> omega
      · have : 0 < skipped.length := List.length_pos_iff.2 hs
        rw [if_pos (by simp at h ⊢ <;> omega), h]; simp <;> omega
  have hl := here_lines_read W hd.id hd.close htl d.lines (pre ++ d.opening ++ tail ++ '\n' :: skipped) (code.length + 1)
    hd.line (by have := unlines_length d.lines; rw [hcode]; simp <;> omega)
  have hc2 : (pre ++ d.opening ++ tail ++ '\n' :: skipped) ++ (unlines d.lines ++ (d.close ++ tl)) = code := by
    rw [hcode]; simp
  rw [hc2] at hl
  refine ⟨⟨d.mode, (pre ++ d.opening ++ tail ++ '\n' :: skipped).length,
    (pre ++ d.opening ++ tail ++ '\n' :: skipped ++ unlines d.lines).length, (pre ++ d.opening).length,
    (pre ++ d.opening ++ tail ++ '\n' :: skipped ++ unlines d.lines ++ d.close).length + (if tl = [] then 0 else 1)⟩, ?_, ?_⟩
  · rw [read_heredocument, hdrop, o1, o2, o3]
    simp only [Except.bind, hpos', hstart, hl]
  · refine ⟨rfl, ?_, rfl, rfl⟩
    dsimp only
    have := slice_append (pre ++ d.opening ++ tail ++ '\n' :: skipped) (unlines d.lines) (d.close ++ tl)
    rw [hc2, ← List.length_append] at this
    exact this

/-! ## Specification: the documents of a line -/

/-- What the document stands for: its lines as they are, or with the escapes of a double-quoted string. -/
def Doc.Value (d : Doc) (v : Chars) : Prop :=
  match d.mode with
  | .Single => v = unlines d.lines
  | .Double => Cooked none none (unlines d.lines) v
  | .Command => False

/-- Reads the documents that a line opens, from left to right: before the next one there are so many characters (up to
and with its `<<`).  The strings, the position and `heredoc_pos` afterwards. -/
def read_docs (W : Char → Bool) (code : Chars) : List Nat → Nat → Nat → Except Err (List Tok × Nat × Nat)
  | [], pos, hpos => .ok ([], pos, hpos)
  | g :: gs, pos, hpos =>
    (read_heredocument W code (pos + g) hpos).bind fun h =>
      (here_value code h).bind fun v =>
        (read_docs W code gs h.pos h.hpos).bind fun (vs, p) => .ok (v :: vs, p)

/-- The part of the line with the documents: what stands before each (ending with `<<`) and what opens it. -/
def openings (ds : List (Chars × Doc)) : Chars := ds.flatMap fun d => d.1 ++ d.2.opening

theorem value_read {d : Doc} {v : Chars} (h : d.Value v) {code : Chars} {x : Here} (hm : x.mode = d.mode)
    (hs : slice code x.start x.stop = unlines d.lines) : here_value code x = .ok (.StringLit v) := by
  unfold Doc.Value at h
  rw [here_value, hm]
  cases hd : d.mode with
  | Single => rw [hd] at h; simp only [] at h ⊢; rw [hs, h]
  | Double => rw [hd] at h; simp only [] at h ⊢; rw [hs, cooked_all h]; rfl
  | Command => rw [hd] at h; exact h.elim

theorem docs_read (W : Char → Bool) {tail after code : Chars} (ht : '\n' ∉ tail)
    (hti : ∀ c r, tail = c :: r → is_ident c = false) :
    ∀ (ds : List (Chars × Doc)) (vs : List Chars) (pre skipped : Chars) (hpos : Nat),
      (∀ d ∈ ds, d.2.Ok W ∧ '\n' ∉ d.1) → (∀ d ∈ ds.tail, ∃ c r, d.1 = c :: r ∧ is_ident c = false) →
      List.Forall₂ (fun d v => d.2.Value v) ds vs →
      ((skipped = [] ∧ hpos ≤ pre.length) ∨ hpos = (pre ++ openings ds ++ tail).length + 1 + skipped.length) →
      code = pre ++ openings ds ++ tail ++ '\n' :: skipped ++ bodies (ds.map (·.2)) ++ after →
      ∃ hp, read_docs W code (ds.map (·.1.length)) pre.length hpos =
          .ok (vs.map .StringLit, (pre ++ openings ds).length, hp) ∧
        ((ds = [] ∧ hp = hpos) ∨ hp = (pre ++ openings ds ++ tail ++ '\n' :: skipped ++ bodies (ds.map (·.2))).length) := by
  intro ds
  induction ds with
  | nil =>
    intro vs pre skipped hpos _ _ hv _ _
    cases hv
    exact ⟨hpos, by simp [read_docs, openings], .inl ⟨rfl, rfl⟩⟩
  | cons d ds ih =>
    intro vs pre skipped hpos hok hgi hv hh hcode
    cases hv with
    | cons hv hvs =>
    rename_i v vs
    obtain ⟨g, d⟩ := d
    obtain ⟨hd, hg⟩ := hok (g, d) (by simp)
    have ho : openings ((g, d) :: ds) = g ++ d.opening ++ openings ds := by simp [openings]
    have hb : bodies (((g, d) :: ds).map (·.2)) = unlines d.lines ++ d.close ++ '\n' :: bodies (ds.map (·.2)) := by
      simp [bodies, unlines]
    have hnl : '\n' ∉ openings ds ++ tail := by
      intro hm
      rcases List.mem_append.1 hm with hm | hm
      · simp only [openings, List.mem_flatMap] at hm
        obtain ⟨x, hx, hm⟩ := hm
        obtain ⟨a1, a2⟩ := hok x (by simp [hx])
        rcases List.mem_append.1 hm with hm | hm
        · exact a2 hm
        · have key : ∀ {id t m}, (∀ c ∈ id, is_ident c = true) → Opening id false m t → '\n' ∉ t := by
            intro id t m hi ho hn
            have hx : '\n' ∉ id := fun h => (ident_ne (hi _ h)).2.2.2.2.2 rfl
            cases ho with
            | bare => exact hx hn
            | single => simp at hn; exact hx hn
            | double => simp at hn; exact hx hn
          have o := a1.opening
          cases hi : x.2.indented with
          | false => rw [hi] at o; exact key a1.id.2 o hm
          | true =>
            rw [hi] at o
            generalize x.2.opening = t at o hm
            cases o with
            | dash o => simp at hm; exact key a1.id.2 o hm
      · exact ht hm
    have hid : ∀ c r, openings ds ++ tail = c :: r → is_ident c = false := by
      intro c r e
      cases ds with
      | nil => exact hti c r (by simpa [openings] using e)
      | cons y ds =>
        obtain ⟨c', r', e1, e2⟩ := hgi y (by simp)
        obtain ⟨y1, y2⟩ := y
        simp only at e1
        subst e1
        simp [openings] at e
        rw [← e.1]; exact e2
    obtain ⟨x, hx, hm, hs, hp, hpp⟩ := here_read W (pre := pre ++ g) (tail := openings ds ++ tail) (skipped := skipped)
      (tl := '\n' :: (bodies (ds.map (·.2)) ++ after)) (hpos := hpos) hd hnl hid (.inr ⟨_, rfl⟩)
      (by
        rcases hh with ⟨h1, h2⟩ | h
        · left; refine ⟨h1, ?_⟩; simp; omega
        · right; rw [h, ho]; simp)
      (code := code) (by rw [hcode, ho, hb]; simp)
    obtain ⟨hp', hr, hf⟩ := ih vs (pre ++ g ++ d.opening) (skipped ++ unlines d.lines ++ d.close ++ ['\n']) x.hpos
      (fun y hy => hok y (by simp [hy])) (fun y hy => hgi y (List.mem_of_mem_tail hy)) hvs (by right; rw [hpp]; simp; omega)
      (by rw [hcode, ho, hb]; simp)
    refine ⟨hp', ?_, ?_⟩
    · rw [List.map_cons, read_docs]
      have e1 : pre.length + ((g, d) : Chars × Doc).1.length = (pre ++ g).length := by simp
      rw [e1, hx]
      simp only [Except.bind, value_read hv hm hs]
      rw [hp, hr, ho]
      simp
    · right
      rcases hf with ⟨rfl, hf⟩ | hf
      · rw [hf, hpp, hb, ho]; simp [bodies, openings]; omega
      · rw [hf, hb, ho]; simp

/-! ## C97 -/

/-- **C97 (text without escapes).** `%q` with any delimiter: the string is the text up to the delimiter that closes the
literal; delimiters may be nested, a backslash before an ordinary character and a doubled backslash are as in single
quotes. -/
theorem C97_q {d t : Char} {o : Option Char} (hd : Pair d o t) {s v : Chars} (h : Raw o t s v) (rest : Chars) :
    parse_percent_notation ('q' :: d :: s ++ t :: rest) = .ok (.string v, rest) := by
  obtain ⟨-, -, -, a1, a2, a3⟩ := hd.facts
  have := raw_literal hd h rest
  simp only [parse_percent_notation, get_percent_notation, List.cons_append, a1, a2, a3]
  simp [percent_text, this, Except.bind, Except.map]

example : parse_percent_notation "q{a {b} c\\d} + 1".toList = .ok (.string "a {b} c\\d".toList, " + 1".toList) :=
  C97_q .brace (s := "a {b} c\\d".toList) (v := "a {b} c\\d".toList)
    (.char (by decide) (by decide) (by decide) (.char (by decide) (by decide) (by decide)
      (.nest (s := ['b']) rfl (.char (by decide) (by decide) (by decide) .nil)
        (.char (by decide) (by decide) (by decide) (.char (by decide) (by decide) (by decide)
          (.alone (by decide) (by decide) (by decide) .nil)))))) " + 1".toList

/-- **C97 (text with escapes).** `%Q` and `%` with a delimiter: the string has the characters that the escapes stand
for. -/
theorem C97_Q {d t : Char} {o : Option Char} (hd : Pair d o t) (hx : d ∉ ['#', '$', '@']) {s v : Chars}
    (h : Cooked o (some t) s v) (rest : Chars) :
    parse_percent_notation ('Q' :: d :: s ++ t :: rest) = .ok (.string v, rest) ∧
    parse_percent_notation (d :: s ++ t :: rest) = .ok (.string v, rest) := by
  obtain ⟨-, -, -, a1, a2, a3⟩ := hd.facts
  have := cooked_literal hd hx h rest
  constructor
  · simp only [parse_percent_notation, get_percent_notation, List.cons_append, a1, a2, a3]
    simp [percent_text, this, Except.bind]
  · have hk : d ∉ ['q', 'Q', 'x', 'r', 'w', 'W', 's', 'i', 'I'] := by
      intro hm
      simp only [List.mem_cons, List.not_mem_nil, or_false] at hm
      rcases hm with rfl | rfl | rfl | rfl | rfl | rfl | rfl | rfl | rfl <;> revert a1 <;> decide
    simp only [parse_percent_notation, get_percent_notation, List.cons_append, a1, a2, a3, if_neg hk]
    simp [percent_text, this, Except.bind]

example : parse_percent_notation "(a\\t(#)\\)).".toList = .ok (.string "a\t(#))".toList, ".".toList) :=
  (C97_Q .paren (by decide) (s := "a\\t(#)\\)".toList) (v := "a\t(#))".toList)
    (.char (by decide) (by decide) (by decide) (by decide) (.escape (e := ['t']) .tab
      (.nest (s := ['#']) rfl rfl (.hash (by simp) .nil)
        (.escape (e := [')']) (.quoted (by decide)) .nil)))) ".".toList).2

/-- **C97 (words).** `%w` and `%i` give the words of the text, as strings and as symbols, in order. -/
theorem C97_words {d t : Char} {o : Option Char} (hd : Pair d o t) {s : Chars} (h : Raw o t s s) {ws : List Chars}
    (hw : Words s ws) (rest : Chars) :
    parse_percent_notation ('w' :: d :: s ++ t :: rest) = .ok (.strings ws, rest) ∧
    parse_percent_notation ('i' :: d :: s ++ t :: rest) = .ok (.symbols ws, rest) := by
  obtain ⟨-, -, -, a1, a2, a3⟩ := hd.facts
  have := raw_literal hd h rest
  have hs := words_split hw
  constructor
  · simp only [parse_percent_notation, get_percent_notation, List.cons_append, a1, a2, a3]
    simp [percent_text, this, Except.bind, Except.map, ← hs]
  · simp only [parse_percent_notation, get_percent_notation, List.cons_append, a1, a2, a3]
    simp [percent_text, this, Except.bind, Except.map, ← hs]

/-- Every text has words, so the theorem says what every literal of this form gives. -/
theorem C97_words_defined (s : Chars) : ∃ ws, Words s ws := words_total s

example : parse_percent_notation "w[ab \nc]".toList = .ok (.strings ["ab".toList, "c".toList], []) :=
  (C97_words .bracket (s := "ab \nc".toList)
    (.char (by decide) (by decide) (by decide) (.char (by decide) (by decide) (by decide)
      (.char (by decide) (by decide) (by decide) (.char (by decide) (by decide) (by decide)
        (.char (by decide) (by decide) (by decide) .nil)))))
    (.word (w := "ab".toList) (by decide) (by decide) (by intro c r e; cases e; decide)
      (.blank (.inl rfl) (.blank (.inr rfl)
        (.word (w := "c".toList) (s := []) (by decide) (by decide) (by simp) .nil)))) []).1

/-- **C97 (here documents).** In a line that opens documents, the first has the lines that follow, up to its closing
line, the next the lines after that, and so on; the rest of the line is read next, and after the line the program goes on
behind the last closing line. -/
theorem C97_here (W : Char → Bool) {pre tail after : Chars} {ds : List (Chars × Doc)} {vs : List Chars} {hpos : Nat}
    (ht : '\n' ∉ tail) (hti : ∀ c r, tail = c :: r → is_ident c = false) (hne : ds ≠ [])
    (hok : ∀ d ∈ ds, d.2.Ok W ∧ '\n' ∉ d.1) (hgi : ∀ d ∈ ds.tail, ∃ c r, d.1 = c :: r ∧ is_ident c = false)
    (hv : List.Forall₂ (fun d v => d.2.Value v) ds vs) (hh : hpos ≤ pre.length) {code : Chars}
    (hcode : code = pre ++ openings ds ++ tail ++ '\n' :: bodies (ds.map (·.2)) ++ after) :
    ∃ pos hp, read_docs W code (ds.map (·.1.length)) pre.length hpos = .ok (vs.map .StringLit, pos, hp) ∧
      code.drop pos = tail ++ '\n' :: bodies (ds.map (·.2)) ++ after ∧
      ∃ q, consume_newline code (pos + tail.length) hp = some q ∧ code.drop q = after := by
  obtain ⟨hp, h1, h2⟩ := docs_read W (after := after) (code := code) ht hti ds vs pre [] hpos hok hgi hv
    (.inl ⟨rfl, hh⟩) (by rw [hcode]; simp)
  refine ⟨_, hp, h1, ?_, hp, ?_, ?_⟩
  · have : code = (pre ++ openings ds) ++ (tail ++ '\n' :: bodies (ds.map (·.2)) ++ after) := by rw [hcode]; simp
    rw [this, List.drop_left]
  · have e : code = (pre ++ openings ds ++ tail) ++ '\n' :: (bodies (ds.map (·.2)) ++ after) := by rw [hcode]; simp
    have e2 : (pre ++ openings ds).length + tail.length = (pre ++ openings ds ++ tail).length := by simp; omega
    rw [e2, consume_newline]
    have e3 : code.drop (pre ++ openings ds ++ tail).length = '\n' :: (bodies (ds.map (·.2)) ++ after) := by
      rw [e, List.drop_left]
    rw [e3]
    have h3 := h2.resolve_left (fun h => hne h.1)
    simp only [Option.some.injEq]
    rw [if_pos]
    rw [h3]
    have : 0 < (bodies (ds.map (·.2))).length := by
      cases ds with
      | nil => exact absurd rfl hne
      | cons d ds => simp [bodies, unlines]; omega
    simp; omega
  · rw [h2.resolve_left (fun h => hne h.1)]
    have : code = (pre ++ openings ds ++ tail ++ '\n' :: [] ++ bodies (ds.map (·.2))) ++ after := by rw [hcode]; simp
    rw [this, List.drop_left]

/-- **C97 (a document at the end).** The last closing line need not end with a newline. -/
theorem C97_here_last (W : Char → Bool) {d : Doc} (hd : d.Ok W) {pre tail v : Chars} {hpos : Nat} (ht : '\n' ∉ tail)
    (hti : ∀ c r, tail = c :: r → is_ident c = false) (hv : d.Value v) (hh : hpos ≤ pre.length) :
    ∃ h, read_heredocument W (pre ++ d.opening ++ tail ++ '\n' :: unlines d.lines ++ d.close) pre.length hpos = .ok h ∧
      here_value (pre ++ d.opening ++ tail ++ '\n' :: unlines d.lines ++ d.close) h = .ok (.StringLit v) ∧
      h.pos = (pre ++ d.opening).length ∧
      h.hpos = (pre ++ d.opening ++ tail ++ '\n' :: unlines d.lines ++ d.close).length := by
  obtain ⟨h, h1, h2, h3, h4, h5⟩ := here_read W (pre := pre) (tail := tail) (skipped := []) (tl := []) (hpos := hpos) hd
    ht hti (.inl rfl) (.inl ⟨rfl, by simp; omega⟩) (code := pre ++ d.opening ++ tail ++ '\n' :: unlines d.lines ++ d.close)
    (by simp)
  exact ⟨h, h1, value_read hv h2 h3, h4, by rw [h5]; simp⟩

/-- **C97 (no closing line).** A document without a closing line is an error, not a string. -/
theorem C97_unclosed (W : Char → Bool) {id pre t tail : Chars} {tr : Bool} {m : Mode} {ls : List Chars} {hpos : Nat}
    (hid : id ≠ [] ∧ ∀ c ∈ id, is_ident c = true) (ho : Opening id tr m t) (ht : '\n' ∉ tail)
    (hti : ∀ c r, tail = c :: r → is_ident c = false) (hl : ∀ l ∈ ls, '\n' ∉ l ∧ ¬ Closes W tr id l)
    (hh : hpos ≤ pre.length) :
    read_heredocument W (pre ++ t ++ tail ++ '\n' :: unlines ls) pre.length hpos = .error .syntax := by
  have key : ∀ (ls : List Chars) (a : Chars) (n : Nat), (∀ l ∈ ls, '\n' ∉ l ∧ ¬ Closes W tr id l) → ls.length < n →
      here_lines W (a ++ unlines ls) tr id n a.length a.length = .error .syntax := by
    intro ls
    induction ls with
    | nil =>
      intro a n _ hn
      obtain ⟨m, rfl⟩ : ∃ m, n = m + 1 := ⟨n - 1, by omega⟩
      have e := eol_line (a := a) (l := []) (b := []) (by simp) (.inl rfl)
      have e2 := slice_append a [] []
      have e3 : unlines [] = [] ++ [] := rfl
      rw [here_lines, e3, e, e2, if_neg, if_pos (by simp)]
      intro hc
      obtain ⟨i, h1, -⟩ := (closes_iff W hid).1 hc
      simp at h1; exact hid.1 h1.2
    | cons l ls ih =>
      intro a n hl hn
      obtain ⟨m, rfl⟩ : ∃ m, n = m + 1 := ⟨n - 1, by simp at hn; omega⟩
      obtain ⟨h1, h2⟩ := hl l (by simp)
      have e' : a ++ (l ++ '\n' :: unlines ls) = (a ++ l ++ ['\n']) ++ unlines ls := by simp
      rw [unlines_cons, here_lines, eol_line h1 (.inr ⟨_, rfl⟩), slice_append,
        if_neg (fun h => h2 ((closes_iff W hid).1 h)), if_neg (by simp <;> omega), e']
      have := ih (a ++ l ++ ['\n']) m (fun x hx => hl x (by simp [hx])) (by simp at hn; omega)
      have el : (a ++ l ++ ['\n']).length = a.length + l.length + 1 := by simp <;> omega
      rw [el] at this
      exact this
  generalize hcode : pre ++ t ++ tail ++ '\n' :: unlines ls = code
  have hdrop : code.drop pre.length = t ++ (tail ++ '\n' :: unlines ls) := by rw [← hcode]; simp
  obtain ⟨o1, o2, o3⟩ := opening_read (r := tail ++ '\n' :: unlines ls) hid ho (by
      intro c u e
      cases tail with
      | nil => cases e; decide
      | cons x t => cases e; exact hti _ _ rfl)
  have hpos' : code.length - (tail ++ '\n' :: unlines ls).length = (pre ++ t).length := by
    rw [← hcode]; simp; omega
  have heol : eol code (pre ++ t).length = (pre ++ t).length + tail.length := by
    have : code = (pre ++ t) ++ (tail ++ '\n' :: unlines ls) := by rw [← hcode]; simp
    rw [this, eol_line ht (.inr ⟨_, rfl⟩)]
  have hstart : here_start code (pre ++ t).length hpos = .ok (pre ++ t ++ tail ++ ['\n']).length := by
    rw [here_start, heol, if_pos (by rw [← hcode]; simp; omega), if_neg (by simp; omega)]; simp; omega
  have hk := key ls (pre ++ t ++ tail ++ ['\n']) (code.length + 1) hl
    (by have := unlines_length ls; rw [← hcode]; simp; omega)
  have e : pre ++ t ++ tail ++ ['\n'] ++ unlines ls = code := by rw [← hcode]; simp
  rw [e] at hk
  rw [read_heredocument, hdrop, o1, o3]
  simp only [Except.bind, hpos', hstart, hk]

/-- Two documents for the examples. -/
def docA : Doc := ⟨['A'], false, .Double, ['A'], ["x\\ty".toList, [], " A".toList], ['A']⟩
def docB : Doc := ⟨['B'], true, .Single, "-'B'".toList, ["A\\n".toList], "  B".toList⟩

theorem docA_ok : docA.Ok fun _ => false where
  id := by decide
  opening := .bare
  line := by
    intro l hl
    refine ⟨?_, fun hc => ?_⟩
    · revert l; decide
    · have := (closes_iff (fun _ => false) (tr := false) (id := ['A']) (l := l) (by decide)).2 hc
      clear hc; revert l; decide
  close := ⟨by decide, [], rfl, by simp, by simp⟩

theorem docB_ok : docB.Ok fun _ => false where
  id := by decide
  opening := .dash .single
  line := by
    intro l hl
    refine ⟨?_, fun hc => ?_⟩
    · revert l; decide
    · have := (closes_iff (fun _ => false) (tr := true) (id := ['B']) (l := l) (by decide)).2 hc
      clear hc; revert l; decide
  close := ⟨by decide, "  ".toList, rfl, by decide, by simp [docB]⟩

example : ∃ pos hp q, read_docs (fun _ => false)
      "f(<<A, <<-'B').g\nx\\ty\n\n A\nA\nA\\n\n  B\nh\n".toList [4, 4] 0 0 =
        .ok ([.StringLit "x\ty\n\n A\n".toList, .StringLit "A\\n\n".toList], pos, hp) ∧
      consume_newline "f(<<A, <<-'B').g\nx\\ty\n\n A\nA\nA\\n\n  B\nh\n".toList (pos + 3) hp = some q ∧
      List.drop q "f(<<A, <<-'B').g\nx\\ty\n\n A\nA\nA\\n\n  B\nh\n".toList = "h\n".toList := by
  have c : ∀ {c s v}, c ≠ '\\' → c ≠ '#' → Cooked none none s v → Cooked none none (c :: s) (c :: v) :=
    fun a b h => .char a b (by simp) (by simp) h
  obtain ⟨pos, hp, h1, -, q, h2, h3⟩ := C97_here (fun _ => false) (pre := []) (tail := ").g".toList) (after := "h\n".toList)
    (ds := [("f(<<".toList, docA), (", <<".toList, docB)])
    (vs := ["x\ty\n\n A\n".toList, "A\\n\n".toList]) (hpos := 0) (by decide) (by intro c r e; cases e; decide) (by simp)
    (by
      intro d hd
      simp only [List.mem_cons, List.not_mem_nil, or_false] at hd
      rcases hd with rfl | rfl
      · exact ⟨docA_ok, by decide⟩
      · exact ⟨docB_ok, by decide⟩)
    (by
      intro d hd
      simp only [List.tail_cons, List.mem_cons, List.not_mem_nil, or_false] at hd
      subst hd
      exact ⟨',', " <<".toList, rfl, by decide⟩)
    (.cons (show Cooked none none (unlines docA.lines) _ from
      c (by decide) (by decide) (.escape (e := ['t']) .tab (c (by decide) (by decide) (c (by decide) (by decide)
        (c (by decide) (by decide) (c (by decide) (by decide) (c (by decide) (by decide) (c (by decide) (by decide) .nil))))))))
      (.cons rfl .nil)) (Nat.le_refl _) rfl
  exact ⟨pos, hp, q, h1, h2, h3⟩

/-! ### Where the code differs from the claim -/

/-- `\)` in `%q( )` should stand for `)`; the backslash stays. -/
theorem C97_q_fails : parse_percent_notation "q(a\\)b)".toList = .ok (.string "a\\)b".toList, []) := by rfl

/-- A tab should separate words. -/
theorem C97_tab_fails : parse_percent_notation "w(a\tb)".toList = .ok (.strings ["a\tb".toList], []) := by rfl

/-- `\ ` should be a blank in a word; the word is cut in two, and the backslash stays. -/
theorem C97_blank_fails : parse_percent_notation "w(a\\ b)".toList = .ok (.strings ["a\\".toList, "b".toList], []) := by
  rfl

/-- The other kinds of literals (words with interpolation, one symbol, a command) are refused, whatever their text. -/
theorem C97_kinds_fails {d t k : Char} {o : Option Char} (hd : Pair d o t) (hk : k ∈ ['W', 'I', 's', 'x']) {s v : Chars}
    (h : Raw o t s v) (rest : Chars) : parse_percent_notation (k :: d :: s ++ t :: rest) = .error .syntax := by
  obtain ⟨-, -, -, a1, a2, a3⟩ := hd.facts
  have := raw_literal hd h rest
  simp only [List.mem_cons, List.not_mem_nil, or_false] at hk
  rcases hk with rfl | rfl | rfl | rfl <;>
    (simp only [parse_percent_notation, get_percent_notation, List.cons_append, a1, a2, a3]
     simp [percent_text, this, Except.bind, Except.map])

/-- **C97 (unknown kinds).** `%` with a letter or digit that is no kind of literal is an error, and so is a letter or digit as the
delimiter. -/
theorem C97_unknown {k d : Char} (s : Chars) (hk : is_alpha k = true ∨ is_digit k = true) :
    (k ∉ ['q', 'Q', 'x', 'r', 'w', 'W', 's', 'i', 'I'] → parse_percent_notation (k :: s) = .error .syntax) ∧
    (d ∈ ['q', 'Q', 'x', 'r', 'w', 'W', 's', 'i', 'I'] → parse_percent_notation (d :: k :: s) = .error .syntax) := by
  have h : (is_alpha k || is_digit k) = true := by simpa using hk
  constructor
  · intro hn
    simp only [parse_percent_notation, get_percent_notation, if_neg hn, h, if_true]
    rfl
  · intro hn
    simp only [parse_percent_notation, get_percent_notation, if_pos hn, h, if_true]
    rfl

example : parse_percent_notation "z(a)".toList = .error .syntax ∧ parse_percent_notation "wza z".toList = .error .syntax :=
  ⟨(C97_unknown (d := 'q') _ (.inl (by decide))).1 (by decide), (C97_unknown _ (.inl (by decide))).2 (by decide)⟩

/-- `<<~A` should take away the indentation of the lines; it stays. -/
theorem C97_squiggly_fails : ∃ h, read_heredocument (fun _ => false) "<<~A\n  x\n  A\n".toList 2 0 = .ok h ∧
    here_value "<<~A\n  x\n  A\n".toList h = .ok (.StringLit "  x\n".toList) := by
  refine ⟨⟨.Double, 5, 9, 4, 13⟩, ?_, ?_⟩ <;> rfl

/-- `<<` at the end of the program should be an error; the interpreter panics. -/
theorem C97_eof_fails : read_heredocument (fun _ => false) "<<".toList 2 0 = .error .panic := by rfl

end Verif.Lexer
