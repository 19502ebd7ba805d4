import Verif.Lexer.Props
/-!
# Character literals (C132)

`?a`: a string of one character.
-/
namespace Verif.Lexer

/-! ## Model -/

/-- ruruby-parse/src/parser/lexer.rs:850-859 (read_char_literal).  The tokens peeked at are dropped (`flush`); here a
peek leaves nothing behind. -/
def read_char_literal (s : Chars) : Lex Char :=
  (get s).bind fun (c, s) => if c = '\\' then read_escaped_char s else .ok (c, s)

/-- ruruby-parse/src/parser/literals.rs:6-11 (parse_char_literal), after the `?` (expression.rs:727).  For the position,
`loc` looks at the next token and unwraps it (parser.rs:203-205, 220-222; lexer.rs:130-139): an error there is a panic. -/
def parse_char_literal (U : Unicode) (s : Chars) : Lex Chars :=
  match read_token U s with
  | .error _ => .error .panic
  | .ok _ => (read_char_literal s).map fun (c, s) => ([c], s)

/-! ## Specification -/

/-- What may stand after the `?`, and the character it means: a character other than a backslash means itself, and
with a backslash it means the same as in a string in double quotes. -/
inductive CharText : Chars → Char → Prop
  | itself {c} : c ≠ '\\' → CharText [c] c
  | escaped {e c} : Escape ('\\' :: e) c → CharText ('\\' :: e) c

/-- Letters, the underscore, the operators and delimiters, `#`, and what is beyond ASCII but no number: all characters
that do not begin a quotation, a variable or a number. -/
def Simple (U : Unicode) (c : Char) : Prop :=
  is_alpha c = true ∨ c = '_' ∨ c = '#' ∨ c ∈ "!%&()*+,-./:;<=>?[]^{|}~".toList ∨
    (128 ≤ c.toNat ∧ U.numeric c = false)

/-! ## Helpers -/

theorem read_token_backslash (U : Unicode) {s : Chars} (h : ∀ r, s ≠ '\n' :: r) :
    read_token U ('\\' :: s) = .ok (.Punct .Backslash, s) := by
  have hs : skip_whitespace ('\\' :: s) = (false, '\\' :: s) := by
    unfold skip_whitespace
    split
    · rename_i e; simp at e
    · rename_i e; simp at e; exact absurd e (h _)
    · rename_i e; simp at e; rw [← e.1, ← e.2]; rfl
    · rename_i e; simp at e
  unfold read_token
  rw [hs]
  rfl

theorem read_simple (U : Unicode) {c : Char} (h : Simple U c) (s : Chars) : ∃ r, read_token U (c :: s) = .ok r := by
  rcases h with h | h | rfl | h | ⟨h, hn⟩
  · exact ⟨_, read_token_ident U (.inl h)⟩
  · exact ⟨_, read_token_ident U (.inr h)⟩
  · unfold read_token
    rw [skip_nonspace (by decide) (by decide)]
    cases hg : goto_eol s with
    | nil => exact ⟨(.Eof, []), by simp only [hg]⟩
    | cons x r => exact ⟨(.LineTerm, (skip_whitespace (x :: r)).2), by simp only [hg]⟩
  · have hp : is_punct c = true ∧ c ∉ ['"', '`', '\'', '@', '$', '#', '_', '\\'] := by
      revert c; decide
    rw [read_token_punct U hp.1 hp.2]
    have : ∃ r, read_punct c s = some r := by
      rw [show "!%&()*+,-./:;<=>?[]^{|}~".toList = ['!', '%', '&', '(', ')', '*', '+', ',', '-', '.', '/', ':', ';', '<',
        '=', '>', '?', '[', ']', '^', '{', '|', '}', '~'] from by decide] at h
      simp only [List.mem_cons, List.not_mem_nil, or_false] at h
      rcases h with rfl | rfl | rfl | rfl | rfl | rfl | rfl | rfl | rfl | rfl | rfl | rfl | rfl | rfl | rfl | rfl | rfl |
        rfl | rfl | rfl | rfl | rfl | rfl | rfl <;> 
        first | exact ⟨_, rfl⟩ | (simp only [read_punct]; split <;> exact ⟨_, rfl⟩)
    obtain ⟨r, hr⟩ := this
    rw [hr]
    exact ⟨_, rfl⟩
  · have h1 : is_space c = false := by
      cases hc : is_space c with
      | false => rfl
      | true => have := (is_space_iff c).1 hc; omega
    have h2 : c ≠ '\\' := by rintro rfl; revert h; decide
    have h3 : c ≠ '#' := by rintro rfl; revert h; decide
    have h4 : is_alpha c = false := by
      cases hc : is_alpha c with
      | false => rfl
      | true => have := (is_alpha_iff c).1 hc; omega
    have h5 : (c == '_') = false := by
      rw [beq_eq_false_iff_ne]; rintro rfl; revert h; decide
    have h6 : is_punct c = false := by
      cases hc : is_punct c with
      | false => rfl
      | true => have := (is_punct_iff c).1 hc; omega
    have h7 : is_numeric U c = false := by
      unfold is_numeric is_ascii
      rw [if_neg (by simp; omega), hn]
    rw [read_token_nonspace U h1 h2 h3, read_token_at, h4, h5, h6, h7]
    exact ⟨_, rfl⟩

theorem read_char_text {t : Chars} {c : Char} (h : CharText t c) (rest : Chars) :
    read_char_literal (t ++ rest) = .ok (c, rest) := by
  cases h with
  | itself h => simp [read_char_literal, get, Except.bind, h]
  | escaped h => simpa [read_char_literal, get, Except.bind] using (escaped_char h rest).1

/-! ## C132 -/

/-- **C132**: after `?`, a character, or a backslash with what makes up an escape, is the string of exactly the
character meant, and the reading goes on right behind.  Missing: where the text after the `?`, read as a token, is an
error (`C132_quote_fails`, `C132_variable_fails`). -/
theorem C132_char_partial (U : Unicode) {t : Chars} {c : Char} (h : CharText t c) {rest : Chars}
    (hr : ∃ r, read_token U (t ++ rest) = .ok r) : parse_char_literal U (t ++ rest) = .ok ([c], rest) := by
  obtain ⟨r, hr⟩ := hr
  unfold parse_char_literal
  rw [hr, read_char_text h]
  rfl

/-- **C132**, for letters, operators and the like: whatever follows. -/
theorem C132_simple (U : Unicode) {c : Char} (h : Simple U c) (rest : Chars) :
    parse_char_literal U (c :: rest) = .ok ([c], rest) := by
  refine C132_char_partial U (t := [c]) (.itself ?_) (read_simple U h rest)
  rintro rfl
  rcases h with h | h | h | h | h <;> revert h
  · decide
  · decide
  · decide
  · decide
  · rintro ⟨h, -⟩; revert h; decide

/-- **C132**, for escapes: whatever follows, the literal means what the escape means in a string in double quotes. -/
theorem C132_escape (U : Unicode) {e : Chars} {c : Char} (h : Escape ('\\' :: e) c) (rest : Chars) :
    parse_char_literal U ('\\' :: e ++ rest) = .ok ([c], rest) ∧
      read_token U ('"' :: ('\\' :: e ++ '"' :: rest)) = .ok (.StringLit [c], rest) := by
  refine ⟨C132_char_partial U (.escaped h) ⟨_, read_token_backslash U ?_⟩, ?_⟩
  · intro r hr
    obtain ⟨-, h1, h2⟩ := escaped_char h rest
    cases e with
    | nil => exact h2 rfl
    | cons x e => cases hr; exact h1 _ rfl rfl
  · have := C74_double U (.char h .nil) rest
    rwa [List.append_nil] at this

/-- **C132**: nothing after the `?` is an error of syntax, the end of the text. -/
theorem C132_nothing (U : Unicode) : parse_char_literal U [] = .error .eof := rfl

/-- **C132** fails: `?"` without another quotation mark after it panics. -/
theorem C132_quote_fails (U : Unicode) {t s : Chars} (h : Quoted t s) :
    CharText ['"'] '"' ∧ parse_char_literal U ('"' :: t) = .error .panic := by
  refine ⟨.itself (by decide), ?_⟩
  unfold parse_char_literal
  rw [C74_unterminated U h]

/-- **C132** fails: `?@` and `?$` at the end of the text panic. -/
theorem C132_variable_fails (U : Unicode) :
    parse_char_literal U ['@'] = .error .panic ∧ parse_char_literal U ['$'] = .error .panic := by
  constructor
  · unfold parse_char_literal; rw [read_token_nonspace U (by decide) (by decide) (by decide)]; rfl
  · unfold parse_char_literal; rw [read_token_nonspace U (by decide) (by decide) (by decide)]; rfl

/-- **C132** fails: Ruby does not take `?` before a letter that begins a longer name for a literal; here `?ab` is the
string `a`, and `b` comes after it. -/
theorem C132_name_fails (U : Unicode) {c d : Char} (hc : is_alpha c = true) (_hd : is_ident d = true) (rest : Chars) :
    parse_char_literal U (c :: d :: rest) = .ok ([c], d :: rest) :=
  C132_simple U (.inl hc) _

/-- **C132** fails: white space after the `?` is taken for the character. -/
theorem C132_blank_fails (U : Unicode) {c : Char} (hc : is_alpha c = true) (rest : Chars) :
    parse_char_literal U (' ' :: c :: rest) = .ok ([' '], c :: rest) := by
  refine C132_char_partial U (t := [' ']) (.itself (by decide)) ⟨read_identifier c rest, ?_⟩
  have := C73_space U (w := [' ']) (s := c :: rest) (by simp; decide)
  rw [this, read_token_ident U (.inl hc)]

/-- **C132** fails: `?\C-a` is control-a in Ruby, here the string `C`, and `-a` comes after it. -/
theorem C132_control_fails (U : Unicode) (rest : Chars) :
    parse_char_literal U ('\\' :: 'C' :: '-' :: 'a' :: rest) = .ok (['C'], '-' :: 'a' :: rest) :=
  (C132_escape U (e := ['C']) (.quoted (by decide)) ('-' :: 'a' :: rest)).1

/-! ## Instances -/

example (U : Unicode) : parse_char_literal U "a + 1".toList = .ok (['a'], " + 1".toList) := C132_simple U (.inl rfl) _
example (U : Unicode) : parse_char_literal U "[]".toList = .ok (['['], [']']) :=
  C132_simple U (.inr (.inr (.inr (.inl (by decide))))) _
example : Simple ⟨fun _ => false, fun _ => true⟩ 'é' := .inr (.inr (.inr (.inr ⟨by decide, rfl⟩)))
example (U : Unicode) : parse_char_literal U "\\n.ord".toList = .ok (['\n'], ".ord".toList) := (C132_escape U .newline _).1
example (U : Unicode) : parse_char_literal U "\\x41;".toList = .ok (['A'], [';']) :=
  (C132_escape U (.hex (a := '4') (b := '1') (x := 4) (y := 1) (by decide) (by decide)) _).1
example (U : Unicode) : parse_char_literal U "1".toList = .ok (['1'], []) :=
  C132_char_partial U (t := ['1']) (.itself (by decide)) ⟨_, read_token_digit U (by decide)⟩
example (U : Unicode) : parse_char_literal U ['"'] = .error .panic := (C132_quote_fails U .nil).2

end Verif.Lexer
