/-!
# C117: what pattern a regular expression is made from

`Regexp.new(s)`, regular expression literals, and texts given to `sub`, `gsub`, `scan`, `index`, … as patterns.  The compiler of
patterns is the crate `fancy_regex`, which is not part of this code base: it is a parameter.  What is modelled is which pattern
it is given, and the table of patterns compiled before.
-/
namespace Verif.Regexp.Pattern

abbrev Chars := List Char

/-! ## Model -/

/-- `regex_syntax::is_meta_character` (regex-syntax 0.8.2, the version of Cargo.lock:702-703). -/
def isMeta (c : Char) : Bool :=
  c = '\\' || c = '.' || c = '+' || c = '*' || c = '?' || c = '(' || c = ')' || c = '|' || c = '[' || c = ']' || c = '{' ||
  c = '}' || c = '^' || c = '$' || c = '#' || c = '&' || c = '-' || c = '~'

/-- `regex::escape`, also `Regexp.escape` and `Regexp.quote` (ruruby/src/builtin/regexp.rs:414-420). -/
def escape : Chars → Chars
  | [] => []
  | c :: s => if isMeta c then '\\' :: c :: escape s else c :: escape s

/-- ruruby/src/builtin/regexp.rs:31-38: the match of `\\Z\z` — a backslash and a `Z` at the very end — is replaced by `\z`. -/
def convert : Chars → Chars
  | [] => []
  | ['\\', 'Z'] => ['\\', 'z']
  | c :: s => c :: convert s

/-- The table `regexp_cache` (ruruby/src/globals.rs); `R` are the compiled patterns. -/
abbrev Cache (R : Type) := List (Chars × R)

variable {R : Type}

def Cache.get (m : Cache R) (p : Chars) : Option R := (m.find? (fun e => e.1 == p)).map (·.2)

/-- `RegexpInfo::from_string` (ruruby/src/builtin/regexp.rs:30-49): `none` if the pattern does not compile. -/
def fromString (compile : Chars → Option R) (m : Cache R) (p : Chars) : Option (Cache R × R) :=
  let p := convert p
  match m.get p with
  | some re => some (m, re)
  | none =>
    match compile p with
    | none => none
    | some re => some ((p, re) :: m, re)

/-- `RegexpInfo::from_escaped` (ruruby/src/builtin/regexp.rs:22-25). -/
def fromEscaped (compile : Chars → Option R) (m : Cache R) (s : Chars) : Option (Cache R × R) :=
  fromString compile m (escape s)

/-- The option letters of a literal: ruruby/src/vm/executor.rs:742-749, ruruby/src/codegen.rs:1821-1828. -/
def options : Char → Option Chars
  | 'i' => some ['(', '?', 'm', 'i', ')']
  | 'm' => some ['(', '?', 'm', 's', ')']
  | 'x' => some ['(', '?', 'm', 'x', ')']
  | 'o' => some ['(', '?', 'm', 'o', ')']
  | '-' => some ['(', '?', 'm', ')']
  | _ => none

/-- A literal: `create_regexp` (ruruby/src/vm/executor.rs:737-751) and `const_regexp` (ruruby/src/codegen.rs:1813-1843).  The
text comes with one letter for the options at its end. -/
def literal (compile : Chars → Option R) (m : Cache R) (src : Chars) (flag : Char) : Option (Cache R × R) :=
  match options flag with
  | none => none
  | some o => fromString compile m (o ++ src)

/-! ## Specification -/

/-- The characters that mean something else than themselves in a pattern. -/
def special : Chars := ['\\', '.', '+', '*', '?', '(', ')', '|', '[', ']', '{', '}', '^', '$']

/-- A pattern that matches one text only, and the text: characters without a meaning of their own, and characters that are
neither letters nor digits behind a backslash. -/
inductive Denotes : Chars → Chars → Prop
  | nil : Denotes [] []
  | plain {c p s} : c ∉ special → Denotes p s → Denotes (c :: p) (c :: s)
  | escaped {c p s} : c.isAlphanum = false → Denotes p s → Denotes ('\\' :: c :: p) (c :: s)

/-- What a program does with regular expressions. -/
inductive Made where
  | text (s : Chars)
  | pattern (p : Chars)
  | literal (src : Chars) (flag : Char)

def make (compile : Chars → Option R) (m : Cache R) : Made → Option (Cache R × R)
  | .text s => fromEscaped compile m s
  | .pattern p => fromString compile m p
  | .literal s f => literal compile m s f

/-- The tables a program can have: it starts with an empty one; an error changes nothing. -/
inductive Reached (compile : Chars → Option R) : Cache R → Prop
  | start : Reached compile []
  | made {m m' x re} : Reached compile m → make compile m x = some (m', re) → Reached compile m'

/-! ## Helpers -/

theorem convert_end (t : Chars) : convert (t ++ ['\\', 'Z']) = t ++ ['\\', 'z'] := by
  induction t with
  | nil => rfl
  | cons c t ih =>
    have : t ++ ['\\', 'Z'] ≠ ['Z'] := by
      intro h
      have := congrArg List.length h
      simp at this
    rw [List.cons_append, convert]
    · rw [ih]; rfl
    · intro h1 h2
      exact this h2

theorem convert_other {p : Chars} (h : ¬ ['\\', 'Z'] <:+ p) : convert p = p := by
  induction p with
  | nil => rfl
  | cons c s ih =>
    have hs : ¬ ['\\', 'Z'] <:+ s := fun ⟨t, ht⟩ => h ⟨c :: t, by simp [ht]⟩
    rw [convert]
    · rw [ih hs]
    · rintro h1 h2
      exact h ⟨[], by rw [h1, h2]; rfl⟩

theorem escape_append (s t : Chars) : escape (s ++ t) = escape s ++ escape t := by
  induction s with
  | nil => rfl
  | cons c s ih =>
    simp only [List.cons_append, escape, ih]
    split <;> rfl

theorem escape_getLast {s : Chars} (h : ['\\', 'Z'] <:+ escape s) : ∃ t, s = t ++ ['\\', 'Z'] := by
  have hs : s ≠ [] := by
    rintro rfl
    obtain ⟨t, ht⟩ := h
    simp [escape] at ht
  obtain ⟨t, c, rfl⟩ : ∃ t c, s = t ++ [c] := ⟨s.dropLast, s.getLast hs, (List.dropLast_concat_getLast hs).symm⟩
  obtain ⟨u, hu⟩ := h
  rw [escape_append] at hu
  have hc : c = 'Z' := by
    have := congrArg List.getLast? hu
    by_cases hm : isMeta c <;> simp [escape, hm] at this <;> exact this.symm
  subst hc
  have hz : escape ['Z'] = ['Z'] := rfl
  rw [hz] at hu
  have hu' : u ++ ['\\'] = escape t := by
    have : (u ++ ['\\']) ++ ['Z'] = escape t ++ ['Z'] := by simpa using hu
    exact List.append_cancel_right this
  have ht : t ≠ [] := by
    rintro rfl
    simp [escape] at hu'
  obtain ⟨t, c, rfl⟩ : ∃ t' c, t = t' ++ [c] := ⟨t.dropLast, t.getLast ht, (List.dropLast_concat_getLast ht).symm⟩
  rw [escape_append] at hu'
  have hc : c = '\\' := by
    have := congrArg List.getLast? hu'
    by_cases hm : isMeta c <;> simp [escape, hm] at this <;> exact this.symm
  subst hc
  exact ⟨t, by simp⟩

theorem denotes_escape (s : Chars) : Denotes (escape s) s := by
  induction s with
  | nil => exact .nil
  | cons c s ih =>
    unfold escape
    split
    · rename_i h
      refine .escaped ?_ ih
      simp only [isMeta, Bool.or_eq_true, decide_eq_true_eq] at h
      rcases h with (((((((((((((((((rfl | rfl) | rfl) | rfl) | rfl) | rfl) | rfl) | rfl) | rfl) | rfl) | rfl) | rfl) | rfl) | rfl) | rfl) |
        rfl) | rfl) | rfl) <;> decide
    · rename_i h
      refine .plain ?_ ih
      simp only [isMeta, Bool.or_eq_true, decide_eq_true_eq, not_or] at h
      simp only [special, List.mem_cons, List.not_mem_nil, or_false, not_or]
      simp_all

theorem Denotes.append {p q s t : Chars} (h : Denotes p s) (h' : Denotes q t) : Denotes (p ++ q) (s ++ t) := by
  induction h with
  | nil => exact h'
  | plain h _ ih => exact .plain h ih
  | escaped h _ ih => exact .escaped h ih

theorem denotes_fun {p s t : Chars} (h : Denotes p s) (h' : Denotes p t) : s = t := by
  induction h generalizing t with
  | nil => cases h'; rfl
  | plain h _ ih =>
    cases h' with
    | plain _ h2 => rw [ih h2]
    | escaped => exact absurd (by simp [special]) h
  | escaped h _ ih =>
    cases h' with
    | plain h1 => exact absurd (by simp [special]) h1
    | escaped _ h2 => rw [ih h2]

theorem cache_good {compile : Chars → Option R} {m : Cache R} (h : Reached compile m) : ∀ e ∈ m, compile e.1 = some e.2 := by
  have hs : ∀ {m : Cache R} {p m' re}, (∀ e ∈ m, compile e.1 = some e.2) → fromString compile m p = some (m', re) →
      ∀ e ∈ m', compile e.1 = some e.2 := by
    intro m p m' re hg h
    unfold fromString at h
    dsimp only at h
    split at h
    · cases h; exact hg
    · split at h
      · simp at h
      · rename_i hc
        cases h
        intro e he
        rcases List.mem_cons.1 he with rfl | he
        · exact hc
        · exact hg e he
  induction h with
  | start => simp
  | @made m m' x re _ h ih =>
    cases x with
    | text s => exact hs ih h
    | pattern p => exact hs ih h
    | literal s f =>
      simp only [make, literal] at h
      split at h
      · simp at h
      · exact hs ih h

theorem fromString_eq {compile : Chars → Option R} {m : Cache R} (h : Reached compile m) (p : Chars) :
    (fromString compile m p).map (·.2) = compile (convert p) := by
  unfold fromString
  dsimp only
  split
  · rename_i re hre
    obtain ⟨e, he, rfl⟩ := Option.map_eq_some_iff.1 hre
    have h1 := cache_good h e (List.mem_of_find?_eq_some he)
    have h2 := List.find?_some he
    simp only [beq_iff_eq] at h2
    rw [← h2, h1]
    rfl
  · split
    · rename_i hc; rw [hc]; rfl
    · rename_i hc; rw [hc]; rfl

/-! ## C117 -/

/-- **C117 (`Regexp.escape`).**  The pattern made from a text matches that text and no other, and different texts give different
patterns. -/
theorem C117_escape (s : Chars) : Denotes (escape s) s ∧ (∀ t, Denotes (escape s) t → t = s) ∧ ∀ t, escape t = escape s → t = s :=
  ⟨denotes_escape s, fun _ h => denotes_fun h (denotes_escape s),
   fun t h => denotes_fun (h ▸ denotes_escape t) (denotes_escape s)⟩

example : escape "a.b*c".toList = "a\\.b\\*c".toList := by decide

/-- **C117 (a text as a pattern).**  A text given where a pattern is expected is compiled as a pattern that matches that text and no
other, whatever regular expressions were made before. Missing: texts that end with a backslash and a `Z`. -/
theorem C117_text_partial {compile : Chars → Option R} {m : Cache R} (h : Reached compile m) {s : Chars}
    (hs : ¬ ['\\', 'Z'] <:+ s) :
    ∃ p, Denotes p s ∧ (fromEscaped compile m s).map (·.2) = compile p := by
  refine ⟨escape s, denotes_escape s, ?_⟩
  rw [fromEscaped, fromString_eq h, convert_other]
  intro hz
  obtain ⟨t, rfl⟩ := escape_getLast hz
  exact hs ⟨t, rfl⟩

example : ¬ ['\\', 'Z'] <:+ "$1.50 (Z)".toList := by decide

/-- A text that ends with `\Z` is compiled as a pattern for another text, which ends with `\z`: the text itself is not found. -/
theorem C117_text_fails {compile : Chars → Option R} {m : Cache R} (h : Reached compile m) (t : Chars) :
    ∃ p, Denotes p (t ++ ['\\', 'z']) ∧ ¬ Denotes p (t ++ ['\\', 'Z']) ∧
      (fromEscaped compile m (t ++ ['\\', 'Z'])).map (·.2) = compile p := by
  have hd : Denotes (escape t ++ ['\\'] ++ ['\\', 'z']) (t ++ ['\\', 'z']) := by
    have : Denotes ['\\', '\\', 'z'] ['\\', 'z'] := .escaped (by decide) (.plain (by decide) .nil)
    simpa using (denotes_escape t).append this
  refine ⟨_, hd, fun h' => ?_, ?_⟩
  · have := denotes_fun hd h'
    simp at this
  · rw [fromEscaped, fromString_eq h, escape_append]
    rw [show escape ['\\', 'Z'] = ['\\'] ++ ['\\', 'Z'] from rfl, ← List.append_assoc, convert_end]

/-- **C117 (patterns).**  A pattern is compiled as it is written, with `\Z` at its end for the end of the text; what was compiled
before makes no difference. -/
theorem C117_pattern {compile : Chars → Option R} {m : Cache R} (h : Reached compile m) (p : Chars) :
    (¬ ['\\', 'Z'] <:+ p → (fromString compile m p).map (·.2) = compile p) ∧
    (fromString compile m (p ++ ['\\', 'Z'])).map (·.2) = compile (p ++ ['\\', 'z']) :=
  ⟨fun hp => by rw [fromString_eq h, convert_other hp], by rw [fromString_eq h, convert_end]⟩

/-- **C117 (literals).**  A literal is compiled with the lines of the text told apart, and with the options of its letter. -/
theorem C117_literal {compile : Chars → Option R} {m : Cache R} (h : Reached compile m) {src o : Chars} {f : Char}
    (hf : (f, o) ∈ [('-', "(?m)".toList), ('i', "(?mi)".toList), ('m', "(?ms)".toList), ('x', "(?mx)".toList)])
    (hs : ¬ ['\\', 'Z'] <:+ src) :
    (literal compile m src f).map (·.2) = compile (o ++ src) := by
  have key : ∀ {u : Chars} {c d : Char}, ¬ ['\\', 'Z'] <:+ src → c ≠ '\\' → c = ')' → d ≠ 'Z' → convert (u ++ [c] ++ src) = u ++ [c] ++ src := by
    intro u c d hn hc hc2 hd
    apply convert_other
    rintro ⟨t, ht⟩
    rcases List.append_eq_append_iff.1 ht with ⟨a, h1, h2⟩ | ⟨a, h1, h2⟩
    · cases a with
      | nil => exact hn ⟨[], by simpa using h2⟩
      | cons x a =>
        cases a with
        | nil =>
          have := congrArg List.getLast? h1
          simp at this
          simp at h2
          rw [← this] at h2
          exact hc h2.1.symm
        | cons y a =>
          have hl := congrArg List.getLast? h1
          simp at h2
          obtain ⟨rfl, rfl, rfl, rfl⟩ : x = '\\' ∧ y = 'Z' ∧ a = [] ∧ src = [] := by
            obtain ⟨h3, h4, h5⟩ := h2
            exact ⟨h3.symm, h4.symm, (by cases a <;> simp_all), (by cases a <;> simp_all)⟩
          simp [hc2] at hl
    · exact hn ⟨a, h2.symm⟩
  simp only [List.mem_cons, Prod.mk.injEq, List.not_mem_nil, or_false] at hf
  rcases hf with ⟨rfl, rfl⟩ | ⟨rfl, rfl⟩ | ⟨rfl, rfl⟩ | ⟨rfl, rfl⟩
  · rw [show literal compile m src '-' = fromString compile m (['(', '?', 'm'] ++ [')'] ++ src) from rfl, fromString_eq h,
      key (d := 'a') hs (by decide) rfl (by decide)]; rfl
  · rw [show literal compile m src 'i' = fromString compile m (['(', '?', 'm', 'i'] ++ [')'] ++ src) from rfl, fromString_eq h,
      key (d := 'a') hs (by decide) rfl (by decide)]; rfl
  · rw [show literal compile m src 'm' = fromString compile m (['(', '?', 'm', 's'] ++ [')'] ++ src) from rfl, fromString_eq h,
      key (d := 'a') hs (by decide) rfl (by decide)]; rfl
  · rw [show literal compile m src 'x' = fromString compile m (['(', '?', 'm', 'x'] ++ [')'] ++ src) from rfl, fromString_eq h,
      key (d := 'a') hs (by decide) rfl (by decide)]; rfl

/-- `Regexp.new(s)` should be the same as the literal with that text; it is compiled from another pattern, in which `^` and `$` do
not look at lines. -/
theorem C117_new_fails {compile : Chars → Option R} {m : Cache R} (h : Reached compile m) {src : Chars} (hs : ¬ ['\\', 'Z'] <:+ src) :
    (fromString compile m src).map (·.2) = compile src ∧
    (literal compile m src '-').map (·.2) = compile ("(?m)".toList ++ src) ∧ "(?m)".toList ++ src ≠ src := by
  refine ⟨(C117_pattern h src).1 hs, C117_literal h (by simp) hs, fun e => ?_⟩
  have := congrArg List.length e
  simp at this
  omega

/-- A pattern for a backslash followed by `Z` at the end of a pattern is taken for the end of the text. -/
theorem C117_backslash_fails {compile : Chars → Option R} {m : Cache R} (h : Reached compile m) {p t : Chars} (hp : Denotes p t) :
    Denotes (p ++ "\\\\Z".toList) (t ++ "\\Z".toList) ∧
    ∃ q, (fromString compile m (p ++ "\\\\Z".toList)).map (·.2) = compile q ∧ Denotes q (t ++ "\\z".toList) := by
  have e1 : "\\\\Z".toList = ['\\', '\\', 'Z'] := by decide
  have e2 : "\\Z".toList = ['\\', 'Z'] := by decide
  have e3 : "\\z".toList = ['\\', 'z'] := by decide
  rw [e1, e2, e3]
  refine ⟨hp.append (.escaped (by decide) (.plain (by decide) .nil)), p ++ ['\\'] ++ ['\\', 'z'], ?_, ?_⟩
  · rw [fromString_eq h, show p ++ ['\\', '\\', 'Z'] = (p ++ ['\\']) ++ ['\\', 'Z'] by simp, convert_end]
  · simpa using hp.append (q := ['\\', '\\', 'z']) (t := ['\\', 'z']) (.escaped (by decide) (.plain (by decide) .nil))

/-- A state with entries is reached. -/
example : Reached (fun p => some p) [("a".toList, "a".toList)] :=
  .made (x := .text ['a']) (m' := [("a".toList, "a".toList)]) (re := "a".toList) .start (by decide)

end Verif.Regexp.Pattern
