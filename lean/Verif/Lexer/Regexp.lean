import Verif.Lexer.Model
import Verif.Regexp.Pattern
/-!
# C121: what pattern a regular expression literal stands for

The lexer turns the text between the slashes into the pattern that the compiler of patterns gets (C117 is about what follows).
-/
namespace Verif.Lexer.Regexp

open Verif.Regexp.Pattern (escape isMeta Denotes special)

/-! ## Model -/

/-- ruruby-parse/src/parser/lexer.rs:861-884 (check_postfix): the letter appended, and the rest -/
def check_postfix : Chars → Char × Chars
  | 'i' :: s => ('i', s)
  | 'm' :: s => ('m', s)
  | 'x' :: s => ('x', s)
  | 'o' :: s => ('o', s)
  | 'u' :: s => ('-', s)
  | 'n' :: s => ('-', s)
  | s => ('-', s)

/-- ruruby-parse/src/parser/lexer.rs:1257-1262 (peek_digit) -/
def peek_digit : Chars → Bool
  | c :: _ => is_digit c
  | [] => false

/-- One digit of `{:x}`. -/
def hexDigit (n : Nat) : Char := if n < 10 then Char.ofNat (48 + n) else Char.ofNat (87 + n)

/-- `format!("x{:02x}", n)` of a `u8`, ruruby-parse/src/parser/lexer.rs:923 -/
def hex (n : Nat) : Chars := ['x', hexDigit (n / 16), hexDigit (n % 16)]

/-- ruruby-parse/src/parser/lexer.rs:905-930: what is appended for the character behind a backslash, and the rest.
`char_class` is the number of brackets open. -/
def regexp_escape (char_class : Int) (ch : Char) (s : Chars) : Chars × Chars :=
  if ch = 'a' then (['\\', 'a'], s)
  else if ch = 'b' then (if char_class = 0 then ['\\', 'b'] else ['\\', 'x', '0', '8'], s)
  else if ch = 'e' then (['\\', 'x', '1', 'b'], s)
  else if ch = 'f' then (['\\', 'f'], s)
  else if ch = 'n' then (['\\', 'n'], s)
  else if ch = 'r' then (['\\', 'r'], s)
  else if ch = 's' then (['[', '[', ':', 's', 'p', 'a', 'c', 'e', ':', ']', ']'], s)
  else if ch = 't' then (['\\', 't'], s)
  else if ch = 'v' then (['\\', 'v'], s)
  else if '1' ≥ ch ∧ ch ≤ '9' ∧ !peek_digit s then (['\\', ch], s)
  else if '0' ≤ ch ∧ ch ≤ '7' then ('\\' :: hex (consume_tri_octal ch s).1, (consume_tri_octal ch s).2)
  else (['\\', ch], s)

/-- ruruby-parse/src/parser/lexer.rs:934-935 -/
def interpolates : Chars → Bool
  | c :: _ => c == '{' || c == '$' || c == '@'
  | [] => false

/-- ruruby-parse/src/parser/lexer.rs:887-942 (read_regexp_sub).  The first argument bounds the number of characters (fuel). -/
def read_regexp_sub : Nat → Int → Chars → Chars → Lex Interpolate
  | 0, _, _, _ => .error .eof
  | n + 1, char_class, acc, s =>
    match s with
    | [] => .error .eof
    | c :: s =>
      if c = '/' then .ok (.finished (acc ++ [(check_postfix s).1]), (check_postfix s).2)
      else if c = '[' then read_regexp_sub n (char_class + 1) (acc ++ ['[']) s
      else if c = ']' then read_regexp_sub n (char_class - 1) (acc ++ [']']) s
      else if c = '\\' then
        match s with
        | [] => .error .eof
        | ch :: s => read_regexp_sub n char_class (acc ++ (regexp_escape char_class ch s).1) (regexp_escape char_class ch s).2
      else if c = '#' then
        if interpolates s then .ok (.interpolation acc 0, s) else read_regexp_sub n char_class (acc ++ ['#']) s
      else read_regexp_sub n char_class (acc ++ [c]) s

/-- ruruby-parse/src/parser/lexer.rs:188-193 (get_regexp), called with the text behind the opening slash
(ruruby-parse/src/parser/literals.rs:226) and behind each interpolation (literals.rs:239). -/
def get_regexp (s : Chars) : Lex Interpolate := read_regexp_sub (s.length + 1) 0 [] s

/-! ## Specification -/

abbrev octal (c : Char) : Prop := '0' ≤ c ∧ c ≤ '7'
def value (c : Char) : Nat := c.toNat - '0'.toNat

/-- The escapes for one character or class that do not depend on where they are: as written, and as the compiler of patterns knows them. -/
def escapes : List (Char × Chars) :=
  [('a', "\\a".toList), ('e', "\\x1b".toList), ('f', "\\f".toList), ('n', "\\n".toList), ('r', "\\r".toList), ('t', "\\t".toList),
   ('v', "\\v".toList), ('s', "[[:space:]]".toList)]

/-- The byte `n` in a pattern. -/
def byte (n : Nat) : Chars := '\\' :: 'x' :: ("0123456789abcdef".toList.getD (n / 16) '0') :: ("0123456789abcdef".toList.getD (n % 16) '0') :: []

/-- `Means full d s p`: inside `d` brackets, the text `s` of a literal stands for the pattern `p`.  With `full = false` three things are left
out: a bracket closed that is not open, `\0`, and references to the groups 2 to 7. -/
inductive Means (full : Bool) : Nat → Chars → Chars → Prop
  | nil {d} : Means full d [] []
  | char {d c s p} : c ∉ ['/', '\\', '#', '[', ']'] → Means full d s p → Means full d (c :: s) (c :: p)
  | hash {d s p} : s.head? ∉ [some '{', some '$', some '@'] → Means full d s p → Means full d ('#' :: s) ('#' :: p)
  | opens {d s p} : Means full (d + 1) s p → Means full d ('[' :: s) ('[' :: p)
  | closes {d s p} : Means full d s p → Means full (d + 1) (']' :: s) (']' :: p)
  | stray {s p} : full = true → Means full 0 s p → Means full 0 (']' :: s) (']' :: p)
  | escape {d c e s p} : (c, e) ∈ escapes → Means full d s p → Means full d ('\\' :: c :: s) (e ++ p)
  | boundary {s p} : Means full 0 s p → Means full 0 ('\\' :: 'b' :: s) ('\\' :: 'b' :: p)
  | backspace {d s p} : Means full (d + 1) s p → Means full (d + 1) ('\\' :: 'b' :: s) (byte 8 ++ p)
  | octal3 {d a b c s p} : octal a → a ≤ '3' → octal b → octal c → Means full d s p →
      Means full d ('\\' :: a :: b :: c :: s) (byte (value a * 64 + value b * 8 + value c) ++ p)
  | octal2 {d a b s p} : octal a → octal b → (∀ x, s.head? = some x → ¬ octal x) → Means full d s p →
      Means full d ('\\' :: a :: b :: s) (byte (value a * 8 + value b) ++ p)
  | nul {d s p} : full = true → (∀ x, s.head? = some x → is_digit x = false) → Means full d s p →
      Means full d ('\\' :: '0' :: s) (byte 0 ++ p)
  | group {d c s p} : c ∈ ['1', '2', '3', '4', '5', '6', '7', '8', '9'] → (full = true ∨ c ∈ ['1', '8', '9']) →
      (∀ x, s.head? = some x → is_digit x = false) → Means full d s p → Means full d ('\\' :: c :: s) ('\\' :: c :: p)
  | other {d c s p} : c ∉ ['a', 'b', 'e', 'f', 'n', 'r', 's', 't', 'v'] → is_digit c = false → Means full d s p →
      Means full d ('\\' :: c :: s) ('\\' :: c :: p)

/-- The letters behind a literal, and the letter of C117 for each. -/
def flags : List (Chars × Char) :=
  [(['i'], 'i'), (['m'], 'm'), (['x'], 'x'), (['o'], 'o'), (['u'], '-'), (['n'], '-'), ([], '-')]

/-- The text in a literal for a given text: special characters, `#` and the slash behind a backslash. -/
def write : Chars → Chars
  | [] => []
  | c :: s => if c ∈ special ∨ c = '#' ∨ c = '/' then '\\' :: c :: write s else c :: write s

/-! ## Helpers -/

theorem char_cases (c : Char) (lo hi : Nat) (h1 : lo ≤ c.toNat) (h2 : c.toNat ≤ hi) : c ∈ (List.range' lo (hi + 1 - lo)).map Char.ofNat := by
  rw [List.mem_map]
  refine ⟨c.toNat, ?_, Char.ofNat_toNat c⟩
  simp [List.mem_range']
  exact ⟨c.toNat - lo, by omega, by omega⟩

theorem octal_cases {c : Char} (h : octal c) : c ∈ ['0', '1', '2', '3', '4', '5', '6', '7'] := by
  have h1 : 48 ≤ c.toNat := h.1
  have h2 : c.toNat ≤ 55 := h.2
  exact char_cases c 48 55 h1 h2

theorem octal_next {c : Char} {s : Chars} (h : octal c) : consume_octal (c :: s) = some (value c, s) := by
  simp only [consume_octal, value]
  rw [if_pos h]

theorem octal_stop {s : Chars} (h : ∀ x, s.head? = some x → ¬ octal x) : consume_octal s = none := by
  cases s with
  | nil => rfl
  | cons c s =>
    simp only [consume_octal]
    rw [if_neg (h c rfl)]

theorem hex_byte : ∀ n < 256, '\\' :: hex n = byte n := by decide +kernel

/-- What may follow. -/
def Ends (t : Chars) : Prop := t = [] ∨ (∃ u, t = '/' :: u) ∨ (∃ u, t = '#' :: u) ∨ ∃ u, t = '\\' :: u

theorem Ends.next {t s : Chars} (h : Ends t) {x : Char} (hx : (s ++ t).head? = some x) : s.head? = some x ∨ x = '/' ∨ x = '#' ∨ x = '\\' := by
  cases s with
  | cons c s => exact .inl (by simpa using hx)
  | nil =>
    rcases h with rfl | ⟨u, rfl⟩ | ⟨u, rfl⟩ | ⟨u, rfl⟩
    · simp at hx
    · exact .inr (.inl (by simpa using hx.symm))
    · exact .inr (.inr (.inl (by simpa using hx.symm)))
    · exact .inr (.inr (.inr (by simpa using hx.symm)))

theorem digit_end {t s : Chars} (ht : Ends t) (h : ∀ x, s.head? = some x → is_digit x = false) : peek_digit (s ++ t) = false := by
  cases hs : s ++ t with
  | nil => rfl
  | cons x u =>
    rcases ht.next (s := s) (x := x) (by rw [hs]; rfl) with k | rfl | rfl | rfl
    · exact h x k
    · rfl
    · rfl
    · rfl

theorem octal_end {t s : Chars} (ht : Ends t) (h : ∀ x, s.head? = some x → ¬ octal x) : consume_octal (s ++ t) = none := by
  apply octal_stop
  intro x hx
  rcases ht.next hx with k | rfl | rfl | rfl
  · exact h x k
  · decide
  · decide
  · decide

theorem step_hash {n : Nat} {d : Int} {acc s : Chars} (h : s.head? ∉ [some '{', some '$', some '@']) :
    read_regexp_sub (n + 1) d acc ('#' :: s) = read_regexp_sub n d (acc ++ ['#']) s := by
  rw [read_regexp_sub.eq_def]
  dsimp only
  have hi : interpolates s = false := by
    cases s with
    | nil => rfl
    | cons c s =>
      simp only [List.head?_cons, List.mem_cons, Option.some.injEq, List.not_mem_nil, or_false, not_or] at h
      simp [interpolates, h]
  rw [if_neg (by decide), if_neg (by decide), if_neg (by decide), if_neg (by decide), if_pos rfl, hi]
  rfl

theorem step_interpolation {n : Nat} {d : Int} {acc s : Chars} {c : Char} (h : c ∈ ['{', '$', '@']) :
    read_regexp_sub (n + 1) d acc ('#' :: c :: s) = .ok (.interpolation acc 0, c :: s) := by
  rw [read_regexp_sub.eq_def]
  dsimp only
  have hi : interpolates (c :: s) = true := by
    simp only [List.mem_cons, List.not_mem_nil, or_false] at h
    rcases h with rfl | rfl | rfl <;> rfl
  rw [if_neg (by decide), if_neg (by decide), if_neg (by decide), if_neg (by decide), if_pos rfl, hi]
  rfl

theorem step_slash {n : Nat} {d : Int} {acc s : Chars} :
    read_regexp_sub (n + 1) d acc ('/' :: s) = .ok (.finished (acc ++ [(check_postfix s).1]), (check_postfix s).2) := by
  rw [read_regexp_sub.eq_def]
  dsimp only
  rw [if_pos rfl]

theorem step_open {n : Nat} {d : Int} {acc s : Chars} :
    read_regexp_sub (n + 1) d acc ('[' :: s) = read_regexp_sub n (d + 1) (acc ++ ['[']) s := by
  rw [read_regexp_sub.eq_def]
  dsimp only
  rw [if_neg (by decide), if_pos rfl]

theorem step_close {n : Nat} {d : Int} {acc s : Chars} :
    read_regexp_sub (n + 1) d acc (']' :: s) = read_regexp_sub n (d - 1) (acc ++ [']']) s := by
  rw [read_regexp_sub.eq_def]
  dsimp only
  rw [if_neg (by decide), if_neg (by decide), if_pos rfl]

theorem step_escape {n : Nat} {d : Int} {acc s : Chars} {c : Char} :
    read_regexp_sub (n + 1) d acc ('\\' :: c :: s) =
      read_regexp_sub n d (acc ++ (regexp_escape d c s).1) (regexp_escape d c s).2 := by
  rw [read_regexp_sub.eq_def]
  dsimp only
  rw [if_neg (by decide), if_neg (by decide), if_neg (by decide), if_pos rfl]

theorem escape_octal {d : Int} {a b : Char} {s : Chars} (ha : octal a) (hb : octal b) :
    regexp_escape d a (b :: s) = ('\\' :: hex (consume_tri_octal a (b :: s)).1, (consume_tri_octal a (b :: s)).2) := by
  have hd : peek_digit (b :: s) = true := by
    rcases octal_cases hb with h
    simp only [List.mem_cons, List.not_mem_nil, or_false] at h
    rcases h with rfl | rfl | rfl | rfl | rfl | rfl | rfl | rfl <;> rfl
  have h := octal_cases ha
  simp only [List.mem_cons, List.not_mem_nil, or_false] at h
  unfold regexp_escape
  rcases h with rfl | rfl | rfl | rfl | rfl | rfl | rfl | rfl <;> simp [hd]

theorem escape_other {d : Int} {c : Char} {s : Chars} (h1 : c ∉ ['a', 'b', 'e', 'f', 'n', 'r', 's', 't', 'v']) (h2 : ¬ octal c) :
    regexp_escape d c s = (['\\', c], s) := by
  simp only [List.mem_cons, List.not_mem_nil, or_false, not_or] at h1
  unfold regexp_escape
  simp only [h1, if_false]
  split
  · rfl
  · rfl

/-- The reader goes through a text that means something. -/
theorem through {d : Nat} {s p : Chars} (h : Means false d s p) : ∀ (n : Nat) (acc t : Chars), Ends t → s.length + t.length + 1 ≤ n →
    ∃ (m : Nat) (d' : Int), t.length + 1 ≤ m ∧ read_regexp_sub n d acc (s ++ t) = read_regexp_sub m d' (acc ++ p) t := by
  induction h with
  | nil => intro n acc t ht hn; exact ⟨n, _, by simpa using hn, by simp; rfl⟩
  | @char d c s p hc _ ih =>
    intro n acc t ht hn
    obtain ⟨n, rfl⟩ : ∃ k, n = k + 1 := ⟨n - 1, by simp at hn; omega⟩
    obtain ⟨m, d', h1, h2⟩ := ih n (acc ++ [c]) t ht (by simp at hn; omega)
    refine ⟨m, d', h1, ?_⟩
    simp only [List.mem_cons, List.not_mem_nil, or_false, not_or] at hc
    rw [List.cons_append, read_regexp_sub.eq_def]
    dsimp only
    simp only [hc, if_false]
    rw [h2]; simp
  | @hash d s p hc _ ih =>
    intro n acc t ht hn
    obtain ⟨n, rfl⟩ : ∃ k, n = k + 1 := ⟨n - 1, by simp at hn; omega⟩
    obtain ⟨m, d', h1, h2⟩ := ih n (acc ++ ['#']) t ht (by simp at hn; omega)
    refine ⟨m, d', h1, ?_⟩
    rw [List.cons_append, step_hash, h2]
    · simp
    · intro k
      have : ∃ x, (s ++ t).head? = some x ∧ (x = '{' ∨ x = '$' ∨ x = '@') := by
        simp only [List.mem_cons, List.not_mem_nil, or_false] at k
        rcases k with k | k | k
        · exact ⟨_, k, .inl rfl⟩
        · exact ⟨_, k, .inr (.inl rfl)⟩
        · exact ⟨_, k, .inr (.inr rfl)⟩
      obtain ⟨x, hx, hv⟩ := this
      rcases ht.next hx with e | rfl | rfl | rfl
      · rw [e] at hc
        rcases hv with rfl | rfl | rfl <;> simp at hc
      · revert hv; decide
      · revert hv; decide
      · revert hv; decide
  | @opens d s p _ ih =>
    intro n acc t ht hn
    obtain ⟨n, rfl⟩ : ∃ k, n = k + 1 := ⟨n - 1, by simp at hn; omega⟩
    obtain ⟨m, d', h1, h2⟩ := ih n (acc ++ ['[']) t ht (by simp at hn; omega)
    refine ⟨m, d', h1, ?_⟩
    rw [List.cons_append, step_open]
    have e : ((d : Int) + 1) = ((d + 1 : Nat) : Int) := by omega
    rw [e, h2]; simp
  | @closes d s p _ ih =>
    intro n acc t ht hn
    obtain ⟨n, rfl⟩ : ∃ k, n = k + 1 := ⟨n - 1, by simp at hn; omega⟩
    obtain ⟨m, d', h1, h2⟩ := ih n (acc ++ [']']) t ht (by simp at hn; omega)
    refine ⟨m, d', h1, ?_⟩
    rw [List.cons_append, step_close]
    have e : (((d + 1 : Nat) : Int) - 1) = (d : Int) := by omega
    rw [e, h2]; simp
  | stray hf => cases hf
  | @escape d c e s p hc _ ih =>
    intro n acc t ht hn
    obtain ⟨n, rfl⟩ : ∃ k, n = k + 1 := ⟨n - 1, by simp at hn; omega⟩
    obtain ⟨m, d', h1, h2⟩ := ih n (acc ++ e) t ht (by simp at hn; omega)
    refine ⟨m, d', h1, ?_⟩
    have he : regexp_escape d c (s ++ t) = (e, s ++ t) := by
      simp only [escapes, List.mem_cons, List.not_mem_nil, or_false, Prod.mk.injEq] at hc
      rcases hc with ⟨rfl, rfl⟩ | ⟨rfl, rfl⟩ | ⟨rfl, rfl⟩ | ⟨rfl, rfl⟩ | ⟨rfl, rfl⟩ | ⟨rfl, rfl⟩ | ⟨rfl, rfl⟩ | ⟨rfl, rfl⟩ <;>
        simp [regexp_escape]
    rw [List.cons_append, List.cons_append, step_escape, he, h2]; simp
  | @boundary s p _ ih =>
    intro n acc t ht hn
    obtain ⟨n, rfl⟩ : ∃ k, n = k + 1 := ⟨n - 1, by simp at hn; omega⟩
    obtain ⟨m, d', h1, h2⟩ := ih n (acc ++ ['\\', 'b']) t ht (by simp at hn; omega)
    refine ⟨m, d', h1, ?_⟩
    have he : regexp_escape (0 : Nat) 'b' (s ++ t) = (['\\', 'b'], s ++ t) := by simp [regexp_escape]
    rw [List.cons_append, List.cons_append, step_escape, he, h2]; simp
  | @backspace d s p _ ih =>
    intro n acc t ht hn
    obtain ⟨n, rfl⟩ : ∃ k, n = k + 1 := ⟨n - 1, by simp at hn; omega⟩
    obtain ⟨m, d', h1, h2⟩ := ih n (acc ++ byte 8) t ht (by simp at hn; omega)
    refine ⟨m, d', h1, ?_⟩
    have he : regexp_escape ((d + 1 : Nat) : Int) 'b' (s ++ t) = (byte 8, s ++ t) := by
      have : ¬ ((d + 1 : Nat) : Int) = 0 := by omega
      unfold regexp_escape
      rw [if_neg (by decide), if_pos rfl, if_neg this]
      rfl
    rw [List.cons_append, List.cons_append, step_escape, he, h2]; simp
  | @octal3 d a b c s p ha h3 hb hc _ ih =>
    intro n acc t ht hn
    obtain ⟨n, rfl⟩ : ∃ k, n = k + 1 := ⟨n - 1, by simp at hn; omega⟩
    obtain ⟨m, d', h1, h2⟩ := ih n (acc ++ byte (value a * 64 + value b * 8 + value c)) t ht (by simp at hn; omega)
    refine ⟨m, d', h1, ?_⟩
    have va : value a ≤ 3 := by
      have : a.toNat ≤ 51 := h3
      have e0 : '0'.toNat = 48 := rfl
      simp only [value]; omega
    have vb : value b ≤ 7 := by
      have : b.toNat ≤ 55 := hb.2
      have e0 : '0'.toNat = 48 := rfl
      simp only [value]; omega
    have vc : value c ≤ 7 := by
      have : c.toNat ≤ 55 := hc.2
      have e0 : '0'.toNat = 48 := rfl
      simp only [value]; omega
    have he : consume_tri_octal a (b :: c :: (s ++ t)) = (value a * 64 + value b * 8 + value c, s ++ t) := by
      unfold consume_tri_octal
      simp only [octal_next hb, octal_next hc]
      have : a.toNat - '0'.toNat = value a := rfl
      rw [this]
      congr 1
      omega
    rw [List.cons_append, List.cons_append, List.cons_append, List.cons_append, step_escape, escape_octal ha hb, he]
    simp only
    rw [hex_byte _ (by omega), h2]; simp
  | @octal2 d a b s p ha hb hs _ ih =>
    intro n acc t ht hn
    obtain ⟨n, rfl⟩ : ∃ k, n = k + 1 := ⟨n - 1, by simp at hn; omega⟩
    obtain ⟨m, d', h1, h2⟩ := ih n (acc ++ byte (value a * 8 + value b)) t ht (by simp at hn; omega)
    refine ⟨m, d', h1, ?_⟩
    have va : value a ≤ 7 := by
      have : a.toNat ≤ 55 := ha.2
      have e0 : '0'.toNat = 48 := rfl
      simp only [value]; omega
    have vb : value b ≤ 7 := by
      have : b.toNat ≤ 55 := hb.2
      have e0 : '0'.toNat = 48 := rfl
      simp only [value]; omega
    have he : consume_tri_octal a (b :: (s ++ t)) = (value a * 8 + value b, s ++ t) := by
      unfold consume_tri_octal
      simp only [octal_next hb, octal_end ht hs]
      have : a.toNat - '0'.toNat = value a := rfl
      rw [this]
      congr 1
      omega
    rw [List.cons_append, List.cons_append, List.cons_append, step_escape, escape_octal ha hb, he]
    simp only
    rw [hex_byte _ (by omega), h2]; simp
  | nul hf => cases hf
  | @group d c s p hc hf hs _ ih =>
    intro n acc t ht hn
    obtain ⟨n, rfl⟩ : ∃ k, n = k + 1 := ⟨n - 1, by simp at hn; omega⟩
    obtain ⟨m, d', h1, h2⟩ := ih n (acc ++ ['\\', c]) t ht (by simp at hn; omega)
    refine ⟨m, d', h1, ?_⟩
    have hd := digit_end ht hs
    have he : regexp_escape d c (s ++ t) = (['\\', c], s ++ t) := by
      rcases hf with hf | hf
      · cases hf
      · simp only [List.mem_cons, List.not_mem_nil, or_false] at hf
        rcases hf with rfl | rfl | rfl <;> simp [regexp_escape, hd]
    rw [List.cons_append, List.cons_append, step_escape, he, h2]; simp
  | @other d c s p hc hs _ ih =>
    intro n acc t ht hn
    obtain ⟨n, rfl⟩ : ∃ k, n = k + 1 := ⟨n - 1, by simp at hn; omega⟩
    obtain ⟨m, d', h1, h2⟩ := ih n (acc ++ ['\\', c]) t ht (by simp at hn; omega)
    refine ⟨m, d', h1, ?_⟩
    have ho : ¬ octal c := by
      intro ho
      have h := octal_cases ho
      simp only [List.mem_cons, List.not_mem_nil, or_false] at h
      rcases h with rfl | rfl | rfl | rfl | rfl | rfl | rfl | rfl <;> cases hs
    rw [List.cons_append, List.cons_append, step_escape, escape_other hc ho, h2]; simp

theorem postfix_flag {w : Chars} {f : Char} (h : (w, f) ∈ flags) {rest : Chars}
    (hr : w = [] → ∀ x, rest.head? = some x → x ∉ ['i', 'm', 'x', 'o', 'u', 'n']) : check_postfix (w ++ rest) = (f, rest) := by
  simp only [flags, List.mem_cons, List.not_mem_nil, or_false, Prod.mk.injEq] at h
  rcases h with ⟨rfl, rfl⟩ | ⟨rfl, rfl⟩ | ⟨rfl, rfl⟩ | ⟨rfl, rfl⟩ | ⟨rfl, rfl⟩ | ⟨rfl, rfl⟩ | ⟨rfl, rfl⟩
  iterate 6 rfl
  cases rest with
  | nil => rfl
  | cons x rest =>
    have := hr rfl x rfl
    simp only [List.mem_cons, List.not_mem_nil, or_false, not_or] at this
    rw [List.nil_append, check_postfix] <;> simp_all

/-! ## C121 -/

/-- **C121** (a literal stands for its pattern; part: without a closing bracket that is not open, `\0`, and references to the groups 2 to 7).
The reader gives the pattern the text means, with the letter of its option, and stops behind the literal. -/
theorem C121_literal_partial {s p w rest : Chars} {f : Char} (h : Means false 0 s p) (hf : (w, f) ∈ flags)
    (hr : w = [] → ∀ x, rest.head? = some x → x ∉ ['i', 'm', 'x', 'o', 'u', 'n']) :
    get_regexp (s ++ '/' :: (w ++ rest)) = .ok (.finished (p ++ [f]), rest) := by
  obtain ⟨m, d, h1, h2⟩ := through h ((s ++ '/' :: (w ++ rest)).length + 1) [] ('/' :: (w ++ rest)) (.inr (.inl ⟨_, rfl⟩)) (by simp)
  obtain ⟨m, rfl⟩ : ∃ k, m = k + 1 := ⟨m - 1, by omega⟩
  unfold get_regexp
  have h2' : read_regexp_sub ((s ++ '/' :: (w ++ rest)).length + 1) 0 [] (s ++ '/' :: (w ++ rest)) = _ := h2
  rw [h2', step_slash, postfix_flag hf hr]
  simp

/-- **C121** (interpolation).  The reader stops in front of `{`, `$` or `@` behind `#`, with the pattern so far. -/
theorem C121_interpolation {s p rest : Chars} {c : Char} (h : Means false 0 s p) (hc : c ∈ ['{', '$', '@']) :
    get_regexp (s ++ '#' :: c :: rest) = .ok (.interpolation p 0, c :: rest) := by
  obtain ⟨m, d, h1, h2⟩ := through h ((s ++ '#' :: c :: rest).length + 1) [] ('#' :: c :: rest) (.inr (.inr (.inl ⟨_, rfl⟩))) (by simp)
  obtain ⟨m, rfl⟩ : ∃ k, m = k + 1 := ⟨m - 1, by omega⟩
  unfold get_regexp
  have h2' : read_regexp_sub ((s ++ '#' :: c :: rest).length + 1) 0 [] (s ++ '#' :: c :: rest) = _ := h2
  rw [h2', step_interpolation hc]
  simp

/-- **C121** (a literal that does not end).  It is an error. -/
theorem C121_unterminated {s p : Chars} (h : Means false 0 s p) : get_regexp s = .error .eof ∧ get_regexp (s ++ ['#']) = .error .eof := by
  constructor
  · obtain ⟨m, d, h1, h2⟩ := through h (s.length + 1) [] [] (.inl rfl) (by simp)
    obtain ⟨m, rfl⟩ : ∃ k, m = k + 1 := ⟨m - 1, by omega⟩
    unfold get_regexp
    have h2' : read_regexp_sub (s.length + 1) 0 [] (s ++ []) = _ := h2
    rw [List.append_nil] at h2'
    rw [h2', read_regexp_sub]
  · obtain ⟨m, d, h1, h2⟩ := through h ((s ++ ['#']).length + 1) [] ['#'] (.inr (.inr (.inl ⟨_, rfl⟩))) (by simp)
    obtain ⟨m, rfl⟩ : ∃ k, m = k + 1 + 1 := ⟨m - 2, by simp at h1; omega⟩
    unfold get_regexp
    have h2' : read_regexp_sub ((s ++ ['#']).length + 1) 0 [] (s ++ ['#']) = _ := h2
    rw [h2', step_hash (by simp), read_regexp_sub]

theorem write_means (s : Chars) : ∃ p, Means false 0 (write s) p ∧ Denotes p s := by
  induction s with
  | nil => exact ⟨[], .nil, .nil⟩
  | cons c s ih =>
    obtain ⟨p, h1, h2⟩ := ih
    by_cases hc : c ∈ special ∨ c = '#' ∨ c = '/'
    · refine ⟨'\\' :: c :: p, ?_, ?_⟩
      · rw [write, if_pos hc]
        simp only [special, List.mem_cons, List.not_mem_nil, or_false] at hc
        refine .other ?_ ?_ h1
        · rcases hc with (rfl | rfl | rfl | rfl | rfl | rfl | rfl | rfl | rfl | rfl | rfl | rfl | rfl | rfl) | rfl | rfl <;> decide
        · rcases hc with (rfl | rfl | rfl | rfl | rfl | rfl | rfl | rfl | rfl | rfl | rfl | rfl | rfl | rfl) | rfl | rfl <;> decide
      · refine .escaped ?_ h2
        simp only [special, List.mem_cons, List.not_mem_nil, or_false] at hc
        rcases hc with (rfl | rfl | rfl | rfl | rfl | rfl | rfl | rfl | rfl | rfl | rfl | rfl | rfl | rfl) | rfl | rfl <;> decide
    · refine ⟨c :: p, ?_, ?_⟩
      · rw [write, if_neg hc]
        refine .char ?_ h1
        simp only [special, List.mem_cons, List.not_mem_nil, or_false, not_or] at hc ⊢
        simp [hc]
      · exact .plain (fun k => hc (.inl k)) h2

/-- **C121** (a text in a literal).  Any text, with its special characters and slashes behind backslashes, is read as a pattern that matches
that text and no other. -/
theorem C121_text (s rest : Chars) (hr : ∀ x, rest.head? = some x → x ∉ ['i', 'm', 'x', 'o', 'u', 'n']) :
    ∃ p, get_regexp (write s ++ '/' :: rest) = .ok (.finished (p ++ ['-']), rest) ∧ Denotes p s := by
  obtain ⟨p, h1, h2⟩ := write_means s
  exact ⟨p, C121_literal_partial (w := []) h1 (by simp [flags]) (fun _ => hr), h2⟩

/-- **C121** (violated).  A reference to one of the groups 2 to 7 becomes a control character: the condition in
ruruby-parse/src/parser/lexer.rs:920 has `'1' >= ch` for `'1' <= ch`. -/
theorem C121_group_fails (c : Char) (hc : c ∈ ['2', '3', '4', '5', '6', '7']) (rest : Chars)
    (hr : ∀ x, rest.head? = some x → x ∉ ['i', 'm', 'x', 'o', 'u', 'n']) :
    Means true 0 ['(', '.', ')', '(', '.', ')', '\\', c] ['(', '.', ')', '(', '.', ')', '\\', c] ∧
    get_regexp (['(', '.', ')', '(', '.', ')', '\\', c] ++ '/' :: rest) =
      .ok (.finished (['(', '.', ')', '(', '.', ')', '\\', 'x', '0', c] ++ ['-']), rest) := by
  constructor
  · refine .char (by decide) (.char (by decide) (.char (by decide) (.char (by decide) (.char (by decide) (.char (by decide) (.group ?_ (.inl rfl) (by simp) .nil))))))
    simp only [List.mem_cons, List.not_mem_nil, or_false] at hc
    rcases hc with rfl | rfl | rfl | rfl | rfl | rfl <;> decide
  · have hp := postfix_flag (w := []) (f := '-') (by simp [flags]) (rest := rest) (fun _ => hr)
    rw [List.nil_append] at hp
    simp only [List.mem_cons, List.not_mem_nil, or_false] at hc
    have hm : Means false 0 ['(', '.', ')', '(', '.', ')'] ['(', '.', ')', '(', '.', ')'] :=
      .char (by decide) (.char (by decide) (.char (by decide) (.char (by decide) (.char (by decide) (.char (by decide) .nil)))))
    obtain ⟨m, d, h1, h2⟩ := through hm ((['(', '.', ')', '(', '.', ')', '\\', c] ++ '/' :: rest).length + 1) [] ('\\' :: c :: '/' :: rest)
      (.inr (.inr (.inr ⟨_, rfl⟩))) (by simp; omega)
    obtain ⟨m, rfl⟩ : ∃ k, m = k + 1 + 1 := ⟨m - 2, by simp at h1; omega⟩
    have he : regexp_escape d c ('/' :: rest) = (['\\', 'x', '0', c], '/' :: rest) := by
      have e1 : peek_digit ('/' :: rest) = false := rfl
      have e2 : consume_octal ('/' :: rest) = none := by simp [consume_octal]
      have e3 : hex 2 = ['x', '0', '2'] ∧ hex 3 = ['x', '0', '3'] ∧ hex 4 = ['x', '0', '4'] ∧ hex 5 = ['x', '0', '5'] ∧
        hex 6 = ['x', '0', '6'] ∧ hex 7 = ['x', '0', '7'] := by decide
      unfold regexp_escape
      rcases hc with rfl | rfl | rfl | rfl | rfl | rfl <;> simp [consume_tri_octal, e2, e3]
    unfold get_regexp
    refine Eq.trans h2 ?_
    rw [step_escape, he, step_slash, hp]
    rfl

/-- **C121** (violated).  `\0`, the character NUL, is left as it is; the compiler of patterns does not take it for NUL. -/
theorem C121_nul_fails (rest : Chars) (hr : ∀ x, rest.head? = some x → x ∉ ['i', 'm', 'x', 'o', 'u', 'n']) :
    Means true 0 ['\\', '0'] (byte 0) ∧ get_regexp (['\\', '0'] ++ '/' :: rest) = .ok (.finished (['\\', '0'] ++ ['-']), rest) := by
  refine ⟨.nul rfl (by simp) .nil, ?_⟩
  have hp := postfix_flag (w := []) (f := '-') (by simp [flags]) (rest := rest) (fun _ => hr)
  rw [List.nil_append] at hp
  have he : regexp_escape 0 '0' ('/' :: rest) = (['\\', '0'], '/' :: rest) := by
    have e1 : peek_digit ('/' :: rest) = false := rfl
    simp [regexp_escape, e1]
  show read_regexp_sub (rest.length + 1 + 1 + 1 + 1) 0 [] ('\\' :: '0' :: '/' :: rest) = _
  rw [step_escape, he, step_slash, hp]
  rfl

/-- **C121** (violated).  Behind a closing bracket that is not open, `\b` is the backspace and no more a boundary of words. -/
theorem C121_stray_fails (rest : Chars) (hr : ∀ x, rest.head? = some x → x ∉ ['i', 'm', 'x', 'o', 'u', 'n']) :
    Means true 0 [']', '\\', 'b'] [']', '\\', 'b'] ∧
    get_regexp ([']', '\\', 'b'] ++ '/' :: rest) = .ok (.finished (']' :: byte 8 ++ ['-']), rest) := by
  refine ⟨.stray rfl (.boundary .nil), ?_⟩
  have hp := postfix_flag (w := []) (f := '-') (by simp [flags]) (rest := rest) (fun _ => hr)
  rw [List.nil_append] at hp
  have he : regexp_escape (0 - 1) 'b' ('/' :: rest) = (byte 8, '/' :: rest) := by
    have e1 : byte 8 = ['\\', 'x', '0', '8'] := by decide
    simp [regexp_escape, e1]
  show read_regexp_sub (rest.length + 1 + 1 + 1 + 1 + 1) 0 [] (']' :: '\\' :: 'b' :: '/' :: rest) = _
  rw [step_close, step_escape, he, step_slash, hp]
  rfl

/-- **C121** (violated).  Behind an interpolation inside brackets the reader has forgotten the brackets: in `/[#{x}\b]/` the `\b` is handed on as
a boundary of words. -/
theorem C121_bracket_fails (x rest : Chars) (hr : ∀ x, rest.head? = some x → x ∉ ['i', 'm', 'x', 'o', 'u', 'n']) :
    get_regexp ('[' :: '#' :: '{' :: x) = .ok (.interpolation ['['] 0, '{' :: x) ∧
    get_regexp (['\\', 'b', ']'] ++ '/' :: rest) = .ok (.finished (['\\', 'b', ']'] ++ ['-']), rest) ∧
    Means true 1 ['\\', 'b', ']'] (byte 8 ++ [']']) := by
  refine ⟨?_, ?_, .backspace (.closes .nil)⟩
  · show read_regexp_sub (x.length + 1 + 1 + 1 + 1) 0 [] ('[' :: '#' :: '{' :: x) = _
    rw [step_open, step_interpolation (by simp)]
    rfl
  · have hp := postfix_flag (w := []) (f := '-') (by simp [flags]) (rest := rest) (fun _ => hr)
    rw [List.nil_append] at hp
    have he : regexp_escape 0 'b' (']' :: '/' :: rest) = (['\\', 'b'], ']' :: '/' :: rest) := by
      simp [regexp_escape]
    show read_regexp_sub (rest.length + 1 + 1 + 1 + 1 + 1) 0 [] ('\\' :: 'b' :: ']' :: '/' :: rest) = _
    rw [step_escape, he, step_close, step_slash, hp]
    rfl

/-- **C121** (violated).  Only one option is read: behind `/…/i` an `m` is left over as the next token. -/
theorem C121_options_fails {s p rest : Chars} (h : Means false 0 s p) :
    get_regexp (s ++ '/' :: 'i' :: 'm' :: rest) = .ok (.finished (p ++ ['i']), 'm' :: rest) :=
  C121_literal_partial (w := ['i']) (rest := 'm' :: rest) h (by simp [flags]) (fun k => by simp at k)

/-! ### Instances -/

theorem sample : Means false 0 ['[', 'a', '\\', 's', '\\', 'b', ']', '\\', 'b', '#', '\\', '/', '\\', '1', '\\', '0', '1', '2']
    ('[' :: 'a' :: ("[[:space:]]".toList ++ (byte 8 ++ (']' :: '\\' :: 'b' :: '#' :: '\\' :: '/' :: '\\' :: '1' ::
      (byte (value '0' * 64 + value '1' * 8 + value '2') ++ []))))) := by
  refine .opens (.char (by decide) (.escape (by decide) (.backspace (.closes (.boundary (.hash (by decide)
    (.other (by decide) (by decide) (.group (by decide) (.inr (by decide)) ?_
    (.octal3 (by decide) (by decide) (by decide) (by decide) .nil)))))))))
  intro x hx
  simp at hx
  subst hx
  rfl

/-- `/[a\s\b]\b#\/\1\012/i + 1` -/
example : get_regexp (['[', 'a', '\\', 's', '\\', 'b', ']', '\\', 'b', '#', '\\', '/', '\\', '1', '\\', '0', '1', '2'] ++ '/' :: (['i'] ++ [' ', '+', ' ', '1'])) =
    .ok (.finished (('[' :: 'a' :: ("[[:space:]]".toList ++ (byte 8 ++ (']' :: '\\' :: 'b' :: '#' :: '\\' :: '/' :: '\\' :: '1' ::
      (byte (value '0' * 64 + value '1' * 8 + value '2') ++ []))))) ++ ['i']), [' ', '+', ' ', '1']) :=
  C121_literal_partial sample (by simp [flags]) (fun k => by simp at k)

example : byte (value '0' * 64 + value '1' * 8 + value '2') = "\\x0a".toList := by decide

example : write ['a', '/', 'b', '.', 'c'] = ['a', '\\', '/', 'b', '\\', '.', 'c'] := by decide

end Verif.Lexer.Regexp
