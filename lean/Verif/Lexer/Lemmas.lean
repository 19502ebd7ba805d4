import Verif.Lexer.Spec
/-! Lemmas about the lexer. -/
namespace Verif.Lexer

theorem digitTable_digit {c : Char} {d : Nat} (h : (c, d) ∈ digitTable) (hd : d < 10) :
    is_digit c = true ∧ c.toNat - '0'.toNat = d := by
  simp only [digitTable, List.mem_cons, Prod.mk.injEq, List.not_mem_nil, or_false] at h
  rcases h with ⟨rfl, rfl⟩ | ⟨rfl, rfl⟩ | ⟨rfl, rfl⟩ | ⟨rfl, rfl⟩ | ⟨rfl, rfl⟩ | ⟨rfl, rfl⟩ | ⟨rfl, rfl⟩ | ⟨rfl, rfl⟩ |
    ⟨rfl, rfl⟩ | ⟨rfl, rfl⟩ | ⟨rfl, rfl⟩ | ⟨rfl, rfl⟩ | ⟨rfl, rfl⟩ | ⟨rfl, rfl⟩ | ⟨rfl, rfl⟩ | ⟨rfl, rfl⟩ | ⟨rfl, rfl⟩ |
    ⟨rfl, rfl⟩ | ⟨rfl, rfl⟩ | ⟨rfl, rfl⟩ | ⟨rfl, rfl⟩ | ⟨rfl, rfl⟩ <;> first | omega | decide

theorem toNat_inj {a b : Char} (h : a.toNat = b.toNat) : a = b := Char.toNat_inj.1 h

theorem char_le {a b : Char} : a ≤ b ↔ a.toNat ≤ b.toNat := Iff.rfl

theorem is_digit_iff (c : Char) : is_digit c = true ↔ 48 ≤ c.toNat ∧ c.toNat ≤ 57 := by
  simp only [is_digit, char_le, decide_eq_true_eq]; exact Iff.rfl
theorem is_upper_iff (c : Char) : is_upper c = true ↔ 65 ≤ c.toNat ∧ c.toNat ≤ 90 := by
  simp only [is_upper, char_le, decide_eq_true_eq]; exact Iff.rfl
theorem is_lower_iff (c : Char) : is_lower c = true ↔ 97 ≤ c.toNat ∧ c.toNat ≤ 122 := by
  simp only [is_lower, char_le, decide_eq_true_eq]; exact Iff.rfl
theorem is_alpha_iff (c : Char) : is_alpha c = true ↔
    (97 ≤ c.toNat ∧ c.toNat ≤ 122) ∨ (65 ≤ c.toNat ∧ c.toNat ≤ 90) := by
  simp only [is_alpha, Bool.or_eq_true, is_lower_iff, is_upper_iff]
theorem is_punct_iff (c : Char) : is_punct c = true ↔
    (33 ≤ c.toNat ∧ c.toNat ≤ 47) ∨ (58 ≤ c.toNat ∧ c.toNat ≤ 64) ∨ (91 ≤ c.toNat ∧ c.toNat ≤ 96) ∨
    (123 ≤ c.toNat ∧ c.toNat ≤ 126) := by
  simp only [is_punct, char_le, decide_eq_true_eq]; exact Iff.rfl
theorem eq_iff_toNat (a b : Char) : a = b ↔ a.toNat = b.toNat := ⟨fun h => h ▸ rfl, toNat_inj⟩
theorem is_ident_iff (c : Char) : is_ident c = true ↔
    (97 ≤ c.toNat ∧ c.toNat ≤ 122) ∨ (65 ≤ c.toNat ∧ c.toNat ≤ 90) ∨ (48 ≤ c.toNat ∧ c.toNat ≤ 57) ∨ c.toNat = 95 := by
  simp only [is_ident, Bool.or_eq_true, is_alpha_iff, is_digit_iff, beq_iff_eq, eq_iff_toNat c '_']
  rw [show ('_' : Char).toNat = 95 from rfl]; omega
theorem is_space_iff (c : Char) : is_space c = true ↔
    c.toNat = 32 ∨ c.toNat = 9 ∨ c.toNat = 10 ∨ c.toNat = 12 ∨ c.toNat = 13 := by
  simp only [is_space, Bool.or_eq_true, beq_iff_eq, eq_iff_toNat c]
  rw [show (' ' : Char).toNat = 32 from rfl, show ('\t' : Char).toNat = 9 from rfl,
    show ('\n' : Char).toNat = 10 from rfl, show ('\x0c' : Char).toNat = 12 from rfl,
    show ('\x0d' : Char).toNat = 13 from rfl]
  omega

theorem digitTable_of_digit {c : Char} (h : is_digit c = true) : ∃ d, (c, d) ∈ digitTable ∧ d < 10 := by
  obtain ⟨h1, h2⟩ := (is_digit_iff c).1 h
  refine ⟨c.toNat - 48, ?_, by omega⟩
  have : c.toNat = 48 ∨ c.toNat = 49 ∨ c.toNat = 50 ∨ c.toNat = 51 ∨ c.toNat = 52 ∨ c.toNat = 53 ∨ c.toNat = 54 ∨
    c.toNat = 55 ∨ c.toNat = 56 ∨ c.toNat = 57 := by omega
  rcases this with h | h | h | h | h | h | h | h | h | h
  · obtain rfl : c = '0' := toNat_inj h; decide
  · obtain rfl : c = '1' := toNat_inj h; decide
  · obtain rfl : c = '2' := toNat_inj h; decide
  · obtain rfl : c = '3' := toNat_inj h; decide
  · obtain rfl : c = '4' := toNat_inj h; decide
  · obtain rfl : c = '5' := toNat_inj h; decide
  · obtain rfl : c = '6' := toNat_inj h; decide
  · obtain rfl : c = '7' := toNat_inj h; decide
  · obtain rfl : c = '8' := toNat_inj h; decide
  · obtain rfl : c = '9' := toNat_inj h; decide

theorem digitTable_to_digit {c : Char} {d r : Nat} (h : (c, d) ∈ digitTable) (hd : d < r) : to_digit r c = some d := by
  have key : ∀ p ∈ digitTable, (if is_digit p.1 then some (p.1.toNat - '0'.toNat)
    else if is_lower p.1 then some (p.1.toNat - 'a'.toNat + 10)
    else if is_upper p.1 then some (p.1.toNat - 'A'.toNat + 10)
    else none) = some p.2 := by decide
  unfold to_digit
  have := key _ h
  simp only at this
  simp only [this, hd, if_true]

theorem digitTable_of_to_digit {c : Char} {d : Nat} (h : to_digit 16 c = some d) : (c, d) ∈ digitTable ∧ d < 16 := by
  have hd : d < 16 := by
    unfold to_digit at h
    simp only at h
    split at h
    · split at h
      · cases h; assumption
      · cases h
    · cases h
  refine ⟨?_, hd⟩
  unfold to_digit at h
  simp only at h
  split at h
  next v hv =>
    split at h
    next hlt =>
      cases h
      split at hv
      next hdig =>
        cases hv
        obtain ⟨d, h1, h2⟩ := digitTable_of_digit hdig
        rw [(digitTable_digit h1 h2).2]; exact h1
      next =>
        split at hv
        next hl =>
          cases hv
          have := (is_lower_iff c).1 hl
          rw [show ('a' : Char).toNat = 97 from rfl] at hlt ⊢
          have : c.toNat = 97 ∨ c.toNat = 98 ∨ c.toNat = 99 ∨ c.toNat = 100 ∨ c.toNat = 101 ∨ c.toNat = 102 := by omega
          rcases this with h | h | h | h | h | h
          · obtain rfl : c = 'a' := toNat_inj h; decide
          · obtain rfl : c = 'b' := toNat_inj h; decide
          · obtain rfl : c = 'c' := toNat_inj h; decide
          · obtain rfl : c = 'd' := toNat_inj h; decide
          · obtain rfl : c = 'e' := toNat_inj h; decide
          · obtain rfl : c = 'f' := toNat_inj h; decide
        next =>
          split at hv
          next hl =>
            cases hv
            have := (is_upper_iff c).1 hl
            rw [show ('A' : Char).toNat = 65 from rfl] at hlt ⊢
            have : c.toNat = 65 ∨ c.toNat = 66 ∨ c.toNat = 67 ∨ c.toNat = 68 ∨ c.toNat = 69 ∨ c.toNat = 70 := by omega
            rcases this with h | h | h | h | h | h
            · obtain rfl : c = 'A' := toNat_inj h; decide
            · obtain rfl : c = 'B' := toNat_inj h; decide
            · obtain rfl : c = 'C' := toNat_inj h; decide
            · obtain rfl : c = 'D' := toNat_inj h; decide
            · obtain rfl : c = 'E' := toNat_inj h; decide
            · obtain rfl : c = 'F' := toNat_inj h; decide
          next => cases hv
    next => cases h
  next => cases h

/-! ## Numbers -/

theorem digit_ne_underscore {c : Char} {d : Nat} (h : (c, d) ∈ digitTable) : c ≠ '_' := by
  have : ∀ p ∈ digitTable, p.1 ≠ '_' := by decide
  exact this _ h

/-- the digits of a spelled number, without the underscores -/
def strip (t : Chars) : Chars := t.filter (· ≠ '_')

theorem parse_digits_spells {r : Nat} {t : Chars} {ds : List Nat} (h : Spells r t ds) (acc : Nat) :
    parse_digits r t acc = some (ds.foldl (fun v d => v * r + d) acc) := by
  induction h generalizing acc with
  | nil => rfl
  | digit h1 h2 _ ih =>
    rw [parse_digits, if_neg (digit_ne_underscore h1), digitTable_to_digit h1 h2]
    exact ih _
  | underscore _ ih => rw [parse_digits, if_pos rfl]; exact ih _

theorem Spells.strip {r : Nat} {t : Chars} {ds : List Nat} (h : Spells r t ds) : Spells r (strip t) ds := by
  induction h with
  | nil => exact .nil
  | digit h1 h2 _ ih =>
    unfold Lexer.strip at *
    rw [List.filter_cons_of_pos (by simpa using digit_ne_underscore h1)]
    exact .digit h1 h2 ih
  | underscore _ ih =>
    unfold Lexer.strip at *
    rw [List.filter_cons_of_neg (by simp)]
    exact ih

theorem parse_bytes_spells {r : Nat} {t : Chars} {ds : List Nat} (h : Spells r t ds) (h0 : t ≠ [])
    (h1 : t.head? ≠ some '_') : parse_bytes t r = some (value r ds : Int) := by
  cases t with
  | nil => exact absurd rfl h0
  | cons c t =>
    have hc : c ≠ '_' := by simpa using h1
    unfold parse_bytes
    split
    · rename_i e; exact absurd e h0
    · rename_i e; cases e; exact absurd rfl hc
    · rw [parse_digits_spells h]; rfl

theorem NumberEnds.dec {rest : Chars} (h : NumberEnds 10 rest) : ∀ acc, decimal acc false rest = (acc, false, rest) := by
  intro acc
  cases rest with
  | nil => rfl
  | cons c rest =>
    obtain ⟨h1, h2, h3⟩ := h
    obtain ⟨_, _, _, h4⟩ := h3 rfl
    have hd : is_digit c = false := by
      cases hc : is_digit c with
      | false => rfl
      | true =>
        obtain ⟨d, h5, h6⟩ := digitTable_of_digit hc
        exact absurd h6 (h2 d h5)
    unfold decimal
    rw [hd, if_neg (by simp), if_neg h1]
    split
    · rename_i h5
      obtain ⟨_, rfl⟩ := h5
      split
      · rename_i d r
        rw [if_neg]
        intro hd
        obtain ⟨v, h5, h6⟩ := digitTable_of_digit hd
        exact h4 d v r rfl rfl h5 h6
      · rfl
    · rfl

theorem decimal_digit {c : Char} (h : is_digit c = true) (acc : Chars) (fl : Bool) (s : Chars) :
    decimal acc fl (c :: s) = decimal (acc ++ [c]) fl s := by
  rw [decimal.eq_def]; simp only [h, if_true]

theorem decimal_underscore (acc : Chars) (fl : Bool) (s : Chars) :
    decimal acc fl ('_' :: s) = decimal acc fl s := by
  rw [decimal.eq_def]; simp only [show is_digit '_' = false from by decide, if_true, Bool.false_eq_true, if_false]

theorem decimal_spells {t : Chars} {ds : List Nat} (h : Spells 10 t ds) {rest : Chars} (hr : NumberEnds 10 rest)
    (acc : Chars) : decimal acc false (t ++ rest) = (acc ++ strip t, false, rest) := by
  induction h generalizing acc with
  | nil => simp [hr.dec, strip]
  | digit h1 h2 _ ih =>
    rename_i c d t ds _
    rw [List.cons_append, decimal_digit (digitTable_digit h1 h2).1, ih]
    unfold strip
    rw [List.filter_cons_of_pos (by simpa using digit_ne_underscore h1)]
    simp
  | underscore _ ih =>
    rw [List.cons_append, decimal_underscore, ih]
    unfold strip
    rw [List.filter_cons_of_neg (by simp)]

theorem read_decimal_spells {c : Char} {t : Chars} {ds : List Nat} (h : Spells 10 (c :: t) ds) (hc : c ≠ '_')
    {rest : Chars} (hr : NumberEnds 10 rest) :
    read_decimal c (t ++ rest) = .ok ((number (value 10 ds)).tok, rest) := by
  have hs : Spells 10 (strip (c :: t)) ds := h.strip
  have hcons : strip (c :: t) = c :: strip t := by
    unfold strip; rw [List.filter_cons_of_pos (by simpa using hc)]
  rw [hcons] at hs
  have ht : ∃ ds', Spells 10 t ds' := by
    cases h with
    | digit _ _ h => exact ⟨_, h⟩
    | underscore => exact absurd rfl hc
  obtain ⟨ds', ht⟩ := ht
  unfold read_decimal
  rw [decimal_spells ht hr]
  have he : exponent_part ([c] ++ strip t) false rest = .ok (([c] ++ strip t, false), rest) := by
    unfold exponent_part
    cases rest with
    | nil => rfl
    | cons x rest =>
      obtain ⟨h1, h2, h3⟩ := hr
      obtain ⟨h4, h5, _⟩ := h3 rfl
      split
      · rename_i e; cases e; exact absurd rfl h4
      · rename_i e; cases e; exact absurd rfl h5
      · rfl
  simp only
  rw [he]
  simp only [List.cons_append, List.nil_append, Bool.false_eq_true, if_false]
  rw [parse_bytes_spells hs (by simp) (by simpa using hc)]
  simp only
  cases rest with
  | nil => rfl
  | cons x rest =>
    obtain ⟨h1, h2, h3⟩ := hr
    obtain ⟨_, _, h6, _⟩ := h3 rfl
    split
    · rename_i e; cases e; exact absurd rfl h6
    · rfl

/-! ## White space -/

theorem skip_nonspace {c : Char} {s : Chars} (h1 : is_space c = false) (h2 : c ≠ '\\') :
    skip_whitespace (c :: s) = (false, c :: s) := by
  unfold skip_whitespace
  split
  · rename_i e; cases e; exact absurd h1 (by decide)
  · rename_i e; cases e; exact absurd rfl h2
  · rename_i e; cases e; rw [if_neg (by simp [h1])]
  · rename_i e; cases e

theorem skip_space (s : Chars) : skip_whitespace (' ' :: s) = skip_whitespace s := by
  rw [skip_whitespace.eq_def]
  split
  · rename_i e; cases e
  · rename_i e; cases e
  · rename_i e; cases e; rfl
  · rename_i e; cases e


/-! ## Tokens -/

theorem read_token_nonspace (U : Unicode) {c : Char} {s : Chars} (h1 : is_space c = false) (h2 : c ≠ '\\')
    (h3 : c ≠ '#') : read_token U (c :: s) = read_token_at U (c :: s) := by
  unfold read_token
  rw [skip_nonspace h1 h2]
  split
  · rename_i e; simp at e
  · rename_i e; simp at e; exact absurd e.1 h3
  · rename_i e; simp at e; rw [← e]

theorem consume_ident_all {t rest : Chars} (ht : ∀ x ∈ t, is_ident x = true)
    (hr : ∀ c r, rest = c :: r → is_ident c = false) : consume_ident (t ++ rest) = (t, rest) := by
  induction t with
  | nil =>
    cases rest with
    | nil => rfl
    | cons c r => simp [consume_ident, hr c r rfl]
  | cons c t ih =>
    have := ih (fun x hx => ht x (List.mem_cons_of_mem _ hx))
    simp [consume_ident, ht c List.mem_cons_self, this]

theorem Ends.not_ident {rest : Chars} (h : Ends rest) : ∀ c r, rest = c :: r → is_ident c = false := by
  intro c r e
  subst e
  have h : is_space c = true ∨ c = '(' ∨ c = '[' := h
  rcases h with h | rfl | rfl
  · have h := (is_space_iff c).1 h
    cases hc : is_ident c with
    | false => rfl
    | true => have := (is_ident_iff c).1 hc; omega
  · decide
  · decide

theorem Ends.suffix {rest : Chars} (h : Ends rest) : suffix rest = ([], rest) := by
  cases rest with
  | nil => rfl
  | cons c r =>
    have h' : is_space c = true ∨ c = '(' ∨ c = '[' := h
    unfold Lexer.suffix
    split
    · rename_i e; cases e; exact absurd h' (by decide)
    · rename_i e; cases e; exact absurd h' (by decide)
    · rename_i e; cases e; exact absurd h' (by decide)
    · rfl

theorem check_reserved_text (r : Reserved) : check_reserved r.text.toList = some r := by
  cases r <;> rfl

theorem allReserved_all (r : Reserved) : r ∈ allReserved := by cases r <;> decide

theorem check_reserved_none {s : Chars} (h : ∀ r : Reserved, r.text.toList ≠ s) : check_reserved s = none := by
  unfold check_reserved
  rw [List.find?_eq_none]
  intro r _
  simpa using h r

/-- an identifier is read to its end -/
theorem read_identifier_plain {c : Char} {t rest : Chars} (ht : ∀ x ∈ t, is_ident x = true)
    (h1 : ∀ x r, rest = x :: r → is_ident x = false) (h2 : suffix rest = ([], rest)) :
    read_identifier c (t ++ rest) =
      (classify (is_upper c) (c :: t), rest) := by
  unfold read_identifier
  rw [consume_ident_all ht h1]
  simp only [h2, List.append_nil]

theorem read_identifier_mark {c m : Char} {t rest : Chars} (ht : ∀ x ∈ t, is_ident x = true)
    (hm : m = '?' ∨ m = '!') (h2 : ∀ r, m = '!' → rest ≠ '=' :: r) :
    read_identifier c (t ++ [m] ++ rest) =
      (classify (is_upper c) (c :: t ++ [m]), rest) := by
  have hs : suffix (m :: rest) = ([m], rest) := by
    rcases hm with rfl | rfl
    · rfl
    · unfold suffix
      split
      · rename_i e; cases e
      · rename_i e; cases e; exact absurd rfl (h2 _ rfl)
      · rename_i e; cases e; rfl
      · rename_i h; exact absurd rfl (h rest)
  unfold read_identifier
  rw [List.append_assoc, List.singleton_append,
    consume_ident_all ht (by intro x r e; cases e; rcases hm with rfl | rfl <;> decide)]
  simp only [hs]

theorem ident_start {c : Char} (h : is_alpha c = true ∨ c = '_') :
    is_space c = false ∧ c ≠ '\\' ∧ c ≠ '#' ∧ (is_alpha c || c == '_') = true := by
  rcases h with h | rfl
  · have := (is_alpha_iff c).1 h
    refine ⟨?_, ?_, ?_, by simp [h]⟩
    · cases hc : is_space c with
      | false => rfl
      | true => have := (is_space_iff c).1 hc; omega
    · rintro rfl; revert h; decide
    · rintro rfl; revert h; decide
  · decide

theorem read_token_ident (U : Unicode) {c : Char} {s : Chars} (h : is_alpha c = true ∨ c = '_') :
    read_token U (c :: s) = .ok (read_identifier c s) := by
  obtain ⟨h1, h2, h3, h4⟩ := ident_start h
  rw [read_token_nonspace U h1 h2 h3, read_token_at, if_pos h4]

theorem read_token_digit (U : Unicode) {c : Char} {s : Chars} (h : is_digit c = true) :
    read_token U (c :: s) = read_number_literal c s := by
  have hd := (is_digit_iff c).1 h
  have h1 : is_space c = false := by
    cases hc : is_space c with
    | false => rfl
    | true => have := (is_space_iff c).1 hc; omega
  have h2 : c ≠ '\\' := by rintro rfl; revert h; decide
  have h3 : c ≠ '#' := by rintro rfl; revert h; decide
  have h4 : is_alpha c = false := by
    cases hc : is_alpha c with
    | false => rfl
    | true => have := (is_alpha_iff c).1 hc; omega
  have h5 : (c == '_') = false := by
    rw [beq_eq_false_iff_ne]; rintro rfl; revert h; decide
  rw [read_token_nonspace U h1 h2 h3, read_token_at, h4, h5, Bool.or_false, if_neg (by decide), if_pos]
  unfold is_numeric is_ascii
  rw [if_pos (by simp; omega), h]

theorem read_token_punct (U : Unicode) {c : Char} {s : Chars} (h : is_punct c = true)
    (h1 : c ∉ ['"', '`', '\'', '@', '$', '#', '_', '\\']) :
    read_token U (c :: s) =
      (read_punct c s).elim (.error (error_unexpected (c :: s))) fun (p, s) => .ok (.Punct p, s) := by
  have hd := (is_punct_iff c).1 h
  simp only [List.mem_cons, List.not_mem_nil, or_false, not_or] at h1
  obtain ⟨k1, k2, k3, k4, k5, k6, k7, k8⟩ := h1
  have h1 : is_space c = false := by
    cases hc : is_space c with
    | false => rfl
    | true => have := (is_space_iff c).1 hc; omega
  have h4 : is_alpha c = false := by
    cases hc : is_alpha c with
    | false => rfl
    | true => have := (is_alpha_iff c).1 hc; omega
  have h5 : is_digit c = false := by
    cases hc : is_digit c with
    | false => rfl
    | true => have := (is_digit_iff c).1 hc; omega
  have h6 : is_numeric U c = false := by
    unfold is_numeric is_ascii
    rw [if_pos (by simp; omega), h5]
  rw [read_token_nonspace U h1 k8 k6, read_token_at, h4, beq_eq_false_iff_ne.2 k7, h6, h]
  simp only [k1, k2, k3, k4, k5, if_false, Bool.or_false, Bool.false_eq_true, if_true]

private def opsL : List (Chars × Punct) :=
  [(['('], .LParen), ([')'], .RParen), (['['], .LBracket), ([']'], .RBracket), (['{'], .LBrace),
   (['}'], .RBrace), ([';'], .Semi), ([':'], .Colon), ([':', ':'], .Scope), ([','], .Comma),
   (['.'], .Dot), (['?'], .Question), (['.', '.'], .Range2), (['.', '.', '.'], .Range3), (['+'], .Plus),
   (['-'], .Minus), (['*'], .Mul), (['/'], .Div), (['%'], .Rem), (['*', '*'], .DMul),
   (['>', '>'], .Shr), (['<', '<'], .Shl), (['|'], .BitOr), (['&'], .BitAnd), (['^'], .BitXor),
   (['~'], .BitNot), (['!'], .Not), (['='], .Assign), (['+', '='], .AssignOp .Add), (['-', '='], .AssignOp .Sub),
   (['*', '='], .AssignOp .Mul), (['/', '='], .AssignOp .Div), (['%', '='], .AssignOp .Rem), (['>', '>', '='], .AssignOp .Shr), (['<', '<', '='], .AssignOp .Shl),
   (['&', '='], .AssignOp .BitAnd), (['|', '='], .AssignOp .BitOr), (['^', '='], .AssignOp .BitXor), (['&', '&', '='], .AssignOp .LAnd), (['|', '|', '='], .AssignOp .LOr),
   (['=', '='], .Eq), (['=', '=', '='], .TEq), (['!', '='], .Ne), (['>'], .Gt), (['>', '='], .Ge),
   (['<'], .Lt), (['<', '='], .Le), (['<', '=', '>'], .Cmp), (['&', '&'], .LAnd), (['|', '|'], .LOr),
   (['=', '~'], .Match), (['!', '~'], .Unmatch), (['&', '.'], .SafeNav), (['\\'], .Backslash), (['-', '>'], .Arrow),
   (['=', '>'], .FatArrow)]

private theorem opsL_eq : opsL = operators.map fun q => (q.1.toList, q.2) := by decide

private theorem opsL_mem {t : String} {p : Punct} (h : (t, p) ∈ operators) : (t.toList, p) ∈ opsL := by
  rw [opsL_eq, List.mem_map]; exact ⟨_, h, rfl⟩

private theorem opsL_of {q : Chars × Punct} (h : q ∈ opsL) : ∃ q' ∈ operators, (q'.1.toList, q'.2) = q := by
  rw [opsL_eq, List.mem_map] at h; exact h

set_option maxHeartbeats 2000000 in
private theorem opsL_read {c : Char} {s : Chars} {p : Punct} (h : (c :: s, p) ∈ opsL) (hp : p ≠ .Backslash) {rest : Chars}
    (hl : ∀ q ∈ opsL, (c :: s).length < q.1.length → ¬ q.1 <+: c :: s ++ rest) :
    read_punct c (s ++ rest) = some (p, rest) := by
  have hl2 : ∀ q ∈ opsL, (c :: s).length < q.1.length → q.1.head? = some c → ¬ q.1 <+: c :: s ++ rest :=
    fun q hq h1 _ => hl q hq h1
  clear hl
  simp only [opsL, List.mem_cons, Prod.mk.injEq, List.not_mem_nil, or_false, List.cons.injEq] at h
  rcases h with ⟨⟨rfl, rfl⟩, rfl⟩ | ⟨⟨rfl, rfl⟩, rfl⟩ | ⟨⟨rfl, rfl⟩, rfl⟩ | ⟨⟨rfl, rfl⟩, rfl⟩ | ⟨⟨rfl, rfl⟩, rfl⟩ | ⟨⟨rfl, rfl⟩, rfl⟩ | ⟨⟨rfl, rfl⟩, rfl⟩ | ⟨⟨rfl, rfl⟩, rfl⟩ | ⟨⟨rfl, rfl⟩, rfl⟩ | ⟨⟨rfl, rfl⟩, rfl⟩ | ⟨⟨rfl, rfl⟩, rfl⟩ | ⟨⟨rfl, rfl⟩, rfl⟩ | ⟨⟨rfl, rfl⟩, rfl⟩ | ⟨⟨rfl, rfl⟩, rfl⟩ | ⟨⟨rfl, rfl⟩, rfl⟩ | ⟨⟨rfl, rfl⟩, rfl⟩ | ⟨⟨rfl, rfl⟩, rfl⟩ | ⟨⟨rfl, rfl⟩, rfl⟩ | ⟨⟨rfl, rfl⟩, rfl⟩ | ⟨⟨rfl, rfl⟩, rfl⟩ | ⟨⟨rfl, rfl⟩, rfl⟩ | ⟨⟨rfl, rfl⟩, rfl⟩ | ⟨⟨rfl, rfl⟩, rfl⟩ | ⟨⟨rfl, rfl⟩, rfl⟩ | ⟨⟨rfl, rfl⟩, rfl⟩ | ⟨⟨rfl, rfl⟩, rfl⟩ | ⟨⟨rfl, rfl⟩, rfl⟩ | ⟨⟨rfl, rfl⟩, rfl⟩ | ⟨⟨rfl, rfl⟩, rfl⟩ | ⟨⟨rfl, rfl⟩, rfl⟩ | ⟨⟨rfl, rfl⟩, rfl⟩ | ⟨⟨rfl, rfl⟩, rfl⟩ | ⟨⟨rfl, rfl⟩, rfl⟩ | ⟨⟨rfl, rfl⟩, rfl⟩ | ⟨⟨rfl, rfl⟩, rfl⟩ | ⟨⟨rfl, rfl⟩, rfl⟩ | ⟨⟨rfl, rfl⟩, rfl⟩ | ⟨⟨rfl, rfl⟩, rfl⟩ | ⟨⟨rfl, rfl⟩, rfl⟩ | ⟨⟨rfl, rfl⟩, rfl⟩ | ⟨⟨rfl, rfl⟩, rfl⟩ | ⟨⟨rfl, rfl⟩, rfl⟩ | ⟨⟨rfl, rfl⟩, rfl⟩ | ⟨⟨rfl, rfl⟩, rfl⟩ | ⟨⟨rfl, rfl⟩, rfl⟩ | ⟨⟨rfl, rfl⟩, rfl⟩ | ⟨⟨rfl, rfl⟩, rfl⟩ | ⟨⟨rfl, rfl⟩, rfl⟩ | ⟨⟨rfl, rfl⟩, rfl⟩ | ⟨⟨rfl, rfl⟩, rfl⟩ | ⟨⟨rfl, rfl⟩, rfl⟩ | ⟨⟨rfl, rfl⟩, rfl⟩ | ⟨⟨rfl, rfl⟩, rfl⟩ | ⟨⟨rfl, rfl⟩, rfl⟩ | ⟨⟨rfl, rfl⟩, rfl⟩ | ⟨⟨rfl, rfl⟩, rfl⟩ <;>
  first
  | rfl
  | (simp [opsL] at hl2
     simp only [read_punct, List.nil_append, List.cons_append]
     split <;> simp_all)
  | exact absurd rfl hp

/-- the longest operator that the text starts with is read -/
theorem read_operator (U : Unicode) {t : String} {p : Punct} (h : (t, p) ∈ operators) (hp : p ≠ .Backslash)
    {rest : Chars}
    (hl : ∀ q ∈ operators, t.length < q.1.length → ¬ q.1.toList <+: t.toList ++ rest) :
    read_token U (t.toList ++ rest) = .ok (.Punct p, rest) := by
  have key : ∃ c s, t.toList = c :: s ∧ is_punct c = true ∧ c ∉ ['"', '`', '\'', '@', '$', '#', '_', '\\'] := by
    have : ∀ q ∈ operators, q.2 ≠ .Backslash → ∃ c ∈ q.1.toList.head?, is_punct c = true ∧
        c ∉ ['"', '`', '\'', '@', '$', '#', '_', '\\'] := by decide
    obtain ⟨c, h1, h2⟩ := this _ h hp
    cases ht : t.toList with
    | nil => rw [ht] at h1; cases h1
    | cons x s => rw [ht] at h1; cases h1; exact ⟨_, s, rfl, h2⟩
  obtain ⟨c, s, e, h1, h2⟩ := key
  have goal : read_punct c (s ++ rest) = some (p, rest) := by
    refine opsL_read (e ▸ opsL_mem h) hp fun q hq hlen hpre => ?_
    obtain ⟨q', hq', rfl⟩ := opsL_of hq
    refine hl q' hq' ?_ (e ▸ hpre)
    rw [← String.length_toList, ← String.length_toList, e]; exact hlen
  rw [e, List.cons_append, read_token_punct U h1 h2, goal]; rfl

end Verif.Lexer
