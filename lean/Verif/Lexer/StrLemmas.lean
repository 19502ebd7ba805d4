import Verif.Lexer.Lemmas
import Verif.Lexer.Inspect
/-! Lemmas about string literals. -/
namespace Verif.Lexer

theorem expect_hex_digit {c : Char} {d : Nat} (h : (c, d) ∈ digitTable) (s : Chars) : expect_hex (c :: s) = .ok (d, s) := by
  simp only [digitTable, List.mem_cons, Prod.mk.injEq, List.not_mem_nil, or_false] at h
  rcases h with ⟨rfl, rfl⟩ | ⟨rfl, rfl⟩ | ⟨rfl, rfl⟩ | ⟨rfl, rfl⟩ | ⟨rfl, rfl⟩ | ⟨rfl, rfl⟩ | ⟨rfl, rfl⟩ | ⟨rfl, rfl⟩ |
    ⟨rfl, rfl⟩ | ⟨rfl, rfl⟩ | ⟨rfl, rfl⟩ | ⟨rfl, rfl⟩ | ⟨rfl, rfl⟩ | ⟨rfl, rfl⟩ | ⟨rfl, rfl⟩ | ⟨rfl, rfl⟩ | ⟨rfl, rfl⟩ |
    ⟨rfl, rfl⟩ | ⟨rfl, rfl⟩ | ⟨rfl, rfl⟩ | ⟨rfl, rfl⟩ | ⟨rfl, rfl⟩ <;> rfl

theorem digit_lt {c : Char} {d : Nat} (h : (c, d) ∈ digitTable) : d < 16 := by
  have : ∀ p ∈ digitTable, p.2 < 16 := by decide
  exact this _ h

theorem octal_char {c : Char} {d : Nat} (h : (c, d) ∈ digitTable) (hd : d < 8) :
    c.toNat - '0'.toNat = d ∧ ('0' ≤ c ∧ c ≤ '7') ∧
      (c = '\'' ∨ c = '"' ∨ c = '?' ∨ c = '\\') = False ∧ (c = 'a') = False ∧ (c = 'b') = False ∧ (c = 'e') = False ∧
      (c = 'f') = False ∧ (c = 'n') = False ∧ (c = 'r') = False ∧ (c = 's') = False ∧ (c = 't') = False ∧ (c = 'v') = False ∧
      (c = 'x') = False ∧ (c = 'u') = False := by
  simp only [eq_iff_iff, iff_false]
  simp only [digitTable, List.mem_cons, Prod.mk.injEq, List.not_mem_nil, or_false] at h
  rcases h with ⟨rfl, rfl⟩ | ⟨rfl, rfl⟩ | ⟨rfl, rfl⟩ | ⟨rfl, rfl⟩ | ⟨rfl, rfl⟩ | ⟨rfl, rfl⟩ | ⟨rfl, rfl⟩ | ⟨rfl, rfl⟩ |
    ⟨rfl, rfl⟩ | ⟨rfl, rfl⟩ | ⟨rfl, rfl⟩ | ⟨rfl, rfl⟩ | ⟨rfl, rfl⟩ | ⟨rfl, rfl⟩ | ⟨rfl, rfl⟩ | ⟨rfl, rfl⟩ | ⟨rfl, rfl⟩ |
    ⟨rfl, rfl⟩ | ⟨rfl, rfl⟩ | ⟨rfl, rfl⟩ | ⟨rfl, rfl⟩ | ⟨rfl, rfl⟩ <;> first | omega | decide

theorem escaped_char {e : Chars} {c : Char} (h : Escape ('\\' :: e) c) (rest : Chars) :
    read_escaped_char (e ++ rest) = .ok (c, rest) ∧ (∀ x, e.head? = some x → x ≠ '\n') ∧ e ≠ [] := by
  generalize he : '\\' :: e = e' at h
  cases h with
  | plain _ h2 _ => cases he; exact absurd rfl h2
  | quoted hc =>
    cases he
    rw [show ("abefnrstvxu01234567\n".toList) =
      ['a', 'b', 'e', 'f', 'n', 'r', 's', 't', 'v', 'x', 'u', '0', '1', '2', '3', '4', '5', '6', '7', '\n'] from by decide] at hc
    simp only [List.mem_cons, List.not_mem_nil, or_false, not_or] at hc
    refine ⟨?_, by simpa using hc.2.2.2.2.2.2.2.2.2.2.2.2.2.2.2.2.2.2.2, by simp⟩
    have hoct : ¬ ('0' ≤ c ∧ c ≤ '7') := by
      rw [char_le, char_le]
      rintro ⟨h1, h2⟩
      rw [show ('0' : Char).toNat = 48 from rfl] at h1
      rw [show ('7' : Char).toNat = 55 from rfl] at h2
      obtain ⟨-, -, -, -, -, -, -, -, -, -, -, a0, a1, a2, a3, a4, a5, a6, a7, -⟩ := hc
      rw [eq_iff_toNat] at a0 a1 a2 a3 a4 a5 a6 a7
      rw [show ('0' : Char).toNat = 48 from rfl] at a0
      rw [show ('1' : Char).toNat = 49 from rfl] at a1
      rw [show ('2' : Char).toNat = 50 from rfl] at a2
      rw [show ('3' : Char).toNat = 51 from rfl] at a3
      rw [show ('4' : Char).toNat = 52 from rfl] at a4
      rw [show ('5' : Char).toNat = 53 from rfl] at a5
      rw [show ('6' : Char).toNat = 54 from rfl] at a6
      rw [show ('7' : Char).toNat = 55 from rfl] at a7
      omega
    unfold read_escaped_char
    simp only [List.cons_append, List.nil_append, hoct, hc, if_false, ite_self]
  | bell => cases he; exact ⟨rfl, by decide, by simp⟩
  | backspace => cases he; exact ⟨rfl, by decide, by simp⟩
  | escape => cases he; exact ⟨rfl, by decide, by simp⟩
  | formfeed => cases he; exact ⟨rfl, by decide, by simp⟩
  | newline => cases he; exact ⟨rfl, by decide, by simp⟩
  | ret => cases he; exact ⟨rfl, by decide, by simp⟩
  | space => cases he; exact ⟨rfl, by decide, by simp⟩
  | tab => cases he; exact ⟨rfl, by decide, by simp⟩
  | vtab => cases he; exact ⟨rfl, by decide, by simp⟩
  | hex h1 h2 =>
    cases he
    refine ⟨?_, by simp, by simp⟩
    rename_i a b x y
    rw [show read_escaped_char (['x', a, b] ++ rest) =
      (expect_hex (a :: b :: rest)).bind fun (c1, s) => (expect_hex s).bind fun (c2, s) =>
        match from_u32 (c1 * 16 + c2) with
        | some c => .ok (c, s)
        | none => .error (error_unexpected s) from rfl]
    rw [expect_hex_digit h1]
    simp only [Except.bind]
    rw [expect_hex_digit h2]
    simp only [from_u32]
    have := digit_lt h1
    have := digit_lt h2
    rw [if_pos (show (x * 16 + y).isValidChar from Or.inl (by omega))]
  | unicode h1 h2 h3 h4 hv =>
    cases he
    refine ⟨?_, by simp, by simp⟩
    rename_i a b c d x y z w
    rw [show read_escaped_char (['u', a, b, c, d] ++ rest) =
      (expect_hex (a :: b :: c :: d :: rest)).bind fun (c1, s) => (expect_hex s).bind fun (c2, s) =>
      (expect_hex s).bind fun (c3, s) => (expect_hex s).bind fun (c4, s) =>
        match from_u32 (((c1 * 16 + c2) * 16 + c3) * 16 + c4) with
        | some c => .ok (c, s)
        | none => .error .syntax from rfl]
    rw [expect_hex_digit h1]
    simp only [Except.bind]
    rw [expect_hex_digit h2]
    simp only
    rw [expect_hex_digit h3]
    simp only
    rw [expect_hex_digit h4]
    simp only [from_u32]
    rw [if_pos hv]
  | octal h1 h2 h3 l1 l2 l3 =>
    cases he
    rename_i a b c x y z
    obtain ⟨a1, a2, a3⟩ := octal_char h1 l1
    obtain ⟨-, b2, -⟩ := octal_char h2 l2
    obtain ⟨-, c2, -⟩ := octal_char h3 l3
    refine ⟨?_, by rintro w e; cases e; rintro rfl; revert a2; decide, by simp⟩
    have ho : ∀ c, '0' ≤ c ∧ c ≤ '7' → ∀ s, consume_octal (c :: s) = some (c.toNat - '0'.toNat, s) := by
      intro c h s
      rw [consume_octal, if_pos h]
    unfold read_escaped_char
    simp only [List.cons_append, List.nil_append, a3, a2, if_false, if_true, and_self, consume_tri_octal, ho b b2, ho c c2]
    rw [(octal_char h1 l1).1, (octal_char h2 l2).1, (octal_char h3 l3).1]
    congr 3
    omega

section
variable (n level : Nat) (acc : Chars)

theorem interp_plain {c : Char} (h1 : c ≠ '"') (h2 : c ≠ '\\') (h3 : c ≠ '#') (s : Chars) :
    read_interpolate none (some '"') (n + 1) level acc (c :: s) =
      read_interpolate none (some '"') n level (acc ++ [c]) s := by
  rw [read_interpolate.eq_def]
  simp [Ne.symm h1, h2, h3]

theorem interp_done (s : Chars) :
    read_interpolate none (some '"') (n + 1) 0 acc ('"' :: s) = .ok (.finished acc, s) := by
  rw [read_interpolate.eq_def]; simp

theorem interp_continued (s : Chars) :
    read_interpolate none (some '"') (n + 1) level acc ('\\' :: '\n' :: s) =
      read_interpolate none (some '"') n level acc s := by
  rw [read_interpolate.eq_def]; simp

theorem interp_escape {s s' : Chars} {c : Char} (h : read_escaped_char s = .ok (c, s'))
    (hn : ∀ x, s.head? = some x → x ≠ '\n') :
    read_interpolate none (some '"') (n + 1) level acc ('\\' :: s) =
      read_interpolate none (some '"') n level (acc ++ [c]) s' := by
  rw [read_interpolate.eq_def]
  simp only [Option.some.injEq, reduceCtorEq, if_false, show ('"' = '\\') = False from by simp, if_true]
  split
  · exact absurd rfl (hn _ rfl)
  · rw [h]

theorem interp_hash {s : Chars} (h : ∀ c r, s = c :: r → c ≠ '{' ∧ c ≠ '$' ∧ c ≠ '@') :
    read_interpolate none (some '"') (n + 1) level acc ('#' :: s) =
      read_interpolate none (some '"') n level (acc ++ ['#']) s := by
  rw [read_interpolate.eq_def]
  simp only [Option.some.injEq, reduceCtorEq, if_false, show ('"' = '#') = False from by simp, if_true,
    show ('#' = '\\') = False from by simp]
  split
  · exact absurd rfl (h _ _ rfl).1
  · exact absurd rfl (h _ _ rfl).2.1
  · exact absurd rfl (h _ _ rfl).2.2
  · rfl
end

/-- The text of a literal is read up to what follows. -/
theorem interp_quoted {t s : Chars} (h : Quoted t s) (rest : Chars)
    (hrest : ∀ c r, rest = c :: r → c ≠ '{' ∧ c ≠ '$' ∧ c ≠ '@') :
    ∃ k, k ≤ t.length ∧ ∀ n acc, read_interpolate none (some '"') (n + k) 0 acc (t ++ rest) =
      read_interpolate none (some '"') n 0 (acc ++ s) rest := by
  induction h with
  | nil => exact ⟨0, by simp, fun n acc => by simp⟩
  | char he _ ih =>
    rename_i e c t s _
    obtain ⟨k, hk, ih⟩ := ih
    have hl : e ≠ [] := by cases he <;> simp
    refine ⟨k + 1, ?_, fun n acc => ?_⟩
    · have : 0 < e.length := List.length_pos_iff.2 hl
      rw [List.length_append]; omega
    · rw [← Nat.add_assoc, List.append_assoc]
      cases e with
      | nil => exact absurd rfl hl
      | cons x e =>
        by_cases hx : x = '\\'
        · subst hx
          obtain ⟨h1, h2, h3⟩ := escaped_char he (t ++ rest)
          rw [List.cons_append, interp_escape _ _ _ h1, ih, List.append_assoc]; rfl
          intro y hy
          cases e with
          | nil => exact absurd rfl h3
          | cons z e => exact h2 y hy
        · cases he with
          | plain h1 h2 h3 =>
            rw [List.cons_append, interp_plain _ _ _ h1 h2 h3, List.nil_append, ih, List.append_assoc]; rfl
          | _ => exact absurd rfl hx
  | hash hc _ ih =>
    rename_i t s _
    obtain ⟨k, hk, ih⟩ := ih
    refine ⟨k + 1, by simp; omega, fun n acc => ?_⟩
    rw [← Nat.add_assoc, List.cons_append, interp_hash, ih, List.append_assoc]; rfl
    intro c r e
    cases t with
    | nil => exact hrest c r e
    | cons x t => cases e; exact hc _ _ rfl
  | continued _ ih =>
    obtain ⟨k, hk, ih⟩ := ih
    refine ⟨k + 1, by simp; omega, fun n acc => ?_⟩
    rw [← Nat.add_assoc, List.cons_append, List.cons_append, interp_continued, ih]

theorem interp_end {t s : Chars} (h : Quoted t s) (rest : Chars) (level : Nat) (hl : level = 0) :
    read_interpolate none (some '"') ((t ++ '"' :: rest).length + 1) level [] (t ++ '"' :: rest) =
      .ok (.finished s, rest) := by
  subst hl
  obtain ⟨k, hk, he⟩ := interp_quoted h ('"' :: rest) (by intro c r e; cases e; decide)
  have : (t ++ '"' :: rest).length + 1 = (((t ++ '"' :: rest).length - k) + 1) + k := by simp; omega
  rw [this, he, List.nil_append, interp_done]

/-! ## Single quotes -/

theorem single_quoted {t s : Chars} (h : SingleQuoted t s) (rest : Chars) :
    ∀ n acc, t.length < n → read_single none '\'' false n 0 acc (t ++ '\'' :: rest) = .ok (acc ++ s, rest) := by
  induction h with
  | nil =>
    intro n acc hn
    obtain ⟨m, rfl⟩ : ∃ m, n = m + 1 := ⟨n - 1, by omega⟩
    simp [read_single]
  | char h1 h2 _ ih =>
    intro n acc hn
    obtain ⟨m, rfl⟩ : ∃ m, n = m + 1 := ⟨n - 1, by omega⟩
    simp [read_single, h1, h2, ih m _ (by simpa using hn)]
  | quote _ ih =>
    intro n acc hn
    obtain ⟨m, rfl⟩ : ∃ m, n = m + 1 := ⟨n - 1, by omega⟩
    simp at hn
    simp [read_single, ih m _ (by omega)]
  | backslash _ ih =>
    intro n acc hn
    obtain ⟨m, rfl⟩ : ∃ m, n = m + 1 := ⟨n - 1, by omega⟩
    simp at hn
    simp [read_single, ih m _ (by omega)]
  | alone h1 h2 h3 _ ih =>
    intro n acc hn
    obtain ⟨m, rfl⟩ : ∃ m, n = m + 1 := ⟨n - 1, by omega⟩
    simp at hn
    simp [read_single, h1, h2, h3, ih m _ (by omega)]

/-! ## inspect -/

theorem write_char_escape {c : Char} (h : c ≠ '#') : Escape (write_char c) c := by
  unfold write_char
  split
  · rename_i hc
    rcases hc with rfl | rfl | rfl <;> exact .quoted (by decide)
  rename_i hq
  simp only [not_or] at hq
  split
  · rename_i hc
    rw [char_le, char_le] at hc
    have hc := hc.2
    rw [show ('\x06' : Char).toNat = 6 from rfl] at hc
    have : c.toNat = 0 ∨ c.toNat = 1 ∨ c.toNat = 2 ∨ c.toNat = 3 ∨ c.toNat = 4 ∨ c.toNat = 5 ∨ c.toNat = 6 := by omega
    have key : ∀ k : Nat, (Char.ofNat (48 + k), k) ∈ digitTable → ('0', 0) ∈ digitTable → k < 10 →
        Escape ('\\' :: 'x' :: two_digits k) (Char.ofNat k) := by
      intro k h1 h2 h3
      have := Escape.hex h2 h1
      rw [Nat.zero_mul, Nat.zero_add] at this
      unfold two_digits
      rw [Nat.div_eq_of_lt h3, Nat.mod_eq_of_lt h3]
      exact this
    rcases this with h | h | h | h | h | h | h
    · obtain rfl : c = Char.ofNat 0 := toNat_inj h; exact key 0 (by decide) (by decide) (by decide)
    · obtain rfl : c = Char.ofNat 1 := toNat_inj h; exact key 1 (by decide) (by decide) (by decide)
    · obtain rfl : c = Char.ofNat 2 := toNat_inj h; exact key 2 (by decide) (by decide) (by decide)
    · obtain rfl : c = Char.ofNat 3 := toNat_inj h; exact key 3 (by decide) (by decide) (by decide)
    · obtain rfl : c = Char.ofNat 4 := toNat_inj h; exact key 4 (by decide) (by decide) (by decide)
    · obtain rfl : c = Char.ofNat 5 := toNat_inj h; exact key 5 (by decide) (by decide) (by decide)
    · obtain rfl : c = Char.ofNat 6 := toNat_inj h; exact key 6 (by decide) (by decide) (by decide)
  split
  · rename_i hc; subst hc; exact .bell
  split
  · rename_i hc; subst hc; exact .backspace
  split
  · rename_i hc; subst hc; exact .tab
  split
  · rename_i hc; subst hc; exact .newline
  split
  · rename_i hc; subst hc; exact .vtab
  split
  · rename_i hc; subst hc; exact .formfeed
  split
  · rename_i hc; subst hc; exact .ret
  split
  · rename_i hc; subst hc; exact .escape
  exact .plain hq.2.1 hq.2.2 h

theorem write_char_head (c : Char) : (write_char c).head? = some '\\' ∨ write_char c = [c] := by
  unfold write_char
  split; · exact .inl rfl
  split; · exact .inl rfl
  split; · exact .inl rfl
  split; · exact .inl rfl
  split; · exact .inl rfl
  split; · exact .inl rfl
  split; · exact .inl rfl
  split; · exact .inl rfl
  split; · exact .inl rfl
  split; · exact .inl rfl
  exact .inr rfl

theorem write_quoted {s : Chars} (h : NoInterpolation s) : Quoted (write s) s := by
  induction s with
  | nil => exact .nil
  | cons c s ih =>
    obtain ⟨h1, h2⟩ := h
    by_cases hc : c = '#'
    · subst hc
      rw [write, show write_char '#' = ['#'] from by decide]
      refine .hash ?_ (ih h2)
      intro d r e
      cases s with
      | nil => cases e
      | cons x s =>
        have := h1 rfl x s rfl
        rw [write] at e
        rcases write_char_head x with hx | hx
        · cases hw : write_char x with
          | nil => rw [hw] at hx; cases hx
          | cons y w =>
            rw [hw] at hx e
            cases hx; cases e; decide
        · rw [hx] at e; cases e; exact this
    · exact .char (write_char_escape hc) (ih h2)

end Verif.Lexer
