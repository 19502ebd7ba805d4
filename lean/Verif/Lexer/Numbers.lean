import Verif.Lexer.Props
/-!
# Number literals with a fraction or an exponent (C50) and numbered special variables (C73)

The text that the lexer hands to Rust's `parse::<f64>` is what the token `FloatLit` carries; that conversion is not
modelled.
-/
namespace Verif.Lexer

/-! ## Specification -/

/-- A number without its underscores. -/
def Digits (t u : Chars) : Prop := (∃ ds, Spells 10 t ds ∧ Spells 10 u ds) ∧ '_' ∉ u

/-- Digits that begin with a digit. -/
def Number (t u : Chars) : Prop := Digits t u ∧ t ≠ [] ∧ t.head? ≠ some '_'

/-- The fraction of a literal, and its plain form. -/
inductive Fraction : Chars → Chars → Prop
  | none : Fraction [] []
  | some {t u} : Number t u → Fraction ('.' :: t) ('.' :: u)

/-- The exponent of a literal, and its plain form. -/
inductive Exponent : Chars → Chars → Prop
  | none : Exponent [] []
  | bare {e t u} : e = 'e' ∨ e = 'E' → Number t u → Exponent (e :: t) ('e' :: u)
  | plus {e t u} : e = 'e' ∨ e = 'E' → Number t u → Exponent (e :: '+' :: t) ('e' :: u)
  | minus {e t u} : e = 'e' ∨ e = 'E' → Number t u → Exponent (e :: '-' :: t) ('e' :: '-' :: u)

/-- The text after a number does not go on with it. -/
def FloatEnds (x rest : Chars) : Prop :=
  ∀ c r, rest = c :: r → is_digit c = false ∧ c ≠ '_' ∧ (x = [] → c ≠ 'e' ∧ c ≠ 'E')

/-! ## Helpers -/

theorem strip_no_underscore (t : Chars) : '_' ∉ strip t := by simp [strip]

theorem digits_eq {t u : Chars} (h : Digits t u) : ∃ ds, Spells 10 t ds ∧ Spells 10 u ds ∧ u.length = ds.length := by
  obtain ⟨⟨ds, h1, h2⟩, h3⟩ := h
  refine ⟨ds, h1, h2, ?_⟩
  clear h1
  induction h2 with
  | nil => rfl
  | digit _ _ _ ih => simp [ih (fun h => h3 (List.mem_cons_of_mem _ h))]
  | underscore _ _ => exact absurd List.mem_cons_self h3

theorem table_char {c c' : Char} {d : Nat} (h : (c, d) ∈ digitTable) (h' : (c', d) ∈ digitTable) (hd : d < 10) : c = c' := by
  have : ∀ p ∈ digitTable, ∀ q ∈ digitTable, p.2 = q.2 → p.2 < 10 → p.1 = q.1 := by decide
  exact this _ h _ h' rfl hd

theorem spells_plain {u v : Chars} {ds : List Nat} (h : Spells 10 u ds) (hu : '_' ∉ u) (h' : Spells 10 v ds) (hv : '_' ∉ v) :
    u = v := by
  induction h generalizing v with
  | nil =>
    cases h' with
    | nil => rfl
    | underscore _ => exact absurd List.mem_cons_self hv
  | digit h1 h2 _ ih =>
    cases h' with
    | digit h3 _ h5 =>
      rw [table_char h1 h3 h2, ih (fun h => hu (List.mem_cons_of_mem _ h)) h5 (fun h => hv (List.mem_cons_of_mem _ h))]
    | underscore _ => exact absurd List.mem_cons_self hv
  | underscore _ _ => exact absurd List.mem_cons_self hu

theorem digits_strip {t u : Chars} (h : Digits t u) : (∃ ds, Spells 10 t ds) ∧ u = strip t := by
  obtain ⟨⟨ds, h1, h2⟩, h3⟩ := h
  exact ⟨⟨ds, h1⟩, spells_plain h2 h3 h1.strip (strip_no_underscore t)⟩

theorem strip_digit {c : Char} {d : Nat} (h : (c, d) ∈ digitTable) (t : Chars) : strip (c :: t) = c :: strip t := by
  unfold strip
  rw [List.filter_cons_of_pos (by simpa using digit_ne_underscore h)]

theorem decimal_run {t : Chars} {ds : List Nat} (h : Spells 10 t ds) (acc : Chars) (fl : Bool) (rest : Chars) :
    decimal acc fl (t ++ rest) = decimal (acc ++ strip t) fl rest := by
  induction h generalizing acc with
  | nil => simp [strip]
  | digit h1 h2 _ ih =>
    rw [List.cons_append, decimal_digit (digitTable_digit h1 h2).1, ih, strip_digit h1]
    simp
  | underscore _ ih =>
    rw [List.cons_append, decimal_underscore, ih]
    unfold strip
    rw [List.filter_cons_of_neg (by simp)]

theorem exponent_run {t : Chars} {ds : List Nat} (h : Spells 10 t ds) (acc : Chars) (rest : Chars) :
    exponent acc (t ++ rest) = exponent (acc ++ strip t) rest := by
  induction h generalizing acc with
  | nil => simp [strip]
  | digit h1 h2 _ ih =>
    rw [List.cons_append, exponent.eq_def]
    simp only [(digitTable_digit h1 h2).1, if_true]
    rw [ih, strip_digit h1]
    simp
  | underscore _ ih =>
    rw [List.cons_append, exponent.eq_def]
    simp only [show is_digit '_' = false from by decide, if_true, Bool.false_eq_true, if_false]
    rw [ih]
    unfold strip
    rw [List.filter_cons_of_neg (by simp)]

theorem exponent_stop {rest : Chars} (h : ∀ c r, rest = c :: r → is_digit c = false ∧ c ≠ '_') (acc : Chars) :
    exponent acc rest = (acc, rest) := by
  cases rest with
  | nil => rfl
  | cons c r => obtain ⟨h1, h2⟩ := h c r rfl; simp [exponent, h1, h2]

theorem decimal_stop_true {rest : Chars} (h : ∀ c r, rest = c :: r → is_digit c = false ∧ c ≠ '_') (acc : Chars) :
    decimal acc true rest = (acc, true, rest) := by
  cases rest with
  | nil => rfl
  | cons c r => obtain ⟨h1, h2⟩ := h c r rfl; rw [decimal.eq_def]; simp [h1, h2]

theorem decimal_stop_e {e : Char} (h : e = 'e' ∨ e = 'E') (acc : Chars) (fl : Bool) (s : Chars) :
    decimal acc fl (e :: s) = (acc, fl, e :: s) := by
  have h1 : is_digit e = false ∧ e ≠ '_' ∧ e ≠ '.' := by rcases h with rfl | rfl <;> decide
  rw [decimal.eq_def]
  simp [h1]

theorem number_cons {t u : Chars} (h : Number t u) : ∃ c d t' ds, t = c :: t' ∧ (c, d) ∈ digitTable ∧ d < 10 ∧
    Spells 10 t' ds ∧ is_digit c = true ∧ u = c :: strip t' := by
  obtain ⟨h1, h2, h3⟩ := h
  obtain ⟨⟨ds, h4⟩, h5⟩ := digits_strip h1
  cases h4 with
  | nil => exact absurd rfl h2
  | digit a b c => exact ⟨_, _, _, _, rfl, a, b, c, (digitTable_digit a b).1, by rw [h5, strip_digit a]⟩
  | underscore => exact absurd rfl h3

theorem decimal_fraction {i u f g rest : Chars} {c : Char} (h : ∃ ds, Spells 10 i ds) (hu : u = c :: strip i)
    (hf : Fraction f g) (hr : ∀ c r, rest = c :: r → is_digit c = false ∧ c ≠ '_')
    (hd : f = [] → ∀ fl acc, decimal acc fl rest = (acc, fl, rest)) :
    decimal [c] false (i ++ (f ++ rest)) = (u ++ g, !f.isEmpty, rest) := by
  obtain ⟨ds, h⟩ := h
  rw [decimal_run h]
  cases hf with
  | none => simp only [List.nil_append, List.append_nil]; rw [hd rfl, hu]; simp
  | some hn =>
    obtain ⟨c', d, t', ds', rfl, h1, h2, h3, h4, rfl⟩ := number_cons hn
    rw [List.cons_append, List.cons_append, decimal.eq_def]
    simp only [show is_digit '.' = false from by decide, show ('.' : Char) ≠ '_' from by decide, if_true, Bool.false_eq_true,
      if_false, and_self, List.cons_append]
    rw [if_pos h4, decimal_run h3, decimal_stop_true hr, hu]
    simp

theorem exponent_read {x y rest : Chars} (h : Exponent x y) (acc : Chars) (fl : Bool) (hr : FloatEnds x rest) :
    exponent_part acc fl (x ++ rest) = .ok ((acc ++ y, fl || !x.isEmpty), rest) := by
  have hs : ∀ c r, rest = c :: r → is_digit c = false ∧ c ≠ '_' := fun c r e => ⟨(hr c r e).1, (hr c r e).2.1⟩
  cases h with
  | none =>
    simp only [List.nil_append, List.append_nil, List.isEmpty_nil, Bool.not_true, Bool.or_false]
    unfold exponent_part
    split
    · exact absurd rfl ((hr _ _ rfl).2.2 rfl).1
    · exact absurd rfl ((hr _ _ rfl).2.2 rfl).2
    · rfl
  | bare he hn =>
    obtain ⟨c, d, t', ds', rfl, h1, h2, h3, h4, rfl⟩ := number_cons hn
    have hp : c ≠ '+' ∧ c ≠ '-' := by constructor <;> (rintro rfl; revert h4; decide)
    have key : consume_numeric (c :: (t' ++ rest)) = some (c, t' ++ rest) := by simp [consume_numeric, h4]
    rcases he with rfl | rfl <;>
    · unfold exponent_part
      simp only [List.cons_append]
      have hm : exponent_sign acc (c :: (t' ++ rest)) = (acc ++ ['e'], c :: (t' ++ rest)) := by
        unfold exponent_sign
        split
        · rename_i e; simp only [List.cons.injEq] at e; exact absurd e.1 hp.1
        · rename_i e; simp only [List.cons.injEq] at e; exact absurd e.1 hp.2
        · rfl
      simp only [hm, key, exponent_run h3, exponent_stop hs]
      simp
  | plus he hn =>
    obtain ⟨c, d, t', ds', rfl, h1, h2, h3, h4, rfl⟩ := number_cons hn
    have key : consume_numeric (c :: (t' ++ rest)) = some (c, t' ++ rest) := by simp [consume_numeric, h4]
    rcases he with rfl | rfl <;>
    · unfold exponent_part
      simp only [List.cons_append, exponent_sign, key, exponent_run h3, exponent_stop hs]
      simp
  | minus he hn =>
    obtain ⟨c, d, t', ds', rfl, h1, h2, h3, h4, rfl⟩ := number_cons hn
    have key : consume_numeric (c :: (t' ++ rest)) = some (c, t' ++ rest) := by simp [consume_numeric, h4]
    rcases he with rfl | rfl <;>
    · unfold exponent_part
      simp only [List.cons_append, exponent_sign, key, exponent_run h3, exponent_stop hs]
      simp

/-- The literal up to its end, with or without the `i` of an imaginary number. -/
theorem float_read (U : Unicode) {i u f g x y : Chars} (hi : Number i u) (hf : Fraction f g) (hx : Exponent x y)
    (hfx : f ≠ [] ∨ x ≠ []) {rest : Chars} (hr : FloatEnds x rest) :
    read_token U (i ++ f ++ x ++ rest) =
      match (generalizing := false) rest with
      | 'i' :: s => .ok (.ImaginaryLit (.Float (u ++ g ++ y)), s)
      | s => .ok (.FloatLit (u ++ g ++ y), s) := by
  obtain ⟨c, d, t, ds, rfl, h1, h2, h3, h4, rfl⟩ := number_cons hi
  have hs : ∀ c r, x ++ rest = c :: r → is_digit c = false ∧ c ≠ '_' := by
    intro a r e
    cases hx with
    | none => exact ⟨(hr a r e).1, (hr a r e).2.1⟩
    | bare he => cases e; rcases he with rfl | rfl <;> decide
    | plus he => cases e; rcases he with rfl | rfl <;> decide
    | minus he => cases e; rcases he with rfl | rfl <;> decide
  have hd := decimal_fraction (i := t) (u := c :: strip t) (c := c) (f := f) (g := g) (rest := x ++ rest) ⟨ds, h3⟩ rfl hf hs (by
    intro he fl acc
    cases hx with
    | none => simp [he] at hfx
    | bare he => exact decimal_stop_e he _ _ _
    | plus he => exact decimal_stop_e he _ _ _
    | minus he => exact decimal_stop_e he _ _ _)
  have hz : ∀ r, c :: t ++ f ++ x ++ rest ≠ '0' :: 'x' :: r ∧ c :: t ++ f ++ x ++ rest ≠ '0' :: 'b' :: r := by
    intro r
    have hb : ∀ a s, t ++ (f ++ (x ++ rest)) = a :: s → a ≠ 'x' ∧ a ≠ 'b' := by
      intro a s e
      cases h3 with
      | digit k1 k2 _ =>
        cases e
        constructor
        · rintro rfl; revert k1; simp [digitTable]
        · rintro rfl; revert k1; simp [digitTable]; omega
      | underscore => cases e; decide
      | nil =>
        cases hf with
        | some _ => cases e; decide
        | none =>
          cases hx with
          | none => simp at hfx
          | bare he => cases e; rcases he with rfl | rfl <;> decide
          | plus he => cases e; rcases he with rfl | rfl <;> decide
          | minus he => cases e; rcases he with rfl | rfl <;> decide
    constructor <;>
    · intro e
      simp only [List.cons_append, List.append_assoc, List.cons.injEq] at e
      have := hb _ _ e.2
      simp at this
  have e' : c :: t ++ f ++ x ++ rest = c :: (t ++ (f ++ (x ++ rest))) := by simp
  rw [e'] at hz ⊢
  rw [read_token_digit U h4]
  have : read_number_literal c (t ++ (f ++ (x ++ rest))) = read_decimal c (t ++ (f ++ (x ++ rest))) := by
    unfold read_number_literal
    split
    · rename_i e; exact absurd (congrArg ('0' :: ·) e) (hz _).1
    · rename_i e; exact absurd (congrArg ('0' :: ·) e) (hz _).2
    · rfl
  rw [this]
  unfold read_decimal
  rw [hd]
  simp only
  rw [exponent_read hx _ _ hr]
  have hfl : (!f.isEmpty || !x.isEmpty) = true := by
    rcases hfx with h | h <;> cases f <;> cases x <;> simp_all
  simp only [hfl, h4, if_true]
  split
  · rfl
  · rename_i hne
    split
    · rename_i e; exact absurd rfl (hne _)
    · rfl

/-! ## C50 -/

/-- **C50 (floats).**  A literal with a fraction or an exponent is one token, a float; the text that is turned into the number
is the literal without its underscores and without a plus sign. -/
theorem C50_float_partial (U : Unicode) {i u f g x y : Chars} (hi : Number i u) (hf : Fraction f g) (hx : Exponent x y)
    (hfx : f ≠ [] ∨ x ≠ []) {rest : Chars} (hr : FloatEnds x rest) (hn : rest.head? ≠ some 'i') :
    read_token U (i ++ f ++ x ++ rest) = .ok (.FloatLit (u ++ g ++ y), rest) := by
  rw [float_read U hi hf hx hfx hr]
  split
  · simp at hn
  · rfl

/-- With `i` behind it, it is the imaginary number of that float. -/
theorem C50_imaginary_float_partial (U : Unicode) {i u f g x y : Chars} (hi : Number i u) (hf : Fraction f g) (hx : Exponent x y)
    (hfx : f ≠ [] ∨ x ≠ []) (rest : Chars) :
    read_token U (i ++ f ++ x ++ 'i' :: rest) = .ok (.ImaginaryLit (.Float (u ++ g ++ y)), rest) := by
  rw [float_read U hi hf hx hfx (by intro c r e; cases e; exact ⟨by decide, by decide, fun _ => ⟨by decide, by decide⟩⟩)]
  rfl

example : read_token ⟨fun _ => false, fun _ => false⟩ "1_0.2_5E+0_3 ".toList = .ok (.FloatLit "10.25e03".toList, [' ']) := by
  have n : Number ['1', '_', '0'] ['1', '0'] := ⟨⟨⟨[1, 0], .digit (by decide) (by decide) (.underscore (.digit (by decide) (by decide) .nil)),
    .digit (by decide) (by decide) (.digit (by decide) (by decide) .nil)⟩, by decide⟩, by decide, by decide⟩
  have f : Number ['2', '_', '5'] ['2', '5'] := ⟨⟨⟨[2, 5], .digit (by decide) (by decide) (.underscore (.digit (by decide) (by decide) .nil)),
    .digit (by decide) (by decide) (.digit (by decide) (by decide) .nil)⟩, by decide⟩, by decide, by decide⟩
  have x : Number ['0', '_', '3'] ['0', '3'] := ⟨⟨⟨[0, 3], .digit (by decide) (by decide) (.underscore (.digit (by decide) (by decide) .nil)),
    .digit (by decide) (by decide) (.digit (by decide) (by decide) .nil)⟩, by decide⟩, by decide, by decide⟩
  exact C50_float_partial _ n (.some f) (.plus (.inr rfl) x) (.inl (by decide)) (rest := [' '])
    (by intro c r e; cases e; exact ⟨by decide, by decide, fun h => absurd h (by decide)⟩) (by decide)

/-! ## C73: numbered special variables -/

/-- **C73 (groups of a match).**  `$1`, …, `$9` are read as the group of that number, `$&` and `$'` as the match and the text after
it. -/
theorem C73_special_partial (U : Unicode) {c : Char} {d : Nat} (h : (c, d) ∈ digitTable) (hd : 0 < d ∧ d < 10) {rest : Chars}
    (hr : ∀ x r, rest = x :: r → is_digit x = false) :
    read_token U ('$' :: c :: rest) = .ok (.SpecialVar (100 + d), rest) ∧
    read_token U ('$' :: '&' :: rest) = .ok (.SpecialVar 0, rest) ∧
    read_token U ('$' :: '\'' :: rest) = .ok (.SpecialVar 1, rest) := by
  obtain ⟨h1, h2⟩ := digitTable_digit h hd.2
  have h0 : c ≠ '0' := by rintro rfl; simp [digitTable] at h; omega
  refine ⟨?_, ?_, ?_⟩
  · rw [read_token_nonspace U (by decide) (by decide) (by decide)]
    rw [show read_token_at U ('$' :: c :: rest) = read_global_var U (c :: rest) from rfl]
    have hs : special_digits (c.toNat - '0'.toNat) rest = (d, rest) := by
      rw [h2]
      cases rest with
      | nil => rfl
      | cons x r => simp [special_digits, hr x r rfl]
    have hc : consume_numeric (c :: rest) = some (c, rest) := by simp [consume_numeric, h1]
    unfold read_global_var
    rw [hc]
    split
    · rename_i e; simp at e; exact absurd e.1 h0
    · rename_i e; cases e; rw [hs]; simp [Nat.add_comm]
    · rename_i e; simp at e
  · rw [read_token_nonspace U (by decide) (by decide) (by decide)]; rfl
  · rw [read_token_nonspace U (by decide) (by decide) (by decide)]; rfl

example : read_token ⟨fun _ => false, fun _ => false⟩ "$3+1".toList = .ok (.SpecialVar 103, "+1".toList) := by decide

/-- From ten on the digits are added up: `$12` is read as `$3`. -/
theorem C73_special_fails (U : Unicode) (rest : Chars) (hr : ∀ x r, rest = x :: r → is_digit x = false) :
    read_token U ('$' :: '1' :: '2' :: rest) = read_token U ('$' :: '3' :: rest) := by
  rw [read_token_nonspace U (by decide) (by decide) (by decide), read_token_nonspace U (by decide) (by decide) (by decide)]
  show read_global_var U ('1' :: '2' :: rest) = read_global_var U ('3' :: rest)
  have hs : special_digits 3 rest = (3, rest) := by
    cases rest with
    | nil => rfl
    | cons x r => simp [special_digits, hr x r rfl]
  show Except.ok (Tok.SpecialVar ((special_digits 3 rest).1 + 100), (special_digits 3 rest).2) =
    Except.ok (Tok.SpecialVar ((special_digits 3 rest).1 + 100), (special_digits 3 rest).2)
  rfl

end Verif.Lexer
