import Verif.Lexer.StrLemmas
import Verif.Arith.Lemmas
/-!
# Number literals, tokens, string literals (C50, C73, C74, C75)
-/
namespace Verif.Lexer
open Verif.Arith (num)

/-! ## C50: a number literal denotes the number it spells -/

/-- The value that the compiler makes of a number token: ruruby-parse/src/parser/expression.rs:681-682 (the node) and
ruruby/src/codegen.rs:621-622 (its value). -/
def literalValue : Tok → Option Value.Val
  | .IntegerLit i => some (Value.integer i)
  | .BignumLit n => some (Value.bignum n)
  | _ => none

theorem literalValue_number {v : Nat} : literalValue (number (v : Int)).tok = some (num v) := by
  unfold number
  split
  · rename_i h
    show some _ = _
    rw [Arith.integer_eq_num (by unfold Value.InI64; unfold i64Max at h; omega)]
  · rfl

/-- A decimal literal, of any number of digits and with underscores between them, denotes the number it spells. -/
theorem C50_decimal (U : Unicode) {t rest : Chars} {ds : List Nat} (h : Spells 10 t ds) (h0 : t ≠ [])
    (h1 : t.head? ≠ some '_') (hr : NumberEnds 10 rest)
    (hz : ∀ r, t = ['0'] → rest ≠ 'x' :: r ∧ rest ≠ 'b' :: r) :
    ∃ tok, read_token U (t ++ rest) = .ok (tok, rest) ∧ literalValue tok = some (num (value 10 ds)) := by
  cases t with
  | nil => exact absurd rfl h0
  | cons c t =>
    have hc : c ≠ '_' := by simpa using h1
    have hd : is_digit c = true := by
      cases h with
      | digit h1 h2 _ => exact (digitTable_digit h1 h2).1
      | underscore => exact absurd rfl hc
    refine ⟨_, ?_, literalValue_number⟩
    rw [List.cons_append, read_token_digit U hd, ← read_decimal_spells h hc hr]
    unfold read_number_literal
    have ht : ∀ x r, t ++ rest = x :: r → c = '0' → x ≠ 'x' ∧ x ≠ 'b' := by
      rintro x r e rfl
      cases t with
      | nil =>
        have := hz r rfl
        simp only [List.nil_append] at e
        subst e
        exact ⟨fun h => this.1 (by rw [h]), fun h => this.2 (by rw [h])⟩
      | cons y t =>
        cases e
        cases h with
        | digit _ _ h =>
          cases h with
          | digit h1 h2 _ =>
            constructor
            · rintro rfl; revert h1; simp [digitTable]
            · rintro rfl; revert h1; simp [digitTable]; omega
          | underscore => decide
    split
    · rename_i heq; exact absurd rfl (ht _ _ heq rfl).1
    · rename_i heq; exact absurd rfl (ht _ _ heq rfl).2
    · rfl

example : ∃ tok, read_token ⟨fun _ => false, fun _ => false⟩ ("1_000_000_000_000_000_000_000+x".toList) =
    .ok (tok, "+x".toList) ∧ literalValue tok = some (num 1000000000000000000000) := by
  have h : "1_000_000_000_000_000_000_000+x".toList =
    ['1','_','0','0','0','_','0','0','0','_','0','0','0','_','0','0','0','_','0','0','0','_','0','0','0','_','0','0','0'] ++
      "+x".toList := by decide
  rw [h]
  refine C50_decimal _ (ds := [1,0,0,0,0,0,0,0,0,0,0,0,0,0,0,0,0,0,0,0,0,0]) ?_ (by decide) (by decide) ?_ (by simp)
  · repeat (first | exact .nil | refine .digit (by decide) (by decide) ?_ | refine .underscore ?_)
  · rw [show "+x".toList = ['+', 'x'] from by decide]
    refine ⟨by decide, ?_, fun _ => ⟨by decide, by decide, by decide, ?_⟩⟩
    · intro d hd; simp [digitTable] at hd
    · intro d v r _ h; exact absurd h (by decide)

theorem hex_digits_spells {t : Chars} {ds : List Nat} (h : Spells 16 t ds) {rest : Chars} (hr : NumberEnds 16 rest) :
    hex_digits (t ++ rest) = (t, rest) := by
  induction h with
  | nil =>
    cases rest with
    | nil => rfl
    | cons c r =>
      obtain ⟨h1, h2, _⟩ := hr
      have : to_digit 16 c = none := by
        cases hc : to_digit 16 c with
        | none => rfl
        | some d =>
          obtain ⟨h3, h4⟩ := digitTable_of_to_digit hc
          exact absurd h4 (h2 d h3)
      simp [hex_digits, this, h1]
  | digit h1 h2 _ ih => simp [hex_digits, digitTable_to_digit h1 h2, ih]
  | underscore _ ih => simp [hex_digits, ih]

/-- So does a hexadecimal literal. -/
theorem C50_hex (U : Unicode) {t rest : Chars} {ds : List Nat} (h : Spells 16 t ds) (h0 : t ≠ [])
    (h1 : t.head? ≠ some '_') (hr : NumberEnds 16 rest) :
    ∃ tok, read_token U ('0' :: 'x' :: t ++ rest) = .ok (tok, rest) ∧ literalValue tok = some (num (value 16 ds)) := by
  refine ⟨_, ?_, literalValue_number⟩
  rw [List.cons_append, List.cons_append, read_token_digit U (by decide)]
  rw [show read_number_literal '0' ('x' :: (t ++ rest)) = read_hex_number (t ++ rest) from rfl]
  unfold read_hex_number
  have he : ∃ x, expect_hex (t ++ rest) = .ok x := by
    cases h with
    | nil => exact absurd rfl h0
    | digit h2 _ _ => exact ⟨_, expect_hex_digit h2 _⟩
    | underscore => exact absurd rfl h1
  obtain ⟨x, he⟩ := he
  simp only [he, hex_digits_spells h hr, parse_bytes_spells h h0 h1]

example : ∃ tok, read_token ⟨fun _ => false, fun _ => false⟩ ("0xFf_f".toList) = .ok (tok, []) ∧
    literalValue tok = some (num 4095) := by
  refine C50_hex _ (t := ['F', 'f', '_', 'f']) (rest := []) (ds := [15, 15, 15]) ?_ (by decide) (by decide) trivial
  repeat (first | exact .nil | refine .digit (by decide) (by decide) ?_ | refine .underscore ?_)

theorem bin_digits_spells {t : Chars} {ds : List Nat} (h : Spells 2 t ds) {rest : Chars} (hr : NumberEnds 2 rest)
    (v : Nat) : bin_digits (BitVec.ofNat 64 v) (t ++ rest) =
      (BitVec.ofNat 64 (ds.foldl (fun v d => v * 2 + d) v), rest) := by
  induction h generalizing v with
  | nil =>
    cases rest with
    | nil => rfl
    | cons c r =>
      obtain ⟨h1, h2, _⟩ := hr
      have h0 : c ≠ '0' := by rintro rfl; exact h2 0 (by decide) (by decide)
      have h3 : c ≠ '1' := by rintro rfl; exact h2 1 (by decide) (by decide)
      simp [bin_digits, h0, h1, h3]
  | digit h1 h2 _ ih =>
    rename_i c d t ds _
    have hc : (c = '0' ∧ d = 0) ∨ (c = '1' ∧ d = 1) := by
      have : ∀ p ∈ digitTable, p.2 < 2 → (p.1 = '0' ∧ p.2 = 0) ∨ (p.1 = '1' ∧ p.2 = 1) := by decide
      exact this _ h1 h2
    have hstep : ∀ k, BitVec.ofNat 64 v * 2 + BitVec.ofNat 64 k = BitVec.ofNat 64 (v * 2 + k) := by
      intro k; rw [BitVec.ofNat_add, BitVec.ofNat_mul]; rfl
    rcases hc with ⟨rfl, rfl⟩ | ⟨rfl, rfl⟩
    · rw [List.cons_append, bin_digits, if_pos (Or.inl rfl), hstep, ih]; rfl
    · rw [List.cons_append, bin_digits, if_pos (Or.inr rfl), hstep, ih]; rfl
  | underscore _ ih => rw [List.cons_append, bin_digits, if_neg (by decide), if_pos rfl, ih]

/-- A binary literal denotes the number it spells taken modulo 2^64, as a signed number. -/
theorem C50_bin_wraps (U : Unicode) {t rest : Chars} {ds : List Nat} (h : Spells 2 t ds) (h0 : t ≠ [])
    (h1 : t.head? ≠ some '_') (hr : NumberEnds 2 rest) :
    read_token U ('0' :: 'b' :: t ++ rest) = .ok (.IntegerLit ((value 2 ds : Int).bmod (2 ^ 64)), rest) := by
  rw [List.cons_append, List.cons_append, read_token_digit U (by decide)]
  rw [show read_number_literal '0' ('b' :: (t ++ rest)) = read_bin_number (t ++ rest) from rfl]
  cases h with
  | nil => exact absurd rfl h0
  | underscore => exact absurd rfl h1
  | digit h2 h3 h =>
    rename_i c d t ds
    have hc : (c = '0' ∧ d = 0) ∨ (c = '1' ∧ d = 1) := by
      have : ∀ p ∈ digitTable, p.2 < 2 → (p.1 = '0' ∧ p.2 = 0) ∨ (p.1 = '1' ∧ p.2 = 1) := by decide
      exact this _ h2 h3
    have hv : ∀ n, (BitVec.ofNat 64 n).toInt = (n : Int).bmod (2 ^ 64) := fun n => by
      rw [BitVec.toInt_ofNat']
    rcases hc with ⟨rfl, rfl⟩ | ⟨rfl, rfl⟩
    · rw [List.cons_append, read_bin_number, if_pos (Or.inl rfl),
        show BitVec.ofNat 64 ('0'.toNat - '0'.toNat) = BitVec.ofNat 64 0 from rfl, bin_digits_spells h hr]
      simp only [hv]; rfl
    · rw [List.cons_append, read_bin_number, if_pos (Or.inr rfl),
        show BitVec.ofNat 64 ('1'.toNat - '0'.toNat) = BitVec.ofNat 64 1 from rfl, bin_digits_spells h hr]
      simp only [hv]; rfl

/-- A binary literal denotes the number it spells if that is below 2^63.  Missing: larger numbers, for which the
literal denotes something else (`C50_bin_fails`). -/
theorem C50_bin_partial (U : Unicode) {t rest : Chars} {ds : List Nat} (h : Spells 2 t ds) (h0 : t ≠ [])
    (h1 : t.head? ≠ some '_') (hr : NumberEnds 2 rest) (hv : value 2 ds < 2 ^ 63) :
    ∃ tok, read_token U ('0' :: 'b' :: t ++ rest) = .ok (tok, rest) ∧ literalValue tok = some (num (value 2 ds)) := by
  refine ⟨_, C50_bin_wraps U h h0 h1 hr, ?_⟩
  generalize value 2 ds = v at hv
  have : ((v : Int).bmod (2 ^ 64)) = v := by
    rw [Int.bmod_eq_of_le] <;> omega
  rw [this]
  show some _ = _
  rw [Arith.integer_eq_num (by unfold Value.InI64; omega)]

example : ∃ tok, read_token ⟨fun _ => false, fun _ => false⟩ ("0b1_01".toList) = .ok (tok, []) ∧
    literalValue tok = some (num 5) := by
  refine C50_bin_partial _ (t := ['1', '_', '0', '1']) (rest := []) (ds := [1, 0, 1]) ?_ (by decide) (by decide) trivial
    (by decide)
  repeat (first | exact .nil | refine .digit (by decide) (by decide) ?_ | refine .underscore ?_)

/-- A binary literal of 64 digits denotes a negative number. -/
theorem C50_bin_fails : ∃ (t : Chars) (ds : List Nat), Spells 2 t ds ∧ value 2 ds = 2 ^ 64 - 1 ∧
    ∀ U, read_token U ('0' :: 'b' :: t) = .ok (.IntegerLit (-1), []) := by
  have hs : ∀ n, Spells 2 (List.replicate n '1') (List.replicate n 1) := by
    intro n
    induction n with
    | zero => exact .nil
    | succ n ih => exact .digit (by decide) (by decide) ih
  have hv : value 2 (List.replicate 64 1) = 2 ^ 64 - 1 := by decide
  refine ⟨List.replicate 64 '1', List.replicate 64 1, hs _, hv, fun U => ?_⟩
  have := C50_bin_wraps U (hs 64) (by decide) (by decide) (rest := []) trivial
  rw [List.append_nil] at this
  rw [this, hv]
  rfl

/-! ## C73: the text of a token is read as that token -/

/-- Where several operators start the text, the longest is read. -/
theorem C73_longest (U : Unicode) {t : String} {p : Punct} (h : (t, p) ∈ operators) (hp : p ≠ .Backslash) {rest : Chars}
    (hl : ∀ q ∈ operators, t.length < q.1.length → ¬ q.1.toList <+: t.toList ++ rest) :
    read_token U (t.toList ++ rest) = .ok (.Punct p, rest) :=
  read_operator U h hp hl

example : read_token ⟨fun _ => false, fun _ => false⟩ "<=>=".toList = .ok (.Punct .Cmp, ['=']) := by
  have := C73_longest ⟨fun _ => false, fun _ => false⟩ (t := "<=>") (p := .Cmp) (by decide) (by decide) (rest := ['=']) (by decide)
  simpa using this

/-- There is no `**=`: the text is read as `**` and `=`. -/
theorem C73_power_assign_fails (U : Unicode) (rest : Chars) :
    read_token U ('*' :: '*' :: '=' :: rest) = .ok (.Punct .DMul, '=' :: rest) := by
  rw [read_token_punct U (by decide) (by decide)]; rfl

theorem operator_blank {t : String} {rest : Chars} (ht : t ≠ "") (hr : Ends rest) :
    ∀ q ∈ operators, t.length < q.1.length → ¬ q.1.toList <+: t.toList ++ rest := by
  intro q hq hlen hpre
  obtain ⟨r, hr'⟩ := hpre
  rw [← String.length_toList, ← String.length_toList] at hlen
  have hsp : ∀ q ∈ operators, ∀ c ∈ q.1.toList.drop 1, ¬ (is_space c = true ∨ c = '(' ∨ c = '[') := by decide
  have hx := congrArg (fun l => l[t.toList.length]?) hr'
  simp only [List.getElem?_append_right (Nat.le_refl _), Nat.sub_self] at hx
  rw [List.getElem?_append_left hlen, List.getElem?_eq_getElem hlen] at hx
  cases rest with
  | nil => cases hx
  | cons c rest =>
    simp only [List.getElem?_cons_zero, Option.some.injEq] at hx
    have h0 : 0 < t.toList.length := by
      rcases Nat.eq_zero_or_pos t.toList.length with h | h
      · exact absurd (String.toList_injective (List.length_eq_zero_iff.1 h)) ht
      · exact h
    have hm : c ∈ q.1.toList.drop 1 := by
      rw [← hx]
      refine List.mem_of_getElem? (i := t.toList.length - 1) ?_
      rw [List.getElem?_drop, show 1 + (t.toList.length - 1) = t.toList.length from by omega,
        List.getElem?_eq_getElem hlen]
    exact absurd hr (hsp q hq _ hm)

theorem read_var_name (U : Unicode) {c : Char} {t rest : Chars} (hc : is_alpha c = true ∨ c = '_')
    (ht : ∀ x ∈ t, is_ident x = true) (hr : Ends rest) (pre : Chars) :
    read_var U pre (c :: (t ++ rest)) = .ok (pre ++ c :: t, rest) := by
  unfold read_var
  have : (is_alphanumeric U c || c == '_' || c == '&' || c == '\'') = true := by
    rcases hc with hc | rfl
    · have h2 := (is_alpha_iff c).1 hc
      have : is_ascii c = true := by unfold is_ascii; simp; omega
      simp [is_alphanumeric, this, hc]
    · simp
  simp only [this, if_true, consume_ident_all ht hr.not_ident]

theorem number_ends {rest : Chars} (h : Ends rest) : NumberEnds 10 rest := by
  cases rest with
  | nil => trivial
  | cons c r =>
    have hc : is_space c = true ∨ c = '(' ∨ c = '[' := h
    refine ⟨?_, ?_, fun _ => ⟨?_, ?_, ?_, ?_⟩⟩
    · rintro rfl; revert hc; decide
    · intro d hd
      have : ∀ p ∈ digitTable, ¬ (is_space p.1 = true ∨ p.1 = '(' ∨ p.1 = '[') := by decide
      exact absurd hc (this _ hd)
    · rintro rfl; revert hc; decide
    · rintro rfl; revert hc; decide
    · rintro rfl; revert hc; decide
    · rintro d v r _ rfl; exact absurd hc (by decide)

theorem read_decimal_token (U : Unicode) {t : Chars} {ds : List Nat} (h : Spells 10 t ds) (h0 : t.head? ≠ some '_')
    (h1 : t ≠ []) {rest : Chars} (hr : Ends rest) :
    read_token U (t ++ rest) = .ok ((number (value 10 ds)).tok, rest) := by
  obtain ⟨c, t, rfl⟩ : ∃ c u, t = c :: u := by cases t; exact absurd rfl h1; exact ⟨_, _, rfl⟩
  have hc : c ≠ '_' := by simpa using h0
  have hd : is_digit c = true := by
    cases h with
    | digit h1 h2 _ => exact (digitTable_digit h1 h2).1
    | underscore => exact absurd rfl hc
  rw [List.cons_append, read_token_digit U hd, ← read_decimal_spells h hc (number_ends hr)]
  unfold read_number_literal
  have ht : ∀ x r, t ++ rest = x :: r → x ≠ 'x' ∧ x ≠ 'b' := by
    intro x r e
    cases t with
    | nil =>
      simp only [List.nil_append] at e
      subst e
      have hx : is_space x = true ∨ x = '(' ∨ x = '[' := hr
      constructor <;> (rintro rfl; revert hx; decide)
    | cons y t =>
      cases e
      cases h with
      | digit _ _ h =>
        cases h with
        | digit h1 h2 _ =>
          constructor
          · rintro rfl; revert h1; simp [digitTable]
          · rintro rfl; revert h1; simp [digitTable]; omega
        | underscore => decide
      | underscore => exact absurd rfl hc
  split
  · rename_i heq; exact absurd rfl (ht _ _ heq).1
  · rename_i heq; exact absurd rfl (ht _ _ heq).2
  · rfl

theorem classify_name {b : Bool} {s : Chars} (h : ∀ r : Reserved, r.text.toList ≠ s) :
    classify b s = if b then .Const s else .Ident s := by
  unfold classify; rw [check_reserved_none h]

theorem read_name (U : Unicode) {s rest : Chars} (h : Name s) (hr : Ends rest) :
    read_token U (s ++ rest) = .ok (classify (s.head?.elim false is_upper) s, rest) := by
  cases h with
  | plain hc ht =>
    rw [List.cons_append, read_token_ident U hc, read_identifier_plain ht hr.not_ident hr.suffix]; rfl
  | mark hc ht hm =>
    rename_i c t m
    have : ∀ r, m = '!' → rest ≠ '=' :: r := by
      rintro r _ rfl
      have : is_space '=' = true ∨ '=' = '(' ∨ '=' = '[' := hr
      revert this; decide
    rw [show c :: t ++ [m] ++ rest = c :: (t ++ [m] ++ rest) from rfl, read_token_ident U hc,
      read_identifier_mark ht hm this]; rfl

theorem reserved_name (r : Reserved) : Name r.text.toList := by
  have key : ∀ r : Reserved, r ≠ .Defined → ∃ c t, r.text.toList = c :: t ∧ is_alpha c = true ∧
      (t.all is_ident) = true := by
    intro r h
    cases r <;> first | exact absurd rfl h | exact ⟨_, _, rfl, by decide, by decide⟩
  by_cases h : r = .Defined
  · subst h
    exact Name.mark (c := 'd') (t := ['e', 'f', 'i', 'n', 'e', 'd']) (m := '?') (.inl (by decide)) (by decide) (.inl rfl)
  · obtain ⟨c, t, e, h1, h2⟩ := key r h
    rw [e]
    exact .plain (.inl h1) (by simpa using h2)

/-- Every identifier, constant, reserved word, variable, operator and decimal number is read as the token it is, if
white space, an opening parenthesis or bracket, or the end of the text follows. -/
theorem C73_token (U : Unicode) {t rest : Chars} {tok : Tok} (h : Text t tok) (hr : Ends rest) :
    read_token U (t ++ rest) = .ok (tok, rest) := by
  cases h with
  | ident hn hres hup =>
    rw [read_name U hn hr, classify_name hres, if_neg]
    cases t with
    | nil => simp
    | cons c t => simpa using hup c t rfl
  | const hn hres hup =>
    rw [read_name U hn hr, classify_name hres, if_pos]
    cases t with
    | nil => cases hn
    | cons c t => simpa using hup c t rfl
  | reserved r =>
    rw [read_name U (reserved_name r) hr]
    unfold classify; rw [check_reserved_text]
  | punct h hp =>
    refine read_operator U h hp (operator_blank ?_ hr)
    rintro rfl
    have : ∀ q ∈ operators, q.1 ≠ "" := by decide
    exact this _ h rfl
  | ivar hc ht =>
    rename_i c t
    have h1 : c ≠ '@' := by rintro rfl; revert hc; decide
    rw [List.cons_append, List.cons_append, read_token_nonspace U (by decide) (by decide) (by decide)]
    rw [show read_token_at U ('@' :: c :: (t ++ rest)) = read_at_var U (c :: (t ++ rest)) from rfl]
    unfold read_at_var
    split
    · rename_i e; cases e; exact absurd rfl h1
    · rw [read_var_name U hc ht hr]; rfl
  | cvar hc ht =>
    rename_i c t
    rw [List.cons_append, List.cons_append, List.cons_append, read_token_nonspace U (by decide) (by decide) (by decide)]
    rw [show read_token_at U ('@' :: '@' :: c :: (t ++ rest)) =
      (read_var U ['@', '@'] (c :: (t ++ rest))).map fun (n, s) => (.ClassVar n, s) from rfl]
    rw [read_var_name U hc ht hr]; rfl
  | gvar hc ht =>
    rename_i c t
    rw [List.cons_append, List.cons_append, read_token_nonspace U (by decide) (by decide) (by decide)]
    rw [show read_token_at U ('$' :: c :: (t ++ rest)) = read_global_var U (c :: (t ++ rest)) from rfl]
    have h1 : is_digit c = false := by
      cases hd : is_digit c with
      | false => rfl
      | true => have := (is_alpha_iff c).1 hc; have := (is_digit_iff c).1 hd; omega
    have h2 : is_punct c = false := by
      cases hd : is_punct c with
      | false => rfl
      | true => have := (is_alpha_iff c).1 hc; have := (is_punct_iff c).1 hd; omega
    unfold read_global_var
    simp only [consume_numeric, h1, h2, Bool.false_eq_true, if_false]
    rw [read_var_name U (.inl hc) ht hr]; rfl
  | small h h0 h1 hv =>
    rw [read_decimal_token U h h0 h1 hr]
    unfold number; rw [if_pos hv]; rfl
  | big h h0 h1 hv =>
    rw [read_decimal_token U h h0 h1 hr]
    unfold number; rw [if_neg (by omega)]; rfl

/-- `x!=y` compares: a name that `!=` follows without a space ends before the `!`. -/
theorem C73_not_equal (U : Unicode) {c : Char} {t rest : Chars} (hc : is_alpha c = true ∨ c = '_')
    (ht : ∀ x ∈ t, is_ident x = true) :
    read_token U (c :: t ++ ('!' :: '=' :: rest)) = .ok (classify (is_upper c) (c :: t), '!' :: '=' :: rest) := by
  rw [List.cons_append, read_token_ident U hc, read_identifier_plain ht (by rintro _ _ e; cases e; decide) rfl]

example : read_token ⟨fun _ => false, fun _ => false⟩ "x!=y".toList = .ok (.Ident ['x'], ['!', '=', 'y']) := by
  have := C73_not_equal ⟨fun _ => false, fun _ => false⟩ (c := 'x') (t := []) (rest := ['y']) (.inl (by decide)) (by simp)
  rw [show classify (is_upper 'x') ['x'] = .Ident ['x'] from by decide] at this
  simpa using this

/-- A global variable whose name starts with an underscore is read as `$_` and something else. -/
theorem C73_global_underscore_fails (U : Unicode) (rest : Chars) :
    read_token U ('$' :: '_' :: rest) = .ok (.GlobalVar ['$', '_'], rest) := by
  rw [read_token_nonspace U (by decide) (by decide) (by decide)]; rfl

/-- A name of two letters that are not ASCII is read as two names. -/
theorem C73_identifier_fails : ∃ U : Unicode, read_token U "éé".toList = .ok (.Ident ['é'], ['é']) :=
  ⟨⟨fun _ => false, fun _ => true⟩, by decide⟩

/-- A text of tokens with one space before each, and possibly white space at the end, is read as those tokens. -/
theorem C73_tokens (U : Unicode) {l : List (Chars × Tok)} (h : ∀ p ∈ l, Text p.1 p.2) :
    Reads U (l.flatMap fun p => ' ' :: p.1) (l.map Prod.snd) := by
  have hsp : ∀ s, read_token U (' ' :: s) = read_token U s := by
    intro s; unfold read_token; rw [skip_space]
  induction l with
  | nil => exact .done (r := []) rfl
  | cons p l ih =>
    have hp := h p List.mem_cons_self
    refine .next (r := l.flatMap fun p => ' ' :: p.1) ?_ ?_ (ih fun q hq => h q (List.mem_cons_of_mem _ hq))
    · rw [List.flatMap_cons, List.cons_append, hsp]
      refine C73_token U hp ?_
      cases l with
      | nil => trivial
      | cons q l => rw [List.flatMap_cons, List.cons_append]; exact .inl (by decide : is_space ' ' = true)
    · intro he
      rw [he] at hp
      generalize p.1 = a at hp
      cases hp

example : Reads ⟨fun _ => false, fun _ => false⟩ " if x? >>= @y 12".toList
    [.Reserved .If, .Ident ['x', '?'], .Punct (.AssignOp .Shr), .InstanceVar ['@', 'y'], .IntegerLit 12] := by
  have := C73_tokens ⟨fun _ => false, fun _ => false⟩
    (l := [(['i', 'f'], .Reserved .If), (['x', '?'], .Ident ['x', '?']), (['>', '>', '='], .Punct (.AssignOp .Shr)),
      (['@', 'y'], .InstanceVar ['@', 'y']), (['1', '2'], .IntegerLit 12)]) ?_
  · rw [show " if x? >>= @y 12".toList = [' ', 'i', 'f', ' ', 'x', '?', ' ', '>', '>', '=', ' ', '@', 'y', ' ', '1', '2']
      from by decide]
    exact this
  · intro p hp
    simp only [List.mem_cons, List.not_mem_nil, or_false] at hp
    rcases hp with rfl | rfl | rfl | rfl | rfl
    · exact .reserved .If
    · refine .ident (Name.mark (c := 'x') (t := []) (m := '?') (.inl (by decide)) (by simp) (.inl rfl)) ?_ ?_
      · intro r; cases r <;> decide
      · intro c t e; cases e; decide
    · exact .punct (t := ">>=") (by decide) (by decide)
    · exact .ivar (t := []) (.inl (by decide)) (by simp)
    · refine Text.small (ds := [1, 2]) ?_ (by decide) (by decide) (by decide)
      repeat (first | exact .nil | refine .digit (by decide) (by decide) ?_)

/-- White space before a token, and a comment to the end of the line before a newline, are not tokens; a newline (with
the white space around it) is one token. -/
theorem C73_space (U : Unicode) {w s : Chars} (hw : ∀ c ∈ w, is_space c = true ∧ c ≠ '\n') :
    read_token U (w ++ s) = read_token U s := by
  induction w with
  | nil => rfl
  | cons c w ih =>
    have hc := hw c List.mem_cons_self
    rw [← ih fun x hx => hw x (List.mem_cons_of_mem _ hx)]
    have : skip_whitespace (c :: (w ++ s)) = skip_whitespace (w ++ s) := by
      rw [skip_whitespace.eq_def]
      split
      · rename_i e; exact absurd (List.cons.inj e).1 hc.2
      · rename_i e; rw [(List.cons.inj e).1] at hc; exact absurd hc.1 (by decide)
      · rename_i e; obtain ⟨rfl, rfl⟩ := List.cons.inj e; rw [if_pos hc.1]
      · rename_i e; cases e
    unfold read_token
    rw [List.cons_append, this]

theorem goto_eol_comment {t rest : Chars} (h : '\n' ∉ t) : goto_eol (t ++ '\n' :: rest) = '\n' :: rest := by
  induction t with
  | nil => rfl
  | cons c t ih =>
    have hc : c ≠ '\n' := fun e => h (e ▸ List.mem_cons_self)
    rw [List.cons_append, goto_eol.eq_def]
    split
    · rename_i e; cases e; exact absurd rfl hc
    · rename_i e; cases e
    · rename_i e; cases e; exact ih fun h' => h (List.mem_cons_of_mem _ h')

/-- A comment and the newline after it, with all white space and further newlines after that, are one token. -/
theorem C73_comment (U : Unicode) {t w : Chars} {c : Char} {rest : Chars} (h : '\n' ∉ t)
    (hw : ∀ x ∈ w, is_space x = true) (hc : is_space c = false) (hb : c ≠ '\\') :
    read_token U ('#' :: t ++ '\n' :: w ++ c :: rest) = .ok (.LineTerm, c :: rest) := by
  have hskip : ∀ w : Chars, (∀ x ∈ w, is_space x = true) → (skip_whitespace (w ++ c :: rest)).2 = c :: rest := by
    intro w hw
    induction w with
    | nil => rw [List.nil_append, skip_nonspace hc hb]
    | cons x w ih =>
      have ih := ih fun y hy => hw y (List.mem_cons_of_mem _ hy)
      have hx := hw x List.mem_cons_self
      rw [List.cons_append, skip_whitespace.eq_def]
      split
      · rename_i e; obtain ⟨_, rfl⟩ := List.cons.inj e; exact ih
      · rename_i e; rw [(List.cons.inj e).1] at hx; exact absurd hx (by decide)
      · rename_i e; obtain ⟨rfl, rfl⟩ := List.cons.inj e; rw [if_pos hx]; exact ih
      · rename_i e; cases e
  unfold read_token
  rw [show '#' :: t ++ '\n' :: w ++ c :: rest = '#' :: (t ++ '\n' :: (w ++ c :: rest)) from by simp,
    skip_nonspace (by decide) (by decide)]
  simp only [goto_eol_comment h]
  rw [show skip_whitespace ('\n' :: (w ++ c :: rest)) = (true, (skip_whitespace (w ++ c :: rest)).2) from rfl, hskip w hw]

example : read_token ⟨fun _ => false, fun _ => false⟩ "# x\n\n  y".toList = .ok (.LineTerm, ['y']) := by
  have := C73_comment ⟨fun _ => false, fun _ => false⟩ (t := [' ', 'x']) (w := ['\n', ' ', ' ']) (c := 'y') (rest := [])
    (by decide) (by decide) (by decide) (by decide)
  exact this

/-! ## C74: a string literal denotes its characters -/

/-- A double-quoted literal. -/
theorem C74_double (U : Unicode) {t s : Chars} (h : Quoted t s) (rest : Chars) :
    read_token U ('"' :: (t ++ '"' :: rest)) = .ok (.StringLit s, rest) := by
  rw [read_token_nonspace U (by decide) (by decide) (by decide)]
  rw [show read_token_at U ('"' :: (t ++ '"' :: rest)) = read_string_literal_double none (some '"') 0 (t ++ '"' :: rest)
    from rfl]
  unfold read_string_literal_double
  rw [interp_end h rest 0 rfl]; rfl

/-- A double-quoted literal up to an interpolation. -/
theorem C74_interpolated (U : Unicode) {t s : Chars} (h : Quoted t s) {c : Char} (hc : c = '{' ∨ c = '$' ∨ c = '@')
    (rest : Chars) :
    read_token U ('"' :: (t ++ '#' :: c :: rest)) = .ok (.OpenString s (some '"') 0, c :: rest) := by
  rw [read_token_nonspace U (by decide) (by decide) (by decide)]
  rw [show read_token_at U ('"' :: (t ++ '#' :: c :: rest)) =
    read_string_literal_double none (some '"') 0 (t ++ '#' :: c :: rest) from rfl]
  unfold read_string_literal_double
  obtain ⟨k, hk, he⟩ := interp_quoted h ('#' :: c :: rest) (by intro c r e; cases e; decide)
  have : (t ++ '#' :: c :: rest).length + 1 = (((t ++ '#' :: c :: rest).length - k) + 1) + k := by simp; omega
  rw [this, he, List.nil_append, read_interpolate.eq_def]
  rcases hc with rfl | rfl | rfl <;> rfl

/-- A double-quoted literal without its closing quote is an error at the end of the text, not a token. -/
theorem C74_unterminated (U : Unicode) {t s : Chars} (h : Quoted t s) :
    read_token U ('"' :: t) = .error .eof := by
  rw [read_token_nonspace U (by decide) (by decide) (by decide)]
  rw [show read_token_at U ('"' :: t) = read_string_literal_double none (some '"') 0 t from rfl]
  unfold read_string_literal_double
  obtain ⟨k, hk, he⟩ := interp_quoted h [] (by intro c r e; cases e)
  have : t.length + 1 = ((t.length - k) + 1) + k := by omega
  rw [List.append_nil] at he
  rw [this, he, read_interpolate.eq_def]; rfl

/-- A single-quoted literal. -/
theorem C74_single (U : Unicode) {t s : Chars} (h : SingleQuoted t s) (rest : Chars) :
    read_token U ('\'' :: (t ++ '\'' :: rest)) = .ok (.StringLit s, rest) := by
  rw [read_token_nonspace U (by decide) (by decide) (by decide)]
  rw [show read_token_at U ('\'' :: (t ++ '\'' :: rest)) =
    (read_string_literal_single none '\'' false (t ++ '\'' :: rest)).map fun (t, s) => (.StringLit t, s) from rfl]
  unfold read_string_literal_single
  rw [single_quoted h rest _ _ (by simp; omega)]; rfl

example : read_token ⟨fun _ => false, fun _ => false⟩ ('"' :: ("a\\n\\x41\\\"# b".toList ++ '"' :: [';'])) =
    .ok (.StringLit "a\nA\"# b".toList, [';']) := by
  rw [show "a\\n\\x41\\\"# b".toList = ['a'] ++ (['\\', 'n'] ++ (['\\', 'x', '4', '1'] ++ (['\\', '"'] ++ ('#' :: ([' '] ++
    (['b'] ++ []))))))  from by decide, show "a\nA\"# b".toList = ['a', '\n', Char.ofNat (4 * 16 + 1), '"', '#', ' ', 'b'] from by decide]
  refine C74_double _ ?_ _
  refine .char (.plain (by decide) (by decide) (by decide)) (.char .newline (.char (.hex (by decide) (by decide))
    (.char (.quoted (by decide)) (.hash ?_ (.char (.plain (by decide) (by decide) (by decide))
      (.char (.plain (by decide) (by decide) (by decide)) .nil))))))
  intro c r e; cases e; decide

example : read_token ⟨fun _ => false, fun _ => false⟩ ('\'' :: (['a', '\\', '\'', '\\', 'n'] ++ '\'' :: [])) =
    .ok (.StringLit ['a', '\'', '\\', 'n'], []) :=
  C74_single _ (.char (by decide) (by decide) (.quote (.alone (by decide) (by decide) (by decide) .nil))) _

/-- In an escape, `\x80` to `\xff` give a character, and so two bytes of the string, not the byte they spell. -/
theorem C74_byte_fails (U : Unicode) : read_token U ('"' :: (['\\', 'x', 'f', 'f'] ++ '"' :: [])) =
    .ok (.StringLit ['ÿ'], []) := by
  have := C74_double U (.char (.hex (a := 'f') (b := 'f') (x := 15) (y := 15) (by decide) (by decide)) .nil) []
  rw [List.append_nil] at this
  exact this

/-! ## C75: the inspected form of a string, read as a program, is the string -/

/-- `eval(s.inspect) == s`.  Missing: strings in which `#{`, `#$` or `#@` occur, for which it is false
(`C75_inspect_fails`). -/
theorem C75_inspect_partial (U : Unicode) {s : Chars} (h : NoInterpolation s) (rest : Chars) :
    read_token U (inspect s ++ rest) = .ok (.StringLit s, rest) := by
  unfold inspect
  rw [List.cons_append, List.append_assoc, List.singleton_append]
  exact C74_double U (write_quoted h) rest

example : read_token ⟨fun _ => false, fun _ => false⟩ (inspect "a\"\\\u0000'# \n".toList ++ []) =
    .ok (.StringLit "a\"\\\u0000'# \n".toList, []) := by
  refine C75_inspect_partial _ ?_ _
  rw [show "a\"\\\u0000'# \n".toList = ['a', '"', '\\', '\x00', '\'', '#', ' ', '\n'] from by decide]
  simp [NoInterpolation]

/-- The inspected form of the string `#{x}` is read as an interpolation, which evaluates `x`. -/
theorem C75_inspect_fails (U : Unicode) : read_token U (inspect ['#', '{', 'x', '}']) =
    .ok (.OpenString [] (some '"') 0, ['{', 'x', '}', '"']) :=
  C74_interpolated U .nil (.inl rfl) ['x', '}', '"']

end Verif.Lexer
