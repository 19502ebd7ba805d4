import Verif.Str.Numbers
/-! # C88: `String#%` -/
namespace Verif.Str
open Verif.Lexer (Spells value digitTable)

/-! ## Model -/

/-- An argument of `%`: a 63-bit integer, a float, a string, something else (big integers are here). -/
inductive FArg (φ : Type)
  | int (i : Int)
  | float (x : φ)
  | str (s : Text)
  | other

/-- Floats are left open: `i as f64`, `f.trunc() as i64`, and sign and digits of `{:.p$}`. -/
structure Floats (φ : Type) where
  ofInt : Int → φ
  trunc : φ → Int
  write : Nat → φ → Text × Text

variable {φ : Type}

/-- `coerce_to_fixnum` (value/value.rs:565-571); `none`: an exception. -/
def coerce (F : Floats φ) : FArg φ → Option Int
  | .int i => some i
  | .float x => some (F.trunc x)
  | _ => none

/-- Rust's `{:w$}` and `{:0w$}` for numbers: to the right, filled with spaces, or with zeros after the sign. -/
def padNumber (zero : Bool) (width : Nat) (sgn body : Text) : Text :=
  let k := width - (sgn.length + body.length)
  if zero then sgn ++ (List.replicate k '0' ++ body) else List.replicate k ' ' ++ (sgn ++ body)

/-- The digits and the character after them (builtin/string.rs:330-343); `none`: the text ends, an exception.  `usize` is
modelled by `Nat`. -/
def readNumber : Nat → Char → Text → Option (Nat × Char × Text)
  | acc, c, [] => if '0' ≤ c ∧ c ≤ '9' then none else some (acc, c, [])
  | acc, c, c' :: s =>
    if '0' ≤ c ∧ c ≤ '9' then readNumber (acc * 10 + (c.toNat - '0'.toNat)) c' s else some (acc, c, c' :: s)

/-- A negative `i64` in `{:b}`, `{:x}`, `{:X}` is written as the `u64` of the same bits. -/
def bits64 (i : Int) : Nat := (i % 2 ^ 64).toNat

/-- The specifiers (builtin/string.rs:350-408). -/
def specifier (F : Floats φ) (zero : Bool) (width precision : Nat) (ch : Char) (val : FArg φ) : Res Text :=
  let int (f : Int → Res Text) : Res Text := match coerce F val with | some i => f i | none => .raised
  if ch = 'd' then int fun i => .ok (padNumber zero width (sign i) (digits false 10 i.natAbs))
  else if ch = 'b' then int fun i => .ok (padNumber zero width [] (digits false 2 (bits64 i)))
  else if ch = 'x' then int fun i => .ok (padNumber zero width [] (digits false 16 (bits64 i)))
  else if ch = 'X' then int fun i => .ok (padNumber zero width [] (digits true 16 (bits64 i)))
  else if ch = 'f' then
    let f (x : φ) : Res Text := .ok (padNumber zero width (F.write precision x).1 (F.write precision x).2)
    match val with
    | .float x => f x
    | _ => int fun i => f (F.ofInt i)
  else if ch = 'c' then int fun i =>
    let n := (i % 2 ^ 32).toNat
    if n.isValidChar then .ok [Char.ofNat n] else .raised
  else if ch = 's' then
    match val with
    | .str s => .ok s
    | _ => .raised
  else .raised

/-- The precision (builtin/string.rs:335-342). -/
def readPrecision (c : Char) (s : Text) : Option (Nat × Char × Text) :=
  if c = '.' then (match s with | [] => none | c :: s => readNumber 0 c s) else some (0, c, s)

/-- A directive after its `%` (builtin/string.rs:321-343): zero flag, width, precision, specifier, and the text after it;
`none`: the text ends, an exception. -/
def readDirective (c : Char) (s : Text) : Option (Bool × Nat × Nat × Char × Text) :=
  match (if c = '0' then (match s with | [] => none | c :: s => some (true, c, s)) else some (false, c, s)) with
  | none => none
  | some (zero, c, s) =>
    match readNumber 0 c s with
    | none => none
    | some (width, c, s) =>
      match readPrecision c s with
      | none => none
      | some (precision, c, s) => some (zero, width, precision, c, s)

/-- The loop of `String#%` (builtin/string.rs:293-418).  The first number: fuel, at least the length of the text. -/
def remLoop (F : Floats φ) : Nat → Text → List (FArg φ) → Text → Res Text
  | 0, s, _, out => if s.isEmpty then .ok out else .raised
  | _ + 1, [], _, out => .ok out
  | n + 1, ch :: s, args, out =>
    if ch ≠ '%' then remLoop F n s args (out ++ [ch])
    else
      match s with
      | [] => .raised
      | c :: s =>
        if c = '%' then remLoop F n s args (out ++ ['%'])
        else
          match readDirective c s with
          | none => .raised
          | some (zero, width, precision, c, s) =>
            match args with
            | [] => .raised
            | val :: args =>
              match specifier F zero width precision c val with
              | .ok t => remLoop F n s args (out ++ t)
              | .raised => .raised
              | .panic => .panic

/-- `String#%`; the arguments are those of the array, or the one value that is not an array. -/
def rem (F : Floats φ) (s : Text) (args : List (FArg φ)) : Res Text := remLoop F s.length s args []

/-! ## Specification -/

/-- A part of a format. -/
inductive Piece
  | char (c : Char)
  | percent
  /-- `%`, `0` if numbers are to be filled with zeros, width if it is not 0, precision, specifier -/
  | dir (zero : Bool) (width : Nat) (precision : Option Nat) (kind : Char)

/-- How it is written. -/
def Piece.text : Piece → Text
  | .char c => [c]
  | .percent => ['%', '%']
  | .dir zero width precision kind =>
    '%' :: (if zero then ['0'] else []) ++ (if width = 0 then [] else int_to_s width) ++
      (match precision with | none => [] | some p => '.' :: int_to_s p) ++ [kind]

/-- The text is sign and digits, filled up to the width: with spaces on the left, or with zeros after the sign. -/
def Filled (zero : Bool) (width : Nat) (sgn body text : Text) : Prop :=
  text.length = max width (sgn.length + body.length) ∧
  ∃ k, text = if zero then sgn ++ List.replicate k '0' ++ body else List.replicate k ' ' ++ sgn ++ body

/-- `body` is the number in the base, without leading zeros. -/
def Writes (base : Nat) (body : Text) (n : Nat) : Prop :=
  body ≠ [] ∧ ∃ ds, Spells base body ds ∧ value base ds = n ∧ (n ≠ 0 → ds.head? ≠ some 0) ∧ '_' ∉ body

/-- What a directive shows. -/
inductive Shows (F : Floats φ) : Bool → Nat → Option Nat → Char → FArg φ → Text → Prop
  | dec {z w n body t} : Writes 10 body n.natAbs → Filled z w (if n < 0 then ['-'] else []) body t → Shows F z w none 'd' (.int n) t
  | bin {z w body t} {n : Int} : 0 ≤ n → Writes 2 body n.natAbs → Filled z w [] body t → Shows F z w none 'b' (.int n) t
  | hex {z w body t} {n : Int} : 0 ≤ n → Writes 16 body n.natAbs → (∀ c ∈ body, c.isUpper = false) → Filled z w [] body t →
      Shows F z w none 'x' (.int n) t
  | hexUpper {z w body t} {n : Int} : 0 ≤ n → Writes 16 body n.natAbs → (∀ c ∈ body, c.isLower = false) → Filled z w [] body t →
      Shows F z w none 'X' (.int n) t
  | float {z w p x t} : Filled z w (F.write p x).1 (F.write p x).2 t → Shows F z w (some p) 'f' (.float x) t
  /-- a float for `d` is cut to an integer -/
  | decFloat {z w x body t} : Writes 10 body (F.trunc x).natAbs → Filled z w (if F.trunc x < 0 then ['-'] else []) body t →
      Shows F z w none 'd' (.float x) t
  /-- an integer for `f` becomes a float -/
  | floatInt {z w p n t} : Filled z w (F.write p (F.ofInt n)).1 (F.write p (F.ofInt n)).2 t → Shows F z w (some p) 'f' (.int n) t
  | char {c : Char} : Shows F false 0 none 'c' (.int c.toNat) [c]
  | string {s} : Shows F false 0 none 's' (.str s) s

/-- What a format shows: its characters, and for each directive the next argument. -/
inductive Formats (F : Floats φ) : List Piece → List (FArg φ) → Text → Prop
  | done {args} : Formats F [] args []
  | char {c ps args t} : Formats F ps args t → Formats F (.char c :: ps) args (c :: t)
  | percent {ps args t} : Formats F ps args t → Formats F (.percent :: ps) args ('%' :: t)
  | dir {z w p k a u ps args t} : Shows F z w p k a u → Formats F ps args t → Formats F (.dir z w p k :: ps) (a :: args) (u ++ t)

/-- The argument is one for the directive: an integer of 63 bits or a float for `d`, such a natural number for `b`, `x`, `X`, a
float or integer for `f` (with a precision), the number of a character for `c`, a string for `s` (both without width). -/
def Fits' (z : Bool) (w : Nat) (p : Option Nat) (k : Char) (a : FArg φ) : Prop :=
  match a with
  | .int n => (k = 'f' ∧ p.isSome) ∨ p = none ∧ (k = 'd' ∨ (0 ≤ n ∧ n < 2 ^ 62 ∧ (k = 'b' ∨ k = 'x' ∨ k = 'X')) ∨
      (z = false ∧ w = 0 ∧ k = 'c' ∧ ∃ c : Char, n = c.toNat))
  | .float _ => (k = 'f' ∧ p.isSome) ∨ (k = 'd' ∧ p = none)
  | .str _ => z = false ∧ w = 0 ∧ p = none ∧ k = 's'
  | .other => False

/-- The arguments fit the directives one after the other. -/
inductive Match : List Piece → List (FArg φ) → Prop
  | done {args} : Match [] args
  | char {c ps args} : c ≠ '%' → Match ps args → Match (.char c :: ps) args
  | percent {ps args} : Match ps args → Match (.percent :: ps) args
  | dir {z w p k a ps args} : Fits' z w p k a → Match ps args → Match (.dir z w p k :: ps) (a :: args)

/-! ## Helpers -/

theorem filled_pad (zero : Bool) (width : Nat) (sgn body : Text) : Filled zero width sgn body (padNumber zero width sgn body) := by
  unfold Filled padNumber
  cases zero
  · refine ⟨?_, _, by simp only [Bool.false_eq_true, if_false, List.append_assoc]; rfl⟩
    simp; omega
  · refine ⟨?_, _, by simp only [if_true, List.append_assoc]; rfl⟩
    simp; omega

theorem writes_digits {upper : Bool} {base n : Nat} (hb : 2 ≤ base) (hb' : base ≤ 16) : Writes base (digits upper base n) n := by
  obtain ⟨ds, h1, h2, h3, h4⟩ := digits_spell (upper := upper) hb hb' n
  refine ⟨digits_ne, ds, h1, h2, h3, ?_⟩
  intro h
  obtain ⟨d, hd, he⟩ := h4 _ h
  have : ∀ (u : Bool) (d : Fin 16), '_' ≠ digitOf u d.1 := by decide
  exact this upper ⟨d, by omega⟩ he

theorem case_digits {upper : Bool} {base n : Nat} (hb : 2 ≤ base) (hb' : base ≤ 16) :
    ∀ c ∈ digits upper base n, if upper then c.isLower = false else c.isUpper = false := by
  obtain ⟨ds, -, -, -, h4⟩ := digits_spell (upper := upper) hb hb' n
  intro c hc
  obtain ⟨d, hd, rfl⟩ := h4 c hc
  have : ∀ (u : Bool) (d : Fin 16), if u then (digitOf u d.1).isLower = false else (digitOf u d.1).isUpper = false := by decide
  exact this upper ⟨d, by omega⟩

theorem readNumber_digits {k : Char} {rest : Text} (hk : ¬ ('0' ≤ k ∧ k ≤ '9')) : ∀ {t : Text} {c : Char} {acc n : Nat},
    readDigits (c :: t) acc = some n → readNumber acc c (t ++ k :: rest) = some (n, k, rest)
  | [], c, acc, n, h => by
    rw [readDigits] at h
    split at h
    · rename_i hc
      rw [readDigits] at h; cases h
      rw [List.nil_append, readNumber, if_pos hc]
      cases rest <;> rw [readNumber, if_neg hk]
    · cases h
  | c' :: t, c, acc, n, h => by
    rw [readDigits] at h
    split at h
    · rename_i hc
      rw [List.cons_append, readNumber, if_pos hc]
      exact readNumber_digits hk h
    · cases h

theorem readNumber_none {k : Char} {rest : Text} (hk : ¬ ('0' ≤ k ∧ k ≤ '9')) : readNumber 0 k rest = some (0, k, rest) := by
  cases rest <;> rw [readNumber, if_neg hk]

theorem int_to_s_nat (n : Nat) : int_to_s n = digits false 10 n := by
  unfold int_to_s sign
  rw [if_neg (by omega)]; rfl

/-- Reading a width or precision. -/
theorem readNumber_int {k : Char} {rest : Text} (hk : ¬ ('0' ≤ k ∧ k ≤ '9')) (n : Nat) :
    ∃ c t, int_to_s n = c :: t ∧ readNumber 0 c (t ++ k :: rest) = some (n, k, rest) ∧ (n ≠ 0 → c ≠ '0') ∧ c ≠ '%' := by
  rw [int_to_s_nat]
  have hr := readDigits_digits n
  obtain ⟨ds, h1, h2, h3, h4⟩ := digits_spell (upper := false) (base := 10) (by omega) (by omega) n
  cases hd : digits false 10 n with
  | nil => exact absurd hd digits_ne
  | cons c t =>
    rw [hd] at hr
    refine ⟨c, t, rfl, readNumber_digits hk hr, ?_, ?_⟩
    · intro hn
      have := h3 hn
      rw [hd] at h1
      rintro rfl
      cases h1 with
      | digit hm _ _ =>
        rename_i d ds _
        have : ∀ p ∈ digitTable, p.1 = '0' → p.2 = 0 := by decide
        have := this _ hm rfl
        simp_all
    · obtain ⟨d, hd', rfl⟩ := h4 c (by rw [hd]; simp)
      have : ∀ d : Fin 10, digitOf false d.1 ≠ '%' := by decide
      exact this ⟨d, hd'⟩

/-- The specifiers of the language. -/
def IsKind (k : Char) : Prop := k ∈ ['d', 'b', 'x', 'X', 'f', 'c', 's']

theorem IsKind.plain {k : Char} (h : IsKind k) : ¬ ('0' ≤ k ∧ k ≤ '9') ∧ k ≠ '.' ∧ k ≠ '%' ∧ k ≠ '0' := by
  have : ∀ k ∈ ['d', 'b', 'x', 'X', 'f', 'c', 's'], ¬ ('0' ≤ k ∧ k ≤ '9') ∧ k ≠ '.' ∧ k ≠ '%' ∧ k ≠ '0' := by decide
  exact this k h

theorem remLoop_char (F : Floats φ) {c : Char} (hc : c ≠ '%') (n : Nat) (s : Text) (args : List (FArg φ)) (out : Text) :
    remLoop F (n + 1) (c :: s) args out = remLoop F n s args (out ++ [c]) := by
  cases s <;> rw [remLoop, if_pos hc]

/-- Reading a directive. -/
theorem readDirective_text {z : Bool} {w : Nat} {p : Option Nat} {k : Char} (hk : IsKind k) (rest : Text) :
    ∃ c s, (Piece.dir z w p k).text ++ rest = '%' :: c :: s ∧ c ≠ '%' ∧ readDirective c s = some (z, w, p.getD 0, k, rest) := by
  obtain ⟨hk1, hk2, hk3, hk4⟩ := hk.plain
  have hdot : ¬ ('0' ≤ '.' ∧ '.' ≤ '9') := by decide
  -- after the width
  have htail : ∃ c s, (match p with | none => [] | some p => '.' :: int_to_s p) ++ k :: rest = c :: s ∧
      ¬ ('0' ≤ c ∧ c ≤ '9') ∧ c ≠ '%' ∧ c ≠ '0' ∧
      readPrecision c s = some (p.getD 0, k, rest) := by
    cases p with
    | none => exact ⟨k, rest, rfl, hk1, hk3, hk4, by rw [readPrecision.eq_def, if_neg hk2]; rfl⟩
    | some p =>
      obtain ⟨c, t, h1, h2, -, -⟩ := readNumber_int (rest := rest) hk1 p
      refine ⟨'.', int_to_s p ++ k :: rest, rfl, hdot, by decide, by decide, ?_⟩
      rw [readPrecision.eq_def, if_pos rfl, h1]
      exact h2
  obtain ⟨c, s, htl, hc1, hc2, hc3, hprec⟩ := htail
  -- width and tail
  have hwidth : ∃ d u, (if w = 0 then [] else int_to_s w) ++ c :: s = d :: u ∧ readNumber 0 d u = some (w, c, s) ∧
      d ≠ '%' ∧ d ≠ '0' := by
    by_cases hw : w = 0
    · rw [if_pos hw]
      exact ⟨c, s, rfl, by rw [readNumber_none hc1, hw], hc2, hc3⟩
    · rw [if_neg hw]
      obtain ⟨d, t, h1, h2, h3, h4⟩ := readNumber_int (rest := s) hc1 w
      exact ⟨d, t ++ c :: s, by rw [h1]; rfl, h2, h4, h3 hw⟩
  obtain ⟨d, u, hwl, hnum, hd1, hd2⟩ := hwidth
  have htext : (Piece.dir z w p k).text ++ rest = '%' :: ((if z then ['0'] else []) ++ d :: u) := by
    rw [← hwl, ← htl]
    simp [Piece.text, List.append_assoc]
  rw [htext]
  cases z with
  | false =>
    refine ⟨d, u, rfl, hd1, ?_⟩
    unfold readDirective
    rw [if_neg hd2]
    simp only [hnum, hprec]
  | true =>
    refine ⟨'0', d :: u, rfl, by decide, ?_⟩
    unfold readDirective
    rw [if_pos rfl]
    simp only [hnum, hprec]

theorem remLoop_dir (F : Floats φ) {z : Bool} {w : Nat} {p : Option Nat} {k : Char} (hk : IsKind k) (rest : Text) (n : Nat)
    (a : FArg φ) (args : List (FArg φ)) (out : Text) :
    remLoop F (n + 1) ((Piece.dir z w p k).text ++ rest) (a :: args) out =
      match specifier F z w (p.getD 0) k a with
      | .ok t => remLoop F n rest args (out ++ t)
      | .raised => .raised
      | .panic => .panic := by
  obtain ⟨c, s, h1, h2, h3⟩ := readDirective_text (z := z) (w := w) (p := p) hk rest
  rw [h1, remLoop, if_neg (by decide)]
  simp only [if_neg h2, h3]

theorem bits64_nat {n : Int} (h : 0 ≤ n ∧ n < 2 ^ 62) : bits64 n = n.natAbs := by
  unfold bits64
  omega

/-- A fitting argument is shown. -/
theorem specifier_shows (F : Floats φ) {z : Bool} {w : Nat} {p : Option Nat} {k : Char} {a : FArg φ} (h : Fits' z w p k a) :
    IsKind k ∧ ∃ t, specifier F z w (p.getD 0) k a = .ok t ∧ Shows F z w p k a t := by
  unfold Fits' at h
  cases a with
  | int n =>
    rcases h with ⟨rfl, hp⟩ | ⟨rfl, h⟩
    · cases p with
      | none => cases hp
      | some p => exact ⟨by simp [IsKind], _, rfl, .floatInt (filled_pad _ _ _ _)⟩
    rcases h with rfl | ⟨h0, h1, rfl | rfl | rfl⟩ | ⟨rfl, rfl, rfl, c, rfl⟩
    · refine ⟨by simp [IsKind], _, rfl, .dec (writes_digits (by omega) (by omega)) (filled_pad _ _ _ _)⟩
    · refine ⟨by simp [IsKind], _, rfl, .bin h0 ?_ (filled_pad _ _ _ _)⟩
      rw [bits64_nat ⟨h0, h1⟩]; exact writes_digits (by omega) (by omega)
    · refine ⟨by simp [IsKind], _, rfl, .hex h0 ?_ ?_ (filled_pad _ _ _ _)⟩
      · rw [bits64_nat ⟨h0, h1⟩]; exact writes_digits (by omega) (by omega)
      · exact case_digits (upper := false) (by omega) (by omega)
    · refine ⟨by simp [IsKind], _, rfl, .hexUpper h0 ?_ ?_ (filled_pad _ _ _ _)⟩
      · rw [bits64_nat ⟨h0, h1⟩]; exact writes_digits (by omega) (by omega)
      · exact case_digits (upper := true) (by omega) (by omega)
    · refine ⟨by simp [IsKind], [c], ?_, .char⟩
      have hv : c.toNat.isValidChar := c.valid
      have hlt : c.toNat < 2 ^ 32 := c.val.toNat_lt
      have e : (((c.toNat : Int) % 2 ^ 32).toNat) = c.toNat := by omega
      have : specifier F false 0 0 'c' (.int c.toNat) = (let n := (((c.toNat : Int)) % 2 ^ 32).toNat
        if n.isValidChar then .ok [Char.ofNat n] else .raised) := rfl
      show specifier F false 0 0 'c' (.int c.toNat) = _
      rw [this]
      simp only [e]
      rw [if_pos hv, Char.ofNat_toNat]
  | float x =>
    rcases h with ⟨rfl, hp⟩ | ⟨rfl, rfl⟩
    · cases p with
      | none => cases hp
      | some p => exact ⟨by simp [IsKind], _, rfl, .float (filled_pad _ _ _ _)⟩
    · exact ⟨by simp [IsKind], _, rfl, .decFloat (writes_digits (by omega) (by omega)) (filled_pad _ _ _ _)⟩
  | str s =>
    obtain ⟨rfl, rfl, rfl, rfl⟩ := h
    exact ⟨by simp [IsKind], s, rfl, .string⟩
  | other => cases h

theorem remLoop_formats (F : Floats φ) {ps : List Piece} {args : List (FArg φ)} (h : Match ps args) :
    ∀ n out, ps.length ≤ n → ∃ t, remLoop F n (ps.flatMap Piece.text) args out = .ok (out ++ t) ∧ Formats F ps args t := by
  induction h with
  | done => intro n out _; exact ⟨[], by cases n <;> simp [remLoop], .done⟩
  | char hc _ ih =>
    intro n out hn
    cases n with
    | zero => simp at hn
    | succ n =>
      rename_i c ps args _
      obtain ⟨t, h1, h2⟩ := ih n (out ++ [c]) (by simpa using hn)
      refine ⟨c :: t, ?_, .char h2⟩
      rw [List.flatMap_cons, Piece.text, List.cons_append, List.nil_append, remLoop_char F hc, h1]; simp
  | percent _ ih =>
    intro n out hn
    cases n with
    | zero => simp at hn
    | succ n =>
      obtain ⟨t, h1, h2⟩ := ih n (out ++ ['%']) (by simpa using hn)
      refine ⟨'%' :: t, ?_, .percent h2⟩
      rw [List.flatMap_cons, Piece.text, List.cons_append, List.cons_append, List.nil_append, remLoop, if_neg (by decide)]
      simp only [if_true, h1]; simp
  | dir hf _ ih =>
    intro n out hn
    cases n with
    | zero => simp at hn
    | succ n =>
      obtain ⟨hk, u, hs, hu⟩ := specifier_shows F hf
      obtain ⟨t, h1, h2⟩ := ih n (out ++ u) (by simpa using hn)
      refine ⟨u ++ t, ?_, .dir hu h2⟩
      rw [List.flatMap_cons, remLoop_dir F hk, hs]
      simp only [h1]; simp

theorem length_flatMap_text : ∀ ps : List Piece, ps.length ≤ (ps.flatMap Piece.text).length
  | [] => by simp
  | p :: ps => by
    have := length_flatMap_text ps
    have h : 1 ≤ p.text.length := by cases p <;> simp [Piece.text]
    rw [List.flatMap_cons, List.length_append, List.length_cons]; omega

/-! ## C88 -/

/-- A format with fitting arguments gives its characters, with the arguments in the places of the directives, each as the
directive says.  Missing: what the `_fails` theorems list. -/
theorem C88_format_partial (F : Floats φ) {ps : List Piece} {args : List (FArg φ)} (h : Match ps args) :
    ∃ t, rem F (ps.flatMap Piece.text) args = .ok t ∧ Formats F ps args t := by
  obtain ⟨t, h1, h2⟩ := remLoop_formats F h _ [] (length_flatMap_text ps)
  exact ⟨t, by rw [rem, h1]; rfl, h2⟩

/-- Pieces that come before do not matter, once their arguments are used up. -/
theorem remLoop_append (F : Floats φ) {ps : List Piece} {args : List (FArg φ)} (h : Match ps args)
    (hn : (ps.filter fun | .dir .. => true | _ => false).length = args.length) (rest : Text) :
    ∀ n out, ps.length ≤ n → ∃ out', remLoop F n (ps.flatMap Piece.text ++ rest) args out =
      remLoop F (n - ps.length) rest [] out' := by
  induction h with
  | done =>
    intro n out _
    have := List.eq_nil_of_length_eq_zero hn.symm
    subst this
    exact ⟨out, rfl⟩
  | char hc _ ih =>
    intro n out hle
    cases n with
    | zero => simp at hle
    | succ n =>
      rename_i c ps args _
      obtain ⟨o, h1⟩ := ih (by simpa using hn) n (out ++ [c]) (by simpa using hle)
      refine ⟨o, ?_⟩
      rw [List.flatMap_cons, Piece.text, List.append_assoc, List.cons_append, List.nil_append, remLoop_char F hc, h1]; simp
  | percent _ ih =>
    intro n out hle
    cases n with
    | zero => simp at hle
    | succ n =>
      obtain ⟨o, h1⟩ := ih (by simpa using hn) n (out ++ ['%']) (by simpa using hle)
      refine ⟨o, ?_⟩
      rw [List.flatMap_cons, Piece.text, List.append_assoc, List.cons_append, List.cons_append, List.nil_append, remLoop, if_neg (by decide)]
      simp only [if_true, h1]; simp
  | dir hf _ ih =>
    intro n out hle
    cases n with
    | zero => simp at hle
    | succ n =>
      obtain ⟨hk, u, hs, hu⟩ := specifier_shows F hf
      obtain ⟨o, h1⟩ := ih (by simpa using hn) n (out ++ u) (by simpa using hle)
      refine ⟨o, ?_⟩
      rw [List.flatMap_cons, List.append_assoc, remLoop_dir F hk, hs]
      simp only [h1]; simp

/-- Too few arguments: an exception. -/
theorem C88_too_few (F : Floats φ) {ps : List Piece} {args : List (FArg φ)} (h : Match ps args)
    (hn : (ps.filter fun | .dir .. => true | _ => false).length = args.length)
    {z : Bool} {w : Nat} {p : Option Nat} {k : Char} (hk : IsKind k) (rest : Text) :
    rem F (ps.flatMap Piece.text ++ ((Piece.dir z w p k).text ++ rest)) args = .raised := by
  obtain ⟨c, s, h1, h2, h3⟩ := readDirective_text (z := z) (w := w) (p := p) hk rest
  rw [rem, h1]
  have hl := length_flatMap_text ps
  obtain ⟨o, h4⟩ := remLoop_append F h hn ('%' :: c :: s) _ [] (show ps.length ≤ (ps.flatMap Piece.text ++ '%' :: c :: s).length by
    rw [List.length_append]; omega)
  rw [h4]
  obtain ⟨m, hm⟩ : ∃ m, (ps.flatMap Piece.text ++ '%' :: c :: s).length - ps.length = m + 1 :=
    ⟨(ps.flatMap Piece.text ++ '%' :: c :: s).length - ps.length - 1, by simp only [List.length_append, List.length_cons]; omega⟩
  rw [hm, remLoop, if_neg (by decide)]
  simp only [if_neg h2, h3]

/-- No floats. -/
def noFloats : Floats Unit := ⟨fun _ => (), fun _ => 0, fun _ _ => ([], [])⟩

/-- `"%05d|%3d|%x|%c|%s%%" % [-42, 7, 255, 65, "ab"]` is `"-0042|  7|ff|A|ab%"`. -/
example : rem noFloats "%05d|%3d|%x|%c|%s%%".toList [.int (-42), .int 7, .int 255, .int 65, .str "ab".toList] =
    .ok "-0042|  7|ff|A|ab%".toList := by decide +kernel

/-- This is an instance of the theorem. -/
example : Match (φ := Unit) [.dir true 5 none 'd', .char '|', .dir false 3 none 'd', .char '|', .dir false 0 none 'x', .char '|',
      .dir false 0 none 'c', .char '|', .dir false 0 none 's', .percent] [.int (-42), .int 7, .int 255, .int 65, .str "ab".toList] ∧
    (List.flatMap Piece.text [.dir true 5 none 'd', .char '|', .dir false 3 none 'd', .char '|', .dir false 0 none 'x', .char '|',
      .dir false 0 none 'c', .char '|', .dir false 0 none 's', .percent]) = "%05d|%3d|%x|%c|%s%%".toList := by
  constructor
  · refine .dir ?_ (.char (by decide) (.dir ?_ (.char (by decide) (.dir ?_ (.char (by decide) (.dir ?_ (.char (by decide) (.dir ?_ (.percent .done)))))))))
    · exact .inr ⟨rfl, .inl rfl⟩
    · exact .inr ⟨rfl, .inl rfl⟩
    · exact .inr ⟨rfl, .inr (.inl ⟨by decide, by decide, .inr (.inl rfl)⟩)⟩
    · exact .inr ⟨rfl, .inr (.inr ⟨rfl, rfl, rfl, 'A', rfl⟩)⟩
    · exact ⟨rfl, rfl, rfl, rfl⟩
  · decide +kernel

/-- Negative numbers in `%x` and `%b` are shown as other numbers: `"%x" % -1` is `ffffffffffffffff` (Ruby: `..f`). -/
theorem C88_negative_hex_fails : rem noFloats "%x".toList [.int (-1)] = .ok "ffffffffffffffff".toList := by decide +kernel

/-- The width of `%s` is ignored: `"%3s" % "a"` is `a`; so is that of `%c`. -/
theorem C88_string_width_fails : rem noFloats "%3s".toList [.str "a".toList] = .ok "a".toList ∧
    rem noFloats "%3c".toList [.int 65] = .ok "A".toList := by decide +kernel

/-- The precision of integers is ignored: `"%.3d" % 5` is `5` (Ruby: `005`). -/
theorem C88_precision_fails : rem noFloats "%.3d".toList [.int 5] = .ok "5".toList := by decide +kernel

/-- `%f` without a precision is written without decimals (Ruby: six). -/
theorem C88_float_precision_fails (F : Floats φ) (x : φ) : rem F "%f".toList [.float x] = .ok ((F.write 0 x).1 ++ (F.write 0 x).2) := by
  show remLoop F 2 ['%', 'f'] [.float x] [] = _
  rw [remLoop, if_neg (by decide)]
  simp only [if_neg (show ¬ 'f' = '%' by decide), show readDirective 'f' [] = some (false, 0, 0, 'f', []) from rfl]
  simp [specifier, padNumber, remLoop]

/-- Integers of more than 63 bits (`other`) are refused by every specifier, and so are the flags `-`, `+` and space. -/
theorem C88_refused_fails : rem noFloats "%d".toList [.other] = .raised ∧ rem noFloats "%+d".toList [.int 1] = .raised ∧
    rem noFloats "%-3d".toList [.int 1] = .raised := by decide +kernel

end Verif.Str
