import Verif.Str.Props
import Verif.Lexer.Props
/-! # C87: numbers written and read back; bytes and characters as numbers

What digits denote is `Verif.Lexer.Spells` and `Verif.Lexer.value` (Lexer/Spec.lean). -/
namespace Verif.Str
open Verif.Lexer (Spells value digitTable)

/-! ## Model -/

/-- The digits of Rust's integer formatting (`{}`, `{:x}`, `{:b}`). -/
def digitOf (upper : Bool) (d : Nat) : Char :=
  if d < 10 then Char.ofNat ('0'.toNat + d) else Char.ofNat ((if upper then 'A' else 'a').toNat + (d - 10))

/-- Rust's integer formatting: the digits of a number in a base from 2 on. -/
def digits (upper : Bool) (base : Nat) (n : Nat) : Text :=
  if h : n < base ∨ base < 2 then [digitOf upper n]
  else digits upper base (n / base) ++ [digitOf upper (n % base)]
  termination_by n
  decreasing_by exact Nat.div_lt_self (by omega) (by omega)

/-- The sign of a number that is written with `{}`. -/
def sign (n : Int) : Text := if n < 0 then ['-'] else []

/-- `to_s` of an integer: `i.to_string()` of an `i64` (value/value.rs:401) or of a `BigInt` (builtin/numeric.rs:27-28). -/
def int_to_s (n : Int) : Text := sign n ++ digits false 10 n.natAbs

/-- The digits of `i64::from_str` (Rust's library). -/
def readDigits : Text → Nat → Option Nat
  | [], acc => some acc
  | c :: s, acc => if '0' ≤ c ∧ c ≤ '9' then readDigits s (acc * 10 + (c.toNat - '0'.toNat)) else none

/-- `i64::from_str`: an optional sign and at least one digit; an error if the number does not fit.  (The library tests for
overflow at each digit; the outcome is the same.) -/
def parse_i64 (s : Text) : Option Int :=
  let (neg, ds) := match s with
    | '-' :: ds => (true, ds)
    | '+' :: ds => (false, ds)
    | ds => (false, ds)
  if ds.isEmpty then none
  else match readDigits ds 0 with
    | none => none
    | some n =>
      let i : Int := if neg then -n else n
      if -2 ^ 63 ≤ i ∧ i < 2 ^ 63 then some i else none

/-- `String#to_i` (builtin/string.rs:954-965). -/
def to_i (s : RString) : Int :=
  match s.as_string with
  | .ok (s, _) => (parse_i64 s).getD 0
  | _ => 0

/-- `RString::parse` (value/string.rs:229-239). -/
def parse (s : RString) : Option Int :=
  match s with
  | .Str s => parse_i64 s
  | .SmallStr s => parse_i64 s
  | .Bytes b => (from_utf8 b).bind parse_i64

/-- `Integer(s)` for a string (builtin/kernel.rs:330-340). -/
def kernel_integer (s : RString) : Res Int :=
  match parse s with
  | some i => .ok i
  | none => .raised

/-- `Integer#chr` (builtin/integer.rs:476-488), `Value::bytes` (value/value.rs:1062-1067).  `n`: a 63-bit integer (for others the
same error is raised). -/
def chr (n : Int) : Res RString :=
  if 0 > n ∨ n > 255 then .raised else .ok (RString.from_bytes [UInt8.ofNat n.toNat])

/-- `String#ord` (builtin/string.rs:1190-1197); `as_string` of value/value.rs:647-655 panics on raw bytes. -/
def ord (s : RString) : Res Int :=
  match s.as_str with
  | .ok (c :: _) => .ok c.toNat
  | .ok [] => .raised
  | .raised => .raised
  | .panic => .panic

/-- `String#bytes` (builtin/string.rs:786-797). -/
def bytes (s : RString) : List Int := s.as_bytes.map fun b => (b.toNat : Int)

/-- `Array#pack` of 63-bit integers (builtin/array.rs:843-855); the format is ignored. -/
def pack (l : List Int) : RString := RString.from_bytes (l.map lowByte)

/-! ## Helpers -/

theorem digitOf_table {upper : Bool} {d : Nat} (h : d < 16) : (digitOf upper d, d) ∈ digitTable := by
  have : ∀ (u : Bool) (d : Fin 16), (digitOf u d.1, d.1) ∈ digitTable := by decide
  exact this upper ⟨d, h⟩

theorem spells_append {base : Nat} : ∀ {t ds t' ds'}, Spells base t ds → Spells base t' ds' → Spells base (t ++ t') (ds ++ ds')
  | _, _, _, _, .nil, h' => h'
  | _, _, _, _, .digit h1 h2 h3, h' => .digit h1 h2 (spells_append h3 h')
  | _, _, _, _, .underscore h, h' => .underscore (spells_append h h')

theorem digits_spell {upper : Bool} {base : Nat} (hb : 2 ≤ base) (hb' : base ≤ 16) (n : Nat) :
    ∃ ds, Spells base (digits upper base n) ds ∧ value base ds = n ∧ (n ≠ 0 → ds.head? ≠ some 0) ∧
      (∀ c ∈ digits upper base n, ∃ d < base, c = digitOf upper d) := by
  induction n using Nat.strongRecOn with
  | _ n ih =>
    rw [digits]
    split
    · rename_i h
      have h : n < base := by omega
      refine ⟨[n], .digit (digitOf_table (by omega)) h .nil, by simp [value], by simp, ?_⟩
      intro c hc
      exact ⟨n, h, by simpa using hc⟩
    · rename_i h
      obtain ⟨ds, h1, h2, h3, h4⟩ := ih (n / base) (Nat.div_lt_self (by omega) (by omega))
      have hm : n % base < base := Nat.mod_lt _ (by omega)
      refine ⟨ds ++ [n % base], spells_append h1 (.digit (digitOf_table (by omega)) hm .nil), ?_, ?_, ?_⟩
      · have := Nat.div_add_mod n base
        simp only [value, List.foldl_append, List.foldl_cons, List.foldl_nil] at h2 ⊢
        rw [h2, Nat.mul_comm]; exact this
      · intro _
        have hq : n / base ≠ 0 := by
          have : 0 < n / base := Nat.div_pos (by omega) (by omega)
          omega
        have := h3 hq
        cases ds with
        | nil => simp [value] at h2; omega
        | cons d ds => simpa using this
      · intro c hc
        rcases List.mem_append.1 hc with hc | hc
        · exact h4 c hc
        · exact ⟨n % base, hm, by simpa using hc⟩

theorem digits_ne {upper : Bool} {base n : Nat} : digits upper base n ≠ [] := by
  rw [digits]; split <;> simp

theorem decimalDigit {upper : Bool} {d : Nat} (h : d < 10) :
    '0' ≤ digitOf upper d ∧ digitOf upper d ≤ '9' ∧ (digitOf upper d).toNat - '0'.toNat = d ∧ digitOf upper d ≠ '-' ∧ digitOf upper d ≠ '+' ∧
      digitOf upper d ≠ '_' := by
  have : ∀ (u : Bool) (d : Fin 10), '0' ≤ digitOf u d.1 ∧ digitOf u d.1 ≤ '9' ∧ (digitOf u d.1).toNat - '0'.toNat = d.1 ∧
      digitOf u d.1 ≠ '-' ∧ digitOf u d.1 ≠ '+' ∧ digitOf u d.1 ≠ '_' := by decide
  exact this upper ⟨d, h⟩

theorem readDigits_append {t : Text} {n : Nat} : ∀ {s : Text} {acc : Nat}, readDigits s acc = some n →
    readDigits (s ++ t) acc = readDigits t n
  | [], acc, h => by cases h; rfl
  | c :: s, acc, h => by
    rw [List.cons_append, readDigits]
    rw [readDigits] at h
    split at h
    · rename_i hc; rw [if_pos hc]; exact readDigits_append h
    · cases h

theorem readDigits_digits (n : Nat) : readDigits (digits false 10 n) 0 = some n := by
  induction n using Nat.strongRecOn with
  | _ n ih =>
    rw [digits]
    split
    · rename_i h
      have h : n < 10 := by omega
      obtain ⟨h1, h2, h3, -⟩ := decimalDigit (upper := false) h
      rw [readDigits, if_pos ⟨h1, h2⟩, h3]; simp [readDigits]
    · rename_i h
      obtain ⟨h1, h2, h3, -⟩ := decimalDigit (upper := false) (show n % 10 < 10 by omega)
      rw [readDigits_append (ih (n / 10) (by omega)), readDigits, if_pos ⟨h1, h2⟩, h3]
      simp only [readDigits, Option.some.injEq]; omega

theorem head_digits {n : Nat} : ∃ c t, digits false 10 n = c :: t ∧ c ≠ '-' ∧ c ≠ '+' ∧ c ≠ '_' := by
  obtain ⟨ds, -, -, -, h4⟩ := digits_spell (upper := false) (base := 10) (by omega) (by omega) n
  cases hd : digits false 10 n with
  | nil => exact absurd hd digits_ne
  | cons c t =>
    obtain ⟨d, hd', rfl⟩ := h4 c (by rw [hd]; simp)
    obtain ⟨-, -, -, h1, h2, h3⟩ := decimalDigit (upper := false) hd'
    exact ⟨_, t, rfl, h1, h2, h3⟩

/-- Reading what was written. -/
theorem parse_to_s (n : Int) : parse_i64 (int_to_s n) = if -2 ^ 63 ≤ n ∧ n < 2 ^ 63 then some n else none := by
  obtain ⟨c, t, hd, h1, h2, -⟩ := head_digits (n := n.natAbs)
  have hr := readDigits_digits n.natAbs
  unfold int_to_s sign
  by_cases hn : n < 0
  · rw [if_pos hn]
    simp only [parse_i64, List.cons_append, List.nil_append, hr]
    rw [if_neg (by simp [digits_ne])]
    have : -(n.natAbs : Int) = n := by omega
    simp only [if_true, this]
  · rw [if_neg hn, List.nil_append]
    have hp : parse_i64 (digits false 10 n.natAbs) =
        if -2 ^ 63 ≤ (n.natAbs : Int) ∧ (n.natAbs : Int) < 2 ^ 63 then some (n.natAbs : Int) else none := by
      rw [hd] at hr ⊢
      unfold parse_i64
      split
      · rename_i heq
        split at heq
        · rename_i h; cases h; exact absurd rfl h1
        · rename_i h; cases h; exact absurd rfl h2
        · cases heq
          simp [hr]
    rw [hp]
    have : (n.natAbs : Int) = n := by omega
    rw [this]

theorem as_string_from (s : Text) : (RString.from_ s).as_string = .ok (s, RString.from_ s) := by
  unfold RString.from_
  split <;> rfl

theorem parse_from (s : Text) : parse (RString.from_ s) = parse_i64 s := by
  unfold RString.from_
  split <;> rfl

/-! ## C87 -/

/-- `to_s` writes a sign for negative numbers and decimal digits, without leading zeros, that denote the number. -/
theorem C87_to_s (n : Int) : ∃ t ds, int_to_s n = (if n < 0 then ['-'] else []) ++ t ∧ t ≠ [] ∧ Spells 10 t ds ∧ value 10 ds = n.natAbs ∧
    (n ≠ 0 → ds.head? ≠ some 0) ∧ (∀ c ∈ t, '0' ≤ c ∧ c ≤ '9') := by
  obtain ⟨ds, h1, h2, h3, h4⟩ := digits_spell (upper := false) (base := 10) (by omega) (by omega) n.natAbs
  refine ⟨_, ds, rfl, digits_ne, h1, h2, fun h => h3 (by omega), ?_⟩
  intro c hc
  obtain ⟨d, hd, rfl⟩ := h4 c hc
  exact ⟨(decimalDigit hd).1, (decimalDigit hd).2.1⟩

/-- Different numbers are written differently. -/
theorem C87_to_s_injective {m n : Int} (h : int_to_s m = int_to_s n) : m = n := by
  have key : ∀ k : Int, ∀ a b : Nat, digits false 10 a = digits false 10 b → a = b := by
    intro _ a b h
    have := readDigits_digits a
    rw [h, readDigits_digits b] at this
    exact (Option.some.inj this).symm
  unfold int_to_s sign at h
  obtain ⟨c, t, hd, h1, -⟩ := head_digits (n := m.natAbs)
  obtain ⟨c', t', hd', h1', -⟩ := head_digits (n := n.natAbs)
  by_cases hm : m < 0 <;> by_cases hn : n < 0
  · rw [if_pos hm, if_pos hn] at h
    have := key 0 _ _ (List.append_cancel_left h); omega
  · rw [if_pos hm, if_neg hn, hd'] at h
    simp at h; exact absurd h.1.symm h1'
  · rw [if_neg hm, if_pos hn, hd] at h
    simp at h; exact absurd h.1 h1
  · rw [if_neg hm, if_neg hn] at h
    have := key 0 _ _ (List.append_cancel_left h); omega

/-- `n.to_s.to_i` and `Integer(n.to_s)` are `n`, for integers of 64 bits.  Missing: larger ones (`C87_big_fails`). -/
theorem C87_read_back_partial (n : Int) (h : -2 ^ 63 ≤ n ∧ n < 2 ^ 63) :
    to_i (.from_ (int_to_s n)) = n ∧ kernel_integer (.from_ (int_to_s n)) = .ok n := by
  constructor
  · rw [to_i, as_string_from]; simp only [parse_to_s, if_pos h]; rfl
  · rw [kernel_integer, parse_from, parse_to_s, if_pos h]

example : to_i (.from_ (int_to_s (-120))) = -120 ∧ int_to_s (-120) = "-120".toList :=
  ⟨(C87_read_back_partial (-120) (by omega)).1, by simp [int_to_s, sign, digits, digitOf]⟩

/-- For every larger integer `n.to_s.to_i` is 0, and `Integer(n.to_s)` raises an ArgumentError. -/
theorem C87_big_fails (n : Int) (h : n < -2 ^ 63 ∨ 2 ^ 63 ≤ n) :
    to_i (.from_ (int_to_s n)) = 0 ∧ kernel_integer (.from_ (int_to_s n)) = .raised := by
  have h : ¬ (-2 ^ 63 ≤ n ∧ n < 2 ^ 63) := by omega
  constructor
  · rw [to_i, as_string_from]; simp only [parse_to_s, if_neg h]; rfl
  · rw [kernel_integer, parse_from, parse_to_s, if_neg h]

/-- A string that begins with no digit, sign or blank is 0 for `to_i` and an ArgumentError for `Integer`; so are the empty
string and bytes that are not a text. -/
theorem C87_no_number (s : Text) (b : Str.Bytes) (hb : from_utf8 b = none) {c : Char} (hc : ¬ ('0' ≤ c ∧ c ≤ '9'))
    (h1 : c ≠ '+') (h2 : c ≠ '-') :
    (to_i (.from_ (c :: s)) = 0 ∧ kernel_integer (.from_ (c :: s)) = .raised) ∧
    (to_i (.from_ []) = 0 ∧ kernel_integer (.from_ []) = .raised) ∧
    (to_i (.Bytes b) = 0 ∧ kernel_integer (.Bytes b) = .raised) := by
  have hp : parse_i64 (c :: s) = none := by
    have hr : readDigits (c :: s) 0 = none := by dsimp only [readDigits]; rw [if_neg hc]
    rw [parse_i64.eq_def]
    split
    rename_i neg ds q
    split at q
    · rename_i w; exact absurd (List.cons.inj w).1 h2
    · rename_i w; exact absurd (List.cons.inj w).1 h1
    · cases q; simp [hr]
  refine ⟨⟨?_, ?_⟩, ⟨by decide, by decide⟩, ?_, ?_⟩
  · rw [to_i, as_string_from]; simp only [hp]; rfl
  · rw [kernel_integer, parse_from, hp]
  · simp only [to_i, RString.as_string, hb]
  · simp only [kernel_integer, parse, hb]; rfl

example : from_utf8 [0xff] = none ∧ ¬ ('0' ≤ 'x' ∧ 'x' ≤ '9') := by decide +kernel

/-- `to_i` does not read the number at the start of a text: `"12abc".to_i`, `" 12".to_i` and `"1_2".to_i` are 0 (Ruby: 12). -/
theorem C87_prefix_fails : to_i (.from_ "12abc".toList) = 0 ∧ to_i (.from_ " 12".toList) = 0 ∧ to_i (.from_ "1_2".toList) = 0 := by decide

/-- The text of a natural number, in a program, is the literal of the number, whatever its size. -/
theorem C87_literal (U : Lexer.Unicode) (n : Nat) : ∃ tok, Lexer.read_token U (int_to_s n) = .ok (tok, []) ∧
    Lexer.literalValue tok = some (Arith.num n) := by
  obtain ⟨ds, h1, h2, h3, h4⟩ := digits_spell (upper := false) (base := 10) (by omega) (by omega) n
  obtain ⟨c, t, hd, -, -, hc⟩ := head_digits (n := n)
  have := Lexer.C50_decimal U (rest := []) h1 digits_ne (by rw [hd]; simpa using hc) trivial (by intro r _; simp)
  rw [h2] at this
  have e : int_to_s n = digits false 10 n := by
    unfold int_to_s sign
    rw [if_neg (by omega)]; rfl
  rw [e]
  simpa using this

/-- `n.chr` is the string of the one byte `n`; other integers raise a RangeError. -/
theorem C87_chr (n : Int) : (0 ≤ n ∧ n ≤ 255 → ∃ s, chr n = .ok s ∧ bytes s = [n]) ∧ (¬ (0 ≤ n ∧ n ≤ 255) → chr n = .raised) := by
  constructor
  · intro h
    rw [chr, if_neg (by omega)]
    refine ⟨_, rfl, ?_⟩
    rw [bytes, as_bytes_from_bytes]
    simp [UInt8.toNat_ofNat']; omega
  · intro h
    rw [chr, if_pos (by omega)]

theorem from_utf8_ascii {n : Nat} (h : n < 128) : from_utf8 [UInt8.ofNat n] = some [Char.ofNat n] := by
  have : ∀ n : Fin 128, from_utf8 [UInt8.ofNat n.1] = some [Char.ofNat n.1] := by decide +kernel
  exact this ⟨n, h⟩

/-- `ord` is the number of the first character of a text; the empty string raises. -/
theorem C87_ord (c : Char) (t : Text) : ord (.from_ (c :: t)) = .ok c.toNat ∧ ord (.from_ []) = .raised := by
  have : ∀ t : Text, (RString.from_ t).as_str = .ok t := by intro t; unfold RString.from_; split <;> rfl
  exact ⟨by rw [ord, this], by rw [ord, this]⟩

/-- `n.chr.ord` is `n` for the ASCII characters. -/
theorem C87_chr_ord_partial (n : Int) (h : 0 ≤ n ∧ n < 128) : ∃ s, chr n = .ok s ∧ ord s = .ok n := by
  rw [chr, if_neg (by omega)]
  refine ⟨_, rfl, ?_⟩
  rw [RString.from_bytes, from_utf8_ascii (by omega)]
  have hs : (RString.from_ [Char.ofNat n.toNat]).as_str = .ok [Char.ofNat n.toNat] := by
    unfold RString.from_; split <;> rfl
  simp only [ord, hs]
  have : (Char.ofNat n.toNat).toNat = n.toNat := by
    rw [Char.ofNat, dif_pos (by left; omega)]; rfl
  rw [this]
  congr 1; omega

/-- For the other bytes `n.chr.ord` panics. -/
theorem C87_chr_ord_fails (n : Int) (h : 128 ≤ n ∧ n ≤ 255) : ∃ s, chr n = .ok s ∧ ord s = .panic := by
  have key : ∀ n : Fin 256, 128 ≤ n.1 → from_utf8 [UInt8.ofNat n.1] = none := by decide +kernel
  rw [chr, if_neg (by omega)]
  refine ⟨_, rfl, ?_⟩
  rw [RString.from_bytes, key ⟨n.toNat, by omega⟩ (by show 128 ≤ n.toNat; omega)]
  rfl

/-- `s.bytes.pack("C*")` is the string again, byte by byte. -/
theorem C87_bytes_pack (s : RString) : (pack (bytes s)).as_bytes = s.as_bytes := by
  rw [pack, as_bytes_from_bytes, bytes, List.map_map]
  conv => rhs; rw [← List.map_id s.as_bytes]
  apply List.map_congr_left
  intro b _
  simp only [Function.comp, lowByte, id]
  apply UInt8.toNat_inj.1
  have := b.toNat_lt
  rw [UInt8.toNat_ofNat']; omega

/-- `l.pack("C*").bytes`: each number modulo 256. -/
theorem C87_pack_bytes (l : List Int) : bytes (pack l) = l.map (· % 256) := by
  rw [bytes, pack, as_bytes_from_bytes, List.map_map]
  apply List.map_congr_left
  intro b _
  simp only [Function.comp, lowByte, UInt8.toNat_ofNat']
  omega

example : bytes (pack [72, 105, -1]) = [72, 105, 255] := C87_pack_bytes _

end Verif.Str
