import Verif.Float.Rem
import Mathlib.Data.Nat.Log
import Mathlib.Data.Set.Finite.Lattice
import Mathlib.Data.Set.Finite.Lemmas
import Mathlib.Order.Interval.Finset.Nat
import Mathlib.Data.Int.Interval
/-! # C110: `div` and `fdiv`, by the division of floats -/
namespace Verif.Float

open Verif.Value (Word)

/-! ## Model -/

/-- A machine that rounds to the nearest float (IEEE 754), for numbers up to `2 ** 1023`; what it does beyond them and in a tie is left open. -/
structure Nearest extends Machine where
  near : ∀ q : ℚ, |q| ≤ 2 ^ 1023 →
    ∃ n m e, round q = .fin n m e ∧ IsFloat (rat n m e) ∧ ∀ f, IsFloat f → |rat n m e - q| ≤ |f - q|

/-- `a / b` (IEEE 754). -/
def fquo (R : Nearest) : F64 → F64 → F64
  | .nan, _ => .nan
  | _, .nan => .nan
  | .inf _, .inf _ => .nan
  | .inf a, .fin b _ _ => .inf (xor a b)
  | .fin a _ _, .inf b => .fin (xor a b) 0 0
  | .fin a m e, .fin b m' e' =>
    if m' = 0 then (if m = 0 then .nan else .inf (xor a b)) else R.round (rat a m e / rat b m' e')

/-- `to_real` (value/value.rs:1255-1265) and `Real::to_f64` (value/real.rs:43-49). Simplified: no integers beyond an `i64`. -/
def toF64 : Num → F64
  | .int i => ofInt i
  | .flo w => decode w

/-- `Real::is_zero` (value/real.rs:35-41). -/
def zero? : Num → Bool
  | .int i => i == 0
  | .flo w => isZero (decode w)

/-- `Real::quotient` (value/real.rs:59-65). The floor of a float is a float or infinite or not a number; `to_i64` and `from_f64` give a finite
one exactly, the first as an `i64` and the second as a big integer, and `from_f64(..).unwrap()` panics at the others. -/
def quotient (R : Nearest) (x y : F64) : Except Stop Int :=
  match fquo R x y with
  | .fin n m e => .ok ⌊rat n m e⌋
  | _ => .error .panic

/-- `Integer#div` (builtin/integer.rs:117-129) and `Float#div` (builtin/float.rs:62-74): the same text. -/
def div (R : Nearest) (x y : Num) : Except Stop Int :=
  if zero? y then .error .zeroDivision else quotient R (toF64 x) (toF64 y)

/-- `Integer#fdiv` (builtin/integer.rs:108-115). -/
def fdiv (R : Nearest) (x y : Num) : F64 := fquo R (toF64 x) (toF64 y)

/-! ## Specification -/

/-- The rational number that a finite number stands for. -/
def Stands : Num → ℚ → Prop
  | .int i, q => q = i
  | .flo w, q => Is (decode w) q

/-- An integer that a float can hold, or a float. -/
def Exact : Num → Prop
  | .int i => |i| ≤ 2 ^ 53
  | .flo _ => True

/-! ## Helpers -/

/-- There are only finitely many floats. -/
theorem floats_finite : {q : ℚ | IsFloat q}.Finite := by
  have : {q : ℚ | IsFloat q} ⊆ ⋃ m ∈ Set.Icc (-2 ^ 53 : Int) (2 ^ 53), ⋃ e ∈ Set.Icc (-1074 : Int) 971, {((m : ℚ) * 2 ^ e)} := by
    rintro q ⟨m, e, rfl, hm, h1, h2⟩
    rw [abs_lt] at hm
    simp only [Set.mem_iUnion, Set.mem_Icc, Set.mem_singleton_iff, exists_prop]
    exact ⟨m, ⟨by omega, by omega⟩, e, ⟨h1, h2⟩, rfl⟩
  refine Set.Finite.subset ?_ this
  refine Set.Finite.biUnion (Set.finite_Icc _ _) fun m _ => ?_
  exact Set.Finite.biUnion (Set.finite_Icc _ _) fun e _ => Set.finite_singleton _

theorem float_fin {q : ℚ} (h : IsFloat q) : ∃ n m e, rat n m e = q := by
  obtain ⟨m, e, rfl, -, -, -⟩ := h
  refine ⟨decide (m < 0), m.natAbs, e, ?_⟩
  unfold rat
  rcases lt_or_ge m 0 with h | h
  · have : ((m.natAbs : Nat) : ℚ) = -m := by
      have : ((m.natAbs : Nat) : Int) = -m := by omega
      rw [← Int.cast_natCast, this, Int.cast_neg]
    simp [h, this]
  · have : ((m.natAbs : Nat) : ℚ) = m := by
      have : ((m.natAbs : Nat) : Int) = m := by omega
      rw [← Int.cast_natCast, this]
    simp [not_lt.2 h, this]

theorem nearest_exists (q : ℚ) : ∃ r, IsFloat r ∧ ∀ f, IsFloat f → |r - q| ≤ |f - q| := by
  obtain ⟨r, hr, h⟩ := Set.exists_min_image {q : ℚ | IsFloat q} (fun r => |r - q|) floats_finite
    ⟨0, 0, 0, by simp, by norm_num, by norm_num, by norm_num⟩
  exact ⟨r, hr, h⟩

/-- There are machines that round to the nearest float. -/
theorem nearest_machine : Nonempty Nearest := by
  choose r hr h using nearest_exists
  choose n m e hn using fun q => float_fin (hr q)
  refine ⟨{ round := fun q => .fin (n q) (m q) (e q), exact := fun q hq => ⟨_, _, _, rfl, ?_⟩, near := fun q _ => ⟨_, _, _, rfl, ?_, ?_⟩ }⟩
  · rw [hn]
    have := h q q hq
    rw [sub_self, abs_zero] at this
    have := abs_nonpos_iff.1 this
    linarith
  · rw [hn]; exact hr q
  · rw [hn]; exact h q

theorem Nearest.between (R : Nearest) {q f g : ℚ} (hf : IsFloat f) (hg : IsFloat g) (h1 : f ≤ q) (h2 : q ≤ g) (hq : |q| ≤ 2 ^ 1023) :
    ∃ n m e, R.round q = .fin n m e ∧ f ≤ rat n m e ∧ rat n m e ≤ g := by
  obtain ⟨n, m, e, h, -, near⟩ := R.near q hq
  refine ⟨n, m, e, h, ?_, ?_⟩
  · by_contra c
    have := near f hf
    rw [abs_of_nonpos (by linarith), abs_of_nonpos (by linarith)] at this
    linarith
  · by_contra c
    have := near g hg
    rw [abs_of_nonneg (by linarith), abs_of_nonneg (by linarith)] at this
    linarith

theorem stands {x : Num} {p : ℚ} (h : Stands x p) (he : Exact x) : Is (toF64 x) p := by
  cases x with
  | int i =>
    obtain ⟨n, m, k, e, g, -⟩ := ofInt_spec i
    have : i.natAbs ≤ 2 ^ 53 := by
      have : |i| ≤ 2 ^ 53 := he
      rw [Int.abs_eq_natAbs] at this
      omega
    cases h
    exact ⟨n, m, k, e, g this⟩
  | flo w => exact h

theorem zero_stands {x : Num} {p : ℚ} (h : Stands x p) : zero? x = true ↔ p = 0 := by
  cases x with
  | int i => cases h; simp [zero?]
  | flo w =>
    obtain ⟨n, m, e, hd, rfl⟩ := h
    simp [zero?, hd, isZero, rat_zero]

theorem fquo_spec (R : Nearest) {x y : F64} {p q : ℚ} (hx : Is x p) (hy : Is y q) (hq : q ≠ 0) : fquo R x y = R.round (p / q) := by
  obtain ⟨a, m, e, rfl, rfl⟩ := hx
  obtain ⟨b, m', e', rfl, rfl⟩ := hy
  have : m' ≠ 0 := fun h => hq (rat_zero.2 h)
  simp [fquo, this]

theorem div_spec (R : Nearest) {x y : Num} {p q f g : ℚ} (hx : Stands x p) (hy : Stands y q) (ex : Exact x) (ey : Exact y) (hq : q ≠ 0)
    (hf : IsFloat f) (hg : IsFloat g) (h1 : f ≤ p / q) (h2 : p / q ≤ g) (hb : |p / q| ≤ 2 ^ 1023) :
    ∃ r : ℚ, div R x y = .ok ⌊r⌋ ∧ f ≤ r ∧ r ≤ g := by
  obtain ⟨n, m, e, h, l, u⟩ := R.between hf hg h1 h2 hb
  refine ⟨rat n m e, ?_, l, u⟩
  have hz : ¬zero? y = true := fun c => hq ((zero_stands hy).1 c)
  rw [div, if_neg hz, quotient, fquo_spec R (stands hx ex) (stands hy ey) hq, h]

theorem int_float' {i : Int} (h : |i| ≤ 2 ^ 53) : IsFloat (i : ℚ) := by
  rcases h.lt_or_eq with h | h
  · exact int_float h
  · rcases abs_eq (by norm_num) |>.1 h with rfl | rfl
    · exact ⟨2 ^ 52, 1, by norm_num, by norm_num, by norm_num, by norm_num⟩
    · exact ⟨-2 ^ 52, 1, by norm_num, by norm_num, by norm_num, by norm_num⟩

theorem power_above {b : Nat} (h : 0 < b) : ∃ j, b ≤ 2 ^ j ∧ 2 ^ j < 2 * b := by
  have l := Nat.pow_log_le_self 2 h.ne'
  have u := Nat.lt_pow_succ_log_self (b := 2) (by norm_num) b
  rcases l.lt_or_eq with l | l
  · exact ⟨Nat.log 2 b + 1, u.le, by rw [pow_succ]; omega⟩
  · exact ⟨Nat.log 2 b, by omega, by omega⟩

/-- Between the quotient of two small integers and the integer above it there is a float. -/
theorem below_next {a b : Int} (hb : b ≠ 0) (h : |a| + |b| < 2 ^ 52) :
    ∃ f : ℚ, IsFloat f ∧ (a : ℚ) / b ≤ f ∧ f < ⌊(a : ℚ) / b⌋ + 1 := by
  obtain ⟨j, j1, j2⟩ := power_above (b := b.natAbs) (by omega)
  have hB : |b| = b.natAbs := Int.abs_eq_natAbs b
  have hj : j ≤ 52 := by
    by_contra c
    have : 2 ^ 53 ≤ 2 ^ j := Nat.pow_le_pow_right (by norm_num) (by omega)
    have := abs_nonneg a
    omega
  obtain ⟨n, hn⟩ : ∃ n : Int, n = ⌊(a : ℚ) / b⌋ + 1 := ⟨_, rfl⟩
  obtain ⟨c, B, hB0, e, hc, hBb⟩ : ∃ c B : Int, 0 < B ∧ (a : ℚ) / b = c / B ∧ |c| = |a| ∧ B = |b| := by
    rcases lt_or_gt_of_ne hb with h | h
    · exact ⟨-a, -b, by omega, by push_cast; rw [neg_div_neg_eq], abs_neg a, (abs_of_neg h).symm⟩
    · exact ⟨a, b, h, rfl, rfl, (abs_of_pos h).symm⟩
  have hBq : (0 : ℚ) < B := by exact_mod_cast hB0
  have l : (n - 1) * B ≤ c := by
    have : ((n - 1 : Int) : ℚ) ≤ (a : ℚ) / b := by rw [hn, add_sub_cancel_right]; exact Int.floor_le _
    rw [e, le_div_iff₀ hBq] at this
    exact_mod_cast this
  have u : c < n * B := by
    have : (a : ℚ) / b < (n : ℚ) := by rw [hn]; push_cast; exact Int.lt_floor_add_one _
    rw [e, div_lt_iff₀ hBq] at this
    exact_mod_cast this
  have J1 : B ≤ 2 ^ j := by rw [hBb, hB]; exact_mod_cast j1
  have J2 : (2 : Int) ^ j ≤ 2 * B - 1 := by
    have : ((2 ^ j : Nat) : Int) < ((2 * b.natAbs : Nat) : Int) := by exact_mod_cast j2
    push_cast at this
    rw [hBb]
    omega
  have J0 : (0 : Int) < 2 ^ j := by positivity
  have bound : |n * 2 ^ j - 1| < 2 ^ 53 := by
    have hc' := abs_le.1 (le_of_eq hc)
    rw [← hBb] at h
    rw [abs_lt]
    rcases lt_trichotomy n 0 with hn | hn | hn
    · constructor <;> nlinarith
    · subst hn; norm_num
    · constructor <;> nlinarith
  have J1q : (B : ℚ) ≤ 2 ^ j := by exact_mod_cast J1
  have J0q : (0 : ℚ) < 2 ^ j := by positivity
  have val : ((n * 2 ^ j - 1 : Int) : ℚ) * 2 ^ (-(j : Int)) = n - 1 / 2 ^ j := by
    rw [zpow_neg, zpow_natCast]
    push_cast
    field_simp
  refine ⟨n - 1 / 2 ^ j, ⟨n * 2 ^ j - 1, -j, val.symm, bound, by omega, by omega⟩, ?_, ?_⟩
  · rw [e]
    have h1 : (c : ℚ) / B ≤ n - 1 / B := by
      rw [div_le_iff₀ hBq, sub_mul, one_div, inv_mul_cancel₀ hBq.ne']
      have : (c : ℚ) + 1 ≤ n * B := by exact_mod_cast u
      linarith
    have h2 : (1 : ℚ) / 2 ^ j ≤ 1 / B := one_div_le_one_div_of_le hBq J1q
    linarith
  · rw [show ((⌊(a : ℚ) / b⌋ : ℚ) + 1) = (n : ℚ) by rw [hn]; push_cast; rfl]
    have : (0 : ℚ) < 1 / 2 ^ j := by positivity
    linarith

theorem big : (2 : ℚ) ^ 54 ≤ 2 ^ 1023 := pow_le_pow_right₀ (by norm_num) (by norm_num)

theorem small {q : ℚ} {k : Int} (hk : |k| ≤ 2 ^ 53) (h1 : (k : ℚ) ≤ q) (h2 : q ≤ k + 1) : |q| ≤ 2 ^ 1023 := by
  have hk' := abs_le.1 hk
  have a1 : ((-2 ^ 53 : Int) : ℚ) ≤ k := by exact_mod_cast hk'.1
  have a2 : (k : ℚ) ≤ ((2 ^ 53 : Int) : ℚ) := by exact_mod_cast hk'.2
  push_cast at a1 a2
  refine le_trans ?_ big
  rw [abs_le]
  constructor <;> linarith

/-! ## C110 -/

/-- `a.div(b)` of integers, of floats that are integers, and of the two mixed is the quotient, rounded down.

Partial: for numbers with `|a| + |b| < 2 ** 52`. -/
theorem C110_integers_partial (R : Nearest) {x y : Num} {a b : Int} (hx : Stands x a) (hy : Stands y b) (hb : b ≠ 0) (h : |a| + |b| < 2 ^ 52) :
    div R x y = .ok ⌊(a : ℚ) / b⌋ := by
  have ha0 := abs_nonneg a
  have hb0 := abs_nonneg b
  have exact : ∀ {x : Num} {i : Int}, Stands x i → |i| < 2 ^ 52 → Exact x := by
    intro x i hx hi
    cases x with
    | int j =>
      have hx : (i : ℚ) = j := hx
      have : i = j := by exact_mod_cast hx
      subst this
      show |i| ≤ 2 ^ 53
      omega
    | flo _ => trivial
  obtain ⟨f, hf, h1, h2⟩ := below_next hb h
  have hm : |⌊(a : ℚ) / b⌋| ≤ 2 ^ 53 := by
    have l := Int.floor_le ((a : ℚ) / b)
    have u := Int.lt_floor_add_one ((a : ℚ) / b)
    have q : |(a : ℚ) / b| ≤ |(a : ℚ)| := by
      rw [abs_div]
      refine div_le_self (abs_nonneg _) ?_
      have : 1 ≤ |b| := Int.one_le_abs hb
      exact_mod_cast this
    have A : |(a : ℚ)| ≤ 2 ^ 52 := by
      have : |a| ≤ 2 ^ 52 := by omega
      exact_mod_cast this
    have q' := abs_le.1 (q.trans A)
    have hl : ((⌊(a : ℚ) / b⌋ : Int) : ℚ) ≤ ((2 ^ 53 : Int) : ℚ) := by push_cast; linarith [q'.2]
    have hu : ((-2 ^ 53 : Int) : ℚ) ≤ ((⌊(a : ℚ) / b⌋ : Int) : ℚ) := by push_cast; linarith [q'.1]
    rw [abs_le]
    exact ⟨by exact_mod_cast hu, by exact_mod_cast hl⟩
  obtain ⟨r, e, l, u⟩ := div_spec R hx hy (exact hx (by omega)) (exact hy (by omega)) (by exact_mod_cast hb) (int_float' hm) hf
    (Int.floor_le _) h1 (small hm (Int.floor_le _) (Int.lt_floor_add_one _).le)
  rw [e]
  congr 1
  rw [Int.floor_eq_iff]
  exact ⟨l, by linarith⟩

/-- `(-7).div(2)` is -4 and `7.div(-2.0)` is -4. -/
example (R : Nearest) : div R (.int (-7)) (.int 2) = .ok (-4) ∧ div R (.int 7) (.flo 0xC000000000000000#64) = .ok (-4) := by
  constructor
  · rw [C110_integers_partial R (x := .int (-7)) (y := .int 2) (a := -7) (b := 2) (by simp [Stands]) (by simp [Stands]) (by norm_num) (by norm_num)]
    norm_num
  · have d : decode 0xC000000000000000#64 = .fin true (2 ^ 52) (-51) := by decide +kernel
    rw [C110_integers_partial R (x := .int 7) (y := .flo 0xC000000000000000#64) (a := 7) (b := -2) (by simp [Stands]) ⟨_, _, _, d, by norm_num [rat]⟩ (by norm_num) (by norm_num)]
    norm_num

example : Nonempty Nearest := nearest_machine

/-- For all floats and all integers that floats hold, `div` is the quotient rounded down or the integer above it, and exact if the quotient is an integer.

Partial: the quotient is at most `2 ** 53`. -/
theorem C110_close_partial (R : Nearest) {x y : Num} {p q : ℚ} (hx : Stands x p) (hy : Stands y q) (ex : Exact x) (ey : Exact y) (hq : q ≠ 0)
    (h : |⌊p / q⌋| < 2 ^ 53) :
    ∃ k, div R x y = .ok k ∧ ⌊p / q⌋ ≤ k ∧ k ≤ ⌊p / q⌋ + 1 ∧ ((⌊p / q⌋ : ℚ) = p / q → k = ⌊p / q⌋) := by
  obtain ⟨k, hk⟩ : ∃ k, k = ⌊p / q⌋ := ⟨_, rfl⟩
  rw [← hk] at h ⊢
  have l : (k : ℚ) ≤ p / q := by rw [hk]; exact Int.floor_le _
  have u : p / q ≤ ((k + 1 : Int) : ℚ) := by rw [hk]; push_cast; exact (Int.lt_floor_add_one _).le
  have hk1 : |k + 1| ≤ 2 ^ 53 := by
    have := abs_lt.1 h
    rw [abs_le]
    omega
  have sm := small h.le l (by exact_mod_cast u)
  by_cases c : (k : ℚ) = p / q
  · obtain ⟨r, e, l', u'⟩ := div_spec R hx hy ex ey hq (int_float' h.le) (int_float' h.le) l c.ge sm
    have : ⌊r⌋ = k := by rw [le_antisymm u' l', Int.floor_intCast]
    exact ⟨k, by rw [e, this], le_refl _, by omega, fun _ => rfl⟩
  · obtain ⟨r, e, l', u'⟩ := div_spec R hx hy ex ey hq (int_float' h.le) (int_float' hk1) l u sm
    refine ⟨⌊r⌋, e, Int.le_floor.2 l', ?_, fun h => absurd h c⟩
    have : ((⌊r⌋ : Int) : ℚ) ≤ ((k + 1 : Int) : ℚ) := (Int.floor_le r).trans u'
    exact_mod_cast this

/-- `7.5.div(2.5)` is 3. -/
example (R : Nearest) : div R (.flo 0x401E000000000000#64) (.flo 0x4004000000000000#64) = .ok 3 := by
  have d : decode 0x401E000000000000#64 = .fin false (15 * 2 ^ 49) (-50) := by decide +kernel
  have d' : decode 0x4004000000000000#64 = .fin false (5 * 2 ^ 50) (-51) := by decide +kernel
  have f : ⌊(15 / 2 : ℚ) / (5 / 2)⌋ = 3 := by norm_num
  obtain ⟨k, e, -, -, g⟩ := C110_close_partial R (x := .flo 0x401E000000000000#64) (y := .flo 0x4004000000000000#64) (p := 15 / 2) (q := 5 / 2)
    ⟨_, _, _, d, by norm_num [rat]⟩ ⟨_, _, _, d', by norm_num [rat]⟩ trivial trivial (by norm_num) (by rw [f]; norm_num)
  rw [e, g (by rw [f]; norm_num), f]

/-- Division by zero, of every number by either zero, is the error and never a value. -/
theorem C110_zero (R : Nearest) (x : Num) {y : Num} (hy : Stands y 0) : div R x y = .error .zeroDivision := by
  rw [div, if_pos ((zero_stands hy).2 rfl)]

/-- `1.div(-0.0)` -/
example (R : Nearest) : div R (.int 1) (.flo 0x8000000000000000#64) = .error .zeroDivision :=
  C110_zero R _ ⟨true, 0, -1074, by decide +kernel, by simp [rat]⟩

/-- `fdiv` gives the float nearest to the quotient of two integers.

Partial: of integers that floats hold. -/
theorem C110_fdiv_partial (R : Nearest) {a b : Int} (ha : |a| ≤ 2 ^ 53) (hb : |b| ≤ 2 ^ 53) (h0 : b ≠ 0) :
    ∃ r, Is (fdiv R (.int a) (.int b)) r ∧ IsFloat r ∧ ∀ f, IsFloat f → |r - (a : ℚ) / b| ≤ |f - (a : ℚ) / b| := by
  have q : |(a : ℚ) / b| ≤ 2 ^ 1023 := by
    have : |(a : ℚ) / b| ≤ |(a : ℚ)| := by
      rw [abs_div]
      refine div_le_self (abs_nonneg _) ?_
      have : 1 ≤ |b| := Int.one_le_abs h0
      exact_mod_cast this
    have A : |(a : ℚ)| ≤ 2 ^ 53 := by exact_mod_cast ha
    refine le_trans ?_ big
    linarith
  obtain ⟨n, m, e, h, hf, near⟩ := R.near _ q
  refine ⟨rat n m e, ⟨n, m, e, ?_, rfl⟩, hf, near⟩
  rw [fdiv, fquo_spec R (stands (x := .int a) rfl ha) (stands (x := .int b) rfl hb) (by exact_mod_cast h0), h]

/-- `1.fdiv(8)` is 0.125. -/
example (R : Nearest) : Is (fdiv R (.int 1) (.int 8)) (1 / 8) := by
  obtain ⟨r, h, -, near⟩ := C110_fdiv_partial R (a := 1) (b := 8) (by norm_num) (by norm_num) (by norm_num)
  have := near (1 / 8) ⟨1, -3, by norm_num, by norm_num, by norm_num, by norm_num⟩
  rw [show (((1 : Int) : ℚ) / ((8 : Int) : ℚ)) = 1 / 8 by norm_num, sub_self, abs_zero] at this
  have : r = 1 / 8 := by linarith [abs_nonpos_iff.1 this]
  rwa [this] at h

/-- `(2**53 + 1).div(1)` is `2**53`: integers are divided as floats. -/
theorem C110_large_integers_fails (R : Nearest) : div R (.int (2 ^ 53 + 1)) (.int 1) = .ok (2 ^ 53) := by
  have e : ofInt (2 ^ 53 + 1) = .fin false (2 ^ 52) 1 := by decide +kernel
  have q : fquo R (.fin false (2 ^ 52) 1) (ofInt 1) = R.round (2 ^ 53 / 1) :=
    fquo_spec R (p := 2 ^ 53) (q := 1) ⟨_, _, _, rfl, by norm_num [rat]⟩ ⟨false, 1, 0, by decide +kernel, by norm_num [rat]⟩ (by norm_num)
  obtain ⟨n, m, k, h, hr⟩ := R.exact (2 ^ 53 / 1) ⟨2 ^ 52, 1, by norm_num, by norm_num, by norm_num, by norm_num⟩
  have z : zero? (.int 1) = false := rfl
  simp only [div, z, quotient, toF64, e, q, h, hr]
  norm_num

/-- `1.0.div(0.1)` is 10, although the float 0.1 is more than a tenth and goes only 9 times into 1. -/
theorem C110_close_fails (R : Nearest) : ∃ p q, Stands (.flo 0x3FF0000000000000#64) p ∧ Stands (.flo 0x3FB999999999999A#64) q ∧
    div R (.flo 0x3FF0000000000000#64) (.flo 0x3FB999999999999A#64) = .ok 10 ∧ ⌊p / q⌋ = 9 := by
  have d : decode 0x3FF0000000000000#64 = .fin false (2 ^ 52) (-52) := by decide +kernel
  have d' : decode 0x3FB999999999999A#64 = .fin false 7205759403792794 (-56) := by decide +kernel
  have hp : Stands (.flo 0x3FF0000000000000#64) 1 := ⟨_, _, _, d, by norm_num [rat]⟩
  have hq : Stands (.flo 0x3FB999999999999A#64) (7205759403792794 / 2 ^ 56) := ⟨_, _, _, d', by norm_num [rat]⟩
  have fl : ⌊(1 : ℚ) / (7205759403792794 / 2 ^ 56)⌋ = 9 := by rw [Int.floor_eq_iff]; norm_num
  refine ⟨_, _, hp, hq, ?_, fl⟩
  have q0 : (7205759403792794 / 2 ^ 56 : ℚ) ≠ 0 := by norm_num
  have hz : ¬zero? (.flo 0x3FB999999999999A#64) = true := fun c => q0 ((zero_stands hq).1 c)
  obtain ⟨n, m, e, h, ⟨M, E, hM, hM1, hE1, hE2⟩, near⟩ := R.near ((1 : ℚ) / (7205759403792794 / 2 ^ 56)) (le_trans (by norm_num [abs_le]) big)
  rw [div, if_neg hz, quotient, fquo_spec R (stands hp trivial) (stands hq trivial) q0, h]
  have n10 := near 10 ⟨10, 0, by norm_num, by norm_num, by norm_num, by norm_num⟩
  rw [hM] at n10
  obtain ⟨b1, b2⟩ : (10 : ℚ) - 1 / 2 ^ 49 < M * 2 ^ E ∧ (M : ℚ) * 2 ^ E < 10 + 1 / 2 ^ 49 := by
    rw [show |(10 : ℚ) - 1 / (7205759403792794 / 2 ^ 56)| = 10 - 1 / (7205759403792794 / 2 ^ 56) from abs_of_nonneg (by norm_num)] at n10
    have := abs_le.1 n10
    constructor
    · refine lt_of_lt_of_le ?_ (by linarith [this.1] : (1 : ℚ) / (7205759403792794 / 2 ^ 56) - (10 - 1 / (7205759403792794 / 2 ^ 56)) ≤ M * 2 ^ E)
      norm_num
    · refine lt_of_le_of_lt (by linarith [this.2] : (M : ℚ) * 2 ^ E ≤ 10) ?_
      norm_num
  have hE : -49 ≤ E := by
    by_contra c
    have p1 : (2 : ℚ) ^ E ≤ 2 ^ (-50 : Int) := zpow_le_zpow_right₀ (by norm_num) (by omega)
    have p2 : (M : ℚ) ≤ 2 ^ 53 := by exact_mod_cast (abs_lt.1 hM1).2.le
    have p3 : (0 : ℚ) < 2 ^ E := by positivity
    have : (M : ℚ) * 2 ^ E ≤ 2 ^ 53 * 2 ^ (-50 : Int) := by nlinarith [mul_le_mul_of_nonneg_right p2 p3.le]
    norm_num at this b1
    linarith
  obtain ⟨k, rfl⟩ : ∃ k : Nat, E = -49 + k := ⟨(E + 49).toNat, by omega⟩
  have K : (M : ℚ) * 2 ^ (-49 + (k : Int)) = ((M * 2 ^ k : Int) : ℚ) * (1 / 2 ^ 49) := by
    rw [zpow_add₀ (by norm_num), zpow_natCast]
    push_cast
    norm_num
    ring
  show Except.ok ⌊rat n m e⌋ = Except.ok 10
  rw [hM, K]
  rw [K] at b1 b2
  have : M * 2 ^ k = 10 * 2 ^ 49 := by
    have c1 : ((10 * 2 ^ 49 - 1 : Int) : ℚ) < ((M * 2 ^ k : Int) : ℚ) := by
      rw [show ((10 * 2 ^ 49 - 1 : Int) : ℚ) = (10 - 1 / 2 ^ 49) * 2 ^ 49 by norm_num]
      refine lt_of_lt_of_eq (mul_lt_mul_of_pos_right b1 (by positivity)) ?_
      rw [mul_assoc]; norm_num
    have c2 : ((M * 2 ^ k : Int) : ℚ) < ((10 * 2 ^ 49 + 1 : Int) : ℚ) := by
      rw [show ((10 * 2 ^ 49 + 1 : Int) : ℚ) = (10 + 1 / 2 ^ 49) * 2 ^ 49 by norm_num]
      refine lt_of_eq_of_lt ?_ (mul_lt_mul_of_pos_right b2 (by positivity))
      rw [mul_assoc]; norm_num
    have c1 : (10 * 2 ^ 49 - 1 : Int) < M * 2 ^ k := by exact_mod_cast c1
    have c2 : M * 2 ^ k < (10 * 2 ^ 49 + 1 : Int) := by exact_mod_cast c2
    omega
  rw [this]
  norm_num

/-- `Float::INFINITY.div(1)` and `Float::NAN.div(1)` stop the interpreter, as does a quotient beyond the floats. -/
theorem C110_infinite_fails (R : Nearest) : div R (.flo 0x7FF0000000000000#64) (.int 1) = .error .panic ∧
    div R (.flo 0x7FF8000000000000#64) (.int 1) = .error .panic := by
  have d : decode 0x7FF0000000000000#64 = .inf false := by decide +kernel
  have d' : decode 0x7FF8000000000000#64 = .nan := by decide +kernel
  have z : zero? (.int 1) = false := rfl
  have o : ofInt 1 = .fin false 1 0 := by decide +kernel
  simp [div, z, quotient, toF64, d, d', o, fquo]

end Verif.Float
