import Verif.Float.Props
import Mathlib.Data.Int.DivMod
/-! # C107: the remainder of floats -/
namespace Verif.Float

open Verif.Value (Word)

/-! ## Model -/

/-- A machine that rounds: IEEE 754 fixes the result; what is used here is that a result which is a float is exact. -/
structure Machine where
  round : ℚ → F64
  exact : ∀ q, IsFloat q → ∃ n m e, round q = .fin n m e ∧ rat n m e = q

/-- `a + b` (IEEE 754). -/
def fadd (R : Machine) : F64 → F64 → F64
  | .nan, _ => .nan
  | _, .nan => .nan
  | .inf a, .inf b => if a = b then .inf a else .nan
  | .inf a, .fin .. => .inf a
  | .fin .., .inf b => .inf b
  | .fin a m e, .fin b m' e' => R.round (rat a m e + rat b m' e')

/-- `-a`. -/
def fneg : F64 → F64
  | .nan => .nan
  | .inf a => .inf !a
  | .fin a m e => .fin (!a) m e

/-- `a - b` (IEEE 754). -/
def fsub (R : Machine) (a b : F64) : F64 := fadd R a (fneg b)

/-- `a % b` of Rust: the remainder of the truncated quotient, exact, with the sign of `a` (`fmod`). -/
def fmod : F64 → F64 → F64
  | .nan, _ => .nan
  | _, .nan => .nan
  | .inf _, _ => .nan
  | x, .inf _ => x
  | .fin a m e, .fin _ m' e' =>
    if m' = 0 then .nan
    else
      let k := min e e'
      .fin a ((m * 2 ^ (e - k).toNat) % (m' * 2 ^ (e' - k).toNat)) k

/-- 0.0 and 1.0. -/
def zero : F64 := .fin false 0 0
def one : F64 := .fin false 1 0

/-- `rem_floorf64` (arith.rs:77-85). -/
def rem_floorf64 (R : Machine) (x y : F64) : F64 :=
  if relF .gt x zero && relF .lt y zero then fadd R (fadd R (fmod (fsub R x one) y) y) one
  else if relF .lt x zero && relF .gt y zero then fsub R (fadd R (fmod (fadd R x one) y) y) one
  else fmod x y

/-- `f.is_zero()` -/
def isZero : F64 → Bool
  | .fin _ m _ => m == 0
  | _ => false

/-- The right operand of `%`. -/
inductive Operand
  | int (i : Int)
  | flo (w : Word)
  | other
  deriving DecidableEq, Repr

/-- How `%` ends without a value. -/
inductive Stop
  | zeroDivision
  | typeError
  | panic
  deriving DecidableEq, Repr

/-- `rem_float` (arith.rs:55-75), for packed integers, floats and what is no number. -/
def rem_float (R : Machine) (x : Word) : Operand → Except Stop F64
  | .int i => if i = 0 then .error .zeroDivision else .ok (rem_floorf64 R (decode x) (ofInt i))
  | .flo y => if isZero (decode y) then .error .zeroDivision else .ok (rem_floorf64 R (decode x) (decode y))
  | .other => .error .panic

/-- `rem_fixnum` (arith.rs:11-31) with a float on the right. -/
def rem_fixnum (R : Machine) (i : Int) (y : Word) : Except Stop F64 :=
  if isZero (decode y) then .error .zeroDivision else .ok (rem_floorf64 R (ofInt i) (decode y))

/-! ## Specification -/

/-- Ruby's remainder: `x - y * (x / y).floor`. -/
def floored (x y : ℚ) : ℚ := x - y * ⌊x / y⌋

/-- The operands are finite and stand for these numbers. -/
def Is (x : F64) (q : ℚ) : Prop := ∃ n m e, x = .fin n m e ∧ rat n m e = q

/-! ## Helpers -/

theorem floored_pos {x y r : ℚ} {t : Int} (h : r = x - y * t) (hy : 0 < y) (h0 : 0 ≤ r) (h1 : r < y) : r = floored x y := by
  have : ⌊x / y⌋ = t := by
    rw [Int.floor_eq_iff, le_div_iff₀ hy, div_lt_iff₀ hy]
    constructor <;> nlinarith
  rw [floored, this, h]

theorem floored_neg {x y r : ℚ} {t : Int} (h : r = x - y * t) (hy : y < 0) (h0 : r ≤ 0) (h1 : y < r) : r = floored x y := by
  have : ⌊x / y⌋ = t := by
    rw [Int.floor_eq_iff, le_div_iff_of_neg hy, div_lt_iff_of_neg hy]
    constructor <;> nlinarith
  rw [floored, this, h]

theorem rat_shift (n : Bool) (m : Nat) {e k : Int} (h : k ≤ e) : rat n m e = rat n (m * 2 ^ (e - k).toNat) k := by
  obtain ⟨d, rfl⟩ : ∃ d : Nat, e = k + d := ⟨(e - k).toNat, by omega⟩
  have : (k + (d : Int) - k).toNat = d := by omega
  rw [this]
  unfold rat
  rw [zpow_add₀ (by norm_num), zpow_natCast]
  push_cast
  ring

theorem rat_zero {n : Bool} {m : Nat} {e : Int} : rat n m e = 0 ↔ m = 0 := by
  have : (2 : ℚ) ^ e ≠ 0 := by positivity
  unfold rat
  cases n <;> simp [this]

/-- What `%` of the machine is. -/
theorem fmod_spec {x y : F64} {p q : ℚ} (hx : Is x p) (hy : Is y q) (hq : q ≠ 0) :
    ∃ r, Is (fmod x y) r ∧ (∃ t : Int, r = p - q * t) ∧ |r| < |q| ∧ 0 ≤ r * p := by
  obtain ⟨a, m, e, rfl, rfl⟩ := hx
  obtain ⟨b, m', e', rfl, rfl⟩ := hy
  have hm : m' ≠ 0 := fun h => hq (rat_zero.2 h)
  simp only [fmod, hm, if_false]
  refine ⟨_, ⟨_, _, _, rfl, rfl⟩, ?_⟩
  rw [rat_shift a m (min_le_left e e'), rat_shift b m' (min_le_right e e')]
  generalize hk : min e e' = k
  set X := m * 2 ^ (e - k).toNat with hX
  set Y := m' * 2 ^ (e' - k).toNat with hY
  have pY : 0 < Y := by rw [hY]; positivity
  have pk : (0 : ℚ) < 2 ^ k := by positivity
  have hdm : (X : ℚ) = Y * (X / Y : Nat) + (X % Y : Nat) := by exact_mod_cast (Nat.div_add_mod X Y).symm
  have hlt : ((X % Y : Nat) : ℚ) < Y := by exact_mod_cast Nat.mod_lt X pY
  have sq : ∀ s : Bool, ((if s = true then (-1 : ℚ) else 1)) * (if s = true then (-1 : ℚ) else 1) = 1 := by intro s; cases s <;> norm_num
  have sa : ∀ (s : Bool) (n : Nat), |rat s n k| = n * 2 ^ k := by
    intro s n
    have h0 : (0 : ℚ) ≤ n * 2 ^ k := by positivity
    unfold rat
    cases s
    · simp only [Bool.false_eq_true, if_false, one_mul]; exact abs_of_nonneg h0
    · simp only [if_true, neg_mul, one_mul, abs_neg]; exact abs_of_nonneg h0
  refine ⟨⟨(if a then -1 else 1) * (if b then -1 else 1) * (X / Y : Nat), ?_⟩, ?_, ?_⟩
  · unfold rat
    rw [hdm]
    cases a <;> cases b <;> simp only [Bool.false_eq_true, if_false, if_true] <;> rw [Int.cast_mul, Int.cast_natCast] <;> push_cast <;> ring
  · rw [sa, sa]
    exact mul_lt_mul_of_pos_right hlt pk
  · unfold rat
    have e1 : ((if a = true then (-1 : ℚ) else 1) * ((X % Y : Nat) : ℚ) * 2 ^ k) * ((if a = true then (-1 : ℚ) else 1) * (X : ℚ) * 2 ^ k) =
        ((X % Y : Nat) : ℚ) * X * (2 ^ k * 2 ^ k) := by
      have := sq a
      calc _ = ((if a = true then (-1 : ℚ) else 1) * (if a = true then (-1 : ℚ) else 1)) * (((X % Y : Nat) : ℚ) * X * (2 ^ k * 2 ^ k)) := by ring
        _ = _ := by rw [this, one_mul]
    rw [e1]
    positivity

theorem add_spec (R : Machine) {x y : F64} {p q : ℚ} (hx : Is x p) (hy : Is y q) (h : IsFloat (p + q)) : Is (fadd R x y) (p + q) := by
  obtain ⟨a, m, e, rfl, rfl⟩ := hx
  obtain ⟨b, m', e', rfl, rfl⟩ := hy
  obtain ⟨n, m'', e'', h1, h2⟩ := R.exact _ h
  exact ⟨n, m'', e'', h1, h2⟩

theorem neg_spec {x : F64} {p : ℚ} (hx : Is x p) : Is (fneg x) (-p) := by
  obtain ⟨a, m, e, rfl, rfl⟩ := hx
  refine ⟨_, _, _, rfl, ?_⟩
  unfold rat
  cases a <;> simp

theorem sub_spec (R : Machine) {x y : F64} {p q : ℚ} (hx : Is x p) (hy : Is y q) (h : IsFloat (p - q)) : Is (fsub R x y) (p - q) := by
  rw [sub_eq_add_neg] at h ⊢
  exact add_spec R hx (neg_spec hy) h

theorem is_zero : Is zero 0 := ⟨_, _, _, rfl, by simp [rat]⟩
theorem is_one : Is one 1 := ⟨_, _, _, rfl, by simp [rat]⟩

theorem rel_spec {x y : F64} {p q : ℚ} (hx : Is x p) (hy : Is y q) : (relF .lt x y = true ↔ p < q) ∧ (relF .gt x y = true ↔ q < p) := by
  obtain ⟨a, m, e, rfl, rfl⟩ := hx
  obtain ⟨b, m', e', rfl, rfl⟩ := hy
  simp only [relF, partial_cmp]
  rcases lt_trichotomy (rat a m e) (rat b m' e') with h | h | h
  · simp [h, h.le.not_gt]
  · simp [h]
  · simp [h, h.le.not_gt, h.ne']

theorem int_float {i : Int} (h : |i| < 2 ^ 53) : IsFloat (i : ℚ) := ⟨i, 0, by simp, h, by norm_num, by norm_num⟩

/-! ## C107 -/

/-- Operands of the same sign: the remainder of the floored quotient, exactly. -/
theorem same_sign (R : Machine) {x y : F64} {p q : ℚ} (hx : Is x p) (hy : Is y q) (h : (0 ≤ p ∧ 0 < q) ∨ (p ≤ 0 ∧ q < 0)) :
    Is (rem_floorf64 R x y) (floored p q) := by
  obtain ⟨l1, g1⟩ := rel_spec hx is_zero
  obtain ⟨l2, g2⟩ := rel_spec hy is_zero
  have hq : q ≠ 0 := by rcases h with ⟨_, h⟩ | ⟨_, h⟩ <;> linarith [h.ne, h.ne'] <;> exact h.ne' 
  have e : rem_floorf64 R x y = fmod x y := by
    unfold rem_floorf64
    have c1 : (relF .gt x zero && relF .lt y zero) = false := by
      rw [Bool.eq_false_iff, Ne, Bool.and_eq_true, g1, l2]
      rintro ⟨h1, h2⟩
      rcases h with h | h <;> linarith [h.1, h.2]
    have c2 : (relF .lt x zero && relF .gt y zero) = false := by
      rw [Bool.eq_false_iff, Ne, Bool.and_eq_true, l1, g2]
      rintro ⟨h1, h2⟩
      rcases h with h | h <;> linarith [h.1, h.2]
    rw [c1, c2]; rfl
  rw [e]
  obtain ⟨r, hr, ⟨t, ht⟩, hlt, hs⟩ := fmod_spec hx hy hq
  have : r = floored p q := by
    rcases h with ⟨hp, hq'⟩ | ⟨hp, hq'⟩
    · rw [abs_of_pos hq', abs_lt] at hlt
      rcases hp.lt_or_eq with hp | hp
      · exact floored_pos ht hq' (by by_contra hh; nlinarith [mul_neg_of_neg_of_pos (not_le.1 hh) hp]) hlt.2
      · subst hp
        have t0 : t = 0 := by
          have h1 : (t : ℚ) < 1 := by nlinarith [hlt.1]
          have h2 : (-1 : ℚ) < t := by nlinarith [hlt.2]
          have h1' : t < 1 := by exact_mod_cast h1
          have h2' : -1 < t := by exact_mod_cast h2
          omega
        subst t0
        have r0 : r = 0 := by rw [ht]; simp
        exact floored_pos ht hq' r0.ge (by linarith)
    · rw [abs_of_neg hq', abs_lt] at hlt
      rcases hp.lt_or_eq with hp | hp
      · exact floored_neg ht hq' (by by_contra hh; nlinarith [mul_neg_of_pos_of_neg (not_le.1 hh) hp]) (by linarith [hlt.1])
      · subst hp
        have t0 : t = 0 := by
          have h1 : (t : ℚ) < 1 := by nlinarith [hlt.2, hlt.1]
          have h2 : (-1 : ℚ) < t := by nlinarith [hlt.2, hlt.1]
          have h1' : t < 1 := by exact_mod_cast h1
          have h2' : -1 < t := by exact_mod_cast h2
          omega
        subst t0
        have r0 : r = 0 := by rw [ht]; simp
        exact floored_neg ht hq' r0.le (by linarith)
  rw [← this]; exact hr

/-- `%` with a float divisor other than zero, operands of the same sign: Ruby's remainder, exactly.

`_partial`: see `C107_fails` for operands of different signs. -/
theorem C107_same_sign_partial (R : Machine) (x y : Word) {p q : ℚ} (hx : Is (decode x) p) (hy : Is (decode y) q)
    (h : (0 ≤ p ∧ 0 < q) ∨ (p ≤ 0 ∧ q < 0)) : ∃ z, rem_float R x (.flo y) = .ok z ∧ Is z (floored p q) := by
  have hz : isZero (decode y) = false := by
    obtain ⟨b, m, e, hd, rfl⟩ := hy
    rw [hd]
    simp only [isZero, beq_eq_false_iff_ne, ne_eq]
    intro h0
    have := (rat_zero (n := b) (e := e)).2 h0
    rcases h with ⟨_, h⟩ | ⟨_, h⟩ <;> rw [this] at h <;> exact absurd h (lt_irrefl _)
  refine ⟨_, by simp only [rem_float, hz]; rfl, same_sign R hx hy h⟩

theorem integers (R : Machine) {x y : F64} {a b : Int} (hx : Is x a) (hy : Is y b) (ha : |a| ≤ 2 ^ 52) (hb : |b| ≤ 2 ^ 52) (h0 : b ≠ 0) :
    Is (rem_floorf64 R x y) (floored a b) := by
  obtain ⟨l1, g1⟩ := rel_spec hx is_zero
  obtain ⟨l2, g2⟩ := rel_spec hy is_zero
  have h0' : (b : ℚ) ≠ 0 := by exact_mod_cast h0
  rw [abs_le] at ha hb
  by_cases c1 : 0 < a ∧ b < 0
  · have e : rem_floorf64 R x y = fadd R (fadd R (fmod (fsub R x one) y) y) one := by
      unfold rem_floorf64
      rw [if_pos]
      rw [Bool.and_eq_true, g1, l2]
      exact ⟨by exact_mod_cast c1.1, by exact_mod_cast c1.2⟩
    rw [e]
    have s1 := sub_spec R hx is_one (by
      have : IsFloat ((a - 1 : Int) : ℚ) := int_float (by rw [abs_lt]; omega)
      push_cast at this; exact this)
    obtain ⟨r, hr, ⟨t, ht⟩, hlt, hs⟩ := fmod_spec s1 hy h0'
    have hc : r = ((a - 1 - b * t : Int) : ℚ) := by rw [ht]; push_cast; ring
    generalize hcc : a - 1 - b * t = c at hc
    subst hc
    have i1 : |c| < |b| := by exact_mod_cast hlt
    have i2 : 0 ≤ c * (a - 1) := by
      have : (0 : ℚ) ≤ ((c * (a - 1) : Int) : ℚ) := by push_cast; exact hs
      exact_mod_cast this
    rw [abs_of_neg c1.2, abs_lt] at i1
    have i3 : 0 ≤ c := by
      rcases (show 1 ≤ a from c1.1).lt_or_eq with h | h
      · by_contra hh
        nlinarith [not_le.1 hh]
      · have t0 : t = 0 := by
          have e1 : c = -b * t := by rw [← hcc, ← h]; ring
          rw [e1] at i1
          have h1 : t < 1 := by nlinarith
          have h2 : -1 < t := by nlinarith
          omega
        subst t0
        omega
    have s2 := add_spec R hr hy (by
      have : IsFloat ((c + b : Int) : ℚ) := int_float (by rw [abs_lt]; omega)
      push_cast at this; exact this)
    have s3 := add_spec R s2 is_one (by
      have : IsFloat ((c + b + 1 : Int) : ℚ) := int_float (by rw [abs_lt]; omega)
      push_cast at this; exact this)
    have : (c : ℚ) + b + 1 = floored a b := by
      refine floored_neg (t := t - 1) ?_ (by exact_mod_cast c1.2) ?_ ?_
      · rw [← hcc]; push_cast; ring
      · have : c + b + 1 ≤ 0 := by omega
        exact_mod_cast this
      · have : b < c + b + 1 := by omega
        exact_mod_cast this
    rw [← this]; exact s3
  · by_cases c2 : a < 0 ∧ 0 < b
    · have e : rem_floorf64 R x y = fsub R (fadd R (fmod (fadd R x one) y) y) one := by
        unfold rem_floorf64
        rw [if_neg, if_pos]
        · rw [Bool.and_eq_true, l1, g2]
          exact ⟨by exact_mod_cast c2.1, by exact_mod_cast c2.2⟩
        · rw [Bool.and_eq_true, g1, l2]
          rintro ⟨h, _⟩
          have : 0 < a := by exact_mod_cast h
          omega
      rw [e]
      have s1 := add_spec R hx is_one (by
        have : IsFloat ((a + 1 : Int) : ℚ) := int_float (by rw [abs_lt]; omega)
        push_cast at this; exact this)
      obtain ⟨r, hr, ⟨t, ht⟩, hlt, hs⟩ := fmod_spec s1 hy h0'
      have hc : r = ((a + 1 - b * t : Int) : ℚ) := by rw [ht]; push_cast; ring
      generalize hcc : a + 1 - b * t = c at hc
      subst hc
      have i1 : |c| < |b| := by exact_mod_cast hlt
      have i2 : 0 ≤ c * (a + 1) := by
        have : (0 : ℚ) ≤ ((c * (a + 1) : Int) : ℚ) := by push_cast; exact hs
        exact_mod_cast this
      rw [abs_of_pos c2.2, abs_lt] at i1
      have i3 : c ≤ 0 := by
        rcases (show a ≤ -1 by omega).lt_or_eq with h | h
        · by_contra hh
          nlinarith [not_le.1 hh]
        · have t0 : t = 0 := by
            have e1 : c = -b * t := by rw [← hcc, h]; ring
            rw [e1] at i1
            have h1 : t < 1 := by nlinarith
            have h2 : -1 < t := by nlinarith
            omega
          subst t0
          omega
      have s2 := add_spec R hr hy (by
        have : IsFloat ((c + b : Int) : ℚ) := int_float (by rw [abs_lt]; omega)
        push_cast at this; exact this)
      have s3 := sub_spec R s2 is_one (by
        have : IsFloat ((c + b - 1 : Int) : ℚ) := int_float (by rw [abs_lt]; omega)
        push_cast at this; exact this)
      have : (c : ℚ) + b - 1 = floored a b := by
        refine floored_pos (t := t - 1) ?_ (by exact_mod_cast c2.2) ?_ ?_
        · rw [← hcc]; push_cast; ring
        · have : 0 ≤ c + b - 1 := by omega
          exact_mod_cast this
        · have : c + b - 1 < b := by omega
          exact_mod_cast this
      rw [← this]; exact s3
    · refine same_sign R hx hy ?_
      rcases lt_or_gt_of_ne h0 with h | h
      · exact .inr ⟨by have : a ≤ 0 := by omega
                       exact_mod_cast this, by exact_mod_cast h⟩
      · exact .inl ⟨by have : 0 ≤ a := by omega
                       exact_mod_cast this, by exact_mod_cast h⟩

/-- Floats that stand for integers of at most 52 bits: Ruby's remainder, whatever the signs. -/
theorem C107_integers_partial (R : Machine) (x y : Word) {a b : Int} (hx : Is (decode x) a) (hy : Is (decode y) b) (ha : |a| ≤ 2 ^ 52)
    (hb : |b| ≤ 2 ^ 52) (h0 : b ≠ 0) : ∃ z, rem_float R x (.flo y) = .ok z ∧ Is z (floored a b) := by
  have hz : isZero (decode y) = false := by
    obtain ⟨n, m, e, hd, he⟩ := hy
    rw [hd]
    simp only [isZero, beq_eq_false_iff_ne, ne_eq]
    intro hm
    have := (rat_zero (n := n) (e := e)).2 hm
    rw [this] at he
    exact h0 (by exact_mod_cast he.symm)
  exact ⟨_, by simp only [rem_float, hz]; rfl, integers R hx hy ha hb h0⟩

/-- An integer beside a float, on either side: as the float that it is.

`_partial`: integers of at most 53 bits, operands of the same sign. -/
theorem C107_mixed_partial (R : Machine) {i : Int} (hi : i.natAbs ≤ 2 ^ 53) (w : Word) {q : ℚ} (hw : Is (decode w) q) :
    ((0 ≤ (i : ℚ) ∧ 0 < q) ∨ ((i : ℚ) ≤ 0 ∧ q < 0) → ∃ z, rem_fixnum R i w = .ok z ∧ Is z (floored i q)) ∧
    ((0 ≤ q ∧ 0 < (i : ℚ)) ∨ (q ≤ 0 ∧ (i : ℚ) < 0) → ∃ z, rem_float R w (.int i) = .ok z ∧ Is z (floored q i)) := by
  have his : Is (ofInt i) i := by
    obtain ⟨n, m, k, e, ex, _⟩ := ofInt_spec i
    exact ⟨n, m, k, e, ex hi⟩
  constructor
  · intro h
    have hz : isZero (decode w) = false := by
      obtain ⟨b, m, e, hd, rfl⟩ := hw
      rw [hd]
      simp only [isZero, beq_eq_false_iff_ne, ne_eq]
      intro h0
      have := (rat_zero (n := b) (e := e)).2 h0
      rcases h with ⟨_, h⟩ | ⟨_, h⟩ <;> rw [this] at h <;> exact absurd h (lt_irrefl _)
    exact ⟨_, by simp only [rem_fixnum, hz]; rfl, same_sign R his hw h⟩
  · intro h
    have hz : i ≠ 0 := by
      rintro rfl
      simp at h
    exact ⟨_, by simp only [rem_float, hz, if_false], same_sign R hw his h⟩

/-- An integer beside a float that stands for an integer: Ruby's remainder, whatever the signs.

`_partial`: at most 52 bits. -/
theorem C107_mixed_integers_partial (R : Machine) {i b : Int} (w : Word) (hw : Is (decode w) b) (hi : |i| ≤ 2 ^ 52) (hb : |b| ≤ 2 ^ 52) :
    (b ≠ 0 → ∃ z, rem_fixnum R i w = .ok z ∧ Is z (floored i b)) ∧ (i ≠ 0 → ∃ z, rem_float R w (.int i) = .ok z ∧ Is z (floored b i)) := by
  have his : Is (ofInt i) i := by
    obtain ⟨n, m, k, e, ex, _⟩ := ofInt_spec i
    exact ⟨n, m, k, e, ex (by rw [abs_le] at hi; omega)⟩
  constructor
  · intro h0
    have hz : isZero (decode w) = false := by
      obtain ⟨n, m, e, hd, he⟩ := hw
      rw [hd]
      simp only [isZero, beq_eq_false_iff_ne, ne_eq]
      intro hm
      have := (rat_zero (n := n) (e := e)).2 hm
      rw [this] at he
      exact h0 (by exact_mod_cast he.symm)
    exact ⟨_, by simp only [rem_fixnum, hz]; rfl, integers R his hw hi hb h0⟩
  · intro h0
    exact ⟨_, by simp only [rem_float, h0, if_false], integers R hw his hb hi h0⟩

/-- 4.5, -2.0 and 0.0. -/
abbrev f4_5 : Word := 0x4012000000000000#64
abbrev fm2 : Word := 0xC000000000000000#64
abbrev f0 : Word := 0x0000000000000000#64

theorem f4_5_is : Is (decode f4_5) (9 / 2) := by
  refine ⟨false, 5066549580791808, -50, by decide +kernel, ?_⟩
  simp only [rat, Bool.false_eq_true, if_false]; norm_num

theorem fm2_is : Is (decode fm2) (-2) := by
  refine ⟨true, 4503599627370496, -51, by decide +kernel, ?_⟩
  simp only [rat, if_true]; norm_num

example : Is (decode fm2) ((-2 : Int) : ℚ) ∧ |(-2 : Int)| ≤ 2 ^ 52 := ⟨by simpa using fm2_is, by decide⟩

/-- `4.5 % -2.0` is 0.5, outside the range of remainders; Ruby says -1.5. -/
theorem C107_fails (R : Machine) : (∃ z, rem_float R f4_5 (.flo fm2) = .ok z ∧ Is z (1 / 2)) ∧ floored (9 / 2) (-2) = -3 / 2 := by
  constructor
  · have hz : isZero (decode fm2) = false := by decide +kernel
    refine ⟨_, by simp only [rem_float, hz]; rfl, ?_⟩
    have e : rem_floorf64 R (decode f4_5) (decode fm2) = fadd R (fadd R (fmod (fsub R (decode f4_5) one) (decode fm2)) (decode fm2)) one := by
      unfold rem_floorf64
      rw [if_pos]
      rw [Bool.and_eq_true, (rel_spec f4_5_is is_zero).2, (rel_spec fm2_is is_zero).1]
      norm_num
    rw [e]
    have s1 := sub_spec R f4_5_is is_one ⟨7, -1, by norm_num, by norm_num, by norm_num, by norm_num⟩
    obtain ⟨r, hr, ⟨t, ht⟩, hlt, hs⟩ := fmod_spec s1 fm2_is (by norm_num)
    have t1 : t = -1 := by
      rw [abs_lt] at hlt
      norm_num at hlt
      have h0 : 0 ≤ r := by by_contra hh; nlinarith [not_le.1 hh]
      have h1 : (t : ℚ) < 0 := by nlinarith [hlt.2]
      have h2 : (-2 : ℚ) < t := by nlinarith
      have h1' : t < 0 := by exact_mod_cast h1
      have h2' : -2 < t := by exact_mod_cast h2
      omega
    subst t1
    have hr' : r = 3 / 2 := by rw [ht]; norm_num
    subst hr'
    have s2 := add_spec R hr fm2_is ⟨-1, -1, by norm_num, by norm_num, by norm_num, by norm_num⟩
    have s3 := add_spec R s2 is_one ⟨1, -1, by norm_num, by norm_num, by norm_num, by norm_num⟩
    have : (3 / 2 + -2 + 1 : ℚ) = 1 / 2 := by norm_num
    rw [this] at s3
    exact s3
  · exact (floored_neg (t := -3) (by norm_num) (by norm_num) (by norm_num) (by norm_num)).symm

/-- Dividing by 0.0 raises, where Ruby's result is not-a-number; and an operand that is no number stops the interpreter. -/
theorem C107_zero_fails (R : Machine) (x : Word) : rem_float R x (.flo f0) = .error .zeroDivision ∧ rem_float R x .other = .error .panic := by
  have : isZero (decode f0) = true := by decide +kernel
  exact ⟨by simp [rem_float, this], rfl⟩

open Classical in
/-- There are machines that round. -/
noncomputable example : Machine where
  round q := if h : IsFloat q then .fin (decide (h.choose < 0)) h.choose.natAbs h.choose_spec.choose else .nan
  exact q h := by
    rw [dif_pos h]
    refine ⟨_, _, _, rfl, ?_⟩
    have e := h.choose_spec.choose_spec.1
    conv_rhs => rw [e]
    unfold rat
    generalize h.choose_spec.choose = e'
    generalize h.choose = m
    by_cases hm : m < 0
    · have : ((m.natAbs : Nat) : ℚ) = -(m : ℚ) := by
        have : ((m.natAbs : Nat) : Int) = -m := by omega
        have := congrArg (Int.cast (R := ℚ)) this
        rw [Int.cast_natCast] at this
        rw [this]; push_cast; rfl
      simp only [hm, decide_true, if_true, this]; ring
    · have : ((m.natAbs : Nat) : ℚ) = (m : ℚ) := by
        have : ((m.natAbs : Nat) : Int) = m := by omega
        have := congrArg (Int.cast (R := ℚ)) this
        rw [Int.cast_natCast] at this
        exact this
      simp only [hm, decide_false, Bool.false_eq_true, if_false, this]; ring

end Verif.Float
