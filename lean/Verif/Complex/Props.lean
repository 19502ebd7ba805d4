import Verif.Complex.Model
import Mathlib.NumberTheory.Zsqrtd.Basic
import Mathlib.Tactic.Ring
import Mathlib.Tactic.Linarith
/-!
# C80: complex numbers with integer parts are the Gaussian integers

The specification is Mathlib's ring ℤ[√-1].
-/
namespace Verif.Complex
open Verif.Value Verif.Arith

/-- The complex number of a program that stands for a Gaussian integer. -/
def cx (z : ℤ√(-1)) : CVal := .complex (num z.re) (num z.im)

/-- `r` is a representation of the integer `n` during a calculation. -/
def Rep (r : Real) (n : Int) : Prop := r = .Integer n ∧ InI64 n ∨ r = .Bignum n

theorem Rep.val {r : Real} {n : Int} (h : Rep r n) : r.into_val = num n := by
  rcases h with ⟨rfl, h⟩ | rfl
  · exact into_val_Integer h
  · rfl

theorem Rep.integer (n : Int) : Rep (Real.integer n) n := by
  unfold Real.integer
  by_cases h : InI64 n
  · rw [if_pos h]; exact .inl ⟨rfl, h⟩
  · rw [if_neg h]; exact .inr rfl

theorem Rep.op (f : Int → Int → Int) {a b : Real} {m n : Int} (ha : Rep a m) (hb : Rep b n) :
    ∃ r, Real.op f a b = .ok r ∧ Rep r (f m n) := by
  rcases ha with ⟨rfl, ha⟩ | rfl <;> rcases hb with ⟨rfl, hb⟩ | rfl
  · simp only [Real.op]
    by_cases hc : InI64 (f m n)
    · rw [checked_pos hc]; exact ⟨_, rfl, .inl ⟨rfl, hc⟩⟩
    · rw [checked_neg hc]; exact ⟨_, rfl, .inr rfl⟩
  all_goals exact ⟨_, rfl, .integer _⟩

theorem Rep.neg {a : Real} {m : Int} (ha : Rep a m) (hm : m ≠ -2 ^ 63) :
    ∃ r, Real.neg a = .ok r ∧ Rep r (-m) := by
  rcases ha with ⟨rfl, ha⟩ | rfl
  · have : InI64 (-m) := by unfold InI64 at *; omega
    simp only [Real.neg, exactI64_ok this, ok_map]
    exact ⟨_, rfl, .inl ⟨rfl, this⟩⟩
  · exact ⟨_, rfl, .inr rfl⟩

theorem unwrap_num (n : Int) : ∃ r, unwrapReal (num n) = .ok r ∧ Rep r n ∧
    (InI63 n ∧ r = .Integer n ∨ ¬ InI63 n ∧ r = .Bignum n) := by
  unfold unwrapReal
  rw [to_real_num]
  by_cases h : InI63 n
  · exact ⟨_, rfl, by rw [if_pos h]; exact .inl ⟨rfl, inI64_of_inI63 h⟩, .inl ⟨h, by rw [if_pos h]⟩⟩
  · exact ⟨_, rfl, by rw [if_neg h]; exact .inr rfl, .inr ⟨h, by rw [if_neg h]⟩⟩

theorem to_complex_cx (z : ℤ√(-1)) : ∃ r i, to_complex (cx z) = .ok (some (r, i)) ∧
    Rep r z.re ∧ Rep i z.im := by
  obtain ⟨r, h1, h2, _⟩ := unwrap_num z.re
  obtain ⟨i, h3, h4, _⟩ := unwrap_num z.im
  refine ⟨r, i, ?_, h2, h4⟩
  simp only [cx, to_complex, h1, h3]
  rfl

theorem unwrap_cx (z : ℤ√(-1)) : ∃ r i, unwrapComplex (cx z) = .ok (r, i) ∧
    Rep r z.re ∧ Rep i z.im := by
  obtain ⟨r, i, h1, h2, h3⟩ := to_complex_cx z
  exact ⟨r, i, by rw [unwrapComplex, h1]; rfl, h2, h3⟩

/-- What may be on the right of an operator: a complex number, or an integer of 63 bits. -/
inductive Operand : CVal → ℤ√(-1) → Prop
  | complex (z : ℤ√(-1)) : Operand (cx z) z
  | integer (n : Int) : InI63 n → Operand (.plain (num n)) ⟨n, 0⟩

theorem Operand.arg {v : CVal} {z : ℤ√(-1)} (h : Operand v z) : ∃ r i, argComplex v = .ok (r, i) ∧
    Rep r z.re ∧ Rep i z.im := by
  cases h with
  | complex z =>
    obtain ⟨r, i, h1, h2, h3⟩ := to_complex_cx z
    exact ⟨r, i, by rw [argComplex, h1]; rfl, h2, h3⟩
  | integer n hn =>
    refine ⟨.Integer n, .Integer 0, ?_, .inl ⟨rfl, inI64_of_inI63 hn⟩, .inl ⟨rfl, show InI64 0 by decide⟩⟩
    rw [argComplex, to_complex, unpack_num, if_pos hn]
    rfl

/-- `+` is the sum. What is missing: a big integer as the right operand (see
`C80_big_operand_fails`), floats. -/
theorem C80_add_partial (z w : ℤ√(-1)) (v : CVal) (h : Operand v w) :
    add (cx z) v = .ok (cx (z + w)) := by
  obtain ⟨r1, i1, h1, h2, h3⟩ := unwrap_cx z
  obtain ⟨r2, i2, g1, g2, g3⟩ := h.arg
  obtain ⟨r, e1, e2⟩ := h2.op (· + ·) g2
  obtain ⟨i, e3, e4⟩ := h3.op (· + ·) g3
  simp only [add, h1, g1, bind, Except.bind, e1, e3, val, e2.val, e4.val]
  simp only [cx, Zsqrtd.re_add, Zsqrtd.im_add]

/-- `-` is the difference. -/
theorem C80_sub_partial (z w : ℤ√(-1)) (v : CVal) (h : Operand v w) :
    sub (cx z) v = .ok (cx (z - w)) := by
  obtain ⟨r1, i1, h1, h2, h3⟩ := unwrap_cx z
  obtain ⟨r2, i2, g1, g2, g3⟩ := h.arg
  obtain ⟨r, e1, e2⟩ := h2.op (· - ·) g2
  obtain ⟨i, e3, e4⟩ := h3.op (· - ·) g3
  simp only [sub, h1, g1, bind, Except.bind, e1, e3, val, e2.val, e4.val]
  simp only [cx, Zsqrtd.re_sub, Zsqrtd.im_sub]

/-- `*` is the product. -/
theorem C80_mul_partial (z w : ℤ√(-1)) (v : CVal) (h : Operand v w) :
    mul (cx z) v = .ok (cx (z * w)) := by
  obtain ⟨r1, i1, h1, h2, h3⟩ := unwrap_cx z
  obtain ⟨r2, i2, g1, g2, g3⟩ := h.arg
  obtain ⟨a, a1, a2⟩ := h2.op (· * ·) g2
  obtain ⟨b, b1, b2⟩ := h3.op (· * ·) g3
  obtain ⟨c, c1, c2⟩ := h3.op (· * ·) g2
  obtain ⟨d, d1, d2⟩ := g3.op (· * ·) h2
  obtain ⟨r, e1, e2⟩ := a2.op (· - ·) b2
  obtain ⟨i, e3, e4⟩ := c2.op (· + ·) d2
  simp only [mul, h1, g1, bind, Except.bind, a1, b1, c1, d1, e1, e3, val, e2.val, e4.val]
  simp only [cx, Zsqrtd.re_mul, Zsqrtd.im_mul]
  congr 3 <;> ring

example : Operand (cx ⟨2, 1⟩) ⟨2, 1⟩ ∧ mul (cx ⟨5, 7⟩) (cx ⟨2, 1⟩) = .ok (cx ⟨3, 19⟩) :=
  ⟨.complex _, by rw [C80_mul_partial _ _ _ (.complex _)]; rfl⟩

example : Operand (.plain (num 3)) ⟨3, 0⟩ ∧
    add (cx ⟨2 ^ 80, -1⟩) (.plain (num 3)) = .ok (cx ⟨2 ^ 80 + 3, -1⟩) :=
  ⟨.integer 3 (by decide), by rw [C80_add_partial _ _ _ (.integer 3 (by decide))]; rfl⟩

/-- **Violation**: `Complex(1, 2) + 2**62` raises TypeError ("Not a real."): a big integer is not
accepted as an operand (value.rs:1273-1279). -/
theorem C80_big_operand_fails : ∃ (z : ℤ√(-1)) (n : Int),
    add (cx z) (.plain (num n)) = .error .typeErr ∧
    sub (cx z) (.plain (num n)) = .error .typeErr ∧ mul (cx z) (.plain (num n)) = .error .typeErr :=
  ⟨⟨1, 2⟩, 2 ^ 62, by decide +kernel, by decide +kernel, by decide +kernel⟩

/-- An integer on the left: `n + z`, `n - z` and `n * z`, for integers of any size. -/
theorem C80_integer_left (n : Int) (z : ℤ√(-1)) :
    real_add (num n) (cx z) = .ok (cx (⟨n, 0⟩ + z)) ∧
    real_sub (num n) (cx z) = .ok (cx (⟨n, 0⟩ - z)) ∧
    real_mul (num n) (cx z) = .ok (cx (⟨n, 0⟩ * z)) := by
  obtain ⟨a, h1, h2, _⟩ := unwrap_num n
  obtain ⟨r, i, g1, g2, g3⟩ := (Operand.complex z).arg
  have hi : ∃ i', Real.neg i = .ok i' ∧ Rep i' (-z.im) := by
    obtain ⟨r', k1, _⟩ := unwrap_num z.re
    obtain ⟨i', k3, k4, k5⟩ := unwrap_num z.im
    have : i = i' := by
      have := g1
      rw [argComplex, cx, to_complex, k1] at this
      simp only [bind, Except.bind, k3, Except.ok.injEq, Prod.mk.injEq] at this
      exact this.2.symm
    subst this
    rcases k5 with ⟨h, rfl⟩ | ⟨h, rfl⟩
    · exact Rep.neg k4 (by unfold InI63 at h; omega)
    · exact ⟨_, rfl, .inr rfl⟩
  obtain ⟨i', n1, n2⟩ := hi
  obtain ⟨x, x1, x2⟩ := h2.op (· + ·) g2
  obtain ⟨y, y1, y2⟩ := h2.op (· - ·) g2
  obtain ⟨u, u1, u2⟩ := h2.op (· * ·) g2
  obtain ⟨v, v1, v2⟩ := h2.op (· * ·) g3
  have hc : ∃ p q, cx z = .complex p q := ⟨_, _, rfl⟩
  obtain ⟨p, q, hc⟩ := hc
  refine ⟨?_, ?_, ?_⟩
  · rw [real_add, h1, hc]
    rw [hc] at g1
    simp only [bind, Except.bind, g1, x1, val, x2.val, g3.val, cx, Zsqrtd.re_add, Zsqrtd.im_add,
      Int.zero_add]
  · rw [real_sub, h1, hc]
    rw [hc] at g1
    simp only [bind, Except.bind, g1, y1, n1, val, y2.val, n2.val, cx, Zsqrtd.re_sub,
      Zsqrtd.im_sub, Int.zero_sub]
  · rw [real_mul, h1, hc]
    rw [hc] at g1
    simp only [bind, Except.bind, g1, u1, v1, val, u2.val, v2.val, cx, Zsqrtd.re_mul,
      Zsqrtd.im_mul]
    congr 3 <;> ring

/-- `==` of two complex numbers is equality. -/
theorem C80_eq (z w : ℤ√(-1)) : eval_eq (cx z) (cx w) = .ok (decide (z = w)) := by
  have hr : ∀ {m n : Int} {a b : Real}, (InI63 m ∧ a = .Integer m ∨ ¬ InI63 m ∧ a = .Bignum m) →
      (InI63 n ∧ b = .Integer n ∨ ¬ InI63 n ∧ b = .Bignum n) →
      Real.eq a b = .ok (decide (m = n)) := by
    intro m n a b ha hb
    rcases ha with ⟨h1, rfl⟩ | ⟨h1, rfl⟩ <;> rcases hb with ⟨h2, rfl⟩ | ⟨h2, rfl⟩ <;>
      simp only [Real.eq, Except.ok.injEq]
    · rfl
    · symm; rw [decide_eq_false_iff_not]; rintro rfl; exact h2 h1
    · symm; rw [decide_eq_false_iff_not]; rintro rfl; exact h1 h2
    · rfl
  obtain ⟨r1, a1, _, a3⟩ := unwrap_num z.re
  obtain ⟨i1, b1, _, b3⟩ := unwrap_num z.im
  obtain ⟨r2, c1, _, c3⟩ := unwrap_num w.re
  obtain ⟨i2, d1, _, d3⟩ := unwrap_num w.im
  simp only [cx, eval_eq, a1, b1, c1, d1, bind, Except.bind, hr a3 c3, hr b3 d3]
  have : z = w ↔ z.re = w.re ∧ z.im = w.im := Zsqrtd.ext_iff
  by_cases h : z.re = w.re
  · simp [this, h]
  · simp [this, h]

/-- **Violation**: `Complex(4, 0) == n` is false for `n = 4`, although `Complex#==` would say true
(ops.rs:376-378 compares the words if one side is an immediate value). -/
theorem C80_eq_integer_fails : ∃ (n : Int) (v : CVal), Operand v ⟨n, 0⟩ ∧
    eval_eq (cx ⟨n, 0⟩) v = .ok false :=
  ⟨4, _, .integer 4 (by decide), by decide +kernel⟩

/-- `abs2` is the norm. -/
theorem C80_abs2 (z : ℤ√(-1)) : abs2 (cx z) = .ok (num z.norm) := by
  obtain ⟨r, i, h1, h2, h3⟩ := unwrap_cx z
  obtain ⟨a, a1, a2⟩ := h2.op (· * ·) h2
  obtain ⟨b, b1, b2⟩ := h3.op (· * ·) h3
  obtain ⟨c, c1, c2⟩ := a2.op (· + ·) b2
  simp only [abs2, h1, bind, Except.bind, a1, b1, c1, c2.val]
  congr 2
  rw [Zsqrtd.norm_def]
  ring

example : abs2 (cx ⟨1, -4⟩) = .ok (num 17) := by rw [C80_abs2]; rfl

/-- `Complex.rect(a, b).rect` is `[a, b]`. What is missing: big integers, which `Complex.rect`
refuses, and floats. -/
theorem C80_rect_partial (a b : Int) (ha : InI63 a) (hb : InI63 b) :
    complex_rect (.plain (num a)) (some (.plain (num b))) = .ok (cx ⟨a, b⟩) ∧
    complex_rect (.plain (num a)) none = .ok (cx ⟨a, 0⟩) ∧
    rect (cx ⟨a, b⟩) = .ok [num a, num b] := by
  have hr : ∀ n, InI63 n → is_real (num n) = true := by
    intro n h
    rw [is_real, unpack_num, if_pos h]
  obtain ⟨r, i, h1, h2, h3⟩ := unwrap_cx ⟨a, b⟩
  refine ⟨?_, ?_, ?_⟩
  · simp [complex_rect, hr a ha, hr b hb, cx]
  · simp only [complex_rect, hr a ha, cx, integer_eq_num (n := 0) (by decide)]
    rfl
  · simp only [rect, h1, bind, Except.bind, h2.val, h3.val]

/-- **Violation**: `Complex.rect(2**62)` raises TypeError. -/
theorem C80_rect_fails : ∃ n : Int, complex_rect (.plain (num n)) none = .error .typeErr :=
  ⟨2 ^ 62, by decide +kernel⟩

theorem Rep.zero {r : Real} {n : Int} (h : Rep r n) : r.is_zero = decide (n = 0) := by
  rcases h with ⟨rfl, h⟩ | rfl <;> rfl

theorem Rep.divPos {a b : Real} {m n : Int} (ha : Rep a m) (hb : Rep b n) (hn : 0 < n) :
    ∃ r, divOrPanic a b = .ok r ∧ Rep r (m.fdiv n) := by
  rw [divOrPanic, hb.zero, decide_eq_false (by omega)]
  simp only [Bool.false_eq_true, if_false]
  rcases ha with ⟨rfl, ha⟩ | rfl <;> rcases hb with ⟨rfl, hb⟩ | rfl
  · have : InI64 (m.fdiv n) := by
      rw [Int.fdiv_eq_ediv_of_nonneg _ (by omega)]
      unfold InI64 at *
      constructor
      · have := Int.mul_ediv_self_le (x := m) (k := n) (by omega)
        rw [Int.le_ediv_iff_mul_le hn]
        nlinarith
      · rcases Int.lt_or_le m 0 with h | h
        · have := Int.ediv_neg_of_neg_of_pos h hn
          omega
        · have := Int.ediv_le_self n h
          omega
    simp only [Real.div, exactI64_ok this, ok_map]
    exact ⟨_, rfl, .inl ⟨rfl, this⟩⟩
  all_goals exact ⟨_, rfl, .integer _⟩

/-- Dividing a product by a nonzero factor gives the other factor.
What is missing: quotients that are not Gaussian integers (see `C80_div_fails`), a zero divisor. -/
theorem C80_div_partial (z w : ℤ√(-1)) (v : CVal) (h : Operand v w) (hw : w ≠ 0) :
    div (cx (z * w)) v = .ok (cx z) := by
  obtain ⟨r1, i1, h1, h2, h3⟩ := unwrap_cx (z * w)
  obtain ⟨r2, i2, g1, g2, g3⟩ := h.arg
  have hn : 0 < w.re * w.re + w.im * w.im := by
    by_cases hre : w.re = 0
    · have him : w.im ≠ 0 := fun hi => hw (Zsqrtd.ext hre hi)
      rw [hre]
      have := mul_self_pos.mpr him
      omega
    · have h1 := mul_self_pos.mpr hre
      have h2 := mul_self_nonneg w.im
      omega
  obtain ⟨a, a1, a2⟩ := g2.op (· * ·) g2
  obtain ⟨b, b1, b2⟩ := g3.op (· * ·) g3
  obtain ⟨c, c1, c2⟩ := a2.op (· + ·) b2
  obtain ⟨d, d1, d2⟩ := g2.op (· * ·) h2
  obtain ⟨e, e1, e2⟩ := g3.op (· * ·) h3
  obtain ⟨f, f1, f2⟩ := d2.op (· + ·) e2
  obtain ⟨g, k1, k2⟩ := g2.op (· * ·) h3
  obtain ⟨j, j1, j2⟩ := h2.op (· * ·) g3
  obtain ⟨l, l1, l2⟩ := k2.op (· - ·) j2
  obtain ⟨x, x1, x2⟩ := f2.divPos c2 hn
  obtain ⟨y, y1, y2⟩ := l2.divPos c2 hn
  simp only [div, h1, g1, bind, Except.bind, a1, b1, c1, d1, e1, f1, k1, j1, l1, x1, y1, val,
    x2.val, y2.val]
  simp only [cx]
  have e1 : w.re * (z * w).re + w.im * (z * w).im = z.re * (w.re * w.re + w.im * w.im) := by
    rw [Zsqrtd.re_mul, Zsqrtd.im_mul]; ring
  have e2 : w.re * (z * w).im - (z * w).re * w.im = z.im * (w.re * w.re + w.im * w.im) := by
    rw [Zsqrtd.re_mul, Zsqrtd.im_mul]; ring
  rw [e1, e2, Int.mul_fdiv_cancel _ (by omega), Int.mul_fdiv_cancel _ (by omega)]

example : div (cx ⟨14, -5⟩) (cx ⟨2, 3⟩) = .ok (cx ⟨1, -4⟩) := by
  have e : (⟨14, -5⟩ : ℤ√(-1)) = ⟨1, -4⟩ * ⟨2, 3⟩ := by decide
  rw [e]
  exact C80_div_partial ⟨1, -4⟩ ⟨2, 3⟩ _ (.complex _) (by decide)

/-- **Violation**: `Complex(1, 0) / Complex(2, 0)` is `0+0i`: the parts of the quotient are rounded
down, so that `(z / w) * w ≠ z` although nothing was raised. -/
theorem C80_div_fails : ∃ (z w q : ℤ√(-1)), w ≠ 0 ∧ div (cx z) (cx w) = .ok (cx q) ∧ q * w ≠ z :=
  ⟨⟨1, 0⟩, ⟨2, 0⟩, 0, by decide, by decide +kernel, by decide⟩

/-- **Violation**: division by `0+0i` is a Rust panic and not a ZeroDivisionError (complex.rs:79 has
no test, unlike numeric.rs:103). -/
theorem C80_div_zero_fails : ∃ z : ℤ√(-1), div (cx z) (cx 0) = .error .panic :=
  ⟨⟨1, 2⟩, by decide +kernel⟩

end Verif.Complex
