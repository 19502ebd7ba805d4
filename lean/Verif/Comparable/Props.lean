import Verif.Comparable.Model
import Verif.Arith.Props
/-!
# Comparable derives a consistent order (C53)
-/
namespace Verif.Comparable
open Verif.Value Verif.Arith

variable {W ε : Type}

/-- `r` is the answer `b` and leaves the state `w`. -/
def Answers (r : R W ε) (b : Prop) (w : W) : Prop := ∃ x : Bool, r = .ok (x, w) ∧ (x = true ↔ b)

private theorem send_ok {cmp : CmpMethod W ε} {x y w v w'} (h : cmp x y w = .ok (v, w')) :
    send cmp x y w = .ok (v, w') := by unfold send; rw [h]

/-- **C53, partial**: when `x <=> y` gives a 63-bit integer `c`, each operator answers according to the sign
of `c`, after exactly the effects of that one call.

Missing: integers beyond 63 bits (`C53_big_result_fails`). -/
theorem C53_operators_follow_cmp_partial (cmp : CmpMethod W ε) (x y : Val) (w w' : W) (c : Int)
    (hc : -2^62 ≤ c ∧ c < 2^62) (h : cmp x y w = .ok (num c, w')) :
    Answers (lt cmp x y w) (c < 0) w' ∧ Answers (eq cmp x y w) (c = 0) w' ∧ Answers (gt cmp x y w) (c > 0) w' ∧
    Answers (le cmp x y w) (c ≤ 0) w' ∧ Answers (ge cmp x y w) (c ≥ 0) w' := by
  have hc' : InI63 c := hc
  have e : (num c).as_fixnum = some c := by rw [as_fixnum_num, if_pos hc']
  refine ⟨⟨decide (c < 0), ?_, by simp⟩, ⟨c == 0, ?_, by simp⟩, ⟨decide (c > 0), ?_, by simp⟩,
    ⟨decide (c ≤ 0), ?_, by simp⟩, ⟨decide (c ≥ 0), ?_, by simp⟩⟩
  all_goals simp only [lt, eq, gt, le, ge, send_ok h, bind, Except.bind, e]

/-- the answer of a comparison, if it gives one -/
def holds (r : R W ε) : Bool :=
  match r with
  | .ok (true, _) => true
  | _ => false

theorem Answers.holds {r : R W ε} {b : Prop} {w : W} (h : Answers r b w) : holds r = true ↔ b := by
  obtain ⟨x, rfl, hx⟩ := h
  rw [← hx]
  cases x <;> simp [Verif.Comparable.holds]

/-- **C53, partial**: exactly one of `x < y`, `x == y`, `x > y` holds, and `<=` and `>=` are their unions,
whenever `<=>` gives a 63-bit integer. -/
theorem C53_trichotomy_partial (cmp : CmpMethod W ε) (x y : Val) (w w' : W) (c : Int)
    (hc : -2^62 ≤ c ∧ c < 2^62) (h : cmp x y w = .ok (num c, w')) :
    let a := holds (lt cmp x y w)
    let b := holds (eq cmp x y w)
    let g := holds (gt cmp x y w)
    ((a ∧ !b ∧ !g) ∨ (!a ∧ b ∧ !g) ∨ (!a ∧ !b ∧ g)) ∧
    (holds (le cmp x y w) ↔ (a ∨ b)) ∧ (holds (ge cmp x y w) ↔ (g ∨ b)) := by
  obtain ⟨h1, h2, h3, h4, h5⟩ := C53_operators_follow_cmp_partial cmp x y w w' c hc h
  have s1 := h1.holds; have s2 := h2.holds; have s3 := h3.holds; have s4 := h4.holds; have s5 := h5.holds
  intro a b g
  refine ⟨?_, ?_, ?_⟩
  · rcases Int.lt_trichotomy c 0 with hl | hl | hl
    · left
      refine ⟨s1.2 hl, ?_, ?_⟩
      · have : ¬ holds (eq cmp x y w) = true := by rw [s2]; omega
        simp [b, this]
      · have : ¬ holds (gt cmp x y w) = true := by rw [s3]; omega
        simp [g, this]
    · right; left
      refine ⟨?_, s2.2 hl, ?_⟩
      · have : ¬ holds (lt cmp x y w) = true := by rw [s1]; omega
        simp [a, this]
      · have : ¬ holds (gt cmp x y w) = true := by rw [s3]; omega
        simp [g, this]
    · right; right
      refine ⟨?_, ?_, s3.2 hl⟩
      · have : ¬ holds (lt cmp x y w) = true := by rw [s1]; omega
        simp [a, this]
      · have : ¬ holds (eq cmp x y w) = true := by rw [s2]; omega
        simp [b, this]
  · show holds (le cmp x y w) = true ↔ (holds (lt cmp x y w) = true ∨ holds (eq cmp x y w) = true)
    rw [s4, s1, s2]; omega
  · show holds (ge cmp x y w) = true ↔ (holds (gt cmp x y w) = true ∨ holds (eq cmp x y w) = true)
    rw [s5, s3, s2]; omega

/-- An order is carried over: if `<=>` compares a key `k` of the objects, the operators compare the keys. -/
theorem C53_key_order (k : Val → Int) (x y : Val) (w : W) :
    let cmp : CmpMethod W ε := fun a b w => .ok (num (if k a < k b then -1 else if k a = k b then 0 else 1), w)
    Answers (lt cmp x y w) (k x < k y) w ∧ Answers (eq cmp x y w) (k x = k y) w ∧
    Answers (gt cmp x y w) (k x > k y) w ∧ Answers (le cmp x y w) (k x ≤ k y) w ∧
    Answers (ge cmp x y w) (k x ≥ k y) w := by
  intro cmp
  obtain ⟨⟨a, a1, a2⟩, ⟨b, b1, b2⟩, ⟨c, c1, c2⟩, ⟨d, d1, d2⟩, ⟨e, e1, e2⟩⟩ :=
    C53_operators_follow_cmp_partial cmp x y w w (if k x < k y then -1 else if k x = k y then 0 else 1)
      (by split <;> (try split) <;> decide) rfl
  refine ⟨⟨a, a1, a2.trans ?_⟩, ⟨b, b1, b2.trans ?_⟩, ⟨c, c1, c2.trans ?_⟩, ⟨d, d1, d2.trans ?_⟩,
    ⟨e, e1, e2.trans ?_⟩⟩
  all_goals (by_cases h : k x < k y <;> by_cases h' : k x = k y <;> simp [h, h'] <;> omega)

/-- The operator `==` of distinct objects is the method; of one object it is true. -/
theorem C53_operator_eq (cmp : CmpMethod W ε) (lost : W → W) (x y : Val) (w w' : W) (c : Int)
    (hc : -2^62 ≤ c ∧ c < 2^62) (h : cmp x y w = .ok (num c, w')) (hxy : x ≠ y) :
    Answers (opEq cmp lost x y w) (c = 0) w' := by
  obtain ⟨b, hb, hc⟩ := (C53_operators_follow_cmp_partial cmp x y w w' c hc h).2.1
  refine ⟨b, ?_, hc⟩
  unfold opEq
  rw [if_neg hxy, hb]

/-- The operator `==` hides an exception of `<=>`: distinct objects then count as different. -/
theorem C53_operator_eq_exception (cmp : CmpMethod W ε) (lost : W → W) (x y : Val) (w : W) (e : ε)
    (h : cmp x y w = .error e) (hxy : x ≠ y) : opEq cmp lost x y w = .ok (false, lost w) := by
  have hs : send cmp x y w = .error (.raised e) := by unfold send; rw [h]
  have : eq cmp x y w = .error (.raised e) := by simp only [eq, hs, bind, Except.bind]
  unfold opEq
  rw [if_neg hxy, this]

/-- An exception raised by `<=>` comes out of every operator method unchanged. -/
theorem C53_exceptions_pass (cmp : CmpMethod W ε) (x y : Val) (w : W) (e : ε) (h : cmp x y w = .error e) :
    lt cmp x y w = .error (.raised e) ∧ eq cmp x y w = .error (.raised e) ∧ gt cmp x y w = .error (.raised e) ∧
    le cmp x y w = .error (.raised e) ∧ ge cmp x y w = .error (.raised e) := by
  have : send cmp x y w = .error (.raised e) := by unfold send; rw [h]
  refine ⟨?_, ?_, ?_, ?_, ?_⟩
  all_goals simp only [lt, eq, gt, le, ge, this, bind, Except.bind]

/-- **C53 is false for large results**: `<=>` gives an integer `c ≥ 2^62`; `>` and `<` abort the interpreter,
and none of `==`, `<=`, `>=` holds. -/
theorem C53_big_result_fails (cmp : CmpMethod W ε) (x y : Val) (w w' : W) (c : Int) (hc : c ≥ 2^62)
    (h : cmp x y w = .ok (num c, w')) :
    gt cmp x y w = .error .panic ∧ lt cmp x y w = .error .panic ∧ eq cmp x y w = .ok (false, w') ∧
    le cmp x y w = .ok (false, w') ∧ ge cmp x y w = .ok (false, w') := by
  have hn : ¬ InI63 c := by unfold InI63; omega
  have e : (num c).as_fixnum = none := by rw [as_fixnum_num, if_neg hn]
  refine ⟨?_, ?_, ?_, ?_, ?_⟩
  all_goals simp only [lt, eq, gt, le, ge, send_ok h, bind, Except.bind, e]

/-- Objects that `<=>` cannot compare (it gives nil): `<` aborts the interpreter instead of raising. -/
theorem C53_incomparable_fails (cmp : CmpMethod W ε) (x y : Val) (w w' : W) (h : cmp x y w = .ok (Value.nil, w')) :
    gt cmp x y w = .error .panic ∧ lt cmp x y w = .error .panic := by
  have e : Val.as_fixnum Value.nil = none := by decide
  refine ⟨?_, ?_⟩
  all_goals simp only [lt, gt, send_ok h, bind, Except.bind, e]

/-! ## Cases that meet the hypotheses -/

/-- a `<=>` that counts its calls and compares integers -/
def counting : CmpMethod Nat Unit := fun a b n => (invoke_compare a b).toOption.elim (.error ()) (fun v => .ok (v, n + 1))

example : counting (num 3) (num 5) 7 = .ok (num (-1), 8) ∧ lt counting (num 3) (num 5) 7 = .ok (true, 8) ∧
    ge counting (num 3) (num 5) 7 = .ok (false, 8) := by decide
example : opEq counting id (num 3) (num 3) 7 = .ok (true, 7) := by decide

end Verif.Comparable
