import Verif.Arith.IterSpec
import Mathlib.Tactic.Ring
import Mathlib.Tactic.Linarith
import Mathlib.Tactic.Positivity
/-! # C11 (digits) and C12 (integer iteration) -/
namespace Verif.Arith
open Verif.Value

/-- The items an iterator produces before it ends. -/
inductive Produces {ι : Type} (next : ι → Option (Val × ι)) : ι → List Int → Prop
  | nil {it} : next it = none → Produces next it []
  | cons {it i it' l} : next it = some (num i, it') → Produces next it' l → Produces next it (i :: l)

theorem evalBlockEach_eq {σ ε ι : Type} {next : ι → Option (Val × ι)} {it : ι} {l : List Int}
    (h : Produces next it l) (body : Body σ ε) (r : Int) (fuel : Nat) (hf : l.length < fuel) (s : σ) :
    liftIter (evalBlockEach next body (num r) fuel it s) = visits l r body s := by
  induction h generalizing fuel s with
  | nil hn =>
    cases fuel with
    | zero => simp at hf
    | succ fuel => simp [evalBlockEach, hn, liftIter, visits, pure, Except.pure]
  | cons hn _ ih =>
    cases fuel with
    | zero => simp at hf
    | succ fuel =>
      simp only [evalBlockEach, hn]
      unfold visits
      rw [List.foldlM_cons]
      cases hb : body (num _) s with
      | error e => simp [liftIter, bind, Except.bind]
      | ok s' =>
        simp only [bind, Except.bind]
        have := ih fuel (by simpa using hf) s'
        rw [this]; rfl

theorem progression_zero (a s : Int) : progression a s 0 = [] := rfl
theorem progression_succ (a s : Int) (k : Nat) :
    progression a s (k+1) = a :: progression (a + s) s k := by
  unfold progression
  rw [List.range_succ_eq_map]
  simp only [List.map_cons, List.map_map]
  congr 1
  · simp
  · apply List.map_congr_left
    intro i _
    simp only [Function.comp]
    push_cast; ring
theorem progression_length (a s : Int) (k : Nat) : (progression a s k).length = k := by
  simp [progression]

theorem produces_range (a : Int) (k : Nat) (h1 : -2^63 ≤ a) (h2 : a + k ≤ 2^63) :
    Produces rangeNext (a, a + k) (progression a 1 k) := by
  induction k generalizing a with
  | zero => exact .nil (by simp [rangeNext])
  | succ k ih =>
    rw [progression_succ]
    have hin : InI64 a := by unfold InI64; push_cast at h2; omega
    refine .cons (it' := (a + 1, (a + 1) + k)) ?_ (ih (a+1) (by omega) (by push_cast at h2; omega))
    unfold rangeNext
    have h3 : a < a + ((k + 1 : Nat) : Int) := by push_cast; omega
    simp only [if_pos h3, integer_eq_num hin]
    push_cast
    rw [show a + ((k:Int) + 1) = a + 1 + k by ring]

theorem produces_bigRange (a : Int) (k : Nat) :
    Produces bigRangeNext (a, a + k) (progression a 1 k) := by
  induction k generalizing a with
  | zero => exact .nil (by simp [bigRangeNext])
  | succ k ih =>
    rw [progression_succ]
    refine .cons (it' := (a + 1, (a + 1) + k)) ?_ (ih (a+1))
    unfold bigRangeNext
    have h3 : a < a + ((k + 1 : Nat) : Int) := by push_cast; omega
    simp only [if_pos h3]
    push_cast
    rw [show a + ((k:Int) + 1) = a + 1 + k by ring]
    rfl

theorem produces_rangeBack (a : Int) (k : Nat) (h1 : -2^63 ≤ a) (h2 : a + k ≤ 2^63) :
    Produces rangeNextBack (a, a + k) (progression (a + k - 1) (-1) k) := by
  induction k with
  | zero => exact .nil (by simp [rangeNextBack])
  | succ k ih =>
    rw [progression_succ]
    have hin : InI64 (a + k) := by unfold InI64; push_cast at h2; omega
    have ih := ih (by push_cast at h2; omega)
    push_cast
    rw [show a + ((k:Int) + 1) - 1 = a + k by ring]
    refine .cons (it' := (a, a + k)) ?_ (by rw [show a + (k:Int) + -1 = a + k - 1 by ring]; exact ih)
    unfold rangeNextBack
    have h3 : a < a + ((k:Int) + 1) := by omega
    simp only [if_pos h3]
    rw [show a + ((k:Int) + 1) - 1 = a + k by ring, integer_eq_num hin]

theorem produces_posStep (a limit st : Int) (k : Nat) (ha : -2^62 ≤ a) (hl : InI63 limit) (hst : 0 < st)
    (hin : ∀ i : Nat, i < k → a + i * st ≤ limit) (hout : limit < a + k * st) :
    Produces posStepNext (a, limit, st) (progression a st k) := by
  induction k generalizing a with
  | zero => exact .nil (by simp [posStepNext]; simpa using hout)
  | succ k ih =>
    rw [progression_succ]
    have h0 := hin 0 (by omega)
    simp at h0
    have hlim := hl.2
    refine .cons (it' := (a + st, limit, st)) ?_ (ih (a + st) (by omega) ?_ ?_)
    · unfold posStepNext
      have : InI64 a := by unfold InI64; unfold InI63 at hl; omega
      simp only [integer_eq_num this]
      rw [if_neg (by simp; omega)]
    · intro i hi
      have := hin (i+1) (by omega)
      push_cast at this; linarith
    · push_cast at hout; linarith

theorem produces_negStep (a limit st : Int) (k : Nat) (ha : a < 2^62) (hl : InI63 limit) (hst : st < 0)
    (hin : ∀ i : Nat, i < k → limit ≤ a + i * st) (hout : a + k * st < limit) :
    Produces negStepNext (a, limit, st) (progression a st k) := by
  induction k generalizing a with
  | zero => exact .nil (by simp [negStepNext]; simpa using hout)
  | succ k ih =>
    rw [progression_succ]
    have h0 := hin 0 (by omega)
    simp at h0
    refine .cons (it' := (a + st, limit, st)) ?_ (ih (a + st) (by omega) ?_ ?_)
    · unfold negStepNext
      have : InI64 a := by unfold InI64; unfold InI63 at hl; omega
      simp only [integer_eq_num this]
      rw [if_neg (by simp; omega)]
    · intro i hi
      have := hin (i+1) (by omega)
      push_cast at this; linarith
    · push_cast at hout; linarith

theorem visits_nil {σ ε : Type} (r : Int) (body : Body σ ε) (s : σ) :
    visits [] r body s = .ok (num r, s) := by
  simp [visits, pure, Except.pure]

theorem coerce_num' {m : Int} (h : InI63 m) : coerce_to_fixnum (num m) = .ok m := by
  unfold coerce_to_fixnum; rw [unpack_num, if_pos h]

theorem times_aux {σ ε : Type} (n : Int) (k : Nat) (hk : n.toNat = k) (body : Body σ ε) (s : σ) (fuel : Nat) (hf : k < fuel) :
    integer_times fuel (num n) body s = visits (progression 0 1 k) n body s := by
  unfold integer_times
  rw [as_fixnum_num, as_bignum_num]
  by_cases hn : InI63 n
  · rw [if_pos hn]
    simp only
    by_cases h1 : n < 1
    · rw [if_pos h1]
      have : k = 0 := by omega
      rw [this, progression_zero, visits_nil]
    · rw [if_neg h1]
      have e : (0 : Int) + (k : Int) = n := by omega
      have := produces_range 0 k (by decide) (by unfold InI63 at hn; omega)
      rw [e] at this
      exact evalBlockEach_eq this body n fuel (by rw [progression_length]; exact hf) s
  · rw [if_neg hn, if_neg hn]
    simp only
    by_cases h1 : n > 0
    · rw [if_neg (not_not.2 h1)]
      have e : (0 : Int) + (k : Int) = n := by omega
      have := produces_bigRange 0 k
      rw [e] at this
      exact evalBlockEach_eq this body n fuel (by rw [progression_length]; exact hf) s
    · rw [if_pos h1]
      have : k = 0 := by omega
      rw [this, progression_zero, visits_nil]

/-- C12: `n.times` runs the block on `0, 1, …, n-1`, for every integer (also a big one), every block and every
state; nothing for `n ≤ 0`.  The model's step counter only has to be larger than the number of rounds. -/
theorem C12_times {σ ε : Type} (n : Int) (body : Body σ ε) (s : σ) (fuel : Nat) (hf : n.toNat < fuel) :
    integer_times fuel (num n) body s = visits (progression 0 1 n.toNat) n body s :=
  times_aux n n.toNat rfl body s fuel hf

/-- C12: `a.upto(b)` runs the block on `a, a+1, …, b` (both of at most 63 bits). -/
theorem C12_upto_partial {σ ε : Type} (a b : Int) (ha : -2^62 ≤ a ∧ a < 2^62) (hb : -2^62 ≤ b ∧ b < 2^62)
    (body : Body σ ε) (s : σ) (fuel : Nat) (hf : (b + 1 - a).toNat < fuel) :
    integer_upto fuel (num a) (num b) body s = visits (progression a 1 (b + 1 - a).toNat) a body s := by
  have ha' : InI63 a := ha
  have hb' : InI63 b := hb
  unfold integer_upto
  rw [as_fixnum_num, if_pos ha', coerce_num' hb']
  simp only
  by_cases h : a ≤ b
  · have hin : InI64 (b + 1) := by unfold InI64; omega
    rw [if_pos h, exactI64_ok hin]
    have := produces_range a (b + 1 - a).toNat (by omega) (by omega)
    rw [show a + ((b + 1 - a).toNat : Int) = b + 1 by omega] at this
    exact evalBlockEach_eq this body a fuel (by rw [progression_length]; exact hf) s
  · rw [if_neg h, show (b + 1 - a).toNat = 0 by omega, progression_zero, visits_nil]

/-- C12: `a.downto(b)` runs the block on `a, a-1, …, b`. -/
theorem C12_downto_partial {σ ε : Type} (a b : Int) (ha : -2^62 ≤ a ∧ a < 2^62) (hb : -2^62 ≤ b ∧ b < 2^62)
    (body : Body σ ε) (s : σ) (fuel : Nat) (hf : (a + 1 - b).toNat < fuel) :
    integer_downto fuel (num a) (num b) body s = visits (progression a (-1) (a + 1 - b).toNat) a body s := by
  have ha' : InI63 a := ha
  have hb' : InI63 b := hb
  unfold integer_downto
  rw [as_fixnum_num, if_pos ha', coerce_num' hb']
  simp only
  by_cases h : a ≥ b
  · have hin : InI64 (a + 1) := by unfold InI64; omega
    rw [if_pos h, exactI64_ok hin]
    have := produces_rangeBack b (a + 1 - b).toNat (by omega) (by omega)
    rw [show b + ((a + 1 - b).toNat : Int) = a + 1 by omega, show a + 1 - 1 = a by omega] at this
    exact evalBlockEach_eq this body a fuel (by rw [progression_length]; exact hf) s
  · rw [if_neg h, show (a + 1 - b).toNat = 0 by omega, progression_zero, visits_nil]

/-- C12: `a.step(limit, st)` runs the block on `a, a+st, a+2st, …` up to the last one not beyond the limit:
`k` is the number of terms not beyond it. -/
theorem C12_step_partial {σ ε : Type} (a limit st : Int) (k : Nat) (ha : -2^62 ≤ a ∧ a < 2^62)
    (hl : -2^62 ≤ limit ∧ limit < 2^62) (hs : -2^62 ≤ st ∧ st < 2^62) (hst : st ≠ 0)
    (hin : ∀ i : Nat, i < k → if 0 < st then a + i * st ≤ limit else limit ≤ a + i * st)
    (hout : if 0 < st then limit < a + k * st else a + k * st < limit)
    (body : Body σ ε) (s : σ) (fuel : Nat) (hf : k < fuel) :
    integer_step fuel (num a) (num limit) (some (num st)) body s = visits (progression a st k) a body s := by
  have ha' : InI63 a := ha
  have hl' : InI63 limit := hl
  have hs' : InI63 st := hs
  unfold integer_step
  rw [as_fixnum_num, if_pos ha', coerce_num' hl']
  simp only [coerce_num' hs', if_neg hst]
  by_cases h : st > 0
  · rw [if_pos h]
    simp only [if_pos h] at hin hout
    exact evalBlockEach_eq (produces_posStep a limit st k ha.1 hl' h hin hout) body a fuel
      (by rw [progression_length]; exact hf) s
  · rw [if_neg h]
    simp only [if_neg h] at hin hout
    exact evalBlockEach_eq (produces_negStep a limit st k ha.2 hl' (by omega) hin hout) body a fuel
      (by rw [progression_length]; exact hf) s

/-- Such a `k` always exists, so the previous theorem covers every call. -/
theorem C12_step_count (a limit st : Int) (hst : st ≠ 0) :
    ∃ k : Nat, (∀ i : Nat, i < k → if 0 < st then a + i * st ≤ limit else limit ≤ a + i * st) ∧
      (if 0 < st then limit < a + k * st else a + k * st < limit) := by
  have ex : ∃ k : Nat, (if 0 < st then limit < a + k * st else a + k * st < limit) := by
    by_cases h : 0 < st
    · refine ⟨(limit - a).toNat + 1, ?_⟩
      rw [if_pos h]; push_cast
      have h1 : limit - a ≤ ((limit - a).toNat : Int) := by omega
      have h2 : (0:Int) ≤ ((limit - a).toNat : Int) := by omega
      nlinarith
    · refine ⟨(a - limit).toNat + 1, ?_⟩
      rw [if_neg h]; push_cast
      have h1 : a - limit ≤ ((a - limit).toNat : Int) := by omega
      have h2 : (0:Int) ≤ ((a - limit).toNat : Int) := by omega
      have h3 : st ≤ -1 := by omega
      nlinarith
  classical
  refine ⟨Nat.find ex, fun i hi => ?_, Nat.find_spec ex⟩
  have := Nat.find_min ex hi
  by_cases h : 0 < st
  · rw [if_pos h] at *; omega
  · rw [if_neg h] at *; omega

/-- C12: with the step omitted it is 1. -/
theorem C12_step_default {σ ε : Type} (a limit : Int) (body : Body σ ε) (s : σ) (fuel : Nat) :
    integer_step fuel (num a) (num limit) none body s =
      integer_step fuel (num a) (num limit) (some (num 1)) body s := by
  unfold integer_step
  simp only [coerce_num' (show InI63 1 by decide)]
  rfl

/-- C12: a zero step is an ArgumentError. -/
theorem C12_step_zero {σ ε : Type} (a limit : Int) (ha : -2^62 ≤ a ∧ a < 2^62)
    (hl : -2^62 ≤ limit ∧ limit < 2^62) (body : Body σ ε) (s : σ) (fuel : Nat) :
    integer_step fuel (num a) (num limit) (some (num 0)) body s = .error (.inl .argument) := by
  have ha' : InI63 a := ha
  have hl' : InI63 limit := hl
  unfold integer_step
  rw [as_fixnum_num, if_pos ha', coerce_num' hl']
  simp only [coerce_num' (show InI63 0 by decide)]
  rfl

/-- The `cur + step` of both step iterators stays inside `i64` whenever it is executed. -/
theorem C12_step_no_overflow (cur limit st : Int) (hl : -2^62 ≤ limit ∧ limit < 2^62)
    (hs : -2^62 ≤ st ∧ st < 2^62)
    (h : (0 < st ∧ -2^62 ≤ cur ∧ cur ≤ limit) ∨ (st < 0 ∧ cur < 2^62 ∧ limit ≤ cur)) :
    -2^63 ≤ cur + st ∧ cur + st < 2^63 := by omega

/-- C12 fails in the code for big receivers (the interpreter panics) and big limits (TypeError). -/
theorem C12_big_fails {σ ε : Type} (body : Body σ ε) (s : σ) (fuel : Nat) :
    integer_upto fuel (num (2^62)) (num (2^62 + 1)) body s = .error (.inl .panic) ∧
    integer_upto fuel (num 0) (num (2^62)) body s = .error (.inl .typeErr) := by
  constructor <;> rfl

example : integer_step 10 (num 1) (num 8) (some (num 3)) (fun v (s : List Val) => (.ok (s ++ [v]) : Except Unit _)) []
    = .ok (num 1, [num 1, num 4, num 7]) := by decide

/-! ## C11 -/

theorem digitsLoop_eq (b : Nat) (ds : List Nat) (h : ∀ d ∈ ds, 0 < d ∧ d < b) (fuel : Nat)
    (hf : ds.length < fuel) : digitsLoop (valueOf b ds) b fuel = ds := by
  induction ds generalizing fuel with
  | nil =>
    cases fuel with
    | zero => simp at hf
    | succ f => simp [digitsLoop, valueOf]
  | cons d ds ih =>
    cases fuel with
    | zero => simp at hf
    | succ f =>
      have hd := h d (by simp)
      unfold digitsLoop valueOf
      have e1 : (d + b * valueOf b ds) % b = d := by
        rw [Nat.add_mul_mod_self_left, Nat.mod_eq_of_lt hd.2]
      have e2 : (d + b * valueOf b ds) / b = valueOf b ds := by
        rw [Nat.add_mul_div_left _ _ (by omega), Nat.div_eq_of_lt hd.2, Nat.zero_add]
      simp only [e1, e2]
      rw [if_neg (by omega), ih (fun x hx => h x (by simp [hx])) f (by simpa using hf)]

theorem valueOf_ge (b : Nat) (ds : List Nat) (h : ∀ d ∈ ds, 0 < d ∧ d < b) : ds.length ≤ valueOf b ds := by
  induction ds with
  | nil => simp [valueOf]
  | cons d ds ih =>
    have hd := h d (by simp)
    have ih := ih (fun x hx => h x (by simp [hx]))
    unfold valueOf
    simp only [List.length_cons]
    have : valueOf b ds ≤ b * valueOf b ds := Nat.le_mul_of_pos_left _ (by omega)
    omega

theorem digits_aux (n b : Int) (hn : InI63 n) (hb : InI63 b) (hn0 : 0 ≤ n) (hb0 : 0 < b) (l : List Nat)
    (hl : digitsLoop n.toNat b.toNat (n.toNat + 1) = l) :
    integer_digits (num n) (num b) =
      .ok (if l.length = 0 then [Value.integer 0] else l.map (fun (d : Nat) => Value.integer d)) := by
  unfold integer_digits
  rw [coerce_num' hb, as_fixnum_num, if_pos hn]
  show (if b < 0 then _ else _ : Res _) = _
  rw [if_neg (by omega)]
  show (if b = 0 then _ else _ : Res _) = _
  rw [if_neg (by omega)]
  show (if n < 0 then _ else _ : Res _) = _
  rw [if_neg (by omega), hl]
  rfl

/-- C11, for numbers without a zero digit: `digits` returns exactly the base-`b` digits, least significant first. -/
theorem C11_digits_partial (b : Nat) (hb : 2 ≤ b ∧ b < 2^62) (ds : List Nat) (hne : ds ≠ [])
    (h : ∀ d ∈ ds, 0 < d ∧ d < b) (hn : valueOf b ds < 2^62) :
    integer_digits (num (valueOf b ds)) (num b) = .ok (ds.map (fun (d : Nat) => num d)) := by
  have hlen := valueOf_ge b ds h
  have key := digitsLoop_eq b ds h (valueOf b ds + 1) (by omega)
  rw [digits_aux (valueOf b ds) b (by unfold InI63; omega) (by unfold InI63; omega) (by omega) (by omega) ds
    (by rw [Int.toNat_natCast, Int.toNat_natCast]; exact key)]
  have : ds.length ≠ 0 := by
    intro h0; exact hne (List.length_eq_zero_iff.1 h0)
  rw [if_neg this]
  have e : ds.map (fun (d : Nat) => Value.integer d) = ds.map (fun (d : Nat) => num d) := by
    apply List.map_congr_left
    intro d hd
    have := h d hd
    have hin : InI64 (d : Int) := by unfold InI64; omega
    rw [integer_eq_num hin]
  rw [e]

/-- C11: zero has the single digit 0. -/
theorem C11_zero (b : Nat) (hb : 2 ≤ b ∧ b < 2^62) : integer_digits (num 0) (num b) = .ok [num 0] := by
  rw [digits_aux 0 b (by decide) (by unfold InI63; omega) (by omega) (by omega) []
    (by simp [digitsLoop])]
  rfl

example : valueOf 10 [3, 2, 1] = 123 ∧ integer_digits (num 123) (num 10) = .ok [num 3, num 2, num 1] := by decide

/-- C11 fails in the code as soon as a digit is zero: `10.digits` is `[0]` (value 0), `101.digits` is `[1]`. -/
theorem C11_digits_fails : integer_digits (num 10) (num 10) = .ok [num 0] ∧
    integer_digits (num 101) (num 10) = .ok [num 1] ∧ valueOf 10 [0] ≠ 10 ∧ valueOf 10 [1] ≠ 101 := by decide

end Verif.Arith
