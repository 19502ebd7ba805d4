import Verif.Float.Props
import Mathlib.Algebra.Order.Round
/-! # C127: `sleep` -/
namespace Verif.Sleep

open Verif.Float

/-! ## Model -/

/-- An argument: a packed integer or a float, or another value. -/
inductive Arg
  | num (x : Num)
  | other
  deriving DecidableEq, Repr

/-- What becomes of a call: it returns (`n`, after `waited` seconds), an ArgumentError, or the interpreter panics. -/
inductive Out
  | ok (n : Int) (waited : ℚ)
  | argument
  | panic

/-- The library: `Duration::from_secs_f64` keeps seconds to the nanosecond, and `thread::sleep` waits at least as long as it
is told. -/
structure Clock where
  nano : ℚ → ℚ
  near : ∀ q, |nano q - q| ≤ 1 / 10 ^ 9
  elapsed : ℚ → ℚ
  long : ∀ q, q ≤ elapsed q

/-- `Duration::from_secs_f64` (core::time): it panics on numbers that are negative, too large or not finite. -/
def from_secs_f64 (c : Clock) : F64 → Option ℚ
  | .nan => none
  | .inf _ => none
  | .fin n m e => if rat n m e < 0 ∨ 2 ^ 64 ≤ rat n m e then none else some (c.nano (rat n m e))

/-- The end of `sleep` (builtin/kernel.rs:304-308): `elapsed().as_secs()` are the whole seconds. -/
def wait (c : Clock) (secs : F64) : Out :=
  match from_secs_f64 c secs with
  | none => .panic
  | some d => .ok ⌊c.elapsed d⌋ (c.elapsed d)

/-- The number of seconds (builtin/kernel.rs:295-299). -/
def seconds : Num → F64
  | .int i => ofInt i
  | .flo w => decode w

/-- `Kernel#sleep` (builtin/kernel.rs:290-309). -/
def sleep (c : Clock) : List Arg → Out
  | [] => wait c (.fin false 0 0)
  | [.num x] => if relF .lt (seconds x) (.fin false 0 0) then .argument else wait c (seconds x)
  | [.other] => .argument
  | _ => .argument

/-! ## Specification -/

/-- The number `x` stands for the rational number `q`. -/
def Is (x : Num) (q : ℚ) : Prop := x.num = some ((q : WithTop ℚ) : WithBot (WithTop ℚ))

/-- An integer that is a float. -/
def Small : Num → Prop
  | .int i => i.natAbs ≤ 2 ^ 53
  | .flo _ => True

/-! ## Helpers -/

theorem seconds_is {x : Num} {q : ℚ} (h : Is x q) (hs : Small x) : ∃ n m e, seconds x = .fin n m e ∧ rat n m e = q := by
  cases x with
  | int i =>
    obtain ⟨n, m, k, h1, _, h2⟩ := C106_to_f i
    refine ⟨n, m, k, h1, ?_⟩
    rw [h2 hs]
    simpa [Is, Num.num] using h
  | flo w =>
    simp only [Is, Num.num] at h
    simp only [seconds]
    cases hd : decode w with
    | nan => rw [hd] at h; cases h
    | inf neg =>
      rw [hd] at h
      cases neg <;> simp [F64.num] at h
    | fin n m e =>
      rw [hd] at h
      exact ⟨n, m, e, rfl, by simpa [F64.num] using h⟩

theorem zero_rat : rat false 0 0 = 0 := by simp [rat]

theorem below_zero (n : Bool) (m : Nat) (e : Int) : relF .lt (.fin n m e) (.fin false 0 0) = decide (rat n m e < 0) := by
  simp only [relF, partial_cmp, zero_rat]
  by_cases h : rat n m e < 0
  · simp [h]
  · by_cases g : rat n m e = 0 <;> simp [h, g]

/-! ## C127 -/

/-- **C127** (partial): `sleep(x)` with a number of seconds, from 0 to below 2^64, waits at least so long (to the
nanosecond) and returns the whole seconds it waited.  Missing: larger numbers, not-a-number and infinity, with which the
interpreter panics, and integers beyond 2^53, which are rounded. -/
theorem C127_waits_partial (c : Clock) {x : Num} {q : ℚ} (h : Is x q) (hs : Small x) (h0 : 0 ≤ q) (h1 : q < 2 ^ 64) :
    ∃ n t, sleep c [.num x] = .ok n t ∧ q - 1 / 10 ^ 9 ≤ t ∧ (n : ℚ) ≤ t ∧ t < n + 1 := by
  obtain ⟨s, m, e, g1, g2⟩ := seconds_is h hs
  refine ⟨⌊c.elapsed (c.nano q)⌋, c.elapsed (c.nano q), ?_, ?_, Int.floor_le _, Int.lt_floor_add_one _⟩
  · simp only [sleep, g1, below_zero, g2, decide_eq_true_eq]
    rw [if_neg (by linarith)]
    simp only [wait, from_secs_f64, g2]
    rw [if_neg (by push Not; exact ⟨h0, h1⟩)]
  · have a := (abs_le.1 (c.near q)).1
    have b := c.long (c.nano q)
    linarith

/-- **C127**: the integer returned is at least the whole seconds asked for, less one at most: for an integer `i` it is at
least `i - 1`. -/
theorem C127_result (c : Clock) {i : Int} (h0 : 0 ≤ i) (h1 : i ≤ 2 ^ 53) :
    ∃ n t, sleep c [.num (.int i)] = .ok n t ∧ i - 1 ≤ n ∧ (i : ℚ) - 1 / 10 ^ 9 ≤ t := by
  have hi : (i : ℚ) ≤ 2 ^ 53 := by exact_mod_cast h1
  obtain ⟨n, t, a, b, _, d⟩ := C127_waits_partial c (x := .int i) (q := i) rfl (by simp only [Small]; omega)
    (by exact_mod_cast h0) (lt_of_le_of_lt hi (by norm_num))
  refine ⟨n, t, a, ?_, b⟩
  have : (i : ℚ) - 1 < n + 1 := by
    have : (1 : ℚ) / 10 ^ 9 < 1 := by norm_num
    linarith
  have : ((i - 1 : Int) : ℚ) < ((n + 1 : Int) : ℚ) := by push_cast; exact this
  have := Int.cast_lt.1 this
  omega

/-- **C127**: a negative number is an ArgumentError, at once; so are other values and two arguments. -/
theorem C127_negative (c : Clock) {x : Num} {q : ℚ} (h : Is x q) (hs : Small x) (h0 : q < 0) :
    sleep c [.num x] = .argument ∧ sleep c [.other] = .argument ∧ ∀ a b l, sleep c (a :: b :: l) = .argument := by
  obtain ⟨s, m, e, g1, g2⟩ := seconds_is h hs
  refine ⟨?_, rfl, fun a b l => by cases a <;> rfl⟩
  simp only [sleep, g1, below_zero, g2, decide_eq_true_eq]
  rw [if_pos h0]

/-- **C127 fails** for large numbers: the interpreter panics for every float from 2^64 on, and for infinity. -/
theorem C127_large_fails (c : Clock) (w : Verif.Value.Word) :
    (∀ q, Is (.flo w) q → 2 ^ 64 ≤ q → sleep c [.num (.flo w)] = .panic) ∧
    (decode w = .inf false → sleep c [.num (.flo w)] = .panic) := by
  refine ⟨fun q h h1 => ?_, fun h => ?_⟩
  · obtain ⟨s, m, e, g1, g2⟩ := seconds_is h trivial
    simp only [sleep, g1, below_zero, g2, decide_eq_true_eq]
    have : (0 : ℚ) < 2 ^ 64 := by norm_num
    rw [if_neg (by linarith)]
    simp only [wait, from_secs_f64, g2]
    rw [if_pos (.inr h1)]
  · simp [sleep, seconds, h, relF, partial_cmp, wait, from_secs_f64]

/-- **C127 fails** for not-a-number, with which the interpreter panics where Ruby raises. -/
theorem C127_nan_fails (c : Clock) (w : Verif.Value.Word) (h : decode w = .nan) : sleep c [.num (.flo w)] = .panic := by
  simp [sleep, seconds, h, relF, partial_cmp, wait, from_secs_f64]

/-- **C127 fails** for `sleep` without argument: it returns as soon as the machine does from a wait of no time, where Ruby
waits until it is woken. -/
theorem C127_forever_fails (c : Clock) : ∃ n t, sleep c [] = .ok n t := by
  simp only [sleep, wait, from_secs_f64, zero_rat]
  rw [if_neg (by norm_num)]
  exact ⟨_, _, rfl⟩

/-- **C127 fails** for the result: Ruby rounds the time to the nearest second, the code drops the fraction. -/
theorem C127_round_fails (c : Clock) {n : Int} {t : ℚ} {l : List Arg} (h : sleep c l = .ok n t) (hf : 1 / 2 < Int.fract t) :
    n = round t - 1 := by
  have hw : ∀ f, wait c f = .ok n t → n = ⌊t⌋ := by
    intro f e
    simp only [wait] at e
    split at e
    · cases e
    · cases e; rfl
  have hn : n = ⌊t⌋ := by
    match l with
    | [] => exact hw _ h
    | [.num x] =>
      simp only [sleep] at h
      split at h
      · cases h
      · exact hw _ h
    | [.other] => cases h
    | a :: b :: r => cases a <;> cases h
  have : round t = ⌊t⌋ + 1 := by
    rw [round_eq, Int.floor_eq_iff]
    have a := Int.self_sub_floor t
    have b := Int.fract_lt_one t
    push_cast
    constructor <;> linarith
  omega

/-! ## Instances -/

/-- A clock without delays. -/
def exact_clock : Clock := ⟨id, fun q => by simp, id, fun _ => le_rfl⟩

example : Is (.int 3) 3 ∧ Small (.int 3) := ⟨rfl, by simp [Small]⟩
example : sleep exact_clock [.num (.int 3)] = .ok 3 3 := by
  obtain ⟨s, m, e, g1, g2⟩ := seconds_is (x := .int 3) (q := 3) rfl (by simp [Small])
  simp only [sleep, g1, below_zero, g2, decide_eq_true_eq]
  rw [if_neg (by norm_num)]
  simp only [wait, from_secs_f64, g2]
  rw [if_neg (by norm_num)]
  simp [exact_clock]
example : decode 0x7ff8000000000000#64 = .nan := by decide +kernel
example : decode 0x7ff0000000000000#64 = .inf false := by decide +kernel
/-- 1e20 -/
example : ∃ q, Is (.flo 0x4415AF1D78B58C40#64) q ∧ 2 ^ 64 ≤ q := by
  obtain ⟨n, m, e, h1, h2, _⟩ := C106_saturate_fails
  exact ⟨10 ^ 20, by simp [Is, Num.num, h1, F64.num, h2], by norm_num⟩

end Verif.Sleep
