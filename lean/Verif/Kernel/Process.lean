import Mathlib.Algebra.Order.Field.Basic
import Mathlib.Data.Rat.Floor
import Mathlib.Tactic.Positivity
import Mathlib.Tactic.Linarith
import Mathlib.Tactic.NormNum
/-! # C131: `Process.clock_gettime` and `Process.pid` -/
namespace Verif.Process

/-! ## Model -/

/-- The conversion of a number to the nearest float: all that is used of it is that it keeps the order, and integers up to
2^53.  Numbers beyond the floats are not modelled. -/
structure Rounding where
  rnd : ℚ → ℚ
  mono : ∀ {a b}, a ≤ b → rnd a ≤ rnd b
  int : ∀ n : Nat, n ≤ 2 ^ 53 → rnd n = n

/-- `Duration::as_secs_f64` of the Rust library, of a duration in nanoseconds: `(secs as f64) + (nanos as f64) / 1e9`. -/
def as_secs_f64 (R : Rounding) (d : Nat) : ℚ := R.rnd (R.rnd (d / 10 ^ 9 : Nat) + R.rnd (R.rnd (d % 10 ^ 9 : Nat) / 10 ^ 9))

/-- What the process is given by the system. -/
structure Env where
  /-- its number -/
  pid : Nat
  /-- the address at which the function `std::process::id` was loaded -/
  idFunction : Nat

/-- An error of `check_args_num` (vm/args.rs). -/
inductive Res (α : Type)
  | ok (v : α)
  | argumentError
  deriving DecidableEq

/-- `clock_gettime` (builtin/process.rs:14-18): `start` and `now` are readings of the clock of the system, which `Instant` is;
the argument is not looked at. -/
def clock_gettime {A : Type} (R : Rounding) (start now : Nat) : List A → Res ℚ
  | [_] => .ok (as_secs_f64 R (now - start))
  | _ => .argumentError

/-- `pid` (builtin/process.rs:20-23): `std::process::id as i64` is the address of the function, which is not called. -/
def pid {A : Type} (E : Env) : List A → Res Nat
  | [] => .ok E.idFunction
  | _ => .argumentError

/-! ## Helpers -/

theorem frac_le (R : Rounding) (n : Nat) (h : n ≤ 10 ^ 9) : 0 ≤ R.rnd (R.rnd n / 10 ^ 9) ∧ R.rnd (R.rnd n / 10 ^ 9) ≤ 1 := by
  have h0 : R.rnd 0 = 0 := by simpa using R.int 0 (by norm_num)
  have h1 : R.rnd 1 = 1 := by simpa using R.int 1 (by norm_num)
  have hn : R.rnd n = n := R.int n (le_trans h (by norm_num))
  have hq : (n : ℚ) ≤ 10 ^ 9 := by exact_mod_cast h
  rw [hn]
  refine ⟨?_, ?_⟩
  · rw [← h0]
    exact R.mono (by positivity)
  · rw [← h1]
    refine R.mono ?_
    rw [div_le_one (by norm_num)]
    exact hq

theorem secs (R : Rounding) {d : Nat} (h : d < 2 ^ 53 * 10 ^ 9) : R.rnd (d / 10 ^ 9 : Nat) = (d / 10 ^ 9 : Nat) :=
  R.int _ (by omega)

theorem between (R : Rounding) {d : Nat} (h : d < 2 ^ 53 * 10 ^ 9) :
    ((d / 10 ^ 9 : Nat) : ℚ) ≤ as_secs_f64 R d ∧ as_secs_f64 R d ≤ ((d / 10 ^ 9 + 1 : Nat) : ℚ) := by
  obtain ⟨f1, f2⟩ := frac_le R (d % 10 ^ 9) (by omega)
  have a := secs R h
  have b := R.int (d / 10 ^ 9 + 1) (by omega)
  unfold as_secs_f64
  constructor
  · conv_lhs => rw [← a]
    refine R.mono ?_
    rw [a]
    linarith
  · rw [← b]
    refine R.mono ?_
    rw [a]
    push_cast
    linarith

/-! ## C131 -/

/-- The clock never goes back, and tells the second: between two readings that are in order, of a process that runs for less
than 2^53 seconds. -/
theorem C131_clock_partial {A : Type} (R : Rounding) {start t u : Nat} (h : t ≤ u) (hu : u - start < 2 ^ 53 * 10 ^ 9) (a b : A) :
    ∃ x y, clock_gettime R start t [a] = .ok x ∧ clock_gettime R start u [b] = .ok y ∧ x ≤ y ∧
      ((u - start) / 10 ^ 9 : Nat) ≤ y ∧ y ≤ ((u - start) / 10 ^ 9 + 1 : Nat) := by
  refine ⟨_, _, rfl, rfl, ?_, between R hu⟩
  generalize hd : t - start = d
  generalize he : u - start = e at hu
  have hde : d ≤ e := by omega
  rcases Nat.lt_or_ge (d / 10 ^ 9) (e / 10 ^ 9) with q | q
  · have h1 := (between R (d := d) (by omega)).2
    have h2 := (between R hu).1
    have h3 : ((d / 10 ^ 9 + 1 : Nat) : ℚ) ≤ ((e / 10 ^ 9 : Nat) : ℚ) := by exact_mod_cast q
    linarith
  · have : d / 10 ^ 9 = e / 10 ^ 9 := by omega
    unfold as_secs_f64
    rw [this]
    refine R.mono ?_
    have m : d % 10 ^ 9 ≤ e % 10 ^ 9 := by omega
    have k : R.rnd (R.rnd (d % 10 ^ 9 : Nat) / 10 ^ 9) ≤ R.rnd (R.rnd (e % 10 ^ 9 : Nat) / 10 ^ 9) := by
      refine R.mono ?_
      have : R.rnd (d % 10 ^ 9 : Nat) ≤ R.rnd (e % 10 ^ 9 : Nat) := R.mono (by exact_mod_cast m)
      exact div_le_div_of_nonneg_right this (by norm_num)
    linarith

/-- A difference of a second or more is seen: the clock does not stand. -/
theorem C131_runs {A : Type} (R : Rounding) {start t u : Nat} (hs : start ≤ t) (h : t + 2 * 10 ^ 9 ≤ u)
    (hu : u - start < 2 ^ 53 * 10 ^ 9) (a b : A) {x y : ℚ} (hx : clock_gettime R start t [a] = .ok x)
    (hy : clock_gettime R start u [b] = .ok y) : x + 1 ≤ y := by
  cases hx
  cases hy
  have h1 := (between R (d := t - start) (by omega)).2
  have h2 := (between R hu).1
  have h3 : (((t - start) / 10 ^ 9 + 2 : Nat) : ℚ) ≤ (((u - start) / 10 ^ 9 : Nat) : ℚ) := by
    exact_mod_cast (show (t - start) / 10 ^ 9 + 2 ≤ (u - start) / 10 ^ 9 by omega)
  push_cast at h1 h3
  linarith

/-- Other numbers of arguments are errors. -/
theorem C131_arguments {A : Type} (R : Rounding) (E : Env) (start now : Nat) (l : List A) :
    (clock_gettime R start now l = .argumentError ↔ l.length ≠ 1) ∧ (pid E l = .argumentError ↔ l.length ≠ 0) := by
  match l with
  | [] => simp [clock_gettime, pid]
  | [_] => simp [clock_gettime, pid]
  | _ :: _ :: _ => simp [clock_gettime, pid]

/-- **C131** (violated).  `Process.pid` is not the number of the process: whatever number the system gave the process, the
answer is the same. -/
theorem C131_pid_fails {A : Type} (E : Env) (n : Nat) :
    pid { E with pid := n } ([] : List A) = pid E ([] : List A) ∧ (pid E ([] : List A) = .ok E.pid ↔ E.idFunction = E.pid) := by
  simp [pid]

/-- **C131** (violated).  All clocks are the same: `Process.clock_gettime` gives the time since the interpreter was started also
for the clock of the day, and for what is no clock, where Ruby raises an error. -/
theorem C131_which_fails {A : Type} (R : Rounding) (start now : Nat) (a b : A) :
    clock_gettime R start now [a] = clock_gettime R start now [b] ∧ clock_gettime R start now [a] ≠ .argumentError := by
  simp [clock_gettime]

/-! ## Instances -/

/-- Exact arithmetic is such a rounding; a second and a half after the start. -/
example : clock_gettime ⟨id, id, fun _ _ => rfl⟩ 500000000 2000000000 [()] = .ok (3 / 2) := by
  norm_num [clock_gettime, as_secs_f64]

/-- So is one that loses the fractions. -/
example : (⟨fun q => (⌊q⌋ : ℤ), fun h => by exact_mod_cast Int.floor_mono h, fun n _ => by simp⟩ : Rounding).rnd (3 / 2) = 1 := by
  norm_num

end Verif.Process
