import Verif.Float.Div
/-! # C112: times

Model of `builtin/time.rs`.  Dates are left to the library chrono: it is taken to count days of the Gregorian calendar
(`dayNumber`, `toDate`) between two limits, and to keep an instant as a count of nanoseconds. -/
namespace Verif.Time

open Verif.Value (Word)
open Verif.Float

/-! ## The calendar -/

/-- The leap years of the Gregorian calendar. -/
def leap (y : Int) : Prop := y % 4 = 0 ∧ (y % 100 ≠ 0 ∨ y % 400 = 0)

instance (y : Int) : Decidable (leap y) := by unfold leap; infer_instance

/-- The number of days of a month. -/
def monthLength (y : Int) : Nat → Int
  | 2 => if leap y then 29 else 28
  | 4 | 6 | 9 | 11 => 30
  | _ => 31

/-- There is such a date. -/
def Valid (y : Int) (m : Nat) (d : Int) : Prop := 1 ≤ m ∧ m ≤ 12 ∧ 1 ≤ d ∧ d ≤ monthLength y m

instance (y : Int) (m : Nat) (d : Int) : Decidable (Valid y m d) := by unfold Valid; infer_instance

/-- The next date. -/
def nextDay (y : Int) (m : Nat) (d : Int) : Int × Nat × Int :=
  if d < monthLength y m then (y, m, d + 1) else if m < 12 then (y, m + 1, 1) else (y + 1, 1, 1)

/-! ## Model -/

/-- The days before the first of January (chrono, `NaiveDate`). -/
def beforeYear (y : Int) : Int := 365 * y + (y + 3) / 4 - (y + 99) / 100 + (y + 399) / 400

/-- The days of the year before the first of a month. -/
def beforeMonth (y : Int) : Nat → Int
  | 0 => 0
  | 1 => 0
  | m + 1 => beforeMonth y m + monthLength y m

/-- The number of a date (chrono, `NaiveDate::num_days_from_ce` up to a constant). -/
def dayNumber (y : Int) (m : Nat) (d : Int) : Int := beforeYear y + beforeMonth y m + d - 1

/-- The last month up to `m` that begins by the day `r` of the year. -/
def monthOf (y : Int) (r : Int) : Nat → Nat
  | 0 => 1
  | m + 1 => if beforeMonth y (m + 1) ≤ r then m + 1 else monthOf y r m

/-- The year of a day number. -/
def yearOf (n : Int) : Int :=
  let y := 400 * n / 146097
  if n < beforeYear y then y - 1 else if beforeYear (y + 1) ≤ n then y + 1 else y

/-- The date with a number (chrono, `Datelike::{year, month, day}`). -/
def toDate (n : Int) : Int × Nat × Int :=
  let y := yearOf n
  let r := n - beforeYear y
  let m := monthOf y r 12
  (y, m, r - beforeMonth y m + 1)

/-- `TimeInfo` (builtin/time.rs:4-8): an instant, in nanoseconds since the day with number 0, and how it is shown. -/
inductive Zone
  | loc
  | utc
  deriving DecidableEq

@[inherit_doc Zone]
structure Time where
  zone : Zone
  ns : Int
  deriving DecidableEq

/-- The years for which chrono has dates. -/
structure Limits where
  lo : Int
  hi : Int

/-- How a call can end without an answer. -/
inductive Stop
  | argument
  | panic
  deriving DecidableEq

/-- The nanoseconds of a day, of an hour, of a second. -/
def dayNs : Int := 86400 * 10 ^ 9
def hourNs : Int := 3600 * 10 ^ 9
def secNs : Int := 10 ^ 9

/-- `i as i32`. -/
def asI32 (i : Int) : Int := (BitVec.ofInt 32 i).toInt
/-- `i as u32`. -/
def asU32 (i : Int) : Nat := (BitVec.ofInt 32 i).toNat

/-- `NaiveDate::from_ymd_opt`. -/
def from_ymd (L : Limits) (y : Int) (m d : Nat) : Option Int :=
  if L.lo ≤ y ∧ y ≤ L.hi ∧ Valid y m d then some (dayNumber y m d) else none

/-- `NaiveDate::and_hms_micro_opt`: the nanoseconds of the day.  Simplified: chrono takes a million microseconds and more at
second 59 for a leap second; here it is refused. -/
def and_hms_micro (h min s us : Nat) : Option Int :=
  if h < 24 ∧ min < 60 ∧ s < 60 ∧ us < 10 ^ 6 then some (h * hourNs + min * (60 * secNs) + s * secNs + us * 1000) else none

/-- The arguments that were not given (builtin/time.rs:84-139). -/
def fields : List Int → Except Stop (Int × Int × Int × Int × Int × Int × Int)
  | [y] => .ok (y, 1, 1, 0, 0, 0, 0)
  | [y, m] => .ok (y, m, 1, 0, 0, 0, 0)
  | [y, m, d] => .ok (y, m, d, 0, 0, 0, 0)
  | [y, m, d, h] => .ok (y, m, d, h, 0, 0, 0)
  | [y, m, d, h, min] => .ok (y, m, d, h, min, 0, 0)
  | [y, m, d, h, min, s] => .ok (y, m, d, h, min, s, 0)
  | [y, m, d, h, min, s, us] => .ok (y, m, d, h, min, s, us)
  | _ => .error .panic

/-- `Time.utc` and `Time.gm` (builtin/time.rs:82-147), for arguments that are integers of 64 bits (floats are truncated before). -/
def time_utc (L : Limits) (args : List Int) : Except Stop Time :=
  if args.length < 1 ∨ 8 < args.length then .error .argument
  else do
    let (y, m, d, h, min, s, us) ← fields args
    match from_ymd L (asI32 y) (asU32 m) (asU32 d) with
    | none => .error .argument
    | some n =>
      match and_hms_micro (asU32 h) (asU32 min) (asU32 s) (asU32 us) with
      | none => .error .argument
      | some t => .ok ⟨.utc, n * dayNs + t⟩

/-- `Time#utc` and `Time#gmtime` (builtin/time.rs:172-180): what the receiver becomes. -/
def utc (t : Time) : Time := { t with zone := .utc }

/-- `DateTime + Duration` and `DateTime - Duration` (builtin/time.rs:31-49), with the duration `d` in nanoseconds: chrono panics outside
its dates. -/
def shift (L : Limits) (t : Time) (d : Int) : Except Stop Time :=
  if beforeYear L.lo ≤ (t.ns + d) / dayNs ∧ (t.ns + d) / dayNs < beforeYear (L.hi + 1) then .ok { t with ns := t.ns + d }
  else .error .panic

/-- `Duration::seconds`: it panics beyond `i64::MAX` milliseconds. -/
def seconds (i : Int) : Except Stop Int :=
  if |i| ≤ (2 ^ 63 - 1) / 1000 then .ok (i * secNs) else .error .panic

/-- `a * b` (IEEE 754). -/
def fmul (R : Nearest) : F64 → F64 → F64
  | .nan, _ => .nan
  | _, .nan => .nan
  | .inf a, .inf b => .inf (xor a b)
  | .inf a, .fin b m _ => if m = 0 then .nan else .inf (xor a b)
  | .fin a m _, .inf b => if m = 0 then .nan else .inf (xor a b)
  | .fin a m e, .fin b m' e' => R.round (rat a m e * rat b m' e')

/-- 1000.0 -/
def thousand : F64 := .fin false 1000 0

/-- `(f * 1000.0 * 1000.0 * 1000.0) as i64` (builtin/time.rs:196, 231). -/
def offset (R : Nearest) (f : F64) : Int := as_i64 (fmul R (fmul R (fmul R f thousand) thousand) thousand)

/-- `Time#+` (builtin/time.rs:216-237), for a number. -/
def add (R : Nearest) (L : Limits) (t : Time) : Num → Except Stop Time
  | .int i => do shift L t (← seconds i)
  | .flo w => shift L t (offset R (decode w))

/-- `Time#-` for a number (builtin/time.rs:190-199). -/
def subNum (R : Nearest) (L : Limits) (t : Time) : Num → Except Stop Time
  | .int i => do shift L t (-(← seconds i))
  | .flo w => shift L t (-offset R (decode w))

/-- `Time#-` for a time (builtin/time.rs:19-29, 201-205): `num_nanoseconds` is `None` if the count does not fit an `i64`. -/
def subTime (R : Nearest) (t u : Time) : Except Stop F64 :=
  let d := t.ns - u.ns
  if -2 ^ 63 ≤ d ∧ d < 2 ^ 63 then .ok (fquo R (fquo R (fquo R (ofInt d) thousand) thousand) thousand) else .error .panic

/-- The day that is shown: local times are nine hours ahead (builtin/time.rs:74). -/
def shownDay (t : Time) : Int :=
  match t.zone with
  | .utc => t.ns / dayNs
  | .loc => (t.ns + 9 * hourNs) / dayNs

/-- `Time#year`, `Time#month` and `Time#day` (builtin/time.rs:241-271). -/
def year (t : Time) : Int := (toDate (shownDay t)).1
def month (t : Time) : Nat := (toDate (shownDay t)).2.1
def day (t : Time) : Int := (toDate (shownDay t)).2.2

/-- `==` (value/value.rs:113, vm/executor/ops.rs:420; `PartialEq` derived at builtin/time.rs:4). -/
def eq (t u : Time) : Bool := decide (t.zone = u.zone) && decide (t.ns = u.ns)

/-! ## Helpers: the calendar -/

theorem beforeYear_next (y : Int) : beforeYear (y + 1) = beforeYear y + if leap y then 366 else 365 := by
  by_cases h : leap y
  · rw [if_pos h]; unfold leap at h; unfold beforeYear; omega
  · rw [if_neg h]; unfold leap at h; unfold beforeYear; omega

theorem beforeYear_mono {a b : Int} (h : a < b) : beforeYear a < beforeYear b := by
  unfold beforeYear; omega

theorem year_total (y : Int) : beforeMonth y 12 + monthLength y 12 = if leap y then 366 else 365 := by
  simp only [beforeMonth, monthLength]; split <;> norm_num

theorem yearOf_spec (n : Int) : beforeYear (yearOf n) ≤ n ∧ n < beforeYear (yearOf n + 1) := by
  unfold yearOf
  simp only
  split
  · rename_i h
    refine ⟨?_, by simpa using h⟩
    unfold beforeYear at *; omega
  · split
    · rename_i h1 h2
      refine ⟨h2, ?_⟩
      unfold beforeYear at *; omega
    · rename_i h1 h2
      omega

theorem yearOf_unique {n y : Int} (h1 : beforeYear y ≤ n) (h2 : n < beforeYear (y + 1)) : yearOf n = y := by
  obtain ⟨a, b⟩ := yearOf_spec n
  rcases lt_trichotomy (yearOf n) y with h | h | h
  · exfalso
    rcases eq_or_lt_of_le (show yearOf n + 1 ≤ y by omega) with e | e
    · rw [e] at b; omega
    · have := beforeYear_mono e; omega
  · exact h
  · exfalso
    rcases eq_or_lt_of_le (show y + 1 ≤ yearOf n by omega) with e | e
    · rw [← e] at a; omega
    · have := beforeYear_mono e; omega

theorem monthLength_pos (y : Int) (m : Nat) : 1 ≤ monthLength y m := by
  unfold monthLength; split <;> try split
  all_goals norm_num

theorem beforeMonth_succ (y : Int) {m : Nat} (h : 1 ≤ m) : beforeMonth y (m + 1) = beforeMonth y m + monthLength y m := by
  cases m with
  | zero => omega
  | succ m => rfl

theorem beforeMonth_mono (y : Int) {a : Nat} (ha : 1 ≤ a) : ∀ {b : Nat}, a < b → beforeMonth y a + monthLength y a ≤ beforeMonth y b
  | b + 1, h => by
    rcases Nat.eq_or_lt_of_le (Nat.le_of_lt_succ h) with e | e
    · subst e; rw [beforeMonth_succ y ha]
    · have := beforeMonth_mono y ha e
      rw [beforeMonth_succ y (by omega : 1 ≤ b)]
      have := monthLength_pos y b
      omega

theorem monthOf_unique (y r : Int) {m : Nat} (hm : 1 ≤ m) (h1 : beforeMonth y m ≤ r) (h2 : r < beforeMonth y m + monthLength y m) :
    ∀ {k : Nat}, m ≤ k → monthOf y r k = m
  | 0, h => by omega
  | k + 1, h => by
    rw [monthOf]
    rcases Nat.eq_or_lt_of_le h with e | e
    · subst e; rw [if_pos h1]
    · rw [if_neg, monthOf_unique y r hm h1 h2 (Nat.le_of_lt_succ e)]
      have := beforeMonth_mono y hm e
      omega

theorem monthOf_spec (y r : Int) (h0 : 0 ≤ r) (k : Nat) (hk : 1 ≤ k) (h : r < beforeMonth y k + monthLength y k) :
    1 ≤ monthOf y r k ∧ monthOf y r k ≤ k ∧ beforeMonth y (monthOf y r k) ≤ r ∧
      r < beforeMonth y (monthOf y r k) + monthLength y (monthOf y r k) := by
  induction k with
  | zero => omega
  | succ k ih =>
    rw [monthOf]
    split
    · rename_i c; exact ⟨by omega, Nat.le_refl _, c, h⟩
    · rename_i c
      rcases k with _ | k
      · exact absurd h0 c
      · have e : beforeMonth y (k + 1 + 1) = beforeMonth y (k + 1) + monthLength y (k + 1) := rfl
        have := ih (by omega) (by omega)
        exact ⟨this.1, by omega, this.2.2⟩

theorem day_in_year {y : Int} {m : Nat} {d : Int} (h : Valid y m d) :
    beforeYear y ≤ dayNumber y m d ∧ dayNumber y m d < beforeYear (y + 1) := by
  obtain ⟨h1, h2, h3, h4⟩ := h
  have hp : 0 ≤ beforeMonth y m := by
    rcases Nat.eq_or_lt_of_le h1 with e | e
    · subst e; simp [beforeMonth]
    · have := beforeMonth_mono y (le_refl 1) e
      have := monthLength_pos y 1
      simp only [beforeMonth] at *; omega
  have hl : beforeMonth y m + monthLength y m ≤ beforeMonth y 12 + monthLength y 12 := by
    rcases Nat.eq_or_lt_of_le h2 with e | e
    · subst e; exact le_refl _
    · have := beforeMonth_mono y h1 e
      have := monthLength_pos y 12
      omega
  rw [year_total] at hl
  rw [beforeYear_next]
  unfold dayNumber
  omega

theorem toDate_dayNumber {y : Int} {m : Nat} {d : Int} (h : Valid y m d) : toDate (dayNumber y m d) = (y, m, d) := by
  have hy := yearOf_unique (day_in_year h).1 (day_in_year h).2
  obtain ⟨h1, h2, h3, h4⟩ := h
  have hr : dayNumber y m d - beforeYear y = beforeMonth y m + d - 1 := by unfold dayNumber; omega
  have hm := monthOf_unique y (beforeMonth y m + d - 1) h1 (by omega) (by omega) h2
  simp only [toDate, hy, hr, hm]
  congr 2; omega

theorem toDate_spec (n : Int) : Valid (toDate n).1 (toDate n).2.1 (toDate n).2.2 ∧
    dayNumber (toDate n).1 (toDate n).2.1 (toDate n).2.2 = n := by
  obtain ⟨h1, h2⟩ := yearOf_spec n
  rw [beforeYear_next, ← year_total] at h2
  obtain ⟨a, b, c, d⟩ := monthOf_spec (yearOf n) (n - beforeYear (yearOf n)) (by omega) 12 (by omega) (by omega)
  simp only [toDate]
  refine ⟨⟨a, b, by omega, by omega⟩, ?_⟩
  unfold dayNumber; omega

theorem dayNumber_next {y : Int} {m : Nat} {d : Int} (h : Valid y m d) :
    Valid (nextDay y m d).1 (nextDay y m d).2.1 (nextDay y m d).2.2 ∧
    dayNumber (nextDay y m d).1 (nextDay y m d).2.1 (nextDay y m d).2.2 = dayNumber y m d + 1 := by
  obtain ⟨h1, h2, h3, h4⟩ := h
  unfold nextDay
  split
  · rename_i c
    refine ⟨⟨h1, h2, by simp only; omega, by simp only; omega⟩, ?_⟩
    simp only [dayNumber]; omega
  · split
    · rename_i c e
      refine ⟨⟨by simp only; omega, by simp only; omega, le_refl _, monthLength_pos _ _⟩, ?_⟩
      have := beforeMonth_succ y h1
      simp only [dayNumber, this]; omega
    · rename_i c e
      have e : m = 12 := by omega
      subst e
      refine ⟨⟨by simp, by simp, le_refl _, monthLength_pos _ _⟩, ?_⟩
      have := beforeYear_next y
      have := year_total y
      simp only [dayNumber, beforeMonth] at *
      omega

theorem toDate_next (n : Int) : toDate (n + 1) = nextDay (toDate n).1 (toDate n).2.1 (toDate n).2.2 := by
  obtain ⟨h1, h2⟩ := toDate_spec n
  obtain ⟨h3, h4⟩ := dayNumber_next h1
  rw [h2] at h4
  have := toDate_dayNumber h3
  rw [h4] at this
  exact this

/-! ## Specification -/

/-- The seven fields that the arguments of `Time.utc` give: those that are missing are 1, 1, 0, 0, 0, 0. -/
def Gives (args : List Int) (y : Int) (m : Nat) (d : Int) (h min s us : Nat) : Prop :=
  1 ≤ args.length ∧ args ++ [1, 1, 0, 0, 0, 0].drop (args.length - 1) = [y, (m : Int), d, (h : Int), (min : Int), (s : Int), (us : Int)]

/-- There is such a time of the day. -/
def Clock (h min s us : Nat) : Prop := h < 24 ∧ min < 60 ∧ s < 60 ∧ us < 10 ^ 6

/-- The date that is shown. -/
def date (t : Time) : Int × Nat × Int := (year t, month t, day t)

/-- The date after `k` days. -/
def daysLater : Nat → Int × Nat × Int → Int × Nat × Int
  | 0, x => x
  | k + 1, x => daysLater k (nextDay x.1 x.2.1 x.2.2)

/-- The instant is one for which the library has a date. -/
def InRange (L : Limits) (t : Time) : Prop := beforeYear L.lo ≤ t.ns / dayNs ∧ t.ns / dayNs < beforeYear (L.hi + 1)

/-- A number of seconds, a multiple of 1/512, so small that its nanoseconds are a float. -/
def Plain (q : ℚ) : Prop := ∃ (a : Int) (j : Nat), q = a / 2 ^ j ∧ j ≤ 9 ∧ |a| * 5 ^ 9 < 2 ^ 53

/-! ## Helpers -/

theorem asI32_id {y : Int} (h1 : -2 ^ 31 ≤ y) (h2 : y < 2 ^ 31) : asI32 y = y := by
  rw [asI32, BitVec.toInt_ofInt, Int.bmod_def]; omega

theorem asU32_id {m : Nat} (h : m < 2 ^ 32) : asU32 m = m := by
  rw [asU32, BitVec.toNat_ofInt]; omega

theorem fields_spec {args : List Int} {y m d h min s us} (g : Gives args y m d h min s us) :
    fields args = .ok (y, (m : Int), d, (h : Int), (min : Int), (s : Int), (us : Int)) ∧ args.length ≤ 7 := by
  obtain ⟨g1, g2⟩ := g
  rcases args with _ | ⟨a, _ | ⟨b, _ | ⟨c, _ | ⟨e, _ | ⟨f, _ | ⟨k, _ | ⟨l, _ | ⟨x, r⟩⟩⟩⟩⟩⟩⟩⟩
  · simp at g1
  all_goals simp [fields] at g2 ⊢
  all_goals first | exact g2 | (obtain ⟨h1, h2, h3, h4, h5, h6, h7⟩ := g2; simp_all)

theorem time_utc_spec {L : Limits} {args : List Int} {y m d h min s us} (g : Gives args y m d h min s us) (hy : L.lo ≤ y ∧ y ≤ L.hi)
    (hw : -2 ^ 31 ≤ y ∧ y < 2 ^ 31) (hv : Valid y m d) (hc : Clock h min s us) :
    time_utc L args = .ok ⟨.utc, dayNumber y m d * dayNs + (h * hourNs + min * (60 * secNs) + s * secNs + us * 1000)⟩ := by
  obtain ⟨e, hl⟩ := fields_spec g
  obtain ⟨c1, c2, c3, c4⟩ := hc
  have g1 := g.1
  have hm := hv.2.1
  have hd : d ≤ 31 := by
    have h4 := hv.2.2.2
    have : monthLength y m ≤ 31 := by unfold monthLength; split <;> try split
                                      all_goals norm_num
    omega
  have hd0 := hv.2.2.1
  obtain ⟨d, rfl⟩ := Int.eq_ofNat_of_zero_le (show 0 ≤ d by omega)
  rw [time_utc, if_neg (by omega), e]
  show (match from_ymd L (asI32 y) (asU32 m) (asU32 d) with
    | none => Except.error Stop.argument
    | some n => match and_hms_micro (asU32 h) (asU32 min) (asU32 s) (asU32 us) with
      | none => Except.error Stop.argument
      | some t => Except.ok (Time.mk .utc (n * dayNs + t))) = _
  rw [asI32_id hw.1 hw.2, asU32_id (by omega), asU32_id (by omega), asU32_id (by omega), asU32_id (by omega), asU32_id (by omega),
    asU32_id (by omega), from_ymd, if_pos ⟨hy.1, hy.2, hv⟩, and_hms_micro, if_pos ⟨c1, c2, c3, c4⟩]

theorem clock_range {h min s us : Nat} (hc : Clock h min s us) :
    (0 : Int) ≤ h * hourNs + min * (60 * secNs) + s * secNs + us * 1000 ∧
      (h * hourNs + min * (60 * secNs) + s * secNs + us * 1000 : Int) < dayNs := by
  obtain ⟨c1, c2, c3, c4⟩ := hc
  unfold hourNs secNs dayNs
  constructor <;> omega

theorem day_of {n r : Int} (h0 : 0 ≤ r) (h1 : r < dayNs) : (n * dayNs + r) / dayNs = n := by
  unfold dayNs at *; omega

theorem shift_spec {L : Limits} {t u : Time} {k : Int} (h : shift L t k = .ok u) : u = { t with ns := t.ns + k } ∧ InRange L u := by
  unfold shift at h
  split at h
  · rename_i c; cases h; exact ⟨rfl, c⟩
  · cases h

theorem shift_back {L : Limits} {t u : Time} {k : Int} (h : shift L t k = .ok u) (ht : InRange L t) : shift L u (-k) = .ok t := by
  obtain ⟨rfl, -⟩ := shift_spec h
  unfold shift
  have e : t.ns + k + -k = t.ns := by omega
  simp only [e]
  exact if_pos ht

theorem seconds_spec {i k : Int} (h : seconds i = .ok k) : k = i * secNs := by
  unfold seconds at h
  split at h
  · cases h; rfl
  · cases h

theorem thousand_is : Is thousand 1000 := ⟨_, _, _, rfl, by norm_num [rat]⟩

theorem fmul_spec (R : Nearest) {x y : F64} {p q : ℚ} (hx : Is x p) (hy : Is y q) (h : IsFloat (p * q)) : Is (fmul R x y) (p * q) := by
  obtain ⟨n, m, e, rfl, rfl⟩ := hx
  obtain ⟨n', m', e', rfl, rfl⟩ := hy
  exact R.exact _ h

theorem fquo_exact (R : Nearest) {x y : F64} {p q : ℚ} (hx : Is x p) (hy : Is y q) (hq : q ≠ 0) (h : IsFloat (p / q)) :
    Is (fquo R x y) (p / q) := by
  rw [fquo_spec R hx hy hq]
  exact R.exact _ h

theorem plain_float {a : Int} {j : Nat} (i : Nat) (hi : i ≤ 9) (hj : j ≤ 9) (ha : |a| * 5 ^ 9 < 2 ^ 53) :
    IsFloat ((a : ℚ) / 2 ^ j * 10 ^ i) := by
  refine ⟨a * 5 ^ i, (i : Int) - j, ?_, ?_, by omega, by omega⟩
  · rw [zpow_sub₀ (by norm_num : (2 : ℚ) ≠ 0), zpow_natCast, zpow_natCast, show (10 : ℚ) = 5 * 2 by norm_num, mul_pow]
    push_cast
    field_simp
  · rw [abs_mul, abs_of_nonneg (by positivity : (0 : Int) ≤ 5 ^ i)]
    refine lt_of_le_of_lt ?_ ha
    exact mul_le_mul_of_nonneg_left (pow_le_pow_right₀ (by norm_num) hi) (abs_nonneg _)

/-- The nanoseconds. -/
theorem plain_ns {a : Int} {j : Nat} (hj : j ≤ 9) : ((a * 5 ^ 9 * 2 ^ (9 - j) : Int) : ℚ) = (a : ℚ) / 2 ^ j * 10 ^ 9 := by
  have : (2 : ℚ) ^ 9 = 2 ^ j * 2 ^ (9 - j) := by rw [← pow_add]; congr 1; omega
  push_cast
  rw [show (10 : ℚ) ^ 9 = 5 ^ 9 * 2 ^ 9 by norm_num, this]
  field_simp
  norm_num

theorem plain_small {a : Int} {j : Nat} (ha : |a| * 5 ^ 9 < 2 ^ 53) : |a * 5 ^ 9 * 2 ^ (9 - j)| < 2 ^ 62 := by
  rw [abs_mul, abs_mul, abs_of_nonneg (by positivity : (0 : Int) ≤ 5 ^ 9), abs_of_nonneg (by positivity : (0 : Int) ≤ 2 ^ (9 - j))]
  calc |a| * 5 ^ 9 * 2 ^ (9 - j) ≤ |a| * 5 ^ 9 * 2 ^ 9 :=
        mul_le_mul_of_nonneg_left (pow_le_pow_right₀ (by norm_num) (by omega)) (by positivity)
    _ < 2 ^ 53 * 2 ^ 9 := by linarith
    _ = 2 ^ 62 := by norm_num

theorem offset_spec (R : Nearest) {f : F64} {a : Int} {j : Nat} (hf : Is f (a / 2 ^ j)) (hj : j ≤ 9) (ha : |a| * 5 ^ 9 < 2 ^ 53) :
    offset R f = a * 5 ^ 9 * 2 ^ (9 - j) := by
  have e1 : (a : ℚ) / 2 ^ j * 10 ^ 3 = a / 2 ^ j * 1000 := by norm_num
  have e2 : (a : ℚ) / 2 ^ j * 10 ^ 6 = a / 2 ^ j * 1000 * 1000 := by ring
  have e3 : (a : ℚ) / 2 ^ j * 10 ^ 9 = a / 2 ^ j * 1000 * 1000 * 1000 := by ring
  have h1 := fmul_spec R hf thousand_is (e1 ▸ plain_float 3 (by omega) hj ha)
  have h2 := fmul_spec R h1 thousand_is (e2 ▸ plain_float 6 (by omega) hj ha)
  have h3 := fmul_spec R h2 thousand_is (e3 ▸ plain_float 9 (by omega) hj ha)
  rw [← e3, ← plain_ns hj] at h3
  obtain ⟨n, m, e, h, hr⟩ := h3
  have hs := plain_small (j := j) ha
  rw [abs_lt] at hs
  rw [offset, h, as_i64, hr]
  have : truncRat ((a * 5 ^ 9 * 2 ^ (9 - j) : Int) : ℚ) = a * 5 ^ 9 * 2 ^ (9 - j) := by
    unfold truncRat
    split
    · exact Int.floor_intCast _
    · exact Int.ceil_intCast _
  rw [this]
  exact clamp_id ⟨by omega, by omega⟩

theorem subTime_spec (R : Nearest) {t u : Time} {q : ℚ} (hq : Plain q) (h : ((t.ns - u.ns : Int) : ℚ) = q * 10 ^ 9) :
    ∃ z, subTime R t u = .ok z ∧ Is z q := by
  obtain ⟨a, j, rfl, hj, ha⟩ := hq
  have e : t.ns - u.ns = a * 5 ^ 9 * 2 ^ (9 - j) := by
    rw [← plain_ns hj] at h
    exact_mod_cast h
  have hs := plain_small (j := j) ha
  rw [abs_lt] at hs
  have h9 : Is (ofInt (t.ns - u.ns)) ((a : ℚ) / 2 ^ j * 10 ^ 9) := by
    obtain ⟨n, m, k, e, -, g⟩ := ofInt_spec (t.ns - u.ns)
    refine ⟨n, m, k, e, ?_⟩
    have hf : IsFloat ((t.ns - u.ns : Int) : ℚ) := by rw [h]; exact plain_float 9 (by omega) hj ha
    have := (g _ hf).2.2
    rw [sub_self, abs_zero] at this
    have := abs_nonpos_iff.1 this
    rw [← h]; linarith
  have e6 : (a : ℚ) / 2 ^ j * 10 ^ 6 = a / 2 ^ j * 10 ^ 9 / 1000 := by ring
  have e3 : (a : ℚ) / 2 ^ j * 10 ^ 3 = a / 2 ^ j * 10 ^ 9 / 1000 / 1000 := by ring
  have e0 : (a : ℚ) / 2 ^ j = a / 2 ^ j * 10 ^ 9 / 1000 / 1000 / 1000 := by ring
  have h6 := fquo_exact R h9 thousand_is (by norm_num) (e6 ▸ plain_float 6 (by omega) hj ha)
  have h3 := fquo_exact R h6 thousand_is (by norm_num) (e3 ▸ plain_float 3 (by omega) hj ha)
  have h0 := fquo_exact R h3 thousand_is (by norm_num) (e0 ▸ by simpa using plain_float (a := a) 0 (by omega) hj ha)
  rw [← e0] at h0
  refine ⟨_, ?_, h0⟩
  simp only [subTime]
  rw [if_pos ⟨by omega, by omega⟩]

theorem Plain.neg {q : ℚ} (h : Plain q) : Plain (-q) := by
  obtain ⟨a, j, rfl, hj, ha⟩ := h
  exact ⟨-a, j, by push_cast; ring, hj, by rwa [abs_neg]⟩

theorem plain_int {n : Int} (h : |n| * 5 ^ 9 < 2 ^ 53) : Plain n := ⟨n, 0, by simp, by omega, h⟩

theorem daysLater_spec : ∀ (k : Nat) (n : Int), daysLater k (toDate n) = toDate (n + k)
  | 0, n => by simp [daysLater]
  | k + 1, n => by
    rw [daysLater, ← toDate_next, daysLater_spec k (n + 1)]
    congr 1; push_cast; omega

/-! ## C112 -/

/-- `Time.utc` with one to seven arguments that name a date and a time of the day answers a time whose year, month and day are
those.  Partial: the year fits 32 bits (`C112_wrap_fails`), and Ruby takes some dates and times beyond the end
(`C112_carry_fails`). -/
theorem C112_fields_partial (L : Limits) {args : List Int} {y m d h min s us} (g : Gives args y m d h min s us)
    (hy : L.lo ≤ y ∧ y ≤ L.hi) (hw : -2 ^ 31 ≤ y ∧ y < 2 ^ 31) (hv : Valid y m d) (hc : Clock h min s us) :
    ∃ t, time_utc L args = .ok t ∧ year t = y ∧ month t = m ∧ day t = d ∧ InRange L t := by
  refine ⟨_, time_utc_spec g hy hw hv hc, ?_⟩
  have e := day_of (n := dayNumber y m d) (clock_range hc).1 (clock_range hc).2
  have t := toDate_dayNumber hv
  have r := day_in_year hv
  refine ⟨?_, ?_, ?_, ?_⟩
  · simp only [year, shownDay, e, t]
  · simp only [month, shownDay, e, t]
  · simp only [day, shownDay, e, t]
  · simp only [InRange, e]
    have a : beforeYear L.lo ≤ beforeYear y := by
      rcases eq_or_lt_of_le hy.1 with e | e
      · rw [e]
      · exact (beforeYear_mono e).le
    have b : beforeYear (y + 1) ≤ beforeYear (L.hi + 1) := by
      rcases eq_or_lt_of_le hy.2 with e | e
      · rw [e]
      · exact (beforeYear_mono (by omega : y + 1 < L.hi + 1)).le
    omega

/-- The 29th of February 2000, 4:05. -/
example : Gives [2000, 2, 29, 4, 5] 2000 2 29 4 5 0 0 ∧ Valid 2000 2 29 ∧ Clock 4 5 0 0 := by
  refine ⟨⟨by decide, by decide⟩, by decide, by unfold Clock; decide⟩

/-- An hour 24, a day 30 of February and a month 13 are refused with an ArgumentError: no time is made for fields that do not name a date
and a time of the day (a million microseconds and more are not covered: a leap second of the library). -/
theorem C112_refused (L : Limits) {args : List Int} {y m d h min s us} (g : Gives args y m (d : Nat) h min s us)
    (hw : -2 ^ 31 ≤ y ∧ y < 2 ^ 31) (hm : m < 2 ^ 32) (hd : d < 2 ^ 32) (hh : h < 2 ^ 32) (hmin : min < 2 ^ 32) (hs : s < 2 ^ 32)
    (hus : us < 10 ^ 6) (hn : ¬ (Valid y m (d : Nat) ∧ Clock h min s us)) : time_utc L args = .error .argument := by
  obtain ⟨e, hl⟩ := fields_spec g
  have g1 := g.1
  rw [time_utc, if_neg (by omega), e]
  show (match from_ymd L (asI32 y) (asU32 m) (asU32 d) with
    | none => Except.error Stop.argument
    | some n => match and_hms_micro (asU32 h) (asU32 min) (asU32 s) (asU32 us) with
      | none => Except.error Stop.argument
      | some t => Except.ok (Time.mk .utc (n * dayNs + t))) = _
  rw [asI32_id hw.1 hw.2, asU32_id hm, asU32_id hd, asU32_id hh, asU32_id hmin, asU32_id hs, asU32_id (show us < 2 ^ 32 by omega), from_ymd, and_hms_micro]
  by_cases c : L.lo ≤ y ∧ y ≤ L.hi ∧ Valid y m d
  · rw [if_pos c, if_neg (fun k : h < 24 ∧ min < 60 ∧ s < 60 ∧ us < 10 ^ 6 => hn ⟨c.2.2, k⟩)]
  · rw [if_neg c]

/-- The 29th of February 1900. -/
example : Gives [1900, 2, 29] 1900 2 (29 : Nat) 0 0 0 0 ∧ ¬ Valid 1900 2 29 := ⟨⟨by decide, by decide⟩, by decide⟩

/-- Adding a day's seconds shows the next date of the Gregorian calendar, in both zones; adding the seconds of `k` days the date `k`
days later. -/
theorem C112_next_day (R : Nearest) (L : Limits) {t u : Time} (k : Nat) (h : add R L t (.int (86400 * k)) = .ok u) :
    date u = daysLater k (date t) ∧ u.zone = t.zone := by
  rcases hs : seconds (86400 * k) with _ | q
  · simp [add, hs, bind, Except.bind] at h
  have e := seconds_spec hs
  simp only [add, hs, bind, Except.bind] at h
  obtain ⟨rfl, -⟩ := shift_spec h
  have hd : shownDay { t with ns := t.ns + q } = shownDay t + k := by
    subst e
    simp only [shownDay]
    split
    · unfold dayNs secNs; omega
    · unfold dayNs secNs hourNs; omega
  refine ⟨?_, rfl⟩
  have d : ∀ v, date v = toDate (shownDay v) := fun v => rfl
  rw [d, d, hd, daysLater_spec]

/-- From the end of February 1999 to March. -/
example : daysLater 2 (1999, 2, 27) = (1999, 3, 1) ∧ daysLater 2 (2000, 2, 27) = (2000, 2, 29) ∧ daysLater 1 (1999, 12, 31) = (2000, 1, 1) ∧
    toDate (dayNumber 1999 2 27) = (1999, 2, 27) := by decide

/-- `(t + x) - x` is `t` again, and `(t - x) + x` too, for integers and floats. -/
theorem C112_back (R : Nearest) (L : Limits) {t : Time} (ht : InRange L t) (x : Num) :
    (∀ u, add R L t x = .ok u → subNum R L u x = .ok t ∧ InRange L u) ∧
    (∀ u, subNum R L t x = .ok u → add R L u x = .ok t ∧ InRange L u) := by
  constructor <;> intro u h <;> cases x with
  | int i =>
    rcases hs : seconds i with _ | k
    · simp [add, subNum, hs, bind, Except.bind] at h
    · simp only [add, subNum, hs, bind, Except.bind] at h ⊢
      refine ⟨?_, (shift_spec h).2⟩
      have := shift_back h ht
      simpa using this
  | flo w =>
    simp only [add, subNum] at h ⊢
    refine ⟨?_, (shift_spec h).2⟩
    have := shift_back h ht
    simpa using this

/-- `(t + x) - t` is `x` and `t - (t + x)` is `-x`, exactly, for an integer or a float `x` that is a multiple of 1/512; the same for
`t - x`.  Partial: up to 2 ** 53 / 5 ** 9 of these parts (for integers, 146 years); see `C112_fraction_fails` for other floats. -/
theorem C112_difference_partial (R : Nearest) (L : Limits) {t u : Time} {x : Num} {q : ℚ} (hx : Stands x q) (hq : Plain q) :
    (add R L t x = .ok u → ∃ z z', subTime R u t = .ok z ∧ Is z q ∧ subTime R t u = .ok z' ∧ Is z' (-q)) ∧
    (subNum R L t x = .ok u → ∃ z z', subTime R t u = .ok z ∧ Is z q ∧ subTime R u t = .ok z' ∧ Is z' (-q)) := by
  have key : ∀ k, (add R L t x = .ok u → u.ns - t.ns = k) → (subNum R L t x = .ok u → t.ns - u.ns = k) → (k : ℚ) = q * 10 ^ 9 →
      (add R L t x = .ok u → ∃ z z', subTime R u t = .ok z ∧ Is z q ∧ subTime R t u = .ok z' ∧ Is z' (-q)) ∧
      (subNum R L t x = .ok u → ∃ z z', subTime R t u = .ok z ∧ Is z q ∧ subTime R u t = .ok z' ∧ Is z' (-q)) := by
    intro k h1 h2 hk
    constructor
    · intro h
      have e := h1 h
      obtain ⟨z, a, b⟩ := subTime_spec R (t := u) (u := t) hq (by rw [e, hk])
      obtain ⟨z', a', b'⟩ := subTime_spec R (t := t) (u := u) hq.neg (by
        rw [show t.ns - u.ns = -k by omega]; push_cast; rw [hk]; ring)
      exact ⟨z, z', a, b, a', b'⟩
    · intro h
      have e := h2 h
      obtain ⟨z, a, b⟩ := subTime_spec R (t := t) (u := u) hq (by rw [e, hk])
      obtain ⟨z', a', b'⟩ := subTime_spec R (t := u) (u := t) hq.neg (by
        rw [show u.ns - t.ns = -k by omega]; push_cast; rw [hk]; ring)
      exact ⟨z, z', a, b, a', b'⟩
  cases x with
  | int i =>
    have hi : q = i := hx
    refine key (i * secNs) ?_ ?_ (by rw [hi]; norm_num [secNs])
    all_goals
      intro h
      rcases hs : seconds i with _ | k
      · simp [add, subNum, hs, bind, Except.bind] at h
      · have e := seconds_spec hs
        simp only [add, subNum, hs, bind, Except.bind] at h
        obtain ⟨rfl, -⟩ := shift_spec h
        simp only; omega
  | flo w =>
    have hw : Is (decode w) q := hx
    obtain ⟨a, j, rfl, hj, ha⟩ := hq
    have e := offset_spec R hw hj ha
    refine key (a * 5 ^ 9 * 2 ^ (9 - j)) ?_ ?_ (plain_ns hj)
    all_goals
      intro h
      simp only [add, subNum, e] at h
      obtain ⟨rfl, -⟩ := shift_spec h
      simp only; omega

/-- 77.5 seconds and ten years. -/
example : Stands (.flo 0x4053600000000000#64) (155 / 2) ∧ Plain (155 / 2) ∧ Stands (.int 315360000) 315360000 ∧ Plain 315360000 := by
  refine ⟨?_, ⟨155, 1, by norm_num, by norm_num, by norm_num⟩, by simp [Stands], ⟨315360000, 0, by norm_num, by norm_num, by norm_num⟩⟩
  have : decode 0x4053600000000000#64 = .fin false 0x13600000000000 (-46) := by decide +kernel
  exact ⟨_, _, _, this, by norm_num [rat]⟩

/-- A time differs from the time that is `x` seconds later or earlier, however small `x` is, unless `x` is zero.  Partial: as
`C112_difference_partial`; and see `C112_equal_fails` for equality. -/
theorem C112_equal_partial (R : Nearest) (L : Limits) {t u : Time} {x : Num} {q : ℚ} (hx : Stands x q) (hq : Plain q)
    (h : add R L t x = .ok u ∨ subNum R L t x = .ok u) : (eq t u = true ↔ q = 0) ∧ (eq u t = true ↔ q = 0) := by
  have key : ∀ k : Int, (k : ℚ) = q * 10 ^ 9 → u.zone = t.zone ∧ (u.ns - t.ns = k ∨ t.ns - u.ns = k) →
      (eq t u = true ↔ q = 0) ∧ (eq u t = true ↔ q = 0) := by
    intro k hk hu
    have e : (t.ns = u.ns ↔ q = 0) := by
      have : (k = 0 ↔ q = 0) := by
        constructor
        · intro h0
          rw [h0, Int.cast_zero] at hk
          rcases mul_eq_zero.1 hk.symm with h | h
          · exact h
          · norm_num at h
        · intro h0
          rw [h0, zero_mul] at hk
          exact_mod_cast hk
      rw [← this]
      omega
    refine ⟨by simp [eq, hu.1, e], ?_⟩
    rw [← e]
    simp [eq, hu.1, eq_comm]
  cases x with
  | int i =>
    have hi : q = i := hx
    refine key (i * secNs) (by rw [hi]; norm_num [secNs]) ?_
    rcases hs : seconds i with _ | k
    · simp [add, subNum, hs, bind, Except.bind] at h
    · have e := seconds_spec hs
      simp only [add, subNum, hs, bind, Except.bind] at h
      rcases h with h | h <;> obtain ⟨rfl, -⟩ := shift_spec h <;> simp only [true_and] <;> omega
  | flo w =>
    have hw : Is (decode w) q := hx
    obtain ⟨a, j, rfl, hj, ha⟩ := hq
    have e := offset_spec R hw hj ha
    refine key (a * 5 ^ 9 * 2 ^ (9 - j)) (plain_ns hj) ?_
    simp only [add, subNum, e] at h
    rcases h with h | h <;> obtain ⟨rfl, -⟩ := shift_spec h <;> simp only [true_and] <;> omega

/-- Half a second. -/
example : Stands (.flo 0x3fe0000000000000#64) (1 / 2) ∧ Plain (1 / 2) := by
  refine ⟨?_, ⟨1, 1, by norm_num, by norm_num, by norm_num⟩⟩
  have : decode 0x3fe0000000000000#64 = .fin false 0x10000000000000 (-53) := by decide +kernel
  exact ⟨_, _, _, this, by norm_num [rat]⟩

/-- Two times of `Time.utc` are as far apart as the calendar and the clock say. -/
theorem C112_elapsed (R : Nearest) (L : Limits) {args args' : List Int} {y m d h min s y' m' d' h' min' s'} {t u : Time}
    (g : Gives args y m d h min s 0) (g' : Gives args' y' m' d' h' min' s' 0)
    (hy : L.lo ≤ y ∧ y ≤ L.hi) (hw : -2 ^ 31 ≤ y ∧ y < 2 ^ 31) (hv : Valid y m d) (hc : Clock h min s 0)
    (hy' : L.lo ≤ y' ∧ y' ≤ L.hi) (hw' : -2 ^ 31 ≤ y' ∧ y' < 2 ^ 31) (hv' : Valid y' m' d') (hc' : Clock h' min' s' 0)
    (ht : time_utc L args = .ok t) (hu : time_utc L args' = .ok u) (k : Nat) (hk : (y, m, d) = daysLater k (y', m', d'))
    (hs : k < 50000) :
    ∃ z, subTime R t u = .ok z ∧ Is z (86400 * k + 3600 * ((h : Int) - h') + 60 * ((min : Int) - min') + ((s : Int) - s') : Int) := by
  rw [time_utc_spec g hy hw hv hc] at ht
  rw [time_utc_spec g' hy' hw' hv' hc'] at hu
  cases ht; cases hu
  rw [← toDate_dayNumber hv', daysLater_spec] at hk
  have hd : dayNumber y m d = dayNumber y' m' d' + k := by
    have := (toDate_spec (dayNumber y' m' d' + k)).2
    rw [← hk] at this
    exact this
  obtain ⟨c1, c2, c3, -⟩ := hc
  obtain ⟨c1', c2', c3', -⟩ := hc'
  refine subTime_spec R (plain_int ?_) ?_
  · have h1 : |(86400 * k + 3600 * ((h : Int) - h') + 60 * ((min : Int) - min') + ((s : Int) - s') : Int)| ≤ 86400 * 50001 := by
      rw [abs_le]; constructor <;> omega
    calc _ ≤ 86400 * 50001 * (5 : Int) ^ 9 := mul_le_mul_of_nonneg_right h1 (by norm_num)
      _ < 2 ^ 53 := by norm_num
  · rw [show (10 : ℚ) ^ 9 = ((10 ^ 9 : Int) : ℚ) by norm_num, ← Int.cast_mul]
    congr 1
    simp only [hd, dayNs, hourNs, secNs]
    ring

/-- One second from year to year. -/
example : Gives [2000] 2000 1 1 0 0 0 0 ∧ Gives [1999, 12, 31, 23, 59, 59] 1999 12 31 23 59 59 0 ∧
    ((2000 : Int), 1, (1 : Int)) = daysLater 1 (1999, 12, 31) ∧ (86400 * 1 + 3600 * (0 - 23) + 60 * (0 - 59) + (0 - 59) : Int) = 1 := by
  refine ⟨⟨by decide, by decide⟩, ⟨by decide, by decide⟩, by decide, by decide⟩

/-- `t.utc` is the same instant as `t`: it is as far from every other time, adding to it gives the same instants, and it shows the date in
UTC, as a local time shows the date of nine hours later. -/
theorem C112_utc (R : Nearest) (L : Limits) (t : Time) : (utc t).zone = .utc ∧
    (∀ u, subTime R (utc t) u = subTime R t u ∧ subTime R u (utc t) = subTime R u t) ∧
    (∀ x, add R L (utc t) x = (add R L t x).map utc ∧ subNum R L (utc t) x = (subNum R L t x).map utc) ∧
    (t.zone = .utc → utc t = t) ∧
    (t.zone = .loc → ∀ u, add R L (utc t) (.int 32400) = .ok u → date u = date t) := by
  have hs : ∀ k, shift L (utc t) k = (shift L t k).map utc := by
    intro k
    unfold shift utc
    simp only
    split <;> rfl
  refine ⟨rfl, fun u => ⟨rfl, rfl⟩, fun x => ?_, fun h => ?_, fun h u hu => ?_⟩
  · cases x with
    | int i =>
      rcases e : seconds i with _ | k
      · simp [add, subNum, e, bind, Except.bind, Except.map]
      · simp only [add, subNum, e, bind, Except.bind]
        exact ⟨hs _, hs _⟩
    | flo w => exact ⟨hs _, hs _⟩
  · cases t; simp only at h; subst h; rfl
  · have : seconds 32400 = .ok (32400 * secNs) := rfl
    simp only [add, this, bind, Except.bind] at hu
    obtain ⟨rfl, -⟩ := shift_spec hu
    have d : ∀ v, date v = toDate (shownDay v) := fun v => rfl
    rw [d, d]
    simp only [shownDay, h, utc]
    rfl

/-- **Violation**: `Time.utc` lets eight arguments pass and then has no case for them: a Rust panic. -/
theorem C112_eight_fails (L : Limits) : time_utc L [2000, 1, 1, 0, 0, 0, 0, 0] = .error .panic := rfl

/-- **Violation**: `Time.utc(2 ** 32 + 2000)` is a time in the year 2000, and `Time.utc(2000, 2 ** 32 + 3)` one in March: the arguments are
cut to 32 bits. -/
theorem C112_wrap_fails (L : Limits) (h : L.lo ≤ 2000 ∧ 2000 ≤ L.hi) :
    (∃ t, time_utc L [2 ^ 32 + 2000] = .ok t ∧ year t = 2000) ∧
    (∃ t, time_utc L [2000, 2 ^ 32 + 3] = .ok t ∧ date t = (2000, 3, 1)) := by
  have a : time_utc L [2 ^ 32 + 2000] = time_utc L [2000] := rfl
  have b : time_utc L [2000, 2 ^ 32 + 3] = time_utc L [2000, 3] := rfl
  rw [a, b]
  obtain ⟨t, e, hy, -⟩ := C112_fields_partial L (args := [2000]) (y := 2000) (m := 1) (d := 1) (h := 0) (min := 0) (s := 0) (us := 0)
    ⟨by decide, by decide⟩ h (by decide) (by decide) (by unfold Clock; decide)
  obtain ⟨t', e', y', m', d', -⟩ := C112_fields_partial L (args := [2000, 3]) (y := 2000) (m := 3) (d := 1) (h := 0) (min := 0) (s := 0)
    (us := 0) ⟨by decide, by decide⟩ h (by decide) (by decide) (by unfold Clock; decide)
  exact ⟨⟨t, e, hy⟩, t', e', by simp [date, y', m', d']⟩

/-- **Violation**: Ruby takes the hour 24 for midnight and the 29th of February 2001 for the first of March; here they are refused. -/
theorem C112_carry_fails (L : Limits) : time_utc L [2000, 1, 1, 24] = .error .argument ∧ time_utc L [2001, 2, 29] = .error .argument :=
  ⟨C112_refused L (y := 2000) (m := 1) (d := 1) (h := 24) (min := 0) (s := 0) (us := 0) ⟨by decide, by decide⟩ (by decide) (by decide)
    (by decide) (by decide) (by decide) (by decide) (by decide) (fun h => by have := h.2.1; omega),
   C112_refused L (y := 2001) (m := 2) (d := 29) (h := 0) (min := 0) (s := 0) (us := 0) ⟨by decide, by decide⟩ (by decide) (by decide)
    (by decide) (by decide) (by decide) (by decide) (by decide) (fun h => absurd h.1 (by decide))⟩

/-- **Violation**: the difference of two times more than 292 years apart is a Rust panic: `Time.utc(2000) - Time.utc(1700)`. -/
theorem C112_far_fails (R : Nearest) (L : Limits) (h : L.lo ≤ 1700 ∧ 2000 ≤ L.hi) :
    ∃ t u, time_utc L [2000] = .ok t ∧ time_utc L [1700] = .ok u ∧ subTime R t u = .error .panic := by
  refine ⟨_, _, time_utc_spec (y := 2000) (m := 1) (d := 1) (h := 0) (min := 0) (s := 0) (us := 0) ⟨by decide, by decide⟩ ⟨by omega, by omega⟩
    (by decide) (by decide) (by unfold Clock; decide),
    time_utc_spec (y := 1700) (m := 1) (d := 1) (h := 0) (min := 0) (s := 0) (us := 0) ⟨by decide, by decide⟩ ⟨by omega, by omega⟩
    (by decide) (by decide) (by unfold Clock; decide), ?_⟩
  simp only [subTime]
  rw [if_neg (by decide)]

/-- The differences that are given: exactly those of less than 2^63 nanoseconds, about 292 years, in either direction (and
of just -2^63). -/
theorem C112_difference (R : Nearest) (t u : Time) :
    (∃ z, subTime R t u = .ok z) ↔ -2 ^ 63 ≤ t.ns - u.ns ∧ t.ns - u.ns < 2 ^ 63 := by
  by_cases h : -2 ^ 63 ≤ t.ns - u.ns ∧ t.ns - u.ns < 2 ^ 63
  · refine ⟨fun _ => h, fun _ => ?_⟩
    simp only [subTime]
    rw [if_pos h]
    exact ⟨_, rfl⟩
  · refine ⟨fun ⟨z, q⟩ => ?_, fun q => absurd q h⟩
    simp only [subTime] at q
    rw [if_neg h] at q
    cases q

/-- **Violation**: adding an integer beyond the milliseconds of 64 bits is a Rust panic, whatever the time. -/
theorem C112_large_fails (R : Nearest) (L : Limits) (t : Time) : add R L t (.int (2 ^ 60)) = .error .panic := by
  have : seconds (2 ^ 60) = .error .panic := by
    unfold seconds
    rw [if_neg (by norm_num [abs_of_pos])]
  simp only [add, this, bind, Except.bind]

/-- **Violation**: a local time is never equal to a UTC one, although their difference is 0.0. -/
theorem C112_equal_fails (R : Nearest) (t : Time) (h : t.zone = .loc) :
    eq t (utc t) = false ∧ ∃ z, subTime R t (utc t) = .ok z ∧ Is z 0 := by
  refine ⟨by simp [eq, utc, h], ?_⟩
  exact subTime_spec R (q := 0) ⟨0, 0, by simp, by simp, by norm_num⟩ (by simp [utc])

/-- **Violation**: adding the float 2 ** -31 (half a nanosecond) to a time changes nothing, so that `(t + x) - t` is 0.0 and not `x`; Ruby
keeps the exact sum. -/
theorem C112_fraction_fails (R : Nearest) (L : Limits) (t : Time) (ht : InRange L t) :
    Stands (.flo 0x3E00000000000000#64) (1 / 2 ^ 31) ∧ add R L t (.flo 0x3E00000000000000#64) = .ok t := by
  have e : decode 0x3E00000000000000#64 = .fin false (2 ^ 52) (-83) := by decide +kernel
  have hf : Is (decode 0x3E00000000000000#64) (1 / 2 ^ 31) := ⟨_, _, _, e, by norm_num [rat]⟩
  refine ⟨hf, ?_⟩
  have f : ∀ i : Nat, i ≤ 9 → IsFloat ((1 : ℚ) / 2 ^ 31 * 10 ^ i) := by
    intro i hi
    refine ⟨5 ^ i, (i : Int) - 31, ?_, ?_, by omega, by omega⟩
    · rw [zpow_sub₀ (by norm_num : (2 : ℚ) ≠ 0), zpow_natCast, show (10 : ℚ) = 5 * 2 by norm_num, mul_pow]
      push_cast
      norm_num
      ring
    · rw [abs_of_nonneg (by positivity : (0 : Int) ≤ 5 ^ i)]
      exact lt_of_le_of_lt (pow_le_pow_right₀ (by norm_num) hi) (by norm_num)
  have h1 := fmul_spec R hf thousand_is (by have := f 3 (by omega); norm_num at this ⊢; exact this)
  have h2 := fmul_spec R h1 thousand_is (by have := f 6 (by omega); norm_num at this ⊢; exact this)
  have h3 := fmul_spec R h2 thousand_is (by have := f 9 (by omega); norm_num at this ⊢; exact this)
  obtain ⟨n, m, k, h, hr⟩ := h3
  have ho : offset R (decode 0x3E00000000000000#64) = 0 := by
    rw [offset, h, as_i64, hr]
    have : truncRat (1 / 2 ^ 31 * 1000 * 1000 * 1000) = 0 := by
      unfold truncRat
      rw [if_pos (by norm_num), Int.floor_eq_zero_iff]
      norm_num
    rw [this]; decide
  rw [add, ho, shift]
  simp only [add_zero]
  exact if_pos ht

end Verif.Time
