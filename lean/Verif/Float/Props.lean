import Verif.Float.Model
/-! # C105 and C106: floats and integers -/
namespace Verif.Float

open Verif.Value (Word)

/-! ## Helpers -/

theorem float_of (n : Bool) {m : Nat} {e : Int} (hm : m < 2 ^ 53) (h1 : -1074 ≤ e) (h2 : e ≤ 971) : IsFloat (rat n m e) := by
  refine ⟨(if n then -1 else 1) * m, e, ?_, ?_, h1, h2⟩
  · unfold rat; split <;> push_cast <;> ring
  · split <;> simp only [neg_mul, one_mul, abs_neg, Nat.abs_cast] <;> exact_mod_cast hm

theorem decode_float {w : Word} {n m e} (h : decode w = .fin n m e) : IsFloat (rat n m e) := by
  unfold decode at h
  simp only at h
  have : w.toNat % 2 ^ 52 < 2 ^ 52 := Nat.mod_lt _ (by norm_num)
  split at h
  · split at h <;> cases h
  · split at h
    · cases h
      exact float_of _ (by omega) (by omega) (by omega)
    · cases h
      exact float_of _ (by omega) (by omega) (by omega)

theorem lt_inf (q : ℚ) : ((q : WithTop ℚ) : WithBot (WithTop ℚ)) < ⊤ := by
  rw [← WithBot.coe_top]
  exact WithBot.coe_lt_coe.2 (WithTop.coe_lt_top q)

/-- Between two neighbours of 53 bits there is no float. -/
theorem gap {f : ℚ} (h : IsFloat f) {q k : Nat} (hq : 2 ^ 52 ≤ q) : f ≤ (q * 2 ^ k : Nat) ∨ ((q + 1) * 2 ^ k : Nat) ≤ f := by
  obtain ⟨m, e, rfl, hm, _, _⟩ := h
  rcases le_or_gt m 0 with h0 | h0
  · left
    have : (m : ℚ) * 2 ^ e ≤ 0 := mul_nonpos_of_nonpos_of_nonneg (by exact_mod_cast h0) (by positivity)
    exact this.trans (by positivity)
  · rcases le_or_gt (k : Int) e with he | he
    · obtain ⟨d, rfl⟩ : ∃ d : Nat, e = k + d := ⟨(e - k).toNat, by omega⟩
      have e1 : (m : ℚ) * 2 ^ ((k : Int) + d) = ((m * 2 ^ d : Int) : ℚ) * 2 ^ k := by
        rw [zpow_add₀ (by norm_num), zpow_natCast, zpow_natCast]; push_cast; ring
      rw [e1]
      have pk : (0 : ℚ) < 2 ^ k := by positivity
      rcases le_or_gt (m * 2 ^ d) (q : Int) with hc | hc
      · left
        push_cast
        have : ((m * 2 ^ d : Int) : ℚ) ≤ q := by exact_mod_cast hc
        push_cast at this
        exact mul_le_mul_of_nonneg_right this pk.le
      · right
        push_cast
        have : ((q : Int) + 1 : ℚ) ≤ ((m * 2 ^ d : Int) : ℚ) := by exact_mod_cast hc
        push_cast at this
        exact mul_le_mul_of_nonneg_right this pk.le
    · left
      have h1 : (m : ℚ) < 2 ^ 53 := by
        have := lt_of_le_of_lt (le_abs_self m) hm
        exact_mod_cast this
      have h2 : (2 : ℚ) ^ e ≤ 2 ^ ((k : Int) - 1) := zpow_le_zpow_right₀ (by norm_num) (by omega)
      have h3 : (2 : ℚ) ^ 53 * 2 ^ ((k : Int) - 1) = 2 ^ 52 * 2 ^ k := by
        rw [zpow_sub_one₀ (by norm_num), zpow_natCast]; ring
      have h4 : (m : ℚ) * 2 ^ e ≤ 2 ^ 53 * 2 ^ ((k : Int) - 1) := mul_le_mul h1.le h2 (by positivity) (by positivity)
      rw [h3] at h4
      refine h4.trans ?_
      push_cast
      have : ((2 : ℚ) ^ 52) ≤ q := by exact_mod_cast hq
      exact mul_le_mul_of_nonneg_right this (by positivity)

/-- The result of rounding a natural number, its neighbours, and that it is the nearer of them. -/
theorem ofInt_nat (a : Nat) : ∃ m k, ofInt a = .fin false m k ∧ ∃ x : Nat, rat false m k = x ∧
    ((x = a ∧ (a < 2 ^ 53)) ∨ ∃ q k r : Nat, 2 ^ 52 ≤ q ∧ q < 2 ^ 53 ∧ a = q * 2 ^ k + r ∧ r < 2 ^ k ∧
      ((x = q * 2 ^ k ∧ 2 * r ≤ 2 ^ k) ∨ (x = (q + 1) * 2 ^ k ∧ 2 ^ k ≤ 2 * r ∧ 0 < r))) := by
  unfold ofInt
  simp only [Int.natAbs_natCast]
  have hn : decide ((a : Int) < 0) = false := by simp
  rw [hn]
  split
  · exact ⟨a, 0, rfl, a, by simp [rat], .inl ⟨rfl, by assumption⟩⟩
  · rename_i ha
    have ha' : 2 ^ 53 ≤ a := Nat.le_of_not_lt ha
    have ha0 : a ≠ 0 := by omega
    obtain ⟨j, hj⟩ : ∃ j, Nat.log2 a = 52 + (j + 1) := by
      have : 53 ≤ Nat.log2 a := (Nat.le_log2 ha0).2 ha'
      exact ⟨Nat.log2 a - 53, by omega⟩
    rw [hj]
    have ek : 52 + (j + 1) - 52 = j + 1 := by omega
    rw [ek]
    set q := a / 2 ^ (j + 1) with hq
    set r := a % 2 ^ (j + 1) with hr
    have hdm : a = q * 2 ^ (j + 1) + r := by rw [hq, hr, Nat.mul_comm]; exact (Nat.div_add_mod a _).symm
    have hrl : r < 2 ^ (j + 1) := Nat.mod_lt _ (by positivity)
    have h1 : 2 ^ (52 + (j + 1)) ≤ a := by rw [← hj]; exact Nat.log2_self_le ha0
    have h2 : a < 2 ^ (52 + (j + 1) + 1) := by rw [← hj]; exact Nat.lt_log2_self
    have hq1 : 2 ^ 52 ≤ q := by rw [hq, Nat.le_div_iff_mul_le (by positivity), ← pow_add]; exact h1
    have hq2 : q < 2 ^ 53 := by
      rw [hq, Nat.div_lt_iff_lt_mul (by positivity), ← pow_add]
      have : 52 + (j + 1) + 1 = 53 + (j + 1) := by omega
      rwa [this] at h2
    have e2 : 2 ^ (j + 1) = 2 * 2 ^ j := by rw [pow_succ]; ring
    have pj : 0 < 2 ^ j := by positivity
    have ej : j + 1 - 1 = j := by omega
    rw [ej]
    split
    · rename_i hc
      refine ⟨_, _, rfl, (q + 1) * 2 ^ (j + 1), by simp only [rat]; rw [zpow_natCast]; push_cast; ring, .inr ⟨q, j + 1, r, hq1, hq2, hdm, hrl, .inr ⟨rfl, ?_, ?_⟩⟩⟩
      · rw [e2]; omega
      · omega
    · rename_i hc
      refine ⟨_, _, rfl, q * 2 ^ (j + 1), by simp only [rat]; rw [zpow_natCast]; push_cast; ring, .inr ⟨q, j + 1, r, hq1, hq2, hdm, hrl, .inl ⟨rfl, ?_⟩⟩⟩
      rw [e2]; omega

theorem IsFloat.neg {f : ℚ} (h : IsFloat f) : IsFloat (-f) := by
  obtain ⟨m, e, rfl, hm, h1, h2⟩ := h
  exact ⟨-m, e, by push_cast; ring, by rwa [abs_neg], h1, h2⟩

theorem ofInt_neg {i : Int} (h : i < 0) : ∃ m k, ofInt i = .fin true m k ∧ ofInt (-i) = .fin false m k := by
  unfold ofInt
  have e1 : decide (i < 0) = true := by simpa
  have e2 : decide (-i < 0) = false := by simp; omega
  simp only [Int.natAbs_neg, e1, e2]
  split
  · exact ⟨_, _, rfl, rfl⟩
  · exact ⟨_, _, rfl, rfl⟩

/-- An integer as a float: finite; equal up to 2^53; on the same side of every float; and no float is nearer. -/
theorem ofInt_spec (i : Int) : ∃ n m k, ofInt i = .fin n m k ∧
    (i.natAbs ≤ 2 ^ 53 → rat n m k = i) ∧
    (∀ f, IsFloat f → (f ≤ i → f ≤ rat n m k) ∧ ((i : ℚ) ≤ f → rat n m k ≤ f) ∧ |rat n m k - i| ≤ |f - i|) := by
  have nat : ∀ a : Nat, ∃ m k, ofInt a = .fin false m k ∧ (a ≤ 2 ^ 53 → rat false m k = a) ∧
      (∀ f, IsFloat f → (f ≤ a → f ≤ rat false m k) ∧ ((a : ℚ) ≤ f → rat false m k ≤ f) ∧ |rat false m k - a| ≤ |f - a|) := by
    intro a
    obtain ⟨m, k, e1, x, e2, h⟩ := ofInt_nat a
    refine ⟨m, k, e1, ?_, ?_⟩
    · intro hle
      rw [e2]
      rcases h with ⟨rfl, _⟩ | ⟨q, k, r, hq, _, ha, hr, h⟩
      · rfl
      · rcases k with _ | k
        · simp only [pow_zero, Nat.lt_one_iff] at hr
          rcases h with ⟨rfl, _⟩ | ⟨rfl, _, h0⟩
          · subst hr; rw [ha]; simp
          · omega
        · have : 2 ^ 52 * 2 ≤ q * 2 ^ (k + 1) := Nat.mul_le_mul hq (by
            rw [pow_succ]
            have : 0 < 2 ^ k := by positivity
            omega)
          rcases h with ⟨rfl, _⟩ | ⟨rfl, h1, h0⟩
          · have : q * 2 ^ (k + 1) = a := by omega
            rw [this]
          · omega
    · intro f hf
      rw [e2]
      rcases h with ⟨rfl, _⟩ | ⟨q, k, r, hq, _, ha, hr, h⟩
      · exact ⟨fun h => h, fun h => h, by simp⟩
      · have ca : (a : ℚ) = (q : ℚ) * 2 ^ k + r := by rw [ha]; push_cast; ring
        have cr : (r : ℚ) < 2 ^ k := by exact_mod_cast hr
        have cr0 : (0 : ℚ) ≤ r := by positivity
        have g := gap hf (q := q) (k := k) hq
        push_cast at g
        rcases h with ⟨rfl, h2⟩ | ⟨rfl, h2, h0⟩
        · push_cast
          have c2 : 2 * (r : ℚ) ≤ 2 ^ k := by exact_mod_cast h2
          refine ⟨fun hh => ?_, fun hh => ?_, ?_⟩
          · rcases g with g | g
            · exact g
            · linarith
          · linarith
          · rw [abs_le]
            rcases g with g | g
            · rw [abs_of_nonpos (by linarith)]; constructor <;> linarith
            · rw [abs_of_nonneg (by linarith)]; constructor <;> linarith
        · push_cast
          have c2 : (2 : ℚ) ^ k ≤ 2 * r := by exact_mod_cast h2
          have c0 : (0 : ℚ) < r := by exact_mod_cast h0
          refine ⟨fun hh => by linarith, fun hh => ?_, ?_⟩
          · rcases g with g | g
            · linarith
            · linarith
          · rw [abs_le]
            rcases g with g | g
            · rw [abs_of_nonpos (by linarith)]; constructor <;> linarith
            · rw [abs_of_nonneg (by linarith)]; constructor <;> linarith
  rcases lt_or_ge i 0 with hi | hi
  · obtain ⟨m, k, h1, h2⟩ := ofInt_neg hi
    obtain ⟨m', k', e, ex, g⟩ := nat i.natAbs
    have ei : ((i.natAbs : Nat) : Int) = -i := by omega
    rw [ei, h2] at e
    cases e
    have eq : ((i.natAbs : Nat) : ℚ) = -(i : ℚ) := by
      have : ((i.natAbs : Nat) : ℚ) = (((i.natAbs : Nat) : Int) : ℚ) := (Int.cast_natCast _).symm
      rw [this, ei]; push_cast; rfl
    have en : rat true m k = - rat false m k := by simp [rat]
    refine ⟨true, m, k, h1, ?_, ?_⟩
    · intro hle
      rw [en, ex hle, eq]; ring
    · intro f hf
      obtain ⟨g1, g2, g3⟩ := g (-f) hf.neg
      rw [eq] at g1 g2 g3
      rw [en]
      refine ⟨fun hh => ?_, fun hh => ?_, ?_⟩
      · have := g2 (by linarith); linarith
      · have := g1 (by linarith); linarith
      · have e1 : |-rat false m k - (i : ℚ)| = |rat false m k - -(i : ℚ)| := by
          rw [← abs_neg]; congr 1; ring
        have e2 : |f - (i : ℚ)| = |-f - -(i : ℚ)| := by rw [← abs_neg]; congr 1; ring
        rw [e1, e2]; exact g3
  · obtain ⟨a, rfl⟩ : ∃ a : Nat, i = a := ⟨i.toNat, by omega⟩
    obtain ⟨m, k, e, ex, g⟩ := nat a
    refine ⟨false, m, k, e, ?_, ?_⟩
    · intro hle; rw [ex (by simpa using hle)]; rfl
    · intro f hf; simpa using g f hf

/-- `partial_cmp` compares the numbers. -/
theorem partial_cmp_spec (x y : F64) :
    (∀ p q, x.num = some p → y.num = some q →
      (partial_cmp x y = some .lt ∧ p < q) ∨ (partial_cmp x y = some .eq ∧ p = q) ∨ (partial_cmp x y = some .gt ∧ q < p)) ∧
    ((x.num = none ∨ y.num = none) → partial_cmp x y = none) := by
  refine ⟨?_, ?_⟩
  · intro p q hp hq
    cases x with
    | nan => cases hp
    | inf a =>
      cases y with
      | nan => cases hq
      | inf b => cases hp; cases hq; cases a <;> cases b <;> simp [partial_cmp]
      | fin b m e => cases hp; cases hq; cases a <;> simp [partial_cmp, WithBot.bot_lt_coe, lt_inf]
    | fin a m e =>
      cases y with
      | nan => cases hq
      | inf b => cases hp; cases hq; cases b <;> simp [partial_cmp, WithBot.bot_lt_coe, lt_inf]
      | fin b m' e' =>
        cases hp; cases hq
        simp only [partial_cmp, WithBot.coe_lt_coe, WithTop.coe_lt_coe, WithBot.coe_inj, WithTop.coe_inj]
        rcases lt_trichotomy (rat a m e) (rat b m' e') with h | h | h
        · exact .inl ⟨by simp [h], h⟩
        · exact .inr (.inl ⟨by simp [h], h⟩)
        · exact .inr (.inr ⟨by simp [h.le.not_gt, h.ne'], h⟩)
  · rintro (h | h)
    · cases x <;> first | rfl | cases h
    · cases y <;> first | (cases x <;> rfl) | cases h

theorem partial_cmp_swap (x y : F64) : partial_cmp y x = (partial_cmp x y).map Ordering.swap := by
  cases x with
  | nan => cases y <;> rfl
  | inf a =>
    cases y with
    | nan => rfl
    | inf b => cases a <;> cases b <;> rfl
    | fin => cases a <;> rfl
  | fin a m e =>
    cases y with
    | nan => rfl
    | inf b => cases b <;> rfl
    | fin b m' e' =>
      simp only [partial_cmp, Option.map_some, Option.some.injEq]
      rcases lt_trichotomy (rat a m e) (rat b m' e') with h | h | h
      · simp [h, h.le.not_gt, h.ne']
      · simp [h]
      · simp [h, h.le.not_gt, h.ne']

/-! ## C105 -/

/-- Floats compare as the numbers they stand for, and not-a-number with nothing. -/
theorem C105_floats (a b : Word) :
    (compare3 (.flo a) (.flo b) = none ↔ (Num.flo a).num = none ∨ (Num.flo b).num = none) ∧
    ∀ x y, (Num.flo a).num = some x → (Num.flo b).num = some y →
      (compare3 (.flo a) (.flo b) = some .lt ↔ x < y) ∧ (compare3 (.flo a) (.flo b) = some .eq ↔ x = y) ∧
      (compare3 (.flo a) (.flo b) = some .gt ↔ y < x) := by
  obtain ⟨h1, h2⟩ := partial_cmp_spec (decode a) (decode b)
  simp only [compare3, Num.num]
  refine ⟨⟨fun h => ?_, h2⟩, ?_⟩
  · rcases ha : (decode a).num with _ | p
    · exact .inl rfl
    · rcases hb : (decode b).num with _ | q
      · exact .inr rfl
      · rcases h1 p q ha hb with ⟨e, _⟩ | ⟨e, _⟩ | ⟨e, _⟩ <;> rw [e] at h <;> cases h
  · intro x y hx hy
    rcases h1 x y hx hy with ⟨e, h⟩ | ⟨e, h⟩ | ⟨e, h⟩
    · simp [e, h, h.ne, h.not_gt]
    · simp [e, h]
    · simp [e, h, h.ne', h.not_gt]

/-- An integer and a float: an answer "less" or "greater" is right for the exact numbers, whatever the size of the integer. -/
theorem C105_strict (i : Int) (w : Word) {x : WithBot (WithTop ℚ)} (hx : (Num.flo w).num = some x) :
    (compare3 (.int i) (.flo w) = some .lt → (((i : ℚ) : WithTop ℚ) : WithBot (WithTop ℚ)) < x) ∧
    (compare3 (.int i) (.flo w) = some .gt → x < (((i : ℚ) : WithTop ℚ) : WithBot (WithTop ℚ))) ∧
    compare3 (.int i) (.flo w) ≠ none := by
  obtain ⟨n, m, k, e, _, g⟩ := ofInt_spec i
  obtain ⟨h1, h2⟩ := partial_cmp_spec (ofInt i) (decode w)
  have hn : (ofInt i).num = some (((rat n m k : ℚ) : WithTop ℚ) : WithBot (WithTop ℚ)) := by rw [e]; rfl
  have h := h1 _ _ hn hx
  simp only [compare3]
  simp only [Num.num] at hx
  refine ⟨fun hc => ?_, fun hc => ?_, fun hc => ?_⟩
  · rw [hc] at h
    simp only [true_and, Option.some.injEq, reduceCtorEq, false_and, or_false] at h
    rcases hd : decode w with _ | neg | ⟨n', m', k'⟩
    · rw [hd] at hx; cases hx
    · rw [hd] at hx; cases hx
      cases neg with
      | true => simp at h
      | false => simp [lt_inf]
    · rw [hd] at hx; cases hx
      rw [WithBot.coe_lt_coe, WithTop.coe_lt_coe] at h ⊢
      by_contra hh
      exact absurd ((g _ (decode_float hd)).1 (not_lt.1 hh)) (not_le.2 h)
  · rw [hc] at h
    simp only [true_and, Option.some.injEq, reduceCtorEq, false_and, false_or] at h
    rcases hd : decode w with _ | neg | ⟨n', m', k'⟩
    · rw [hd] at hx; cases hx
    · rw [hd] at hx; cases hx
      cases neg with
      | true => simp [WithBot.bot_lt_coe]
      | false => simp at h
    · rw [hd] at hx; cases hx
      rw [WithBot.coe_lt_coe, WithTop.coe_lt_coe] at h ⊢
      by_contra hh
      exact absurd ((g _ (decode_float hd)).2.1 (not_lt.1 hh)) (not_le.2 h)
  · rw [hc] at h; simp at h

/-- An integer of at most 53 bits and a float compare as numbers.

`_partial`: larger integers can be "equal" to a float near them (`C105_mixed_fails`). -/
theorem C105_mixed_partial (i : Int) (hi : i.natAbs ≤ 2 ^ 53) (w : Word) :
    (compare3 (.int i) (.flo w) = none ↔ (Num.flo w).num = none) ∧
    ∀ x y, (Num.int i).num = some x → (Num.flo w).num = some y →
      (compare3 (.int i) (.flo w) = some .lt ↔ x < y) ∧ (compare3 (.int i) (.flo w) = some .eq ↔ x = y) ∧
      (compare3 (.int i) (.flo w) = some .gt ↔ y < x) := by
  obtain ⟨n, m, k, e, ex, g⟩ := ofInt_spec i
  obtain ⟨h1, h2⟩ := partial_cmp_spec (ofInt i) (decode w)
  have hn : (ofInt i).num = some (((i : ℚ) : WithTop ℚ) : WithBot (WithTop ℚ)) := by rw [e, ← ex hi]; rfl
  simp only [compare3, Num.num]
  refine ⟨⟨fun h => ?_, fun h => h2 (.inr h)⟩, ?_⟩
  · rcases hb : (decode w).num with _ | q
    · rfl
    · rcases h1 _ q hn hb with ⟨e, _⟩ | ⟨e, _⟩ | ⟨e, _⟩ <;> rw [e] at h <;> cases h
  · intro x y hx hy
    cases hx
    rcases h1 _ y hn hy with ⟨e, h⟩ | ⟨e, h⟩ | ⟨e, h⟩
    · simp [e, h, h.ne, h.not_gt]
    · simp [e, h]
    · simp [e, h, h.ne', h.not_gt]

/-- Turning the operands round turns the answer round. -/
theorem C105_swap (a b : Num) : compare3 b a = (compare3 a b).map Ordering.swap := by
  cases a with
  | int a =>
    cases b with
    | int b =>
      simp only [compare3, Option.map_some, Option.some.injEq]
      rcases lt_trichotomy a b with h | h | h
      · simp [h, h.le.not_gt, h.ne']
      · simp [h]
      · simp [h, h.le.not_gt, h.ne']
    | flo b => exact partial_cmp_swap _ _
  | flo a => cases b <;> exact partial_cmp_swap _ _

/-- `<`, `<=`, `>`, `>=` and `==` say what `<=>` says; all but `==` are false beside not-a-number, and so is `==`. -/
theorem C105_operators (a b : Num) :
    (eval_cmp .lt a b = true ↔ compare3 a b = some .lt) ∧
    (eval_cmp .le a b = true ↔ compare3 a b = some .lt ∨ compare3 a b = some .eq) ∧
    (eval_cmp .gt a b = true ↔ compare3 a b = some .gt) ∧
    (eval_cmp .ge a b = true ↔ compare3 a b = some .gt ∨ compare3 a b = some .eq) ∧
    (eval_eq a b = true ↔ compare3 a b = some .eq) := by
  have fl : ∀ x y : F64, (relF .lt x y = true ↔ partial_cmp x y = some .lt) ∧
      (relF .le x y = true ↔ partial_cmp x y = some .lt ∨ partial_cmp x y = some .eq) ∧
      (relF .gt x y = true ↔ partial_cmp x y = some .gt) ∧
      (relF .ge x y = true ↔ partial_cmp x y = some .gt ∨ partial_cmp x y = some .eq) ∧
      (eqF x y = true ↔ partial_cmp x y = some .eq) := by
    intro x y
    unfold relF eqF
    rcases partial_cmp x y with _ | ⟨_ | _ | _⟩ <;> simp
  cases a with
  | int a =>
    cases b with
    | int b =>
      simp only [eval_cmp, relI, compare3, eval_eq, Option.some.injEq, decide_eq_true_eq, beq_iff_eq]
      rcases lt_trichotomy a b with h | h | h
      · simp [h, h.le, h.le.not_gt, h.ne]
      · simp [h]
      · simp [h, h.le, h.le.not_gt, h.ne']
    | flo b => exact fl _ _
  | flo a =>
    cases b with
    | int b =>
      obtain ⟨h1, h2, h3, h4, _⟩ := fl (decode a) (ofInt b)
      refine ⟨h1, h2, h3, h4, ?_⟩
      simp only [eval_eq, compare3]
      rw [(fl _ _).2.2.2.2, partial_cmp_swap]
      rcases partial_cmp (decode a) (ofInt b) with _ | ⟨_ | _ | _⟩ <;> simp [Ordering.swap]
    | flo b =>
      obtain ⟨h1, h2, h3, h4, h5⟩ := fl (decode a) (decode b)
      refine ⟨h1, h2, h3, h4, ?_⟩
      simp only [eval_eq, compare3]
      split
      · rename_i h
        rcases hd : decode a with _ | _ | _
        · simp [partial_cmp]
        · rw [hd] at h; simp [F64.isNan] at h
        · rw [hd] at h; simp [F64.isNan] at h
      · exact h5

/-- The instructions that compare with a literal do what the general ones do. -/
theorem C105_literal (a : Num) (i : Int) : (∀ r, eval_cmp_i r a i = eval_cmp r a (.int i)) ∧ eval_eqi a i = eval_eq a (.int i) := by
  cases a with
  | int a => exact ⟨fun _ => rfl, rfl⟩
  | flo a =>
    refine ⟨fun _ => rfl, ?_⟩
    simp only [eval_eqi, eval_eq, eqF]
    rw [partial_cmp_swap (decode a)]
    rcases partial_cmp (decode a) (ofInt i) with _ | ⟨_ | _ | _⟩ <;> rfl

/-- 2^53 as a float. -/
abbrev f53 : Word := 0x4340000000000000#64

theorem f53_decode : decode f53 = .fin false (2 ^ 52) 1 := by decide +kernel

/-- `2**53 + 1 == (2**53).to_f`, and with a float between them two different integers are both equal to it. -/
theorem C105_mixed_fails : compare3 (.int (2 ^ 53 + 1)) (.flo f53) = some .eq ∧ compare3 (.int (2 ^ 53)) (.flo f53) = some .eq ∧
    compare3 (.int (2 ^ 53)) (.int (2 ^ 53 + 1)) = some .lt := by
  refine ⟨?_, ?_, by decide⟩
  · have e : ofInt (2 ^ 53 + 1) = .fin false (2 ^ 52) 1 := by decide +kernel
    simp only [compare3, f53_decode, e, partial_cmp]; simp
  · have e : ofInt (2 ^ 53) = .fin false (2 ^ 52) 1 := by decide +kernel
    simp only [compare3, f53_decode, e, partial_cmp]; simp

example : (Num.flo f53).num = some (((2 ^ 53 : ℚ) : WithTop ℚ) : WithBot (WithTop ℚ)) := by
  simp only [Num.num, f53_decode, F64.num, rat]; norm_num

/-! ## C106 -/

theorem clamp_id {i : Int} (h : -2 ^ 63 ≤ i ∧ i < 2 ^ 63) : clamp i = i := by
  unfold clamp; omega

/-- `floor` is the largest integer that is not above the float.

`_partial`: if that is an `i64` (`C106_saturate_fails`). -/
theorem C106_floor_partial (w : Word) {n m e} (h : decode w = .fin n m e) (hl : -2 ^ 63 ≤ rat n m e) (hu : rat n m e < 2 ^ 63) :
    (floor w : ℚ) ≤ rat n m e ∧ ∀ i : Int, (i : ℚ) ≤ rat n m e → i ≤ floor w := by
  have e1 : floor w = ⌊rat n m e⌋ := by
    simp only [floor, h, floor_as_i64]
    refine clamp_id ⟨?_, ?_⟩
    · rw [Int.le_floor]; push_cast; exact hl
    · rw [Int.floor_lt]; push_cast; exact hu
  rw [e1]
  exact ⟨Int.floor_le _, fun i hi => Int.le_floor.2 hi⟩

/-- `to_i` and `Integer(f)` drop the fraction: the integer has no larger magnitude, the same sign, and is less than one away.

`_partial`: if that is an `i64`. -/
theorem C106_to_i_partial (w : Word) {n m e} (h : decode w = .fin n m e) (hl : -2 ^ 63 - 1 < rat n m e) (hu : rat n m e < 2 ^ 63) :
    kernel_integer w = to_i w ∧ |(to_i w : ℚ)| ≤ |rat n m e| ∧ |rat n m e - to_i w| < 1 ∧ 0 ≤ (to_i w : ℚ) * rat n m e := by
  have e1 : to_i w = truncRat (rat n m e) := by
    simp only [to_i, h, as_i64]
    unfold truncRat
    split
    · refine clamp_id ⟨?_, ?_⟩
      · have : 0 ≤ ⌊rat n m e⌋ := Int.floor_nonneg.2 (by assumption)
        omega
      · rw [Int.floor_lt]; push_cast; exact hu
    · refine clamp_id ⟨?_, ?_⟩
      · have : -2 ^ 63 - 1 < ⌈rat n m e⌉ := by rw [Int.lt_ceil]; push_cast; norm_num at hl ⊢; exact hl
        omega
      · have : ⌈rat n m e⌉ ≤ 0 := Int.ceil_le.2 (by push_cast; rename_i h; exact (not_le.1 h).le)
        omega
  refine ⟨rfl, ?_⟩
  rw [e1]
  unfold truncRat
  split
  · rename_i h0
    have f0 : (0 : ℚ) ≤ ⌊rat n m e⌋ := by exact_mod_cast Int.floor_nonneg.2 h0
    have f1 := Int.floor_le (rat n m e)
    have f2 := Int.lt_floor_add_one (rat n m e)
    refine ⟨by rw [abs_of_nonneg f0, abs_of_nonneg h0]; exact f1, ?_, mul_nonneg f0 h0⟩
    rw [abs_lt]; constructor <;> linarith
  · rename_i h0
    have h0 := (not_le.1 h0).le
    have f0 : ((⌈rat n m e⌉ : Int) : ℚ) ≤ 0 := by
      have : ⌈rat n m e⌉ ≤ 0 := Int.ceil_le.2 (by push_cast; exact h0)
      exact_mod_cast this
    have f1 := Int.le_ceil (rat n m e)
    have f2 := Int.ceil_lt_add_one (rat n m e)
    refine ⟨by rw [abs_of_nonpos f0, abs_of_nonpos h0]; linarith, ?_, mul_nonneg_of_nonpos_of_nonpos f0 h0⟩
    rw [abs_lt]; constructor <;> linarith

/-- `to_f` is a float nearest to the integer, and the integer itself up to 2^53. -/
theorem C106_to_f (i : Int) : ∃ n m k, to_f i = .fin n m k ∧ (∀ f, IsFloat f → |rat n m k - i| ≤ |f - i|) ∧ (i.natAbs ≤ 2 ^ 53 → rat n m k = i) := by
  obtain ⟨n, m, k, e, ex, g⟩ := ofInt_spec i
  exact ⟨n, m, k, e, fun f hf => (g f hf).2.2, ex⟩

/-- An integer of at most 53 bits survives the way to a float and back. -/
theorem C106_round_trip (i : Int) (hi : i.natAbs ≤ 2 ^ 53) (w : Word) (h : decode w = to_f i) : to_i w = i ∧ floor w = i := by
  obtain ⟨n, m, k, e, ex, _⟩ := ofInt_spec i
  have hr := ex hi
  have hw : decode w = .fin n m k := by rw [h]; exact e
  have c : clamp i = i := clamp_id (by omega)
  constructor
  · simp only [to_i, hw, as_i64, hr, truncRat]
    split
    · rw [Int.floor_intCast, c]
    · rw [Int.ceil_intCast, c]
  · simp only [floor, hw, floor_as_i64, hr, Int.floor_intCast, c]

/-- `nan?`, `infinite?` and `abs`. -/
theorem C106_kinds (w : Word) :
    (nan? w = true ↔ (Num.flo w).num = none) ∧
    (infinite? w = some 1 ↔ (Num.flo w).num = some ((⊤ : WithTop ℚ) : WithBot (WithTop ℚ))) ∧
    (infinite? w = some (-1) ↔ (Num.flo w).num = some ⊥) := by
  have e0 : (Num.flo w).num = (decode w).num := rfl
  rw [e0]
  unfold nan? infinite?
  generalize decode w = d
  rcases d with _ | ⟨_ | _⟩ | ⟨n, m, e⟩
  · simp [F64.isNan, F64.num]
  · simp [F64.isNan, F64.num]
  · simp [F64.isNan, F64.num]
  · have := (lt_inf (rat n m e)).ne
    simp [F64.isNan, F64.num, this]

theorem decode_abs (w : Word) : decode (abs w) = match decode w with
    | .nan => .nan
    | .inf _ => .inf false
    | .fin _ m e => .fin false m e := by
  have e0 : (abs w).toNat = w.toNat % 2 ^ 63 := by
    have : abs w = w &&& 0x7fffffffffffffff#64 := rfl
    rw [this, BitVec.toNat_and]
    exact Nat.and_two_pow_sub_one_eq_mod _ 63
  have e1 : (abs w).toNat / 2 ^ 52 % 2 ^ 11 = w.toNat / 2 ^ 52 % 2 ^ 11 := by rw [e0]; omega
  have e2 : (abs w).toNat % 2 ^ 52 = w.toNat % 2 ^ 52 := by rw [e0]; omega
  have e3 : (abs w).msb = false := by
    rw [BitVec.msb_eq_decide]; simp only [decide_eq_false_iff_not, not_le]; rw [e0]; omega
  unfold decode
  simp only [e1, e2, e3]
  split
  · split <;> rfl
  · split <;> rfl

/-- `abs` is the absolute value. -/
theorem C106_abs (w : Word) : (∀ n m e, decode w = .fin n m e → ∃ n' m' e', decode (abs w) = .fin n' m' e' ∧ rat n' m' e' = |rat n m e|) ∧
    (∀ n, decode w = .inf n → decode (abs w) = .inf false) ∧ (decode w = .nan → decode (abs w) = .nan) := by
  rw [decode_abs]
  refine ⟨fun n m e h => ?_, fun n h => by rw [h], fun h => by rw [h]⟩
  rw [h]
  refine ⟨_, _, _, rfl, ?_⟩
  have h0 : (0 : ℚ) ≤ m * 2 ^ e := by positivity
  cases n
  · simp only [rat, Bool.false_eq_true, if_false, one_mul]; rw [abs_of_nonneg h0]
  · simp only [rat, Bool.false_eq_true, if_false, if_true, one_mul, neg_mul, abs_neg]; rw [abs_of_nonneg h0]

/-- `1e20.to_i` is 9223372036854775807. -/
theorem C106_saturate_fails : ∃ n m e, decode 0x4415AF1D78B58C40#64 = .fin n m e ∧ rat n m e = 10 ^ 20 ∧
    to_i 0x4415AF1D78B58C40#64 = 9223372036854775807 ∧ floor 0x4415AF1D78B58C40#64 = 9223372036854775807 := by
  have e0 : decode 0x4415AF1D78B58C40#64 = .fin false 6103515625000000 14 := by decide +kernel
  have e1 : rat false 6103515625000000 14 = 10 ^ 20 := by
    simp only [rat, Bool.false_eq_true, if_false]; norm_num
  have c : ((10 : ℚ) ^ 20) = ((100000000000000000000 : Int) : ℚ) := by norm_num
  refine ⟨_, _, _, e0, e1, ?_, ?_⟩
  · simp only [to_i, e0, as_i64, e1, truncRat]
    rw [if_pos (by positivity), c, Int.floor_intCast]
    decide
  · simp only [floor, e0, floor_as_i64, e1]
    rw [c, Int.floor_intCast]
    decide

/-- Not-a-number becomes 0 and infinity the largest `i64`; Ruby raises FloatDomainError. -/
theorem C106_nan_fails : decode 0x7ff8000000000000#64 = .nan ∧ to_i 0x7ff8000000000000#64 = 0 ∧
    decode 0x7ff0000000000000#64 = .inf false ∧ floor 0x7ff0000000000000#64 = 2 ^ 63 - 1 := by
  refine ⟨by decide +kernel, ?_, by decide +kernel, ?_⟩
  · have : decode 0x7ff8000000000000#64 = .nan := by decide +kernel
    simp only [to_i, this, as_i64]
  · have : decode 0x7ff0000000000000#64 = .inf false := by decide +kernel
    simp only [floor, this, floor_as_i64]; rfl

/-- `(2**53 + 1).to_f.to_i` is another integer. -/
theorem C106_round_trip_fails : decode f53 = to_f (2 ^ 53 + 1) ∧ to_i f53 = 2 ^ 53 := by
  have e : decode f53 = to_f (2 ^ 53) := by decide +kernel
  exact ⟨by decide +kernel, (C106_round_trip _ (by decide) _ e).1⟩

example : decode 0xC004000000000000#64 = .fin true 5629499534213120 (-51) ∧ rat true 5629499534213120 (-51) = -5 / 2 := by
  refine ⟨by decide +kernel, ?_⟩
  simp only [rat, if_true]; norm_num

end Verif.Float
