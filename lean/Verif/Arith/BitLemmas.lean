import Verif.Arith.Lemmas
import Verif.Arith.BitSpec
import Mathlib.Tactic.Ring
import Mathlib.Tactic.Linarith
namespace Verif.Arith
open Verif.Value

theorem testBit_eq_bitOf (n : Int) (i : Nat) : Int.testBit n i = bitOf n i := by
  unfold bitOf
  cases n with
  | ofNat m =>
    show Nat.testBit m i = _
    rw [Nat.testBit_eq_decide_div_mod_eq, decide_eq_decide]
    have : (Int.ofNat m) / 2 ^ i % 2 = ((m / 2^i % 2 : Nat) : Int) := by simp
    rw [this]; omega
  | negSucc m =>
    show (!Nat.testBit m i) = _
    rw [Nat.testBit_eq_decide_div_mod_eq]
    have : (Int.negSucc m) / 2 ^ i = -(((m / 2^i : Nat) : Int) + 1) := by
      have h := Int.negSucc_ediv m (b := 2^i) (by positivity)
      rw [h]
      have : Int.ediv (m:Int) (2^i) = ((m / 2^i : Nat) : Int) := by
        show (m : Int) / 2^i = _
        push_cast; rfl
      simp only [this]
    rw [this]
    generalize m / 2^i = q
    rcases Nat.mod_two_eq_zero_or_one q with h | h
    · have : (-((q:Int) + 1)) % 2 = 1 := by omega
      simp only [h, this]; rfl
    · have : (-((q:Int) + 1)) % 2 = 0 := by omega
      simp only [h, this]; rfl

theorem bitOf_eq_shiftRight (n : Int) (i : Nat) : bitOf n i = decide (n >>> i % 2 = 1) := by
  unfold bitOf; rw [Int.shiftRight_eq_div_pow]; norm_cast

/-- Bits determine the integer. -/
theorem bitOf_ext (a b : Int) (h : ∀ i, bitOf a i = bitOf b i) : a = b := by
  have key : ∀ k : Nat, ∀ a b : Int, -2^k ≤ a → a < 2^k → -2^k ≤ b → b < 2^k →
      (∀ i, bitOf a i = bitOf b i) → a = b := by
    intro k
    induction k with
    | zero =>
      intro a b h1 h2 h3 h4 hb
      have h0 := hb 0
      simp only [bitOf, pow_zero, Int.ediv_one, decide_eq_decide] at h0
      simp only [pow_zero] at *
      omega
    | succ k ih =>
      intro a b h1 h2 h3 h4 hb
      have h0 := hb 0
      simp only [bitOf, pow_zero, Int.ediv_one, decide_eq_decide] at h0
      have hstep : ∀ x : Int, ∀ i, bitOf (x / 2) i = bitOf x (i+1) := by
        intro x i
        unfold bitOf
        rw [pow_succ', Int.ediv_ediv_of_nonneg (by decide)]
      have hp : (2:Int)^(k+1) = 2 * 2^k := by ring
      have := ih (a/2) (b/2) (by omega) (by omega) (by omega) (by omega)
        (fun i => by rw [hstep, hstep]; exact hb (i+1))
      omega
  obtain ⟨k, hk⟩ : ∃ k : Nat, a.natAbs < 2^k ∧ b.natAbs < 2^k := by
    refine ⟨a.natAbs + b.natAbs, ?_, ?_⟩
    · exact lt_of_le_of_lt (Nat.le_add_right _ _) Nat.lt_two_pow_self
    · exact lt_of_le_of_lt (Nat.le_add_left _ _) Nat.lt_two_pow_self
  have hk1 : ((a.natAbs : Nat) : Int) < 2^k := by exact_mod_cast hk.1
  have hk2 : ((b.natAbs : Nat) : Int) < 2^k := by exact_mod_cast hk.2
  exact key k a b (by omega) (by omega) (by omega) (by omega) h

theorem bitOf_toInt (w : Word) (i : Nat) :
    bitOf w.toInt i = if i < 64 then w.getLsbD i else w.msb := by
  rw [bitOf_eq_shiftRight, ← BitVec.toInt_sshiftRight]
  have h0 : ∀ v : Word, decide (v.toInt % 2 = 1) = v.getLsbD 0 := by
    intro v
    rw [getLsbD_eq_toNat, decide_eq_decide, BitVec.toInt_eq_toNat_cond]
    split <;> simp <;> omega
  rw [h0, BitVec.getLsbD_sshiftRight]
  by_cases h : i < 64 <;> simp [h]

theorem getLsbD_ofInt_num {a : Int} (h : InI64 a) (i : Nat) (hi : i < 64) :
    (BitVec.ofInt 64 a).getLsbD i = bitOf a i := by
  have := bitOf_toInt (BitVec.ofInt 64 a) i
  rw [toInt_ofInt_of_inI64 a h, if_pos hi] at this
  exact this.symm

theorem msb_ofInt_num {a : Int} (h : InI64 a) (i : Nat) (hi : ¬ i < 64) :
    (BitVec.ofInt 64 a).msb = bitOf a i := by
  have := bitOf_toInt (BitVec.ofInt 64 a) i
  rw [toInt_ofInt_of_inI64 a h, if_neg hi] at this
  exact this.symm

theorem toInt_inI64 (w : Word) : InI64 w.toInt := by
  have h := w.isLt
  unfold InI64
  rw [BitVec.toInt_eq_toNat_cond]
  split <;> constructor <;> push_cast <;> omega

theorem bitwise64 (f : Bool → Bool → Bool) (wf : Word → Word → Word)
    (h1 : ∀ x y i, i < 64 → (wf x y).getLsbD i = f (x.getLsbD i) (y.getLsbD i))
    (h2 : ∀ x y, (wf x y).msb = f x.msb y.msb) {a b : Int} (ha : InI64 a) (hb : InI64 b) (i : Nat) :
    bitOf (wf (BitVec.ofInt 64 a) (BitVec.ofInt 64 b)).toInt i = f (bitOf a i) (bitOf b i) := by
  rw [bitOf_toInt]
  by_cases h : i < 64
  · rw [if_pos h, h1 _ _ _ h, getLsbD_ofInt_num ha i h, getLsbD_ofInt_num hb i h]
  · rw [if_neg h, h2, msb_ofInt_num ha i h, msb_ofInt_num hb i h]

/-- Sign fill: a bit position above the range of `a` shows the sign. -/
theorem bitOf_high {a : Int} {k i : Nat} (h1 : -2^k ≤ a) (h2 : a < 2^k) (h : k ≤ i) :
    bitOf a i = decide (a < 0) := by
  unfold bitOf
  have hki : (2:Int)^k ≤ 2^i := pow_le_pow_right₀ (by decide) h
  by_cases hn : a < 0
  · have : a / 2^i = -1 := by
      rw [Int.ediv_eq_iff_of_pos (by positivity)]
      constructor <;> nlinarith
    simp [this, hn]
  · have : a / 2^i = 0 := Int.ediv_eq_zero_of_lt (by omega) (by omega)
    simp [this, hn]

theorem word_and_one (w : Word) : (w &&& 1#64).toInt = if w.getLsbD 0 then 1 else 0 := by
  cases h : w.getLsbD 0
  · have := and_one_eq_zero w
    rw [h] at this
    simp only [Bool.not_false, beq_iff_eq] at this
    rw [this]; decide
  · have := and_one_eq_one w
    rw [h] at this
    simp only [beq_iff_eq] at this
    rw [this]; decide

theorem land_one (n : Int) : Int.land n 1 = if n % 2 = 1 then 1 else 0 := by
  apply bitOf_ext
  intro i
  rw [← testBit_eq_bitOf, Int.testBit_land, testBit_eq_bitOf]
  have h1 : Int.testBit 1 i = decide (i = 0) := by
    show Nat.testBit 1 i = _
    cases i with
    | zero => rfl
    | succ i => simp [Nat.testBit_succ]
  rw [h1]
  by_cases hi : i = 0
  · subst hi
    unfold bitOf
    by_cases h : n % 2 = 1 <;> simp [h]
  · simp only [hi, decide_false, Bool.and_false]
    split
    · rw [← testBit_eq_bitOf, h1]; simp [hi]
    · unfold bitOf; simp

end Verif.Arith
