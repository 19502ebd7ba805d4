import Verif.Arith.BitProps
import Mathlib.Tactic.Ring
import Mathlib.Tactic.Linarith
import Mathlib.Data.Nat.Prime.Basic
/-! # C08: gcd and lcm (binary gcd loop) -/
namespace Verif.Arith
open Verif.Value

theorem tz_spec (m : Nat) (h : 0 < m) : ∃ q, q % 2 = 1 ∧ m = 2 ^ tz m * q := by
  induction m using Nat.strongRecOn with
  | _ m ih =>
    unfold tz
    rw [dif_neg (by omega)]
    by_cases h2 : m % 2 = 0
    · obtain ⟨q, hq, e⟩ := ih (m/2) (by omega) (by omega)
      refine ⟨q, hq, ?_⟩
      rw [if_pos h2, pow_succ]
      have : m = 2 * (m / 2) := by omega
      rw [this]
      conv_lhs => rw [e]
      rw [show 2 * (m/2) / 2 = m / 2 by omega]
      ring
    · exact ⟨m, by omega, by rw [if_neg h2]; simp⟩

theorem tz_shift {m q : Nat} (e : m = 2 ^ tz m * q) : m >>> tz m = q := by
  rw [Nat.shiftRight_eq_div_pow]
  conv_lhs => lhs; rw [e]
  exact Nat.mul_div_cancel_left q (by positivity)

theorem le_tz {m : Nat} (h : 0 < m) (k : Nat) : k ≤ tz m ↔ 2^k ∣ m := by
  obtain ⟨q, hq, e⟩ := tz_spec m h
  constructor
  · intro hk
    rw [e]
    exact Dvd.dvd.mul_right (pow_dvd_pow 2 hk) q
  · intro hd
    by_contra hlt
    have h1 : 2^(tz m + 1) ∣ m := dvd_trans (pow_dvd_pow 2 (by omega)) hd
    rw [e, pow_succ] at h1
    -- after rewriting, tz m occurs on both sides
    have h2 : 2 ∣ q := by
      have hp : 0 < 2 ^ tz m := by positivity
      have e2 : tz (2 ^ tz m * q) = tz m := by rw [← e]
      rw [e2] at h1
      exact Nat.dvd_of_mul_dvd_mul_left hp h1
    omega

theorem odd_coprime_pow {n : Nat} (hn : n % 2 = 1) (k : Nat) : Nat.Coprime (2^k) n := by
  apply Nat.Coprime.pow_left
  rw [Nat.coprime_two_left]
  exact Nat.odd_iff.2 hn

theorem gcd_drop_twos {m n q k : Nat} (hn : n % 2 = 1) (e : m = 2^k * q) : Nat.gcd m n = Nat.gcd q n := by
  rw [e]
  exact Nat.Coprime.gcd_mul_left_cancel q (odd_coprime_pow hn k)

/-- The loop computes the gcd, whatever `m`, for an odd `n`. -/
theorem steinLoop_eq (m n : Nat) (hn : n % 2 = 1) : steinLoop m n = Nat.gcd m n := by
  induction h : m + n using Nat.strongRecOn generalizing m n with
  | _ s ih =>
    unfold steinLoop
    by_cases hm : m = 0
    · simp [hm]
    · rw [dif_neg hm]
      obtain ⟨q, hq, e⟩ := tz_spec m (by omega)
      have hsh := tz_shift e
      have hqm : q ≤ m := by
        rw [e]; exact Nat.le_mul_of_pos_left q (by positivity)
      have hg := gcd_drop_twos hn e
      simp only [hsh]
      rw [hg]
      by_cases hgt : n > q
      · rw [if_pos hgt, ih (n - q + q) (by omega) (n - q) q hq rfl]
        rw [Nat.gcd_comm q n, Nat.gcd_comm (n-q) q, Nat.gcd_comm n q]
        exact Nat.gcd_sub_self_right (by omega)
      · rw [if_neg hgt, if_neg (by omega), ih (q - n + n) (by omega) (q - n) n hn rfl]
        rw [Nat.gcd_comm, Nat.gcd_comm q n]
        exact Nat.gcd_sub_self_right (by omega)

/-- gcd of two positive numbers from their odd parts. -/
theorem gcd_split {m n : Nat} (hm : 0 < m) (hn : 0 < n) :
    Nat.gcd m n = Nat.gcd m (n >>> tz n) * 2 ^ (min (tz m) (tz n)) := by
  obtain ⟨p, hp, em⟩ := tz_spec m hm
  obtain ⟨q, hq, en⟩ := tz_spec n hn
  rw [tz_shift en, gcd_drop_twos hq em]
  generalize tz m = a at *
  generalize tz n = b at *
  subst em; subst en
  rcases Nat.le_total a b with hab | hab
  · obtain ⟨c, rfl⟩ := Nat.exists_eq_add_of_le hab
    rw [Nat.min_eq_left hab, pow_add, mul_assoc, Nat.gcd_mul_left, mul_comm]
    congr 1
    rw [Nat.gcd_comm, gcd_drop_twos hp rfl, Nat.gcd_comm]
  · obtain ⟨c, rfl⟩ := Nat.exists_eq_add_of_le hab
    rw [Nat.min_eq_right hab, pow_add, mul_assoc, Nat.gcd_mul_left, mul_comm]
    congr 1
    rw [gcd_drop_twos hq rfl]

theorem dvd_or (a b k : Nat) : 2^k ∣ (a ||| b) ↔ 2^k ∣ a ∧ 2^k ∣ b := by
  rw [Nat.dvd_iff_mod_eq_zero, Nat.dvd_iff_mod_eq_zero, Nat.dvd_iff_mod_eq_zero, Nat.or_mod_two_pow,
    Nat.or_eq_zero_iff]

theorem dvd_word (m : Int) (k : Nat) (hk : k ≤ 64) : 2^k ∣ (BitVec.ofInt 64 m).toNat ↔ 2^k ∣ m.natAbs := by
  rw [BitVec.toNat_ofInt]
  have h1 : (2^k ∣ (m % ((2^64 : Nat):Int)).toNat) ↔ ((2^k : Nat) : Int) ∣ m % ((2^64:Nat):Int) := by
    rw [← Int.natCast_dvd_natCast, Int.toNat_of_nonneg (Int.emod_nonneg _ (by decide))]
  rw [h1, ← Int.natCast_dvd (m := 2^k)]
  have h2 : ((2^k : Nat) : Int) ∣ ((2^64 : Nat) : Int) := by
    exact_mod_cast pow_dvd_pow 2 hk
  rw [Int.dvd_iff_emod_eq_zero, Int.dvd_iff_emod_eq_zero, Int.emod_emod_of_dvd _ h2]

theorem tz_or {m n : Int} (hm : InI63 m) (hn : InI63 n) (hm0 : m ≠ 0) (hn0 : n ≠ 0) :
    tz (BitVec.ofInt 64 m ||| BitVec.ofInt 64 n).toNat = min (tz m.natAbs) (tz n.natAbs) := by
  have hmp : 0 < m.natAbs := by omega
  have hnp : 0 < n.natAbs := by omega
  have lim : ∀ x : Nat, 0 < x → x < 2^64 → tz x ≤ 63 := by
    intro x hx hlt
    by_contra h
    have := (le_tz hx 64).1 (by omega)
    have := Nat.le_of_dvd hx this
    omega
  have key : ∀ k, k ≤ 64 → (2^k ∣ (BitVec.ofInt 64 m ||| BitVec.ofInt 64 n).toNat ↔
      2^k ∣ m.natAbs ∧ 2^k ∣ n.natAbs) := by
    intro k hk
    rw [BitVec.toNat_or, dvd_or, dvd_word m k hk, dvd_word n k hk]
  have hpos : 0 < (BitVec.ofInt 64 m ||| BitVec.ofInt 64 n).toNat := by
    rcases Nat.eq_zero_or_pos (BitVec.ofInt 64 m ||| BitVec.ofInt 64 n).toNat with h | h
    · have := (key 64 (le_refl _)).1 (by rw [h]; exact dvd_zero _)
      have := Nat.le_of_dvd hmp this.1
      unfold InI63 at hm; omega
    · exact h
  have l1 := lim _ hpos (BitVec.isLt _)
  have l2 := lim _ hmp (by unfold InI63 at hm; omega)
  have l3 := lim _ hnp (by unfold InI63 at hn; omega)
  apply Nat.le_antisymm
  · have h := (key _ (by omega)).1 ((le_tz hpos _).1 (le_refl _))
    exact Nat.le_min.2 ⟨(le_tz hmp _).2 h.1, (le_tz hnp _).2 h.2⟩
  · have h := (key (min (tz m.natAbs) (tz n.natAbs)) (by omega)).2
      ⟨(le_tz hmp _).1 (Nat.min_le_left _ _), (le_tz hnp _).1 (Nat.min_le_right _ _)⟩
    exact (le_tz hpos _).2 h

theorem gcd_le_small {a b : Int} (ha : InI63 a) (h : a ≠ 0) : (Int.gcd a b : Int) ≤ 2^62 := by
  have h1 : Int.gcd a b ≤ a.natAbs := Nat.gcd_le_left _ (by omega)
  unfold InI63 at ha
  omega

theorem safe_gcd_eq {a b : Int} (ha : InI63 a) (hb : InI63 b) :
    safe_gcd a b = .ok (num (Int.gcd a b)) := by
  unfold safe_gcd
  by_cases hz : a = 0 ∨ b = 0
  · have key : (BitVec.ofInt 64 a ||| BitVec.ofInt 64 b).toInt.natAbs = Int.gcd a b := by
      rcases hz with rfl | rfl
      · have : (BitVec.ofInt 64 0 ||| BitVec.ofInt 64 b) = BitVec.ofInt 64 b := by simp
        rw [this, toInt_ofInt_of_inI64 b (inI64_of_inI63 hb)]; simp
      · have : (BitVec.ofInt 64 a ||| BitVec.ofInt 64 0) = BitVec.ofInt 64 a := by simp
        rw [this, toInt_ofInt_of_inI64 a (inI64_of_inI63 ha)]; simp
    have hin : InI64 ((Int.gcd a b : Nat) : Int) := by
      unfold InI63 at ha hb
      unfold InI64
      rcases hz with rfl | rfl
      · simp only [Int.gcd_zero_left]; omega
      · simp only [Int.gcd_zero_right]; omega
    simp only [if_pos hz, absI64, key, exactI64_ok hin]
    show Except.ok _ = _
    rw [integer_eq_num hin]
  · have hz' : a ≠ 0 ∧ b ≠ 0 := by omega
    have hmin : ¬ (a = -2^63 ∨ b = -2^63) := by unfold InI63 at ha hb; omega
    have ha1 : InI64 ((a.natAbs : Nat) : Int) := by unfold InI63 at ha; unfold InI64; omega
    have hb1 : InI64 ((b.natAbs : Nat) : Int) := by unfold InI63 at hb; unfold InI64; omega
    rw [if_neg hz, if_neg hmin]
    simp only [absI64, exactI64_ok ha1, exactI64_ok hb1]
    have hbp : 0 < b.natAbs := by omega
    have hap : 0 < a.natAbs := by omega
    obtain ⟨q, hq, e⟩ := tz_spec b.natAbs hbp
    have hodd : (b.natAbs >>> tz b.natAbs) % 2 = 1 := by rw [tz_shift e]; exact hq
    have hg : (steinLoop a.natAbs (b.natAbs >>> tz b.natAbs)) *
        2 ^ (min (tz a.natAbs) (tz b.natAbs)) = Int.gcd a b := by
      rw [steinLoop_eq _ _ hodd, ← gcd_split hap hbp]; rfl
    have hg' : ((steinLoop a.natAbs (b.natAbs >>> tz b.natAbs) : Nat) : Int) *
        2 ^ (min (tz a.natAbs) (tz b.natAbs)) = (Int.gcd a b : Int) := by
      rw [← hg]; push_cast; rfl
    have hle := gcd_le_small (b := b) ha hz'.1
    have hgin : InI64 ((steinLoop a.natAbs (b.natAbs >>> tz b.natAbs) : Nat) : Int) := by
      have : steinLoop a.natAbs (b.natAbs >>> tz b.natAbs) ≤ Int.gcd a b := by
        rw [← hg]; exact Nat.le_mul_of_pos_right _ (by positivity)
      unfold InI64; omega
    have hlim : min (tz a.natAbs) (tz b.natAbs) < 64 := by
      by_contra h
      have h2 : 2^64 ∣ a.natAbs := (le_tz hap 64).1 (by omega)
      have := Nat.le_of_dvd hap h2
      unfold InI63 at ha; omega
    show (match checked_shl _ _ with
      | some i => Except.ok (Value.integer i)
      | none => Except.ok (Value.bignum _) : Res Val) = _
    simp only [Int.toNat_natCast]
    rw [tz_or ha hb hz'.1 hz'.2]
    unfold checked_shl
    rw [if_pos hlim, toInt_shl _ hgin, hg']
    have hin : InI64 ((Int.gcd a b : Nat) : Int) := by unfold InI64; omega
    have hbm : Int.bmod ((Int.gcd a b : Nat) : Int) (2^64) = Int.gcd a b := by
      apply Int.bmod_eq_of_le <;> omega
    simp only [hbm, integer_eq_num hin]

theorem Int_natAbs_mul_tdiv {a b : Int} (g : Int) (hg : g = Int.gcd a b) :
    (a * Int.tdiv b g).natAbs = Int.lcm a b := by
  subst hg
  rw [Int.natAbs_mul, Int.natAbs_tdiv, Int.natAbs_natCast]
  unfold Int.lcm Int.gcd Nat.lcm
  rw [Nat.mul_div_assoc _ (Nat.gcd_dvd_right _ _)]; rfl

theorem lcm_ne_pow63 {a b : Int} (ha : InI63 a) (hb : InI63 b) : Int.lcm a b ≠ 2^63 := by
  intro hl2
  have h1 : a.natAbs ∣ 2^63 := by rw [← hl2]; exact Nat.dvd_lcm_left _ _
  have h2 : b.natAbs ∣ 2^63 := by rw [← hl2]; exact Nat.dvd_lcm_right _ _
  have hcases : ∀ x : Nat, x ∣ 2^63 → x ≤ 2^62 → x ∣ 2^62 := by
    intro x hx hle
    obtain ⟨k, hk, rfl⟩ := (Nat.dvd_prime_pow Nat.prime_two).1 hx
    have : k ≤ 62 := (Nat.pow_le_pow_iff_right (by decide)).1 hle
    exact pow_dvd_pow 2 this
  have h3 := hcases _ h1 (by unfold InI63 at ha; omega)
  have h4 := hcases _ h2 (by unfold InI63 at hb; omega)
  have h5 : Int.lcm a b ∣ 2^62 := Nat.lcm_dvd h3 h4
  rw [hl2] at h5
  exact absurd (Nat.le_of_dvd (by decide) h5) (by decide)

theorem safe_lcm_aux {a b g l : Int} (hsg : safe_gcd a b = .ok (num g)) (hz : ¬ (a = 0 ∧ b = 0)) (hg0 : g ≠ 0)
    (hl : ((a * Int.tdiv b g).natAbs : Int) = l) (hl63 : l ≠ 2^63) : safe_lcm a b = .ok (num l) := by
  unfold safe_lcm
  rw [if_neg hz, hsg]
  show (match (num g).as_fixnum with
    | some i => _
    | none => _ : Res Val) = _
  rw [as_fixnum_num, as_bignum_num]
  by_cases hgs : InI63 g
  · rw [if_pos hgs]
    simp only [if_neg hg0]
    by_cases hc : InI64 (a * Int.tdiv b g)
    · rw [checked_pos hc]
      have hin : InI64 l := by
        rw [← hl]; rw [← hl] at hl63
        generalize a * Int.tdiv b g = x at *
        unfold InI64 at *; omega
      simp only [absI64, hl, exactI64_ok hin]
      show Except.ok _ = _
      rw [integer_eq_num hin]
    · rw [checked_neg hc]
      simp only [hl]; rfl
  · rw [if_neg hgs, if_neg hgs]
    simp only [if_neg hg0, hl]; rfl

theorem safe_lcm_eq {a b : Int} (ha : InI63 a) (hb : InI63 b) :
    safe_lcm a b = .ok (num (Int.lcm a b)) := by
  by_cases hz : a = 0 ∧ b = 0
  · obtain ⟨rfl, rfl⟩ := hz; rfl
  · have hg0 : ((Int.gcd a b : Nat) : Int) ≠ 0 := by
      intro h
      have : Int.gcd a b = 0 := by exact_mod_cast h
      rw [Int.gcd_eq_zero_iff] at this; exact hz this
    have h63 := lcm_ne_pow63 ha hb
    refine safe_lcm_aux (safe_gcd_eq ha hb) hz hg0 ?_ (fun h => h63 (by exact_mod_cast h))
    rw [Int_natAbs_mul_tdiv _ rfl]

/-- C08: `a.gcd(b)` is the greatest common divisor: non-negative, divides both, and every common divisor
divides it. -/
theorem C08_gcd (a b : Int) : ∃ g : Int, integer_gcd (num a) (num b) = .ok (num g) ∧
    0 ≤ g ∧ g ∣ a ∧ g ∣ b ∧ ∀ d, d ∣ a → d ∣ b → d ∣ g := by
  refine ⟨Int.gcd a b, ?_, by omega, Int.gcd_dvd_left a b, Int.gcd_dvd_right a b,
    fun d h1 h2 => Int.dvd_coe_gcd h1 h2⟩
  unfold integer_gcd
  rw [as_fixnum_num, as_fixnum_num, as_bignum_num, as_bignum_num]
  by_cases ha : InI63 a <;> by_cases hb : InI63 b
  · simp only [ha, hb, if_true, safe_gcd_eq ha hb]
  all_goals simp only [ha, hb, if_true, if_false]; rfl

/-- C08: `a.lcm(b)` is the least common multiple: non-negative, a multiple of both, and it divides every
common multiple. -/
theorem C08_lcm (a b : Int) : ∃ l : Int, integer_lcm (num a) (num b) = .ok (num l) ∧
    0 ≤ l ∧ a ∣ l ∧ b ∣ l ∧ ∀ d, a ∣ d → b ∣ d → l ∣ d := by
  refine ⟨Int.lcm a b, ?_, by omega, Int.dvd_lcm_left a b, Int.dvd_lcm_right a b,
    fun d h1 h2 => Int.coe_lcm_dvd h1 h2⟩
  unfold integer_lcm
  rw [as_fixnum_num, as_fixnum_num, as_bignum_num, as_bignum_num]
  by_cases ha : InI63 a <;> by_cases hb : InI63 b
  · simp only [ha, hb, if_true, safe_lcm_eq ha hb]
  all_goals simp only [ha, hb, if_true, if_false]; rfl

example : integer_gcd (num (-12)) (num 18) = .ok (num 6) := by
  unfold integer_gcd
  rw [as_fixnum_num, as_fixnum_num, as_bignum_num]
  simp only [show InI63 (-12) by decide, show InI63 18 by decide, if_true]
  rw [safe_gcd_eq (by decide) (by decide)]; decide

end Verif.Arith
