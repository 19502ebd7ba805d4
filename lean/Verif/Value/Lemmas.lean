import Verif.Value.FloatLemma
import Mathlib.Tactic.IntervalCases
import Mathlib.Tactic.Set
namespace Verif.Value

theorem getLsbD_eq_toNat (w : Word) (k : Nat) : w.getLsbD k = decide (w.toNat / 2^k % 2 = 1) := by
  simp [BitVec.getLsbD, Nat.testBit_eq_decide_div_mod_eq]

theorem and_one_eq_zero (w : Word) : (w &&& 1#64 == 0#64) = !w.getLsbD 0 := by
  rw [Bool.eq_iff_iff]
  simp only [beq_iff_eq, Bool.not_eq_true']
  constructor
  · intro h
    have := congrArg (·.getLsbD 0) h
    simpa using this
  · intro h
    apply BitVec.eq_of_getLsbD_eq
    intro i hi
    by_cases h0 : i = 0
    · subst h0; rw [BitVec.getLsbD_and, h]; simp
    · simp [BitVec.getLsbD_one, h0]

theorem and_one_eq_one (w : Word) : (w &&& 1#64 == 1#64) = w.getLsbD 0 := by
  rw [Bool.eq_iff_iff]
  simp only [beq_iff_eq]
  constructor
  · intro h
    have := congrArg (·.getLsbD 0) h
    simpa using this
  · intro h
    apply BitVec.eq_of_getLsbD_eq
    intro i hi
    by_cases h0 : i = 0
    · subst h0; simp [h]
    · simp [BitVec.getLsbD_one, h0]

theorem toInt_ofInt_of_inI64 (i : Int) (h : InI64 i) : (BitVec.ofInt 64 i).toInt = i := by
  unfold InI64 at h
  rw [BitVec.toInt_ofInt]; apply Int.bmod_eq_of_le <;> omega

theorem getLsbD_lit_aux (n k : Nat) : (BitVec.ofNat 64 n).getLsbD k = (decide (k < 64) && n.testBit k) := by
  simp [BitVec.getLsbD_ofNat]

theorem is_i63_iff (i : Int) (h : InI64 i) : is_i63 (BitVec.ofInt 64 i) = true ↔ InI63 i := by
  have hm := toInt_ofInt_of_inI64 i h
  unfold InI64 at h
  unfold is_i63 InI63
  generalize BitVec.ofInt 64 i = w at *
  rw [BitVec.toInt_eq_toNat_cond] at hm
  have hlt := w.isLt
  simp only [and_one_eq_zero, BitVec.getLsbD_xor, BitVec.getLsbD_ushiftRight]
  simp only [getLsbD_eq_toNat, Bool.not_eq_true', bne_eq_false_iff_eq, decide_eq_decide]
  split at hm <;> omega

theorem toInt_fixnumW (i : Int) (h : InI63 i) : (fixnumW (BitVec.ofInt 64 i)).toInt = 2 * i + 1 := by
  have h' : InI64 i := by unfold InI64 InI63 at *; omega
  have hm := toInt_ofInt_of_inI64 i h'
  unfold InI63 at h
  unfold fixnumW
  generalize BitVec.ofInt 64 i = w at *
  have : (w <<< 1) ||| 0b1#64 = (w <<< 1) + 1#64 := by
    rw [BitVec.add_eq_or_of_and_eq_zero]
    apply BitVec.eq_of_getLsbD_eq
    intro i hi
    by_cases h0 : i = 0
    · subst h0; simp
    · simp [BitVec.getLsbD_one, h0]
  rw [this]
  rw [BitVec.toInt_eq_toNat_cond] at *
  have hlt := w.isLt
  simp [BitVec.toNat_add, BitVec.toNat_shiftLeft, Nat.shiftLeft_eq] at *
  split at hm <;> split <;> omega

theorem and_three_eq_two (w : Word) :
    (w &&& 0b11#64 == 2#64) = (!w.getLsbD 0 && w.getLsbD 1) := by
  rw [Bool.eq_iff_iff]
  simp only [beq_iff_eq, Bool.and_eq_true, Bool.not_eq_true']
  constructor
  · intro h
    have h0 := congrArg (·.getLsbD 0) h
    have h1 := congrArg (·.getLsbD 1) h
    simp only [BitVec.getLsbD_and] at h0 h1
    constructor
    · simpa using h0
    · simpa using h1
  · rintro ⟨h0, h1⟩
    apply BitVec.eq_of_getLsbD_eq
    intro i hi
    rw [BitVec.getLsbD_and]
    rcases Nat.lt_or_ge i 2 with h | h
    · interval_cases i
      · rw [h0]; rfl
      · rw [h1]; rfl
    · have h3 : ∀ j, 2 ≤ j → (3#64).getLsbD j = false := by
        intro j hj
        rw [getLsbD_eq_toNat]
        have : (3#64).toNat / 2^j = 0 := by
          apply Nat.div_eq_of_lt
          calc (3#64).toNat < 2^2 := by decide
            _ ≤ 2^j := Nat.pow_le_pow_right (by decide) hj
        rw [this]; rfl
      have h2 : ∀ j, 2 ≤ j → (2#64).getLsbD j = false := by
        intro j hj
        rw [getLsbD_eq_toNat]
        have : (2#64).toNat / 2^j = 0 := by
          apply Nat.div_eq_of_lt
          calc (2#64).toNat < 2^2 := by decide
            _ ≤ 2^j := Nat.pow_le_pow_right (by decide) hj
        rw [this]; rfl
      rw [h3 i h, h2 i h]; simp

theorem fixnumW_bit0 (w : Word) : (fixnumW w).getLsbD 0 = true := by
  simp [fixnumW]

/-- The packed word of a float that is packed. -/
def floatW (b : Word) : Word := ((b &&& FLOAT_MASK1) ||| FLOAT_MASK2).rotateLeft 3

theorem floatW_bit0 (b : Word) : (floatW b).getLsbD 0 = false := by
  simp [floatW, FLOAT_MASK1, FLOAT_MASK2, BitVec.getElem_rotateLeft]

theorem floatW_bit1 (b : Word) : (floatW b).getLsbD 1 = true := by
  simp [floatW, FLOAT_MASK1, FLOAT_MASK2, BitVec.getElem_rotateLeft]

theorem packed_of_bit0 (w : Word) (h : w.getLsbD 0 = true) : is_packed_value w = true := by
  unfold is_packed_value
  rw [bne_iff_ne]
  intro h'
  have := congrArg (·.getLsbD 0) h'
  simp only [BitVec.getLsbD_and, h] at this
  revert this; decide

theorem packed_of_bit1 (w : Word) (h : w.getLsbD 1 = true) : is_packed_value w = true := by
  unfold is_packed_value
  rw [bne_iff_ne]
  intro h'
  have := congrArg (·.getLsbD 1) h'
  simp only [BitVec.getLsbD_and, h] at this
  revert this; decide

theorem as_fnum_fixnumW (i : Int) (h : InI63 i) : as_fnum (fixnumW (BitVec.ofInt 64 i)) = i := by
  unfold as_fnum
  rw [BitVec.toInt_sshiftRight, toInt_fixnumW i h, Int.shiftRight_eq_div_pow]
  omega

theorem unpack_fixnum (i : Int) (h : InI63 i) :
    unpack (.word (fixnumW (BitVec.ofInt 64 i))) = .integer i := by
  have h0 := fixnumW_bit0 (BitVec.ofInt 64 i)
  simp only [unpack, packed_of_bit0 _ h0, if_true, unpackW, as_fixnum, is_fnum]
  have := and_one_eq_one (fixnumW (BitVec.ofInt 64 i))
  rw [h0] at this
  simp only [this, if_true, as_fnum_fixnumW i h]

theorem unpack_integer (i : Int) (h : InI64 i) :
    unpack (integer i) = if InI63 i then .integer i else .bignum i := by
  unfold integer
  by_cases h3 : InI63 i
  · rw [if_pos ((is_i63_iff i h).2 h3), if_pos h3, unpack_fixnum i h3]
  · rw [if_neg (fun hh => h3 ((is_i63_iff i h).1 hh)), if_neg h3]; rfl

theorem unpack_bignum (n : Int) :
    unpack (bignum n) = if InI63 n then .integer n else .bignum n := by
  unfold bignum
  by_cases h : InI64 n
  · rw [if_pos h, unpack_integer n h]
  · have : ¬ InI63 n := by unfold InI63 InI64 at *; omega
    rw [if_neg h, if_neg this]; rfl

theorem unpackW_floatW (b : Word) (hz : floatW b ≠ ZERO)
    (he : (((b >>> 60) &&& 0b111#64) + 1#64) &&& 0b0110#64 = 0b0100#64) :
    unpack (.word (floatW b)) = .float b := by
  have h0 := floatW_bit0 b
  have h1 := floatW_bit1 b
  simp only [unpack, packed_of_bit1 _ h1, if_true, unpackW, as_fixnum, is_fnum]
  have e1 := and_one_eq_one (floatW b)
  rw [h0] at e1
  have e2 := and_three_eq_two (floatW b)
  rw [h0, h1] at e2
  have hz' : (floatW b == ZERO) = false := by simpa using hz
  simp only [e1, Bool.false_eq_true, if_false, as_flonum, e2, Bool.not_false, Bool.and_true, if_true, hz']
  congr 1
  exact float_roundtrip_word b he

theorem floatW_eq_ZERO (b : Word)
    (he : (((b >>> 60) &&& 0b111#64) + 1#64) &&& 0b0110#64 = 0b0100#64)
    (h : floatW b = ZERO) : b = 0x3000000000000000#64 := by
  have hr := float_roundtrip_word b he
  simp only at hr
  unfold floatW at h
  rw [h] at hr
  rw [← hr]; decide

theorem unpack_float (b : Word) (hneg : b ≠ 0x8000000000000000#64) (ht : b ≠ 0x3000000000000000#64) :
    unpack (float b) = .float b := by
  unfold float
  by_cases hz : b = 0#64
  · subst hz; decide
  · have : isZeroBits b = false := by simp [isZeroBits, hz, hneg]
    simp only [this, Bool.false_eq_true, if_false, beq_iff_eq]
    split
    · rename_i he
      exact unpackW_floatW b (fun h => ht (floatW_eq_ZERO b he h)) he
    · rfl

/-- The packed word of a symbol. -/
def symbolW (id : BitVec 32) : Word := (id.zeroExtend 64 <<< 32) ||| TAG_SYMBOL

theorem symbolW_low (id : BitVec 32) (k : Nat) (hk : k < 32) :
    (symbolW id).getLsbD k = TAG_SYMBOL.getLsbD k := by
  simp [symbolW, BitVec.getLsbD_or, hk]

theorem symbolW_toNat (id : BitVec 32) : (symbolW id).toNat = id.toNat * 2^32 + 12 := by
  unfold symbolW
  have : (id.zeroExtend 64 <<< 32) ||| TAG_SYMBOL = (id.zeroExtend 64 <<< 32) + TAG_SYMBOL := by
    rw [BitVec.add_eq_or_of_and_eq_zero]
    apply BitVec.eq_of_getLsbD_eq
    intro i hi
    rw [BitVec.getLsbD_and]
    by_cases h : i < 32
    · simp [h]
    · have : TAG_SYMBOL.getLsbD i = false := by
        rw [getLsbD_eq_toNat]
        have : TAG_SYMBOL.toNat / 2^i = 0 := by
          apply Nat.div_eq_of_lt
          calc TAG_SYMBOL.toNat < 2^32 := by decide
            _ ≤ 2^i := Nat.pow_le_pow_right (by decide) (by omega)
        rw [this]; rfl
      rw [this]; simp
  rw [this]
  have := id.isLt
  simp [BitVec.toNat_add, BitVec.toNat_shiftLeft, Nat.shiftLeft_eq, TAG_SYMBOL]
  omega

theorem and_ff_toNat (w : Word) : (w &&& 0xff#64).toNat = w.toNat % 256 := by
  rw [BitVec.toNat_and]
  exact Nat.and_two_pow_sub_one_eq_mod w.toNat 8

theorem is_packed_symbol_iff (w : Word) : is_packed_symbol w = true ↔ w.toNat % 256 = 12 := by
  unfold is_packed_symbol
  rw [beq_iff_eq, ← and_ff_toNat]
  constructor
  · intro h; rw [h]; rfl
  · intro h; apply BitVec.eq_of_toNat_eq; rw [h]; rfl

theorem as_packed_symbol_symbolW (id : BitVec 32) : as_packed_symbol (symbolW id) = id := by
  apply BitVec.eq_of_toNat_eq
  unfold as_packed_symbol
  have := id.isLt
  rw [BitVec.toNat_setWidth, BitVec.toNat_ushiftRight, symbolW_toNat, Nat.shiftRight_eq_div_pow]
  omega

theorem unpack_symbol (id : BitVec 32) : unpack (symbol id) = .symbol id := by
  have h0 : (symbolW id).getLsbD 0 = false := by rw [symbolW_low id 0 (by decide)]; rfl
  have h1 : (symbolW id).getLsbD 1 = false := by rw [symbolW_low id 1 (by decide)]; rfl
  have h2 : (symbolW id).getLsbD 2 = true := by rw [symbolW_low id 2 (by decide)]; rfl
  have hp : is_packed_value (symbolW id) = true := by
    unfold is_packed_value
    rw [bne_iff_ne]
    intro h'
    have := congrArg (·.getLsbD 2) h'
    simp only [BitVec.getLsbD_and, h2] at this
    revert this; decide
  have hs : is_packed_symbol (symbolW id) = true := by
    rw [is_packed_symbol_iff, symbolW_toNat]; omega
  have e1 := and_one_eq_one (symbolW id)
  rw [h0] at e1
  have e2 := and_three_eq_two (symbolW id)
  rw [h0, h1] at e2
  show unpack (.word (symbolW id)) = _
  simp only [unpack, hp, if_true, unpackW, as_fixnum, is_fnum, e1, Bool.false_eq_true, if_false,
    as_flonum, e2, Bool.and_false, hs, as_packed_symbol_symbolW]

theorem to_bool_false_iff (w : Word) :
    to_bool w = false ↔ w = 0x04#64 ∨ w = 0x14#64 ∨ w = 0x24#64 ∨ w = 0x34#64 := by
  unfold to_bool
  rw [bne_eq_false_iff_eq]
  constructor
  · intro h
    have hb : ∀ k, k < 64 → k ≠ 4 → k ≠ 5 → w.getLsbD k = (0x04#64).getLsbD k := by
      intro k hk h4 h5
      have := congrArg (·.getLsbD k) h
      simp only [BitVec.getLsbD_or, BitVec.getLsbD_and] at this
      have m2 : BOOL_MASK2.getLsbD k = true := by interval_cases k <;> first | rfl | contradiction
      have m1 : BOOL_MASK1.getLsbD k = false := by interval_cases k <;> first | rfl | contradiction
      have m3 : (0x34#64).getLsbD k = (0x04#64).getLsbD k := by
        interval_cases k <;> first | rfl | contradiction
      rw [m1, m2, m3] at this
      simpa using this
    have key : ∀ v : Word, v.getLsbD 4 = w.getLsbD 4 → v.getLsbD 5 = w.getLsbD 5 →
        (∀ k, k < 64 → k ≠ 4 → k ≠ 5 → v.getLsbD k = (0x04#64).getLsbD k) → w = v := by
      intro v h4 h5 hr
      apply BitVec.eq_of_getLsbD_eq
      intro i hi
      by_cases e4 : i = 4
      · subst e4; exact h4.symm
      by_cases e5 : i = 5
      · subst e5; exact h5.symm
      rw [hb i hi e4 e5, hr i hi e4 e5]
    cases h4 : w.getLsbD 4 <;> cases h5 : w.getLsbD 5
    · left; refine key _ (by rw [h4]; rfl) (by rw [h5]; rfl) ?_
      intro k hk a b; rfl
    · right; right; left; refine key _ (by rw [h4]; rfl) (by rw [h5]; rfl) ?_
      intro k hk a b; interval_cases k <;> first | rfl | contradiction
    · right; left; refine key _ (by rw [h4]; rfl) (by rw [h5]; rfl) ?_
      intro k hk a b; interval_cases k <;> first | rfl | contradiction
    · right; right; right; refine key _ (by rw [h4]; rfl) (by rw [h5]; rfl) ?_
      intro k hk a b; interval_cases k <;> first | rfl | contradiction
  · rintro (h | h | h | h) <;> subst h <;> decide

end Verif.Value
