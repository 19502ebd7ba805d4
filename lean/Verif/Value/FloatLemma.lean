import Verif.Value.Model
import Mathlib.Tactic.IntervalCases
namespace Verif.Value

theorem exp_bits (b : Word)
    (he : (((b >>> 60) &&& 0b111#64) + 1#64) &&& 0b0110#64 = 0b0100#64) :
    (b.getLsbD 62 = false ∧ b.getLsbD 61 = true ∧ b.getLsbD 60 = true) ∨
    (b.getLsbD 62 = true ∧ b.getLsbD 61 = false ∧ b.getLsbD 60 = false) := by
  have h60 : ((b >>> 60) &&& 0b111#64).getLsbD 0 = b.getLsbD 60 := by simp
  have h61 : ((b >>> 60) &&& 0b111#64).getLsbD 1 = b.getLsbD 61 := by simp
  have h62 : ((b >>> 60) &&& 0b111#64).getLsbD 2 = b.getLsbD 62 := by simp
  have hlt : ((b >>> 60) &&& 0b111#64).toNat < 8 := by
    rw [BitVec.toNat_and]
    exact lt_of_le_of_lt (Nat.and_le_right) (by decide)
  rw [← h60, ← h61, ← h62]
  clear h60 h61 h62
  generalize ((b >>> 60) &&& 0b111#64) = e at *
  obtain ⟨⟨n, hn⟩⟩ := e
  simp only [BitVec.toNat_ofFin] at hlt
  interval_cases n <;> decide +revert

theorem float_roundtrip_word (b : Word)
    (he : (((b >>> 60) &&& 0b111#64) + 1#64) &&& 0b0110#64 = 0b0100#64) :
    let w := ((b &&& FLOAT_MASK1) ||| FLOAT_MASK2).rotateLeft 3
    (((w &&& ~~~0b0011#64) ||| (0b10#64 - ((w >>> 63) &&& 0b1#64))).rotateRight 3) = b := by
  intro w
  have h63 : (w >>> 63) &&& 1#64 = if b.getLsbD 60 then 1#64 else 0#64 := by
    apply BitVec.eq_of_getLsbD_eq
    intro i hi
    by_cases h0 : i = 0
    · subst h0
      simp only [w]
      split <;> simp_all [FLOAT_MASK1, FLOAT_MASK2, BitVec.getElem_rotateLeft]
    · split <;> simp [BitVec.getLsbD_one, h0]
  rw [h63]
  rcases exp_bits b he with ⟨h2, h1, h0⟩ | ⟨h2, h1, h0⟩
  · simp only [h0]
    apply BitVec.eq_of_getLsbD_eq
    intro i hi
    interval_cases i <;> simp_all [w, FLOAT_MASK1, FLOAT_MASK2, BitVec.getElem_rotateLeft, BitVec.getElem_rotateRight]
  · simp only [h0]
    apply BitVec.eq_of_getLsbD_eq
    intro i hi
    interval_cases i <;> simp_all [w, FLOAT_MASK1, FLOAT_MASK2, BitVec.getElem_rotateLeft, BitVec.getElem_rotateRight]


end Verif.Value
