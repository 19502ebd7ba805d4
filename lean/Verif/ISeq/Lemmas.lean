import Verif.ISeq.Model
import Mathlib.Tactic.IntervalCases
/-! Helper lemmas for instruction sequences. -/
namespace Verif.ISeq
open Op

theorem le32_back (v : BitVec 32) :
    ((v >>> 24).setWidth 8 ++ (v >>> 16).setWidth 8 ++ (v >>> 8).setWidth 8 ++ v.setWidth 8 : BitVec 32) = v := by
  apply BitVec.eq_of_getLsbD_eq
  intro i hi
  simp only [BitVec.getLsbD_append, BitVec.getLsbD_setWidth, BitVec.getLsbD_ushiftRight]
  interval_cases i <;> simp

theorem le16_back (v : BitVec 16) :
    ((v >>> 8).setWidth 8 ++ v.setWidth 8 : BitVec 16) = v := by
  apply BitVec.eq_of_getLsbD_eq
  intro i hi
  simp only [BitVec.getLsbD_append, BitVec.getLsbD_setWidth, BitVec.getLsbD_ushiftRight]
  interval_cases i <;> simp

theorem le64_back (v : BitVec 64) :
    ((v >>> 56).setWidth 8 ++ (v >>> 48).setWidth 8 ++ (v >>> 40).setWidth 8 ++ (v >>> 32).setWidth 8 ++
      (v >>> 24).setWidth 8 ++ (v >>> 16).setWidth 8 ++ (v >>> 8).setWidth 8 ++ v.setWidth 8 : BitVec 64) = v := by
  apply BitVec.eq_of_getLsbD_eq
  intro i hi
  simp only [BitVec.getLsbD_append, BitVec.getLsbD_setWidth, BitVec.getLsbD_ushiftRight]
  interval_cases i <;> simp

theorem get_app {α} (pre : List α) (x : α) (post : List α) : (pre ++ x :: post)[pre.length]? = some x := by
  simp

theorem read8_app (pre : Code) (b : Byte) (post : Code) :
    read8 (pre ++ b :: post) pre.length = some (b, pre.length + 1) := by
  simp [read8]

theorem read8_app' (pre : Code) (b : Byte) (post : Code) (n : Nat) (h : n = pre.length) :
    read8 (pre ++ b :: post) n = some (b, n + 1) := by
  subst h; exact read8_app ..

theorem read8_at (c : Code) (pc : Nat) (b : Byte) (h : c[pc]? = some b) : read8 c pc = some (b, pc + 1) := by
  simp [read8, h]

theorem read16_app (pre : Code) (v : BitVec 16) (post : Code) :
    read16 (pre ++ ([v.setWidth 8, (v >>> 8).setWidth 8] ++ post)) pre.length = some (v, pre.length + 2) := by
  simp only [read16, read8, List.cons_append, List.nil_append, List.getElem?_append_right (Nat.le_refl _),
    Nat.sub_self, List.getElem?_cons_zero, Option.map_some, Option.bind_eq_bind, Option.bind_some,
    List.getElem?_append_right (Nat.le_add_right pre.length 1), Nat.add_sub_cancel_left,
    List.getElem?_cons_succ]
  exact congrArg some (Prod.ext (le16_back v) rfl)

theorem read32_of (c : Code) (pc : Nat) (a b d e : Byte)
    (h0 : c[pc]? = some a) (h1 : c[pc + 1]? = some b) (h2 : c[pc + 2]? = some d) (h3 : c[pc + 3]? = some e) :
    read32 c pc = some (e ++ d ++ b ++ a, pc + 4) := by
  simp [read32, read8, h0, h1, h2, h3]

theorem app_off {α} (pre l : List α) (i : Nat) : (pre ++ l)[pre.length + i]? = l[i]? := by
  rw [List.getElem?_append_right (by omega)]; congr 1; omega

theorem read32_app (pre : Code) (v : BitVec 32) (post : Code) :
    read32 (pre ++ (le32 v ++ post)) pre.length = some (v, pre.length + 4) := by
  rw [read32_of _ _ (v.setWidth 8) ((v >>> 8).setWidth 8) ((v >>> 16).setWidth 8) ((v >>> 24).setWidth 8)]
  · exact congrArg some (Prod.ext (le32_back v) rfl)
  · exact app_off pre (le32 v ++ post) 0
  · exact app_off pre (le32 v ++ post) 1
  · exact app_off pre (le32 v ++ post) 2
  · exact app_off pre (le32 v ++ post) 3

theorem read64_app (pre : Code) (v : BitVec 64) (post : Code) :
    read64 (pre ++ (le64 v ++ post)) pre.length = some (v, pre.length + 8) := by
  have h : ∀ i b, (le64 v ++ post)[i]? = some b →
      read8 (pre ++ (le64 v ++ post)) (pre.length + i) = some (b, pre.length + i + 1) := by
    intro i b h
    exact read8_at _ _ _ (by rw [app_off]; exact h)
  have h0 := h 0 _ rfl
  have h1 := h 1 _ rfl
  have h2 := h 2 _ rfl
  have h3 := h 3 _ rfl
  have h4 := h 4 _ rfl
  have h5 := h 5 _ rfl
  have h6 := h 6 _ rfl
  have h7 := h 7 _ rfl
  simp only [Nat.add_zero, Nat.add_assoc, Nat.reduceAdd] at h0 h1 h2 h3 h4 h5 h6 h7
  simp only [read64, h0, Option.bind_eq_bind, Option.bind_some, h1, h2, h3, h4, h5, h6, h7]
  exact congrArg some (Prod.ext (le64_back v) rfl)

/-! ### Operands -/

/-- Bytes of an operand. -/
def opBytes : Operand → Code
  | .o8 v => [v]
  | .o16 v => [BitVec.setWidth 8 v, BitVec.setWidth 8 (v >>> 8)]
  | .o32 v => le32 v
  | .o64 v => le64 v

theorem pushOperand_eq (c : Code) (o : Operand) : pushOperand c o = c ++ opBytes o := by
  cases o <;> rfl

theorem foldl_push (c : Code) (os : List Operand) :
    os.foldl pushOperand c = c ++ (os.map opBytes).flatten := by
  induction os generalizing c with
  | nil => simp
  | cons o os ih => simp [ih, pushOperand_eq]

theorem emit_eq (c : Code) (op : Byte) (args : List Operand) :
    emit c op args = c ++ op :: (args.map opBytes).flatten := by
  simp [emit, foldl_push, push8]

theorem opBytes_length (o : Operand) : (opBytes o).length = o.width.bits / 8 := by
  cases o <;> simp [opBytes, Operand.width, Width.bits, le32, le64]

theorem readOperand_app (pre : Code) (o : Operand) (post : Code) :
    readOperand (pre ++ (opBytes o ++ post)) pre.length o.width =
      some (o, pre.length + (opBytes o).length) := by
  cases o
  · simp only [Operand.width, readOperand, opBytes, List.cons_append, List.nil_append, read8_app]; rfl
  · simp only [Operand.width, readOperand, opBytes, read16_app]; rfl
  · simp only [Operand.width, readOperand, opBytes, read32_app]; rfl
  · simp only [Operand.width, readOperand, opBytes, read64_app]; rfl

theorem readOperands_app (pre : Code) (os : List Operand) (post : Code) :
    readOperands (pre ++ ((os.map opBytes).flatten ++ post)) pre.length (os.map Operand.width) =
      some (os, pre.length + ((os.map opBytes).flatten).length) := by
  induction os generalizing pre with
  | nil => simp [readOperands]
  | cons o os ih =>
    simp only [List.map_cons, List.flatten_cons, List.append_assoc, readOperands, readOperand_app,
      Option.bind_eq_bind, Option.bind_some]
    have := ih (pre ++ opBytes o)
    simp only [List.append_assoc, List.length_append] at this
    rw [this]
    simp [Nat.add_assoc]

/-! ### Displacements -/

theorem addDisp_dispTo (src dest : Nat) (h1 : (dest : Int) - src < 2 ^ 31) (h2 : -(2 ^ 31) ≤ (dest : Int) - src)
    (h3 : dest < 2 ^ 64) : addDisp src (dispTo src dest) = dest := by
  unfold addDisp dispTo
  rw [BitVec.toInt_ofInt, Int.bmod_eq_of_le (by omega) (by omega)]
  have : (src : Int) + (dest - src) = dest := by omega
  rw [this]
  simp only [BitVec.ofInt_natCast, BitVec.toNat_ofNat]
  exact Nat.mod_eq_of_lt h3

theorem write_disp_length (c : Code) (s d : Nat) : (write_disp c s d).length = c.length := by
  simp [write_disp]

theorem set_app_zero {α} (pre : List α) (x y : α) (post : List α) (i : Nat) (h : i = pre.length) :
    (pre ++ x :: post).set i y = pre ++ y :: post := by
  subst h; simp

/-- `write_disp` on a four-byte hole. -/
theorem write_disp_app (pre : Code) (a b d e : Byte) (post : Code) (s t : Nat) (h : s = pre.length + 4) :
    write_disp (pre ++ a :: b :: d :: e :: post) s t = pre ++ (le32 (dispTo s t) ++ post) := by
  subst h
  unfold write_disp le32
  simp only [Nat.add_sub_cancel]
  rw [set_app_zero pre a _ _ _ rfl]
  have e1 : pre.length + 4 - 3 = (pre ++ [BitVec.setWidth 8 (dispTo (pre.length + 4) t)]).length := by simp
  have a1 : ∀ (x : Byte) (l : Code), pre ++ x :: l = (pre ++ [x]) ++ l := by simp
  rw [a1, set_app_zero _ b _ _ _ e1]
  have a2 : ∀ (p : Code) (x : Byte) (l : Code), p ++ x :: l = (p ++ [x]) ++ l := by simp
  rw [a2, set_app_zero _ d _ _ _ (by simp)]
  rw [a2, set_app_zero _ e _ _ _ (by simp)]
  simp

end Verif.ISeq
