import Verif.ISeq.Lemmas
/-!
# C29: what is written into an instruction sequence is what is read from it
-/
namespace Verif.ISeq
open Op

/-- **C29** (operands).  Wherever an instruction is emitted and whatever is emitted after it, fetching
at its position yields the same opcode and the same operand values, and leaves the program counter
right behind it. -/
theorem C29_fetch_emit (pre post : Code) (op : Byte) (args : List Operand)
    (h : vmOperands op = some (args.map Operand.width)) :
    fetch (emit pre op args ++ post) pre.length = some ((op, args), (emit pre op args).length) := by
  simp only [emit_eq, List.append_assoc, List.cons_append, fetch, read8_app, Option.bind_eq_bind,
    Option.bind_some, h]
  have := readOperands_app (pre ++ [op]) args post
  simp only [List.append_assoc, List.cons_append, List.nil_append, List.length_append,
    List.length_cons, List.length_nil, Nat.zero_add] at this
  rw [this]
  simp [Nat.add_assoc]; omega

example : fetch (emit (emit [] PUSH_NIL []) SEND
    [.o32 0x12345678, .o16 0xabcd, .o8 7, .o32 0, .o32 99] ++ [POP]) 1 =
    some ((SEND, [.o32 0x12345678, .o16 0xabcd, .o8 7, .o32 0, .o32 99]), 17) := by
  decide

/-- **C29** (tables).  For each of the 256 opcodes: the operands the compiler writes are the operands
the interpreter reads, and the size the peephole pass skips is one byte plus those operands. -/
theorem C29_layouts_agree (op : Byte) :
    genOperands op = vmOperands op ∧
    inst_size op = (vmOperands op).map fun ws => 1 + (ws.map fun w => w.bits / 8).sum := by
  revert op; decide +kernel

/-- **C29** (forward jump).  A jump emitted with a hole, followed by any code, and patched to the current
end: the jump at its position is read with a displacement that leads to that end; everything
else is as it was emitted. -/
theorem C29_forward_jump (pre mid post : Code) (op : Byte) (hop : vmOperands op = some [.w32])
    (hlen : pre.length + 5 + mid.length < 2 ^ 31) :
    let j := gen_jump pre op
    let c := write_disp_from_cur (j.1 ++ mid) j.2
    ∃ d : BitVec 32,
      c = pre ++ op :: le32 d ++ mid ∧
      fetch (c ++ post) pre.length = some ((op, [.o32 d]), j.2) ∧
      addDisp j.2 d = (j.1 ++ mid).length := by
  intro j c
  have hj2 : j.2 = pre.length + 5 := by simp [j, gen_jump, push32, push8, le32]
  have hj : j.1 ++ mid = (pre ++ [op]) ++ 0 :: 0 :: 0 :: 0 :: mid := by
    simp [j, gen_jump, push32, push8, le32]
  have hc : c = pre ++ op :: le32 (dispTo j.2 (j.1 ++ mid).length) ++ mid := by
    show write_disp (j.1 ++ mid) j.2 (j.1 ++ mid).length = _
    generalize hD : (j.1 ++ mid).length = D
    rw [hj, write_disp_app _ _ _ _ _ _ _ _ (by simp [hj2])]
    simp
  have hl : (j.1 ++ mid).length = pre.length + 5 + mid.length := by rw [hj]; simp; omega
  refine ⟨dispTo j.2 (j.1 ++ mid).length, hc, ?_, ?_⟩
  · have := C29_fetch_emit pre (mid ++ post) op [.o32 (dispTo j.2 (j.1 ++ mid).length)] hop
    rw [emit_eq] at this
    simp only [List.map_cons, List.map_nil, List.flatten_cons, List.flatten_nil, List.append_nil, opBytes]
      at this
    rw [hc]
    generalize dispTo j.2 (j.1 ++ mid).length = D at this ⊢
    rw [hj2]
    simpa [le32] using this
  · rw [addDisp_dispTo] <;> omega

example : (gen_jump [PUSH_NIL] JMP_F).1 = [PUSH_NIL, JMP_F, 0, 0, 0, 0] := by decide

/-- **C29** (backward jump).  A backward jump to any earlier position is read with a displacement that
leads to that position. -/
theorem C29_backward_jump (pre post : Code) (pos : Nat) (hpos : pos ≤ pre.length)
    (hlen : pre.length + 5 < 2 ^ 31) :
    ∃ d : BitVec 32,
      gen_jmp_back pre pos = pre ++ JMP_BACK :: le32 d ∧
      fetch (gen_jmp_back pre pos ++ post) pre.length = some ((JMP_BACK, [.o32 d]), pre.length + 5) ∧
      addDisp (pre.length + 5) d = pos := by
  refine ⟨dispTo pre.length pos - 5, by simp [gen_jmp_back, push32, push8], ?_, ?_⟩
  · have := C29_fetch_emit pre post JMP_BACK [.o32 (dispTo pre.length pos - 5)]
      (show vmOperands JMP_BACK = some [.w32] by decide)
    rw [emit_eq] at this
    simp only [List.map_cons, List.map_nil, List.flatten_cons, List.flatten_nil, List.append_nil, opBytes]
      at this
    simpa [gen_jmp_back, push32, push8, le32] using this
  · have : dispTo pre.length pos - 5 = dispTo (pre.length + 5) pos := by
      unfold dispTo
      rw [show ((pos : Int) - ((pre.length + 5 : Nat) : Int)) = (pos - pre.length) - 5 by push_cast; omega]
      apply BitVec.eq_of_toInt_eq
      rw [BitVec.toInt_sub, BitVec.toInt_ofInt, BitVec.toInt_ofInt]
      simp
    rw [this, addDisp_dispTo] <;> omega

example : gen_jmp_back [PUSH_NIL, POP, PUSH_NIL] 1 = [PUSH_NIL, POP, PUSH_NIL, JMP_BACK, 0xf9, 0xff, 0xff, 0xff] := by
  decide

/-- **C29** (patching in general).  `write_disp` into any jump of a code shorter than 2 GiB makes
that jump lead to the given destination, before or behind it, and changes nothing else. -/
theorem C29_patch (pre post : Code) (a b c d : Byte) (dest : Nat)
    (h1 : pre.length + 4 < 2 ^ 31) (h2 : dest < 2 ^ 31) :
    ∃ v : BitVec 32,
      write_disp (pre ++ a :: b :: c :: d :: post) (pre.length + 4) dest = pre ++ le32 v ++ post ∧
      read32 (write_disp (pre ++ a :: b :: c :: d :: post) (pre.length + 4) dest) pre.length
        = some (v, pre.length + 4) ∧
      addDisp (pre.length + 4) v = dest := by
  refine ⟨dispTo (pre.length + 4) dest, ?_, ?_, ?_⟩
  · rw [write_disp_app _ _ _ _ _ _ _ _ rfl]; simp
  · rw [write_disp_app _ _ _ _ _ _ _ _ rfl, read32_app]
  · rw [addDisp_dispTo] <;> omega

end Verif.ISeq
