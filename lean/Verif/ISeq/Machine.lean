import Verif.ISeq.Model
/-!
# What running an instruction sequence looks like from outside

The interpreter loop of `run_context_main` (`vm/executor/opt_core.rs:14-575`), with everything except
control flow inside one instruction sequence left as a parameter.  Two sequences are
indistinguishable if they run the same instructions, with the same operands, on the same states, in
the same order, and end alike; which jumps connect them is not observable.
-/
namespace Verif.ISeq
open Op

/-- What an ordinary instruction may do next: go on behind itself, continue at a given position (a
rescue entry, or a case label), or leave this sequence with some result. -/
inductive Out (S R : Type) | next (s : S) | goto (pos : Nat) (s : S) | halt (r : R)

/-- The effect of the single instructions on a state `S` (operand stack, variables, heap, …).

* `exec op operands pos s`: every instruction that is not one of the jumps below.  The position is
  an argument since the interpreter looks up the exception table with it.
* `test op imm pos s`: the tests of the conditional jumps (`JMP_T`, `JMP_F_LT`, …, with the immediate
  operand of `JMP_F_LTI`, …); evaluating a comparison may raise, hence `Out`.
  `true` means: do not jump (`jmp_cond`, `vm/executor.rs:361-366`).
* `term op s`: `RETURN`, `BREAK`, `MRETURN`, which leave the sequence. -/
structure Machine (S R : Type) where
  exec : Byte → Code → Nat → S → Out S R
  test : Byte → Option (BitVec 32) → Nat → S → Out S R ⊕ (Bool × S)
  term : Byte → S → R

/-- What an outside observer sees. -/
inductive Event (S R : Type)
  | ran (op : Byte) (operands : Code) (s : S)
  | ended (r : R)

/-- Where the run is: about to execute at a position, or finished. -/
inductive Conf (S R : Type) | at (pos : Nat) (s : S) | done (r : R)

/-- Configuration after an ordinary instruction whose end is `fall`. -/
def Out.conf {S R : Type} (fall : Nat) : Out S R → Conf S R
  | .next s => .at fall s
  | .goto p s => .at p s
  | .halt r => .done r

/-- The arms `JMP`, `JMP_BACK` of the interpreter loop; `opt_core.rs:412-420`.  This and the next three
are written down from the interpreter, independently of how `optimize` classifies instructions. -/
abbrev jumps (op : Byte) : Prop := op = JMP ∨ op = JMP_BACK

/-- The arms `RETURN`, `BREAK`, `MRETURN`: the only ones that leave the sequence with a value;
`opt_core.rs:108-148`. -/
abbrev leaves (op : Byte) : Prop := op = RETURN ∨ op = BREAK ∨ op = MRETURN

/-- The conditional jumps with one operand; `opt_core.rs:421-437`. -/
abbrev branches (op : Byte) : Prop :=
  op = JMP_T ∨ op = JMP_F ∨ op = JMP_F_EQ ∨ op = JMP_F_NE ∨ op = JMP_F_GT ∨ op = JMP_F_GE ∨
    op = JMP_F_LT ∨ op = JMP_F_LE

/-- The conditional jumps with an immediate; `opt_core.rs:439-444`. -/
abbrev branchesI (op : Byte) : Prop :=
  op = JMP_F_EQI ∨ op = JMP_F_NEI ∨ op = JMP_F_GTI ∨ op = JMP_F_GEI ∨ op = JMP_F_LTI ∨ op = JMP_F_LEI

/-- One turn of the interpreter loop: the event it shows (`none` for an unconditional jump) and the
next configuration.  `none`: undefined opcode or code running out of bounds.
`JMP`, `JMP_BACK`: `opt_core.rs:412-420`; `JMP_F … JMP_F_LE`: `421-437`; `JMP_F_EQI …`: `439-444`;
`RETURN`, `BREAK`, `MRETURN`: `108-148`. -/
def step {S R : Type} (M : Machine S R) (c : Code) (pos : Nat) (s : S) :
    Option (Option (Event S R) × Conf S R) :=
  match c[pos]? with
  | none => none
  | some op =>
    if jumps op then
      match readAt32 c (pos + 1) with
      | none => none
      | some d => some (none, .at (addDisp (pos + 5) d) s)
    else if leaves op then some (some (.ran op [] s), .done (M.term op s))
    else if branches op then
      match readAt32 c (pos + 1) with
      | none => none
      | some d =>
        match M.test op none pos s with
        | .inl o => some (some (.ran op [] s), o.conf (pos + 5))
        | .inr (b, s') => some (some (.ran op [] s), .at (if b then pos + 5 else addDisp (pos + 5) d) s')
    else if branchesI op then
      match readAt32 c (pos + 1), readAt32 c (pos + 5) with
      | some i, some d =>
        match M.test op (some i) pos s with
        | .inl o => some (some (.ran op (le32 i) s), o.conf (pos + 9))
        | .inr (b, s') =>
          some (some (.ran op (le32 i) s), .at (if b then pos + 9 else addDisp (pos + 9) d) s')
      | _, _ => none
    else
      match inst_size op with
      | none => none
      | some sz =>
        if pos + sz ≤ c.length then
          let operands := (c.drop (pos + 1)).take (sz - 1)
          some (some (.ran op operands s), (M.exec op operands pos s).conf (pos + sz))
        else none

/-- `Shows M c conf tr`: running code `c` from `conf`, an observer can have seen exactly the events
`tr` at some moment.  (All prefixes are included, so for a run that never ends this is the whole
infinite history.) -/
inductive Shows {S R : Type} (M : Machine S R) (c : Code) : Conf S R → List (Event S R) → Prop
  | nil (k) : Shows M c k []
  | ended (r) : Shows M c (.done r) [.ended r]
  | silent (pos s k tr) : step M c pos s = some (none, k) → Shows M c k tr → Shows M c (.at pos s) tr
  | event (pos s e k tr) : step M c pos s = some (some e, k) → Shows M c k tr →
      Shows M c (.at pos s) (e :: tr)

/-- The instruction boundaries of a code: position 0, and behind each instruction (by
`inst_size`) the next. -/
inductive Start (c : Code) : Nat → Prop
  | zero : Start c 0
  | next (pos op sz) : Start c pos → c[pos]? = some op → inst_size op = some sz → Start c (pos + sz)

/-- Code as the compiler leaves it: instructions fill it exactly, every jump goes to an instruction,
instructions that are not last in the code are followed by another, and what the other
instructions continue with (rescue entries, case labels) are instructions too. -/
structure WellFormed {S R : Type} (M : Machine S R) (c : Code) : Prop where
  short : c.length < 2 ^ 31
  whole : ∀ pos op, Start c pos → c[pos]? = some op → ∃ sz, inst_size op = some sz ∧ pos + sz ≤ c.length
  jumps : ∀ pos op d, Start c pos → c[pos]? = some op → jumps op ∨ branches op →
    readAt32 c (pos + 1) = some d → Start c (addDisp (pos + 5) d)
  jumpsI : ∀ pos op d, Start c pos → c[pos]? = some op → branchesI op →
    readAt32 c (pos + 5) = some d → Start c (addDisp (pos + 9) d)
  gotoExec : ∀ pos op sz s p s', Start c pos → c[pos]? = some op → inst_size op = some sz →
    M.exec op ((c.drop (pos + 1)).take (sz - 1)) pos s = .goto p s' → Start c p
  gotoTest : ∀ pos op i s p s', Start c pos → c[pos]? = some op →
    M.test op i pos s = .inl (.goto p s') → Start c p

theorem jumps_iff (op : Byte) : jumps op ↔ isJmp op = true := by simp [isJmp]
theorem leaves_iff (op : Byte) : leaves op ↔ isTerm op = true := by simp [isTerm, or_assoc]
theorem branches_iff (op : Byte) : branches op ↔ isCond op = true := by simp [isCond, or_assoc]
theorem branchesI_iff (op : Byte) : branchesI op ↔ isCondI op = true := by simp [isCondI, or_assoc]

/-- `step` in terms of the classification used by `optimize`. -/
theorem step_eq {S R : Type} (M : Machine S R) (c : Code) (pos : Nat) (s : S) : step M c pos s =
  match c[pos]? with
    | none => none
    | some op =>
      if isJmp op then
        match readAt32 c (pos + 1) with
        | none => none
        | some d => some (none, .at (addDisp (pos + 5) d) s)
      else if isTerm op then some (some (.ran op [] s), .done (M.term op s))
      else if isCond op then
        match readAt32 c (pos + 1) with
        | none => none
        | some d =>
          match M.test op none pos s with
          | .inl o => some (some (.ran op [] s), o.conf (pos + 5))
          | .inr (b, s') => some (some (.ran op [] s), .at (if b then pos + 5 else addDisp (pos + 5) d) s')
      else if isCondI op then
        match readAt32 c (pos + 1), readAt32 c (pos + 5) with
        | some i, some d =>
          match M.test op (some i) pos s with
          | .inl o => some (some (.ran op (le32 i) s), o.conf (pos + 9))
          | .inr (b, s') =>
            some (some (.ran op (le32 i) s), .at (if b then pos + 9 else addDisp (pos + 9) d) s')
        | _, _ => none
      else
        match inst_size op with
        | none => none
        | some sz =>
          if pos + sz ≤ c.length then
            let operands := (c.drop (pos + 1)).take (sz - 1)
            some (some (.ran op operands s), (M.exec op operands pos s).conf (pos + sz))
          else none := by
  unfold step
  simp only [jumps_iff, leaves_iff, branches_iff, branchesI_iff]

end Verif.ISeq
