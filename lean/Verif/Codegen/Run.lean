import Verif.Codegen.Emit
import Verif.Codegen.Sem
import Mathlib.Logic.Relation
/-!
# Running pieces of finished code
-/
namespace Verif.Codegen
open Verif.ISeq Op
open Verif.Value (Val)

variable {W X : Type}

/-- Some steps of the interpreter. -/
def Steps (K : Env W X) (c : Code) : Conf (S W) (R W X) → Conf (S W) (R W X) → Prop :=
  Relation.ReflTransGen fun k k' => ∃ p s ev, k = .at p s ∧ step (machine K) c p s = some (ev, k')

theorem Steps.refl {K : Env W X} {c : Code} (k : Conf (S W) (R W X)) : Steps K c k k := Relation.ReflTransGen.refl

theorem Steps.trans {K : Env W X} {c : Code} {k1 k2 k3 : Conf (S W) (R W X)} (h : Steps K c k1 k2)
    (h' : Steps K c k2 k3) : Steps K c k1 k3 := Relation.ReflTransGen.trans h h'

theorem Steps.one {K : Env W X} {c : Code} {p : Nat} {s : S W} {ev} {k : Conf (S W) (R W X)}
    (h : step (machine K) c p s = some (ev, k)) : Steps K c (.at p s) k :=
  Relation.ReflTransGen.single ⟨p, s, ev, rfl, h⟩

/-- Opcodes handled by `exec`. -/
def ordinary (op : Byte) : Bool := !(isJmp op || isTerm op || isCond op || isCondI op)

theorem At.op {c : Code} {pos : Nat} {op : Byte} {args : List Operand} (h : At c pos op args) :
    c[pos]? = some op := h 0 op rfl

theorem At.bytes {c : Code} {pos : Nat} {op : Byte} {args : List Operand} (h : At c pos op args) :
    pos + szOf args ≤ c.length ∧
    (c.drop (pos + 1)).take (szOf args - 1) = (args.map opBytes).flatten := by
  have hle : pos + szOf args ≤ c.length := by
    by_cases hh : pos + szOf args ≤ c.length
    · exact hh
    · exfalso
      have hl : szOf args - 1 < (op :: (args.map opBytes).flatten).length := by
        unfold szOf; simp
      have := h (szOf args - 1) _ (List.getElem?_eq_getElem hl)
      rw [List.getElem?_eq_some_iff] at this
      obtain ⟨h1, _⟩ := this
      have : 1 ≤ szOf args := by unfold szOf; omega
      omega
  refine ⟨hle, ?_⟩
  apply List.ext_getElem?
  intro i
  rw [List.getElem?_take]
  split
  · rename_i hi
    rw [List.getElem?_drop]
    have hl : i + 1 < (op :: (args.map opBytes).flatten).length := by
      unfold szOf at hi; simp only [List.length_cons]; omega
    have := h (i + 1) _ (List.getElem?_eq_getElem hl)
    rw [show pos + 1 + i = pos + (i + 1) by omega, this, ← List.getElem?_eq_getElem hl, List.getElem?_cons_succ]
  · rename_i hi
    symm; rw [List.getElem?_eq_none_iff]
    unfold szOf at hi; omega

/-- An ordinary instruction runs `execOp`. -/
theorem step_exec (K : Env W X) {c : Code} {pos : Nat} {op : Byte} {args : List Operand} (h : At c pos op args)
    (ho : ordinary op = true) (hv : vmOperands op = some (args.map Operand.width))
    (hs : inst_size op = some (szOf args)) (s : S W) :
    ∃ ev, step (machine K) c pos s = some (ev, (execOp K op args pos s).conf (pos + szOf args)) := by
  obtain ⟨hle, hb⟩ := h.bytes
  simp only [ordinary, Bool.not_eq_true', Bool.or_eq_false_iff] at ho
  obtain ⟨⟨⟨o1, o2⟩, o3⟩, o4⟩ := ho
  rw [step_eq, h.op]
  dsimp only
  rw [if_neg (by simp [o1]), if_neg (by simp [o2]), if_neg (by simp [o3]), if_neg (by simp [o4]), hs]
  dsimp only
  rw [if_pos hle, hb]
  have hr : readOperands (args.map opBytes).flatten 0 (args.map Operand.width) =
      some (args, (args.map opBytes).flatten.length) := by
    have := readOperands_app [] args []
    simpa using this
  refine ⟨some (.ran op (args.map opBytes).flatten s), ?_⟩
  rw [show (machine K).exec op (args.map opBytes).flatten pos s = execOp K op args pos s by
    show (match vmOperands op with
      | some ws =>
        match readOperands (args.map opBytes).flatten 0 ws with
        | some (args, _) => execOp K op args pos s
        | none => .halt .stuck
      | none => .halt .stuck) = _
    rw [hv]; dsimp only; rw [hr]]

theorem Steps.exec (K : Env W X) {c : Code} {pos n : Nat} {op : Byte} {args : List Operand} (h : At c pos op args)
    (s : S W) (ho : ordinary op = true) (hv : vmOperands op = some (args.map Operand.width))
    (hs : inst_size op = some (szOf args)) (hn : n = pos + szOf args) :
    Steps K c (.at pos s) ((execOp K op args pos s).conf n) := by
  obtain ⟨ev, h⟩ := step_exec K h ho hv hs s
  subst hn
  exact Steps.one h

/-- Where control goes after an error. -/
def failC (K : Env W X) (pc : Nat) (x : X) (σ : St W) : Conf (S W) (R W X) := (fail K pc x σ).conf 0

theorem conf_fail (K : Env W X) (pc : Nat) (x : X) (σ : St W) (n : Nat) :
    (fail K pc x σ).conf n = failC K pc x σ := by
  unfold failC fail
  split <;> rfl

theorem le32_length (v : BitVec 32) : (le32 v).length = 4 := rfl

/-- An unconditional jump. -/
theorem Steps.jmp (K : Env W X) {c : Code} {pos t : Nat} {op : Byte} (hop : c[pos]? = some op) (hj : isJmp op = true)
    (hs : Site c (pos + 5) t) (hl : c.length < 2 ^ 31) (ht : t ≤ c.length) (hp : pos + 5 ≤ c.length) (s : S W) :
    Steps K c (.at pos s) (.at t s) := by
  refine Steps.one (ev := none) ?_
  rw [step_eq, hop]
  dsimp only
  unfold Site at hs
  rw [if_pos hj, show pos + 1 = pos + 5 - 4 by omega, hs]
  dsimp only
  rw [addDisp_dispTo _ _ (by omega) (by omega) (by omega)]

/-- A conditional jump. -/
theorem Steps.cond (K : Env W X) {c : Code} {pos t : Nat} {op : Byte} (hop : c[pos]? = some op) (hj : isCond op = true)
    (hs : Site c (pos + 5) t) (hl : c.length < 2 ^ 31) (ht : t ≤ c.length) (hp : pos + 5 ≤ c.length) (s : S W) :
    (∀ o, testOp K op none pos s = .inl o → Steps K c (.at pos s) (o.conf (pos + 5))) ∧
    (∀ b s', testOp K op none pos s = .inr (b, s') → Steps K c (.at pos s) (.at (if b then pos + 5 else t) s')) := by
  have h1 : ¬ isJmp op = true := by
    intro h; revert hj h; clear hop; revert op; decide +kernel
  have h2 : ¬ isTerm op = true := by
    intro h; clear h1; revert hj h; clear hop; revert op; decide +kernel
  have key : step (machine K) c pos s = (match testOp K op none pos s with
        | .inl o => some (some (.ran op [] s), o.conf (pos + 5))
        | .inr (b, s') => some (some (.ran op [] s), .at (if b then pos + 5 else t) s')) := by
    rw [step_eq, hop]
    dsimp only
    unfold Site at hs
    rw [if_neg h1, if_neg h2, if_pos hj, show pos + 1 = pos + 5 - 4 by omega, hs]
    dsimp only
    rw [addDisp_dispTo _ _ (by omega) (by omega) (by omega),
      show (machine K).test op none pos s = testOp K op none pos s from rfl]
    cases testOp K op none pos s <;> rfl
  constructor
  · intro o ho; rw [ho] at key; exact Steps.one key
  · intro b s' ho; rw [ho] at key; exact Steps.one key

/-- A conditional jump with immediate operand. -/
theorem Steps.condI (K : Env W X) {c : Code} {pos t : Nat} {op : Byte} {i : BitVec 32} (hop : c[pos]? = some op)
    (hj : isCondI op = true) (hi : readAt32 c (pos + 1) = some i)
    (hs : Site c (pos + 9) t) (hl : c.length < 2 ^ 31) (ht : t ≤ c.length) (hp : pos + 9 ≤ c.length) (s : S W) :
    (∀ o, testOp K op (some i) pos s = .inl o → Steps K c (.at pos s) (o.conf (pos + 9))) ∧
    (∀ b s', testOp K op (some i) pos s = .inr (b, s') →
      Steps K c (.at pos s) (.at (if b then pos + 9 else t) s')) := by
  have h1 : ¬ isJmp op = true := by
    intro h; revert hj h; clear hop; revert op; decide +kernel
  have h2 : ¬ isTerm op = true := by
    intro h; clear h1; revert hj h; clear hop; revert op; decide +kernel
  have h3 : ¬ isCond op = true := by
    intro h; clear h1 h2; revert hj h; clear hop; revert op; decide +kernel
  have key : step (machine K) c pos s = (match testOp K op (some i) pos s with
        | .inl o => some (some (.ran op (le32 i) s), o.conf (pos + 9))
        | .inr (b, s') => some (some (.ran op (le32 i) s), .at (if b then pos + 9 else t) s')) := by
    rw [step_eq, hop]
    dsimp only
    unfold Site at hs
    rw [if_neg h1, if_neg h2, if_neg h3, if_pos hj, hi, show pos + 5 = pos + 9 - 4 by omega, hs]
    dsimp only
    rw [addDisp_dispTo _ _ (by omega) (by omega) (by omega),
      show (machine K).test op (some i) pos s = testOp K op (some i) pos s from rfl]
    cases testOp K op (some i) pos s <;> rfl
  constructor
  · intro o ho; rw [ho] at key; exact Steps.one key
  · intro b s' ho; rw [ho] at key; exact Steps.one key

/-- Leaving the sequence. -/
theorem Steps.term (K : Env W X) {c : Code} {pos : Nat} {op : Byte} (hop : c[pos]? = some op) (hj : isTerm op = true)
    (s : S W) : Steps K c (.at pos s) (.done ((machine K).term op s)) := by
  have h1 : ¬ isJmp op = true := by
    intro h; revert hj h; clear hop; revert op; decide +kernel
  refine Steps.one (ev := some (.ran op [] s)) ?_
  rw [step_eq, hop]
  dsimp only
  rw [if_neg h1, if_pos hj]

/-- All side conditions of `Steps.exec` in one. -/
def okOp (op : Byte) (ws : List Width) : Bool :=
  ordinary op && vmOperands op == some ws && inst_size op == some (1 + (ws.map fun w => w.bits / 8).sum)

theorem szOf_eq (args : List Operand) : szOf args = 1 + ((args.map Operand.width).map fun w => w.bits / 8).sum := by
  unfold szOf
  congr 1
  induction args with
  | nil => rfl
  | cons a l ih => simp only [List.map_cons, List.flatten_cons, List.length_append, List.sum_cons, ih, opBytes_length]

theorem Steps.exec' (K : Env W X) {c : Code} {pos n : Nat} {op : Byte} {args : List Operand} (h : At c pos op args)
    (s : S W) (hn : n = pos + szOf args) (ho : okOp op (args.map Operand.width) = true) :
    Steps K c (.at pos s) ((execOp K op args pos s).conf n) := by
  simp only [okOp, Bool.and_eq_true, beq_iff_eq] at ho
  obtain ⟨⟨h1, h2⟩, h3⟩ := ho
  exact Steps.exec K h s h1 h2 (by rw [h3, szOf_eq]) hn

/-- An instruction that goes on behind itself. -/
theorem Steps.next (K : Env W X) {c : Code} {pos n : Nat} {op : Byte} {args : List Operand} (h : At c pos op args)
    {s s' : S W} (hn : n = pos + szOf args) (ho : okOp op (args.map Operand.width) = true)
    (he : execOp K op args pos s = .next s') : Steps K c (.at pos s) (.at n s') := by
  have := Steps.exec' K h s hn ho
  rw [he] at this
  exact this

/-- Decide `okOp`. -/
macro "okop" : tactic => `(tactic| first
  | rfl
  | (simp only [List.map, Operand.width, u32, CmpOp.opI, CmpOp.op, BinOp.op]; rfl))

theorem truthy_bool (b : Bool) : truthy (Value.bool b) = b := by cases b <;> rfl
theorem truthy_nil : truthy Value.nil = false := rfl

end Verif.Codegen
