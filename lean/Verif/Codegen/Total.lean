import Verif.Codegen.Correct
import Verif.Codegen.Scope
/-!
# Compilation succeeds

`Legal K B lp e`: the local variables that `e` mentions are in `K`, and `break` and `next` stand in a loop — `e` itself
stands in one iff `lp` — or anywhere if `B`, in a block.  `e.weight` bounds the number of instructions.
-/
namespace Verif.Codegen
open Verif.ISeq Op
open Verif.Value (Val)

/-! ## Specification -/

/-- The variable is in one of the tables that the body sees. -/
def Ctx.knows (x : Ctx) (id : Id) : Prop := ∃ t ∈ visible x.scopes x.extern, id ∈ t

/-- A variable that can be assigned: only local variables need a place. -/
def knownVar (K : Id → Prop) : Var → Prop
  | .lvar id => K id
  | _ => True

mutual
/-- See the head of this file. -/
def Legal (K : Id → Prop) (B : Prop) : (lp : Bool) → Node → Prop
  | _, .lit _ => True
  | _, .self => True
  | _, .lvar id => K id
  | _, .ivar _ => True
  | _, .gvar _ => True
  | _, .ident _ => True
  | lp, .binop _ l r => Legal K B lp l ∧ Legal K B lp r
  | lp, .land l r => Legal K B lp l ∧ Legal K B lp r
  | lp, .lor l r => Legal K B lp l ∧ Legal K B lp r
  | lp, .unop _ a => Legal K B lp a
  | lp, .array ns => LegalAll K B lp ns
  | _, .carray _ => True
  | lp, .range a b _ => Legal K B lp a ∧ Legal K B lp b
  | lp, .index a b => Legal K B lp a ∧ Legal K B lp b
  | lp, .seq ns => LegalAll K B lp ns
  | lp, .ite c a b => Legal K B lp c ∧ Legal K B lp a ∧ Legal K B lp b
  | _, .while_ c b _ => Legal K B true c ∧ Legal K B true b
  | lp, .brk a => (lp = true ∨ B) ∧ Legal K B lp a
  | lp, .nxt a => (lp = true ∨ B) ∧ Legal K B lp a
  | lp, .ret a => Legal K B lp a
  | lp, .assign t a => knownVar K t ∧ Legal K B lp a
  | lp, .opassign _ t a => knownVar K t ∧ Legal K B lp a
  | lp, .assignIdx a i b => Legal K B lp a ∧ Legal K B lp i ∧ Legal K B lp b
  | lp, .attrAssign a _ b => Legal K B lp a ∧ Legal K B lp b
  | lp, .massign ts ns => (∀ t ∈ ts, knownVar K t) ∧ LegalAll K B lp ns
  | lp, .send a _ ns => Legal K B lp a ∧ LegalAll K B lp ns
  | lp, .sendB a _ ns _ => Legal K B lp a ∧ LegalAll K B lp ns
  | lp, .yield_ ns => LegalAll K B lp ns
  | lp, .case_ c ws b => Legal K B lp c ∧ LegalWhens K B lp ws ∧ Legal K B lp b
  | lp, .caseN ws b => LegalWhens K B lp ws ∧ Legal K B lp b
  | lp, .begin_ b rs els ens => Legal K B lp b ∧ LegalRescues K B lp rs ∧ LegalOpt K B lp els ∧ LegalOpt K B lp ens

def LegalAll (K : Id → Prop) (B : Prop) (lp : Bool) : Nodes → Prop
  | .nil => True
  | .cons n ns => Legal K B lp n ∧ LegalAll K B lp ns

def LegalWhens (K : Id → Prop) (B : Prop) (lp : Bool) : Whens → Prop
  | .nil => True
  | .cons ls b rest => LegalAll K B lp ls ∧ Legal K B lp b ∧ LegalWhens K B lp rest

def LegalRescues (K : Id → Prop) (B : Prop) (lp : Bool) : Rescues → Prop
  | .nil => True
  | .cons excs t b rest =>
    LegalAll K B lp excs ∧ (∀ v ∈ t, knownVar K v) ∧ Legal K B lp b ∧ LegalRescues K B lp rest

def LegalOpt (K : Id → Prop) (B : Prop) (lp : Bool) : OptNode → Prop
  | .none => True
  | .some n => Legal K B lp n
end

mutual
/-- No more instructions than this are emitted for a tree (an `ensure` clause is compiled up to four times). -/
def Node.weight : Node → Nat
  | .lit _ => 1
  | .self => 1
  | .lvar _ => 2
  | .ivar _ => 2
  | .gvar _ => 2
  | .ident _ => 2
  | .binop _ l r => l.weight + r.weight + 2
  | .land l r => l.weight + r.weight + 3
  | .lor l r => l.weight + r.weight + 3
  | .unop _ a => a.weight + 2
  | .array ns => ns.weight + 2
  | .carray _ => 1
  | .range a b _ => a.weight + b.weight + 3
  | .index a b => a.weight + b.weight + 2
  | .seq ns => ns.seqWeight
  | .ite c a b => c.weight + a.weight + b.weight + 2
  | .while_ c b _ => c.weight + b.weight + 5
  | .brk a => a.weight + 1
  | .nxt a => a.weight + 1
  | .ret a => a.weight + 1
  | .assign _ a => a.weight + 2
  | .opassign _ _ a => a.weight + 4
  | .assignIdx a i b => a.weight + i.weight + b.weight + 3
  | .attrAssign a _ b => a.weight + b.weight + 1
  | .massign ts ns => ns.weight + (3 * (ts.length + ns.length) + 3)
  | .send a _ ns => a.weight + ns.weight + 1
  | .sendB a _ ns _ => a.weight + ns.weight + 1
  | .yield_ ns => ns.weight + 2
  | .case_ c ws b => c.weight + ws.weight + b.weight + 2
  | .caseN ws b => ws.weight + b.weight
  | .begin_ b rs els ens => b.weight + rs.weight + els.weight + (4 * ens.weight + 6)

def Nodes.weight : Nodes → Nat
  | .nil => 0
  | .cons n ns => n.weight + ns.weight + 4

/-- For statements. -/
def Nodes.seqWeight : Nodes → Nat
  | .nil => 1
  | .cons n .nil => n.weight
  | .cons n (.cons m ns) => n.weight + (Nodes.cons m ns).seqWeight

def Whens.weight : Whens → Nat
  | .nil => 0
  | .cons ls b rest => ls.weight + b.weight + rest.weight + 3

def Rescues.weight : Rescues → Nat
  | .nil => 0
  | .cons excs _ b rest => excs.weight + b.weight + rest.weight + 6

def OptNode.weight : OptNode → Nat
  | .none => 0
  | .some n => n.weight + 1
end

/-! ## Steps of the compiler -/

/-- Whether each loop is the top of a body. -/
def tops (g : G) : List Bool := g.loops.map (·.top)

/-- From a state with loops `T` and `J` open `begin`s the step succeeds, emits at most `k` instructions, and ends with
loops `T'` and `J'` open `begin`s. -/
def Tot {α : Type} (T : List Bool) (J k : Nat) (T' : List Bool) (J' : Nat) (m : M α) : Prop :=
  ∀ g, tops g = T → g.jumps.length = J → g.consts.length + k ≤ 2 ^ 32 → ∃ a g', m g = .ok (a, g') ∧
    tops g' = T' ∧ g'.jumps.length = J' ∧ g'.consts.length ≤ g.consts.length + k ∧
    g'.case1.length ≤ g.case1.length + k ∧ g'.case2.length ≤ g.case2.length + k ∧
    g'.code.length ≤ g.code.length + 16 * k

variable {α β : Type} {T T' T'' : List Bool} {J J' J'' k k' : Nat}

theorem Tot.bind {m : M α} {f : α → M β} (h : Tot T J k T' J' m) (h' : ∀ a, Tot T' J' k' T'' J'' (f a)) :
    Tot T J (k + k') T'' J'' (m >>= f) := by
  intro g hT hJ hk
  obtain ⟨a, g1, e1, t1, j1, c1, a1, b1, l1⟩ := h g hT hJ (by omega)
  obtain ⟨b, g2, e2, t2, j2, c2, a2, b2, l2⟩ := h' a g1 t1 j1 (by omega)
  exact ⟨b, g2, bindM.2 ⟨a, g1, e1, e2⟩, t2, j2, by omega, by omega, by omega, by omega⟩

theorem Tot.mono {m : M α} (h : Tot T J k T' J' m) (hk : k ≤ k') : Tot T J k' T' J' m := by
  intro g hT hJ hb
  obtain ⟨a, g1, e1, t1, j1, c1, a1, b1, l1⟩ := h g hT hJ (by omega)
  exact ⟨a, g1, e1, t1, j1, by omega, by omega, by omega, by omega⟩

theorem Tot.pure (a : α) : Tot T J 0 T J (pure a : M α) :=
  fun g hT hJ _ => ⟨a, g, rfl, hT, hJ, by omega, by omega, by omega, by omega⟩

theorem Tot.when {m : M Unit} (b : Bool) (h : Tot T J k T J m) : Tot T J k T J (whenM b m) := by
  cases b
  · exact (Tot.pure ()).mono (Nat.zero_le _)
  · exact h

theorem le64_len (v : BitVec 64) : (le64 v).length = 8 := by unfold le64; simp

theorem Tot.emit {op : Byte} {args : List Operand} (h : szOf args ≤ 16) : Tot T J 1 T J (emitM op args) := by
  intro g hT hJ _
  refine ⟨(), _, rfl, hT, hJ, Nat.le_succ _, Nat.le_succ _, Nat.le_succ _, ?_⟩
  have := emitM_len (g := g) (op := op) (args := args) rfl
  omega

theorem Tot.cur : Tot T J 0 T J curM :=
  fun g hT hJ _ => ⟨_, g, rfl, hT, hJ, by omega, by omega, by omega, by omega⟩

theorem Tot.jump {op : Byte} : Tot T J 1 T J (jumpM op) := by
  intro g hT hJ _
  refine ⟨_, _, rfl, hT, hJ, Nat.le_succ _, Nat.le_succ _, Nat.le_succ _, ?_⟩
  simp [push32, push8, le32_length]

theorem write_disp_len (c : Code) (s t : Nat) : (write_disp c s t).length = c.length := by
  simp [write_disp]

theorem Tot.patch {s t : Nat} : Tot T J 0 T J (patchM s t) :=
  fun g hT hJ _ => ⟨_, _, rfl, hT, hJ, by simp, by simp, by simp, by simp [write_disp_len]⟩

theorem Tot.patchCur {s : Nat} : Tot T J 0 T J (patchCurM s) :=
  fun g hT hJ _ => ⟨_, _, rfl, hT, hJ, by simp, by simp, by simp, by simp [write_disp_from_cur, write_disp_len]⟩

theorem Tot.patchAll : ∀ {ss : List Nat}, Tot T J 0 T J (patchAllM ss)
  | [] => Tot.pure ()
  | _ :: _ => Tot.patchCur.bind (k := 0) (k' := 0) fun _ => Tot.patchAll

theorem Tot.patchOpt : ∀ {s : Option Nat}, Tot T J 0 T J (patchOpt s)
  | none => Tot.pure ()
  | some _ => Tot.patchCur

theorem Tot.jmpBack {p : Nat} : Tot T J 1 T J (jmpBackM p) := by
  intro g hT hJ _
  refine ⟨_, _, rfl, hT, hJ, Nat.le_succ _, Nat.le_succ _, Nat.le_succ _, ?_⟩
  simp [gen_jmp_back, push32, push8, le32_length]

theorem Tot.escapes {p : Nat} : ∀ {es : List (Nat × EK)}, Tot T J 0 T J (patchEscapes p es)
  | [] => Tot.pure ()
  | (_, .brk) :: _ => Tot.patchCur.bind (k := 0) (k' := 0) fun _ => Tot.escapes
  | (_, .nxt) :: _ => Tot.patch.bind (k := 0) (k' := 0) fun _ => Tot.escapes

theorem Tot.const {v : Const} : Tot T J 1 T J (genConst v) := by
  intro g hT hJ hk
  unfold genConst
  rw [if_pos (by omega)]
  refine ⟨_, _, rfl, hT, hJ, by simp, Nat.le_succ _, Nat.le_succ _, ?_⟩
  exact (emitM_len (g := { g with consts := g.consts ++ [v] }) (op := CONST_VAL) (args := [u32 g.consts.length])
    rfl).le.trans (Nat.add_le_add_left (by decide : (5 : Nat) ≤ 16 * 1) _)

theorem Tot.num {v : Val} : Tot T J 1 T J (genNum v) := by
  unfold genNum
  split
  · exact Tot.emit (by simp [szOf, opBytes, le64_len])
  · exact Tot.const

/-- Emit an instruction with operands of fixed size. -/
macro "op1" : term => `(Tot.emit (by first | decide | simp [szOf, opBytes, u32, le32_length, le64_len]))

theorem Tot.lit {l : Lit} : Tot T J 1 T J (genLit l) := by
  cases l with
  | nil => exact op1
  | bool b => exact op1
  | int i => exact Tot.num
  | big n => exact Tot.const
  | flt b => exact Tot.num
  | str s => exact Tot.const
  | sym id => exact op1

theorem Tot.carray {l : List Lit} : Tot T J 1 T J (genCArray l) := by
  unfold genCArray
  split
  · exact op1
  · exact Tot.const

theorem Ctx.knows.found {x : Ctx} {id : Id} (h : x.knows id) : ∃ p, get_local_var x id = some p := by
  rcases hg : get_local_var x id with _ | p
  · obtain ⟨t, h1, h2⟩ := h
    exact absurd h2 (scopeVar_none hg t h1)
  · exact ⟨p, rfl⟩

theorem Tot.getLocal {x : Ctx} {id : Id} (h : x.knows id) : Tot T J 1 T J (emitGetLocal x id) := by
  obtain ⟨⟨o, j⟩, h⟩ := h.found
  unfold emitGetLocal
  rw [h]
  dsimp only
  split <;> exact op1

theorem Tot.setLocal {x : Ctx} {id : Id} (h : x.knows id) : Tot T J 1 T J (emitSetLocal x id) := by
  obtain ⟨⟨o, j⟩, h⟩ := h.found
  unfold emitSetLocal
  rw [h]
  dsimp only
  split <;> exact op1

theorem Tot.getVar {x : Ctx} {v : Var} (h : knownVar x.knows v) : Tot T J 1 T J (emitGetVar x v) := by
  cases v with
  | lvar id => exact Tot.getLocal h
  | ivar id => exact op1
  | gvar id => exact op1

theorem Tot.setVar {x : Ctx} {v : Var} (h : knownVar x.knows v) : Tot T J 1 T J (emitSetVar x v) := by
  cases v with
  | lvar id => exact Tot.setLocal h
  | ivar id => exact op1
  | gvar id => exact op1

theorem Tot.setVars {x : Ctx} : ∀ {vs : List Var}, (∀ v ∈ vs, knownVar x.knows v) → Tot T J vs.length T J (emitSetVars x vs)
  | [], _ => Tot.pure ()
  | v :: vs, h => by
    rw [emitSetVars]
    exact ((Tot.setVar (h v (by simp))).bind fun _ => Tot.setVars fun w hw => h w (by simp [hw])).mono
      (by simp only [List.length_cons]; omega)

theorem Tot.send {m : Id} {n : Nat} {uv : Bool} {b : BitVec 32} : Tot T J 1 T J (emitOptSend m n uv b) := by
  intro g hT hJ hk
  have h : Tot T J 1 T J (emitM (if uv then OPT_SEND else OPT_SEND_N)
    [.o32 m, .o16 (BitVec.ofNat 16 n), .o32 b, u32 g.caches]) := op1
  exact h { g with caches := g.caches + 1 } hT hJ hk

theorem Tot.bin {op : BinOp} {imm : Option (BitVec 32)} {l r : M Unit} (hl : Tot T J k T J l) (hr : Tot T J k' T J r) :
    Tot T J (k + k' + 1) T J (genBin op imm l r) := by
  unfold genBin
  split
  · exact (hl.bind (k' := 1) fun _ => op1).mono (by omega)
  · exact (hl.bind fun _ => hr.bind fun _ => op1).mono (by omega)

theorem Tot.jfCmp {o : CmpOp} {imm : Option (BitVec 32)} {l r : M Unit} (hl : Tot T J k T J l)
    (hr : Tot T J k' T J r) : Tot T J (k + k' + 1) T J (genJFCmp o imm l r) := by
  unfold genJFCmp
  cases imm with
  | some i => exact (hl.bind fun _ => (op1 : Tot T J 1 T J _).bind fun _ => Tot.cur).mono (by omega)
  | none => exact (hl.bind fun _ => (hr.bind fun _ => (op1 : Tot T J 1 T J _).bind fun _ => Tot.cur)).mono (by omega)

theorem Tot.jf {c : M Unit} (h : Tot T J k T J c) : Tot T J (k + 1) T J (genJF c) := h.bind fun _ => Tot.jump

theorem Tot.pushLoop : Tot T J 0 (false :: T) J pushLoop :=
  fun g hT hJ _ => ⟨_, _, rfl, by simp [tops, ← hT], hJ, by simp, by simp, by simp, by simp⟩

theorem Tot.popLoop {t : Bool} : Tot (t :: T) J 0 T J popLoop := by
  intro g hT hJ _
  unfold Codegen.popLoop
  cases hl : g.loops with
  | nil => simp [tops, hl] at hT
  | cons l ls =>
    simp only [tops, hl, List.map_cons, List.cons.injEq] at hT
    exact ⟨_, _, rfl, hT.2, hJ, by simp, by simp, by simp, by simp⟩

theorem Tot.addEscape {t : Bool} {p : Nat} {e : EK} : Tot (t :: T) J 0 (t :: T) J (addEscape p e) := by
  intro g hT hJ _
  unfold Codegen.addEscape
  cases hl : g.loops with
  | nil => simp [tops, hl] at hT
  | cons l ls =>
    simp only [tops, hl, List.map_cons, List.cons.injEq] at hT
    exact ⟨_, _, rfl, by simp [tops, hT], hJ, by simp, by simp, by simp, by simp⟩

theorem Tot.brk {x : Ctx} {t : Bool} {m : M Unit} (ht : t = false ∨ x.kind = some .block)
    (h : Tot (t :: T) J k (t :: T) J m) : Tot (t :: T) J (k + 1) (t :: T) J (genBreak x m) := by
  intro g hT hJ hk
  unfold genBreak
  cases hl : g.loops with
  | nil => simp [tops, hl] at hT
  | cons l ls =>
    have ht' : l.top = t := by
      simp only [tops, hl, List.map_cons, List.cons.injEq] at hT
      exact hT.1
    dsimp only
    rw [ht']
    cases t with
    | false => exact ((h.bind fun _ => Tot.jump.bind fun _ => Tot.addEscape).mono (by omega)) g hT hJ hk
    | true =>
      rw [ht.resolve_left (by simp)]
      exact (h.bind (k' := 1) fun _ => op1) g hT hJ hk

theorem Tot.nxt {x : Ctx} {t : Bool} {m m' : M Unit} (ht : t = false ∨ x.kind = some .block)
    (h : Tot (t :: T) J k (t :: T) J m) (h' : Tot (t :: T) J k (t :: T) J m') :
    Tot (t :: T) J (k + 1) (t :: T) J (genNext x m m') := by
  intro g hT hJ hk
  unfold genNext
  cases hl : g.loops with
  | nil => simp [tops, hl] at hT
  | cons l ls =>
    have ht' : l.top = t := by
      simp only [tops, hl, List.map_cons, List.cons.injEq] at hT
      exact hT.1
    dsimp only
    rw [ht']
    cases t with
    | false => exact ((h'.bind fun _ => Tot.jump.bind fun _ => Tot.addEscape).mono (by omega)) g hT hJ hk
    | true =>
      rw [ht.resolve_left (by simp)]
      exact (h.bind (k' := 1) fun _ => op1) g hT hJ hk

theorem Tot.ret {x : Ctx} : Tot T J 1 T J (genRet x) := by
  intro g hT hJ hk
  have hr : Tot T J 1 T J (emitM (if x.kind = some .block then MRETURN else RETURN) []) := op1
  unfold genRet
  cases hd : g.jumps with
  | nil => exact hr g hT hJ hk
  | cons d ds =>
    dsimp only
    split
    · obtain ⟨a, g', e, h1, h2, h3⟩ := (Tot.jump (op := JMP)) g hT hJ hk
      rw [e]
      exact ⟨_, _, rfl, h1, by simpa [hd] using hJ, h3⟩
    · exact hr g hT hJ hk

theorem Tot.case1 : Tot T J 1 T J newCase1 := by
  intro g hT hJ hk
  refine ⟨_, _, rfl, hT, hJ, by simp, by simp, by simp, ?_⟩
  exact (emitM_len (g := { g with case1 := g.case1 ++ [none] }) (op := OPT_CASE) (args := [u32 g.case1.length, .o32 0])
    rfl).le.trans (Nat.add_le_add_left (by decide : (9 : Nat) ≤ 16 * 1) _)

theorem Tot.case2 : Tot T J 1 T J newCase2 := by
  intro g hT hJ hk
  refine ⟨_, _, rfl, hT, hJ, by simp, by simp, by simp, ?_⟩
  exact (emitM_len (g := { g with case2 := g.case2 ++ [none] }) (op := OPT_CASE2) (args := [u32 g.case2.length, .o32 0])
    rfl).le.trans (Nat.add_le_add_left (by decide : (9 : Nat) ≤ 16 * 1) _)

theorem Tot.setCase1 {i : Nat} {m : CaseMap} : Tot T J 0 T J (setCase1 i m) :=
  fun g hT hJ _ => ⟨_, _, rfl, hT, hJ, by simp, by simp, by simp, by simp⟩

theorem Tot.setCase2 {i : Nat} {m : CaseMap2} : Tot T J 0 T J (setCase2 i m) :=
  fun g hT hJ _ => ⟨_, _, rfl, hT, hJ, by simp, by simp, by simp, by simp⟩

theorem Tot.pushJD {e : Bool} : Tot T J 0 T (J + 1) (pushJumpDest e) :=
  fun g hT hJ _ => ⟨_, _, rfl, hT, by simp [hJ], by simp, by simp, by simp, by simp⟩

theorem Tot.popJD : Tot T (J + 1) 0 T J popJumpDest := by
  intro g hT hJ _
  unfold Codegen.popJumpDest
  cases hl : g.jumps with
  | nil => simp [hl] at hJ
  | cons l ls => exact ⟨_, _, rfl, hT, by simpa [hl] using hJ, by simp, by simp, by simp, by simp⟩

theorem Tot.pushEx {a b c : Nat} : Tot T J 0 T J (pushEx a b c) :=
  fun g hT hJ _ => ⟨_, _, rfl, hT, hJ, by simp, by simp, by simp, by simp⟩

theorem Tot.retPaths {jd : JumpDest} {m : M Unit} (h : Tot T J k T J m) :
    Tot T J (2 * k + 3) T J (genReturnPaths jd m) := by
  unfold genReturnPaths
  split
  · exact (Tot.pure ()).mono (Nat.zero_le _)
  · cases jd.rets.isEmpty <;> cases jd.mrets.isEmpty
    · exact (Tot.jump.bind fun _ => Tot.patchAll.bind fun _ => h.bind fun _ => (op1 : Tot T J 1 T J _).bind fun _ =>
        Tot.patchAll.bind fun _ => h.bind fun _ => (op1 : Tot T J 1 T J _).bind fun _ => Tot.patchCur).mono (by omega)
    · exact (Tot.jump.bind fun _ => Tot.patchAll.bind fun _ => h.bind fun _ => (op1 : Tot T J 1 T J _).bind fun _ =>
        Tot.patchAll.bind fun _ => (Tot.pure ()).bind fun _ => Tot.patchCur).mono (by omega)
    · exact (Tot.jump.bind fun _ => Tot.patchAll.bind fun _ => (Tot.pure ()).bind fun _ =>
        Tot.patchAll.bind fun _ => h.bind fun _ => (op1 : Tot T J 1 T J _).bind fun _ => Tot.patchCur).mono (by omega)
    · exact (Tot.jump.bind fun _ => Tot.patchAll.bind fun _ => (Tot.pure ()).bind fun _ =>
        Tot.patchAll.bind fun _ => (Tot.pure ()).bind fun _ => Tot.patchCur).mono (by omega)

theorem Tot.repeat {m : M Unit} (h : Tot T J k T J m) : ∀ n, Tot T J (n * k) T J (repeatM n m)
  | 0 => (Tot.pure ()).mono (Nat.zero_le _)
  | n + 1 => (h.bind fun _ => Tot.repeat h n).mono (by rw [Nat.add_mul]; omega)

theorem Tot.manyTail {x : Ctx} {ts : List Var} (h : ∀ v ∈ ts, knownVar x.knows v) {n : Nat} {uv : Bool} :
    Tot T J (3 * (ts.length + n) + 2) T J (genManyTail x ts n uv) := by
  have hs := Tot.setVars (T := T) (J := J) (x := x) (vs := ts.reverse) (fun v hv => h v (List.mem_reverse.1 hv))
  rw [List.length_reverse] at hs
  have hn : Tot T J 1 T J pushNil := op1
  have hp : Tot T J 1 T J pop := op1
  unfold genManyTail
  cases uv with
  | true =>
    exact ((hn.repeat _).bind fun _ => (op1 : Tot T J 1 T J _).bind fun _ => (hp.repeat _).bind fun _ => hs.bind fun _ =>
      (op1 : Tot T J 1 T J _)).mono (by simp only [Nat.mul_one]; omega)
  | false =>
    exact ((hn.repeat _).bind fun _ => hs).mono (by simp only [Nat.mul_one]; omega)

/-! ## Every legal tree is compiled -/

/-- Compiling the tree succeeds, as a value, as a statement and as a condition. -/
structure TotN (x : Ctx) (t : Bool) (T : List Bool) (e : Node) : Prop where
  gen : ∀ J uv, Tot (t :: T) J e.weight (t :: T) J (gen x e uv)
  cond : ∀ J, Tot (t :: T) J (e.weight + 1) (t :: T) J (condGen x e)

theorem TotN.of {x : Ctx} {t : Bool} {e : Node}
    (h : ∀ J uv, Tot (t :: T) J e.weight (t :: T) J (Codegen.gen x e uv)) (hc : ∀ o l r, e ≠ .binop (.c o) l r) :
    TotN x t T e := by
  refine ⟨h, fun J => ?_⟩
  rw [condGen_ne (by rintro ⟨o, l, r, he⟩; exact hc o l r he)]
  exact Tot.jf (h J true)

theorem excLen_weight : ∀ ns : Nodes, ns.length ≤ ns.weight
  | .nil => Nat.le_refl _
  | .cons _ ns => by
    have := excLen_weight ns
    simp only [Nodes.length, Nodes.weight]
    omega

mutual
theorem gen_tot {x : Ctx} : ∀ (e : Node) {lp t : Bool} {T : List Bool}, (lp = true → t = false) → Legal x.knows (x.kind = some .block) lp e →
    TotN x t T e
  | .lit l, _, _, _, _, _ => .of (fun J uv => by
      rw [gen]
      split
      · exact (Tot.pure ()).mono (Nat.zero_le _)
      · exact Tot.lit) (by simp)
  | .self, _, _, _, _, _ => .of (fun J uv => by
      rw [gen]
      split
      · exact (Tot.pure ()).mono (Nat.zero_le _)
      · exact op1) (by simp)
  | .lvar id, _, _, _, _, h => .of (fun J uv => by
      rw [Legal] at h
      rw [gen]
      exact (Tot.getLocal h).bind (k' := 1) fun _ => Tot.when _ op1) (by simp)
  | .ivar id, _, _, _, _, _ => .of (fun J uv => by
      rw [gen]
      exact Tot.bind (k := 1) (k' := 1) op1 fun _ => Tot.when _ op1) (by simp)
  | .gvar id, _, _, _, _, _ => .of (fun J uv => by
      rw [gen]
      exact Tot.bind (k := 1) (k' := 1) op1 fun _ => Tot.when _ op1) (by simp)
  | .ident id, _, _, _, _, _ => .of (fun J uv => by
      rw [gen]
      exact Tot.bind (k := 1) (k' := 1) op1 fun _ => Tot.send) (by simp)
  | .binop op l r, lp, t, T, ht, h => by
      rw [Legal] at h
      have hl := gen_tot (T := T) l ht h.1
      have hr := gen_tot (T := T) r ht h.2
      have hg : ∀ J uv, Tot (t :: T) J (l.weight + r.weight + 2) (t :: T) J (gen x (.binop op l r) uv) := by
        intro J uv
        rw [gen]
        exact (Tot.bin (hl.gen J true) (hr.gen J true)).bind (k' := 1) fun _ => Tot.when _ op1
      refine ⟨hg, fun J => ?_⟩
      rw [Node.weight]
      by_cases hc : ∃ o, op = .c o
      · obtain ⟨o, rfl⟩ := hc
        rw [condGen]
        exact (Tot.jfCmp (hl.gen J true) (hr.gen J true)).mono (by omega)
      · rw [condGen_ne (by rintro ⟨o, l', r', he⟩; cases he; exact hc ⟨o, rfl⟩)]
        exact Tot.jf (hg J true)
  | .land l r, _, _, _, ht, h => .of (fun J uv => by
      rw [Legal] at h
      rw [gen, Node.weight]
      exact (((gen_tot l ht h.1).gen J true).bind fun _ => (Tot.when (k := 1) _ op1).bind fun _ => Tot.jump.bind fun _ =>
        (Tot.when (k := 1) _ op1).bind fun _ => ((gen_tot r ht h.2).gen J uv).bind fun _ => Tot.patchCur).mono
          (by omega)) (by simp)
  | .lor l r, _, _, _, ht, h => .of (fun J uv => by
      rw [Legal] at h
      rw [gen, Node.weight]
      exact (((gen_tot l ht h.1).gen J true).bind fun _ => (Tot.when (k := 1) _ op1).bind fun _ => Tot.jump.bind fun _ =>
        (Tot.when (k := 1) _ op1).bind fun _ => ((gen_tot r ht h.2).gen J uv).bind fun _ => Tot.patchCur).mono
          (by omega)) (by simp)
  | .unop op a, _, _, T, ht, h => .of (fun J uv => by
      rw [Legal] at h
      have ha := (gen_tot (T := T) a ht h).gen J true
      cases op <;> rw [gen, Node.weight] <;>
        first
        | exact ha.bind (k' := 2) fun _ => Tot.bind (k := 1) (k' := 1) op1 fun _ => Tot.when _ op1
        | exact ha.bind (k' := 2) fun _ => ((Tot.pure ()).bind (k' := 1) fun _ => Tot.when _ op1).mono (by omega)) (by simp)
  | .array ns, _, _, _, ht, h => .of (fun J uv => by
      rw [Legal] at h
      rw [gen, Node.weight]
      exact (genAll_tot ns ht h J).bind (k' := 2) fun _ => Tot.bind (k := 1) (k' := 1) op1 fun _ => Tot.when _ op1) (by simp)
  | .carray l, _, _, _, _, _ => .of (fun J uv => by
      rw [gen]
      split
      · exact (Tot.pure ()).mono (Nat.zero_le _)
      · exact Tot.carray) (by simp)
  | .range a b e, _, _, _, ht, h => .of (fun J uv => by
      rw [Legal] at h
      rw [gen, Node.weight]
      exact (Tot.bind (k := 1) op1 fun _ => ((gen_tot b ht h.2).gen J true).bind fun _ =>
        ((gen_tot a ht h.1).gen J true).bind fun _ => Tot.bind (k := 1) (k' := 1) op1 fun _ => Tot.when _ op1).mono
          (by omega)) (by simp)
  | .index a b, _, _, T, ht, h => .of (fun J uv => by
      rw [Legal] at h
      rw [gen, Node.weight]
      have ha := (gen_tot (T := T) a ht h.1).gen J true
      cases b.is_imm_u32 with
      | some u => exact (ha.bind (k' := 2) fun _ => Tot.bind (k := 1) (k' := 1) op1 fun _ => Tot.when _ op1).mono (by omega)
      | none =>
        exact (ha.bind fun _ => ((gen_tot b ht h.2).gen J true).bind fun _ => Tot.bind (k := 1) (k' := 1) op1
          fun _ => Tot.when _ op1).mono (by omega)) (by simp)
  | .seq ns, _, _, _, ht, h => .of (fun J uv => by
      rw [Legal] at h
      rw [gen, Node.weight]
      exact genSeq_tot ns ht h J uv) (by simp)
  | .ite c a b, _, t, T, ht, h => .of (fun J uv => by
      rw [Legal] at h
      rw [gen_ite, Node.weight]
      have hc := (gen_tot (T := T) c ht h.1).cond J
      have ha := (gen_tot (T := T) a ht h.2.1).gen J uv
      have hb := (gen_tot (T := T) b ht h.2.2).gen J
      cases uv with
      | true =>
        exact (hc.bind fun _ => ha.bind fun _ => Tot.jump.bind fun _ => Tot.patchCur.bind fun _ =>
          (hb true).bind fun _ => Tot.patchCur).mono (by omega)
      | false =>
        cases b.isEmpty with
        | true => exact (hc.bind fun _ => ha.bind fun _ => Tot.patchCur).mono (by omega)
        | false =>
          exact (hc.bind fun _ => ha.bind fun _ => Tot.jump.bind fun _ => Tot.patchCur.bind fun _ =>
            (hb false).bind fun _ => Tot.patchCur).mono (by omega)) (by simp)
  | .while_ c b co, _, t, T, ht, h => .of (fun J uv => by
      rw [Legal] at h
      rw [gen_while, Node.weight]
      have hc := (gen_tot (t := false) (T := t :: T) c (fun _ => rfl) h.1).cond J
      have hc' := (gen_tot (t := false) (T := t :: T) c (fun _ => rfl) h.1).gen J true
      have hb := (gen_tot (t := false) (T := t :: T) b (fun _ => rfl) h.2).gen J false
      have hco : Tot (false :: t :: T) J (c.weight + 1) (false :: t :: T) J
          (if co = true then condGen x c else do gen x c true; jumpM JMP_T) := by
        cases co with
        | true => exact hc
        | false => exact hc'.bind fun _ => Tot.jump
      exact (Tot.pushLoop.bind fun _ => Tot.cur.bind fun _ => hco.bind fun _ => hb.bind fun _ => Tot.jmpBack.bind fun _ =>
        Tot.patchCur.bind fun _ => (Tot.when (k := 1) _ op1).bind fun _ => Tot.jump.bind fun _ => Tot.popLoop.bind fun _ =>
        Tot.escapes.bind fun _ => (Tot.when (k := 1) _ op1).bind fun _ => Tot.patchCur).mono (by omega)) (by simp)
  | .brk a, _, _, _, ht, h => .of (fun J uv => by
      rw [Legal] at h
      rw [gen, Node.weight]
      exact Tot.brk (h.1.imp_left ht) ((gen_tot a ht h.2).gen J true)) (by simp)
  | .nxt a, _, _, _, ht, h => .of (fun J uv => by
      rw [Legal] at h
      rw [gen, Node.weight]
      exact Tot.nxt (h.1.imp_left ht) ((gen_tot a ht h.2).gen J true) ((gen_tot a ht h.2).gen J uv)) (by simp)
  | .ret a, _, _, _, ht, h => .of (fun J uv => by
      rw [Legal] at h
      rw [gen, Node.weight]
      exact ((gen_tot a ht h).gen J true).bind fun _ => Tot.ret) (by simp)
  | .assign v a, _, _, _, ht, h => .of (fun J uv => by
      rw [Legal] at h
      rw [gen, Node.weight]
      exact ((gen_tot a ht h.2).gen J true).bind (k' := 2) fun _ => Tot.bind (k := 1) (k' := 1) (Tot.when _ op1)
        fun _ => Tot.setVar h.1) (by simp)
  | .opassign op v a, _, _, _, ht, h => .of (fun J uv => by
      rw [Legal] at h
      rw [gen, Node.weight]
      exact ((Tot.bin (Tot.getVar h.1) ((gen_tot a ht h.2).gen J true)).bind (k' := 2) fun _ =>
        Tot.bind (k := 1) (k' := 1) (Tot.when _ op1) fun _ => Tot.setVar h.1).mono (by omega)) (by simp)
  | .assignIdx a i b, _, _, T, ht, h => .of (fun J uv => by
      rw [Legal] at h
      rw [gen, Node.weight]
      have ha := (gen_tot (T := T) a ht h.1).gen J true
      have hb := (gen_tot (T := T) b ht h.2.2).gen J true
      cases i.is_imm_u32 with
      | some u =>
        exact (ha.bind fun _ => hb.bind fun _ => (Tot.when (k := 2) _ (Tot.bind (k := 1) (k' := 1) op1 fun _ => op1)).bind
          (k' := 1) fun _ => op1).mono (by omega)
      | none =>
        exact (ha.bind fun _ => ((gen_tot i ht h.2.1).gen J true).bind fun _ => hb.bind fun _ =>
          (Tot.when (k := 2) _ (Tot.bind (k := 1) (k' := 1) op1 fun _ => op1)).bind (k' := 1) fun _ => op1).mono
            (by omega)) (by simp)
  | .attrAssign a m b, _, _, _, ht, h => .of (fun J uv => by
      rw [Legal] at h
      rw [gen, Node.weight]
      exact (((gen_tot a ht h.1).gen J true).bind fun _ => ((gen_tot b ht h.2).gen J true).bind fun _ => Tot.send).mono
        (by omega)) (by simp)
  | .massign ts ns, _, _, _, ht, h => .of (fun J uv => by
      rw [Legal] at h
      rw [gen, Node.weight]
      exact genMassign_tot ts ns ht h.1 h.2 J uv) (by simp)
  | .send a m ns, _, _, _, ht, h => .of (fun J uv => by
      rw [Legal] at h
      rw [gen, Node.weight]
      exact (((gen_tot a ht h.1).gen J true).bind fun _ => (genAll_tot ns ht h.2 J).bind fun _ => Tot.send).mono
        (by omega)) (by simp)
  | .sendB a m ns b, _, _, _, ht, h => .of (fun J uv => by
      rw [Legal] at h
      rw [gen, Node.weight]
      exact (((gen_tot a ht h.1).gen J true).bind fun _ => (genAll_tot ns ht h.2 J).bind fun _ => Tot.send).mono
        (by omega)) (by simp)
  | .yield_ ns, _, _, _, ht, h => .of (fun J uv => by
      rw [Legal] at h
      rw [gen, Node.weight]
      exact (genAll_tot ns ht h J).bind (k' := 2) fun _ => Tot.bind (k := 1) (k' := 1) op1 fun _ => Tot.when _ op1) (by simp)
  | .case_ c ws b, _, _, T, ht, h => .of (fun J uv => by
      rw [Legal] at h
      rw [gen, Node.weight]
      have hc := (gen_tot (T := T) c ht h.1).gen J true
      have hb := (gen_tot (T := T) b ht h.2.2).gen J uv
      cases ws.allInt with
      | true =>
        exact (hc.bind fun _ => Tot.case2.bind fun p => (genTable_tot ws ht h.2.1 J p.2 uv).bind fun _ => Tot.cur.bind
          fun _ => Tot.setCase2.bind fun _ => Tot.patchCur.bind fun _ => hb.bind fun _ => Tot.patchAll).mono (by omega)
      | false =>
        cases ws.allLit with
        | true =>
          exact (hc.bind fun _ => Tot.case1.bind fun p => (genTable_tot ws ht h.2.1 J p.2 uv).bind fun _ =>
            Tot.setCase1.bind fun _ => Tot.patchCur.bind fun _ => hb.bind fun _ => Tot.patchAll).mono (by omega)
        | false =>
          exact (hc.bind fun _ => (genWhens_tot ws ht h.2.1 J none uv).bind fun _ => Tot.patchOpt.bind fun _ =>
            Tot.bind (k := 1) op1 fun _ => hb.bind fun _ => Tot.patchAll).mono (by omega)) (by simp)
  | .caseN ws b, _, _, _, ht, h => .of (fun J uv => by
      rw [Legal] at h
      rw [gen, Node.weight]
      exact ((genCondWhens_tot ws ht h.1 J uv).bind fun _ => ((gen_tot b ht h.2).gen J uv).bind fun _ => Tot.patchAll).mono
        (by omega)) (by simp)
  | .begin_ b rs els ens, _, _, T, ht, h => .of (fun J uv => by
      rw [Legal] at h
      rw [gen, Node.weight]
      have hb := (gen_tot (T := T) b ht h.1).gen (J + 1) uv
      have hel := genElse_tot (T := T) els ht h.2.2.1 J uv
      have hen := genOpt_tot (T := T) ens ht h.2.2.2 J
      cases rs.isEmpty with
      | true =>
        exact (Tot.cur.bind fun _ => Tot.pushJD.bind fun _ => hb.bind fun _ => Tot.popJD.bind fun _ => Tot.cur.bind fun _ =>
          hel.bind fun _ => (Tot.retPaths hen).bind fun _ => hen).mono (by omega)
      | false =>
        exact (Tot.cur.bind fun _ => Tot.pushJD.bind fun _ => hb.bind fun _ => Tot.popJD.bind fun _ => Tot.cur.bind fun _ =>
          Tot.jump.bind fun _ => Tot.cur.bind fun _ => (genRescues_tot rs ht h.2.1 J none uv).bind fun _ =>
          Tot.patchOpt.bind fun _ => hen.bind fun _ => Tot.bind (k := 1) op1 fun _ => Tot.patchCur.bind fun _ =>
          hel.bind fun _ => (Tot.retPaths hen).bind fun _ => Tot.patchAll.bind fun _ => Tot.pushEx.bind fun _ =>
          hen).mono (by omega)) (by simp)

theorem genAll_tot {x : Ctx} : ∀ (ns : Nodes) {lp t : Bool} {T : List Bool}, (lp = true → t = false) →
    LegalAll x.knows (x.kind = some .block) lp ns → ∀ J, Tot (t :: T) J ns.weight (t :: T) J (genAll x ns)
  | .nil, _, _, _, _, _, J => by rw [genAll]; exact Tot.pure ()
  | .cons n ns, _, _, _, ht, h, J => by
    rw [LegalAll] at h
    rw [genAll, Nodes.weight]
    exact (((gen_tot n ht h.1).gen J true).bind fun _ => genAll_tot ns ht h.2 J).mono (by omega)

theorem genSeq_tot {x : Ctx} : ∀ (ns : Nodes) {lp t : Bool} {T : List Bool}, (lp = true → t = false) →
    LegalAll x.knows (x.kind = some .block) lp ns → ∀ J uv, Tot (t :: T) J (ns.seqWeight) (t :: T) J (genSeq x ns uv)
  | .nil, _, _, _, _, _, J, uv => by rw [genSeq]; exact Tot.when (k := 1) _ op1
  | .cons n .nil, _, _, _, ht, h, J, uv => by
    rw [LegalAll] at h
    rw [genSeq, Nodes.seqWeight]
    exact (gen_tot n ht h.1).gen J uv
  | .cons n (.cons m ns), _, _, _, ht, h, J, uv => by
    rw [LegalAll] at h
    rw [genSeq, Nodes.seqWeight]
    exact ((gen_tot n ht h.1).gen J false).bind fun _ => genSeq_tot (.cons m ns) ht h.2 J uv

theorem genFirst_tot {x : Ctx} : ∀ (ns : Nodes) {lp t : Bool} {T : List Bool}, (lp = true → t = false) →
    LegalAll x.knows (x.kind = some .block) lp ns → ∀ J k, Tot (t :: T) J ns.weight (t :: T) J (genFirst x ns k)
  | .nil, _, _, _, _, _, J, k => by rw [genFirst]; exact Tot.pure ()
  | .cons n ns, _, _, _, ht, h, J, k => by
    rw [LegalAll] at h
    rw [genFirst, Nodes.weight]
    exact (((gen_tot n ht h.1).gen J _).bind fun _ => genFirst_tot ns ht h.2 J (k - 1)).mono (by omega)

theorem genMassign_tot {x : Ctx} (ts : List Var) : ∀ (ns : Nodes) {lp t : Bool} {T : List Bool},
    (lp = true → t = false) → (∀ v ∈ ts, knownVar x.knows v) → LegalAll x.knows (x.kind = some .block) lp ns → ∀ J uv,
    Tot (t :: T) J (ns.weight + (3 * (ts.length + ns.length) + 3)) (t :: T) J (genMassign x ts ns uv)
  | .nil, _, _, _, _, hv, _, J, uv => by
    rw [genMassign]
    exact (Tot.manyTail hv).mono (by simp only [Nodes.weight, Nodes.length]; omega)
  | .cons n .nil, lp, t, T, ht, hv, h, J, uv => by
    rw [LegalAll] at h
    have hn := (gen_tot (T := T) n ht h.1).gen J true
    have hs := Tot.setVars (T := t :: T) (J := J) (x := x) (vs := ts.reverse) (fun v hw => hv v (List.mem_reverse.1 hw))
    rw [List.length_reverse] at hs
    rw [genMassign.eq_def]
    dsimp only
    split
    · exact (hn.bind fun _ => Tot.bind (k := 1) (k' := 1) (Tot.when _ op1) fun _ => Tot.setVar (hv _ (by simp))).mono
        (by simp only [Nodes.weight, Nodes.length]; omega)
    · exact (hn.bind fun _ => Tot.bind (k := 1) (Tot.when _ op1) fun _ => Tot.bind (k := 1) op1 fun _ => hs).mono
        (by simp only [Nodes.weight, Nodes.length]; omega)
  | .cons n (.cons m ns), lp, t, T, ht, hv, h, J, uv => by
    rw [LegalAll] at h
    have hn := (gen_tot (T := T) n ht h.1).gen J
    have ht' := Tot.manyTail (T := t :: T) (J := J) hv (n := ns.length + 2) (uv := uv)
    rw [genMassign]
    cases uv with
    | true =>
      exact ((hn true).bind fun _ => (genAll_tot (.cons m ns) ht h.2 J).bind fun _ => ht').mono
        (by simp only [Nodes.weight, Nodes.length]; omega)
    | false =>
      exact ((hn _).bind fun _ => (genFirst_tot (.cons m ns) ht h.2 J _).bind fun _ => ht').mono
        (by simp only [Nodes.weight, Nodes.length]; omega)

theorem genTable_tot {x : Ctx} : ∀ (ws : Whens) {lp t : Bool} {T : List Bool}, (lp = true → t = false) →
    LegalWhens x.knows (x.kind = some .block) lp ws → ∀ J s uv, Tot (t :: T) J ws.weight (t :: T) J (genTable x ws s uv)
  | .nil, _, _, _, _, _, J, s, uv => by rw [genTable]; exact Tot.pure _
  | .cons ls b rest, _, _, _, ht, h, J, s, uv => by
    rw [LegalWhens] at h
    rw [genTable, Whens.weight]
    exact (Tot.cur.bind fun _ => ((gen_tot b ht h.2.1).gen J uv).bind fun _ => Tot.jump.bind fun _ =>
      (genTable_tot rest ht h.2.2 J s uv).bind fun _ => Tot.pure _).mono (by omega)

theorem genLabels_tot {x : Ctx} : ∀ (ns : Nodes) {lp t : Bool} {T : List Bool}, (lp = true → t = false) →
    LegalAll x.knows (x.kind = some .block) lp ns → ∀ J, Tot (t :: T) J ns.weight (t :: T) J (genLabels x ns)
  | .nil, _, _, _, _, _, J => by rw [genLabels]; exact Tot.pure _
  | .cons n ns, _, _, _, ht, h, J => by
    rw [LegalAll] at h
    rw [genLabels, Nodes.weight]
    exact (Tot.bind (k := 1) op1 fun _ => ((gen_tot n ht h.1).gen J true).bind fun _ => Tot.bind (k := 1) op1 fun _ =>
      Tot.bind (k := 1) op1 fun _ => Tot.jump.bind fun _ => (genLabels_tot ns ht h.2 J).bind fun _ => Tot.pure _).mono
        (by omega)

theorem genWhens_tot {x : Ctx} : ∀ (ws : Whens) {lp t : Bool} {T : List Bool}, (lp = true → t = false) →
    LegalWhens x.knows (x.kind = some .block) lp ws → ∀ J nx uv, Tot (t :: T) J ws.weight (t :: T) J (genWhens x ws nx uv)
  | .nil, _, _, _, _, _, J, nx, uv => by rw [genWhens]; exact Tot.pure _
  | .cons ls b rest, _, _, _, ht, h, J, nx, uv => by
    rw [LegalWhens] at h
    rw [genWhens, Whens.weight]
    exact (Tot.patchOpt.bind fun _ => (genLabels_tot ls ht h.1 J).bind fun _ => Tot.jump.bind fun p => Tot.patchAll.bind
      fun _ => Tot.bind (k := 1) op1 fun _ => ((gen_tot b ht h.2.1).gen J uv).bind fun _ => Tot.jump.bind fun _ =>
      (genWhens_tot rest ht h.2.2 J (some p) uv).bind fun _ => Tot.pure _).mono (by omega)

theorem genConds_tot {x : Ctx} : ∀ (ns : Nodes) {lp t : Bool} {T : List Bool}, (lp = true → t = false) →
    LegalAll x.knows (x.kind = some .block) lp ns → ∀ J, Tot (t :: T) J ns.weight (t :: T) J (genConds x ns)
  | .nil, _, _, _, _, _, J => by rw [genConds]; exact Tot.pure _
  | .cons n ns, _, _, _, ht, h, J => by
    rw [LegalAll] at h
    rw [genConds, Nodes.weight]
    exact (((gen_tot n ht h.1).gen J true).bind fun _ => Tot.jump.bind fun _ => (genConds_tot ns ht h.2 J).bind fun _ =>
      Tot.pure _).mono (by omega)

theorem genCondWhens_tot {x : Ctx} : ∀ (ws : Whens) {lp t : Bool} {T : List Bool}, (lp = true → t = false) →
    LegalWhens x.knows (x.kind = some .block) lp ws → ∀ J uv, Tot (t :: T) J ws.weight (t :: T) J (genCondWhens x ws uv)
  | .nil, _, _, _, _, _, J, uv => by rw [genCondWhens]; exact Tot.pure _
  | .cons ls b rest, _, _, _, ht, h, J, uv => by
    rw [LegalWhens] at h
    rw [genCondWhens, Whens.weight]
    exact ((genConds_tot ls ht h.1 J).bind fun _ => ((gen_tot b ht h.2.1).gen J uv).bind fun _ => Tot.jump.bind fun _ =>
      Tot.patchAll.bind fun _ => (genCondWhens_tot rest ht h.2.2 J uv).bind fun _ => Tot.pure _).mono (by omega)

theorem genExcs_tot {x : Ctx} : ∀ (ns : Nodes) {lp t : Bool} {T : List Bool}, (lp = true → t = false) →
    LegalAll x.knows (x.kind = some .block) lp ns → ∀ J, Tot (t :: T) J (ns.weight + 1) (t :: T) J (genExcs x ns)
  | .nil, _, _, _, _, _, J => by rw [genExcs]; exact op1
  | .cons n ns, _, _, _, ht, h, J => by
    rw [LegalAll] at h
    rw [genExcs, Nodes.weight]
    exact (((gen_tot n ht h.1).gen J true).bind fun _ => genAll_tot ns ht h.2 J).mono (by omega)

theorem genRescues_tot {x : Ctx} : ∀ (rs : Rescues) {lp t : Bool} {T : List Bool}, (lp = true → t = false) →
    LegalRescues x.knows (x.kind = some .block) lp rs → ∀ J p uv, Tot (t :: T) J rs.weight (t :: T) J (genRescues x rs p uv)
  | .nil, _, _, _, _, _, J, p, uv => by rw [genRescues]; exact Tot.pure _
  | .cons excs a b rest, _, t, T, ht, h, J, p, uv => by
    rw [LegalRescues] at h
    rw [genRescues.eq_def, Rescues.weight]
    dsimp only
    cases a with
    | none =>
      exact (Tot.patchOpt.bind fun _ => Tot.bind (k := 1) op1 fun _ => (genExcs_tot excs ht h.1 J).bind fun _ =>
        Tot.bind (k := 1) op1 fun _ => Tot.jump.bind fun q => Tot.bind (k := 1) op1 fun _ =>
        ((gen_tot b ht h.2.2.1).gen J uv).bind fun _ => Tot.jump.bind fun _ =>
        (genRescues_tot rest ht h.2.2.2 J (some q) uv).bind fun _ => Tot.pure _).mono (by omega)
    | some v =>
      exact (Tot.patchOpt.bind fun _ => Tot.bind (k := 1) op1 fun _ => (genExcs_tot excs ht h.1 J).bind fun _ =>
        Tot.bind (k := 1) op1 fun _ => Tot.jump.bind fun q => (Tot.setVar (h.2.1 v rfl)).bind fun _ =>
        ((gen_tot b ht h.2.2.1).gen J uv).bind fun _ => Tot.jump.bind fun _ =>
        (genRescues_tot rest ht h.2.2.2 J (some q) uv).bind fun _ => Tot.pure _).mono (by omega)

theorem genElse_tot {x : Ctx} : ∀ (o : OptNode) {lp t : Bool} {T : List Bool}, (lp = true → t = false) →
    LegalOpt x.knows (x.kind = some .block) lp o → ∀ J uv, Tot (t :: T) J o.weight (t :: T) J (genElse x o uv)
  | .none, _, _, _, _, _, J, uv => by rw [genElse]; exact Tot.pure _
  | .some n, _, _, _, ht, h, J, uv => by
    rw [LegalOpt] at h
    rw [genElse, OptNode.weight]
    exact (Tot.bind (k := 1) (Tot.when _ op1) fun _ => (gen_tot n ht h).gen J uv).mono (by omega)

theorem genOpt_tot {x : Ctx} : ∀ (o : OptNode) {lp t : Bool} {T : List Bool}, (lp = true → t = false) →
    LegalOpt x.knows (x.kind = some .block) lp o → ∀ J, Tot (t :: T) J o.weight (t :: T) J (genOpt x o)
  | .none, _, _, _, _, _, J => by rw [genOpt]; exact Tot.pure _
  | .some n, _, _, _, ht, h, J => by
    rw [LegalOpt] at h
    rw [genOpt, OptNode.weight]
    exact ((gen_tot n ht h).gen J false).mono (by omega)
end

end Verif.Codegen
