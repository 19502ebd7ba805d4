import Verif.Codegen.ShapeGen
/-!
# What the code of a tree begins with
-/
namespace Verif.Codegen
open Verif.ISeq Op
open Verif.Value (Val)

variable {α β : Type}

theorem Fst.emit {op : Byte} {args : List Operand} (h : fitsOp op args) (hn : isJmp op = false) : Fst (emitM op args) := by
  intro P g a g' hs he
  cases he
  have st := start_app (bs := (args.map opBytes).flatten) hs.whole hs.fits h.size
  refine ⟨op, ?_, ?_, hn⟩
  · show Start (ISeq.emit g.code op args) _
    rw [emit_eq]
    exact st.1 _ hs.whole
  · show (ISeq.emit g.code op args)[_]? = _
    rw [emit_eq]
    simp

/-- An instruction with its operands. -/
macro "fst" : term => `(Fst.emit (by first | rfl | decide) (by first | rfl | decide))

theorem Fst.const {v : Const} : Fst (genConst v) := by
  intro P g a g' hs he
  unfold genConst at he
  split at he
  · exact (fst : Fst (emitM CONST_VAL [u32 g.consts.length])) P { g with consts := g.consts ++ [v] } a g'
      (hs.book rfl rfl rfl hs.loops hs.jumps hs.ex) he
  · cases he

theorem Fst.num {v : Val} : Fst (genNum v) := by
  unfold genNum
  split
  · exact fst
  · exact Fst.const

theorem Fst.lit {l : Lit} : Fst (genLit l) := by
  cases l with
  | nil => exact fst
  | bool b => cases b <;> exact fst
  | int i => exact Fst.num
  | big n => exact Fst.const
  | flt b => exact Fst.num
  | str s => exact Fst.const
  | sym id => exact fst

theorem Fst.carray {l : List Lit} : Fst (genCArray l) := by
  unfold genCArray
  split
  · exact fst
  · exact Fst.const

theorem Fst.fail {e : Err} : Fst (failM e : M α) := fun _ _ _ _ _ he => by cases he

theorem Fst.getLocal {x : Ctx} {id : Id} : Fst (emitGetLocal x id) := by
  unfold emitGetLocal
  split
  · exact .fail
  · split <;> exact fst

theorem Fst.getVar {x : Ctx} {v : Var} : Fst (emitGetVar x v) := by
  cases v with
  | lvar id => exact Fst.getLocal
  | ivar id => exact fst
  | gvar id => exact fst

/-- The step begins with an instruction that is not a jump, or, if nobody wants a value, does nothing. -/
def Fs (uv : Bool) (m : M α) : Prop :=
  ∀ P g a g', Sound False P g → m g = .ok (a, g') → Solid g'.code g.code.length ∨ uv = false ∧ g' = g

theorem Fst.fs {uv : Bool} {m : M α} (h : Fst m) : Fs uv m := fun P g a g' hs he => .inl (h P g a g' hs he)

theorem Fs.fst {m : M α} (h : Fs true m) : Fst m := fun P g a g' hs he => (h P g a g' hs he).resolve_right (by simp)

theorem Fst.thn {β : Type} {m : M Unit} {f : M β} {R : β → Code → Prop} (h : Fst m)
    (hm : Keep False [] m Any') (hf : ∀ c1, Keep False c1 f R) : Fst (do m; f) :=
  h.bind hm fun _ c1 _ => hf c1

/-- The rest of a step, when nothing is assumed about loops. -/
abbrev Free (m : M α) : Prop := ∀ c0, Keep False c0 m Any'

theorem free (x : Ctx) (e : Node) (uv : Bool) : Free (gen x e uv) :=
  (gen_keep (F := False) (fun h => h.elim) e (fun h => h.elim)).gen uv

theorem freeCond (x : Ctx) (e : Node) (c0 : Code) : Keep False c0 (condGen x e) (fun s c => Slot c s) :=
  (gen_keep (F := False) (fun h => h.elim) e (fun h => h.elim)).cond c0

theorem freeAll (x : Ctx) (ns : Nodes) : Free (genAll x ns) :=
  genAll_keep (F := False) (fun h => h.elim) ns (fun h => h.elim)

theorem Fst.bin {op : BinOp} {imm : Option (BitVec 32)} {l r : M Unit} (h : Fst l) (hl : Free l) (hr : Free r) :
    Fst (genBin op imm l r) := by
  have two : Fst (do l; r; emitM op.op []) := by
    refine h.thn (R := Any') (hl _) fun c1 => (hr c1).bind fun _ _ _ _ => ?_
    rcases op with _ | _ | _ | _ | _ | _ | _ | _ | _ | _ | _ | _ | _ | o
    case c => cases o <;> exact ins
    all_goals exact ins
  unfold genBin
  cases imm with
  | none => cases op.opI <;> exact two
  | some i =>
    rcases op with _ | _ | _ | _ | _ | _ | _ | _ | _ | _ | _ | _ | _ | o
    case c => cases o <;> exact h.thn (hl _) fun _ => ins
    case add => exact h.thn (hl _) fun _ => ins
    case sub => exact h.thn (hl _) fun _ => ins
    all_goals exact two

theorem Fst.jfCmp {o : CmpOp} {imm : Option (BitVec 32)} {l r : M Unit} (h : Fst l) (hl : Free l) (hr : Free r) :
    Fst (genJFCmp o imm l r) := by
  unfold genJFCmp
  cases imm with
  | some i => exact h.thn (hl _) fun _ => Keep.jumpI (by cases o <;> rfl) (by cases o <;> decide)
  | none => exact h.thn (hl _) fun c1 => (hr c1).bind fun _ _ _ _ => Keep.jumpC (by cases o <;> rfl)

theorem Fst.brk {x : Ctx} {m : M Unit} (h : Fst m) (hm : Free m) : Fst (genBreak x m) := by
  intro P g a g' hs he
  unfold genBreak at he
  cases hg : g.loops with
  | nil => rw [hg] at he; cases he
  | cons l ls =>
    rw [hg] at he
    dsimp only at he
    split at he
    · by_cases hk : x.kind = some .block
      · rw [hk] at he
        exact (h.thn (hm _) fun _ => (ins : Keep False _ _ Any')) P g a g' hs he
      · rcases hx : x.kind with _ | _ | _ | _ | _
        case some.block => exact absurd hx hk
        all_goals rw [hx] at he; cases he
    · exact (h.thn (hm _) fun _ => Keep.jmp.bind fun _ _ _ q => Keep.addEscape q) P g a g' hs he

theorem Fst.nxt {x : Ctx} {m : M Unit} (h : Fst m) (hm : Free m) : Fst (genNext x m m) := by
  intro P g a g' hs he
  unfold genNext at he
  cases hg : g.loops with
  | nil => rw [hg] at he; cases he
  | cons l ls =>
    rw [hg] at he
    dsimp only at he
    split at he
    · by_cases hk : x.kind = some .block
      · rw [hk] at he
        exact (h.thn (hm _) fun _ => (ins : Keep False _ _ Any')) P g a g' hs he
      · rcases hx : x.kind with _ | _ | _ | _ | _
        case some.block => exact absurd hx hk
        all_goals rw [hx] at he; cases he
    · exact (h.thn (hm _) fun _ => Keep.jmp.bind fun _ _ _ q => Keep.addEscape q) P g a g' hs he

/-- Bookkeeping before the first instruction. -/
theorem Fst.book {m : M α} {f : α → M β} (hm : ∀ P g a g', Sound False P g → m g = .ok (a, g') →
    Sound False P g' ∧ g'.code = g.code) (h : ∀ a, Fst (f a)) : Fst (m >>= f) := by
  intro P g b g' hs he
  obtain ⟨a, g1, e1, e2⟩ := bindM.1 he
  obtain ⟨s1, c1⟩ := hm P g a g1 hs e1
  have := h a P g1 b g' s1 e2
  rwa [c1] at this

theorem Fst.cur {f : Nat → M β} (h : ∀ a, Fst (f a)) : Fst (curM >>= f) :=
  .book (fun P g a g' hs he => by obtain ⟨rfl, rfl⟩ := curM_ok he; exact ⟨hs, rfl⟩) h

theorem Fst.loop {m : M α} {rest : Nat → α → M β} {Q : α → Code → Prop} {R : β → Code → Prop}
    (hm : ∀ c0, Keep False c0 m Q) (hf : Fst m)
    (hrest : ∀ p a c1, Start c1 p → Q a c1 → Keep False c1 (rest p a) R) :
    Fst (curM >>= fun p => m >>= fun a => rest p a) := by
  intro P g b g' hs he
  obtain ⟨p, g1, e1, he⟩ := bindM.1 he
  obtain ⟨a, g2, e2, he⟩ := bindM.1 he
  obtain ⟨rfl, rfl⟩ := curM_ok e1
  obtain ⟨s2, l2, q2⟩ := hm _ P g1 a g2 (.refl _) hs e2
  obtain ⟨s3, l3, q3⟩ := hrest g1.code.length a g2.code (l2.2 _ hs.whole).1 q2 P g2 b g' (.refl _) s2 he
  exact (hf P g1 a g2 hs e2).mono l3

/-- What the code of the tree, as a value, as a statement and as a condition, begins with. -/
structure FrontN (x : Ctx) (e : Node) : Prop where
  gen : ∀ uv, Front e uv → Fs uv (gen x e uv)
  cond : Front e true → Fst (condGen x e)

theorem FrontN.of {x : Ctx} {e : Node} (h : ∀ uv, Front e uv → Fs uv (Codegen.gen x e uv))
    (hc : ∀ o l r, e ≠ .binop (.c o) l r) : FrontN x e := by
  refine ⟨h, fun hf => ?_⟩
  rw [condGen_ne (by rintro ⟨o, l, r, he⟩; exact hc o l r he)]
  exact (h true hf).fst.thn (free x e true _) fun _ => Keep.jmpF

mutual
theorem front_gen {x : Ctx} : ∀ (e : Node), FrontN x e
  | .lit l => .of (fun uv _ => by
      rw [gen]
      split
      · rename_i h
        intro P g a g' hs he
        obtain ⟨-, rfl⟩ := pureM.1 he
        exact .inr ⟨by cases uv <;> simp_all, rfl⟩
      · exact Fst.lit.fs) (by simp)
  | .self => .of (fun uv _ => by
      rw [gen]
      split
      · intro P g a g' hs he
        obtain ⟨-, rfl⟩ := pureM.1 he
        exact .inr ⟨by cases uv <;> simp_all, rfl⟩
      · exact Fst.fs fst) (by simp)
  | .lvar id => .of (fun uv _ => by rw [gen]; exact (Fst.getLocal.thn Keep.getLocal fun _ => Keep.when _ ins).fs) (by simp)
  | .ivar id => .of (fun uv _ => by rw [gen]; exact (Fst.thn fst ins fun _ => Keep.when _ ins).fs) (by simp)
  | .gvar id => .of (fun uv _ => by rw [gen]; exact (Fst.thn fst ins fun _ => Keep.when _ ins).fs) (by simp)
  | .ident id => .of (fun uv _ => by rw [gen]; exact (Fst.thn fst ins fun _ => Keep.send).fs) (by simp)
  | .binop op l r => by
      have hg : ∀ uv, Front (.binop op l r) uv → Fs uv (gen x (.binop op l r) uv) := by
        intro uv h
        simp only [Front] at h
        rw [gen]
        exact ((Fst.bin ((front_gen l).gen true h).fst (free x l true) (free x r true)).thn
          (Keep.bin (free x l true _) (free x r true)) fun _ => Keep.when _ ins).fs
      refine ⟨hg, fun h => ?_⟩
      by_cases hc : ∃ o, op = .c o
      · obtain ⟨o, rfl⟩ := hc
        simp only [Front] at h
        rw [condGen]
        exact Fst.jfCmp ((front_gen l).gen true h).fst (free x l true) (free x r true)
      · rw [condGen_ne (by rintro ⟨o, l', r', he⟩; cases he; exact hc ⟨o, rfl⟩)]
        exact (hg true h).fst.thn (free x _ true _) fun _ => Keep.jmpF
  | .land l r => .of (fun uv h => by
      simp only [Front] at h
      rw [gen]
      exact (((front_gen l).gen true h).fst.thn (free x l true _) fun _ => (Keep.when _ ins).bind fun _ _ _ _ =>
        Keep.jmpF.bind fun s _ _ q => (Keep.when _ ins).bind fun _ c1 l1 _ =>
        (free x r uv c1).bind fun _ _ l2 _ => Keep.patchCur (q.mono (l1.trans l2))).fs) (by simp)
  | .lor l r => .of (fun uv h => by
      simp only [Front] at h
      rw [gen]
      exact (((front_gen l).gen true h).fst.thn (free x l true _) fun _ => (Keep.when _ ins).bind fun _ _ _ _ =>
        Keep.jmpT.bind fun s _ _ q => (Keep.when _ ins).bind fun _ c1 l1 _ =>
        (free x r uv c1).bind fun _ _ l2 _ => Keep.patchCur (q.mono (l1.trans l2))).fs) (by simp)
  | .unop op a => .of (fun uv h => by
      simp only [Front] at h
      have ha := ((front_gen (x := x) a).gen true h).fst
      cases op <;> rw [gen]
      case pos =>
        exact (ha.thn (free x a true _) fun _ => Keep.done.bind fun _ _ _ _ => Keep.when _ ins).fs
      all_goals
        exact (ha.thn (free x a true _) fun _ => (ins : Keep False _ _ Any').bind fun _ _ _ _ => Keep.when _ ins).fs) (by simp)
  | .array .nil => .of (fun uv _ => by
      rw [gen, genAll]
      exact (Fst.book (fun P g a g' hs he => by obtain ⟨-, rfl⟩ := pureM.1 he; exact ⟨hs, rfl⟩)
        fun _ => Fst.thn fst ins fun _ => Keep.when _ ins).fs) (by simp)
  | .array (.cons n ns) => .of (fun uv h => by
      simp only [Front, FrontFirst] at h
      rw [gen]
      have : Fst (genAll x (.cons n ns)) := by
        rw [genAll]
        exact ((front_gen n).gen true h).fst.thn (free x n true _) (freeAll x ns)
      exact (this.thn (freeAll x _ _) fun _ => (ins : Keep False _ _ Any').bind fun _ _ _ _ => Keep.when _ ins).fs) (by simp)
  | .carray l => .of (fun uv _ => by
      rw [gen]
      split
      · intro P g a g' hs he
        obtain ⟨-, rfl⟩ := pureM.1 he
        exact .inr ⟨by cases uv <;> simp_all, rfl⟩
      · exact Fst.carray.fs) (by simp)
  | .range a b e => .of (fun uv _ => by
      rw [gen]
      exact (Fst.thn fst ins fun c1 => (free x b true c1).bind fun _ c2 _ _ => (free x a true c2).bind fun _ _ _ _ =>
        (ins : Keep False _ _ Any').bind fun _ _ _ _ => Keep.when _ ins).fs) (by simp)
  | .index a b => .of (fun uv h => by
      simp only [Front] at h
      rw [gen]
      have ha := ((front_gen (x := x) a).gen true h).fst
      cases b.is_imm_u32 with
      | some u =>
        exact (ha.thn (free x a true _) fun _ => (ins : Keep False _ _ Any').bind fun _ _ _ _ => Keep.when _ ins).fs
      | none =>
        exact (ha.thn (free x a true _) fun c1 => (free x b true c1).bind fun _ _ _ _ =>
          (ins : Keep False _ _ Any').bind fun _ _ _ _ => Keep.when _ ins).fs) (by simp)
  | .seq ns => .of (fun uv h => by
      simp only [Front] at h
      rw [gen]
      exact front_seq ns uv h) (by simp)
  | .ite c a b => .of (fun uv h => by
      simp only [Front] at h
      rw [gen_ite]
      have hc := (front_gen (x := x) c).cond h
      have hk := freeCond x c
      cases uv with
      | true =>
        exact (Fst.bind hc (hk _) fun _ c1 q1 => (free x a true c1).bind fun _ _ l2 _ => Keep.jmp.bind fun _ _ l3 q2 =>
          (Keep.patchCur (q1.mono (l2.trans l3))).bind fun _ c4 l4 _ => (free x b true c4).bind fun _ _ l5 _ =>
          Keep.patchCur (q2.mono (l4.trans l5))).fs
      | false =>
        cases b.isEmpty with
        | true => exact (Fst.bind hc (hk _) fun _ c1 q1 => (free x a false c1).bind fun _ _ l2 _ =>
            Keep.patchCur (q1.mono l2)).fs
        | false =>
          exact (Fst.bind hc (hk _) fun _ c1 q1 => (free x a false c1).bind fun _ _ l2 _ => Keep.jmp.bind fun _ _ l3 q2 =>
            (Keep.patchCur (q1.mono (l2.trans l3))).bind fun _ c4 l4 _ => (free x b false c4).bind fun _ _ l5 _ =>
            Keep.patchCur (q2.mono (l4.trans l5))).fs) (by simp)
  | .while_ c b co => .of (fun uv h => by
      simp only [Front] at h
      rw [gen_while]
      have hco : ∀ c1, Keep False c1 (if co = true then condGen x c else do gen x c true; jumpM JMP_T)
          (fun s c => Slot c s) := by
        intro c1
        cases co with
        | true => exact freeCond x c c1
        | false => exact (free x c true c1).bind fun _ _ _ _ => Keep.jmpT
      have hf : Fst (if co = true then condGen x c else do gen x c true; jumpM JMP_T) := by
        cases co with
        | true => exact (front_gen c).cond h
        | false => exact ((front_gen c).gen true h).fst.thn (free x c true _) fun _ => Keep.jmpT
      refine (Fst.book (fun P g a g' hs he => ?_) fun _ => Fst.loop hco hf fun p s c2 hp q =>
        (free x b false c2).bind fun _ c3 l3 _ =>
        (Keep.jmpBack (l3.2 p hp).1 fun f => f.elim).bind fun _ c4 l4 _ =>
        (Keep.patchCur (q.mono (l3.trans l4))).bind fun _ c5 l5 _ => (Keep.when _ ins).bind fun _ c6 l6 _ =>
        Keep.jmp.bind fun _ c7 l7 q7 => Keep.popLoop.bind fun _ c8 l8 q8 =>
        (Keep.escapes q8 (((((((l3.trans l4).trans l5).trans l6).trans l7).trans l8)).2 p hp).1
          fun f => f.elim).bind fun _ c9 l9 _ =>
        (Keep.when _ ins).bind fun _ _ l10 _ => Keep.patchCur (q7.mono ((l8.trans l9).trans l10))).fs
      obtain ⟨s, -, -⟩ := Keep.pushLoop P g a g' (.refl _) hs he
      cases he
      exact ⟨s, rfl⟩) (by simp)
  | .brk a => .of (fun uv h => by
      simp only [Front] at h
      rw [gen]
      exact (Fst.brk ((front_gen a).gen true h).fst (free x a true)).fs) (by simp)
  | .nxt a => .of (fun uv h => by
      simp only [Front] at h
      obtain ⟨rfl, h⟩ := h
      rw [gen]
      exact (Fst.nxt ((front_gen a).gen true h).fst (free x a true)).fs) (by simp)
  | .ret a => .of (fun uv h => by
      simp only [Front] at h
      rw [gen]
      exact (((front_gen a).gen true h).fst.thn (free x a true _) fun _ => Keep.ret).fs) (by simp)
  | .assign v a => .of (fun uv h => by
      simp only [Front] at h
      rw [gen]
      exact (((front_gen a).gen true h).fst.thn (free x a true _) fun _ => (Keep.when _ ins).bind fun _ _ _ _ => Keep.setVar).fs) (by simp)
  | .opassign op v a => .of (fun uv h => by
      rw [gen]
      exact ((Fst.bin Fst.getVar (fun _ => Keep.getVar) (free x a true)).thn (Keep.bin Keep.getVar (free x a true)) fun _ =>
        (Keep.when _ ins).bind fun _ _ _ _ => Keep.setVar).fs) (by simp)
  | .assignIdx a i b => .of (fun uv h => by
      simp only [Front] at h
      rw [gen]
      have ha := ((front_gen (x := x) a).gen true h).fst
      cases i.is_imm_u32 with
      | some u =>
        exact (ha.thn (free x a true _) fun c1 => (free x b true c1).bind fun _ _ _ _ =>
          (Keep.when _ ((ins : Keep False _ _ Any').bind fun _ _ _ _ => ins)).bind fun _ _ _ _ => ins).fs
      | none =>
        exact (ha.thn (free x a true _) fun c1 => (free x i true c1).bind fun _ c2 _ _ =>
          (free x b true c2).bind fun _ _ _ _ =>
          (Keep.when _ ((ins : Keep False _ _ Any').bind fun _ _ _ _ => ins)).bind fun _ _ _ _ => ins).fs) (by simp)
  | .attrAssign a m b => .of (fun uv h => by
      simp only [Front] at h
      rw [gen]
      exact (((front_gen a).gen true h).fst.thn (free x a true _) fun c1 => (free x b true c1).bind fun _ _ _ _ => Keep.send).fs) (by simp)
  | .massign ts .nil => .of (fun uv h => by simp only [Front] at h; exact absurd rfl h.2.1) (by simp)
  | .massign ts (.cons n .nil) => .of (fun uv h => by
      simp only [Front, FrontFirst] at h
      have hn := ((front_gen (x := x) n).gen true h.2.2).fst
      rw [gen, genMassign.eq_def]
      dsimp only
      split
      · exact (hn.thn (free x n true _) fun _ => (Keep.when _ ins).bind fun _ _ _ _ => Keep.setVar).fs
      · exact (hn.thn (free x n true _) fun _ => (Keep.when _ ins).bind fun _ _ _ _ =>
          (ins : Keep False _ _ Any').bind fun _ _ _ _ => Keep.setVars).fs) (by simp)
  | .massign ts (.cons n (.cons m ns)) => .of (fun uv h => by
      simp only [Front, FrontFirst] at h
      have hn := ((front_gen (x := x) n).gen true h.2.2).fst
      have hd : decide (0 < ts.length) = true := by
        cases ts with
        | nil => exact absurd rfl h.1
        | cons t ts => simp
      rw [gen, genMassign]
      cases uv with
      | true =>
        exact (hn.thn (free x n true _) fun c1 => (freeAll x (.cons m ns) c1).bind fun _ _ _ _ => Keep.manyTail).fs
      | false =>
        rw [hd]
        exact (hn.thn (free x n true _) fun c1 =>
          (genFirst_keep (F := False) (fun h => h.elim) (.cons m ns) (fun h => h.elim) _ c1).bind fun _ _ _ _ =>
          Keep.manyTail).fs) (by simp)
  | .send a m ns => .of (fun uv h => by
      simp only [Front] at h
      rw [gen]
      exact (((front_gen a).gen true h).fst.thn (free x a true _) fun c1 => (freeAll x ns c1).bind fun _ _ _ _ => Keep.send).fs) (by simp)
  | .sendB a m ns b => .of (fun uv h => by
      simp only [Front] at h
      rw [gen]
      exact (((front_gen a).gen true h).fst.thn (free x a true _) fun c1 => (freeAll x ns c1).bind fun _ _ _ _ => Keep.send).fs) (by simp)
  | .yield_ .nil => .of (fun uv _ => by
      rw [gen, genAll]
      exact (Fst.book (fun P g a g' hs he => by obtain ⟨-, rfl⟩ := pureM.1 he; exact ⟨hs, rfl⟩)
        fun _ => Fst.thn fst ins fun _ => Keep.when _ ins).fs) (by simp)
  | .yield_ (.cons n ns) => .of (fun uv h => by
      simp only [Front, FrontFirst] at h
      rw [gen]
      have : Fst (genAll x (.cons n ns)) := by
        rw [genAll]
        exact ((front_gen n).gen true h).fst.thn (free x n true _) (freeAll x ns)
      exact (this.thn (freeAll x _ _) fun _ => (ins : Keep False _ _ Any').bind fun _ _ _ _ => Keep.when _ ins).fs) (by simp)
  | .case_ c ws b => .of (fun uv h => by
      simp only [Front] at h
      rw [gen]
      have hn := ((front_gen (x := x) c).gen true h).fst
      have H : Conds False x := fun h => h.elim
      have hT : False → TameWhens ws := fun h => h.elim
      have hb := free x b uv
      cases ws.allInt with
      | true =>
        exact (hn.thn (free x c true _) fun c1 => Keep.case2 (inner := fun s => genTable x ws s uv)
          (mapOf := fun s r cur => (ws.bounds.1, ws.bounds.2, caseVec ws.bounds.1 ws.bounds.2 r.1 (dispTo s cur)))
          (rest := fun s r => do patchCurM s; gen x b uv; patchAllM r.2)
          (fun s c2 _ q hs => genTable_keep H ws hT s uv c2 hs)
          (fun s r c q hs hc' e he => by
            rcases caseVec_mem he with rfl | ⟨l, he⟩
            · exact Leads.of hc' (Nat.le_refl _) hs
            · exact q.1 _ he)
          (fun s r c _ qs q => (Keep.patchCur qs).bind fun _ c3 l3 _ => (hb c3).bind fun _ _ l4 _ =>
            Keep.patchAll fun t ht => (q.2 t ht).mono (l3.trans l4))).fs
      | false =>
        cases ws.allLit with
        | true =>
          exact (hn.thn (free x c true _) fun c1 => Keep.case1 (inner := fun s => genTable x ws s uv) (mapOf := fun r => r.1)
            (rest := fun s r => do patchCurM s; gen x b uv; patchAllM r.2)
            (fun s c2 _ q hs => genTable_keep H ws hT s uv c2 hs)
            (fun s r c q => q.1)
            (fun s r c _ qs q => (Keep.patchCur qs).bind fun _ c3 l3 _ => (hb c3).bind fun _ _ l4 _ =>
              Keep.patchAll fun t ht => (q.2 t ht).mono (l3.trans l4))).fs
        | false =>
          exact (hn.thn (free x c true _) fun c1 => (genWhens_keep H ws hT none uv c1 (by simp)).bind fun _ _ _ q =>
            (Keep.patchOpt q.1).bind fun _ _ l2 _ => (ins : Keep False _ _ Any').bind fun _ c3 l3 _ =>
            (hb c3).bind fun _ _ l4 _ => Keep.patchAll fun t ht => (q.2 t ht).mono ((l2.trans l3).trans l4)).fs) (by simp)
  | .caseN .nil b => .of (fun uv h => by simp only [Front, FrontWhens] at h) (by simp)
  | .caseN (.cons .nil _ _) b => .of (fun uv h => by simp only [Front, FrontWhens] at h) (by simp)
  | .caseN (.cons (.cons n ns) b' rest) b => .of (fun uv h => by
      simp only [Front, FrontWhens] at h
      have hn := ((front_gen (x := x) n).gen true h).fst
      have H : Conds False x := fun h => h.elim
      have f1 : Fst (genConds x (.cons n ns)) := by
        rw [genConds]
        exact hn.thn (R := Any') (free x n true _) fun _ => Keep.jmpF.bind fun _ c1 _ _ =>
          (genConds_keep H ns (fun h => h.elim) c1).bind fun _ _ _ _ => Keep.pure _ fun _ _ => trivial
      have f2 : Fst (genCondWhens x (.cons (.cons n ns) b' rest) uv) := by
        rw [genCondWhens]
        exact f1.bind (R := Any') (genConds_keep H _ (fun h => h.elim) _) fun _ c1 qj => (free x b' uv c1).bind fun _ _ l2 _ =>
          Keep.jmp.bind fun _ _ l3 _ => (Keep.patchAll fun t ht => (qj t ht).mono (l2.trans l3)).bind fun _ c4 _ _ =>
          (genCondWhens_keep H rest (fun h => h.elim) uv c4).bind fun _ _ _ _ => Keep.pure _ fun _ _ => trivial
      rw [gen]
      exact (f2.bind (genCondWhens_keep H _ (fun h => h.elim) uv _) fun _ c1 q =>
        (free x b uv c1).bind fun _ _ l _ => Keep.patchAll fun t ht => (q t ht).mono l).fs) (by simp)
  | .begin_ b rs els ens => .of (fun uv h => by
      simp only [Front] at h
      obtain ⟨rfl, h⟩ := h
      have hn := ((front_gen (x := x) b).gen true h).fst
      rw [gen]
      have H : Conds False x := fun h => h.elim
      have hel := genElse_keep (x := x) H els (fun f => f.elim) true
      have hen := genOpt_keep (x := x) H ens (fun f => f.elim)
      have pd : ∀ {β : Type} {f : Unit → M β}, Fst (f ()) → Fst (pushJumpDest ens.isSome >>= f) := fun h =>
        Fst.book (fun P g a g' hs he => by
          obtain ⟨s, -, -⟩ := Keep.pushJD P g a g' (.refl _) hs he
          cases he
          exact ⟨s, rfl⟩) fun _ => h
      cases rs.isEmpty with
      | true =>
        exact (Fst.cur fun _ => pd <| hn.thn (free x b true _) fun _ =>
          Keep.popJD.bind fun _ _ _ qj => Keep.cur.bind fun _ c3 l3 _ => (hel c3).bind fun _ c4 l4 _ =>
          (Keep.retPaths hen (fun s hs => (qj.1 s hs).mono (l3.trans l4)) fun s hs => (qj.2 s hs).mono (l3.trans l4)).bind
          fun _ c5 _ _ => hen c5).fs
      | false =>
        exact (Fst.cur fun _ => pd <| hn.thn (free x b true _) fun _ =>
          Keep.popJD.bind fun _ _ _ qj => Keep.cur.bind fun _ c3 l3 _ => Keep.jmp.bind fun _ c4 l4 q4 =>
          Keep.cur.bind fun _ c5 l5 q5 => (genRescues_keep H rs (fun f => f.elim) none true c5 (by simp)).bind
          fun _ c6 l6 q6 => (Keep.patchOpt q6.1).bind fun _ c7 l7 _ => (hen c7).bind fun _ c8 l8 _ =>
          (ins : Keep False _ _ Any').bind fun _ c9 l9 _ =>
          (Keep.patchCur (q4.mono ((((l5.trans l6).trans l7).trans l8).trans l9))).bind fun _ c10 l10 _ =>
          (hel c10).bind fun _ c11 l11 _ =>
          (Keep.retPaths hen
            (fun s hs => (qj.1 s hs).mono ((((((((l3.trans l4).trans l5).trans l6).trans l7).trans l8).trans l9).trans
              l10).trans l11))
            (fun s hs => (qj.2 s hs).mono ((((((((l3.trans l4).trans l5).trans l6).trans l7).trans l8).trans l9).trans
              l10).trans l11))).bind fun _ c12 l12 _ =>
          (Keep.patchAll fun t ht => (q6.2 t ht).mono (((((l7.trans l8).trans l9).trans l10).trans l11).trans l12)).bind
          fun _ c13 l13 _ => (Keep.pushEx
            ((((((((l6.trans l7).trans l8).trans l9).trans l10).trans l11).trans l12).trans l13).2 _ q5.1).1).bind
          fun _ c14 _ _ => hen c14).fs) (by simp)

theorem front_seq {x : Ctx} : ∀ (ns : Nodes) (uv : Bool), FrontSeq ns uv → Fs uv (genSeq x ns uv)
  | .nil, uv, _ => by
    rw [genSeq]
    cases uv with
    | true => exact Fst.fs fst
    | false =>
      intro P g a g' hs he
      obtain ⟨-, rfl⟩ := pureM.1 he
      exact .inr ⟨rfl, rfl⟩
  | .cons n .nil, uv, h => by
    simp only [FrontSeq] at h
    rw [genSeq]
    exact (front_gen n).gen uv h
  | .cons n (.cons m ns), uv, h => by
    simp only [FrontSeq] at h
    have h1 := (front_gen (x := x) n).gen false h.1
    have h2 := front_seq (x := x) (.cons m ns) uv h.2
    rw [genSeq]
    intro P g a g' hs he
    obtain ⟨_, g1, e1, e2⟩ := bindM.1 he
    obtain ⟨s1, l1, -⟩ := free x n false _ P g _ g1 (.refl _) hs e1
    rcases h1 P g _ g1 hs e1 with k | ⟨-, rfl⟩
    · obtain ⟨s2, l2, -⟩ := genSeq_keep (F := False) (fun h => h.elim) (.cons m ns) (fun h => h.elim) uv _ P g1 a g' (.refl _) s1 e2
      exact .inl (k.mono l2)
    · exact h2 P _ a g' hs e2
end

end Verif.Codegen
