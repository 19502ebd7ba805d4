import Verif.Codegen.ShapeStep
/-!
# The compiler keeps the shape
-/
namespace Verif.Codegen
open Verif.ISeq Op
open Verif.Value (Val)

mutual
/-- The code of the tree does not begin with a jump: what is evaluated first is not a `next` whose value is dropped. -/
def Front : Node → (used : Bool) → Prop
  | .lit _, _ => True
  | .self, _ => True
  | .lvar _, _ => True
  | .ivar _, _ => True
  | .gvar _, _ => True
  | .ident _, _ => True
  | .binop _ l _, _ => Front l true
  | .land l _, _ => Front l true
  | .lor l _, _ => Front l true
  | .unop _ a, _ => Front a true
  | .array ns, _ => FrontFirst ns
  | .carray _, _ => True
  | .range _ _ _, _ => True
  | .index a _, _ => Front a true
  | .seq ns, uv => FrontSeq ns uv
  | .ite c _ _, _ => Front c true
  | .while_ c _ _, _ => Front c true
  | .brk a, _ => Front a true
  | .nxt a, uv => uv = true ∧ Front a true
  | .ret a, _ => Front a true
  | .assign _ a, _ => Front a true
  | .opassign _ _ _, _ => True
  | .assignIdx a _ _, _ => Front a true
  | .attrAssign a _ _, _ => Front a true
  | .massign ts ns, _ => ts ≠ [] ∧ ns ≠ .nil ∧ FrontFirst ns
  | .send a _ _, _ => Front a true
  | .sendB a _ _ _, _ => Front a true
  | .yield_ ns, _ => FrontFirst ns
  | .case_ c _ _, _ => Front c true
  | .caseN ws _, _ => FrontWhens ws
  | .begin_ b _ _ _, uv => uv = true ∧ Front b true

/-- The first value. -/
def FrontFirst : Nodes → Prop
  | .nil => True
  | .cons n _ => Front n true

/-- Statements. -/
def FrontSeq : Nodes → (used : Bool) → Prop
  | .nil, _ => True
  | .cons n .nil, uv => Front n uv
  | .cons n (.cons m ns), uv => Front n false ∧ FrontSeq (.cons m ns) uv

/-- The first condition. -/
def FrontWhens : Whens → Prop
  | .nil => False
  | .cons .nil _ _ => False
  | .cons (.cons n _) _ _ => Front n true
end

mutual
/-- No loop in the tree has a condition that begins with `next`. -/
def Tame : Node → Prop
  | .lit _ => True
  | .self => True
  | .lvar _ => True
  | .ivar _ => True
  | .gvar _ => True
  | .ident _ => True
  | .binop _ l r => Tame l ∧ Tame r
  | .land l r => Tame l ∧ Tame r
  | .lor l r => Tame l ∧ Tame r
  | .unop _ a => Tame a
  | .array ns => TameAll ns
  | .carray _ => True
  | .range a b _ => Tame a ∧ Tame b
  | .index a b => Tame a ∧ Tame b
  | .seq ns => TameAll ns
  | .ite c a b => Tame c ∧ Tame a ∧ Tame b
  | .while_ c b _ => Front c true ∧ Tame c ∧ Tame b
  | .brk a => Tame a
  | .nxt a => Tame a
  | .ret a => Tame a
  | .assign _ a => Tame a
  | .opassign _ _ a => Tame a
  | .assignIdx a i b => Tame a ∧ Tame i ∧ Tame b
  | .attrAssign a _ b => Tame a ∧ Tame b
  | .massign _ ns => TameAll ns
  | .send a _ ns => Tame a ∧ TameAll ns
  | .sendB a _ ns _ => Tame a ∧ TameAll ns
  | .yield_ ns => TameAll ns
  | .case_ c ws b => Tame c ∧ TameWhens ws ∧ Tame b
  | .caseN ws b => TameWhens ws ∧ Tame b
  | .begin_ b rs els ens => Tame b ∧ TameRescues rs ∧ TameOpt els ∧ TameOpt ens

def TameAll : Nodes → Prop
  | .nil => True
  | .cons n ns => Tame n ∧ TameAll ns

def TameWhens : Whens → Prop
  | .nil => True
  | .cons ls b rest => TameAll ls ∧ Tame b ∧ TameWhens rest

def TameRescues : Rescues → Prop
  | .nil => True
  | .cons excs _ b rest => TameAll excs ∧ Tame b ∧ TameRescues rest

def TameOpt : OptNode → Prop
  | .none => True
  | .some n => Tame n
end

variable {F : Prop}

theorem Fst.bind {α β : Type} {m : M α} {f : α → M β} {Q : α → Code → Prop} {R : β → Code → Prop} (h : Fst m)
    (hm : Keep False [] m Q) (hf : ∀ a c1, Q a c1 → Keep False c1 (f a) R) : Fst (m >>= f) := by
  intro P g b g' hs he
  obtain ⟨a, g1, e1, e2⟩ := bindM.1 he
  have nil : Le [] g.code := ⟨by simp, fun p hp => by
    cases hp with
    | zero => exact ⟨.zero, by simp⟩
    | next pos op sz _ ho _ => simp at ho⟩
  obtain ⟨s1, l1, q1⟩ := hm P g a g1 nil hs e1
  obtain ⟨s2, l2, -⟩ := hf a g1.code q1 P g1 b g' (.refl _) s1 e2
  exact (h P g a g1 hs e1).mono l2

/-- What the conditions of loops satisfy. -/
abbrev Conds (F : Prop) (x : Ctx) : Prop := F → ∀ e, Front e true → Fst (condGen x e) ∧
  Fst (do gen x e true; jumpM JMP_T)

/-- The code of the tree, as a value, as a statement and as a condition. -/
structure KeepN (F : Prop) (x : Ctx) (e : Node) : Prop where
  gen : ∀ uv c0, Keep F c0 (gen x e uv) Any'
  cond : ∀ c0, Keep F c0 (condGen x e) (fun s c => Slot c s)

theorem KeepN.of {x : Ctx} {e : Node} (h : ∀ uv c0, Keep F c0 (Codegen.gen x e uv) Any')
    (hc : ∀ o l r, e ≠ .binop (.c o) l r) : KeepN F x e := by
  refine ⟨h, fun c0 => ?_⟩
  rw [condGen_ne (by rintro ⟨o, l, r, he⟩; exact hc o l r he)]
  exact Keep.jf (h true c0)

theorem caseVec_mem {lo hi : Int} {m : CaseMap} {d e : BitVec 32} (h : e ∈ caseVec lo hi m d) :
    e = d ∨ ∃ l, (l, e) ∈ m := by
  have : ∀ (m : CaseMap) (v : List (BitVec 32)), e ∈ m.foldl (fun v (l, d) => match l with
      | .int i => v.set (i - lo).toNat d
      | _ => v) v → e ∈ v ∨ ∃ l, (l, e) ∈ m := by
    intro m
    induction m with
    | nil => exact fun v h => .inl h
    | cons p m ih =>
      obtain ⟨l, d'⟩ := p
      intro v h
      rw [List.foldl_cons] at h
      rcases ih _ h with h | ⟨l', h⟩
      · dsimp only at h
        split at h
        · rcases List.mem_or_eq_of_mem_set h with h | rfl
          · exact .inl h
          · exact .inr ⟨_, List.mem_cons_self⟩
        · exact .inl h
      · exact .inr ⟨l', List.mem_cons_of_mem _ h⟩
  rcases this m _ h with h | h
  · exact .inl (List.eq_of_mem_replicate h)
  · exact .inr h

theorem labelDisps_mem {ls : Nodes} {d : BitVec 32} {p : Lit × BitVec 32} (h : p ∈ labelDisps ls d) : p.2 = d := by
  unfold labelDisps at h
  obtain ⟨n, -, h⟩ := List.mem_filterMap.1 h
  obtain ⟨l, -, rfl⟩ := Option.map_eq_some_iff.1 h
  rfl

mutual
theorem gen_keep {x : Ctx} (H : Conds F x) : ∀ (e : Node), (F → Tame e) → KeepN F x e
  | .lit l, _ => .of (fun uv c0 => by
      rw [gen]
      split
      · exact .done
      · exact .lit) (by simp)
  | .self, _ => .of (fun uv c0 => by
      rw [gen]
      split
      · exact .done
      · exact ins) (by simp)
  | .lvar id, _ => .of (fun uv c0 => by
      rw [gen]
      exact Keep.getLocal.bind fun _ _ _ _ => Keep.when _ ins) (by simp)
  | .ivar id, _ => .of (fun uv c0 => by
      rw [gen]
      exact (ins : Keep F _ _ Any').bind fun _ _ _ _ => Keep.when _ ins) (by simp)
  | .gvar id, _ => .of (fun uv c0 => by
      rw [gen]
      exact (ins : Keep F _ _ Any').bind fun _ _ _ _ => Keep.when _ ins) (by simp)
  | .ident id, _ => .of (fun uv c0 => by
      rw [gen]
      exact (ins : Keep F _ _ Any').bind fun _ _ _ _ => Keep.send) (by simp)
  | .binop op l r, h => by
      simp only [Tame] at h
      have hl := gen_keep H l fun f => (h f).1
      have hr := gen_keep H r fun f => (h f).2
      have hg : ∀ uv c0, Keep F c0 (gen x (.binop op l r) uv) Any' := by
        intro uv c0
        rw [gen]
        exact (Keep.bin (hl.gen true c0) (hr.gen true)).bind fun _ _ _ _ => Keep.when _ ins
      refine ⟨hg, fun c0 => ?_⟩
      by_cases hc : ∃ o, op = .c o
      · obtain ⟨o, rfl⟩ := hc
        rw [condGen]
        exact Keep.jfCmp (hl.gen true c0) (hr.gen true)
      · rw [condGen_ne (by rintro ⟨o, l', r', he⟩; cases he; exact hc ⟨o, rfl⟩)]
        exact Keep.jf (hg true c0)
  | .land l r, h => .of (fun uv c0 => by
      simp only [Tame] at h
      rw [gen]
      exact ((gen_keep H l fun f => (h f).1).gen true c0).bind fun _ _ _ _ => (Keep.when _ ins).bind fun _ _ _ _ =>
        Keep.jmpF.bind fun s _ _ q => (Keep.when _ ins).bind fun _ c1 l1 _ =>
        ((gen_keep H r fun f => (h f).2).gen uv c1).bind fun _ _ l2 _ => Keep.patchCur (q.mono (l1.trans l2))) (by simp)
  | .lor l r, h => .of (fun uv c0 => by
      simp only [Tame] at h
      rw [gen]
      exact ((gen_keep H l fun f => (h f).1).gen true c0).bind fun _ _ _ _ => (Keep.when _ ins).bind fun _ _ _ _ =>
        Keep.jmpT.bind fun s _ _ q => (Keep.when _ ins).bind fun _ c1 l1 _ =>
        ((gen_keep H r fun f => (h f).2).gen uv c1).bind fun _ _ l2 _ => Keep.patchCur (q.mono (l1.trans l2))) (by simp)
  | .unop op a, h => .of (fun uv c0 => by
      simp only [Tame] at h
      have ha := (gen_keep H a h).gen true c0
      cases op <;> rw [gen]
      case pos => exact ha.bind fun _ _ _ _ => Keep.done.bind fun _ _ _ _ => Keep.when _ ins
      all_goals exact ha.bind fun _ _ _ _ => (ins : Keep F _ _ Any').bind fun _ _ _ _ => Keep.when _ ins) (by simp)
  | .array ns, h => .of (fun uv c0 => by
      simp only [Tame] at h
      rw [gen]
      exact (genAll_keep H ns h c0).bind fun _ _ _ _ => (ins : Keep F _ _ Any').bind fun _ _ _ _ => Keep.when _ ins) (by simp)
  | .carray l, _ => .of (fun uv c0 => by
      rw [gen]
      split
      · exact .done
      · exact .carray) (by simp)
  | .range a b e, h => .of (fun uv c0 => by
      simp only [Tame] at h
      rw [gen]
      exact (ins : Keep F _ _ Any').bind fun _ c1 _ _ => ((gen_keep H b fun f => (h f).2).gen true c1).bind fun _ c2 _ _ =>
        ((gen_keep H a fun f => (h f).1).gen true c2).bind fun _ _ _ _ => (ins : Keep F _ _ Any').bind fun _ _ _ _ =>
        Keep.when _ ins) (by simp)
  | .index a b, h => .of (fun uv c0 => by
      simp only [Tame] at h
      rw [gen]
      have ha := (gen_keep H a fun f => (h f).1).gen true c0
      cases b.is_imm_u32 with
      | some u => exact ha.bind fun _ _ _ _ => (ins : Keep F _ _ Any').bind fun _ _ _ _ => Keep.when _ ins
      | none =>
        exact ha.bind fun _ c1 _ _ => ((gen_keep H b fun f => (h f).2).gen true c1).bind fun _ _ _ _ =>
          (ins : Keep F _ _ Any').bind fun _ _ _ _ => Keep.when _ ins) (by simp)
  | .seq ns, h => .of (fun uv c0 => by
      simp only [Tame] at h
      rw [gen]
      exact genSeq_keep H ns h uv c0) (by simp)
  | .ite c a b, h => .of (fun uv c0 => by
      simp only [Tame] at h
      rw [gen_ite]
      have hc := (gen_keep H c fun f => (h f).1).cond c0
      have ha := (gen_keep H a fun f => (h f).2.1).gen uv
      have hb := (gen_keep H b fun f => (h f).2.2).gen
      cases uv with
      | true =>
        exact hc.bind fun _ c1 _ q1 => (ha c1).bind fun _ _ l2 _ => Keep.jmp.bind fun _ _ l3 q2 =>
          (Keep.patchCur (q1.mono (l2.trans l3))).bind fun _ c4 l4 _ => (hb true c4).bind fun _ _ l5 _ =>
          Keep.patchCur (q2.mono (l4.trans l5))
      | false =>
        cases b.isEmpty with
        | true => exact hc.bind fun _ c1 _ q1 => (ha c1).bind fun _ _ l2 _ => Keep.patchCur (q1.mono l2)
        | false =>
          exact hc.bind fun _ c1 _ q1 => (ha c1).bind fun _ _ l2 _ => Keep.jmp.bind fun _ _ l3 q2 =>
            (Keep.patchCur (q1.mono (l2.trans l3))).bind fun _ c4 l4 _ => (hb false c4).bind fun _ _ l5 _ =>
            Keep.patchCur (q2.mono (l4.trans l5))) (by simp)
  | .while_ c b co, h => .of (fun uv c0 => by
      simp only [Tame] at h
      rw [gen_while]
      have hc := gen_keep H c fun f => (h f).2.1
      have hb := gen_keep H b fun f => (h f).2.2
      have hco : ∀ c1, Keep F c1 (if co = true then condGen x c else do gen x c true; jumpM JMP_T)
          (fun s c => Slot c s) := by
        intro c1
        cases co with
        | true => exact hc.cond c1
        | false => exact (hc.gen true c1).bind fun _ _ _ _ => Keep.jmpT
      have hf : F → Fst (if co = true then condGen x c else do gen x c true; jumpM JMP_T) := by
        intro f
        have hh := H f c (h f).1
        cases co with
        | true => exact hh.1
        | false => exact hh.2
      exact Keep.pushLoop.bind fun _ c1 _ _ => Keep.loop (hco c1) hf fun p s c2 _ hp hsol q =>
        (hb.gen false c2).bind fun _ c3 l3 _ => (Keep.jmpBack (l3.2 p hp).1 fun f => (hsol f).mono l3).bind fun _ c4 l4 _ =>
        (Keep.patchCur (q.mono (l3.trans l4))).bind fun _ c5 l5 _ => (Keep.when _ ins).bind fun _ c6 l6 _ =>
        Keep.jmp.bind fun _ c7 l7 q7 => Keep.popLoop.bind fun _ c8 l8 q8 =>
        (Keep.escapes q8 (((((((l3.trans l4).trans l5).trans l6).trans l7).trans l8)).2 p hp).1
          fun f => (hsol f).mono (((((l3.trans l4).trans l5).trans l6).trans l7).trans l8)).bind fun _ c9 l9 _ =>
        (Keep.when _ ins).bind fun _ _ l10 _ => Keep.patchCur (q7.mono ((l8.trans l9).trans l10))) (by simp)
  | .brk a, h => .of (fun uv c0 => by
      simp only [Tame] at h
      rw [gen]
      exact Keep.brk ((gen_keep H a h).gen true c0)) (by simp)
  | .nxt a, h => .of (fun uv c0 => by
      simp only [Tame] at h
      rw [gen]
      exact Keep.nxt ((gen_keep H a h).gen true c0) ((gen_keep H a h).gen uv c0)) (by simp)
  | .ret a, h => .of (fun uv c0 => by
      simp only [Tame] at h
      rw [gen]
      exact ((gen_keep H a h).gen true c0).bind fun _ _ _ _ => Keep.ret) (by simp)
  | .assign v a, h => .of (fun uv c0 => by
      simp only [Tame] at h
      rw [gen]
      exact ((gen_keep H a h).gen true c0).bind fun _ _ _ _ => (Keep.when _ ins).bind fun _ _ _ _ => Keep.setVar) (by simp)
  | .opassign op v a, h => .of (fun uv c0 => by
      simp only [Tame] at h
      rw [gen]
      exact (Keep.bin Keep.getVar ((gen_keep H a h).gen true)).bind fun _ _ _ _ => (Keep.when _ ins).bind fun _ _ _ _ =>
        Keep.setVar) (by simp)
  | .assignIdx a i b, h => .of (fun uv c0 => by
      simp only [Tame] at h
      rw [gen]
      have ha := (gen_keep H a fun f => (h f).1).gen true c0
      have hb := (gen_keep H b fun f => (h f).2.2).gen true
      cases i.is_imm_u32 with
      | some u =>
        exact ha.bind fun _ c1 _ _ => (hb c1).bind fun _ _ _ _ =>
          (Keep.when _ ((ins : Keep F _ _ Any').bind fun _ _ _ _ => ins)).bind fun _ _ _ _ => ins
      | none =>
        exact ha.bind fun _ c1 _ _ => ((gen_keep H i fun f => (h f).2.1).gen true c1).bind fun _ c2 _ _ =>
          (hb c2).bind fun _ _ _ _ => (Keep.when _ ((ins : Keep F _ _ Any').bind fun _ _ _ _ => ins)).bind fun _ _ _ _ =>
          ins) (by simp)
  | .attrAssign a m b, h => .of (fun uv c0 => by
      simp only [Tame] at h
      rw [gen]
      exact ((gen_keep H a fun f => (h f).1).gen true c0).bind fun _ c1 _ _ =>
        ((gen_keep H b fun f => (h f).2).gen true c1).bind fun _ _ _ _ => Keep.send) (by simp)
  | .massign ts ns, h => .of (fun uv c0 => by
      simp only [Tame] at h
      rw [gen]
      exact genMassign_keep H ts ns h uv c0) (by simp)
  | .send a m ns, h => .of (fun uv c0 => by
      simp only [Tame] at h
      rw [gen]
      exact ((gen_keep H a fun f => (h f).1).gen true c0).bind fun _ c1 _ _ =>
        (genAll_keep H ns (fun f => (h f).2) c1).bind fun _ _ _ _ => Keep.send) (by simp)
  | .sendB a m ns b, h => .of (fun uv c0 => by
      simp only [Tame] at h
      rw [gen]
      exact ((gen_keep H a fun f => (h f).1).gen true c0).bind fun _ c1 _ _ =>
        (genAll_keep H ns (fun f => (h f).2) c1).bind fun _ _ _ _ => Keep.send) (by simp)
  | .yield_ ns, h => .of (fun uv c0 => by
      simp only [Tame] at h
      rw [gen]
      exact (genAll_keep H ns h c0).bind fun _ _ _ _ => (ins : Keep F _ _ Any').bind fun _ _ _ _ => Keep.when _ ins) (by simp)
  | .case_ c ws b, h => .of (fun uv c0 => by
      simp only [Tame] at h
      rw [gen]
      have hc := (gen_keep H c fun f => (h f).1).gen true c0
      have hb := (gen_keep H b fun f => (h f).2.2).gen uv
      cases ws.allInt with
      | true =>
        exact hc.bind fun _ c1 _ _ => Keep.case2 (inner := fun s => genTable x ws s uv)
          (mapOf := fun s r cur => (ws.bounds.1, ws.bounds.2, caseVec ws.bounds.1 ws.bounds.2 r.1 (dispTo s cur)))
          (rest := fun s r => do patchCurM s; gen x b uv; patchAllM r.2)
          (fun s c2 _ q hs => genTable_keep H ws (fun f => (h f).2.1) s uv c2 hs)
          (fun s r c q hs hc' e he => by
            rcases caseVec_mem he with rfl | ⟨l, he⟩
            · exact Leads.of hc' (Nat.le_refl _) hs
            · exact q.1 _ he)
          (fun s r c _ qs q => (Keep.patchCur qs).bind fun _ c3 l3 _ => (hb c3).bind fun _ _ l4 _ =>
            Keep.patchAll fun t ht => (q.2 t ht).mono (l3.trans l4))
      | false =>
        cases ws.allLit with
        | true =>
          exact hc.bind fun _ c1 _ _ => Keep.case1 (inner := fun s => genTable x ws s uv) (mapOf := fun r => r.1)
            (rest := fun s r => do patchCurM s; gen x b uv; patchAllM r.2)
            (fun s c2 _ q hs => genTable_keep H ws (fun f => (h f).2.1) s uv c2 hs)
            (fun s r c q => q.1)
            (fun s r c _ qs q => (Keep.patchCur qs).bind fun _ c3 l3 _ => (hb c3).bind fun _ _ l4 _ =>
              Keep.patchAll fun t ht => (q.2 t ht).mono (l3.trans l4))
        | false =>
          exact hc.bind fun _ c1 _ _ => (genWhens_keep H ws (fun f => (h f).2.1) none uv c1 (by simp)).bind fun _ _ _ q =>
            (Keep.patchOpt q.1).bind fun _ _ l2 _ => (ins : Keep F _ _ Any').bind fun _ c3 l3 _ =>
            (hb c3).bind fun _ _ l4 _ => Keep.patchAll fun t ht => (q.2 t ht).mono ((l2.trans l3).trans l4)) (by simp)
  | .caseN ws b, h => .of (fun uv c0 => by
      simp only [Tame] at h
      rw [gen]
      exact (genCondWhens_keep H ws (fun f => (h f).1) uv c0).bind fun _ c1 _ q =>
        ((gen_keep H b fun f => (h f).2).gen uv c1).bind fun _ _ l _ => Keep.patchAll fun t ht => (q t ht).mono l) (by simp)
  | .begin_ b rs els ens, h => .of (fun uv c0 => by
      simp only [Tame] at h
      rw [gen]
      have hb := (gen_keep H b fun f => (h f).1).gen uv
      have hel := genElse_keep H els (fun f => (h f).2.2.1) uv
      have hen := genOpt_keep H ens (fun f => (h f).2.2.2)
      cases rs.isEmpty with
      | true =>
        exact Keep.cur.bind fun _ _ _ _ => Keep.pushJD.bind fun _ c1 _ _ => (hb c1).bind fun _ _ _ _ =>
          Keep.popJD.bind fun _ _ _ qj => Keep.cur.bind fun _ c3 l3 _ => (hel c3).bind fun _ c4 l4 _ =>
          (Keep.retPaths hen (fun s hs => (qj.1 s hs).mono (l3.trans l4)) fun s hs => (qj.2 s hs).mono (l3.trans l4)).bind
          fun _ c5 _ _ => hen c5
      | false =>
        exact Keep.cur.bind fun _ _ _ _ => Keep.pushJD.bind fun _ c1 _ _ => (hb c1).bind fun _ _ _ _ =>
          Keep.popJD.bind fun _ _ _ qj => Keep.cur.bind fun _ c3 l3 _ => Keep.jmp.bind fun _ c4 l4 q4 =>
          Keep.cur.bind fun _ c5 l5 q5 => (genRescues_keep H rs (fun f => (h f).2.1) none uv c5 (by simp)).bind
          fun _ c6 l6 q6 => (Keep.patchOpt q6.1).bind fun _ c7 l7 _ => (hen c7).bind fun _ c8 l8 _ =>
          (ins : Keep F _ _ Any').bind fun _ c9 l9 _ =>
          (Keep.patchCur (q4.mono ((((l5.trans l6).trans l7).trans l8).trans l9))).bind fun _ c10 l10 _ =>
          (hel c10).bind fun _ c11 l11 _ =>
          (Keep.retPaths hen
            (fun s hs => (qj.1 s hs).mono ((((((((l3.trans l4).trans l5).trans l6).trans l7).trans l8).trans l9).trans
              l10).trans l11))
            (fun s hs => (qj.2 s hs).mono ((((((((l3.trans l4).trans l5).trans l6).trans l7).trans l8).trans l9).trans
              l10).trans l11))).bind fun _ c12 l12 _ =>
          (Keep.patchAll fun t ht => (q6.2 t ht).mono (((((l7.trans l8).trans l9).trans l10).trans l11).trans l12)).bind
          fun _ c13 l13 _ => (Keep.pushEx
            ((((((((l6.trans l7).trans l8).trans l9).trans l10).trans l11).trans l12).trans l13).2 _ q5.1).1).bind
          fun _ c14 _ _ => hen c14) (by simp)

theorem genAll_keep {x : Ctx} (H : Conds F x) : ∀ (ns : Nodes), (F → TameAll ns) → ∀ c0, Keep F c0 (genAll x ns) Any'
  | .nil, _, c0 => by rw [genAll]; exact .done
  | .cons n ns, h, c0 => by
    simp only [TameAll] at h
    rw [genAll]
    exact ((gen_keep H n fun f => (h f).1).gen true c0).bind fun _ c1 _ _ => genAll_keep H ns (fun f => (h f).2) c1

theorem genSeq_keep {x : Ctx} (H : Conds F x) : ∀ (ns : Nodes), (F → TameAll ns) → ∀ uv c0, Keep F c0 (genSeq x ns uv) Any'
  | .nil, _, uv, c0 => by rw [genSeq]; exact Keep.when _ ins
  | .cons n .nil, h, uv, c0 => by
    simp only [TameAll] at h
    rw [genSeq]
    exact (gen_keep H n fun f => (h f).1).gen uv c0
  | .cons n (.cons m ns), h, uv, c0 => by
    rw [genSeq]
    exact ((gen_keep H n fun f => by have := h f; rw [TameAll] at this; exact this.1).gen false c0).bind fun _ c1 _ _ =>
      genSeq_keep H (.cons m ns) (fun f => by have := h f; rw [TameAll] at this; exact this.2) uv c1

theorem genFirst_keep {x : Ctx} (H : Conds F x) : ∀ (ns : Nodes), (F → TameAll ns) → ∀ k c0, Keep F c0 (genFirst x ns k) Any'
  | .nil, _, k, c0 => by rw [genFirst]; exact .done
  | .cons n ns, h, k, c0 => by
    simp only [TameAll] at h
    rw [genFirst]
    exact ((gen_keep H n fun f => (h f).1).gen _ c0).bind fun _ c1 _ _ => genFirst_keep H ns (fun f => (h f).2) (k - 1) c1

theorem genMassign_keep {x : Ctx} (H : Conds F x) (ts : List Var) : ∀ (ns : Nodes), (F → TameAll ns) → ∀ uv c0,
    Keep F c0 (genMassign x ts ns uv) Any'
  | .nil, _, uv, c0 => by rw [genMassign]; exact .manyTail
  | .cons n .nil, h, uv, c0 => by
    simp only [TameAll] at h
    have hn := (gen_keep H n fun f => (h f).1).gen true c0
    rw [genMassign.eq_def]
    dsimp only
    split
    · exact hn.bind fun _ _ _ _ => (Keep.when _ ins).bind fun _ _ _ _ => Keep.setVar
    · exact hn.bind fun _ _ _ _ => (Keep.when _ ins).bind fun _ _ _ _ => (ins : Keep F _ _ Any').bind fun _ _ _ _ =>
        Keep.setVars
  | .cons n (.cons m ns), h, uv, c0 => by
    have h1 : F → Tame n := fun f => by have := h f; rw [TameAll] at this; exact this.1
    have h2 : F → TameAll (.cons m ns) := fun f => by have := h f; rw [TameAll] at this; exact this.2
    have hn := (gen_keep H n h1).gen
    rw [genMassign]
    cases uv with
    | true => exact (hn true c0).bind fun _ c1 _ _ => (genAll_keep H (.cons m ns) h2 c1).bind fun _ _ _ _ => Keep.manyTail
    | false =>
      exact (hn _ c0).bind fun _ c1 _ _ => (genFirst_keep H (.cons m ns) h2 _ c1).bind fun _ _ _ _ => Keep.manyTail

theorem genTable_keep {x : Ctx} (H : Conds F x) : ∀ (ws : Whens), (F → TameWhens ws) → ∀ s uv c0, s ≤ c0.length →
    Keep F c0 (genTable x ws s uv) (fun r c => (∀ e ∈ r.1, Leads c s e.2) ∧ ∀ t ∈ r.2, Slot c t)
  | .nil, _, s, uv, c0, _ => by rw [genTable]; exact .pure _ fun _ _ => by simp
  | .cons ls b rest, h, s, uv, c0, hs => by
    simp only [TameWhens] at h
    rw [genTable]
    exact Keep.cur.bind fun p c1 l1 q1 => ((gen_keep H b fun f => (h f).2.1).gen uv c1).bind fun _ c2 l2 _ =>
      Keep.jmp.bind fun t c3 l3 q3 =>
      (genTable_keep H rest (fun f => (h f).2.2) s uv c3 (by have := l1.1; have := l2.1; have := l3.1; omega)).bind
      fun r c4 l4 q4 => .pure _ fun c5 l5 => by
        constructor
        · intro e he
          rcases List.mem_append.1 he with he | he
          · rw [labelDisps_mem he]
            exact (Leads.of q1.1 q1.2 (hs.trans l1.1)).mono (((l2.trans l3).trans l4).trans l5)
          · exact (q4.1 e he).mono l5
        · intro t' ht
          rcases List.mem_cons.1 ht with rfl | ht
          · exact q3.mono (l4.trans l5)
          · exact (q4.2 t' ht).mono l5

theorem genLabels_keep {x : Ctx} (H : Conds F x) : ∀ (ns : Nodes), (F → TameAll ns) → ∀ c0,
    Keep F c0 (genLabels x ns) (fun r c => ∀ t ∈ r, Slot c t)
  | .nil, _, c0 => by rw [genLabels]; exact .pure _ fun _ _ => by simp
  | .cons n ns, h, c0 => by
    simp only [TameAll] at h
    rw [genLabels]
    exact (ins : Keep F _ _ Any').bind fun _ c1 _ _ => ((gen_keep H n fun f => (h f).1).gen true c1).bind fun _ _ _ _ =>
      (ins : Keep F _ _ Any').bind fun _ _ _ _ => (ins : Keep F _ _ Any').bind fun _ _ _ _ => Keep.jmpT.bind fun t c2 _ q =>
      (genLabels_keep H ns (fun f => (h f).2) c2).bind fun r c3 l3 q3 => .pure _ fun c4 l4 => by
        intro t' ht
        rcases List.mem_cons.1 ht with rfl | ht
        · exact q.mono (l3.trans l4)
        · exact (q3 t' ht).mono l4

theorem genWhens_keep {x : Ctx} (H : Conds F x) : ∀ (ws : Whens), (F → TameWhens ws) → ∀ nx uv c0,
    (∀ t ∈ nx, Slot c0 t) → Keep F c0 (genWhens x ws nx uv) (fun r c => (∀ t ∈ r.1, Slot c t) ∧ ∀ t ∈ r.2, Slot c t)
  | .nil, _, nx, uv, c0, hn => by
    rw [genWhens]; exact .pure _ fun _ l => ⟨fun t ht => (hn t ht).mono l, by simp⟩
  | .cons ls b rest, h, nx, uv, c0, hn => by
    simp only [TameWhens] at h
    rw [genWhens]
    exact (Keep.patchOpt hn).bind fun _ c1 _ _ => (genLabels_keep H ls (fun f => (h f).1) c1).bind fun js _ _ qj =>
      Keep.jmp.bind fun p _ l2 qp => (Keep.patchAll fun t ht => (qj t ht).mono l2).bind fun _ _ l3 _ =>
      (ins : Keep F _ _ Any').bind fun _ c4 l4 _ => ((gen_keep H b fun f => (h f).2.1).gen uv c4).bind fun _ _ l5 _ =>
      Keep.jmp.bind fun e c6 l6 qe =>
      (genWhens_keep H rest (fun f => (h f).2.2) (some p) uv c6 (fun t ht => by
        cases ht
        exact qp.mono (((l3.trans l4).trans l5).trans l6))).bind fun r c7 l7 q7 => .pure _ fun c8 l8 =>
        ⟨fun t ht => (q7.1 t ht).mono l8, fun t ht => by
          rcases List.mem_cons.1 ht with rfl | ht
          · exact qe.mono (l7.trans l8)
          · exact (q7.2 t ht).mono l8⟩

theorem genConds_keep {x : Ctx} (H : Conds F x) : ∀ (ns : Nodes), (F → TameAll ns) → ∀ c0,
    Keep F c0 (genConds x ns) (fun r c => ∀ t ∈ r, Slot c t)
  | .nil, _, c0 => by rw [genConds]; exact .pure _ fun _ _ => by simp
  | .cons n ns, h, c0 => by
    simp only [TameAll] at h
    rw [genConds]
    exact ((gen_keep H n fun f => (h f).1).gen true c0).bind fun _ _ _ _ => Keep.jmpF.bind fun t c2 _ q =>
      (genConds_keep H ns (fun f => (h f).2) c2).bind fun r c3 l3 q3 => .pure _ fun c4 l4 => by
        intro t' ht
        rcases List.mem_cons.1 ht with rfl | ht
        · exact q.mono (l3.trans l4)
        · exact (q3 t' ht).mono l4

theorem genCondWhens_keep {x : Ctx} (H : Conds F x) : ∀ (ws : Whens), (F → TameWhens ws) → ∀ uv c0,
    Keep F c0 (genCondWhens x ws uv) (fun r c => ∀ t ∈ r, Slot c t)
  | .nil, _, uv, c0 => by rw [genCondWhens]; exact .pure _ fun _ _ => by simp
  | .cons ls b rest, h, uv, c0 => by
    simp only [TameWhens] at h
    rw [genCondWhens]
    exact (genConds_keep H ls (fun f => (h f).1) c0).bind fun js c1 _ qj =>
      ((gen_keep H b fun f => (h f).2.1).gen uv c1).bind fun _ _ l2 _ => Keep.jmp.bind fun e _ l3 qe =>
      (Keep.patchAll fun t ht => (qj t ht).mono (l2.trans l3)).bind fun _ c4 l4 _ =>
      (genCondWhens_keep H rest (fun f => (h f).2.2) uv c4).bind fun r c5 l5 q5 => .pure _ fun c6 l6 => by
        intro t' ht
        rcases List.mem_cons.1 ht with rfl | ht
        · exact qe.mono ((l4.trans l5).trans l6)
        · exact (q5 t' ht).mono l6

theorem genExcs_keep {x : Ctx} (H : Conds F x) : ∀ (ns : Nodes), (F → TameAll ns) → ∀ c0, Keep F c0 (genExcs x ns) Any'
  | .nil, _, c0 => by rw [genExcs]; exact ins
  | .cons n ns, h, c0 => by
    simp only [TameAll] at h
    rw [genExcs]
    exact ((gen_keep H n fun f => (h f).1).gen true c0).bind fun _ c1 _ _ => genAll_keep H ns (fun f => (h f).2) c1

theorem genRescues_keep {x : Ctx} (H : Conds F x) : ∀ (rs : Rescues), (F → TameRescues rs) → ∀ pr uv c0,
    (∀ t ∈ pr, Slot c0 t) → Keep F c0 (genRescues x rs pr uv) (fun r c => (∀ t ∈ r.1, Slot c t) ∧ ∀ t ∈ r.2, Slot c t)
  | .nil, _, pr, uv, c0, hn => by
    rw [genRescues]; exact .pure _ fun _ l => ⟨fun t ht => (hn t ht).mono l, by simp⟩
  | .cons excs a b rest, h, pr, uv, c0, hn => by
    simp only [TameRescues] at h
    rw [genRescues.eq_def]
    dsimp only
    have tail : ∀ p c1, Slot c1 p → Keep F c1 (do
        gen x b uv
        let e ← jumpM JMP
        let (prev, ends) ← genRescues x rest (some p) uv
        pure (prev, e :: ends)) (fun r c => (∀ t ∈ r.1, Slot c t) ∧ ∀ t ∈ r.2, Slot c t) := by
      intro p c1 qp
      exact ((gen_keep H b fun f => (h f).2.1).gen uv c1).bind fun _ _ l5 _ => Keep.jmp.bind fun e c6 l6 qe =>
        (genRescues_keep H rest (fun f => (h f).2.2) (some p) uv c6 (fun t ht => by
          cases ht
          exact qp.mono (l5.trans l6))).bind fun r c7 l7 q7 => .pure _ fun c8 l8 =>
          ⟨fun t ht => (q7.1 t ht).mono l8, fun t ht => by
            rcases List.mem_cons.1 ht with rfl | ht
            · exact qe.mono (l7.trans l8)
            · exact (q7.2 t ht).mono l8⟩
    cases a with
    | none =>
      exact (Keep.patchOpt hn).bind fun _ _ _ _ => (ins : Keep F _ _ Any').bind fun _ c1 _ _ =>
        (genExcs_keep H excs (fun f => (h f).1) c1).bind fun _ _ _ _ => (ins : Keep F _ _ Any').bind fun _ _ _ _ =>
        Keep.jmpF.bind fun p _ _ qp => (ins : Keep F _ _ Any').bind fun _ _ l _ => tail p _ (qp.mono l)
    | some v =>
      exact (Keep.patchOpt hn).bind fun _ _ _ _ => (ins : Keep F _ _ Any').bind fun _ c1 _ _ =>
        (genExcs_keep H excs (fun f => (h f).1) c1).bind fun _ _ _ _ => (ins : Keep F _ _ Any').bind fun _ _ _ _ =>
        Keep.jmpF.bind fun p _ _ qp => Keep.setVar.bind fun _ _ l _ => tail p _ (qp.mono l)

theorem genElse_keep {x : Ctx} (H : Conds F x) : ∀ (o : OptNode), (F → TameOpt o) → ∀ uv c0, Keep F c0 (genElse x o uv) Any'
  | .none, _, uv, c0 => by rw [genElse]; exact .done
  | .some n, h, uv, c0 => by
    simp only [TameOpt] at h
    rw [genElse]
    exact (Keep.when _ ins).bind fun _ c1 _ _ => (gen_keep H n h).gen uv c1

theorem genOpt_keep {x : Ctx} (H : Conds F x) : ∀ (o : OptNode), (F → TameOpt o) → ∀ c0, Keep F c0 (genOpt x o) Any'
  | .none, _, c0 => by rw [genOpt]; exact .done
  | .some n, h, c0 => by
    simp only [TameOpt] at h
    rw [genOpt]
    exact (gen_keep H n h).gen false c0
end

end Verif.Codegen
