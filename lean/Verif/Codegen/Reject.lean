import Verif.Codegen.Total
import Mathlib.Tactic.Tauto
/-!
# Only legal trees are compiled

The converse of `Total`: when the compiler succeeds, the tree is legal.
-/
namespace Verif.Codegen
open Verif.ISeq Op
open Verif.Value (Val)

/-- From a state with loops `T` the step, if it succeeds, shows that `P` holds, and ends with loops `T'`. -/
def Nec {α : Type} (T : List Bool) (m : M α) (P : Prop) (T' : List Bool) : Prop :=
  ∀ g a g', tops g = T → m g = .ok (a, g') → P ∧ tops g' = T'

variable {α β : Type} {T T' T'' : List Bool} {P Q : Prop}

theorem Nec.bind {m : M α} {f : α → M β} (h : Nec T m P T') (h' : ∀ a, Nec T' (f a) Q T'') :
    Nec T (m >>= f) (P ∧ Q) T'' := by
  intro g a g' hT hm
  obtain ⟨b, g1, e1, e2⟩ := bindM.1 hm
  obtain ⟨p, t1⟩ := h g b g1 hT e1
  obtain ⟨q, t2⟩ := h' b g1 a g' t1 e2
  exact ⟨⟨p, q⟩, t2⟩

theorem Nec.imp {m : M α} (h : Nec T m P T') (hPQ : P → Q) : Nec T m Q T' :=
  fun g a g' hT hm => ⟨hPQ (h g a g' hT hm).1, (h g a g' hT hm).2⟩

theorem Nec.pure (a : α) : Nec T (pure a : M α) True T := by
  intro g b g' hT hm
  obtain ⟨-, rfl⟩ := pureM.1 hm
  exact ⟨trivial, hT⟩

theorem Nec.when {m : M Unit} (b : Bool) (h : Nec T m True T) : Nec T (whenM b m) True T := by
  cases b
  · exact Nec.pure ()
  · exact h

theorem Nec.keep {m : M α} (h : ∀ g a g', m g = .ok (a, g') → g'.loops = g.loops) : Nec T m True T :=
  fun g a g' hT hm => ⟨trivial, by unfold tops at *; rw [h g a g' hm]; exact hT⟩

theorem Nec.emit {op : Byte} {args : List Operand} : Nec T (emitM op args) True T :=
  Nec.keep fun g a g' h => by cases h; rfl

theorem Nec.cur : Nec T curM True T := Nec.keep fun g a g' h => by cases h; rfl

theorem Nec.jump {op : Byte} : Nec T (jumpM op) True T := Nec.keep fun g a g' h => by cases h; rfl

theorem Nec.patch {s t : Nat} : Nec T (patchM s t) True T := Nec.keep fun g a g' h => by cases h; rfl

theorem Nec.patchCur {s : Nat} : Nec T (patchCurM s) True T := Nec.keep fun g a g' h => by cases h; rfl

theorem Nec.patchAll : ∀ {ss : List Nat}, Nec T (patchAllM ss) True T
  | [] => Nec.pure ()
  | _ :: _ => (Nec.patchCur.bind fun _ => Nec.patchAll).imp fun _ => trivial

theorem Nec.patchOpt : ∀ {s : Option Nat}, Nec T (patchOpt s) True T
  | none => Nec.pure ()
  | some _ => Nec.patchCur

theorem Nec.jmpBack {p : Nat} : Nec T (jmpBackM p) True T := Nec.keep fun g a g' h => by cases h; rfl

theorem Nec.escapes {p : Nat} : ∀ {es : List (Nat × EK)}, Nec T (patchEscapes p es) True T
  | [] => Nec.pure ()
  | (_, .brk) :: _ => (Nec.patchCur.bind fun _ => Nec.escapes).imp fun _ => trivial
  | (_, .nxt) :: _ => (Nec.patch.bind fun _ => Nec.escapes).imp fun _ => trivial

theorem Nec.const {v : Const} : Nec T (genConst v) True T := Nec.keep fun g a g' h => by
  unfold genConst at h
  split at h <;> cases h
  rfl

theorem Nec.num {v : Val} : Nec T (genNum v) True T := by
  unfold genNum
  split
  · exact Nec.emit
  · exact Nec.const

theorem Nec.lit {l : Lit} : Nec T (genLit l) True T := by
  cases l with
  | nil => exact Nec.emit
  | bool b => exact Nec.emit
  | int i => exact Nec.num
  | big n => exact Nec.const
  | flt b => exact Nec.num
  | str s => exact Nec.const
  | sym id => exact Nec.emit

theorem Nec.carray {l : List Lit} : Nec T (genCArray l) True T := by
  unfold genCArray
  split
  · exact Nec.emit
  · exact Nec.const

theorem Nec.fail {e : Err} : Nec T (failM e : M α) P T' := fun _ _ _ _ h => nomatch h

theorem Ctx.knows.of_found {x : Ctx} {id : Id} {p : Nat × Nat} (h : get_local_var x id = some p) : x.knows id := by
  obtain ⟨k, j⟩ := p
  rw [C34_innermost_definition] at h
  obtain ⟨-, t, h1, h2, -⟩ := h
  exact ⟨t, List.mem_of_getElem? h1, List.mem_of_getElem? h2⟩

theorem Nec.getLocal {x : Ctx} {id : Id} : Nec T (emitGetLocal x id) (x.knows id) T := by
  unfold emitGetLocal
  split
  · exact Nec.fail
  · rename_i h
    split <;> exact Nec.emit.imp fun _ => .of_found h

theorem Nec.setLocal {x : Ctx} {id : Id} : Nec T (emitSetLocal x id) (x.knows id) T := by
  unfold emitSetLocal
  split
  · exact Nec.fail
  · rename_i h
    split <;> exact Nec.emit.imp fun _ => .of_found h

theorem Nec.getVar {x : Ctx} {v : Var} : Nec T (emitGetVar x v) (knownVar x.knows v) T := by
  cases v with
  | lvar id => exact Nec.getLocal
  | ivar id => exact Nec.emit
  | gvar id => exact Nec.emit

theorem Nec.setVar {x : Ctx} {v : Var} : Nec T (emitSetVar x v) (knownVar x.knows v) T := by
  cases v with
  | lvar id => exact Nec.setLocal
  | ivar id => exact Nec.emit
  | gvar id => exact Nec.emit

theorem Nec.setVars {x : Ctx} : ∀ {vs : List Var}, Nec T (emitSetVars x vs) (∀ v ∈ vs, knownVar x.knows v) T
  | [] => (Nec.pure ()).imp (by simp)
  | v :: vs => by
    rw [emitSetVars]
    exact (Nec.setVar.bind fun _ => Nec.setVars).imp (by simp)

theorem Nec.send {m : Id} {n : Nat} {uv : Bool} {b : BitVec 32} : Nec T (emitOptSend m n uv b) True T :=
  Nec.keep fun g a g' h => by cases h; rfl

theorem Nec.bin {op : BinOp} {imm : Option (BitVec 32)} {l r : M Unit} (hl : Nec T l P T) (hr : Nec T r Q T)
    (hi : ∀ i, imm = some i → Q) : Nec T (genBin op imm l r) (P ∧ Q) T := by
  unfold genBin
  split
  · exact (hl.bind fun _ => Nec.emit).imp fun h => ⟨h.1, hi _ rfl⟩
  · exact (hl.bind fun _ => hr.bind fun _ => Nec.emit).imp (by tauto)

theorem Nec.jfCmp {o : CmpOp} {imm : Option (BitVec 32)} {l r : M Unit} (hl : Nec T l P T) (hr : Nec T r Q T)
    (hi : ∀ i, imm = some i → Q) : Nec T (genJFCmp o imm l r) (P ∧ Q) T := by
  unfold genJFCmp
  cases imm with
  | some i => exact (hl.bind fun _ => Nec.emit.bind fun _ => Nec.cur).imp fun h => ⟨h.1, hi _ rfl⟩
  | none => exact (hl.bind fun _ => (hr.bind fun _ => Nec.emit.bind fun _ => Nec.cur)).imp (by tauto)

theorem Nec.jf {c : M Unit} (h : Nec T c P T) : Nec T (genJF c) P T := (h.bind fun _ => Nec.jump).imp (by tauto)

theorem Nec.pushLoop : Nec T pushLoop True (false :: T) := by
  intro g a g' hT h
  cases h
  exact ⟨trivial, by simp [tops, ← hT]⟩

theorem Nec.popLoop {t : Bool} : Nec (t :: T) popLoop True T := by
  intro g a g' hT h
  unfold Codegen.popLoop at h
  cases hl : g.loops with
  | nil => simp [tops, hl] at hT
  | cons l ls =>
    rw [hl] at h
    cases h
    simp only [tops, hl, List.map_cons, List.cons.injEq] at hT
    exact ⟨trivial, hT.2⟩

theorem Nec.addEscape {p : Nat} {e : EK} : Nec T (addEscape p e) True T := by
  intro g a g' hT h
  unfold Codegen.addEscape at h
  cases hl : g.loops with
  | nil => rw [hl] at h; cases h
  | cons l ls =>
    rw [hl] at h
    cases h
    exact ⟨trivial, by simpa [tops, hl] using hT⟩

theorem Nec.brk {x : Ctx} {t : Bool} {m : M Unit} (h : Nec (t :: T) m P (t :: T)) :
    Nec (t :: T) (genBreak x m) ((t = false ∨ x.kind = some .block) ∧ P) (t :: T) := by
  intro g a g' hT hm
  unfold genBreak at hm
  cases hl : g.loops with
  | nil => rw [hl] at hm; cases hm
  | cons l ls =>
    have ht' : l.top = t := by
      simp only [tops, hl, List.map_cons, List.cons.injEq] at hT
      exact hT.1
    rw [hl] at hm
    dsimp only at hm
    rw [ht'] at hm
    cases t with
    | false =>
      obtain ⟨h1, h2⟩ := (h.bind fun _ => Nec.jump.bind fun _ => Nec.addEscape) g a g' hT hm
      exact ⟨⟨.inl rfl, h1.1⟩, h2⟩
    | true =>
      rw [if_pos rfl] at hm
      by_cases hk : x.kind = some .block
      · rw [hk] at hm
        obtain ⟨h1, h2⟩ := (h.bind fun _ => Nec.emit) g a g' hT hm
        exact ⟨⟨.inr hk, h1.1⟩, h2⟩
      · rcases hx : x.kind with _ | (_ | _ | _ | _) <;> rw [hx] at hm hk <;> first | cases hm | exact absurd rfl hk

theorem Nec.nxt {x : Ctx} {t : Bool} {m m' : M Unit} (h : Nec (t :: T) m P (t :: T)) (h' : Nec (t :: T) m' P (t :: T)) :
    Nec (t :: T) (genNext x m m') ((t = false ∨ x.kind = some .block) ∧ P) (t :: T) := by
  intro g a g' hT hm
  unfold genNext at hm
  cases hl : g.loops with
  | nil => rw [hl] at hm; cases hm
  | cons l ls =>
    have ht' : l.top = t := by
      simp only [tops, hl, List.map_cons, List.cons.injEq] at hT
      exact hT.1
    rw [hl] at hm
    dsimp only at hm
    rw [ht'] at hm
    cases t with
    | false =>
      obtain ⟨h1, h2⟩ := (h'.bind fun _ => Nec.jump.bind fun _ => Nec.addEscape) g a g' hT hm
      exact ⟨⟨.inl rfl, h1.1⟩, h2⟩
    | true =>
      rw [if_pos rfl] at hm
      by_cases hk : x.kind = some .block
      · rw [hk] at hm
        obtain ⟨h1, h2⟩ := (h.bind fun _ => Nec.emit) g a g' hT hm
        exact ⟨⟨.inr hk, h1.1⟩, h2⟩
      · rcases hx : x.kind with _ | (_ | _ | _ | _) <;> rw [hx] at hm hk <;> first | cases hm | exact absurd rfl hk

theorem Nec.ret {x : Ctx} : Nec T (genRet x) True T := by
  intro g a g' hT hm
  unfold genRet at hm
  cases hd : g.jumps with
  | nil => rw [hd] at hm; exact Nec.emit g a g' hT hm
  | cons d ds =>
    rw [hd] at hm
    dsimp only at hm
    split at hm
    · split at hm
      · cases hm
      · rename_i dest g2 e
        cases hm
        exact ⟨trivial, (Nec.jump g _ _ hT e).2⟩
    · exact Nec.emit g a g' hT hm

theorem Nec.case1 : Nec T newCase1 True T := Nec.keep fun g a g' h => by cases h; rfl

theorem Nec.case2 : Nec T newCase2 True T := Nec.keep fun g a g' h => by cases h; rfl

theorem Nec.setCase1 {i : Nat} {m : CaseMap} : Nec T (setCase1 i m) True T := Nec.keep fun g a g' h => by cases h; rfl

theorem Nec.setCase2 {i : Nat} {m : CaseMap2} : Nec T (setCase2 i m) True T := Nec.keep fun g a g' h => by cases h; rfl

theorem Nec.pushJD {e : Bool} : Nec T (pushJumpDest e) True T := Nec.keep fun g a g' h => by cases h; rfl

theorem Nec.popJD : Nec T popJumpDest True T := Nec.keep fun g a g' h => by
  unfold Codegen.popJumpDest at h
  split at h <;> cases h
  rfl

theorem Nec.pushEx {a b c : Nat} : Nec T (pushEx a b c) True T := Nec.keep fun g a g' h => by cases h; rfl

theorem Nec.retPaths {jd : JumpDest} {m : M Unit} (h : Nec T m P T) : Nec T (genReturnPaths jd m) True T := by
  unfold genReturnPaths
  split
  · exact Nec.pure ()
  · cases jd.rets.isEmpty <;> cases jd.mrets.isEmpty
    · exact (Nec.jump.bind fun _ => Nec.patchAll.bind fun _ => h.bind fun _ => Nec.emit.bind fun _ =>
        Nec.patchAll.bind fun _ => h.bind fun _ => Nec.emit.bind fun _ => Nec.patchCur).imp fun _ => trivial
    · exact (Nec.jump.bind fun _ => Nec.patchAll.bind fun _ => h.bind fun _ => Nec.emit.bind fun _ =>
        Nec.patchAll.bind fun _ => (Nec.pure ()).bind fun _ => Nec.patchCur).imp fun _ => trivial
    · exact (Nec.jump.bind fun _ => Nec.patchAll.bind fun _ => (Nec.pure ()).bind fun _ =>
        Nec.patchAll.bind fun _ => h.bind fun _ => Nec.emit.bind fun _ => Nec.patchCur).imp fun _ => trivial
    · exact (Nec.jump.bind fun _ => Nec.patchAll.bind fun _ => (Nec.pure ()).bind fun _ =>
        Nec.patchAll.bind fun _ => (Nec.pure ()).bind fun _ => Nec.patchCur).imp fun _ => trivial

theorem Nec.repeat {m : M Unit} (h : Nec T m True T) : ∀ n, Nec T (repeatM n m) True T
  | 0 => Nec.pure ()
  | n + 1 => (h.bind fun _ => Nec.repeat h n).imp fun _ => trivial

theorem Nec.manyTail {x : Ctx} {ts : List Var} {n : Nat} {uv : Bool} :
    Nec T (genManyTail x ts n uv) (∀ v ∈ ts, knownVar x.knows v) T := by
  have hs := Nec.setVars (T := T) (x := x) (vs := ts.reverse)
  simp only [List.mem_reverse] at hs
  have hn : Nec T pushNil True T := Nec.emit
  have hp : Nec T pop True T := Nec.emit
  unfold genManyTail
  cases uv with
  | true =>
    exact ((hn.repeat _).bind fun _ => (Nec.emit : Nec T _ True T).bind fun _ => (hp.repeat _).bind fun _ => hs.bind
      fun _ => (Nec.emit : Nec T _ True T)).imp (by tauto)
  | false => exact ((hn.repeat _).bind fun _ => hs).imp (by tauto)

/-! ## The compiler -/

/-- Legal in the body. -/
abbrev Leg (x : Ctx) (lp : Bool) (e : Node) : Prop := Legal x.knows (x.kind = some .block) lp e

theorem leg_imm {x : Ctx} {lp : Bool} {e : Node} {i : BitVec 32} (h : e.is_imm_i32 = some i) : Leg x lp e := by
  cases e with
  | lit l => exact (by rw [Leg, Legal]; trivial)
  | _ => simp [Node.is_imm_i32] at h

theorem leg_immu {x : Ctx} {lp : Bool} {e : Node} {i : BitVec 32} (h : e.is_imm_u32 = some i) : Leg x lp e := by
  cases e with
  | lit l => exact (by rw [Leg, Legal]; trivial)
  | _ => simp [Node.is_imm_u32] at h

theorem leg_lits {K : Id → Prop} {B : Prop} {lp : Bool} : ∀ {ns : Nodes},
    (∀ n ∈ Whens.labels.toList ns, n.lit?.isSome = true) → LegalAll K B lp ns
  | .nil, _ => by rw [LegalAll]; trivial
  | .cons n ns, h => by
    rw [LegalAll]
    refine ⟨?_, leg_lits fun m hm => h m (by simp [Whens.labels.toList, hm])⟩
    have := h n (by simp [Whens.labels.toList])
    cases n with
    | lit l => rw [Legal]; trivial
    | _ => simp [Node.lit?] at this

/-- If the tree is compiled, it is legal. -/
structure NecN (x : Ctx) (lp t : Bool) (T : List Bool) (e : Node) : Prop where
  gen : ∀ uv, Nec (t :: T) (gen x e uv) (Leg x lp e) (t :: T)
  cond : Nec (t :: T) (condGen x e) (Leg x lp e) (t :: T)

theorem NecN.of {x : Ctx} {lp t : Bool} {e : Node}
    (h : ∀ uv, Nec (t :: T) (Codegen.gen x e uv) (Leg x lp e) (t :: T)) (hc : ∀ o l r, e ≠ .binop (.c o) l r) :
    NecN x lp t T e := by
  refine ⟨h, ?_⟩
  rw [condGen_ne (by rintro ⟨o, l, r, he⟩; exact hc o l r he)]
  exact Nec.jf (h true)

/-- Collect what the steps have shown. -/
macro "coll" : term => `(by simp only [Leg, Legal, LegalAll, LegalWhens, LegalRescues, LegalOpt]; tauto)

mutual
theorem gen_nec {x : Ctx} : ∀ (e : Node) {lp t : Bool} (T : List Bool), (t = false → lp = true) → NecN x lp t T e
  | .lit l, _, _, _, _ => .of (fun uv => by
      rw [gen]
      split
      · exact (Nec.pure ()).imp coll
      · exact Nec.lit.imp coll) (by simp)
  | .self, _, _, _, _ => .of (fun uv => by
      rw [gen]
      split
      · exact (Nec.pure ()).imp coll
      · exact Nec.emit.imp coll) (by simp)
  | .lvar id, _, _, _, _ => .of (fun uv => by
      rw [gen]
      exact (Nec.getLocal.bind fun _ => Nec.when _ Nec.emit).imp coll) (by simp)
  | .ivar id, _, _, _, _ => .of (fun uv => by
      rw [gen]
      exact (Nec.emit.bind fun _ => Nec.when _ Nec.emit).imp coll) (by simp)
  | .gvar id, _, _, _, _ => .of (fun uv => by
      rw [gen]
      exact (Nec.emit.bind fun _ => Nec.when _ Nec.emit).imp coll) (by simp)
  | .ident id, _, _, _, _ => .of (fun uv => by
      rw [gen]
      exact (Nec.emit.bind fun _ => Nec.send).imp coll) (by simp)
  | .binop op l r, lp, t, T, ht => by
      have hl := gen_nec (x := x) l T ht
      have hr := gen_nec (x := x) r T ht
      have hg : ∀ uv, Nec (t :: T) (gen x (.binop op l r) uv) (Leg x lp (.binop op l r)) (t :: T) := by
        intro uv
        rw [gen]
        exact ((Nec.bin (hl.gen true) (hr.gen true) fun _ => leg_imm).bind fun _ => Nec.when _ Nec.emit).imp coll
      refine ⟨hg, ?_⟩
      by_cases hc : ∃ o, op = .c o
      · obtain ⟨o, rfl⟩ := hc
        rw [condGen]
        exact (Nec.jfCmp (hl.gen true) (hr.gen true) fun _ => leg_imm).imp coll
      · rw [condGen_ne (by rintro ⟨o, l', r', he⟩; cases he; exact hc ⟨o, rfl⟩)]
        exact Nec.jf (hg true)
  | .land l r, _, _, T, ht => .of (fun uv => by
      rw [gen]
      exact (((gen_nec l T ht).gen true).bind fun _ => (Nec.when _ Nec.emit).bind fun _ => Nec.jump.bind fun _ =>
        (Nec.when _ Nec.emit).bind fun _ => ((gen_nec r T ht).gen uv).bind fun _ => Nec.patchCur).imp coll) (by simp)
  | .lor l r, _, _, T, ht => .of (fun uv => by
      rw [gen]
      exact (((gen_nec l T ht).gen true).bind fun _ => (Nec.when _ Nec.emit).bind fun _ => Nec.jump.bind fun _ =>
        (Nec.when _ Nec.emit).bind fun _ => ((gen_nec r T ht).gen uv).bind fun _ => Nec.patchCur).imp coll) (by simp)
  | .unop op a, _, _, T, ht => .of (fun uv => by
      have ha := (gen_nec (x := x) a T ht).gen true
      cases op <;> rw [gen] <;>
        first
        | exact (ha.bind fun _ => Nec.emit.bind fun _ => Nec.when _ Nec.emit).imp coll
        | exact (ha.bind fun _ => (Nec.pure ()).bind fun _ => Nec.when _ Nec.emit).imp coll) (by simp)
  | .array ns, _, _, T, ht => .of (fun uv => by
      rw [gen]
      exact ((genAll_nec ns T ht).bind fun _ => Nec.emit.bind fun _ => Nec.when _ Nec.emit).imp coll) (by simp)
  | .carray l, _, _, _, _ => .of (fun uv => by
      rw [gen]
      split
      · exact (Nec.pure ()).imp coll
      · exact Nec.carray.imp coll) (by simp)
  | .range a b e, _, _, T, ht => .of (fun uv => by
      rw [gen]
      exact (Nec.emit.bind fun _ => ((gen_nec b T ht).gen true).bind fun _ =>
        ((gen_nec a T ht).gen true).bind fun _ => Nec.emit.bind fun _ => Nec.when _ Nec.emit).imp coll) (by simp)
  | .index a b, lp, t, T, ht => .of (fun uv => by
      rw [gen]
      have ha := (gen_nec (x := x) a T ht).gen true
      cases hb : b.is_imm_u32 with
      | some u =>
        have : Leg x lp b := leg_immu hb
        exact (ha.bind fun _ => Nec.emit.bind fun _ => Nec.when _ Nec.emit).imp coll
      | none =>
        exact (ha.bind fun _ => ((gen_nec b T ht).gen true).bind fun _ => Nec.emit.bind
          fun _ => Nec.when _ Nec.emit).imp coll) (by simp)
  | .seq ns, _, _, T, ht => .of (fun uv => by
      rw [gen]
      exact (genSeq_nec ns T ht uv).imp coll) (by simp)
  | .ite c a b, lp, t, T, ht => .of (fun uv => by
      rw [gen_ite]
      have hc := (gen_nec (x := x) c T ht).cond
      have ha := (gen_nec (x := x) a T ht).gen uv
      have hb := (gen_nec (x := x) b T ht).gen
      cases uv with
      | true =>
        exact (hc.bind fun _ => ha.bind fun _ => Nec.jump.bind fun _ => Nec.patchCur.bind fun _ =>
          (hb true).bind fun _ => Nec.patchCur).imp coll
      | false =>
        cases he : b.isEmpty with
        | true =>
          have : Leg x lp b := by
            unfold Node.isEmpty at he
            split at he <;> simp_all [Leg, Legal, LegalAll]
          exact (hc.bind fun _ => ha.bind fun _ => Nec.patchCur).imp coll
        | false =>
          exact (hc.bind fun _ => ha.bind fun _ => Nec.jump.bind fun _ => Nec.patchCur.bind fun _ =>
            (hb false).bind fun _ => Nec.patchCur).imp coll) (by simp)
  | .while_ c b co, _, t, T, ht => .of (fun uv => by
      rw [gen_while]
      have hc := (gen_nec (x := x) (t := false) c (t :: T) (fun _ => rfl)).cond
      have hc' := (gen_nec (x := x) (t := false) c (t :: T) (fun _ => rfl)).gen true
      have hb := (gen_nec (x := x) (t := false) b (t :: T) (fun _ => rfl)).gen false
      have hco : Nec (false :: t :: T) (if co = true then condGen x c else do gen x c true; jumpM JMP_T)
          (Leg x true c) (false :: t :: T) := by
        cases co with
        | true => exact hc
        | false => exact (hc'.bind fun _ => Nec.jump).imp coll
      exact (Nec.pushLoop.bind fun _ => Nec.cur.bind fun _ => hco.bind fun _ => hb.bind fun _ => Nec.jmpBack.bind fun _ =>
        Nec.patchCur.bind fun _ => (Nec.when _ Nec.emit).bind fun _ => Nec.jump.bind fun _ => Nec.popLoop.bind fun _ =>
        Nec.escapes.bind fun _ => (Nec.when _ Nec.emit).bind fun _ => Nec.patchCur).imp coll) (by simp)
  | .brk a, _, _, T, ht => .of (fun uv => by
      rw [gen]
      exact (Nec.brk ((gen_nec a T ht).gen true)).imp coll) (by simp)
  | .nxt a, _, _, T, ht => .of (fun uv => by
      rw [gen]
      exact (Nec.nxt ((gen_nec a T ht).gen true) ((gen_nec a T ht).gen uv)).imp coll) (by simp)
  | .ret a, _, _, T, ht => .of (fun uv => by
      rw [gen]
      exact (((gen_nec a T ht).gen true).bind fun _ => Nec.ret).imp coll) (by simp)
  | .assign v a, _, _, T, ht => .of (fun uv => by
      rw [gen]
      exact (((gen_nec a T ht).gen true).bind fun _ => (Nec.when _ Nec.emit).bind fun _ => Nec.setVar).imp coll) (by simp)
  | .opassign op v a, _, _, T, ht => .of (fun uv => by
      rw [gen]
      exact ((Nec.bin Nec.getVar ((gen_nec a T ht).gen true) fun _ => leg_imm).bind fun _ =>
        (Nec.when _ Nec.emit).bind fun _ => Nec.setVar).imp coll) (by simp)
  | .assignIdx a i b, lp, _, T, ht => .of (fun uv => by
      rw [gen]
      have ha := (gen_nec (x := x) a T ht).gen true
      have hb := (gen_nec (x := x) b T ht).gen true
      cases hi : i.is_imm_u32 with
      | some u =>
        have : Leg x lp i := leg_immu hi
        exact (ha.bind fun _ => hb.bind fun _ => (Nec.when _ ((Nec.emit.bind fun _ => Nec.emit).imp fun _ => trivial)).bind
          fun _ => Nec.emit).imp coll
      | none =>
        exact (ha.bind fun _ => ((gen_nec i T ht).gen true).bind fun _ => hb.bind fun _ =>
          (Nec.when _ ((Nec.emit.bind fun _ => Nec.emit).imp fun _ => trivial)).bind fun _ => Nec.emit).imp coll) (by simp)
  | .attrAssign a m b, _, _, T, ht => .of (fun uv => by
      rw [gen]
      exact (((gen_nec a T ht).gen true).bind fun _ => ((gen_nec b T ht).gen true).bind fun _ => Nec.send).imp coll) (by simp)
  | .massign ts ns, _, _, T, ht => .of (fun uv => by
      rw [gen]
      exact (genMassign_nec ts ns T ht uv).imp coll) (by simp)
  | .send a m ns, _, _, T, ht => .of (fun uv => by
      rw [gen]
      exact (((gen_nec a T ht).gen true).bind fun _ => (genAll_nec ns T ht).bind fun _ => Nec.send).imp coll) (by simp)
  | .sendB a m ns b, _, _, T, ht => .of (fun uv => by
      rw [gen]
      exact (((gen_nec a T ht).gen true).bind fun _ => (genAll_nec ns T ht).bind fun _ => Nec.send).imp coll) (by simp)
  | .yield_ ns, _, _, T, ht => .of (fun uv => by
      rw [gen]
      exact ((genAll_nec ns T ht).bind fun _ => Nec.emit.bind fun _ => Nec.when _ Nec.emit).imp coll) (by simp)
  | .case_ c ws b, lp, _, T, ht => .of (fun uv => by
      rw [gen]
      have hc := (gen_nec (x := x) c T ht).gen true
      have hb := (gen_nec (x := x) b T ht).gen uv
      cases hi : ws.allInt with
      | true =>
        exact (hc.bind fun _ => Nec.case2.bind fun p => (genTable_nec ws T ht p.2 uv).bind fun _ => Nec.cur.bind
          fun _ => Nec.setCase2.bind fun _ => Nec.patchCur.bind fun _ => hb.bind fun _ => Nec.patchAll).imp
            (by have := allInt_allLit hi; exact coll)
      | false =>
        cases hl : ws.allLit with
        | true =>
          exact (hc.bind fun _ => Nec.case1.bind fun p => (genTable_nec ws T ht p.2 uv).bind fun _ =>
            Nec.setCase1.bind fun _ => Nec.patchCur.bind fun _ => hb.bind fun _ => Nec.patchAll).imp coll
        | false =>
          exact (hc.bind fun _ => (genWhens_nec ws T ht none uv).bind fun _ => Nec.patchOpt.bind fun _ =>
            Nec.emit.bind fun _ => hb.bind fun _ => Nec.patchAll).imp coll) (by simp)
  | .caseN ws b, _, _, T, ht => .of (fun uv => by
      rw [gen]
      exact ((genCondWhens_nec ws T ht uv).bind fun _ => ((gen_nec b T ht).gen uv).bind fun _ => Nec.patchAll).imp
        coll) (by simp)
  | .begin_ b rs els ens, lp, _, T, ht => .of (fun uv => by
      rw [gen]
      have hb := (gen_nec (x := x) b T ht).gen uv
      have hel := genElse_nec (x := x) els T ht uv
      have hen := genOpt_nec (x := x) ens T ht
      cases hr : rs.isEmpty with
      | true =>
        have : LegalRescues x.knows (x.kind = some .block) lp rs := by
          cases rs with
          | nil => rw [LegalRescues]; trivial
          | cons => cases hr
        exact (Nec.cur.bind fun _ => Nec.pushJD.bind fun _ => hb.bind fun _ => Nec.popJD.bind fun _ => Nec.cur.bind fun _ =>
          hel.bind fun _ => (Nec.retPaths hen).bind fun _ => hen).imp coll
      | false =>
        exact (Nec.cur.bind fun _ => Nec.pushJD.bind fun _ => hb.bind fun _ => Nec.popJD.bind fun _ => Nec.cur.bind fun _ =>
          Nec.jump.bind fun _ => Nec.cur.bind fun _ => (genRescues_nec rs T ht none uv).bind fun _ =>
          Nec.patchOpt.bind fun _ => hen.bind fun _ => Nec.emit.bind fun _ => Nec.patchCur.bind fun _ =>
          hel.bind fun _ => (Nec.retPaths hen).bind fun _ => Nec.patchAll.bind fun _ => Nec.pushEx.bind fun _ =>
          hen).imp coll) (by simp)

theorem genAll_nec {x : Ctx} : ∀ (ns : Nodes) {lp t : Bool} (T : List Bool), (t = false → lp = true) →
    Nec (t :: T) (genAll x ns) (LegalAll x.knows (x.kind = some .block) lp ns) (t :: T)
  | .nil, _, _, _, _ => by rw [genAll]; exact (Nec.pure ()).imp coll
  | .cons n ns, _, _, T, ht => by
    rw [genAll]
    exact (((gen_nec n T ht).gen true).bind fun _ => genAll_nec ns T ht).imp coll

theorem genSeq_nec {x : Ctx} : ∀ (ns : Nodes) {lp t : Bool} (T : List Bool), (t = false → lp = true) → ∀ uv,
    Nec (t :: T) (genSeq x ns uv) (LegalAll x.knows (x.kind = some .block) lp ns) (t :: T)
  | .nil, _, _, _, _, uv => by rw [genSeq]; exact (Nec.when _ Nec.emit).imp coll
  | .cons n .nil, _, _, T, ht, uv => by
    rw [genSeq]
    exact ((gen_nec n T ht).gen uv).imp coll
  | .cons n (.cons m ns), _, _, T, ht, uv => by
    rw [genSeq, LegalAll]
    exact ((gen_nec n T ht).gen false).bind fun _ => genSeq_nec (.cons m ns) T ht uv

theorem genFirst_nec {x : Ctx} : ∀ (ns : Nodes) {lp t : Bool} (T : List Bool), (t = false → lp = true) → ∀ k,
    Nec (t :: T) (genFirst x ns k) (LegalAll x.knows (x.kind = some .block) lp ns) (t :: T)
  | .nil, _, _, _, _, k => by rw [genFirst]; exact (Nec.pure ()).imp coll
  | .cons n ns, _, _, T, ht, k => by
    rw [genFirst]
    exact (((gen_nec n T ht).gen _).bind fun _ => genFirst_nec ns T ht (k - 1)).imp coll

theorem genMassign_nec {x : Ctx} (ts : List Var) : ∀ (ns : Nodes) {lp t : Bool} (T : List Bool),
    (t = false → lp = true) → ∀ uv, Nec (t :: T) (genMassign x ts ns uv)
      ((∀ v ∈ ts, knownVar x.knows v) ∧ LegalAll x.knows (x.kind = some .block) lp ns) (t :: T)
  | .nil, _, _, _, _, uv => by
    rw [genMassign]
    exact Nec.manyTail.imp coll
  | .cons n .nil, lp, t, T, ht, uv => by
    have hn := (gen_nec (x := x) n T ht).gen true
    have hs := Nec.setVars (T := t :: T) (x := x) (vs := ts.reverse)
    simp only [List.mem_reverse] at hs
    rw [genMassign.eq_def]
    dsimp only
    split
    · exact (hn.bind fun _ => (Nec.when _ Nec.emit).bind fun _ => Nec.setVar).imp
        (by simp only [LegalAll, List.mem_singleton, forall_eq]; tauto)
    · exact (hn.bind fun _ => (Nec.when _ Nec.emit).bind fun _ => Nec.emit.bind fun _ => hs).imp coll
  | .cons n (.cons m ns), lp, t, T, ht, uv => by
    have hn := (gen_nec (x := x) n T ht).gen
    have ht' := Nec.manyTail (T := t :: T) (x := x) (ts := ts) (n := ns.length + 2) (uv := uv)
    rw [genMassign]
    cases uv with
    | true =>
      exact ((hn true).bind fun _ => (genAll_nec (.cons m ns) T ht).bind fun _ => ht').imp coll
    | false =>
      exact ((hn _).bind fun _ => (genFirst_nec (.cons m ns) T ht _).bind fun _ => ht').imp coll

theorem genTable_nec {x : Ctx} : ∀ (ws : Whens) {lp t : Bool} (T : List Bool), (t = false → lp = true) → ∀ s uv,
    Nec (t :: T) (genTable x ws s uv) (ws.allLit = true → LegalWhens x.knows (x.kind = some .block) lp ws) (t :: T)
  | .nil, _, _, _, _, s, uv => by rw [genTable]; exact (Nec.pure _).imp coll
  | .cons ls b rest, lp, _, T, ht, s, uv => by
    rw [genTable]
    refine (Nec.cur.bind fun _ => ((gen_nec b T ht).gen uv).bind fun _ => Nec.jump.bind fun _ =>
      (genTable_nec rest T ht s uv).bind fun _ => Nec.pure _).imp fun h hl => ?_
    rw [LegalWhens]
    simp only [Whens.allLit, Whens.labels, List.all_append, Bool.and_eq_true, List.all_eq_true] at hl h
    exact ⟨leg_lits hl.1, h.2.1, h.2.2.2.1 hl.2⟩

theorem genLabels_nec {x : Ctx} : ∀ (ns : Nodes) {lp t : Bool} (T : List Bool), (t = false → lp = true) →
    Nec (t :: T) (genLabels x ns) (LegalAll x.knows (x.kind = some .block) lp ns) (t :: T)
  | .nil, _, _, _, _ => by rw [genLabels]; exact (Nec.pure _).imp coll
  | .cons n ns, _, _, T, ht => by
    rw [genLabels]
    exact (Nec.emit.bind fun _ => ((gen_nec n T ht).gen true).bind fun _ => Nec.emit.bind fun _ =>
      Nec.emit.bind fun _ => Nec.jump.bind fun _ => (genLabels_nec ns T ht).bind fun _ => Nec.pure _).imp coll

theorem genWhens_nec {x : Ctx} : ∀ (ws : Whens) {lp t : Bool} (T : List Bool), (t = false → lp = true) → ∀ nx uv,
    Nec (t :: T) (genWhens x ws nx uv) (LegalWhens x.knows (x.kind = some .block) lp ws) (t :: T)
  | .nil, _, _, _, _, nx, uv => by rw [genWhens]; exact (Nec.pure _).imp coll
  | .cons ls b rest, _, _, T, ht, nx, uv => by
    rw [genWhens]
    exact (Nec.patchOpt.bind fun _ => (genLabels_nec ls T ht).bind fun _ => Nec.jump.bind fun p => Nec.patchAll.bind
      fun _ => Nec.emit.bind fun _ => ((gen_nec b T ht).gen uv).bind fun _ => Nec.jump.bind fun _ =>
      (genWhens_nec rest T ht (some p) uv).bind fun _ => Nec.pure _).imp coll

theorem genConds_nec {x : Ctx} : ∀ (ns : Nodes) {lp t : Bool} (T : List Bool), (t = false → lp = true) →
    Nec (t :: T) (genConds x ns) (LegalAll x.knows (x.kind = some .block) lp ns) (t :: T)
  | .nil, _, _, _, _ => by rw [genConds]; exact (Nec.pure _).imp coll
  | .cons n ns, _, _, T, ht => by
    rw [genConds]
    exact (((gen_nec n T ht).gen true).bind fun _ => Nec.jump.bind fun _ => (genConds_nec ns T ht).bind fun _ =>
      Nec.pure _).imp coll

theorem genCondWhens_nec {x : Ctx} : ∀ (ws : Whens) {lp t : Bool} (T : List Bool), (t = false → lp = true) → ∀ uv,
    Nec (t :: T) (genCondWhens x ws uv) (LegalWhens x.knows (x.kind = some .block) lp ws) (t :: T)
  | .nil, _, _, _, _, uv => by rw [genCondWhens]; exact (Nec.pure _).imp coll
  | .cons ls b rest, _, _, T, ht, uv => by
    rw [genCondWhens]
    exact ((genConds_nec ls T ht).bind fun _ => ((gen_nec b T ht).gen uv).bind fun _ => Nec.jump.bind fun _ =>
      Nec.patchAll.bind fun _ => (genCondWhens_nec rest T ht uv).bind fun _ => Nec.pure _).imp coll

theorem genExcs_nec {x : Ctx} : ∀ (ns : Nodes) {lp t : Bool} (T : List Bool), (t = false → lp = true) →
    Nec (t :: T) (genExcs x ns) (LegalAll x.knows (x.kind = some .block) lp ns) (t :: T)
  | .nil, _, _, _, _ => by rw [genExcs]; exact Nec.emit.imp coll
  | .cons n ns, _, _, T, ht => by
    rw [genExcs]
    exact (((gen_nec n T ht).gen true).bind fun _ => genAll_nec ns T ht).imp coll

theorem genRescues_nec {x : Ctx} : ∀ (rs : Rescues) {lp t : Bool} (T : List Bool), (t = false → lp = true) → ∀ p uv,
    Nec (t :: T) (genRescues x rs p uv) (LegalRescues x.knows (x.kind = some .block) lp rs) (t :: T)
  | .nil, _, _, _, _, p, uv => by rw [genRescues]; exact (Nec.pure _).imp coll
  | .cons excs a b rest, _, t, T, ht, p, uv => by
    rw [genRescues.eq_def]
    dsimp only
    cases a with
    | none =>
      exact (Nec.patchOpt.bind fun _ => Nec.emit.bind fun _ => (genExcs_nec excs T ht).bind fun _ =>
        Nec.emit.bind fun _ => Nec.jump.bind fun q => Nec.emit.bind fun _ =>
        ((gen_nec b T ht).gen uv).bind fun _ => Nec.jump.bind fun _ =>
        (genRescues_nec rest T ht (some q) uv).bind fun _ => Nec.pure _).imp
          (by simp only [LegalRescues, Option.mem_def, reduceCtorEq, false_imp_iff, implies_true]; tauto)
    | some v =>
      exact (Nec.patchOpt.bind fun _ => Nec.emit.bind fun _ => (genExcs_nec excs T ht).bind fun _ =>
        Nec.emit.bind fun _ => Nec.jump.bind fun q => (Nec.setVar).bind fun _ =>
        ((gen_nec b T ht).gen uv).bind fun _ => Nec.jump.bind fun _ =>
        (genRescues_nec rest T ht (some q) uv).bind fun _ => Nec.pure _).imp
          (by simp only [LegalRescues, Option.mem_def, Option.some.injEq, forall_eq']; tauto)

theorem genElse_nec {x : Ctx} : ∀ (o : OptNode) {lp t : Bool} (T : List Bool), (t = false → lp = true) → ∀ uv,
    Nec (t :: T) (genElse x o uv) (LegalOpt x.knows (x.kind = some .block) lp o) (t :: T)
  | .none, _, _, _, _, uv => by rw [genElse]; exact (Nec.pure _).imp coll
  | .some n, _, _, T, ht, uv => by
    rw [genElse]
    exact ((Nec.when _ Nec.emit).bind fun _ => (gen_nec n T ht).gen uv).imp coll

theorem genOpt_nec {x : Ctx} : ∀ (o : OptNode) {lp t : Bool} (T : List Bool), (t = false → lp = true) →
    Nec (t :: T) (genOpt x o) (LegalOpt x.knows (x.kind = some .block) lp o) (t :: T)
  | .none, _, _, _, _ => by rw [genOpt]; exact (Nec.pure _).imp coll
  | .some n, _, _, T, ht => by
    rw [genOpt]
    exact ((gen_nec n T ht).gen false).imp coll
end

end Verif.Codegen
