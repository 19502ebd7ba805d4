import Verif.Codegen.Many
/-!
# `case`
-/
namespace Verif.Codegen
open Verif.ISeq Op
open Verif.Value (Val)

variable {W X : Type}

theorem Step.perm {g g' : G} {L L1 L2 : List Nat} {F : Fact W X} (h : Step g L g' L1 F) (p : L1.Perm L2) :
    Step g L g' L2 F :=
  ⟨(h.stp.trans (Stp.book rfl (p.append_right _) fun K f => f)).mono fun _ _ h => h.1, h.ext⟩

theorem Step.permL {g g' : G} {L L1 L2 : List Nat} {F : Fact W X} (h : Step g L1 g' L F) (p : L2.Perm L1) :
    Step g L2 g' L F :=
  ⟨((Stp.book (g := g) (g' := g) rfl (p.append_right _) fun K f => f).trans h.stp).mono fun _ _ h => h.2, h.ext⟩

/-! ### Labels -/

/-- Outcome of a test: jump to `t` if it holds, else go on at `e`; or an early end. -/
def TestOut (K : Env W X) (c : Code) (x : Ctx) (T : Tgt) (g0 g' : G) (base : List Val) (k0 : Conf (S W) (R W X))
    (V : Bool → St W → Conf (S W) (R W X)) : Except (Res X) Bool → St W → Prop
  | .ok b, σ => Steps K c k0 (V b σ)
  | .error r, σ => Leaves K c x T g0 g' base k0 r σ

theorem TestOut.up {K : Env W X} {c : Code} {x : Ctx} {T : Tgt} {g0 g1 g2 g' : G} {base : List Val}
    {k0 : Conf (S W) (R W X)} {V} {a} {σ : St W} (e0 : Grow g0 g1) (e2 : Grow g2 g')
    (h : TestOut K c x T g1 g2 base k0 V a σ) : TestOut K c x T g0 g' base k0 V a σ := by
  cases a with
  | ok b => exact h
  | error r => exact Leaves.up e0 e2 h

theorem TestOut.pre {K : Env W X} {c : Code} {x : Ctx} {T : Tgt} {g0 g' : G} {base : List Val}
    {k0 k1 : Conf (S W) (R W X)} {V} {a} {σ : St W} (hs : Steps K c k0 k1)
    (h : TestOut K c x T g0 g' base k1 V a σ) : TestOut K c x T g0 g' base k0 V a σ := by
  cases a with
  | ok b => exact Steps.trans hs h
  | error r => exact Leaves.pre hs h

/-- The labels of a branch are compared with the value on the stack. -/
def LabelsOK (x : Ctx) (m : M (List Nat)) (sup : Bool → Prop)
    (ev : Env W X → Nat → Val → St W → Option (Except (Res X) Bool × St W)) : Prop :=
  ∀ g js g', m g = .ok (js, g') → ∀ L, Step g L g' (js ++ L) fun c K => ∀ T t, Site' c K T g g' →
    (∀ s ∈ js, Site c s t) → t ≤ c.length →
    ∀ n base st v σ a σ', sup (!loopTop g) → ev K n v σ = some (a, σ') →
      TestOut K c x T g g' base (.at g.code.length ⟨v :: st, σ⟩)
        (fun b σ => .at (if b then t else g'.code.length) ⟨v :: st, σ⟩) a σ'

theorem LabelsOK.nil {x : Ctx} {sup : Bool → Prop} :
    LabelsOK (W := W) (X := X) x (pure []) sup (fun _ _ _ σ => some (.ok false, σ)) := by
  intro g js g' h L
  obtain ⟨rfl, rfl⟩ := pureM.1 h
  refine (Step.refl _ _).mono ?_
  intro c K _ T t hS _ _ n base st v σ a σ' su hv
  cases hv
  exact Steps.refl _

theorem LabelsOK.cons {x : Ctx} {m1 : M Unit} {m2 : M (List Nat)} {sup1 : Bool → Bool → Bool → Prop} {sup2 : Bool → Prop}
    {ev1 : Env W X → Nat → St W → Ans W X}
    {ev2 : Env W X → Nat → Val → St W → Option (Except (Res X) Bool × St W)}
    (hm1 : GenOK x m1 true sup1 ev1) (hm2 : LabelsOK x m2 sup2 ev2) :
    LabelsOK x (do dup 1; m1; sinkn 1; emitM TEQ []; let j ← jumpM JMP_T; let js ← m2; pure (j :: js))
      (fun lp => sup1 lp false false ∧ sup2 lp)
      (fun K n v σ => match onVal (ev1 K n σ) fun lv σ => evalBin K.world .teq lv v σ with
        | some (.val b, σ) => if truthy b then some (.ok true, σ) else ev2 K n v σ
        | some (r, σ) => some (.error r, σ)
        | none => none) := by
  intro g js g' hg L
  obtain ⟨_, g1, h1, hg⟩ := bindM.1 hg
  obtain ⟨_, g2, h2, hg⟩ := bindM.1 hg
  obtain ⟨_, g3, h3, hg⟩ := bindM.1 hg
  obtain ⟨_, g4, h4, hg⟩ := bindM.1 hg
  obtain ⟨j, g5, h5, hg⟩ := bindM.1 hg
  obtain ⟨js', g6, h6, hg⟩ := bindM.1 hg
  obtain ⟨rfl, rfl⟩ := pureM.1 hg
  have s1 := emitM_step (W := W) (X := X) L h1
  have s2 := hm1 _ _ _ h2 L
  have s3 := emitM_step (W := W) (X := X) L h3
  have s4 := emitM_step (W := W) (X := X) L h4
  have l4 := emitM_len h4
  have s5 := jumpM_step (W := W) (X := X) L h5
  have s6 := (hm2 _ _ _ h6 (j :: L)).perm (L2 := (j :: js') ++ L) (by simpa using List.perm_middle)
  have t4 := s4.trans (s5.trans s6)
  have t3 := s3.trans t4
  have t2 := s2.trans t3
  refine (s1.trans t2).mono ?_
  rintro c K ⟨f1, f2, f3, f4, f5, f6⟩ T t hS hsite ht n base st v σ a σ' ⟨su1, su2⟩ hv
  have hlen := hS.len
  have k5 := s6.ext.len
  have e5 : Grow g g5 := (s1.ext.trans (s2.ext.trans (s3.ext.trans (s4.ext.trans s5.ext)))).toGrow
  have e3 : Grow g g3 := (s1.ext.trans (s2.ext.trans s3.ext)).toGrow
  have a1 : Steps K c (.at g.code.length ⟨v :: st, σ⟩) (.at g1.code.length ⟨v :: v :: st, σ⟩) := by
    refine Steps.next K f1 (emitM_len h1) rfl ?_
    rw [u32, exec_dup, if_pos (by simp)]; simp
  have D2 := f2 T (hS.sub s1.ext.toGrow t3.ext.toGrow)
  dsimp only at hv
  -- the comparison
  have cmp : ∀ r σ', (onVal (ev1 K n σ) fun lv σ => evalBin K.world .teq lv v σ) = some (r, σ') →
      Reach K c x T g g6 base (.at g.code.length ⟨v :: st, σ⟩) (fun w σ => .at g4.code.length ⟨w :: v :: st, σ⟩) r σ' := by
    intro r σ' hr
    refine Reach.pre a1 ?_
    rcases D2.first (base := base) (st := v :: v :: st) s1.ext.toGrow t3.ext.toGrow su1 ff ff hr with
      ⟨lv, σ1, -, hk, hs⟩ | hL
    · refine Reach.pre hs ?_
      have a3 : Steps K c (.at g2.code.length ⟨lv :: v :: v :: st, σ1⟩) (.at g3.code.length ⟨v :: lv :: v :: st, σ1⟩) := by
        refine Steps.next K f3 (emitM_len h3) rfl ?_
        rw [u32, exec_sinkn, if_pos (by simp)]; simp
      have hx := Steps.exec' K f4 ⟨v :: lv :: v :: st, σ1⟩ l4 rfl
      rw [show execOp K TEQ [] g3.code.length ⟨v :: lv :: v :: st, σ1⟩ =
        pushE K (g3.code.length + 1) (v :: st) (K.world.bin .teq lv v σ1) from rfl] at hx
      have R := Reach.eff (x := x) (T := T) (base := base) (uv := true) hS.ex e3 (emitM_ex h4) (.refl g4) (by omega)
        (by rw [l4]; rfl) (a3.trans hx) (fun v σ => Steps.refl _) hk
      exact R.up (.refl g) (s5.trans s6).ext.toGrow
    · exact .inr hL
  rcases hr : (onVal (ev1 K n σ) fun lv σ => evalBin K.world .teq lv v σ) with _ | ⟨r, σ1⟩
  · rw [hr] at hv; cases hv
  rw [hr] at hv
  rcases cmp _ _ hr with ⟨w, rfl, hs⟩ | hL
  · have hs := hs.trans (run_jt h5 f5 (hsite j (by simp)) hS.sz.code (by omega) ht w (v :: st) σ1)
    dsimp only at hv
    by_cases hb : truthy w = true
    · rw [if_pos hb] at hv hs
      cases hv
      exact hs
    · rw [if_neg hb] at hv hs
      refine TestOut.pre hs ?_
      have := f6 T t (hS.sub e5 (.refl _)) (fun s hs => hsite s (by simp [hs])) ht n base st v σ1 a σ'
        (by rw [e5.loopTop]; exact su2) hv
      exact this.up e5 (.refl _)
  · cases r with
    | val v => exact hL.elim
    | raise e => cases hv; exact hL
    | brk e => cases hv; exact hL
    | nxt e => cases hv; exact hL
    | ret e => cases hv; exact hL

/-- The conditions of a branch of a `case` without subject. -/
def CondsOK (x : Ctx) (m : M (List Nat)) (sup : Bool → Bool → Bool → Prop)
    (ev : Env W X → Nat → St W → Option (Except (Res X) Bool × St W)) : Prop :=
  ∀ g js g', m g = .ok (js, g') → ∀ L, Step g L g' (js ++ L) fun c K => ∀ T t, Site' c K T g g' →
    (∀ s ∈ js, Site c s t) → t ≤ c.length →
    ∀ n emp d base st σ a σ', sup (!loopTop g) emp d → (emp = true → st = []) → (d = true → st = base) →
      ev K n σ = some (a, σ') →
      TestOut K c x T g g' base (.at g.code.length ⟨st, σ⟩)
        (fun b σ => .at (if b then g'.code.length else t) ⟨st, σ⟩) a σ'

theorem CondsOK.nil {x : Ctx} {sup : Bool → Bool → Bool → Prop} :
    CondsOK (W := W) (X := X) x (pure []) sup (fun _ _ σ => some (.ok true, σ)) := by
  intro g js g' h L
  obtain ⟨rfl, rfl⟩ := pureM.1 h
  refine (Step.refl _ _).mono ?_
  intro c K _ T t hS _ _ n emp d base st σ a σ' su _ _ hv
  cases hv
  exact Steps.refl _

theorem CondsOK.cons {x : Ctx} {m1 : M Unit} {m2 : M (List Nat)} {sup1 sup2 : Bool → Bool → Bool → Prop}
    {ev1 : Env W X → Nat → St W → Ans W X}
    {ev2 : Env W X → Nat → St W → Option (Except (Res X) Bool × St W)}
    (hm1 : GenOK x m1 true sup1 ev1) (hm2 : CondsOK x m2 sup2 ev2) :
    CondsOK x (do m1; let j ← jumpM JMP_F; let js ← m2; pure (j :: js))
      (fun lp e d => sup1 lp e d ∧ sup2 lp e d)
      (fun K n σ => match ev1 K n σ with
        | some (.val v, σ) => if truthy v = false then some (.ok false, σ) else ev2 K n σ
        | some (r, σ) => some (.error r, σ)
        | none => none) := by
  intro g js g' hg L
  obtain ⟨_, g1, h1, hg⟩ := bindM.1 hg
  obtain ⟨j, g2, h2, hg⟩ := bindM.1 hg
  obtain ⟨js', g3, h3, hg⟩ := bindM.1 hg
  obtain ⟨rfl, rfl⟩ := pureM.1 hg
  have s1 := hm1 _ _ _ h1 L
  have s2 := jumpM_step (W := W) (X := X) L h2
  have s3 := (hm2 _ _ _ h3 (j :: L)).perm (L2 := (j :: js') ++ L) (by simpa using List.perm_middle)
  have t2 := s2.trans s3
  refine (s1.trans t2).mono ?_
  rintro c K ⟨f1, f2, f3⟩ T t hS hsite ht n emp d base st σ a σ' ⟨su1, su2⟩ he hd hv
  have hlen := hS.len
  have k3 := s3.ext.len
  have e2 : Grow g g2 := (s1.ext.trans s2.ext).toGrow
  dsimp only at hv
  rcases hr : ev1 K n σ with _ | ⟨r, σ1⟩
  · rw [hr] at hv; cases hv
  rw [hr] at hv
  rcases (f1 T (hS.sub (.refl _) t2.ext.toGrow)).last (.refl g) t2.ext.toGrow su1 he hd hr with ⟨w, rfl, hs⟩ | hL
  · have hs := Steps.trans hs (run_jf h2 f2 (hsite j (by simp)) hS.sz.code (by omega) ht w st σ1)
    dsimp only at hv
    by_cases hb : truthy w = false
    · rw [if_pos hb] at hv
      rw [if_neg (by simp [hb])] at hs
      cases hv
      exact hs
    · rw [if_neg hb] at hv
      rw [if_pos (by simpa using hb)] at hs
      refine TestOut.pre hs ?_
      have := f3 T t (hS.sub e2 (.refl _)) (fun s hs => hsite s (by simp [hs])) ht n emp d base st σ1 a σ'
        (by rw [e2.loopTop]; exact su2) he hd hv
      exact this.up e2 (.refl _)
  · cases r with
    | val v => exact hL.elim
    | raise e => cases hv; exact hL
    | brk e => cases hv; exact hL
    | nxt e => cases hv; exact hL
    | ret e => cases hv; exact hL

/-! ### Branches -/

/-- Outcome of a list of branches: one of them, or none and `els` is next. -/
def BrOut (K : Env W X) (c : Code) (x : Ctx) (T : Tgt) (g0 g' : G) (base : List Val) (k0 : Conf (S W) (R W X))
    (V : Val → St W → Conf (S W) (R W X)) (N : St W → Conf (S W) (R W X)) (els : St W → Ans W X)
    (r : Res X) (σ' : St W) : Prop :=
  Reach K c x T g0 g' base k0 V r σ' ∨ ∃ σ1, els σ1 = some (r, σ') ∧ Steps K c k0 (N σ1)

theorem BrOut.pre {K : Env W X} {c : Code} {x : Ctx} {T : Tgt} {g0 g' : G} {base : List Val}
    {k0 k1 : Conf (S W) (R W X)} {V N els} {r : Res X} {σ : St W} (hs : Steps K c k0 k1)
    (h : BrOut K c x T g0 g' base k1 V N els r σ) : BrOut K c x T g0 g' base k0 V N els r σ := by
  rcases h with h | ⟨σ1, h1, h2⟩
  · exact .inl (h.pre hs)
  · exact .inr ⟨σ1, h1, hs.trans h2⟩

theorem BrOut.up {K : Env W X} {c : Code} {x : Ctx} {T : Tgt} {g0 g1 g2 g' : G} {base : List Val}
    {k0 : Conf (S W) (R W X)} {V N els} {r : Res X} {σ : St W} (e0 : Grow g0 g1) (e2 : Grow g2 g')
    (h : BrOut K c x T g1 g2 base k0 V N els r σ) : BrOut K c x T g0 g' base k0 V N els r σ := by
  rcases h with h | h
  · exact .inl (h.up e0 e2)
  · exact .inr h

/-- At `te` with or without the value. -/
def AtEnd (te : Nat) (uv : Bool) (st : List Val) (v : Val) (σ : St W) : Conf (S W) (R W X) :=
  .at te ⟨if uv then v :: st else st, σ⟩

theorem patchOpt_step {next : Option Nat} {g g' : G} {u : Unit} (L : List Nat) (h : patchOpt next g = .ok (u, g')) :
    Step (W := W) (X := X) g (next.toList ++ L) g' L (fun c _ => ∀ s ∈ next.toList, Site c s g.code.length) ∧
      g'.code.length = g.code.length ∧ g'.ex = g.ex := by
  cases next with
  | none =>
    obtain ⟨_, rfl⟩ := pureM.1 h
    exact ⟨(Step.refl _ _).mono (by simp), rfl, rfl⟩
  | some s =>
    refine ⟨(patchCurM_step L h).mono ?_, patchCurM_len h, patchM_ex h⟩
    intro c K hs s' hs'
    simp only [Option.toList, List.mem_singleton] at hs'
    subst hs'
    exact hs

/-- The branches of a general `case`. -/
def WhensOK (x : Ctx) (m : Option Nat → M (Option Nat × List Nat)) (isNil uv : Bool) (sup : Bool → Bool → Bool → Prop)
    (ev : Env W X → Nat → Val → (St W → Ans W X) → St W → Ans W X) : Prop :=
  ∀ next g r g', m next g = .ok (r, g') → ∀ L,
    Step g (next.toList ++ L) g' (r.1.toList ++ (r.2 ++ L)) fun c K => ∀ T te tn, Site' c K T g g' →
    (∀ s ∈ r.2, Site c s te) → te ≤ c.length → (∀ s ∈ r.1.toList, Site c s tn) → tn ≤ c.length →
    (∀ s ∈ next.toList, Site c s (if isNil then tn else g.code.length)) ∧
    ∀ n emp d base st v σ els r σ', sup (!loopTop g) emp d → (emp = true → st = []) → (d = true → st = base) →
      ev K n v els σ = some (r, σ') →
      BrOut K c x T g g' base (.at (if isNil then tn else g.code.length) ⟨v :: st, σ⟩) (AtEnd te uv st)
        (fun σ => .at tn ⟨v :: st, σ⟩) els r σ'

theorem WhensOK.nil {x : Ctx} {uv : Bool} {sup : Bool → Bool → Bool → Prop} :
    WhensOK (W := W) (X := X) x (fun next => pure (next, [])) true uv sup (fun _ _ _ els σ => els σ) := by
  intro next g r g' h L
  obtain ⟨rfl, rfl⟩ := pureM.1 h
  refine ((Step.refl g (next.toList ++ L)).perm (L2 := next.toList ++ ([] ++ L)) (by simp)).mono ?_
  intro c K _ T te tn hS _ _ htn _
  refine ⟨fun s hs => htn s hs, ?_⟩
  intro n emp d base st v σ els r σ' su _ _ hv
  exact .inr ⟨σ, hv, Steps.refl _⟩

theorem WhensOK.cons {x : Ctx} {ml : M (List Nat)} {mb : M Unit} {mr : Option Nat → M (Option Nat × List Nat)}
    {isNil uv : Bool} {supl : Bool → Prop} {supb supr : Bool → Bool → Bool → Prop}
    {evl : Env W X → Nat → Val → St W → Option (Except (Res X) Bool × St W)}
    {evb : Env W X → Nat → St W → Ans W X}
    {evr : Env W X → Nat → Val → (St W → Ans W X) → St W → Ans W X}
    (hl : LabelsOK x ml supl evl) (hb : GenOK x mb uv supb evb) (hr : WhensOK x mr isNil uv supr evr) :
    WhensOK x (fun next => do
        patchOpt next
        let js ← ml
        let nx ← jumpM JMP
        patchAllM js
        pop
        mb
        let e ← jumpM JMP
        let (next, ends) ← mr (some nx)
        pure (next, e :: ends)) false uv (fun lp e d => supl lp ∧ supb lp e d ∧ supr lp e d)
      (fun K n v els σ => match evl K n v σ with
        | some (.ok true, σ) => evb K n σ
        | some (.ok false, σ) => evr K n v els σ
        | some (.error r, σ) => some (r, σ)
        | none => none) := by
  intro next g r g' hg L
  obtain ⟨_, g1, h1, hg⟩ := bindM.1 hg
  obtain ⟨js, g2, h2, hg⟩ := bindM.1 hg
  obtain ⟨nx, g3, h3, hg⟩ := bindM.1 hg
  obtain ⟨_, g4, h4, hg⟩ := bindM.1 hg
  obtain ⟨_, g5, h5, hg⟩ := bindM.1 hg
  obtain ⟨_, g6, h6, hg⟩ := bindM.1 hg
  obtain ⟨e, g7, h7, hg⟩ := bindM.1 hg
  obtain ⟨⟨next', ends⟩, g8, h8, hg⟩ := bindM.1 hg
  obtain ⟨rfl, rfl⟩ := pureM.1 hg
  obtain ⟨s1, l1, -⟩ := patchOpt_step (W := W) (X := X) L h1
  have s2 := hl _ _ _ h2 L
  have s3 := (jumpM_step (W := W) (X := X) (js ++ L) h3).perm (L2 := js ++ nx :: L) List.perm_middle.symm
  obtain ⟨s4, l4⟩ := patchAllM_step (W := W) (X := X) (nx :: L) h4
  have s5 := emitM_step (W := W) (X := X) (nx :: L) h5
  have s6 := hb _ _ _ h6 (nx :: L)
  have s7 := (jumpM_step (W := W) (X := X) (nx :: L) h7).perm (L2 := nx :: e :: L) (List.Perm.swap _ _ _)
  have s8 := (hr _ _ _ _ h8 (e :: L)).perm (L2 := next'.toList ++ ((e :: ends) ++ L))
    (by simpa using List.perm_middle.append_left next'.toList)
  have s7 : Step (W := W) (X := X) g6 (nx :: L) g7 ((some nx).toList ++ e :: L) _ := s7
  have t7 := s7.trans s8
  have t6 := s6.trans t7
  have t3 := s3.trans (s4.trans (s5.trans t6))
  have t2 := s2.trans t3
  refine (s1.trans t2).mono ?_
  rintro c K ⟨f1, f2, f3, f4, f5, f6, f7, f8⟩ T te tn hS hends hte hnext htn
  refine ⟨by simpa using f1, ?_⟩
  intro n emp d base st v σ els r σ' ⟨su1, su2, su3⟩ he hd hv
  have hlen := hS.len
  have k3 := (s4.trans (s5.trans t6)).ext.len
  have k7 := s8.ext.len
  have e1 : Grow g g1 := s1.ext.toGrow
  have e5 : Grow g g5 := (s1.ext.trans (s2.ext.trans (s3.ext.trans (s4.ext.trans s5.ext)))).toGrow
  have e7 : Grow g g7 := e5.trans (s6.ext.trans s7.ext).toGrow
  obtain ⟨hnx, Hr⟩ := f8 T te tn (hS.sub e7 (.refl _)) (fun s hs => hends s (by simp [hs])) hte hnext htn
  have hnx := hnx nx (by simp)
  dsimp only at hv
  simp only [Bool.false_eq_true, if_false]
  rcases hev : evl K n v σ with _ | ⟨a, σ1⟩
  · rw [hev] at hv; cases hv
  rw [hev] at hv
  have hT := f2 T g3.code.length (hS.sub e1 t3.ext.toGrow) f4 (by omega) n base st v σ a σ1
    (by rw [e1.loopTop]; exact su1) hev
  have hT := hT.up e1 t3.ext.toGrow
  rw [l1] at hT
  cases a with
  | error r => cases hv; exact .inl (.inr hT)
  | ok b =>
    refine BrOut.pre hT ?_
    cases b with
    | true =>
      dsimp only at hv ⊢
      rw [if_pos rfl, ← l4]
      refine .inl ?_
      have a5 : Steps K c (.at g4.code.length ⟨v :: st, σ1⟩) (.at g5.code.length ⟨st, σ1⟩) :=
        Steps.next K f5 (emitM_len h5) rfl rfl
      refine Reach.pre a5 ?_
      refine ((f6 T (hS.sub e5 t7.ext.toGrow)).last e5 t7.ext.toGrow su2 he hd hv).post fun w => ?_
      exact run_jmp h7 f7 (hends e (by simp)) hS.sz.code (by omega) hte _
    | false =>
      dsimp only at hv ⊢
      rw [if_neg (by simp)]
      have a3 : Steps K c (.at g2.code.length ⟨v :: st, σ1⟩)
          (.at (if isNil then tn else g7.code.length) ⟨v :: st, σ1⟩) :=
        run_jmp h3 f3 hnx hS.sz.code (by omega) (by cases isNil <;> simp <;> omega) _
      refine BrOut.pre a3 ?_
      exact (Hr n emp d base st v σ1 els r σ' (by rw [e7.loopTop]; exact su3) he hd hv).up e7 (.refl _)

/-- The branches of a `case` without subject. -/
def CondWhensOK (x : Ctx) (m : M (List Nat)) (uv : Bool) (sup : Bool → Bool → Bool → Prop)
    (ev : Env W X → Nat → (St W → Ans W X) → St W → Ans W X) : Prop :=
  ∀ g ends g', m g = .ok (ends, g') → ∀ L,
    Step g L g' (ends ++ L) fun c K => ∀ T te, Site' c K T g g' →
    (∀ s ∈ ends, Site c s te) → te ≤ c.length →
    ∀ n emp d base st σ els r σ', sup (!loopTop g) emp d → (emp = true → st = []) → (d = true → st = base) →
      ev K n els σ = some (r, σ') →
      BrOut K c x T g g' base (.at g.code.length ⟨st, σ⟩) (AtEnd te uv st)
        (fun σ => .at g'.code.length ⟨st, σ⟩) els r σ'

theorem CondWhensOK.nil {x : Ctx} {uv : Bool} {sup : Bool → Bool → Bool → Prop} :
    CondWhensOK (W := W) (X := X) x (pure []) uv sup (fun _ _ els σ => els σ) := by
  intro g r g' h L
  obtain ⟨rfl, rfl⟩ := pureM.1 h
  refine (Step.refl _ _).mono ?_
  intro c K _ T te hS _ _ n emp d base st σ els r σ' su _ _ hv
  exact .inr ⟨σ, hv, Steps.refl _⟩

theorem CondWhensOK.cons {x : Ctx} {ml : M (List Nat)} {mb : M Unit} {mr : M (List Nat)}
    {uv : Bool} {supl supb supr : Bool → Bool → Bool → Prop}
    {evl : Env W X → Nat → St W → Option (Except (Res X) Bool × St W)}
    {evb : Env W X → Nat → St W → Ans W X}
    {evr : Env W X → Nat → (St W → Ans W X) → St W → Ans W X}
    (hl : CondsOK x ml supl evl) (hb : GenOK x mb uv supb evb) (hr : CondWhensOK x mr uv supr evr) :
    CondWhensOK x (do
        let js ← ml
        mb
        let e ← jumpM JMP
        patchAllM js
        let ends ← mr
        pure (e :: ends)) uv (fun lp e d => supl lp e d ∧ supb lp e d ∧ supr lp e d)
      (fun K n els σ => match evl K n σ with
        | some (.ok true, σ) => evb K n σ
        | some (.ok false, σ) => evr K n els σ
        | some (.error r, σ) => some (r, σ)
        | none => none) := by
  intro g r g' hg L
  obtain ⟨js, g1, h1, hg⟩ := bindM.1 hg
  obtain ⟨_, g2, h2, hg⟩ := bindM.1 hg
  obtain ⟨e, g3, h3, hg⟩ := bindM.1 hg
  obtain ⟨_, g4, h4, hg⟩ := bindM.1 hg
  obtain ⟨ends, g5, h5, hg⟩ := bindM.1 hg
  obtain ⟨rfl, rfl⟩ := pureM.1 hg
  have s1 := hl _ _ _ h1 L
  have s2 := hb _ _ _ h2 (js ++ L)
  have s3 := (jumpM_step (W := W) (X := X) (js ++ L) h3).perm (L2 := js ++ e :: L) List.perm_middle.symm
  obtain ⟨s4, l4⟩ := patchAllM_step (W := W) (X := X) (e :: L) h4
  have s5 := (hr _ _ _ h5 (e :: L)).perm (L2 := (e :: ends) ++ L) (by simpa using List.perm_middle)
  have t3 := s3.trans (s4.trans s5)
  have t2 := s2.trans t3
  refine (s1.trans t2).mono ?_
  rintro c K ⟨f1, f2, f3, f4, f5⟩ T te hS hends hte n emp d base st σ els r σ' ⟨su1, su2, su3⟩ he hd hv
  have hlen := hS.len
  have k3 := (s4.trans s5).ext.len
  have e1 : Grow g g1 := s1.ext.toGrow
  have e4 : Grow g g4 := e1.trans (s2.ext.trans (s3.ext.trans s4.ext)).toGrow
  dsimp only at hv
  rcases hev : evl K n σ with _ | ⟨a, σ1⟩
  · rw [hev] at hv; cases hv
  rw [hev] at hv
  have hT := f1 T g3.code.length (hS.sub (.refl _) t2.ext.toGrow) f4 (by omega) n emp d base st σ a σ1 su1 he hd hev
  have hT := hT.up (.refl g) t2.ext.toGrow
  cases a with
  | error r => cases hv; exact .inl (.inr hT)
  | ok b =>
    refine BrOut.pre hT ?_
    cases b with
    | true =>
      dsimp only at hv ⊢
      rw [if_pos rfl]
      refine .inl ?_
      refine ((f2 T (hS.sub e1 t3.ext.toGrow)).last e1 t3.ext.toGrow su2 he hd hv).post fun w => ?_
      exact run_jmp h3 f3 (hends e (by simp)) hS.sz.code (by omega) hte _
    | false =>
      dsimp only at hv ⊢
      rw [if_neg (by simp), ← l4]
      exact (f5 T te (hS.sub e4 (.refl _)) (fun s hs => hends s (by simp [hs])) hte n emp d base st σ1 els r σ'
        (by rw [e4.loopTop]; exact su3) he hd hv).up e4 (.refl _)

/-! ### The whole statement -/

theorem GenOK.caseGen {x : Ctx} {mc me : M Unit} {mw : Option Nat → M (Option Nat × List Nat)}
    {isNil uv : Bool} {supc supw supe : Bool → Bool → Bool → Prop}
    {evc eve : Env W X → Nat → St W → Ans W X}
    {evw : Env W X → Nat → Val → (St W → Ans W X) → St W → Ans W X}
    (hc : GenOK x mc true supc evc) (hw : WhensOK x mw isNil uv supw evw)
    (hnil : isNil = true → ∀ next, mw next = pure (next, [])) (he : GenOK x me uv supe eve) :
    GenOK x (do
        mc
        let (next, ends) ← mw none
        patchOpt next
        Codegen.pop
        me
        patchAllM ends) uv (fun lp e d => supc lp e d ∧ supw lp e d ∧ supe lp e d)
      (fun K n σ => onVal (evc K n σ) fun v σ => evw K n v (eve K n) σ) := by
  intro g u g' hg L
  obtain ⟨_, g1, h1, hg⟩ := bindM.1 hg
  obtain ⟨⟨next, ends⟩, g2, h2, hg⟩ := bindM.1 hg
  dsimp only at hg
  obtain ⟨_, g3, h3, hg⟩ := bindM.1 hg
  obtain ⟨_, g4, h4, hg⟩ := bindM.1 hg
  obtain ⟨_, g5, h5, h6⟩ := bindM.1 hg
  have s1 := hc _ _ _ h1 L
  have s2 : Step (W := W) (X := X) g1 L g2 (next.toList ++ (ends ++ L)) _ := hw _ _ _ _ h2 L
  obtain ⟨s3, l3, -⟩ := patchOpt_step (W := W) (X := X) (ends ++ L) h3
  have s4 := emitM_step (W := W) (X := X) (ends ++ L) h4
  have s5 := he _ _ _ h5 (ends ++ L)
  obtain ⟨s6, l6⟩ := patchAllM_step (W := W) (X := X) L h6
  have t3 := s3.trans (s4.trans (s5.trans s6))
  have t2 := s2.trans t3
  refine (s1.trans t2).mono ?_
  rintro c K ⟨f1, f2, f3, f4, f5, f6⟩ T hS n emp d base st σ r σ' ⟨su1, su2, su3⟩ hem hd hv
  have hlen := hS.len
  have k3 := t3.ext.len
  have e1 : Grow g g1 := s1.ext.toGrow
  have e4 : Grow g g4 := e1.trans (s2.ext.trans (s3.ext.trans s4.ext)).toGrow
  obtain ⟨-, H⟩ := f2 T g5.code.length g2.code.length (hS.sub e1 t3.ext.toGrow) f6 (by omega) f3 (by omega)
  rcases (f1 T (hS.sub (.refl _) t2.ext.toGrow)).first (.refl g) t2.ext.toGrow su1 hem hd hv with
    ⟨v, σ1, -, hk, hs⟩ | hL
  · refine Reach.pre hs ?_
    have hB := (H n emp d base st v σ1 (eve K n) r σ' (by rw [e1.loopTop]; exact su2) hem hd hk).up e1 t3.ext.toGrow
    have hstart : (if isNil then g2.code.length else g1.code.length) = g1.code.length := by
      cases hi : isNil with
      | false => rfl
      | true =>
        rw [hnil hi] at h2
        obtain ⟨-, rfl⟩ := pureM.1 h2
        rfl
    rw [hstart] at hB
    rcases hB with hR | ⟨σ2, hels, hs2⟩
    · rw [Then_len l6]; exact hR
    · refine Reach.pre hs2 ?_
      have a4 : Steps K c (.at g2.code.length ⟨v :: st, σ2⟩) (.at g4.code.length ⟨st, σ2⟩) := by
        rw [← l3]
        exact Steps.next K f4 (emitM_len h4) rfl rfl
      refine Reach.pre a4 ?_
      rw [Then_len l6]
      exact (f5 T (hS.sub e4 s6.ext.toGrow)).last e4 s6.ext.toGrow su3 hem hd hels
  · exact .inr hL

theorem GenOK.caseN {x : Ctx} {me : M Unit} {mw : M (List Nat)}
    {uv : Bool} {supw supe : Bool → Bool → Bool → Prop} {eve : Env W X → Nat → St W → Ans W X}
    {evw : Env W X → Nat → (St W → Ans W X) → St W → Ans W X}
    (hw : CondWhensOK x mw uv supw evw) (he : GenOK x me uv supe eve) :
    GenOK x (do
        let ends ← mw
        me
        patchAllM ends) uv (fun lp e d => supw lp e d ∧ supe lp e d)
      (fun K n σ => evw K n (eve K n) σ) := by
  intro g u g' hg L
  obtain ⟨ends, g1, h1, hg⟩ := bindM.1 hg
  obtain ⟨_, g2, h2, h3⟩ := bindM.1 hg
  have s1 := hw _ _ _ h1 L
  have s2 := he _ _ _ h2 (ends ++ L)
  obtain ⟨s3, l3⟩ := patchAllM_step (W := W) (X := X) L h3
  have t2 := s2.trans s3
  refine (s1.trans t2).mono ?_
  rintro c K ⟨f1, f2, f3⟩ T hS n emp d base st σ r σ' ⟨su1, su2⟩ hem hd hv
  have hlen := hS.len
  have e1 : Grow g g1 := s1.ext.toGrow
  rcases (f1 T g2.code.length (hS.sub (.refl _) t2.ext.toGrow) f3 (by omega) n emp d base st σ (eve K n) r σ' su1 hem hd
    hv).up (.refl g) t2.ext.toGrow with hR | ⟨σ2, hels, hs2⟩
  · rw [Then_len l3]; exact hR
  · rw [Then_len l3]
    exact Reach.pre hs2 ((f2 T (hS.sub e1 s3.ext.toGrow)).last e1 s3.ext.toGrow su2 hem hd hels)

end Verif.Codegen
