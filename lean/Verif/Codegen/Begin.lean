import Verif.Codegen.Table
/-!
# `begin`
-/
namespace Verif.Codegen
open Verif.ISeq Op
open Verif.Value (Val)

variable {W X : Type}

/-! ### The `ensure` clause -/

/-- The `ensure` clause after something that ended with `r`. -/
theorem GenOK.ensure {x : Ctx} {sup : Bool → Bool → Bool → Prop}
    {ev : Nat → St W → Ans W X} {g g' g0 ge : G} {c : Code} {K : Env W X} {T : Tgt}
    (D : Does x g g' c K T sup ev (Then g' false)) (e0 : Grow g0 g) (e2 : Grow g' ge)
    {n : Nat} {base st : List Val} {σ σ' : St W} {q r : Res X} (su : sup (!loopTop g0) false false)
    (h : andEnsure (ev n) q σ = some (r, σ')) :
    (r = q ∧ Steps K c (.at g.code.length ⟨st, σ⟩) (.at g'.code.length ⟨st, σ'⟩)) ∨
      Leaves K c x T g0 ge base (.at g.code.length ⟨st, σ⟩) r σ' := by
  unfold andEnsure at h
  rcases D.first (base := base) (st := st) e0 e2 su ff ff h with ⟨v, σ1, -, hk, hs⟩ | hL
  · cases hk; exact .inl ⟨rfl, hs⟩
  · exact .inr hL

/-- One copy of the clause for `return`. -/
def retPath (l : List Nat) (ensure : M Unit) (op : Byte) : M Unit :=
  if l.isEmpty then pure () else do
    ensure
    emitM op []

theorem genReturnPaths_eq (jd : JumpDest) (ensure : M Unit) : genReturnPaths jd ensure =
    if jd.rets.isEmpty && jd.mrets.isEmpty then pure ()
    else (do
      let ensure_label ← jumpM JMP
      patchAllM jd.rets
      retPath jd.rets ensure RETURN
      patchAllM jd.mrets
      retPath jd.mrets ensure MRETURN
      patchCurM ensure_label) := by
  unfold genReturnPaths retPath
  cases jd.rets.isEmpty <;> cases jd.mrets.isEmpty <;> simp

theorem retPath_step {x : Ctx} {l : List Nat} {m : M Unit} {op : Byte} {sup : Bool → Bool → Bool → Prop}
    {ev : Env W X → Nat → St W → Ans W X} (hm : GenOK x m false sup ev)
    (hop : isTerm op = true) {g g' : G} {u : Unit} (h : retPath l m op g = .ok (u, g')) (L : List Nat) :
    Step g L g' L fun c K => ∀ T, Site' c K T g g' → l ≠ [] →
      (∀ v st (σ : St W), (machine K).term op ⟨v :: st, σ⟩ = retR x v σ) →
      ∀ n base st v σ r σ', sup (!loopTop g) false false → andEnsure (ev K n) (.ret v true) σ = some (r, σ') →
        Leaves K c x T g g' base (.at g.code.length ⟨v :: st, σ⟩) r σ' := by
  unfold retPath at h
  by_cases hl : l.isEmpty = true
  · rw [if_pos hl] at h
    obtain ⟨_, rfl⟩ := pureM.1 h
    refine (Step.refl _ _).mono ?_
    intro c K _ T _ hne
    simp [List.isEmpty_iff] at hl
    exact absurd hl hne
  · rw [if_neg hl] at h
    obtain ⟨_, g1, h1, h2⟩ := bindM.1 h
    have s1 := hm _ _ _ h1 L
    have s2 := emitM_step (W := W) (X := X) L h2
    refine (s1.trans s2).mono ?_
    rintro c K ⟨f1, f2⟩ T hS - hterm n base st v σ r σ' su hv
    rcases GenOK.ensure (f1 T (hS.sub (.refl _) s2.ext.toGrow)) (.refl g) s2.ext.toGrow (base := base) (st := v :: st)
      su hv with ⟨rfl, hs⟩ | hL
    · simp only [Leaves, Bool.not_true, Bool.false_and, Bool.false_eq_true, if_false]
      have := run_term (K := K) f2 hop ⟨v :: st, σ'⟩
      rw [hterm] at this
      exact hs.trans this
    · exact hL

/-- The code for `return` through the clause. -/
theorem retPaths_step {x : Ctx} {jd : JumpDest} {m : M Unit} {sup : Bool → Bool → Bool → Prop}
    {ev : Env W X → Nat → St W → Ans W X} (hm : GenOK x m false sup ev)
    {g g' : G} {u : Unit} (h : genReturnPaths jd m g = .ok (u, g')) (L : List Nat) :
    Step g (jd.rets ++ (jd.mrets ++ L)) g' L fun c K => ∃ tr tm, tr ≤ g'.code.length ∧ tm ≤ g'.code.length ∧
      (∀ s ∈ jd.rets, Site c s tr) ∧ (∀ s ∈ jd.mrets, Site c s tm) ∧
      ∀ T, Site' c K T g g' → (∀ s : S W, Steps K c (.at g.code.length s) (.at g'.code.length s)) ∧
        ((if x.kind = some .block then jd.mrets else jd.rets) ≠ [] →
          ∀ n base st v σ r σ', sup (!loopTop g) false false → andEnsure (ev K n) (.ret v true) σ = some (r, σ') →
          Leaves K c x T g g' base (.at (if x.kind = some .block then tm else tr) ⟨v :: st, σ⟩) r σ') := by
  rw [genReturnPaths_eq] at h
  by_cases hem : (jd.rets.isEmpty && jd.mrets.isEmpty) = true
  · rw [if_pos hem] at h
    obtain ⟨_, rfl⟩ := pureM.1 h
    simp only [Bool.and_eq_true, List.isEmpty_iff] at hem
    obtain ⟨e1, e2⟩ := hem
    rw [e1, e2]
    refine (Step.refl _ _).mono ?_
    intro c K _
    refine ⟨0, 0, Nat.zero_le _, Nat.zero_le _, by simp, by simp, fun T hS => ⟨fun s => Steps.refl _, fun hne => ?_⟩⟩
    split at hne <;> exact absurd rfl hne
  · rw [if_neg hem] at h
    obtain ⟨el, g1, h1, h⟩ := bindM.1 h
    obtain ⟨_, g2, h2, h⟩ := bindM.1 h
    obtain ⟨_, g3, h3, h⟩ := bindM.1 h
    obtain ⟨_, g4, h4, h⟩ := bindM.1 h
    obtain ⟨_, g5, h5, h6⟩ := bindM.1 h
    have s1 := (jumpM_step (W := W) (X := X) (jd.rets ++ (jd.mrets ++ L)) h1).perm
      (L2 := jd.rets ++ (jd.mrets ++ el :: L)) (by
        have := List.perm_middle (a := el) (l₁ := jd.rets ++ jd.mrets) (l₂ := L)
        simpa using this.symm)
    obtain ⟨s2, l2⟩ := patchAllM_step (W := W) (X := X) (jd.mrets ++ el :: L) h2
    have s3 := retPath_step hm rfl h3 (jd.mrets ++ el :: L)
    obtain ⟨s4, l4⟩ := patchAllM_step (W := W) (X := X) (el :: L) h4
    have s5 := retPath_step hm rfl h5 (el :: L)
    have s6 := patchCurM_step (W := W) (X := X) L h6
    have l6 := patchCurM_len h6
    have t5 := s5.trans s6
    have t3 := s3.trans (s4.trans t5)
    refine (s1.trans (s2.trans t3)).mono ?_
    rintro c K ⟨f1, f2, f3, f4, f5, f6⟩
    have k5 := t5.ext.len
    have k3 := t3.ext.len
    refine ⟨g1.code.length, g3.code.length, by omega, by omega, f2, f4, fun T hS => ⟨fun s => ?_, fun hne => ?_⟩⟩
    · have hlen := hS.len
      rw [l6]
      exact run_jmp h1 f1 f6 hS.sz.code (by omega) (by omega) s
    · intro n base st v σ r σ' su hv
      have e2 : Grow g g2 := (s1.ext.trans s2.ext).toGrow
      have e4 : Grow g g4 := e2.trans (s3.ext.trans s4.ext).toGrow
      have e3 : Grow g3 g' := (s4.trans t5).ext.toGrow
      by_cases hk : x.kind = some .block
      · rw [if_pos hk] at hne ⊢
        rw [← l4]
        refine Leaves.up e4 s6.ext.toGrow (f5 T (hS.sub e4 s6.ext.toGrow) hne ?_ n base st v σ r σ'
          (by rw [e4.loopTop]; exact su) hv)
        intro v st σ; unfold retR; rw [if_pos hk]; rfl
      · rw [if_neg hk] at hne ⊢
        rw [← l2]
        refine Leaves.up e2 e3 (f3 T (hS.sub e2 e3) hne ?_ n base st v σ r σ'
          (by rw [e2.loopTop]; exact su) hv)
        intro v st σ; unfold retR; rw [if_neg hk]; rfl

/-! ### The `else` clause -/

/-- The `else` clause: the value of the body is on the stack if it is used. -/
def ElseOK (x : Ctx) (m : M Unit) (uv : Bool) (sup : Bool → Bool → Bool → Prop)
    (ev : Env W X → Nat → Val → St W → Ans W X) : Prop :=
  ∀ g u g', m g = .ok (u, g') → ∀ L, Step g L g' L fun c K => ∀ T, Site' c K T g g' →
    ∀ n emp d base st v σ r σ', sup (!loopTop g) emp d → (emp = true → st = []) → (d = true → st = base) →
      ev K n v σ = some (r, σ') →
      Reach K c x T g g' base (.at g.code.length ⟨if uv then v :: st else st, σ⟩) (Then g' uv st) r σ'

theorem ElseOK.none {x : Ctx} {uv : Bool} {sup : Bool → Bool → Bool → Prop} :
    ElseOK (W := W) (X := X) x (pure ()) uv sup (fun _ _ v σ => some (.val v, σ)) := by
  intro g u g' h L
  obtain ⟨_, rfl⟩ := pureM.1 h
  refine (Step.refl _ _).mono ?_
  intro c K _ T hS n emp d base st v σ r σ' _ _ _ hv
  cases hv
  exact .inl ⟨v, rfl, Steps.refl _⟩

theorem ElseOK.some {x : Ctx} {m : M Unit} {uv : Bool} {sup : Bool → Bool → Bool → Prop}
    {ev : Env W X → Nat → St W → Ans W X} (hm : GenOK x m uv sup ev) :
    ElseOK x (do whenM uv pop; m) uv sup (fun K n _ σ => ev K n σ) := by
  intro g u g' hg L
  obtain ⟨_, g1, h1, h2⟩ := bindM.1 hg
  have s1 : Step (W := W) (X := X) g L g1 L (fun c K => ∀ v st σ,
      Steps K c (.at g.code.length ⟨if uv then v :: st else st, σ⟩) (.at g1.code.length ⟨st, σ⟩)) := by
    cases uv with
    | false =>
      obtain ⟨_, rfl⟩ := pureM.1 h1
      exact (Step.refl _ _).mono fun c K _ v st σ => Steps.refl _
    | true => exact (emitM_step L h1).mono fun c K hA v st σ => Steps.next K hA (emitM_len h1) rfl rfl
  have s2 := hm _ _ _ h2 L
  refine (s1.trans s2).mono ?_
  rintro c K ⟨f1, f2⟩ T hS n emp d base st v σ r σ' su he hd hv
  exact Reach.pre (f1 v st σ) ((f2 T (hS.sub s1.ext.toGrow (.refl _))).last s1.ext.toGrow (.refl g') su he hd hv)

/-! ### Rescue clauses -/

theorem AllOK.std {x : Ctx} {sup : Bool → Bool → Bool → Prop} :
    AllOK (W := W) (X := X) x (emitM GET_CONST_TOP [.o32 x.standardError]) 1 sup
      (fun K _ σ => match K.world.constTop x.standardError σ with
        | (.ok v, σ) => some (.ok [v], σ)
        | (.error x, σ) => some (.error (.raise x), σ)) := by
  intro g u g' h L
  refine (emitM_step L h).mono ?_
  intro c K hA T hS n emp d base st σ a σ' su he hd hv
  have l1 := emitM_len h
  have hx := Steps.exec' K hA ⟨st, σ⟩ l1 (by okop)
  rw [show execOp K GET_CONST_TOP [.o32 x.standardError] g.code.length ⟨st, σ⟩ =
    pushE K (g.code.length + 5) st (K.world.constTop x.standardError σ) from rfl] at hx
  dsimp only at hv
  rcases hc : K.world.constTop x.standardError σ with ⟨e | v, σ1⟩
  · rw [hc] at hv hx
    cases hv
    simp only [pushE, conf_fail] at hx
    have : szOf [Operand.o32 x.standardError] = 5 := rfl
    show Leaves K c x T g g' base _ (.raise e) _
    exact Leaves.err (g1 := g) (g2 := g') hS.ex (.refl g) (emitM_ex h) (.refl g') (by omega) (by omega) hx
  · rw [hc] at hv hx
    cases hv
    exact ⟨rfl, hx⟩

/-- Outcome of the rescue clauses. -/
def RescOut (K : Env W X) (c : Code) (x : Ctx) (T : Tgt) (g0 g' : G) (base : List Val) (k0 : Conf (S W) (R W X))
    (V : Val → St W → Conf (S W) (R W X)) (N : St W → Conf (S W) (R W X)) : Option (Res X) → St W → Prop
  | some r, σ => Reach K c x T g0 g' base k0 V r σ
  | none, σ => Steps K c k0 (N σ)

theorem RescOut.pre {K : Env W X} {c : Code} {x : Ctx} {T : Tgt} {g0 g' : G} {base : List Val}
    {k0 k1 : Conf (S W) (R W X)} {V N} {a} {σ : St W} (hs : Steps K c k0 k1)
    (h : RescOut K c x T g0 g' base k1 V N a σ) : RescOut K c x T g0 g' base k0 V N a σ := by
  cases a with
  | none => exact Steps.trans hs h
  | some r => exact Reach.pre hs h

theorem RescOut.up {K : Env W X} {c : Code} {x : Ctx} {T : Tgt} {g0 g1 g2 g' : G} {base : List Val}
    {k0 : Conf (S W) (R W X)} {V N} {a} {σ : St W} (e0 : Grow g0 g1) (e2 : Grow g2 g')
    (h : RescOut K c x T g1 g2 base k0 V N a σ) : RescOut K c x T g0 g' base k0 V N a σ := by
  cases a with
  | none => exact h
  | some r => exact Reach.up e0 e2 h

/-- Rescue clauses: the exception is on the stack. -/
def RescuesOK (x : Ctx) (m : Option Nat → M (Option Nat × List Nat)) (isNil uv : Bool) (sup : Bool → Bool → Bool → Prop)
    (ev : Env W X → Nat → Val → St W → Option (Option (Res X) × St W)) : Prop :=
  ∀ prev g r g', m prev g = .ok (r, g') → ∀ L,
    Step g (prev.toList ++ L) g' (r.1.toList ++ (r.2 ++ L)) fun c K => ∀ T te tn, Site' c K T g g' →
    (∀ s ∈ r.2, Site c s te) → te ≤ c.length → (∀ s ∈ r.1.toList, Site c s tn) → tn ≤ c.length →
    (∀ s ∈ prev.toList, Site c s (if isNil then tn else g.code.length)) ∧
    ∀ n emp d base st v σ a σ', sup (!loopTop g) emp d → (emp = true → st = []) → (d = true → st = base) →
      ev K n v σ = some (a, σ') →
      RescOut K c x T g g' base (.at (if isNil then tn else g.code.length) ⟨v :: st, σ⟩) (AtEnd te uv st)
        (fun σ => .at tn ⟨v :: st, σ⟩) a σ'

theorem RescuesOK.nil {x : Ctx} {uv : Bool} {sup : Bool → Bool → Bool → Prop} :
    RescuesOK (W := W) (X := X) x (fun prev => pure (prev, [])) true uv sup (fun _ _ _ σ => some (none, σ)) := by
  intro next g r g' h L
  obtain ⟨rfl, rfl⟩ := pureM.1 h
  refine ((Step.refl g (next.toList ++ L)).perm (L2 := next.toList ++ ([] ++ L)) (by simp)).mono ?_
  intro c K _ T te tn hS _ _ htn _
  refine ⟨fun s hs => htn s hs, ?_⟩
  intro n emp d base st v σ a σ' su _ _ hv
  cases hv
  exact Steps.refl _

/-- The assignment of the exception. -/
def rescAssign (x : Ctx) : Option Var → M Unit
  | some t => emitSetVar x t
  | none => pop

/-- Its effect. -/
def rescSet (w : World W X) (x : Ctx) (t : Option Var) (v : Val) (σ : St W) : St W :=
  match t with
  | some t => setVar w x v σ t
  | none => σ

theorem RescuesOK.cons {x : Ctx} (hx : CtxOK x) {me : M Unit} {len : Nat} {t : Option Var} {mb : M Unit}
    {mr : Option Nat → M (Option Nat × List Nat)}
    {isNil uv : Bool} {supe supb supr : Bool → Bool → Bool → Prop}
    {eve : Env W X → Nat → St W → Option (Except (Res X) (List Val) × St W)}
    {evb : Env W X → Nat → St W → Ans W X}
    {evr : Env W X → Nat → Val → St W → Option (Option (Res X) × St W)}
    (he : AllOK x me len supe eve) (hb : GenOK x mb uv supb evb) (hr : RescuesOK x mr isNil uv supr evr) :
    RescuesOK x (fun prev => do
        patchOpt prev
        dup 1
        me
        emitM RESCUE [u32 len]
        let p ← jumpM JMP_F
        rescAssign x t
        mb
        let e ← jumpM JMP
        let (prev, ends) ← mr (some p)
        pure (prev, e :: ends)) false uv
      (fun lp e d => len < 2 ^ 32 ∧ supe lp false false ∧ supb lp e d ∧ supr lp e d)
      (fun K n v σ => match eve K n σ with
        | some (.ok cs, σ) =>
          if K.world.rescues v cs σ then
            match evb K n (rescSet K.world x t v σ) with
            | some (r, σ) => some (some r, σ)
            | none => none
          else evr K n v σ
        | some (.error r, σ) => some (some r, σ)
        | none => none) := by
  intro prev g r g' hg L
  obtain ⟨_, g1, h1, hg⟩ := bindM.1 hg
  obtain ⟨_, g2, h2, hg⟩ := bindM.1 hg
  obtain ⟨_, g3, h3, hg⟩ := bindM.1 hg
  obtain ⟨_, g4, h4, hg⟩ := bindM.1 hg
  obtain ⟨p, g5, h5, hg⟩ := bindM.1 hg
  obtain ⟨_, g6, h6, hg⟩ := bindM.1 hg
  obtain ⟨_, g7, h7, hg⟩ := bindM.1 hg
  obtain ⟨e, g8, h8, hg⟩ := bindM.1 hg
  obtain ⟨⟨prev', ends⟩, g9, h9, hg⟩ := bindM.1 hg
  obtain ⟨rfl, rfl⟩ := pureM.1 hg
  obtain ⟨s1, l1, -⟩ := patchOpt_step (W := W) (X := X) L h1
  have s2 := emitM_step (W := W) (X := X) L h2
  have s3 := he _ _ _ h3 L
  have s4 := emitM_step (W := W) (X := X) L h4
  have s5 := jumpM_step (W := W) (X := X) L h5
  have s6 : Step (W := W) (X := X) g5 (p :: L) g6 (p :: L) (fun c K => ∀ v st σ,
      Steps K c (.at g5.code.length ⟨v :: st, σ⟩)
        (.at g6.code.length ⟨st, rescSet K.world x t v σ⟩)) := by
    cases t with
    | none => exact (emitM_step _ h6).mono fun c K hA v st σ => Steps.next K hA (emitM_len h6) rfl rfl
    | some t => exact setVar_step hx _ h6
  have s7 := hb _ _ _ h7 (p :: L)
  have s8 := (jumpM_step (W := W) (X := X) (p :: L) h8).perm (L2 := p :: e :: L) (List.Perm.swap _ _ _)
  have s9 := (hr _ _ _ _ h9 (e :: L)).perm (L2 := prev'.toList ++ ((e :: ends) ++ L))
    (by simpa using List.perm_middle.append_left prev'.toList)
  have s8 : Step (W := W) (X := X) g7 (p :: L) g8 ((some p).toList ++ e :: L) _ := s8
  have t8 := s8.trans s9
  have t7 := s7.trans t8
  have t4 := s4.trans (s5.trans (s6.trans t7))
  have t3 := s3.trans t4
  refine (s1.trans (s2.trans t3)).mono ?_
  rintro c K ⟨f1, f2, f3, f4, f5, f6, f7, f8, f9⟩ T te tn hS hends hte hnext htn
  refine ⟨by simpa using f1, ?_⟩
  intro n emp d base st v σ a σ' ⟨hl32, su1, su2, su3⟩ hem hd hv
  have hlen := hS.len
  have k5 := (s6.trans t7).ext.len
  have k8 := s9.ext.len
  have e2 : Grow g g2 := (s1.ext.trans s2.ext).toGrow
  have e6 : Grow g g6 := e2.trans (s3.ext.trans (s4.ext.trans (s5.ext.trans s6.ext))).toGrow
  have e8 : Grow g g8 := e6.trans (s7.ext.trans s8.ext).toGrow
  obtain ⟨hp, Hr⟩ := f9 T te tn (hS.sub e8 (.refl _)) (fun s hs => hends s (by simp [hs])) hte hnext htn
  have hp := hp p (by simp)
  dsimp only at hv
  simp only [Bool.false_eq_true, if_false]
  have a2 : Steps K c (.at g.code.length ⟨v :: st, σ⟩) (.at g2.code.length ⟨v :: v :: st, σ⟩) := by
    rw [← l1]
    refine Steps.next K f2 (emitM_len h2) rfl ?_
    rw [u32, exec_dup, if_pos (by simp)]; simp
  refine RescOut.pre a2 ?_
  rcases hev : eve K n σ with _ | ⟨b, σ1⟩
  · rw [hev] at hv; cases hv
  rw [hev] at hv
  have hA := (f3 T (hS.sub e2 t4.ext.toGrow)).first e2 t4.ext.toGrow (base := base) (st := v :: v :: st) su1 ff ff hev
  cases b with
  | error r => cases hv; exact .inr hA
  | ok cs =>
    obtain ⟨hcl, hs⟩ := hA
    refine RescOut.pre hs ?_
    have a4 : Steps K c (ThenAll g3 (v :: v :: st) cs σ1)
        (.at g4.code.length ⟨Value.bool (K.world.rescues v cs σ1) :: v :: st, σ1⟩) := by
      refine Steps.next K f4 (emitM_len h4) (by okop) ?_
      rw [u32, exec_rescue, toNat_ofNat32 hl32]
      dsimp only
      rw [← hcl, drop_rev_app, take_rev_app, List.reverse_reverse, if_pos (by simp)]
    refine RescOut.pre a4 ?_
    have a5 := run_jf (K := K) h5 f5 hp hS.sz.code (by omega) (by cases isNil <;> simp <;> omega)
      (Value.bool (K.world.rescues v cs σ1)) (v :: st) σ1
    rw [truthy_bool] at a5
    refine RescOut.pre a5 ?_
    dsimp only at hv
    cases hres : K.world.rescues v cs σ1 with
    | true =>
      rw [hres, if_pos rfl] at hv
      rw [if_pos rfl]
      rcases hbv : evb K n (rescSet K.world x t v σ1) with _ | ⟨r, σ2⟩
      · rw [hbv] at hv; cases hv
      rw [hbv] at hv
      cases hv
      refine RescOut.pre (f6 v st σ1) ?_
      refine ((f7 T (hS.sub e6 t8.ext.toGrow)).last e6 t8.ext.toGrow su2 hem hd hbv).post fun w => ?_
      exact run_jmp h8 f8 (hends e (by simp)) hS.sz.code (by omega) hte _
    | false =>
      rw [hres, if_neg (by simp)] at hv
      rw [if_neg (by simp)]
      exact (Hr n emp d base st v σ1 a σ' (by rw [e8.loopTop]; exact su3) hem hd hv).up e8 (.refl _)

/-! ### The whole statement -/

/-- Inside a `begin`. -/
def inBegin (he : Bool) (g : G) : G := { g with jumps := ⟨he, [], []⟩ :: g.jumps }

theorem popJump_ok {he : Bool} {g g1 g2 : G} {jd : JumpDest} (e : Ext (inBegin he g) g1)
    (h : popJumpDest g1 = .ok (jd, g2)) :
    g1.jumps = jd :: g.jumps ∧ g2 = { g1 with jumps := g.jumps } ∧ Ext g g2 ∧
      ∀ s ∈ jd.rets ++ jd.mrets, g.code.length < s := by
  have hl := e.jumps
  unfold popJumpDest at h
  have hin : (inBegin he g).jumps = ⟨he, [], []⟩ :: g.jumps := rfl
  rw [hin] at hl
  generalize hb : g1.jumps = b at hl h
  cases hl with
  | @cons _ l' _ hl =>
    obtain ⟨h1, ⟨E, h2, h3⟩, F, h4, h5⟩ := hl
    dsimp only at h
    cases h
    refine ⟨rfl, rfl, ⟨⟨e.len, e.loops, HeadExt.refl (JumpExt.refl _ _) _, e.ex⟩, e.consts, e.case1, e.case2⟩, ?_⟩
    intro s hs
    rw [h2, h4] at hs
    simp only [List.nil_append, List.mem_append] at hs
    rcases hs with hs | hs
    · exact (h3 s hs).1
    · exact (h5 s hs).1

theorem Leaves.err' {K : Env W X} {c : Code} {x : Ctx} {T : Tgt} {g0 g1 g2 g' : G} {base : List Val}
    {k0 : Conf (S W) (R W X)} {σ : St W} {e : X} {pe : Nat} (hB : ExB g0) (e0 : Grow g0 g1) (h12 : g2.ex = g1.ex)
    (e2 : Grow g2 g') (h0 : g0.code.length < pe) (h1 : g1.code.length ≤ pe) (h2 : pe ≤ g2.code.length)
    (hs : Steps K c k0 (failC K pe e σ)) : Leaves K c x T g0 g' base k0 (.raise e) σ := by
  have := e0.len; have := e2.len
  refine ⟨pe, by omega, by omega, ?_, hs⟩
  obtain ⟨l, he, hl⟩ := e2.ex
  have hB1 := hB.mono e0
  intro en hen
  rw [he, h12] at hen
  rcases List.mem_append.1 hen with hen | hen
  · have := hB1 en hen; exact include_early (by omega)
  · have := hl en hen; exact include_late (by omega)

/-- The body without rescue clauses: what the body gives the whole. -/
theorem begin_body {K : Env W X} {c : Code} {x : Ctx} {T : Tgt} {tr tm : Nat} {he : Bool} {g g1 g' : G} {jd : JumpDest}
    {base : List Val} {k0 : Conf (S W) (R W X)} {ens : St W → Ans W X} {q : Res X} {σ1 : St W} {r : Res X} {σ' : St W}
    (hj : g1.jumps = jd :: g.jumps)
    (hret : (if x.kind = some .block then jd.mrets else jd.rets) ≠ [] → ∀ st v σ r σ',
      andEnsure ens (.ret v true) σ = some (r, σ') →
        Leaves K c x T g g' base (.at (if x.kind = some .block then tm else tr) ⟨v :: st, σ⟩) r σ')
    (hL : Leaves K c x ⟨T.brk, T.nxt, tr, tm⟩ (inBegin he g) g1 base k0 q σ1)
    (hraise : ∀ e, q = .raise e → Leaves K c x T g g' base k0 r σ')
    (hv : (match q with
      | .ret v crossed =>
        if he && (false || !crossed) then andEnsure ens (.ret v true) σ1 else some (.ret v true, σ1)
      | q => some (q, σ1)) = some (r, σ')) :
    Leaves K c x T g g' base k0 r σ' := by
  cases q with
  | val v => exact hL.elim
  | raise e => exact hraise e rfl
  | brk v => cases hv; exact hL
  | nxt v => cases hv; exact hL
  | ret v cr =>
    have hen : ensured (inBegin he g) = he := rfl
    simp only [Leaves, hen] at hL
    dsimp only at hv
    by_cases hc : (!cr && he) = true
    · rw [if_pos hc] at hL
      rw [if_pos (by simp at hc ⊢; exact ⟨hc.2, hc.1⟩)] at hv
      obtain ⟨hne, st', hs⟩ := hL
      have hleft : leftOf x g1 = if x.kind = some .block then jd.mrets else jd.rets := by
        unfold leftOf mretsOf retsOf; rw [hj]
      rw [hleft] at hne
      exact Leaves.pre hs (hret hne st' v σ1 r σ' hv)
    · rw [if_neg hc] at hL
      rw [if_neg (by simp at hc ⊢; intro h1; cases cr <;> simp_all)] at hv
      cases hv
      simpa only [Leaves, Bool.not_true, Bool.false_and, Bool.false_eq_true, if_false] using hL

theorem pushJump_book {he : Bool} {g : G} (L : List Nat) :
    Stp (W := W) (X := X) g L (inBegin he g) L (fun _ _ => True) :=
  Stp.book rfl (by unfold pend inBegin; simp) fun K f => ⟨f.ex, f.consts, f.case1, f.case2⟩

theorem popJump_book {g g1 : G} {jd : JumpDest} (L : List Nat) (hj : g1.jumps = jd :: g.jumps) :
    Stp (W := W) (X := X) g1 L { g1 with jumps := g.jumps } (jd.rets ++ (jd.mrets ++ L)) (fun _ _ => True) := by
  refine Stp.book rfl ?_ fun K f => ⟨f.ex, f.consts, f.case1, f.case2⟩
  unfold pend
  rw [hj]
  simp only [List.flatMap_cons]
  generalize g1.loops.flatMap (fun l => l.escape.map (·.1)) = A, g.jumps.flatMap (fun d => d.rets ++ d.mrets) = B
  have h1 : (L ++ A ++ (jd.rets ++ jd.mrets)).Perm ((jd.rets ++ jd.mrets) ++ (L ++ A)) := List.perm_append_comm
  have := h1.append_right B
  simpa using this

theorem GenOK.begin0 {x : Ctx} {mb ml mn : M Unit} {he uv : Bool}
    {supb supl supn : Bool → Bool → Bool → Prop} {evb evn : Env W X → Nat → St W → Ans W X}
    {evl : Env W X → Nat → Val → St W → Ans W X}
    (hb : GenOK x mb uv supb evb) (hl : ElseOK x ml uv supl evl) (hn : GenOK x mn false supn evn) :
    GenOK x (do
        pushJumpDest he
        mb
        let jd ← popJumpDest
        ml
        genReturnPaths jd mn
        mn) uv (fun lp e d => supb lp e d ∧ supl lp e d ∧ supn lp false false)
      (fun K n σ => beginSem K.world false he (evn K n) (evb K n σ) (evl K n) none) := by
  intro g u g' hg L
  obtain ⟨_, g0, h0, hg⟩ := bindM.1 hg
  have hg0 : g0 = inBegin he g := by cases h0; rfl
  subst hg0
  obtain ⟨_, g1, h1, hg⟩ := bindM.1 hg
  obtain ⟨jd, g2, h2, hg⟩ := bindM.1 hg
  obtain ⟨_, g3, h3, hg⟩ := bindM.1 hg
  obtain ⟨_, g4, h4, h5⟩ := bindM.1 hg
  have s1 := hb _ _ _ h1 L
  obtain ⟨hj, hg2, e2, -⟩ := popJump_ok s1.ext h2
  have b0 := pushJump_book (W := W) (X := X) (he := he) (g := g) L
  have b2 := popJump_book (W := W) (X := X) L hj
  rw [← hg2] at b2
  have s3 := hl _ _ _ h3 (jd.rets ++ (jd.mrets ++ L))
  have s4 := retPaths_step hn h4 L
  have s5 := hn _ _ _ h5 L
  have t4 := s4.trans s5
  have t3 := s3.trans t4
  refine ⟨(b0.trans (s1.stp.trans (b2.trans t3.stp))).mono ?_, e2.trans t3.ext⟩
  rintro c K ⟨-, f1, -, f3, ⟨tr, tm, hr1, hr2, hr3, hr4, f4⟩, f5⟩ T hS n emp d base st σ r σ' ⟨su1, su2, su3⟩ hem hd hv
  have hlen := hS.len
  have k5 := s5.ext.len
  have k3 := t3.ext.len
  have l2 : g2.code.length = g1.code.length := by rw [hg2]
  have e3 : Grow g g3 := (e2.trans s3.ext).toGrow
  have e4 : Grow g g4 := (e2.trans (s3.ext.trans s4.ext)).toGrow
  obtain ⟨hskip, hret⟩ := f4 T (hS.sub e3 s5.ext.toGrow)
  have hS1 : Site' c K ⟨T.brk, T.nxt, tr, tm⟩ (inBegin he g) g1 := by
    refine ⟨hS.sz, by omega, hS.ex, ?_⟩
    have hlo : g2.loops = g1.loops := by rw [hg2]
    refine ⟨fun s hs hlt => hS.res.brk s (t3.ext.toGrow.esc _ (by unfold escOf at hs ⊢; rw [hlo]; exact hs)) hlt,
      fun s hs hlt => hS.res.nxt s (t3.ext.toGrow.esc _ (by unfold escOf at hs ⊢; rw [hlo]; exact hs)) hlt,
      fun s hs _ => hr3 s (by unfold retsOf at hs; rw [hj] at hs; exact hs),
      fun s hs _ => hr4 s (by unfold mretsOf at hs; rw [hj] at hs; exact hs),
      hS.res.bb, hS.res.bn, by show tr ≤ _; omega, by show tm ≤ _; omega⟩
  have D1 := f1 _ hS1
  have fin : ∀ w σ1, andEnsure (evn K n) (.val w) σ1 = some (r, σ') →
      Reach K c x T g g' base (Then g3 uv st w σ1) (Then g' uv st) r σ' := by
    intro w σ1 hw
    refine Reach.pre (hskip _) ?_
    rcases GenOK.ensure (f5 T (hS.sub e4 (.refl _))) e4 (.refl g') (base := base)
      (st := if uv then w :: st else st) su3 hw with ⟨rfl, hs⟩ | hL
    · exact .inl ⟨w, rfl, hs⟩
    · exact .inr hL
  dsimp only at hv
  unfold beginSem at hv
  rcases hbv : evb K n σ with _ | ⟨q, σ1⟩
  · rw [hbv] at hv; cases hv
  rw [hbv] at hv
  rcases D1 n emp d base st σ q σ1 su1 hem hd hbv with ⟨v, rfl, hs⟩ | hL
  · refine Reach.pre hs ?_
    dsimp only at hv
    rcases hlv : evl K n v σ1 with _ | ⟨q2, σ2⟩
    · rw [hlv] at hv; cases hv
    rw [hlv] at hv
    have R3 := f3 T (hS.sub e2.toGrow t4.ext.toGrow) n emp d base st v σ1 q2 σ2
      (by rw [e2.toGrow.loopTop]; exact su2) hem hd hlv
    rw [l2] at R3
    rcases R3 with ⟨w, rfl, hs2⟩ | hL
    · exact Reach.pre hs2 (fin w σ2 hv)
    · have hL := hL.up e2.toGrow t4.ext.toGrow
      cases q2 with
      | val v => exact hL.elim
      | raise e => cases hv; exact .inr hL
      | brk v => cases hv; exact .inr hL
      | nxt v => cases hv; exact .inr hL
      | ret v cr => cases hv; exact .inr hL
  · refine .inr (begin_body (ens := evn K n) (σ1 := σ1) hj ?_ hL ?_ ?_)
    · intro hne st v σ r σ' hv
      exact Leaves.up e3 s5.ext.toGrow (hret hne n base st v σ r σ' (by rw [e3.loopTop]; exact su3) hv)
    · rintro e rfl
      cases hv
      obtain ⟨pe, p1, p2, p3, p4⟩ := hL
      refine Leaves.up (g1 := g) (g2 := g2) (.refl g) t3.ext.toGrow ⟨pe, p1, by omega, ?_, p4⟩
      rw [hg2]; exact p3
    · cases q with
      | val v => exact hL.elim
      | raise e => exact hv
      | brk v => exact hv
      | nxt v => exact hv
      | ret v cr => exact hv

/-- `pushEx`. -/
theorem pushEx_book {g : G} (en : Entry) (L : List Nat) :
    Stp (W := W) (X := X) g L { g with ex := g.ex ++ [en] } L (fun _ K => g.ex ++ [en] <+: K.ex) :=
  (Stp.book (g := g) (g' := { g with ex := g.ex ++ [en] }) (L := L) rfl (.refl _)
    fun K f => ⟨(List.prefix_append _ _).trans f.ex, f.consts, f.case1, f.case2⟩).monoFit
    fun c K f _ _ => f.ex

theorem Leaves.pushEx {K : Env W X} {c : Code} {x : Ctx} {T : Tgt} {g0 g' : G} {base : List Val}
    {k0 : Conf (S W) (R W X)} {r : Res X} {σ : St W} {en : Entry} (h0 : en.stop ≤ g0.code.length)
    (h : Leaves K c x T g0 g' base k0 r σ) : Leaves K c x T g0 { g' with ex := g'.ex ++ [en] } base k0 r σ := by
  cases r with
  | val v => exact h
  | raise e =>
    obtain ⟨pe, p1, p2, p3, p4⟩ := h
    refine ⟨pe, p1, p2, ?_, p4⟩
    intro e' he'
    rcases List.mem_append.1 he' with he' | he'
    · exact p3 e' he'
    · simp only [List.mem_singleton] at he'
      subst he'
      exact include_early (by omega)
  | brk v => exact h
  | nxt v => exact h
  | ret v cr => exact h

theorem GenOK.begin1 {x : Ctx} {mb ml mn : M Unit} {mr : Option Nat → M (Option Nat × List Nat)} {he uv : Bool}
    {supb supl supn supr : Bool → Bool → Bool → Prop} {evb evn : Env W X → Nat → St W → Ans W X}
    {evl : Env W X → Nat → Val → St W → Ans W X}
    {evr : Env W X → Nat → Val → St W → Option (Option (Res X) × St W)}
    (hb : GenOK x mb uv supb evb) (hr : RescuesOK x mr false uv supr evr)
    (hl : ElseOK x ml uv supl evl) (hn : GenOK x mn false supn evn) :
    GenOK x (do
        let body_start ← curM
        pushJumpDest he
        mb
        let jd ← popJumpDest
        let body_end ← curM
        let else_dest ← jumpM JMP
        let dest ← curM
        let (prev, ends) ← mr none
        patchOpt prev
        mn
        emitM THROW []
        patchCurM else_dest
        ml
        genReturnPaths jd mn
        patchAllM ends
        pushEx body_start body_end dest
        mn) uv (fun lp e d => e = true ∧ supb lp e d ∧ supr lp e d ∧ supl lp e d ∧ supn lp false false)
      (fun K n σ => beginSem K.world false he (evn K n) (evb K n σ) (evl K n) (some (evr K n))) := by
  intro g u g' hg L
  obtain ⟨bs, gc, hcu, hg⟩ := bindM.1 hg
  obtain ⟨hcu1, hcu2⟩ := curM_ok hcu
  have hcu1 := hcu1.symm
  subst hcu1 hcu2
  obtain ⟨_, g0, h0, hg⟩ := bindM.1 hg
  have hg0 : g0 = inBegin he g := by cases h0; rfl
  subst hg0
  obtain ⟨_, g1, h1, hg⟩ := bindM.1 hg
  obtain ⟨jd, g2, h2, hg⟩ := bindM.1 hg
  obtain ⟨be, gc, hcu, hg⟩ := bindM.1 hg
  obtain ⟨hcu1, hcu2⟩ := curM_ok hcu
  have hcu1 := hcu1.symm
  subst hcu1 hcu2
  obtain ⟨ed, g3, h3, hg⟩ := bindM.1 hg
  obtain ⟨dest, gc, hcu, hg⟩ := bindM.1 hg
  obtain ⟨hcu1, hcu2⟩ := curM_ok hcu
  have hcu1 := hcu1.symm
  subst hcu1 hcu2
  obtain ⟨⟨prev, ends⟩, g4, h4, hg⟩ := bindM.1 hg
  dsimp only at hg
  obtain ⟨_, g5, h5, hg⟩ := bindM.1 hg
  obtain ⟨_, g6, h6, hg⟩ := bindM.1 hg
  obtain ⟨_, g7, h7, hg⟩ := bindM.1 hg
  obtain ⟨_, g8, h8, hg⟩ := bindM.1 hg
  obtain ⟨_, g9, h9, hg⟩ := bindM.1 hg
  obtain ⟨_, g10, h10, hg⟩ := bindM.1 hg
  obtain ⟨_, gA, h11, hg⟩ := bindM.1 hg
  obtain ⟨_, gB, h12, h13⟩ := bindM.1 hg
  have hgB : gB = { gA with ex := gA.ex ++ [⟨g.code.length, g2.code.length, g3.code.length⟩] } := by cases h12; rfl
  have s1 := hb _ _ _ h1 L
  obtain ⟨hj, hg2, e2, -⟩ := popJump_ok s1.ext h2
  have b0 := pushJump_book (W := W) (X := X) (he := he) (g := g) L
  have b2 := popJump_book (W := W) (X := X) L hj
  rw [← hg2] at b2
  have s3 := jumpM_step (W := W) (X := X) (jd.rets ++ (jd.mrets ++ L)) h3
  obtain ⟨l3, l3'⟩ := jumpM_len h3
  have s4 : Step (W := W) (X := X) g3 (ed :: (jd.rets ++ (jd.mrets ++ L))) g4
    (prev.toList ++ (ends ++ ed :: (jd.rets ++ (jd.mrets ++ L)))) _ := hr _ _ _ _ h4 _
  obtain ⟨s5, l5, -⟩ := patchOpt_step (W := W) (X := X) (ends ++ ed :: (jd.rets ++ (jd.mrets ++ L))) h5
  have s6 := hn _ _ _ h6 (ends ++ ed :: (jd.rets ++ (jd.mrets ++ L)))
  have s7 := (emitM_step (W := W) (X := X) (ends ++ ed :: (jd.rets ++ (jd.mrets ++ L))) h7).perm
    (L2 := ed :: (ends ++ (jd.rets ++ (jd.mrets ++ L)))) List.perm_middle
  have l7 := emitM_len h7
  have s8 := patchCurM_step (W := W) (X := X) (ends ++ (jd.rets ++ (jd.mrets ++ L))) h8
  have l8 := patchCurM_len h8
  have s9 := (hl _ _ _ h9 (ends ++ (jd.rets ++ (jd.mrets ++ L)))).perm (L2 := jd.rets ++ (jd.mrets ++ (ends ++ L))) (by
    have : (ends ++ (jd.rets ++ jd.mrets)).Perm ((jd.rets ++ jd.mrets) ++ ends) := List.perm_append_comm
    simpa using this.append_right L)
  have s10 := retPaths_step hn h10 (ends ++ L)
  obtain ⟨s11, l11⟩ := patchAllM_step (W := W) (X := X) L h11
  have b12 := pushEx_book (W := W) (X := X) (g := gA) ⟨g.code.length, g2.code.length, g3.code.length⟩ L
  rw [← hgB] at b12
  have s13 := hn _ _ _ h13 L
  -- chains
  have t10 := s10.trans s11
  have t9 := s9.trans t10
  have t8 := s8.trans t9
  have t7 := s7.trans t8
  have t6 := s6.trans t7
  have t5 := s5.trans t6
  have t4 := s4.trans t5
  have t3 := s3.trans t4
  have lB : gB.code.length = gA.code.length := by rw [hgB]
  have l2 : g2.code.length = g1.code.length := by rw [hg2]
  have k4 := t4.ext.len
  have kg2 : g.code.length ≤ g2.code.length := e2.len
  have eA := e2.trans t3.ext
  have eB : Ext g gB := by
    rw [hgB]
    refine ⟨⟨eA.len, eA.loops, eA.jumps, ?_⟩, eA.consts, eA.case1, eA.case2⟩
    obtain ⟨l, hl1, hl2⟩ := eA.ex
    refine ⟨l ++ [⟨g.code.length, g2.code.length, g3.code.length⟩], by simp [hl1], ?_⟩
    intro en hen
    rcases List.mem_append.1 hen with hen | hen
    · exact hl2 en hen
    · simp only [List.mem_singleton] at hen
      subst hen
      show g.code.length ≤ g.code.length ∧ g2.code.length < gA.code.length
      omega
  refine ⟨(b0.trans (s1.stp.trans (b2.trans (t3.stp.trans (b12.trans s13.stp))))).mono ?_, eB.trans s13.ext⟩
  rintro c K ⟨-, f1, -, ⟨f3, f4, f5, f6, f7, f8, f9, ⟨tr, tm, hr1, hr2, hr3, hr4, f10⟩, f11⟩, f12, f13⟩ T hS
    n emp d base st σ r σ' ⟨hE, su1, su2, su3, su4⟩ hem hd hv
  have hst := hem hE
  have hlen := hS.len
  have k13 := s13.ext.len
  have k10 := t10.ext.len
  have kk9 := s9.ext.len
  have kk8 := t8.ext.len
  have k6 := t6.ext.len
  have k11 := s11.ext.len
  have e3 : Grow g g3 := (e2.trans s3.ext).toGrow
  -- the part between the jump over the clauses and the entry in the exception table
  have hSA : Site' c K T g3 gA := by
    refine ⟨hS.sz, by omega, hS.ex.mono e3, ?_⟩
    have k3 := e3.len
    have hlo : gB.loops = gA.loops := by rw [hgB]
    have hjo : gB.jumps = gA.jumps := by rw [hgB]
    have eg := s13.ext.toGrow
    exact ⟨fun s hs hlt => hS.res.brk s (eg.esc _ (by unfold escOf at hs ⊢; rw [hlo]; exact hs)) (by omega),
      fun s hs hlt => hS.res.nxt s (eg.esc _ (by unfold escOf at hs ⊢; rw [hlo]; exact hs)) (by omega),
      fun s hs hlt => hS.res.ret s (eg.rets _ (by unfold retsOf at hs ⊢; rw [hjo]; exact hs)) (by omega),
      fun s hs hlt => hS.res.mret s (eg.mrets _ (by unfold mretsOf at hs ⊢; rw [hjo]; exact hs)) (by omega),
      hS.res.bb, hS.res.bn, hS.res.br, hS.res.bm⟩
  have wrap2 : ∀ k0 r σ', Leaves K c x T g2 gA base k0 r σ' → Leaves K c x T g g' base k0 r σ' := by
    intro k0 r σ' hL
    refine Leaves.up e2.toGrow s13.ext.toGrow ?_
    rw [hgB]
    exact hL.pushEx (Nat.le_refl _)
  have wrap : ∀ k0 r σ', Leaves K c x T g3 gA base k0 r σ' → Leaves K c x T g g' base k0 r σ' :=
    fun k0 r σ' hL => wrap2 _ _ _ (hL.up s3.ext.toGrow (.refl _))
  have m4 : Grow g3 g4 := s4.ext.toGrow
  have m5 : Grow g3 g5 := m4.trans s5.ext.toGrow
  have m6 : Grow g3 g6 := m5.trans s6.ext.toGrow
  have m8 : Grow g3 g8 := m6.trans (s7.ext.trans s8.ext).toGrow
  have m9 : Grow g3 g9 := m8.trans s9.ext.toGrow
  obtain ⟨hskip, hret⟩ := f10 T (hSA.sub m9 s11.ext.toGrow)
  have lt3 : loopTop g3 = loopTop g := e3.loopTop
  have hS1 : Site' c K ⟨T.brk, T.nxt, tr, tm⟩ (inBegin he g) g1 := by
    refine ⟨hS.sz, by omega, hS.ex, ?_⟩
    have hlo : g2.loops = g1.loops := by rw [hg2]
    have hloB : gB.loops = gA.loops := by rw [hgB]
    have esc2 : ∀ s, s ∈ escOf g1 → s ∈ escOf g' := by
      intro s hs
      refine s13.ext.toGrow.esc _ ?_
      have : s ∈ escOf gA := t3.ext.toGrow.esc _ (by unfold escOf at hs ⊢; rw [hlo]; exact hs)
      unfold escOf at this ⊢; rw [hloB]; exact this
    refine ⟨fun s hs hlt => hS.res.brk s (esc2 _ hs) hlt, fun s hs hlt => hS.res.nxt s (esc2 _ hs) hlt,
      fun s hs _ => hr3 s (by unfold retsOf at hs; rw [hj] at hs; exact hs),
      fun s hs _ => hr4 s (by unfold mretsOf at hs; rw [hj] at hs; exact hs),
      hS.res.bb, hS.res.bn, by show tr ≤ _; omega, by show tm ≤ _; omega⟩
  have D1 := f1 _ hS1
  -- after a value
  have fin : ∀ w σ1, andEnsure (evn K n) (.val w) σ1 = some (r, σ') →
      Reach K c x T g g' base (.at gA.code.length ⟨if uv then w :: st else st, σ1⟩) (Then g' uv st) r σ' := by
    intro w σ1 hw
    rw [← lB]
    rcases GenOK.ensure (f13 T (hS.sub eB.toGrow (.refl _))) eB.toGrow (.refl g') (base := base)
      (st := if uv then w :: st else st) su4 hw with ⟨rfl, hs⟩ | hL
    · exact .inl ⟨w, rfl, hs⟩
    · exact .inr hL
  have finish' : ∀ k0 (q : Res X) σ1, Reach K c x T g3 gA base k0 (AtEnd gA.code.length uv st) q σ1 →
      finish false (evn K n) (some (q, σ1)) = some (r, σ') → Reach K c x T g g' base k0 (Then g' uv st) r σ' := by
    intro k0 q σ1 hR hf
    rcases hR with ⟨w, rfl, hs⟩ | hL
    · exact Reach.pre hs (fin w σ1 hf)
    · have hL := wrap _ _ _ hL
      cases q with
      | val v => exact hL.elim
      | raise e => cases hf; exact .inr hL
      | brk v => cases hf; exact .inr hL
      | nxt v => cases hf; exact .inr hL
      | ret v cr => cases hf; exact .inr hL
  have lA : gA.code.length = g10.code.length := l11
  dsimp only at hv
  unfold beginSem at hv
  rcases hbv : evb K n σ with _ | ⟨q, σ1⟩
  · rw [hbv] at hv; cases hv
  rw [hbv] at hv
  rcases D1 n emp d base st σ q σ1 su1 hem hd hbv with ⟨v, rfl, hs⟩ | hL
  · refine Reach.pre hs ?_
    dsimp only at hv
    have a3 : Steps K c (Then g1 uv st v σ1) (.at g8.code.length ⟨if uv then v :: st else st, σ1⟩) := by
      unfold Then
      rw [← l2, l8]
      exact run_jmp h3 f3 f8 hS.sz.code (by omega) (by omega) _
    refine Reach.pre a3 ?_
    rcases hlv : evl K n v σ1 with _ | ⟨q2, σ2⟩
    · rw [hlv] at hv; cases hv
    rw [hlv] at hv
    have R3 := (f9 T (hSA.sub m8 t10.ext.toGrow) n emp d base st v σ1 q2 σ2
      (by rw [m8.loopTop, lt3]; exact su3) hem hd hlv).up m8 t10.ext.toGrow
    refine finish' _ q2 σ2 (R3.post fun w => ?_) hv
    unfold AtEnd
    rw [lA]
    exact hskip _
  · by_cases hq : ∃ e, q = .raise e
    · obtain ⟨e, rfl⟩ := hq
      obtain ⟨pe, p1, p2, p3, p4⟩ := hL
      replace hv : finishRescue K.world false (evn K n) (K.world.exc e σ1).1
        (evr K n (K.world.exc e σ1).1 (K.world.exc e σ1).2) = some (r, σ') := hv
      -- the handler
      have hfind : K.ex.find? (·.include pe) = some ⟨g.code.length, g2.code.length, g3.code.length⟩ := by
        obtain ⟨rest, hrest⟩ := f12
        obtain ⟨l, hl1, hl2⟩ := t3.ext.toGrow.ex
        rw [← hrest, List.find?_append, List.find?_append]
        have : gA.ex.find? (·.include pe) = none := by
          rw [List.find?_eq_none]
          intro en hen
          rw [hl1] at hen
          rcases List.mem_append.1 hen with hen | hen
          · rw [hg2] at hen
            rw [p3 en hen]; simp
          · have := hl2 en hen
            rw [include_late (by omega)]; simp
        have own : Entry.include ⟨g.code.length, g2.code.length, g3.code.length⟩ pe = true := by
          have p1' : g.code.length < pe := p1
          simp only [Entry.include, Bool.and_eq_true, decide_eq_true_eq]
          omega
        rw [this]
        simp [own]
      have hgo : Steps K c (.at g.code.length ⟨st, σ⟩)
          (.at g3.code.length ⟨[(K.world.exc e σ1).1], (K.world.exc e σ1).2⟩) := by
        have : failC K pe e σ1 = .at g3.code.length ⟨[(K.world.exc e σ1).1], (K.world.exc e σ1).2⟩ := by
          unfold failC fail
          rw [hfind]
          rfl
        rw [← this]
        exact p4
      refine Reach.pre hgo ?_
      rcases hex : K.world.exc e σ1 with ⟨v, σ2⟩
      rw [hex] at hv
      dsimp only at hv ⊢
      rcases hrv : evr K n v σ2 with _ | ⟨a, σ3⟩
      · rw [hrv] at hv; cases hv
      rw [hrv] at hv
      obtain ⟨-, HR⟩ := f4 T gA.code.length g4.code.length (hSA.sub (.refl _) t5.ext.toGrow)
        (by rw [lA]; exact f11) (by omega) f5 (by omega)
      have R4 := (HR n emp d base st v σ2 a σ3 (by rw [lt3]; exact su2) hem hd hrv).up (.refl g3) t5.ext.toGrow
      simp only [Bool.false_eq_true, if_false] at R4
      rw [hst] at R4
      cases a with
      | some q => rw [← hst] at R4; rw [← hst]; exact finish' _ q σ3 (by simpa [RescOut] using R4) hv
      | none =>
        refine Reach.pre R4 ?_
        dsimp only
        simp only [finishRescue] at hv
        rw [← l5]
        rcases GenOK.ensure (f6 T (hSA.sub m5 t7.ext.toGrow)) m5 t7.ext.toGrow (base := base) (st := [v])
          (by rw [lt3]; exact su4) hv with ⟨rfl, hs⟩ | hL
        · refine Reach.pre hs (.inr (wrap2 _ _ _ ?_))
          have hx := Steps.exec' K f7 ⟨[v], σ'⟩ l7 rfl
          rw [show execOp K THROW [] g6.code.length ⟨[v], σ'⟩ = fail K g6.code.length (K.world.thrown v) σ' from rfl,
            conf_fail] at hx
          have := m6.len
          exact Leaves.err' (g0 := g2) (g1 := g6) (g2 := g7) (hS.ex.mono e2.toGrow) (s3.ext.toGrow.trans m6)
            (emitM_ex h7) t8.ext.toGrow (by omega) (Nat.le_refl _) (by omega) hx
        · exact .inr (wrap _ _ _ hL)
    · refine .inr (begin_body (ens := evn K n) (σ1 := σ1) hj ?_ hL ?_ ?_)
      · intro hne st v σ r σ' hv
        exact wrap _ _ _ (Leaves.up m9 s11.ext.toGrow (hret hne n base st v σ r σ'
          (by rw [m9.loopTop, lt3]; exact su4) hv))
      · rintro e rfl
        exact absurd ⟨e, rfl⟩ hq
      · cases q with
        | val v => exact hL.elim
        | raise e => exact absurd ⟨e, rfl⟩ hq
        | brk v => exact hv
        | nxt v => exact hv
        | ret v cr => exact hv

end Verif.Codegen
