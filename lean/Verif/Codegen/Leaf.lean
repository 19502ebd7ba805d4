import Verif.Codegen.Expr
/-!
# Variables and literals
-/
namespace Verif.Codegen
open Verif.ISeq Op
open Verif.Value (Val)

variable {W X : Type}

/-! ### Where a variable is found -/

theorem lvarid_some {t : List Id} {id : Id} {j : Nat} (h : get_lvarid t id = some j) :
    id ∈ t ∧ t.idxOf id = j ∧ j < t.length := by
  unfold get_lvarid at h
  rw [List.findIdx?_eq_some_iff_findIdx_eq] at h
  have hj : t.idxOf id = j := h.2
  refine ⟨?_, hj, h.1⟩
  rw [← List.idxOf_lt_length_iff, hj]; exact h.1

theorem lvarid_none {t : List Id} {id : Id} (h : get_lvarid t id = none) : id ∉ t := by
  unfold get_lvarid at h
  rw [List.findIdx?_eq_none_iff] at h
  intro hm
  have := h id hm
  simp at this

theorem position_here {t : List Id} {ts : List (List Id)} {id : Id} (h : id ∈ t) :
    position (t :: ts) id = (0, t.idxOf id) := by
  simp [position, List.findIdx_cons, h]

theorem position_there {t : List Id} {ts : List (List Id)} {id : Id} (h : id ∉ t) :
    position (t :: ts) id = ((position ts id).1 + 1, (position ts id).2) := by
  simp [position, List.findIdx_cons, h]

theorem externVar_place {ts : List (List Id)} {i k j : Nat} {id : Id} (h : externVar ts i id = some (k, j)) :
    i ≤ k ∧ position ts id = (k - i, j) ∧ ∃ t, ts[k - i]? = some t ∧ j < t.length := by
  induction ts generalizing i with
  | nil => cases h
  | cons t ts ih =>
    unfold externVar at h
    split at h
    · rename_i j' hj
      cases h
      obtain ⟨h1, h2, h3⟩ := lvarid_some hj
      exact ⟨Nat.le_refl _, by rw [position_here h1, h2]; simp, t, by simp, h3⟩
    · rename_i hj
      obtain ⟨h1, h2, t', h3, h4⟩ := ih h
      refine ⟨by omega, ?_, t', ?_, h4⟩
      · rw [position_there (lvarid_none hj), h2]
        simp; omega
      · rw [show k - i = (k - (i + 1)) + 1 by omega]; simpa using h3

theorem scopeVar_place {ss : List Scope} {ext : List (List Id)} {i idx k j : Nat} {id : Id}
    (h : scopeVar (ss ++ [bottom]) ext i idx id = some (k, j)) :
    i ≤ k ∧ position (visible ss ext) id = (k - i, j) ∧ ∃ t, (visible ss ext)[k - i]? = some t ∧ j < t.length := by
  induction ss generalizing i idx with
  | nil =>
    have : externVar ext i id = some (k, j) := h
    exact externVar_place this
  | cons s ss ih =>
    rw [List.cons_append] at h
    unfold scopeVar at h
    unfold visible
    split at h
    · rename_i j' hj
      cases h
      obtain ⟨h1, h2, h3⟩ := lvarid_some hj
      refine ⟨Nat.le_refl _, ?_, ?_⟩
      · split <;> (rw [position_here h1, h2]; simp)
      · exact ⟨s.table, by split <;> simp, h3⟩
    · rename_i hj
      split at h
      · cases h
      · rename_i hk
        obtain ⟨h1, h2, t', h3, h4⟩ := ih h
        rw [if_neg hk]
        refine ⟨by omega, ?_, t', ?_, h4⟩
        · rw [position_there (lvarid_none hj), h2]
          simp; omega
        · rw [show k - i = (k - (i + 1)) + 1 by omega]; simpa using h3

theorem visible_length (ss : List Scope) (ext : List (List Id)) : (visible ss ext).length ≤ ss.length + ext.length := by
  induction ss with
  | nil => simp [visible]
  | cons s ss ih =>
    unfold visible
    split
    · simp; omega
    · simp; omega

/-- The compiler finds a variable where the language says it is. -/
theorem get_local_var_place {x : Ctx} (hx : CtxOK x) {id : Id} {k j : Nat} (h : get_local_var x id = some (k, j)) :
    x.place id = (k, j) ∧ k < 2 ^ 32 ∧ j < 2 ^ 32 := by
  obtain ⟨_, h2, t, h3, h4⟩ := scopeVar_place h
  refine ⟨h2, ?_, ?_⟩
  · have := (List.getElem?_eq_some_iff.1 h3).1
    have := visible_length x.scopes x.extern
    have := hx.depth
    omega
  · have := hx.width t (List.mem_of_getElem? h3)
    omega

/-- Reading a variable. -/
theorem GenOK.getVar {x : Ctx} (hx : CtxOK x) (t : Var) {sup : Bool → Bool → Bool → Prop} :
    GenOK (W := W) (X := X) x (emitGetVar x t) true sup
      (fun K _ σ => some (.val (Codegen.getVar K.world x σ t), σ)) := by
  cases t with
  | lvar id =>
    show GenOK x (emitGetLocal x id) true sup _
    unfold emitGetLocal
    split
    · intro g u g' h; cases h
    · rename_i k j hkj
      obtain ⟨h1, h2, h3⟩ := get_local_var_place hx hkj
      split
      · rename_i hk
        subst hk
        refine GenOK.push (by okop) ?_
        intro K pc n st σ
        refine ⟨_, rfl, ?_⟩
        show (Out.next ⟨σ.locals 0 (BitVec.ofNat 32 j).toNat :: st, σ⟩ : Out (S W) (R W X)) = _
        simp only [Codegen.getVar, h1, toNat_ofNat32 h3]
      · refine GenOK.push (by okop) ?_
        intro K pc n st σ
        refine ⟨_, rfl, ?_⟩
        show (Out.next ⟨σ.locals (BitVec.ofNat 32 k).toNat (BitVec.ofNat 32 j).toNat :: st, σ⟩ : Out (S W) (R W X)) = _
        simp only [Codegen.getVar, h1, toNat_ofNat32 h3, toNat_ofNat32 h2]
  | ivar id => exact GenOK.push (by okop) fun K pc n st σ => ⟨_, rfl, rfl⟩
  | gvar id => exact GenOK.push (by okop) fun K pc n st σ => ⟨_, rfl, rfl⟩

/-- Assigning a variable. -/
theorem setVar_step {x : Ctx} (hx : CtxOK x) {t : Var} {g g' : G} {u : Unit} (L : List Nat)
    (h : emitSetVar x t g = .ok (u, g')) :
    Step (W := W) (X := X) g L g' L (fun c K => ∀ v st σ,
      Steps K c (.at g.code.length ⟨v :: st, σ⟩) (.at g'.code.length ⟨st, setVar K.world x v σ t⟩)) := by
  cases t with
  | lvar id =>
    change emitSetLocal x id g = _ at h
    unfold emitSetLocal at h
    rcases hkj : get_local_var x id with _ | ⟨k, j⟩
    · rw [hkj] at h; cases h
    · rw [hkj] at h
      dsimp only at h
      obtain ⟨h1, h2, h3⟩ := get_local_var_place hx hkj
      by_cases hk : k = 0
      · rw [if_pos hk] at h
        subst hk
        refine (emitM_step L h).mono fun c K hA v st σ => ?_
        refine Steps.next K hA (emitM_len h) (by okop) ?_
        show (Out.next ⟨st, σ.set 0 (BitVec.ofNat 32 j).toNat v⟩ : Out (S W) (R W X)) = _
        simp only [setVar, h1, toNat_ofNat32 h3]
      · rw [if_neg hk] at h
        refine (emitM_step L h).mono fun c K hA v st σ => ?_
        refine Steps.next K hA (emitM_len h) (by okop) ?_
        show (Out.next ⟨st, σ.set (BitVec.ofNat 32 k).toNat (BitVec.ofNat 32 j).toNat v⟩ : Out (S W) (R W X)) = _
        simp only [setVar, h1, toNat_ofNat32 h3, toNat_ofNat32 h2]
  | ivar id =>
    exact (emitM_step L h).mono fun c K hA v st σ => Steps.next K hA (emitM_len h) (by okop) rfl
  | gvar id =>
    exact (emitM_step L h).mono fun c K hA v st σ => Steps.next K hA (emitM_len h) (by okop) rfl

theorem emitSetVar_ex {x : Ctx} {t : Var} {g g' : G} {u : Unit} (h : emitSetVar x t g = .ok (u, g')) :
    g'.ex = g.ex := by
  cases t with
  | lvar id =>
    change emitSetLocal x id g = _ at h
    unfold emitSetLocal at h
    rcases hkj : get_local_var x id with _ | ⟨k, j⟩
    · rw [hkj] at h; cases h
    · rw [hkj] at h
      dsimp only at h
      by_cases hk : k = 0
      · rw [if_pos hk] at h; exact emitM_ex h
      · rw [if_neg hk] at h; exact emitM_ex h
  | ivar id => exact emitM_ex h
  | gvar id => exact emitM_ex h

/-! ### Literals -/

theorem GenOK.val {x : Ctx} {w : BitVec 64} {sup : Bool → Bool → Bool → Prop}
    {ev : Env W X → Nat → St W → Ans W X} (he : ∀ K n σ, ev K n σ = some (.val (.word w), σ)) :
    GenOK x (genVal w) true sup ev :=
  GenOK.push (by okop) fun K pc n st σ => ⟨_, he K n σ, rfl⟩

theorem GenOK.const {x : Ctx} {cv : Const} {sup : Bool → Bool → Bool → Prop}
    {ev : Env W X → Nat → St W → Ans W X}
    (he : ∀ K n σ, ev K n σ = some (.val (constVal K σ cv).1, (constVal K σ cv).2)) :
    GenOK x (genConst cv) true sup ev := by
  intro g u g' h L
  unfold genConst at h
  split at h
  · rename_i hle
    have hok := emitM_ok h
    have s2 := emitM_step (W := W) (X := X) L h
    have s1 : Step (W := W) (X := X) g L { g with consts := g.consts ++ [cv] } L (fun _ _ => True) :=
      ⟨Stp.book rfl (List.Perm.refl _) fun K f =>
        ⟨f.ex, List.IsPrefix.trans ⟨_, rfl⟩ f.consts, f.case1, f.case2⟩,
        Ext.code (Nat.le_refl _) rfl rfl ⟨_, rfl⟩ (List.prefix_refl _) (List.prefix_refl _) rfl⟩
    refine (s1.trans s2).fit ?_
    rintro c K hF hlen ⟨-, hA⟩ T hS n emp d base st σ r σ' su _ hd hv
    rw [he] at hv; cases hv
    refine .inl ⟨_, rfl, Steps.next K hA (emitM_len h) (by okop) ?_⟩
    have hget : K.consts[g.consts.length]? = some cv := by
      obtain ⟨t, ht⟩ := hF.consts
      rw [hok] at ht
      rw [← ht]
      simp
    have hlt : (BitVec.ofNat 32 g.consts.length).toNat = g.consts.length := toNat_ofNat32 (by omega)
    show (match K.consts[(BitVec.ofNat 32 g.consts.length).toNat]? with
      | some cv => (Out.next ⟨(constVal K σ cv).1 :: st, (constVal K σ cv).2⟩ : Out (S W) (R W X))
      | none => .halt .stuck) = _
    rw [hlt, hget]
    rfl
  · cases h

theorem GenOK.num {x : Ctx} {v : Val} {sup : Bool → Bool → Bool → Prop}
    {ev : Env W X → Nat → St W → Ans W X} (he : ∀ K n σ, ev K n σ = some (.val v, σ)) :
    GenOK x (genNum v) true sup ev := by
  unfold genNum
  split
  · exact GenOK.val he
  · exact GenOK.const he

theorem GenOK.litTrue {x : Ctx} (l : Lit) {sup : Bool → Bool → Bool → Prop} :
    GenOK (W := W) (X := X) x (genLit l) true sup
      (fun K _ σ => some (.val (evalLit K.world σ l).1, (evalLit K.world σ l).2)) := by
  cases l with
  | nil => exact GenOK.push (by okop) fun K pc n st σ => ⟨_, rfl, rfl⟩
  | bool b => exact GenOK.val fun K n σ => by cases b <;> rfl
  | int i => exact GenOK.num fun K n σ => rfl
  | big n => exact GenOK.const fun K n σ => rfl
  | flt b => exact GenOK.num fun K n σ => rfl
  | str s => exact GenOK.const fun K n σ => rfl
  | sym id => exact GenOK.val fun K n σ => rfl

theorem GenOK.nothing {x : Ctx} {uv : Bool} {sup : Bool → Bool → Bool → Prop}
    {ev : Env W X → Nat → St W → Ans W X} (hu : uv = false) (he : ∀ K n σ, ∃ v, ev K n σ = some (.val v, σ)) :
    GenOK x (pure ()) uv sup ev := by
  subst hu
  intro g u g' h L
  obtain ⟨_, rfl⟩ := pureM.1 h
  refine (Step.refl _ _).mono ?_
  intro c K _ T hS n emp d base st σ r σ' su _ hd hv
  obtain ⟨v, h1⟩ := he K n σ
  rw [h1] at hv; cases hv
  exact .inl ⟨v, rfl, Steps.refl _⟩

theorem GenOK.lit {x : Ctx} (l : Lit) (uv : Bool) :
    GenOK (W := W) (X := X) x (if !uv && l.silent then pure () else genLit l) uv
      (fun _ _ _ => uv = true ∨ l.silent = true)
      (fun K _ σ => if uv then some (.val (evalLit K.world σ l).1, (evalLit K.world σ l).2)
        else some (.val Value.nil, σ)) := by
  cases uv with
  | true => exact GenOK.litTrue l
  | false =>
    by_cases hl : l.silent = true
    · simp only [hl]
      exact GenOK.nothing rfl fun K n σ => ⟨_, rfl⟩
    · intro g u g' h L
      have hh : genLit l g = .ok (u, g') := by simpa [hl] using h
      refine (GenOK.litTrue (x := x) (W := W) (X := X) (sup := fun _ _ _ => False) l g u g' hh L).mono ?_
      intro c K _ T hS n emp d base st σ r σ' su
      simp [hl] at su

end Verif.Codegen
