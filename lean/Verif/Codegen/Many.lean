import Verif.Codegen.Flow
import Verif.Codegen.Leaf
/-!
# Multiple assignment
-/
namespace Verif.Codegen
open Verif.ISeq Op
open Verif.Value (Val)

variable {W X : Type}

theorem emitSetVars_step {x : Ctx} (hx : CtxOK x) {ts : List Var} {g g' : G} {u : Unit} (L : List Nat)
    (h : emitSetVars x ts g = .ok (u, g')) :
    Step (W := W) (X := X) g L g' L (fun c K => ∀ (vs st : List Val) σ, vs.length = ts.length →
      Steps K c (.at g.code.length ⟨vs ++ st, σ⟩) (.at g'.code.length ⟨st, setVars K.world x ts vs σ⟩)) := by
  induction ts generalizing g u with
  | nil =>
    obtain ⟨_, rfl⟩ := pureM.1 h
    refine (Step.refl _ _).mono fun c K _ vs st σ hl => ?_
    obtain rfl := List.length_eq_zero_iff.1 hl
    exact Steps.refl _
  | cons t ts ih =>
    obtain ⟨_, g1, h1, h2⟩ := bindM.1 h
    refine ((setVar_step (W := W) (X := X) hx L h1).trans (ih h2)).mono ?_
    rintro c K ⟨f1, f2⟩ vs st σ hl
    cases vs with
    | nil => simp at hl
    | cons v vs => exact (f1 v (vs ++ st) σ).trans (f2 vs st _ (by simpa using hl))

theorem repeatNil_step {n : Nat} {g g' : G} {u : Unit} (L : List Nat) (h : repeatM n pushNil g = .ok (u, g')) :
    Step (W := W) (X := X) g L g' L (fun c K => ∀ (st : List Val) σ,
      Steps K c (.at g.code.length ⟨st, σ⟩) (.at g'.code.length ⟨List.replicate n Value.nil ++ st, σ⟩)) := by
  induction n generalizing g u with
  | zero =>
    obtain ⟨_, rfl⟩ := pureM.1 h
    exact (Step.refl _ _).mono fun c K _ st σ => Steps.refl _
  | succ n ih =>
    obtain ⟨_, g1, h1, h2⟩ := bindM.1 h
    refine ((emitM_step (W := W) (X := X) L h1).trans (ih h2)).mono ?_
    rintro c K ⟨f1, f2⟩ st σ
    have a : Steps K c (.at g.code.length ⟨st, σ⟩) (.at g1.code.length ⟨Value.nil :: st, σ⟩) :=
      Steps.next K f1 (emitM_len h1) rfl rfl
    refine a.trans ?_
    rw [List.replicate_succ', List.append_assoc]
    exact f2 (Value.nil :: st) σ

theorem repeatPop_step {n : Nat} {g g' : G} {u : Unit} (L : List Nat) (h : repeatM n pop g = .ok (u, g')) :
    Step (W := W) (X := X) g L g' L (fun c K => ∀ (vs st : List Val) σ, vs.length = n →
      Steps K c (.at g.code.length ⟨vs ++ st, σ⟩) (.at g'.code.length ⟨st, σ⟩)) := by
  induction n generalizing g u with
  | zero =>
    obtain ⟨_, rfl⟩ := pureM.1 h
    refine (Step.refl _ _).mono fun c K _ vs st σ hl => ?_
    obtain rfl := List.length_eq_zero_iff.1 hl
    exact Steps.refl _
  | succ n ih =>
    obtain ⟨_, g1, h1, h2⟩ := bindM.1 h
    refine ((emitM_step (W := W) (X := X) L h1).trans (ih h2)).mono ?_
    rintro c K ⟨f1, f2⟩ vs st σ hl
    cases vs with
    | nil => simp at hl
    | cons v vs =>
      have a : Steps K c (.at g.code.length ⟨v :: (vs ++ st), σ⟩) (.at g1.code.length ⟨vs ++ st, σ⟩) :=
        Steps.next K f1 (emitM_len h1) rfl rfl
      exact a.trans (f2 vs st σ (by simpa using hl))

/-! ### Padding -/

theorem pad_length (n : Nat) (vs : List Val) : (pad n vs).length = n := by
  unfold pad; simp; omega

theorem pad_long {n : Nat} {vs : List Val} (h : vs.length ≤ n) :
    pad n vs = vs ++ List.replicate (n - vs.length) Value.nil := by
  unfold pad; rw [List.take_of_length_le h]

theorem pad_take {n m : Nat} {vs : List Val} (h : n ≤ m) (hv : vs.length ≤ m) : (pad m vs).take n = pad n vs := by
  rw [pad_long hv]
  unfold pad
  rw [List.take_append, List.take_replicate]
  congr 2
  omega

theorem takeVals_pad (K : Env W X) (σ : St W) (v : Val) {n : Nat} (h : 0 < n) :
    takeVals K σ v n = pad n ((K.world.asArray v σ).getD [v]) := by
  unfold takeVals
  cases K.world.asArray v σ with
  | some vs =>
    dsimp only [Option.getD]
    split
    · rename_i hle
      unfold pad
      rw [Nat.sub_eq_zero_of_le hle]; simp
    · rw [pad_long (by omega)]
  | none =>
    dsimp only [Option.getD]
    rw [pad_long (by simp; omega)]
    simp

/-! ### Several right-hand sides -/

/-- The first `k` on the stack. -/
def ThenFirst (g' : G) (k : Nat) (st vs : List Val) (σ : St W) : Conf (S W) (R W X) :=
  .at g'.code.length ⟨(vs.take k).reverse ++ st, σ⟩

/-- The compiler action evaluates several expressions and keeps the first `k`. -/
def FirstOK (x : Ctx) (m : M Unit) (len k : Nat) (sup : Bool → Bool → Bool → Prop)
    (ev : Env W X → Nat → St W → Option (Except (Res X) (List Val) × St W)) : Prop :=
  ∀ g u g', m g = .ok (u, g') → ∀ L, Step g L g' L fun c K => ∀ T, Site' c K T g g' →
    DoesAll x g g' c K T len sup (ev K) (ThenFirst g' k)

theorem FirstOK.nil {x : Ctx} {k : Nat} {sup : Bool → Bool → Bool → Prop} :
    FirstOK (W := W) (X := X) x (pure ()) 0 k sup (fun _ _ σ => some (.ok [], σ)) := by
  intro g u g' h L
  obtain ⟨_, rfl⟩ := pureM.1 h
  refine (Step.refl _ _).mono ?_
  intro c K _ T hS n emp d base st σ a σ' su he hd hv
  cases hv
  refine ⟨rfl, ?_⟩
  simp only [ThenFirst, List.take_nil, List.reverse_nil, List.nil_append]
  exact Steps.refl _

theorem FirstOK.cons {x : Ctx} {m1 m2 : M Unit} {len k : Nat} {sup1 sup2 : Bool → Bool → Bool → Prop}
    {ev1 : Env W X → Nat → St W → Ans W X}
    {ev2 : Env W X → Nat → St W → Option (Except (Res X) (List Val) × St W)}
    (hm1 : GenOK x m1 (decide (0 < k)) sup1 ev1) (hm2 : FirstOK x m2 len (k - 1) sup2 ev2) :
    FirstOK x (do m1; m2) (len + 1) k (fun lp e d => sup1 lp e d ∧ sup2 lp false false)
      (fun K n σ => match ev1 K n σ with
        | some (.val v, σ) =>
          match ev2 K n σ with
          | some (.ok vs, σ) => some (.ok (v :: vs), σ)
          | r => r
        | some (r, σ) => some (.error r, σ)
        | none => none) := by
  intro g u g' hg L
  obtain ⟨_, g1, h1, h2⟩ := bindM.1 hg
  have s1 := hm1 _ _ _ h1 L
  have s2 := hm2 _ _ _ h2 L
  refine (s1.trans s2).mono ?_
  rintro c K ⟨f1, f2⟩ T hS n emp d base st σ a σ' ⟨su1, su2⟩ he hd hv
  have D1 := f1 T (hS.sub (.refl _) s2.ext.toGrow)
  have D2 := f2 T (hS.sub s1.ext.toGrow (.refl _))
  dsimp only at hv
  rcases hev : ev1 K n σ with _ | ⟨r1, σ1⟩
  · rw [hev] at hv; cases hv
  · rw [hev] at hv
    rcases D1.last (.refl g) s2.ext.toGrow su1 he hd hev with ⟨v, rfl, hs⟩ | hL
    · dsimp only at hv
      rcases hev2 : ev2 K n σ1 with _ | ⟨a2, σ2⟩
      · rw [hev2] at hv; cases hv
      · rw [hev2] at hv
        have := D2.first s1.ext.toGrow (.refl g') (base := base) (st := if decide (0 < k) then v :: st else st)
          su2 ff ff hev2
        cases a2 with
        | ok vs =>
          cases hv
          refine ⟨by simp [this.1], hs.trans ?_⟩
          have h3 := this.2
          cases k with
          | zero => simpa [ThenFirst, Then] using h3
          | succ k => simpa [ThenFirst, Then] using h3
        | error r => cases hv; exact this.pre hs
    · cases r1 with
      | val v => exact hL.elim
      | raise e => cases hv; exact hL
      | brk e => cases hv; exact hL
      | nxt e => cases hv; exact hL
      | ret e => cases hv; exact hL

/-- All right-hand sides, then the targets, with the value used. -/
theorem GenOK.manyTrue {x : Ctx} (hx : CtxOK x) {m : M Unit} {ts : List Var} {len : Nat}
    {sup : Bool → Bool → Bool → Prop}
    {ev : Env W X → Nat → St W → Option (Except (Res X) (List Val) × St W)} (hm : AllOK x m len sup ev) :
    GenOK x (do m; genManyTail x ts len true) true (fun lp e d => sup lp e d ∧ max ts.length len < 2 ^ 32)
      (fun K n σ => match ev K n σ with
        | some (.ok vs, σ) =>
          let (v, σ') := K.world.mkArray (pad (max ts.length vs.length) vs) (assignAll K.world false x ts vs σ)
          some (.val v, σ')
        | some (.error r, σ) => some (r, σ)
        | none => none) := by
  intro g u g' hg L
  obtain ⟨_, g1, h1, hg⟩ := bindM.1 hg
  unfold genManyTail at hg
  rw [if_pos rfl] at hg
  obtain ⟨_, g2, h2, hg⟩ := bindM.1 hg
  obtain ⟨_, g3, h3, hg⟩ := bindM.1 hg
  obtain ⟨_, g4, h4, hg⟩ := bindM.1 hg
  obtain ⟨_, g5, h5, h6⟩ := bindM.1 hg
  have s1 := hm _ _ _ h1 L
  have s2 := repeatNil_step (W := W) (X := X) L h2
  have s3 := emitM_step (W := W) (X := X) L h3
  have s4 := repeatPop_step (W := W) (X := X) L h4
  have s5 := emitSetVars_step (W := W) (X := X) hx L h5
  have s6 := emitM_step (W := W) (X := X) L h6
  have t2 := s2.trans (s3.trans (s4.trans (s5.trans s6)))
  refine (s1.trans t2).mono ?_
  rintro c K ⟨f1, f2, f3, f4, f5, f6⟩ T hS n emp d base st σ r σ' ⟨su, hl⟩ he hd hv
  have D1 := f1 T (hS.sub (.refl _) t2.ext.toGrow)
  dsimp only at hv
  rcases hev : ev K n σ with _ | ⟨a, σ1⟩
  · rw [hev] at hv; cases hv
  · rw [hev] at hv
    have := D1.first (.refl g) t2.ext.toGrow su he hd hev
    cases a with
    | error r => cases hv; exact .inr this
    | ok vs =>
      cases hv
      obtain ⟨hlen, hs⟩ := this
      refine .inl ⟨_, rfl, hs.trans ?_⟩
      have hml : (pad (max ts.length len) vs).length = max ts.length len := pad_length _ _
      have hpad := pad_long (n := max ts.length len) (vs := vs) (by omega)
      have a2 := f2 (vs.reverse ++ st) σ1
      rw [← List.append_assoc, show List.replicate (max ts.length len - len) Value.nil ++ vs.reverse =
        (pad (max ts.length len) vs).reverse by rw [hpad, hlen, List.reverse_append, List.reverse_replicate]] at a2
      refine Steps.trans a2 ?_
      have a3 : Steps K c (.at g2.code.length ⟨(pad (max ts.length len) vs).reverse ++ st, σ1⟩)
          (.at g3.code.length ⟨(pad (max ts.length len) vs).reverse ++
            ((pad (max ts.length len) vs).reverse ++ st), σ1⟩) := by
        refine Steps.next K f3 (emitM_len h3) (by okop) ?_
        rw [u32, exec_dup, toNat_ofNat32 hl, if_pos (by simp [hml])]
        dsimp only
        congr 3
        have := take_rev_app (pad (max ts.length len) vs) st
        rwa [hml] at this
      refine a3.trans ?_
      have hsplit : (pad (max ts.length len) vs).reverse =
          ((pad (max ts.length len) vs).drop ts.length).reverse ++ (pad ts.length vs).reverse := by
        rw [← List.reverse_append, ← pad_take (n := ts.length) (m := max ts.length len) (by omega) (by omega),
          List.take_append_drop]
      have a4 := f4 ((pad (max ts.length len) vs).drop ts.length).reverse
        ((pad ts.length vs).reverse ++ ((pad (max ts.length len) vs).reverse ++ st)) σ1
        (by rw [List.length_reverse, List.length_drop, hml])
      rw [← List.append_assoc, ← hsplit] at a4
      refine a4.trans ?_
      refine (f5 _ _ σ1 (by simp [pad_length])).trans ?_
      refine Steps.next K f6 (emitM_len h6) (by okop) ?_
      rw [u32, exec_array, toNat_ofNat32 hl, if_pos (by simp [hml])]
      dsimp only
      have e1 := take_rev_app (pad (max ts.length len) vs) st
      have e2 := drop_rev_app (pad (max ts.length len) vs) st
      rw [hml] at e1 e2
      rw [e1, e2, List.reverse_reverse, hlen]
      rfl

/-- The same with the value not used. -/
theorem GenOK.manyFalse {x : Ctx} (hx : CtxOK x) {m : M Unit} {ts : List Var} {len : Nat}
    {sup : Bool → Bool → Bool → Prop}
    {ev : Env W X → Nat → St W → Option (Except (Res X) (List Val) × St W)} (hm : FirstOK x m len ts.length sup ev) :
    GenOK x (do m; genManyTail x ts len false) false sup
      (fun K n σ => match ev K n σ with
        | some (.ok vs, σ) => some (.val Value.nil, assignAll K.world false x ts vs σ)
        | some (.error r, σ) => some (r, σ)
        | none => none) := by
  intro g u g' hg L
  obtain ⟨_, g1, h1, hg⟩ := bindM.1 hg
  unfold genManyTail at hg
  rw [if_neg (by simp)] at hg
  obtain ⟨_, g2, h2, h3⟩ := bindM.1 hg
  have s1 := hm _ _ _ h1 L
  have s2 := repeatNil_step (W := W) (X := X) L h2
  have s3 := emitSetVars_step (W := W) (X := X) hx L h3
  have t2 := s2.trans s3
  refine (s1.trans t2).mono ?_
  rintro c K ⟨f1, f2, f3⟩ T hS n emp d base st σ r σ' su he hd hv
  have D1 := f1 T (hS.sub (.refl _) t2.ext.toGrow)
  dsimp only at hv
  rcases hev : ev K n σ with _ | ⟨a, σ1⟩
  · rw [hev] at hv; cases hv
  · rw [hev] at hv
    have := D1.first (.refl g) t2.ext.toGrow su he hd hev
    cases a with
    | error r => cases hv; exact .inr this
    | ok vs =>
      cases hv
      obtain ⟨hlen, hs⟩ := this
      refine .inl ⟨_, rfl, hs.trans ?_⟩
      have a2 := f2 ((vs.take ts.length).reverse ++ st) σ1
      rw [← List.append_assoc, show List.replicate (ts.length - len) Value.nil ++ (vs.take ts.length).reverse =
        (pad ts.length vs).reverse by
          unfold pad; rw [hlen, List.reverse_append, List.reverse_replicate]] at a2
      exact Steps.trans a2 (f3 _ _ σ1 (by simp [pad_length]))

/-- One right-hand side for several targets. -/
theorem GenOK.spread {x : Ctx} (hx : CtxOK x) {m : M Unit} {ts : List Var} {uv : Bool}
    {sup : Bool → Bool → Bool → Prop} {ev : Env W X → Nat → St W → Ans W X} (hm : GenOK x m true sup ev) :
    GenOK x (do m; whenM uv (dup 1); take ts.length; emitSetVars x ts.reverse) uv
      (fun lp e d => sup lp e d ∧ 0 < ts.length ∧ ts.length < 2 ^ 32)
      (fun K n σ => onVal (ev K n σ) fun v σ =>
        some (.val v, assignAll K.world false x ts ((K.world.asArray v σ).getD [v]) σ)) := by
  intro g u g' hg L
  obtain ⟨_, g1, h1, hg⟩ := bindM.1 hg
  obtain ⟨_, g2, h2, hg⟩ := bindM.1 hg
  obtain ⟨_, g3, h3, h4⟩ := bindM.1 hg
  have s1 := hm _ _ _ h1 L
  have s2 := dupHead (W := W) (X := X) L h2
  have s3 := emitM_step (W := W) (X := X) L h3
  have s4 := emitSetVars_step (W := W) (X := X) hx L h4
  have t2 := s2.trans (s3.trans s4)
  refine (s1.trans t2).mono ?_
  rintro c K ⟨f1, f2, f3, f4⟩ T hS n emp d base st σ r σ' ⟨su, hpos, hl⟩ he hd hv
  rcases (f1 T (hS.sub (.refl _) t2.ext.toGrow)).first (.refl g) t2.ext.toGrow su he hd hv with
    ⟨v, σ1, -, hk, hs⟩ | hL
  · cases hk
    refine .inl ⟨v, rfl, (hs.trans (f2 v st σ1)).trans ?_⟩
    have a3 : Steps K c (.at g2.code.length ⟨v :: if uv then v :: st else st, σ1⟩)
        (.at g3.code.length ⟨(pad ts.length ((K.world.asArray v σ1).getD [v])).reverse ++
          if uv then v :: st else st, σ1⟩) := by
      refine Steps.next K f3 (emitM_len h3) (by okop) ?_
      rw [u32, exec_take, toNat_ofNat32 hl, takeVals_pad K σ1 v hpos]
    exact a3.trans (f4 _ _ σ1 (by simp [pad_length]))
  · exact .inr hL

end Verif.Codegen
