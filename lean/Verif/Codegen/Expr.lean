import Verif.Codegen.Sim
/-!
# Expressions
-/
namespace Verif.Codegen
open Verif.ISeq Op
open Verif.Value (Val)

variable {W X : Type}

/-! ### Jumps -/

theorem jumpM_len {op : Byte} {g g' : G} {s : Nat} (h : jumpM op g = .ok (s, g')) :
    g'.code.length = g.code.length + 5 ∧ s = g'.code.length := by
  obtain ⟨_, h2, h3⟩ := jumpM_ok h
  omega

theorem jumpM_ex {op : Byte} {g g' : G} {s : Nat} (h : jumpM op g = .ok (s, g')) : g'.ex = g.ex := by
  rw [(jumpM_ok h).1]

theorem patchM_ex {s t : Nat} {g g' : G} {u : Unit} (h : patchM s t g = .ok (u, g')) : g'.ex = g.ex := by
  rw [patchM_ok h]

/-- `JMP` runs to its target. -/
theorem run_jmp {K : Env W X} {c : Code} {g g' : G} {s t : Nat} (h : jumpM JMP g = .ok (s, g'))
    (hop : c[g.code.length]? = some JMP) (hs : Site c s t) (hc : c.length < 2 ^ 31) (hg : g'.code.length ≤ c.length)
    (ht : t ≤ c.length) (S0 : S W) : Steps K c (.at g.code.length S0) (.at t S0) := by
  obtain ⟨h1, h2⟩ := jumpM_len h
  exact Steps.jmp K hop rfl (by rwa [← h1, ← h2]) hc ht (by omega) S0

/-- `JMP_F`. -/
theorem run_jf {K : Env W X} {c : Code} {g g' : G} {s t : Nat} (h : jumpM JMP_F g = .ok (s, g'))
    (hop : c[g.code.length]? = some JMP_F) (hs : Site c s t) (hc : c.length < 2 ^ 31) (hg : g'.code.length ≤ c.length)
    (ht : t ≤ c.length) (v : Val) (st : List Val) (σ : St W) :
    Steps K c (.at g.code.length ⟨v :: st, σ⟩) (.at (if truthy v then g'.code.length else t) ⟨st, σ⟩) := by
  obtain ⟨h1, h2⟩ := jumpM_len h
  have := (Steps.cond K hop rfl (t := t) (by rwa [← h1, ← h2]) hc ht (by omega) ⟨v :: st, σ⟩).2
    (truthy v) ⟨st, σ⟩ rfl
  rw [h1]; exact this

/-- `JMP_T`. -/
theorem run_jt {K : Env W X} {c : Code} {g g' : G} {s t : Nat} (h : jumpM JMP_T g = .ok (s, g'))
    (hop : c[g.code.length]? = some JMP_T) (hs : Site c s t) (hc : c.length < 2 ^ 31) (hg : g'.code.length ≤ c.length)
    (ht : t ≤ c.length) (v : Val) (st : List Val) (σ : St W) :
    Steps K c (.at g.code.length ⟨v :: st, σ⟩) (.at (if truthy v then t else g'.code.length) ⟨st, σ⟩) := by
  obtain ⟨h1, h2⟩ := jumpM_len h
  have := (Steps.cond K hop rfl (t := t) (by rwa [← h1, ← h2]) hc ht (by omega) ⟨v :: st, σ⟩).2
    (!truthy v) ⟨st, σ⟩ rfl
  rw [h1]; cases hv : truthy v <;> simpa [hv] using this

/-- `if use_value { pop }`. -/
theorem popHead {uv : Bool} {g g' : G} {u : Unit} (L : List Nat) (h : whenM uv pop g = .ok (u, g')) :
    Step (W := W) (X := X) g L g' L (fun c K => ∀ v st σ,
      Steps K c (.at g.code.length ⟨if uv then v :: st else st, σ⟩) (.at g'.code.length ⟨st, σ⟩)) := by
  cases uv with
  | false =>
    obtain ⟨_, rfl⟩ := pureM.1 h
    exact (Step.refl _ _).mono fun c K _ v st σ => Steps.refl _
  | true =>
    refine (emitM_step L h).mono fun c K hA v st σ => ?_
    exact Steps.next K hA (emitM_len h) rfl rfl

/-! ### Short circuits -/

theorem GenOK.land {x : Ctx} {ml mr : M Unit} {uv : Bool} {supl supr : Bool → Bool → Bool → Prop}
    {evl evr : Env W X → Nat → St W → Ans W X} (hl : GenOK x ml true supl evl) (hr : GenOK x mr uv supr evr) :
    GenOK x (do ml; whenM uv (dup 1); let src ← jumpM JMP_F; whenM uv pop; mr; patchCurM src) uv
      (fun lp e d => supl lp e d ∧ supr lp e d)
      (fun K n σ => onVal (evl K n σ) fun v σ => if truthy v then evr K n σ else some (.val v, σ)) := by
  intro g u g' h L
  obtain ⟨_, g1, h1, h⟩ := bindM.1 h
  obtain ⟨_, g2, h2, h⟩ := bindM.1 h
  obtain ⟨src, g3, h3, h⟩ := bindM.1 h
  obtain ⟨_, g4, h4, h⟩ := bindM.1 h
  obtain ⟨_, g5, h5, h6⟩ := bindM.1 h
  have s1 := hl _ _ _ h1 L
  have s2 := dupHead (W := W) (X := X) L h2
  have s3 := jumpM_step (W := W) (X := X) L h3
  have s4 := popHead (W := W) (X := X) (src :: L) h4
  have s5 := hr _ _ _ h5 (src :: L)
  have s6 := patchCurM_step (W := W) (X := X) L h6
  have t2 := s2.trans (s3.trans (s4.trans (s5.trans s6)))
  have l6 := patchCurM_len h6
  refine (s1.trans t2).mono ?_
  rintro c K ⟨f1, f2, f3, f4, f5, f6⟩ T hS n emp d base st σ r σ' ⟨su1, su2⟩ he hd hv
  have e4 : Grow g g4 := ((s1.ext.trans s2.ext).trans (s3.ext.trans s4.ext)).toGrow
  have hlen := hS.len
  rcases (f1 T (hS.sub (.refl _) t2.ext.toGrow)).first (.refl g) t2.ext.toGrow su1 he hd hv with
    ⟨v, σ1, -, hk, hs⟩ | hL
  · have hs := hs.trans (f2 v st σ1)
    have hs := hs.trans (run_jf h3 f3 f6 hS.sz.code (Nat.le_trans (s4.trans (s5.trans s6)).ext.len hS.len)
      (by omega) v _ σ1)
    by_cases ht : truthy v = true
    · rw [if_pos ht] at hs hk
      have hs := hs.trans (f4 v st σ1)
      refine Reach.pre hs ?_
      have := (f5 T (hS.sub e4 s6.ext.toGrow)).last e4 s6.ext.toGrow su2 he hd hk
      rw [show Then g' uv = Then (W := W) (X := X) g5 uv by unfold Then; rw [l6]]
      exact this
    · rw [if_neg ht] at hs hk
      cases hk
      exact .inl ⟨v, rfl, by unfold Then; rw [l6]; exact hs⟩
  · exact .inr hL

theorem GenOK.lor {x : Ctx} {ml mr : M Unit} {uv : Bool} {supl supr : Bool → Bool → Bool → Prop}
    {evl evr : Env W X → Nat → St W → Ans W X} (hl : GenOK x ml true supl evl) (hr : GenOK x mr uv supr evr) :
    GenOK x (do ml; whenM uv (dup 1); let src ← jumpM JMP_T; whenM uv pop; mr; patchCurM src) uv
      (fun lp e d => supl lp e d ∧ supr lp e d)
      (fun K n σ => onVal (evl K n σ) fun v σ => if truthy v then some (.val v, σ) else evr K n σ) := by
  intro g u g' h L
  obtain ⟨_, g1, h1, h⟩ := bindM.1 h
  obtain ⟨_, g2, h2, h⟩ := bindM.1 h
  obtain ⟨src, g3, h3, h⟩ := bindM.1 h
  obtain ⟨_, g4, h4, h⟩ := bindM.1 h
  obtain ⟨_, g5, h5, h6⟩ := bindM.1 h
  have s1 := hl _ _ _ h1 L
  have s2 := dupHead (W := W) (X := X) L h2
  have s3 := jumpM_step (W := W) (X := X) L h3
  have s4 := popHead (W := W) (X := X) (src :: L) h4
  have s5 := hr _ _ _ h5 (src :: L)
  have s6 := patchCurM_step (W := W) (X := X) L h6
  have t2 := s2.trans (s3.trans (s4.trans (s5.trans s6)))
  have l6 := patchCurM_len h6
  refine (s1.trans t2).mono ?_
  rintro c K ⟨f1, f2, f3, f4, f5, f6⟩ T hS n emp d base st σ r σ' ⟨su1, su2⟩ he hd hv
  have e4 : Grow g g4 := ((s1.ext.trans s2.ext).trans (s3.ext.trans s4.ext)).toGrow
  have hlen := hS.len
  rcases (f1 T (hS.sub (.refl _) t2.ext.toGrow)).first (.refl g) t2.ext.toGrow su1 he hd hv with
    ⟨v, σ1, -, hk, hs⟩ | hL
  · have hs := hs.trans (f2 v st σ1)
    have hs := hs.trans (run_jt h3 f3 f6 hS.sz.code (Nat.le_trans (s4.trans (s5.trans s6)).ext.len hS.len)
      (by omega) v _ σ1)
    by_cases ht : truthy v = true
    · rw [if_pos ht] at hs hk
      cases hk
      exact .inl ⟨v, rfl, by unfold Then; rw [l6]; exact hs⟩
    · rw [if_neg ht] at hs hk
      have hs := hs.trans (f4 v st σ1)
      refine Reach.pre hs ?_
      have := (f5 T (hS.sub e4 s6.ext.toGrow)).last e4 s6.ext.toGrow su2 he hd hk
      rw [show Then g' uv = Then (W := W) (X := X) g5 uv by unfold Then; rw [l6]]
      exact this
  · exact .inr hL

/-! ### Building blocks -/

instance : LawfulMonad M := LawfulMonad.mk'
  (id_map := fun m => by
    funext g; show (match m g with | .ok (a, g') => _ | .error e => _) = _
    rcases m g with e | ⟨a, g'⟩ <;> rfl)
  (pure_bind := fun _ _ => rfl)
  (bind_assoc := fun m f k => by
    funext g
    show (match (match m g with | .ok (a, g') => f a g' | .error e => .error e) with
      | .ok (b, g') => k b g' | .error e => .error e) =
      (match m g with | .ok (a, g') => (f a >>= k) g' | .error e => .error e)
    rcases m g with e | ⟨a, g'⟩ <;> rfl)

theorem GenOK.congr {x : Ctx} {m m' : M Unit} {uv : Bool} {sup sup' : Bool → Bool → Bool → Prop}
    {ev ev' : Env W X → Nat → St W → Ans W X} (h : GenOK x m uv sup ev) (hm : m' = m)
    (hs : ∀ lp e d, sup' lp e d → sup lp e d) (he : ∀ K n σ, ev' K n σ = ev K n σ) : GenOK x m' uv sup' ev' := by
  subst hm
  intro g u g' hg L
  refine (h g u g' hg L).mono ?_
  intro c K f T hS n emp d base st σ r σ' hsup hem hd hv
  exact f T hS n emp d base st σ r σ' (hs _ _ _ hsup) hem hd (by rw [← he]; exact hv)

/-- Code that leaves its value, with the value dropped if it is not used. -/
theorem GenOK.pop {x : Ctx} {m : M Unit} {uv : Bool} {sup : Bool → Bool → Bool → Prop}
    {ev : Env W X → Nat → St W → Ans W X} (h : GenOK x m true sup ev) :
    GenOK x (do m; whenM (!uv) pop) uv sup ev := by
  intro g u g' hg L
  obtain ⟨_, g1, h1, h2⟩ := bindM.1 hg
  have s1 := h _ _ _ h1 L
  have s2 := popTail (W := W) (X := X) L h2
  refine (s1.trans s2).mono ?_
  rintro c K ⟨f1, f2⟩ T hS n emp d base st σ r σ' su he hd hv
  exact ((f1 T (hS.sub (.refl _) s2.ext.toGrow)).last (.refl g) s2.ext.toGrow su he hd hv).post
    fun v => f2 v st σ'

theorem Then_true {g' : G} {st : List Val} {v : Val} {σ : St W} :
    Then (X := X) g' true st v σ = .at g'.code.length ⟨v :: st, σ⟩ := rfl

/-- A single instruction that pushes a value. -/
theorem GenOK.push {x : Ctx} {op : Byte} {args : List Operand} {sup : Bool → Bool → Bool → Prop}
    {ev : Env W X → Nat → St W → Ans W X} (ho : okOp op (args.map Operand.width) = true)
    (he : ∀ K pc n st σ, ∃ v, ev K n σ = some (.val v, σ) ∧ execOp K op args pc ⟨st, σ⟩ = .next ⟨v :: st, σ⟩) :
    GenOK x (emitM op args) true sup ev := by
  intro g u g' hg L
  refine (emitM_step L hg).mono ?_
  intro c K hA T hS n emp d base st σ r σ' su _ hd hv
  obtain ⟨v, h1, h2⟩ := he K g.code.length n st σ
  rw [h1] at hv; cases hv
  exact .inl ⟨v, rfl, Steps.next K hA (emitM_len hg) ho h2⟩

/-- The value of a part is the operand of one more instruction that may fail. -/
theorem GenOK.op1 {x : Ctx} {m : M Unit} {op : Byte} {args : List Operand} {sup : Bool → Bool → Bool → Prop}
    {ev : Env W X → Nat → St W → Ans W X} {k : Env W X → Nat → Val → St W → Ans W X} (h : GenOK x m true sup ev)
    (ho : okOp op (args.map Operand.width) = true)
    (he : ∀ K pc n v st σ, (∃ eff, k K n v σ = ofEff eff ∧
        execOp K op args pc ⟨v :: st, σ⟩ = pushE K (pc + szOf args) st eff) ∨
      (∃ eff, k K n v σ = ofEffB eff ∧
        execOp K op args pc ⟨v :: st, σ⟩ = pushB K (pc + szOf args) st eff) ∨
      ∃ w, k K n v σ = some (.val w, σ) ∧ execOp K op args pc ⟨v :: st, σ⟩ = .next ⟨w :: st, σ⟩) :
    GenOK x (do m; emitM op args) true sup (fun K n σ => onVal (ev K n σ) (k K n)) := by
  intro g u g' hg L
  obtain ⟨_, g1, h1, h2⟩ := bindM.1 hg
  have s1 := h _ _ _ h1 L
  have s2 := emitM_step (W := W) (X := X) L h2
  have l2 := emitM_len h2
  refine (s1.trans s2).mono ?_
  rintro c K ⟨f1, f2⟩ T hS n emp d base st σ r σ' su hem hd hv
  rcases (f1 T (hS.sub (.refl _) s2.ext.toGrow)).first (.refl g) s2.ext.toGrow su hem hd hv with
    ⟨v, σ1, -, hk, hs⟩ | hL
  · have hx := Steps.exec' K f2 ⟨v :: st, σ1⟩ l2 ho
    have hsz : 0 < szOf args := by unfold szOf; omega
    rcases he K g1.code.length n v st σ1 with ⟨eff, e1, e2⟩ | ⟨eff, e1, e2⟩ | ⟨w, e1, e2⟩
    · rw [e1] at hk; rw [e2] at hx
      exact Reach.eff hS.ex s1.ext.toGrow (emitM_ex h2) (.refl g') (by omega) l2.symm (hs.trans hx)
        (fun v σ => Steps.refl _) hk
    · rw [e1] at hk; rw [e2] at hx
      exact Reach.effB hS.ex s1.ext.toGrow (emitM_ex h2) (.refl g') (by omega) l2.symm (hs.trans hx)
        (fun v σ => Steps.refl _) hk
    · rw [e1] at hk; rw [e2] at hx
      cases hk
      exact .inl ⟨w, rfl, hs.trans hx⟩
  · exact .inr hL

/-- The values of two parts, evaluated in order, are the operands of one more instruction. -/
theorem GenOK.op2 {x : Ctx} {m1 m2 : M Unit} {op : Byte} {args : List Operand}
    {sup1 sup2 : Bool → Bool → Bool → Prop}
    {ev1 ev2 : Env W X → Nat → St W → Ans W X} {k : Env W X → Nat → Val → Val → St W → Ans W X}
    (hm1 : GenOK x m1 true sup1 ev1) (hm2 : GenOK x m2 true sup2 ev2)
    (ho : okOp op (args.map Operand.width) = true)
    (he : ∀ K pc n v w st σ, (∃ eff, k K n v w σ = ofEff eff ∧
        execOp K op args pc ⟨w :: v :: st, σ⟩ = pushE K (pc + szOf args) st eff) ∨
      (∃ eff, k K n v w σ = ofEffB eff ∧
        execOp K op args pc ⟨w :: v :: st, σ⟩ = pushB K (pc + szOf args) st eff)) :
    GenOK x (do m1; m2; emitM op args) true (fun lp e d => sup1 lp e d ∧ sup2 lp false false)
      (fun K n σ => onVal (ev1 K n σ) fun v σ => onVal (ev2 K n σ) fun w σ => k K n v w σ) := by
  intro g u g' hg L
  obtain ⟨_, g1, h1, hg⟩ := bindM.1 hg
  obtain ⟨_, g2, h2, h3⟩ := bindM.1 hg
  have s1 := hm1 _ _ _ h1 L
  have s2 := hm2 _ _ _ h2 L
  have s3 := emitM_step (W := W) (X := X) L h3
  have l3 := emitM_len h3
  have t2 := s2.trans s3
  refine (s1.trans t2).mono ?_
  rintro c K ⟨f1, f2, f3⟩ T hS n emp d base st σ r σ' ⟨su1, su2⟩ hem hd hv
  have e2 : Grow g g2 := (s1.ext.trans s2.ext).toGrow
  rcases (f1 T (hS.sub (.refl _) t2.ext.toGrow)).first (.refl g) t2.ext.toGrow su1 hem hd hv with
    ⟨v, σ1, -, hk, hs⟩ | hL
  · rcases (f2 T (hS.sub s1.ext.toGrow s3.ext.toGrow)).first (st := v :: st) (base := base) s1.ext.toGrow s3.ext.toGrow su2 ff ff hk with
      ⟨w, σ2, -, hk, hs'⟩ | hL
    · have hs := hs.trans hs'
      have hx := Steps.exec' K f3 ⟨w :: v :: st, σ2⟩ l3 ho
      have hsz : 0 < szOf args := by unfold szOf; omega
      rcases he K g2.code.length n v w st σ2 with ⟨eff, e1, e2'⟩ | ⟨eff, e1, e2'⟩
      · rw [e1] at hk; rw [e2'] at hx
        exact Reach.eff hS.ex e2 (emitM_ex h3) (.refl g') (by omega) l3.symm (hs.trans hx)
          (fun v σ => Steps.refl _) hk
      · rw [e1] at hk; rw [e2'] at hx
        exact Reach.effB hS.ex e2 (emitM_ex h3) (.refl g') (by omega) l3.symm (hs.trans hx)
          (fun v σ => Steps.refl _) hk
    · exact .inr (hL.pre hs)
  · exact .inr hL

/-! ### Operators -/

theorem imm_i32 {e : Node} {i : BitVec 32} (h : e.is_imm_i32 = some i) : e = .lit (.int i.toInt) := by
  unfold Node.is_imm_i32 at h
  split at h
  · split at h
    · rename_i j hj
      cases h
      rw [BitVec.toInt_ofInt_eq_self (by decide) (by omega) (by omega)]
    · cases h
  · cases h

theorem imm_u32 {e : Node} {i : BitVec 32} (h : e.is_imm_u32 = some i) : e = .lit (.int i.toNat) := by
  unfold Node.is_imm_u32 at h
  split at h
  · split at h
    · rename_i j hj
      cases h
      rw [BitVec.toNat_ofInt]
      congr 2
      omega
    · cases h
  · cases h

/-- `binop!`, `binop_imm!`. -/
theorem GenOK.bin {x : Ctx} {op : BinOp} {imm : Option (BitVec 32)} {m1 m2 : M Unit}
    {sup1 sup2 : Bool → Bool → Bool → Prop} {ev1 ev2 : Env W X → Nat → St W → Ans W X}
    (hm1 : GenOK x m1 true sup1 ev1) (hm2 : GenOK x m2 true sup2 ev2)
    (hi : ∀ i, imm = some i → ∀ K n σ, ev2 K n σ = some (.val (Value.integer i.toInt), σ)) :
    GenOK x (genBin op imm m1 m2) true (fun lp e d => sup1 lp e d ∧ sup2 lp false false)
      (fun K n σ => onVal (ev1 K n σ) fun v σ => onVal (ev2 K n σ) fun w σ => evalBin K.world op v w σ) := by
  unfold genBin
  split
  · rename_i o i ho
    have key : ∀ (K : Env W X) n (v : Val) σ, (onVal (ev2 K n σ) fun w σ => evalBin K.world op v w σ) =
        evalBin K.world op v (Value.integer i.toInt) σ := by
      intro K n v σ; rw [hi i rfl]; rfl
    have := GenOK.op1 (k := fun K n v σ => onVal (ev2 K n σ) fun w σ => evalBin K.world op v w σ)
      (op := o) (args := [.o32 i]) hm1 (by cases op with
        | c o' => cases o' <;> (cases ho; okop)
        | _ => first | (cases ho; okop) | cases ho) ?_
    · exact this.congr rfl (fun _ _ _ h => h.1) fun _ _ _ => rfl
    · intro K pc n v st σ
      rw [key]
      cases op with
      | c o' =>
        cases ho
        refine .inr (.inl ⟨K.world.cmp o' v (Value.integer i.toInt) σ, rfl, ?_⟩)
        rw [← K.world.cmpI_eq]
        cases o' <;> rfl
      | add =>
        cases ho
        refine .inl ⟨K.world.bin .add v (Value.integer i.toInt) σ, rfl, ?_⟩
        rw [← K.world.binI_eq _ rfl]; rfl
      | sub =>
        cases ho
        refine .inl ⟨K.world.bin .sub v (Value.integer i.toInt) σ, rfl, ?_⟩
        rw [← K.world.binI_eq _ rfl]; rfl
      | _ => cases ho
  · refine GenOK.op2 hm1 hm2 (by cases op with | c o' => cases o' <;> rfl | _ => rfl) ?_
    intro K pc n v w st σ
    cases op with
    | c o' => exact .inr ⟨K.world.cmp o' v w σ, rfl, by cases o' <;> rfl⟩
    | _ => exact .inl ⟨_, rfl, rfl⟩

end Verif.Codegen
