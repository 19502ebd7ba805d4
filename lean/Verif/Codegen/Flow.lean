import Verif.Codegen.Comp
/-!
# Conditions, loops and jumps out of them
-/
namespace Verif.Codegen
open Verif.ISeq Op
open Verif.Value (Val)

variable {W X : Type}

/-! ### Conditions -/

/-- A compiler action that evaluates a condition and jumps (to a place not known yet) if its truth is `b`. -/
def CondOK (x : Ctx) (m : M Nat) (b : Bool) (sup : Bool → Bool → Bool → Prop)
    (ev : Env W X → Nat → St W → Ans W X) : Prop :=
  ∀ g s g', m g = .ok (s, g') → ∀ L, Step g L g' (s :: L) fun c K => ∀ T t, Site' c K T g g' → Site c s t →
    t ≤ c.length →
    Does x g g' c K T sup (ev K) (fun st v σ => .at (if truthy v = b then t else g'.code.length) ⟨st, σ⟩)

theorem CondOK.jf {x : Ctx} {m : M Unit} {sup : Bool → Bool → Bool → Prop}
    {ev : Env W X → Nat → St W → Ans W X} (hm : GenOK x m true sup ev) : CondOK x (genJF m) false sup ev := by
  intro g s g' hg L
  obtain ⟨_, g1, h1, h2⟩ := bindM.1 hg
  have s1 := hm _ _ _ h1 L
  have s2 := jumpM_step (W := W) (X := X) L h2
  refine (s1.trans s2).mono ?_
  rintro c K ⟨f1, f2⟩ T t hS hsite ht n emp d base st σ r σ' su he hd hv
  refine ((f1 T (hS.sub (.refl _) s2.ext.toGrow)).last (.refl g) s2.ext.toGrow su he hd hv).post fun v => ?_
  have := run_jf (K := K) h2 f2 hsite hS.sz.code hS.len ht v st σ'
  cases hb : truthy v <;> simpa [hb, Then] using this

theorem CondOK.jt {x : Ctx} {m : M Unit} {sup : Bool → Bool → Bool → Prop}
    {ev : Env W X → Nat → St W → Ans W X} (hm : GenOK x m true sup ev) :
    CondOK x (do m; jumpM JMP_T) true sup ev := by
  intro g s g' hg L
  obtain ⟨_, g1, h1, h2⟩ := bindM.1 hg
  have s1 := hm _ _ _ h1 L
  have s2 := jumpM_step (W := W) (X := X) L h2
  refine (s1.trans s2).mono ?_
  rintro c K ⟨f1, f2⟩ T t hS hsite ht n emp d base st σ r σ' su he hd hv
  exact ((f1 T (hS.sub (.refl _) s2.ext.toGrow)).last (.refl g) s2.ext.toGrow su he hd hv).post fun v =>
    run_jt (K := K) h2 f2 hsite hS.sz.code hS.len ht v st σ'

theorem CondOK.cmp {x : Ctx} {o : CmpOp} {imm : Option (BitVec 32)} {m1 m2 : M Unit}
    {sup1 sup2 : Bool → Bool → Bool → Prop} {ev1 ev2 : Env W X → Nat → St W → Ans W X}
    (hm1 : GenOK x m1 true sup1 ev1) (hm2 : GenOK x m2 true sup2 ev2)
    (hi : ∀ i, imm = some i → ∀ K n σ, ev2 K n σ = some (.val (Value.integer i.toInt), σ)) :
    CondOK x (genJFCmp o imm m1 m2) false (fun lp e d => sup1 lp e d ∧ sup2 lp false false)
      (fun K n σ => onVal (ev1 K n σ) fun v σ => onVal (ev2 K n σ) fun w σ => evalBin K.world (.c o) v w σ) := by
  intro g s g' hg L
  obtain ⟨_, g1, h1, hg⟩ := bindM.1 hg
  have s1 := hm1 _ _ _ h1 L
  cases imm with
  | some i =>
    obtain ⟨_, g2, h2, hg⟩ := (bindM (m := emitM o.jfI [.o32 i, .o32 0]) (f := fun _ => curM)).1 hg
    obtain ⟨rfl, rfl⟩ := curM_ok hg
    have s2 := emitHole_step (W := W) (X := X) (args := [.o32 i]) L h2
    have l2 := emitM_len h2
    refine (s1.trans s2).mono ?_
    rintro c K ⟨f1, f2⟩ T t hS hsite ht n emp d base st σ r σ' ⟨su1, su2⟩ he hd hv
    rcases (f1 T (hS.sub (.refl _) s2.ext.toGrow)).first (.refl g) s2.ext.toGrow su1 he hd hv with
      ⟨v, σ1, -, hk, hs⟩ | hL
    · refine Reach.pre hs ?_
      rw [hi i rfl] at hk
      dsimp only [onVal, evalBin] at hk
      have hl : g'.code.length = g1.code.length + 9 := l2
      have hsite' : Site c (g1.code.length + 9) t := by rw [← hl]; exact hsite
      have hglen := hS.len
      have hr : readAt32 c (g1.code.length + 1) = some i := by
        refine read32_bytes fun k b hb => ?_
        have := f2 (k + 1) b (by simpa [opBytes] using hb)
        rwa [show g1.code.length + 1 + k = g1.code.length + (k + 1) by omega]
      have hc := Steps.condI K (t := t) (op := o.jfI) (f2 0 _ rfl) (by cases o <;> rfl) hr hsite' hS.sz.code ht
        (by omega) ⟨v :: st, σ1⟩
      have key : testOp K o.jfI (some i) g1.code.length ⟨v :: st, σ1⟩ =
          match K.world.cmp o v (Value.integer i.toInt) σ1 with
          | (.ok b, σ) => .inr (b, ⟨st, σ⟩)
          | (.error x, σ) => .inl (fail K (g1.code.length + 5) x σ) := by
        rw [← K.world.cmpI_eq]; cases o <;> rfl
      generalize K.world.cmp o v (Value.integer i.toInt) σ1 = eff at hk key
      rcases eff with ⟨e | b, σ2⟩
      · cases hk
        have := hc.1 _ key
        rw [conf_fail] at this
        exact .inr (Leaves.err hS.ex s1.ext.toGrow (emitM_ex h2) (.refl g') (by omega) (by omega) this)
      · cases hk
        have := hc.2 _ _ key
        refine .inl ⟨_, rfl, ?_⟩
        dsimp only
        rw [truthy_bool, hl]
        cases b <;> simpa [Then] using this
    · exact .inr hL
  | none =>
    obtain ⟨_, g2, h2, hg⟩ := (bindM (m := m2) (f := fun _ => emitM o.jf [.o32 0] >>= fun _ => curM)).1 hg
    obtain ⟨_, g3, h3, hg⟩ := bindM.1 hg
    obtain ⟨rfl, rfl⟩ := curM_ok hg
    have s2 := hm2 _ _ _ h2 L
    have s3 := emitHole_step (W := W) (X := X) (args := []) L h3
    have l3 := emitM_len h3
    have t2 := s2.trans s3
    refine (s1.trans t2).mono ?_
    rintro c K ⟨f1, f2, f3⟩ T t hS hsite ht n emp d base st σ r σ' ⟨su1, su2⟩ he hd hv
    have e2 : Grow g g2 := (s1.ext.trans s2.ext).toGrow
    rcases (f1 T (hS.sub (.refl _) t2.ext.toGrow)).first (.refl g) t2.ext.toGrow su1 he hd hv with
      ⟨v, σ1, -, hk, hs⟩ | hL
    · refine Reach.pre hs ?_
      rcases (f2 T (hS.sub s1.ext.toGrow s3.ext.toGrow)).first (base := base) (st := v :: st) s1.ext.toGrow
        s3.ext.toGrow su2 ff ff hk with ⟨w, σ2, -, hk, hs⟩ | hL
      · refine Reach.pre hs ?_
        dsimp only [evalBin] at hk
        have hl : g'.code.length = g2.code.length + 5 := l3
        have hsite' : Site c (g2.code.length + 5) t := by rw [← hl]; exact hsite
        have hglen := hS.len
        have hc := Steps.cond K (t := t) (op := o.jf) (f3 0 _ rfl) (by cases o <;> rfl) hsite' hS.sz.code ht
          (by omega) ⟨w :: v :: st, σ2⟩
        have key : testOp K o.jf none g2.code.length ⟨w :: v :: st, σ2⟩ =
            match K.world.cmp o v w σ2 with
            | (.ok b, σ) => .inr (b, ⟨st, σ⟩)
            | (.error x, σ) => .inl (fail K (g2.code.length + 1) x σ) := by
          cases o <;> rfl
        generalize K.world.cmp o v w σ2 = eff at hk key
        rcases eff with ⟨e | b, σ3⟩
        · cases hk
          have := hc.1 _ key
          rw [conf_fail] at this
          exact .inr (Leaves.err hS.ex e2 (emitM_ex h3) (.refl g') (by omega) (by omega) this)
        · cases hk
          have := hc.2 _ _ key
          refine .inl ⟨_, rfl, ?_⟩
          dsimp only
          rw [truthy_bool, hl]
          cases b <;> simpa [Then] using this
      · exact .inr hL
    · exact .inr hL

theorem CondOK.congr {x : Ctx} {m m' : M Nat} {b : Bool} {sup sup' : Bool → Bool → Bool → Prop}
    {ev ev' : Env W X → Nat → St W → Ans W X} (h : CondOK x m b sup ev) (hm : m' = m)
    (hs : ∀ lp e d, sup' lp e d → sup lp e d) (he : ∀ K n σ, ev' K n σ = ev K n σ) : CondOK x m' b sup' ev' := by
  subst hm
  intro g u g' hg L
  refine (h g u g' hg L).mono ?_
  intro c K f T t hS hsite ht n emp d base st σ r σ' hsup hem hd hv
  exact f T t hS hsite ht n emp d base st σ r σ' (hs _ _ _ hsup) hem hd (by rw [← he]; exact hv)

/-! ### `if` -/

theorem Then_len {g1 g2 : G} {uv : Bool} (h : g2.code.length = g1.code.length) :
    Then (W := W) (X := X) g2 uv = Then g1 uv := by unfold Then; rw [h]

theorem GenOK.ite {x : Ctx} {mc : M Nat} {mt me : M Unit} {uv : Bool}
    {supc supt supe : Bool → Bool → Bool → Prop} {evc evt eve : Env W X → Nat → St W → Ans W X}
    (hc : CondOK x mc false supc evc) (ht : GenOK x mt uv supt evt) (he : GenOK x me uv supe eve) :
    GenOK x (do let src1 ← mc; mt; let src2 ← jumpM JMP; patchCurM src1; me; patchCurM src2) uv
      (fun lp e d => supc lp e d ∧ supt lp e d ∧ supe lp e d)
      (fun K n σ => onVal (evc K n σ) fun v σ => if truthy v then evt K n σ else eve K n σ) := by
  intro g u g' hg L
  obtain ⟨src1, g1, h1, hg⟩ := bindM.1 hg
  obtain ⟨_, g2, h2, hg⟩ := bindM.1 hg
  obtain ⟨src2, g3, h3, hg⟩ := bindM.1 hg
  obtain ⟨_, g4, h4, hg⟩ := bindM.1 hg
  obtain ⟨_, g5, h5, h6⟩ := bindM.1 hg
  have s1 := hc _ _ _ h1 L
  have s2 := ht _ _ _ h2 (src1 :: L)
  have s3 := jumpM_step (W := W) (X := X) (src1 :: L) h3
  have sw : Step (W := W) (X := X) g3 (src2 :: src1 :: L) g3 (src1 :: src2 :: L) (fun _ _ => True) :=
    ⟨Stp.book rfl ((List.Perm.swap _ _ _).append_right _) fun K f => f, .refl _⟩
  have s4 := patchCurM_step (W := W) (X := X) (src2 :: L) h4
  have s5 := he _ _ _ h5 (src2 :: L)
  have s6 := patchCurM_step (W := W) (X := X) L h6
  have l4 := patchCurM_len h4
  have l6 := patchCurM_len h6
  have t5 := s5.trans s6
  have t3 := s3.trans (sw.trans (s4.trans t5))
  have t2 := s2.trans t3
  refine (s1.trans t2).mono ?_
  rintro c K ⟨f1, f2, f3, -, f4, f5, f6⟩ T hS n emp d base st σ r σ' ⟨su1, su2, su3⟩ hem hd hv
  have hlen := hS.len
  have k4 := t5.ext.len
  have k3 : g3.code.length ≤ c.length := by omega
  have e4 : Grow g g4 := (s1.ext.trans (s2.ext.trans (s3.ext.trans (sw.ext.trans s4.ext)))).toGrow
  rcases (f1 T g3.code.length (hS.sub (.refl _) t2.ext.toGrow) f4 k3).first (.refl g) t2.ext.toGrow su1 hem hd hv
    with ⟨v, σ1, -, hk, hs⟩ | hL
  · by_cases hb : truthy v = true
    · rw [if_neg (by simp [hb])] at hs
      rw [if_pos hb] at hk
      refine Reach.pre hs ?_
      refine ((f2 T (hS.sub s1.ext.toGrow t3.ext.toGrow)).last s1.ext.toGrow t3.ext.toGrow su2 hem hd hk).post
        fun w => ?_
      rw [Then_len l6]
      exact run_jmp h3 f3 f6 hS.sz.code k3 (by omega) _
    · rw [if_pos (by simpa using hb)] at hs
      rw [if_neg hb] at hk
      refine Reach.pre hs ?_
      have := (f5 T (hS.sub e4 s6.ext.toGrow)).last e4 s6.ext.toGrow su3 hem hd hk
      rw [Then_len l6, ← l4]
      exact this
  · exact .inr hL

/-- Without an else clause. -/
theorem GenOK.iteN {x : Ctx} {mc : M Nat} {mt : M Unit}
    {supc supt : Bool → Bool → Bool → Prop} {evc evt : Env W X → Nat → St W → Ans W X}
    (hc : CondOK x mc false supc evc) (ht : GenOK x mt false supt evt) :
    GenOK x (do let src1 ← mc; mt; patchCurM src1) false
      (fun lp e d => supc lp e d ∧ supt lp e d)
      (fun K n σ => onVal (evc K n σ) fun v σ => if truthy v then evt K n σ else some (.val Value.nil, σ)) := by
  intro g u g' hg L
  obtain ⟨src1, g1, h1, hg⟩ := bindM.1 hg
  obtain ⟨_, g2, h2, h3⟩ := bindM.1 hg
  have s1 := hc _ _ _ h1 L
  have s2 := ht _ _ _ h2 (src1 :: L)
  have s3 := patchCurM_step (W := W) (X := X) L h3
  have l3 := patchCurM_len h3
  have t2 := s2.trans s3
  refine (s1.trans t2).mono ?_
  rintro c K ⟨f1, f2, f3⟩ T hS n emp d base st σ r σ' ⟨su1, su2⟩ hem hd hv
  have hlen := hS.len
  rcases (f1 T g2.code.length (hS.sub (.refl _) t2.ext.toGrow) f3 (by omega)).first (.refl g) t2.ext.toGrow su1
    hem hd hv with ⟨v, σ1, -, hk, hs⟩ | hL
  · by_cases hb : truthy v = true
    · rw [if_neg (by simp [hb])] at hs
      rw [if_pos hb] at hk
      rw [Then_len l3]
      exact Reach.pre hs ((f2 T (hS.sub s1.ext.toGrow s3.ext.toGrow)).last s1.ext.toGrow s3.ext.toGrow su2 hem hd hk)
    · rw [if_pos (by simpa using hb)] at hs
      rw [if_neg hb] at hk
      cases hk
      rw [Then_len l3]
      exact .inl ⟨_, rfl, hs⟩
  · exact .inr hL

/-! ### `while` -/

theorem Leaves.cast {K : Env W X} {c : Code} {x : Ctx} {T T' : Tgt} {g0 g1 g2 g' : G}
    {base base' : List Val} {k0 : Conf (S W) (R W X)} {r : Res X} {σ : St W}
    (hlen0 : g1.code.length = g0.code.length) (hlen : g2.code.length = g'.code.length)
    (hex : g'.ex = g2.ex) (hj0 : g0.jumps = g1.jumps) (hj : g'.jumps = g2.jumps) (ht : T'.left x = T.left x)
    (hb : ∀ v, r ≠ .brk v) (hn : ∀ v, r ≠ .nxt v)
    (h : Leaves K c x T' g1 g2 base' k0 r σ) : Leaves K c x T g0 g' base k0 r σ := by
  cases r with
  | val v => exact h
  | raise e =>
    obtain ⟨pe, p1, p2, p3, p4⟩ := h
    exact ⟨pe, by omega, by omega, by rw [hex]; exact p3, p4⟩
  | brk v => exact absurd rfl (hb v)
  | nxt v => exact absurd rfl (hn v)
  | ret v cr =>
    simp only [Leaves] at h ⊢
    have e1 : ensured g0 = ensured g1 := by unfold ensured; rw [hj0]
    have e2 : leftOf x g' = leftOf x g2 := by unfold leftOf mretsOf retsOf; rw [hj]
    rw [e1, e2, ← ht]
    exact h

theorem dispTo_sub5 (p t : Nat) : dispTo p t - 5 = dispTo (p + 5) t := by
  unfold dispTo
  have : ((t : Int) - ((p + 5 : Nat) : Int)) = ((t : Int) - p) - 5 := by omega
  rw [this, sub_eq_add_neg ((t : Int) - p), BitVec.ofInt_add, BitVec.sub_eq_add_neg]
  rfl

theorem patchEscapes_step {start : Nat} {es : List (Nat × EK)} {g g' : G} {u : Unit} (L : List Nat)
    (h : patchEscapes start es g = .ok (u, g')) :
    Step (W := W) (X := X) g (es.map (·.1) ++ L) g' L (fun c _ =>
      (∀ s, (s, EK.brk) ∈ es → Site c s g.code.length) ∧ (∀ s, (s, EK.nxt) ∈ es → Site c s start)) ∧
      g'.code.length = g.code.length := by
  induction es generalizing g u with
  | nil =>
    obtain ⟨_, rfl⟩ := pureM.1 h
    exact ⟨(Step.refl _ _).mono (by simp), rfl⟩
  | cons e es ih =>
    obtain ⟨p, k⟩ := e
    cases k with
    | brk =>
      obtain ⟨_, g1, h1, h2⟩ := bindM.1 h
      obtain ⟨st, hl⟩ := ih h2
      have hl1 := patchCurM_len h1
      refine ⟨((patchCurM_step _ h1).trans st).mono ?_, by omega⟩
      rintro c K ⟨e1, e2, e3⟩
      refine ⟨fun s hs => ?_, fun s hs => ?_⟩
      · rcases List.mem_cons.1 hs with hs | hs
        · cases hs; exact e1
        · rw [← hl1]; exact e2 s hs
      · rcases List.mem_cons.1 hs with hs | hs
        · cases hs
        · exact e3 s hs
    | nxt =>
      obtain ⟨_, g1, h1, h2⟩ := bindM.1 h
      obtain ⟨st, hl⟩ := ih h2
      have hl1 := patchM_len h1
      refine ⟨((patchM_step _ h1).trans st).mono ?_, by omega⟩
      rintro c K ⟨e1, e2, e3⟩
      refine ⟨fun s hs => ?_, fun s hs => ?_⟩
      · rcases List.mem_cons.1 hs with hs | hs
        · cases hs
        · rw [← hl1]; exact e2 s hs
      · rcases List.mem_cons.1 hs with hs | hs
        · cases hs; exact e1
        · exact e3 s hs

/-- A new loop. -/
def inLoop (g : G) : G := { g with loops := ⟨false, []⟩ :: g.loops }

/-- Leaving the loop. -/
theorem popLoop_ok {g g6 g7 : G} {esc : List (Nat × EK)} (e : Ext (inLoop g) g6) (h : popLoop g6 = .ok (esc, g7)) :
    g6.loops = ⟨false, esc⟩ :: g.loops ∧ g7 = { g6 with loops := g.loops } ∧ Ext g g7 := by
  have hl := e.loops
  unfold popLoop at h
  have hin : (inLoop g).loops = ⟨false, []⟩ :: g.loops := rfl
  rw [hin] at hl
  generalize hb : g6.loops = b at hl h
  cases hl with
  | @cons _ l' _ hl =>
    obtain ⟨h1, E, h2, h3⟩ := hl
    dsimp only at h
    cases h
    refine ⟨?_, rfl, ⟨⟨e.len, HeadExt.refl (LoopExt.refl _ _) _, e.jumps, e.ex⟩, e.consts, e.case1, e.case2⟩⟩
    cases l'; simp_all

theorem GenOK.while_ {x : Ctx} {mc : M Nat} {mb : M Unit} {b : Bool} {uv : Bool}
    {supc supb : Bool → Bool → Bool → Prop} {evc evb : Env W X → Nat → St W → Ans W X}
    (hc : CondOK x mc b supc evc) (hb : GenOK x mb false supb evb) :
    GenOK x (do
      pushLoop
      let loop_start ← curM
      let src ← mc
      mb
      jmpBackM loop_start
      patchCurM src
      whenM uv pushNil
      let src ← jumpM JMP
      let esc ← popLoop
      patchEscapes loop_start esc
      whenM (!uv) Codegen.pop
      patchCurM src) uv
      (fun _ e _ => supc true e true ∧ supb true e true)
      (fun K n σ => loopN (evc K n) (evb K n) b n σ) := by
  intro g u g' hg L
  obtain ⟨_, g0, h0, hg⟩ := bindM.1 hg
  have hg0 : g0 = inLoop g := by cases h0; rfl
  subst hg0
  obtain ⟨ls, g0', hcu, hg⟩ := bindM.1 hg
  obtain ⟨hcu1, hcu2⟩ := curM_ok hcu
  subst hcu1 hcu2
  obtain ⟨src, g1, h1, hg⟩ := bindM.1 hg
  obtain ⟨_, g2, h2, hg⟩ := bindM.1 hg
  obtain ⟨_, g3, h3, hg⟩ := bindM.1 hg
  obtain ⟨_, g4, h4, hg⟩ := bindM.1 hg
  obtain ⟨_, g5, h5, hg⟩ := bindM.1 hg
  obtain ⟨src2, g6, h6, hg⟩ := bindM.1 hg
  obtain ⟨esc, g7, h7, hg⟩ := bindM.1 hg
  obtain ⟨_, g8, h8, hg⟩ := bindM.1 hg
  obtain ⟨_, g9, h9, h10⟩ := bindM.1 hg
  have s1 := hc _ _ _ h1 L
  have s2 := hb _ _ _ h2 (src :: L)
  obtain ⟨s3, l3⟩ := jmpBackM_step (W := W) (X := X) (src :: L) h3
  have s4 := patchCurM_step (W := W) (X := X) L h4
  have l4 := patchCurM_len h4
  have s5 : Step (W := W) (X := X) g4 L g5 L (fun c K => ∀ st σ, Steps K c (.at g4.code.length ⟨st, σ⟩)
      (.at g5.code.length ⟨if uv then Value.nil :: st else st, σ⟩)) := by
    cases uv with
    | false =>
      obtain ⟨_, rfl⟩ := pureM.1 h5
      exact (Step.refl _ _).mono fun c K _ st σ => Steps.refl _
    | true =>
      exact (emitM_step L h5).mono fun c K hA st σ => Steps.next K hA (emitM_len h5) rfl rfl
  have s6 := jumpM_step (W := W) (X := X) L h6
  have t4 := s4.trans (s5.trans s6)
  have t3 := s3.trans t4
  have t2 := s2.trans t3
  have t1 := s1.trans t2
  obtain ⟨hl6, hg7, e7⟩ := popLoop_ok t1.ext h7
  obtain ⟨s8, l8⟩ := patchEscapes_step (W := W) (X := X) (src2 :: L) h8
  have s9 := popTail (W := W) (X := X) (src2 :: L) h9
  have s10 := patchCurM_step (W := W) (X := X) L h10
  have l10 := patchCurM_len h10
  have t8 := s8.trans (s9.trans s10)
  have b0 : Stp (W := W) (X := X) g L (inLoop g) L (fun _ _ => True) :=
    Stp.book rfl (List.Perm.refl _) fun K f => ⟨f.ex, f.consts, f.case1, f.case2⟩
  have b7 : Stp (W := W) (X := X) g6 (src2 :: L) g7 (esc.map (·.1) ++ src2 :: L) (fun _ _ => True) := by
    refine Stp.book (by rw [hg7]) ?_ fun K f => by rw [hg7] at f; exact ⟨f.ex, f.consts, f.case1, f.case2⟩
    unfold pend
    rw [hl6, hg7]
    simp only [List.flatMap_cons, List.append_assoc]
    rw [← List.append_assoc (src2 :: L), ← List.append_assoc (esc.map (·.1))]
    exact List.perm_append_comm.append_right _
  refine ⟨(b0.trans (t1.stp.trans (b7.trans t8.stp))).mono ?_, e7.trans t8.ext⟩
  rintro c K ⟨-, ⟨f1, f2, f3, f4, f5, f6⟩, -, ⟨fb, fn⟩, f9, f10⟩ T hS n emp d base st σ r σ' ⟨su1, su2⟩ hem hd hv
  have hlen := hS.len
  have k8 := t8.ext.len
  have l7 : g7.code.length = g6.code.length := by rw [hg7]
  have k6 := t4.ext.len
  have k3 : g3.code.length ≤ c.length := by omega
  have l0 : (inLoop g).code.length = g.code.length := rfl
  have kk := t1.ext.len
  let T' : Tgt := ⟨g7.code.length, g.code.length, T.ret, T.mret⟩
  have hj7 : g7.jumps = g6.jumps := by rw [hg7]
  have hS6 : Site' c K T' (inLoop g) g6 := by
    refine ⟨hS.sz, by omega, hS.ex, ?_⟩
    have hesc : escOf g6 = esc := by unfold escOf; rw [hl6]
    refine ⟨fun s hs _ => fb s (by rwa [hesc] at hs), fun s hs _ => fn s (by rwa [hesc] at hs), ?_, ?_,
      by show g7.code.length ≤ _; omega, by show g.code.length ≤ _; omega, hS.res.br, hS.res.bm⟩
    · intro s hs hlt
      refine hS.res.ret s (t8.ext.toGrow.rets _ ?_) hlt
      unfold retsOf at hs ⊢; rw [hj7]; exact hs
    · intro s hs hlt
      refine hS.res.mret s (t8.ext.toGrow.mrets _ ?_) hlt
      unfold mretsOf at hs ⊢; rw [hj7]; exact hs
  have D1 := f1 T' g3.code.length (hS6.sub (.refl _) t2.ext.toGrow) f4 k3
  have D2 := f2 T' (hS6.sub s1.ext.toGrow t3.ext.toGrow)
  -- other outcomes
  have other : ∀ k0 r σ', (∀ v, r ≠ .brk v) → (∀ v, r ≠ .nxt v) → Leaves K c x T' (inLoop g) g6 st k0 r σ' →
      Leaves K c x T g g' base k0 r σ' := by
    intro k0 r σ' hb hn hL
    refine Leaves.up (.refl g) t8.ext.toGrow (Leaves.cast (g1 := inLoop g) (T' := T') (base' := st) rfl l7.symm
      (by rw [hg7]) rfl hj7 ?_ hb hn hL)
    unfold Tgt.left; rfl
  have back : ∀ σ, Steps K c (.at g2.code.length ⟨st, σ⟩) (.at g.code.length ⟨st, σ⟩) := by
    intro σ
    refine Steps.jmp K (f3 0 _ rfl) rfl ?_ hS.sz.code (by omega) (by omega) _
    show readAt32 c _ = _
    rw [← dispTo_sub5]
    refine read32_bytes fun k b hb => ?_
    have := f3 (k + 1) b (by simpa [opBytes, l0] using hb)
    rwa [show g2.code.length + 5 - 4 + k = g2.code.length + (k + 1) by omega]
  have brk : ∀ v σ, Steps K c (.at g7.code.length ⟨v :: st, σ⟩) (Then g' uv st v σ) := by
    intro v σ
    rw [Then_len l10, ← l8]
    exact f9 v st σ
  have exit : ∀ σ, Steps K c (.at g3.code.length ⟨st, σ⟩) (Then g' uv st Value.nil σ) := by
    intro σ
    rw [Then_len l10, ← l4]
    have k9 := (s9.trans s10).ext.len
    exact (f5 st σ).trans (run_jmp h6 f6 f10 hS.sz.code (by omega) (by omega) _)
  have lt : loopTop (inLoop g) = false := rfl
  suffices H : ∀ k σ, loopN (evc K n) (evb K n) b k σ = some (r, σ') →
      Reach K c x T g g' base (.at g.code.length ⟨st, σ⟩) (Then g' uv st) r σ' from H n σ hv
  clear hv σ
  intro k
  induction k with
  | zero => intro σ hv; cases hv
  | succ k ih =>
    intro σ hv
    unfold loopN at hv
    rcases hcv : evc K n σ with _ | ⟨rc, σ1⟩
    · rw [hcv] at hv; cases hv
    rw [hcv] at hv
    have R1 := D1.last (.refl (inLoop g)) t2.ext.toGrow (n := n) (emp := emp) (d := true) (base := st) (st := st)
      (by rw [lt]; exact su1) hem (fun _ => rfl) hcv
    rcases R1 with ⟨v, rfl, hs⟩ | hL
    · dsimp only at hv hs
      by_cases ht : truthy v = b
      · rw [if_pos ht] at hv hs
        cases hv
        exact .inl ⟨_, rfl, hs.trans (exit _)⟩
      · rw [if_neg ht] at hv hs
        refine Reach.pre hs ?_
        rcases hbv : evb K n σ1 with _ | ⟨rb, σ2⟩
        · rw [hbv] at hv; cases hv
        rw [hbv] at hv
        have R2 := D2.last s1.ext.toGrow t3.ext.toGrow (n := n) (emp := emp) (d := true) (base := st) (st := st)
          (by rw [lt]; exact su2) hem (fun _ => rfl) hbv
        rcases R2 with ⟨w, rfl, hs2⟩ | hL
        · dsimp only at hv
          exact Reach.pre (hs2.trans (back σ2)) (ih σ2 hv)
        · cases rb with
          | val w => exact hL.elim
          | raise e => cases hv; exact .inr (other _ _ _ (by simp) (by simp) hL)
          | ret v cr => cases hv; exact .inr (other _ _ _ (by simp) (by simp) hL)
          | brk v =>
            cases hv
            exact .inl ⟨v, rfl, Steps.trans hL (brk v _)⟩
          | nxt v =>
            exact Reach.pre hL (ih σ2 hv)
    · cases rc with
      | val w => exact hL.elim
      | raise e => cases hv; exact .inr (other _ _ _ (by simp) (by simp) hL)
      | ret v cr => cases hv; exact .inr (other _ _ _ (by simp) (by simp) hL)
      | brk v =>
        cases hv
        exact .inl ⟨v, rfl, Steps.trans hL (brk v _)⟩
      | nxt v => exact Reach.pre hL (ih σ1 hv)

/-! ### `break`, `next`, `return` -/

theorem escape_step {k : EK} {g g1 g' : G} {src : Nat} {u : Unit} (L : List Nat) (ht : loopTop g = false) (h1 : jumpM JMP g = .ok (src, g1))
    (h2 : addEscape src k g1 = .ok (u, g')) :
    Step (W := W) (X := X) g L g' L (fun c _ => c[g.code.length]? = some JMP) ∧
      g'.code.length = g1.code.length ∧ (src, k) ∈ escOf g' := by
  have s1 := jumpM_step (W := W) (X := X) L h1
  obtain ⟨l1, l1'⟩ := jumpM_len h1
  have hloops : g1.loops = g.loops := by rw [(jumpM_ok h1).1]
  have hex : g1.ex = g.ex := jumpM_ex h1
  have hj : g1.jumps = g.jumps := by rw [(jumpM_ok h1).1]
  unfold addEscape at h2
  rcases hl : g1.loops with _ | ⟨l, ls⟩
  · rw [hl] at h2; cases h2
  rw [hl] at h2
  cases h2
  have b2 : Stp (W := W) (X := X) g1 (src :: L)
      { g1 with loops := { l with escape := l.escape ++ [(src, k)] } :: ls } L (fun _ _ => True) := by
    refine Stp.book rfl ?_ fun K f => ⟨f.ex, f.consts, f.case1, f.case2⟩
    unfold pend
    rw [hl]
    simp only [List.flatMap_cons, List.map_append, List.map_cons, List.map_nil, List.append_assoc,
      List.cons_append, List.nil_append]
    simpa using (List.perm_middle (a := src) (l₁ := L ++ l.escape.map (·.1))
      (l₂ := ls.flatMap (fun l => l.escape.map (·.1)) ++ g1.jumps.flatMap (fun d => d.rets ++ d.mrets))).symm
  refine ⟨⟨(s1.stp.trans b2).mono fun c K h => h.1, ⟨?_, ?_, ?_, ?_⟩, s1.ext.consts, s1.ext.case1, s1.ext.case2⟩,
    rfl, ?_⟩
  · exact s1.ext.len
  · rw [← hloops, hl]
    refine .cons ⟨rfl, [(src, k)], rfl, ?_, fun h => by
      rw [loopTop, ← hloops, hl] at ht; exact absurd (h.symm.trans ht) (by decide)⟩
    intro e he
    simp only [List.mem_singleton] at he
    subst he
    show g.code.length < src ∧ src ≤ g1.code.length
    omega
  · exact s1.ext.jumps
  · exact s1.ext.ex
  · simp [escOf]

theorem run_term {K : Env W X} {c : Code} {pos : Nat} {op : Byte} (hA : At c pos op []) (ht : isTerm op = true)
    (s : S W) : Steps K c (.at pos s) (.done ((machine K).term op s)) := Steps.term K hA.op ht s

theorem GenOK.brk {x : Ctx} {m : M Unit} {uv : Bool} {sup : Bool → Bool → Bool → Prop}
    {ev : Env W X → Nat → St W → Ans W X} (hm : GenOK x m true sup ev) :
    GenOK x (genBreak x m) uv (fun lp e d => (lp = true → d = true) ∧ sup lp e d)
      (fun K n σ => onVal (ev K n σ) fun v σ => some (.brk v, σ)) := by
  intro g u g' hg L
  unfold genBreak at hg
  rcases hl : g.loops with _ | ⟨l, ls⟩
  · rw [hl] at hg; cases hg
  rw [hl] at hg
  dsimp only at hg
  by_cases htop : l.top = true
  · rw [if_pos htop] at hg
    have hlt : loopTop g = true := by unfold loopTop; rw [hl]; exact htop
    by_cases hk : x.kind = some .block
    · rw [hk] at hg
      obtain ⟨_, g1, h1, h2⟩ := bindM.1 hg
      have s1 := hm _ _ _ h1 L
      have s2 := emitM_step (W := W) (X := X) L h2
      refine (s1.trans s2).mono ?_
      rintro c K ⟨f1, f2⟩ T hS n emp d base st σ r σ' ⟨-, su⟩ he hd hv
      rcases (f1 T (hS.sub (.refl _) s2.ext.toGrow)).first (.refl g) s2.ext.toGrow su he hd hv with
        ⟨v, σ1, -, hk, hs⟩ | hL
      · cases hk
        refine .inr ?_
        simp only [Leaves, hlt, if_true]
        exact hs.trans (run_term f2 rfl _)
      · exact .inr hL
    · exfalso
      revert hg hk
      rcases x.kind with _ | k
      · intro hg _; cases hg
      · cases k <;> intro hg hk <;> first | exact hk rfl | cases hg
  · rw [if_neg htop] at hg
    have hlt : loopTop g = false := by unfold loopTop; rw [hl]; simpa using htop
    obtain ⟨_, g1, h1, hg⟩ := bindM.1 hg
    obtain ⟨src, g2, h2, h3⟩ := bindM.1 hg
    have s1 := hm _ _ _ h1 L
    obtain ⟨s2, l2, hin⟩ := escape_step (W := W) (X := X) L (s1.ext.toGrow.loopTop.trans hlt) h2 h3
    obtain ⟨l2', l2''⟩ := jumpM_len h2
    refine (s1.trans s2).mono ?_
    rintro c K ⟨f1, f2⟩ T hS n emp d base st σ r σ' ⟨hdd, su⟩ he hd hv
    rcases (f1 T (hS.sub (.refl _) s2.ext.toGrow)).first (.refl g) s2.ext.toGrow su he hd hv with
      ⟨v, σ1, -, hk, hs⟩ | hL
    · cases hk
      refine .inr ?_
      have := s1.ext.len
      have hglen := hS.len
      have hsite := hS.res.brk src hin (by omega)
      rw [← hd (hdd (by rw [hlt]; rfl))]
      simp only [Leaves, hlt, Bool.false_eq_true, if_false]
      exact hs.trans (run_jmp h2 f2 hsite hS.sz.code (by omega) hS.res.bb _)
    · exact .inr hL

theorem GenOK.nxt {x : Ctx} {mT mU : M Unit} {uv : Bool} {supT supU : Bool → Bool → Bool → Prop}
    {evT evU : Env W X → Nat → St W → Ans W X} (hT : GenOK x mT true supT evT)
    (hU : GenOK x mU uv supU evU) :
    GenOK x (genNext x mT mU) uv (fun lp e d => supT lp e d ∧ (lp = true → d = true ∧ uv = false ∧ supU lp e d ∧
        ∀ K n σ, ∃ v w, evT K n σ = some (.val v, σ) ∧ evU K n σ = some (.val w, σ)))
      (fun K n σ => onVal (evT K n σ) fun v σ => some (.nxt v, σ)) := by
  intro g u g' hg L
  unfold genNext at hg
  rcases hl : g.loops with _ | ⟨l, ls⟩
  · rw [hl] at hg; cases hg
  rw [hl] at hg
  dsimp only at hg
  by_cases htop : l.top = true
  · rw [if_pos htop] at hg
    have hlt : loopTop g = true := by unfold loopTop; rw [hl]; exact htop
    by_cases hk : x.kind = some .block
    · rw [hk] at hg
      obtain ⟨_, g1, h1, h2⟩ := bindM.1 hg
      have s1 := hT _ _ _ h1 L
      have s2 := emitM_step (W := W) (X := X) L h2
      refine (s1.trans s2).mono ?_
      rintro c K ⟨f1, f2⟩ T hS n emp d base st σ r σ' ⟨su, -⟩ he hd hv
      rcases (f1 T (hS.sub (.refl _) s2.ext.toGrow)).first (.refl g) s2.ext.toGrow su he hd hv with
        ⟨v, σ1, -, hk, hs⟩ | hL
      · cases hk
        refine .inr ?_
        simp only [Leaves, hlt, if_true]
        exact hs.trans (run_term f2 rfl _)
      · exact .inr hL
    · exfalso
      revert hg hk
      rcases x.kind with _ | k
      · intro hg _; cases hg
      · cases k <;> intro hg hk <;> first | exact hk rfl | cases hg
  · rw [if_neg htop] at hg
    have hlt : loopTop g = false := by unfold loopTop; rw [hl]; simpa using htop
    obtain ⟨_, g1, h1, hg⟩ := bindM.1 hg
    obtain ⟨src, g2, h2, h3⟩ := bindM.1 hg
    have s1 := hU _ _ _ h1 L
    obtain ⟨s2, l2, hin⟩ := escape_step (W := W) (X := X) L (s1.ext.toGrow.loopTop.trans hlt) h2 h3
    obtain ⟨l2', l2''⟩ := jumpM_len h2
    · refine (s1.trans s2).mono ?_
      rintro c K ⟨f1, f2⟩ T hS n emp d base st σ r σ' ⟨su, hh⟩ he hd hv
      obtain ⟨hdd, huv, suU, hvw⟩ := hh (by rw [hlt]; rfl)
      subst huv
      obtain ⟨v, w, hv1, hv2⟩ := hvw K n σ
      dsimp only at hv
      rw [hv1] at hv
      cases hv
      rcases (f1 T (hS.sub (.refl _) s2.ext.toGrow)).last (.refl g) s2.ext.toGrow suU he hd hv2 with
        ⟨v, -, hs⟩ | hL
      · refine .inr ?_
        have := s1.ext.len
        have hglen := hS.len
        have hsite := hS.res.nxt src hin (by omega)
        rw [← hd hdd]
        simp only [Leaves, hlt, Bool.false_eq_true, if_false]
        exact hs.trans (run_jmp h2 f2 hsite hS.sz.code (by omega) hS.res.bn _)
      · exact hL.elim

/-- `return` through the `ensure` clause of the innermost `begin`. -/
theorem retHole_step {x : Ctx} {d : JumpDest} {ds : List JumpDest} {g g1 : G} {dest : Nat} (L : List Nat)
    (hj : g.jumps = d :: ds) (h1 : jumpM JMP g = .ok (dest, g1)) :
    Step (W := W) (X := X) g L
      { g1 with jumps := (if x.kind = some .block then { d with mrets := d.mrets ++ [dest] }
           else { d with rets := d.rets ++ [dest] }) :: ds } L (fun c _ => c[g.code.length]? = some JMP) := by
  have s1 := jumpM_step (W := W) (X := X) L h1
  obtain ⟨l1, l1'⟩ := jumpM_len h1
  have hloops : g1.loops = g.loops := by rw [(jumpM_ok h1).1]
  have hj1 : g1.jumps = d :: ds := by rw [(jumpM_ok h1).1]; exact hj
  have b2 : Stp (W := W) (X := X) g1 (dest :: L)
      { g1 with jumps := (if x.kind = some .block then { d with mrets := d.mrets ++ [dest] }
           else { d with rets := d.rets ++ [dest] }) :: ds } L (fun _ _ => True) := by
    refine Stp.book rfl ?_ fun K f => ⟨f.ex, f.consts, f.case1, f.case2⟩
    unfold pend
    rw [hj1]
    by_cases hk : x.kind = some .block
    · simp only [if_pos hk]
      simpa using (List.perm_middle (a := dest)
        (l₁ := L ++ g1.loops.flatMap (fun l => l.escape.map (·.1)) ++ d.rets ++ d.mrets)
        (l₂ := ds.flatMap (fun d => d.rets ++ d.mrets))).symm
    · simp only [if_neg hk]
      simpa using (List.perm_middle (a := dest)
        (l₁ := L ++ g1.loops.flatMap (fun l => l.escape.map (·.1)) ++ d.rets)
        (l₂ := d.mrets ++ ds.flatMap (fun d => d.rets ++ d.mrets))).symm
  refine ⟨(s1.stp.trans b2).mono fun c K h => h.1, ⟨?_, ?_, ?_, ?_⟩, s1.ext.consts, s1.ext.case1, s1.ext.case2⟩
  · exact s1.ext.len
  · exact s1.ext.loops
  · rw [hj]
    refine .cons ?_
    by_cases hk : x.kind = some .block
    · rw [if_pos hk]
      refine ⟨rfl, ⟨[], by simp, by simp⟩, [dest], rfl, ?_⟩
      intro e he
      simp only [List.mem_singleton] at he
      subst he
      show g.code.length < e ∧ e ≤ g1.code.length
      omega
    · rw [if_neg hk]
      refine ⟨rfl, ⟨[dest], rfl, ?_⟩, [], by simp, by simp⟩
      intro e he
      simp only [List.mem_singleton] at he
      subst he
      show g.code.length < e ∧ e ≤ g1.code.length
      omega
  · exact s1.ext.ex

theorem GenOK.ret {x : Ctx} {m : M Unit} {uv : Bool} {sup : Bool → Bool → Bool → Prop}
    {ev : Env W X → Nat → St W → Ans W X} (hm : GenOK x m true sup ev) :
    GenOK x (do m; genRet x) uv sup (fun K n σ => onVal (ev K n σ) fun v σ => some (.ret v false, σ)) := by
  intro g u g' hg L
  obtain ⟨_, g1, h1, h2⟩ := bindM.1 hg
  have s1 := hm _ _ _ h1 L
  have plain : ensured g1 = false → emitM (if x.kind = some .block then MRETURN else RETURN) [] g1 = .ok (u, g') →
      Step (W := W) (X := X) g L g' L fun c K => ∀ T, Site' c K T g g' →
      Does x g g' c K T sup (fun n σ => onVal (ev K n σ) fun v σ => some (.ret v false, σ)) (Then g' uv) := by
    intro hens h2
    have s2 := emitM_step (W := W) (X := X) L h2
    refine (s1.trans s2).mono ?_
    rintro c K ⟨f1, f2⟩ T hS n emp d base st σ r σ' su he hd hv
    rcases (f1 T (hS.sub (.refl _) s2.ext.toGrow)).first (.refl g) s2.ext.toGrow su he hd hv with
      ⟨v, σ1, -, hk, hs⟩ | hL
    · cases hk
      refine .inr ?_
      rw [s1.ext.toGrow.ensured] at hens
      simp only [Leaves, hens, Bool.and_false, Bool.false_eq_true, if_false]
      refine hs.trans ?_
      unfold retR
      by_cases hb : x.kind = some .block
      · rw [if_pos hb] at f2 ⊢
        exact run_term f2 rfl _
      · rw [if_neg hb] at f2 ⊢
        exact run_term f2 rfl _
    · exact .inr hL
  unfold genRet at h2
  rcases hj : g1.jumps with _ | ⟨dj, ds⟩
  · rw [hj] at h2
    exact plain (by unfold ensured; rw [hj]) h2
  · rw [hj] at h2
    dsimp only at h2
    by_cases hens : dj.has_ensure = true
    · rw [if_pos hens] at h2
      rcases hjm : jumpM JMP g1 with e | ⟨dest, g2⟩
      · rw [hjm] at h2; cases h2
      rw [hjm] at h2
      cases h2
      have s2 := retHole_step (W := W) (X := X) (x := x) L hj hjm
      obtain ⟨l2, l2'⟩ := jumpM_len hjm
      refine (s1.trans s2).mono ?_
      rintro c K ⟨f1, f2⟩ T hS n emp d base st σ r σ' su he hd hv
      rcases (f1 T (hS.sub (.refl _) s2.ext.toGrow)).first (.refl g) s2.ext.toGrow su he hd hv with
        ⟨v, σ1, -, hk, hs⟩ | hL
      · cases hk
        refine .inr ?_
        have he1 : ensured g = true := by rw [← s1.ext.toGrow.ensured]; unfold ensured; rw [hj]; exact hens
        simp only [Leaves, he1, Bool.and_true, Bool.not_false, if_true]
        have k1 := s1.ext.len
        have hlen : g2.code.length ≤ c.length := hS.len
        by_cases hb : x.kind = some .block
        · refine ⟨by unfold leftOf mretsOf; simp [hb], st, hs.trans ?_⟩
          have hsite := hS.res.mret dest (by unfold mretsOf; simp [hb]) (by omega)
          unfold Tgt.left
          rw [if_pos hb]
          exact run_jmp hjm f2 hsite hS.sz.code hlen hS.res.bm _
        · refine ⟨by unfold leftOf retsOf; simp [hb], st, hs.trans ?_⟩
          have hsite := hS.res.ret dest (by unfold retsOf; simp [hb]) (by omega)
          unfold Tgt.left
          rw [if_neg hb]
          exact run_jmp hjm f2 hsite hS.sz.code hlen hS.res.br _
      · exact .inr hL
    · rw [if_neg hens] at h2
      exact plain (by unfold ensured; rw [hj]; simpa using hens) h2

end Verif.Codegen
