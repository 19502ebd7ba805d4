import Verif.Codegen.Leaf
namespace Verif.Codegen
open Verif.ISeq Op

/-! ### Bytes -/

theorem cat_bit (b0 b1 b2 b3 : BitVec 8) (i : Nat) : BitVec.getLsbD (w := 32) (b3 ++ b2 ++ b1 ++ b0) i =
   if i < 8 then b0.getLsbD i else if i - 8 < 8 then b1.getLsbD (i - 8) else if i - 8 - 8 < 8 then b2.getLsbD (i - 8 - 8) else b3.getLsbD (i - 8 - 8 - 8) := by
  have h1 := @BitVec.getLsbD_append (8+8+8) 8 i (b3 ++ b2 ++ b1) b0
  have h2 := @BitVec.getLsbD_append (8+8) 8 (i-8) (b3 ++ b2) b1
  have h3 := @BitVec.getLsbD_append (8) 8 (i-8-8) (b3) b2
  rw [← h3, ← h2]
  exact h1
theorem le32_cat (b0 b1 b2 b3 : BitVec 8) : le32 (b3 ++ b2 ++ b1 ++ b0) = [b0, b1, b2, b3] := by
  unfold le32
  refine List.cons_eq_cons.2 ⟨?_, List.cons_eq_cons.2 ⟨?_, List.cons_eq_cons.2 ⟨?_, List.cons_eq_cons.2 ⟨?_, rfl⟩⟩⟩⟩
  all_goals
    apply BitVec.eq_of_getLsbD_eq; intro i hi
    simp only [BitVec.getLsbD_setWidth, BitVec.getLsbD_ushiftRight, hi, decide_true, Bool.true_and, cat_bit]
    repeat rw [if_neg (by omega)]
    try rw [if_pos (by omega)]
    try congr 1
    try omega

variable {W X : Type}
open Verif.Value (Val)

theorem read32_bytes {c : Code} {p : Nat} {v : BitVec 32} (h : ∀ i b, (le32 v)[i]? = some b → c[p + i]? = some b) :
    readAt32 c p = some v := by
  have h0 := h 0 _ rfl
  have h1 := h 1 _ rfl
  have h2 := h 2 _ rfl
  have h3 := h 3 _ rfl
  have hr := read32_app (List.replicate p 0) v []
  rw [List.length_replicate] at hr
  unfold readAt32
  show ((read32 c (p + 0)).map (fun x => x.1)) = some v
  have e : ∀ i b, (le32 v)[i]? = some b → (List.replicate p (0 : Byte) ++ (le32 v ++ []))[p + i]? = some b := by
    intro i b hb
    have := app_off (List.replicate p (0 : Byte)) (le32 v ++ []) i
    rw [List.length_replicate] at this
    rw [this, List.append_nil]; exact hb
  rw [read32_congr (c := List.replicate p 0 ++ (le32 v ++ []))
    ((h 0 _ rfl).trans (e 0 _ rfl).symm) ((h 1 _ rfl).trans (e 1 _ rfl).symm)
    ((h 2 _ rfl).trans (e 2 _ rfl).symm) ((h 3 _ rfl).trans (e 3 _ rfl).symm), Nat.add_zero, hr]
  rfl

theorem bytes_read32 {c : Code} {p : Nat} {v : BitVec 32} (h : readAt32 c p = some v) :
    ∀ i b, (le32 v)[i]? = some b → c[p + i]? = some b := by
  unfold readAt32 read32 read8 at h
  simp only [Option.bind_eq_bind, Option.map_eq_some_iff] at h
  obtain ⟨⟨v', q⟩, h, rfl⟩ := h
  rcases h0 : c[p]? with _ | b0
  · simp [h0] at h
  rcases h1 : c[p + 1]? with _ | b1
  · simp [h0, h1] at h
  rcases h2 : c[p + 1 + 1]? with _ | b2
  · simp [h0, h1, h2] at h
  rcases h3 : c[p + 1 + 1 + 1]? with _ | b3
  · simp [h0, h1, h2, h3] at h
  simp only [h0, h1, h2, h3, Option.map_some, Option.bind_some] at h
  have hv : b3 ++ b2 ++ b1 ++ b0 = v' := by
    have := Option.some.inj h
    exact congrArg Prod.fst this
  intro i b hb
  rw [← hv] at hb
  dsimp only at hb
  rw [le32_cat] at hb
  match i, hb with
  | 0, hb => cases hb; exact h0
  | 1, hb => cases hb; exact h1
  | 2, hb => cases hb; exact h2
  | 3, hb => cases hb; exact h3
  | n + 4, hb => simp at hb

/-- An instruction whose last operand is a hole. -/
theorem emitHole_step {op : Byte} {args : List Operand} {g g' : G} {u : Unit} (L : List Nat)
    (h : emitM op (args ++ [.o32 0]) g = .ok (u, g')) :
    Step (W := W) (X := X) g L g' (g'.code.length :: L)
      (fun c _ => ∀ i b, (op :: (args.map opBytes).flatten)[i]? = some b → c[g.code.length + i]? = some b) := by
  have h := emitM_ok h
  refine ⟨Stp.hole (op :: (args.map opBytes).flatten) ?_ (by rw [h]; rfl)
    (fun K => Fit.same (by rw [h]) (by rw [h]) (by rw [h]) (by rw [h])), ?_⟩
  · rw [h]; show emit g.code _ _ = _
    rw [emit_eq]
    simp [opBytes, le32]
  · subst h
    exact Ext.code (by simp [emit_eq]) rfl rfl (List.prefix_refl _) (List.prefix_refl _) (List.prefix_refl _) rfl

/-! ### Several values -/

/-- Result of evaluating several expressions: all values, last on top, or an early end. -/
def AllOut (K : Env W X) (c : Code) (x : Ctx) (T : Tgt) (g0 g' : G) (base : List Val) (k0 : Conf (S W) (R W X))
    (len : Nat) (V : List Val → St W → Conf (S W) (R W X)) : Except (Res X) (List Val) → St W → Prop
  | .ok vs, σ => vs.length = len ∧ Steps K c k0 (V vs σ)
  | .error r, σ => Leaves K c x T g0 g' base k0 r σ

/-- A piece of code that evaluates several expressions. -/
def DoesAll (x : Ctx) (g g' : G) (c : Code) (K : Env W X) (T : Tgt) (len : Nat)
    (sup : Bool → Bool → Bool → Prop) (ev : Nat → St W → Option (Except (Res X) (List Val) × St W))
    (V : List Val → List Val → St W → Conf (S W) (R W X)) : Prop :=
  ∀ n emp d base st σ a σ', sup (!loopTop g) emp d → (emp = true → st = []) → (d = true → st = base) →
    ev n σ = some (a, σ') →
    AllOut K c x T g g' base (.at g.code.length ⟨st, σ⟩) len (V st) a σ'

/-- All on the stack. -/
def ThenAll (g' : G) (st vs : List Val) (σ : St W) : Conf (S W) (R W X) := .at g'.code.length ⟨vs.reverse ++ st, σ⟩

/-- The compiler action evaluates several expressions. -/
def AllOK (x : Ctx) (m : M Unit) (len : Nat) (sup : Bool → Bool → Bool → Prop)
    (ev : Env W X → Nat → St W → Option (Except (Res X) (List Val) × St W)) : Prop :=
  ∀ g u g', m g = .ok (u, g') → ∀ L, Step g L g' L fun c K => ∀ T, Site' c K T g g' →
    DoesAll x g g' c K T len sup (ev K) (ThenAll g')

theorem DoesAll.first {x : Ctx} {g0 g1 g2 g' : G} {c : Code} {K : Env W X} {T : Tgt} {len : Nat}
    {sup : Bool → Bool → Bool → Prop} {ev : Nat → St W → Option (Except (Res X) (List Val) × St W)}
    {V : List Val → List Val → St W → Conf (S W) (R W X)} (h : DoesAll x g1 g2 c K T len sup ev V)
    (e0 : Grow g0 g1) (e2 : Grow g2 g') {n : Nat} {emp d : Bool} {base st : List Val} {σ : St W}
    {a} {σ' : St W} (hs : sup (!loopTop g0) emp d) (he : emp = true → st = [])
    (hd : d = true → st = base) (hv : ev n σ = some (a, σ')) :
    AllOut K c x T g0 g' base (.at g1.code.length ⟨st, σ⟩) len (V st) a σ' := by
  rw [← e0.loopTop] at hs
  have := h n emp d base st σ _ _ hs he hd hv
  cases a with
  | ok vs => exact this
  | error r => exact Leaves.up e0 e2 this

theorem AllOK.nil {x : Ctx} {sup : Bool → Bool → Bool → Prop} :
    AllOK (W := W) (X := X) x (pure ()) 0 sup (fun _ _ σ => some (.ok [], σ)) := by
  intro g u g' h L
  obtain ⟨_, rfl⟩ := pureM.1 h
  refine (Step.refl _ _).mono ?_
  intro c K _ T hS n emp d base st σ a σ' su he hd hv
  cases hv
  exact ⟨rfl, Steps.refl _⟩

theorem AllOK.cons {x : Ctx} {m1 m2 : M Unit} {len : Nat} {sup1 sup2 : Bool → Bool → Bool → Prop}
    {ev1 : Env W X → Nat → St W → Ans W X}
    {ev2 : Env W X → Nat → St W → Option (Except (Res X) (List Val) × St W)}
    (hm1 : GenOK x m1 true sup1 ev1) (hm2 : AllOK x m2 len sup2 ev2) :
    AllOK x (do m1; m2) (len + 1) (fun lp e d => sup1 lp e d ∧ sup2 lp false false)
      (fun K n σ => match ev1 K n σ with
        | some (.val v, σ) =>
          match ev2 K n σ with
          | some (.ok vs, σ) => some (.ok (v :: vs), σ)
          | r => r
        | some (r, σ) => some (.error r, σ)
        | none => none) := by
  intro g u g' hg L
  obtain ⟨_, g1, h1, h2⟩ := bindM.1 hg
  have s1 := hm1 _ _ _ h1 L
  have s2 := hm2 _ _ _ h2 L
  refine (s1.trans s2).mono ?_
  rintro c K ⟨f1, f2⟩ T hS n emp d base st σ a σ' ⟨su1, su2⟩ he hd hv
  have D1 := f1 T (hS.sub (.refl _) s2.ext.toGrow)
  have D2 := f2 T (hS.sub s1.ext.toGrow (.refl _))
  dsimp only at hv
  rcases hev : ev1 K n σ with _ | ⟨r1, σ1⟩
  · rw [hev] at hv; cases hv
  · rw [hev] at hv
    rcases D1.last (.refl g) s2.ext.toGrow su1 he hd hev with ⟨v, rfl, hs⟩ | hL
    · dsimp only at hv
      rcases hev2 : ev2 K n σ1 with _ | ⟨a2, σ2⟩
      · rw [hev2] at hv; cases hv
      · rw [hev2] at hv
        have := D2.first s1.ext.toGrow (.refl g') (base := base) (st := v :: st) su2 ff ff hev2
        cases a2 with
        | ok vs =>
          cases hv
          exact ⟨by simp [this.1], hs.trans (by simpa [ThenAll, Then] using this.2)⟩
        | error r => cases hv; exact this.pre hs
    · cases r1 with
      | val v => exact hL.elim
      | raise e => cases hv; exact hL
      | brk e => cases hv; exact hL
      | nxt e => cases hv; exact hL
      | ret e => cases hv; exact hL

theorem take_rev_app (vs st : List Val) : (vs.reverse ++ st).take vs.length = vs.reverse := by
  have := List.take_left (l₁ := vs.reverse) (l₂ := st)
  rwa [List.length_reverse] at this

theorem drop_rev_app (vs st : List Val) : (vs.reverse ++ st).drop vs.length = st := by
  have := List.drop_left (l₁ := vs.reverse) (l₂ := st)
  rwa [List.length_reverse] at this

/-- `CREATE_ARRAY`. -/
theorem createArray_step {len : Nat} {g g' : G} {u : Unit} (L : List Nat) (h : createArray len g = .ok (u, g'))
    (hl : len < 2 ^ 32) :
    Step (W := W) (X := X) g L g' L (fun c K => ∀ vs st σ, vs.length = len →
      Steps K c (.at g.code.length ⟨vs.reverse ++ st, σ⟩)
        (.at g'.code.length ⟨(K.world.mkArray vs σ).1 :: st, (K.world.mkArray vs σ).2⟩)) := by
  refine (emitM_step L h).mono fun c K hA vs st σ hv => ?_
  refine Steps.next K hA (emitM_len h) (by okop) ?_
  rw [u32, exec_array, toNat_ofNat32 hl, if_pos (by simp [hv])]
  dsimp only
  rw [← hv, take_rev_app, drop_rev_app, List.reverse_reverse]

theorem GenOK.array {x : Ctx} {m : M Unit} {len : Nat} {sup : Bool → Bool → Bool → Prop}
    {ev : Env W X → Nat → St W → Option (Except (Res X) (List Val) × St W)} (hm : AllOK x m len sup ev) :
    GenOK x (do m; createArray len) true (fun lp e d => sup lp e d ∧ len < 2 ^ 32)
      (fun K n σ => match ev K n σ with
        | some (.ok vs, σ) => some (.val (K.world.mkArray vs σ).1, (K.world.mkArray vs σ).2)
        | some (.error r, σ) => some (r, σ)
        | none => none) := by
  intro g u g' hg L
  obtain ⟨_, g1, h1, h2⟩ := bindM.1 hg
  have s1 := hm _ _ _ h1 L
  have s2 := emitM_step (W := W) (X := X) L h2
  refine (s1.trans s2).mono ?_
  rintro c K ⟨f1, f2⟩ T hS n emp d base st σ r σ' ⟨su, hl⟩ he hd hv
  have D1 := f1 T (hS.sub (.refl _) s2.ext.toGrow)
  dsimp only at hv
  rcases hev : ev K n σ with _ | ⟨a, σ1⟩
  · rw [hev] at hv; cases hv
  · rw [hev] at hv
    have := D1.first (.refl g) s2.ext.toGrow su he hd hev
    cases a with
    | error r => cases hv; exact .inr this
    | ok vs =>
      cases hv
      obtain ⟨hlen, hs⟩ := this
      refine .inl ⟨_, rfl, hs.trans ?_⟩
      refine Steps.next K f2 (emitM_len h2) (by okop) ?_
      rw [u32, exec_array, toNat_ofNat32 hl, if_pos (by simp [hlen])]
      dsimp only
      rw [← hlen, take_rev_app, drop_rev_app, List.reverse_reverse]
      rfl

/-! ### Calls -/

theorem emitOptSend_step {m : Id} {len : Nat} {uv : Bool} {b : BitVec 32} {g g' : G} {u : Unit} (L : List Nat)
    (h : emitOptSend m len uv b g = .ok (u, g')) :
    Step (W := W) (X := X) g L g' L (fun c _ => At c g.code.length (if uv then OPT_SEND else OPT_SEND_N)
      [.o32 m, .o16 (BitVec.ofNat 16 len), .o32 b, u32 g.caches]) ∧
    g'.code.length = g.code.length + 15 ∧ g'.ex = g.ex := by
  unfold emitOptSend at h
  have s1 : Step (W := W) (X := X) g L { g with caches := g.caches + 1 } L (fun _ _ => True) :=
    ⟨Stp.book rfl (List.Perm.refl _) fun K f => ⟨f.ex, f.consts, f.case1, f.case2⟩,
      Ext.code (Nat.le_refl _) rfl rfl (List.prefix_refl _) (List.prefix_refl _) (List.prefix_refl _) rfl⟩
  exact ⟨(s1.trans (emitM_step L h)).mono fun c K hh => hh.2, emitM_len h, (emitM_ex h).trans rfl⟩

theorem Reach.send {K : Env W X} {c : Code} {x : Ctx} {T : Tgt} {g0 g1 g' : G} {base : List Val}
    {uv : Bool} {st vs : List Val} {recv : Val} {m : Id} {b : BitVec 32} {len : Nat} {σ σ' : St W} {r : Res X} {u : Unit} {e : Nat}
    (h : emitOptSend m len uv b g1 = .ok (u, g'))
    (hA : At c g1.code.length (if uv then OPT_SEND else OPT_SEND_N)
      [.o32 m, .o16 (BitVec.ofNat 16 len), .o32 b, u32 e])
    (hB : ExB g0) (e0 : Grow g0 g1) (hl : vs.length = len) (hlt : len < 2 ^ 16)
    (hv : ofEff (K.world.call b m recv vs σ) = some (r, σ')) :
    Reach K c x T g0 g' base (.at g1.code.length ⟨vs.reverse ++ recv :: st, σ⟩) (Then g' uv st) r σ' := by
  obtain ⟨-, l1, ex1⟩ := emitOptSend_step (W := W) (X := X) [] h
  have hn : (BitVec.ofNat 16 len).toNat = len := by rw [BitVec.toNat_ofNat, Nat.mod_eq_of_lt hlt]
  have hd : (vs.reverse ++ recv :: st).drop len = recv :: st := by rw [← hl, drop_rev_app]
  have ht : ((vs.reverse ++ recv :: st).take len).reverse = vs := by
    rw [← hl, take_rev_app, List.reverse_reverse]
  cases uv with
  | true =>
    have hx := Steps.exec' K hA ⟨vs.reverse ++ recv :: st, σ⟩ (n := g'.code.length) l1 (by okop)
    simp only [if_true] at hx
    rw [u32, exec_send, hn] at hx
    simp only [hd, ht] at hx
    exact Reach.eff hB e0 ex1 (.refl g') (by omega) (by omega) hx (fun v σ => Steps.refl _) hv
  | false =>
    have hx := Steps.exec' K hA ⟨vs.reverse ++ recv :: st, σ⟩ (n := g'.code.length) l1 (by okop)
    simp only [Bool.false_eq_true, if_false] at hx
    rw [u32, exec_sendN, hn] at hx
    simp only [hd, ht] at hx
    generalize K.world.call b m recv vs σ = eff at hx hv
    rcases eff with ⟨_ | v, σ⟩
    · simp only [ofEff, Option.some.injEq, Prod.mk.injEq] at hv
      obtain ⟨rfl, rfl⟩ := hv
      simp only [dropE, conf_fail] at hx
      exact .inr (Leaves.err hB e0 ex1 (.refl g') (by omega) (by omega) hx)
    · simp only [ofEff, Option.some.injEq, Prod.mk.injEq] at hv
      obtain ⟨rfl, rfl⟩ := hv
      exact .inl ⟨v, rfl, hx⟩

theorem GenOK.sendB {x : Ctx} {m1 m2 : M Unit} {m : Id} {len : Nat} {uv : Bool} {b : BitVec 32}
    {sup1 sup2 : Bool → Bool → Bool → Prop} {ev1 : Env W X → Nat → St W → Ans W X}
    {ev2 : Env W X → Nat → St W → Option (Except (Res X) (List Val) × St W)}
    (hm1 : GenOK x m1 true sup1 ev1) (hm2 : AllOK x m2 len sup2 ev2) :
    GenOK x (do m1; m2; emitOptSend m len uv b) uv
      (fun lp e d => sup1 lp e d ∧ sup2 lp false false ∧ len < 2 ^ 16)
      (fun K n σ => onVal (ev1 K n σ) fun r σ =>
        match ev2 K n σ with
        | some (.ok vs, σ) => ofEff (K.world.call b m r vs σ)
        | some (.error r, σ) => some (r, σ)
        | none => none) := by
  intro g u g' hg L
  obtain ⟨_, g1, h1, hg⟩ := bindM.1 hg
  obtain ⟨_, g2, h2, h3⟩ := bindM.1 hg
  have s1 := hm1 _ _ _ h1 L
  have s2 := hm2 _ _ _ h2 L
  obtain ⟨s3, l3, ex3⟩ := emitOptSend_step (W := W) (X := X) L h3
  have t2 := s2.trans s3
  refine (s1.trans t2).mono ?_
  rintro c K ⟨f1, f2, f3⟩ T hS n emp d base st σ r σ' ⟨su1, su2, hl⟩ he hd hv
  rcases (f1 T (hS.sub (.refl _) t2.ext.toGrow)).first (.refl g) t2.ext.toGrow su1 he hd hv with
    ⟨v, σ1, -, hk, hs⟩ | hL
  · refine Reach.pre hs ?_
    have D2 := f2 T (hS.sub s1.ext.toGrow s3.ext.toGrow)
    rcases hev : ev2 K n σ1 with _ | ⟨a, σ2⟩
    · rw [hev] at hk; cases hk
    · rw [hev] at hk
      have := D2.first s1.ext.toGrow s3.ext.toGrow (st := v :: st) (base := base) su2 ff ff hev
      cases a with
      | error r => cases hk; exact .inr this
      | ok vs =>
        exact Reach.pre this.2 (Reach.send h3 f3 hS.ex (s1.ext.trans s2.ext).toGrow this.1 hl hk)
  · exact .inr hL

theorem GenOK.send {x : Ctx} {m1 m2 : M Unit} {m : Id} {len : Nat} {uv : Bool}
    {sup1 sup2 : Bool → Bool → Bool → Prop} {ev1 : Env W X → Nat → St W → Ans W X}
    {ev2 : Env W X → Nat → St W → Option (Except (Res X) (List Val) × St W)}
    (hm1 : GenOK x m1 true sup1 ev1) (hm2 : AllOK x m2 len sup2 ev2) :
    GenOK x (do m1; m2; emitOptSend m len uv) uv
      (fun lp e d => sup1 lp e d ∧ sup2 lp false false ∧ len < 2 ^ 16)
      (fun K n σ => onVal (ev1 K n σ) fun r σ =>
        match ev2 K n σ with
        | some (.ok vs, σ) => ofEff (K.world.send m r vs σ)
        | some (.error r, σ) => some (r, σ)
        | none => none) := GenOK.sendB hm1 hm2

/-- `yield`. -/
theorem GenOK.yield {x : Ctx} {m : M Unit} {len : Nat} {sup : Bool → Bool → Bool → Prop}
    {ev : Env W X → Nat → St W → Option (Except (Res X) (List Val) × St W)} (hm : AllOK x m len sup ev) :
    GenOK x (do m; emitYield len) true (fun lp e d => sup lp e d ∧ len < 2 ^ 32)
      (fun K n σ => match ev K n σ with
        | some (.ok vs, σ) => ofEff (K.world.yield_ vs σ)
        | some (.error r, σ) => some (r, σ)
        | none => none) := by
  intro g u g' hg L
  obtain ⟨_, g1, h1, h2⟩ := bindM.1 hg
  have s1 := hm _ _ _ h1 L
  have s2 := emitM_step (W := W) (X := X) L h2
  refine (s1.trans s2).mono ?_
  rintro c K ⟨f1, f2⟩ T hS n emp d base st σ r σ' ⟨su, hl⟩ he hd hv
  have D1 := f1 T (hS.sub (.refl _) s2.ext.toGrow)
  dsimp only at hv
  rcases hev : ev K n σ with _ | ⟨a, σ1⟩
  · rw [hev] at hv; cases hv
  · rw [hev] at hv
    have := D1.first (.refl g) s2.ext.toGrow su he hd hev
    cases a with
    | error r => cases hv; exact .inr this
    | ok vs =>
      obtain ⟨hlen, hs⟩ := this
      refine Reach.pre hs ?_
      have l1 : g'.code.length = g1.code.length + 5 := emitM_len h2
      have hx := Steps.exec' K f2 ⟨vs.reverse ++ st, σ1⟩ (n := g'.code.length) l1 (by okop)
      rw [u32, exec_yield, toNat_ofNat32 hl, if_pos (by simp [hlen])] at hx
      dsimp only at hx
      rw [← hlen, take_rev_app, drop_rev_app, List.reverse_reverse] at hx
      exact Reach.eff hS.ex s1.ext.toGrow (emitM_ex h2) (.refl g') (by omega) (by omega) hx (fun v σ => Steps.refl _) hv

theorem GenOK.ident {x : Ctx} {id : Id} {uv : Bool} {sup : Bool → Bool → Bool → Prop} :
    GenOK (W := W) (X := X) x (do pushSelf; emitOptSend id 0 uv) uv sup
      (fun K _ σ => ofEff (K.world.send id K.self [] σ)) := by
  have h1 : GenOK (W := W) (X := X) x pushSelf true (fun _ _ _ => True) (fun K _ σ => some (.val K.self, σ)) :=
    GenOK.push (by okop) fun K pc n st σ => ⟨_, rfl, rfl⟩
  exact (GenOK.send (m := id) (uv := uv) h1 (AllOK.nil (sup := fun _ _ _ => True))).congr
    (by show _ = pushSelf >>= fun _ => (pure () >>= fun _ => _); simp) (fun _ _ _ _ => ⟨trivial, trivial, by omega⟩)
    fun K n σ => rfl

theorem GenOK.attr {x : Ctx} {m1 m2 : M Unit} {m : Id} {uv : Bool}
    {sup1 sup2 : Bool → Bool → Bool → Prop} {ev1 ev2 : Env W X → Nat → St W → Ans W X}
    (hm1 : GenOK x m1 true sup1 ev1) (hm2 : GenOK x m2 true sup2 ev2) :
    GenOK x (do m1; m2; emitOptSend m 1 uv) uv (fun lp e d => sup1 lp e d ∧ sup2 lp false false)
      (fun K n σ => onVal (ev1 K n σ) fun r σ => onVal (ev2 K n σ) fun v σ =>
        ofEff (K.world.send m r [v] σ)) := by
  refine (GenOK.send (m := m) (uv := uv) hm1
    (AllOK.cons hm2 (AllOK.nil (sup := fun _ _ _ => True)))).congr ?_ ?_ ?_
  · simp
  · intro lp e d h; exact ⟨h.1, ⟨h.2, trivial⟩, by omega⟩
  · intro K n σ
    dsimp only
    congr 1
    funext v σ1
    rcases ev2 K n σ1 with _ | ⟨r, σ2⟩
    · rfl
    · cases r <;> rfl

/-! ### Ranges, elements, sequences -/

theorem GenOK.range {x : Ctx} {m1 m2 : M Unit} {excl : Bool}
    {sup1 sup2 : Bool → Bool → Bool → Prop} {ev1 ev2 : Env W X → Nat → St W → Ans W X}
    (hm1 : GenOK x m1 true sup1 ev1) (hm2 : GenOK x m2 true sup2 ev2) :
    GenOK x (do genVal (wordOf (Value.bool excl)); m2; m1; emitM CREATE_RANGE []) true
      (fun lp _ _ => sup1 lp false false ∧ sup2 lp false false)
      (fun K n σ => onVal (ev2 K n σ) fun v2 σ => onVal (ev1 K n σ) fun v1 σ =>
        ofEff (K.world.range v1 v2 excl σ)) := by
  intro g u g' hg L
  obtain ⟨_, g1, h1, hg⟩ := bindM.1 hg
  obtain ⟨_, g2, h2, hg⟩ := bindM.1 hg
  obtain ⟨_, g3, h3, h4⟩ := bindM.1 hg
  have s1 := emitM_step (W := W) (X := X) L h1
  have s2 := hm2 _ _ _ h2 L
  have s3 := hm1 _ _ _ h3 L
  have s4 := emitM_step (W := W) (X := X) L h4
  have l4 := emitM_len h4
  have t3 := s3.trans s4
  refine (s1.trans (s2.trans t3)).mono ?_
  rintro c K ⟨f1, f2, f3, f4⟩ T hS n emp d base st σ r σ' ⟨su1, su2⟩ he hd hv
  have e2 : Grow g g2 := (s1.ext.trans s2.ext).toGrow
  refine Reach.pre (k1 := .at g1.code.length ⟨Value.bool excl :: st, σ⟩)
    (Steps.next K f1 (emitM_len h1) (by okop) (by cases excl <;> rfl)) ?_
  rcases (f2 T (hS.sub s1.ext.toGrow t3.ext.toGrow)).first (base := base) (st := Value.bool excl :: st)
    s1.ext.toGrow t3.ext.toGrow su2 ff ff hv with ⟨v2, σ2, -, hk, hs⟩ | hL
  · rcases (f3 T (hS.sub e2 s4.ext.toGrow)).first (base := base) (st := v2 :: Value.bool excl :: st)
      e2 s4.ext.toGrow su1 ff ff hk with ⟨v1, σ1, -, hk, hs'⟩ | hL
    · have hx := Steps.exec' K f4 ⟨v1 :: v2 :: Value.bool excl :: st, σ1⟩ l4 (by okop)
      rw [show execOp K CREATE_RANGE [] g3.code.length ⟨v1 :: v2 :: Value.bool excl :: st, σ1⟩ =
        pushE K (g3.code.length + 1) st (K.world.range v1 v2 (truthy (Value.bool excl)) σ1) from rfl,
        truthy_bool] at hx
      exact Reach.eff hS.ex (e2.trans s3.ext.toGrow) (emitM_ex h4) (.refl g') (by omega) (by rw [l4]; rfl)
        ((hs.trans hs').trans hx) (fun v σ => Steps.refl _) hk
    · exact .inr (hL.pre hs)
  · exact .inr hL

theorem GenOK.seq {x : Ctx} {m1 m2 : M Unit} {uv : Bool} {sup1 sup2 : Bool → Bool → Bool → Prop}
    {ev1 ev2 : Env W X → Nat → St W → Ans W X} (hm1 : GenOK x m1 false sup1 ev1) (hm2 : GenOK x m2 uv sup2 ev2) :
    GenOK x (do m1; m2) uv (fun lp e d => sup1 lp e d ∧ sup2 lp e d)
      (fun K n σ => onVal (ev1 K n σ) fun _ σ => ev2 K n σ) := by
  intro g u g' hg L
  obtain ⟨_, g1, h1, h2⟩ := bindM.1 hg
  have s1 := hm1 _ _ _ h1 L
  have s2 := hm2 _ _ _ h2 L
  refine (s1.trans s2).mono ?_
  rintro c K ⟨f1, f2⟩ T hS n emp d base st σ r σ' ⟨su1, su2⟩ he hd hv
  rcases (f1 T (hS.sub (.refl _) s2.ext.toGrow)).first (.refl g) s2.ext.toGrow su1 he hd hv with
    ⟨v, σ1, -, hk, hs⟩ | hL
  · exact Reach.pre hs ((f2 T (hS.sub s1.ext.toGrow (.refl _))).last s1.ext.toGrow (.refl g') su2 he hd hk)
  · exact .inr hL

/-! ### Assignments -/

theorem GenOK.assign {x : Ctx} (hx : CtxOK x) {m : M Unit} {t : Var} {uv : Bool}
    {sup : Bool → Bool → Bool → Prop} {ev : Env W X → Nat → St W → Ans W X} (hm : GenOK x m true sup ev) :
    GenOK x (do m; whenM uv (dup 1); emitSetVar x t) uv sup
      (fun K n σ => onVal (ev K n σ) fun v σ => some (.val v, setVar K.world x v σ t)) := by
  intro g u g' hg L
  obtain ⟨_, g1, h1, hg⟩ := bindM.1 hg
  obtain ⟨_, g2, h2, h3⟩ := bindM.1 hg
  have s1 := hm _ _ _ h1 L
  have s2 := dupHead (W := W) (X := X) L h2
  have s3 := setVar_step (W := W) (X := X) hx L h3
  have t2 := s2.trans s3
  refine (s1.trans t2).mono ?_
  rintro c K ⟨f1, f2, f3⟩ T hS n emp d base st σ r σ' su he hd hv
  rcases (f1 T (hS.sub (.refl _) t2.ext.toGrow)).first (.refl g) t2.ext.toGrow su he hd hv with
    ⟨v, σ1, -, hk, hs⟩ | hL
  · cases hk
    exact .inl ⟨v, rfl, (hs.trans (f2 v st σ1)).trans (f3 v _ σ1)⟩
  · exact .inr hL

/-- `a[i] = v`; `m2` is empty if the index is an immediate operand. -/
theorem setIndex_tail {x : Ctx} {k : Nat} {op : Byte} {args : List Operand} {uv : Bool} {g g' : G} {u : Unit}
    (L : List Nat) (hk : k < 2 ^ 32)
    (ho : okOp op (args.map Operand.width) = true)
    (h : (do whenM uv (do dup 1; sinkn k); emitM op args : M Unit) g = .ok (u, g')) :
    Step (W := W) (X := X) g L g' L (fun c K => ∀ g0 T base v (ops : List Val) st σ eff r σ', ExB g0 → Grow g0 g →
      ops.length + 1 = k →
      (∀ pc st, execOp K op args pc ⟨v :: (ops ++ st), σ⟩ = dropE K (pc + szOf args) st eff) →
      (match eff with
        | (Except.ok (_ : Unit), σ) => some (.val v, σ)
        | (.error e, σ) => some (.raise e, σ)) = some (r, σ') →
      Reach K c x T g0 g' base (.at g.code.length ⟨v :: (ops ++ st), σ⟩) (Then g' uv st) r σ') := by
  obtain ⟨_, g1, h1, h2⟩ := bindM.1 h
  have s2 := emitM_step (W := W) (X := X) L h2
  have s1 : Step (W := W) (X := X) g L g1 L (fun c K => ∀ v (ops : List Val) st σ, ops.length + 1 = k →
      Steps K c (.at g.code.length ⟨v :: (ops ++ st), σ⟩)
        (.at g1.code.length ⟨v :: (ops ++ if uv then v :: st else st), σ⟩)) := by
    cases uv with
    | false =>
      obtain ⟨_, rfl⟩ := pureM.1 h1
      exact (Step.refl _ _).mono fun c K _ v ops st σ _ => Steps.refl _
    | true =>
      obtain ⟨_, ga, ha, hb⟩ := (bindM (m := dup 1) (f := fun _ => sinkn k)).1 h1
      have sa := emitM_step (W := W) (X := X) L ha
      have sb := emitM_step (W := W) (X := X) L hb
      refine (sa.trans sb).mono ?_
      rintro c K ⟨fa, fb⟩ v ops st σ hl
      refine Steps.trans (k2 := .at ga.code.length ⟨v :: v :: (ops ++ st), σ⟩)
        (Steps.next K fa (emitM_len ha) rfl ?_) (Steps.next K fb (emitM_len hb) (by okop) ?_)
      · rw [u32, exec_dup, if_pos (by simp)]; simp
      · rw [u32, exec_sinkn, toNat_ofNat32 hk, if_pos (by simp; omega)]
        rw [← hl, List.take_succ_cons, List.take_left, List.drop_succ_cons, List.drop_left]
        simp
  refine (s1.trans s2).mono ?_
  rintro c K ⟨f1, f2⟩ g0 T base v ops st σ eff r σ' hB e0 hl he hv
  have l2 := emitM_len h2
  have hsz : 0 < szOf args := by unfold szOf; omega
  refine Reach.pre (f1 v ops st σ hl) ?_
  have hx := Steps.exec' K f2 ⟨v :: (ops ++ if uv then v :: st else st), σ⟩ l2 ho
  rw [he] at hx
  rcases eff with ⟨e | _, σ2⟩
  · cases hv
    simp only [dropE, conf_fail] at hx
    exact .inr (Leaves.err hB (e0.trans s1.ext.toGrow) (emitM_ex h2) (.refl g') (by omega) (by omega) hx)
  · cases hv
    exact .inl ⟨v, rfl, hx⟩

/-- The index is an immediate operand. -/
theorem GenOK.assignIdxI {x : Ctx} {m1 m3 : M Unit} {i : BitVec 32} {uv : Bool} {sup1 sup2 sup3 : Bool → Bool → Bool → Prop}
    {ev1 ev2 ev3 : Env W X → Nat → St W → Ans W X} (hm1 : GenOK x m1 true sup1 ev1)
    (hi : ∀ K n σ, ev2 K n σ = some (.val (Value.integer i.toNat), σ)) (hm3 : GenOK x m3 true sup3 ev3) :
    GenOK x (do m1; m3; whenM uv (do dup 1; sinkn 2); emitM SET_IDX_I [.o32 i]) uv
      (fun lp e d => sup1 lp e d ∧ sup2 lp false false ∧ sup3 lp false false)
      (fun K n σ => onVal (ev1 K n σ) fun b σ => onVal (ev2 K n σ) fun i σ => onVal (ev3 K n σ) fun v σ =>
        match K.world.setIndex b i v σ with
        | (.ok _, σ) => some (.val v, σ)
        | (.error e, σ) => some (.raise e, σ)) := by
  intro g u g' hg L
  obtain ⟨_, g1, h1, hg⟩ := bindM.1 hg
  obtain ⟨_, g2, h2, h3⟩ := bindM.1 hg
  have s1 := hm1 _ _ _ h1 L
  have s2 := hm3 _ _ _ h2 L
  have s3 := setIndex_tail (W := W) (X := X) (x := x) L (by decide) (by okop) h3
  have t2 := s2.trans s3
  refine (s1.trans t2).mono ?_
  rintro c K ⟨f1, f2, f3⟩ T hS n emp d base st σ r σ' ⟨su1, su2, su3⟩ he hd hv
  rcases (f1 T (hS.sub (.refl _) t2.ext.toGrow)).first (.refl g) t2.ext.toGrow su1 he hd hv with
    ⟨b, σ1, -, hk, hs⟩ | hL
  · refine Reach.pre hs ?_
    rw [hi] at hk
    dsimp only [onVal] at hk
    rcases (f2 T (hS.sub s1.ext.toGrow s3.ext.toGrow)).first (base := base) (st := b :: st)
      s1.ext.toGrow s3.ext.toGrow su3 ff ff hk with ⟨v, σ2, -, hk, hs⟩ | hL
    · exact Reach.pre hs (f3 g T base v [b] st σ2 _ r σ' hS.ex (s1.ext.trans s2.ext).toGrow rfl
        (fun pc st => by rw [← K.world.setIndexI_eq]; rfl) hk)
    · exact .inr hL
  · exact .inr hL

theorem GenOK.assignIdx {x : Ctx} {m1 m2 m3 : M Unit} {uv : Bool} {sup1 sup2 sup3 : Bool → Bool → Bool → Prop}
    {ev1 ev2 ev3 : Env W X → Nat → St W → Ans W X} (hm1 : GenOK x m1 true sup1 ev1) (hm2 : GenOK x m2 true sup2 ev2)
    (hm3 : GenOK x m3 true sup3 ev3) :
    GenOK x (do m1; m2; m3; whenM uv (do dup 1; sinkn 3); emitM SET_INDEX []) uv
      (fun lp e d => sup1 lp e d ∧ sup2 lp false false ∧ sup3 lp false false)
      (fun K n σ => onVal (ev1 K n σ) fun b σ => onVal (ev2 K n σ) fun i σ => onVal (ev3 K n σ) fun v σ =>
        match K.world.setIndex b i v σ with
        | (.ok _, σ) => some (.val v, σ)
        | (.error e, σ) => some (.raise e, σ)) := by
  intro g u g' hg L
  obtain ⟨_, g1, h1, hg⟩ := bindM.1 hg
  obtain ⟨_, g2, h2, hg⟩ := bindM.1 hg
  obtain ⟨_, g3, h3, h4⟩ := bindM.1 hg
  have s1 := hm1 _ _ _ h1 L
  have s2 := hm2 _ _ _ h2 L
  have s3 := hm3 _ _ _ h3 L
  have s4 := setIndex_tail (W := W) (X := X) (x := x) L (by decide) (by okop) h4
  have t3 := s3.trans s4
  have t2 := s2.trans t3
  refine (s1.trans t2).mono ?_
  rintro c K ⟨f1, f2, f3, f4⟩ T hS n emp d base st σ r σ' ⟨su1, su2, su3⟩ he hd hv
  have e2 : Grow g g2 := (s1.ext.trans s2.ext).toGrow
  rcases (f1 T (hS.sub (.refl _) t2.ext.toGrow)).first (.refl g) t2.ext.toGrow su1 he hd hv with
    ⟨b, σ1, -, hk, hs⟩ | hL
  · refine Reach.pre hs ?_
    rcases (f2 T (hS.sub s1.ext.toGrow t3.ext.toGrow)).first (base := base) (st := b :: st)
      s1.ext.toGrow t3.ext.toGrow su2 ff ff hk with ⟨i, σ2, -, hk, hs⟩ | hL
    · refine Reach.pre hs ?_
      rcases (f3 T (hS.sub e2 s4.ext.toGrow)).first (base := base) (st := i :: b :: st)
        e2 s4.ext.toGrow su3 ff ff hk with ⟨v, σ3, -, hk, hs⟩ | hL
      · exact Reach.pre hs (f4 g T base v [i, b] st σ3 _ r σ' hS.ex (e2.trans s3.ext.toGrow) rfl
          (fun pc st => rfl) hk)
      · exact .inr hL
    · exact .inr hL
  · exact .inr hL

end Verif.Codegen
