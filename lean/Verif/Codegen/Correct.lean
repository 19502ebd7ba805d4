import Verif.Codegen.Begin
import Verif.Codegen.Supported
/-!
# The compiler is correct

Puts together the lemmas about single constructs.
-/
namespace Verif.Codegen
open Verif.ISeq Op
open Verif.Value (Val)

variable {W X : Type}

/-! ### Changing the form of a statement -/

theorem AllOK.congr {x : Ctx} {m m' : M Unit} {len : Nat} {sup sup' : Bool → Bool → Bool → Prop}
    {ev ev' : Env W X → Nat → St W → Option (Except (Res X) (List Val) × St W)} (h : AllOK x m len sup ev)
    (hm : m' = m) (hs : ∀ lp e d, sup' lp e d → sup lp e d) (he : ∀ K n σ, ev' K n σ = ev K n σ) :
    AllOK x m' len sup' ev' := by
  subst hm
  intro g u g' hg L
  refine (h g u g' hg L).mono ?_
  intro c K f T hS n emp d base st σ r σ' hsup hem hd hv
  exact f T hS n emp d base st σ r σ' (hs _ _ _ hsup) hem hd (by rw [← he]; exact hv)

theorem FirstOK.congr {x : Ctx} {m m' : M Unit} {len k : Nat} {sup sup' : Bool → Bool → Bool → Prop}
    {ev ev' : Env W X → Nat → St W → Option (Except (Res X) (List Val) × St W)} (h : FirstOK x m len k sup ev)
    (hm : m' = m) (hs : ∀ lp e d, sup' lp e d → sup lp e d) (he : ∀ K n σ, ev' K n σ = ev K n σ) :
    FirstOK x m' len k sup' ev' := by
  subst hm
  intro g u g' hg L
  refine (h g u g' hg L).mono ?_
  intro c K f T hS n emp d base st σ r σ' hsup hem hd hv
  exact f T hS n emp d base st σ r σ' (hs _ _ _ hsup) hem hd (by rw [← he]; exact hv)

theorem LabelsOK.congr {x : Ctx} {m m' : M (List Nat)} {sup sup' : Bool → Prop}
    {ev ev' : Env W X → Nat → Val → St W → Option (Except (Res X) Bool × St W)} (h : LabelsOK x m sup ev)
    (hm : m' = m) (hs : ∀ lp, sup' lp → sup lp) (he : ∀ K n v σ, ev' K n v σ = ev K n v σ) :
    LabelsOK x m' sup' ev' := by
  subst hm
  intro g u g' hg L
  refine (h g u g' hg L).mono ?_
  intro c K f T t hS h1 h2 n base st v σ a σ' hsup hv
  exact f T t hS h1 h2 n base st v σ a σ' (hs _ hsup) (by rw [← he]; exact hv)

theorem CondsOK.congr {x : Ctx} {m m' : M (List Nat)} {sup sup' : Bool → Bool → Bool → Prop}
    {ev ev' : Env W X → Nat → St W → Option (Except (Res X) Bool × St W)} (h : CondsOK x m sup ev)
    (hm : m' = m) (hs : ∀ lp e d, sup' lp e d → sup lp e d) (he : ∀ K n σ, ev' K n σ = ev K n σ) :
    CondsOK x m' sup' ev' := by
  subst hm
  intro g u g' hg L
  refine (h g u g' hg L).mono ?_
  intro c K f T t hS h1 h2 n emp d base st σ a σ' hsup hem hd hv
  exact f T t hS h1 h2 n emp d base st σ a σ' (hs _ _ _ hsup) hem hd (by rw [← he]; exact hv)

theorem WhensOK.congr {x : Ctx} {m m' : Option Nat → M (Option Nat × List Nat)} {isNil uv : Bool}
    {sup sup' : Bool → Bool → Bool → Prop}
    {ev ev' : Env W X → Nat → Val → (St W → Ans W X) → St W → Ans W X} (h : WhensOK x m isNil uv sup ev)
    (hm : ∀ p, m' p = m p) (hs : ∀ lp e d, sup' lp e d → sup lp e d)
    (he : ∀ K n v els σ, ev' K n v els σ = ev K n v els σ) : WhensOK x m' isNil uv sup' ev' := by
  have hm := funext hm
  subst hm
  intro next g r g' hg L
  refine (h next g r g' hg L).mono ?_
  intro c K f T te tn hS h1 h2 h3 h4
  refine ⟨(f T te tn hS h1 h2 h3 h4).1, ?_⟩
  intro n emp d base st v σ els r σ' hsup hem hd hv
  exact (f T te tn hS h1 h2 h3 h4).2 n emp d base st v σ els r σ' (hs _ _ _ hsup) hem hd (by rw [← he]; exact hv)

theorem CondWhensOK.congr {x : Ctx} {m m' : M (List Nat)} {uv : Bool} {sup sup' : Bool → Bool → Bool → Prop}
    {ev ev' : Env W X → Nat → (St W → Ans W X) → St W → Ans W X} (h : CondWhensOK x m uv sup ev)
    (hm : m' = m) (hs : ∀ lp e d, sup' lp e d → sup lp e d)
    (he : ∀ K n els σ, ev' K n els σ = ev K n els σ) : CondWhensOK x m' uv sup' ev' := by
  subst hm
  intro g r g' hg L
  refine (h g r g' hg L).mono ?_
  intro c K f T te hS h1 h2 n emp d base st σ els r σ' hsup hem hd hv
  exact f T te hS h1 h2 n emp d base st σ els r σ' (hs _ _ _ hsup) hem hd (by rw [← he]; exact hv)

theorem TableOK.congr {x : Ctx} {ws : Whens} {m m' : Nat → M (CaseMap × List Nat)} {uv : Bool}
    {sup sup' : Bool → Bool → Bool → Prop} {ev ev' : Env W X → Nat → Nat → St W → Ans W X}
    (h : TableOK x ws m uv sup ev)
    (hm : ∀ s, m' s = m s) (hs : ∀ lp e d, sup' lp e d → sup lp e d)
    (he : ∀ K n i σ, ev' K n i σ = ev K n i σ) : TableOK x ws m' uv sup' ev' := by
  have hm := funext hm
  subst hm
  intro start g r g' hg
  obtain ⟨ps, h1, h2, h3, h4⟩ := h start g r g' hg
  refine ⟨ps, h1, h2, h3, fun L => (h4 L).mono ?_⟩
  intro c K f T te hS h1 h2 i hi n emp d base st σ r σ' hsup hem hd hv
  exact f T te hS h1 h2 i hi n emp d base st σ r σ' (hs _ _ _ hsup) hem hd (by rw [← he]; exact hv)

theorem RescuesOK.congr {x : Ctx} {m m' : Option Nat → M (Option Nat × List Nat)} {isNil uv : Bool}
    {sup sup' : Bool → Bool → Bool → Prop}
    {ev ev' : Env W X → Nat → Val → St W → Option (Option (Res X) × St W)} (h : RescuesOK x m isNil uv sup ev)
    (hm : ∀ p, m' p = m p) (hs : ∀ lp e d, sup' lp e d → sup lp e d)
    (he : ∀ K n v σ, ev' K n v σ = ev K n v σ) : RescuesOK x m' isNil uv sup' ev' := by
  have hm := funext hm
  subst hm
  intro next g r g' hg L
  refine (h next g r g' hg L).mono ?_
  intro c K f T te tn hS h1 h2 h3 h4
  refine ⟨(f T te tn hS h1 h2 h3 h4).1, ?_⟩
  intro n emp d base st v σ a σ' hsup hem hd hv
  exact (f T te tn hS h1 h2 h3 h4).2 n emp d base st v σ a σ' (hs _ _ _ hsup) hem hd (by rw [← he]; exact hv)

theorem ElseOK.congr {x : Ctx} {m m' : M Unit} {uv : Bool} {sup sup' : Bool → Bool → Bool → Prop}
    {ev ev' : Env W X → Nat → Val → St W → Ans W X} (h : ElseOK x m uv sup ev)
    (hm : m' = m) (hs : ∀ lp e d, sup' lp e d → sup lp e d) (he : ∀ K n v σ, ev' K n v σ = ev K n v σ) :
    ElseOK x m' uv sup' ev' := by
  subst hm
  intro g u g' hg L
  refine (h g u g' hg L).mono ?_
  intro c K f T hS n emp d base st v σ r σ' hsup hem hd hv
  exact f T hS n emp d base st v σ r σ' (hs _ _ _ hsup) hem hd (by rw [← he]; exact hv)

/-! ### Small facts -/

theorem curM_const {α : Type} (m : M α) : (curM >>= fun _ => m) = m := rfl

theorem onVal_assoc (r : Ans W X) (f k : Val → St W → Ans W X) :
    onVal (onVal r f) k = onVal r fun v σ => onVal (f v σ) k := by
  rcases r with _ | ⟨r, σ⟩
  · rfl
  · cases r <;> rfl

theorem onVal_id (r : Ans W X) : onVal r (fun v σ => some (.val v, σ)) = r := by
  rcases r with _ | ⟨r, σ⟩
  · rfl
  · cases r <;> rfl

theorem allInt_allLit {ws : Whens} (h : ws.allInt = true) : ws.allLit = true := by
  simp only [Whens.allInt, Whens.allLit, List.all_eq_true] at h ⊢
  intro n hn
  have := h n hn
  cases n <;> simp [Node.int?] at this
  rfl

/-- `gen_jmp_if_false`; `codegen.rs:540-590`. -/
def condGen (x : Ctx) : Node → M Nat
  | .binop (.c o) l r => genJFCmp o r.is_imm_i32 (gen x l true) (gen x r true)
  | c => genJF (gen x c true)

/-- The evaluator as the compiled code should behave. -/
abbrev evN (x : Ctx) (e : Node) (uv : Bool) (K : Env W X) (n : Nat) (σ : St W) : Ans W X :=
  eval K.world K.self false x n e uv σ

/-- What is proved of an expression. -/
def Good (W X : Type) (x : Ctx) (e : Node) : Prop :=
  (∀ uv, GenOK (W := W) (X := X) x (gen x e uv) uv (fun lp em d => Supported lp e uv em d) (evN x e uv)) ∧
    CondOK (W := W) (X := X) x (condGen x e) false (fun lp em d => Supported lp e true em d) (evN x e true)

theorem Good.of {x : Ctx} {e : Node}
    (h : ∀ uv, GenOK (W := W) (X := X) x (gen x e uv) uv (fun lp em d => Supported lp e uv em d) (evN x e uv))
    (hc : ∀ o l r, e ≠ .binop (.c o) l r) : Good W X x e := by
  refine ⟨h, (CondOK.jf (h true)).congr ?_ (fun _ _ _ h => h) (fun _ _ _ => rfl)⟩
  unfold condGen
  split
  · exact absurd rfl (hc _ _ _)
  · rfl

theorem imm_ev {x : Ctx} {e : Node} {i : BitVec 32} (h : e.is_imm_i32 = some i) (K : Env W X) (n : Nat) (σ : St W) :
    evN x e true K n σ = some (.val (Value.integer i.toInt), σ) := by
  rw [imm_i32 h, evN, eval]; rfl

theorem immu_ev {x : Ctx} {e : Node} {i : BitVec 32} (h : e.is_imm_u32 = some i) (K : Env W X) (n : Nat) (σ : St W) :
    evN x e true K n σ = some (.val (Value.integer i.toNat), σ) := by
  rw [imm_u32 h, evN, eval]; rfl

/-- `Vec::is_empty`. -/
def Whens.isNil : Whens → Bool
  | .nil => true
  | .cons .. => false

theorem GenOK.carray {x : Ctx} (l : List Lit) (uv : Bool) :
    GenOK (W := W) (X := X) x (if !uv then pure () else genCArray l) uv (fun _ _ _ => True)
      (fun K _ σ => if uv then
        some (.val (K.world.mkArray (l.map Lit.value) σ).1, (K.world.mkArray (l.map Lit.value) σ).2)
        else some (.val Value.nil, σ)) := by
  cases uv with
  | false => exact GenOK.nothing rfl fun K n σ => ⟨_, rfl⟩
  | true =>
    show GenOK x (genCArray l) true _ _
    cases l with
    | nil => exact (GenOK.array (AllOK.nil (sup := fun _ _ _ => True))).congr rfl (fun _ _ _ _ => ⟨trivial, by decide⟩)
              (fun K n σ => rfl)
    | cons a l => exact GenOK.const fun K n σ => rfl

theorem Node.quiet_ev {x : Ctx} {a : Node} (h : a.quiet = true) : (∀ lp e d, Supported lp a false e d) ∧
    ∀ (K : Env W X) n σ, ∃ v w, evN x a true K n σ = some (.val v, σ) ∧ evN x a false K n σ = some (.val w, σ) := by
  fun_induction Node.quiet a with
  | case1 => cases h
  | case2 l hl =>
    refine ⟨fun lp e d => by simp only [Supported]; exact .inr h, fun K n σ => ?_⟩
    have : (evalLit K.world σ l).2 = σ := by cases l <;> first | rfl | exact absurd rfl (hl _)
    refine ⟨(evalLit K.world σ l).1, Value.nil, ?_, ?_⟩
    · simp only [evN, eval, if_true]; rw [this]
    · simp only [evN, eval]; try rfl
  | case3 n ih =>
    refine ⟨fun lp e d => by simp only [Supported, SupSeq]; exact (ih h).1 lp e d, fun K n σ => ?_⟩
    simp only [evN, eval, evalSeq]
    exact (ih h).2 K n σ
  | case4 => cases h

theorem condGen_ne {x : Ctx} {c : Node} (h : ¬ ∃ o l r, c = .binop (.c o) l r) :
    condGen x c = genJF (gen x c true) := by
  unfold condGen
  split
  · exact absurd ⟨_, _, _, rfl⟩ h
  · rfl

/-- The value of code that leaves none does not matter. -/
theorem GenOK.forget {x : Ctx} {m : M Unit} {sup : Bool → Bool → Bool → Prop}
    {ev ev' : Env W X → Nat → St W → Ans W X} (h : GenOK x m false sup ev)
    (he : ∀ K n σ r σ', ev' K n σ = some (r, σ') →
      ∃ r0, ev K n σ = some (r0, σ') ∧ (r0 = r ∨ ∃ v w, r0 = .val v ∧ r = .val w)) :
    GenOK x m false sup ev' := by
  intro g u g' hg L
  refine (h g u g' hg L).mono ?_
  intro c K f T hS n emp d base st σ r σ' hsup hem hd hv
  obtain ⟨r0, h0, rfl | ⟨v, w, rfl, rfl⟩⟩ := he K n σ r σ' hv
  · exact f T hS n emp d base st σ _ σ' hsup hem hd h0
  · rcases f T hS n emp d base st σ _ σ' hsup hem hd h0 with ⟨v', h1, h2⟩ | hL
    · exact .inl ⟨w, rfl, h2⟩
    · exact hL.elim

theorem gen_ite (x : Ctx) (c a b : Node) (uv : Bool) : gen x (.ite c a b) uv = (do
    let src1 ← condGen x c
    gen x a uv
    if uv then do
      let src2 ← jumpM JMP
      patchCurM src1
      gen x b true
      patchCurM src2
    else if b.isEmpty then patchCurM src1
    else do
      let src2 ← jumpM JMP
      patchCurM src1
      gen x b false
      patchCurM src2) := by
  by_cases h : ∃ o l r, c = .binop (.c o) l r
  · obtain ⟨o, l, r, rfl⟩ := h
    rw [gen, condGen]
  · rw [condGen_ne h, gen]
    exact fun o l r hc => h ⟨o, l, r, hc⟩

theorem gen_while (x : Ctx) (c b : Node) (uv : Bool) (co : Bool) : gen x (.while_ c b co) uv = (do
    pushLoop
    let loop_start ← curM
    let src ← (if co then condGen x c else do gen x c true; jumpM JMP_T)
    gen x b false
    jmpBackM loop_start
    patchCurM src
    whenM uv pushNil
    let src ← jumpM JMP
    let esc ← popLoop
    patchEscapes loop_start esc
    whenM (!uv) Codegen.pop
    patchCurM src) := by
  by_cases h : ∃ o l r, c = .binop (.c o) l r
  · obtain ⟨o, l, r, rfl⟩ := h
    conv_lhs => rw [gen]
    rw [condGen]
  · rw [condGen_ne h, gen]
    exact fun o l r hc => h ⟨o, l, r, hc⟩

mutual
theorem good {x : Ctx} (hx : CtxOK x) : ∀ e, Good W X x e
  | .lit l => .of (fun uv => (GenOK.lit l uv).congr (by rw [gen]) (fun _ _ _ h => by simpa only [Supported] using h)
      (fun K n σ => by rw [evN, eval])) (by simp)
  | .self => .of (fun uv => by
      cases uv with
      | true =>
        exact (GenOK.push (op := PUSH_SELF) (args := []) (sup := fun _ _ _ => True) (ev := evN x .self true) rfl
          (fun K pc n st σ => ⟨K.self, by rw [evN, eval], rfl⟩)).congr (by rw [gen]; rfl) (fun _ _ _ _ => trivial)
          (fun K n σ => rfl)
      | false =>
        exact (GenOK.nothing (sup := fun _ _ _ => True) (ev := evN x .self false) rfl
          (fun K n σ => ⟨K.self, by rw [evN, eval]⟩)).congr (by rw [gen]; rfl) (fun _ _ _ _ => trivial)
          (fun K n σ => rfl)) (by simp)
  | .lvar id => .of (fun uv => ((GenOK.getVar hx (.lvar id) (sup := fun _ _ _ => True)).pop).congr (by rw [gen]; rfl)
      (fun _ _ _ _ => trivial) (fun K n σ => by rw [evN, eval])) (by simp)
  | .ivar id => .of (fun uv => ((GenOK.getVar hx (.ivar id) (sup := fun _ _ _ => True)).pop).congr (by rw [gen]; rfl)
      (fun _ _ _ _ => trivial) (fun K n σ => by rw [evN, eval])) (by simp)
  | .gvar id => .of (fun uv => ((GenOK.getVar hx (.gvar id) (sup := fun _ _ _ => True)).pop).congr (by rw [gen]; rfl)
      (fun _ _ _ _ => trivial) (fun K n σ => by rw [evN, eval])) (by simp)
  | .ident id => .of (fun uv => (GenOK.ident (sup := fun _ _ _ => True)).congr (by rw [gen])
      (fun _ _ _ _ => trivial) (fun K n σ => by rw [evN, eval])) (by simp)
  | .binop op l r => by
    have hl := good hx l
    have hr := good hx r
    have hg : ∀ uv, GenOK (W := W) (X := X) x (gen x (.binop op l r) uv) uv
        (fun lp em d => Supported lp (.binop op l r) uv em d) (evN x (.binop op l r) uv) := fun uv =>
      ((GenOK.bin (op := op) (imm := r.is_imm_i32) (hl.1 true) (hr.1 true) (fun i hi => imm_ev hi)).pop).congr
        (by rw [gen]) (fun _ _ _ h => by simpa only [Supported] using h) (fun K n σ => by simp only [evN, eval]; try rfl)
    refine ⟨hg, ?_⟩
    by_cases hc : ∃ o, op = .c o
    · obtain ⟨o, rfl⟩ := hc
      exact (CondOK.cmp (o := o) (imm := r.is_imm_i32) (hl.1 true) (hr.1 true) (fun i hi => imm_ev hi)).congr
        (by rw [condGen]) (fun _ _ _ h => by simpa only [Supported] using h) (fun K n σ => by simp only [evN, eval]; try rfl)
    · refine (CondOK.jf (hg true)).congr ?_ (fun _ _ _ h => h) (fun _ _ _ => rfl)
      cases op <;> first | rfl | exact absurd ⟨_, rfl⟩ hc
  | .land l r => .of (fun uv => (GenOK.land ((good hx l).1 true) ((good hx r).1 uv)).congr (by rw [gen])
      (fun _ _ _ h => by simpa only [Supported] using h) (fun K n σ => by simp only [evN, eval]; try rfl)) (by simp)
  | .lor l r => .of (fun uv => (GenOK.lor ((good hx l).1 true) ((good hx r).1 uv)).congr (by rw [gen])
      (fun _ _ _ h => by simpa only [Supported] using h) (fun K n σ => by simp only [evN, eval]; try rfl)) (by simp)
  | .unop op a => .of (fun uv => by
      have ha := (good hx a).1 true
      cases op with
      | bitnot =>
        exact ((ha.op1 (op := BNOT) (args := []) (k := fun K n v σ => evalUn K.world false .bitnot v σ) rfl
          (fun K pc n v st σ => .inl ⟨_, rfl, rfl⟩)).pop).congr (by rw [gen]; simp only [bind_assoc])
          (fun _ _ _ h => by simpa only [Supported] using h) (fun K n σ => by simp only [evN, eval]; try rfl)
      | not =>
        exact ((ha.op1 (op := NOT) (args := []) (k := fun K n v σ => evalUn K.world false .not v σ) rfl
          (fun K pc n v st σ => .inr (.inr ⟨_, rfl, rfl⟩))).pop).congr (by rw [gen]; simp only [bind_assoc])
          (fun _ _ _ h => by simpa only [Supported] using h) (fun K n σ => by simp only [evN, eval]; try rfl)
      | neg =>
        exact ((ha.op1 (op := NEG) (args := []) (k := fun K n v σ => evalUn K.world false .neg v σ) rfl
          (fun K pc n v st σ => .inl ⟨_, rfl, rfl⟩)).pop).congr (by rw [gen]; simp only [bind_assoc])
          (fun _ _ _ h => by simpa only [Supported] using h) (fun K n σ => by simp only [evN, eval]; try rfl)
      | pos =>
        exact (ha.pop).congr (by rw [gen])
          (fun _ _ _ h => by simpa only [Supported] using h)
          (fun K n σ => by simp only [evN, eval, evalUn]; exact onVal_id _)) (by simp)
  | .array ns => .of (fun uv => ((GenOK.array (goodAll hx ns)).pop).congr
      (by rw [gen]; simp only [bind_assoc])
      (fun _ _ _ h => by simpa only [Supported] using h) (fun K n σ => by simp only [evN, eval]; try rfl)) (by simp)
  | .carray l => .of (fun uv => (GenOK.carray l uv).congr (by rw [gen]) (fun _ _ _ _ => trivial)
      (fun K n σ => by simp only [evN, eval]; try rfl)) (by simp)
  | .range a b ex => .of (fun uv => ((GenOK.range (excl := ex) ((good hx a).1 true) ((good hx b).1 true)).pop).congr
      (by rw [gen]; simp only [bind_assoc])
      (fun _ _ _ h => by simpa only [Supported] using h) (fun K n σ => by simp only [evN, eval]; try rfl)) (by simp)
  | .index a b => .of (fun uv => by
      have ha := (good hx a).1 true
      have hb := (good hx b).1 true
      cases hi : b.is_imm_u32 with
      | some u =>
        exact ((ha.op1 (op := GET_IDX_I) (args := [.o32 u])
          (k := fun K n v σ => ofEff (K.world.index v (Value.integer u.toNat) σ)) (by okop)
          (fun K pc n v st σ => .inl ⟨_, rfl, by rw [← K.world.indexI_eq]; rfl⟩)).pop).congr
          (by rw [gen, hi]; simp only [bind_assoc])
          (fun _ _ _ h => by simp only [Supported] at h; exact h.1)
          (fun K n σ => by
            simp only [evN, eval]; congr 1; funext v σ
            have := immu_ev (x := x) hi K n σ
            rw [evN] at this; rw [this]; rfl)
      | none =>
        exact ((ha.op2 hb (op := GET_INDEX) (args := []) (k := fun K n v w σ => ofEff (K.world.index v w σ)) rfl
          (fun K pc n v w st σ => .inl ⟨_, rfl, rfl⟩)).pop).congr
          (by rw [gen, hi]; simp only [bind_assoc])
          (fun _ _ _ h => by simpa only [Supported] using h) (fun K n σ => by simp only [evN, eval]; try rfl)) (by simp)
  | .seq ns => .of (fun uv => (goodSeq hx ns uv).congr (by rw [gen])
      (fun _ _ _ h => by simpa only [Supported] using h) (fun K n σ => by simp only [evN, eval]; try rfl)) (by simp)
  | .ite c a b => .of (fun uv => by
      have hc := (good hx c).2
      have ha := (good hx a).1 uv
      have hb := (good hx b).1 uv
      cases uv with
      | true =>
        exact (GenOK.ite hc ha hb).congr (by rw [gen_ite]; rfl)
          (fun _ _ _ h => by simpa only [Supported] using h) (fun K n σ => by simp only [evN, eval]; try rfl)
      | false =>
        by_cases he : b.isEmpty = true
        · have : b = .seq .nil := by
            unfold Node.isEmpty at he
            split at he
            · rfl
            · cases he
          subst this
          exact (GenOK.iteN hc ha).congr (by rw [gen_ite]; rfl)
            (fun _ _ _ h => by simp only [Supported] at h; exact ⟨h.1, h.2.1⟩)
            (fun K n σ => by simp only [evN, eval, evalSeq])
        · exact (GenOK.ite hc ha hb).congr (by rw [gen_ite]; simp only [he]; rfl)
            (fun _ _ _ h => by simpa only [Supported] using h) (fun K n σ => by simp only [evN, eval]; try rfl)) (by simp)
  | .while_ c b co => .of (fun uv => by
      have hb := (good hx b).1 false
      cases co with
      | true =>
        exact (GenOK.while_ (good hx c).2 hb).congr (by rw [gen_while]; rfl)
          (fun _ _ _ h => by simpa only [Supported] using h) (fun K n σ => by simp only [evN, eval]; try rfl)
      | false =>
        exact (GenOK.while_ (CondOK.jt ((good hx c).1 true)) hb).congr (by rw [gen_while]; rfl)
          (fun _ _ _ h => by simpa only [Supported] using h) (fun K n σ => by simp only [evN, eval]; try rfl)) (by simp)
  | .brk a => .of (fun uv => (GenOK.brk ((good hx a).1 true)).congr (by rw [gen])
      (fun _ _ _ h => by simpa only [Supported] using h) (fun K n σ => by simp only [evN, eval]; try rfl)) (by simp)
  | .nxt a => .of (fun uv => (GenOK.nxt ((good hx a).1 true) ((good hx a).1 uv)).congr (by rw [gen])
      (fun lp e d h => by
        simp only [Supported] at h
        refine ⟨h.1, fun hl => ?_⟩
        obtain ⟨h1, rfl, h3⟩ := h.2 hl
        obtain ⟨hs, hq⟩ := Node.quiet_ev (W := W) (X := X) (x := x) h3
        exact ⟨h1, rfl, hs _ _ _, hq⟩)
      (fun K n σ => by simp only [evN, eval]; try rfl)) (by simp)
  | .ret a => .of (fun uv => (GenOK.ret ((good hx a).1 true)).congr (by rw [gen])
      (fun _ _ _ h => by simpa only [Supported] using h) (fun K n σ => by simp only [evN, eval]; try rfl)) (by simp)
  | .assign t a => .of (fun uv => (GenOK.assign hx ((good hx a).1 true)).congr (by rw [gen])
      (fun _ _ _ h => by simpa only [Supported] using h) (fun K n σ => by simp only [evN, eval]; try rfl)) (by simp)
  | .opassign op t a => .of (fun uv =>
      (GenOK.assign hx (GenOK.bin (op := op) (imm := a.is_imm_i32) (GenOK.getVar hx t (sup := fun _ _ _ => True))
        ((good hx a).1 true) (fun i hi => imm_ev hi))).congr (by rw [gen])
      (fun _ _ _ h => by simp only [Supported] at h; exact ⟨trivial, h⟩)
      (fun K n σ => by simp only [evN, eval]; rw [show ∀ (v : Val) (k : Val → St W → Ans W X), onVal (some (.val v, σ)) k = k v σ from
        fun _ _ => rfl, onVal_assoc])) (by simp)
  | .assignIdx a i b => .of (fun uv => by
      have ha := (good hx a).1 true
      have hi := (good hx i).1 true
      have hb := (good hx b).1 true
      cases hu : i.is_imm_u32 with
      | some u =>
        exact (GenOK.assignIdxI (i := u) (ev2 := evN x i true) (sup2 := fun lp em d => Supported lp i true em d)
          ha (fun K n σ => immu_ev hu K n σ) hb).congr (by rw [gen, hu])
          (fun _ _ _ h => by simpa only [Supported] using h) (fun K n σ => by simp only [evN, eval]; try rfl)
      | none =>
        exact (GenOK.assignIdx ha hi hb).congr (by rw [gen, hu])
          (fun _ _ _ h => by simpa only [Supported] using h) (fun K n σ => by simp only [evN, eval]; try rfl)) (by simp)
  | .attrAssign a m b => .of (fun uv => by
      have h := GenOK.attr (m := x.setter m) (uv := uv) ((good hx a).1 true) ((good hx b).1 true)
      cases uv with
      | true =>
        exact h.congr (by rw [gen]) (fun _ _ _ h => by simpa only [Supported] using h)
          (fun K n σ => by
            simp only [evN, eval]; congr 1; funext r σ; congr 1; funext v σ
            simp only [Bool.false_or, Bool.not_true, Bool.false_eq_true, if_false]; exact onVal_id _)
      | false =>
        refine (h.congr (by rw [gen]) (fun _ _ _ h => by simpa only [Supported] using h)
          (fun K n σ => rfl)).forget ?_
        intro K n σ r σ' hv
        simp only [evN, eval] at hv
        rcases onVal_some hv with ⟨rv, σ1, h1, hv⟩ | ⟨h1, hn⟩
        · rcases onVal_some hv with ⟨v, σ2, h2, hv⟩ | ⟨h2, hn⟩
          · rcases onVal_some hv with ⟨w, σ3, h3, hv⟩ | ⟨h3, hn⟩
            · cases hv
              exact ⟨_, by simp only [evN, h1, onVal, h2]; exact h3, .inr ⟨_, _, rfl, rfl⟩⟩
            · exact ⟨_, by simp only [evN, h1, onVal, h2]; exact h3, .inl rfl⟩
          · refine ⟨r, ?_, .inl rfl⟩
            simp only [evN, h1, onVal]
            rw [h2]
            cases r <;> first | rfl | exact absurd rfl (hn _)
        · refine ⟨r, ?_, .inl rfl⟩
          simp only [evN, onVal]
          rw [h1]
          cases r <;> first | rfl | exact absurd rfl (hn _)) (by simp)
  | .massign ts ns => .of (fun uv => (goodMassign hx ts ns uv).congr (by rw [gen])
      (fun _ _ _ h => by simpa only [Supported] using h) (fun K n σ => by simp only [evN, eval]; try rfl)) (by simp)
  | .send a m ns => .of (fun uv => (GenOK.send ((good hx a).1 true) (goodAll hx ns)).congr (by rw [gen])
      (fun _ _ _ h => by simpa only [Supported] using h) (fun K n σ => by simp only [evN, eval]; try rfl)) (by simp)
  | .sendB a m ns b => .of (fun uv => (GenOK.sendB ((good hx a).1 true) (goodAll hx ns)).congr (by rw [gen])
      (fun _ _ _ h => by simpa only [Supported] using h) (fun K n σ => by simp only [evN, eval]; try rfl)) (by simp)
  | .yield_ ns => .of (fun uv => ((GenOK.yield (goodAll hx ns)).pop).congr
      (by rw [gen]; simp only [bind_assoc])
      (fun _ _ _ h => by simpa only [Supported] using h) (fun K n σ => by simp only [evN, eval]; try rfl)) (by simp)
  | .case_ c ws b => .of (fun uv => by
      have hc := (good hx c).1 true
      have hb := (good hx b).1 uv
      by_cases hi : ws.allInt = true
      · exact (GenOK.case2 hc (goodTable hx ws uv) hb).congr (by rw [gen]; simp only [hi]; rfl)
          (fun _ _ _ h => by simpa only [Supported] using h)
          (fun K n σ => by simp only [evN, eval, hi, allInt_allLit hi]; rfl)
      · by_cases hl : ws.allLit = true
        · exact (GenOK.case1 hc (goodTable hx ws uv) hb).congr (by rw [gen]; simp only [hi, hl]; rfl)
            (fun _ _ _ h => by simpa only [Supported] using h)
            (fun K n σ => by simp only [evN, eval, hi, hl]; rfl)
        · exact (GenOK.caseGen hc (goodWhens hx ws uv) (by
              intro h next
              cases ws with
              | nil => rw [genWhens]
              | cons => cases h) hb).congr (by rw [gen]; simp only [hi, hl]; rfl)
            (fun _ _ _ h => by simpa only [Supported] using h)
            (fun K n σ => by simp only [evN, eval, hl]; rfl)) (by simp)
  | .caseN ws b => .of (fun uv => (GenOK.caseN (goodCondWhens hx ws uv) ((good hx b).1 uv)).congr (by rw [gen])
      (fun _ _ _ h => by simpa only [Supported] using h) (fun K n σ => by simp only [evN, eval]; try rfl)) (by simp)
  | .begin_ b rs els ens => .of (fun uv => by
      have hb := (good hx b).1 uv
      have hr := goodRescues hx rs uv
      have hl := goodElse hx els uv
      have hn := goodOpt hx ens
      cases rs with
      | nil =>
        exact (GenOK.begin0 (he := ens.isSome) hb hl hn).congr (by rw [gen]; rfl)
          (fun _ _ _ h => by simp only [Supported] at h; exact ⟨h.2.1, h.2.2.2.1, h.2.2.2.2⟩)
          (fun K n σ => by simp only [evN, eval]; try rfl)
      | cons a b c d =>
        exact (GenOK.begin1 (he := ens.isSome) hb hr hl hn).congr (by rw [gen]; rfl)
          (fun _ _ _ h => by simp only [Supported] at h; exact ⟨h.1 rfl, h.2⟩)
          (fun K n σ => by simp only [evN, eval]; try rfl)) (by simp)

theorem goodAll {x : Ctx} (hx : CtxOK x) : ∀ ns, AllOK (W := W) (X := X) x (genAll x ns) ns.length
    (fun lp e d => SupAll lp ns e d) (fun K n σ => evalAll K.world K.self false x n ns σ)
  | .nil => AllOK.nil.congr (by rw [genAll]) (fun _ _ _ h => h) (fun K n σ => by rw [evalAll]; try rfl)
  | .cons a ns => (AllOK.cons ((good hx a).1 true) (goodAll hx ns)).congr (by rw [genAll])
      (fun _ _ _ h => by simpa only [SupAll] using h) (fun K n σ => by rw [evalAll]; try rfl)

theorem goodSeq {x : Ctx} (hx : CtxOK x) : ∀ ns uv, GenOK (W := W) (X := X) x (genSeq x ns uv) uv
    (fun lp e d => SupSeq lp ns uv e d) (fun K n σ => evalSeq K.world K.self false x n ns uv σ)
  | .nil, uv => by
    cases uv with
    | true =>
      exact (GenOK.push (op := PUSH_NIL) (args := []) (sup := fun _ _ _ => True)
        (ev := fun _ _ σ => some (.val Value.nil, σ)) rfl
        (fun K pc n st σ => ⟨_, rfl, rfl⟩)).congr (by rw [genSeq]; rfl) (fun _ _ _ _ => trivial)
        (fun K n σ => by rw [evalSeq]; try rfl)
    | false =>
      exact (GenOK.nothing (sup := fun _ _ _ => True) (ev := fun _ _ σ => some (.val Value.nil, σ)) rfl
        (fun K n σ => ⟨_, rfl⟩)).congr (by rw [genSeq]; rfl) (fun _ _ _ _ => trivial)
        (fun K n σ => by rw [evalSeq]; try rfl)
  | .cons a .nil, uv => ((good hx a).1 uv).congr (by rw [genSeq]) (fun _ _ _ h => by simpa only [SupSeq] using h)
      (fun K n σ => by rw [evalSeq]; try rfl)
  | .cons a (.cons b ns), uv => (GenOK.seq ((good hx a).1 false) (goodSeq hx (.cons b ns) uv)).congr (by rw [genSeq])
      (fun _ _ _ h => by simpa only [SupSeq] using h) (fun K n σ => by rw [evalSeq]; try rfl)

theorem goodFirst {x : Ctx} (hx : CtxOK x) : ∀ ns k, FirstOK (W := W) (X := X) x (genFirst x ns k) ns.length k
    (fun lp e d => SupFirst lp ns k e d) (fun K n σ => evalFirst K.world K.self false x n ns k σ)
  | .nil, k => FirstOK.nil.congr (by rw [genFirst]) (fun _ _ _ h => h) (fun K n σ => by rw [evalFirst]; try rfl)
  | .cons a ns, k => (FirstOK.cons ((good hx a).1 _) (goodFirst hx ns (k - 1))).congr (by rw [genFirst])
      (fun _ _ _ h => by simpa only [SupFirst] using h) (fun K n σ => by rw [evalFirst]; try rfl)

theorem goodMassign {x : Ctx} (hx : CtxOK x) (ts : List Var) : ∀ ns uv, GenOK (W := W) (X := X) x
    (genMassign x ts ns uv) uv
    (fun lp e d => SupMassign lp ts.length ns uv e d) (fun K n σ => evalMassign K.world K.self false x n ts ns uv σ)
  | .cons a .nil, uv => by
    have ha := (good hx a).1 true
    by_cases ht : ∃ t, ts = [t]
    · obtain ⟨t, rfl⟩ := ht
      exact (GenOK.assign hx ha).congr (by rw [genMassign])
        (fun _ _ _ h => by simp only [SupMassign] at h; exact h.1) (fun K n σ => by rw [evalMassign]; try rfl)
    · exact (GenOK.spread hx ha).congr
        (by
          rw [genMassign]
          exact fun t h => ht ⟨t, h⟩)
        (fun _ _ _ h => by simpa only [SupMassign] using h)
        (fun K n σ => by
          rw [evalMassign]
          congr 1; funext v σ
          split
          · exact absurd ⟨_, rfl⟩ ht
          · rfl)
  | .nil, uv => by
    cases uv with
    | true =>
      exact (GenOK.manyTrue (ts := ts) hx AllOK.nil (sup := fun _ _ _ => True)).congr (by rw [genMassign]; rfl)
        (fun _ _ _ h => by simp only [SupMassign] at h; exact ⟨trivial, by simpa using h⟩)
        (fun K n σ => by rw [evalMassign]; simp only [evalAll]; rfl; simp)
    | false =>
      exact (GenOK.manyFalse (ts := ts) hx FirstOK.nil (sup := fun _ _ _ => True)).congr (by rw [genMassign]; rfl)
        (fun _ _ _ h => trivial)
        (fun K n σ => by rw [evalMassign]; simp only [evalFirst]; simp)
  | .cons a (.cons b ns), uv => by
    cases uv with
    | true =>
      exact (GenOK.manyTrue (ts := ts) hx (AllOK.cons ((good hx a).1 true) (goodAll hx (.cons b ns)))).congr
        (by rw [genMassign]; simp only [if_true, bind_assoc]; rfl)
        (fun _ _ _ h => by simp only [SupMassign] at h; exact h)
        (fun K n σ => by rw [evalMassign]; simp only [evalAll]; rfl; simp)
    | false =>
      exact (GenOK.manyFalse (ts := ts) hx (FirstOK.cons ((good hx a).1 _) (goodFirst hx (.cons b ns) _))).congr
        (by rw [genMassign]; simp only [Bool.false_eq_true, if_false, bind_assoc]; rfl)
        (fun _ _ _ h => by simpa only [SupMassign] using h)
        (fun K n σ => by rw [evalMassign]; simp only [evalFirst]; rfl; simp)

theorem goodTable {x : Ctx} (hx : CtxOK x) : ∀ ws uv, TableOK (W := W) (X := X) x ws (fun s => genTable x ws s uv) uv
    (fun lp e d => SupWhens lp ws uv e d) (fun K n i σ => evalBranch K.world K.self false x n ws i uv σ)
  | .nil, uv => (TableOK.nil (sup := fun _ _ _ => True) (ev := fun _ _ _ _ => none)).congr (fun s => by rw [genTable])
      (fun _ _ _ _ => trivial) (fun K n i σ => by rw [evalBranch]; try rfl)
  | .cons ls b rest, uv => (TableOK.cons ((good hx b).1 uv) (goodTable hx rest uv)).congr (fun s => by rw [genTable])
      (fun _ _ _ h => by simp only [SupWhens] at h; exact h.2)
      (fun K n i σ => by cases i <;> simp only [evalBranch])

theorem goodLabels {x : Ctx} (hx : CtxOK x) : ∀ ns, LabelsOK (W := W) (X := X) x (genLabels x ns)
    (fun lp => SupAll lp ns false false) (fun K n v σ => evalLabels K.world K.self false x n ns v σ)
  | .nil => LabelsOK.nil.congr (by rw [genLabels]) (fun _ h => h) (fun K n v σ => by rw [evalLabels]; try rfl)
  | .cons a ns => (LabelsOK.cons ((good hx a).1 true) (goodLabels hx ns)).congr (by rw [genLabels])
      (fun _ h => by simpa only [SupAll] using h) (fun K n v σ => by rw [evalLabels]; try rfl)

theorem goodWhens {x : Ctx} (hx : CtxOK x) : ∀ ws uv, WhensOK (W := W) (X := X) x
    (fun next => genWhens x ws next uv) ws.isNil uv
    (fun lp e d => SupWhens lp ws uv e d) (fun K n v els σ => evalWhens K.world K.self false x n ws v els uv σ)
  | .nil, uv => (WhensOK.nil (sup := fun _ _ _ => True)).congr (fun s => by rw [genWhens])
      (fun _ _ _ _ => trivial) (fun K n v els σ => by rw [evalWhens]; try rfl)
  | .cons ls b rest, uv => (WhensOK.cons (goodLabels hx ls) ((good hx b).1 uv) (goodWhens hx rest uv)).congr
      (fun s => by rw [genWhens])
      (fun _ _ _ h => by simpa only [SupWhens] using h)
      (fun K n v els σ => by rw [evalWhens]; try rfl)

theorem goodConds {x : Ctx} (hx : CtxOK x) : ∀ ns, CondsOK (W := W) (X := X) x (genConds x ns)
    (fun lp e d => SupConds lp ns e d) (fun K n σ => evalConds K.world K.self false x n ns σ)
  | .nil => CondsOK.nil.congr (by rw [genConds]) (fun _ _ _ h => h) (fun K n σ => by rw [evalConds]; rfl)
  | .cons a ns => (CondsOK.cons ((good hx a).1 true) (goodConds hx ns)).congr (by rw [genConds])
      (fun _ _ _ h => by simpa only [SupConds] using h) (fun K n σ => by rw [evalConds]; try rfl)

theorem goodCondWhens {x : Ctx} (hx : CtxOK x) : ∀ ws uv, CondWhensOK (W := W) (X := X) x
    (genCondWhens x ws uv) uv
    (fun lp e d => SupCondWhens lp ws uv e d) (fun K n els σ => evalCondWhens K.world K.self false x n ws els uv σ)
  | .nil, uv => (CondWhensOK.nil (sup := fun _ _ _ => True)).congr (by rw [genCondWhens])
      (fun _ _ _ _ => trivial) (fun K n els σ => by rw [evalCondWhens]; try rfl)
  | .cons ls b rest, uv => (CondWhensOK.cons (goodConds hx ls) ((good hx b).1 uv) (goodCondWhens hx rest uv)).congr
      (by rw [genCondWhens])
      (fun _ _ _ h => by simpa only [SupCondWhens] using h)
      (fun K n els σ => by rw [evalCondWhens]; try rfl)

theorem goodExcs {x : Ctx} (hx : CtxOK x) : ∀ ns, AllOK (W := W) (X := X) x (genExcs x ns) ns.excLen
    (fun lp e d => SupAll lp ns e d) (fun K n σ => evalExcs K.world K.self false x n ns σ)
  | .nil => (AllOK.std (sup := fun _ _ _ => True)).congr (by rw [genExcs]) (fun _ _ _ h => trivial)
      (fun K n σ => by rw [evalExcs]; try rfl)
  | .cons a ns => (AllOK.cons ((good hx a).1 true) (goodAll hx ns)).congr (by rw [genExcs])
      (fun _ _ _ h => by simpa only [SupAll] using h) (fun K n σ => by rw [evalExcs]; try rfl)

theorem goodRescues {x : Ctx} (hx : CtxOK x) : ∀ rs uv, RescuesOK (W := W) (X := X) x
    (fun prev => genRescues x rs prev uv) rs.isEmpty uv
    (fun lp e d => SupRescues lp rs uv e d) (fun K n v σ => evalRescues K.world K.self false x n rs v uv σ)
  | .nil, uv => (RescuesOK.nil (sup := fun _ _ _ => True)).congr (fun s => by rw [genRescues])
      (fun _ _ _ _ => trivial) (fun K n v σ => by rw [evalRescues]; try rfl)
  | .cons excs t b rest, uv =>
    (RescuesOK.cons hx (t := t) (goodExcs hx excs) ((good hx b).1 uv) (goodRescues hx rest uv)).congr
      (fun s => by rw [genRescues]; cases t <;> rfl)
      (fun _ _ _ h => by simpa only [SupRescues] using h)
      (fun K n v σ => by rw [evalRescues]; rfl)

theorem goodElse {x : Ctx} (hx : CtxOK x) : ∀ o uv, ElseOK (W := W) (X := X) x (genElse x o uv) uv
    (fun lp e d => SupOpt lp o uv e d) (fun K n v σ => evalElse K.world K.self false x n o v uv σ)
  | .none, uv => (ElseOK.none (sup := fun _ _ _ => True)).congr (by rw [genElse]) (fun _ _ _ _ => trivial)
      (fun K n v σ => by rw [evalElse]; try rfl)
  | .some a, uv => (ElseOK.some ((good hx a).1 uv)).congr (by rw [genElse])
      (fun _ _ _ h => by simpa only [SupOpt] using h) (fun K n v σ => by rw [evalElse]; try rfl)

theorem goodOpt {x : Ctx} (hx : CtxOK x) : ∀ o, GenOK (W := W) (X := X) x (genOpt x o) false
    (fun lp e d => SupOpt lp o false e d) (fun K n σ => evalOpt K.world K.self false x n o σ)
  | .none => (GenOK.nothing (sup := fun _ _ _ => True) (ev := fun _ _ σ => some (.val Value.nil, σ)) rfl
      (fun K n σ => ⟨_, rfl⟩)).congr (by rw [genOpt]) (fun _ _ _ _ => trivial)
      (fun K n σ => by rw [evalOpt]; try rfl)
  | .some a => ((good hx a).1 false).congr (by rw [genOpt])
      (fun _ _ _ h => by simpa only [SupOpt] using h) (fun K n σ => by rw [evalOpt]; try rfl)
end

end Verif.Codegen
