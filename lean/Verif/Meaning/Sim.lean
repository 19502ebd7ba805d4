import Verif.Meaning.Low
import Verif.Arith.Props
import Verif.Value.Props
/-!
# The evaluator of C31 computes what the specification says
-/
namespace Verif.Meaning
open Verif.Lexer (Chars BinOp)
open Verif.Parser (Node)
open Verif.Pipeline (Names lower lowerAll lowerVars lowerVar bin un both three massign)
open Verif.Codegen (Id Ctx Nodes World St Res Ans Eff eval evalSeq evalAll evalFirst evalMassign evalBin evalUn onVal ofEff ofEffB
  getVar setVar setVars assignAll loopN truthy)
open Verif.Value (Val)
open Verif.Arith (num)

variable {W X : Type}

/-- The value that the interpreter holds for it. -/
def word : V → Val
  | .nil => Value.nil
  | .bool b => Value.bool b
  | .int n => num n

/-- The operators of the interpreter, on integers, are those of `ops.rs` (as modelled in `Verif.Arith`), and change nothing.
`zero`: the exception for a division by zero. -/
structure Ops (K : World W X) (zero : X) : Prop where
  add : ∀ a b v σ, Arith.invoke_op (· + ·) a b = .ok v → K.bin .add a b σ = (.ok v, σ)
  sub : ∀ a b v σ, Arith.invoke_op (· - ·) a b = .ok v → K.bin .sub a b σ = (.ok v, σ)
  mul : ∀ a b v σ, Arith.invoke_mul a b = .ok v → K.bin .mul a b σ = (.ok v, σ)
  div : ∀ a b v σ, Arith.invoke_div a b = .ok v → K.bin .div a b σ = (.ok v, σ)
  div0 : ∀ a b σ, Arith.invoke_div a b = .error .zeroDiv → K.bin .div a b σ = (.error zero, σ)
  rem : ∀ a b v σ, Arith.invoke_rem a b = .ok v → K.bin .rem a b σ = (.ok v, σ)
  rem0 : ∀ a b σ, Arith.invoke_rem a b = .error .zeroDiv → K.bin .rem a b σ = (.error zero, σ)
  exp : ∀ a b v σ, Arith.invoke_exp a b = .ok v → K.bin .exp a b σ = (.ok v, σ)
  compare : ∀ a b v σ, Arith.invoke_compare a b = .ok v → K.bin .cmp a b σ = (.ok v, σ)
  lt : ∀ a b v σ, Arith.eval_cmp .lt a b = .ok v → K.cmp .lt a b σ = (.ok v, σ)
  le : ∀ a b v σ, Arith.eval_cmp .le a b = .ok v → K.cmp .le a b σ = (.ok v, σ)
  gt : ∀ a b v σ, Arith.eval_cmp .gt a b = .ok v → K.cmp .gt a b σ = (.ok v, σ)
  ge : ∀ a b v σ, Arith.eval_cmp .ge a b = .ok v → K.cmp .ge a b σ = (.ok v, σ)
  eq : ∀ a b v σ, Arith.eval_eq a b = .ok v → K.cmp .eq a b σ = (.ok v, σ)
  ne : ∀ a b v σ, Arith.eval_eq a b = .ok v → K.cmp .ne a b σ = (.ok (!v), σ)
  neg : ∀ a v σ, Arith.invoke_neg a = .ok v → K.un .neg a σ = (.ok v, σ)

/-- The two ends agree; the value matters only if it is used. -/
def Agree (zero : X) (u : Bool) : Out → Res X → Prop
  | .value v, .val w => u = true → w = word v
  | .brk v, .brk w => w = word v
  | .nxt, .nxt _ => True
  | .ret v, .ret w _ => w = word v
  | .zeroDivision, .raise e => e = zero
  | _, _ => False

/-- The two stores agree. -/
def Match (K : World W X) (x : Ctx) (id : Names) (vars : List Chars) (ρ : Store) (σ : St W) : Prop :=
  ∀ y ∈ vars, getVar K x σ (.lvar (id y)) = word (ρ y)

/-- What the specification says, the evaluator does. -/
def Sim (K : World W X) (x : Ctx) (id : Names) (vars : List Chars) (zero : X) (w : W) (u : Bool) (R : Option (Out × Store))
    (E : Ans W X) : Prop :=
  ∀ o ρ', R = some (o, ρ') → ∃ r σ', E = some (r, σ') ∧ Agree zero u o r ∧ Match K x id vars ρ' σ' ∧ σ'.w = w

variable {K : World W X} {x : Ctx} {id : Names} {vars : List Chars} {zero : X} {w : W} {u : Bool}

theorem truthy_word (v : V) : truthy (word v) = v.truthy := by
  cases v with
  | nil => decide
  | bool b => cases b <;> decide
  | int n =>
    show truthy (num n) = true
    by_cases h : Value.InI63 n
    · have hn : num n = .word (Value.fixnumW (BitVec.ofInt 64 n)) := Arith.num_small h
      rw [hn]
      show Value.to_bool _ = true
      by_contra hf
      have := (Value.C03_truthiness (.int n) _ hn).1 (by simpa using hf)
      simp at this
    · rw [Arith.num_big h]; rfl

theorem Sim.val {v : V} {ρ : Store} {σ : St W} (h : Match K x id vars ρ σ) (hw : σ.w = w) :
    Sim K x id vars zero w u (some (.value v, ρ)) (some (.val (word v), σ)) := by
  intro o ρ' he
  cases he
  exact ⟨_, _, rfl, fun _ => rfl, h, hw⟩

theorem Sim.drop {v : V} {v' : Val} {ρ : Store} {σ : St W} (h : Match K x id vars ρ σ) (hw : σ.w = w) :
    Sim K x id vars zero w false (some (.value v, ρ)) (some (.val v', σ)) := by
  intro o ρ' he
  cases he
  exact ⟨_, _, rfl, fun h => (Bool.false_ne_true h).elim, h, hw⟩

/-- Go on with a value. -/
theorem Sim.bind {R : Option (Out × Store)} {E : Ans W X} {u' : Bool} {k : V → Store → Option (Out × Store)}
    {k' : Val → St W → Ans W X} (h : Sim K x id vars zero w u' R E)
    (hk : ∀ v v' ρ σ, (u' = true → v' = word v) → Match K x id vars ρ σ → σ.w = w →
      Sim K x id vars zero w u (k v ρ) (k' v' σ)) :
    Sim K x id vars zero w u (onValue R k) (onVal E k') := by
  intro o ρ' he
  unfold onValue at he
  split at he
  · rename_i v ρ
    obtain ⟨r, σ, rfl, h2, h3, h4⟩ := h _ _ rfl
    cases r <;> try exact h2.elim
    rename_i v'
    exact hk v v' ρ σ h2 h3 h4 o ρ' he
  · rename_i hne
    obtain ⟨r, σ, rfl, h2, h3, h4⟩ := h _ _ he
    cases o with
    | value v => exact (hne v ρ' he).elim
    | _ => cases r <;> first | exact h2.elim | exact ⟨_, _, rfl, h2, h3, h4⟩

theorem Sim.bindV {R : Option (Out × Store)} {E : Ans W X} {k : V → Store → Option (Out × Store)}
    {k' : Val → St W → Ans W X} (h : Sim K x id vars zero w true R E)
    (hk : ∀ v ρ σ, Match K x id vars ρ σ → σ.w = w → Sim K x id vars zero w u (k v ρ) (k' (word v) σ)) :
    Sim K x id vars zero w u (onValue R k) (onVal E k') :=
  h.bind fun v v' ρ σ hv hm hw => by rw [hv rfl]; exact hk v ρ σ hm hw

theorem Sim.none {E : Ans W X} : Sim K x id vars zero w u none E := by
  intro o ρ' h; cases h

theorem eq_const (c : Value.Word) (n : Int) (h1 : Value.as_fixnum c = none) (h2 : Value.as_flonum c = none) :
    Arith.eval_eq (.word c) (num n) = .ok false ∧ Arith.eval_eq (num n) (.word c) = .ok false := by
  unfold Arith.eval_eq
  simp only [Arith.as_fixnum_num, show Value.Val.as_fixnum (.word c) = none from h1]
  by_cases h : Value.InI63 n
  · simp only [h, if_true]
    have hn : num n = .word (Value.fixnumW (BitVec.ofInt 64 n)) := Arith.num_small h
    have hf : Value.as_fixnum (Value.fixnumW (BitVec.ofInt 64 n)) = some n := by
      have := Arith.as_fixnum_num n
      rwa [hn, if_pos h] at this
    have hfl : Value.as_flonum (Value.fixnumW (BitVec.ofInt 64 n)) = none := by
      have := Arith.as_float_num n
      rwa [hn] at this
    have hne : c ≠ Value.fixnumW (BitVec.ofInt 64 n) := by
      rintro rfl; rw [hf] at h1; cases h1
    rw [hn]
    simp [h2, hfl, hne, hne.symm]
  · simp only [h, if_false]
    rw [Arith.num_big h]
    simp

theorem eq_word (a b : V) : Arith.eval_eq (word a) (word b) = .ok (decide (a = b)) := by
  have hb : ∀ p : Bool, ∃ c, Value.bool p = .word c ∧ Value.as_fixnum c = none ∧ Value.as_flonum c = none := by
    intro p; cases p <;> exact ⟨_, rfl, by decide, by decide⟩
  cases a with
  | nil =>
    cases b with
    | nil => decide
    | bool b => cases b <;> decide
    | int n => simp only [word, reduceCtorEq, decide_false]; exact (eq_const Value.NIL_VALUE n (by decide) (by decide)).1
  | bool p =>
    cases b with
    | nil => cases p <;> decide
    | bool b => cases p <;> cases b <;> decide
    | int n =>
      obtain ⟨c, h1, h2, h3⟩ := hb p
      simpa [word, h1] using (eq_const c n h2 h3).1
  | int m =>
    cases b with
    | nil => simp only [word, reduceCtorEq, decide_false]; exact (eq_const Value.NIL_VALUE m (by decide) (by decide)).2
    | bool p =>
      obtain ⟨c, h1, h2, h3⟩ := hb p
      simpa [word, h1] using (eq_const c m h2 h3).2
    | int n => rw [word, word, Arith.C06_eq]; simp

/-- An operator that gives a value. -/
theorem Sim.eff {v : V} {ρ : Store} {σ : St W} {E : Eff W X Val} (hE : E = (.ok (word v), σ)) (hm : Match K x id vars ρ σ)
    (hw : σ.w = w) : Sim K x id vars zero w u (some (.value v, ρ)) (ofEff E) := by
  subst hE; exact .val hm hw

theorem Sim.effB {b : Bool} {ρ : Store} {σ : St W} {E : Eff W X Bool} (hE : E = (.ok b, σ)) (hm : Match K x id vars ρ σ)
    (hw : σ.w = w) : Sim K x id vars zero w u (some (.value (.bool b), ρ)) (ofEffB E) := by
  subst hE; exact .val (v := .bool b) hm hw

theorem Sim.byZero {ρ : Store} {σ : St W} {E : Eff W X Val} (hE : E = (.error zero, σ)) (hm : Match K x id vars ρ σ)
    (hw : σ.w = w) : Sim K x id vars zero w u (some (.zeroDivision, ρ)) (ofEff E) := by
  subst hE
  intro o ρ' h
  cases h
  exact ⟨_, _, rfl, rfl, hm, hw⟩

/-- The operators. -/
theorem apply_sim (hO : Ops K zero) {op : BinOp} (hop : op ∈ binOps) {o : Codegen.BinOp}
    (ho : ∀ a b, bin id op a b = .binop o a b) (a b : V) {ρ : Store} {σ : St W} (hm : Match K x id vars ρ σ) (hw : σ.w = w) :
    Sim K x id vars zero w u ((apply op a b).map fun o => (o, ρ)) (evalBin K o (word a) (word b) σ) := by
  have ho := ho (.lit .nil) (.lit .nil)
  simp only [binOps, List.mem_cons, List.not_mem_nil, or_false] at hop
  rcases hop with rfl | rfl | rfl | rfl | rfl | rfl | rfl | rfl | rfl | rfl | rfl | rfl | rfl <;> cases ho
  case _ => -- +
    cases a <;> cases b <;> try exact .none
    exact .eff (hO.add _ _ _ _ (Arith.C04_add _ _)) hm hw
  case _ => -- -
    cases a <;> cases b <;> try exact .none
    exact .eff (hO.sub _ _ _ _ (Arith.C04_sub _ _)) hm hw
  case _ => -- *
    cases a <;> cases b <;> try exact .none
    exact .eff (hO.mul _ _ _ _ (Arith.C04_mul _ _)) hm hw
  case _ => -- /
    cases a <;> cases b <;> try exact .none
    rename_i a b
    by_cases hb : b = 0
    · subst hb
      exact .byZero (hO.div0 _ _ _ (Arith.C05_zero_division a).1) hm hw
    · simp only [apply, arith, if_neg hb, Option.map]
      exact .eff (hO.div _ _ _ _ (Arith.invoke_div_num a b hb)) hm hw
  case _ => -- %
    cases a <;> cases b <;> try exact .none
    rename_i a b
    by_cases hb : b = 0
    · subst hb
      exact .byZero (hO.rem0 _ _ _ (Arith.C05_zero_division a).2) hm hw
    · simp only [apply, arith, if_neg hb, Option.map]
      exact .eff (hO.rem _ _ _ _ (Arith.invoke_rem_num a b hb)) hm hw
  case _ => -- **
    cases a <;> cases b <;> try exact .none
    rename_i a b
    simp only [apply, arith]
    split
    · rename_i hb
      obtain ⟨n, rfl⟩ := Int.eq_ofNat_of_zero_le hb.1
      exact .eff (hO.exp _ _ _ _ (Arith.C09_pow_partial a n (by omega))) hm hw
    · exact .none
  case _ => -- <
    cases a <;> cases b <;> try exact .none
    exact .effB (hO.lt _ _ _ _ (Arith.C06_order _ _).1) hm hw
  case _ => -- <=
    cases a <;> cases b <;> try exact .none
    exact .effB (hO.le _ _ _ _ (Arith.C06_order _ _).2.1) hm hw
  case _ => -- >
    cases a <;> cases b <;> try exact .none
    exact .effB (hO.gt _ _ _ _ (Arith.C06_order _ _).2.2.1) hm hw
  case _ => -- >=
    cases a <;> cases b <;> try exact .none
    exact .effB (hO.ge _ _ _ _ (Arith.C06_order _ _).2.2.2) hm hw
  case _ => -- <=>
    cases a <;> cases b <;> try exact .none
    exact .eff (hO.compare _ _ _ _ (Arith.C06_compare _ _)) hm hw
  case _ => -- ==
    exact .effB (hO.eq _ _ _ _ (eq_word a b)) hm hw
  case _ => -- !=
    have := hO.ne _ _ _ σ (eq_word a b)
    rw [← decide_not] at this
    exact .effB this hm hw

/-! ## Variables -/

theorem place_ne (hv : Vars id vars x) {y z : Chars} (hy : y ∈ vars) (hz : z ∈ vars) (h : x.place (id y) = x.place (id z)) :
    y = z := by
  refine hv.inj y hy z hz ?_
  exact Codegen.position_inj (hv.known y hy) (hv.known z hz) h

theorem Match.set (hv : Vars id vars x) {ρ : Store} {σ : St W} (hm : Match K x id vars ρ σ) {y : Chars} (hy : y ∈ vars) (v : V) :
    Match K x id vars (ρ.set y v) (setVar K x (word v) σ (.lvar (id y))) := by
  intro z hz
  have := hm z hz
  simp only [getVar, setVar, St.set, Store.set] at this ⊢
  by_cases h : z = y
  · subst h; simp
  · rw [if_neg h, if_neg]
    · exact this
    · intro hp
      exact h (place_ne hv hz hy (Prod.ext hp.1 hp.2))

theorem setVar_w {v : Val} {σ : St W} {i : Id} : (setVar K x v σ (.lvar i)).w = σ.w := rfl

theorem setAll_match (hv : Vars id vars x) : ∀ {ts : List Node} {xs : List Chars} {vs : List V} {ρ : Store} {σ : St W},
    ts.map nameOf = xs.map some → xs ⊆ vars → vs.length = ts.length → Match K x id vars ρ σ →
    Match K x id vars (setAll ts vs ρ) (setVars K x (xs.map fun y => .lvar (id y)) (vs.map word) σ) ∧
      (setVars K x (xs.map fun y => .lvar (id y)) (vs.map word) σ).w = σ.w
  | [], [], _, _, _, _, _, _, hm => by simpa [setAll, setVars] using hm
  | [], _ :: _, _, _, _, h, _, _, _ => by simp at h
  | _ :: _, [], _, _, _, h, _, _, _ => by simp at h
  | _ :: _, _ :: _, [], _, _, _, _, h, _ => by simp at h
  | t :: ts, y :: ys, v :: vs, ρ, σ, h, hs, hl, hm => by
    simp only [List.map_cons, List.cons.injEq] at h
    have hy : y ∈ vars := hs (by simp)
    obtain ⟨h1, h2⟩ := setAll_match hv (vs := vs) h.2 (fun _ h => hs (List.mem_cons_of_mem _ h)) (by simpa using hl)
      (hm.set hv hy v)
    have ht : setAll (t :: ts) (v :: vs) ρ = setAll ts vs (ρ.set y v) := by
      have := h.1
      unfold nameOf at this
      split at this <;> cases this <;> rfl
    rw [ht]
    exact ⟨h1, h2⟩

/-! ## Loops -/

theorem loop_sim {rc rb : Store → Option (Out × Store)} {c b : St W → Ans W X}
    (hc : ∀ ρ σ, Match K x id vars ρ σ → σ.w = w → Sim K x id vars zero w true (rc ρ) (c σ))
    (hb : ∀ ρ σ, Match K x id vars ρ σ → σ.w = w → Sim K x id vars zero w false (rb ρ) (b σ)) (wh : Bool) :
    ∀ k ρ σ, Match K x id vars ρ σ → σ.w = w →
      Sim K x id vars zero w u (rounds rc rb wh k ρ) (loopN c b (!wh) k σ)
  | 0, _, _, _, _ => .none
  | k + 1, ρ, σ, hm, hw => by
    intro o ρ' he
    rw [rounds] at he
    rw [loopN]
    split at he
    · rename_i v ρ1 hcond
      obtain ⟨r, σ1, e1, h2, h3, h4⟩ := hc ρ σ hm hw _ _ hcond
      cases r <;> try exact h2.elim
      rename_i v'
      obtain rfl := h2 rfl
      rw [e1]
      dsimp only
      rw [truthy_word]
      by_cases ht : v.truthy = wh
      · rw [if_pos ht] at he
        rw [if_neg (by rw [ht]; cases wh <;> decide)]
        have hB := hb ρ1 σ1 h3 h4
        split at he
        · rename_i v2 ρ2 hbody
          obtain ⟨r, σ2, e2, q2, q3, q4⟩ := hB _ _ hbody
          cases r <;> try exact q2.elim
          rw [e2]
          exact loop_sim hc hb wh k ρ2 σ2 q3 q4 o ρ' he
        · rename_i ρ2 hbody
          obtain ⟨r, σ2, e2, q2, q3, q4⟩ := hB _ _ hbody
          cases r <;> try exact q2.elim
          rw [e2]
          exact loop_sim hc hb wh k ρ2 σ2 q3 q4 o ρ' he
        · rename_i v2 ρ2 hbody
          obtain ⟨r, σ2, e2, q2, q3, q4⟩ := hB _ _ hbody
          cases r <;> try exact q2.elim
          rw [e2]
          cases he
          exact ⟨_, _, rfl, fun _ => q2, q3, q4⟩
        · rename_i n1 n2 n3
          obtain ⟨r, σ2, e2, q2, q3, q4⟩ := hB _ _ he
          rw [e2]
          cases o with
          | value v => exact (n1 _ _ he).elim
          | nxt => exact (n2 _ he).elim
          | brk v => exact (n3 _ _ he).elim
          | ret v => cases r <;> first | exact q2.elim | exact ⟨_, _, rfl, q2, q3, q4⟩
          | zeroDivision => cases r <;> first | exact q2.elim | exact ⟨_, _, rfl, q2, q3, q4⟩
      · rw [if_neg ht] at he
        rw [if_pos (by revert ht; cases v.truthy <;> cases wh <;> decide)]
        cases he
        exact ⟨_, _, rfl, fun _ => rfl, h3, h4⟩
    · rename_i ρ2 hbody
      obtain ⟨r, σ2, e2, q2, q3, q4⟩ := hc ρ σ hm hw _ _ hbody
      cases r <;> try exact q2.elim
      rw [e2]
      exact loop_sim hc hb wh k ρ2 σ2 q3 q4 o ρ' he
    · rename_i v2 ρ2 hbody
      obtain ⟨r, σ2, e2, q2, q3, q4⟩ := hc ρ σ hm hw _ _ hbody
      cases r <;> try exact q2.elim
      rw [e2]
      cases he
      exact ⟨_, _, rfl, fun _ => q2, q3, q4⟩
    · rename_i n1 n2 n3
      obtain ⟨r, σ2, e2, q2, q3, q4⟩ := hc ρ σ hm hw _ _ he
      rw [e2]
      cases o with
      | value v => exact (n1 _ _ he).elim
      | nxt => exact (n2 _ he).elim
      | brk v => exact (n3 _ _ he).elim
      | ret v => cases r <;> first | exact q2.elim | exact ⟨_, _, rfl, q2, q3, q4⟩
      | zeroDivision => cases r <;> first | exact q2.elim | exact ⟨_, _, rfl, q2, q3, q4⟩

/-! ## Trees -/

/-- What the specification says of a list of values, the evaluator does. -/
def SimAll (K : World W X) (x : Ctx) (id : Names) (vars : List Chars) (zero : X) (w : W)
    (R : Option (Except Out (List V) × Store)) (E : Option (Except (Res X) (List Val) × St W)) : Prop :=
  ∀ o ρ', R = some (o, ρ') → ∃ r σ', E = some (r, σ') ∧ Match K x id vars ρ' σ' ∧ σ'.w = w ∧
    match o, r with
    | .ok vs, .ok ws => ws = vs.map word
    | .error o, .error r => Agree zero false o r ∧ (∀ v, o ≠ .value v)
    | _, _ => False

theorem runAll_length (n : Nat) : ∀ (l : List Node) (ρ : Store) (vs : List V) (ρ' : Store),
    runAll n l ρ = some (.ok vs, ρ') → vs.length = l.length
  | [], _, _, _, h => by simp only [runAll, Option.some.injEq, Prod.mk.injEq, Except.ok.injEq] at h; simp [← h.1]
  | e :: l, ρ, vs, ρ', h => by
    rw [runAll] at h
    split at h
    · rename_i v ρ1 _
      split at h
      · rename_i vs1 ρ2 he
        simp only [Option.some.injEq, Prod.mk.injEq, Except.ok.injEq] at h
        rw [← h.1]
        simp [runAll_length n l ρ1 vs1 ρ2 he]
      · rename_i hne
        exact (hne _ _ h).elim
    · cases h
    · cases h

theorem onVal_onVal (E : Ans W X) (k k' : Val → St W → Ans W X) :
    onVal (onVal E k) k' = onVal E fun v σ => onVal (k v σ) k' := by
  rcases E with _ | ⟨r, σ⟩
  · rfl
  · cases r <;> rfl

variable {self : Val} {n : Nat}

mutual
theorem sim (hO : Ops K zero) (hv : Vars id vars x) : ∀ (e : Node) (j u : Bool), Ints vars j e u →
    ∃ c, lower id e = some c ∧ ∀ ρ σ, Match K x id vars ρ σ → σ.w = w →
      Sim K x id vars zero w u (run n e ρ) (eval K self true x n c u σ)
  | .Nil, j, u, _ => ⟨_, rfl, fun ρ σ hm hw => by rw [run, eval]; cases u; exact .drop hm hw; exact .val (v := .nil) hm hw⟩
  | .Bool b, j, u, _ =>
    ⟨_, rfl, fun ρ σ hm hw => by rw [run, eval]; cases u; exact .drop hm hw; exact .val (v := .bool b) hm hw⟩
  | .Integer i, j, u, h => ⟨_, rfl, fun ρ σ hm hw => by
      rw [run, eval]
      cases u
      · exact .drop hm hw
      · rw [Ints] at h
        have := Sim.val (K := K) (x := x) (id := id) (vars := vars) (zero := zero) (u := true) (v := .int i) hm hw
        rw [word, ← Arith.integer_eq_num (by exact h)] at this
        exact this⟩
  | .Bignum i, j, u, h => ⟨_, rfl, fun ρ σ hm hw => by
      rw [run, eval]
      cases u
      · exact .drop hm hw
      · exact .val (v := .int i) hm hw⟩
  | .LocalVar y, j, u, h => ⟨_, rfl, fun ρ σ hm hw => by
      rw [run, eval]
      rw [Ints] at h
      rw [hm y h]
      exact .val hm hw⟩
  | .BinOp op a b, j, u, h => by
    rw [Ints] at h
    split at h
    · rename_i hop
      obtain ⟨a', h1, h2⟩ := sim hO hv a _ _ h.1
      obtain ⟨b', h3, h4⟩ := sim hO hv b _ _ h.2
      refine ⟨bin id op a' b', by rw [lower, h1, h3]; rfl, fun ρ σ hm hw => ?_⟩
      cases op <;> cases hop
      · rw [run]
        show Sim _ _ _ _ _ _ _ _ (eval K self true x n (.land a' b') u σ)
        rw [eval]
        refine (h2 ρ σ hm hw).bindV fun v ρ σ hm hw => ?_
        rw [truthy_word]
        cases v.truthy
        · exact .val hm hw
        · exact h4 _ _ hm hw
      · rw [run]
        show Sim _ _ _ _ _ _ _ _ (eval K self true x n (.lor a' b') u σ)
        rw [eval]
        refine (h2 ρ σ hm hw).bindV fun v ρ σ hm hw => ?_
        rw [truthy_word]
        cases v.truthy
        · exact h4 _ _ hm hw
        · exact .val hm hw
    · rename_i hop
      obtain ⟨a', h1, h2⟩ := sim hO hv a _ _ h.2.1
      obtain ⟨b', h3, h4⟩ := sim hO hv b _ _ h.2.2
      have h5 : lower id (.BinOp op a b) = some (bin id op a' b') := by rw [lower, h1, h3]; rfl
      obtain ⟨o, ho⟩ := bin_op h.1 id
      refine ⟨_, h5, fun ρ σ hm hw => ?_⟩
      rw [ho, eval, run]
      · refine (h2 ρ σ hm hw).bindV fun v ρ σ hm hw => (h4 ρ σ hm hw).bindV fun v' ρ σ hm hw => ?_
        exact apply_sim hO h.1 ho v v' hm hw
      · rintro rfl; exact hop rfl
      · rintro rfl; exact hop rfl
  | .UnOp op a, j, u, h => by
    rw [Ints] at h
    obtain ⟨a', h1, h2⟩ := sim hO hv a _ _ h.2
    refine ⟨.unop (un op) a', by rw [lower, h1]; rfl, fun ρ σ hm hw => ?_⟩
    rcases h.1 with rfl | rfl
    · rw [run, eval]
      refine (h2 ρ σ hm hw).bindV fun v ρ σ hm hw => ?_
      rw [un, evalUn, truthy_word]
      exact .val (v := .bool (!v.truthy)) hm hw
    · rw [run, eval]
      refine (h2 ρ σ hm hw).bindV fun v ρ σ hm hw => ?_
      rw [un]
      cases v with
      | nil => exact .none
      | bool b => exact .none
      | int i => exact .eff (v := .int (-i)) (hO.neg _ _ _ (Arith.C04_neg i)) hm hw
  | .If c a b, j, u, h => by
    rw [Ints] at h
    obtain ⟨c', k1, l1⟩ := sim hO hv c _ _ h.1
    obtain ⟨a', k2, l2⟩ := sim hO hv a _ _ h.2.1
    obtain ⟨b', k3, l3⟩ := sim hO hv b _ _ h.2.2
    refine ⟨.ite c' a' b', by rw [lower, k1, k2, k3]; rfl, fun ρ σ hm hw => ?_⟩
    rw [run, eval]
    refine (l1 ρ σ hm hw).bindV fun v ρ σ hm hw => ?_
    rw [truthy_word]
    cases v.truthy
    · exact l3 _ _ hm hw
    · exact l2 _ _ hm hw
  | .While c b wh, j, u, h => by
    rw [Ints] at h
    obtain ⟨c', k1, l1⟩ := sim hO hv c _ _ h.1
    obtain ⟨b', k2, l2⟩ := sim hO hv b _ _ h.2
    refine ⟨.while_ c' b' wh, by rw [lower, k1, k2]; rfl, fun ρ σ hm hw => ?_⟩
    rw [run, eval]
    exact loop_sim l1 l2 wh n ρ σ hm hw
  | .CompStmt l, j, u, h => by
    rw [Ints] at h
    obtain ⟨c, k, g⟩ := simSeq hO hv l _ _ h
    refine ⟨.seq c, by rw [lower, k]; rfl, fun ρ σ hm hw => ?_⟩
    rw [run, eval]
    exact g ρ σ hm hw
  | .MulAssign [t] [r], j, u, h => by
    rw [Ints] at h
    obtain ⟨⟨y, hy, hmem⟩, hr⟩ := h
    obtain ⟨c, k, g⟩ := sim hO hv r _ _ hr
    refine ⟨.assign (.lvar (id y)) c, ?_, fun ρ σ hm hw => ?_⟩
    · rw [lower]
      unfold nameOf at hy
      split at hy <;> cases hy <;> rw [Pipeline.assign, k] <;> rfl
    · have hr : run n (.MulAssign [t] [r]) ρ = onValue (run n r ρ) fun v ρ => some (.value v, ρ.set y v) := by
        unfold nameOf at hy
        split at hy <;> cases hy <;> rw [run]
      rw [hr, eval]
      exact (g ρ σ hm hw).bindV fun v ρ σ hm hw => .val (hm.set hv hmem v) (by rw [setVar_w]; exact hw)
  | .MulAssign (t1 :: t2 :: ts) (r1 :: r2 :: rs), j, u, h => by
    rw [Ints] at h
    · obtain ⟨rfl, hl, h2, ⟨xs, hx, hn, hs⟩, hr⟩ := h
      obtain ⟨c, k, g⟩ := simAll hO hv (r1 :: r2 :: rs) hr
      refine ⟨.massign (xs.map fun y => .lvar (id y)) c, ?_, fun ρ σ hm hw => ?_⟩
      · rw [lower]
        · rw [lowerVars_of hx, k]; rfl
        · intro _ _ q; simp at q
      · have hxl : xs.length = (r1 :: r2 :: rs).length := by
          have := congrArg List.length hx
          simp only [List.length_map] at this
          rw [← hl, this]
        rw [run, eval]
        · have hc : ∃ c1 c2 c3, c = .cons c1 (.cons c2 c3) := by
            rw [lowerAll] at k
            split at k
            · rename_i _ _ _ hk
              rw [lowerAll] at hk
              split at hk
              · cases hk; cases k; exact ⟨_, _, _, rfl⟩
              · cases hk
            · cases k
          have he : evalMassign K self true x n (xs.map fun y => .lvar (id y)) c false σ =
              match evalFirst K self true x n c (xs.map fun y => Codegen.Var.lvar (id y)).length σ with
              | some (.ok vs, σ) => some (.val Value.nil, assignAll K true x (xs.map fun y => .lvar (id y)) vs σ)
              | some (.error r, σ) => some (r, σ)
              | none => none := by
            obtain ⟨c1, c2, c3, rfl⟩ := hc
            rw [evalMassign] <;> first | rfl | (intro _ q; cases q)
          rw [he, List.length_map, hxl]
          have hS := g ρ σ hm hw
          intro o ρ' hrun
          split at hrun
          · rename_i vs ρ1 hrA
            obtain ⟨r, σ1, e1, m1, w1, q⟩ := hS _ _ hrA
            cases r with
            | error r => exact q.elim
            | ok ws =>
              rw [e1]
              cases hrun
              obtain rfl : ws = vs.map word := q
              have hlen : vs.length = (t1 :: t2 :: ts).length := by rw [hl]; exact runAll_length n _ _ _ _ hrA
              obtain ⟨m2, w2⟩ := setAll_match hv hx hs hlen m1
              exact ⟨_, _, rfl, fun h => (Bool.false_ne_true h).elim, m2, w2.trans w1⟩
          · rename_i o1 ρ1 hrA
            obtain ⟨r, σ1, e1, m1, w1, q⟩ := hS _ _ hrA
            cases r with
            | ok ws => exact q.elim
            | error r =>
              rw [e1]
              cases hrun
              exact ⟨_, _, rfl, q.1, m1, w1⟩
          · cases hrun
        · intro _ _ q; simp at q
        · intro _ _ q; simp at q
    · intro _ _ q; simp at q
  | .MulAssign [] rs, j, u, h => by
    rw [Ints] at h
    · have h1 := h.2.1; have h2 := h.2.2.1; simp at h1; simp [← h1] at h2
    · intro _ _ q; simp at q
  | .MulAssign (_ :: _) [], j, u, h => by
    rw [Ints] at h
    · have h2 := h.2.2.1; simp at h2
    · intro _ _ _ q; simp at q
  | .MulAssign (_ :: _ :: _) [r], j, u, h => by
    rw [Ints] at h
    · have h2 := h.2.2.1; simp at h2
    · intro _ _ q; simp at q
  | .MulAssign [_] (_ :: _ :: _), j, u, h => by
    rw [Ints] at h
    · have h2 := h.2.1; simp at h2
    · intro _ _ _ q; simp at q
  | .AssignOp op l r, j, u, h => by
    obtain ⟨y, rfl, h⟩ := ints_assignOp h
    obtain ⟨c, k, g⟩ := sim hO hv r _ _ h.2.2
    obtain ⟨o, ho⟩ := bin_op (opAssigns_sub h.1) id
    refine ⟨.assign (.lvar (id y)) (.binop o (.lvar (id y)) c), ?_, fun ρ σ hm hw => ?_⟩
    · rw [lower, lower, k, Pipeline.assign]; simp only [both, Option.map, ho]
    · rw [run, eval, eval, eval]
      show Sim _ _ _ _ _ _ _ _ (onVal (onVal _ fun rv σ' => evalBin K o (getVar K x σ (.lvar (id y))) rv σ') _)
      rw [hm y h.2.1, onVal_onVal]
      refine (g ρ σ hm hw).bindV fun v' ρ' σ hm hw => ?_
      refine Sim.bindV (apply_sim hO (opAssigns_sub h.1) ho (ρ y) v' hm hw) fun v ρ σ hm hw => ?_
      exact .val (hm.set hv h.2.1 v) (by rw [setVar_w]; exact hw)
  | .Break e, j, u, h => by
    rw [Ints] at h
    obtain ⟨c, k, g⟩ := sim hO hv e _ _ h.2
    refine ⟨.brk c, by rw [lower, k]; rfl, fun ρ σ hm hw => ?_⟩
    rw [run, eval]
    refine (g ρ σ hm hw).bindV fun v ρ σ hm hw => ?_
    intro o ρ' he
    cases he
    exact ⟨_, _, rfl, rfl, hm, hw⟩
  | .Next e, j, u, h => by
    rw [Ints] at h
    obtain ⟨hj, rfl, rfl⟩ := h
    refine ⟨.nxt (.lit .nil), by rfl, fun ρ σ hm hw => ?_⟩
    rw [run, run, eval, eval]
    intro o ρ' he
    cases he
    exact ⟨_, _, rfl, trivial, hm, hw⟩
  | .Return e, j, u, h => by
    rw [Ints] at h
    obtain ⟨c, k, g⟩ := sim hO hv e _ _ h
    refine ⟨.ret c, by rw [lower, k]; rfl, fun ρ σ hm hw => ?_⟩
    rw [run, eval]
    refine (g ρ σ hm hw).bindV fun v ρ σ hm hw => ?_
    intro o ρ' he
    cases he
    exact ⟨_, _, rfl, rfl, hm, hw⟩
  | .SelfValue, _, _, h => by simp [Ints] at h
  | .Float _ _, _, _, h => by simp [Ints] at h
  | .Imaginary _, _, _, h => by simp [Ints] at h
  | .String _, _, _, h => by simp [Ints] at h
  | .Range _ _ _ _, _, _, h => by simp [Ints] at h
  | .Array _ _, _, _, h => by simp [Ints] at h
  | .Ident _, _, _, h => by simp [Ints] at h
  | .InstanceVar _, _, _, h => by simp [Ints] at h
  | .GlobalVar _, _, _, h => by simp [Ints] at h
  | .SpecialVar _, _, _, h => by simp [Ints] at h
  | .ClassVar _, _, _, h => by simp [Ints] at h
  | .Const _ _, _, _, h => by simp [Ints] at h
  | .Scope _ _, _, _, h => by simp [Ints] at h
  | .Index _ _, _, _, h => by simp [Ints] at h
  | .Splat _, _, _, h => by simp [Ints] at h
  | .Rescue _ _, _, _, h => by simp [Ints] at h
  | .Send _ _ _ _, _, _, h => by simp [Ints] at h
  | .Defined _, _, _, h => by simp [Ints] at h

theorem simSeq (hO : Ops K zero) (hv : Vars id vars x) : ∀ (l : List Node) (j u : Bool), IntsSeq vars j l u →
    ∃ c, lowerAll id l = some c ∧ ∀ ρ σ, Match K x id vars ρ σ → σ.w = w →
      Sim K x id vars zero w u (runSeq n l ρ) (evalSeq K self true x n c u σ)
  | [], j, u, _ => ⟨.nil, rfl, fun ρ σ hm hw => by rw [runSeq, evalSeq]; exact .val (v := .nil) hm hw⟩
  | [e], j, u, h => by
    rw [IntsSeq] at h
    obtain ⟨c, k, g⟩ := sim hO hv e _ _ h
    exact ⟨.cons c .nil, by rw [lowerAll, k]; rfl, fun ρ σ hm hw => by rw [runSeq, evalSeq]; exact g ρ σ hm hw⟩
  | e :: f :: l, j, u, h => by
    rw [IntsSeq] at h
    · obtain ⟨c, k, g⟩ := sim hO hv e _ _ h.1
      obtain ⟨cs, ks, gs⟩ := simSeq hO hv (f :: l) _ _ h.2
      cases cs with
      | nil =>
        rw [lowerAll] at ks
        split at ks <;> cases ks
      | cons c2 cs =>
        refine ⟨.cons c (.cons c2 cs), by rw [lowerAll, k, ks], fun ρ σ hm hw => ?_⟩
        rw [runSeq, evalSeq]
        · exact (g ρ σ hm hw).bind fun _ _ ρ σ _ hm hw => gs ρ σ hm hw
        · simp
    · simp

theorem simAll (hO : Ops K zero) (hv : Vars id vars x) : ∀ (l : List Node), IntsAll vars l →
    ∃ c, lowerAll id l = some c ∧ ∀ ρ σ, Match K x id vars ρ σ → σ.w = w →
      SimAll K x id vars zero w (runAll n l ρ) (evalFirst K self true x n c l.length σ)
  | [], _ => ⟨.nil, rfl, fun ρ σ hm hw => by
      rw [runAll, evalFirst]
      intro o ρ' he
      cases he
      exact ⟨_, _, rfl, hm, hw, rfl⟩⟩
  | e :: l, h => by
    rw [IntsAll] at h
    obtain ⟨c, k, g⟩ := sim hO hv e _ _ h.1
    obtain ⟨cs, ks, gs⟩ := simAll hO hv l h.2
    refine ⟨.cons c cs, by rw [lowerAll, k, ks], fun ρ σ hm hw => ?_⟩
    rw [runAll, evalFirst]
    have hd : decide (0 < (e :: l).length) = true := by simp
    rw [hd, List.length_cons, Nat.add_sub_cancel]
    intro o ρ' he
    split at he
    · rename_i v ρ1 h1
      obtain ⟨r, σ1, e1, q1, m1, w1⟩ := g ρ σ hm hw _ _ h1
      cases r <;> try exact q1.elim
      obtain rfl := q1 rfl
      rw [e1]
      have hS := gs ρ1 σ1 m1 w1
      split at he
      · rename_i vs ρ2 h2
        obtain ⟨r, σ2, e2, m2, w2, q⟩ := hS _ _ h2
        cases r with
        | error r => exact q.elim
        | ok ws =>
          cases he
          dsimp only
          rw [e2]
          obtain rfl : ws = vs.map word := q
          exact ⟨_, _, rfl, m2, w2, rfl⟩
      · rename_i hne
        obtain ⟨r, σ2, e2, m2, w2, q⟩ := hS _ _ he
        cases o with
        | ok vs => exact (hne _ _ he).elim
        | error o =>
          cases r with
          | ok ws => exact q.elim
          | error r =>
            dsimp only
            rw [e2]
            exact ⟨_, _, rfl, m2, w2, q⟩
    · rename_i o1 ρ1 hne h1
      obtain ⟨r, σ1, e1, q1, m1, w1⟩ := g ρ σ hm hw _ _ h1
      cases he
      rw [e1]
      cases o1 with
      | value v => exact (hne v rfl).elim
      | _ => cases r <;> first | exact q1.elim | exact ⟨_, _, rfl, m1, w1, q1, by simp⟩
    · cases he
end

end Verif.Meaning
