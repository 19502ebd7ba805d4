import Verif.Meaning.Named
import Verif.Pipeline.Known
import Verif.Codegen.Run
import Verif.Value.Lemmas
import Mathlib.Tactic.Tauto
/-!
# The evaluator of C31 does what the specification says
-/
namespace Verif.Meaning.Named
open Verif.Lexer (Chars BinOp)
open Verif.Parser (Node)
open Verif.Pipeline (Names lower lowerAll lowerVars lowerVar lowerLit lowerLits bin un both three massign both_some three_some
  map_some Has)
open Verif.Codegen (Id Ctx Nodes World St Res Eff eval evalSeq evalAll evalFirst evalMassign evalBin evalUn onVal ofEff ofEffB
  getVar setVar setVars loopN truthy Legal LegalAll Var)
open Verif.Value (Val)

variable {W X : Type}

/-- An operation in the world, seen by the interpreter: it leaves the local variables alone. -/
def lift {α : Type} (σ : St W) (r : Except X α × W) : Eff W X α := (r.1, { σ with w := r.2 })

/-- The interpreter does to objects what `O` says: each instruction acts as the operation that it stands for, and a call by
the identifier of a name as a call by that name. -/
structure Acts (O : Objects W X) (K : World W X) (id : Names) (setter : Id → Id) : Prop where
  add : ∀ a b σ, K.bin .add a b σ = lift σ (O.op .Add a b σ.w)
  sub : ∀ a b σ, K.bin .sub a b σ = lift σ (O.op .Sub a b σ.w)
  mul : ∀ a b σ, K.bin .mul a b σ = lift σ (O.op .Mul a b σ.w)
  div : ∀ a b σ, K.bin .div a b σ = lift σ (O.op .Div a b σ.w)
  rem : ∀ a b σ, K.bin .rem a b σ = lift σ (O.op .Rem a b σ.w)
  exp : ∀ a b σ, K.bin .exp a b σ = lift σ (O.op .Exp a b σ.w)
  shr : ∀ a b σ, K.bin .shr a b σ = lift σ (O.op .Shr a b σ.w)
  shl : ∀ a b σ, K.bin .shl a b σ = lift σ (O.op .Shl a b σ.w)
  band : ∀ a b σ, K.bin .band a b σ = lift σ (O.op .BitAnd a b σ.w)
  bor : ∀ a b σ, K.bin .bor a b σ = lift σ (O.op .BitOr a b σ.w)
  bxor : ∀ a b σ, K.bin .bxor a b σ = lift σ (O.op .BitXor a b σ.w)
  teq : ∀ a b σ, K.bin .teq a b σ = lift σ (O.op .TEq a b σ.w)
  compare : ∀ a b σ, K.bin .cmp a b σ = lift σ (O.op .Cmp a b σ.w)
  eq : ∀ a b σ, K.cmp .eq a b σ = lift σ (O.test .Eq a b σ.w)
  ne : ∀ a b σ, K.cmp .ne a b σ = lift σ (O.test .Ne a b σ.w)
  gt : ∀ a b σ, K.cmp .gt a b σ = lift σ (O.test .Gt a b σ.w)
  ge : ∀ a b σ, K.cmp .ge a b σ = lift σ (O.test .Ge a b σ.w)
  lt : ∀ a b σ, K.cmp .lt a b σ = lift σ (O.test .Lt a b σ.w)
  le : ∀ a b σ, K.cmp .le a b σ = lift σ (O.test .Le a b σ.w)
  neg : ∀ a σ, K.un .neg a σ = lift σ (O.unary .Neg a σ.w)
  pos : ∀ a σ, K.un .pos a σ = lift σ (O.unary .Pos a σ.w)
  bitnot : ∀ a σ, K.un .bitnot a σ = lift σ (O.unary .BitNot a σ.w)
  getI : ∀ x σ, K.getI (id x) σ = O.ivar x σ.w
  setI : ∀ x v σ, K.setI (id x) v σ = { σ with w := O.setIvar x v σ.w }
  getG : ∀ x σ, K.getG (id x) σ = O.gvar x σ.w
  setG : ∀ x v σ, K.setG (id x) v σ = { σ with w := O.setGvar x v σ.w }
  send : ∀ m o vs σ, K.send (id m) o vs σ = lift σ (O.call m o vs σ.w)
  setter : ∀ m, setter (id m) = id (m ++ ['='])
  range : ∀ a b ex σ, K.range a b ex σ = lift σ (O.range a b ex σ.w)
  index : ∀ a b σ, K.index a b σ = lift σ (O.index a b σ.w)
  setIndex : ∀ a b v σ, K.setIndex a b v σ = lift σ (O.setIndex a b v σ.w)
  array : ∀ vs σ, K.mkArray vs σ = ((O.array vs σ.w).1, { σ with w := (O.array vs σ.w).2 })
  elements : ∀ v σ, K.asArray v σ = O.elements v σ.w
  string : ∀ s σ, K.newStr (String.ofList s) σ = ((O.string s σ.w).1, { σ with w := (O.string s σ.w).2 })

/-- No other name has the identifier of a variable, and the compiler finds the variables. -/
structure Vars (id : Names) (vars : List Chars) (x : Ctx) : Prop where
  inj : ∀ y, ∀ z ∈ vars, id y = id z → y = z
  known : ∀ y ∈ vars, ∃ t ∈ Codegen.visible x.scopes x.extern, id y ∈ t

structure Match (x : Ctx) (id : Names) (vars : List Chars) (s : State W) (σ : St W) : Prop where
  world : σ.w = s.w
  locals : ∀ y ∈ vars, σ.locals (x.place (id y)).1 (x.place (id y)).2 = s.vars y

/-- The same end; values need to agree only if they are used. -/
def Agree (u : Bool) : Out X → Res X → Prop
  | .value v, .val w => u = true → w = v
  | .raise x, .raise y => y = x
  | .brk v, .brk w => w = v
  | .nxt v, .nxt w => w = v
  | .ret v, .ret w _ => w = v
  | _, _ => False

def Sim (x : Ctx) (id : Names) (vars : List Chars) (u : Bool) (R : Ans W X) (E : Codegen.Ans W X) : Prop :=
  ∀ o s, R = some (o, s) → ∃ r σ, E = some (r, σ) ∧ Agree u o r ∧ Match x id vars s σ

def SimAll (x : Ctx) (id : Names) (vars : List Chars) (k : Option Nat) (R : Option (Except (Out X) (List Val) × State W))
    (E : Option (Except (Res X) (List Val) × St W)) : Prop :=
  ∀ o s, R = some (o, s) → ∃ r σ, E = some (r, σ) ∧ Match x id vars s σ ∧
    match o, r with
    | .ok vs, .ok ws => match k with
      | none => ws = vs
      | some k => ws.take k = vs.take k
    | .error o, .error r => Agree false o r ∧ ∀ v, o ≠ .value v
    | _, _ => False

variable {O : Objects W X} {K : World W X} {x : Ctx} {id : Names} {vars : List Chars} {u : Bool}

theorem truthy_eq (v : Val) : truthy v = truth v := by
  cases v with
  | word w =>
    have h := Value.to_bool_false_iff w
    rw [Bool.eq_iff_iff]
    simp only [truthy, truth, Value.nil, Value.bool, Bool.false_eq_true, if_false, ne_eq, Value.Val.word.injEq,
      decide_eq_true_eq, Value.NIL_VALUE, Value.FALSE_VALUE]
    rw [← Bool.not_eq_false, h]
    tauto
  | _ => simp [truthy, truth, Value.nil, Value.bool]

theorem Sim.none {E : Codegen.Ans W X} : Sim x id vars u none E := by intro o s h; cases h

theorem Sim.val {v : Val} {s : State W} {σ : St W} (h : Match x id vars s σ) :
    Sim (X := X) x id vars u (some (.value v, s)) (some (.val v, σ)) := by
  intro o s' he; cases he; exact ⟨_, _, rfl, fun _ => rfl, h⟩

theorem Sim.drop {v v' : Val} {s : State W} {σ : St W} (h : Match x id vars s σ) :
    Sim (X := X) x id vars false (some (.value v, s)) (some (.val v', σ)) := by
  intro o s' he; cases he; exact ⟨_, _, rfl, fun h => (Bool.false_ne_true h).elim, h⟩

theorem Sim.bind {R : Ans W X} {E : Codegen.Ans W X} {u' : Bool} {k : Val → State W → Ans W X}
    {k' : Val → St W → Codegen.Ans W X} (h : Sim x id vars u' R E)
    (hk : ∀ v v' s σ, (u' = true → v' = v) → Match x id vars s σ → Sim x id vars u (k v s) (k' v' σ)) :
    Sim x id vars u (onValue R k) (onVal E k') := by
  intro o s he
  unfold onValue at he
  split at he
  · rename_i v s1
    obtain ⟨r, σ, rfl, h2, h3⟩ := h _ _ rfl
    cases r <;> try exact h2.elim
    exact hk _ _ _ _ h2 h3 _ _ he
  · rename_i hne
    obtain ⟨r, σ, rfl, h2, h3⟩ := h _ _ he
    cases o with
    | value v => exact (hne v s he).elim
    | _ => cases r <;> first | exact h2.elim | exact ⟨_, _, rfl, h2, h3⟩

theorem Sim.bindV {R : Ans W X} {E : Codegen.Ans W X} {k : Val → State W → Ans W X}
    {k' : Val → St W → Codegen.Ans W X} (h : Sim x id vars true R E)
    (hk : ∀ v s σ, Match x id vars s σ → Sim x id vars u (k v s) (k' v σ)) :
    Sim x id vars u (onValue R k) (onVal E k') :=
  h.bind fun v v' s σ hv hm => by rw [hv rfl]; exact hk v s σ hm

theorem Match.set_w {s : State W} {σ : St W} (hm : Match x id vars s σ) (w : W) :
    Match x id vars { s with w := w } { σ with w := w } := ⟨rfl, hm.locals⟩

theorem Sim.answer {s : State W} {σ : St W} (hm : Match x id vars s σ) {r : Except X Val × W} {E : Eff W X Val}
    (hE : E = lift σ r) : Sim x id vars u (answer s r) (ofEff E) := by
  subst hE
  rcases r with ⟨_ | v, w⟩
  · intro o s' he; cases he; exact ⟨_, _, rfl, rfl, hm.set_w w⟩
  · exact .val (hm.set_w w)

theorem Sim.test {s : State W} {σ : St W} (hm : Match x id vars s σ) {r : Except X Bool × W} {E : Eff W X Bool}
    (hE : E = lift σ r) : Sim x id vars u (match r with
      | (.ok p, w) => some (.value (Value.bool p), { s with w := w })
      | (.error x, w) => some (.raise x, { s with w := w })) (ofEffB E) := by
  subst hE
  rcases r with ⟨_ | v, w⟩
  · intro o s' he; cases he; exact ⟨_, _, rfl, rfl, hm.set_w w⟩
  · exact .val (hm.set_w w)

/-- Ordinary operators. -/
theorem bin_sim {setter : Id → Id} (hA : Acts O K id setter) {self : Val} {n : Nat} (op : BinOp) (h1 : op ≠ .LAnd) (h2 : op ≠ .LOr)
    {a' b' : Codegen.Node} {R : Ans W X} {kb : Val → State W → Ans W X} {σ : St W}
    (ha : Sim x id vars true R (eval K self true x n a' true σ))
    (hb : ∀ v s σ, Match x id vars s σ → Sim x id vars true (kb v s) (eval K self true x n b' true σ)) :
    Sim x id vars u (onValue R fun v s => onValue (kb v s) fun w s => apply O op v w s)
      (eval K self true x n (bin id op a' b') u σ) := by
  have key : ∀ (o : Codegen.BinOp), bin id op a' b' = .binop o a' b' →
      (∀ v w s σ, Match x id vars s σ → Sim x id vars u (apply O op v w s) (evalBin K o v w σ)) →
      Sim x id vars u (onValue R fun v s => onValue (kb v s) fun w s => apply O op v w s)
      (eval K self true x n (bin id op a' b') u σ) := by
    intro o ho h
    rw [ho, eval]
    exact ha.bindV fun v s σ hm => (hb v s σ hm).bindV fun w s σ hm => h v w s σ hm
  cases op
  case LAnd => exact absurd rfl h1
  case LOr => exact absurd rfl h2
  case Match =>
    rw [bin, eval]
    refine ha.bindV fun v s σ hm => ?_
    rw [evalAll]
    intro o s' he
    have := hb v s σ hm
    unfold onValue at he
    split at he
    · rename_i w s1 hw
      obtain ⟨r, σ1, e1, q2, q3⟩ := this _ _ hw
      cases r <;> try exact q2.elim
      obtain rfl := q2 rfl
      rw [e1]
      dsimp only
      rw [evalAll]
      exact Sim.answer (u := u) q3 (by rw [hA.send, q3.world]) o s' he
    · rename_i hne
      obtain ⟨r, σ1, e1, q2, q3⟩ := this _ _ he
      rw [e1]
      cases o with
      | value v => exact (hne v s' he).elim
      | _ => cases r <;> first | exact q2.elim | exact ⟨_, _, rfl, q2, q3⟩
  all_goals refine key _ rfl fun v w s σ hm => ?_
  all_goals first
    | exact Sim.answer hm (by rw [← hm.world]; first
      | exact hA.add .. | exact hA.sub .. | exact hA.mul .. | exact hA.div .. | exact hA.rem .. | exact hA.exp .. | exact hA.shr ..
      | exact hA.shl .. | exact hA.band .. | exact hA.bor .. | exact hA.bxor .. | exact hA.teq .. | exact hA.compare ..)
    | exact Sim.test hm (by rw [← hm.world]; first
      | exact hA.eq .. | exact hA.ne .. | exact hA.gt .. | exact hA.ge .. | exact hA.lt .. | exact hA.le ..)

/-! ## Variables -/

theorem Vars.mem (hv : Vars id vars x) {y : Chars} (h : Has vars id (id y)) : y ∈ vars := by
  obtain ⟨z, hz, h⟩ := List.mem_map.1 h
  rwa [hv.inj y z hz h.symm]

theorem Match.set (hv : Vars id vars x) {s : State W} {σ : St W} (hm : Match x id vars s σ) {y : Chars} (hy : y ∈ vars) (v : Val) :
    Match x id vars (s.set y v) (setVar K x v σ (.lvar (id y))) := by
  refine ⟨hm.world, fun z hz => ?_⟩
  have := hm.locals z hz
  simp only [setVar, St.set, State.set] at this ⊢
  by_cases h : z = y
  · subst h; simp
  · rw [if_neg h, if_neg]
    · exact this
    · intro hp
      exact h (hv.inj z y hy (Codegen.position_inj (hv.known z hz) (hv.known y hy) (Prod.ext hp.1 hp.2)))

theorem Match.self_set (hv : Vars id vars x) {s : State W} {σ : St W} (hm : Match x id vars s σ) {y : Chars} (hy : y ∈ vars) :
    Match x id vars s (setVar K x (s.vars y) σ (.lvar (id y))) := by
  have := hm.set (K := K) hv hy (s.vars y)
  refine ⟨this.world, fun z hz => ?_⟩
  rw [this.locals z hz]
  simp only [State.set]
  split
  · rename_i h; rw [h]
  · rfl

theorem assign_sim {setter : Id → Id} (hA : Acts O K id setter) (hv : Vars id vars x) {t : Node} {t' : Var}
    (ht : lowerVar id t = some t') (hk : Codegen.knownVar (Has vars id) t') {s s' : State W} {σ : St W} (v : Val)
    (hm : Match x id vars s σ) (he : assign O t v s = some s') : Match x id vars s' (setVar K x v σ t') := by
  cases t <;> cases ht <;> cases he
  · exact hm.set hv (hv.mem hk) v
  · exact hm.set hv (hv.mem hk) v
  · rw [setVar, hA.setI, hm.world]; exact hm.set_w _
  · rw [setVar, hA.setG, hm.world]; exact hm.set_w _

theorem assignAll_sim {setter : Id → Id} (hA : Acts O K id setter) (hv : Vars id vars x) : ∀ {ts : List Node} {ts' : List Var}
    {vs ws : List Val} {s s' : State W} {σ : St W}, lowerVars id ts = some ts' → (∀ t ∈ ts', Codegen.knownVar (Has vars id) t) →
    ws.take ts.length = vs.take ts.length → Match x id vars s σ → assignAll O ts vs s = some s' →
    Match x id vars s' (setVars K x ts' ws σ)
  | [], ts', vs, ws, s, s', σ, ht, hk, hw, hm, he => by
    cases ht; cases he; rw [setVars]; exact hm
  | t :: ts, ts', vs, ws, s, s', σ, ht, hk, hw, hm, he => by
    rw [lowerVars] at ht
    split at ht
    · rename_i a l h1 h2
      cases ht
      rw [assignAll] at he
      split at he
      · rename_i s1 h3
        have hh : ws.headD Value.nil = vs.headD Value.nil := by
          cases ws <;> cases vs <;> simp_all
        have htl : ws.tail.take ts.length = vs.tail.take ts.length := by
          cases ws <;> cases vs <;> simp_all
        have := assignAll_sim hA hv h2 (fun t h => hk t (List.mem_cons_of_mem _ h)) htl
          (assign_sim hA hv h1 (hk a (by simp)) _ hm h3) he
        rw [← hh] at this
        cases ws <;> rw [setVars] <;> exact this
      · cases he
    · cases ht

theorem literal_sim : ∀ (e : Node) {l : Codegen.Lit}, lowerLit e = some l → literal e = some l.value
  | .Nil, _, h => by cases h; rfl
  | .Bool b, _, h => by cases h; rfl
  | .Integer i, _, h => by cases h; rfl
  | .Bignum i, _, h => by cases h; rfl
  | .CompStmt [e], l, h => by
    rw [lowerLit] at h
    rw [literal]
    exact literal_sim e h

theorem literals_sim : ∀ {l : List Node} {ls : List Codegen.Lit}, lowerLits l = some ls → literals l = some (ls.map Codegen.Lit.value)
  | [], _, h => by cases h; rfl
  | e :: l, ls, h => by
    rw [lowerLits] at h
    split at h
    · rename_i a s h1 h2
      cases h
      rw [literals, literal_sim e h1, literals_sim h2]
      rfl
    · cases h

/-! ## Loops -/

theorem loop_sim {rc rb : State W → Ans W X} {c b : St W → Codegen.Ans W X}
    (hc : ∀ s σ, Match x id vars s σ → Sim x id vars true (rc s) (c σ))
    (hb : ∀ s σ, Match x id vars s σ → Sim x id vars false (rb s) (b σ)) (wh : Bool) :
    ∀ k s σ, Match x id vars s σ → Sim x id vars u (rounds rc rb wh k s) (loopN c b (!wh) k σ)
  | 0, _, _, _ => .none
  | k + 1, s, σ, hm => by
    intro o s' he
    rw [rounds] at he
    rw [loopN]
    split at he
    · rename_i v s1 hcond
      obtain ⟨r, σ1, e1, h2, h3⟩ := hc s σ hm _ _ hcond
      cases r <;> try exact h2.elim
      obtain rfl := h2 rfl
      rw [e1]
      dsimp only
      rw [truthy_eq]
      rename_i v
      by_cases ht : truth v = wh
      · rw [if_pos ht] at he
        rw [if_neg (by rw [ht]; cases wh <;> decide)]
        have hB := hb s1 σ1 h3
        split at he
        · rename_i v2 s2 hbody
          obtain ⟨r, σ2, e2, q2, q3⟩ := hB _ _ hbody
          cases r <;> try exact q2.elim
          rw [e2]
          exact loop_sim hc hb wh k s2 σ2 q3 o s' he
        · rename_i v2 s2 hbody
          obtain ⟨r, σ2, e2, q2, q3⟩ := hB _ _ hbody
          cases r <;> try exact q2.elim
          rw [e2]
          exact loop_sim hc hb wh k s2 σ2 q3 o s' he
        · rename_i v2 s2 hbody
          obtain ⟨r, σ2, e2, q2, q3⟩ := hB _ _ hbody
          cases r <;> try exact q2.elim
          rw [e2]
          cases he
          exact ⟨_, _, rfl, fun _ => q2, q3⟩
        · rename_i n1 n2 n3
          obtain ⟨r, σ2, e2, q2, q3⟩ := hB _ _ he
          rw [e2]
          cases o with
          | value v => exact (n1 _ _ he).elim
          | nxt v => exact (n2 _ _ he).elim
          | brk v => exact (n3 _ _ he).elim
          | ret v => cases r <;> first | exact q2.elim | exact ⟨_, _, rfl, q2, q3⟩
          | raise x => cases r <;> first | exact q2.elim | exact ⟨_, _, rfl, q2, q3⟩
      · rw [if_neg ht] at he
        rw [if_pos (by revert ht; cases truth v <;> cases wh <;> decide)]
        cases he
        exact ⟨_, _, rfl, fun _ => rfl, h3⟩
    · rename_i v2 s2 hbody
      obtain ⟨r, σ2, e2, q2, q3⟩ := hc s σ hm _ _ hbody
      cases r <;> try exact q2.elim
      rw [e2]
      exact loop_sim hc hb wh k s2 σ2 q3 o s' he
    · rename_i v2 s2 hbody
      obtain ⟨r, σ2, e2, q2, q3⟩ := hc s σ hm _ _ hbody
      cases r <;> try exact q2.elim
      rw [e2]
      cases he
      exact ⟨_, _, rfl, fun _ => q2, q3⟩
    · rename_i n1 n2 n3
      obtain ⟨r, σ2, e2, q2, q3⟩ := hc s σ hm _ _ he
      rw [e2]
      cases o with
      | value v => exact (n1 _ _ he).elim
      | nxt v => exact (n2 _ _ he).elim
      | brk v => exact (n3 _ _ he).elim
      | ret v => cases r <;> first | exact q2.elim | exact ⟨_, _, rfl, q2, q3⟩
      | raise x => cases r <;> first | exact q2.elim | exact ⟨_, _, rfl, q2, q3⟩

end Verif.Meaning.Named
