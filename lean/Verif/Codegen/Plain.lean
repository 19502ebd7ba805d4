import Verif.Codegen.Sem
/-!
# Programs on which this implementation agrees with Ruby

`Plain x e used`: none of the differences between the two modes of `eval` can show.  Excluded are:

* `begin` with `ensure`;
* ranges whose ends are not both free of effects, unless one end is a literal or `self`;
* unary plus;
* the value of an attribute assignment;
* multiple assignment to several targets other than distinct local variables, and its value if there
  are fewer values than targets;
* `case` with literal labels only (see C33 for those), and `case` without subject with a branch that has
  other than one condition.
-/
namespace Verif.Codegen
open Verif.Value (Val)

variable {W X : Type}

/-- An expression with the same value in every state. -/
def Node.constant : Node → Bool
  | .lit (.str _) => false
  | .lit _ => true
  | .self => true
  | .seq (.cons n .nil) => n.constant
  | _ => false

/-- An expression that changes nothing. -/
def Node.reads : Node → Bool
  | .lit (.str _) => false
  | .lit _ => true
  | .self => true
  | .lvar _ => true
  | .ivar _ => true
  | .gvar _ => true
  | .seq (.cons n .nil) => n.reads
  | _ => false

/-- Distinct local variables in scope. -/
def DistinctLocals (x : Ctx) (ts : List Var) : Prop :=
  ∃ ids : List Id, ts = ids.map .lvar ∧ ids.Nodup ∧ ∀ id ∈ ids, ∃ t ∈ visible x.scopes x.extern, id ∈ t

mutual
/-- See the head of this file. -/
def Plain (x : Ctx) : Node → (used : Bool) → Prop
  | .lit _, _ => True
  | .self, _ => True
  | .lvar _, _ => True
  | .ivar _, _ => True
  | .gvar _, _ => True
  | .ident _, _ => True
  | .binop _ l r, _ => Plain x l true ∧ Plain x r true
  | .land l r, u => Plain x l true ∧ Plain x r u
  | .lor l r, u => Plain x l true ∧ Plain x r u
  | .unop op a, _ => op ≠ .pos ∧ Plain x a true
  | .array ns, _ => PlainAll x ns
  | .carray _, _ => True
  | .range a b _, _ =>
    Plain x a true ∧ Plain x b true ∧
      (a.constant = true ∨ b.constant = true ∨ (a.reads = true ∧ b.reads = true))
  | .index a b, _ => Plain x a true ∧ Plain x b true
  | .seq ns, u => PlainSeq x ns u
  | .ite c a b, u => Plain x c true ∧ Plain x a u ∧ Plain x b u
  | .while_ c b _, _ => Plain x c true ∧ Plain x b false
  | .brk a, _ => Plain x a true
  | .nxt a, _ => Plain x a true
  | .ret a, _ => Plain x a true
  | .assign _ a, _ => Plain x a true
  | .opassign _ _ a, _ => Plain x a true
  | .assignIdx a i b, _ => Plain x a true ∧ Plain x i true ∧ Plain x b true
  | .attrAssign a _ b, u => u = false ∧ Plain x a true ∧ Plain x b true
  | .massign ts ns, u =>
    PlainMassign x ts.length ns u ∧ ((ts.length = 1 ∧ ns.length = 1) ∨ DistinctLocals x ts)
  | .send a _ ns, _ => Plain x a true ∧ PlainAll x ns
  | .sendB a _ ns _, _ => Plain x a true ∧ PlainAll x ns
  | .yield_ ns, _ => PlainAll x ns
  | .case_ c ws b, u => ws.allLit = false ∧ Plain x c true ∧ PlainWhens x ws u ∧ Plain x b u
  | .caseN ws b, u => PlainCondWhens x ws u ∧ Plain x b u
  | .begin_ b rs els ens, u =>
    ens.isSome = false ∧ Plain x b u ∧ PlainRescues x rs u ∧ PlainOpt x els u

/-- … for values. -/
def PlainAll (x : Ctx) : Nodes → Prop
  | .nil => True
  | .cons n ns => Plain x n true ∧ PlainAll x ns

/-- … for statements. -/
def PlainSeq (x : Ctx) : Nodes → (used : Bool) → Prop
  | .nil, _ => True
  | .cons n .nil, u => Plain x n u
  | .cons n (.cons m ns), u => Plain x n false ∧ PlainSeq x (.cons m ns) u

/-- … for right-hand sides of which only the first `k` are used. -/
def PlainFirst (x : Ctx) : Nodes → (k : Nat) → Prop
  | .nil, _ => True
  | .cons n ns, k => Plain x n (decide (0 < k)) ∧ PlainFirst x ns (k - 1)

/-- … for the right-hand sides of a multiple assignment to `k` targets. -/
def PlainMassign (x : Ctx) (k : Nat) : Nodes → (used : Bool) → Prop
  | .cons n .nil, _ => Plain x n true
  | .nil, u => u = true → k = 0
  | .cons n (.cons m ns), true => k ≤ ns.length + 2 ∧ Plain x n true ∧ PlainAll x (.cons m ns)
  | .cons n (.cons m ns), false => Plain x n (decide (0 < k)) ∧ PlainFirst x (.cons m ns) (k - 1)

/-- … for the branches of a `case`. -/
def PlainWhens (x : Ctx) : Whens → (used : Bool) → Prop
  | .nil, _ => True
  | .cons ls b rest, u => PlainAll x ls ∧ Plain x b u ∧ PlainWhens x rest u

/-- … for the branches of a `case` without subject. -/
def PlainCondWhens (x : Ctx) : Whens → (used : Bool) → Prop
  | .nil, _ => True
  | .cons ls b rest, u => ls.length = 1 ∧ PlainAll x ls ∧ Plain x b u ∧ PlainCondWhens x rest u

/-- … for rescue clauses. -/
def PlainRescues (x : Ctx) : Rescues → (used : Bool) → Prop
  | .nil, _ => True
  | .cons excs _ b rest, u => PlainAll x excs ∧ Plain x b u ∧ PlainRescues x rest u

/-- … for an optional clause. -/
def PlainOpt (x : Ctx) : OptNode → (used : Bool) → Prop
  | .none, _ => True
  | .some n, u => Plain x n u
end

/-! ## Variables: distinct names have distinct places -/

theorem findIdx_lt {tables : List (List Id)} {id : Id} (h : ∃ t ∈ tables, id ∈ t) :
    tables.findIdx (id ∈ ·) < tables.length ∧
      ∀ t, tables[tables.findIdx (id ∈ ·)]? = some t → id ∈ t := by
  have hlt : tables.findIdx (id ∈ ·) < tables.length := by
    rw [List.findIdx_lt_length]
    obtain ⟨t, ht, hm⟩ := h
    exact ⟨t, ht, by simpa using hm⟩
  refine ⟨hlt, fun t ht => ?_⟩
  rw [List.getElem?_eq_getElem hlt] at ht
  cases ht
  have := List.findIdx_getElem (w := hlt)
  simpa using this

theorem position_inj {tables : List (List Id)} {a b : Id} (ha : ∃ t ∈ tables, a ∈ t) (hb : ∃ t ∈ tables, b ∈ t)
    (h : position tables a = position tables b) : a = b := by
  obtain ⟨la, fa⟩ := findIdx_lt ha
  obtain ⟨lb, fb⟩ := findIdx_lt hb
  unfold position at h
  simp only [Prod.mk.injEq] at h
  obtain ⟨h1, h2⟩ := h
  rw [h1] at fa h2
  rw [List.getElem?_eq_getElem lb] at fa fb h2
  have ma := fa _ rfl
  have mb := fb _ rfl
  rw [Option.getD_some] at h2
  have ea := List.getElem_idxOf (List.idxOf_lt_length_of_mem ma)
  have eb := List.getElem_idxOf (List.idxOf_lt_length_of_mem mb)
  refine ea.symm.trans (Eq.trans ?_ eb)
  congr 1

theorem set_comm (σ : St W) {k j k' j' : Nat} (v v' : Val) (h : (k, j) ≠ (k', j')) :
    (σ.set k j v).set k' j' v' = (σ.set k' j' v').set k j v := by
  unfold St.set
  simp only [St.mk.injEq, and_true]
  funext a b
  by_cases h1 : a = k' ∧ b = j' <;> by_cases h2 : a = k ∧ b = j
  · exfalso
    exact h (by rw [← h2.1, ← h2.2, h1.1, h1.2])
  · rw [if_pos h1, if_neg h2, if_pos h1]
  · rw [if_neg h1, if_pos h2, if_pos h2]
  · rw [if_neg h1, if_neg h2, if_neg h2, if_neg h1]

/-- One assignment moves past others. -/
theorem setVars_past (K : World W X) (x : Ctx) {id : Id} (v : Val)
    (hid : ∃ t ∈ visible x.scopes x.extern, id ∈ t) :
    ∀ (ids : List Id) (vs : List Val) (σ : St W), id ∉ ids →
      (∀ i ∈ ids, ∃ t ∈ visible x.scopes x.extern, i ∈ t) →
      setVars K x (ids.map .lvar) vs (setVar K x v σ (.lvar id)) =
        setVar K x v (setVars K x (ids.map .lvar) vs σ) (.lvar id)
  | [], _, _, _, _ => rfl
  | i :: is, vs, σ, hn, hv => by
    have hne : (x.place id) ≠ (x.place i) := fun h =>
      hn (List.mem_cons.2 (.inl (position_inj hid (hv i (List.mem_cons_self ..)) h)))
    have step : ∀ v', setVar K x v' (setVar K x v σ (.lvar id)) (.lvar i) =
        setVar K x v (setVar K x v' σ (.lvar i)) (.lvar id) := fun v' => set_comm σ v v' hne
    have ih := fun vs σ => setVars_past K x v hid is vs σ (fun h => hn (List.mem_cons_of_mem _ h))
      (fun j hj => hv j (List.mem_cons_of_mem _ hj))
    cases vs with
    | nil =>
      show setVars K x (is.map .lvar) [] (setVar K x Value.nil (setVar K x v σ (.lvar id)) (.lvar i)) = _
      rw [step, ih]; rfl
    | cons w ws =>
      show setVars K x (is.map .lvar) ws (setVar K x w (setVar K x v σ (.lvar id)) (.lvar i)) = _
      rw [step, ih]; rfl

/-- Surplus and missing values. -/
theorem setVars_pad (K : World W X) (x : Ctx) : ∀ (ts : List Var) (vs : List Val) (σ : St W),
    setVars K x ts (pad ts.length vs) σ = setVars K x ts vs σ
  | [], _, _ => rfl
  | t :: ts, [], σ => by
    have h := setVars_pad K x ts [] (setVar K x Value.nil σ t)
    have e : pad (t :: ts).length [] = Value.nil :: pad ts.length [] := by
      simp [pad, List.replicate_succ]
    rw [e]; exact h
  | t :: ts, v :: vs, σ => by
    have h := setVars_pad K x ts vs (setVar K x v σ t)
    have e : pad (t :: ts).length (v :: vs) = v :: pad ts.length vs := by
      simp [pad]
    rw [e]; exact h

theorem setVars_append (K : World W X) (x : Ctx) : ∀ (ts : List Var) (vs : List Val) (us : List Var)
    (ws : List Val) (σ : St W), vs.length = ts.length →
    setVars K x (ts ++ us) (vs ++ ws) σ = setVars K x us ws (setVars K x ts vs σ)
  | [], [], _, _, _, _ => rfl
  | [], _ :: _, _, _, _, h => by simp at h
  | t :: ts, [], _, _, _, h => by simp at h
  | t :: ts, v :: vs, us, ws, σ, h => setVars_append K x ts vs us ws _ (by simpa using h)

/-- The order of assignments to distinct local variables does not matter. -/
theorem setVars_reverse (K : World W X) (x : Ctx) : ∀ (ids : List Id) (vs : List Val) (σ : St W),
    ids.Nodup → (∀ i ∈ ids, ∃ t ∈ visible x.scopes x.extern, i ∈ t) → vs.length = ids.length →
    setVars K x (ids.map .lvar).reverse vs.reverse σ = setVars K x (ids.map .lvar) vs σ
  | [], [], _, _, _, _ => rfl
  | [], _ :: _, _, _, _, h => by simp at h
  | _ :: _, [], _, _, _, h => by simp at h
  | i :: is, v :: vs, σ, hn, hv, hl => by
    have hv' : ∀ j ∈ is, ∃ t ∈ visible x.scopes x.extern, j ∈ t := fun j hj => hv j (List.mem_cons_of_mem _ hj)
    rw [List.nodup_cons] at hn
    simp only [List.map_cons, List.reverse_cons]
    rw [setVars_append _ _ _ _ _ _ _ (by simpa using hl), setVars_reverse K x is vs σ hn.2 hv' (by simpa using hl)]
    exact (setVars_past K x v (hv i (List.mem_cons_self ..)) is vs σ hn.1 hv').symm

/-- Left to right or right to left. -/
theorem assignAll_plain (K : World W X) {x : Ctx} {ts : List Var} (h : DistinctLocals x ts) (vs : List Val)
    (σ : St W) : assignAll K true x ts vs σ = assignAll K false x ts vs σ := by
  obtain ⟨ids, rfl, hn, hv⟩ := h
  unfold assignAll
  rw [if_pos rfl, if_neg (by simp), setVars_reverse K x ids _ σ hn hv (by simp [pad]; omega), setVars_pad]

theorem pad_ge {n : Nat} {vs : List Val} (h : n ≤ vs.length) : pad (max n vs.length) vs = vs := by
  unfold pad
  rw [Nat.max_eq_right h]; simp

/-! ## Expressions without effect -/

/-- Value of such an expression. -/
def peek (K : World W X) (self : Val) (x : Ctx) (σ : St W) : Node → Val
  | .lit l => (evalLit K σ l).1
  | .self => self
  | .lvar id => getVar K x σ (.lvar id)
  | .ivar id => getVar K x σ (.ivar id)
  | .gvar id => getVar K x σ (.gvar id)
  | .seq (.cons n .nil) => peek K self x σ n
  | _ => Value.nil

theorem eval_reads (K : World W X) (self : Val) (rb : Bool) (x : Ctx) (n : Nat) {e : Node} (h : e.reads = true)
    (σ : St W) : eval K self rb x n e true σ = some (.val (peek K self x σ e), σ) := by
  fun_induction Node.reads e with
  | case1 => cases h
  | case2 l hl => cases l <;> first | exact absurd rfl (hl _) | (rw [eval]; rfl)
  | case3 => rw [eval]; rfl
  | case4 => rw [eval]; rfl
  | case5 => rw [eval]; rfl
  | case6 => rw [eval]; rfl
  | case7 n ih => rw [eval, evalSeq, ih h, peek]
  | case8 => cases h

theorem Node.constant.reads {e : Node} (h : e.constant = true) : e.reads = true := by
  fun_induction Node.constant e with
  | case1 => cases h
  | case2 l hl => cases l <;> first | exact absurd rfl (hl _) | rfl
  | case3 => rfl
  | case4 n ih => rw [Node.reads]; exact ih h
  | case5 => cases h

theorem peek_constant (K : World W X) (self : Val) (x : Ctx) {e : Node} (h : e.constant = true) (σ σ' : St W) :
    peek K self x σ e = peek K self x σ' e := by
  fun_induction Node.constant e with
  | case1 => cases h
  | case2 l hl => cases l <;> first | exact absurd rfl (hl _) | rfl
  | case3 => rfl
  | case4 n ih => rw [peek, peek]; exact ih h
  | case5 => cases h

theorem onVal_congr {r r' : Ans W X} {k k' : Val → St W → Ans W X} (h : r = r') (hk : ∀ v σ, k v σ = k' v σ) :
    onVal r k = onVal r' k' := by
  subst h
  unfold onVal
  split <;> first | exact hk _ _ | rfl

theorem evalAll_length (K : World W X) (self : Val) (rb : Bool) (x : Ctx) (n : Nat) :
    ∀ (ns : Nodes) (σ σ' : St W) vs, evalAll K self rb x n ns σ = some (.ok vs, σ') → vs.length = ns.length
  | .nil, σ, σ', vs, h => by
    rw [evalAll] at h; cases h; rfl
  | .cons e es, σ, σ', vs, h => by
    rw [evalAll] at h
    rcases h1 : eval K self rb x n e true σ with _ | ⟨_ | _ | _ | _ | _, σ1⟩ <;> rw [h1] at h <;> dsimp only at h <;>
      try cases h
    rcases h2 : evalAll K self rb x n es σ1 with _ | ⟨_ | vs', σ2⟩ <;> rw [h2] at h <;> dsimp only at h <;> cases h
    have := evalAll_length K self rb x n es σ1 _ _ h2
    rw [List.length_cons, this]; rfl

/-! ## The two modes agree -/

section
variable (K : World W X) (self : Val) (x : Ctx) (n : Nat)

mutual
theorem agree : ∀ (e : Node) (u : Bool) (σ : St W), Plain x e u →
    eval K self true x n e u σ = eval K self false x n e u σ
  | .lit l, u, σ, _ => by rw [eval, eval]
  | .self, u, σ, _ => by rw [eval, eval]
  | .lvar _, u, σ, _ => by rw [eval, eval]
  | .ivar _, u, σ, _ => by rw [eval, eval]
  | .gvar _, u, σ, _ => by rw [eval, eval]
  | .ident _, u, σ, _ => by rw [eval, eval]
  | .binop op l r, u, σ, h => by
    rw [Plain] at h; rw [eval, eval]
    exact onVal_congr (agree l _ _ h.1) fun _ _ => onVal_congr (agree r _ _ h.2) fun _ _ => rfl
  | .land l r, u, σ, h => by
    rw [Plain] at h; rw [eval, eval]
    refine onVal_congr (agree l _ _ h.1) fun _ _ => ?_
    rw [agree r _ _ h.2]
  | .lor l r, u, σ, h => by
    rw [Plain] at h; rw [eval, eval]
    refine onVal_congr (agree l _ _ h.1) fun _ _ => ?_
    rw [agree r _ _ h.2]
  | .unop op a, u, σ, h => by
    rw [Plain] at h; rw [eval, eval]
    refine onVal_congr (agree a _ _ h.2) fun v σ => ?_
    cases op with
    | pos => exact absurd rfl h.1
    | _ => rfl
  | .array ns, u, σ, h => by
    rw [Plain] at h; rw [eval, eval, agreeAll ns _ h]
  | .carray _, u, σ, _ => by rw [eval, eval]
  | .range a b ex, u, σ, h => by
    rw [Plain] at h; obtain ⟨ha, hb, hc⟩ := h
    rw [eval, eval, if_pos rfl, if_neg (by simp)]
    rcases hc with hc | hc | ⟨hc, hd⟩
    · rw [eval_reads K self true x n (Node.constant.reads hc)]
      show onVal (eval K self true x n b true σ) _ = _
      refine onVal_congr (agree b _ _ hb) fun v σ' => ?_
      rw [eval_reads K self false x n (Node.constant.reads hc), peek_constant K self x hc σ σ']
      rfl
    · rw [eval_reads K self false x n (Node.constant.reads hc)]
      show _ = onVal (eval K self false x n a true σ) _
      refine onVal_congr (agree a _ _ ha) fun v σ' => ?_
      rw [eval_reads K self true x n (Node.constant.reads hc), peek_constant K self x hc σ σ']
      rfl
    · rw [eval_reads K self true x n hc, eval_reads K self false x n hd]
      show onVal (eval K self true x n b true σ) _ = onVal (eval K self false x n a true σ) _
      rw [eval_reads K self true x n hd, eval_reads K self false x n hc]
      rfl
  | .index a b, u, σ, h => by
    rw [Plain] at h; rw [eval, eval]
    exact onVal_congr (agree a _ _ h.1) fun _ _ => onVal_congr (agree b _ _ h.2) fun _ _ => rfl
  | .seq ns, u, σ, h => by
    rw [Plain] at h; rw [eval, eval]; exact agreeSeq ns u σ h
  | .ite c a b, u, σ, h => by
    rw [Plain] at h; rw [eval, eval]
    refine onVal_congr (agree c _ _ h.1) fun v σ => ?_
    rw [agree a _ _ h.2.1, agree b _ _ h.2.2]
  | .while_ c b co, u, σ, h => by
    rw [Plain] at h; rw [eval, eval]
    rw [funext fun σ => agree c true σ h.1, funext fun σ => agree b false σ h.2]
  | .brk a, u, σ, h => by
    rw [Plain] at h; rw [eval, eval]; exact onVal_congr (agree a _ _ h) fun _ _ => rfl
  | .nxt a, u, σ, h => by
    rw [Plain] at h; rw [eval, eval]; exact onVal_congr (agree a _ _ h) fun _ _ => rfl
  | .ret a, u, σ, h => by
    rw [Plain] at h; rw [eval, eval]; exact onVal_congr (agree a _ _ h) fun _ _ => rfl
  | .assign t a, u, σ, h => by
    rw [Plain] at h; rw [eval, eval]; exact onVal_congr (agree a _ _ h) fun _ _ => rfl
  | .opassign op t a, u, σ, h => by
    rw [Plain] at h; rw [eval, eval]; exact onVal_congr (agree a _ _ h) fun _ _ => rfl
  | .assignIdx a i b, u, σ, h => by
    rw [Plain] at h; rw [eval, eval]
    exact onVal_congr (agree a _ _ h.1) fun _ _ => onVal_congr (agree i _ _ h.2.1) fun _ _ =>
      onVal_congr (agree b _ _ h.2.2) fun _ _ => rfl
  | .attrAssign a m b, u, σ, h => by
    rw [Plain] at h; obtain ⟨rfl, h1, h2⟩ := h
    rw [eval, eval]
    exact onVal_congr (agree a _ _ h1) fun _ _ => onVal_congr (agree b _ _ h2) fun _ _ =>
      onVal_congr rfl fun _ _ => rfl
  | .massign ts ns, u, σ, h => by
    rw [Plain] at h; rw [eval, eval]; exact agreeMassign ts ns u σ h.1 h.2
  | .send a m ns, u, σ, h => by
    rw [Plain] at h; rw [eval, eval]
    refine onVal_congr (agree a _ _ h.1) fun _ _ => ?_
    rw [agreeAll ns _ h.2]
  | .sendB a m ns b, u, σ, h => by
    rw [Plain] at h; rw [eval, eval]
    refine onVal_congr (agree a _ _ h.1) fun _ _ => ?_
    rw [agreeAll ns _ h.2]
  | .yield_ ns, u, σ, h => by
    rw [Plain] at h; rw [eval, eval, agreeAll ns _ h]
  | .case_ c ws b, u, σ, h => by
    rw [Plain] at h; obtain ⟨hl, hc, hw, hb⟩ := h
    rw [eval, eval]
    refine onVal_congr (agree c _ _ hc) fun v σ => ?_
    rw [hl, if_neg (by simp), if_neg (by simp)]
    exact agreeWhens ws v u σ (fun σ => agree b u σ hb) hw
  | .caseN ws b, u, σ, h => by
    rw [Plain] at h; rw [eval, eval]
    exact agreeCondWhens ws u σ (fun σ => agree b u σ h.2) h.1
  | .begin_ b rs els ens, u, σ, h => by
    rw [Plain] at h; obtain ⟨he, hb, hr, hl⟩ := h
    rw [eval, eval, agree b u σ hb]
    cases ens with
    | some e => cases he
    | none =>
    have e1 : (fun v σ => evalElse K self true x n els v u σ) = fun v σ => evalElse K self false x n els v u σ := by
      funext v σ; exact agreeElse els v u σ hl
    have e2 : (fun v σ => evalRescues K self true x n rs v u σ) = fun v σ => evalRescues K self false x n rs v u σ := by
      funext v σ; exact agreeRescues rs v u σ hr
    have e3 : evalOpt K self true x n OptNode.none = evalOpt K self false x n OptNode.none := by
      funext σ; rw [evalOpt, evalOpt]
    have e4 : ∀ r σ, andEnsure (X := X) (evalOpt K self false x n OptNode.none) r σ = some (r, σ) := by
      intro r σ; unfold andEnsure; rw [evalOpt]; rfl
    have e5 : ∀ r, finish true (evalOpt K self false x n OptNode.none) r =
        finish false (evalOpt K self false x n OptNode.none) r := by
      intro r
      unfold finish leave
      split <;> simp [e4]
    rw [e1, e2, e3]
    unfold beginSem
    split
    · rw [e5]
    · split
      · unfold leave; simp [e4]
      · simp only [finishRescue]
        split <;> simp [e5]
    · rfl
    · unfold leave; simp [e4]
    · rfl

theorem agreeAll : ∀ (ns : Nodes) (σ : St W), PlainAll x ns →
    evalAll K self true x n ns σ = evalAll K self false x n ns σ
  | .nil, σ, _ => by rw [evalAll, evalAll]
  | .cons e es, σ, h => by
    rw [PlainAll] at h; rw [evalAll, evalAll, agree e _ _ h.1]
    split
    · rw [agreeAll es _ h.2]
    · rfl
    · rfl

theorem agreeSeq : ∀ (ns : Nodes) (u : Bool) (σ : St W), PlainSeq x ns u →
    evalSeq K self true x n ns u σ = evalSeq K self false x n ns u σ
  | .nil, u, σ, _ => by rw [evalSeq, evalSeq]
  | .cons e .nil, u, σ, h => by
    rw [PlainSeq] at h; rw [evalSeq, evalSeq]; exact agree e u σ h
  | .cons e (.cons e' es), u, σ, h => by
    rw [PlainSeq] at h; rw [evalSeq, evalSeq]
    exact onVal_congr (agree e _ _ h.1) fun _ σ => agreeSeq (.cons e' es) u σ h.2

theorem agreeFirst : ∀ (ns : Nodes) (k : Nat) (σ : St W), PlainFirst x ns k →
    evalFirst K self true x n ns k σ = evalFirst K self false x n ns k σ
  | .nil, k, σ, _ => by rw [evalFirst, evalFirst]
  | .cons e es, k, σ, h => by
    rw [PlainFirst] at h; rw [evalFirst, evalFirst, agree e _ _ h.1]
    split
    · rw [agreeFirst es _ _ h.2]
    · rfl
    · rfl

theorem agreeMassign (ts : List Var) : ∀ (ns : Nodes) (u : Bool) (σ : St W), PlainMassign x ts.length ns u →
    ((ts.length = 1 ∧ ns.length = 1) ∨ DistinctLocals x ts) →
    evalMassign K self true x n ts ns u σ = evalMassign K self false x n ts ns u σ
  | .cons e .nil, u, σ, h, hd => by
    rw [PlainMassign] at h
    rw [evalMassign, evalMassign]
    refine onVal_congr (agree e _ _ h) fun v σ => ?_
    split
    · rfl
    · rename_i hne
      rcases hd with ⟨hd, -⟩ | hd
      · exfalso
        match ts, hd with
        | [t], _ => exact hne t rfl
      · rw [assignAll_plain K hd]
  | .nil, true, σ, h, hd => by
    rw [PlainMassign] at h
    have : ts = [] := List.length_eq_zero_iff.1 (h rfl)
    subst this
    rw [evalMassign, evalMassign, evalAll, evalAll]
    · rfl
    all_goals simp
  | .nil, false, σ, h, hd => by
    have hd' : DistinctLocals x ts := hd.resolve_left (by simp [Nodes.length])
    rw [evalMassign, evalMassign, evalFirst, evalFirst]
    · simp only [assignAll_plain K hd']
    all_goals simp
  | .cons e (.cons e' es), true, σ, h, hd => by
    have hd' : DistinctLocals x ts := hd.resolve_left (by simp [Nodes.length])
    rw [PlainMassign] at h
    obtain ⟨hk, h1, h2⟩ := h
    rw [evalMassign, evalMassign, evalAll, evalAll, agree e _ _ h1]
    · rcases hE : eval K self false x n e true σ with _ | ⟨_ | _ | _ | _ | _, σ1⟩ <;> try rfl
      dsimp only
      rw [agreeAll (.cons e' es) _ h2]
      rcases hA : evalAll K self false x n (.cons e' es) σ1 with _ | ⟨_ | vs, σ2⟩ <;> try rfl
      have hlen := evalAll_length K self false x n _ _ _ _ hA
      dsimp only
      rename_i v
      rw [assignAll_plain K hd', if_pos rfl, if_neg (by simp),
        pad_ge (by rw [List.length_cons, hlen]; simp only [Nodes.length]; omega)]
    all_goals simp
  | .cons e (.cons e' es), false, σ, h, hd => by
    have hd' : DistinctLocals x ts := hd.resolve_left (by simp [Nodes.length])
    rw [PlainMassign] at h
    rw [evalMassign, evalMassign, evalFirst, evalFirst, agree e _ _ h.1]
    · rcases hE : eval K self false x n e (decide (0 < ts.length)) σ with _ | ⟨_ | _ | _ | _ | _, σ1⟩ <;> try rfl
      dsimp only
      rw [agreeFirst (.cons e' es) _ _ h.2]
      simp only [assignAll_plain K hd']
    all_goals simp

theorem agreeLabels : ∀ (ns : Nodes) (v : Val) (σ : St W), PlainAll x ns →
    evalLabels K self true x n ns v σ = evalLabels K self false x n ns v σ
  | .nil, v, σ, _ => by rw [evalLabels, evalLabels]
  | .cons e es, v, σ, h => by
    rw [PlainAll] at h; rw [evalLabels, evalLabels, agree e _ _ h.1]
    split
    · rw [agreeLabels es _ _ h.2]
    · rfl
    · rfl

theorem agreeWhens : ∀ (ws : Whens) (v : Val) {els els' : St W → Ans W X} (u : Bool) (σ : St W),
    (∀ σ, els σ = els' σ) → PlainWhens x ws u →
    evalWhens K self true x n ws v els u σ = evalWhens K self false x n ws v els' u σ
  | .nil, v, _, _, u, σ, he, _ => by rw [evalWhens, evalWhens]; exact he σ
  | .cons ls b rest, v, _, _, u, σ, he, h => by
    rw [PlainWhens] at h; rw [evalWhens, evalWhens, agreeLabels ls _ _ h.1]
    split
    · exact agree b _ _ h.2.1
    · exact agreeWhens rest v u _ he h.2.2
    · rfl
    · rfl

theorem agreeCondWhens : ∀ (ws : Whens) {els els' : St W → Ans W X} (u : Bool) (σ : St W),
    (∀ σ, els σ = els' σ) → PlainCondWhens x ws u →
    evalCondWhens K self true x n ws els u σ = evalCondWhens K self false x n ws els' u σ
  | .nil, _, _, u, σ, he, _ => by rw [evalCondWhens, evalCondWhens]; exact he σ
  | .cons .nil b rest, _, _, u, σ, he, h => by
    rw [PlainCondWhens] at h; exact absurd h.1 (by simp [Nodes.length])
  | .cons (.cons _ (.cons _ _)) b rest, _, _, u, σ, he, h => by
    rw [PlainCondWhens] at h; exact absurd h.1 (by simp [Nodes.length])
  | .cons (.cons c .nil) b rest, _, _, u, σ, he, h => by
    rw [PlainCondWhens] at h; obtain ⟨-, h1, h2, h3⟩ := h
    rw [PlainAll] at h1
    rw [evalCondWhens, evalCondWhens, evalConds, evalConds, agree c _ _ h1.1]
    rcases hE : eval K self false x n c true σ with _ | ⟨r, σ1⟩
    · rfl
    cases r with
    | val v =>
      dsimp only
      rw [evalConds, evalConds]
      cases truthy v
      · exact agreeCondWhens rest u _ he h3
      · exact agree b _ _ h2
    | _ => rfl

theorem agreeExcs : ∀ (ns : Nodes) (σ : St W), PlainAll x ns →
    evalExcs K self true x n ns σ = evalExcs K self false x n ns σ
  | .nil, σ, _ => by rw [evalExcs, evalExcs]
  | .cons e es, σ, h => by
    rw [PlainAll] at h; rw [evalExcs, evalExcs, agree e _ _ h.1]
    split
    · rw [agreeAll es _ h.2]
    · rfl
    · rfl

theorem agreeRescues : ∀ (rs : Rescues) (v : Val) (u : Bool) (σ : St W), PlainRescues x rs u →
    evalRescues K self true x n rs v u σ = evalRescues K self false x n rs v u σ
  | .nil, v, u, σ, _ => by rw [evalRescues, evalRescues]
  | .cons es t b rest, v, u, σ, h => by
    rw [PlainRescues] at h; rw [evalRescues, evalRescues, agreeExcs es _ h.1]
    split
    · rw [agree b _ _ h.2.1, agreeRescues rest _ _ _ h.2.2]
    · rfl
    · rfl

theorem agreeElse : ∀ (o : OptNode) (v : Val) (u : Bool) (σ : St W), PlainOpt x o u →
    evalElse K self true x n o v u σ = evalElse K self false x n o v u σ
  | .none, v, u, σ, _ => by rw [evalElse, evalElse]
  | .some e, v, u, σ, h => by
    rw [PlainOpt] at h; rw [evalElse, evalElse]; exact agree e _ _ h
end
end

end Verif.Codegen
