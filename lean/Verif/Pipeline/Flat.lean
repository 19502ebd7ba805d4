import Verif.Codegen.Correct
import Verif.Codegen.Plain
/-!
# Parentheses do not matter to the meaning of a program

A statement list with one statement — which is what parentheses leave in the tree — means the same as the statement.
-/
namespace Verif.Codegen
open Verif.Value (Val)

mutual
/-- The tree without lists of one statement (outside `case` and `begin`). -/
def Node.flat : Node → Node
  | .binop op l r => .binop op l.flat r.flat
  | .land l r => .land l.flat r.flat
  | .lor l r => .lor l.flat r.flat
  | .unop op e => .unop op e.flat
  | .array l => .array l.flat
  | .range a b ex => .range a.flat b.flat ex
  | .index b i => .index b.flat i.flat
  | .seq (.cons e .nil) => e.flat
  | .seq l => .seq l.flat
  | .ite c t e => .ite c.flat t.flat e.flat
  | .while_ c b x => .while_ c.flat b.flat x
  | .brk e => .brk e.flat
  | .nxt e => .nxt e.flat
  | .ret e => .ret e.flat
  | .assign t e => .assign t e.flat
  | .opassign op t e => .opassign op t e.flat
  | .assignIdx b i e => .assignIdx b.flat i.flat e.flat
  | .attrAssign r m e => .attrAssign r.flat m e.flat
  | .massign ts l => .massign ts l.flat
  | .send r m l => .send r.flat m l.flat
  | .sendB r m l b => .sendB r.flat m l.flat b
  | .yield_ l => .yield_ l.flat
  | .lit l => .lit l
  | .self => .self
  | .lvar id => .lvar id
  | .ivar id => .ivar id
  | .gvar id => .gvar id
  | .ident id => .ident id
  | .carray l => .carray l
  | .case_ c ws e => .case_ c ws e
  | .caseN ws e => .caseN ws e
  | .begin_ b rs els ens => .begin_ b rs els ens

def Nodes.flat : Nodes → Nodes
  | .nil => .nil
  | .cons e l => .cons e.flat l.flat
end

theorem flat_length : ∀ l : Nodes, l.flat.length = l.length
  | .nil => rfl
  | .cons _ l => by rw [Nodes.flat, Nodes.length, Nodes.length, flat_length l]

theorem flat_two (a b : Node) (l : Nodes) : (Node.seq (.cons a (.cons b l))).flat = .seq (.cons a.flat (.cons b.flat l.flat)) := by
  rw [Node.flat, Nodes.flat, Nodes.flat]
  intro e h; cases h

theorem flat_one (a : Node) : (Node.seq (.cons a .nil)).flat = a.flat := by rw [Node.flat]

theorem flat_empty : (Node.seq .nil).flat = .seq .nil := by
  rw [Node.flat, Nodes.flat]
  intro e h; cases h

section
variable {W X : Type} (K : World W X) (self : Val) (rb : Bool) (x : Ctx) (n : Nat)

mutual
theorem eval_flat : ∀ (e : Node) (u : Bool) (σ : St W), eval K self rb x n e.flat u σ = eval K self rb x n e u σ
  | .binop op l r, u, σ => by
    rw [Node.flat, eval, eval]
    exact onVal_congr (eval_flat l _ _) fun _ _ => onVal_congr (eval_flat r _ _) fun _ _ => rfl
  | .land l r, u, σ => by
    rw [Node.flat, eval, eval]
    refine onVal_congr (eval_flat l _ _) fun _ _ => ?_
    rw [eval_flat r]
  | .lor l r, u, σ => by
    rw [Node.flat, eval, eval]
    refine onVal_congr (eval_flat l _ _) fun _ _ => ?_
    rw [eval_flat r]
  | .unop op e, u, σ => by
    rw [Node.flat, eval, eval]
    exact onVal_congr (eval_flat e _ _) fun _ _ => rfl
  | .array l, u, σ => by
    rw [Node.flat, eval, eval, evalAll_flat l]
  | .range a b ex, u, σ => by
    rw [Node.flat, eval, eval]
    split
    · exact onVal_congr (eval_flat a _ _) fun _ _ => onVal_congr (eval_flat b _ _) fun _ _ => rfl
    · exact onVal_congr (eval_flat b _ _) fun _ _ => onVal_congr (eval_flat a _ _) fun _ _ => rfl
  | .index b i, u, σ => by
    rw [Node.flat, eval, eval]
    exact onVal_congr (eval_flat b _ _) fun _ _ => onVal_congr (eval_flat i _ _) fun _ _ => rfl
  | .seq .nil, u, σ => by rw [flat_empty]
  | .seq (.cons e .nil), u, σ => by
    rw [flat_one, eval_flat e, eval, evalSeq]
  | .seq (.cons a (.cons b l)), u, σ => by
    rw [flat_two, eval, eval, evalSeq, evalSeq]
    refine onVal_congr (eval_flat a _ _) fun _ σ => ?_
    rw [← evalSeq_flat (.cons b l) u σ, Nodes.flat]
  | .ite c t e, u, σ => by
    rw [Node.flat, eval, eval]
    refine onVal_congr (eval_flat c _ _) fun _ _ => ?_
    rw [eval_flat t, eval_flat e]
  | .while_ c b co, u, σ => by
    rw [Node.flat, eval, eval, funext (eval_flat c true), funext (eval_flat b false)]
  | .brk e, u, σ => by
    rw [Node.flat, eval, eval]; exact onVal_congr (eval_flat e _ _) fun _ _ => rfl
  | .nxt e, u, σ => by
    rw [Node.flat, eval, eval]; exact onVal_congr (eval_flat e _ _) fun _ _ => rfl
  | .ret e, u, σ => by
    rw [Node.flat, eval, eval]; exact onVal_congr (eval_flat e _ _) fun _ _ => rfl
  | .assign t e, u, σ => by
    rw [Node.flat, eval, eval]; exact onVal_congr (eval_flat e _ _) fun _ _ => rfl
  | .opassign op t e, u, σ => by
    rw [Node.flat, eval, eval]; exact onVal_congr (eval_flat e _ _) fun _ _ => rfl
  | .assignIdx b i e, u, σ => by
    rw [Node.flat, eval, eval]
    exact onVal_congr (eval_flat b _ _) fun _ _ => onVal_congr (eval_flat i _ _) fun _ _ =>
      onVal_congr (eval_flat e _ _) fun _ _ => rfl
  | .attrAssign r m e, u, σ => by
    rw [Node.flat, eval, eval]
    exact onVal_congr (eval_flat r _ _) fun _ _ => onVal_congr (eval_flat e _ _) fun _ _ => rfl
  | .massign ts l, u, σ => by
    rw [Node.flat, eval, eval, evalMassign_flat ts l u σ]
  | .send r m l, u, σ => by
    rw [Node.flat, eval, eval]
    refine onVal_congr (eval_flat r _ _) fun _ _ => ?_
    rw [evalAll_flat l]
  | .sendB r m l b, u, σ => by
    rw [Node.flat, eval, eval]
    refine onVal_congr (eval_flat r _ _) fun _ _ => ?_
    rw [evalAll_flat l]
  | .yield_ l, u, σ => by
    rw [Node.flat, eval, eval, evalAll_flat l]
  | .lit _, u, σ => by rw [Node.flat]
  | .self, u, σ => by rw [Node.flat]
  | .lvar _, u, σ => by rw [Node.flat]
  | .ivar _, u, σ => by rw [Node.flat]
  | .gvar _, u, σ => by rw [Node.flat]
  | .ident _, u, σ => by rw [Node.flat]
  | .carray _, u, σ => by rw [Node.flat]
  | .case_ .., u, σ => by rw [Node.flat]
  | .caseN .., u, σ => by rw [Node.flat]
  | .begin_ .., u, σ => by rw [Node.flat]

theorem evalAll_flat : ∀ (l : Nodes) (σ : St W), evalAll K self rb x n l.flat σ = evalAll K self rb x n l σ
  | .nil, σ => by rw [Nodes.flat]
  | .cons e l, σ => by
    rw [Nodes.flat, evalAll, evalAll, eval_flat e]
    rcases eval K self rb x n e true σ with _ | ⟨_ | _ | _ | _ | _, σ1⟩ <;> try rfl
    dsimp only; rw [evalAll_flat l]

theorem evalSeq_flat : ∀ (l : Nodes) (u : Bool) (σ : St W),
    evalSeq K self rb x n l.flat u σ = evalSeq K self rb x n l u σ
  | .nil, u, σ => by rw [Nodes.flat]
  | .cons e .nil, u, σ => by rw [Nodes.flat, Nodes.flat, evalSeq, evalSeq, eval_flat e]
  | .cons e (.cons f l), u, σ => by
    rw [Nodes.flat, Nodes.flat, evalSeq, evalSeq]
    refine onVal_congr (eval_flat e _ _) fun _ σ => ?_
    rw [← evalSeq_flat (.cons f l) u σ, Nodes.flat]

theorem evalFirst_flat : ∀ (l : Nodes) (k : Nat) (σ : St W),
    evalFirst K self rb x n l.flat k σ = evalFirst K self rb x n l k σ
  | .nil, k, σ => by rw [Nodes.flat]
  | .cons e l, k, σ => by
    rw [Nodes.flat, evalFirst, evalFirst, eval_flat e]
    rcases eval K self rb x n e (decide (0 < k)) σ with _ | ⟨_ | _ | _ | _ | _, σ1⟩ <;> try rfl
    dsimp only; rw [evalFirst_flat l]

theorem evalMassign_flat (ts : List Var) : ∀ (l : Nodes) (u : Bool) (σ : St W),
    evalMassign K self rb x n ts l.flat u σ = evalMassign K self rb x n ts l u σ
  | .nil, u, σ => by rw [Nodes.flat]
  | .cons e .nil, u, σ => by
    rw [Nodes.flat, Nodes.flat, evalMassign, evalMassign]
    exact onVal_congr (eval_flat e _ _) fun _ _ => rfl
  | .cons e (.cons f l), true, σ => by
    rw [show evalMassign K self rb x n ts (.cons e (.cons f l)) true σ = _ from by rw [evalMassign]; simp,
      ← evalAll_flat (.cons e (.cons f l)) σ, Nodes.flat, Nodes.flat, evalMassign]; simp
  | .cons e (.cons f l), false, σ => by
    rw [show evalMassign K self rb x n ts (.cons e (.cons f l)) false σ = _ from by rw [evalMassign]; simp,
      ← evalFirst_flat (.cons e (.cons f l)) _ σ, Nodes.flat, Nodes.flat, evalMassign]; simp
end
end

/-! ## The classes of programs -/

theorem quiet_flat : ∀ (e : Node), e.flat.quiet = e.quiet := by
  intro e
  fun_induction Node.quiet e with
  | case1 => rfl
  | case2 l hl => rw [Node.flat]; cases l <;> first | rfl | exact absurd rfl (hl _)
  | case3 n ih => rw [flat_one]; exact ih
  | case4 e h1 h2 h3 =>
    cases e with
    | lit l => exact absurd rfl (h2 l)
    | seq l =>
      cases l with
      | nil => rfl
      | cons a l =>
        cases l with
        | nil => exact absurd rfl (h3 a)
        | cons b l => rw [flat_two]; rfl
    | _ => rw [Node.flat]; rfl

theorem constant_flat : ∀ (e : Node), e.flat.constant = e.constant := by
  intro e
  fun_induction Node.constant e with
  | case1 => rfl
  | case2 l hl => rw [Node.flat]; cases l <;> first | rfl | exact absurd rfl (hl _)
  | case3 => rfl
  | case4 n ih => rw [flat_one]; exact ih
  | case5 e h1 h2 h3 h4 =>
    cases e with
    | lit l => exact absurd rfl (h2 l)
    | self => exact absurd rfl h3
    | seq l =>
      cases l with
      | nil => rfl
      | cons a l =>
        cases l with
        | nil => exact absurd rfl (h4 a)
        | cons b l => rw [flat_two]; rfl
    | _ => rw [Node.flat]; rfl

theorem reads_flat : ∀ (e : Node), e.flat.reads = e.reads := by
  intro e
  fun_induction Node.reads e with
  | case1 => rfl
  | case2 l hl => rw [Node.flat]; cases l <;> first | rfl | exact absurd rfl (hl _)
  | case3 => rfl
  | case4 => rfl
  | case5 => rfl
  | case6 => rfl
  | case7 n ih => rw [flat_one]; exact ih
  | case8 e h1 h2 h3 h4 h5 h6 h7 =>
    cases e with
    | lit l => exact absurd rfl (h2 l)
    | self => exact absurd rfl h3
    | lvar id => exact absurd rfl (h4 id)
    | ivar id => exact absurd rfl (h5 id)
    | gvar id => exact absurd rfl (h6 id)
    | seq l =>
      cases l with
      | nil => rfl
      | cons a l =>
        cases l with
        | nil => exact absurd rfl (h7 a)
        | cons b l => rw [flat_two]; rfl
    | _ => rw [Node.flat]; rfl

mutual
theorem supported_flat : ∀ (e : Node) (lp uv em d : Bool), Supported lp e.flat uv em d ↔ Supported lp e uv em d
  | .binop op l r, lp, uv, em, d => by
    rw [Node.flat, Supported, Supported, supported_flat l, supported_flat r]
  | .land l r, lp, uv, em, d => by rw [Node.flat, Supported, Supported, supported_flat l, supported_flat r]
  | .lor l r, lp, uv, em, d => by rw [Node.flat, Supported, Supported, supported_flat l, supported_flat r]
  | .unop op e, lp, uv, em, d => by rw [Node.flat, Supported, Supported, supported_flat e]
  | .array l, lp, uv, em, d => by rw [Node.flat, Supported, Supported, supAll_flat l, flat_length]
  | .range a b ex, lp, uv, em, d => by rw [Node.flat, Supported, Supported, supported_flat a, supported_flat b]
  | .index b i, lp, uv, em, d => by rw [Node.flat, Supported, Supported, supported_flat b, supported_flat i]
  | .seq .nil, lp, uv, em, d => by rw [flat_empty]
  | .seq (.cons e .nil), lp, uv, em, d => by rw [flat_one, supported_flat e, Supported, SupSeq]
  | .seq (.cons a (.cons b l)), lp, uv, em, d => by
    rw [flat_two, Supported, Supported, SupSeq, SupSeq, supported_flat a, ← supSeq_flat (.cons b l), Nodes.flat]
  | .ite c t e, lp, uv, em, d => by
    rw [Node.flat, Supported, Supported, supported_flat c, supported_flat t, supported_flat e]
  | .while_ c b co, lp, uv, em, d => by rw [Node.flat, Supported, Supported, supported_flat c, supported_flat b]
  | .brk e, lp, uv, em, d => by rw [Node.flat, Supported, Supported, supported_flat e]
  | .nxt e, lp, uv, em, d => by rw [Node.flat, Supported, Supported, supported_flat e, quiet_flat]
  | .ret e, lp, uv, em, d => by rw [Node.flat, Supported, Supported, supported_flat e]
  | .assign t e, lp, uv, em, d => by rw [Node.flat, Supported, Supported, supported_flat e]
  | .opassign op t e, lp, uv, em, d => by rw [Node.flat, Supported, Supported, supported_flat e]
  | .assignIdx b i e, lp, uv, em, d => by
    rw [Node.flat, Supported, Supported, supported_flat b, supported_flat i, supported_flat e]
  | .attrAssign r m e, lp, uv, em, d => by rw [Node.flat, Supported, Supported, supported_flat r, supported_flat e]
  | .massign ts l, lp, uv, em, d => by rw [Node.flat, Supported, Supported, supMassign_flat l]
  | .send r m l, lp, uv, em, d => by
    rw [Node.flat, Supported, Supported, supported_flat r, supAll_flat l, flat_length]
  | .sendB r m l b, lp, uv, em, d => by
    rw [Node.flat, Supported, Supported, supported_flat r, supAll_flat l, flat_length]
  | .yield_ l, lp, uv, em, d => by rw [Node.flat, Supported, Supported, supAll_flat l, flat_length]
  | .lit _, lp, uv, em, d => by rw [Node.flat]
  | .self, lp, uv, em, d => by rw [Node.flat]
  | .lvar _, lp, uv, em, d => by rw [Node.flat]
  | .ivar _, lp, uv, em, d => by rw [Node.flat]
  | .gvar _, lp, uv, em, d => by rw [Node.flat]
  | .ident _, lp, uv, em, d => by rw [Node.flat]
  | .carray _, lp, uv, em, d => by rw [Node.flat]
  | .case_ .., lp, uv, em, d => by rw [Node.flat]
  | .caseN .., lp, uv, em, d => by rw [Node.flat]
  | .begin_ .., lp, uv, em, d => by rw [Node.flat]

theorem supAll_flat : ∀ (l : Nodes) (lp em d : Bool), SupAll lp l.flat em d ↔ SupAll lp l em d
  | .nil, lp, em, d => by rw [Nodes.flat]
  | .cons e l, lp, em, d => by rw [Nodes.flat, SupAll, SupAll, supported_flat e, supAll_flat l]

theorem supSeq_flat : ∀ (l : Nodes) (lp uv em d : Bool), SupSeq lp l.flat uv em d ↔ SupSeq lp l uv em d
  | .nil, lp, uv, em, d => by rw [Nodes.flat]
  | .cons e .nil, lp, uv, em, d => by rw [Nodes.flat, Nodes.flat, SupSeq, SupSeq, supported_flat e]
  | .cons e (.cons f l), lp, uv, em, d => by
    rw [Nodes.flat, Nodes.flat, SupSeq, SupSeq, supported_flat e, ← supSeq_flat (.cons f l), Nodes.flat]

theorem supFirst_flat : ∀ (l : Nodes) (lp : Bool) (k : Nat) (em d : Bool), SupFirst lp l.flat k em d ↔ SupFirst lp l k em d
  | .nil, lp, k, em, d => by rw [Nodes.flat]
  | .cons e l, lp, k, em, d => by rw [Nodes.flat, SupFirst, SupFirst, supported_flat e, supFirst_flat l]

theorem supMassign_flat : ∀ (l : Nodes) (lp : Bool) (k : Nat) (uv em d : Bool),
    SupMassign lp k l.flat uv em d ↔ SupMassign lp k l uv em d
  | .nil, lp, k, uv, em, d => by rw [Nodes.flat]
  | .cons e .nil, lp, k, uv, em, d => by rw [Nodes.flat, Nodes.flat, SupMassign, SupMassign, supported_flat e]
  | .cons e (.cons f l), lp, k, true, em, d => by
    rw [Nodes.flat, Nodes.flat, SupMassign, SupMassign, supported_flat e, ← supAll_flat (.cons f l), Nodes.flat, flat_length]
  | .cons e (.cons f l), lp, k, false, em, d => by
    rw [Nodes.flat, Nodes.flat, SupMassign, SupMassign, supported_flat e, ← supFirst_flat (.cons f l), Nodes.flat]
end

section
variable (x : Ctx)
mutual
theorem plain_flat : ∀ (e : Node) (u : Bool), Plain x e.flat u ↔ Plain x e u
  | .binop op l r, u => by rw [Node.flat, Plain, Plain, plain_flat l, plain_flat r]
  | .land l r, u => by rw [Node.flat, Plain, Plain, plain_flat l, plain_flat r]
  | .lor l r, u => by rw [Node.flat, Plain, Plain, plain_flat l, plain_flat r]
  | .unop op e, u => by rw [Node.flat, Plain, Plain, plain_flat e]
  | .array l, u => by rw [Node.flat, Plain, Plain, plainAll_flat l]
  | .range a b ex, u => by
    rw [Node.flat, Plain, Plain, plain_flat a, plain_flat b, constant_flat, constant_flat, reads_flat, reads_flat]
  | .index b i, u => by rw [Node.flat, Plain, Plain, plain_flat b, plain_flat i]
  | .seq .nil, u => by rw [flat_empty]
  | .seq (.cons e .nil), u => by rw [flat_one, plain_flat e, Plain, PlainSeq]
  | .seq (.cons a (.cons b l)), u => by
    rw [flat_two, Plain, Plain, PlainSeq, PlainSeq, plain_flat a, ← plainSeq_flat (.cons b l), Nodes.flat]
  | .ite c t e, u => by rw [Node.flat, Plain, Plain, plain_flat c, plain_flat t, plain_flat e]
  | .while_ c b co, u => by rw [Node.flat, Plain, Plain, plain_flat c, plain_flat b]
  | .brk e, u => by rw [Node.flat, Plain, Plain, plain_flat e]
  | .nxt e, u => by rw [Node.flat, Plain, Plain, plain_flat e]
  | .ret e, u => by rw [Node.flat, Plain, Plain, plain_flat e]
  | .assign t e, u => by rw [Node.flat, Plain, Plain, plain_flat e]
  | .opassign op t e, u => by rw [Node.flat, Plain, Plain, plain_flat e]
  | .assignIdx b i e, u => by rw [Node.flat, Plain, Plain, plain_flat b, plain_flat i, plain_flat e]
  | .attrAssign r m e, u => by rw [Node.flat, Plain, Plain, plain_flat r, plain_flat e]
  | .massign ts l, u => by rw [Node.flat, Plain, Plain, plainMassign_flat l, flat_length]
  | .send r m l, u => by rw [Node.flat, Plain, Plain, plain_flat r, plainAll_flat l]
  | .sendB r m l b, u => by rw [Node.flat, Plain, Plain, plain_flat r, plainAll_flat l]
  | .yield_ l, u => by rw [Node.flat, Plain, Plain, plainAll_flat l]
  | .lit _, u => by rw [Node.flat]
  | .self, u => by rw [Node.flat]
  | .lvar _, u => by rw [Node.flat]
  | .ivar _, u => by rw [Node.flat]
  | .gvar _, u => by rw [Node.flat]
  | .ident _, u => by rw [Node.flat]
  | .carray _, u => by rw [Node.flat]
  | .case_ .., u => by rw [Node.flat]
  | .caseN .., u => by rw [Node.flat]
  | .begin_ .., u => by rw [Node.flat]

theorem plainAll_flat : ∀ (l : Nodes), PlainAll x l.flat ↔ PlainAll x l
  | .nil => by rw [Nodes.flat]
  | .cons e l => by rw [Nodes.flat, PlainAll, PlainAll, plain_flat e, plainAll_flat l]

theorem plainSeq_flat : ∀ (l : Nodes) (u : Bool), PlainSeq x l.flat u ↔ PlainSeq x l u
  | .nil, u => by rw [Nodes.flat]
  | .cons e .nil, u => by rw [Nodes.flat, Nodes.flat, PlainSeq, PlainSeq, plain_flat e]
  | .cons e (.cons f l), u => by
    rw [Nodes.flat, Nodes.flat, PlainSeq, PlainSeq, plain_flat e, ← plainSeq_flat (.cons f l), Nodes.flat]

theorem plainFirst_flat : ∀ (l : Nodes) (k : Nat), PlainFirst x l.flat k ↔ PlainFirst x l k
  | .nil, k => by rw [Nodes.flat]
  | .cons e l, k => by rw [Nodes.flat, PlainFirst, PlainFirst, plain_flat e, plainFirst_flat l]

theorem plainMassign_flat : ∀ (l : Nodes) (k : Nat) (u : Bool), PlainMassign x k l.flat u ↔ PlainMassign x k l u
  | .nil, k, u => by rw [Nodes.flat]
  | .cons e .nil, k, u => by rw [Nodes.flat, Nodes.flat, PlainMassign, PlainMassign, plain_flat e]
  | .cons e (.cons f l), k, true => by
    rw [Nodes.flat, Nodes.flat, PlainMassign, PlainMassign, plain_flat e, ← plainAll_flat (.cons f l), Nodes.flat, flat_length]
  | .cons e (.cons f l), k, false => by
    rw [Nodes.flat, Nodes.flat, PlainMassign, PlainMassign, plain_flat e, ← plainFirst_flat (.cons f l), Nodes.flat]
end
end

end Verif.Codegen
