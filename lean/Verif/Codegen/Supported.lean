import Verif.Codegen.Sem
/-!
# Programs the compiler translates faithfully

`Supported lp e uv emp d`: the expression `e` (whose value is needed iff `uv`) is compiled correctly, at
a place inside a loop of the same body iff `lp`, where the operand stack is empty if `emp`, and is as
high as at the start of the innermost loop if `d`.

The restrictions are those places where the compiled code goes wrong, or where sizes do not fit the
operands of the instructions:

* a `Bignum` literal in statement position leaves a value on the operand stack;
* `break` and `next` inside an operand leave the values computed before on the operand stack of the
  loop; `next` with a value that is computed leaves it, and `next` in value position jumps to the loop
  with its value;
* a `rescue` clause clears the operand stack, so a `begin` with rescue clauses must not be an operand;
* argument counts are 16 bits wide, other counts 32 bits.
-/
namespace Verif.Codegen

/-- The values a `next` inside a loop may have: literals without effect, also in parentheses. -/
def Node.quiet : Node → Bool
  | .lit (.str _) => false
  | .lit l => l.silent
  | .seq (.cons n .nil) => n.quiet
  | _ => false

/-- Not a string. -/
def Lit.packed : Lit → Bool
  | .str _ => false
  | _ => true

mutual
/-- See the head of this file. -/
def Supported (lp : Bool) : Node → (uv emp d : Bool) → Prop
  | .lit l, uv, _, _ => uv = true ∨ l.silent = true
  | .self, _, _, _ => True
  | .lvar _, _, _, _ => True
  | .ivar _, _, _, _ => True
  | .gvar _, _, _, _ => True
  | .ident _, _, _, _ => True
  | .binop _ l r, _, e, d => Supported lp l true e d ∧ Supported lp r true false false
  | .land l r, uv, e, d => Supported lp l true e d ∧ Supported lp r uv e d
  | .lor l r, uv, e, d => Supported lp l true e d ∧ Supported lp r uv e d
  | .unop _ a, _, e, d => Supported lp a true e d
  | .array ns, _, e, d => SupAll lp ns e d ∧ ns.length < 2 ^ 32
  | .carray l, _, _, _ => l.all Lit.packed = true
  | .range a b _, _, _, _ => Supported lp a true false false ∧ Supported lp b true false false
  | .index a b, _, e, d => Supported lp a true e d ∧ Supported lp b true false false
  | .seq ns, uv, e, d => SupSeq lp ns uv e d
  | .ite c a b, uv, e, d => Supported lp c true e d ∧ Supported lp a uv e d ∧ Supported lp b uv e d
  | .while_ c b _, _, e, _ => Supported true c true e true ∧ Supported true b false e true
  | .brk a, _, e, d => (lp = true → d = true) ∧ Supported lp a true e d
  | .nxt a, uv, e, d => Supported lp a true e d ∧ (lp = true → d = true ∧ uv = false ∧ a.quiet = true)
  | .ret a, _, e, d => Supported lp a true e d
  | .assign _ a, _, e, d => Supported lp a true e d
  | .opassign _ _ a, _, _, _ => Supported lp a true false false
  | .assignIdx a i b, _, e, d =>
    Supported lp a true e d ∧ Supported lp i true false false ∧ Supported lp b true false false
  | .attrAssign a _ b, _, e, d => Supported lp a true e d ∧ Supported lp b true false false
  | .massign ts ns, uv, e, d => SupMassign lp ts.length ns uv e d
  | .send a _ ns, _, e, d => Supported lp a true e d ∧ SupAll lp ns false false ∧ ns.length < 2 ^ 16
  | .sendB a _ ns _, _, e, d => Supported lp a true e d ∧ SupAll lp ns false false ∧ ns.length < 2 ^ 16
  | .yield_ ns, _, e, d => SupAll lp ns e d ∧ ns.length < 2 ^ 32
  | .case_ c ws b, uv, e, d => Supported lp c true e d ∧ SupWhens lp ws uv e d ∧ Supported lp b uv e d
  | .caseN ws b, uv, e, d => SupCondWhens lp ws uv e d ∧ Supported lp b uv e d
  | .begin_ b rs els ens, uv, e, d =>
    (rs.isEmpty = false → e = true) ∧ Supported lp b uv e d ∧ SupRescues lp rs uv e d ∧
      SupOpt lp els uv e d ∧ SupOpt lp ens false false false

/-- Values pushed one after the other. -/
def SupAll (lp : Bool) : Nodes → (emp d : Bool) → Prop
  | .nil, _, _ => True
  | .cons n ns, e, d => Supported lp n true e d ∧ SupAll lp ns false false

/-- Statements. -/
def SupSeq (lp : Bool) : Nodes → (uv emp d : Bool) → Prop
  | .nil, _, _, _ => True
  | .cons n .nil, uv, e, d => Supported lp n uv e d
  | .cons n (.cons m ns), uv, e, d => Supported lp n false e d ∧ SupSeq lp (.cons m ns) uv e d

/-- Right-hand sides of which only the first `k` are used. -/
def SupFirst (lp : Bool) : Nodes → (k : Nat) → (emp d : Bool) → Prop
  | .nil, _, _, _ => True
  | .cons n ns, k, e, d => Supported lp n (decide (0 < k)) e d ∧ SupFirst lp ns (k - 1) false false

/-- Right-hand sides of a multiple assignment to `k` targets. -/
def SupMassign (lp : Bool) (k : Nat) : Nodes → (uv emp d : Bool) → Prop
  | .cons n .nil, _, e, d => Supported lp n true e d ∧ 0 < k ∧ k < 2 ^ 32
  | .nil, uv, _, _ => uv = true → k < 2 ^ 32
  | .cons n (.cons m ns), true, e, d =>
    (Supported lp n true e d ∧ SupAll lp (.cons m ns) false false) ∧ max k (ns.length + 2) < 2 ^ 32
  | .cons n (.cons m ns), false, e, d =>
    Supported lp n (decide (0 < k)) e d ∧ SupFirst lp (.cons m ns) (k - 1) false false

/-- Conditions of a branch of a `case` without subject. -/
def SupConds (lp : Bool) : Nodes → (emp d : Bool) → Prop
  | .nil, _, _ => True
  | .cons n ns, e, d => Supported lp n true e d ∧ SupConds lp ns e d

/-- Branches of a `case`. -/
def SupWhens (lp : Bool) : Whens → (uv emp d : Bool) → Prop
  | .nil, _, _, _ => True
  | .cons ls b rest, uv, e, d => SupAll lp ls false false ∧ Supported lp b uv e d ∧ SupWhens lp rest uv e d

/-- Branches of a `case` without subject. -/
def SupCondWhens (lp : Bool) : Whens → (uv emp d : Bool) → Prop
  | .nil, _, _, _ => True
  | .cons ls b rest, uv, e, d =>
    SupConds lp ls e d ∧ Supported lp b uv e d ∧ SupCondWhens lp rest uv e d

/-- Rescue clauses. -/
def SupRescues (lp : Bool) : Rescues → (uv emp d : Bool) → Prop
  | .nil, _, _, _ => True
  | .cons excs _ b rest, uv, e, d =>
    excs.excLen < 2 ^ 32 ∧ SupAll lp excs false false ∧ Supported lp b uv e d ∧ SupRescues lp rest uv e d

/-- An optional clause. -/
def SupOpt (lp : Bool) : OptNode → (uv emp d : Bool) → Prop
  | .none, _, _, _ => True
  | .some n, uv, e, d => Supported lp n uv e d
end

end Verif.Codegen
