import Verif.Codegen.VM
/-!
# What programs mean

An evaluator for syntax trees that knows nothing of instructions, operand stacks or exception tables.

`eval rb x n e used σ`: evaluate `e` in state `σ`.  `none`: not finished within `n` rounds of some loop.

* `rb = true`: Ruby.
* `rb = false`: what this implementation does where it differs from Ruby.  All differences are
  marked with `rb` below:
  `ensure` clauses that are not run, the order in which the ends of a range are evaluated, `+v`, the value
  of `a.b = v`, the order and value of multiple assignment, table-driven `case`, and `case` without
  subject.

`used` says whether the value is needed.  It matters only for allocation: a literal (or the array a
multiple assignment returns) is not created if nobody uses it.
-/
namespace Verif.Codegen
open Verif.Value (Val)

variable {W X : Type}

/-- How an evaluation ends.  `ret v crossed`: a `return`; `crossed` records whether it has left the body
of a `begin` on its way. -/
inductive Res (X : Type)
  | val (v : Val)
  | raise (x : X)
  | brk (v : Val)
  | nxt (v : Val)
  | ret (v : Val) (crossed : Bool)

/-- An unfinished or finished evaluation. -/
abbrev Ans (W X : Type) := Option (Res X × St W)

/-- Go on with the value; anything else ends the enclosing evaluation as well. -/
def onVal (r : Ans W X) (k : Val → St W → Ans W X) : Ans W X :=
  match r with
  | some (.val v, σ) => k v σ
  | r => r

/-- Answer of a primitive operation. -/
def ofEff : Eff W X Val → Ans W X
  | (.ok v, σ) => some (.val v, σ)
  | (.error x, σ) => some (.raise x, σ)

/-- Answer of a comparison. -/
def ofEffB : Eff W X Bool → Ans W X
  | (.ok b, σ) => some (.val (Value.bool b), σ)
  | (.error x, σ) => some (.raise x, σ)

/-! ## Variables -/

/-- The variable tables a body can see: its own, then those of the enclosing blocks up to and
including the method; outside any method also those of the binding it is evaluated in. -/
def visible : List Scope → List (List Id) → List (List Id)
  | [], ext => ext
  | s :: ss, ext => if s.kind = .method then [s.table] else s.table :: visible ss ext

/-- Position of the first table that has the name, and of the name in it. -/
def position (tables : List (List Id)) (id : Id) : Nat × Nat :=
  let k := tables.findIdx (id ∈ ·)
  (k, (tables[k]?.getD []).idxOf id)

/-- Where a local variable lives. -/
def Ctx.place (x : Ctx) (id : Id) : Nat × Nat := position (visible x.scopes x.extern) id

/-- Value of a variable. -/
def getVar (K : World W X) (x : Ctx) (σ : St W) : Var → Val
  | .lvar id => σ.locals (x.place id).1 (x.place id).2
  | .ivar id => K.getI id σ
  | .gvar id => K.getG id σ

/-- Assign a variable. -/
def setVar (K : World W X) (x : Ctx) (v : Val) (σ : St W) : Var → St W
  | .lvar id => σ.set (x.place id).1 (x.place id).2 v
  | .ivar id => K.setI id v σ
  | .gvar id => K.setG id v σ

/-- Assign variables one after the other; missing values are nil. -/
def setVars (K : World W X) (x : Ctx) : List Var → List Val → St W → St W
  | [], _, σ => σ
  | t :: ts, [], σ => setVars K x ts [] (setVar K x Value.nil σ t)
  | t :: ts, v :: vs, σ => setVars K x ts vs (setVar K x v σ t)

/-- A value for each of `n` targets. -/
def pad (n : Nat) (vs : List Val) : List Val := vs.take n ++ List.replicate (n - vs.length) Value.nil

/-- Multiple assignment: left to right in Ruby, right to left here. -/
def assignAll (K : World W X) (rb : Bool) (x : Ctx) (ts : List Var) (vs : List Val) (σ : St W) : St W :=
  if rb then setVars K x ts vs σ
  else setVars K x ts.reverse (pad ts.length vs).reverse σ

/-! ## Operators and literals -/

/-- Value of a literal. -/
def evalLit (K : World W X) (σ : St W) : Lit → Val × St W
  | .nil => (Value.nil, σ)
  | .bool b => (Value.bool b, σ)
  | .int i => (Value.integer i, σ)
  | .big n => (Value.bignum n, σ)
  | .flt b => (Value.float b, σ)
  | .str s => K.newStr s σ
  | .sym id => (Value.symbol id, σ)

/-- A binary operator. -/
def evalBin (K : World W X) : BinOp → Val → Val → St W → Ans W X
  | .c o, l, r, σ => ofEffB (K.cmp o l r σ)
  | op, l, r, σ => ofEff (K.bin op l r σ)

/-- A unary operator. -/
def evalUn (K : World W X) (rb : Bool) : UnOp → Val → St W → Ans W X
  | .not, v, σ => some (.val (Value.bool (!truthy v)), σ)
  | .pos, v, σ => if rb then ofEff (K.un .pos v σ) else some (.val v, σ)
  | op, v, σ => ofEff (K.un op v σ)

/-! ## Loops and `ensure` -/

/-- `while`/`until`: at most `n` rounds. -/
def loopN (cond body : St W → Ans W X) (until_ : Bool) : Nat → St W → Ans W X
  | 0, _ => none
  | n + 1, σ =>
    match cond σ with
    | some (.val v, σ) =>
      if truthy v = until_ then some (.val Value.nil, σ)
      else
        match body σ with
        | some (.val _, σ) => loopN cond body until_ n σ
        | some (.nxt _, σ) => loopN cond body until_ n σ
        | some (.brk v, σ) => some (.val v, σ)
        | r => r
    | some (.nxt _, σ) => loopN cond body until_ n σ
    | some (.brk v, σ) => some (.val v, σ)
    | r => r

/-- Run an `ensure` clause after something ended with `r`: if the clause completes, `r` stands. -/
def andEnsure (ens : St W → Ans W X) (r : Res X) (σ : St W) : Ans W X :=
  onVal (ens σ) fun _ σ => some (r, σ)

/-- Leave a `begin` with something other than a value: Ruby runs the clause. -/
def leave (rb : Bool) (ens : St W → Ans W X) (r : Res X) (σ : St W) : Ans W X :=
  if rb then andEnsure ens r σ else some (r, σ)

/-- After the body, a rescue clause or the else clause. -/
def finish (rb : Bool) (ens : St W → Ans W X) : Ans W X → Ans W X
  | some (.val v, σ) => andEnsure ens (.val v) σ
  | some (r, σ) => leave rb ens r σ
  | none => none

/-- After the rescue clauses: if none matched, the exception goes on. -/
def finishRescue (K : World W X) (rb : Bool) (ens : St W → Ans W X) (v : Val) :
    Option (Option (Res X) × St W) → Ans W X
  | some (some r, σ) => finish rb ens (some (r, σ))
  | some (none, σ) => andEnsure ens (.raise (K.thrown v)) σ
  | none => none

/-- A `begin`. -/
def beginSem (K : World W X) (rb hasEnsure : Bool) (ens : St W → Ans W X) (body : Ans W X)
    (els : Val → St W → Ans W X) (resc : Option (Val → St W → Option (Option (Res X) × St W))) : Ans W X :=
  match body with
  | some (.val v, σ) => finish rb ens (els v σ)
  | some (.raise x, σ) =>
    match resc with
    | none => leave rb ens (.raise x) σ
    | some resc => let (v, σ) := K.exc x σ; finishRescue K rb ens v (resc v σ)
  | some (.ret v crossed, σ) =>
    if hasEnsure && (rb || !crossed) then andEnsure ens (.ret v true) σ else some (.ret v true, σ)
  | some (r, σ) => leave rb ens r σ
  | none => none

/-! ## Table-driven `case` -/

/-- Index of the last branch with a label satisfying `p`. -/
def Whens.lastIdx (p : Lit → Bool) : Whens → Option Nat
  | .nil => none
  | .cons ls _ rest =>
    match rest.lastIdx p with
    | some i => some (i + 1)
    | none => if (Whens.labels.toList ls).any (fun n => n.lit?.any p) then some 0 else none

/-- Does a label select the value in a table: integers by value, others as hash keys. -/
def tableEq (K : World W X) (ints : Bool) (v : Val) (σ : St W) (l : Lit) : Bool :=
  if ints then
    match l with
    | .int i => fixnum? v == some i
    | _ => false
  else K.keyEq l v σ

/-! ## The evaluator -/

mutual
/-- See the head of this file. -/
def eval (K : World W X) (self : Val) (rb : Bool) (x : Ctx) (n : Nat) : Node → (used : Bool) → St W → Ans W X
  | .lit l, used, σ =>
    if used then (let (v, σ) := evalLit K σ l; some (.val v, σ)) else some (.val Value.nil, σ)
  | .self, _, σ => some (.val self, σ)
  | .lvar id, _, σ => some (.val (getVar K x σ (.lvar id)), σ)
  | .ivar id, _, σ => some (.val (getVar K x σ (.ivar id)), σ)
  | .gvar id, _, σ => some (.val (getVar K x σ (.gvar id)), σ)
  | .ident id, _, σ => ofEff (K.send id self [] σ)
  | .binop op l r, _, σ =>
    onVal (eval K self rb x n l true σ) fun lv σ =>
    onVal (eval K self rb x n r true σ) fun rv σ => evalBin K op lv rv σ
  | .land l r, used, σ =>
    onVal (eval K self rb x n l true σ) fun v σ =>
      if truthy v then eval K self rb x n r used σ else some (.val v, σ)
  | .lor l r, used, σ =>
    onVal (eval K self rb x n l true σ) fun v σ =>
      if truthy v then some (.val v, σ) else eval K self rb x n r used σ
  | .unop op e, _, σ => onVal (eval K self rb x n e true σ) fun v σ => evalUn K rb op v σ
  | .array elems, _, σ =>
    match evalAll K self rb x n elems σ with
    | some (.ok vs, σ) => let (v, σ) := K.mkArray vs σ; some (.val v, σ)
    | some (.error r, σ) => some (r, σ)
    | none => none
  | .carray elems, used, σ =>
    if used then (let (v, σ) := K.mkArray (elems.map Lit.value) σ; some (.val v, σ))
    else some (.val Value.nil, σ)
  | .range start stop excl, _, σ =>
    if rb then
      onVal (eval K self rb x n start true σ) fun v1 σ =>
      onVal (eval K self rb x n stop true σ) fun v2 σ => ofEff (K.range v1 v2 excl σ)
    else
      onVal (eval K self rb x n stop true σ) fun v2 σ =>
      onVal (eval K self rb x n start true σ) fun v1 σ => ofEff (K.range v1 v2 excl σ)
  | .index base idx, _, σ =>
    onVal (eval K self rb x n base true σ) fun b σ =>
    onVal (eval K self rb x n idx true σ) fun i σ => ofEff (K.index b i σ)
  | .seq nodes, used, σ => evalSeq K self rb x n nodes used σ
  | .ite c t e, used, σ =>
    onVal (eval K self rb x n c true σ) fun v σ =>
      if truthy v then eval K self rb x n t used σ else eval K self rb x n e used σ
  | .while_ c b cond_op, _, σ =>
    loopN (eval K self rb x n c true) (eval K self rb x n b false) (!cond_op) n σ
  | .brk e, _, σ => onVal (eval K self rb x n e true σ) fun v σ => some (.brk v, σ)
  | .nxt e, _, σ => onVal (eval K self rb x n e true σ) fun v σ => some (.nxt v, σ)
  | .ret e, _, σ => onVal (eval K self rb x n e true σ) fun v σ => some (.ret v false, σ)
  | .assign t e, _, σ => onVal (eval K self rb x n e true σ) fun v σ => some (.val v, setVar K x v σ t)
  | .opassign op t e, _, σ =>
    onVal (eval K self rb x n e true σ) fun r σ' =>
    onVal (evalBin K op (getVar K x σ t) r σ') fun v σ => some (.val v, setVar K x v σ t)
  | .assignIdx base idx e, _, σ =>
    onVal (eval K self rb x n base true σ) fun b σ =>
    onVal (eval K self rb x n idx true σ) fun i σ =>
    onVal (eval K self rb x n e true σ) fun v σ =>
      match K.setIndex b i v σ with
      | (.ok _, σ) => some (.val v, σ)
      | (.error e, σ) => some (.raise e, σ)
  | .attrAssign recv m e, used, σ =>
    onVal (eval K self rb x n recv true σ) fun r σ =>
    onVal (eval K self rb x n e true σ) fun v σ =>
    onVal (ofEff (K.send (x.setter m) r [v] σ)) fun res σ => some (.val (if rb || !used then v else res), σ)
  | .massign ts es, used, σ => evalMassign K self rb x n ts es used σ
  | .send recv m args, _, σ =>
    onVal (eval K self rb x n recv true σ) fun r σ =>
    match evalAll K self rb x n args σ with
    | some (.ok vs, σ) => ofEff (K.send m r vs σ)
    | some (.error r, σ) => some (r, σ)
    | none => none
  | .sendB recv m args b, _, σ =>
    onVal (eval K self rb x n recv true σ) fun r σ =>
    match evalAll K self rb x n args σ with
    | some (.ok vs, σ) => ofEff (K.call b m r vs σ)
    | some (.error r, σ) => some (r, σ)
    | none => none
  | .yield_ args, _, σ =>
    match evalAll K self rb x n args σ with
    | some (.ok vs, σ) => ofEff (K.yield_ vs σ)
    | some (.error r, σ) => some (r, σ)
    | none => none
  | .case_ c ws e, used, σ =>
    onVal (eval K self rb x n c true σ) fun v σ =>
      if !rb && ws.allLit then
        match ws.lastIdx (tableEq K ws.allInt v σ) with
        | some i => evalBranch K self rb x n ws i used σ
        | none => eval K self rb x n e used σ
      else evalWhens K self rb x n ws v (eval K self rb x n e used) used σ
  | .caseN ws e, used, σ => evalCondWhens K self rb x n ws (eval K self rb x n e used) used σ
  | .begin_ body rs els ens, used, σ =>
    beginSem K rb ens.isSome (evalOpt K self rb x n ens) (eval K self rb x n body used σ)
      (fun v σ => evalElse K self rb x n els v used σ)
      (if rs.isEmpty then none else some fun v σ => evalRescues K self rb x n rs v used σ)

/-- All values, left to right. -/
def evalAll (K : World W X) (self : Val) (rb : Bool) (x : Ctx) (n : Nat) :
    Nodes → St W → Option (Except (Res X) (List Val) × St W)
  | .nil, σ => some (.ok [], σ)
  | .cons e es, σ =>
    match eval K self rb x n e true σ with
    | some (.val v, σ) =>
      match evalAll K self rb x n es σ with
      | some (.ok vs, σ) => some (.ok (v :: vs), σ)
      | r => r
    | some (r, σ) => some (.error r, σ)
    | none => none

/-- Statements in sequence; the value of the last. -/
def evalSeq (K : World W X) (self : Val) (rb : Bool) (x : Ctx) (n : Nat) : Nodes → (used : Bool) → St W → Ans W X
  | .nil, _, σ => some (.val Value.nil, σ)
  | .cons e .nil, used, σ => eval K self rb x n e used σ
  | .cons e (.cons e' es), used, σ =>
    onVal (eval K self rb x n e false σ) fun _ σ => evalSeq K self rb x n (.cons e' es) used σ

/-- Right-hand sides of a multiple assignment whose value is not used: those beyond the `k` targets are
evaluated for their effect. -/
def evalFirst (K : World W X) (self : Val) (rb : Bool) (x : Ctx) (n : Nat) :
    Nodes → (k : Nat) → St W → Option (Except (Res X) (List Val) × St W)
  | .nil, _, σ => some (.ok [], σ)
  | .cons e es, k, σ =>
    match eval K self rb x n e (decide (0 < k)) σ with
    | some (.val v, σ) =>
      match evalFirst K self rb x n es (k - 1) σ with
      | some (.ok vs, σ) => some (.ok (v :: vs), σ)
      | r => r
    | some (r, σ) => some (.error r, σ)
    | none => none

/-- Multiple assignment. -/
def evalMassign (K : World W X) (self : Val) (rb : Bool) (x : Ctx) (n : Nat) (ts : List Var) :
    Nodes → (used : Bool) → St W → Ans W X
  | .cons e .nil, _, σ =>
    onVal (eval K self rb x n e true σ) fun v σ =>
      match ts with
      | [t] => some (.val v, setVar K x v σ t)
      | ts => some (.val v, assignAll K rb x ts ((K.asArray v σ).getD [v]) σ)
  | es, true, σ =>
    match evalAll K self rb x n es σ with
    | some (.ok vs, σ) =>
      let (v, σ') := K.mkArray (if rb then vs else pad (max ts.length vs.length) vs)
        (assignAll K rb x ts vs σ)
      some (.val v, σ')
    | some (.error r, σ) => some (r, σ)
    | none => none
  | es, false, σ =>
    match evalFirst K self rb x n es ts.length σ with
    | some (.ok vs, σ) => some (.val Value.nil, assignAll K rb x ts vs σ)
    | some (.error r, σ) => some (r, σ)
    | none => none

/-- The body of the `i`-th branch. -/
def evalBranch (K : World W X) (self : Val) (rb : Bool) (x : Ctx) (n : Nat) :
    Whens → (i : Nat) → (used : Bool) → St W → Ans W X
  | .nil, _, _, _ => none
  | .cons _ body _, 0, used, σ => eval K self rb x n body used σ
  | .cons _ _ rest, i + 1, used, σ => evalBranch K self rb x n rest i used σ

/-- `label === v` for the labels of a branch, up to the first that holds. -/
def evalLabels (K : World W X) (self : Val) (rb : Bool) (x : Ctx) (n : Nat) :
    Nodes → Val → St W → Option (Except (Res X) Bool × St W)
  | .nil, _, σ => some (.ok false, σ)
  | .cons l ls, v, σ =>
    match onVal (eval K self rb x n l true σ) fun lv σ => evalBin K .teq lv v σ with
    | some (.val b, σ) => if truthy b then some (.ok true, σ) else evalLabels K self rb x n ls v σ
    | some (r, σ) => some (.error r, σ)
    | none => none

/-- The first branch with a matching label, or else `els`. -/
def evalWhens (K : World W X) (self : Val) (rb : Bool) (x : Ctx) (n : Nat) :
    Whens → Val → (els : St W → Ans W X) → (used : Bool) → St W → Ans W X
  | .nil, _, els, _, σ => els σ
  | .cons ls body rest, v, els, used, σ =>
    match evalLabels K self rb x n ls v σ with
    | some (.ok true, σ) => eval K self rb x n body used σ
    | some (.ok false, σ) => evalWhens K self rb x n rest v els used σ
    | some (.error r, σ) => some (r, σ)
    | none => none

/-- Conditions of a branch of a `case` without subject: Ruby asks for one that holds, this
implementation for all. -/
def evalConds (K : World W X) (self : Val) (rb : Bool) (x : Ctx) (n : Nat) :
    Nodes → St W → Option (Except (Res X) Bool × St W)
  | .nil, σ => some (.ok (!rb), σ)
  | .cons c cs, σ =>
    match eval K self rb x n c true σ with
    | some (.val v, σ) =>
      if truthy v = rb then some (.ok rb, σ) else evalConds K self rb x n cs σ
    | some (r, σ) => some (.error r, σ)
    | none => none

/-- `case` without subject. -/
def evalCondWhens (K : World W X) (self : Val) (rb : Bool) (x : Ctx) (n : Nat) :
    Whens → (els : St W → Ans W X) → (used : Bool) → St W → Ans W X
  | .nil, els, _, σ => els σ
  | .cons cs body rest, els, used, σ =>
    match evalConds K self rb x n cs σ with
    | some (.ok true, σ) => eval K self rb x n body used σ
    | some (.ok false, σ) => evalCondWhens K self rb x n rest els used σ
    | some (.error r, σ) => some (r, σ)
    | none => none

/-- The exception list of a rescue clause, by default `StandardError`. -/
def evalExcs (K : World W X) (self : Val) (rb : Bool) (x : Ctx) (n : Nat) :
    Nodes → St W → Option (Except (Res X) (List Val) × St W)
  | .nil, σ =>
    match K.constTop x.standardError σ with
    | (.ok v, σ) => some (.ok [v], σ)
    | (.error x, σ) => some (.error (.raise x), σ)
  | .cons e es, σ =>
    match eval K self rb x n e true σ with
    | some (.val v, σ) =>
      match evalAll K self rb x n es σ with
      | some (.ok vs, σ) => some (.ok (v :: vs), σ)
      | r => r
    | some (r, σ) => some (.error r, σ)
    | none => none

/-- The first matching rescue clause: its exception list is evaluated, and
if the exception is an instance of one of them, assigned and the body run.
`none` instead of a result: no clause matches. -/
def evalRescues (K : World W X) (self : Val) (rb : Bool) (x : Ctx) (n : Nat) :
    Rescues → Val → (used : Bool) → St W → Option (Option (Res X) × St W)
  | .nil, _, _, σ => some (none, σ)
  | .cons excs t body rest, v, used, σ =>
    match evalExcs K self rb x n excs σ with
    | some (.ok cs, σ) =>
      if K.rescues v cs σ then
        match eval K self rb x n body used (match t with | some t => setVar K x v σ t | none => σ) with
        | some (r, σ) => some (some r, σ)
        | none => none
      else evalRescues K self rb x n rest v used σ
    | some (.error r, σ) => some (some r, σ)
    | none => none

/-- The `else` clause, if any, replaces the value of the body. -/
def evalElse (K : World W X) (self : Val) (rb : Bool) (x : Ctx) (n : Nat) :
    OptNode → Val → (used : Bool) → St W → Ans W X
  | .none, v, _, σ => some (.val v, σ)
  | .some e, _, used, σ => eval K self rb x n e used σ

/-- The `ensure` clause; its value is dropped. -/
def evalOpt (K : World W X) (self : Val) (rb : Bool) (x : Ctx) (n : Nat) : OptNode → St W → Ans W X
  | .none, σ => some (.val Value.nil, σ)
  | .some e, σ => eval K self rb x n e false σ
end

end Verif.Codegen
