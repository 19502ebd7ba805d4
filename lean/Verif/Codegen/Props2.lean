import Verif.Codegen.Props
/-!
# Short circuits, `case`, exceptions and multiple assignment

C32, C33, C42, C43 and C58 for compiled code.  `returns`, `raises`: see `Toy.lean`.
-/
namespace Verif.Codegen
open Verif.ISeq Op
open Verif.Value (Val)

variable {W X : Type}

/-- `Ends K g σ o`: the code in `g`, run from the start in state `σ`, ends with `o`. -/
abbrev Ends (K : Env W X) (g : G) (σ : St W) (o : R W X) : Prop := Steps K g.code (.at 0 ⟨[], σ⟩) (.done o)

/-! ## C32: short circuits -/

/-- **C32**: if `a` is falsy, `a && b` is the value of `a`, and `b` is not evaluated: the final state is
the one after `a`.  (Part: operands must be `Supported`.) -/
theorem C32_and_skips_partial {x : Ctx} {a b : Node} {g : G} {K : Env W X} (hC : Compiled x (.land a b) g K)
    (hs : Supported false (.land a b) true true true) {n : Nat} {σ σ' : St W} {v : Val}
    (ha : eval K.world K.self false x n a true σ = some (.val v, σ')) (hv : truthy v = false) :
    Ends K g σ (.ret v σ') := by
  refine C31_compiled_code_agrees_partial hC hs (n := n) (r := .val v) ?_
  rw [eval, ha]
  simp [onVal, hv]

/-- If `a` is truthy, `a && b` is what `b` is. -/
theorem C32_and_continues_partial {x : Ctx} {a b : Node} {g : G} {K : Env W X} (hC : Compiled x (.land a b) g K)
    (hs : Supported false (.land a b) true true true) {n : Nat} {σ σ1 σ' : St W} {v : Val} {r : Res X}
    (ha : eval K.world K.self false x n a true σ = some (.val v, σ1)) (hv : truthy v = true)
    (hb : eval K.world K.self false x n b true σ1 = some (r, σ')) :
    Ends K g σ (outcome x r σ') := by
  refine C31_compiled_code_agrees_partial hC hs (n := n) (r := r) ?_
  rw [eval, ha]
  simp [onVal, hv, hb]

/-- If `a` is truthy, `a || b` is the value of `a`, and `b` is not evaluated. -/
theorem C32_or_skips_partial {x : Ctx} {a b : Node} {g : G} {K : Env W X} (hC : Compiled x (.lor a b) g K)
    (hs : Supported false (.lor a b) true true true) {n : Nat} {σ σ' : St W} {v : Val}
    (ha : eval K.world K.self false x n a true σ = some (.val v, σ')) (hv : truthy v = true) :
    Ends K g σ (.ret v σ') := by
  refine C31_compiled_code_agrees_partial hC hs (n := n) (r := .val v) ?_
  rw [eval, ha]
  simp [onVal, hv]

/-- If `a` is falsy, `a || b` is what `b` is. -/
theorem C32_or_continues_partial {x : Ctx} {a b : Node} {g : G} {K : Env W X} (hC : Compiled x (.lor a b) g K)
    (hs : Supported false (.lor a b) true true true) {n : Nat} {σ σ1 σ' : St W} {v : Val} {r : Res X}
    (ha : eval K.world K.self false x n a true σ = some (.val v, σ1)) (hv : truthy v = false)
    (hb : eval K.world K.self false x n b true σ1 = some (r, σ')) :
    Ends K g σ (outcome x r σ') := by
  refine C31_compiled_code_agrees_partial hC hs (n := n) (r := r) ?_
  rw [eval, ha]
  simp [onVal, hv, hb]

/-- `v ||= b` for a variable: the parser makes `v || (v = b)` of it (`parse_assign_op`,
`ruruby-parse/src/parser/expression.rs:119-125`). -/
def Var.node : Var → Node
  | .lvar id => .lvar id
  | .ivar id => .ivar id
  | .gvar id => .gvar id
def orAssign (t : Var) (b : Node) : Node := .lor t.node (.assign t b)

/-- `v ||= b` with `v` truthy changes nothing and does not evaluate `b`; … -/
theorem C32_or_assign_skips_partial {x : Ctx} {t : Var} {b : Node} {g : G} {K : Env W X}
    (hC : Compiled x (orAssign t b) g K) (hs : Supported false (orAssign t b) true true true) {σ : St W}
    (hv : truthy (getVar K.world x σ t) = true) : Ends K g σ (.ret (getVar K.world x σ t) σ) := by
  refine C32_or_skips_partial (n := 0) hC hs ?_ hv
  cases t <;> (simp only [Var.node]; rw [eval])

/-- … with `v` falsy it evaluates `b` and assigns it. -/
theorem C32_or_assign_assigns_partial {x : Ctx} {t : Var} {b : Node} {g : G} {K : Env W X}
    (hC : Compiled x (orAssign t b) g K) (hs : Supported false (orAssign t b) true true true) {n : Nat} {σ σ1 : St W}
    (hv : truthy (getVar K.world x σ t) = false) {w : Val}
    (hb : eval K.world K.self false x n b true σ = some (.val w, σ1)) :
    Ends K g σ (.ret w (setVar K.world x w σ1 t)) := by
  refine C32_or_continues_partial (n := n) (σ1 := σ) (r := .val w) hC hs ?_ hv ?_
  · cases t <;> (simp only [Var.node]; rw [eval])
  · rw [eval, hb]; rfl

namespace Toy
/-- `nil && p(1)`, `1 || p(1)`, `a ||= 5`. -/
def andProg : Node := .land (.lit .nil) (p 1)
def orProg : Node := .lor (int 1) (p 1)
def orAssignProg : Node := orAssign (.lvar 10) (int 5)
end Toy

open Toy in
example : Compiled ctx andProg (compile andProg) (env (compile andProg)) ∧
    Supported false andProg true true true ∧ returns andProg 20 = some (Value.nil, ⟨[], []⟩) :=
  ⟨compiled (by decide +kernel), by simp [andProg, p, int, Nodes.of, Supported, SupAll, Nodes.length],
    by decide +kernel⟩

open Toy in
example : Compiled ctx orProg (compile orProg) (env (compile orProg)) ∧
    Supported false orProg true true true ∧ returns orProg 20 = some (Value.integer 1, ⟨[], []⟩) :=
  ⟨compiled (by decide +kernel), by simp [orProg, p, int, Nodes.of, Supported, SupAll, Nodes.length],
    by decide +kernel⟩

open Toy in
example : Compiled ctx orAssignProg (compile orAssignProg) (env (compile orAssignProg)) ∧
    Supported false orAssignProg true true true ∧ truthy (getVar world ctx init (.lvar 10)) = false ∧
    returns orAssignProg 20 = some (Value.integer 5, ⟨[], []⟩) :=
  ⟨compiled (by decide +kernel), by simp [orAssignProg, orAssign, Var.node, int, Supported], by decide +kernel,
    by decide +kernel⟩

/-! ## C33: `case` -/

/-- Branches of a `case` as a list of label lists. -/
def Whens.labelLists : Whens → List (List Node)
  | .nil => []
  | .cons ls _ rest => Whens.labels.toList ls :: rest.labelLists

/-- The labels are literals other than strings; `label === v` tells whether the label is in the table entry
for `v` (integers by value, others as hash keys), without effect; and `v` matches labels of at most
one branch. -/
structure FitForTable (K : World W X) (ws : Whens) (v : Val) (σ : St W) : Prop where
  lits : ∀ ls ∈ ws.labelLists, ∀ nd ∈ ls, ∃ l, nd = .lit l ∧ (∀ s, l ≠ .str s) ∧
    K.bin .teq (evalLit K σ l).1 v σ = (.ok (Value.bool (tableEq K ws.allInt v σ l)), σ)
  distinct : ws.labelLists.Pairwise fun ls ls' =>
    ¬ ((∃ l, .lit l ∈ ls ∧ tableEq K ws.allInt v σ l = true) ∧
       (∃ l, .lit l ∈ ls' ∧ tableEq K ws.allInt v σ l = true))

theorem evalLit_quiet (K : World W X) (σ : St W) {l : Lit} (h : ∀ s, l ≠ .str s) :
    evalLit K σ l = ((evalLit K σ l).1, σ) := by
  cases l <;> first | rfl | exact absurd rfl (h _)

theorem evalLabels_lits (K : World W X) (self : Val) (rb : Bool) (x : Ctx) (n : Nat) (v : Val) (σ : St W)
    (q : Lit → Bool) : ∀ (ls : Nodes), (∀ nd ∈ Whens.labels.toList ls, ∃ l, nd = .lit l ∧ (∀ s, l ≠ .str s) ∧
      K.bin .teq (evalLit K σ l).1 v σ = (.ok (Value.bool (q l)), σ)) →
    evalLabels K self rb x n ls v σ = some (.ok ((Whens.labels.toList ls).any fun n => n.lit?.any q), σ)
  | .nil, _ => by rw [evalLabels]; rfl
  | .cons nd ls, h => by
    obtain ⟨l, rfl, hq, ht⟩ := h nd (by simp [Whens.labels.toList])
    have ih := evalLabels_lits K self rb x n v σ q ls (fun nd hn => h nd (by simp [Whens.labels.toList, hn]))
    rw [evalLabels, eval, if_pos rfl, evalLit_quiet K σ hq]
    dsimp only [onVal, evalBin]
    rw [ht]
    dsimp only [ofEff]
    rw [truthy_bool]
    cases hb : q l
    · rw [if_neg (by simp), ih]
      simp [Whens.labels.toList, Node.lit?, hb]
    · rw [if_pos rfl]
      simp [Whens.labels.toList, Node.lit?, hb]

theorem lastIdx_none {q : Lit → Bool} : ∀ {ws : Whens}, (∀ ls ∈ ws.labelLists, ∀ l, .lit l ∈ ls → q l = false) →
    ws.lastIdx q = none
  | .nil, _ => rfl
  | .cons ls b rest, h => by
    rw [Whens.lastIdx, lastIdx_none (fun l hl => h l (by simp [Whens.labelLists, hl]))]
    have : ((Whens.labels.toList ls).any fun n => n.lit?.any q) = false := by
      rw [List.any_eq_false]
      intro nd hn
      cases nd with
      | lit l => simpa [Node.lit?] using h _ (by simp [Whens.labelLists]) l hn
      | _ => simp [Node.lit?]
    simp [this]

/-- With `FitForTable`, the table finds the first matching branch. -/
theorem evalWhens_table (K : World W X) (self : Val) (rb : Bool) (x : Ctx) (n : Nat) (v : Val) (σ : St W)
    (q : Lit → Bool) (els : St W → Ans W X) (u : Bool) : ∀ (ws : Whens),
    (∀ ls ∈ ws.labelLists, ∀ nd ∈ ls, ∃ l, nd = .lit l ∧ (∀ s, l ≠ .str s) ∧
      K.bin .teq (evalLit K σ l).1 v σ = (.ok (Value.bool (q l)), σ)) →
    (ws.labelLists.Pairwise fun ls ls' => ¬ ((∃ l, .lit l ∈ ls ∧ q l = true) ∧ (∃ l, .lit l ∈ ls' ∧ q l = true))) →
    evalWhens K self rb x n ws v els u σ =
      match ws.lastIdx q with
      | some i => evalBranch K self rb x n ws i u σ
      | none => els σ
  | .nil, _, _ => by rw [evalWhens]; rfl
  | .cons ls b rest, h, hd => by
    rw [Whens.labelLists, List.pairwise_cons] at hd
    have ih := evalWhens_table K self rb x n v σ q els u rest
      (fun l hl => h l (by simp [Whens.labelLists, hl])) hd.2
    rw [evalWhens, evalLabels_lits K self rb x n v σ q ls (h _ (by simp [Whens.labelLists]))]
    cases ha : ((Whens.labels.toList ls).any fun n => n.lit?.any q)
    · dsimp only
      rw [ih, Whens.lastIdx]
      cases hl : rest.lastIdx q with
      | none => simp [ha]
      | some i => dsimp only; rw [evalBranch]
    · dsimp only
      have hm : ∃ l, .lit l ∈ Whens.labels.toList ls ∧ q l = true := by
        rw [List.any_eq_true] at ha
        obtain ⟨nd, hn, hq⟩ := ha
        cases nd with
        | lit l => exact ⟨l, hn, by simpa [Node.lit?] using hq⟩
        | _ => simp [Node.lit?] at hq
      have hnone : rest.lastIdx q = none := by
        apply lastIdx_none
        intro ls' hl' l hll
        by_contra hc
        exact hd.1 ls' hl' ⟨hm, l, hll, by simpa using hc⟩
      rw [Whens.lastIdx, hnone]
      simp only [ha, if_true]
      rw [evalBranch]

/-- **C33**: the compiled `case` runs the first branch with a label `l` such that `l === v`, or the else
clause (`evalWhens`).  If all labels are literals, so that a table is used, this needs `FitForTable`. -/
theorem C33_first_matching_branch_partial {x : Ctx} {c : Node} {ws : Whens} {b : Node} {g : G} {K : Env W X}
    (hC : Compiled x (.case_ c ws b) g K) (hs : Supported false (.case_ c ws b) true true true)
    {n : Nat} {σ σ1 σ' : St W} {v : Val} {r : Res X}
    (hc : eval K.world K.self false x n c true σ = some (.val v, σ1))
    (ht : ws.allLit = true → FitForTable K.world ws v σ1)
    (he : evalWhens K.world K.self false x n ws v (eval K.world K.self false x n b true) true σ1 = some (r, σ')) :
    Ends K g σ (outcome x r σ') := by
  refine C31_compiled_code_agrees_partial hC hs (n := n) (r := r) ?_
  rw [eval, hc]
  dsimp only [onVal]
  split
  · rename_i hl
    have hl : ws.allLit = true := by simpa using hl
    obtain ⟨h1, h2⟩ := ht hl
    rw [evalWhens_table K.world K.self false x n v σ1 (tableEq K.world ws.allInt v σ1) _ true ws h1 h2] at he
    exact he
  · exact he

namespace Toy
/-- `case 2 when 1, 3 then 10 when 2 then 20 else 30 end` -/
def caseProg : Node := .case_ (int 2) (.cons (.of [int 1, int 3]) (int 10) (.cons (.of [int 2]) (int 20) .nil)) (int 30)
/-- `case 1 when 1 then 10 when 1 then 20 end` -/
def caseDup : Node := .case_ (int 1) (.cons (.of [int 1]) (int 10) (.cons (.of [int 1]) (int 20) .nil)) (int 30)
/-- `case 1.0 when 1 then 10 else 30 end` -/
def caseFloat : Node := .case_ (.lit (.flt 0x3ff0000000000000#64)) (.cons (.of [int 1]) (int 10) .nil) (int 30)
/-- `case when true, false then 10 else 20 end` -/
def caseAnd : Node := .caseN (.cons (.of [.lit (.bool true), .lit (.bool false)]) (int 10) .nil) (int 20)
end Toy

open Toy in
example : Compiled ctx caseProg (compile caseProg) (env (compile caseProg)) ∧
    Supported false caseProg true true true ∧ returns caseProg 20 = some (Value.integer 20, ⟨[], []⟩) :=
  ⟨compiled (by decide +kernel), by simp [caseProg, int, Nodes.of, Supported, SupWhens, SupAll],
    by decide +kernel⟩

open Toy in
example : FitForTable world (.cons (.of [int 1, int 3]) (int 10) (.cons (.of [int 2]) (int 20) .nil)) (Value.integer 2) init where
  lits := by
    intro ls hls nd hnd
    simp only [Whens.labelLists, Nodes.of, Whens.labels.toList, List.mem_cons, List.not_mem_nil, or_false] at hls
    rcases hls with rfl | rfl
    · simp only [List.mem_cons, List.not_mem_nil, or_false] at hnd
      rcases hnd with rfl | rfl
      · exact ⟨_, rfl, by simp, rfl⟩
      · exact ⟨_, rfl, by simp, rfl⟩
    · simp only [List.mem_cons, List.not_mem_nil, or_false] at hnd
      subst hnd
      exact ⟨_, rfl, by simp, rfl⟩
  distinct := by
    simp only [Whens.labelLists, Nodes.of, Whens.labels.toList, int]
    rw [List.pairwise_cons]
    refine ⟨?_, by simp⟩
    rintro ls' hl ⟨⟨l, h1, h2⟩, -⟩
    simp only [List.mem_cons, List.not_mem_nil, or_false, Node.lit.injEq] at h1
    rcases h1 with rfl | rfl <;> revert h2 <;> decide

open Toy in
/-- C33 is false of the code in general: with duplicate labels the last branch wins
(`codegen.rs:1208-1240`: `map.insert`). -/
theorem C33_duplicate_labels_fails : ∃ (x : Ctx) (e : Node) (g : G) (K : Env Toy Val) (n : Nat) (σ σ' σ'' : St Toy),
    Compiled x e g K ∧ Supported false e true true true ∧
      eval K.world K.self true x n e true σ = some (.val (Value.integer 10), σ') ∧
      Ends K g σ (.ret (Value.integer 20) σ'') := by
  obtain ⟨σ, -, h⟩ := returns_steps (e := caseDup) (n := 20) (v := Value.integer 20) (w := ⟨[], []⟩) (by decide +kernel)
  refine ⟨ctx, caseDup, _, _, 0, init, init, σ, compiled (by decide +kernel),
    by simp [caseDup, int, Nodes.of, Supported, SupWhens, SupAll], ?_, h⟩
  have : evalBin world .teq (Value.integer 1) (Value.integer 1) init = some (.val (Value.bool true), init) := rfl
  simp [caseDup, int, Nodes.of, eval, evalWhens, evalLabels, onVal, evalLit, env, this, truthy_bool]

open Toy in
/-- … and `1 === 1.0` although the two are different hash keys and integers are compared by value only with
integers (`opt_core.rs:457-474`). -/
theorem C33_float_subject_fails : ∃ (x : Ctx) (e : Node) (g : G) (K : Env Toy Val) (n : Nat) (σ σ' σ'' : St Toy),
    Compiled x e g K ∧ Supported false e true true true ∧
      eval K.world K.self true x n e true σ = some (.val (Value.integer 10), σ') ∧
      Ends K g σ (.ret (Value.integer 30) σ'') := by
  obtain ⟨σ, -, h⟩ := returns_steps (e := caseFloat) (n := 20) (v := Value.integer 30) (w := ⟨[], []⟩) (by decide +kernel)
  refine ⟨ctx, caseFloat, _, _, 0, init, init, σ, compiled (by decide +kernel),
    by simp [caseFloat, int, Nodes.of, Supported, SupWhens, SupAll], ?_, h⟩
  have : evalBin world .teq (Value.integer 1) (Value.float 0x3ff0000000000000#64) init =
    some (.val (Value.bool true), init) := rfl
  simp [caseFloat, int, Nodes.of, eval, evalWhens, evalLabels, onVal, evalLit, env, this, truthy_bool]

open Toy in
/-- … and a `case` without subject asks for all conditions of a branch instead of one
(`codegen.rs:1270-1290`). -/
theorem C33_no_subject_fails : ∃ (x : Ctx) (e : Node) (g : G) (K : Env Toy Val) (n : Nat) (σ σ' σ'' : St Toy),
    Compiled x e g K ∧ Supported false e true true true ∧
      eval K.world K.self true x n e true σ = some (.val (Value.integer 10), σ') ∧
      Ends K g σ (.ret (Value.integer 20) σ'') := by
  obtain ⟨σ, -, h⟩ := returns_steps (e := caseAnd) (n := 20) (v := Value.integer 20) (w := ⟨[], []⟩) (by decide +kernel)
  refine ⟨ctx, caseAnd, _, _, 0, init, init, σ, compiled (by decide +kernel),
    by simp [caseAnd, int, Nodes.of, Supported, SupCondWhens, SupConds], ?_, h⟩
  simp [caseAnd, int, Nodes.of, eval, evalCondWhens, evalConds, evalLit, truthy_bool]

/-! ## C42: rescue -/

/-- **C42** (in one frame; frames are removed by `run_loop`, see `Verif/Frame`): an exception raised in the
body of a `begin` — anywhere inside, by a primitive operation or by a call — is given to the first clause whose list
matches; it is assigned, and the clause's body is run.  (Part: `Supported`; no `ensure`.) -/
theorem C42_rescued_by_first_match_partial {x : Ctx} {b : Node} {rs : Rescues} {els : OptNode} {g : G} {K : Env W X}
    (hC : Compiled x (.begin_ b rs els .none) g K) (hs : Supported false (.begin_ b rs els .none) true true true)
    (hr : rs.isEmpty = false) {n : Nat} {σ σ1 σ' : St W} {e : X} {r : Res X}
    (hb : eval K.world K.self false x n b true σ = some (.raise e, σ1))
    (hm : evalRescues K.world K.self false x n rs (K.world.exc e σ1).1 true (K.world.exc e σ1).2 = some (some r, σ')) :
    Ends K g σ (outcome x r σ') := by
  refine C31_compiled_code_agrees_partial hC hs (n := n) (r := r) ?_
  rw [eval, hb, hr, if_neg (by simp)]
  simp only [beginSem, hm, finishRescue]
  cases r <;> simp [finish, andEnsure, evalOpt, onVal, leave]

/-- If no clause matches, the exception goes on. -/
theorem C42_not_rescued_goes_on_partial {x : Ctx} {b : Node} {rs : Rescues} {els : OptNode} {g : G} {K : Env W X}
    (hC : Compiled x (.begin_ b rs els .none) g K) (hs : Supported false (.begin_ b rs els .none) true true true)
    (hr : rs.isEmpty = false) {n : Nat} {σ σ1 σ' : St W} {e : X}
    (hb : eval K.world K.self false x n b true σ = some (.raise e, σ1))
    (hm : evalRescues K.world K.self false x n rs (K.world.exc e σ1).1 true (K.world.exc e σ1).2 = some (none, σ')) :
    Ends K g σ (.err (K.world.thrown (K.world.exc e σ1).1) σ') := by
  refine C31_compiled_code_agrees_partial hC hs (n := n) (r := .raise (K.world.thrown (K.world.exc e σ1).1)) ?_
  rw [eval, hb, hr, if_neg (by simp)]
  simp only [beginSem, hm, finishRescue]
  simp [andEnsure, evalOpt, onVal]

/-- If nothing is raised, no clause runs: the value is that of the body. -/
theorem C42_nothing_raised_partial {x : Ctx} {b : Node} {rs : Rescues} {g : G} {K : Env W X}
    (hC : Compiled x (.begin_ b rs .none .none) g K) (hs : Supported false (.begin_ b rs .none .none) true true true)
    {n : Nat} {σ σ' : St W} {v : Val}
    (hb : eval K.world K.self false x n b true σ = some (.val v, σ')) : Ends K g σ (.ret v σ') := by
  refine C31_compiled_code_agrees_partial hC hs (n := n) (r := .val v) ?_
  rw [eval, hb]
  simp [beginSem, evalElse, finish, andEnsure, evalOpt, onVal]

namespace Toy
/-- `begin; begin; raise 5; rescue 6; p 6; end; rescue 5; p 5; 7; end` -/
def rescueProg : Node := .begin_ (.begin_ (raise_ 5) (.cons (.of [int 6]) none (p 6) .nil) .none .none)
  (.cons (.of [int 5]) none (.seq (.of [p 5, int 7])) .nil) .none .none
end Toy

open Toy in
example : Compiled ctx rescueProg (compile rescueProg) (env (compile rescueProg)) ∧
    Supported false rescueProg true true true ∧
    returns rescueProg 100 = some (Value.integer 7, ⟨[], [Value.integer 5]⟩) :=
  ⟨compiled (by decide +kernel), by simp [rescueProg, raise_, p, int, Nodes.of, Supported, SupSeq, SupAll, SupRescues,
    SupOpt, Nodes.length, Nodes.excLen], by decide +kernel⟩

/-! ## C43: ensure -/

/-- The ways out of a `begin` on which the implementation runs the `ensure` clause: the body (or its else
clause, or a rescue clause) completes, no clause of a non-empty list matches, or the body itself
executes `return`.  The relation says how the construct ends without the clause. -/
inductive LeavesRunning (K : World W X) (self : Val) (x : Ctx) (n : Nat) (b : Node) (rs : Rescues) (els : OptNode)
    (σ : St W) : Res X → St W → Prop
  | completes {v v' σ1 σ'} : eval K self false x n b true σ = some (.val v, σ1) →
      evalElse K self false x n els v true σ1 = some (.val v', σ') →
      LeavesRunning K self x n b rs els σ (.val v') σ'
  | rescued {e v σ1 σ'} : rs.isEmpty = false → eval K self false x n b true σ = some (.raise e, σ1) →
      evalRescues K self false x n rs (K.exc e σ1).1 true (K.exc e σ1).2 = some (some (.val v), σ') →
      LeavesRunning K self x n b rs els σ (.val v) σ'
  | unmatched {e σ1 σ'} : rs.isEmpty = false → eval K self false x n b true σ = some (.raise e, σ1) →
      evalRescues K self false x n rs (K.exc e σ1).1 true (K.exc e σ1).2 = some (none, σ') →
      LeavesRunning K self x n b rs els σ (.raise (K.thrown (K.exc e σ1).1)) σ'
  | returns {v σ'} : eval K self false x n b true σ = some (.ret v false, σ') →
      LeavesRunning K self x n b rs els σ (.ret v true) σ'

/-- **C43** (part: on these ways out): the clause runs exactly once, after everything else, and the
construct then ends as it would have without it. -/
theorem C43_ensure_runs_once_partial {x : Ctx} {b ens : Node} {rs : Rescues} {els : OptNode} {g : G} {K : Env W X}
    (hC : Compiled x (.begin_ b rs els (.some ens)) g K)
    (hs : Supported false (.begin_ b rs els (.some ens)) true true true) {n : Nat} {σ σ1 σ' : St W} {r : Res X} {w : Val}
    (hw : LeavesRunning K.world K.self x n b rs els σ r σ1)
    (he : eval K.world K.self false x n ens false σ1 = some (.val w, σ')) :
    Ends K g σ (outcome x r σ') := by
  refine C31_compiled_code_agrees_partial hC hs (n := n) (r := r) ?_
  cases hw with
  | completes h1 h2 =>
    rw [eval, h1]
    simp [beginSem, h2, finish, andEnsure, evalOpt, he, onVal]
  | rescued hr h1 h2 =>
    rw [eval, h1, hr, if_neg (by simp)]
    simp only [beginSem, h2, finishRescue]
    simp [finish, andEnsure, evalOpt, he, onVal]
  | unmatched hr h1 h2 =>
    rw [eval, h1, hr, if_neg (by simp)]
    simp only [beginSem, h2, finishRescue]
    simp [andEnsure, evalOpt, he, onVal]
  | returns h1 =>
    rw [eval, h1]
    simp [beginSem, OptNode.isSome, andEnsure, evalOpt, he, onVal]

namespace Toy
/-- `begin; p 1; return 2; ensure; p 3; end` -/
def ensReturn : Node := .begin_ (.seq (.of [p 1, .ret (int 2)])) .nil .none (.some (p 3))
/-- `begin; raise 5; ensure; p 3; end` -/
def ensRaise : Node := .begin_ (raise_ 5) .nil .none (.some (p 3))
/-- `begin; raise 5; rescue 5; raise 6; ensure; p 3; end` -/
def ensRescueRaise : Node := .begin_ (raise_ 5) (.cons (.of [int 5]) none (raise_ 6) .nil) .none (.some (p 3))
/-- `while true; begin; break; ensure; p 3; end; end` -/
def ensBreak : Node := .while_ (.lit (.bool true)) (.begin_ (.brk (.lit .nil)) .nil .none (.some (p 3))) true
/-- `begin; begin; return 2; ensure; p 3; end; ensure; p 4; end` -/
def ensNested : Node :=
  .begin_ (.begin_ (.ret (int 2)) .nil .none (.some (p 3))) .nil .none (.some (p 4))
/-- `begin; raise 5; rescue 5; return 2; ensure; p 3; end` -/
def ensRescueReturn : Node :=
  .begin_ (raise_ 5) (.cons (.of [int 5]) none (.ret (int 2)) .nil) .none (.some (p 3))
end Toy

open Toy in
example : Compiled ctx ensReturn (compile ensReturn) (env (compile ensReturn)) ∧
    Supported false ensReturn true true true ∧
    returns ensReturn 100 = some (Value.integer 2, ⟨[], [Value.integer 1, Value.integer 3]⟩) :=
  ⟨compiled (by decide +kernel), by simp [ensReturn, p, int, Nodes.of, Supported, SupSeq, SupAll, SupRescues,
    SupOpt, Nodes.length, Rescues.isEmpty], by decide +kernel⟩

open Toy in
/-- C43 is false of the code on the other ways out.  An exception that no rescue clause is written for: Ruby
prints 3, the code does not. -/
theorem C43_unrescued_exception_fails : ∃ (x : Ctx) (e : Node) (g : G) (K : Env Toy Val) (σ σ' σ'' : St Toy) (v : Val),
    Compiled x e g K ∧ Supported false e true true true ∧
      eval K.world K.self true x 0 e true σ = some (.raise v, σ') ∧ σ'.w.out = [Value.integer 3] ∧
      Ends K g σ (.err v σ'') ∧ σ''.w.out = [] := by
  obtain ⟨σ, h1, h⟩ := raises_steps (e := ensRaise) (n := 50) (v := Value.integer 5) (w := ⟨[], []⟩) (by decide +kernel)
  refine ⟨ctx, ensRaise, _, _, init, ⟨init.locals, ⟨[], [Value.integer 3]⟩⟩, σ, _, compiled (by decide +kernel),
    by simp [ensRaise, raise_, p, int, Nodes.of, Supported, SupAll, SupRescues, SupOpt, Nodes.length, Rescues.isEmpty],
    ?_, rfl, h, by rw [h1]⟩
  simp [ensRaise, raise_, p, int, Nodes.of, eval, evalAll, onVal, evalLit, beginSem, Rescues.isEmpty, leave,
    andEnsure, evalOpt, ofEff, env, world, raiseId, pId, init]

open Toy in
/-- An exception raised by a rescue clause. -/
theorem C43_exception_in_rescue_fails : ∃ (x : Ctx) (e : Node) (g : G) (K : Env Toy Val) (σ σ' σ'' : St Toy) (v : Val),
    Compiled x e g K ∧ Supported false e true true true ∧
      eval K.world K.self true x 0 e true σ = some (.raise v, σ') ∧ σ'.w.out = [Value.integer 3] ∧
      Ends K g σ (.err v σ'') ∧ σ''.w.out = [] := by
  obtain ⟨σ, h1, h⟩ := raises_steps (e := ensRescueRaise) (n := 50) (v := Value.integer 6) (w := ⟨[], []⟩)
    (by decide +kernel)
  refine ⟨ctx, ensRescueRaise, _, _, init, ⟨init.locals, ⟨[], [Value.integer 3]⟩⟩, σ, _, compiled (by decide +kernel),
    by simp [ensRescueRaise, raise_, p, int, Nodes.of, Supported, SupAll, SupRescues, SupOpt, Nodes.length,
      Nodes.excLen], ?_, rfl, h, by rw [h1]⟩
  simp [ensRescueRaise, raise_, p, int, Nodes.of, eval, evalAll, onVal, evalLit, beginSem, Rescues.isEmpty, leave,
    andEnsure, evalOpt, ofEff, env, world, raiseId, pId, init, evalRescues, evalExcs, finishRescue, finish]

open Toy in
/-- `break` (and `next`). -/
theorem C43_break_fails : ∃ (x : Ctx) (e : Node) (g : G) (K : Env Toy Val) (σ σ' σ'' : St Toy) (v : Val),
    Compiled x e g K ∧ Supported false e true true true ∧
      eval K.world K.self true x 1 e true σ = some (.val v, σ') ∧ σ'.w.out = [Value.integer 3] ∧
      Ends K g σ (.ret v σ'') ∧ σ''.w.out = [] := by
  obtain ⟨σ, h1, h⟩ := returns_steps (e := ensBreak) (n := 50) (v := Value.nil) (w := ⟨[], []⟩) (by decide +kernel)
  refine ⟨ctx, ensBreak, _, _, init, ⟨init.locals, ⟨[], [Value.integer 3]⟩⟩, σ, _, compiled (by decide +kernel),
    by simp [ensBreak, p, int, Nodes.of, Supported, SupAll, SupRescues, SupOpt, Nodes.length, Rescues.isEmpty],
    ?_, rfl, h, by rw [h1]⟩
  simp [ensBreak, p, int, Nodes.of, eval, evalAll, onVal, evalLit, beginSem, leave, loopN, truthy_bool,
    andEnsure, evalOpt, ofEff, env, world, pId, init]

open Toy in
/-- `return` through two clauses: only the inner one runs. -/
theorem C43_nested_return_fails : ∃ (x : Ctx) (e : Node) (g : G) (K : Env Toy Val) (σ σ' σ'' : St Toy) (v : Val),
    Compiled x e g K ∧ Supported false e true true true ∧
      eval K.world K.self true x 0 e true σ = some (.ret v true, σ') ∧
      σ'.w.out = [Value.integer 3, Value.integer 4] ∧
      Ends K g σ (.ret v σ'') ∧ σ''.w.out = [Value.integer 3] := by
  obtain ⟨σ, h1, h⟩ := returns_steps (e := ensNested) (n := 50) (v := Value.integer 2) (w := ⟨[], [Value.integer 3]⟩)
    (by decide +kernel)
  refine ⟨ctx, ensNested, _, _, init, ⟨init.locals, ⟨[], [Value.integer 3, Value.integer 4]⟩⟩, σ, _,
    compiled (by decide +kernel),
    by simp [ensNested, p, int, Nodes.of, Supported, SupAll, SupRescues, SupOpt, Nodes.length, Rescues.isEmpty],
    ?_, rfl, h, by rw [h1]⟩
  simp [ensNested, p, int, Nodes.of, eval, evalAll, onVal, evalLit, beginSem, OptNode.isSome,
    andEnsure, evalOpt, ofEff, env, world, pId, init]

open Toy in
/-- `return` in a rescue clause. -/
theorem C43_return_in_rescue_fails : ∃ (x : Ctx) (e : Node) (g : G) (K : Env Toy Val) (σ σ' σ'' : St Toy) (v : Val) (c : Bool),
    Compiled x e g K ∧ Supported false e true true true ∧
      eval K.world K.self true x 0 e true σ = some (.ret v c, σ') ∧ σ'.w.out = [Value.integer 3] ∧
      Ends K g σ (.ret v σ'') ∧ σ''.w.out = [] := by
  obtain ⟨σ, h1, h⟩ := returns_steps (e := ensRescueReturn) (n := 50) (v := Value.integer 2) (w := ⟨[], []⟩)
    (by decide +kernel)
  refine ⟨ctx, ensRescueReturn, _, _, init, ⟨init.locals, ⟨[], [Value.integer 3]⟩⟩, σ, _, false,
    compiled (by decide +kernel),
    by simp [ensRescueReturn, raise_, p, int, Nodes.of, Supported, SupAll, SupRescues, SupOpt, Nodes.length,
      Nodes.excLen], ?_, rfl, h, by rw [h1]⟩
  simp [ensRescueReturn, raise_, p, int, Nodes.of, eval, evalAll, onVal, evalLit, beginSem, Rescues.isEmpty, leave,
    andEnsure, evalOpt, ofEff, env, world, raiseId, pId, init, evalRescues, evalExcs, finishRescue, finish]

/-! ## C58: multiple assignment -/

theorem setVars_get (K : World W X) (x : Ctx) : ∀ (ids : List Id) (vs : List Val) (σ : St W),
    ids.Nodup → (∀ i ∈ ids, ∃ t ∈ visible x.scopes x.extern, i ∈ t) → ∀ i (hi : i < ids.length),
    getVar K x (setVars K x (ids.map .lvar) vs σ) (.lvar ids[i]) = vs[i]?.getD Value.nil
  | [], _, _, _, _, i, hi => by simp at hi
  | id :: ids, vs, σ, hn, hv, i, hi => by
    rw [List.nodup_cons] at hn
    have hv' : ∀ j ∈ ids, ∃ t ∈ visible x.scopes x.extern, j ∈ t := fun j hj => hv j (List.mem_cons_of_mem _ hj)
    have hid := hv id (List.mem_cons_self ..)
    cases i with
    | zero =>
      cases vs with
      | nil =>
        show getVar K x (setVars K x (ids.map .lvar) [] (setVar K x Value.nil σ (.lvar id))) _ = _
        rw [setVars_past K x _ hid ids [] σ hn.1 hv']
        simp [getVar, setVar, St.set]
      | cons v vs =>
        show getVar K x (setVars K x (ids.map .lvar) vs (setVar K x v σ (.lvar id))) _ = _
        rw [setVars_past K x _ hid ids vs σ hn.1 hv']
        simp [getVar, setVar, St.set]
    | succ i =>
      cases vs with
      | nil =>
        have := setVars_get K x ids [] (setVar K x Value.nil σ (.lvar id)) hn.2 hv' i (by simpa using hi)
        simpa [setVars] using this
      | cons v vs =>
        have := setVars_get K x ids vs (setVar K x v σ (.lvar id)) hn.2 hv' i (by simpa using hi)
        simpa [setVars] using this

theorem setVars_other (K : World W X) (x : Ctx) : ∀ (ids : List Id) (vs : List Val) (σ : St W) (k j : Nat),
    (∀ id ∈ ids, x.place id ≠ (k, j)) →
    (setVars K x (ids.map .lvar) vs σ).locals k j = σ.locals k j ∧ (setVars K x (ids.map .lvar) vs σ).w = σ.w
  | [], _, _, _, _, _ => ⟨rfl, rfl⟩
  | id :: ids, vs, σ, k, j, h => by
    have h0 := h id (List.mem_cons_self ..)
    have one : ∀ v, (setVar K x v σ (.lvar id)).locals k j = σ.locals k j := by
      intro v
      simp only [setVar, St.set]
      rw [if_neg]
      rintro ⟨rfl, rfl⟩
      exact h0 rfl
    cases vs with
    | nil =>
      obtain ⟨h1, h2⟩ := setVars_other K x ids [] (setVar K x Value.nil σ (.lvar id)) k j
        (fun i hi => h i (List.mem_cons_of_mem _ hi))
      exact ⟨h1.trans (one _), h2⟩
    | cons v vs =>
      obtain ⟨h1, h2⟩ := setVars_other K x ids vs (setVar K x v σ (.lvar id)) k j
        (fun i hi => h i (List.mem_cons_of_mem _ hi))
      exact ⟨h1.trans (one _), h2⟩

/-- `σ'` is `σ` with the variables `ids` set to the values by position, missing values being nil, and
nothing else changed. -/
structure Distributed (K : World W X) (x : Ctx) (ids : List Id) (vs : List Val) (σ σ' : St W) : Prop where
  target : ∀ i (hi : i < ids.length), getVar K x σ' (.lvar ids[i]) = vs[i]?.getD Value.nil
  others : ∀ k j, (∀ id ∈ ids, x.place id ≠ (k, j)) → σ'.locals k j = σ.locals k j
  world : σ'.w = σ.w

theorem assignAll_distributes (K : World W X) (x : Ctx) (ids : List Id) (hn : ids.Nodup)
    (hv : ∀ i ∈ ids, ∃ t ∈ visible x.scopes x.extern, i ∈ t) (vs : List Val) (σ : St W) :
    Distributed K x ids vs σ (assignAll K false x (ids.map .lvar) vs σ) := by
  rw [← assignAll_plain K ⟨ids, rfl, hn, hv⟩]
  unfold assignAll
  rw [if_pos rfl]
  refine ⟨setVars_get K x ids vs σ hn hv, fun k j h => (setVars_other K x ids vs σ k j h).1, ?_⟩
  clear hn hv
  induction ids generalizing vs σ with
  | nil => rfl
  | cons id ids ih =>
    cases vs with
    | nil => exact (ih [] _).trans rfl
    | cons v vs => exact (ih vs _).trans rfl

/-- **C58**, several right-hand sides (`a, b = e1, e2, …`, distinct local variables): all are evaluated,
left to right, before any variable is assigned; then the variables have the values by position.
(Part: targets are distinct local variables, no splats; `Supported`.) -/
theorem C58_values_by_position_partial {x : Ctx} {ids : List Id} {e1 e2 : Node} {es : Nodes} {g : G} {K : Env W X}
    (hC : Compiled x (.massign (ids.map .lvar) (.cons e1 (.cons e2 es))) g K)
    (hs : Supported false (.massign (ids.map .lvar) (.cons e1 (.cons e2 es))) true true true)
    (hn : ids.Nodup) (hv : ∀ i ∈ ids, ∃ t ∈ visible x.scopes x.extern, i ∈ t) {n : Nat} {σ σ1 : St W} {vs : List Val}
    (he : evalAll K.world K.self false x n (.cons e1 (.cons e2 es)) σ = some (.ok vs, σ1)) :
    ∃ σ2, Distributed K.world x ids vs σ1 σ2 ∧ ∃ arr, Ends K g σ (.ret (K.world.mkArray arr σ2).1 (K.world.mkArray arr σ2).2) := by
  refine ⟨_, assignAll_distributes K.world x ids hn hv vs σ1, pad (max (ids.map Var.lvar).length vs.length) vs, ?_⟩
  refine C31_compiled_code_agrees_partial hC hs (n := n) (r := .val _) ?_
  rw [eval, evalMassign, he]
  · rfl
  all_goals simp

/-- **C58**, one right-hand side (`a, b = e`): an array is distributed, anything else goes to the first
variable. -/
theorem C58_array_by_position_partial {x : Ctx} {ids : List Id} {e : Node} {g : G} {K : Env W X}
    (hC : Compiled x (.massign (ids.map .lvar) (.cons e .nil)) g K)
    (hs : Supported false (.massign (ids.map .lvar) (.cons e .nil)) true true true)
    (h2 : 2 ≤ ids.length)
    (hn : ids.Nodup) (hv : ∀ i ∈ ids, ∃ t ∈ visible x.scopes x.extern, i ∈ t) {n : Nat} {σ σ1 : St W} {v : Val}
    (he : eval K.world K.self false x n e true σ = some (.val v, σ1)) :
    ∃ σ2, Distributed K.world x ids ((K.world.asArray v σ1).getD [v]) σ1 σ2 ∧ Ends K g σ (.ret v σ2) := by
  refine ⟨_, assignAll_distributes K.world x ids hn hv _ σ1, ?_⟩
  refine C31_compiled_code_agrees_partial hC hs (n := n) (r := .val v) ?_
  rw [eval, evalMassign, he]
  match ids, h2 with
  | a :: b :: rest, _ => rfl

namespace Toy
/-- `a, b = 2, 1` -/
def swapProg : Node := .massign [.lvar 10, .lvar 11] (.of [int 2, int 1])
/-- `a, b = [1]` -/
def takeProg : Node := .massign [.lvar 10, .lvar 11] (.of [.array (.of [int 1])])
end Toy

open Toy in
example : Compiled ctx swapProg (compile swapProg) (env (compile swapProg)) ∧ Supported false swapProg true true true ∧
    ∃ σ, result swapProg 50 = some (.ret (.obj 0) σ) ∧ σ.locals 0 0 = Value.integer 2 ∧ σ.locals 0 1 = Value.integer 1 :=
  ⟨compiled (by decide +kernel), by simp [swapProg, int, Nodes.of, Supported, SupMassign, SupAll, Nodes.length],
    _, rfl, rfl, rfl⟩

open Toy in
example : Compiled ctx takeProg (compile takeProg) (env (compile takeProg)) ∧ Supported false takeProg true true true ∧
    ∃ σ, result takeProg 50 = some (.ret (.obj 0) σ) ∧ σ.locals 0 0 = Value.integer 1 ∧ σ.locals 0 1 = Value.nil :=
  ⟨compiled (by decide +kernel), by simp [takeProg, int, Nodes.of, Supported, SupMassign, SupAll, Nodes.length],
    _, rfl, rfl, rfl⟩

namespace Toy
/-- `a, a = 1, 2; [a]` -/
def twiceProg : Node := .seq (.of [.massign [.lvar 10, .lvar 10] (.of [int 1, int 2]), .array (.of [.lvar 10])])
/-- `a, b, $c = 1, 2` -/
def paddedProg : Node := .massign [.lvar 10, .lvar 11, .gvar 12] (.of [int 1, int 2])
end Toy

open Toy in
/-- Targets are assigned from the last to the first (codegen.rs:1330-1332): after `a, a = 1, 2` the variable is 1,
where the last assignment should win. -/
theorem C58_repeated_target_fails : Compiled ctx twiceProg (compile twiceProg) (env (compile twiceProg)) ∧
    ∃ σ, σ.w = ⟨[[Value.integer 1]], []⟩ ∧
      Steps (env (compile twiceProg)) (compile twiceProg).code (.at 0 ⟨[], init⟩) (.done (.ret (.obj 0) σ)) :=
  ⟨compiled (by decide +kernel), returns_steps (n := 60) (by decide +kernel)⟩

open Toy in
/-- The value of `a, b, $c = 1, 2` is `[1, 2, nil]` (codegen.rs:1334-1348), not the array of the values. -/
theorem C58_value_fails : Compiled ctx paddedProg (compile paddedProg) (env (compile paddedProg)) ∧
    ∃ σ, σ.w = ⟨[[Value.integer 1, Value.integer 2, Value.nil]], []⟩ ∧
      Steps (env (compile paddedProg)) (compile paddedProg).code (.at 0 ⟨[], init⟩) (.done (.ret (.obj 0) σ)) :=
  ⟨compiled (by decide +kernel), returns_steps (n := 60) (by decide +kernel)⟩

end Verif.Codegen
