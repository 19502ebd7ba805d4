import Verif.Meaning.NamedProps
/-!
# Assignment with an operator evaluates its target twice
-/
namespace Verif.Meaning.Named.OpAssign
open Verif.Lexer (Chars Unicode)
open Verif.Parser
open Verif.Pipeline (lower context Room Placed)
open Verif.ISeq (optimize)
open Verif.Codegen (Env gen_iseq Loaded Steps Toy Supported Legal Tame eval)
open Verif.Value (Val)

def text : Chars := " p( 7 )[ 0 ] += 1".toList

def trees : List Node := [.AssignOp .Add (.Index (.Send .SelfValue ['p'] [.Integer 7] false) [.Integer 0]) (.Integer 1)]

theorem reads : Lines false [] text trees [] := by
  have i (Γ) (n : Int) (h : -Lexer.i64Max ≤ n) (h' : n ≤ Lexer.i64Max) : Tree Γ (.Integer n) Γ := .int h h'
  have var_p : VarName ['p'] := ⟨.ident (.plain (c := 'p') (t := []) (.inl (by decide)) (by simp)) (by intro r; cases r <;> decide)
    (by rintro c t h; cases h; decide), by decide⟩
  exact Pipeline.Demo.Lines.cast (.one (.statement (.expr (.arg (.tree (.assignOp (op := .Add) (by decide) .index
    (.index (.call (.inl var_p) (.cons (i _ 7 (by decide) (by decide)) .nil)) (.cons (i _ 0 (by decide) (by decide)) .nil))
    (i _ 1 (by decide) (by decide)))))))) (by decide +kernel) rfl rfl

def target : Codegen.Node := .send .self Toy.pId (.of [.lit (.int 7)])

def tree : Codegen.Node :=
  .seq (.of [.assignIdx target (.lit (.int 0)) (.binop .add (.index target (.lit (.int 0))) (.lit (.int 1)))])

theorem lowers : lower Demo.name (.CompStmt trees) = some tree := by rfl

/-- What the tree prints. -/
def printed : Option (List Val) :=
  match eval Toy.world Value.nil true (context Demo.name [] (fun _ => 0)) 1 tree true Toy.init with
  | some (.val _, σ) => some σ.w.out
  | _ => none

theorem prints : printed = some [Value.integer 7, Value.integer 7] := by
  simp only [printed, tree, target, Codegen.Nodes.of, eval, Pipeline.Demo.eval_binop, Codegen.evalSeq, Codegen.evalAll]
  decide +kernel

/-- **C76** is false of assignments with an operator to an element: in Ruby, `p(7)[0] += 1` calls `p` once; here the text is
read, compiled and optimized to code that calls it twice (the tree of the target is copied; `codegen.rs:894-899`). -/
theorem C76_op_assign_once_fails (U : Unicode) : ∃ tree c g fuel code, Parses U text tree [] ∧ lower Demo.name tree = some c ∧
    gen_iseq (context Demo.name [] (fun _ => 0)) c (.start [] [] [] 0) = .ok ((), g) ∧ optimize fuel g.code = some code ∧
    ∀ K : Env Toy Val, K.world = Toy.world → K.self = Value.nil → Loaded g K → Room K → ∃ v σ,
      Steps K code (.at 0 ⟨[], Toy.init⟩) (.done (.ret v σ)) ∧ σ.w.out = [Value.integer 7, Value.integer 7] := by
  obtain ⟨t, c, g, fuel, code, h1, h2, h3, h4, h5⟩ := Pipeline.C78_text_does_what_it_says_partial (W := Toy) (X := Val) U Demo.name
    (fun _ => 0) reads lowers
    (by simp [tree, target, Codegen.Nodes.of, Supported, Codegen.SupSeq, Codegen.SupAll, Codegen.Nodes.length, Codegen.Lit.silent])
    (by simp [tree, target, Codegen.Nodes.of, Codegen.Plain, Codegen.PlainSeq, Codegen.PlainAll])
    (by simp [tree, target, Codegen.Nodes.of, Placed, Legal, Codegen.LegalAll])
    (by simp [tree, target, Codegen.Nodes.of, Tame, Codegen.TameAll])
    (by decide) (by decide +kernel) [] [] [] 0 (by decide +kernel) (by decide +kernel) (by decide +kernel)
  refine ⟨t, c, g, fuel, code, h1, h2, h3, h4, fun K hw hs hK hR => ?_⟩
  have hp := prints
  unfold printed at hp
  rw [← hw, ← hs] at hp
  split at hp
  · rename_i v σ he
    exact ⟨v, σ, h5 K hK hR _ _ _ _ he, Option.some.inj hp⟩
  · cases hp

end Verif.Meaning.Named.OpAssign
