import Verif.Pipeline.Known
import Verif.Pipeline.Lower
import Verif.Codegen.TotalProps
import Verif.Codegen.Props
import Verif.Parser.Props
/-!
# C76: from the text of a program to what it does

The parser (C49), the compiler (C65) and the interpreter (C31) put together.
-/
namespace Verif.Pipeline
open Verif.Lexer (Chars Unicode)
open Verif.Parser (Lines Parses strip stripAll)
open Verif.Codegen (Id Ctx G Env St Res Supported SupSeq Plain PlainSeq Legal LegalAll LegalBody Loaded Compiled Sizes CtxOK Steps
  eval evalSeq outcome Const CaseMap CaseMap2 gen_iseq legalAll_parts legalAll_flat seqWeight_flat supSeq_flat plainSeq_flat evalSeq_flat)

variable {W X : Type}

/-- `break` and `next` stand in loops. -/
def Placed (e : Codegen.Node) : Prop := Legal (fun _ => True) False false e

/-- Tables of the interpreter whose positions fit the operands of instructions. -/
structure Room (K : Env W X) : Prop where
  consts : K.consts.length ≤ 2 ^ 32
  case1 : K.case1.length < 2 ^ 32
  case2 : K.case2.length < 2 ^ 32

theorem context_knows (id : Names) (vars : List Chars) (setter : Id → Id) :
    (context id vars setter).knows = Has vars id := by
  funext i
  simp [Ctx.knows, context, Codegen.visible, Has]

/-- The compiler's variable table is the parser's list of variables, in the order of their first assignment. -/
theorem lower_program {id : Names} {l l' : List Parser.Node} {e : Codegen.Node} (h : stripAll l' = l)
    (hl : lower id (.CompStmt l) = some e) :
    ∃ ns : Codegen.Nodes, lower id (.CompStmt l') = some (.seq ns) ∧ e = .seq ns.flat := by
  subst h
  rw [lower, lowerAll_strip] at hl
  obtain ⟨ns, h1, rfl⟩ := map_some hl
  obtain ⟨ns, h2, rfl⟩ := map_some h1
  exact ⟨ns, by rw [lower, h2]; rfl, rfl⟩

theorem lines_legal {id : Names} {text : Chars} {Γ : List Chars} {l : List Parser.Node} {vars : List Chars} {e : Codegen.Node}
    (ht : Lines false Γ text l vars) (hl : lower id (.CompStmt l) = some e) : Legal (Has vars id) True true e := by
  rw [lower] at hl
  obtain ⟨_, h4, h5⟩ := map_some hl
  subst h5
  rw [Legal]
  exact (lines_fits ht).legal vars (fun _ h => h) id _ h4

/-- The trees that the parser makes of a text with the tree `e` compile, and the code does what `e` does. -/
theorem tree_does (id : Names) (setter : Id → Id) {l l' : List Parser.Node} {vars : List Chars} {e : Codegen.Node}
    (h1 : stripAll l' = l) (hl : lower id (.CompStmt l) = some e) (hk : Legal (Has vars id) True true e)
    (hs : Supported false e true true true) (hp : Plain (context id vars setter) e true)
    (hj : Placed e) (hv : vars.length < 2 ^ 32) (hw : e.weight + 1 < 2 ^ 27)
    (consts : List Const) (case1 : List (Option CaseMap)) (case2 : List (Option CaseMap2)) (caches : Nat)
    (hc : consts.length + e.weight < 2 ^ 32) :
    ∃ c g, lower id (.CompStmt l') = some c ∧
      gen_iseq (context id vars setter) c (.start consts case1 case2 caches) = .ok ((), g) ∧
      ∀ K : Env W X, Loaded g K → Room K → ∀ n σ r σ',
        eval K.world K.self true (context id vars setter) n e true σ = some (r, σ') →
        Steps K g.code (.at 0 ⟨[], σ⟩) (.done (outcome (context id vars setter) r σ')) := by
  obtain ⟨ns, h3, rfl⟩ := lower_program h1 hl
  have hleg : LegalBody (context id vars setter) (.seq ns) := by
    rw [LegalBody, context_knows, Legal]
    have hkind : ((context id vars setter).kind = some .block) = False := by simp [Ctx.kind, context]
    rw [hkind]
    refine legalAll_parts ns ?_ ?_
    · rw [← legalAll_flat]
      rw [Legal] at hk
      exact hk
    · rw [← legalAll_flat]
      rw [Placed, Legal] at hj
      exact hj
  have hwt : (Codegen.Node.seq ns.flat).weight = (Codegen.Node.seq ns).weight := by
    rw [Codegen.Node.weight, Codegen.Node.weight, seqWeight_flat]
  rw [hwt] at hw hc
  obtain ⟨g, hg⟩ := (Codegen.C65_accepts_exactly_the_legal (context id vars setter) (.seq ns) consts case1 case2 caches hc).2 hleg
  have hlen := (Codegen.C65_size_of_code (context id vars setter) (.seq ns) consts case1 case2 caches g hc hg).1
  refine ⟨_, g, h3, hg, fun K hK hR n σ r σ' he => ?_⟩
  refine Codegen.C31_compiled_code_does_what_ruby_does_partial (e := .seq ns) ⟨⟨?_, ?_⟩, ⟨_, _, _, _, hg⟩, hK,
    ⟨by omega, hR.consts, hR.case1, hR.case2⟩⟩ ?_ ?_ ?_ (n := n)
  · simp [context]
  · simpa [context, Codegen.visible] using hv
  · rw [Supported, supSeq_flat] at hs
    rw [Supported]
    exact hs
  · rw [Plain, plainSeq_flat] at hp
    rw [Plain]
    exact hp
  · rw [eval, evalSeq_flat] at he
    rw [eval]
    exact he

/-- **C76** (part: the texts are those of the grammar of C49 whose trees the model of the compiler covers, and `Supported`
and `Plain` leave out the programs for which C31 is false).

Take any text of the grammar, and the tree that it stands for.  The parser reads the text; the compiler accepts what the
parser makes of it, whatever the tables already contain; and running the code from the start ends as the evaluation
of the tree ends: with the same value or exception, and with the same variables, objects and output. -/
theorem C76_text_does_what_it_says_partial (U : Unicode) (id : Names) (setter : Id → Id) {text : Chars}
    {l : List Parser.Node} {vars : List Chars} {e : Codegen.Node} (ht : Lines false [] text l vars)
    (hl : lower id (.CompStmt l) = some e) (hs : Supported false e true true true) (hp : Plain (context id vars setter) e true)
    (hj : Placed e) (hv : vars.length < 2 ^ 32) (hw : e.weight + 1 < 2 ^ 27)
    (consts : List Const) (case1 : List (Option CaseMap)) (case2 : List (Option CaseMap2)) (caches : Nat)
    (hc : consts.length + e.weight < 2 ^ 32) :
    ∃ tree c g, Parses U text tree vars ∧ lower id tree = some c ∧
      gen_iseq (context id vars setter) c (.start consts case1 case2 caches) = .ok ((), g) ∧
      ∀ K : Env W X, Loaded g K → Room K → ∀ n σ r σ',
        eval K.world K.self true (context id vars setter) n e true σ = some (r, σ') →
        Steps K g.code (.at 0 ⟨[], σ⟩) (.done (outcome (context id vars setter) r σ')) := by
  obtain ⟨l', h1, h2⟩ := Parser.C49_statements U ht
  obtain ⟨c, g, h3, h4, h5⟩ := tree_does (W := W) (X := X) id setter h1 hl (lines_legal ht hl) hs hp hj hv hw consts case1 case2 caches hc
  exact ⟨_, c, g, h2, h3, h4, h5⟩

/-- … and it ends in no other way. -/
theorem C76_no_other_outcome {K : Env W X} {code : ISeq.Code} {σ : St W} {r r₂ : Codegen.R W X}
    (h : Steps K code (.at 0 ⟨[], σ⟩) (.done r)) (h₂ : Steps K code (.at 0 ⟨[], σ⟩) (.done r₂)) : r = r₂ := h.done_unique h₂

/-! ### An example -/
namespace Demo
open Verif.Parser
open Verif.Codegen (Toy)

/-- Some numbering of names. -/
def name : Names := fun s => s.foldl (fun a c => 256 * a + c.toNat) 0

def text : Chars := " x = 3 ; y = 0 ; while x > 0 ; y = y + x ; x = x - 1 ; end ; [ y , x ]".toList

abbrev x : Chars := ['x']
abbrev y : Chars := ['y']

def trees : List Parser.Node :=
  [.MulAssign [.Ident x] [.Integer 3], .MulAssign [.Ident y] [.Integer 0],
   .While (.BinOp .Gt (.LocalVar x) (.Integer 0)) (.CompStmt [
     .MulAssign [.LocalVar y] [.BinOp .Add (.LocalVar y) (.LocalVar x)],
     .MulAssign [.LocalVar x] [.BinOp .Sub (.LocalVar x) (.Integer 1)]]) true,
   .Array [.LocalVar y, .LocalVar x] false]

theorem Lines.cast {m Γ s s' l l' Γ' Γ₂} (h : Lines m Γ s l Γ') (h1 : s = s') (h2 : l = l') (h3 : Γ' = Γ₂) :
    Lines m Γ s' l' Γ₂ := by subst h1 h2 h3; exact h

theorem reads : Lines false [] text trees [y, x] := by
  have i (Γ) (n : Int) (h : -Lexer.i64Max ≤ n) (h' : n ≤ Lexer.i64Max) : Tree Γ (.Integer n) Γ := .int h h'
  have hx : Tree [y, x] (.LocalVar x) [y, x] := .lvar var_x (by decide)
  have hy : Tree [y, x] (.LocalVar y) [y, x] := .lvar var_y (by decide)
  have b := Lines.more (m := false) (.statement (.expr (.arg (.tree (.assign .lvar hy (.bin (op := .Add) hy hx))))))
    (.one (.statement (.expr (.arg (.tree (.assign .lvar hx (.bin (op := .Sub) hx (i _ 1 (by decide) (by decide)))))))))
  refine Lines.cast (.more (.statement (.expr (.arg (.tree (.assignNew var_x (by decide) (i _ 3 (by decide) (by decide)))))))
    (.more (.statement (.expr (.arg (.tree (.assignNew var_y (by decide) (i _ 0 (by decide) (by decide)))))))
    (.more (.statement (.expr (.arg (.while (.arg (.tree (.bin (op := .Gt) hx (i _ 0 (by decide) (by decide))))) (.some b)))))
    (.one (.statement (.expr (.arg (.tree (.array (.cons hy (.cons hx .nil)) rfl))))))))) (by decide +kernel) rfl rfl

/-- The tree that the text stands for. -/
def tree : Codegen.Node := .seq (.of [.assign (.lvar 120) (.lit (.int 3)), .assign (.lvar 121) (.lit (.int 0)),
  .while_ (.binop (.c .gt) (.lvar 120) (.lit (.int 0))) (.seq (.of [
    .assign (.lvar 121) (.binop .add (.lvar 121) (.lvar 120)),
    .assign (.lvar 120) (.binop .sub (.lvar 120) (.lit (.int 1)))])) true,
  .array (.of [.lvar 121, .lvar 120])])

theorem lowers : lower name (.CompStmt trees) = some tree := by rfl

/-- The value of the tree and the arrays made, if its evaluation ends within `n` rounds of each loop. -/
def value (n : Nat) : Option (Value.Val × Toy) :=
  match eval Codegen.Toy.world Value.nil true (context name [y, x] (fun m => m + 1000)) n tree true Codegen.Toy.init with
  | some (.val v, σ) => some (v, σ.w)
  | _ => none

theorem eval_binop {K : Codegen.World W X} {self rb x n op l r u} : eval K self rb x n (.binop op l r) u = fun σ =>
    Codegen.onVal (eval K self rb x n l true σ) fun a σ => Codegen.onVal (eval K self rb x n r true σ) fun b σ =>
      Codegen.evalBin K op a b σ := by
  funext σ; rw [eval]

theorem eval_seq {K : Codegen.World W X} {self rb x n l u} :
    eval K self rb x n (.seq l) u = fun σ => evalSeq K self rb x n l u σ := by
  funext σ; rw [eval]

theorem evaluates : value 10 = some (.obj 0, ⟨[[Value.integer 6, Value.integer 0]], []⟩) := by
  simp only [value, tree, Codegen.Nodes.of, eval, eval_binop, eval_seq, evalSeq, Codegen.evalAll]
  decide +kernel

/-- The program is read, compiled and run; it returns the array `[6, 0]`. -/
theorem runs (U : Unicode) : ∃ tree c g, Parses U text tree [y, x] ∧ lower name tree = some c ∧
    gen_iseq (context name [y, x] (fun m => m + 1000)) c (.start [] [] [] 0) = .ok ((), g) ∧
    ∀ K : Env Toy Value.Val, K.world = Codegen.Toy.world → K.self = Value.nil → Loaded g K → Room K → ∃ σ,
      σ.w = ⟨[[Value.integer 6, Value.integer 0]], []⟩ ∧
      Steps K g.code (.at 0 ⟨[], Codegen.Toy.init⟩) (.done (.ret (.obj 0) σ)) := by
  obtain ⟨t, c, g, h1, h2, h3, h4⟩ := C76_text_does_what_it_says_partial (W := Toy) (X := Value.Val) U name (fun m => m + 1000)
    reads lowers
    (by simp [tree, Codegen.Nodes.of, Supported, SupSeq, Codegen.SupAll, Codegen.Nodes.length, Codegen.Lit.silent])
    (by simp [tree, Codegen.Nodes.of, Codegen.Plain, PlainSeq, Codegen.PlainAll])
    (by simp [tree, Codegen.Nodes.of, Placed, Legal, LegalAll, Codegen.knownVar])
    (by decide) (by decide +kernel) [] [] [] 0 (by decide +kernel)
  refine ⟨t, c, g, h1, h2, h3, fun K hw hs hK hR => ?_⟩
  have hv := evaluates
  unfold value at hv
  rw [← hw, ← hs] at hv
  split at hv
  · rename_i v σ he
    obtain ⟨rfl, h5⟩ := Prod.mk.inj (Option.some.inj hv)
    exact ⟨σ, h5, h4 K hK hR _ _ _ _ he⟩
  · cases hv

end Demo

end Verif.Pipeline
