import Verif.Pipeline.Props
import Verif.Codegen.ShapeProps
/-!
# C76 and C78: from the text of a program to what the optimized code does
-/
namespace Verif.Codegen

theorem flat_nil {l : Nodes} : l.flat = .nil ↔ l = .nil := by
  cases l <;> simp [Nodes.flat]

mutual
theorem front_flat : ∀ (e : Node) (u : Bool), Front e.flat u ↔ Front e u
  | .binop op l r, u => by simp only [Node.flat, Front]; exact front_flat l true
  | .land l r, u => by simp only [Node.flat, Front]; exact front_flat l true
  | .lor l r, u => by simp only [Node.flat, Front]; exact front_flat l true
  | .unop op e, u => by simp only [Node.flat, Front]; exact front_flat e true
  | .array l, u => by simp only [Node.flat, Front]; exact frontFirst_flat l
  | .range a b ex, u => by simp only [Node.flat, Front]
  | .index b i, u => by simp only [Node.flat, Front]; exact front_flat b true
  | .seq .nil, u => by simp only [Node.flat, Nodes.flat]
  | .seq (.cons e .nil), u => by simp only [Node.flat, Front, FrontSeq]; exact front_flat e u
  | .seq (.cons e (.cons m l)), u => by
    rw [Node.flat, Front, Front]
    · exact frontSeq_flat (.cons e (.cons m l)) u
    · intro _ h; cases h
  | .ite c t e, u => by simp only [Node.flat, Front]; exact front_flat c true
  | .while_ c b x, u => by simp only [Node.flat, Front]; exact front_flat c true
  | .brk e, u => by simp only [Node.flat, Front]; exact front_flat e true
  | .nxt e, u => by simp only [Node.flat, Front]; rw [front_flat e true]
  | .ret e, u => by simp only [Node.flat, Front]; exact front_flat e true
  | .assign t e, u => by simp only [Node.flat, Front]; exact front_flat e true
  | .opassign op t e, u => by simp only [Node.flat, Front]
  | .assignIdx b i e, u => by simp only [Node.flat, Front]; exact front_flat b true
  | .attrAssign r m e, u => by simp only [Node.flat, Front]; exact front_flat r true
  | .massign ts l, u => by
    simp only [Node.flat, Front]
    rw [frontFirst_flat l, Ne, Ne, Ne, flat_nil]
  | .send r m l, u => by simp only [Node.flat, Front]; exact front_flat r true
  | .sendB r m l b, u => by simp only [Node.flat, Front]; exact front_flat r true
  | .yield_ l, u => by simp only [Node.flat, Front]; exact frontFirst_flat l
  | .lit l, u => by rw [Node.flat]
  | .self, u => by rw [Node.flat]
  | .lvar id, u => by rw [Node.flat]
  | .ivar id, u => by rw [Node.flat]
  | .gvar id, u => by rw [Node.flat]
  | .ident id, u => by rw [Node.flat]
  | .carray l, u => by rw [Node.flat]
  | .case_ c ws e, u => by rw [Node.flat]
  | .caseN ws e, u => by rw [Node.flat]
  | .begin_ b rs els ens, u => by rw [Node.flat]

theorem frontFirst_flat : ∀ l : Nodes, FrontFirst l.flat ↔ FrontFirst l
  | .nil => by rw [Nodes.flat]
  | .cons e l => by simp only [Nodes.flat, FrontFirst]; exact front_flat e true

theorem frontSeq_flat : ∀ (l : Nodes) (u : Bool), FrontSeq l.flat u ↔ FrontSeq l u
  | .nil, u => by rw [Nodes.flat]
  | .cons e .nil, u => by simp only [Nodes.flat, FrontSeq]; exact front_flat e u
  | .cons e (.cons m l), u => by
    have h := frontSeq_flat (.cons m l) u
    simp only [Nodes.flat] at h
    simp only [Nodes.flat, FrontSeq]
    rw [front_flat e false, h]
end

mutual
theorem tame_flat : ∀ (e : Node), Tame e.flat ↔ Tame e
  | .binop op l r => by simp only [Node.flat, Tame]; rw [tame_flat l, tame_flat r]
  | .land l r => by simp only [Node.flat, Tame]; rw [tame_flat l, tame_flat r]
  | .lor l r => by simp only [Node.flat, Tame]; rw [tame_flat l, tame_flat r]
  | .unop op e => by simp only [Node.flat, Tame]; exact tame_flat e
  | .array l => by simp only [Node.flat, Tame]; exact tameAll_flat l
  | .range a b ex => by simp only [Node.flat, Tame]; rw [tame_flat a, tame_flat b]
  | .index b i => by simp only [Node.flat, Tame]; rw [tame_flat b, tame_flat i]
  | .seq .nil => by simp only [Node.flat, Nodes.flat]
  | .seq (.cons e .nil) => by simp only [Node.flat, Tame, TameAll, and_true]; exact tame_flat e
  | .seq (.cons e (.cons m l)) => by
    rw [Node.flat, Tame, Tame]
    · exact tameAll_flat (.cons e (.cons m l))
    · intro _ h; cases h
  | .ite c t e => by simp only [Node.flat, Tame]; rw [tame_flat c, tame_flat t, tame_flat e]
  | .while_ c b x => by simp only [Node.flat, Tame]; rw [front_flat c, tame_flat c, tame_flat b]
  | .brk e => by simp only [Node.flat, Tame]; exact tame_flat e
  | .nxt e => by simp only [Node.flat, Tame]; exact tame_flat e
  | .ret e => by simp only [Node.flat, Tame]; exact tame_flat e
  | .assign t e => by simp only [Node.flat, Tame]; exact tame_flat e
  | .opassign op t e => by simp only [Node.flat, Tame]; exact tame_flat e
  | .assignIdx b i e => by simp only [Node.flat, Tame]; rw [tame_flat b, tame_flat i, tame_flat e]
  | .attrAssign r m e => by simp only [Node.flat, Tame]; rw [tame_flat r, tame_flat e]
  | .massign ts l => by simp only [Node.flat, Tame]; exact tameAll_flat l
  | .send r m l => by simp only [Node.flat, Tame]; rw [tame_flat r, tameAll_flat l]
  | .sendB r m l b => by simp only [Node.flat, Tame]; rw [tame_flat r, tameAll_flat l]
  | .yield_ l => by simp only [Node.flat, Tame]; exact tameAll_flat l
  | .lit l => by rw [Node.flat]
  | .self => by rw [Node.flat]
  | .lvar id => by rw [Node.flat]
  | .ivar id => by rw [Node.flat]
  | .gvar id => by rw [Node.flat]
  | .ident id => by rw [Node.flat]
  | .carray l => by rw [Node.flat]
  | .case_ c ws e => by rw [Node.flat]
  | .caseN ws e => by rw [Node.flat]
  | .begin_ b rs els ens => by rw [Node.flat]

theorem tameAll_flat : ∀ l : Nodes, TameAll l.flat ↔ TameAll l
  | .nil => by rw [Nodes.flat]
  | .cons e l => by simp only [Nodes.flat, TameAll]; rw [tame_flat e, tameAll_flat l]
end

end Verif.Codegen

namespace Verif.Pipeline
open Verif.Lexer (Chars Unicode)
open Verif.Parser (Lines Parses stripAll)
open Verif.ISeq (optimize)
open Verif.Codegen (Id Ctx G Env Supported Plain Loaded Steps eval outcome Const CaseMap CaseMap2 gen_iseq Tame TameAll Bounded Legal)

variable {W X : Type}

/-- As `tree_does`, for the code that the last pass of the compiler makes. -/
theorem tree_does_final (id : Names) (setter : Id → Id) {l l' : List Parser.Node} {vars : List Chars} {e : Codegen.Node}
    (k1 : stripAll l' = l) (hl : lower id (.CompStmt l) = some e) (hk : Legal (Has vars id) True true e)
    (hs : Supported false e true true true) (hp : Plain (context id vars setter) e true)
    (hj : Placed e) (htame : Tame e) (hv : vars.length < 2 ^ 32) (hw : e.weight + 1 < 2 ^ 27)
    (consts : List Const) (case1 : List (Option CaseMap)) (case2 : List (Option CaseMap2)) (caches : Nat)
    (hc : consts.length + e.weight < 2 ^ 32) (h1 : case1.length + e.weight < 2 ^ 32) (h2 : case2.length + e.weight < 2 ^ 32) :
    ∃ c g fuel code, lower id (.CompStmt l') = some c ∧
      gen_iseq (context id vars setter) c (.start consts case1 case2 caches) = .ok ((), g) ∧
      optimize fuel g.code = some code ∧
      ∀ K : Env W X, Loaded g K → Room K → ∀ n σ r σ',
        eval K.world K.self true (context id vars setter) n e true σ = some (r, σ') →
        Steps K code (.at 0 ⟨[], σ⟩) (.done (outcome (context id vars setter) r σ')) := by
  obtain ⟨c, g, q2, q3, q4⟩ := tree_does (W := W) (X := X) id setter k1 hl hk hs hp hj hv hw
    consts case1 case2 caches hc
  obtain ⟨ns, k3, rfl⟩ := lower_program k1 hl
  rw [k3] at q2
  cases q2
  have hwt : (Codegen.Node.seq ns.flat).weight = (Codegen.Node.seq ns).weight := by
    rw [Codegen.Node.weight, Codegen.Node.weight, Codegen.seqWeight_flat]
  rw [hwt] at hw hc h1 h2
  obtain ⟨z1, z2, z3, z4⟩ := Codegen.C65_size_of_code (context id vars setter) (.seq ns) consts case1 case2 caches g hc q3
  have hb : Bounded g := ⟨by omega, by omega, by omega⟩
  have htm : Tame (.seq ns) := by
    rw [Tame, Codegen.tameAll_flat] at htame
    rw [Tame]
    exact htame
  obtain ⟨fuel, code, ho⟩ := Codegen.C78_optimizer_completes_partial q3 hb htm
  exact ⟨_, g, fuel, code, k3, q3, ho, fun K hK hR n σ r σ' he =>
    (Codegen.C78_optimized_code_ends_alike q3 hb hK ho _ _).2 (q4 K hK hR n σ r σ' he)⟩

/-- **C78** (text to final code; part, as C76, and loops whose condition begins with a `next` whose value is dropped are left
out).  The parser reads the text, the compiler accepts the tree, its last pass completes, and
running the code that results ends as the evaluation of the tree that the text stands for. -/
theorem C78_text_does_what_it_says_partial (U : Unicode) (id : Names) (setter : Id → Id) {text : Chars}
    {l : List Parser.Node} {vars : List Chars} {e : Codegen.Node} (ht : Lines false [] text l vars)
    (hl : lower id (.CompStmt l) = some e) (hs : Supported false e true true true) (hp : Plain (context id vars setter) e true)
    (hj : Placed e) (htame : Tame e) (hv : vars.length < 2 ^ 32) (hw : e.weight + 1 < 2 ^ 27)
    (consts : List Const) (case1 : List (Option CaseMap)) (case2 : List (Option CaseMap2)) (caches : Nat)
    (hc : consts.length + e.weight < 2 ^ 32) (h1 : case1.length + e.weight < 2 ^ 32) (h2 : case2.length + e.weight < 2 ^ 32) :
    ∃ tree c g fuel code, Parses U text tree vars ∧ lower id tree = some c ∧
      gen_iseq (context id vars setter) c (.start consts case1 case2 caches) = .ok ((), g) ∧
      optimize fuel g.code = some code ∧
      ∀ K : Env W X, Loaded g K → Room K → ∀ n σ r σ',
        eval K.world K.self true (context id vars setter) n e true σ = some (r, σ') →
        Steps K code (.at 0 ⟨[], σ⟩) (.done (outcome (context id vars setter) r σ')) := by
  obtain ⟨l', k1, k2⟩ := Parser.C49_statements U ht
  obtain ⟨c, g, fuel, code, h3, h4, h5, h6⟩ := tree_does_final (W := W) (X := X) id setter k1 hl (lines_legal ht hl) hs hp hj htame hv hw
    consts case1 case2 caches hc h1 h2
  exact ⟨_, c, g, fuel, code, k2, h3, h4, h5, h6⟩

/-- The hypotheses are met by the program in the demonstration of C76. -/
example : Tame Demo.tree ∧ Demo.tree.weight + 1 < 2 ^ 27 :=
  ⟨by simp [Demo.tree, Codegen.Nodes.of, Tame, TameAll, Codegen.Front], by decide +kernel⟩

end Verif.Pipeline
