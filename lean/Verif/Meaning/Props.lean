import Verif.Meaning.Sim
import Verif.Pipeline.Final
/-!
# C77: programs over integers compute what they say

From the text of a program to the value that the optimized code returns.  The specification (`Spec`) runs the tree that the
text stands for on mathematical integers and named variables; it shares nothing with the models of the compiler and of the
interpreter.
-/
namespace Verif.Meaning
open Verif.Lexer (Chars BinOp Unicode)
open Verif.Parser (Node Lines Parses)
open Verif.Pipeline (Names lower context Room)
open Verif.ISeq (optimize)
open Verif.Codegen (Id Env World St R Ctx Const CaseMap CaseMap2 gen_iseq Loaded Steps getVar)
open Verif.Value (Val)

variable {W X : Type}

/-- How the interpreter ends when the program comes to this. -/
def ending (zero : X) (σ : St W) : Answer → R W X
  | .returns v => .ret (word v) σ
  | .divisionByZero => .err zero σ

/-- The slot of a variable: slots are given in the order in which variables appear. -/
def slot (vars : List Chars) (y : Chars) : Nat := vars.reverse.idxOf y

theorem idxOf_map {id : Names} : ∀ {l : List Chars} {y : Chars}, (∀ z ∈ l, id z = id y → z = y) →
    (l.map id).idxOf (id y) = l.idxOf y
  | [], _, _ => rfl
  | z :: l, y, h => by
    rw [List.map_cons, List.idxOf_cons, List.idxOf_cons, idxOf_map fun z hz => h z (List.mem_cons_of_mem _ hz)]
    by_cases hz : z = y
    · subst hz; rw [beq_self_eq_true, beq_self_eq_true]
    · rw [beq_eq_false_iff_ne.2 hz, beq_eq_false_iff_ne.2 fun q => hz (h z List.mem_cons_self q)]

theorem getVar_slot {K : World W X} {id : Names} {vars : List Chars} {setter : Id → Id} {y : Chars} (hy : y ∈ vars)
    (hid : ∀ y ∈ vars, ∀ z ∈ vars, id y = id z → y = z) (σ : St W) :
    getVar K (context id vars setter) σ (.lvar (id y)) = σ.locals 0 (slot vars y) := by
  have hm : id y ∈ vars.reverse.map id := List.mem_map_of_mem (by simpa using hy)
  have : (context id vars setter).place (id y) = (0, slot vars y) := by
    simp only [Ctx.place, context, Codegen.visible, if_true, Codegen.position, List.findIdx_cons, hm, decide_true, cond_true]
    rw [slot, ← idxOf_map (id := id) (l := vars.reverse) (y := y)]
    · rfl
    · intro z hz q; exact hid z (by simpa using hz) y hy q
  simp only [getVar, this]

/-- **C77** (part: the programs of `Ints`, without blocks, methods, strings, arrays and floats, with jumps as statements).

Take a program text, and the statements that it stands for.  The parser reads the text; the compiler accepts what the parser
makes of it; the optimizer completes; and whatever the program comes to according to `program`, which knows only
mathematical integers, running the code from the start comes to: it returns that value, or raises the exception for a
division by zero.  Afterwards the variables have the values that they should have, and nothing else has changed.

`Ops`: the interpreter's operators on integers are those of `Verif.Arith`. -/
theorem C77_integer_programs_compute_partial (U : Unicode) (id : Names) (setter : Id → Id) {text : Chars} {l : List Node}
    {vars : List Chars} (ht : Lines false [] text l vars) (hi : IntsSeq vars false l true)
    (hid : ∀ y ∈ vars, ∀ z ∈ vars, id y = id z → y = z) (hv : vars.length < 2 ^ 32) (hn : nodesAll l < 2 ^ 22)
    (consts : List Const) (case1 : List (Option CaseMap)) (case2 : List (Option CaseMap2)) (caches : Nat)
    (hc : consts.length < 2 ^ 31) (h1 : case1.length < 2 ^ 31) (h2 : case2.length < 2 ^ 31) :
    ∃ tree c g fuel code, Parses U text tree vars ∧ lower id tree = some c ∧
      gen_iseq (context id vars setter) c (.start consts case1 case2 caches) = .ok ((), g) ∧
      optimize fuel g.code = some code ∧
      ∀ (K : Env W X) (zero : X), Ops K.world zero → Loaded g K → Room K → ∀ n answer ρ,
        program n l = some (answer, ρ) → ∀ σ : St W, (∀ i, σ.locals 0 i = Value.nil) →
        ∃ σ', Steps K code (.at 0 ⟨[], σ⟩) (.done (ending zero σ' answer)) ∧ σ'.w = σ.w ∧
          ∀ y ∈ vars, σ'.locals 0 (slot vars y) = word (ρ y) := by
  have hV : Vars id vars (context id vars setter) := by
    refine ⟨hid, fun y hy => ⟨_, List.mem_cons_self, ?_⟩⟩
    exact List.mem_map_of_mem (by simpa using hy)
  have hI : Ints vars false (.CompStmt l) true := by rw [Ints]; exact hi
  obtain ⟨c, hl, L⟩ := low hV (.CompStmt l) false true hI
  have hw := L.weight
  rw [nodes] at hw
  obtain ⟨tree, c', g, fuel, code, q1, q2, q3, q4, q5⟩ := Pipeline.C78_text_does_what_it_says_partial (W := W) (X := X) U id
    setter ht hl (L.sup _ _ _ (by simp)) L.plain (L.placed _ (by simp)) L.tame hv (by omega) consts case1 case2 caches
    (by omega) (by omega) (by omega)
  refine ⟨tree, c', g, fuel, code, q1, q2, q3, q4, fun K zero hO hK hR n answer ρ hp σ hσ => ?_⟩
  obtain ⟨c2, hl2, hS⟩ := sim (w := σ.w) (self := K.self) (n := n) hO hV (.CompStmt l) false true hI
  rw [hl] at hl2
  cases hl2
  have hm : Match K.world (context id vars setter) id vars (fun _ => .nil) σ := by
    intro y hy
    rw [getVar_slot hy hid]
    exact hσ _
  have hS := hS _ _ hm rfl
  rw [run] at hS
  have key : ∀ o, runSeq n l (fun _ => .nil) = some (o, ρ) → ∃ r σ',
      Steps K code (.at 0 ⟨[], σ⟩) (.done (Codegen.outcome (context id vars setter) r σ')) ∧ Agree zero true o r ∧
        σ'.w = σ.w ∧ ∀ y ∈ vars, σ'.locals 0 (slot vars y) = word (ρ y) := by
    intro o ho
    obtain ⟨r, σ', e, a, m, w⟩ := hS o ρ ho
    exact ⟨r, σ', q5 K hK hR n σ r σ' e, a, w, fun y hy => by rw [← getVar_slot (K := K.world) hy hid]; exact m y hy⟩
  have hk : (context id vars setter).kind = some .method := rfl
  unfold program at hp
  split at hp <;> cases hp
  · rename_i v ho
    obtain ⟨r, σ', s, a, w, m⟩ := key _ ho
    cases r <;> try exact a.elim
    obtain rfl := a rfl
    exact ⟨σ', s, w, m⟩
  · rename_i v ho
    obtain ⟨r, σ', s, a, w, m⟩ := key _ ho
    cases r <;> try exact a.elim
    obtain rfl := a
    rw [Codegen.outcome, hk, if_neg (by simp)] at s
    exact ⟨σ', s, w, m⟩
  · rename_i ho
    obtain ⟨r, σ', s, a, w, m⟩ := key _ ho
    cases r <;> try exact a.elim
    obtain rfl := a
    exact ⟨σ', s, w, m⟩

end Verif.Meaning
