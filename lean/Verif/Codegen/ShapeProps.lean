import Verif.Codegen.Formed
/-!
# C78: the code that runs is what the optimizer makes of the compiler's code

`gen_iseq` ends with a call of `optimize` (`codegen.rs:222`).  C31 speaks of the code before this pass, C30 of the pass, for
well-formed code.  Here the two are put together: what the compiler makes is well-formed.
-/
namespace Verif.Codegen
open Verif.ISeq Op
open Verif.Value (Val)

variable {W X : Type}

/-- **C78** (well-formed).  Whatever the compiler makes of a body: instructions fill the code exactly, and jumps, case labels
and rescue entries lead to instructions. -/
theorem C78_compiled_code_is_wellformed {x : Ctx} {e : Node} {consts : List Const} {case1 : List (Option CaseMap)}
    {case2 : List (Option CaseMap2)} {caches : Nat} {g : G}
    (h : gen_iseq x e (.start consts case1 case2 caches) = .ok ((), g)) (hb : Bounded g) {K : Env W X} (hl : Loaded g K) :
    WellFormed (machine K) g.code := by
  obtain ⟨_, -, hs, -, -⟩ := iseq_sound (F := False) (fun f => f.elim) h
  exact hs.formed hb hl

/-- **C78** (outcome).  Run a body from any state: the optimized code ends with an outcome exactly if the code before the
pass does. -/
theorem C78_optimized_code_ends_alike {x : Ctx} {e : Node} {consts : List Const} {case1 : List (Option CaseMap)}
    {case2 : List (Option CaseMap2)} {caches : Nat} {g : G}
    (h : gen_iseq x e (.start consts case1 case2 caches) = .ok ((), g)) (hb : Bounded g) {K : Env W X} (hl : Loaded g K)
    {fuel : Nat} {code : Code} (ho : optimize fuel g.code = some code) (s : S W) (r : R W X) :
    Steps K code (.at 0 s) (.done r) ↔ Steps K g.code (.at 0 s) (.done r) := by
  have w := C78_compiled_code_is_wellformed h hb hl
  have same := C30_optimize_same_histories _ _ _ w fuel ho s
  constructor
  · intro hs
    obtain ⟨tr, ht⟩ := hs.shows
    exact Shows.steps ((same _).1 ht) (by simp)
  · intro hs
    obtain ⟨tr, ht⟩ := hs.shows
    exact Shows.steps ((same _).2 ht) (by simp)

/-- **C78** (the pass completes; part: bodies where the condition of a loop begins with a `next` whose value is dropped are
left out, and for them it is false).  The compiler, with this pass, is done after finitely many steps, and does not panic. -/
theorem C78_optimizer_completes_partial {x : Ctx} {e : Node} {consts : List Const} {case1 : List (Option CaseMap)}
    {case2 : List (Option CaseMap2)} {caches : Nat} {g : G}
    (h : gen_iseq x e (.start consts case1 case2 caches) = .ok ((), g)) (hb : Bounded g) (ht : Tame e) :
    ∃ fuel code, optimize fuel g.code = some code := by
  obtain ⟨g1, h1, h2, hc, hs⟩ := iseq_sound (F := True) (fun _ => ht) h
  have w := h2.formed (K := ⟨Toy.world, Value.nil, g.ex, g.consts, g.case1, g.case2⟩) hb
    ⟨rfl, List.prefix_refl _, fun _ _ h => h, fun _ _ h => h⟩
  exact C30_optimize_completes _ _ w (h1.acyclic hc (hs.bounded (by rw [hc]; simp) hb) h2)

/-- **C78** (source to final code; part, as C31).  Compile a supported body, optimize the code, and run it: it ends as the
evaluation of the source ends in Ruby. -/
theorem C78_final_code_does_what_ruby_does_partial {x : Ctx} {e : Node} {g : G} {K : Env W X}
    (hC : Compiled x e g K) (hs : Supported false e true true true) (hp : Plain x e true) (ht : Tame e) (hb : Bounded g) :
    ∃ fuel code, optimize fuel g.code = some code ∧
      ∀ (n : Nat) (σ σ' : St W) (r : Res X), eval K.world K.self true x n e true σ = some (r, σ') →
        Steps K code (.at 0 ⟨[], σ⟩) (.done (outcome x r σ')) := by
  obtain ⟨consts, case1, case2, caches, hg⟩ := hC.ok
  obtain ⟨fuel, code, ho⟩ := C78_optimizer_completes_partial hg hb ht
  exact ⟨fuel, code, ho, fun n σ σ' r he => (C78_optimized_code_ends_alike hg hb hC.loaded ho _ _).2
    (C31_compiled_code_does_what_ruby_does_partial hC hs hp he)⟩

/-! ### Where the pass never completes -/

theorem back_to_start : addDisp 5 (dispTo 5 0) = 0 := addDisp_dispTo 5 0 (by omega) (by omega) (by omega)

theorem chase_self {c : Code} (h0 : c[0]? = some JMP) (h1 : readAt32 c 1 = some (dispTo 5 0)) (nc : Bool) :
    ∀ fuel, chase fuel c 0 nc = none
  | 0 => rfl
  | fuel + 1 => by
    rw [chase, h0]
    dsimp only
    rw [if_pos (by decide), show (0 : Nat) + 1 = 1 from rfl, h1, show inst_size JMP = some 5 by decide]
    dsimp only
    rw [show (0 : Nat) + 5 = 5 from rfl, back_to_start]
    exact chase_self h0 h1 nc fuel

theorem optimize_self {c : Code} (h0 : c[0]? = some JMP) (h1 : readAt32 c 1 = some (dispTo 5 0)) (fuel : Nat) :
    optimize fuel c = none := by
  have hn : optStep fuel c 0 JMP = none := by
    unfold optStep
    rw [if_pos (by decide), show inst_size JMP = some 5 by decide]
    dsimp only
    rw [show (0 : Nat) + 5 - 4 = 1 from rfl, h1]
    dsimp only
    rw [show (0 : Nat) + 5 = 5 from rfl, back_to_start, chase_self h0 h1]
  obtain ⟨n, hl⟩ : ∃ n, c.length = n + 1 := by
    obtain ⟨h, -⟩ := List.getElem?_eq_some_iff.1 h0
    exact ⟨c.length - 1, by omega⟩
  unfold optimize
  rw [hl, optLoop, h0]
  dsimp only
  rw [hn]

namespace Toy
/-- `while (next; true); end` -/
def spin : Node := .while_ (.seq (.of [.nxt (.lit .nil), .lit (.bool true)])) (.seq .nil) true
end Toy

open Toy in
/-- **C78** is false of `while (next; true); end`: the code begins with a jump to itself, and no number of steps is enough for
the pass that follows the jumps; the process hangs when this text is compiled, even if it would never run. -/
theorem C78_optimizer_completes_fails : gen_iseq ctx spin (.start [] [] [] 0) = .ok ((), compile spin) ∧
    Bounded (compile spin) ∧ Supported false spin true true true ∧ ∀ fuel, optimize fuel (compile spin).code = none := by
  exact ⟨compiles_ok (by decide +kernel), ⟨by decide +kernel, by decide +kernel, by decide +kernel⟩,
    by simp [spin, Nodes.of, Supported, SupSeq, Lit.silent, Node.quiet], optimize_self (by decide +kernel) (by decide +kernel)⟩

/-! ### Examples -/

open Toy in
/-- The hypotheses are met by a program with a loop … -/
example : Compiled ctx sum (compile sum) (env (compile sum)) ∧ Tame sum ∧ Bounded (compile sum) :=
  ⟨compiled (by decide +kernel), by simp [sum, int, Nodes.of, Tame, TameAll, Front],
    ⟨by decide +kernel, by decide +kernel, by decide +kernel⟩⟩

open Toy in
/-- … also if the loop is left by `break`, and `next` stands in its condition. -/
example : Tame (.while_ (.land (.lvar 10) (.nxt (.lit .nil))) (.brk (.lit .nil)) true) ∧
    Tame (.while_ (.nxt (.lit .nil)) (.brk (.lit .nil)) true) ∧ ¬ Tame spin := by
  simp [Tame, Front, spin, TameAll, FrontSeq, Nodes.of]

end Verif.Codegen
