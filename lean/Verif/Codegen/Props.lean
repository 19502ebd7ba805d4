import Verif.Codegen.Correct
import Verif.Codegen.Plain
import Verif.Codegen.Toy
import Verif.Value.Props
/-!
# Compiled code computes the meaning of the source

C31, C32, C33, C42, C43, C58 on the model of the compiler (`Model.lean`) and interpreter (`VM.lean`).
The specification is the evaluator in `Sem.lean`.
-/
namespace Verif.Codegen
open Verif.ISeq Op
open Verif.Value (Val)

variable {W X : Type}

/-- How a body ends, given how its evaluation ends: `break` and `return` in a block leave through the
caller, `next` is a `return` of the block. -/
def outcome (x : Ctx) : Res X → St W → R W X
  | .val v, σ => .ret v σ
  | .raise e, σ => .err e σ
  | .brk v, σ => .brk v σ
  | .nxt v, σ => .ret v σ
  | .ret v _, σ => if x.kind = some .block then .mret v σ else .ret v σ

/-- The tables of a run contain what the compiler put into them; the exception table belongs to
the body alone. -/
structure Loaded (g : G) (K : Env W X) : Prop where
  ex : K.ex = g.ex
  consts : g.consts <+: K.consts
  case1 : ∀ (i : Nat) m, g.case1[i]? = some (some m) → K.case1[i]? = some (some m)
  case2 : ∀ (i : Nat) m, g.case2[i]? = some (some m) → K.case2[i]? = some (some m)

/-- The code in `g` is what the compiler makes of the body `e`, it is loaded into the tables of `K`, and
no 32-bit operand overflows. -/
structure Compiled (x : Ctx) (e : Node) (g : G) (K : Env W X) : Prop where
  ctx : CtxOK x
  ok : ∃ consts case1 case2 caches, gen_iseq x e (.start consts case1 case2 caches) = .ok ((), g)
  loaded : Loaded g K
  sizes : Sizes g.code K

/-- **C31** (part: `Supported` excludes programs for which it is false).
Compile any supported body and run the code from the start, with an empty operand stack, in any world.  If the evaluation of the source ends with `r` in state `σ'`, then the code ends in
the same way, with the same value or exception, in the same state — that is, with the same local
variables, globals, heap and output. -/
theorem C31_compiled_code_agrees_partial {x : Ctx} {e : Node} {g : G} {K : Env W X} (hC : Compiled x e g K)
    (hs : Supported false e true true true) {n : Nat} {σ σ' : St W} {r : Res X}
    (he : eval K.world K.self false x n e true σ = some (r, σ')) :
    Steps K g.code (.at 0 ⟨[], σ⟩) (.done (outcome x r σ')) := by
  obtain ⟨hx, ⟨consts, case1, case2, caches, hc⟩, hl, hz⟩ := hC
  obtain ⟨_, g1, h1, h2⟩ := bindM.1 hc
  have s1 := ((good (W := W) (X := X) hx e).1 true) _ _ _ h1 []
  have s2 := emitM_step (W := W) (X := X) [] h2
  have hi : Inv (.start consts case1 case2 caches) [] := ⟨by simp [pend, G.start], by simp [pend, G.start]⟩
  have hi1 := s1.stp.inv hi
  obtain ⟨a2, f2, F2⟩ := s2.stp.back hi1 g.code K ⟨Nat.le_refl _, fun _ _ _ => rfl⟩
    ⟨by rw [hl.ex]; exact List.prefix_refl _, hl.consts, hl.case1, hl.case2⟩
  obtain ⟨-, -, F1⟩ := s1.stp.back hi g.code K a2 f2
  have hlen := s2.ext.len
  have l2 := emitM_len h2
  have hl1 := s1.ext.loops
  have hj1 := s1.ext.jumps
  have htop : loopTop g1 = true := s1.ext.toGrow.loopTop
  have hS : Site' g.code K ⟨0, 0, 0, 0⟩ (.start consts case1 case2 caches) g1 := by
    refine ⟨hz, hlen, fun en hen => by simp [G.start] at hen, ?_⟩
    have he : escOf g1 = [] := by
      unfold escOf
      rw [show (G.start consts case1 case2 caches).loops = [⟨true, []⟩] from rfl] at hl1
      generalize g1.loops = b at hl1
      cases hl1 with
      | cons h =>
        obtain ⟨-, E, h1, -, h2⟩ := h
        rw [h2 rfl] at h1
        exact h1
    have hj : g1.jumps = [] := by
      rw [show (G.start consts case1 case2 caches).jumps = [] from rfl] at hj1
      generalize g1.jumps = b at hj1
      cases hj1
      rfl
    exact ⟨by simp [he], by simp [he], by simp [retsOf, hj], by simp [mretsOf, hj], Nat.zero_le _, Nat.zero_le _,
      Nat.zero_le _, Nat.zero_le _⟩
  have R := F1 _ hS n true true [] [] σ r σ' hs (fun _ => rfl) (fun _ => rfl) he
  rcases R with ⟨v, rfl, hst⟩ | hL
  · exact hst.trans (run_term F2 rfl _)
  · cases r with
    | val v => exact hL.elim
    | raise e =>
      obtain ⟨pe, p1, p2, p3, p4⟩ := hL
      have hno : K.ex.find? (·.include pe) = none := by
        rw [List.find?_eq_none, hl.ex, emitM_ex h2]
        intro en hen
        rw [p3 en hen]; simp
      have : failC K pe e σ' = .done (.err e σ') := by
        unfold failC fail
        rw [hno]; rfl
      rwa [this] at p4
    | brk v => exact hL
    | nxt v => exact hL
    | ret v cr =>
      have : ensured (.start consts case1 case2 caches) = false := rfl
      rw [Leaves, if_neg (by simp [this])] at hL
      exact hL

/-- **C31**, against Ruby: where the implementation has no deliberate or accidental difference
(`Plain`), the code does what Ruby does. -/
theorem C31_compiled_code_does_what_ruby_does_partial {x : Ctx} {e : Node} {g : G} {K : Env W X}
    (hC : Compiled x e g K) (hs : Supported false e true true true) (hp : Plain x e true) {n : Nat} {σ σ' : St W}
    {r : Res X} (he : eval K.world K.self true x n e true σ = some (r, σ')) :
    Steps K g.code (.at 0 ⟨[], σ⟩) (.done (outcome x r σ')) :=
  C31_compiled_code_agrees_partial hC hs ((agree K.world K.self x n e true σ hp).symm.trans he)

/-- There is no other way for the code to end. -/
theorem C31_no_other_outcome_partial {x : Ctx} {e : Node} {g : G} {K : Env W X}
    (hC : Compiled x e g K) (hs : Supported false e true true true) (hp : Plain x e true) {n : Nat} {σ σ' : St W}
    {r : Res X} (he : eval K.world K.self true x n e true σ = some (r, σ')) {o : R W X}
    (ho : Steps K g.code (.at 0 ⟨[], σ⟩) (.done o)) : o = outcome x r σ' :=
  ho.done_unique (C31_compiled_code_does_what_ruby_does_partial hC hs hp he)

/-! ### Examples -/

namespace Toy

theorem ctxOK : CtxOK ctx := ⟨by decide, by simp [ctx, visible]⟩

theorem compiled {e : Node} (h : (compiles e && (decide ((compile e).code.length < 2 ^ 31) &&
    (decide ((compile e).consts.length ≤ 2 ^ 32) && (decide ((compile e).case1.length < 2 ^ 32) &&
    decide ((compile e).case2.length < 2 ^ 32))))) = true) :
    Compiled ctx e (compile e) (env (compile e)) := by
  simp only [Bool.and_eq_true, decide_eq_true_eq] at h
  exact ⟨ctxOK, ⟨_, _, _, _, compiles_ok h.1⟩, ⟨rfl, List.prefix_refl _, fun _ _ h => h, fun _ _ h => h⟩,
    ⟨h.2.1, h.2.2.1, h.2.2.2.1, h.2.2.2.2⟩⟩

/-- `a = 3; b = 0; while a > 0; b = b + a; a = a - 1; end; [b, a]` -/
def sum : Node := .seq (.of [.assign (.lvar 10) (int 3), .assign (.lvar 11) (int 0),
  .while_ (.binop (.c .gt) (.lvar 10) (int 0)) (.seq (.of [
    .assign (.lvar 11) (.binop .add (.lvar 11) (.lvar 10)),
    .assign (.lvar 10) (.binop .sub (.lvar 10) (int 1))])) true,
  .array (.of [.lvar 11, .lvar 10])])

end Toy

open Toy in
/-- The hypotheses of the theorems are met by a program with a loop, … -/
example : Compiled ctx sum (compile sum) (env (compile sum)) ∧ Supported false sum true true true ∧
    Plain ctx sum true :=
  ⟨compiled (by decide +kernel),
    by simp [sum, int, Nodes.of, Supported, SupSeq, SupAll, Nodes.length, Lit.silent],
    by simp [sum, int, Nodes.of, Plain, PlainSeq, PlainAll]⟩

open Toy in
/-- … which returns `[6, 0]`. -/
example : returns sum 100 = some (.obj 0, ⟨[[Value.integer 6, Value.integer 0]], []⟩) := by decide +kernel

namespace Toy
/-- `[1, (2**64; 2)]` with the number written out. -/
def bigStmt : Node := .array (.of [int 1, .seq (.of [.lit (.big (2 ^ 64)), int 2])])

/-- `[1, (begin; raise 5; rescue 5; 7; end)]`, where 5 rescues itself. -/
def rescueOperand : Node := .array (.of [int 1,
  .begin_ (raise_ 5) (.cons (.of [int 5]) none (int 7) .nil) .none .none])
end Toy

open Toy in
/-- Without the restriction to supported programs, C31 is false: a big literal whose value is not used
leaves it on the operand stack (`codegen.rs:597-625`), and `[1, (2**64; 2)]` returns `[2**64, 2]`. -/
theorem C31_unused_bignum_fails : ∃ (x : Ctx) (e : Node) (g : G) (K : Env Toy Val) (n : Nat) (σ σ' : St Toy)
    (r : Res Val), Compiled x e g K ∧ Plain x e true ∧ eval K.world K.self true x n e true σ = some (r, σ') ∧
      ¬ Steps K g.code (.at 0 ⟨[], σ⟩) (.done (outcome x r σ')) := by
  refine ⟨ctx, bigStmt, compile bigStmt, env (compile bigStmt), 0, init, _, _,
    compiled (by decide +kernel),
    by simp [bigStmt, int, Nodes.of, Plain, PlainSeq, PlainAll],
    by simp [bigStmt, int, Nodes.of, eval, evalAll, evalSeq, onVal, evalLit]; exact ⟨rfl, rfl⟩, ?_⟩
  intro h
  obtain ⟨σ, h1, h2⟩ := returns_steps (e := bigStmt) (n := 20)
    (v := .obj 0) (w := ⟨[[Value.bignum (2 ^ 64), Value.integer 2]], []⟩) (by decide +kernel)
  have he := h.done_unique h2
  simp only [outcome, R.ret.injEq] at he
  rw [← he.2] at h1
  revert h1
  decide

open Toy in
/-- And a `rescue` clears the whole operand stack of the frame (`frame.rs:669-677`), so that
`[1, begin … rescue … end]` finds too few operands. -/
theorem C31_rescue_as_operand_fails : ∃ (x : Ctx) (e : Node) (g : G) (K : Env Toy Val) (n : Nat) (σ σ' : St Toy)
    (r : Res Val), Compiled x e g K ∧ Plain x e true ∧ eval K.world K.self true x n e true σ = some (r, σ') ∧
      Steps K g.code (.at 0 ⟨[], σ⟩) (.done .stuck) := by
  refine ⟨ctx, rescueOperand, compile rescueOperand, env (compile rescueOperand), 0, init,
    ⟨init.locals, ⟨[[Value.integer 1, Value.integer 7]], []⟩⟩, .val (.obj 0),
    compiled (by decide +kernel),
    by simp [rescueOperand, raise_, int, Nodes.of, Plain, PlainAll, PlainRescues, PlainOpt, OptNode.isSome],
    ?_, ?_⟩
  · simp [rescueOperand, raise_, int, Nodes.of, eval, evalAll, onVal, evalLit, beginSem, Rescues.isEmpty,
      evalRescues, evalExcs, finishRescue, finish, andEnsure, evalOpt, ofEff, env, world, raiseId, pId, init]
  · exact sticks_steps (n := 40) (by decide +kernel)

/-- **C31** (what the conditional jumps test).  Of all values only `nil` and `false` are false. -/
theorem C31_truth (s : Value.Src) (a : Nat) :
    (truthy (Value.store s) = false ↔ s = .nil ∨ s = .fls) ∧ truthy (.obj a) = true := by
  refine ⟨?_, rfl⟩
  cases h : Value.store s with
  | word w => exact Value.C03_truthiness s w h
  | big n =>
    refine ⟨fun k => (by simp [truthy] at k), ?_⟩
    rintro (rfl | rfl) <;> cases h
  | flo n =>
    refine ⟨fun k => (by simp [truthy] at k), ?_⟩
    rintro (rfl | rfl) <;> cases h
  | obj n =>
    refine ⟨fun k => (by simp [truthy] at k), ?_⟩
    rintro (rfl | rfl) <;> cases h

example : truthy (Value.store (.int 0)) = true ∧ truthy (Value.store .nil) = false := by decide

end Verif.Codegen
