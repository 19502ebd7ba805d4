import Verif.Blocks.Sum
import Verif.Blocks.Exits
/-!
# Instances of the theorems of C83 about single calls
-/
namespace Verif.Blocks.Instances
open Verif.Codegen (Id World St Ctx Node Nodes Toy Supported Plain Tame eval LegalBody Legal CtxOK)
open Verif.Methods (Tables)
open Verif.Value (Val)

/-- `def f(a) a = 5; end`, `{ return 5 }` and `{ break 5 }`. -/
def ctx : Ctx := ⟨[⟨[10, 11], .method⟩], [], fun m => m + 1000, 99⟩
def ctxB : Ctx := ⟨[⟨[], .block⟩, ⟨[10, 11], .method⟩], [], fun m => m + 1000, 99⟩
def setter : Unwind.Method := ⟨20, 1, ctx, .assign (.lvar 10) (.lit (.int 5))⟩
def returning : Block := ⟨1, 0, ctxB, .ret (.lit (.int 5))⟩
def breaking : Block := ⟨2, 0, ctxB, .brk (.lit (.int 5))⟩
def program : Program := ⟨[setter], [returning, breaking]⟩

theorem setter_fine : setter.Fine true where
  ctx := ⟨by decide, by decide⟩
  method := rfl
  legal := by
    simp [LegalBody, setter, Legal]
    exact Sum.knows _ _ (by decide)
  tame := by simp [setter, Tame]
  supported := by simp [setter, Supported]
  plain := fun _ => by simp [setter, Codegen.Plain]
  small := by decide +kernel

theorem returning_fine : returning.Fine true where
  ctx := ⟨by decide, by decide⟩
  block := rfl
  legal := by simp [LegalBody, returning, Legal]
  tame := by simp [returning, Tame]
  supported := by simp [returning, Supported]
  plain := fun _ => by simp [returning, Codegen.Plain]
  small := by decide +kernel

theorem breaking_fine : breaking.Fine true where
  ctx := ⟨by decide, by decide⟩
  block := rfl
  legal := by
    simp [LegalBody, breaking, Legal]
    rfl
  tame := by simp [breaking, Tame]
  supported := by simp [breaking, Supported]
  plain := fun _ => by simp [breaking, Codegen.Plain]
  small := by decide +kernel

theorem built : ∃ M T, Built true T program M :=
  C83_programs_compile program (by simp [program, setter_fine]) (by simp [program, returning_fine, breaking_fine]) (by decide +kernel)

variable {W X : Type} (base : Val → World W X) (err : Errors X)

theorem setter_eval (K : World W X) (me : Val) (n : Nat) (σ : St W) :
    eval K me true setter.ctx n setter.body true σ = some (.val (Value.integer 5), σ.set 0 0 (Value.integer 5)) := by
  simp only [setter, eval, Codegen.onVal, Codegen.evalLit, if_true]
  rfl

theorem returning_eval (K : World W X) (me : Val) (n : Nat) (σ : St W) :
    ∃ cr, eval K me true returning.ctx n returning.body true σ = some (.ret (Value.integer 5) cr, σ) := by
  simp only [returning, eval, Codegen.onVal, Codegen.evalLit, if_true]
  exact ⟨_, rfl⟩

theorem breaking_eval (K : World W X) (me : Val) (n : Nat) (σ : St W) :
    eval K me true breaking.ctx n breaking.body true σ = some (.brk (Value.integer 5), σ) := by
  simp only [breaking, eval, Codegen.onVal, Codegen.evalLit, if_true]

/-- `a = v; f(7); a`: still `v`, whatever `v` is. -/
example (me v : Val) (σ : St (Full W)) (hσ : σ.w.2.2 = true) (ha : σ.locals 0 0 = v) :
    ((world base program err true 1 1 0 me [0] .none).send 20 me [Value.integer 7] σ).2.locals 0 0 = v := by
  obtain ⟨M, T, hM⟩ := built
  rw [C83_call_without_block_keeps_variables_partial hM ⟨by simp, by simp⟩ (by simp) (by decide)]
  · exact ha
  · have : ((world base program err true 1 1 0 me [0] .none).send 20 me [Value.integer 7] σ).2.w.2.2 = (σ.w.2.2 && σ.w.2.2) := by
      have h : (world base program err true 1 1 0 me [0] .none).send 20 me [Value.integer 7] σ =
        back [0] [1] σ (eval (world base program err true 1 0 1 me [1] .none) me true setter.ctx 1 setter.body true
          (enter [0] [1] [Value.integer 7] σ)) := rfl
      rw [h, setter_eval]
      rfl
    rw [this, hσ]
    rfl

/-- The frame of a method that yields, given the block `b`, which was written in the program. -/
def frame (b : BitVec 32) : Frame := ⟨[Verif.ISeq.Op.YIELD, 0, 0, 0, 0], [], Value.nil, 0, [], true, [1], .block b Value.nil [0] .none, true⟩

/-- It goes on after the `yield` with 5. -/
example (f : Frame) (s : Cells) (w : W) : ∃ M T s', Built true T program M ∧
    Runs base T M err (.run (frame 1) [f] s w) (.run { frame 1 with pc := 5, stack := [Value.integer 5] } [f] s' w) := by
  obtain ⟨M, T, hM⟩ := built
  obtain ⟨cr, he⟩ := returning_eval (world base program err true 1 0 2 Value.nil [2, 0] .none) Value.nil 1
    (enter [1] [2, 0] [] ⟨look [1] s, (w, (s, true))⟩)
  exact ⟨M, T, _, hM, C83_return_in_block_is_value_of_yield (n := 1) (d := 0) hM (y := frame 1) (fs := [f]) (s := s) (w := w) (vs := [])
    (st := []) (bl := returning) rfl rfl rfl rfl ⟨⟨by simp, by simp⟩, by simp, trivial⟩ he rfl⟩

/-- It goes on after the `yield`, with nothing on the operand stack. -/
example (f : Frame) (s : Cells) (w : W) : ∃ M T s', Built true T program M ∧
    Runs base T M err (.run (frame 2) [f] s w) (.run { frame 2 with pc := 5, stack := [] } [f] s' w) := by
  obtain ⟨M, T, hM⟩ := built
  exact ⟨M, T, _, hM, C83_break_in_block_resumes_yield (n := 1) (d := 0) hM (y := frame 2) (fs := [f]) (s := s) (w := w) (vs := [])
    (st := []) (bl := breaking) rfl rfl rfl ⟨⟨by simp, by simp⟩, by simp, trivial⟩ (breaking_eval ..) rfl⟩

end Verif.Blocks.Instances
