import Verif.Unwind.Lemmas
import Verif.Methods.Props
/-!
# C42: an exception reaches the innermost matching rescue, across frames

The specification evaluates source trees with methods (`Spec`); the model is the interpreter with a frame for each call, which
removes frames when an exception is not rescued in them (`Model`).
-/
namespace Verif.Unwind
open Verif.Codegen (Id Env World St R S Entry Eff Steps Ctx G Node Nodes Rescues OptNode Const CaseMap CaseMap2 gen_iseq Supported
  Plain Tame eval evalRescues Bounded CtxOK outcome LegalBody Res)
open Verif.ISeq (optimize)
open Verif.Methods (Code Tables slots)
open Verif.Value (Val)

variable {W X : Type}

/-! ## Removing frames -/

/-- The exception table of the frame has an entry for the place where the frame is. -/
def Frame.rescues (f : Frame) (en : Entry) : Prop := f.ex.find? (·.include f.pc) = some en

/-- **C42** (the interpreter).  An error that has left a frame goes to the innermost frame that has an entry for the place
it is at: the frames above it are removed, the frames below stay, its operand stack holds the exception object and nothing
else, and its variables are what they were, unless making the exception object changes them. -/
theorem C42_frames_above_the_handler_are_removed (base : Val → World W X) (x : X) (locals : Nat → Nat → Val)
    {inner outer : List Frame} {f : Frame} {en : Entry} (w : W) (ha : ∀ g ∈ inner, ∀ en, ¬ g.rescues en) (hf : f.rescues en) :
    unwind base x locals (inner ++ f :: outer) w =
      let (v, σ) := (base f.self).exc x ⟨f.locals, w⟩
      .run { f with pc := en.dest, stack := [v], locals := σ.locals } outer σ.w := by
  induction inner generalizing locals with
  | nil =>
    rw [List.nil_append, unwind]
    rw [Frame.rescues] at hf
    rw [hf]
  | cons g gs ih =>
    rw [List.cons_append, unwind]
    have : g.ex.find? (·.include g.pc) = none := by
      rcases h : g.ex.find? (·.include g.pc) with _ | en'
      · exact h
      · exact absurd h (ha g (by simp) en')
    rw [this]
    exact ih _ fun g hg => ha g (by simp [hg])

/-- **C42** (the interpreter).  If no frame has an entry, the caller of the program gets the error. -/
theorem C42_unrescued_reaches_the_caller (base : Val → World W X) (x : X) (locals : Nat → Nat → Val) {fs : List Frame} (w : W)
    (ha : ∀ g ∈ fs, ∀ en, ¬ g.rescues en) : ∃ σ, unwind base x locals fs w = .done (.err x σ) ∧ σ.w = w := by
  induction fs generalizing locals with
  | nil => exact ⟨_, rfl, rfl⟩
  | cons g gs ih =>
    rw [unwind]
    have : g.ex.find? (·.include g.pc) = none := by
      rcases h : g.ex.find? (·.include g.pc) with _ | en'
      · exact h
      · exact absurd h (ha g (by simp) en')
    rw [this]
    exact ih _ fun g hg => ha g (by simp [hg])

/-! ## Programs -/

/-- The frame of the program. -/
def mainFrame (c : Code) (self : Val) (locals : Nat → Nat → Val) : Frame := ⟨c.code, c.ex, self, 0, [], locals, true⟩

/-- **C42** (programs; part: the supported syntax of C31; calls without blocks of methods with required parameters only).

Compile and optimize the methods `P` and the program `main`.  If the evaluation of the source ends with `r` in state `σ'`,
with no call cut off, then the interpreter, starting with the frame of the program, ends in the same way: with the value,
or with the exception that reached the caller of the program; and with the same variables and objects.  Exceptions may be
raised, rescued, and raised again in any of the methods, however deep the calls. -/
theorem C42_frames_do_what_the_source_says_partial {base : Val → World W X} {P : List Method} {M : List Code} {main : Method}
    {c : Code} {wrong : X} {rb : Bool} {T : Tables} (hT : T.Room) (hM : List.Forall₂ (Compiles rb T) P M)
    (hc : Compiles rb T main c) (n d : Nat) (self : Val) (σ : St W) (r : Res X) (σ' : St (W × Bool))
    (hr : run base P wrong rb n d self main.ctx main.body σ = some (r, σ')) (hf : σ'.w.2 = true) :
    Runs base T M wrong (.run (mainFrame c self σ.locals) [] σ.w) (.done (outcome main.ctx r (untag σ'))) := by
  obtain ⟨g, hB⟩ := hc
  have h1 := hB.steps hT (world base P wrong rb n d self) self hr
  have h2 := frames (wrong := wrong) (n := n) hT hM d self (mainFrame c self σ.locals) [] _ _ h1
    (by cases r <;> first | exact hf | (rw [outcome]; split <;> exact hf)) rfl
  have h3 : untagR (outcome main.ctx r σ') = outcome main.ctx r (untag σ') := by
    cases r <;> first | rfl | (rw [outcome, outcome]; split <;> rfl)
  rw [h3] at h2
  exact h2

/-- **C42** (rescue; part, as above).  The program is a `begin` whose body raises `x`, be it in this frame or in a method that
is called from it, at any depth.  The first clause whose list matches gets the exception: the program ends as the clause does
when it is run in the state in which the exception was raised. -/
theorem C42_rescued_across_frames_partial {base : Val → World W X} {P : List Method} {M : List Code} {ctx : Ctx} {id : Id}
    {b : Node} {rs : Rescues} {els : OptNode} {c : Code} {wrong : X} {rb : Bool} {T : Tables} (hT : T.Room)
    (hM : List.Forall₂ (Compiles rb T) P M) (hc : Compiles rb T ⟨id, 0, ctx, .begin_ b rs els .none⟩ c)
    (hr : rs.isEmpty = false) (n d : Nat) (self : Val) (σ : St W) (x : X) (σ1 σ' : St (W × Bool)) (r : Res X)
    (hb : run base P wrong rb n d self ctx b σ = some (.raise x, σ1))
    (hm : evalRescues (world base P wrong rb n d self) self rb ctx n rs ((base self).exc x (untag σ1)).1 true
      (tag σ1.w.2 ((base self).exc x (untag σ1)).2) = some (some r, σ')) (hf : σ'.w.2 = true) :
    Runs base T M wrong (.run (mainFrame c self σ.locals) [] σ.w) (.done (outcome ctx r (untag σ'))) := by
  refine C42_frames_do_what_the_source_says_partial hT hM hc n d self σ r σ' ?_ hf
  rw [run] at hb ⊢
  dsimp only
  rw [eval, hb, hr, if_neg (by simp)]
  show Codegen.finishRescue _ rb _ ((base self).exc x (untag σ1)).1 (evalRescues (world base P wrong rb n d self) self rb ctx n rs
    ((base self).exc x (untag σ1)).1 true (tag σ1.w.2 ((base self).exc x (untag σ1)).2)) = _
  rw [hm]
  simp only [Codegen.finishRescue]
  cases r <;> cases rb <;> simp [Codegen.finish, Codegen.andEnsure, Codegen.evalOpt, Codegen.onVal, Codegen.leave]

/-- **C42** (no clause matches; part, as above).  Then the exception reaches the caller of the program. -/
theorem C42_not_rescued_across_frames_partial {base : Val → World W X} {P : List Method} {M : List Code} {ctx : Ctx} {id : Id}
    {b : Node} {rs : Rescues} {els : OptNode} {c : Code} {wrong : X} {rb : Bool} {T : Tables} (hT : T.Room)
    (hM : List.Forall₂ (Compiles rb T) P M) (hc : Compiles rb T ⟨id, 0, ctx, .begin_ b rs els .none⟩ c)
    (hr : rs.isEmpty = false) (n d : Nat) (self : Val) (σ : St W) (x : X) (σ1 σ' : St (W × Bool))
    (hb : run base P wrong rb n d self ctx b σ = some (.raise x, σ1))
    (hm : evalRescues (world base P wrong rb n d self) self rb ctx n rs ((base self).exc x (untag σ1)).1 true
      (tag σ1.w.2 ((base self).exc x (untag σ1)).2) = some (none, σ')) (hf : σ'.w.2 = true) :
    Runs base T M wrong (.run (mainFrame c self σ.locals) [] σ.w)
      (.done (.err ((base self).thrown ((base self).exc x (untag σ1)).1) (untag σ'))) := by
  refine C42_frames_do_what_the_source_says_partial hT hM hc n d self σ
    (.raise ((base self).thrown ((base self).exc x (untag σ1)).1)) σ' ?_ hf
  rw [run] at hb ⊢
  dsimp only
  rw [eval, hb, hr, if_neg (by simp)]
  show Codegen.finishRescue _ rb _ ((base self).exc x (untag σ1)).1 (evalRescues (world base P wrong rb n d self) self rb ctx n rs
    ((base self).exc x (untag σ1)).1 true (tag σ1.w.2 ((base self).exc x (untag σ1)).2)) = _
  rw [hm]
  simp only [Codegen.finishRescue]
  cases rb <;> simp [Codegen.andEnsure, Codegen.evalOpt, Codegen.onVal] <;> rfl

/-! ## Methods compile -/

/-- The conditions on a method. -/
structure Method.Fine (rb : Bool) (f : Method) : Prop where
  ctx : CtxOK f.ctx
  method : f.ctx.kind = some .method
  legal : LegalBody f.ctx f.body
  tame : Tame f.body
  supported : Supported false f.body true true true
  plain : rb = true → Plain f.ctx f.body true
  small : f.body.weight + 1 < 2 ^ 27

/-- Room that the code of methods takes in the tables, at most. -/
def room : List Method → Nat
  | [] => 0
  | f :: fs => f.body.weight + 1 + room fs

/-- **C42** (the premises can be met).  One after the other, the methods are compiled and optimized; the tables only grow. -/
theorem C42_methods_compile {rb : Bool} : ∀ (P : List Method) (_ : ∀ f ∈ P, f.Fine rb) (consts : List Const)
    (case1 : List (Option CaseMap)) (case2 : List (Option CaseMap2)),
    consts.length + room P < 2 ^ 32 → case1.length + room P < 2 ^ 32 → case2.length + room P < 2 ^ 32 →
    ∃ (M : List Code) (T : Tables), List.Forall₂ (Compiles rb T) P M ∧ T.Room ∧ consts <+: T.consts ∧ case1 <+: T.case1 ∧
      case2 <+: T.case2
  | [], _, consts, case1, case2, h1, h2, h3 => by
    rw [room] at h1 h2 h3
    exact ⟨[], ⟨consts, case1, case2⟩, .nil, ⟨by dsimp only; omega, by dsimp only; omega, by dsimp only; omega⟩, List.prefix_refl _,
      List.prefix_refl _, List.prefix_refl _⟩
  | f :: fs, hF, consts, case1, case2, h1, h2, h3 => by
    rw [room] at h1 h2 h3
    have hS := hF f (by simp)
    have hsm := hS.small
    obtain ⟨g, hg⟩ := (Codegen.C65_accepts_exactly_the_legal f.ctx f.body consts case1 case2 0 (by omega)).2 hS.legal
    obtain ⟨z1, z2, z3, z4⟩ := Codegen.C65_size_of_code f.ctx f.body consts case1 case2 0 g (by omega) hg
    have hb : Bounded g := ⟨by omega, by omega, by omega⟩
    obtain ⟨fuel, code, ho⟩ := Codegen.C78_optimizer_completes_partial hg hb hS.tame
    obtain ⟨M, T, k1, k2, k3, k4, k5⟩ := C42_methods_compile fs (fun f h => hF f (by simp [h])) g.consts g.case1 g.case2
      (by omega) (by omega) (by omega)
    obtain ⟨y1, y2, y3⟩ := Methods.iseq_ext hS.ctx hg
    refine ⟨⟨f.id, f.arity, f.arity, code, g.ex⟩ :: M, T, .cons ⟨g, ?_⟩ k1, k2, y1.trans k3, y2.trans k4, y3.trans k5⟩
    exact ⟨rfl, rfl, hS.ctx, hS.method, ⟨_, _, _, _, hg⟩, ⟨fuel, ho⟩, rfl, k3, fun i m h => Methods.prefix_get k4 h,
      fun i m h => Methods.prefix_get k5 h, hb, hS.supported, hS.plain⟩

end Verif.Unwind
