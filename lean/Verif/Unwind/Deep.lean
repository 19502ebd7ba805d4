import Verif.Unwind.Props
import Verif.Methods.Factorial
/-!
# An exception through any number of frames (an example for C42)

`def down(k) if k == 0 then raise 5 else down(k - 1) end end`, and the program `begin down(k) rescue 5 then p 5; 7 end`.
For every number in `k`, that many frames are removed, and the program goes on in its `rescue` clause.
-/
namespace Verif.Unwind.Deep
open Verif.Codegen (Id World St R Entry Node Nodes Ctx Toy Legal LegalBody Supported Tame Plain eval Res)
open Verif.Methods (Code Tables)
open Verif.Value (Val)

def downId : Id := 20

/-- The variables are called 10 and 11. -/
def ctx : Ctx := ⟨[⟨[10, 11], .method⟩], [], fun m => m + 1000, 99⟩

def body : Node :=
  .ite (.binop (.c .eq) (.lvar 10) (.lit (.int 0))) (.send .self Toy.raiseId (.of [.lit (.int 5)]))
    (.send .self downId (.of [.binop .sub (.lvar 10) (.lit (.int 1))]))

def down : Method := ⟨downId, 1, ctx, body⟩

def call_ : Node := .send .self downId (.of [.lvar 10])

def clauses : Codegen.Rescues :=
  .cons (.of [.lit (.int 5)]) none (.seq (.of [.send .self Toy.pId (.of [.lit (.int 5)]), .lit (.int 7)])) .nil

def main : Method := ⟨0, 0, ctx, .begin_ call_ clauses .none .none⟩

theorem ctx_ok : Codegen.CtxOK ctx := ⟨by decide, by decide⟩

theorem knows : ctx.knows 10 := ⟨[10, 11], by simp [ctx, Codegen.visible], by simp⟩

theorem down_fine (rb : Bool) : down.Fine rb where
  ctx := ctx_ok
  method := rfl
  legal := by
    simp [LegalBody, down, body, Nodes.of, Legal, Codegen.LegalAll]
    exact knows
  tame := by simp [down, body, Nodes.of, Tame, Codegen.TameAll]
  supported := by simp [down, body, Nodes.of, Supported, Codegen.SupAll, Codegen.Nodes.length, Codegen.Lit.silent]
  plain := fun _ => by simp [down, body, Nodes.of, Codegen.Plain, Codegen.PlainAll]
  small := by decide +kernel

theorem main_fine (rb : Bool) : main.Fine rb where
  ctx := ctx_ok
  method := rfl
  legal := by
    simp [LegalBody, main, call_, clauses, Nodes.of, Legal, Codegen.LegalAll, Codegen.LegalRescues, Codegen.LegalOpt]
    exact knows
  tame := by simp [main, call_, clauses, Nodes.of, Tame, Codegen.TameAll, Codegen.TameRescues, Codegen.TameOpt]
  supported := by
    simp [main, call_, clauses, Nodes.of, Supported, Codegen.SupSeq, Codegen.SupAll, Codegen.SupRescues, Codegen.SupOpt,
      Codegen.Nodes.length, Codegen.Lit.silent, Nodes.excLen]
  plain := fun _ => by
    simp [main, call_, clauses, Nodes.of, Codegen.Plain, Codegen.PlainSeq, Codegen.PlainAll, Codegen.PlainRescues,
      Codegen.PlainOpt, Codegen.OptNode.isSome]
  small := by decide +kernel

abbrev base : Val → World Toy Val := fun _ => Meaning.World.numbers

theorem find : [down].find? (·.id = downId) = some down := by simp [down]
theorem find_raise : [down].find? (·.id = Toy.raiseId) = none := by decide
theorem find_p : [down].find? (·.id = Toy.pId) = none := by decide

theorem var (K : World (Toy × Bool) Val) (σ : St (Toy × Bool)) : Codegen.getVar K ctx σ (.lvar 10) = σ.locals 0 0 := rfl

theorem first (v : Val) : start [v] 0 0 = v := rfl

theorem resumed (σ : St (Toy × Bool)) (h : σ.w.2 = true) {l : Nat → Nat → Val} : resume σ ⟨l, σ.w⟩ = σ := by
  obtain ⟨l', w, b⟩ := σ
  cases h
  rfl

variable (wrong : Val) (rb : Bool) (n : Nat)

/-- The body for zero. -/
theorem body_zero (d : Nat) (o a : Val) (σ : St (Toy × Bool)) (ha : σ.locals 0 0 = a)
    (h : Arith.eval_eq a (Value.integer 0) = .ok true) :
    eval (world base [down] wrong rb n d o) o rb ctx n body true σ = some (.raise (Value.integer 5), σ) := by
  have h1 : Codegen.truthy (Value.bool true) = true := by decide
  have h2 : (world base [down] wrong rb n d o).cmp .eq a (Value.integer 0) σ = (.ok true, σ) := by
    simp only [world, flagged, through, base, Meaning.World.numbers, Meaning.World.cmp, h, Meaning.World.ofRes]
    rfl
  have h3 : (world base [down] wrong rb n d o).send Toy.raiseId o [Value.integer 5] σ = (.error (Value.integer 5), σ) := by
    simp only [world]
    rw [call_none find_raise]
    rfl
  simp only [body, Nodes.of, eval, Codegen.evalAll, var, Codegen.onVal, ha, Codegen.evalBin, Codegen.evalLit, h2, h3, h1,
    Codegen.ofEff, Codegen.ofEffB, if_true]

theorem body_succ (d : Nat) (o a b x : Val) (σ : St (Toy × Bool)) (ha : σ.locals 0 0 = a)
    (h : Arith.eval_eq a (Value.integer 0) = .ok false) (h' : Arith.invoke_op (· - ·) a (Value.integer 1) = .ok b)
    (hc : call base [down] wrong rb n d o downId o [b] σ = (.error x, σ)) :
    eval (world base [down] wrong rb n d o) o rb ctx n body true σ = some (.raise x, σ) := by
  have h1 : Codegen.truthy (Value.bool false) = false := by decide
  have h2 : (world base [down] wrong rb n d o).cmp .eq a (Value.integer 0) σ = (.ok false, σ) := by
    simp only [world, flagged, through, base, Meaning.World.numbers, Meaning.World.cmp, h, Meaning.World.ofRes]
    rfl
  have h4 : (world base [down] wrong rb n d o).bin .sub a (Value.integer 1) σ = (.ok b, σ) := by
    simp only [world, flagged, through, base, Meaning.World.numbers, Meaning.World.bin, h', Meaning.World.ofRes]
    rfl
  have h3 : (world base [down] wrong rb n d o).send downId o [b] σ = (.error x, σ) := hc
  simp only [body, Nodes.of, eval, Codegen.evalAll, var, Codegen.onVal, ha, Codegen.evalBin, Codegen.evalLit, h2, h3, h4, h1,
    Codegen.ofEff, Codegen.ofEffB, if_true, if_false, Bool.false_eq_true]

theorem called_succ (d : Nat) (me o a b x : Val) (σ : St (Toy × Bool)) (hf : σ.w.2 = true)
    (h : Arith.eval_eq a (Value.integer 0) = .ok false) (h' : Arith.invoke_op (· - ·) a (Value.integer 1) = .ok b)
    (hc : call base [down] wrong rb n d o downId o [b] ⟨start [a], σ.w⟩ = (.error x, ⟨start [a], σ.w⟩)) :
    call base [down] wrong rb n (d + 1) me downId o [a] σ = (.error x, σ) := by
  rw [call_succ find, if_neg (by simp [down]), show down.body = body from rfl, show down.ctx = ctx from rfl,
    body_succ wrong rb n d o a b x _ (first _) h h' hc, back, resumed _ hf]

/-- By the source, every call raises 5 and changes nothing. -/
theorem raises : ∀ (m d : Nat) (me o : Val) (σ : St (Toy × Bool)), m < d → σ.w.2 = true →
    call base [down] wrong rb n d me downId o [Arith.num m] σ = (.error (Value.integer 5), σ) := by
  intro m
  induction m with
  | zero =>
    intro d me o σ h hf
    obtain ⟨d, rfl⟩ : ∃ i, d = i + 1 := ⟨d - 1, by omega⟩
    rw [call_succ find, if_neg (by simp [down])]
    rw [show down.body = body from rfl, show down.ctx = ctx from rfl,
      body_zero wrong rb n d o (Arith.num (0 : Nat)) _ (first _) (by rw [Methods.Factorial.zero_num, Arith.C06_eq, decide_eq_true (by omega)])]
    rw [back, resumed _ hf]
  | succ m ih =>
    intro d me o σ h hf
    obtain ⟨d, rfl⟩ : ∃ i, d = i + 1 := ⟨d - 1, by omega⟩
    refine called_succ wrong rb n d me o _ _ _ σ hf ?_ ?_ (ih d o o _ (by omega) hf)
    · rw [Methods.Factorial.zero_num, Arith.C06_eq, decide_eq_false (by omega)]
    · rw [Methods.Factorial.one_num, Arith.C04_sub, show ((m + 1 : Nat) : Int) - 1 = m by omega]

/-- **C42**, for these methods: they compile; and for every number `m` in the variable of the program, the interpreter, which has
`m + 2` frames when the exception is raised, ends with the value of the `rescue` clause, having run it once. -/
theorem C42_exception_through_any_number_of_frames : ∃ (M : List Code) (c : Code) (T : Tables),
    List.Forall₂ (Compiles true T) [down, main] (M ++ [c]) ∧
    ∀ (wrong self : Val) (m : Nat) (σ : St Toy), σ.locals 0 0 = Arith.num m →
      Runs base T M wrong (.run (mainFrame c self σ.locals) [] σ.w)
        (.done (.ret (Value.integer 7) { σ with w := { σ.w with out := σ.w.out ++ [Value.integer 5] } })) := by
  obtain ⟨M, T, h1, h2, -⟩ := C42_methods_compile (rb := true) [down, main]
    (by
      intro f hf
      simp only [List.mem_cons, List.not_mem_nil, or_false] at hf
      rcases hf with rfl | rfl
      · exact down_fine true
      · exact main_fine true) [] [] [] (by decide +kernel) (by decide +kernel) (by decide +kernel)
  obtain _ | ⟨a1, _ | ⟨a2, _ | _⟩⟩ := h1
  rename_i c1 c
  refine ⟨[c1], c, T, .cons a1 (.cons a2 .nil), fun wrong self m σ hσ => ?_⟩
  have hb : run base [down] wrong true 0 (m + 1) self ctx call_ σ = some (.raise (Value.integer 5), tag true σ) := by
    rw [run, call_]
    have h3 : (world base [down] wrong true 0 (m + 1) self).send downId self [Arith.num m] (tag true σ) =
      (.error (Value.integer 5), tag true σ) := raises wrong true 0 m (m + 1) self self _ (by omega) rfl
    simp only [Nodes.of, eval, Codegen.evalAll, var, Codegen.onVal, show (tag true σ).locals 0 0 = _ from hσ, h3, Codegen.ofEff]
  refine C42_rescued_across_frames_partial (r := .val (Value.integer 7)) h2 (.cons a1 .nil) a2 rfl 0 (m + 1) self σ _ _
    (tag true { σ with w := { σ.w with out := σ.w.out ++ [Value.integer 5] } }) hb ?_ rfl
  have h4 : ∀ (τ : St (Toy × Bool)), (world base [down] wrong true 0 (m + 1) self).send Toy.pId self [Value.integer 5]
      τ = (.ok Value.nil, ⟨τ.locals, ⟨{ τ.w.1 with out := τ.w.1.out ++ [Value.integer 5] }, τ.w.2⟩⟩) := by
    intro τ
    simp only [world]
    rw [call_none find_p]
    rfl
  have h5 : ∀ τ, (world base [down] wrong true 0 (m + 1) self).rescues (Value.integer 5) [Value.integer 5] τ = true := by
    intro τ
    show List.contains [Value.integer 5] (Value.integer 5) = true
    simp
  have h6 : ((base self).exc (Value.integer 5) (untag (tag true σ))) = (Value.integer 5, σ) := rfl
  rw [h6]
  dsimp only
  simp only [clauses, Nodes.of, Codegen.evalRescues, Codegen.evalExcs, Codegen.evalAll, eval, Codegen.evalSeq, Codegen.onVal,
    Codegen.evalLit, h4, h5, Codegen.ofEff, if_true]
  rfl

/-- Two frames without an entry for the place they are at (one of them has none at all) are removed; the third has one. -/
example (code : ISeq.Code) (self : Val) (w : Toy) (out : List Frame) (l : Nat → Nat → Val) :
    unwind base (Value.integer 5) l
      ([⟨code, [], self, 20, [], l, true⟩, ⟨code, [⟨0, 30, 40⟩], self, 50, [self], l, false⟩] ++
        ⟨code, [⟨10, 30, 44⟩], self, 20, [self, self], l, true⟩ :: out) w =
      .run ⟨code, [⟨10, 30, 44⟩], self, 44, [Value.integer 5], l, true⟩ out w :=
  C42_frames_above_the_handler_are_removed base _ l w (en := ⟨10, 30, 44⟩)
    (by simp [Frame.rescues, Entry.include]) (by simp [Frame.rescues, Entry.include])

example (code : ISeq.Code) (self : Val) (w : Toy) (l : Nat → Nat → Val) : ∃ σ,
    unwind base (Value.integer 5) l [⟨code, [], self, 20, [], l, true⟩, ⟨code, [⟨0, 30, 40⟩], self, 50, [self], l, false⟩] w =
      .done (.err (Value.integer 5) σ) ∧ σ.w = w :=
  C42_unrescued_reaches_the_caller base _ l w (by simp [Frame.rescues, Entry.include])

end Verif.Unwind.Deep
