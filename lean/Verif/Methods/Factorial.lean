import Verif.Methods.Props
import Verif.Meaning.Euclid
import Mathlib.Data.Nat.Factorial.Basic
/-!
# A recursive method for C82: the factorial

The hypotheses of the theorems of C82 are met: `def fact(n) if n == 0 ; 1 ; else ; n * fact(n - 1) ; end end`, in a world whose
operators are those of `Verif.Arith`.
-/
namespace Verif.Methods.Factorial
open Verif.Lexer (Chars BinOp Unicode)
open Verif.Parser (Node stripAll)
open Verif.Pipeline (Names lower context Placed Has)
open Verif.Codegen (Id World St Toy Eff Supported Plain Tame Legal)
open Verif.Meaning.Named
open Verif.Value (Val)

abbrev n : Chars := ['n']
abbrev fact : Chars := "fact".toList

/-- A numbering of names. -/
def name : Names := fun s =>
  if s = n then 10 else if s = fact then 11 else if s = ['p'] then Toy.pId else if s = "raise".toList then Toy.raiseId else 0

/-- Objects of this world, by name. -/
def objects : Objects Toy Val :=
  { Meaning.Named.Demo.objects with
    op := fun o a b w => (Meaning.World.bin (match o with
      | .Add => .add | .Sub => .sub | .Mul => .mul | .Div => .div | .Rem => .rem | .Exp => .exp | .Cmp => .cmp | _ => .teq)
        a b ⟨fun _ _ => Value.nil, w⟩).map (fun r => r) (·.w)
    test := fun o a b w => (Meaning.World.cmp (match o with
      | .Eq => .eq | .Ne => .ne | .Gt => .gt | .Ge => .ge | .Lt => .lt | _ => .le) a b ⟨fun _ _ => Value.nil, w⟩).map
        (fun r => r) (·.w)
    unary := fun o v w => (Meaning.World.numbers.un (match o with | .Neg => .neg | .Pos => .pos | _ => .bitnot) v
      ⟨fun _ _ => Value.nil, w⟩).map (fun r => r) (·.w) }

theorem bin_lift (o : Codegen.BinOp) (a b : Val) (σ : St Toy) :
    Meaning.World.bin o a b σ = lift σ ((Meaning.World.bin o a b ⟨fun _ _ => Value.nil, σ.w⟩).map (fun r => r) (·.w)) := by
  unfold Meaning.World.bin Meaning.World.ofRes
  split <;> (try split) <;> rfl

theorem cmp_lift (o : Codegen.CmpOp) (a b : Val) (σ : St Toy) :
    Meaning.World.cmp o a b σ = lift σ ((Meaning.World.cmp o a b ⟨fun _ _ => Value.nil, σ.w⟩).map (fun r => r) (·.w)) := by
  unfold Meaning.World.cmp Meaning.World.ofRes
  split <;> (try split) <;> rfl

theorem name_eq (m : Chars) : name (m ++ ['=']) = 0 := by
  have h (t : Chars) (ht : t.getLast? ≠ some '=') : m ++ ['='] ≠ t := by rintro rfl; simp at ht
  unfold name
  rw [if_neg (h _ (by decide)), if_neg (h _ (by decide)), if_neg (h _ (by decide)), if_neg (h _ (by decide))]

theorem name_inj (a b : Chars) (hb : b ∈ [n, fact, ['p'], "raise".toList]) (h : name a = name b) : a = b := by
  by_cases ha : a ∈ [n, fact, ['p'], "raise".toList]
  · revert h
    revert b
    revert a
    decide
  · have : name a = 0 := by
      simp only [List.mem_cons, List.not_mem_nil, or_false, not_or] at ha
      unfold name
      rw [if_neg ha.1, if_neg ha.2.1, if_neg ha.2.2.1, if_neg ha.2.2.2]
    rw [this] at h
    have hn : ∀ b ∈ [n, fact, ['p'], "raise".toList], 0 ≠ name b := by decide
    exact absurd h (hn b hb)

theorem send_lift (m : Chars) (o : Val) (vs : List Val) (σ : St Toy) :
    Toy.world.send (name m) o vs σ = lift σ (objects.call m o vs σ.w) := by
  have hp : name m = Toy.pId ↔ m = ['p'] :=
    ⟨fun h => name_inj m _ (by decide) (h.trans (by decide)), by rintro rfl; decide⟩
  have hr : name m = Toy.raiseId ↔ m = "raise".toList :=
    ⟨fun h => name_inj m _ (by decide) (h.trans (by decide)), by rintro rfl; decide⟩
  simp only [Toy.world, objects, Meaning.Named.Demo.objects, hp, hr]
  split
  · rfl
  · split <;> rfl

theorem acts : Acts objects Meaning.World.numbers name (fun _ => 0) where
  add a b σ := bin_lift .add a b σ
  sub a b σ := bin_lift .sub a b σ
  teq a b σ := bin_lift .teq a b σ
  mul a b σ := bin_lift .mul a b σ
  div a b σ := bin_lift .div a b σ
  rem a b σ := bin_lift .rem a b σ
  exp a b σ := bin_lift .exp a b σ
  shr a b σ := bin_lift .shr a b σ
  shl a b σ := bin_lift .shl a b σ
  band a b σ := bin_lift .band a b σ
  bor a b σ := bin_lift .bor a b σ
  bxor a b σ := bin_lift .bxor a b σ
  compare a b σ := bin_lift .cmp a b σ
  eq a b σ := cmp_lift .eq a b σ
  ne a b σ := cmp_lift .ne a b σ
  gt a b σ := cmp_lift .gt a b σ
  ge a b σ := cmp_lift .ge a b σ
  lt a b σ := cmp_lift .lt a b σ
  le a b σ := cmp_lift .le a b σ
  neg v σ := by
    show Meaning.World.ofRes _ _ = lift σ ((Meaning.World.ofRes _ _).map _ _)
    unfold Meaning.World.ofRes
    split <;> rfl
  pos _ _ := rfl
  bitnot _ _ := rfl
  getI _ _ := rfl
  setI _ _ _ := rfl
  getG _ _ := rfl
  setG _ _ _ := rfl
  send := send_lift
  setter m := (name_eq m).symm
  range _ _ _ _ := rfl
  index v i σ := Meaning.Named.Demo.acts.index v i σ
  setIndex _ _ _ _ := rfl
  array _ _ := rfl
  elements v σ := Meaning.Named.Demo.acts.elements v σ
  string _ _ := rfl

/-! ## The method -/

def tree : Node := .If (.BinOp .Eq (.LocalVar n) (.Integer 0)) (.Integer 1)
  (.BinOp .Mul (.LocalVar n) (.Send .SelfValue fact [.BinOp .Sub (.LocalVar n) (.Integer 1)] false))

def method : Method := ⟨fact, [n], [tree]⟩

/-- The compiler's tree. -/
def ctree : Codegen.Node := .seq (.of [.ite (.binop (.c .eq) (.lvar 10) (.lit (.int 0))) (.lit (.int 1))
  (.binop .mul (.lvar 10) (.send .self 11 (.of [.binop .sub (.lvar 10) (.lit (.int 1))])))])

def source : Source := ⟨method, [], [tree], ctree⟩

theorem lowers : lower name (.CompStmt [tree]) = some ctree := by rfl

theorem fine : source.Fine name (fun _ => 0) where
  tree := rfl
  lower := lowers
  known := by
    simp [source, ctree, Codegen.Nodes.of, Legal, Codegen.LegalAll, Has, Source.vars, method]
    decide
  placed := by simp [source, ctree, Codegen.Nodes.of, Placed, Legal, Codegen.LegalAll]
  supported := by
    simp [source, ctree, Codegen.Nodes.of, Supported, Codegen.SupSeq, Codegen.SupAll, Codegen.Nodes.length,
      Codegen.Lit.silent]
    try decide
  plain := by simp [source, ctree, Codegen.Nodes.of, Codegen.Plain, Codegen.PlainSeq, Codegen.PlainAll]
  tame := by simp [source, ctree, Codegen.Nodes.of, Tame, Codegen.TameAll]
  vars := by decide
  names := fun y z hz h => name_inj y z (by rw [List.mem_singleton.1 hz]; decide) h
  small := by decide +kernel

theorem eq {a b : Val} {r : Bool} (h : Arith.eval_eq a b = .ok r) (w : Toy) : objects.test .Eq a b w = (.ok r, w) := by
  simp only [objects, Meaning.World.cmp, h, Meaning.World.ofRes]
  rfl

theorem sub {a b r : Val} (h : Arith.invoke_op (· - ·) a b = .ok r) (w : Toy) : objects.op .Sub a b w = (.ok r, w) := by
  simp only [objects, Meaning.World.bin, h, Meaning.World.ofRes]
  rfl

theorem mul {a b r : Val} (h : Arith.invoke_mul a b = .ok r) (w : Toy) : objects.op .Mul a b w = (.ok r, w) := by
  simp only [objects, Meaning.World.bin, h, Meaning.World.ofRes]
  rfl

/-- The body, for zero. -/
theorem body_zero (O : Objects Toy Val) (ht : O.test = objects.test) (o : Val) (k : Nat) (w : Toy) {a : Val}
    (h : Arith.eval_eq a (Value.integer 0) = .ok true) :
    body O o k [tree] ⟨bind [n] [a], w⟩ = some (.returns (Value.integer 1), ⟨bind [n] [a], w⟩) := by
  have h0 : bind [n] [a] n = a := by rw [bind, if_pos rfl]
  have h1 : truth (Value.bool true) = true := by decide
  simp only [body, runSeq, tree, run, onValue, apply, ht, eq h, h0, h1, if_true, List.mem_cons, true_or]

/-- The body, for other numbers. -/
theorem body_succ (O : Objects Toy Val) (ht : O.test = objects.test) (ho : O.op = objects.op) (o : Val) (k : Nat) (w : Toy)
    {a b f r : Val} (h : Arith.eval_eq a (Value.integer 0) = .ok false)
    (h' : Arith.invoke_op (· - ·) a (Value.integer 1) = .ok b) (hc : O.call fact o [b] w = (.ok f, w))
    (h'' : Arith.invoke_mul a f = .ok r) :
    body O o k [tree] ⟨bind [n] [a], w⟩ = some (.returns r, ⟨bind [n] [a], w⟩) := by
  have h0 : bind [n] [a] n = a := by rw [bind, if_pos rfl]
  have h1 : truth (Value.bool false) = false := by decide
  have h2 : (BinOp.Sub ∈ [BinOp.Eq, .Ne, .Gt, .Ge, .Lt, .Le]) = False := by simp
  have h3 : (BinOp.Mul ∈ [BinOp.Eq, .Ne, .Gt, .Ge, .Lt, .Le]) = False := by simp
  have h4 : (BinOp.Eq ∈ [BinOp.Eq, .Ne, .Gt, .Ge, .Lt, .Le]) = True := by simp
  simp only [body, runSeq, tree, run, runAll, onValue, apply, ht, ho, eq h, h0, h1, h2, h3, h4, if_true, if_false, sub h',
    answer, hc, mul h'', reduceCtorEq, Bool.false_eq_true]

theorem zero_num : Value.integer 0 = Arith.num 0 := by decide +kernel
theorem one_num : Value.integer 1 = Arith.num 1 := by decide +kernel

theorem called {O : Val → Objects Toy Val} (wrong stop : Val) (k d : Nat) (me o : Val) (w : Toy) {a r : Val}
    (h : body (via (O o) (call O [method] wrong stop k d o)) o k [tree] ⟨bind [n] [a], w⟩ =
      some (.returns r, ⟨bind [n] [a], w⟩)) :
    call O [method] wrong stop k (d + 1) me fact o [a] w = (.ok r, w) := by
  rw [call_succ (f := method) (by simp [method]), if_neg (by simp [method]), show method.body = [tree] from rfl,
    show method.params = [n] from rfl, h]

theorem called_succ (wrong stop : Val) (k d : Nat) (me o : Val) (w : Toy) {a b f r : Val}
    (h : Arith.eval_eq a (Value.integer 0) = .ok false) (h' : Arith.invoke_op (· - ·) a (Value.integer 1) = .ok b)
    (hc : call (fun _ => objects) [method] wrong stop k d o fact o [b] w = (.ok f, w)) (h'' : Arith.invoke_mul a f = .ok r) :
    call (fun _ => objects) [method] wrong stop k (d + 1) me fact o [a] w = (.ok r, w) :=
  called wrong stop k d me o w
    (body_succ (via objects (call (fun _ => objects) [method] wrong stop k d o)) rfl rfl o k w h h' hc h'')

/-- What a call of the method comes to, by names: the factorial. -/
theorem comes_to (wrong stop : Val) (k : Nat) (w : Toy) : ∀ (m d : Nat) (me o : Val), m < d →
    call (fun _ => objects) [method] wrong stop k d me fact o [Arith.num m] w = (.ok (Arith.num (m.factorial : Nat)), w) := by
  intro m
  induction m with
  | zero =>
    intro d me o h
    obtain ⟨d, rfl⟩ : ∃ i, d = i + 1 := ⟨d - 1, by omega⟩
    rw [Nat.factorial_zero, Nat.cast_one, ← one_num]
    refine called wrong stop k d me o w (body_zero (via objects (call (fun _ => objects) [method] wrong stop k d o)) rfl o k w ?_)
    rw [zero_num, Arith.C06_eq, decide_eq_true (by omega)]
  | succ m ih =>
    intro d me o h
    obtain ⟨d, rfl⟩ : ∃ i, d = i + 1 := ⟨d - 1, by omega⟩
    refine called_succ wrong stop k d me o w ?_ ?_ (ih d o o (by omega)) ?_
    · rw [zero_num, Arith.C06_eq, decide_eq_false (by omega)]
    · rw [one_num, Arith.C04_sub, show ((m + 1 : Nat) : Int) - 1 = m by omega]
    · rw [Arith.C04_mul, ← Int.natCast_mul, Nat.factorial_succ]

/-- **C82**, for this method: it compiles, and for every number, of any size, calling it returns the factorial: the code calls
itself as often as needed. -/
theorem C82_factorial : ∃ M T, List.Forall₂ (Compiles name (fun _ => 0) T) [method] M ∧ T.Room ∧
    ∀ (wrong stop : Val) (m d : Nat) (me o : Val) (σ : St Toy), m < d →
      (world (fun _ => Meaning.World.numbers) M (invoke (fun _ => Meaning.World.numbers) T M wrong stop d) me).send (name fact) o
        [Arith.num m] σ = (.ok (Arith.num (m.factorial : Nat)), σ) := by
  obtain ⟨M, T, h1, h2, -⟩ : ∃ M T, List.Forall₂ (Compiles name (fun _ => 0) T) [method] M ∧ _ :=
    C82_methods_compile_partial name (fun _ => 0) [source] (by simpa using fine) [] [] []
    (by decide +kernel) (by decide +kernel) (by decide +kernel)
  refine ⟨M, T, h1, h2, fun wrong stop m d me o σ h => ?_⟩
  have hc := comes_to wrong stop 0 σ.w m d me o h
  rw [C82_calls_do_what_methods_say_partial (O := fun _ => objects) h2 (fun _ => acts) h1
    (by
      intro f hf x hx
      rw [List.mem_singleton.1 hf] at hx ⊢
      exact name_inj x fact (by decide) hx)
    wrong stop 0 d me fact o [Arith.num m] σ (by rw [hc]; simp), hc]
  rfl

end Verif.Methods.Factorial
