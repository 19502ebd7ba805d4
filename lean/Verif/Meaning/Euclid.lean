import Verif.Meaning.Props
/-!
# A program for C77: Euclid's algorithm

The hypotheses of `C77_integer_programs_compute_partial` are met: a world whose operators are those of `Verif.Arith`, and a
program text with a loop, run for all numbers.
-/
namespace Verif.Meaning
open Verif.Lexer (Chars BinOp Unicode)
open Verif.Parser (Node Lines Parses Tree)
open Verif.Pipeline (Names lower context Room)
open Verif.ISeq (optimize)
open Verif.Codegen (Id Env World St R Const CaseMap CaseMap2 gen_iseq Loaded Steps Toy Eff)
open Verif.Value (Val)

namespace World

/-- The result of an operator; an exception is some value. -/
def ofRes {A : Type} (r : Arith.Res A) (σ : St Toy) : Eff Toy Val A :=
  match r with
  | .ok v => (.ok v, σ)
  | .error _ => (.error Value.nil, σ)

/-- The operators of `Verif.Arith`; `nil` for those that it does not have. -/
def bin : Codegen.BinOp → Val → Val → St Toy → Eff Toy Val Val
  | .add, a, b => ofRes (Arith.invoke_op (· + ·) a b)
  | .sub, a, b => ofRes (Arith.invoke_op (· - ·) a b)
  | .mul, a, b => ofRes (Arith.invoke_mul a b)
  | .div, a, b => ofRes (Arith.invoke_div a b)
  | .rem, a, b => ofRes (Arith.invoke_rem a b)
  | .exp, a, b => ofRes (Arith.invoke_exp a b)
  | .cmp, a, b => ofRes (Arith.invoke_compare a b)
  | _, _, _ => fun σ => (.ok Value.nil, σ)

def cmp : Codegen.CmpOp → Val → Val → St Toy → Eff Toy Val Bool
  | .lt, a, b => ofRes (Arith.eval_cmp .lt a b)
  | .le, a, b => ofRes (Arith.eval_cmp .le a b)
  | .gt, a, b => ofRes (Arith.eval_cmp .gt a b)
  | .ge, a, b => ofRes (Arith.eval_cmp .ge a b)
  | .eq, a, b => ofRes (Arith.eval_eq a b)
  | .ne, a, b => ofRes ((Arith.eval_eq a b).map (!·))

/-- The toy world of C31 with these operators. -/
def numbers : World Toy Val :=
  { Toy.world with
    bin := bin
    binI := fun op v i σ => bin op v (Value.integer i.toInt) σ
    binI_eq := fun _ _ _ _ _ => rfl
    cmp := cmp
    cmpI := fun op v i σ => cmp op v (Value.integer i.toInt) σ
    cmpI_eq := fun _ _ _ _ => rfl
    un := fun op v σ => if op = .neg then ofRes (Arith.invoke_neg v) σ else (.ok v, σ) }

theorem ops : Ops numbers Value.nil where
  add _ _ _ _ h := by simp [numbers, bin, h, ofRes]
  sub _ _ _ _ h := by simp [numbers, bin, h, ofRes]
  mul _ _ _ _ h := by simp [numbers, bin, h, ofRes]
  div _ _ _ _ h := by simp [numbers, bin, h, ofRes]
  div0 _ _ _ h := by simp [numbers, bin, h, ofRes]
  rem _ _ _ _ h := by simp [numbers, bin, h, ofRes]
  rem0 _ _ _ h := by simp [numbers, bin, h, ofRes]
  exp _ _ _ _ h := by simp [numbers, bin, h, ofRes]
  compare _ _ _ _ h := by simp [numbers, bin, h, ofRes]
  lt _ _ _ _ h := by simp [numbers, cmp, h, ofRes]
  le _ _ _ _ h := by simp [numbers, cmp, h, ofRes]
  gt _ _ _ _ h := by simp [numbers, cmp, h, ofRes]
  ge _ _ _ _ h := by simp [numbers, cmp, h, ofRes]
  eq _ _ _ _ h := by simp [numbers, cmp, h, ofRes]
  ne _ _ _ _ h := by simp [numbers, cmp, h, ofRes, Except.map]
  neg _ _ _ h := by simp [numbers, h, ofRes]

end World

namespace Euclid

abbrev a : Chars := ['a']
abbrev b : Chars := ['b']

theorem var_a : Parser.VarName a :=
  ⟨.ident (.plain (c := 'a') (t := []) (.inl (by decide)) (by simp)) (by intro r; cases r <;> decide)
    (by rintro c t h; cases h; decide), by decide⟩

theorem var_b : Parser.VarName b :=
  ⟨.ident (.plain (c := 'b') (t := []) (.inl (by decide)) (by simp)) (by intro r; cases r <;> decide)
    (by rintro c t h; cases h; decide), by decide⟩

/-- The program for two numbers. -/
def text (m n : Nat) : Chars :=
  " a = ".toList ++ Parser.decimal m ++ " ; b = ".toList ++ Parser.decimal n ++
    " ; while b != 0 ; a , b = b , a % b ; end ; a".toList

/-- A number in a program. -/
@[irreducible] def lit (m : Nat) : Node := if (m : Int) ≤ Lexer.i64Max then .Integer m else .Bignum m

theorem lit_cases (m : Nat) :
    (lit m = .Integer m ∧ (m : Int) ≤ Lexer.i64Max) ∨ (lit m = .Bignum m ∧ Lexer.i64Max < (m : Int)) := by
  unfold lit
  split
  · exact .inl ⟨rfl, ‹_›⟩
  · exact .inr ⟨rfl, by omega⟩

/-- What the text stands for. -/
def trees (m n : Nat) : List Node :=
  [.MulAssign [.Ident a] [lit m], .MulAssign [.Ident b] [lit n],
   .While (.BinOp .Ne (.LocalVar b) (.Integer 0))
     (.MulAssign [.LocalVar a, .LocalVar b] [.LocalVar b, .BinOp .Rem (.LocalVar a) (.LocalVar b)]) true,
   .LocalVar a]

theorem tree_lit (Γ : List Chars) (m : Nat) : Tree Γ (lit m) Γ := by
  rcases lit_cases m with ⟨h, h'⟩ | ⟨h, h'⟩ <;> rw [h]
  · exact .int (by simp only [Lexer.i64Max]; omega) h'
  · exact .big (.inr h')

theorem print_lit (m : Nat) : Parser.wrap 2 (lit m) (Parser.body (lit m)) = ' ' :: Parser.decimal m := by
  have h0 : ¬ (m : Int) < 0 := by omega
  rcases lit_cases m with ⟨h, h'⟩ | ⟨h, h'⟩ <;> rw [h]
  · rw [show Parser.body (.Integer m) = Parser.number m from rfl, Parser.number, if_neg h0, Parser.wrap, Parser.lvl_int, if_neg h0, if_neg (by omega), Int.natAbs_natCast]
  · rw [show Parser.body (.Bignum m) = Parser.number m from rfl, Parser.number, if_neg h0, Parser.wrap, Parser.lvl_big, if_neg h0, if_neg (by omega), Int.natAbs_natCast]

theorem print_assign (x : Char) (e : Node) :
    Parser.print 2 (.MulAssign [.Ident [x]] [e]) = [' ', x, ' ', '='] ++ Parser.wrap 2 e (Parser.body e) := by
  have : Parser.print 2 (.MulAssign [.Ident [x]] [e]) = Parser.body (.MulAssign [.Ident [x]] [e]) := rfl
  rw [this]
  show _ ++ ' ' :: '=' :: (Parser.wrap 2 e (Parser.body e) ++ []) = _
  rw [List.append_nil]
  rfl

theorem reads (m n : Nat) : Lines false [] (text m n) (trees m n) [b, a] := by
  have ha : Tree [b, a] (.LocalVar a) [b, a] := .lvar var_a (by decide)
  have hb : Tree [b, a] (.LocalVar b) [b, a] := .lvar var_b (by decide)
  have h0 : Tree [b, a] (.Integer 0) [b, a] := .int (by decide) (by decide)
  have body : Parser.Expr false [b, a] _ _ _ := .mulAssign (ls := [.LocalVar b]) (.inl .lvar) ha (by simp)
    (by simp; exact .lvar var_b (by decide)) (by simp) (.cons hb (.cons (.bin (op := .Rem) ha hb) .nil))
  refine Pipeline.Demo.Lines.cast (.more (.statement (.expr (.arg (.tree (.assignNew var_a (by decide) (tree_lit [a] m))))))
    (.more (.statement (.expr (.arg (.tree (.assignNew var_b (by decide) (tree_lit [b, a] n))))))
    (.more (.statement (.expr (.arg (.while (.arg (.tree (.bin (op := .Ne) hb h0))) (.some (.one (.statement (.expr body))))))))
    (.one (.statement (.expr (.arg (.tree ha)))))))) ?_ rfl rfl
  rw [print_assign, print_assign, print_lit, print_lit]
  show _ = text m n
  unfold text
  have : ∀ s : Chars, [' ', 'a', ' ', '='] ++ ' ' :: Parser.decimal m ++ (Parser.word ";" ++
      ([' ', 'b', ' ', '='] ++ ' ' :: Parser.decimal n ++ s)) = " a = ".toList ++ Parser.decimal m ++ " ; b = ".toList ++
        Parser.decimal n ++ s := by
    intro s
    simp [Parser.word]
  rw [this]
  refine congrArg _ ?_
  decide +kernel

theorem ints_lit (vars : List Chars) (m : Nat) : Ints vars false (lit m) true := by
  rcases lit_cases m with ⟨h, h'⟩ | ⟨h, h'⟩ <;> rw [h, Ints]
  · simp only [Lexer.i64Max] at h'
    omega
  · simp only [Lexer.i64Max] at h'
    exact ⟨rfl, by omega⟩

theorem ints (m n : Nat) : IntsSeq [b, a] false (trees m n) true := by
  simp only [trees, IntsSeq, Ints, IntsAll, nameOf, ints_lit, isLogic, binOps, List.length_cons, List.length_nil]
  refine ⟨⟨⟨a, rfl, by decide⟩, trivial⟩, ⟨⟨b, rfl, by decide⟩, trivial⟩,
    ⟨⟨by decide, by decide, by decide⟩, trivial, trivial, by decide, ⟨[a, b], rfl, by decide, by decide⟩, by decide, ⟨by decide, by decide, by decide⟩, trivial⟩, by decide⟩

theorem run_lit (k m : Nat) (ρ : Store) : run k (lit m) ρ = some (.value (.int m), ρ) := by
  rcases lit_cases m with ⟨h, h'⟩ | ⟨h, h'⟩ <;> rw [h, run]

/-- The loop. -/
theorem loop (k : Nat) : ∀ (q p : Nat) (ρ : Store), ρ a = .int p → ρ b = .int q → ∀ j, q < j →
    ∃ ρ', rounds (run k (.BinOp .Ne (.LocalVar b) (.Integer 0)))
      (run k (.MulAssign [.LocalVar a, .LocalVar b] [.LocalVar b, .BinOp .Rem (.LocalVar a) (.LocalVar b)])) true j ρ =
        some (.value .nil, ρ') ∧ ρ' a = .int (Nat.gcd p q) := by
  intro q
  induction q using Nat.strongRecOn with
  | _ q ih =>
    intro p ρ ha hb j hj
    obtain ⟨j, rfl⟩ : ∃ i, j = i + 1 := ⟨j - 1, by omega⟩
    have hcond : run k (.BinOp .Ne (.LocalVar b) (.Integer 0)) ρ = some (.value (.bool (decide (q ≠ 0))), ρ) := by
      simp [run, onValue, apply, hb]
    rw [rounds, hcond]
    by_cases h : q = 0
    · subst h
      exact ⟨ρ, by simp [V.truthy], by simp [ha]⟩
    · have hq : (q : Int) ≠ 0 := by omega
      have hbody : run k (.MulAssign [.LocalVar a, .LocalVar b] [.LocalVar b, .BinOp .Rem (.LocalVar a) (.LocalVar b)]) ρ =
          some (.value .nil, (ρ.set a (.int q)).set b (.int ((p % q : Nat) : Int))) := by
        have : (p : Int).fmod q = ((p % q : Nat) : Int) := by
          rw [Int.fmod_eq_emod_of_nonneg _ (by omega)]; rfl
        have hr : run k (.BinOp .Rem (.LocalVar a) (.LocalVar b)) ρ = some (.value (.int ((p % q : Nat) : Int)), ρ) := by
          simp only [run, onValue, ha, hb, apply, arith, if_neg hq, this, Option.map]
        have hl : runAll k [.LocalVar b, .BinOp .Rem (.LocalVar a) (.LocalVar b)] ρ =
            some (.ok [.int q, .int ((p % q : Nat) : Int)], ρ) := by
          have e1 : run k (.LocalVar b) ρ = some (.value (.int q), ρ) := by rw [run, hb]
          simp only [runAll, hr, e1]
        rw [run, hl]
        · rfl
        · simp
        · simp
      obtain ⟨ρ', h1, h2⟩ := ih (p % q) (Nat.mod_lt _ (by omega)) q
        ((ρ.set a (.int q)).set b (.int ((p % q : Nat) : Int))) rfl rfl j
        (by have := Nat.mod_lt p (show q > 0 by omega); omega)
      refine ⟨ρ', ?_, by rw [h2, Nat.gcd_comm p q, Nat.gcd_rec q p, Nat.gcd_comm]⟩
      dsimp only
      rw [hbody]
      simpa [V.truthy, h] using h1

/-- The program comes to the greatest common divisor. -/
theorem gcd (m n : Nat) : ∃ k ρ, program k (trees m n) = some (.returns (.int (Nat.gcd m n)), ρ) := by
  obtain ⟨ρ', h1, h2⟩ := loop (n + 1) n m ((Store.set (fun _ => .nil) a (.int m)).set b (.int n))
    rfl rfl (n + 1) (by omega)
  refine ⟨n + 1, ρ', ?_⟩
  have : runSeq (n + 1) (trees m n) (fun _ => .nil) = some (.value (.int (Nat.gcd m n)), ρ') := by
    rw [trees, runSeq, run, run_lit]
    · show runSeq _ _ (Store.set (fun _ => .nil) a (.int m)) = _
      rw [runSeq, run, run_lit]
      · show runSeq _ _ ((Store.set (fun _ => .nil) a (.int m)).set b (.int n)) = _
        rw [runSeq, run, h1]
        · show runSeq _ _ ρ' = _
          rw [runSeq, run, h2]
        · simp
      · simp
    · simp
  rw [program, this]

/-- Numbering of the names. -/
def name : Names := Pipeline.Demo.name

/-- **C77**, for this program: for all numbers, of any size, the code for the text of Euclid's algorithm returns the greatest
common divisor. -/
theorem C77_euclid (U : Unicode) (m n : Nat) :
    ∃ tree c g fuel code, Parses U (text m n) tree [b, a] ∧ lower name tree = some c ∧
      gen_iseq (context name [b, a] (· + 1000)) c (.start [] [] [] 0) = .ok ((), g) ∧ optimize fuel g.code = some code ∧
      ∀ K : Env Toy Val, K.world = World.numbers → Loaded g K → Room K →
        ∃ σ, Steps K code (.at 0 ⟨[], Toy.init⟩) (.done (.ret (Arith.num (Nat.gcd m n)) σ)) := by
  have hsize : nodesAll (trees m n) < 2 ^ 22 := by
    have : ∀ m, nodes (lit m) = 1 := by
      intro m; rcases lit_cases m with ⟨h, h'⟩ | ⟨h, h'⟩ <;> simp [h, nodes]
    simp [trees, nodesAll, nodes, this]
  obtain ⟨tree, c, g, fuel, code, h1, h2, h3, h4, h5⟩ := C77_integer_programs_compute_partial (W := Toy) (X := Val) U name
    (· + 1000) (reads m n) (ints m n) (by decide) (by decide) hsize [] [] [] 0 (by decide) (by decide) (by decide)
  refine ⟨tree, c, g, fuel, code, h1, h2, h3, h4, fun K hw hK hR => ?_⟩
  obtain ⟨k, ρ, hp⟩ := gcd m n
  obtain ⟨σ, hs, -⟩ := h5 K Value.nil (by rw [hw]; exact World.ops) hK hR k _ ρ hp Toy.init fun _ => rfl
  exact ⟨σ, hs⟩

end Euclid

/-- Other ends: a division by zero, and a `return` in a loop, `x = 5; while true; x = x - 2; return x if x < 0; end`. -/
example : (program 1 [.BinOp .Div (.Integer 1) (.Integer 0)]).map Prod.fst = some .divisionByZero := by
  simp [program, runSeq, run, onValue, apply, arith]

example : IntsSeq [Euclid.a] false [.MulAssign [.Ident Euclid.a] [.Integer 5], .While (.Bool true)
    (.CompStmt [.AssignOp .Sub (.LocalVar Euclid.a) (.Integer 2),
      .If (.BinOp .Lt (.LocalVar Euclid.a) (.Integer 0)) (.Return (.LocalVar Euclid.a)) (.CompStmt [])]) true] true := by
  simp [IntsSeq, Ints, nameOf, isLogic, binOps, opAssigns]

end Verif.Meaning
