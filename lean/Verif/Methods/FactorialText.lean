import Verif.Methods.Text
import Verif.Methods.Factorial
/-!
# The text of the factorial (C82)
-/
namespace Verif.Methods.Factorial
open Verif.Lexer (Chars BinOp Unicode)
open Verif.Parser (Node Lines Parses Tree VarName stripAll)
open Verif.Pipeline (Names lower context Placed Has)
open Verif.ISeq (optimize)
open Verif.Codegen (Id World St Toy Eff Supported Plain Tame Legal Steps gen_iseq)
open Verif.Meaning.Named
open Verif.Meaning.Euclid (lit lit_cases tree_lit print_lit)
open Verif.Value (Val)

theorem var_n : VarName n :=
  ⟨.ident (.plain (c := 'n') (t := []) (.inl (by decide)) (by simp)) (by intro r; cases r <;> decide)
    (by rintro c t h; cases h; decide), by decide⟩

theorem var_fact : VarName fact :=
  ⟨.ident (.plain (c := 'f') (t := ['a', 'c', 't']) (.inl (by decide)) (by decide)) (by intro r; cases r <;> decide)
    (by rintro c t h; cases h; decide), by decide⟩

/-- The text of the body. -/
def inside : Chars := " if n == 0 ; 1 ; else n * fact( n - 1 ) ; end".toList

def definition : Definition := ⟨fact, [n], inside, [tree], []⟩

theorem reads_body : Lines false [n] inside [tree] [n] := by
  have hn : Tree [n] (.LocalVar n) [n] := .lvar var_n (by decide)
  have h0 : Tree [n] (.Integer 0) [n] := .int (by decide) (by decide)
  have h1 : Tree [n] (.Integer 1) [n] := .int (by decide) (by decide)
  have hc : Tree [n] (.Send .SelfValue fact [.BinOp .Sub (.LocalVar n) (.Integer 1)] false) [n] :=
    .call (.inl var_fact) (.cons (.bin hn h1) .nil)
  refine Pipeline.Demo.Lines.cast (.one (.statement (.expr (.arg (.if_ (.els (.arg (.tree (.bin (op := .Eq) hn h0))) (.inr rfl)
    (.some (.one (.statement (.expr (.arg (.tree h1))))))
    (.some (.one (.statement (.expr (.arg (.tree (.bin (op := .Mul) hn hc)))))))))))))
    (by decide +kernel) rfl rfl

theorem reads : definition.Reads := ⟨var_fact, by simpa [definition] using var_n, by simp [definition], reads_body⟩

theorem fine_text : definition.Fine name (fun _ => 0) ctree :=
  ⟨lowers, fine.placed, fine.supported, fine.plain, fine.tame, fine.vars, fine.names, fine.small⟩

/-- The whole text, for a number. -/
def text (m : Nat) : Chars :=
  " def fact( n ) ; if n == 0 ; 1 ; else n * fact( n - 1 ) ; end ; end ; fact( ".toList ++ Parser.decimal m ++ " )".toList

/-- The statement after the definition. -/
def last (m : Nat) : Node := .Send .SelfValue fact [lit m] false

theorem print_arg (m : Nat) : Parser.wrap 3 (lit m) (Parser.body (lit m)) = ' ' :: Parser.decimal m := by
  have h0 : ¬ (m : Int) < 0 := by omega
  rcases lit_cases m with ⟨h, h'⟩ | ⟨h, h'⟩ <;> rw [h]
  · rw [show Parser.body (.Integer m) = Parser.number m from rfl, Parser.number, if_neg h0, Parser.wrap, Parser.lvl_int, if_neg h0,
      if_neg (by omega), Int.natAbs_natCast]
  · rw [show Parser.body (.Bignum m) = Parser.number m from rfl, Parser.number, if_neg h0, Parser.wrap, Parser.lvl_big, if_neg h0,
      if_neg (by omega), Int.natAbs_natCast]

theorem print_last (m : Nat) : Parser.print 2 (last m) = " fact( ".toList ++ (Parser.decimal m ++ " )".toList) := by
  have : Parser.print 2 (last m) = ' ' :: (fact ++ '(' :: ((Parser.wrap 3 (lit m) (Parser.body (lit m)) ++ []) ++ [' ', ')'])) := rfl
  rw [this, print_arg]
  simp [fact]

theorem start : " def fact( n ) ; if n == 0 ; 1 ; else n * fact( n - 1 ) ; end ; end ; fact( ".toList =
    Parser.defText definition.name definition.params (definition.text ++ Parser.word ";") ++
      (Parser.word ";" ++ " fact( ".toList) := by
  decide +kernel

theorem glue (a b c d e : Chars) (h : a = b ++ (c ++ d)) : a ++ e = b ++ (c ++ (d ++ e)) := by
  rw [h]
  simp only [List.append_assoc]

theorem text_eq (m : Nat) : text m = Methods.source [definition] (Parser.print 2 (last m)) := by
  rw [print_last]
  unfold text
  rw [List.append_assoc]
  exact glue _ _ _ _ _ start

theorem reads_last (m : Nat) : Lines false [] (Parser.print 2 (last m)) [last m] [] :=
  .one (.statement (.expr (.arg (.tree (.call (.inl var_fact) (.cons (tree_lit [] m) .nil))))))

/-- The compiler's tree of the number. -/
@[irreducible] def clit (m : Nat) : Codegen.Node :=
  if (m : Int) ≤ Lexer.i64Max then .lit (.int m) else .lit (.big m)

theorem clit_cases (m : Nat) : (lit m = .Integer m ∧ clit m = .lit (.int m) ∧ (m : Int) ≤ Lexer.i64Max) ∨
    (lit m = .Bignum m ∧ clit m = .lit (.big m) ∧ Lexer.i64Max < (m : Int)) := by
  unfold lit clit
  split
  · exact .inl ⟨rfl, rfl, ‹_›⟩
  · exact .inr ⟨rfl, rfl, by omega⟩

def clast (m : Nat) : Codegen.Node := .seq (.of [.send .self 11 (.of [clit m])])

theorem lowers_last (m : Nat) : lower name (.CompStmt [last m]) = some (clast m) := by
  rcases clit_cases m with ⟨h, h', -⟩ | ⟨h, h', -⟩ <;> (unfold last clast; rw [h, h']; rfl)

/-- What the program comes to. -/
theorem program_last (wrong stop : Val) (m d : Nat) (self : Val) (w : Toy) (h : m < d) :
    program (fun _ => objects) [method] wrong stop 0 d self [last m] w =
      some (.returns (Arith.num (m.factorial : Nat)), ⟨fun _ => Value.nil, w⟩) := by
  have hc := comes_to wrong stop 0 w m d self self h
  have key : ∀ v : Val, call (fun _ => objects) [method] wrong stop 0 d self fact self [v] w = (.ok (Arith.num (m.factorial : Nat)), w) →
      ∀ e : Node, (∀ O : Objects Toy Val, ∀ s : State Toy, run O self 0 e true s = some (.value v, s)) →
      program (fun _ => objects) [method] wrong stop 0 d self [.Send .SelfValue fact [e] false] w =
        some (.returns (Arith.num (m.factorial : Nat)), ⟨fun _ => Value.nil, w⟩) := by
    intro v hv e he
    generalize Arith.num (m.factorial : Nat) = a at hv ⊢
    simp only [program, Meaning.Named.program, Methods.objects, runSeq, run, runAll, onValue, he, answer, hv]
  have he : ∃ v, Arith.num (m : Nat) = v ∧ ∀ O : Objects Toy Val, ∀ s : State Toy, run O self 0 (lit m) true s = some (.value v, s) := by
    rcases lit_cases m with ⟨h, h'⟩ | ⟨h, h'⟩ <;> rw [h]
    · refine ⟨Value.integer m, (Arith.integer_eq_num ⟨?_, ?_⟩).symm, fun O s => by rw [run]⟩ <;> (simp only [Lexer.i64Max] at h'; omega)
    · exact ⟨Value.bignum m, rfl, fun O s => by rw [run]⟩
  obtain ⟨v, hv, he⟩ := he
  rw [hv] at hc
  exact key v hc _ he

/-- **C82**, for a text: take the text `def fact( n ) ; if n == 0 ; 1 ; else n * fact( n - 1 ) ; end ; end ; fact( m )`, for any
`m`, of any size.  It is read, its method and its last statement are compiled, and running the code, with room for `m + 1`
calls, returns the factorial of `m`. -/
theorem C82_factorial_text (U : Unicode) (m : Nat) :
    ∃ ts l' M c consts case1 case2 g fuel code, Parses U (text m) (.CompStmt (ts ++ l')) [] ∧
      List.Forall₂ (Made name (fun _ => 0)) ts M ∧ lower name (.CompStmt l') = some c ∧
      gen_iseq (context name [] (fun _ => 0)) c (.start consts case1 case2 0) = .ok ((), g) ∧ optimize fuel g.code = some code ∧
      ∀ (wrong stop : Val) (d : Nat) (self : Val), m < d →
        ∃ σ', Steps (machine (fun _ => Meaning.World.numbers) ⟨g.consts, g.case1, g.case2⟩ M.reverse wrong stop d g.ex self) code
          (.at 0 ⟨[], Toy.init⟩) (.done (.ret (Arith.num (m.factorial : Nat)) σ')) := by
  have hs : Supported false (clast m) true true true := by
    rcases clit_cases m with ⟨h, h', -⟩ | ⟨h, h', -⟩ <;>
      simp [clast, h', Codegen.Nodes.of, Supported, Codegen.SupSeq, Codegen.SupAll, Codegen.Nodes.length, Codegen.Lit.silent]
  have hp : Plain (context name [] (fun _ => 0)) (clast m) true := by
    rcases clit_cases m with ⟨h, h', -⟩ | ⟨h, h', -⟩ <;>
      simp [clast, h', Codegen.Nodes.of, Codegen.Plain, Codegen.PlainSeq, Codegen.PlainAll]
  have hj : Placed (clast m) := by
    rcases clit_cases m with ⟨h, h', -⟩ | ⟨h, h', -⟩ <;>
      simp [clast, h', Codegen.Nodes.of, Placed, Legal, Codegen.LegalAll]
  have htame : Tame (clast m) := by
    rcases clit_cases m with ⟨h, h', -⟩ | ⟨h, h', -⟩ <;> simp [clast, h', Codegen.Nodes.of, Tame, Codegen.TameAll]
  have hwt : (clast m).weight < 1000 := by
    rcases clit_cases m with ⟨h, h', -⟩ | ⟨h, h', -⟩ <;> (unfold clast; rw [h']; simp [Codegen.Node.weight, Codegen.Nodes.of, Codegen.Nodes.weight, Codegen.Nodes.seqWeight])
  have hsp : space [ctree] < 1000 := by decide +kernel
  obtain ⟨ts, l', M, c, consts, case1, case2, g, fuel, code, q1, q2, q3, q4, q5, q6⟩ :=
    C82_texts_with_methods_do_what_they_say_partial (W := Toy) (X := Val) U name (fun _ => 0) (ds := [definition]) (es := [ctree])
    (by simpa using reads) (.cons fine_text .nil)
    (by
      intro d hd x hx
      rw [List.mem_singleton.1 hd] at hx ⊢
      exact name_inj x fact (by decide) hx)
    (reads_last m) (by simp) (lowers_last m) hs hp hj htame (by simp) (by omega) (by omega)
  rw [← text_eq] at q1
  refine ⟨ts, l', M, c, consts, case1, case2, g, fuel, code, q1, q2, q3, q4, q5, fun wrong stop d self h => ?_⟩
  obtain ⟨σ', k1, -, -⟩ := q6 (fun _ => objects) (fun _ => Meaning.World.numbers) wrong stop (fun _ => acts) 0 d self Toy.init
    (fun _ => rfl) _ _ (program_last wrong stop m d self _ h) (by simp)
  exact ⟨σ', k1⟩

end Verif.Methods.Factorial
