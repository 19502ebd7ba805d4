import Verif.Parser.Multi
import Verif.Parser.Depth
/-!
# C49: operator precedence and associativity

`program l` (`Spec`) is the text of the statements `l`, with the parentheses that the precedence table demands and no
others.  Parsing it gives `l` back.
-/
namespace Verif.Parser
open Verif.Lexer (Chars Unicode BinOp Punct Reserved Tok)

/-- The parser reads the text as this tree, and the program has these local variables. -/
def Parses (U : Unicode) (code : Chars) (tree : Node) (vars : List Chars) : Prop :=
  ∃ N, ∀ n ≥ N, parse_program U n code = .ok (tree, vars)

/-- The parser answers with this error. -/
def Rejects (U : Unicode) (code : Chars) (e : Err) : Prop :=
  ∃ N, ∀ n ≥ N, parse_program U n code = .error e

/-- **C49** (depth).  The recursion depth of the model is no part of the parser's answer: once it answers at some depth,
it gives that answer at every greater one. -/
theorem C49_depth (U : Unicode) {n k : Nat} (h : n ≤ k) (code : Chars) (hn : parse_program U n code ≠ .error .fuel) :
    parse_program U k code = parse_program U n code :=
  ((parse_program_mono U h code).resolve_left hn).symm

theorem Parses.of {U : Unicode} {n : Nat} {code : Chars} {t : Node} {v : List Chars}
    (h : parse_program U n code = .ok (t, v)) : Parses U code t v :=
  ⟨n, fun _ hk => (C49_depth U hk code (by simp [h])).trans h⟩

theorem Rejects.of {U : Unicode} {n : Nat} {code : Chars} {e : Err} (he : e ≠ .fuel)
    (h : parse_program U n code = .error e) : Rejects U code e :=
  ⟨n, fun _ hk => (C49_depth U hk code (by simp [h, he])).trans h⟩

theorem Parses.unique {U : Unicode} {code : Chars} {t t₂ : Node} {v v₂ : List Chars} (h : Parses U code t v)
    (h₂ : Parses U code t₂ v₂) : t = t₂ ∧ v = v₂ := by
  obtain ⟨N, h⟩ := h
  obtain ⟨M, h₂⟩ := h₂
  have := (h (N + M) (by omega)).symm.trans (h₂ (N + M) (by omega))
  simpa using this

theorem program_run {U : Unicode} {code : Chars} {t : Node} {v : List Chars}
    (h : Runs (fun p => p.comp_stmt) (env U false false) ⟨code, []⟩ t ⟨[], v⟩) : Parses U code t v := by
  obtain ⟨N, hN⟩ := h
  refine ⟨N, fun n hn => ?_⟩
  unfold parse_program
  have := hN n hn
  simp only at this
  rw [show (⟨U, false, false, false⟩ : Env) = env U false false from rfl, this]
  rfl

/-- **C49**.  Any statements, written out with only the parentheses that precedence and associativity demand, are read
back as the same statements (apart from the parentheses), with the same local variables known after them. -/
theorem C49_program (U : Unicode) {l : List Node} {Γ : List Chars} (h : Stmts [] l Γ) :
    ∃ l', stripAll l' = l ∧ Parses U (program l) (.CompStmt l') Γ := by
  obtain ⟨l', h1, h2⟩ := comp_stmt_run (m := false) (d := false) (rest := []) (stmts_claim U h) (.inl rfl)
  rw [List.append_nil] at h2
  exact ⟨l', h1, program_run h2⟩

/-- **C49** (one expression). -/
theorem C49_expression (U : Unicode) {e : Node} {Γ : List Chars} (h : Tree [] e Γ) :
    ∃ e', strip e' = e ∧ Parses U (print 1 e) (.CompStmt [e']) Γ := by
  obtain ⟨l', h1, h2⟩ := C49_program U (.cons h .nil)
  obtain ⟨e', rfl⟩ : ∃ e', l' = [e'] := by
    have := stripAll_length l'
    rw [h1] at this
    rcases l' with _ | ⟨a, _ | ⟨b, l'⟩⟩
    · cases this
    · exact ⟨a, rfl⟩
    · simp at this
  refine ⟨e', ?_, ?_⟩
  · simpa [stripAll] using h1
  · have : program [e] = print 1 e := (stmts_one e).trans (List.append_nil _)
    rwa [this] at h2

/-- **C49** (no ambiguity).  Two different programs are never written the same way. -/
theorem C49_unambiguous {l l₂ : List Node} {Γ Γ₂ : List Chars} (h : Stmts [] l Γ) (h₂ : Stmts [] l₂ Γ₂)
    (he : program l = program l₂) : l = l₂ ∧ Γ = Γ₂ := by
  let U : Unicode := ⟨fun _ => false, fun _ => false⟩
  obtain ⟨a, h1, h2⟩ := C49_program U h
  obtain ⟨b, h3, h4⟩ := C49_program U h₂
  rw [he] at h2
  obtain ⟨e1, e2⟩ := h2.unique h4
  cases e1
  exact ⟨h1.symm.trans h3, e2⟩

/-- **C49** (statements).  Every text of the grammar of statements (`Grammar`) is read as the tree the grammar gives it:
`and` and `or` bind less tightly than everything else and equally tightly, from the left; a modifier takes the whole
statement before it; an `else` belongs to the nearest open conditional; the branches and bodies are the statements up to
their closing words; a jump takes the value after it; several values make an array and several targets a multiple
assignment. -/
theorem C49_statements (U : Unicode) {text : Chars} {l : List Node} {Γ : List Chars} (h : Lines false [] text l Γ) :
    ∃ l', stripAll l' = l ∧ Parses U text (.CompStmt l') Γ := by
  obtain ⟨l', h1, h2⟩ := lines_run (U := U) (d := false) h
  exact ⟨l', h1, program_run h2⟩

/-- **C49** (no ambiguity of statements).  A text of the grammar has one meaning. -/
theorem C49_statements_unambiguous {text : Chars} {l l₂ : List Node} {Γ Γ₂ : List Chars} (h : Lines false [] text l Γ)
    (h₂ : Lines false [] text l₂ Γ₂) : l = l₂ ∧ Γ = Γ₂ := by
  let U : Unicode := ⟨fun _ => false, fun _ => false⟩
  obtain ⟨a, h1, h2⟩ := C49_statements U h
  obtain ⟨b, h3, h4⟩ := C49_statements U h₂
  obtain ⟨e1, e2⟩ := h2.unique h4
  cases e1
  exact ⟨h1.symm.trans h3, e2⟩

/-! ## `||=` and `&&=` -/

/-- What `x ||= e` and `x &&= e` read `x` as: a new name becomes a local variable. -/
def asVariable : Node → Node
  | .Ident x => .LocalVar x
  | e => e

section
variable {U : Unicode} {Γ Γ₁ Γ₂ : List Chars} {l r : Node} {rest : Chars} {m d : _root_.Bool}

theorem short_assign_good {op : BinOp} (hop : op = .LOr ∨ op = .LAnd) (hlv : 17 ≤ lvl l) (h1 : Claim U Γ l Γ₁) (h2 : Claim U Γ₁ r Γ₂)
    (hr : ∀ x, r ≠ .Splat x) :
    Starts U 2 (print 17 l ++ ' ' :: ((binText op ++ ['=']) ++ print 2 r)) ∧
    Good U 2 (print 17 l ++ ' ' :: ((binText op ++ ['=']) ++ print 2 r)) Γ
      (fun e' => strip e' = .BinOp op (asVariable l) (.MulAssign [asVariable l] [r])) (varsAfter l Γ₂) := by
  have hs := h1.print_starts (k := 15) (p := 17) (by omega) (by omega)
  have hs2 := h2.print_starts (k := 2) (p := 2) (by omega) (by omega)
  have htext := assign_op_text (.inr hop)
  refine ⟨starts_append (hs.mono (by omega)) fun rest _ => ends_sp _, ?_⟩
  intro m d rest hf1
  have hfol : Follow U m 14 (' ' :: (((binText op ++ ['=']) ++ print 2 r) ++ rest)) := by
    rw [List.append_assoc]
    exact follow_op (r := print 2 r ++ rest) htext (k := 14) rfl (by omega) (by simp) (by simp) (.inr (hs2.space _))
  obtain ⟨l', hl1, hl2⟩ := h1.print_good (k := 15) (p := 17) (by omega) (by omega) (by omega) m d _ hfol
  obtain ⟨r', hr1, hr2⟩ := h2.print_good (k := 2) (p := 2) (by omega) (by omega) (by omega) m d rest hf1
  have has : strip (asVariable l') = asVariable l := by
    by_cases hl : ∃ y, l = .Ident y
    · obtain ⟨y, rfl⟩ := hl; rw [strip_ident hl1]; rfl
    · have : ∀ y, l' ≠ .Ident y := by
        rintro y rfl; exact hl ⟨y, hl1.strip.symm⟩
      have e2 : asVariable l = l := by
        cases l <;> first | rfl | exact absurd ⟨_, rfl⟩ hl
      rw [e2, ← hl1.strip]
      cases l' <;> first | rfl | exact absurd rfl (this _)
  refine ⟨.BinOp op (asVariable l')
    (.MulAssign [asVariable l'] [r']), ?_, ?_⟩
  · have hp := lhs_plain hlv hl1
    have hq : (if isList (asVariable l') then
        asVariable l' else
        strip (asVariable l')) = asVariable l := by
      cases l' <;> first | exact has | skip
      rw [show l = _ from hp.symm]; rfl
    show Node.BinOp op (strip _) (.MulAssign [if isList _ then _ else strip _] [strip r']) = _
    rw [hq, has, hr1.strip]
  · rw [List.append_assoc, List.cons_append]
    have hbg := hs.2 _ (ends_sp (((binText op ++ ['=']) ++ print 2 r) ++ rest))
    refine chain_le (j := 14) (by omega) (by omega) (by omega) (hbg.mono (by omega)).opens hf1 (unary_minus_of hbg.opens hl2 ?_)
    refine acc_assign_eq rfl ?_
    rw [List.append_assoc]
    have htok : Lexer.read_token U (' ' :: ((binText op ++ ['=']) ++ (print 2 r ++ rest))) = _ :=
      read_text htext (hs2.ends _)
    refine Runs.no (cpn_no htok (by simp)) ?_
    refine Runs.step (assign_op_some htok) ?_
    show Runs (fun p => p.assign_op l' op) _ _ _ _
    refine Runs.up (g := fun p => parse_assign_op p l' op) (fun _ => rfl) ?_
    unfold parse_assign_op
    refine Runs.step (get_eq (skips_of (fl := env U m d) htok rfl) (by simp)) ?_
    refine Runs.bind hr2 ?_
    refine Runs.step check_lhs_eq ?_
    rw [lhs_vars hl1]
    rw [← mul_assign_one hr1.strip hr]
    rcases hop with rfl | rfl <;> cases l' <;> exact Runs.pure _
end

/-- **C49** (shorthands).  `x ||= e` is read as `x || (x = e)`, and `x &&= e` as `x && (x = e)`, for everything that can
be assigned to; a name that is new becomes a local variable. -/
theorem C49_short_assign (U : Unicode) {op : BinOp} (hop : op = .LOr ∨ op = .LAnd) {l r : Node} {Γ₁ Γ₂ : List Chars}
    (ht : Target l ∨ ∃ x, l = .Ident x) (hl : Tree [] l Γ₁) (hr : Tree Γ₁ r Γ₂) :
    ∃ e, strip e = .BinOp op (asVariable l) (.MulAssign [asVariable l] [r]) ∧
      Parses U (print 17 l ++ ' ' :: (binText op ++ '=' :: print 2 r)) (.CompStmt [e])
        (varsAfter l Γ₂) := by
  have hns := hr.not_splat
  obtain ⟨hs, hg⟩ := short_assign_good hop (ht.elim Target.lvl (by rintro ⟨x, rfl⟩; exact (by decide : 17 ≤ 18))) (tree_claim U hl).1 (tree_claim U hr).1 hns
  have hfol : Follow U false 0 [] := Closes.follow (.inl rfl)
  obtain ⟨e', h1, h2⟩ := (hg.down (k := 1) (by omega) (by omega) (by omega) hs) false false [] hfol
  refine ⟨e', h1, ?_⟩
  rw [List.append_nil, List.append_assoc] at h2
  refine program_run ?_
  obtain ⟨t, a, hsk, ht⟩ := (hs.2 [] hfol.ends).skips
  rw [List.append_nil, List.append_assoc] at hsk
  refine Runs.up (g := fun p => parse_comp_stmt p) (fun _ => rfl) ?_
  unfold parse_comp_stmt
  refine Runs.step (peek_eq (fl := env U false false) hsk) ?_
  refine Runs.up (g := fun p => parse_comp_stmt_loop p []) (fun _ => rfl) ?_
  unfold parse_comp_stmt_loop
  refine Runs.step (peek_eq (fl := env U false false) hsk) ?_
  have : check_stmt_end t = false := by
    unfold start at ht; split at ht <;> first | rfl | exact ht.elim
  simp only [this, Bool.false_eq_true, if_false]
  refine Runs.bind h2 ?_
  refine Runs.yes (consume_term_yes (s := []) (t := .Eof) (a := []) (s' := []) rfl rfl rfl) ?_
  exact stmts_end (Γ := varsAfter l Γ₂) (.inl rfl)

/-! ## Instances -/

open Lean Elab Tactic Meta in
/-- closes an equation by evaluation in the kernel -/
local elab "kernel_rfl" : tactic => do
  let g ← getMainGoal
  let some (_, l, _) := (← g.getType).eq? | throwError "not an equation"
  g.assign (← mkEqRefl l)

local macro "parse" n:num : tactic =>
  `(tactic| (simp only [String.reduceToList]; exact Parses.of (n := $n) (by kernel_rfl)))

local macro "reject" n:num : tactic =>
  `(tactic| (simp only [String.reduceToList]; exact Rejects.of (n := $n) (by decide) (by kernel_rfl)))

/-- `x` and `y` -/
private abbrev x : Chars := ['x']
private abbrev y : Chars := ['y']

theorem var_x : VarName x := 
  ⟨.ident (.plain (c := 'x') (t := []) (.inl (by decide)) (by simp)) (by intro r; cases r <;> decide)
    (by rintro c t h; cases h; decide), by decide⟩
theorem var_y : VarName y := 
  ⟨.ident (.plain (c := 'y') (t := []) (.inl (by decide)) (by simp)) (by intro r; cases r <;> decide)
    (by rintro c t h; cases h; decide), by decide⟩

/-- `x = 1 + 2 * 3; (1 + x) * -x ** 2; y < x ? [x, *y] : f(x - (1 - 2))`: the statements are in the scope of the theorem. -/
example : Stmts []
    [.MulAssign [.Ident x] [.BinOp .Add (.Integer 1) (.BinOp .Mul (.Integer 2) (.Integer 3))],
     .BinOp .Mul (.BinOp .Add (.Integer 1) (.LocalVar x)) (.UnOp .Neg (.BinOp .Exp (.LocalVar x) (.Integer 2))),
     .If (.BinOp .Lt (.Ident y) (.LocalVar x)) (.Array [.LocalVar x, .Splat (.Ident y)] false)
       (.Send .SelfValue y [.BinOp .Sub (.LocalVar x) (.BinOp .Sub (.Integer 1) (.Integer 2))] false)] [x] := by
  have i (Γ) (n : Int) (h : -Lexer.i64Max ≤ n) (h' : n ≤ Lexer.i64Max) : Tree Γ (.Integer n) Γ := .int h h'
  have hx : Tree [x] (.LocalVar x) [x] := .lvar var_x (by decide)
  have hy : Tree [x] (.Ident y) [x] := .ident var_y (by decide)
  refine .cons (.assignNew var_x (by decide) (.bin (i _ _ (by decide) (by decide))
    (.bin (i _ _ (by decide) (by decide)) (i _ _ (by decide) (by decide))))) (.cons (.bin (.bin (i _ _ (by decide) (by decide)) hx) (.un (.bin hx (i _ _ (by decide) (by decide)))))
    (.cons (.if_ (.bin hy hx) (.array (.cons hx (.splat hy .nil)) rfl)
      (.call (.inl var_y) (.cons (.bin hx (.bin (i _ _ (by decide) (by decide)) (i _ _ (by decide) (by decide)))) .nil))) .nil))

private theorem Lines.cast {m Γ s s' l l' Γ' Γ₂} (h : Lines m Γ s l Γ') (h1 : s = s') (h2 : l = l') (h3 : Γ' = Γ₂) :
    Lines m Γ s' l' Γ₂ := by subst h1 h2 h3; exact h

/-- The grammar of statements covers programs like this one. -/
example : Lines false [] (" x = 1 ; y = 2 , x ; while y < 9 or false ; x , y = y , * x ; break 1 ; end" ++
      " ; if x then return if y ; next ; elsif y ; else x = 3 ; end while x unless y").toList
    [.MulAssign [.Ident x] [.Integer 1],
     .MulAssign [.Ident y] [.Array [.Integer 2, .LocalVar x] false],
     .While (.BinOp .LOr (.BinOp .Lt (.LocalVar y) (.Integer 9)) (.Bool false))
       (.CompStmt [.MulAssign [.LocalVar x, .LocalVar y] [.Array [.LocalVar y, .Splat (.LocalVar x)] false], .Break (.Integer 1)]) true,
     .If (.LocalVar y) (.CompStmt []) (.While (.LocalVar x)
       (.If (.LocalVar x) (.CompStmt [.If (.LocalVar y) (.Return .Nil) (.CompStmt []), .Next .Nil])
         (.If (.LocalVar y) (.CompStmt []) (.MulAssign [.LocalVar x] [.Integer 3]))) true)] [y, x] := by
  have i (Γ) (n : Int) (h : -Lexer.i64Max ≤ n) (h' : n ≤ Lexer.i64Max) : Tree Γ (.Integer n) Γ := .int h h'
  have hx : Tree [x] (.LocalVar x) [x] := .lvar var_x (by decide)
  have hx2 : Tree [y, x] (.LocalVar x) [y, x] := .lvar var_x (by decide)
  have hy2 : Tree [y, x] (.LocalVar y) [y, x] := .lvar var_y (by decide)
  have ex {m} : Expr m [y, x] " x".toList (.LocalVar x) [y, x] := .arg (.tree hx2)
  have ey {m} : Expr m [y, x] " y".toList (.LocalVar y) [y, x] := .arg (.tree hy2)
  have s1 :=
    Lines.more (.statement (.expr (.mulAssign (ls := [.LocalVar y]) (.inl .lvar) hx2 (by simp) (by
      intro z hz; simp only [List.mem_singleton] at hz; subst hz; exact .lvar var_y (by decide)) (by simp)
      (.cons hy2 (.splat hx2 .nil)))))
    (.one (.statement (.expr (.arg (.jump .brk (i _ 1 (by decide) (by decide)))))))
  have s2 := Lines.more (m := false) (.jumpIf .ret ey) (.one (.jump .nxt))
  have s3 :=
    Lines.one (m := false) (.statement (.expr (.arg (.tree (.assign .lvar hx2 (i _ 3 (by decide) (by decide)))))))
  refine Lines.cast (.more (.statement (.expr (.arg (.tree (.assignNew var_x (by decide) (i _ 1 (by decide) (by decide)))))))
    (.more (.statement (.expr (.arg (.assignList (.inr ⟨y, rfl⟩) (.ident var_y (by decide)) (by simp)
      (.cons (i _ 2 (by decide) (by decide)) (.cons (.lvar var_x (by decide)) .nil))))))
    (.more (.statement (.expr (.arg (.while (.or (.arg (.tree (.bin hy2 (i _ 9 (by decide) (by decide))))) (.tree .bool)) (.some s1)))))
    (.one (.statement (.modified .unless_ (.modified .while_ (.expr (.arg (.if_ (.elsif ex (.inl rfl) (.some s2)
      (.els ey (.inr rfl) .none (.some s3)))))) ex) ey)))))) (by decide +kernel) rfl rfl

/-- Only the parentheses that are needed are written. -/
example : program [.BinOp .Mul (.BinOp .Add (.Integer 1) (.Integer 2)) (.UnOp .Neg (.BinOp .Exp (.Integer 3) (.Integer 4)))] =
    " ( 1 + 2 ) * - 3 ** 4".toList := by decide +kernel
example : program [.BinOp .Sub (.BinOp .Sub (.Integer 1) (.Integer 2)) (.BinOp .Sub (.Integer 3) (.Integer 4))] =
    " 1 - 2 - ( 3 - 4 )".toList := by decide +kernel
example : program [.BinOp .Exp (.BinOp .Exp (.Integer 1) (.Integer 2)) (.BinOp .Exp (.Integer 3) (.Integer 4))] =
    " ( 1 ** 2 ) ** 3 ** 4".toList := by decide +kernel
example : program [.BinOp .LOr (.BinOp .LAnd (.Integer 1) (.Integer 2)) (.BinOp .LAnd (.Integer 3) (.BinOp .LOr (.Integer 4) .Nil))] =
    " 1 && 2 || 3 && ( 4 || nil )".toList := by decide +kernel

example (U) : Parses U "2 ** 3 ** 2".toList
    (.CompStmt [.BinOp .Exp (.Integer 2) (.BinOp .Exp (.Integer 3) (.Integer 2))]) [] := by parse 120
example (U) : Parses U "x ||= 1".toList
    (.CompStmt [.BinOp .LOr (.LocalVar x) (.MulAssign [.LocalVar x] [.Integer 1])]) [x] := by parse 120

/-! ## What the parser gets wrong -/

/-- **C49** fails beyond the trees above: an assignment among arguments swallows the arguments after it.
`f(x = 1, 2)` passes one argument, the array `[1, 2]`. -/
theorem C49_assign_argument_fails (U : Unicode) : Parses U "f(x = 1, 2)".toList
    (.CompStmt [.Send .SelfValue ['f'] [.MulAssign [.Ident x] [.Array [.Integer 1, .Integer 2] true]] false]) [x] := by
  parse 160

/-- `x = (a, b = 1, 2)` is a syntax error. -/
theorem C49_paren_mul_assign_fails (U : Unicode) : Rejects U "x = (a, b = 1, 2)".toList .syntax := by reject 160

/-- A program that ends with the name of a method and a space is refused, although without the space it is not. -/
theorem C49_trailing_space_fails (U : Unicode) : Rejects U "foo ".toList .eof ∧
    Parses U "foo".toList (.CompStmt [.Ident "foo".toList]) [] := by
  constructor
  · reject 60
  · parse 60

/-- A call without its closing parenthesis is accepted at the end of a program. -/
theorem C49_unclosed_call_fails (U : Unicode) : Parses U "f(1".toList
    (.CompStmt [.Send .SelfValue ['f'] [.Integer 1] false]) [] := by parse 120

/-- `-x` as the right operand of `**`, or as the operand of `!`, `~` or `+`, makes the parser panic. -/
theorem C49_power_minus_fails (U : Unicode) : Rejects U "2 ** -x".toList .panic ∧ Rejects U "!-x".toList .panic ∧
    Rejects U "~-x".toList .panic ∧ Rejects U "+-x".toList .panic := by
  refine ⟨?_, ?_, ?_, ?_⟩ <;> reject 80

/-- `y&.x 1` is read as `y.x(1)`: it is no longer a safe navigation. -/
theorem C49_safe_command_fails (U : Unicode) : Parses U "y&.x 1".toList
    (.CompStmt [.Send (.Ident y) x [.Integer 1] false]) [] := by parse 120

/-- After the name of a method, `rescue` and `else` are taken for the start of its arguments. -/
theorem C49_rescue_else_fails (U : Unicode) : Rejects U "foo rescue 1".toList .syntax ∧
    Rejects U "if 1 then foo else 2 end".toList .syntax := by
  constructor <;> reject 120

/-- A number can be assigned to. -/
theorem C49_assign_literal_fails (U : Unicode) : Parses U "1 = 2".toList
    (.CompStmt [.MulAssign [.Integer 1] [.Integer 2]]) [] := by parse 120

/-- `A :: B` is read as the call `A(::B)`, not as the constant `B` of `A`. -/
theorem C49_scope_space_fails (U : Unicode) : Parses U "A :: B".toList
    (.CompStmt [.Send .SelfValue ['A'] [.Const true ['B']] false]) [] ∧
    Parses U "A::B".toList (.CompStmt [.Scope (.Const false ['A']) ['B']]) [] := by
  constructor <;> parse 120

/-- `break while x` is not a `break` with a modifier: the parser reads `while` as the start of its value. -/
theorem C49_break_while_fails (U : Unicode) : Rejects U "x = 1; break while x".toList .eof ∧
    Parses U "x = 1; break if x".toList (.CompStmt [.MulAssign [.Ident x] [.Integer 1],
      .If (.LocalVar x) (.Break .Nil) (.CompStmt [])]) [x] := by
  constructor
  · reject 160
  · parse 160

/-- The targets of a multiple assignment are not known in its values, although the target of a single one is:
`x, y = x, 1` calls a method `x`. -/
theorem C49_mul_assign_scope_fails (U : Unicode) : Parses U "x, y = x, 1".toList
    (.CompStmt [.MulAssign [.Ident x, .Ident y] [.Ident x, .Integer 1]]) [y, x] ∧
    Parses U "x = x".toList (.CompStmt [.MulAssign [.Ident x] [.LocalVar x]]) [x] := by
  constructor <;> parse 160

/-- There is no `not`: `not x` calls a method of that name. -/
theorem C49_not_fails (U : Unicode) : Parses U "not x".toList
    (.CompStmt [.Send .SelfValue ['n', 'o', 't'] [.Ident x] false]) [] := by parse 120

end Verif.Parser
