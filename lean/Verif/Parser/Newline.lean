import Verif.Parser.Chain
/-!
# C49: a line ends an expression
-/
namespace Verif.Parser
open Verif.Lexer (Chars Unicode BinOp Punct Reserved Tok read_token)

variable {U : Unicode} {m d : _root_.Bool} {s r : Chars} {Γ Γ' : List Chars} {e : Node}

theorem newline_token (U : Unicode) (r : Chars) : ∃ a, read_token U ('\n' :: r) = .ok (.LineTerm, a) :=
  ⟨(Lexer.skip_whitespace r).2, by simp [read_token, Lexer.skip_whitespace]⟩

theorem newline_tail {k : Nat} (hk : k ∈ leftLevels) : Runs (tail k e) (env U m d) ⟨'\n' :: r, Γ⟩ e ⟨'\n' :: r, Γ⟩ := by
  obtain ⟨a, h1⟩ := newline_token U r
  refine Runs.tail hk ?_
  unfold bin_loop
  refine Runs.step (peek_no_term_eq (fl := env U m d) h1) ?_
  exact Runs.pure _

theorem newline_step {k : Nat} (h3 : 3 ≤ k) (h13 : k ≤ 13) (h : Runs (entry (k + 1)) (env U m d) ⟨s, Γ⟩ e ⟨'\n' :: r, Γ'⟩) :
    Runs (entry k) (env U m d) ⟨s, Γ⟩ e ⟨'\n' :: r, Γ'⟩ := by
  obtain ⟨a, h1⟩ := newline_token U r
  have hl : is_line_term (env U m d) ⟨'\n' :: r, Γ'⟩ = .ok (true, ⟨'\n' :: r, Γ'⟩) := is_line_term_eq (fl := env U m d) h1
  have hc : ∀ q, consume_punct_no_term q (env U m d) ⟨'\n' :: r, Γ'⟩ = .ok (false, ⟨'\n' :: r, Γ'⟩) :=
    fun q => cpn_no (fl := env U m d) h1 (by simp)
  have : k = 3 ∨ k = 4 ∨ k = 5 ∨ k = 6 ∨ k = 7 ∨ k = 8 ∨ k = 9 ∨ k = 10 ∨ k = 11 ∨ k = 12 ∨ k = 13 := by omega
  rcases this with rfl | rfl | rfl | rfl | rfl | rfl | rfl | rfl | rfl | rfl | rfl
  · refine Runs.up (g := fun p => parse_arg_ternary p) (fun _ => rfl) ?_
    unfold parse_arg_ternary
    exact Runs.bind h (Runs.no (hc _) (Runs.pure _))
  · refine Runs.up (g := fun p => parse_arg_range p) (fun _ => rfl) ?_
    unfold parse_arg_range
    exact Runs.bind h (Runs.yes hl (Runs.pure _))
  · exact Runs.up (fun _ => rfl) (Runs.bind h (newline_tail (k := 5) (by decide)))
  · exact Runs.up (fun _ => rfl) (Runs.bind h (newline_tail (k := 6) (by decide)))
  · refine Runs.up (g := fun p => parse_arg_eq p) (fun _ => rfl) ?_
    unfold parse_arg_eq
    refine Runs.bind h ?_
    exact Runs.no (hc _) (Runs.no (hc _) (Runs.no (hc _) (Runs.no (hc _) (Runs.no (hc _) (Runs.pure _)))))
  · refine Runs.up (g := fun p => parse_arg_comp p) (fun _ => rfl) ?_
    unfold parse_arg_comp
    exact Runs.bind h (Runs.yes hl (Runs.pure _))
  · exact Runs.up (fun _ => rfl) (Runs.bind h (newline_tail (k := 9) (by decide)))
  · exact Runs.up (fun _ => rfl) (Runs.bind h (newline_tail (k := 10) (by decide)))
  · exact Runs.up (fun _ => rfl) (Runs.bind h (newline_tail (k := 11) (by decide)))
  · exact Runs.up (fun _ => rfl) (Runs.bind h (newline_tail (k := 12) (by decide)))
  · refine Runs.up (g := fun p => parse_arg_mul p) (fun _ => rfl) ?_
    unfold parse_arg_mul
    exact Runs.bind h (Runs.yes hl (Runs.pure _))

/-- **C49** (lines).  When an operand ends at the end of a line, it is the whole expression: whatever the next line starts with — an operator, `..`,
`?`, `=` — is left to the next statement.  `k` is any of the levels from `?:` (3) to the sign (14); `arg_assign` is the level of assignments. -/
theorem C49_end_of_line (h : Runs (entry 14) (env U m d) ⟨s, Γ⟩ e ⟨'\n' :: r, Γ'⟩) :
    (∀ k, 3 ≤ k → k ≤ 14 → Runs (entry k) (env U m d) ⟨s, Γ⟩ e ⟨'\n' :: r, Γ'⟩) ∧
    Runs (fun p => p.arg_assign) (env U m d) ⟨s, Γ⟩ e ⟨'\n' :: r, Γ'⟩ := by
  have hk : ∀ n k, 3 ≤ k → k + n = 14 → Runs (entry k) (env U m d) ⟨s, Γ⟩ e ⟨'\n' :: r, Γ'⟩ := by
    intro n
    induction n with
    | zero => intro k _ hk; obtain rfl : k = 14 := by omega
              exact h
    | succ n ih => exact fun k h3 hk => newline_step h3 (by omega) (ih (k + 1) (by omega) (by omega))
  refine ⟨fun k h3 h14 => hk (14 - k) k h3 (by omega), ?_⟩
  obtain ⟨a, h1⟩ := newline_token U r
  refine Runs.up (g := fun p => parse_arg_assign p) (fun _ => rfl) ?_
  unfold parse_arg_assign
  exact Runs.bind (hk 11 3 (by omega) (by omega)) (Runs.yes (is_line_term_eq (fl := env U m d) h1) (Runs.pure _))

open Lean Elab Tactic Meta in
/-- closes an equation by evaluation in the kernel -/
local elab "kernel_rfl" : tactic => do
  let g ← getMainGoal
  let some (_, l, _) := (← g.getType).eq? | throwError "not an equation"
  g.assign (← mkEqRefl l)

/-- `1`, and `.. 2` on the next line -/
example : Runs (entry 14) (env U false false) ⟨['1', '\n', '.', '.', ' ', '2'], []⟩ (.Integer 1) ⟨'\n' :: ['.', '.', ' ', '2'], []⟩ := by
  refine ⟨20, fun n hn => ?_⟩
  obtain ⟨k, rfl⟩ : ∃ k, n = k + 20 := ⟨n - 20, by omega⟩
  kernel_rfl

/-- Whether a range is a constant of the program: both its ends are whole numbers, of any size. -/
theorem C49_constant_range (a b : Node) (ex : _root_.Bool) : new_range a b ex = .Range a b ex true ↔
    ((∃ n, a = .Integer n) ∨ ∃ n, a = .Bignum n) ∧ ((∃ n, b = .Integer n) ∨ ∃ n, b = .Bignum n) := by
  have key : ∀ e : Node, e.is_integer = true ↔ (∃ n, e = .Integer n) ∨ ∃ n, e = .Bignum n := by
    intro e
    cases e <;> simp [Node.is_integer]
  simp [new_range, key]

example : new_range (.Integer 1) (.Bignum (10 ^ 30)) false = .Range (.Integer 1) (.Bignum (10 ^ 30)) false true :=
  (C49_constant_range _ _ _).2 ⟨.inl ⟨_, rfl⟩, .inr ⟨_, rfl⟩⟩

end Verif.Parser
