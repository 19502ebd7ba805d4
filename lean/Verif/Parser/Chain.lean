import Verif.Parser.Run
/-!
# From a tighter level to a looser one: lemmas for C49
-/
namespace Verif.Parser
open Verif.Lexer (Chars Unicode BinOp Punct Reserved Tok Name Text Ends read_token is_space is_alpha C73_token)

section
variable {U : Unicode} {m d : _root_.Bool} {p : Nat} {s rest : Chars} {Γ Γ' : List Chars} {e x : Node} {t t' : Tok}

/-- the token is not one of this kind: it would not end a tree here -/
def Beyond (m : _root_.Bool) (p : Nat) (q : Punct) : Prop := ∀ k, stopLevel m q = some k → p < k

theorem ne_of_stops (h : stops m p t) {q : Punct} (hq : Beyond m p q) : t ≠ .Punct q := by
  rintro rfl
  obtain ⟨k, h1, h2⟩ := h
  have := hq k h1
  omega

theorem reserved_of_stops (h : stops m 0 t) (r : Reserved) : t ≠ .Reserved r := by
  rintro rfl; exact absurd h.2 (by decide)

theorem word_of_stops (h : stops m p t) {r : Reserved} (hr : followWord r = false) : t ≠ .Reserved r := by
  rintro rfl; exact absurd h.1 (by simp [hr])

theorem skip_ne (h : stops m p t) (h' : t' = t ∧ is_line_tok t = false ∨ t = .Punct .Semi ∧ (start 1 t' ∨ ∃ r, t' = .Reserved r)) {q : Punct}
    (hq : Beyond m p q) (hs : ¬ start 1 (.Punct q)) : t' ≠ .Punct q := by
  rcases h' with ⟨rfl, -⟩ | ⟨-, h' | ⟨r, rfl⟩⟩
  · exact ne_of_stops h hq
  · rintro rfl; exact hs h'
  · simp

theorem Begins.skips (hb : Begins U p s) : ∃ t a, Skips U s t a ∧ start p t := by
  obtain ⟨t, a, h1, h2, -⟩ := hb
  exact ⟨t, a, skips_of (fl := env U false false) h1 (start_line h2), h2⟩

macro "beyond" : tactic =>
  `(tactic| (intro k hk; simp only [stopLevel, Option.some.injEq, reduceCtorEq, Bool.false_eq_true, if_false] at hk <;> (try split at hk) <;> omega))

theorem chain17 (hb : Opens U 18 s) (hf : Follow U m 16 rest)
    (h : Runs (entry 18) (env U m d) ⟨s, Γ⟩ e ⟨rest, Γ'⟩) : Runs (entry 17) (env U m d) ⟨s, Γ⟩ e ⟨rest, Γ'⟩ := by
  obtain ⟨t, a, hs, ht⟩ := hb.skips
  obtain ⟨⟨t1, a1, t2, a2, h1, h2, h3, h4⟩, -⟩ := hf
  refine Runs.up (g := fun p => parse_method_call p) (fun _ => rfl) ?_
  unfold parse_method_call
  refine Runs.no (consume_reserved_no hs (by rintro rfl; exact ht.elim id id)) ?_
  refine Runs.bind h ?_
  refine Runs.up (g := fun p => parse_method_call_loop p e) (fun _ => rfl) ?_
  unfold parse_method_call_loop
  refine Runs.no (consume_punct_no h3 (skip_ne h2 h4 (by beyond) (by simp [start]))) ?_
  refine Runs.no (cpn_no h1 (ne_of_stops h2 (by beyond))) ?_
  refine Runs.no (cpn_no h1 (ne_of_stops h2 (by beyond))) ?_
  refine Runs.no (cpn_no h1 (ne_of_stops h2 (by beyond))) ?_
  exact Runs.pure _

theorem chain16 (hb : Opens U 17 s) (h : Runs (entry 17) (env U m d) ⟨s, Γ⟩ e ⟨rest, Γ'⟩) :
    Runs (entry 16) (env U m d) ⟨s, Γ⟩ e ⟨rest, Γ'⟩ := by
  obtain ⟨t, a, hs, ht⟩ := hb.skips
  refine Runs.up (g := fun p => parse_unary p) (fun _ => rfl) ?_
  unfold parse_unary
  refine Runs.no (consume_punct_no hs (by rintro rfl; simp [start, opener] at ht)) ?_
  refine Runs.no (consume_punct_no hs (by rintro rfl; simp [start, opener] at ht)) ?_
  refine Runs.no (consume_punct_no hs (by rintro rfl; simp [start, opener] at ht)) ?_
  exact h

theorem chain15 (hf : Follow U m 14 rest) (h : Runs (entry 16) (env U m d) ⟨s, Γ⟩ e ⟨rest, Γ'⟩) :
    Runs (entry 15) (env U m d) ⟨s, Γ⟩ e ⟨rest, Γ'⟩ := by
  obtain ⟨⟨t1, a1, t2, a2, h1, h2, h3, h4⟩, -⟩ := hf
  refine Runs.up (g := fun p => parse_exponent p) (fun _ => rfl) ?_
  unfold parse_exponent
  refine Runs.bind h ?_
  refine Runs.no (cpn_no h1 (ne_of_stops h2 (by beyond))) ?_
  exact Runs.pure _

/-- no assignment follows -/
theorem acc_assign_stop (hf : Follow U m 13 rest) :
    Runs (fun p => p.acc_assign e) (env U m d) ⟨rest, Γ⟩ e ⟨rest, Γ⟩ := by
  obtain ⟨⟨t1, a1, t2, a2, h1, h2, h3, h4⟩, -⟩ := hf
  refine Runs.up (g := fun p => parse_accesory_assign p e) (fun _ => rfl) ?_
  unfold parse_accesory_assign
  show Runs (fun p => (do
    if ← consume_punct_no_term .Assign then
      check_lhs e
      let mrhs ← p.rhs_if_allowed
      return new_mul_assign [e] mrhs
    else match ← consume_assign_op_no_term with
      | some op => p.assign_op e op
      | none => return e : P Node)) _ _ _ _
  refine Runs.no (cpn_no h1 (ne_of_stops h2 (by beyond))) ?_
  refine Runs.step (assign_op_none h1 (fun op => ne_of_stops h2 (by beyond))) ?_
  exact Runs.pure _

theorem save_eq {fl : Env} : save_state fl ⟨s, Γ⟩ = .ok (s, ⟨s, Γ⟩) := rfl

/-- what does not start with a minus sign: a power, then an assignment or not -/
theorem unary_minus_of {st' : St} (hb : Opens U 15 s) (h : Runs (entry 15) (env U m d) ⟨s, Γ⟩ e ⟨rest, Γ'⟩)
    (h' : Runs (fun p => p.acc_assign e) (env U m d) ⟨rest, Γ'⟩ x st') :
    Runs (entry 14) (env U m d) ⟨s, Γ⟩ x st' := by
  obtain ⟨t, a, hs, ht⟩ := hb.skips
  refine Runs.up (g := fun p => parse_unary_minus p) (fun _ => rfl) ?_
  unfold parse_unary_minus
  refine Runs.step save_eq ?_
  refine Runs.no (consume_punct_no hs (by rintro rfl; simp [start, opener] at ht)) ?_
  exact Runs.bind h h'

theorem chain14 (hb : Opens U 15 s) (hf : Follow U m 13 rest) (h : Runs (entry 15) (env U m d) ⟨s, Γ⟩ e ⟨rest, Γ'⟩) :
    Runs (entry 14) (env U m d) ⟨s, Γ⟩ e ⟨rest, Γ'⟩ := unary_minus_of hb h (acc_assign_stop hf)

theorem chain7 (hf : Follow U m 6 rest) (h : Runs (entry 8) (env U m d) ⟨s, Γ⟩ e ⟨rest, Γ'⟩) :
    Runs (entry 7) (env U m d) ⟨s, Γ⟩ e ⟨rest, Γ'⟩ := by
  obtain ⟨⟨t1, a1, t2, a2, h1, h2, h3, h4⟩, -⟩ := hf
  refine Runs.up (g := fun p => parse_arg_eq p) (fun _ => rfl) ?_
  unfold parse_arg_eq
  refine Runs.bind h ?_
  refine Runs.no (cpn_no h1 (ne_of_stops h2 (by beyond))) ?_
  refine Runs.no (cpn_no h1 (ne_of_stops h2 (by beyond))) ?_
  refine Runs.no (cpn_no h1 (ne_of_stops h2 (by beyond))) ?_
  refine Runs.no (cpn_no h1 (ne_of_stops h2 (by beyond))) ?_
  refine Runs.no (cpn_no h1 (ne_of_stops h2 (by beyond))) ?_
  exact Runs.pure _

theorem chain4 (hf : Follow U m 3 rest) (h : Runs (entry 5) (env U m d) ⟨s, Γ⟩ e ⟨rest, Γ'⟩) :
    Runs (entry 4) (env U m d) ⟨s, Γ⟩ e ⟨rest, Γ'⟩ := by
  obtain ⟨⟨t1, a1, t2, a2, h1, h2, h3, h4⟩, -⟩ := hf
  refine Runs.up (g := fun p => parse_arg_range p) (fun _ => rfl) ?_
  unfold parse_arg_range
  refine Runs.bind h ?_
  cases hl : is_line_tok t1 with
  | true => exact Runs.yes (hl ▸ is_line_term_eq h1) (Runs.pure _)
  | false =>
    refine Runs.no (hl ▸ is_line_term_eq h1) ?_
    refine Runs.no (consume_punct_no h3 (skip_ne h2 h4 (by beyond) (by simp [start]))) ?_
    refine Runs.no (consume_punct_no h3 (skip_ne h2 h4 (by beyond) (by simp [start]))) ?_
    exact Runs.pure _

theorem chain3 (hf : Follow U m 2 rest) (h : Runs (entry 4) (env U m d) ⟨s, Γ⟩ e ⟨rest, Γ'⟩) :
    Runs (entry 3) (env U m d) ⟨s, Γ⟩ e ⟨rest, Γ'⟩ := by
  obtain ⟨⟨t1, a1, t2, a2, h1, h2, h3, h4⟩, -⟩ := hf
  refine Runs.up (g := fun p => parse_arg_ternary p) (fun _ => rfl) ?_
  unfold parse_arg_ternary
  refine Runs.bind h ?_
  refine Runs.no (cpn_no h1 (ne_of_stops h2 (by beyond))) ?_
  exact Runs.pure _

/-- what is not an assignment: `arg` takes it, also before a comma -/
theorem chain2 (hb : Opens U 3 s) (hf : Follow U m 2 rest) (h : Runs (entry 3) (env U m d) ⟨s, Γ⟩ e ⟨rest, Γ'⟩) :
    Runs (entry 2) (env U m d) ⟨s, Γ⟩ e ⟨rest, Γ'⟩ := by
  have hassign : Runs (fun p => p.arg_assign) (env U m d) ⟨s, Γ⟩ e ⟨rest, Γ'⟩ := by
    obtain ⟨⟨t1, a1, t2, a2, h1, h2, h3, h4⟩, -⟩ := hf
    refine Runs.up (g := fun p => parse_arg_assign p) (fun _ => rfl) ?_
    unfold parse_arg_assign
    refine Runs.bind h ?_
    cases hl : is_line_tok t1 with
    | true => exact Runs.yes (hl ▸ is_line_term_eq h1) (Runs.pure _)
    | false =>
      refine Runs.no (hl ▸ is_line_term_eq h1) ?_
      refine Runs.no (cpn_no h1 (ne_of_stops h2 (by beyond))) ?_
      refine Runs.step (assign_op_none h1 (fun op => ne_of_stops h2 (by beyond))) ?_
      exact Runs.pure _
  obtain ⟨t, a, ht, hst, hd⟩ := hb
  have hs : Skips U s t a := skips_of (fl := env U false false) ht (hst.elim start_line opener_line)
  refine Runs.up (g := fun p => parse_arg p) (fun _ => rfl) ?_
  unfold parse_arg
  refine Runs.step (peek_eq hs) ?_
  by_cases htd : t = .Reserved .Defined
  · subst htd
    obtain ⟨a', ha⟩ := hd rfl
    simp only [if_true]
    refine Runs.step save_eq ?_
    refine Runs.step (consume_reserved_yes hs) ?_
    refine Runs.yes (st₁ := ⟨a, Γ⟩) (by rw [peek_punct_eq ha]; simp) ?_
    exact Runs.step (st₁ := ⟨s, Γ⟩) rfl hassign
  · simp only [htd, if_false]
    exact hassign

/-- no comma, `and` or `or` follows -/
def NoMore (U : Unicode) (rest : Chars) : Prop :=
  ∃ t a, read_token U rest = .ok (t, a) ∧ t ≠ .Punct .Comma ∧ t ≠ .Reserved .And ∧ t ≠ .Reserved .Or

theorem Follow.noMore (hf : Follow U m 0 rest) : NoMore U rest := by
  obtain ⟨⟨t1, a1, t2, a2, h1, h2, h3, h4⟩, -⟩ := hf
  exact ⟨t1, a1, h1, ne_of_stops h2 (by beyond), reserved_of_stops h2 _, reserved_of_stops h2 _⟩

theorem not_of (hc : ∃ t a, read_token U rest = .ok (t, a) ∧ t ≠ .Punct .Comma)
    (h : Runs (entry 2) (env U m d) ⟨s, Γ⟩ e ⟨rest, Γ'⟩) :
    Runs (fun p => p.not_) (env U m d) ⟨s, Γ⟩ e ⟨rest, Γ'⟩ := by
  obtain ⟨t, a, h1, hne⟩ := hc
  refine Runs.up (g := fun p => parse_not p) (fun _ => rfl) ?_
  unfold parse_not
  refine Runs.bind h ?_
  refine Runs.no (cpn_no h1 hne) ?_
  exact Runs.pure _

theorem expr_end (hc : NoMore U rest) : Runs (fun p => p.expr_loop e) (env U m d) ⟨rest, Γ⟩ e ⟨rest, Γ⟩ := by
  obtain ⟨t, a, h1, hne, h2, h3⟩ := hc
  refine Runs.up (g := fun p => parse_expr_loop p e) (fun _ => rfl) ?_
  unfold parse_expr_loop
  refine Runs.no (crn_no h1 h2) ?_
  refine Runs.no (crn_no h1 h3) ?_
  exact Runs.pure _

theorem expr_of (hc : NoMore U rest)
    (h : Runs (entry 2) (env U m d) ⟨s, Γ⟩ e ⟨rest, Γ'⟩) :
    Runs (fun p => p.expr) (env U m d) ⟨s, Γ⟩ e ⟨rest, Γ'⟩ := by
  refine Runs.up (g := fun p => parse_expr p) (fun _ => rfl) ?_
  unfold parse_expr
  obtain ⟨t, a, h1, hne, h2, h3⟩ := hc
  exact Runs.bind (not_of ⟨t, a, h1, hne⟩ h) (expr_end ⟨t, a, h1, hne, h2, h3⟩)

theorem chain1 (hf : Follow U m 0 rest) (h : Runs (entry 2) (env U m d) ⟨s, Γ⟩ e ⟨rest, Γ'⟩) :
    Runs (entry 1) (env U m d) ⟨s, Γ⟩ e ⟨rest, Γ'⟩ := by
  have h' := expr_of hf.noMore h
  obtain ⟨⟨t1, a1, t2, a2, h1, h2, h3, h4⟩, -⟩ := hf
  refine Runs.up (g := fun p => parse_stmt p) (fun _ => rfl) ?_
  unfold parse_stmt
  refine Runs.bind h' ?_
  refine Runs.up (g := fun p => parse_stmt_loop p e) (fun _ => rfl) ?_
  unfold parse_stmt_loop
  refine Runs.no (crn_no h1 (reserved_of_stops h2 _)) ?_
  refine Runs.no (crn_no h1 (reserved_of_stops h2 _)) ?_
  refine Runs.no (crn_no h1 (reserved_of_stops h2 _)) ?_
  refine Runs.no (crn_no h1 (reserved_of_stops h2 _)) ?_
  refine Runs.no (crn_no h1 (reserved_of_stops h2 _)) ?_
  exact Runs.pure _

theorem chain {k : Nat} (h1 : 1 ≤ k) (h2 : k ≤ 17) (hb : Opens U (k + 1) s) (hf : Follow U m (k - 1) rest)
    (h : Runs (entry (k + 1)) (env U m d) ⟨s, Γ⟩ e ⟨rest, Γ'⟩) : Runs (entry k) (env U m d) ⟨s, Γ⟩ e ⟨rest, Γ'⟩ := by
  have hl : k ∈ leftLevels → Runs (entry k) (env U m d) ⟨s, Γ⟩ e ⟨rest, Γ'⟩ := fun hk =>
    entry_loop hk (hf.mono (by omega)) h (tail_stop (p := k - 1) hk (by omega) hf)
  have : k = 1 ∨ k = 2 ∨ k = 3 ∨ k = 4 ∨ k = 5 ∨ k = 6 ∨ k = 7 ∨ k = 8 ∨ k = 9 ∨ k = 10 ∨ k = 11 ∨ k = 12 ∨ k = 13 ∨
    k = 14 ∨ k = 15 ∨ k = 16 ∨ k = 17 := by omega
  rcases this with rfl | rfl | rfl | rfl | rfl | rfl | rfl | rfl | rfl | rfl | rfl | rfl | rfl | rfl | rfl | rfl | rfl
  · exact chain1 hf h
  · exact chain2 hb (hf.mono (by omega)) h
  · exact chain3 hf h
  · exact chain4 hf h
  · exact hl (by decide)
  · exact hl (by decide)
  · exact chain7 hf h
  · exact hl (by decide)
  · exact hl (by decide)
  · exact hl (by decide)
  · exact hl (by decide)
  · exact hl (by decide)
  · exact hl (by decide)
  · exact chain14 hb hf h
  · exact chain15 hf h
  · exact chain16 hb h
  · exact chain17 hb hf h

/-- down several levels -/
theorem chain_le {j k : Nat} (h1 : 1 ≤ k) (hk : k ≤ j) (h2 : j ≤ 18) (hb : Opens U j s) (hf : Follow U m (k - 1) rest)
    (h : Runs (entry j) (env U m d) ⟨s, Γ⟩ e ⟨rest, Γ'⟩) : Runs (entry k) (env U m d) ⟨s, Γ⟩ e ⟨rest, Γ'⟩ := by
  obtain ⟨n, rfl⟩ : ∃ n, j = k + n := ⟨j - k, by omega⟩
  clear hk
  induction n generalizing k with
  | zero => exact h
  | succ n ih =>
    refine chain h1 (by omega) (hb.mono (by omega)) hf ?_
    refine ih (k := k + 1) (by omega) (hf.mono (by omega)) (by omega) ?_ ?_
    · exact (show k + (n + 1) = k + 1 + n by omega) ▸ hb
    · exact (show k + (n + 1) = k + 1 + n by omega) ▸ h

end
end Verif.Parser
