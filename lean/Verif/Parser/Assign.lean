import Verif.Parser.Compound
/-!
# Assignments and statements: lemmas for C49
-/
namespace Verif.Parser
open Verif.Lexer (Chars Unicode BinOp Punct Reserved Tok Name Text Ends read_token is_space is_alpha C73_token C73_space)

section
variable {U : Unicode} {m d : _root_.Bool} {p k : Nat} {s rest t : Chars} {Γ Γ₁ Γ₂ Γ₃ Γ' : List Chars}
  {e x l r : Node} {q : Punct} {S : Node → Prop} {tok : Tok} {es : List Node}

/-! ## Assignments -/

theorem text_assign : Text ['='] (.Punct .Assign) := .punct (t := "=") (by decide) (by decide)

theorem body_assign (l r : Node) : body (.MulAssign [l] [r]) = print 17 l ++ ' ' :: (['='] ++ print 2 r) := by
  show (print 17 l ++ []) ++ ' ' :: '=' :: (print 2 r ++ []) = _
  simp

/-- a single value -/
theorem single_rhs (h : Claim U Γ r Γ') (hf : Follow U m 1 rest) : ∃ r', strip r' = r ∧
    Runs (fun p => p.rhs_if_allowed) (env U m d) ⟨print 2 r ++ rest, Γ⟩ [r'] ⟨rest, Γ'⟩ := by
  cases m with
  | true =>
    obtain ⟨r', h1, h2⟩ := h.print_good (k := 2) (p := 2) (by omega) (by omega) (by omega) true d rest hf
    refine ⟨r', h1.strip, Runs.up (g := fun p => parse_mul_assign_rhs_if_allowed p) (fun _ => rfl) ?_⟩
    show Runs (fun p => (do return [← p.arg] : P (List Node))) _ _ _ _
    exact Runs.bind h2 (Runs.pure _)
  | false =>
    obtain ⟨r', h1, h2⟩ := h.print_good (k := 2) (p := 2) (by omega) (by omega) (by omega) true d rest hf.single
    refine ⟨r', h1.strip, Runs.up (g := fun p => parse_mul_assign_rhs_if_allowed p) (fun _ => rfl) ?_⟩
    show Runs (fun p => p.rhs none) _ _ _ _
    refine Runs.up (g := fun p => parse_mul_assign_rhs p none) (fun _ => rfl) ?_
    unfold parse_mul_assign_rhs
    refine Runs.env ?_
    refine Runs.up (g := fun p => parse_mul_assign_rhs_loop p none []) (fun _ => rfl) ?_
    unfold parse_mul_assign_rhs_loop parse_rhs_item
    have hitem : Runs rhsItem (env U true d) ⟨print 2 r ++ rest, Γ⟩ r' ⟨rest, Γ'⟩ := by
      obtain ⟨t, a, hs, ht⟩ := ((h.print_starts (k := 1) (p := 2) (by omega) (by omega)).2 rest hf.ends).skips
      unfold rhsItem
      exact Runs.no (consume_punct_no hs (by rintro rfl; exact ht)) h2
    refine Runs.bind hitem ?_
    obtain ⟨⟨t1, a1, t2, a2, g1, g2, g3, g4⟩, -⟩ := hf
    refine Runs.no (consume_punct_no g3 (skip_ne g2 g4 (by beyond) (by simp [start]))) ?_
    exact Runs.pure _

theorem mul_assign_one {l' r' : Node} (h : strip r' = r) (hr : ∀ x, r ≠ .Splat x) :
    new_mul_assign [l'] [r'] = .MulAssign [l'] [r'] := by
  have : r'.is_splat = false := by
    cases r' <;> first | rfl | exact absurd h.symm (hr _)
  simp [new_mul_assign, this]

/-- the left side, up to the assignment operator -/
theorem claim_assign_of {b : Chars} {e : Node} (hl : lvl e = 2) (hb : body e = print 17 l ++ ' ' :: b)
    (h1 : Claim U Γ l Γ₁)
    (hf : ∀ m rest, Ends rest → Follow U m 14 (' ' :: (b ++ rest)))
    (h : ∀ m d rest l', Follow U m 1 rest → Any 17 l l' → ∃ e', Plain e e' ∧
      Runs (fun p => p.acc_assign l') (env U m d) ⟨' ' :: (b ++ rest), Γ₁⟩ e' ⟨rest, Γ'⟩) : Claim U Γ e Γ' := by
  have hs := h1.print_starts (k := 15) (p := 17) (by omega) (by omega)
  refine Claim.of (k := 2) hl (by omega) (not_looping (by decide)) ?_ ?_ (fun h => absurd h (by omega)) <;> rw [hb]
  · exact starts_append (hs.mono (by omega)) fun rest _ => ends_sp _
  · intro m d rest hf1
    obtain ⟨l', hl1, hl2⟩ := h1.print_good (k := 15) (p := 17) (by omega) (by omega) (by omega) m d
      (' ' :: (b ++ rest)) (hf m rest hf1.ends)
    obtain ⟨e', he1, he2⟩ := h m d rest l' hf1 hl1
    refine ⟨e', he1, ?_⟩
    rw [List.append_assoc, List.cons_append]
    have hbg := hs.2 (' ' :: (b ++ rest)) (ends_sp _)
    exact chain_le (j := 14) (by omega) (by omega) (by omega) (hbg.mono (by omega)).opens hf1 (unary_minus_of hbg.opens hl2 he2)

theorem acc_assign_eq {fl : Env} (h : fl.acc = false) {st st' : St} {a : Node}
    (hr : Runs (fun p => (do
      if ← consume_punct_no_term .Assign then
        check_lhs e
        let mrhs ← p.rhs_if_allowed
        return new_mul_assign [e] mrhs
      else match ← consume_assign_op_no_term with
        | some op => p.assign_op e op
        | none => return e : P Node)) fl st a st') : Runs (fun p => p.acc_assign e) fl st a st' := by
  refine Runs.up (g := fun p => parse_accesory_assign p e) (fun _ => rfl) ?_
  obtain ⟨N, hN⟩ := hr
  refine ⟨N, fun n hn => ?_⟩
  exact (if_neg (by simp [h])).trans (hN n hn)

theorem check_lhs_eq {fl : Env} : check_lhs l fl ⟨s, Γ⟩ = .ok ((), ⟨s, varsAfter l Γ⟩) := by
  cases l <;> first | rfl | skip
  rename_i x
  show Except.ok ((), if Γ.contains x then (⟨s, Γ⟩ : St) else ⟨s, x :: Γ⟩) = Except.ok ((), ⟨s, withVar x Γ⟩)
  unfold withVar
  split <;> rfl

theorem strip_def (n : Chars) (ps : List Chars) (b : Node) (vs : List Chars) :
    ∃ b', strip (.Def n ps b vs) = .Def n ps b' vs := by
  cases b <;> exact ⟨_, rfl⟩

theorem strip_ident {l' : Node} {y : Chars} (h : Any 17 (.Ident y) l') : l' = .Ident y := by
  rcases h with ⟨-, h1, h2⟩ | ⟨h1, -⟩
  · cases l' <;> first | exact h1 | cases h1 | skip
    rotate_left
    · rename_i n ps b vs
      obtain ⟨b', h⟩ := strip_def n ps b vs
      rw [h] at h1
      cases h1
    rename_i ls
    rcases ls with _ | ⟨a, _ | ⟨b, ls⟩⟩
    · cases h1
    · exact absurd rfl (h2 a)
    · cases h1
  · exact absurd h1 (show ¬ 18 < 17 by decide)

/-- The left side as parsed makes the same names known. -/
theorem lhs_vars {l' : Node} (h : Any 17 l l') : varsAfter l' Γ = varsAfter l Γ := by
  by_cases hl : ∃ y, l = .Ident y
  · obtain ⟨y, rfl⟩ := hl; rw [strip_ident h]
  · have : ∀ y, l' ≠ .Ident y := by
      rintro y rfl; exact hl ⟨y, h.strip.symm⟩
    have e1 : varsAfter l' Γ = Γ := by
      cases l' <;> first | rfl | exact absurd rfl (this _)
    have e2 : varsAfter l Γ = Γ := by
      cases l <;> first | rfl | exact absurd ⟨_, rfl⟩ hl
    rw [e1, e2]

/-- A target as parsed is no statement list. -/
theorem lhs_plain {l' : Node} (hl : 17 ≤ lvl l) (h : Any 17 l l') : (if isList l' then l' else strip l') = l := by
  rcases h with ⟨-, h1, h2⟩ | ⟨h1, -⟩
  · cases hc : isList l' with
    | false => exact h1
    | true =>
      cases l' <;> try cases hc
      rename_i x
      rcases x with _ | ⟨a, _ | ⟨b, x⟩⟩
      · subst h1; exact absurd hl (show ¬ 17 ≤ 0 by decide)
      · exact absurd rfl (h2 a)
      · subst h1; exact absurd hl (show ¬ 17 ≤ 0 by decide)
  · omega

theorem claim_assign (hlv : 17 ≤ lvl l) (h1 : Claim U Γ l Γ₁) (h2 : Claim U (varsAfter l Γ₁) r Γ₂) (hr : ∀ x, r ≠ .Splat x) :
    Claim U Γ (.MulAssign [l] [r]) Γ₂ := by
  have hs := h2.print_starts (k := 2) (p := 2) (by omega) (by omega)
  refine claim_assign_of (b := ['='] ++ print 2 r) rfl (body_assign l r) h1 ?_ ?_
  · intro m rest hrest
    exact follow_op (r := print 2 r ++ rest) text_assign (k := 14) rfl (by omega) (by simp) (by simp) (.inr (hs.space _))
  · intro m d rest l' hf hl
    obtain ⟨r', hr1, hr2⟩ := single_rhs (d := d) h2 hf
    refine ⟨.MulAssign [l'] [r'], ⟨?_, by simp⟩, ?_⟩
    · show Node.MulAssign [if isList l' then l' else strip l'] [strip r'] = _
      rw [lhs_plain hlv hl, hr1]
    · refine acc_assign_eq rfl ?_
      rw [List.append_assoc]
      have htok : read_token U (' ' :: (['='] ++ (print 2 r ++ rest))) = _ := read_text text_assign (hs.ends _)
      refine Runs.yes (cpn_yes htok (by simp)) ?_
      refine Runs.step check_lhs_eq ?_
      rw [lhs_vars hl]
      refine Runs.bind hr2 ?_
      rw [mul_assign_one hr1 hr]
      exact Runs.pure _

theorem body_assign_op (op : BinOp) (l r : Node) :
    body (.AssignOp op l r) = print 17 l ++ ' ' :: ((binText op ++ ['=']) ++ print 2 r) := by
  show print 17 l ++ ' ' :: (binText op ++ '=' :: print 2 r) = _
  simp

theorem assign_op_text {op : BinOp} (h : op ∈ assignOps ∨ op = .LOr ∨ op = .LAnd) :
    Text (binText op ++ ['=']) (.Punct (.AssignOp op)) := by
  simp only [assignOps, List.mem_cons, List.not_mem_nil, or_false] at h
  rcases h with (rfl | rfl | rfl | rfl | rfl | rfl | rfl | rfl | rfl | rfl) | rfl | rfl
  · exact .punct (t := "+=") (by decide) (by decide)
  · exact .punct (t := "-=") (by decide) (by decide)
  · exact .punct (t := "*=") (by decide) (by decide)
  · exact .punct (t := "/=") (by decide) (by decide)
  · exact .punct (t := "%=") (by decide) (by decide)
  · exact .punct (t := ">>=") (by decide) (by decide)
  · exact .punct (t := "<<=") (by decide) (by decide)
  · exact .punct (t := "&=") (by decide) (by decide)
  · exact .punct (t := "|=") (by decide) (by decide)
  · exact .punct (t := "^=") (by decide) (by decide)
  · exact .punct (t := "||=") (by decide) (by decide)
  · exact .punct (t := "&&=") (by decide) (by decide)

theorem claim_assign_op {op : BinOp} (hop : op ∈ assignOps) (hlv : 17 ≤ lvl l) (h1 : Claim U Γ l Γ₁) (h2 : Claim U Γ₁ r Γ₂) :
    Claim U Γ (.AssignOp op l r) (varsAfter l Γ₂) := by
  have hs := h2.print_starts (k := 2) (p := 2) (by omega) (by omega)
  have htext := assign_op_text (.inl hop)
  refine claim_assign_of (b := (binText op ++ ['=']) ++ print 2 r) rfl (body_assign_op op l r) h1 ?_ ?_
  · intro m rest hrest
    rw [List.append_assoc]
    exact follow_op (r := print 2 r ++ rest) htext (k := 14) rfl (by omega) (by simp) (by simp) (.inr (hs.space _))
  · intro m d rest l' hf hl
    obtain ⟨r', hr1, hr2⟩ := h2.print_good (k := 2) (p := 2) (by omega) (by omega) (by omega) m d rest hf
    refine ⟨.AssignOp op l' r', ⟨?_, by simp⟩, ?_⟩
    · show Node.AssignOp op (if isList l' then l' else strip l') (strip r') = _
      rw [lhs_plain hlv hl, hr1.strip]
    · refine acc_assign_eq rfl ?_
      rw [List.append_assoc]
      have htok : read_token U (' ' :: ((binText op ++ ['=']) ++ (print 2 r ++ rest))) = _ := read_text htext (hs.ends _)
      refine Runs.no (cpn_no htok (by simp)) ?_
      refine Runs.step (assign_op_some htok) ?_
      show Runs (fun p => p.assign_op l' op) _ _ _ _
      refine Runs.up (g := fun p => parse_assign_op p l' op) (fun _ => rfl) ?_
      unfold parse_assign_op
      refine Runs.step (get_eq (skips_of (fl := env U m d) htok rfl) (by simp)) ?_
      refine Runs.bind hr2 ?_
      refine Runs.step check_lhs_eq ?_
      rw [lhs_vars hl]
      simp only [assignOps, List.mem_cons, List.not_mem_nil, or_false] at hop
      rcases hop with rfl | rfl | rfl | rfl | rfl | rfl | rfl | rfl | rfl | rfl <;> exact Runs.pure _

/-! ## Statements -/

/-- What ends a list of statements: the end of the text, or a closing parenthesis. -/
def Closes (rest : Chars) : Prop := rest = [] ∨ ∃ r, Ends r ∧ rest = ' ' :: ')' :: r

structure StmtsClaim (U : Unicode) (Γ : List Chars) (l : List Node) (Γ' : List Chars) : Prop where
  starts : l ≠ [] → Starts U 1 (stmts l)
  run : ∀ m d nodes rest, Closes rest → ∃ l', stripAll l' = l ∧
    Runs (fun p => p.comp_stmt_loop nodes) (env U m d) ⟨stmts l ++ rest, Γ⟩ (.CompStmt (nodes ++ l')) ⟨rest, Γ'⟩

theorem Closes.read (h : Closes rest) : ∃ t a, read_token U rest = .ok (t, a) ∧ check_stmt_end t = true ∧
    is_line_tok t = false := by
  rcases h with rfl | ⟨r, hr, rfl⟩
  · exact ⟨.Eof, [], rfl, rfl, rfl⟩
  · exact ⟨_, _, read_rp hr, rfl, rfl⟩

theorem Closes.follow (h : Closes rest) : Follow U m p rest := by
  rcases h with rfl | ⟨r, hr, rfl⟩
  · exact follow_nil
  · exact follow_rparen hr

theorem stmts_end {nodes : List Node} (h : Closes rest) :
    Runs (fun p => p.comp_stmt_loop nodes) (env U m d) ⟨rest, Γ⟩ (.CompStmt nodes) ⟨rest, Γ⟩ := by
  obtain ⟨t, a, h1, h2, h3⟩ := h.read (U := U)
  refine Runs.up (g := fun p => parse_comp_stmt_loop p nodes) (fun _ => rfl) ?_
  unfold parse_comp_stmt_loop
  refine Runs.step (peek_eq (skips_of (fl := env U m d) h1 h3)) ?_
  simp only [h2, if_true]
  exact Runs.pure _

theorem claim_stmts_nil : StmtsClaim U Γ [] Γ := by
  refine ⟨fun h => absurd rfl h, fun m d nodes rest hc => ⟨[], rfl, ?_⟩⟩
  rw [List.append_nil]
  exact stmts_end hc

theorem stmts_one (e : Node) : stmts [e] = print 1 e ++ [] := rfl
theorem stmts_cons (e e₂ : Node) (l : List Node) : stmts (e :: e₂ :: l) = print 1 e ++ ' ' :: ([';'] ++ stmts (e₂ :: l)) := rfl

theorem text_semi : Text [';'] (.Punct .Semi) := .punct (t := ";") (by decide) (by decide)

theorem consume_term_no {fl : Env} {t : Tok} {a : Chars} (h : read_token fl.U s = .ok (t, a)) (ht : is_term t = false) :
    consume_term fl ⟨s, Γ⟩ = .ok (false, ⟨s, Γ⟩) := by
  unfold consume_term; rw [bind_ok (peek_no_term_eq h)]
  refine (congrFun (congrFun (if_neg (c := is_term t = true) (by simp [ht])) fl) _).trans ?_
  rfl

theorem consume_term_yes {fl : Env} {t : Tok} {a s' : Chars} (h : read_token fl.U s = .ok (t, a)) (ht : is_term t = true)
    (hs : skip_terms fl.U (s.length + 1) s = .ok s') : consume_term fl ⟨s, Γ⟩ = .ok (true, ⟨s', Γ⟩) := by
  unfold consume_term; rw [bind_ok (peek_no_term_eq h)]
  refine (congrFun (congrFun (if_pos ht) fl) _).trans ?_
  simp only [hs]

theorem claim_stmts_cons (h1 : Claim U Γ e Γ₁) (h2 : StmtsClaim U Γ₁ es Γ₂) : StmtsClaim U Γ (e :: es) Γ₂ := by
  have hs := h1.print_starts (k := 1) (p := 1) (by omega) (by omega)
  refine ⟨fun _ => ?_, fun m d nodes rest hc => ?_⟩
  · cases es with
    | nil => rw [stmts_one, List.append_nil]; exact hs
    | cons e2 l => rw [stmts_cons]; exact starts_append hs fun rest _ => ends_sp _
  · have key : ∃ r, stmts (e :: es) ++ rest = print 1 e ++ r ∧ Follow U m 0 r ∧
        ∀ e', ∃ l', stripAll l' = es ∧ Runs (fun p => do
          if ← consume_term then p.comp_stmt_loop (nodes ++ [e'])
          else return .CompStmt (nodes ++ [e'])) (env U m d) ⟨r, Γ₁⟩ (.CompStmt (nodes ++ e' :: l')) ⟨rest, Γ₂⟩ := by
      cases es with
      | nil =>
        obtain ⟨l', hl', hrun⟩ := h2.run m d nodes rest hc
        obtain ⟨l2, hl2, hrun2⟩ := (claim_stmts_nil (U := U) (Γ := Γ₁)).run m d nodes rest hc
        have : Γ₂ = Γ₁ := congrArg St.lvars (Runs.det hrun hrun2).2
        subst this
        refine ⟨rest, by rw [stmts_one, List.append_nil], hc.follow, fun e' => ⟨[], rfl, ?_⟩⟩
        rcases hc with rfl | ⟨r, hr, rfl⟩
        · refine Runs.yes (consume_term_yes (fl := env U m d) (s := []) (t := .Eof) (a := []) (s' := []) rfl rfl rfl) ?_
          exact stmts_end (.inl rfl)
        · exact Runs.no (consume_term_no (fl := env U m d) (read_rp hr) rfl) (Runs.pure _)
      | cons e2 l =>
        have hs2 := h2.starts (by simp)
        have hends : Ends (stmts (e2 :: l) ++ rest) := hs2.ends rest
        have hrest : Ends rest := (hc.follow (U := U) (m := m) (p := 0)).ends
        obtain ⟨s, hsp⟩ := hs2.space rest
        have hbg := hs2.2 rest hrest
        refine ⟨' ' :: ([';'] ++ (stmts (e2 :: l) ++ rest)), by rw [stmts_cons]; simp, ?_, fun e' => ?_⟩
        · rw [hsp] at hbg ⊢
          exact follow_semi hbg
        · obtain ⟨l', hl1, hl2⟩ := h2.run m d (nodes ++ [e']) rest hc
          refine ⟨l', hl1, ?_⟩
          rw [List.append_assoc] at hl2
          have htok : read_token U (' ' :: ([';'] ++ (stmts (e2 :: l) ++ rest))) = _ := read_text text_semi hends
          refine Runs.yes (consume_term_yes (fl := env U m d) (s' := stmts (e2 :: l) ++ rest) htok rfl ?_) hl2
          obtain ⟨t, a, ht1, ht2, -⟩ := hbg
          have hterm : is_term t = false := by
            unfold start at ht2; split at ht2 <;> first | rfl | exact ht2.elim
          rw [skip_terms, htok]
          simp only [is_term, if_true, reduceCtorEq, if_false]
          rw [List.length_cons, skip_terms, ht1]
          simp [hterm]
    obtain ⟨r, hr1, hr2, hr3⟩ := key
    rw [hr1]
    obtain ⟨e', he1, he2⟩ := h1.print_good (k := 1) (p := 1) (by omega) (by omega) (by omega) m d r hr2
    obtain ⟨l', hl1, hl2⟩ := hr3 e'
    refine ⟨e' :: l', ?_, ?_⟩
    · show strip e' :: stripAll l' = _
      rw [he1.strip, hl1]
    · obtain ⟨t, a, hsk, ht⟩ := (hs.2 r hr2.ends).skips
      refine Runs.up (g := fun p => parse_comp_stmt_loop p nodes) (fun _ => rfl) ?_
      unfold parse_comp_stmt_loop
      refine Runs.step (peek_eq hsk) ?_
      have : check_stmt_end t = false := by
        unfold start at ht; split at ht <;> first | rfl | exact ht.elim
      simp only [this, Bool.false_eq_true, if_false]
      exact Runs.bind he2 hl2

/-- a list of statements from its start -/
theorem comp_stmt_run (h : StmtsClaim U Γ es Γ') (hc : Closes rest) : ∃ l', stripAll l' = es ∧
    Runs (fun p => p.comp_stmt) (env U m d) ⟨stmts es ++ rest, Γ⟩ (.CompStmt l') ⟨rest, Γ'⟩ := by
  obtain ⟨l', h1, h2⟩ := h.run m d [] rest hc
  refine ⟨l', h1, Runs.up (g := fun p => parse_comp_stmt p) (fun _ => rfl) ?_⟩
  have hpeek : ∃ t a, Skips U (stmts es ++ rest) t a := by
    cases es with
    | nil =>
      obtain ⟨t, a, g1, g2, g3⟩ := hc.read (U := U)
      exact ⟨t, a, skips_of (fl := env U m d) g1 g3⟩
    | cons e l =>
      obtain ⟨t, a, g, -⟩ := ((h.starts (by simp)).2 rest (hc.follow (U := U) (m := m) (p := 0)).ends).skips
      exact ⟨t, a, g⟩
  obtain ⟨t, a, hp⟩ := hpeek
  unfold parse_comp_stmt
  exact Runs.step (peek_eq (fl := env U m d) hp) h2

theorem stripAll_length : ∀ l : List Node, (stripAll l).length = l.length
  | [] => rfl
  | _ :: l => congrArg (· + 1) (stripAll_length l)

theorem strip_comp {l' : List Node} (h : l'.length ≠ 1) : strip (.CompStmt l') = .CompStmt (stripAll l') := by
  rcases l' with _ | ⟨a, _ | ⟨b, l'⟩⟩
  · rfl
  · exact absurd rfl h
  · rfl

theorem claim_seq (hlen : es.length ≠ 1) (h : StmtsClaim U Γ es Γ') : Claim U Γ (.CompStmt es) Γ' := by
  refine ⟨fun _ r => ?_, fun h => absurd h (by decide : ¬ 1 ≤ 0), fun h => absurd h (by decide : ¬ 1 ≤ 0),
    fun h => absurd h (by decide : ¬ 14 ≤ 0), fun h => ?_, fun _ m d rest hr => ?_⟩
  · show Ends (stmts es ++ ' ' :: r)
    cases es with
    | nil => exact ends_sp _
    | cons e l => exact (h.starts (by simp)).ends _
  · rcases h with h | h
    · exact absurd h (show 0 ∉ leftLevels by decide)
    · exact absurd h (show (0 : Nat) ≠ 17 by decide)
  · obtain ⟨l', h1, h2⟩ := comp_stmt_run (m := m) (d := d) h (rest := ' ' :: ')' :: rest) (.inr ⟨rest, hr, rfl⟩)
    refine ⟨.CompStmt l', ⟨?_, _, rfl⟩, h2⟩
    rw [strip_comp (by rw [← stripAll_length, h1]; exact hlen), h1]

/-! ## All trees -/

theorem Tree.not_splat (h : Tree Γ e Γ') : ∀ x, e ≠ .Splat x := by
  rintro x rfl; cases h

theorem Target.lvl (h : Target l) : 17 ≤ lvl l := by
  cases h <;> try exact (by decide : 17 ≤ 18)
  · exact (by decide : 17 ≤ 17)
  · unfold Parser.lvl; split <;> first | omega | simp_all

theorem lhs_target (h : Target l) : varsAfter l Γ = Γ := by
  cases h <;> rfl

theorem tree_claim (U : Unicode) {Γ Γ' : List Chars} {e : Node} (h : Tree Γ e Γ') : Claim U Γ e Γ' ∧ Pow e := by
  refine Tree.rec (motive_1 := fun Γ e Γ' _ => Claim U Γ e Γ' ∧ Pow e)
    (motive_2 := fun Γ l Γ' _ => ItemsClaim U Γ l Γ')
    (motive_3 := fun Γ l Γ' _ => StmtsClaim U Γ l Γ') ?_ ?_ ?_ ?_ ?_ ?_ ?_ ?_ ?_ ?_ ?_ ?_ ?_ ?_ ?_ ?_ ?_ ?_ ?_ ?_ ?_ ?_ ?_
    ?_ ?_ ?_ ?_ ?_ ?_ ?_ ?_ h
  · exact ⟨claim_self, trivial⟩
  · exact ⟨claim_nil, trivial⟩
  · exact ⟨claim_bool _, trivial⟩
  · exact fun h1 h2 => ⟨claim_int h1 h2, trivial⟩
  · exact fun h => ⟨claim_big h, trivial⟩
  · exact ⟨claim_string, trivial⟩
  · exact fun h hx => ⟨claim_lvar h hx, trivial⟩
  · exact fun h hx => ⟨claim_ident h hx, trivial⟩
  · exact fun h => ⟨claim_ivar h, trivial⟩
  · exact fun h => ⟨claim_gvar h, trivial⟩
  · exact fun h => ⟨claim_cvar h, trivial⟩
  · exact fun h => ⟨claim_const h, trivial⟩
  · exact fun _ _ hc h1 h2 => ⟨claim_range h1.1 h2.1 hc, trivial⟩
  · exact fun _ hc h => ⟨claim_array h hc, trivial⟩
  · intro Γ Γ₁ Γ₂ op l r _ _ h1 h2
    refine ⟨claim_bin op h1.1 h2.1, ?_⟩
    cases op <;> first | trivial | exact pow_exp h2.1
  · intro Γ Γ' op e _ h
    refine ⟨?_, trivial⟩
    by_cases hop : op = .Neg
    · subst hop; exact claim_neg h.1 h.2
    · exact claim_un hop h.1
  · exact fun _ _ h1 h2 => ⟨claim_index h1.1 h2, trivial⟩
  · exact fun _ _ _ h1 h2 h3 => ⟨claim_if h1.1 h2.1 h3.1, trivial⟩
  · exact fun hn _ h => ⟨claim_call hn h, trivial⟩
  · exact fun _ hid hself hn _ h1 h2 => ⟨claim_send h1.1 hid hself hn h2, trivial⟩
  · exact fun ht _ hr h1 h2 => ⟨claim_assign ht.lvl h1.1 (by rw [lhs_target ht]; exact h2.1) hr.not_splat, trivial⟩
  · intro Γ Γ' x r hv hx hr h
    refine ⟨claim_assign (show 17 ≤ 18 by decide) (claim_ident hv hx) ?_ hr.not_splat, trivial⟩
    have : varsAfter (.Ident x) Γ = x :: Γ := by
      show withVar x Γ = _
      unfold withVar; rw [if_neg (by simpa using hx)]
    rw [this]; exact h.1
  · intro Γ Γ₁ Γ₂ op l r hop ht _ _ h1 h2
    refine ⟨?_, trivial⟩
    have := claim_assign_op hop ht.lvl h1.1 h2.1
    rwa [lhs_target ht] at this
  · exact fun hop hv hx _ h => ⟨claim_assign_op hop (show 17 ≤ 18 by decide) (claim_ident hv hx) h.1, trivial⟩
  · exact fun _ h => ⟨claim_defined h.1, trivial⟩
  · exact fun hl _ h => ⟨claim_seq hl h, trivial⟩
  · exact claim_items_nil
  · exact fun ht _ h1 h2 => claim_items_cons (item_tree ht.not_splat h1.1) h2
  · exact fun _ _ h1 h2 => claim_items_cons (item_splat h1.1) h2
  · exact claim_stmts_nil
  · exact fun _ _ h1 h2 => claim_stmts_cons h1.1 h2

theorem stmts_claim (U : Unicode) {Γ Γ' : List Chars} {l : List Node} (h : Stmts Γ l Γ') : StmtsClaim U Γ l Γ' := by
  induction l generalizing Γ with
  | nil => cases h; exact claim_stmts_nil
  | cons e l ih =>
    cases h with
    | cons h1 h2 => exact claim_stmts_cons (tree_claim U h1).1 (ih h2)

end
end Verif.Parser
