import Verif.Parser.Assign
import Verif.Parser.Grammar
/-!
# Statements: lemmas for C49
-/
namespace Verif.Parser
open Verif.Lexer (Chars Unicode BinOp Punct Reserved Tok Name Text Ends read_token is_space is_alpha C73_token C73_space)

section
variable {U : Unicode} {m d : _root_.Bool} {p k : Nat} {s c b r rest t : Chars} {Γ Γ₁ Γ₂ Γ₃ Γ' : List Chars}
  {e x l : Node} {q : Punct} {tok : Tok} {es : List Node} {a : Chars}

/-! ## Words -/

theorem word_app (w : String) (r : Chars) : word w ++ r = ' ' :: (w.toList ++ r) := rfl

theorem ends_word (w : String) (r : Chars) : Ends (word w ++ r) := ends_sp _

theorem read_word (w : Reserved) (h : Ends r) : read_token U (word w.text ++ r) = .ok (.Reserved w, r) :=
  read_text (.reserved w) h

theorem read_semi (h : Ends r) : read_token U (word ";" ++ r) = .ok (.Punct .Semi, r) := read_text text_semi h

theorem read_eq (h : Ends r) : read_token U (word "=" ++ r) = .ok (.Punct .Assign, r) := read_text text_assign h

/-- a word follows -/
theorem follow_word (w : Reserved) (hw : followWord w = true) (h : Ends r) (hp : 1 ≤ p) : Follow U m p (word w.text ++ r) := by
  have htok := read_word (U := U) w h
  refine ⟨⟨_, _, _, _, htok, ⟨hw, hp⟩, skips_of (fl := env U false false) htok rfl, .inl ⟨rfl, rfl⟩⟩, ends_sp _, ?_, ?_⟩
  · rw [word_app]; simp
  · unfold command
    rw [htok]
    cases w <;> first | rfl | cases hw

theorem crn_yes {fl : Env} {w : Reserved} (h : read_token fl.U s = .ok (.Reserved w, a)) :
    consume_reserved_no_term w fl ⟨s, Γ⟩ = .ok (true, ⟨a, Γ⟩) := by
  unfold consume_reserved_no_term
  rw [bind_ok (peek_no_term_eq h), if_pos rfl, bind_ok (get_eq (skips_of h rfl) (by simp))]; rfl

theorem expect_reserved_yes {fl : Env} {w : Reserved} (h : Skips fl.U s (.Reserved w) a) :
    expect_reserved w fl ⟨s, Γ⟩ = .ok ((), ⟨a, Γ⟩) := by
  unfold expect_reserved; rw [bind_ok (get_eq h (by simp)), if_pos rfl]; rfl

/-- the text begins with a space and a token that can begin a statement -/
def Opening (U : Unicode) (s : Chars) : Prop :=
  (∃ s', s = ' ' :: s') ∧ ∀ rest, Ends rest → Opens U 2 (s ++ rest)

theorem Opening.ends (h : Opening U s) (rest : Chars) : Ends (s ++ rest) := by
  obtain ⟨⟨s', rfl⟩, -⟩ := h; exact ends_sp _

theorem Opening.append (h : Opening U s) (hr : ∀ rest, Ends rest → Ends (r ++ rest)) : Opening U (s ++ r) := by
  obtain ⟨⟨s', rfl⟩, h⟩ := h
  exact ⟨⟨_, rfl⟩, fun rest hrest => by rw [List.append_assoc]; exact h _ (hr rest hrest)⟩

theorem Starts.opening (h : Starts U k s) (hk : 2 ≤ k) : Opening U s :=
  ⟨h.1, fun rest hr => ((h.2 rest hr).mono hk).opens⟩

theorem opening_word (w : Reserved) (hw : opener (.Reserved w)) (hr : ∀ rest, Ends rest → Ends (r ++ rest)) :
    Opening U (word w.text ++ r) := by
  refine ⟨⟨_, rfl⟩, fun rest hrest => ?_⟩
  rw [List.append_assoc]
  refine ⟨_, _, read_word w (hr rest hrest), .inr hw, ?_⟩
  rintro h; cases h; exact hw.elim

/-- tokens that can begin a statement are not the end of one -/
theorem opens_tok (h : start 2 tok ∨ opener tok) : is_line_tok tok = false ∧ is_term tok = false ∧
    check_stmt_end tok = false ∧ tok ≠ .Eof ∧ tok ≠ .Reserved .Then ∧ tok ≠ .Punct .Mul ∧ tok ≠ .Punct .Comma ∧
    (start 1 tok ∨ ∃ r, tok = .Reserved r) := by
  rcases h with h | h
  · refine ⟨start_line h, ?_, ?_, ?_, ?_, ?_, ?_, .inl (start_mono (by omega) h)⟩
    · unfold start at h; split at h <;> first | rfl | exact h.elim
    · unfold start at h; split at h <;> first | rfl | exact h.elim
    all_goals (rintro rfl; exact h)
  · unfold opener at h
    split at h <;> first | exact h.elim | (refine ⟨rfl, rfl, rfl, ?_, ?_, ?_, ?_, .inr ⟨_, rfl⟩⟩ <;> simp)

/-- a semicolon follows -/
theorem follow_semi_tok {t' : Tok} {a' : Chars} (hr : Ends r) (h1 : read_token U r = .ok (t', a')) (hl : is_line_tok t' = false)
    (h2 : start 1 t' ∨ ∃ w, t' = .Reserved w) : Follow U m p (word ";" ++ r) := by
  have htok := read_semi (U := U) hr
  refine ⟨⟨_, _, t', a', htok, ⟨0, rfl, by omega⟩, ?_, .inr ⟨rfl, h2⟩⟩, ends_sp _, by rw [word_app]; simp, ?_⟩
  · unfold Skips
    rw [read_skip, htok]
    show read_skip U (r.length + 1 + 1) r = _
    rw [read_skip, h1]
    simp [hl]
  · unfold command
    rw [htok]; rfl

theorem consume_semi {fl : Env} {t' : Tok} {a' : Chars} (hr : Ends r) (h1 : read_token fl.U r = .ok (t', a'))
    (ht : is_term t' = false) : consume_term fl ⟨word ";" ++ r, Γ⟩ = .ok (true, ⟨r, Γ⟩) := by
  have htok := read_semi (U := fl.U) hr
  refine consume_term_yes htok rfl ?_
  rw [skip_terms, htok]
  simp only [is_term, if_true, reduceCtorEq, if_false]
  show skip_terms fl.U (r.length + 1 + 1) r = _
  rw [skip_terms, h1]
  simp [ht]

/-! ## What is proved -/

/-- what can follow an operand of `and` and `or` -/
def After (U : Unicode) (m : _root_.Bool) (rest : Chars) : Prop :=
  Follow U m 1 rest ∧ ∃ t a, read_token U rest = .ok (t, a) ∧ t ≠ .Punct .Comma

structure ArgClaim (U : Unicode) (m : _root_.Bool) (Γ : List Chars) (s : Chars) (e : Node) (Γ' : List Chars) : Prop where
  opening : Opening U s
  plain : ∀ x, e ≠ .Splat x
  run : ∀ d rest, After U m rest → ∃ e', strip e' = e ∧
    Runs (fun p => p.arg) (env U m d) ⟨s ++ rest, Γ⟩ e' ⟨rest, Γ'⟩

structure ExprClaim (U : Unicode) (m : _root_.Bool) (Γ : List Chars) (s : Chars) (e : Node) (Γ' : List Chars) : Prop where
  opening : Opening U s
  run : ∀ d rest, After U m rest → ∃ e', strip e' = e ∧ ∀ x st',
    Runs (fun p => p.expr_loop e') (env U m d) ⟨rest, Γ'⟩ x st' → Runs (fun p => p.expr) (env U m d) ⟨s ++ rest, Γ⟩ x st'

structure StatementClaim (U : Unicode) (m : _root_.Bool) (Γ : List Chars) (s : Chars) (e : Node) (Γ' : List Chars) :
    Prop where
  opening : Opening U s
  run : ∀ d rest, Follow U m 1 rest → NoMore U rest → ∃ e', strip e' = e ∧ ∀ x st',
    Runs (fun p => p.stmt_loop e') (env U m d) ⟨rest, Γ'⟩ x st' → Runs (fun p => p.stmt) (env U m d) ⟨s ++ rest, Γ⟩ x st'

/-- the end of a statement -/
def Ended (U : Unicode) (rest : Chars) : Prop :=
  ∃ t a, read_token U rest = .ok (t, a) ∧ (is_term t = true ∨ check_stmt_end t = true)

structure LineClaim (U : Unicode) (m : _root_.Bool) (Γ : List Chars) (s : Chars) (e : Node) (Γ' : List Chars) :
    Prop where
  opening : Opening U s
  run : ∀ d rest, Follow U m 0 rest → Ended U rest → ∃ e', strip e' = e ∧
    Runs (fun p => p.stmt) (env U m d) ⟨s ++ rest, Γ⟩ e' ⟨rest, Γ'⟩

/-- what ends a list of statements, and where -/
structure Closing (U : Unicode) (m : _root_.Bool) (rest after : Chars) : Prop where
  follow : Follow U m 0 rest
  ended : Ended U rest
  run : ∀ d nodes Γ, Runs (fun p => do
    if ← consume_term then p.comp_stmt_loop nodes else return .CompStmt nodes) (env U m d) ⟨rest, Γ⟩ (.CompStmt nodes)
    ⟨after, Γ⟩

structure LinesClaim (U : Unicode) (m : _root_.Bool) (Γ : List Chars) (s : Chars) (l : List Node) (Γ' : List Chars) :
    Prop where
  opening : Opening U s
  run : ∀ d nodes rest after, Closing U m rest after → ∃ l', stripAll l' = l ∧
    Runs (fun p => p.comp_stmt_loop nodes) (env U m d) ⟨s ++ rest, Γ⟩ (.CompStmt (nodes ++ l')) ⟨after, Γ'⟩

/-- the words that end a branch -/
def Closer (w : Reserved) : Prop := w = .End ∨ w = .Else ∨ w = .Elsif

structure BodyClaim (U : Unicode) (m : _root_.Bool) (Γ : List Chars) (s : Chars) (e : Node) (Γ' : List Chars) :
    Prop where
  ends : ∀ r, Ends (s ++ ' ' :: r)
  first : ∀ w rest, Closer w → Ends rest → ∃ t a, read_token U (s ++ (word w.text ++ rest)) = .ok (t, a) ∧
    is_line_tok t = false ∧ is_term t = false ∧ t ≠ .Reserved .Then ∧ (start 1 t ∨ ∃ w, t = .Reserved w)
  run : ∀ d w rest, Closer w → Ends rest → ∃ e', strip e' = e ∧
    Runs (fun p => p.comp_stmt) (env U m d) ⟨s ++ (word w.text ++ rest), Γ⟩ e' ⟨word w.text ++ rest, Γ'⟩

structure IfThenClaim (U : Unicode) (m : _root_.Bool) (Γ : List Chars) (s : Chars) (e : Node) (Γ' : List Chars) :
    Prop where
  opening : Opening U s
  plain : ∀ x, e ≠ .Splat x
  run : ∀ d rest, Ends rest → ∃ e', strip e' = e ∧
    Runs (fun p => p.if_then) (env U m d) ⟨s ++ (word "end" ++ rest), Γ⟩ e' ⟨word "end" ++ rest, Γ'⟩

/-! ## Conditions -/

theorem ExprClaim.whole (h : ExprClaim U m Γ c e Γ') (hf : Follow U m 1 rest) (hn : NoMore U rest) : ∃ e', strip e' = e ∧
    Runs (fun p => p.expr) (env U m d) ⟨c ++ rest, Γ⟩ e' ⟨rest, Γ'⟩ := by
  have ha : After U m rest := by
    obtain ⟨t, a, h1, h2, -⟩ := hn
    exact ⟨hf, t, a, h1, h2⟩
  obtain ⟨e', h1, h2⟩ := h.run d rest ha
  exact ⟨e', h1, h2 _ _ (expr_end hn)⟩

theorem after_word (w : Reserved) (hw : followWord w = true) (h : Ends r) : After U m (word w.text ++ r) :=
  ⟨follow_word w hw h (by omega), _, _, read_word w h, by simp⟩

theorem noMore_word (w : Reserved) (h1 : w ≠ .And) (h2 : w ≠ .Or) (h : Ends r) : NoMore U (word w.text ++ r) :=
  ⟨_, _, read_word w h, by simp, by simpa using h1, by simpa using h2⟩

theorem noMore_semi (h : Ends r) : NoMore U (word ";" ++ r) :=
  ⟨_, _, read_semi h, by simp, by simp, by simp⟩

theorem expr_arg (h : ArgClaim U m Γ s e Γ') : ExprClaim U m Γ s e Γ' := by
  refine ⟨h.opening, fun d rest ha => ?_⟩
  obtain ⟨e', h1, h2⟩ := h.run d rest ha
  refine ⟨e', h1, fun x st' hx => ?_⟩
  refine Runs.up (g := fun p => parse_expr p) (fun _ => rfl) ?_
  unfold parse_expr
  exact Runs.bind (not_of ha.2 h2) hx

theorem expr_and {f : Node} (h : ExprClaim U m Γ s e Γ₁) (h2 : ArgClaim U m Γ₁ t f Γ₂) :
    ExprClaim U m Γ (s ++ (word "and" ++ t)) (.BinOp .LAnd e f) Γ₂ := by
  refine ⟨h.opening.append fun rest _ => ends_sp _, fun d rest ha => ?_⟩
  have hends := h2.opening.ends rest
  obtain ⟨e', he1, he2⟩ := h.run d (word "and" ++ (t ++ rest)) (after_word .And rfl hends)
  obtain ⟨f', hf1, hf2⟩ := h2.run d rest ha
  refine ⟨.BinOp .LAnd e' f', ?_, fun x st' hx => ?_⟩
  · show Node.BinOp .LAnd (strip e') (strip f') = _
    rw [he1, hf1]
  · rw [List.append_assoc, List.append_assoc]
    refine he2 _ _ ?_
    refine Runs.up (g := fun p => parse_expr_loop p e') (fun _ => rfl) ?_
    unfold parse_expr_loop
    refine Runs.yes (crn_yes (read_word (U := U) .And hends)) ?_
    exact Runs.bind (not_of ha.2 hf2) hx

theorem expr_or {f : Node} (h : ExprClaim U m Γ s e Γ₁) (h2 : ArgClaim U m Γ₁ t f Γ₂) :
    ExprClaim U m Γ (s ++ (word "or" ++ t)) (.BinOp .LOr e f) Γ₂ := by
  refine ⟨h.opening.append fun rest _ => ends_sp _, fun d rest ha => ?_⟩
  have hends := h2.opening.ends rest
  obtain ⟨e', he1, he2⟩ := h.run d (word "or" ++ (t ++ rest)) (after_word .Or rfl hends)
  obtain ⟨f', hf1, hf2⟩ := h2.run d rest ha
  refine ⟨.BinOp .LOr e' f', ?_, fun x st' hx => ?_⟩
  · show Node.BinOp .LOr (strip e') (strip f') = _
    rw [he1, hf1]
  · rw [List.append_assoc, List.append_assoc]
    refine he2 _ _ ?_
    refine Runs.up (g := fun p => parse_expr_loop p e') (fun _ => rfl) ?_
    unfold parse_expr_loop
    have htok := read_word (U := U) .Or hends
    refine Runs.no (crn_no (fl := env U m d) htok (by simp)) ?_
    refine Runs.yes (crn_yes htok) ?_
    exact Runs.bind (not_of ha.2 hf2) hx

/-! ## Statements -/

theorem statement_expr (h : ExprClaim U m Γ s e Γ') : StatementClaim U m Γ s e Γ' := by
  refine ⟨h.opening, fun d rest hf hn => ?_⟩
  obtain ⟨e', h1, h2⟩ := h.whole (d := d) hf hn
  refine ⟨e', h1, fun x st' hx => ?_⟩
  refine Runs.up (g := fun p => parse_stmt p) (fun _ => rfl) ?_
  unfold parse_stmt
  exact Runs.bind h2 hx

/-- the loop of modifiers, at a modifier -/
theorem stmt_loop_modifier (o : Modifier) {f f' cond cond' : Node} (hf : strip f' = f) (hc : strip cond' = cond) (hends : Ends r)
    (h : Runs (fun p => p.expr) (env U m d) ⟨r, Γ⟩ cond' ⟨rest, Γ'⟩) : ∃ e', strip e' = o.node cond f ∧ ∀ x st',
      Runs (fun p => p.stmt_loop e') (env U m d) ⟨rest, Γ'⟩ x st' →
      Runs (fun p => p.stmt_loop f') (env U m d) ⟨word o.text ++ r, Γ⟩ x st' := by
  cases o
  · refine ⟨.If cond' f' (.CompStmt []), ?_, fun x st' hx => ?_⟩
    · show Node.If (strip cond') (strip f') _ = _
      rw [hf, hc]; rfl
    · have htok := read_word (U := U) .If hends
      refine Runs.up (g := fun p => parse_stmt_loop p f') (fun _ => rfl) ?_
      unfold parse_stmt_loop
      exact Runs.yes (crn_yes htok) (Runs.bind h hx)
  · refine ⟨.If cond' (.CompStmt []) f', ?_, fun x st' hx => ?_⟩
    · show Node.If (strip cond') _ (strip f') = _
      rw [hf, hc]; rfl
    · have htok := read_word (U := U) .Unless hends
      refine Runs.up (g := fun p => parse_stmt_loop p f') (fun _ => rfl) ?_
      unfold parse_stmt_loop
      refine Runs.no (crn_no (fl := env U m d) htok (by simp)) ?_
      exact Runs.yes (crn_yes htok) (Runs.bind h hx)
  · refine ⟨.While cond' f' true, ?_, fun x st' hx => ?_⟩
    · show Node.While (strip cond') (strip f') _ = _
      rw [hf, hc]; rfl
    · have htok := read_word (U := U) .While hends
      refine Runs.up (g := fun p => parse_stmt_loop p f') (fun _ => rfl) ?_
      unfold parse_stmt_loop
      refine Runs.no (crn_no (fl := env U m d) htok (by simp)) ?_
      refine Runs.no (crn_no (fl := env U m d) htok (by simp)) ?_
      exact Runs.yes (crn_yes htok) (Runs.bind h hx)
  · refine ⟨.While cond' f' false, ?_, fun x st' hx => ?_⟩
    · show Node.While (strip cond') (strip f') _ = _
      rw [hf, hc]; rfl
    · have htok := read_word (U := U) .Until hends
      refine Runs.up (g := fun p => parse_stmt_loop p f') (fun _ => rfl) ?_
      unfold parse_stmt_loop
      refine Runs.no (crn_no (fl := env U m d) htok (by simp)) ?_
      refine Runs.no (crn_no (fl := env U m d) htok (by simp)) ?_
      refine Runs.no (crn_no (fl := env U m d) htok (by simp)) ?_
      exact Runs.yes (crn_yes htok) (Runs.bind h hx)

def Modifier.reserved : Modifier → Reserved
  | .if_ => .If | .unless_ => .Unless | .while_ => .While | .until_ => .Until

theorem Modifier.text_eq (o : Modifier) : o.text = o.reserved.text := by cases o <;> rfl

theorem follow_modifier (o : Modifier) (h : Ends r) : Follow U m 1 (word o.text ++ r) ∧ NoMore U (word o.text ++ r) := by
  rw [o.text_eq]
  refine ⟨follow_word _ (by cases o <;> rfl) h (by omega), noMore_word _ ?_ ?_ h⟩ <;> cases o <;> simp [Modifier.reserved]

theorem statement_modified (o : Modifier) {cond : Node} (h : StatementClaim U m Γ s e Γ₁) (h2 : ExprClaim U m Γ₁ c cond Γ₂) :
    StatementClaim U m Γ (s ++ (word o.text ++ c)) (o.node cond e) Γ₂ := by
  refine ⟨h.opening.append fun rest _ => ends_sp _, fun d rest hf hn => ?_⟩
  have hends := h2.opening.ends rest
  obtain ⟨g1, g2⟩ := follow_modifier (U := U) (m := m) o hends
  obtain ⟨e', he1, he2⟩ := h.run d _ g1 g2
  obtain ⟨c', hc1, hc2⟩ := h2.whole (d := d) hf hn
  obtain ⟨f, hf1, hf2⟩ := stmt_loop_modifier o he1 hc1 hends hc2
  refine ⟨f, hf1, fun x st' hx => ?_⟩
  rw [List.append_assoc, List.append_assoc]
  exact he2 _ _ (hf2 _ _ hx)

theorem stmt_end (hf : Follow U m 0 rest) : Runs (fun p => p.stmt_loop e) (env U m d) ⟨rest, Γ⟩ e ⟨rest, Γ⟩ := by
  obtain ⟨⟨t1, a1, t2, a2, h1, h2, h3, h4⟩, -⟩ := hf
  refine Runs.up (g := fun p => parse_stmt_loop p e) (fun _ => rfl) ?_
  unfold parse_stmt_loop
  refine Runs.no (crn_no h1 (reserved_of_stops h2 _)) ?_
  refine Runs.no (crn_no h1 (reserved_of_stops h2 _)) ?_
  refine Runs.no (crn_no h1 (reserved_of_stops h2 _)) ?_
  refine Runs.no (crn_no h1 (reserved_of_stops h2 _)) ?_
  refine Runs.no (crn_no h1 (reserved_of_stops h2 _)) ?_
  exact Runs.pure _

theorem line_statement (h : StatementClaim U m Γ s e Γ') : LineClaim U m Γ s e Γ' := by
  refine ⟨h.opening, fun d rest hf _ => ?_⟩
  obtain ⟨e', h1, h2⟩ := h.run d rest (hf.mono (by omega)) hf.noMore
  exact ⟨e', h1, h2 _ _ (stmt_end hf)⟩

/-! ## Jumps -/

def Jump.reserved : Jump → Reserved
  | .ret => .Return | .brk => .Break | .nxt => .Next

theorem Jump.text_eq (j : Jump) : j.text = j.reserved.text := by cases j <;> rfl

theorem jump_primary (j : Jump) {v : Node} (hr : Ends r) (h : Runs (fun p => p.break_sub) (env U m d) ⟨r, Γ⟩ v ⟨rest, Γ'⟩) :
    Runs (entry 18) (env U m d) ⟨word j.text ++ r, Γ⟩ (j.node v) ⟨rest, Γ'⟩ := by
  have htok := read_word (U := U) j.reserved hr
  rw [← j.text_eq] at htok
  refine Runs.up (g := fun p => parse_primary p false) (fun _ => rfl) ?_
  unfold parse_primary
  refine Runs.step (get_eq (skips_of (fl := env U m d) htok rfl) (by simp)) ?_
  cases j <;> exact Runs.bind h (Runs.pure _)

theorem jump_opening (j : Jump) (hr : ∀ rest, Ends rest → Ends (r ++ rest)) : Opening U (word j.text ++ r) := by
  rw [j.text_eq]
  exact opening_word _ (by cases j <;> trivial) hr

theorem jump_strip (j : Jump) {v v' : Node} (h : strip v' = v) : strip (j.node v') = j.node v := by
  subst h; cases j <;> rfl

/-- from a primary to an operand -/
theorem primary_arg (ho : Opens U 18 s) (hf : Follow U m 1 rest) (h : Runs (entry 18) (env U m d) ⟨s, Γ⟩ e ⟨rest, Γ'⟩) :
    Runs (fun p => p.arg) (env U m d) ⟨s, Γ⟩ e ⟨rest, Γ'⟩ :=
  chain_le (k := 2) (j := 18) (by omega) (by omega) (by omega) ho hf h

theorem opens_word (w : Reserved) (hw : opener (.Reserved w)) (hr : Ends r) : Opens U k (word w.text ++ r) :=
  ⟨_, _, read_word w hr, .inr hw, by rintro h; cases h; exact hw.elim⟩

theorem opens_jump (j : Jump) (hr : Ends r) : Opens U k (word j.text ++ r) := by
  rw [j.text_eq]; exact opens_word _ (by cases j <;> trivial) hr

/-- a jump with a value -/
theorem arg_jump (j : Jump) (h : Claim U Γ e Γ') : ArgClaim U m Γ (word j.text ++ print 3 e) (j.node e) Γ' := by
  have hs := h.print_starts (k := 3) (p := 3) (by omega) (by omega)
  refine ⟨jump_opening j fun rest _ => hs.ends rest, fun x => by cases j <;> simp [Jump.node], fun d rest ha => ?_⟩
  obtain ⟨hf, t1, a1, g1, g2⟩ := ha
  obtain ⟨e', h1, h2⟩ := h.print_arg (m := m) (d := d) (hf.mono (q := 2) (by omega))
  refine ⟨j.node e', jump_strip j h1.strip, ?_⟩
  rw [List.append_assoc]
  refine primary_arg (opens_jump j (hs.ends rest)) hf (jump_primary j (hs.ends rest) ?_)
  refine Runs.up (g := fun p => parse_break_sub p) (fun _ => rfl) ?_
  unfold parse_break_sub
  obtain ⟨t, a, ht, hst, -⟩ := hs.2 rest hf.ends
  refine Runs.step (peek_no_term_eq (fl := env U m d) ht) ?_
  obtain ⟨k1, k2, k3, -⟩ := opens_tok (.inl (start_mono (p := 2) (by omega) hst))
  have hw : t ≠ .Reserved .Unless ∧ t ≠ .Reserved .If := by
    constructor <;> (rintro rfl; exact hst)
  simp only [k2, k3, hw.1, hw.2, decide_false, Bool.or_self, Bool.false_eq_true, if_false]
  refine Runs.bind h2 ?_
  refine Runs.no (cpn_no (fl := env U m d) g1 g2) ?_
  exact Runs.pure _

/-- a jump without one -/
theorem jump_nil (j : Jump) (hf : Follow U m 1 rest) (hn : NoMore U rest)
    (ht : ∃ t a, read_token U rest = .ok (t, a) ∧
      (is_term t || t = .Reserved .Unless || t = .Reserved .If || check_stmt_end t) = true)
    {st' : St} (hx : Runs (fun p => p.stmt_loop (j.node .Nil)) (env U m d) ⟨rest, Γ⟩ x st') :
    Runs (fun p => p.stmt) (env U m d) ⟨word j.text ++ rest, Γ⟩ x st' := by
  have hsub : Runs (fun p => p.break_sub) (env U m d) ⟨rest, Γ⟩ .Nil ⟨rest, Γ⟩ := by
    obtain ⟨t, a, h1, h2⟩ := ht
    refine Runs.up (g := fun p => parse_break_sub p) (fun _ => rfl) ?_
    unfold parse_break_sub
    refine Runs.step (peek_no_term_eq (fl := env U m d) h1) ?_
    simp only [h2, if_true]
    exact Runs.pure _
  refine Runs.up (g := fun p => parse_stmt p) (fun _ => rfl) ?_
  unfold parse_stmt
  refine Runs.bind (expr_of hn ?_) hx
  exact primary_arg (opens_jump j hf.ends) hf (jump_primary j hf.ends hsub)

theorem line_jump (j : Jump) : LineClaim U m Γ (word j.text) (j.node .Nil) Γ := by
  refine ⟨?_, fun d rest hf he => ⟨j.node .Nil, by cases j <;> rfl, ?_⟩⟩
  · have := jump_opening (U := U) (r := []) j fun rest h => h
    rwa [List.append_nil] at this
  · refine jump_nil j (hf.mono (by omega)) hf.noMore ?_ (stmt_end hf)
    obtain ⟨t, a, h1, h2⟩ := he
    exact ⟨t, a, h1, by rcases h2 with h2 | h2 <;> simp [h2]⟩

theorem line_jump_modified (j : Jump) (o : Modifier) (ho : o = .if_ ∨ o = .unless_) {cond : Node}
    (h : ExprClaim U m Γ c cond Γ') : LineClaim U m Γ (word j.text ++ (word o.text ++ c)) (o.node cond (j.node .Nil)) Γ' := by
  refine ⟨jump_opening j fun rest _ => ends_sp _, fun d rest hf _ => ?_⟩
  have hends := h.opening.ends rest
  obtain ⟨c', hc1, hc2⟩ := h.whole (d := d) (hf.mono (q := 1) (by omega)) hf.noMore
  obtain ⟨f, hf1, hf2⟩ := stmt_loop_modifier (m := m) o (f := j.node .Nil) (f' := j.node .Nil) (by cases j <;> rfl) hc1 hends hc2
  obtain ⟨g1, g2⟩ := follow_modifier (U := U) (m := m) o hends
  refine ⟨f, hf1, ?_⟩
  rw [List.append_assoc, List.append_assoc]
  refine jump_nil j g1 g2 ?_ (hf2 _ _ (stmt_end hf))
  refine ⟨_, _, by rw [o.text_eq]; exact read_word _ hends, ?_⟩
  rcases ho with rfl | rfl <;> rfl

end
end Verif.Parser
