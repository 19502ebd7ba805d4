import Verif.Parser.Stmt
/-!
# Branches, loops and multiple assignment: lemmas for C49
-/
namespace Verif.Parser
open Verif.Lexer (Chars Unicode BinOp Punct Reserved Tok Name Text Ends read_token is_space is_alpha C73_token C73_space)

section
variable {U : Unicode} {m d : _root_.Bool} {p k : Nat} {s c b b₂ r rest t : Chars} {Γ Γ₁ Γ₂ Γ₃ Γ' : List Chars}
  {e e₂ x l cond : Node} {q : Punct} {es : List Node} {a : Chars}

/-! ## Lists of statements -/

theorem Opening.token (h : Opening U s) (hr : Ends rest) : ∃ t a, read_token U (s ++ rest) = .ok (t, a) ∧
    is_line_tok t = false ∧ is_term t = false ∧ check_stmt_end t = false ∧ t ≠ .Reserved .Then ∧ t ≠ .Punct .Mul ∧
    (start 1 t ∨ ∃ r, t = .Reserved r) := by
  obtain ⟨t, a, h1, h2, -⟩ := h.2 rest hr
  obtain ⟨g1, g2, g3, g4, g5, g6, g7, g8⟩ := opens_tok h2
  exact ⟨t, a, h1, g1, g2, g3, g5, g6, g8⟩

/-- one statement of a list -/
theorem stmt_in_list {nodes : List Node} {y : Node} {st' : St} (ho : Opening U s) (hr : Ends rest)
    (h : Runs (fun p => p.stmt) (env U m d) ⟨s ++ rest, Γ⟩ e ⟨rest, Γ'⟩)
    (h' : Runs (fun p => do
      if ← consume_term then p.comp_stmt_loop (nodes ++ [e]) else return .CompStmt (nodes ++ [e])) (env U m d)
      ⟨rest, Γ'⟩ y st') :
    Runs (fun p => p.comp_stmt_loop nodes) (env U m d) ⟨s ++ rest, Γ⟩ y st' := by
  obtain ⟨t, a, h1, h2, h3, h4, -⟩ := ho.token hr
  refine Runs.up (g := fun p => parse_comp_stmt_loop p nodes) (fun _ => rfl) ?_
  unfold parse_comp_stmt_loop
  refine Runs.step (peek_eq (skips_of (fl := env U m d) h1 h2)) ?_
  simp only [h4, Bool.false_eq_true, if_false]
  exact Runs.bind h h'

theorem lines_one (h : LineClaim U m Γ s e Γ') : LinesClaim U m Γ s [e] Γ' := by
  refine ⟨h.opening, fun d nodes rest after hc => ?_⟩
  obtain ⟨e', h1, h2⟩ := h.run d rest hc.follow hc.ended
  refine ⟨[e'], by rw [← h1]; rfl, ?_⟩
  exact stmt_in_list h.opening hc.follow.ends h2 (hc.run _ _ _)

theorem lines_more {ls : List Node} (h : LineClaim U m Γ s e Γ₁) (h2 : LinesClaim U m Γ₁ t ls Γ₂) :
    LinesClaim U m Γ (s ++ (word ";" ++ t)) (e :: ls) Γ₂ := by
  refine ⟨h.opening.append fun rest _ => ends_sp _, fun d nodes rest after hc => ?_⟩
  obtain ⟨t', a', g1, g2, g3, g4, g5, g6, g7⟩ := h2.opening.token hc.follow.ends
  have hends := h2.opening.ends rest
  obtain ⟨e', he1, he2⟩ := h.run d (word ";" ++ (t ++ rest)) (follow_semi_tok hends g1 g2 g7)
    ⟨_, _, read_semi hends, .inl rfl⟩
  obtain ⟨l', hl1, hl2⟩ := h2.run d (nodes ++ [e']) rest after hc
  refine ⟨e' :: l', ?_, ?_⟩
  · show strip e' :: stripAll l' = _
    rw [he1, hl1]
  · rw [List.append_assoc, List.append_assoc]
    refine stmt_in_list h.opening (ends_sp _) he2 ?_
    rw [List.append_assoc] at hl2
    exact Runs.yes (consume_semi (fl := env U m d) hends g1 g3) hl2

/-- at the end of the text -/
theorem closing_nil : Closing U m [] [] := by
  refine ⟨follow_nil, ⟨.Eof, [], rfl, .inl rfl⟩, fun d nodes Γ => ?_⟩
  refine Runs.yes (consume_term_yes (fl := env U m d) (s := []) (t := .Eof) (a := []) (s' := []) rfl rfl rfl) ?_
  exact stmts_end (.inl rfl)

theorem closer_tok {w : Reserved} (h : Closer w) : check_stmt_end (.Reserved w) = true ∧ w ≠ .Then := by
  rcases h with rfl | rfl | rfl <;> exact ⟨rfl, by simp⟩

theorem list_end {nodes : List Node} {w : Reserved} (hw : Closer w) (hr : Ends r) :
    Runs (fun p => p.comp_stmt_loop nodes) (env U m d) ⟨word w.text ++ r, Γ⟩ (.CompStmt nodes) ⟨word w.text ++ r, Γ⟩ := by
  refine Runs.up (g := fun p => parse_comp_stmt_loop p nodes) (fun _ => rfl) ?_
  unfold parse_comp_stmt_loop
  refine Runs.step (peek_eq (skips_of (fl := env U m d) (read_word w hr) rfl)) ?_
  simp only [(closer_tok hw).1, if_true]
  exact Runs.pure _

/-- at the end of a branch -/
theorem closing_word {w : Reserved} (hw : Closer w) (hr : Ends r) :
    Closing U m (word ";" ++ (word w.text ++ r)) (word w.text ++ r) := by
  have h1 := read_word (U := U) w hr
  refine ⟨follow_semi_tok (ends_sp _) h1 rfl (.inr ⟨_, rfl⟩), ⟨_, _, read_semi (ends_sp _), .inl rfl⟩, fun d nodes Γ => ?_⟩
  refine Runs.yes (consume_semi (fl := env U m d) (ends_sp _) h1 rfl) ?_
  exact list_end hw hr

theorem strip_seq {l' ls : List Node} (h : stripAll l' = ls) : strip (.CompStmt l') = seq ls := by
  subst h
  rcases l' with _ | ⟨a, _ | ⟨b, l'⟩⟩ <;> rfl

theorem body_none : BodyClaim U m Γ [] (.CompStmt []) Γ := by
  refine ⟨fun r => ends_sp r, fun w rest hw hr => ?_, fun d w rest hw hr => ⟨.CompStmt [], rfl, ?_⟩⟩
  · exact ⟨_, _, read_word w hr, rfl, rfl, by simpa using (closer_tok hw).2, .inr ⟨_, rfl⟩⟩
  · refine Runs.up (g := fun p => parse_comp_stmt p) (fun _ => rfl) ?_
    unfold parse_comp_stmt
    exact Runs.step (peek_eq (skips_of (fl := env U m d) (read_word w hr) rfl)) (list_end hw hr)

theorem body_some {ls : List Node} (h : LinesClaim U m Γ s ls Γ') : BodyClaim U m Γ (s ++ word ";") (seq ls) Γ' := by
  refine ⟨fun r => ?_, fun w rest hw hr => ?_, fun d w rest hw hr => ?_⟩
  · rw [List.append_assoc]; exact h.opening.ends _
  · obtain ⟨t, a, g1, g2, g3, g4, g5, g6, g7⟩ := h.opening.token (rest := word ";" ++ (word w.text ++ rest)) (ends_sp _)
    exact ⟨t, a, by rw [List.append_assoc]; exact g1, g2, g3, g5, g7⟩
  · obtain ⟨l', h1, h2⟩ := h.run d [] _ _ (closing_word hw hr)
    refine ⟨.CompStmt l', strip_seq h1, ?_⟩
    rw [List.append_assoc]
    obtain ⟨t, a, g1, g2, -⟩ := h.opening.token (rest := word ";" ++ (word w.text ++ rest)) (ends_sp _)
    refine Runs.up (g := fun p => parse_comp_stmt p) (fun _ => rfl) ?_
    unfold parse_comp_stmt
    exact Runs.step (peek_eq (skips_of (fl := env U m d) g1 g2)) h2

/-! ## Conditionals -/

/-- `then` or a semicolon -/
theorem then_run (ht : Then t) (hr : Ends r) (h : ∃ t a, read_token U r = .ok (t, a) ∧
    is_line_tok t = false ∧ is_term t = false ∧ t ≠ .Reserved .Then ∧ (start 1 t ∨ ∃ w, t = .Reserved w)) :
    Follow U m 1 (t ++ r) ∧ NoMore U (t ++ r) ∧ parse_then (env U m d) ⟨t ++ r, Γ⟩ = .ok ((), ⟨r, Γ⟩) := by
  obtain ⟨t', a', h1, h2, h3, h4, h5⟩ := h
  rcases ht with rfl | rfl
  · have htok := read_word (U := U) .Then hr
    refine ⟨follow_word .Then rfl hr (by omega), noMore_word .Then (by simp) (by simp) hr, ?_⟩
    unfold parse_then
    show (consume_term >>= _) (env U m d) ⟨word Reserved.Then.text ++ r, Γ⟩ = _
    rw [bind_ok (consume_term_no (fl := env U m d) htok rfl)]
    exact expect_reserved_yes (skips_of (fl := env U m d) htok rfl)
  · refine ⟨follow_semi_tok hr h1 h2 h5, noMore_semi hr, ?_⟩
    unfold parse_then
    rw [bind_ok (consume_semi (fl := env U m d) hr h1 h3)]
    show (consume_reserved .Then >>= fun _ => pure ()) (env U m d) _ = _
    rw [bind_ok (consume_reserved_no (skips_of (fl := env U m d) h1 h2) h4)]; rfl

/-- a condition, `then`, and a branch -/
theorem cond_run (hc : ExprClaim U m Γ c cond Γ₁) (ht : Then t) (hb : BodyClaim U m Γ₁ b e Γ₂) {w : Reserved} (hw : Closer w)
    (hr : Ends rest) : ∃ cond' e', strip cond' = cond ∧ strip e' = e ∧ ∀ (f : Parsers → Node → Node → P Node) x st',
      Runs (fun p => f p cond' e') (env U m d) ⟨word w.text ++ rest, Γ₂⟩ x st' →
      Runs (fun p => p.expr >>= fun cond => parse_then >>= fun _ => p.comp_stmt >>= fun e => f p cond e) (env U m d)
        ⟨c ++ (t ++ (b ++ (word w.text ++ rest))), Γ⟩ x st' := by
  have hends : Ends (b ++ (word w.text ++ rest)) := hb.ends _
  have hth := fun Γ => then_run (m := m) (d := d) (Γ := Γ) ht hends (hb.first w rest hw hr)
  obtain ⟨c', hc1, hc2⟩ := hc.whole (d := d) (hth []).1 (hth []).2.1
  obtain ⟨e', he1, he2⟩ := hb.run d w rest hw hr
  refine ⟨c', e', hc1, he1, fun f x st' hx => ?_⟩
  refine Runs.bind hc2 ?_
  refine Runs.step (hth Γ₁).2.2 ?_
  exact Runs.bind he2 hx

theorem ends_then (ht : Then t) (r : Chars) : Ends (t ++ r) := by
  rcases ht with rfl | rfl <;> exact ends_sp _

theorem then_ends (ht : Then t) (r : Chars) : ∀ rest, Ends rest → Ends ((t ++ r) ++ rest) := by
  intro rest _; rw [List.append_assoc]; exact ends_then ht _

theorem if_one (hc : ExprClaim U m Γ c cond Γ₁) (ht : Then t) (hb : BodyClaim U m Γ₁ b e Γ₂) :
    IfThenClaim U m Γ (c ++ (t ++ b)) (.If cond e (.CompStmt [])) Γ₂ := by
  refine ⟨hc.opening.append (then_ends ht _), by simp, fun d rest hr => ?_⟩
  obtain ⟨c', e', h1, h2, h3⟩ := cond_run (d := d) hc ht hb (w := .End) (.inl rfl) hr
  refine ⟨.If c' e' (.CompStmt []), ?_, ?_⟩
  · show Node.If (strip c') (strip e') _ = _
    rw [h1, h2]; rfl
  · rw [List.append_assoc, List.append_assoc]
    refine Runs.up (g := fun p => parse_if_then p) (fun _ => rfl) ?_
    unfold parse_if_then
    refine h3 _ _ _ ?_
    have hs := skips_of (fl := env U m d) (read_word (U := U) .End hr) rfl
    refine Runs.no (consume_reserved_no hs (by simp)) ?_
    refine Runs.no (consume_reserved_no hs (by simp)) ?_
    exact Runs.pure _

theorem if_els (hc : ExprClaim U m Γ c cond Γ₁) (ht : Then t) (hb : BodyClaim U m Γ₁ b e Γ₂) (hb2 : BodyClaim U m Γ₂ b₂ e₂ Γ₃) :
    IfThenClaim U m Γ (c ++ (t ++ (b ++ (word "else" ++ b₂)))) (.If cond e e₂) Γ₃ := by
  refine ⟨hc.opening.append (then_ends ht _), by simp, fun d rest hr => ?_⟩
  have hends : Ends (b₂ ++ (word "end" ++ rest)) := hb2.ends _
  obtain ⟨c', e', h1, h2, h3⟩ := cond_run (d := d) hc ht hb (w := .Else) (.inr (.inl rfl)) hends
  obtain ⟨f', hf1, hf2⟩ := hb2.run d .End rest (.inl rfl) hr
  refine ⟨.If c' e' f', ?_, ?_⟩
  · show Node.If (strip c') (strip e') (strip f') = _
    rw [h1, h2, hf1]
  · rw [List.append_assoc, List.append_assoc, List.append_assoc, List.append_assoc]
    refine Runs.up (g := fun p => parse_if_then p) (fun _ => rfl) ?_
    unfold parse_if_then
    refine h3 _ _ _ ?_
    have hs := skips_of (fl := env U m d) (read_word (U := U) .Else hends) rfl
    refine Runs.no (consume_reserved_no hs (by simp)) ?_
    refine Runs.yes (consume_reserved_yes hs) ?_
    exact Runs.bind hf2 (Runs.pure _)

theorem if_elsif (hc : ExprClaim U m Γ c cond Γ₁) (ht : Then t) (hb : BodyClaim U m Γ₁ b e Γ₂)
    (h2 : IfThenClaim U m Γ₂ s e₂ Γ₃) :
    IfThenClaim U m Γ (c ++ (t ++ (b ++ (word "elsif" ++ s)))) (.If cond e e₂) Γ₃ := by
  refine ⟨hc.opening.append (then_ends ht _), by simp, fun d rest hr => ?_⟩
  have hends : Ends (s ++ (word "end" ++ rest)) := h2.opening.ends _
  obtain ⟨c', e', g1, g2, g3⟩ := cond_run (d := d) hc ht hb (w := .Elsif) (.inr (.inr rfl)) hends
  obtain ⟨f', hf1, hf2⟩ := h2.run d rest hr
  refine ⟨.If c' e' f', ?_, ?_⟩
  · show Node.If (strip c') (strip e') (strip f') = _
    rw [g1, g2, hf1]
  · rw [List.append_assoc, List.append_assoc, List.append_assoc, List.append_assoc]
    refine Runs.up (g := fun p => parse_if_then p) (fun _ => rfl) ?_
    unfold parse_if_then
    refine g3 _ _ _ ?_
    refine Runs.yes (consume_reserved_yes (skips_of (fl := env U m d) (read_word (U := U) .Elsif hends) rfl)) ?_
    exact Runs.bind hf2 (Runs.pure _)

theorem ends_ends (h : ∀ r, Ends (s ++ ' ' :: r)) (w : String) : ∀ rest, Ends rest → Ends ((s ++ word w) ++ rest) := by
  intro rest _; rw [List.append_assoc]; exact h _

/-- a primary that starts with a word -/
theorem primary_run {f : Parsers → P Node} (w : Reserved) (hr : Ends r) {st' : St}
    (hf : ∀ p, (match (Tok.Reserved w : Tok) with
      | .Reserved .If => parse_if p
      | .Reserved .Unless => parse_unless p
      | .Reserved .While => p.while_ true
      | .Reserved .Until => p.while_ false
      | .Reserved .Def => parse_def p
      | _ => fail .syntax) = f p) (ho : w = .If ∨ w = .Unless ∨ w = .While ∨ w = .Until ∨ w = .Def)
    (h : Runs f (env U m d) ⟨r, Γ⟩ e st') :
    Runs (entry 18) (env U m d) ⟨word w.text ++ r, Γ⟩ e st' := by
  refine Runs.up (g := fun p => parse_primary p false) (fun _ => rfl) ?_
  unfold parse_primary
  refine Runs.step (get_eq (skips_of (fl := env U m d) (read_word (U := U) w hr) rfl) (by simp)) ?_
  have : f = fun p => (match (Tok.Reserved w : Tok) with
      | .Reserved .If => parse_if p
      | .Reserved .Unless => parse_unless p
      | .Reserved .While => p.while_ true
      | .Reserved .Until => p.while_ false
      | .Reserved .Def => parse_def p
      | _ => fail .syntax) := funext fun p => (hf p).symm
  subst this
  rcases ho with rfl | rfl | rfl | rfl | rfl <;> exact h

theorem arg_if (h : IfThenClaim U m Γ s e Γ') : ArgClaim U m Γ (word "if" ++ (s ++ word "end")) e Γ' := by
  refine ⟨opening_word .If trivial fun rest _ => ?_, h.plain, fun d rest ha => ?_⟩
  · rw [List.append_assoc]; exact h.opening.ends _
  · have hends : Ends (s ++ (word "end" ++ rest)) := h.opening.ends _
    obtain ⟨e', h1, h2⟩ := h.run d rest ha.1.ends
    refine ⟨e', h1, ?_⟩
    rw [List.append_assoc, List.append_assoc]
    refine primary_arg (opens_word .If trivial hends) ha.1 (primary_run .If hends (fun _ => rfl) (by simp) ?_)
    unfold parse_if
    refine Runs.bind h2 ?_
    exact Runs.step (expect_reserved_yes (skips_of (fl := env U m d) (read_word (U := U) .End ha.1.ends) rfl)) (Runs.pure _)

theorem arg_unless (hc : ExprClaim U m Γ c cond Γ₁) (ht : Then t) (hb : BodyClaim U m Γ₁ b e Γ₂) :
    ArgClaim U m Γ (word "unless" ++ (c ++ (t ++ (b ++ word "end")))) (.If cond (.CompStmt []) e) Γ₂ := by
  refine ⟨opening_word .Unless trivial fun rest _ => ?_, by simp, fun d rest ha => ?_⟩
  · rw [List.append_assoc]; exact hc.opening.ends _
  · have hends : Ends (c ++ (t ++ (b ++ (word "end" ++ rest)))) := hc.opening.ends _
    obtain ⟨c', e', h1, h2, h3⟩ := cond_run (d := d) hc ht hb (w := .End) (.inl rfl) ha.1.ends
    refine ⟨.If c' (.CompStmt []) e', ?_, ?_⟩
    · show Node.If (strip c') _ (strip e') = _
      rw [h1, h2]; rfl
    · rw [List.append_assoc, List.append_assoc, List.append_assoc, List.append_assoc]
      refine primary_arg (opens_word .Unless trivial hends) ha.1 (primary_run .Unless hends (fun _ => rfl) (by simp) ?_)
      unfold parse_unless
      refine h3 _ _ _ ?_
      have hs := skips_of (fl := env U m d) (read_word (U := U) .End ha.1.ends) rfl
      refine Runs.bind (a := .CompStmt []) (Runs.no (consume_reserved_no hs (by simp)) (Runs.pure _)) ?_
      exact Runs.step (expect_reserved_yes hs) (Runs.pure _)

theorem arg_unless_else (hc : ExprClaim U m Γ c cond Γ₁) (ht : Then t) (hb : BodyClaim U m Γ₁ b e Γ₂)
    (hb2 : BodyClaim U m Γ₂ b₂ e₂ Γ₃) :
    ArgClaim U m Γ (word "unless" ++ (c ++ (t ++ (b ++ (word "else" ++ (b₂ ++ word "end")))))) (.If cond e₂ e) Γ₃ := by
  refine ⟨opening_word .Unless trivial fun rest _ => ?_, by simp, fun d rest ha => ?_⟩
  · rw [List.append_assoc]; exact hc.opening.ends _
  · have hends : Ends (c ++ (t ++ (b ++ (word "else" ++ (b₂ ++ (word "end" ++ rest)))))) := hc.opening.ends _
    have hends2 : Ends (b₂ ++ (word "end" ++ rest)) := hb2.ends _
    obtain ⟨c', e', h1, h2, h3⟩ := cond_run (d := d) hc ht hb (w := .Else) (.inr (.inl rfl)) hends2
    obtain ⟨f', hf1, hf2⟩ := hb2.run d .End rest (.inl rfl) ha.1.ends
    refine ⟨.If c' f' e', ?_, ?_⟩
    · show Node.If (strip c') (strip f') (strip e') = _
      rw [h1, h2, hf1]
    · rw [List.append_assoc, List.append_assoc, List.append_assoc, List.append_assoc, List.append_assoc, List.append_assoc]
      refine primary_arg (opens_word .Unless trivial hends) ha.1 (primary_run .Unless hends (fun _ => rfl) (by simp) ?_)
      unfold parse_unless
      refine h3 _ _ _ ?_
      have hs := skips_of (fl := env U m d) (read_word (U := U) .Else hends2) rfl
      refine Runs.bind (a := f') (Runs.yes (consume_reserved_yes hs) hf2) ?_
      exact Runs.step (expect_reserved_yes (skips_of (fl := env U m d) (read_word (U := U) .End ha.1.ends) rfl)) (Runs.pure _)

/-! ## Loops -/

theorem while_run (w : _root_.Bool) (hc : ExprClaim U m Γ c cond Γ₁) (hb : BodyClaim U m Γ₁ b e Γ₂) (hr : Ends rest) :
    ∃ e', strip e' = .While cond e w ∧ Runs (fun p => p.while_ w) (env U m d)
      ⟨c ++ (word ";" ++ (b ++ (word "end" ++ rest))), Γ⟩ e' ⟨rest, Γ₂⟩ := by
  have hends : Ends (b ++ (word "end" ++ rest)) := hb.ends _
  obtain ⟨t', a', h1, h2, h3, h4, h5⟩ := hb.first .End rest (.inl rfl) hr
  obtain ⟨c', hc1, hc2⟩ := hc.whole (d := true) (follow_semi_tok (m := m) hends h1 h2 h5) (noMore_semi hends)
  obtain ⟨e', he1, he2⟩ := hb.run d .End rest (.inl rfl) hr
  refine ⟨.While c' e' w, ?_, ?_⟩
  · show Node.While (strip c') (strip e') w = _
    rw [hc1, he1]
  · refine Runs.up (g := fun p => parse_while p w) (fun _ => rfl) ?_
    unfold parse_while
    refine Runs.bind (Runs.env hc2) ?_
    refine Runs.step (a := ()) (st₁ := ⟨b ++ (word "end" ++ rest), Γ₁⟩) ?_ ?_
    · unfold parse_do
      rw [bind_ok (consume_semi (fl := env U m d) hends h1 h3)]; rfl
    refine Runs.bind he2 ?_
    exact Runs.step (expect_reserved_yes (skips_of (fl := env U m d) (read_word (U := U) .End hr) rfl)) (Runs.pure _)

theorem arg_while (hc : ExprClaim U m Γ c cond Γ₁) (hb : BodyClaim U m Γ₁ b e Γ₂) :
    ArgClaim U m Γ (word "while" ++ (c ++ (word ";" ++ (b ++ word "end")))) (.While cond e true) Γ₂ := by
  refine ⟨opening_word .While trivial fun rest _ => ?_, by simp, fun d rest ha => ?_⟩
  · rw [List.append_assoc]; exact hc.opening.ends _
  · have hends : Ends (c ++ (word ";" ++ (b ++ (word "end" ++ rest)))) := hc.opening.ends _
    obtain ⟨e', h1, h2⟩ := while_run (d := d) true hc hb ha.1.ends
    refine ⟨e', h1, ?_⟩
    rw [List.append_assoc, List.append_assoc, List.append_assoc, List.append_assoc]
    exact primary_arg (opens_word .While trivial hends) ha.1 (primary_run .While hends (fun _ => rfl) (by simp) h2)

theorem arg_until (hc : ExprClaim U m Γ c cond Γ₁) (hb : BodyClaim U m Γ₁ b e Γ₂) :
    ArgClaim U m Γ (word "until" ++ (c ++ (word ";" ++ (b ++ word "end")))) (.While cond e false) Γ₂ := by
  refine ⟨opening_word .Until trivial fun rest _ => ?_, by simp, fun d rest ha => ?_⟩
  · rw [List.append_assoc]; exact hc.opening.ends _
  · have hends : Ends (c ++ (word ";" ++ (b ++ (word "end" ++ rest)))) := hc.opening.ends _
    obtain ⟨e', h1, h2⟩ := while_run (d := d) false hc hb ha.1.ends
    refine ⟨e', h1, ?_⟩
    rw [List.append_assoc, List.append_assoc, List.append_assoc, List.append_assoc]
    exact primary_arg (opens_word .Until trivial hends) ha.1 (primary_run .Until hends (fun _ => rfl) (by simp) h2)

/-! ## Methods -/

/-- The body of a method: as for a branch, but the list of statements is kept. -/
structure DefClaim (U : Unicode) (m : _root_.Bool) (Γ : List Chars) (s : Chars) (l : List Node) (Γ' : List Chars) : Prop where
  ends : ∀ r, Ends (s ++ ' ' :: r)
  first : ∀ rest, Ends rest → ∃ t a, read_token U (s ++ (word "end" ++ rest)) = .ok (t, a) ∧ is_term t = false
  run : ∀ d rest, Ends rest → ∃ l', stripAll l' = l ∧
    Runs (fun p => p.comp_stmt) (env U m d) ⟨s ++ (word "end" ++ rest), Γ⟩ (.CompStmt l') ⟨word "end" ++ rest, Γ'⟩

theorem def_none : DefClaim U m Γ [] [] Γ := by
  refine ⟨fun r => ends_sp r, fun rest hr => ?_, fun d rest hr => ⟨[], rfl, ?_⟩⟩
  · exact ⟨_, _, read_word .End hr, rfl⟩
  · refine Runs.up (g := fun p => parse_comp_stmt p) (fun _ => rfl) ?_
    unfold parse_comp_stmt
    exact Runs.step (peek_eq (skips_of (fl := env U m d) (read_word .End hr) rfl)) (list_end (.inl rfl) hr)

theorem def_some {ls : List Node} (h : LinesClaim U m Γ s ls Γ') : DefClaim U m Γ (s ++ word ";") ls Γ' := by
  refine ⟨fun r => ?_, fun rest hr => ?_, fun d rest hr => ?_⟩
  · rw [List.append_assoc]; exact h.opening.ends _
  · obtain ⟨t, a, g1, g2, g3, g4, g5, g6, g7⟩ := h.opening.token (rest := word ";" ++ (word "end" ++ rest)) (ends_sp _)
    exact ⟨t, a, by rw [List.append_assoc]; exact g1, g3⟩
  · obtain ⟨l', h1, h2⟩ := h.run d [] _ _ (closing_word (w := .End) (.inl rfl) hr)
    refine ⟨l', h1, ?_⟩
    rw [List.append_assoc]
    obtain ⟨t, a, g1, g2, -⟩ := h.opening.token (rest := word ";" ++ (word "end" ++ rest)) (ends_sp _)
    refine Runs.up (g := fun p => parse_comp_stmt p) (fun _ => rfl) ?_
    unfold parse_comp_stmt
    exact Runs.step (peek_eq (skips_of (fl := env U m d) g1 g2)) h2

theorem Runs.out {α : Type} {x : P α} {fl : Env} {st st' : St} {a : α} (h : Runs (fun _ => x) fl st a st') :
    x fl st = .ok (a, st') := by
  obtain ⟨N, h⟩ := h
  exact h N (Nat.le_refl _)

theorem new_param_yes {fl : Env} {x : Chars} (h : x ∉ Γ) : new_param x fl ⟨s, Γ⟩ = .ok ((), ⟨s, x :: Γ⟩) := by
  unfold new_param
  simp [h]

theorem expect_ident_yes {fl : Env} {x : Chars} (h : read_token fl.U s = .ok (.Ident x, a)) :
    expect_ident fl ⟨s, Γ⟩ = .ok (x, ⟨a, Γ⟩) := by
  unfold expect_ident
  rw [bind_ok (get_eq (skips_of h rfl) (by simp))]
  rfl

theorem text_rparen : Text [')'] (.Punct .RParen) := .punct (t := ")") (by decide) (by decide)
theorem text_lparen : Text ['('] (.Punct .LParen) := .punct (t := "(") (by decide) (by decide)

theorem formals_ends : ∀ (ps : List Chars) (w : String) (r : Chars), Ends (formals ps ++ (word w ++ r))
  | [], _, _ => ends_sp _
  | [_], _, _ => ends_sp _
  | _ :: _ :: _, _, _ => ends_sp _

theorem formals_length : ∀ ps : List Chars, ps.length ≤ (formals ps).length
  | [] => Nat.le_refl _
  | [x] => by simp [formals]
  | x :: y :: l => by
    have := formals_length (y :: l)
    simp only [formals, List.length_cons, List.length_append] at *
    omega

/-- the loop for the parameters -/
theorem formals_run : ∀ (ps : List Chars) (n : Nat) (args Γ : List Chars) (d : _root_.Bool), ps ≠ [] → ps.length ≤ n →
    (∀ x ∈ ps, VarName x) → ps.Nodup → (∀ x ∈ ps, x ∉ Γ) → Ends r →
    Runs (fun _ => formal_loop n args) (env U m d) ⟨formals ps ++ (word ")" ++ r), Γ⟩ (args ++ ps)
      ⟨word ")" ++ r, ps.reverse ++ Γ⟩
  | [], _, _, _, _, h, _, _, _, _, _ => absurd rfl h
  | x :: l, 0, _, _, _, _, h, _, _, _, _ => by simp at h
  | x :: l, n + 1, args, Γ, d, _, hn, hv, hd, hΓ, hr => by
    obtain ⟨u, hu, he⟩ : ∃ u, formals (x :: l) ++ (word ")" ++ r) = ' ' :: (x ++ u) ∧ Ends u := by
      match l with
      | [] => exact ⟨word ")" ++ r, by simp [formals], ends_sp _⟩
      | y :: l => exact ⟨word "," ++ (formals (y :: l) ++ (word ")" ++ r)), by simp [formals], ends_sp _⟩
    have htok : read_token U (' ' :: (x ++ u)) = .ok (.Ident x, u) := read_text (hv x (by simp)).1 he
    have hsk := skips_of (fl := env U m d) htok rfl
    rw [hu]
    unfold formal_loop
    refine Runs.no (consume_punct_no hsk (by simp)) ?_
    refine Runs.no (consume_punct_no hsk (by simp)) ?_
    refine Runs.no (consume_punct_no hsk (by simp)) ?_
    refine Runs.no (consume_punct_no hsk (by simp)) ?_
    refine Runs.step (expect_ident_yes (fl := env U m d) htok) ?_
    have hx : x ∉ Γ := hΓ x (by simp)
    match l, hu with
    | [], hu =>
      obtain rfl : u = word ")" ++ r := by simpa [formals] using hu.symm
      have h2 : read_token U (word ")" ++ r) = .ok (.Punct .RParen, r) := read_text text_rparen hr
      refine Runs.no (consume_punct_no (skips_of (fl := env U m d) h2 rfl) (by simp)) ?_
      refine Runs.no (cpn_no (fl := env U m d) h2 (by simp)) ?_
      refine Runs.step (new_param_yes hx) ?_
      exact Runs.no (cpn_no (fl := env U m d) h2 (by simp)) (Runs.pure _)
    | y :: l, hu =>
      obtain rfl : u = word "," ++ (formals (y :: l) ++ (word ")" ++ r)) := by simpa [formals] using hu.symm
      have h2 : read_token U (word "," ++ (formals (y :: l) ++ (word ")" ++ r))) = .ok (.Punct .Comma, formals (y :: l) ++ (word ")" ++ r)) :=
        read_text text_comma (formals_ends _ _ _)
      refine Runs.no (consume_punct_no (skips_of (fl := env U m d) h2 rfl) (by simp)) ?_
      refine Runs.no (cpn_no (fl := env U m d) h2 (by simp)) ?_
      refine Runs.step (new_param_yes hx) ?_
      refine Runs.yes (cpn_yes (fl := env U m d) h2 (by simp)) ?_
      have := formals_run (y :: l) n (args ++ [x]) (x :: Γ) d (by simp) (by simp at hn ⊢; omega)
        (fun z hz => hv z (List.mem_cons_of_mem _ hz)) (List.nodup_cons.1 hd).2
        (fun z hz h => by
          rcases List.mem_cons.1 h with rfl | h
          · exact (List.nodup_cons.1 hd).1 hz
          · exact hΓ z (List.mem_cons_of_mem _ hz) h) hr
      simpa using this

/-- the parameters -/
theorem params_run (ps : List Chars) (hv : ∀ x ∈ ps, VarName x) (hd : ps.Nodup) {t' : Tok} {a' : Chars} (hr : Ends r)
    (h1 : read_token U r = .ok (t', a')) (ht : is_term t' = false) :
    parse_def_params (env U m d) ⟨'(' :: (formals ps ++ (word ")" ++ (word ";" ++ r))), []⟩ = .ok (ps, ⟨r, ps.reverse⟩) := by
  apply Runs.out
  have h2 : read_token U ('(' :: (formals ps ++ (word ")" ++ (word ";" ++ r)))) = .ok (.Punct .LParen, formals ps ++ (word ")" ++ (word ";" ++ r))) :=
    C73_token U text_lparen (formals_ends _ _ _)
  have h3 : read_token U (word ")" ++ (word ";" ++ r)) = .ok (.Punct .RParen, word ";" ++ r) := read_text text_rparen (ends_sp _)
  unfold parse_def_params
  refine Runs.no (consume_term_no (fl := env U m d) h2 rfl) ?_
  refine Runs.yes (consume_punct_yes (skips_of (fl := env U m d) h2 rfl)) ?_
  have h4 := skips_of (fl := env U m d) h3 rfl
  refine Runs.bind (f := fun _ => parse_formal_params (some .RParen)) (a := ps) (st₁ := ⟨word ";" ++ r, ps.reverse⟩) ?_ ?_
  · match ps with
    | [] => exact Runs.yes (consume_punct_yes h4) (Runs.pure _)
    | x :: l =>
      have h5 : ∃ u, formals (x :: l) ++ (word ")" ++ (word ";" ++ r)) = ' ' :: (x ++ u) ∧ Ends u := by
        match l with
        | [] => exact ⟨word ")" ++ (word ";" ++ r), by simp [formals], ends_sp _⟩
        | y :: l => exact ⟨word "," ++ (formals (y :: l) ++ (word ")" ++ (word ";" ++ r))), by simp [formals], ends_sp _⟩
      obtain ⟨u, hu, he⟩ := h5
      have h6 : read_token U (formals (x :: l) ++ (word ")" ++ (word ";" ++ r))) = .ok (.Ident x, u) := by
        rw [hu]; exact read_text (hv x (by simp)).1 he
      refine Runs.no (consume_punct_no (skips_of (fl := env U m d) h6 rfl) (by simp)) ?_
      refine Runs.step (a := x :: l) (st₁ := ⟨word ")" ++ (word ";" ++ r), (x :: l).reverse⟩) ?_ ?_
      · have := (formals_run (U := U) (m := m) (r := word ";" ++ r) (x :: l) ((formals (x :: l) ++ (word ")" ++ (word ";" ++ r))).length + 1) [] [] d
          (by simp) (by have := formals_length (x :: l); rw [List.length_append]; omega) hv hd (by simp) (ends_sp _)).out
        simpa using this
      · exact Runs.step (expect_punct_yes h4) (Runs.pure _)
  · exact Runs.step (consume_semi (fl := env U m d) hr h1 ht) (Runs.pure _)

theorem inScope_runs {α : Type} {f : Parsers → P α} {fl : Env} {x : α} (h : Runs f fl ⟨s, []⟩ x ⟨r, Γ'⟩) :
    Runs (fun p => inScope (f p)) fl ⟨s, Γ⟩ (x, Γ') ⟨r, Γ⟩ := by
  obtain ⟨N, h⟩ := h
  refine ⟨N, fun n hn => ?_⟩
  show (match f (level n) fl ⟨s, []⟩ with | Except.error e => _ | .ok (a, st') => _) = _
  rw [h n hn]

/-- the definition -/
theorem def_run {name : Chars} {params : List Chars} {ls : List Node} (hn : VarName name) (hp : ∀ x ∈ params, VarName x)
    (hd : params.Nodup) (hb : DefClaim U m params.reverse b ls Γ') (hr : Ends rest) :
    ∃ e', strip e' = .Def name params (.CompStmt ls) Γ' ∧ Runs (fun p => parse_def p) (env U m d)
      ⟨' ' :: (name ++ ('(' :: (formals params ++ (word ")" ++ (word ";" ++ (b ++ (word "end" ++ rest))))))), Γ⟩ e' ⟨rest, Γ⟩ := by
  obtain ⟨l', h1, h2⟩ := hb.run d rest hr
  obtain ⟨t', a', h3, h4⟩ := hb.first rest hr
  refine ⟨.Def name params (.CompStmt l') Γ', by rw [strip, h1], ?_⟩
  unfold parse_def
  refine Runs.step (a := name) (st₁ := ⟨'(' :: (formals params ++ (word ")" ++ (word ";" ++ (b ++ (word "end" ++ rest))))), Γ⟩) ?_ ?_
  · have h5 := read_text (U := U) hn.1 (ends_lp (formals params ++ (word ")" ++ (word ";" ++ (b ++ (word "end" ++ rest))))))
    have h6 : read_token U ('(' :: (formals params ++ (word ")" ++ (word ";" ++ (b ++ (word "end" ++ rest)))))) = .ok (.Punct .LParen, _) :=
      C73_token U text_lparen (formals_ends _ _ _)
    unfold parse_def_name
    rw [bind_ok (get_eq (skips_of (fl := env U m d) h5 rfl) (by simp))]
    have hs : name ≠ ['s', 'e', 'l', 'f'] := by rintro rfl; exact absurd hn.2 (by decide)
    apply Runs.out
    simp only [if_neg hs]
    refine Runs.no (cpn_no (fl := env U m d) h6 (by simp)) ?_
    refine Runs.no (cpn_no (fl := env U m d) h6 (by simp)) ?_
    refine Runs.const ?_
    unfold read_method_ext
    simp
  · refine Runs.bind (inScope_runs (x := (params, .CompStmt l')) (Γ' := Γ') (r := rest) ?_) (Runs.pure _)
    refine Runs.step (params_run params hp hd (hb.ends _) h3 h4) ?_
    refine Runs.bind (f := fun p => parse_begin p) (a := .CompStmt l') (st₁ := ⟨rest, Γ'⟩) ?_ (Runs.pure _)
    unfold parse_begin
    refine Runs.bind h2 ?_
    have h7 := skips_of (fl := env U m d) (read_word (U := U) .End hr) rfl
    refine Runs.no (consume_reserved_no h7 (by simp)) ?_
    refine Runs.no (consume_reserved_no h7 (by simp)) ?_
    refine Runs.no (consume_reserved_no h7 (by simp)) ?_
    exact Runs.step (expect_reserved_yes h7) (Runs.pure _)

theorem arg_def {name : Chars} {params : List Chars} {ls : List Node} (hn : VarName name) (hp : ∀ x ∈ params, VarName x)
    (hd : params.Nodup) (hb : DefClaim U m params.reverse b ls Γ') :
    ArgClaim U m Γ (defText name params b) (.Def name params (.CompStmt ls) Γ') Γ := by
  refine ⟨opening_word .Def trivial fun rest _ => ?_, by simp, fun d rest ha => ?_⟩
  · exact ends_sp _
  · obtain ⟨e', h1, h2⟩ := def_run (d := d) (Γ := Γ) hn hp hd hb ha.1.ends
    refine ⟨e', h1, ?_⟩
    have : defText name params b ++ rest = word "def" ++ (' ' :: (name ++ ('(' :: (formals params ++ (word ")" ++ (word ";" ++ (b ++ (word "end" ++ rest)))))))) := by
      simp [defText]
    rw [this]
    exact primary_arg (opens_word .Def trivial (ends_sp _)) ha.1 (primary_run .Def (ends_sp _) (fun _ => rfl) (by simp) h2)

end
end Verif.Parser
