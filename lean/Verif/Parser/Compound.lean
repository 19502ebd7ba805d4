import Verif.Parser.Ops
/-!
# Ranges, conditionals, lists, calls: lemmas for C49
-/
namespace Verif.Parser
open Verif.Lexer (Chars Unicode BinOp Punct Reserved Tok Name Text Ends read_token is_space is_alpha C73_token C73_space)

section
variable {U : Unicode} {m d : _root_.Bool} {p k : Nat} {s r rest t : Chars} {Γ Γ₁ Γ₂ Γ₃ Γ' : List Chars}
  {e x l : Node} {q : Punct} {S : Node → Prop} {tok : Tok} {es : List Node}

/-! ## Ranges -/

def rangePunct (ex : _root_.Bool) : Punct := if ex then .Range3 else .Range2
def rangeText (ex : _root_.Bool) : Chars := if ex then ['.', '.', '.'] else ['.', '.']

theorem range_text (ex : _root_.Bool) : Text (rangeText ex) (.Punct (rangePunct ex)) := by
  cases ex
  · exact .punct (t := "..") (by decide) (by decide)
  · exact .punct (t := "...") (by decide) (by decide)

theorem body_range (a b : Node) (ex c : _root_.Bool) :
    body (.Range a b ex c) = print 5 a ++ ' ' :: (rangeText ex ++ print 5 b) := by
  cases ex <;> rfl

theorem claim_range {a b : Node} {ex c : _root_.Bool} (h1 : Claim U Γ a Γ₁) (h2 : Claim U Γ₁ b Γ₂)
    (hc : c = (a.is_integer && b.is_integer)) : Claim U Γ (.Range a b ex c) Γ₂ := by
  have hb := body_range a b ex c
  have hs1 := h1.print_starts (k := 5) (p := 5) (by omega) (by omega)
  have hs2 := h2.print_starts (k := 5) (p := 5) (by omega) (by omega)
  refine Claim.of (k := 4) rfl (by omega) (not_looping (by decide)) ?_ ?_ (fun h => absurd h (by omega)) <;> rw [hb]
  · exact starts_append (hs1.mono (by omega)) fun rest _ => ends_sp _
  · intro m d rest hf
    have hsp : ∃ s', print 5 b ++ rest = ' ' :: s' := by
      obtain ⟨⟨s', h⟩, -⟩ := hs2; exact ⟨_, by rw [h]; rfl⟩
    have hends : Ends (print 5 b ++ rest) := by
      obtain ⟨s', h⟩ := hsp; rw [h]; exact ends_sp _
    obtain ⟨a', ha1, ha2⟩ := h1.print_good (k := 5) (p := 5) (by omega) (by omega) (by omega) m d
      (' ' :: (rangeText ex ++ (print 5 b ++ rest)))
      (follow_op (range_text ex) (k := 4) (by cases ex <;> rfl) (by omega) (by cases ex <;> simp [rangePunct])
        (by cases ex <;> simp [rangePunct]) (.inr hsp))
    obtain ⟨b', hb1, hb2⟩ := h2.print_good (k := 5) (p := 5) (by omega) (by omega) (by omega) m d rest
      (hf.mono (by omega))
    refine ⟨new_range a' b' ex, ⟨?_, by simp [new_range]⟩, ?_⟩
    · show Node.Range (strip a') (strip b') ex _ = _
      rw [ha1.strip, hb1.strip, (ha1.const (by omega)).2, (hb1.const (by omega)).2, hc]
    · rw [List.append_assoc, List.cons_append, List.append_assoc]
      have htok := read_text (U := U) (range_text ex) hends
      have hq : rangePunct ex ≠ .Semi := by cases ex <;> simp [rangePunct]
      refine Runs.up (g := fun p => parse_arg_range p) (fun _ => rfl) ?_
      unfold parse_arg_range
      refine Runs.bind ha2 ?_
      refine Runs.no (st₁ := ⟨' ' :: (rangeText ex ++ (print 5 b ++ rest)), Γ₁⟩)
        (by rw [is_line_term_eq htok, line_punct hq]) ?_
      cases ex
      · exact Runs.yes (consume_punct_yes (skips_of (fl := env U m d) htok rfl)) (Runs.bind hb2 (Runs.pure _))
      · refine Runs.no (consume_punct_no (skips_of (fl := env U m d) htok rfl) (by simp [rangePunct])) ?_
        exact Runs.yes (consume_punct_yes (skips_of (fl := env U m d) htok rfl)) (Runs.bind hb2 (Runs.pure _))

/-! ## Conditionals -/

theorem body_if (c t e : Node) :
    body (.If c t e) = print 4 c ++ ' ' :: (['?'] ++ (print 3 t ++ ' ' :: ([':'] ++ print 3 e))) := rfl

theorem text_question : Text ['?'] (.Punct .Question) := .punct (t := "?") (by decide) (by decide)
theorem text_colon : Text [':'] (.Punct .Colon) := .punct (t := ":") (by decide) (by decide)

theorem Starts.space (h : Starts U k s) (rest : Chars) : ∃ s', s ++ rest = ' ' :: s' := by
  obtain ⟨⟨s', rfl⟩, -⟩ := h; exact ⟨_, rfl⟩

theorem Starts.ends (h : Starts U k s) (rest : Chars) : Ends (s ++ rest) := by
  obtain ⟨s', h⟩ := h.space rest; rw [h]; exact ends_sp _

theorem claim_if {c t e : Node} (h1 : Claim U Γ c Γ₁) (h2 : Claim U Γ₁ t Γ₂) (h3 : Claim U Γ₂ e Γ₃) :
    Claim U Γ (.If c t e) Γ₃ := by
  have hb := body_if c t e
  have hs1 := h1.print_starts (k := 4) (p := 4) (by omega) (by omega)
  have hs2 := h2.print_starts (k := 3) (p := 3) (by omega) (by omega)
  have hs3 := h3.print_starts (k := 3) (p := 3) (by omega) (by omega)
  refine Claim.of (k := 3) rfl (by omega) (not_looping (by decide)) ?_ ?_ (fun h => absurd h (by omega)) <;> rw [hb]
  · exact starts_append (hs1.mono (by omega)) fun rest _ => ends_sp _
  · intro m d rest hf
    obtain ⟨c', hc1, hc2⟩ := h1.print_good (k := 4) (p := 4) (by omega) (by omega) (by omega) m d
      (' ' :: (['?'] ++ (print 3 t ++ ' ' :: ([':'] ++ (print 3 e ++ rest)))))
      (follow_op text_question (k := 3) rfl (by omega) (by simp) (by simp) (.inr (hs2.space _)))
    obtain ⟨t', ht1, ht2⟩ := h2.print_arg (m := m) (d := d) (rest := ' ' :: ([':'] ++ (print 3 e ++ rest)))
      (follow_op text_colon (k := 0) rfl (by omega) (by simp) (by simp) (.inr (hs3.space _)))
    obtain ⟨e', he1, he2⟩ := h3.print_arg (m := m) (d := d) (rest := rest) hf
    refine ⟨.If c' t' e', ⟨?_, by simp⟩, ?_⟩
    · show Node.If (strip c') (strip t') (strip e') = _
      rw [hc1.strip, ht1.strip, he1.strip]
    · have happ : print 4 c ++ ' ' :: (['?'] ++ (print 3 t ++ ' ' :: ([':'] ++ print 3 e))) ++ rest =
        print 4 c ++ ' ' :: (['?'] ++ (print 3 t ++ ' ' :: ([':'] ++ (print 3 e ++ rest)))) := by simp
      rw [happ]
      refine Runs.up (g := fun p => parse_arg_ternary p) (fun _ => rfl) ?_
      unfold parse_arg_ternary
      refine Runs.bind hc2 ?_
      refine Runs.yes (cpn_yes (read_text text_question (hs2.ends _)) (by simp)) ?_
      refine Runs.bind ht2 ?_
      refine Runs.yes (cpn_yes (read_text text_colon (hs3.ends _)) (by simp)) ?_
      exact Runs.bind he2 (Runs.pure _)

/-! ## Lists -/

def rhsItem (p : Parsers) : P Node := do
  if ← consume_punct .Mul then
    let array ← p.arg
    return Node.Splat array
  else p.arg

def argItem (p : Parsers) : P Node := do
  if ← consume_punct .Mul then
    let array ← p.arg
    return Node.Splat array
  else
    let node ← p.arg
    if ← consume_punct .FatArrow then fail .unmodelled
    else match node with
      | .Ident _ | .LocalVar _ => do
        if ← consume_punct_no_term .Colon then fail .unmodelled
        else return node
      | _ => return node

/-- What is proved about an element of a list. -/
structure ItemClaim (U : Unicode) (Γ : List Chars) (e : Node) (Γ' : List Chars) : Prop where
  space : ∀ p, 1 ≤ p → p ≤ 18 → ∃ s, print p e = ' ' :: s
  first : ∀ p rest, 1 ≤ p → p ≤ 18 → Ends rest → ∃ t a, read_token U (print p e ++ rest) = .ok (t, a) ∧
    (start 1 t ∨ t = .Punct .Mul)
  rhs : ∀ d rest, Follow U true 1 rest → ∃ e', strip e' = e ∧ e'.is_const_expr = e.is_const_expr ∧
    e'.is_splat = e.is_splat ∧ Runs rhsItem (env U true d) ⟨print 2 e ++ rest, Γ⟩ e' ⟨rest, Γ'⟩
  arg : ∀ m d rest, Follow U m 2 rest → (∀ t a, read_token U rest = .ok (t, a) → t ≠ .Punct .Colon) →
    ∃ e', strip e' = e ∧ Runs argItem (env U m d) ⟨print 3 e ++ rest, Γ⟩ e' ⟨rest, Γ'⟩

theorem item_tree (hns : ∀ x, e ≠ .Splat x) (h : Claim U Γ e Γ') : ItemClaim U Γ e Γ' := by
  refine ⟨fun p h1 h2 => (h.print_starts (k := 1) (Nat.le_refl 1) h1).1, ?_, ?_, ?_⟩
  · intro p rest h1 h2 hr
    obtain ⟨t, a, ht, hst, -⟩ := (h.print_starts (k := 1) (Nat.le_refl 1) h1).2 rest hr
    exact ⟨t, a, ht, .inl hst⟩
  · intro d rest hf
    obtain ⟨e', he1, he2⟩ := h.print_good (k := 2) (p := 2) (by omega) (by omega) (by omega) true d rest hf
    refine ⟨e', he1.strip, (he1.const (by omega)).1, ?_, ?_⟩
    · have h1 : e.is_splat = false := by cases e <;> first | rfl | exact absurd rfl (hns _)
      rw [h1]
      cases e' <;> first | rfl | exact absurd he1.strip.symm (hns _)
    obtain ⟨t, a, hs, ht⟩ := ((h.print_starts (k := 1) (p := 2) (by omega) (by omega)).2 rest hf.ends).skips
    unfold rhsItem
    exact Runs.no (consume_punct_no hs (by rintro rfl; exact ht)) he2
  · intro m d rest hf hcol
    obtain ⟨e', he1, he2⟩ := h.print_arg (m := m) (d := d) hf
    refine ⟨e', he1.strip, ?_⟩
    obtain ⟨t, a, hs, ht⟩ := ((h.print_starts (k := 1) (p := 3) (by omega) (by omega)).2 rest hf.ends).skips
    unfold argItem
    refine Runs.no (consume_punct_no hs (by rintro rfl; exact ht)) ?_
    refine Runs.bind he2 ?_
    obtain ⟨⟨t1, a1, t2, a2, h1, h2, h3, h4⟩, -⟩ := hf
    refine Runs.no (consume_punct_no h3 (skip_ne h2 h4 (by beyond) (by simp [start]))) ?_
    have hno := cpn_no (fl := env U m d) (Γ := Γ') h1 (hcol t1 a1 h1)
    cases e' <;> first | exact Runs.pure _ | exact Runs.no hno (Runs.pure _)

theorem print_splat (h : p ≤ 18) (e : Node) : print p (.Splat e) = ' ' :: (['*'] ++ print 3 e) := by
  rcases print_cases p (.Splat e) with ⟨-, h⟩ | ⟨h', -⟩
  · rw [h]; rfl
  · rw [show lvl (.Splat e) = 18 from rfl] at h'; omega

theorem item_splat (h : Claim U Γ e Γ') : ItemClaim U Γ (.Splat e) Γ' := by
  have hs := h.print_starts (k := 3) (p := 3) (by omega) (by omega)
  have htok : ∀ rest, read_token U (' ' :: (['*'] ++ (print 3 e ++ rest))) = .ok (.Punct .Mul, print 3 e ++ rest) :=
    fun rest => read_text (bin_text .Mul) (hs.ends rest)
  have happ : ∀ rest, ' ' :: (['*'] ++ print 3 e) ++ rest = ' ' :: (['*'] ++ (print 3 e ++ rest)) := by simp
  refine ⟨fun p _ h2 => ⟨_, print_splat h2 e⟩, ?_, ?_, ?_⟩
  · intro p rest h1 h2 hr
    rw [print_splat h2, happ]
    exact ⟨_, _, htok rest, .inr rfl⟩
  · intro d rest hf
    obtain ⟨e', he1, he2⟩ := h.print_arg (m := true) (d := d) (hf.mono (q := 2) (by omega))
    refine ⟨.Splat e', ?_, rfl, rfl, ?_⟩
    · show Node.Splat (strip e') = _
      rw [he1.strip]
    · rw [print_splat (by omega), happ]
      unfold rhsItem
      exact Runs.yes (consume_punct_yes (skips_of (fl := env U true d) (htok rest) rfl)) (Runs.bind he2 (Runs.pure _))
  · intro m d rest hf hcol
    obtain ⟨e', he1, he2⟩ := h.print_arg (m := m) (d := d) hf
    refine ⟨.Splat e', ?_, ?_⟩
    · show Node.Splat (strip e') = _
      rw [he1.strip]
    · rw [print_splat (by omega), happ]
      unfold argItem
      exact Runs.yes (consume_punct_yes (skips_of (fl := env U m d) (htok rest) rfl)) (Runs.bind he2 (Runs.pure _))

/-- What is proved about the elements of a list. -/
structure ItemsClaim (U : Unicode) (Γ : List Chars) (l : List Node) (Γ' : List Chars) : Prop where
  space : l ≠ [] → ∀ p, 1 ≤ p → p ≤ 18 → ∃ s, items p l = ' ' :: s
  rhs : ∀ d args rest, Ends rest → ∃ l', stripAll l' = l ∧ l'.all Node.is_const_expr = l.all Node.is_const_expr ∧
    Runs (fun p => p.rhs_loop (some .RBracket) args) (env U true d) ⟨items 2 l ++ ' ' :: ']' :: rest, Γ⟩ (args ++ l')
      ⟨rest, Γ'⟩
  arglist : ∀ m d args rest, Ends rest → ∃ l', stripAll l' = l ∧
    Runs (fun p => p.arglist_loop (some .RParen) args) (env U m d) ⟨items 3 l ++ ' ' :: ')' :: rest, Γ⟩ (args ++ l')
      ⟨rest, Γ'⟩

theorem items_nil (p : Nat) : items p [] = [] := rfl
theorem items_one (p : Nat) (e : Node) : items p [e] = print p e ++ [] := rfl
theorem items_cons (p : Nat) (e e₂ : Node) (l : List Node) :
    items p (e :: e₂ :: l) = print p e ++ ' ' :: ([','] ++ items p (e₂ :: l)) := rfl

theorem text_rb : Text [']'] (.Punct .RBracket) := .punct (t := "]") (by decide) (by decide)
theorem text_lb : Text ['['] (.Punct .LBracket) := .punct (t := "[") (by decide) (by decide)
theorem text_comma : Text [','] (.Punct .Comma) := .punct (t := ",") (by decide) (by decide)

theorem claim_items_nil : ItemsClaim U Γ [] Γ := by
  refine ⟨fun h => absurd rfl h, ?_, ?_⟩
  · intro d args rest hr
    refine ⟨[], rfl, rfl, ?_⟩
    rw [items_nil, List.append_nil]
    refine Runs.up (g := fun p => parse_mul_assign_rhs_loop p (some .RBracket) args) (fun _ => rfl) ?_
    unfold parse_mul_assign_rhs_loop
    exact Runs.yes (consume_punct_yes (skips_of (fl := env U true d) (read_text text_rb hr) rfl)) (Runs.pure _)
  · intro m d args rest hr
    refine ⟨[], rfl, ?_⟩
    rw [items_nil, List.append_nil]
    refine Runs.up (g := fun p => parse_arglist_loop p (some .RParen) args) (fun _ => rfl) ?_
    unfold parse_arglist_loop
    exact Runs.yes (consume_punct_yes (skips_of (fl := env U m d) (read_text text_rp hr) rfl)) (Runs.pure _)

/-- what may start an element does not end a list -/
theorem item_ne {t : Tok} (h : start 1 t ∨ t = .Punct .Mul) : is_line_tok t = false ∧ t ≠ .Punct .RBracket ∧
    t ≠ .Punct .RParen ∧ t ≠ .Punct .Range3 ∧ t ≠ .Punct .DMul ∧ t ≠ .Punct .BitAnd := by
  rcases h with h | rfl
  · refine ⟨start_line h, ?_, ?_, ?_, ?_, ?_⟩ <;> (rintro rfl; exact h)
  · simp [is_line_tok]

theorem claim_items_cons (h1 : ItemClaim U Γ e Γ₁) (h2 : ItemsClaim U Γ₁ es Γ₂) : ItemsClaim U Γ (e :: es) Γ₂ := by
  refine ⟨?_, ?_, ?_⟩
  · intro _ p hp hp'
    obtain ⟨s, hs⟩ := h1.space p hp hp'
    cases es with
    | nil => exact ⟨_, by rw [items_one, hs]; rfl⟩
    | cons e2 l => exact ⟨_, by rw [items_cons, hs]; rfl⟩
  · intro d args rest hr
    -- what follows the first element
    have key : ∃ r, items 2 (e :: es) ++ ' ' :: ']' :: rest = print 2 e ++ r ∧ Follow U true 1 r ∧
        ∀ e', ∃ l', stripAll l' = es ∧ l'.all Node.is_const_expr = es.all Node.is_const_expr ∧
        Runs (fun p => do
          if ← consume_punct .Comma then p.rhs_loop (some .RBracket) (args ++ [e'])
          else do
            expect_punct .RBracket
            return args ++ [e']) (env U true d) ⟨r, Γ₁⟩ (args ++ e' :: l') ⟨rest, Γ₂⟩ := by
      cases es with
      | nil =>
        have hΓ : ∃ l', stripAll l' = [] ∧ l'.all Node.is_const_expr = _ ∧ _ := h2.rhs d args rest hr
        obtain ⟨l', hl', -, hrun⟩ := hΓ
        have hl0 : l' = [] := by cases l' with
          | nil => rfl
          | cons _ _ => cases hl'
        subst hl0
        have hnil := (claim_items_nil (U := U) (Γ := Γ₁)).rhs d args rest hr
        obtain ⟨l2, hl2, -, hrun2⟩ := hnil
        have hd := Runs.det hrun hrun2
        have : Γ₂ = Γ₁ := congrArg St.lvars hd.2
        subst this
        refine ⟨' ' :: ']' :: rest, by rw [items_one]; simp, follow_rbracket hr, fun e' => ⟨[], rfl, rfl, ?_⟩⟩
        have hs := skips_of (fl := env U true d) (read_text (U := U) text_rb hr) rfl
        refine Runs.no (consume_punct_no hs (by simp)) ?_
        exact Runs.step (expect_punct_yes hs) (Runs.pure _)
      | cons e2 l =>
        obtain ⟨s, hs⟩ := h2.space (by simp) 2 (by omega) (by omega)
        refine ⟨' ' :: ([','] ++ (items 2 (e2 :: l) ++ ' ' :: ']' :: rest)), by rw [items_cons]; simp, ?_, fun e' => ?_⟩
        · exact follow_op text_comma (k := 1) rfl (by omega) (by simp) (by simp) (.inr ⟨_, by rw [hs]; rfl⟩)
        · obtain ⟨l', hl1, hl2, hl3⟩ := h2.rhs d (args ++ [e']) rest hr
          refine ⟨l', hl1, hl2, ?_⟩
          rw [List.append_assoc] at hl3
          have htok : read_token U (' ' :: ([','] ++ (items 2 (e2 :: l) ++ ' ' :: ']' :: rest))) = _ :=
            read_text text_comma (by rw [hs]; exact ends_sp _)
          exact Runs.yes (consume_punct_yes (skips_of (fl := env U true d) htok rfl)) hl3
    obtain ⟨r, hr1, hr2, hr3⟩ := key
    rw [hr1]
    obtain ⟨e', he1, he2, -, he3⟩ := h1.rhs d r hr2
    obtain ⟨l', hl1, hl2, hl3⟩ := hr3 e'
    refine ⟨e' :: l', ?_, by simp [he2, hl2], ?_⟩
    · show strip e' :: stripAll l' = _
      rw [he1, hl1]
    · obtain ⟨t, a, ht1, ht2⟩ := h1.first 2 r (by omega) (by omega) hr2.ends
      have hne := item_ne ht2
      refine Runs.up (g := fun p => parse_mul_assign_rhs_loop p (some .RBracket) args) (fun _ => rfl) ?_
      unfold parse_mul_assign_rhs_loop
      refine Runs.no (consume_punct_no (skips_of (fl := env U true d) ht1 hne.1) hne.2.1) ?_
      unfold parse_rhs_item
      exact Runs.bind he3 hl3
  · intro m d args rest hr
    have key : ∃ r, items 3 (e :: es) ++ ' ' :: ')' :: rest = print 3 e ++ r ∧ Follow U m 2 r ∧
        (∀ t a, read_token U r = .ok (t, a) → t ≠ .Punct .Colon) ∧ ∀ e', ∃ l', stripAll l' = es ∧
        Runs (fun p => do
          if ← consume_punct .Comma then p.arglist_loop (some .RParen) (args ++ [e'])
          else do
            let _ ← consume_punct .RParen
            return args ++ [e']) (env U m d) ⟨r, Γ₁⟩ (args ++ e' :: l') ⟨rest, Γ₂⟩ := by
      cases es with
      | nil =>
        obtain ⟨l', hl', hrun⟩ := h2.arglist m d args rest hr
        obtain ⟨l2, hl2, hrun2⟩ := (claim_items_nil (U := U) (Γ := Γ₁)).arglist m d args rest hr
        have hd := Runs.det hrun hrun2
        have : Γ₂ = Γ₁ := congrArg St.lvars hd.2
        subst this
        have htok := read_text (U := U) text_rp hr
        refine ⟨' ' :: ')' :: rest, by rw [items_one]; simp, follow_rparen hr, ?_, fun e' => ⟨[], rfl, ?_⟩⟩
        · intro t a h
          have h := htok.symm.trans h
          cases h; simp
        have hs := skips_of (fl := env U m d) htok rfl
        refine Runs.no (consume_punct_no hs (by simp)) ?_
        exact Runs.step (consume_punct_yes hs) (Runs.pure _)
      | cons e2 l =>
        obtain ⟨s, hs⟩ := h2.space (by simp) 3 (by omega) (by omega)
        have htok : read_token U (' ' :: ([','] ++ (items 3 (e2 :: l) ++ ' ' :: ')' :: rest))) = _ :=
            read_text text_comma (by rw [hs]; exact ends_sp _)
        refine ⟨' ' :: ([','] ++ (items 3 (e2 :: l) ++ ' ' :: ')' :: rest)), by rw [items_cons]; simp, ?_, ?_, fun e' => ?_⟩
        · exact follow_op text_comma (k := if m then 1 else 2) rfl (by split <;> omega) (by simp) (by simp)
            (.inr ⟨_, by rw [hs]; rfl⟩)
        · intro t a h
          have h := htok.symm.trans h
          cases h; simp
        · obtain ⟨l', hl1, hl3⟩ := h2.arglist m d (args ++ [e']) rest hr
          refine ⟨l', hl1, ?_⟩
          rw [List.append_assoc] at hl3
          exact Runs.yes (consume_punct_yes (skips_of (fl := env U m d) htok rfl)) hl3
    obtain ⟨r, hr1, hr2, hcol, hr3⟩ := key
    rw [hr1]
    obtain ⟨e', he1, he3⟩ := h1.arg m d r hr2 hcol
    obtain ⟨l', hl1, hl3⟩ := hr3 e'
    refine ⟨e' :: l', ?_, ?_⟩
    · show strip e' :: stripAll l' = _
      rw [he1, hl1]
    · obtain ⟨t, a, ht1, ht2⟩ := h1.first 3 r (by omega) (by omega) hr2.ends
      obtain ⟨n1, n2, n3, n4, n5, n6⟩ := item_ne ht2
      refine Runs.up (g := fun p => parse_arglist_loop p (some .RParen) args) (fun _ => rfl) ?_
      unfold parse_arglist_loop
      have hsk := skips_of (fl := env U m d) ht1 n1
      refine Runs.no (consume_punct_no hsk n3) ?_
      unfold parse_arglist_item
      refine Runs.step (peek_eq hsk) ?_
      simp only [n4, n5, n6, or_self, if_false]
      exact Runs.bind he3 hl3

theorem ItemsClaim.ends (h : ItemsClaim U Γ es Γ') (hp : 1 ≤ p) (hp' : p ≤ 18) (r : Chars) :
    Ends (items p es ++ ' ' :: r) := by
  cases es with
  | nil => exact ends_sp _
  | cons e l => obtain ⟨s, hs⟩ := h.space (by simp) p hp hp'; rw [hs]; exact ends_sp _

/-- a list up to its closing bracket -/
theorem rhs_bracket (h : ItemsClaim U Γ es Γ') (hr : Ends rest) : ∃ l', stripAll l' = es ∧
    l'.all Node.is_const_expr = es.all Node.is_const_expr ∧ Runs (fun p => p.rhs (some .RBracket)) (env U m d)
      ⟨items 2 es ++ ' ' :: ']' :: rest, Γ⟩ l' ⟨rest, Γ'⟩ := by
  obtain ⟨l', h1, h2, h3⟩ := h.rhs d [] rest hr
  refine ⟨l', h1, h2, ?_⟩
  refine Runs.up (g := fun p => parse_mul_assign_rhs p (some .RBracket)) (fun _ => rfl) ?_
  unfold parse_mul_assign_rhs
  exact Runs.env h3

theorem body_array (l : List Node) (c : _root_.Bool) : body (.Array l c) = ' ' :: (['['] ++ (items 2 l ++ [' ', ']'])) := rfl

theorem claim_array {c : _root_.Bool} (h : ItemsClaim U Γ es Γ') (hc : c = es.all Node.is_const_expr) :
    Claim U Γ (.Array es c) Γ' := by
  have hb := body_array es c
  have happ : ∀ rest, ' ' :: (['['] ++ (items 2 es ++ [' ', ']'])) ++ rest =
      ' ' :: (['['] ++ (items 2 es ++ ' ' :: ']' :: rest)) := by simp
  have htok : ∀ rest, read_token U (' ' :: (['['] ++ (items 2 es ++ ' ' :: ']' :: rest))) = _ :=
    fun rest => read_text text_lb (h.ends (p := 2) (by omega) (by omega) _)
  refine Claim.of (k := 18) rfl (by omega) (not_looping (by decide)) ⟨⟨_, hb⟩, ?_⟩ ?_ (fun _ => ?_) <;> rw [hb]
  · intro rest _
    rw [happ]; exact ⟨_, _, htok rest, trivial, fun h => by cases h⟩
  · intro m d rest hf
    rw [happ]
    obtain ⟨l', hl1, hl2, hl3⟩ := rhs_bracket (m := m) (d := d) h hf.ends
    refine ⟨new_array l', ⟨?_, by simp [new_array]⟩, Runs.up (g := fun p => parse_primary p false) (fun _ => rfl) ?_⟩
    · show Node.Array (stripAll l') _ = _
      rw [hl1, hl2, hc]
    · unfold parse_primary
      refine Runs.step (get_eq (skips_of (fl := env U m d) (htok rest) rfl) (by simp)) ?_
      exact Runs.bind hl3 (Runs.pure _)
  · intro rest _
    rw [happ]; exact ⟨_, _, htok rest, rfl⟩

theorem body_index (b : Node) (l : List Node) : body (.Index b l) = print 17 b ++ '[' :: (items 2 l ++ [' ', ']']) := rfl

theorem read_lb : read_token U ('[' :: r) = .ok (.Punct .LBracket, r) := by
  rw [Lexer.read_token_punct U (by decide) (by decide)]; rfl

theorem claim_index {b : Node} (h1 : Claim U Γ b Γ₁) (h2 : ItemsClaim U Γ₁ es Γ₂) : Claim U Γ (.Index b es) Γ₂ := by
  have hb := body_index b es
  have hs := h1.print_starts (k := 17) (p := 17) (by omega) (by omega)
  refine Claim.ofLoop (k := 17) rfl (by omega) (.inr rfl) ?_ ?_ (fun _ => ?_) <;> rw [hb]
  · exact starts_append hs fun rest _ => ends_lb _
  · intro m d rest hf
    obtain ⟨b', hb1, hb2⟩ := h1.print_loop (.inr rfl) m d ('[' :: (items 2 es ++ ' ' :: ']' :: rest)) follow_index
    obtain ⟨l', hl1, -, hl3⟩ := rhs_bracket (m := m) (d := d) h2 hf.ends
    refine ⟨.Index b' l', ⟨?_, by simp⟩, fun x st' hx => ?_⟩
    · show Node.Index (strip b') (stripAll l') = _
      rw [hb1.strip, hl1]
    · have happ : print 17 b ++ '[' :: (items 2 es ++ [' ', ']']) ++ rest =
        print 17 b ++ '[' :: (items 2 es ++ ' ' :: ']' :: rest) := by simp
      rw [happ]
      refine hb2 x st' ?_
      refine Runs.up (g := fun p => parse_method_call_loop p b') (fun _ => rfl) ?_
      unfold parse_method_call_loop
      refine Runs.no (consume_punct_no (skips_of (fl := env U m d) read_lb rfl) (by simp)) ?_
      refine Runs.no (cpn_no read_lb (by simp)) ?_
      refine Runs.no (cpn_no read_lb (by simp)) ?_
      refine Runs.yes (cpn_yes read_lb (by simp)) ?_
      exact Runs.bind hl3 hx
  · exact num_append (h1.print_num (by omega)) fun rest _ => ends_lb _

/-! ## Calls -/

theorem block_none (hf : Follow U m 17 rest) : parse_block (env U m d) ⟨rest, Γ⟩ = .ok ((), ⟨rest, Γ⟩) := by
  obtain ⟨⟨t1, a1, t2, a2, h1, h2, h3, h4⟩, -⟩ := hf
  have h5 : (do
      if ← consume_punct_no_term .LBrace then fail .unmodelled
      else return () : P Unit) (env U m d) ⟨rest, Γ⟩ = .ok ((), ⟨rest, Γ⟩) := by
    rw [bind_ok (cpn_no h1 (ne_of_stops h2 (by beyond)))]; rfl
  cases d
  · show (do
      if ← consume_reserved_no_term .Do then fail .unmodelled
      else if ← consume_punct_no_term .LBrace then fail .unmodelled
      else return () : P Unit) (env U m false) ⟨rest, Γ⟩ = .ok ((), ⟨rest, Γ⟩)
    rw [bind_ok (crn_no h1 (word_of_stops h2 rfl))]
    exact h5
  · exact h5

/-- the arguments of a call, after its opening parenthesis -/
theorem arglist_paren (h : ItemsClaim U Γ es Γ') (hf : Follow U m 17 rest) : ∃ l', stripAll l' = es ∧
    Runs (fun p => parse_arglist_block p (some .RParen)) (env U m d)
      ⟨items 3 es ++ ' ' :: ')' :: rest, Γ⟩ l' ⟨rest, Γ'⟩ := by
  obtain ⟨l', h1, h3⟩ := h.arglist m d [] rest hf.ends
  refine ⟨l', h1, ?_⟩
  unfold parse_arglist_block
  refine Runs.bind (Runs.up (g := fun p => parse_arglist p (some .RParen)) (fun _ => rfl) h3) ?_
  exact Runs.step (block_none hf) (Runs.pure _)

theorem read_lparen (h : Ends r) : read_token U ('(' :: r) = .ok (.Punct .LParen, r) := C73_token U text_lp h

theorem body_call (f : Chars) (args : List Node) :
    body (.Send .SelfValue f args false) = ' ' :: (f ++ '(' :: (items 3 args ++ [' ', ')'])) := rfl

theorem claim_call {f : Chars} (hn : VarName f ∨ Text f (.Const f)) (h : ItemsClaim U Γ es Γ') :
    Claim U Γ (.Send .SelfValue f es false) Γ' := by
  have hb := body_call f es
  have happ : ∀ rest, ' ' :: (f ++ '(' :: (items 3 es ++ [' ', ')'])) ++ rest =
      ' ' :: (f ++ '(' :: (items 3 es ++ ' ' :: ')' :: rest)) := by simp
  have htok : ∃ t, (t = .Ident f ∧ VarName f ∨ t = .Const f) ∧ ∀ rest,
      read_token U (' ' :: (f ++ '(' :: (items 3 es ++ ' ' :: ')' :: rest))) =
        .ok (t, '(' :: (items 3 es ++ ' ' :: ')' :: rest)) := by
    rcases hn with h | h
    · exact ⟨.Ident f, .inl ⟨rfl, h⟩, fun rest => read_text h.1 (ends_lp _)⟩
    · exact ⟨.Const f, .inr rfl, fun rest => read_text h (ends_lp _)⟩
  obtain ⟨t, ht, htok⟩ := htok
  have hst : start 18 t ∧ t ≠ .Reserved .Defined ∧ is_number t = false ∧ t ≠ .Eof := by
    rcases ht with ⟨rfl, -⟩ | rfl <;> exact ⟨trivial, by simp, rfl, by simp⟩
  refine Claim.of (k := 18) rfl (by omega) (not_looping (by decide)) ⟨⟨_, hb⟩, ?_⟩ ?_ (fun _ => ?_) <;> rw [hb]
  · intro rest _
    rw [happ]; exact ⟨_, _, htok rest, hst.1, fun h => absurd h hst.2.1⟩
  · intro m d rest hf
    rw [happ]
    obtain ⟨l', hl1, hl3⟩ := arglist_paren (m := m) (d := d) h hf
    refine ⟨.Send .SelfValue f l' false, ⟨?_, by simp⟩, Runs.up (g := fun p => parse_primary p false) (fun _ => rfl) ?_⟩
    · show Node.Send .SelfValue f (stripAll l') false = _
      rw [hl1]
    · unfold parse_primary
      refine Runs.step (get_eq (skips_of (fl := env U m d) (htok rest) (start_line hst.1)) hst.2.2.2) ?_
      have hargs : Runs (fun p => parse_function_args p f) (env U m d) ⟨'(' :: (items 3 es ++ ' ' :: ')' :: rest), Γ⟩
          (.Send .SelfValue f l' false) ⟨rest, Γ'⟩ := by
        unfold parse_function_args
        refine Runs.yes (cpn_yes (read_lparen (h.ends (by omega) (by omega) _)) (by simp)) ?_
        exact Runs.bind hl3 (Runs.pure _)
      rcases ht with ⟨rfl, hv⟩ | rfl
      · simp only [parse_ident_name hv]
        exact Runs.yes rfl hargs
      · show Runs (fun p => parse_const p false f) _ _ _ _
        unfold parse_const
        exact Runs.yes rfl hargs
  · intro rest _
    rw [happ]; exact ⟨_, _, htok rest, hst.2.2.1⟩

theorem body_send {r : Node} {safe : _root_.Bool} (h : r = .SelfValue → safe = true) (f : Chars) (args : List Node) :
    body (.Send r f args safe) = print 17 r ++ ' ' :: ((if safe then ['&', '.'] else ['.']) ++ ' ' :: (f ++ arguments args)) ∧
    lvl (.Send r f args safe) = 17 := by
  cases safe
  · cases r <;> first | exact ⟨rfl, rfl⟩ | (cases h rfl)
  · cases r <;> exact ⟨rfl, rfl⟩

theorem arguments_cons (e : Node) (l : List Node) : arguments (e :: l) = '(' :: (items 3 (e :: l) ++ [' ', ')']) := rfl

theorem nav_text (safe : _root_.Bool) : Text (if safe then ['&', '.'] else ['.']) (.Punct (if safe then .SafeNav else .Dot)) := by
  cases safe
  · exact .punct (t := ".") (by decide) (by decide)
  · exact .punct (t := "&.") (by decide) (by decide)

theorem classify_ne (b : _root_.Bool) (f : Chars) (q : Punct) : Lexer.classify b f ≠ .Punct q := by
  unfold Lexer.classify
  split
  · simp
  · split <;> simp

theorem method_name {f : Chars} (hn : Name f) (hr : Ends rest) (fl : Env) :
    read_method_name fl ⟨' ' :: (f ++ rest), Γ⟩ = .ok (f, ⟨rest, Γ⟩) := by
  unfold read_method_name
  have alpha_space : ∀ c : Char, is_alpha c = true ∨ c = '_' → is_space c = false := fun c hc => (Lexer.ident_start hc).1
  cases hn with
  | plain hc ht =>
    rename_i c t
    have h1 : skip_blank (' ' :: (c :: t ++ rest)) = c :: (t ++ rest) := by
      simp only [skip_blank, show is_space ' ' = true from by decide, if_true, List.cons_append, alpha_space c hc,
        Bool.false_eq_true, if_false]
    rw [h1]
    simp only [Lexer.consume_ident_all ht hr.not_ident, hr.suffix]
    have : (is_alpha c || c == '_') = true := by
      rcases hc with hc | rfl
      · rw [hc]; rfl
      · decide
    simp [this]
  | mark hc ht hm =>
    rename_i c t m
    have h1 : skip_blank (' ' :: (c :: t ++ [m] ++ rest)) = c :: (t ++ m :: rest) := by
      simp only [skip_blank, show is_space ' ' = true from by decide, if_true, List.cons_append, alpha_space c hc,
        Bool.false_eq_true, if_false, List.append_assoc, List.nil_append]
    rw [h1]
    have h2 : ∀ c r, m :: rest = c :: r → Lexer.is_ident c = false := by
      intro c r e; cases e; rcases hm with rfl | rfl <;> decide
    have h3 : Lexer.suffix (m :: rest) = ([m], rest) := by
      rcases hm with rfl | rfl
      · rfl
      · unfold Lexer.suffix
        split
        · rename_i e; cases e
        · rename_i e; cases e
          have : is_space '=' = true ∨ '=' = '(' ∨ '=' = '[' := hr
          exact absurd this (by decide)
        · rename_i e; cases e; rfl
        · rename_i h; exact absurd rfl (h rest)
    simp only [Lexer.consume_ident_all ht h2, h3]
    have : (is_alpha c || c == '_') = true := by
      rcases hc with hc | rfl
      · rw [hc]; rfl
      · decide
    simp [this]

theorem primary_method_eq {r : Node} (h : ∀ x, r ≠ .Ident x) (safe : _root_.Bool) (p : Parsers) :
    parse_primary_method p r safe = (do
      if ← consume_punct_no_term .LParen then
        let args ← parse_arglist_block p (some .RParen)
        return .Send r ['c', 'a', 'l', 'l'] args false
      else
        let id ← read_method_name
        if ← consume_punct_no_term .LParen then
          let args ← parse_arglist_block p (some .RParen)
          return .Send r id args safe
        else if ← is_command then
          let args ← parse_arglist_block p none
          return .Send r id args false
        else
          parse_block
          return .Send r id [] safe) := by
  cases r <;> first | rfl | exact absurd rfl (h _)

theorem claim_send {r : Node} {f : Chars} {safe : _root_.Bool} (h1 : Claim U Γ r Γ₁) (hid : ∀ x, r ≠ .Ident x)
    (hself : r = .SelfValue → safe = true) (hn : Name f) (h2 : ItemsClaim U Γ₁ es Γ₂) :
    Claim U Γ (.Send r f es safe) Γ₂ := by
  obtain ⟨hb, hl⟩ := body_send hself f es
  have hs := h1.print_starts (k := 17) (p := 17) (by omega) (by omega)
  refine Claim.ofLoop (k := 17) hl (by omega) (.inr rfl) ?_ ?_ (fun _ => ?_) <;> rw [hb]
  · exact starts_append hs fun rest _ => ends_sp _
  · intro m d rest hf
    have hends : Ends (arguments es ++ rest) := by
      cases es with
      | nil => exact hf.ends
      | cons e l => rw [arguments_cons]; exact ends_lp _
    have htok := read_text (U := U) (nav_text safe) (ends_sp (f ++ (arguments es ++ rest)))
    have hq : (if safe then Punct.SafeNav else .Dot) ≠ .Semi := by cases safe <;> simp
    obtain ⟨r', hr1, hr2⟩ := h1.print_loop (.inr rfl) m d
      (' ' :: ((if safe then ['&', '.'] else ['.']) ++ ' ' :: (f ++ (arguments es ++ rest))))
      (follow_op (nav_text safe) (k := 17) (by cases safe <;> rfl) (by omega) hq (by cases safe <;> simp) (.inr ⟨_, rfl⟩))
    have hr' : ∀ x, r' ≠ .Ident x := by
      rintro x rfl; exact hid x hr1.strip.symm
    -- the call
    have key : ∃ l', stripAll l' = es ∧ Runs (fun p => p.primary_method r' safe) (env U m d)
        ⟨' ' :: (f ++ (arguments es ++ rest)), Γ₁⟩ (.Send r' f l' safe) ⟨rest, Γ₂⟩ := by
      have hname : read_token U (' ' :: (f ++ (arguments es ++ rest))) = _ := (sp U _).trans (Lexer.read_name U hn hends)
      have hmn := method_name (Γ := Γ₁) hn hends (env U m d)
      cases es with
      | nil =>
        obtain ⟨l', hl', hrun⟩ := h2.arglist m d [] rest hf.ends
        obtain ⟨l2, hl2, hrun2⟩ := (claim_items_nil (U := U) (Γ := Γ₁)).arglist m d [] rest hf.ends
        have : Γ₂ = Γ₁ := congrArg St.lvars (Runs.det hrun hrun2).2
        subst this
        refine ⟨[], rfl, Runs.up (g := fun p => parse_primary_method p r' safe) (fun _ => rfl) ?_⟩
        simp only [primary_method_eq hr']
        refine Runs.no (cpn_no hname (classify_ne _ _ _)) ?_
        refine Runs.step hmn ?_
        have hf' := hf
        obtain ⟨⟨t1, a1, t2, a2, g1, g2, g3, g4⟩, -⟩ := hf'
        refine Runs.no (cpn_no g1 (ne_of_stops g2 (by beyond))) ?_
        refine Runs.no (command_no hf.cmd) ?_
        exact Runs.step (block_none hf) (Runs.pure _)
      | cons e l =>
        obtain ⟨l', hl1, hl3⟩ := arglist_paren (m := m) (d := d) h2 hf
        refine ⟨l', hl1, Runs.up (g := fun p => parse_primary_method p r' safe) (fun _ => rfl) ?_⟩
        simp only [primary_method_eq hr']
        refine Runs.no (cpn_no hname (classify_ne _ _ _)) ?_
        refine Runs.step hmn ?_
        have happ : arguments (e :: l) ++ rest = '(' :: (items 3 (e :: l) ++ ' ' :: ')' :: rest) := by
          rw [arguments_cons]; simp
        rw [happ]
        refine Runs.yes (cpn_yes (read_lparen (h2.ends (by omega) (by omega) _)) (by simp)) ?_
        exact Runs.bind hl3 (Runs.pure _)
    obtain ⟨l', hl1, hl3⟩ := key
    refine ⟨.Send r' f l' safe, ⟨?_, by simp⟩, fun x st' hx => ?_⟩
    · show Node.Send (strip r') f (stripAll l') safe = _
      rw [hr1.strip, hl1]
    · have happ : print 17 r ++ ' ' :: ((if safe then ['&', '.'] else ['.']) ++ ' ' :: (f ++ arguments es)) ++ rest =
        print 17 r ++ ' ' :: ((if safe then ['&', '.'] else ['.']) ++ ' ' :: (f ++ (arguments es ++ rest))) := by simp
      rw [happ]
      refine hr2 x st' ?_
      refine Runs.up (g := fun p => parse_method_call_loop p r') (fun _ => rfl) ?_
      unfold parse_method_call_loop
      have hsk := skips_of (fl := env U m d) htok (line_punct hq)
      cases safe
      · exact Runs.yes (consume_punct_yes hsk) (Runs.bind hl3 hx)
      · refine Runs.no (consume_punct_no hsk (by simp)) ?_
        exact Runs.yes (cpn_yes htok (by simp)) (Runs.bind hl3 hx)
  · exact num_append (h1.print_num (by omega)) fun rest _ => ends_sp _

/-! ## `defined?` -/

theorem body_defined (e : Node) :
    body (.Defined e) = ' ' :: (Reserved.Defined.text.toList ++ ' ' :: '(' :: (print 2 e ++ [' ', ')'])) := by
  show " defined? (".toList ++ (print 2 e ++ [' ', ')']) = _
  rw [show " defined? (".toList = ' ' :: (Reserved.Defined.text.toList ++ [' ', '(']) from by decide]
  simp

theorem claim_defined (h : Claim U Γ e Γ') : Claim U Γ (.Defined e) Γ' := by
  have hb := body_defined e
  have hs := h.print_starts (k := 2) (p := 2) (by omega) (by omega)
  have happ : ∀ rest, ' ' :: (Reserved.Defined.text.toList ++ ' ' :: '(' :: (print 2 e ++ [' ', ')'])) ++ rest =
    ' ' :: (Reserved.Defined.text.toList ++ ' ' :: '(' :: (print 2 e ++ ' ' :: ')' :: rest)) := by simp
  have htok : ∀ rest, read_token U (' ' :: (Reserved.Defined.text.toList ++ ' ' :: '(' :: (print 2 e ++ ' ' :: ')' :: rest))) =
    _ := fun rest => read_text (.reserved .Defined) (ends_sp _)
  have htok2 : ∀ rest, read_token U (' ' :: '(' :: (print 2 e ++ ' ' :: ')' :: rest)) = _ := fun rest => read_lp (hs.ends _)
  refine Claim.of (k := 18) rfl (by omega) (not_looping (by decide)) ⟨⟨_, hb⟩, ?_⟩ ?_ (fun _ => ?_) <;> rw [hb]
  · intro rest _
    rw [happ]; exact ⟨_, _, htok rest, trivial, fun _ => ⟨_, htok2 rest⟩⟩
  · intro m d rest hf
    rw [happ]
    have hf0 : ∀ p, Follow U m p (' ' :: ')' :: rest) := fun p => follow_rparen hf.ends
    obtain ⟨e', he1, he2⟩ := h.print_good (k := 2) (p := 2) (by omega) (by omega) (by omega) m d _ (hf0 1)
    refine ⟨.Defined e', ⟨?_, by simp⟩, Runs.up (g := fun p => parse_primary p false) (fun _ => rfl) ?_⟩
    · show Node.Defined (strip e') = _
      rw [he1.strip]
    · unfold parse_primary
      refine Runs.step (get_eq (skips_of (fl := env U m d) (htok rest) rfl) (by simp)) ?_
      refine Runs.yes (cpn_yes (htok2 rest) (by simp)) ?_
      refine Runs.bind (expr_of (hf0 0).noMore he2) ?_
      exact Runs.step (expect_punct_yes (skips_of (fl := env U m d) (read_rp hf.ends) rfl)) (Runs.pure _)
  · intro rest _
    rw [happ]; exact ⟨_, _, htok rest, rfl⟩

end
end Verif.Parser
