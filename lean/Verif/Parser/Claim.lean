import Verif.Parser.Chain
/-!
# What is proved about each tree: lemmas for C49
-/
namespace Verif.Parser
open Verif.Lexer (Chars Unicode BinOp Punct Reserved Tok Name Text Ends read_token is_space is_alpha C73_token C73_space)

section
variable {U : Unicode} {m d : _root_.Bool} {p k : Nat} {s r rest : Chars} {Γ Γ' : List Chars} {e x : Node} {t : Chars}
  {q : Punct} {S : Node → Prop}

/-! ## Tokens -/

theorem sp (U : Unicode) (s : Chars) : read_token U (' ' :: s) = read_token U s :=
  C73_space U (w := [' ']) (by simp; decide)

theorem ends_sp (s : Chars) : Ends (' ' :: s) := .inl (by decide)
theorem ends_lp (s : Chars) : Ends ('(' :: s) := .inr (.inl rfl)
theorem ends_lb (s : Chars) : Ends ('[' :: s) := .inr (.inr rfl)

theorem read_text {tok : Tok} (h : Text t tok) (hr : Ends r) : read_token U (' ' :: (t ++ r)) = .ok (tok, r) :=
  (sp U _).trans (C73_token U h hr)

theorem follow_nil : Follow U m p [] :=
  ⟨⟨.Eof, [], .Eof, [], rfl, trivial, rfl, .inl ⟨rfl, rfl⟩⟩, trivial, by simp, rfl⟩

theorem line_punct (hq : q ≠ .Semi) : is_line_tok (.Punct q) = false := by
  cases q <;> first | rfl | exact absurd rfl hq

/-- an operator follows -/
theorem follow_op (ht : Text t (.Punct q)) (hk : stopLevel m q = some k) (hp : k ≤ p) (h1 : q ≠ .Semi)
    (h2 : q ≠ .LBracket) (hr : (q = .RParen ∨ q = .RBracket) ∧ Ends r ∨ ∃ r', r = ' ' :: r') :
    Follow U m p (' ' :: (t ++ r)) := by
  have he : Ends r := by
    rcases hr with ⟨-, h⟩ | ⟨r', rfl⟩
    · exact h
    · exact ends_sp _
  have htok := read_text (U := U) ht he
  refine ⟨⟨_, _, _, _, htok, ⟨k, hk, hp⟩, skips_of (fl := env U false false) htok (line_punct h1),
    .inl ⟨rfl, line_punct h1⟩⟩, ends_sp _, by simp, ?_⟩
  unfold command
  rw [htok]
  simp only [List.head?_cons, Option.elim_some, show is_space ' ' = true from by decide, if_true]
  cases q <;> first | rfl | exact absurd rfl h2 | (exfalso; cases hk; done) | skip
  all_goals
    rcases hr with ⟨h | h, -⟩ | ⟨r', rfl⟩ <;> first | (cases h) | rfl

theorem follow_rparen (h : Ends r) : Follow U m p (' ' :: ')' :: r) :=
  follow_op (U := U) (t := [')']) (k := 0) (.punct (t := ")") (by decide) (by decide)) rfl (by omega) (by simp) (by simp)
    (.inl ⟨.inl rfl, h⟩)

theorem follow_rbracket (h : Ends r) : Follow U m p (' ' :: ']' :: r) :=
  follow_op (U := U) (t := [']']) (k := 0) (.punct (t := "]") (by decide) (by decide)) rfl (by omega) (by simp) (by simp)
    (.inl ⟨.inr rfl, h⟩)

/-- an index follows -/
theorem follow_index : Follow U m 17 ('[' :: r) := by
  have htok : read_token U ('[' :: r) = .ok (.Punct .LBracket, r) := by
    rw [Lexer.read_token_punct U (by decide) (by decide)]; rfl
  refine ⟨⟨_, _, _, _, htok, ⟨17, rfl, by omega⟩, skips_of (fl := env U false false) htok rfl, .inl ⟨rfl, rfl⟩⟩,
    ends_lb _, by simp, ?_⟩
  unfold command
  rw [htok]; rfl

/-- a semicolon and another statement follow -/
theorem follow_semi (hb : Begins U 1 (' ' :: r)) : Follow U m p (' ' :: ';' :: ' ' :: r) := by
  have htok : read_token U (' ' :: ([';'] ++ ' ' :: r)) = .ok (.Punct .Semi, ' ' :: r) :=
    read_text (.punct (t := ";") (by decide) (by decide)) (ends_sp _)
  obtain ⟨t', a', h1, h2, h3⟩ := hb
  refine ⟨⟨_, _, t', a', htok, ⟨0, rfl, by omega⟩, ?_, .inr ⟨rfl, .inl h2⟩⟩, ends_sp _, by simp, ?_⟩
  · unfold Skips
    rw [read_skip, show read_token U (' ' :: ';' :: ' ' :: r) = .ok (.Punct .Semi, ' ' :: r) from htok]
    show read_skip U (r.length + 2 + 1) (' ' :: r) = _
    rw [read_skip, h1]
    simp [start_line h2]
  · unfold command
    rw [show read_token U (' ' :: ';' :: ' ' :: r) = .ok (.Punct .Semi, ' ' :: r) from htok]; rfl

/-! ## Texts -/

/-- The text starts with a space and a token of this level. -/
def Starts (U : Unicode) (k : Nat) (s : Chars) : Prop :=
  (∃ s', s = ' ' :: s') ∧ ∀ rest, Ends rest → Begins U k (s ++ rest)

/-- The text starts with a number, or not. -/
def NumStart (U : Unicode) (s : Chars) (b : _root_.Bool) : Prop :=
  ∀ rest, Ends rest → ∃ t a, read_token U (s ++ rest) = .ok (t, a) ∧ is_number t = b

/-- The parser of the level takes this text. -/
def Good (U : Unicode) (k : Nat) (s : Chars) (Γ : List Chars) (S : Node → Prop) (Γ' : List Chars) : Prop :=
  ∀ m d rest, Follow U m (k - 1) rest →
    ∃ e', S e' ∧ Runs (entry k) (env U m d) ⟨s ++ rest, Γ⟩ e' ⟨rest, Γ'⟩

/-- The parser of the level takes this text, and goes on with operators of the same level. -/
def Loop (U : Unicode) (k : Nat) (s : Chars) (Γ : List Chars) (S : Node → Prop) (Γ' : List Chars) : Prop :=
  ∀ m d rest, Follow U m k rest → ∃ e', S e' ∧ ∀ x st', Runs (tail k e') (env U m d) ⟨rest, Γ'⟩ x st' →
    Runs (entry k) (env U m d) ⟨s ++ rest, Γ⟩ x st'

def Looping (k : Nat) : Prop := k ∈ leftLevels ∨ k = 17

theorem Starts.mono {j : Nat} (h : k ≤ j) (hs : Starts U j s) : Starts U k s :=
  ⟨hs.1, fun rest hr => (hs.2 rest hr).mono h⟩

theorem Good.down {j : Nat} (h1 : 1 ≤ k) (hk : k ≤ j) (h2 : j ≤ 18) (hs : Starts U j s) (h : Good U j s Γ S Γ') :
    Good U k s Γ S Γ' := by
  intro m d rest hf
  obtain ⟨e', h3, h4⟩ := h m d rest (hf.mono (by omega))
  exact ⟨e', h3, chain_le h1 hk h2 (hs.2 rest hf.ends).opens hf h4⟩

theorem Good.loop (hk : Looping k) (hs : Starts U (k + 1) s) (h : Good U (k + 1) s Γ S Γ') : Loop U k s Γ S Γ' := by
  intro m d rest hf
  obtain ⟨e', h3, h4⟩ := h m d rest hf
  refine ⟨e', h3, fun x st' hx => ?_⟩
  rcases hk with hk | rfl
  · exact entry_loop hk hf h4 hx
  · obtain ⟨t, a, hs, ht⟩ := (hs.2 rest hf.ends).skips
    refine Runs.up (g := fun p => parse_method_call p) (fun _ => rfl) ?_
    unfold parse_method_call
    refine Runs.no (consume_reserved_no hs (by rintro rfl; exact ht)) ?_
    exact Runs.bind h4 hx

theorem method_call_stop (hf : Follow U m 16 rest) :
    Runs (fun p => p.method_call_loop e) (env U m d) ⟨rest, Γ⟩ e ⟨rest, Γ⟩ := by
  obtain ⟨⟨t1, a1, t2, a2, h1, h2, h3, h4⟩, -⟩ := hf
  refine Runs.up (g := fun p => parse_method_call_loop p e) (fun _ => rfl) ?_
  unfold parse_method_call_loop
  refine Runs.no (consume_punct_no h3 (skip_ne h2 h4 (by beyond) (by simp [start]))) ?_
  refine Runs.no (cpn_no h1 (ne_of_stops h2 (by beyond))) ?_
  refine Runs.no (cpn_no h1 (ne_of_stops h2 (by beyond))) ?_
  refine Runs.no (cpn_no h1 (ne_of_stops h2 (by beyond))) ?_
  exact Runs.pure _

theorem Loop.good (hk : Looping k) (h : Loop U k s Γ S Γ') : Good U k s Γ S Γ' := by
  intro m d rest hf
  obtain ⟨e', h3, h4⟩ := h m d rest (hf.mono (by omega))
  refine ⟨e', h3, h4 _ _ ?_⟩
  rcases hk with hk | rfl
  · have : 0 < k := by
      simp only [leftLevels, List.mem_cons, List.not_mem_nil, or_false] at hk; omega
    exact tail_stop (p := k - 1) hk (by omega) hf
  · exact method_call_stop hf

theorem Good.imp {S' : Node → Prop} (h : Good U k s Γ S Γ') (hS : ∀ e, S e → S' e) : Good U k s Γ S' Γ' := by
  intro m d rest hf
  obtain ⟨e', h1, h2⟩ := h m d rest hf
  exact ⟨e', hS _ h1, h2⟩

theorem Loop.imp {S' : Node → Prop} (h : Loop U k s Γ S Γ') (hS : ∀ e, S e → S' e) : Loop U k s Γ S' Γ' := by
  intro m d rest hf
  obtain ⟨e', h1, h2⟩ := h m d rest hf
  exact ⟨e', hS _ h1, h2⟩

/-! ## Trees -/

/-- A result of parsing the tree, unparenthesised. -/
def Plain (e e' : Node) : Prop := strip e' = e ∧ ∀ x, e' ≠ .CompStmt [x]

/-- A result of parsing the tree in parentheses. -/
def Paren (e e' : Node) : Prop := strip e' = e ∧ ∃ l, e' = .CompStmt l

/-- A result of parsing the tree at a place that demands the level. -/
def Any (p : Nat) (e e' : Node) : Prop := p ≤ lvl e ∧ Plain e e' ∨ lvl e < p ∧ Paren e e'

/-- What is proved about a tree. -/
structure Claim (U : Unicode) (Γ : List Chars) (e : Node) (Γ' : List Chars) : Prop where
  begins : lvl e = 0 → ∀ r, Ends (body e ++ ' ' :: r)
  starts : 1 ≤ lvl e → Starts U (lvl e) (body e)
  good : 1 ≤ lvl e → Good U (lvl e) (body e) Γ (Plain e) Γ'
  num : 14 ≤ lvl e → NumStart U (body e) (startsNumber e)
  loop : Looping (lvl e) → Loop U (lvl e) (body e) Γ (Plain e) Γ'
  comp : lvl e = 0 → ∀ m d rest, Ends rest → ∃ e', Paren e e' ∧
    Runs (fun p => p.comp_stmt) (env U m d) ⟨body e ++ ' ' :: ')' :: rest, Γ⟩ e' ⟨' ' :: ')' :: rest, Γ'⟩

theorem lvl_le (e : Node) : lvl e ≤ 18 := by
  unfold lvl
  split <;> first | omega | (split <;> omega) | skip
  rename_i op _ _
  cases op <;> decide

theorem text_lp : Text ['('] (.Punct .LParen) := .punct (t := "(") (by decide) (by decide)
theorem text_rp : Text [')'] (.Punct .RParen) := .punct (t := ")") (by decide) (by decide)

theorem read_lp (h : Ends r) : read_token U (' ' :: '(' :: r) = .ok (.Punct .LParen, r) := read_text text_lp h
theorem read_rp (h : Ends r) : read_token U (' ' :: ')' :: r) = .ok (.Punct .RParen, r) := read_text text_rp h

/-- Every text of a tree starts with a space or is empty. -/
theorem Claim.ends (h : Claim U Γ e Γ') (r : Chars) : Ends (body e ++ ' ' :: r) := by
  rcases Nat.eq_zero_or_pos (lvl e) with h1 | h1
  · exact h.begins h1 r
  · obtain ⟨⟨s', hs⟩, -⟩ := h.starts h1
    rw [hs]; exact ends_sp _

/-- one statement in parentheses -/
theorem comp_one (hs : Starts U 1 s) (h : Good U 1 s Γ S Γ') (hr : Ends rest) : ∃ e', S e' ∧
    Runs (fun p => p.comp_stmt) (env U m d) ⟨s ++ ' ' :: ')' :: rest, Γ⟩ (.CompStmt [e']) ⟨' ' :: ')' :: rest, Γ'⟩ := by
  obtain ⟨e', h1, h2⟩ := h m d (' ' :: ')' :: rest) (follow_rparen hr)
  obtain ⟨t, a, hs, ht⟩ := (hs.2 (' ' :: ')' :: rest) (ends_sp _)).skips
  refine ⟨e', h1, ?_⟩
  refine Runs.up (g := fun p => parse_comp_stmt p) (fun _ => rfl) ?_
  unfold parse_comp_stmt
  refine Runs.step (peek_eq hs) ?_
  refine Runs.up (g := fun p => parse_comp_stmt_loop p []) (fun _ => rfl) ?_
  unfold parse_comp_stmt_loop
  refine Runs.step (peek_eq hs) ?_
  have : check_stmt_end t = false := by
    unfold start at ht; split at ht <;> first | rfl | exact ht.elim
  simp only [this, Bool.false_eq_true, if_false]
  refine Runs.bind h2 ?_
  have hct : consume_term (env U m d) ⟨' ' :: ')' :: rest, Γ'⟩ = .ok (false, ⟨' ' :: ')' :: rest, Γ'⟩) := by
    unfold consume_term; rw [bind_ok (peek_no_term_eq (read_rp hr))]; rfl
  exact Runs.no hct (Runs.pure _)

theorem paren_good (h : Claim U Γ e Γ') (hend : ∀ r, Ends (body e ++ ' ' :: r)) :
    Good U 18 (' ' :: '(' :: (body e ++ [' ', ')'])) Γ (Paren e) Γ' := by
  intro m d rest hf
  have hcomp : ∃ e', Paren e e' ∧ Runs (fun p => p.comp_stmt) (env U m d) ⟨body e ++ ' ' :: ')' :: rest, Γ⟩ e'
      ⟨' ' :: ')' :: rest, Γ'⟩ := by
    rcases Nat.eq_zero_or_pos (lvl e) with h0 | h0
    · exact h.comp h0 m d rest hf.ends
    · obtain ⟨e', ⟨h1, -⟩, h2⟩ := comp_one (m := m) (d := d) ((h.starts h0).mono h0)
        ((h.good h0).down (by omega) h0 (lvl_le e) (h.starts h0)) hf.ends
      exact ⟨_, ⟨by simpa only [strip] using h1, _, rfl⟩, h2⟩
  obtain ⟨e', h1, h2⟩ := hcomp
  refine ⟨e', h1, ?_⟩
  refine Runs.up (g := fun p => parse_primary p false) (fun _ => rfl) ?_
  unfold parse_primary
  have htok := read_lp (U := U) (hend (')' :: rest))
  have htok : read_token U ((' ' :: '(' :: (body e ++ [' ', ')'])) ++ rest) = .ok (.Punct .LParen, body e ++ ' ' :: ')' :: rest) := by
    simpa using htok
  refine Runs.step (get_eq (skips_of (fl := env U m d) htok rfl) (by simp)) ?_
  refine Runs.bind h2 ?_
  refine Runs.step (expect_punct_yes (skips_of (fl := env U m d) (read_rp hf.ends) rfl)) ?_
  exact Runs.pure _

theorem paren_tok (hend : ∀ r, Ends (body e ++ ' ' :: r)) (rest : Chars) :
    read_token U ((' ' :: '(' :: (body e ++ [' ', ')'])) ++ rest) = .ok (.Punct .LParen, body e ++ ' ' :: ')' :: rest) := by
  have := read_lp (U := U) (hend (')' :: rest))
  simpa using this

theorem paren_starts (hend : ∀ r, Ends (body e ++ ' ' :: r)) : Starts U k (' ' :: '(' :: (body e ++ [' ', ')'])) :=
  ⟨⟨_, rfl⟩, fun rest _ => ⟨_, _, paren_tok hend rest, trivial, fun h => by cases h⟩⟩

theorem print_cases (p : Nat) (e : Node) :
    p ≤ lvl e ∧ print p e = body e ∨ lvl e < p ∧ print p e = ' ' :: '(' :: (body e ++ [' ', ')']) := by
  unfold print wrap
  by_cases h : lvl e < p
  · exact .inr ⟨h, if_pos h⟩
  · exact .inl ⟨by omega, if_neg h⟩

theorem Claim.print_starts (h : Claim U Γ e Γ') (h1 : 1 ≤ k) (hk : k ≤ p) : Starts U k (print p e) := by
  rcases print_cases p e with ⟨hp, he⟩ | ⟨hp, he⟩ <;> rw [he]
  · exact (h.starts (by omega)).mono (by omega)
  · exact paren_starts h.ends

theorem Claim.print_good (h : Claim U Γ e Γ') (h1 : 1 ≤ k) (hk : k ≤ p) (hk' : k ≤ 18) :
    Good U k (print p e) Γ (Any p e) Γ' := by
  rcases print_cases p e with ⟨hp, he⟩ | ⟨hp, he⟩ <;> rw [he]
  · exact ((h.good (by omega)).down h1 (by omega) (lvl_le e) (h.starts (by omega))).imp fun _ h => .inl ⟨hp, h⟩
  · exact ((paren_good h h.ends).down h1 hk' (by omega) (paren_starts h.ends)).imp fun _ h => .inr ⟨hp, h⟩

theorem Claim.print_num (h : Claim U Γ e Γ') (hp : 14 ≤ p) :
    NumStart U (print p e) (decide (p ≤ lvl e) && startsNumber e) := by
  rcases print_cases p e with ⟨hp', he⟩ | ⟨hp', he⟩ <;> rw [he]
  · rw [decide_eq_true hp', Bool.true_and]; exact h.num (by omega)
  · rw [decide_eq_false (by omega), Bool.false_and]
    exact fun rest _ => ⟨_, _, paren_tok h.ends rest, rfl⟩

theorem Claim.print_loop (h : Claim U Γ e Γ') (hk : Looping k) : Loop U k (print k e) Γ (Any k e) Γ' := by
  have h1 : 1 ≤ k ∧ k ≤ 17 := by
    rcases hk with hk | rfl
    · simp only [leftLevels, List.mem_cons, List.not_mem_nil, or_false] at hk; omega
    · omega
  rcases print_cases k e with ⟨hp, he⟩ | ⟨hp, he⟩ <;> rw [he]
  · rcases Nat.eq_or_lt_of_le hp with hp' | hp'
    · subst hp'; exact (h.loop hk).imp fun _ h => .inl ⟨hp, h⟩
    · refine (((h.good (by omega)).down (by omega) hp' (lvl_le e) (h.starts (by omega))).loop hk
        ((h.starts (by omega)).mono hp')).imp fun _ h => .inl ⟨hp, h⟩
  · exact (((paren_good h h.ends).down (by omega) (by omega) (by omega) (paren_starts h.ends)).loop hk
      (paren_starts h.ends)).imp fun _ h => .inr ⟨hp, h⟩

/-- an operand that may stand before a comma, taken by `arg` -/
theorem Claim.print_arg (h : Claim U Γ e Γ') (hf : Follow U m 2 rest) :
    ∃ e', Any 3 e e' ∧ Runs (fun p => p.arg) (env U m d) ⟨print 3 e ++ rest, Γ⟩ e' ⟨rest, Γ'⟩ := by
  obtain ⟨e', h1, h2⟩ := h.print_good (k := 3) (p := 3) (by omega) (by omega) (by omega) m d rest hf
  exact ⟨e', h1, chain2 ((h.print_starts (k := 3) (p := 3) (by omega) (by omega)).2 rest hf.ends).opens hf h2⟩

theorem Any.strip {e' : Node} (h : Any p e e') : strip e' = e := by
  rcases h with ⟨-, h, -⟩ | ⟨-, h, -⟩ <;> exact h

/-- Parentheses do not hide a constant. -/
theorem Any.const {e' : Node} (h : Any p e e') (hp : p ≤ 14) :
    e'.is_const_expr = e.is_const_expr ∧ e'.is_integer = e.is_integer := by
  rcases h with ⟨-, rfl, h⟩ | ⟨h1, rfl, l, rfl⟩
  · unfold Parser.strip
    split <;> first | exact ⟨rfl, rfl⟩ | exact absurd rfl (h _)
  · have key : ∀ e : Node, lvl e < 14 → e.is_const_expr = false ∧ e.is_integer = false := by
      intro e he
      unfold lvl at he
      split at he <;> first | exact ⟨rfl, rfl⟩ | omega | (split at he <;> omega)
    have := key (Parser.strip (.CompStmt l)) (by omega)
    exact ⟨this.1 ▸ rfl, this.2 ▸ rfl⟩

theorem Claim.of (hl : lvl e = k) (h1 : 1 ≤ k) (hk : ¬ Looping k) (hs : Starts U k (body e))
    (hg : Good U k (body e) Γ (Plain e) Γ') (hn : 14 ≤ k → NumStart U (body e) (startsNumber e)) : Claim U Γ e Γ' := by
  subst hl
  exact ⟨fun h => absurd h (by omega), fun _ => hs, fun _ => hg, hn, fun h => absurd h hk, fun h => absurd h (by omega)⟩

theorem Claim.ofLoop (hl : lvl e = k) (h1 : 1 ≤ k) (hk : Looping k) (hs : Starts U k (body e))
    (hg : Loop U k (body e) Γ (Plain e) Γ') (hn : 14 ≤ k → NumStart U (body e) (startsNumber e)) : Claim U Γ e Γ' := by
  subst hl
  exact ⟨fun h => absurd h (by omega), fun _ => hs, fun _ => hg.good hk, hn, fun _ => hg, fun h => absurd h (by omega)⟩

end
end Verif.Parser
