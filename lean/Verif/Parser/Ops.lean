import Verif.Parser.Cases
/-!
# Operators: lemmas for C49
-/
namespace Verif.Parser
open Verif.Lexer (Chars Unicode BinOp Punct Reserved Tok Name Text Ends read_token is_space is_alpha C73_token C73_space)

section
variable {U : Unicode} {m d : _root_.Bool} {p k : Nat} {s r rest t : Chars} {Γ Γ₁ Γ₂ Γ₃ Γ' : List Chars}
  {e x l : Node} {q : Punct} {S : Node → Prop} {tok : Tok}

def binPunct : BinOp → Punct
  | .LOr => .LOr | .LAnd => .LAnd | .Eq => .Eq | .Ne => .Ne | .TEq => .TEq | .Match => .Match
  | .Gt => .Gt | .Ge => .Ge | .Lt => .Lt | .Le => .Le | .Cmp => .Cmp | .BitOr => .BitOr | .BitXor => .BitXor
  | .BitAnd => .BitAnd | .Shl => .Shl | .Shr => .Shr | .Add => .Plus | .Sub => .Minus | .Mul => .Mul | .Div => .Div
  | .Rem => .Rem | .Exp => .DMul

theorem bin_text (op : BinOp) : Text (binText op) (.Punct (binPunct op)) := by
  cases op
  · exact .punct (t := "+") (by decide) (by decide)
  · exact .punct (t := "-") (by decide) (by decide)
  · exact .punct (t := "*") (by decide) (by decide)
  · exact .punct (t := "/") (by decide) (by decide)
  · exact .punct (t := "%") (by decide) (by decide)
  · exact .punct (t := "**") (by decide) (by decide)
  · exact .punct (t := ">>") (by decide) (by decide)
  · exact .punct (t := "<<") (by decide) (by decide)
  · exact .punct (t := "&") (by decide) (by decide)
  · exact .punct (t := "|") (by decide) (by decide)
  · exact .punct (t := "^") (by decide) (by decide)
  · exact .punct (t := "==") (by decide) (by decide)
  · exact .punct (t := "!=") (by decide) (by decide)
  · exact .punct (t := "===") (by decide) (by decide)
  · exact .punct (t := ">") (by decide) (by decide)
  · exact .punct (t := ">=") (by decide) (by decide)
  · exact .punct (t := "<") (by decide) (by decide)
  · exact .punct (t := "<=") (by decide) (by decide)
  · exact .punct (t := "<=>") (by decide) (by decide)
  · exact .punct (t := "&&") (by decide) (by decide)
  · exact .punct (t := "||") (by decide) (by decide)
  · exact .punct (t := "=~") (by decide) (by decide)

theorem bin_stop (m : _root_.Bool) (op : BinOp) : stopLevel m (binPunct op) = some (binLevel op) ∧
    binPunct op ≠ .Semi ∧ binPunct op ≠ .LBracket := by
  cases op <;> exact ⟨rfl, by simp [binPunct], by simp [binPunct]⟩

theorem body_bin (op : BinOp) (l r : Node) :
    body (.BinOp op l r) = print (leftLevel op) l ++ ' ' :: (binText op ++ print (rightLevel op) r) := rfl

/-- an operator and its right operand follow -/
theorem follow_bin {op : BinOp} (hs : Starts U k s) (hp : binLevel op ≤ p) :
    Follow U m p (' ' :: (binText op ++ (s ++ rest))) := by
  obtain ⟨h1, h2, h3⟩ := bin_stop m op
  obtain ⟨⟨s', rfl⟩, -⟩ := hs
  exact follow_op (bin_text op) h1 hp h2 h3 (.inr ⟨_, rfl⟩)

theorem read_bin {op : BinOp} (hs : Starts U k s) :
    read_token U (' ' :: (binText op ++ (s ++ rest))) = .ok (.Punct (binPunct op), s ++ rest) := by
  obtain ⟨⟨s', rfl⟩, -⟩ := hs
  exact read_text (bin_text op) (ends_sp _)

theorem starts_append (hs : Starts U k s) (hr : ∀ rest, Ends rest → Ends (r ++ rest)) : Starts U k (s ++ r) := by
  obtain ⟨⟨s', rfl⟩, h⟩ := hs
  exact ⟨⟨_, rfl⟩, fun rest hrest => by rw [List.append_assoc]; exact h _ (hr rest hrest)⟩

theorem num_append {b : _root_.Bool} (hs : NumStart U s b) (hr : ∀ rest, Ends rest → Ends (r ++ rest)) :
    NumStart U (s ++ r) b := by
  intro rest hrest
  rw [List.append_assoc]; exact hs _ (hr rest hrest)

/-- operators that group to the left -/
theorem claim_left {op : BinOp} {l r : Node} (hk : binLevel op ∈ leftLevels) (hl : leftLevel op = binLevel op)
    (hr : rightLevel op = binLevel op + 1) (ho : ops (binLevel op) (binPunct op) = some op)
    (h1 : Claim U Γ l Γ₁) (h2 : Claim U Γ₁ r Γ₂) : Claim U Γ (.BinOp op l r) Γ₂ := by
  have hb := body_bin op l r
  rw [hl, hr] at hb
  have hk' : 5 ≤ binLevel op ∧ binLevel op ≤ 13 := by
    simp only [leftLevels, List.mem_cons, List.not_mem_nil, or_false] at hk; omega
  have hs1 := h1.print_starts (k := binLevel op) (p := binLevel op) (by omega) (by omega)
  have hs2 := h2.print_starts (k := binLevel op + 1) (p := binLevel op + 1) (by omega) (by omega)
  refine Claim.ofLoop (k := binLevel op) rfl (by omega) (.inl hk) ?_ ?_ (fun h => absurd h (by omega)) <;> rw [hb]
  · exact starts_append hs1 fun rest _ => ends_sp _
  · intro m d rest hf
    obtain ⟨l', hl1, hl2⟩ := h1.print_loop (.inl hk) m d
      (' ' :: (binText op ++ (print (binLevel op + 1) r ++ rest))) (follow_bin hs2 (Nat.le_refl _))
    obtain ⟨r', hr1, hr2⟩ := h2.print_good (k := binLevel op + 1) (p := binLevel op + 1) (by omega) (by omega)
      (by omega) m d rest hf
    refine ⟨.BinOp op l' r', ⟨?_, by simp⟩, fun x st' hx => ?_⟩
    · show Node.BinOp op (strip l') (strip r') = _
      rw [hl1.strip, hr1.strip]
    · rw [List.append_assoc, List.cons_append, List.append_assoc]
      refine hl2 x st' (Runs.tail hk ?_)
      have htok := read_bin (op := op) (rest := rest) hs2
      unfold bin_loop
      refine Runs.step (peek_no_term_eq htok) ?_
      simp only [ho]
      refine Runs.step (get_eq (skips_of (fl := env U m d) htok (line_punct (bin_stop m op).2.1)) (by simp)) ?_
      exact Runs.bind hr2 hx

/-- `==` and the like -/
theorem claim_eq {op : BinOp} {l r : Node} (hop : op = .Eq ∨ op = .Ne ∨ op = .TEq ∨ op = .Match)
    (h1 : Claim U Γ l Γ₁) (h2 : Claim U Γ₁ r Γ₂) : Claim U Γ (.BinOp op l r) Γ₂ := by
  have hb := body_bin op l r
  have hlv : leftLevel op = 8 ∧ rightLevel op = 8 ∧ binLevel op = 7 := by
    rcases hop with rfl | rfl | rfl | rfl <;> exact ⟨rfl, rfl, rfl⟩
  rw [hlv.1, hlv.2.1] at hb
  have hs1 := h1.print_starts (k := 8) (p := 8) (by omega) (by omega)
  have hs2 := h2.print_starts (k := 8) (p := 8) (by omega) (by omega)
  refine Claim.of (k := 7) hlv.2.2 (by omega) (not_looping (by decide)) ?_ ?_ (fun h => absurd h (by omega)) <;> rw [hb]
  · exact starts_append (hs1.mono (by omega)) fun rest _ => ends_sp _
  · intro m d rest hf
    obtain ⟨l', hl1, hl2⟩ := h1.print_good (k := 8) (p := 8) (by omega) (by omega) (by omega) m d
      (' ' :: (binText op ++ (print 8 r ++ rest))) (follow_bin hs2 (by omega))
    obtain ⟨r', hr1, hr2⟩ := h2.print_good (k := 8) (p := 8) (by omega) (by omega) (by omega) m d rest
      (hf.mono (by omega))
    refine ⟨.BinOp op l' r', ⟨?_, by simp⟩, ?_⟩
    · show Node.BinOp op (strip l') (strip r') = _
      rw [hl1.strip, hr1.strip]
    · rw [List.append_assoc, List.cons_append, List.append_assoc]
      have htok := read_bin (op := op) (rest := rest) hs2
      refine Runs.up (g := fun p => parse_arg_eq p) (fun _ => rfl) ?_
      unfold parse_arg_eq
      refine Runs.bind hl2 ?_
      rcases hop with rfl | rfl | rfl | rfl
      · exact Runs.yes (cpn_yes htok (by simp)) (Runs.bind hr2 (Runs.pure _))
      · refine Runs.no (cpn_no htok (by simp [binPunct])) ?_
        exact Runs.yes (cpn_yes htok (by simp)) (Runs.bind hr2 (Runs.pure _))
      · refine Runs.no (cpn_no htok (by simp [binPunct])) ?_
        refine Runs.no (cpn_no htok (by simp [binPunct])) ?_
        exact Runs.yes (cpn_yes htok (by simp)) (Runs.bind hr2 (Runs.pure _))
      · refine Runs.no (cpn_no htok (by simp [binPunct])) ?_
        refine Runs.no (cpn_no htok (by simp [binPunct])) ?_
        refine Runs.no (cpn_no htok (by simp [binPunct])) ?_
        exact Runs.yes (cpn_yes htok (by simp)) (Runs.bind hr2 (Runs.pure _))

theorem startsNumber_bin (op : BinOp) (l r : Node) :
    startsNumber (.BinOp op l r) = (decide (leftLevel op ≤ lvl l) && startsNumber l) := rfl

/-- `**` -/
theorem claim_exp {l r : Node} (h1 : Claim U Γ l Γ₁) (h2 : Claim U Γ₁ r Γ₂) : Claim U Γ (.BinOp .Exp l r) Γ₂ := by
  have hb : body (.BinOp .Exp l r) = print 16 l ++ ' ' :: (binText .Exp ++ print 15 r) := body_bin .Exp l r
  have hs1 := h1.print_starts (k := 16) (p := 16) (by omega) (by omega)
  have hs2 := h2.print_starts (k := 15) (p := 15) (by omega) (by omega)
  refine Claim.of (k := 15) rfl (by omega) (not_looping (by decide)) ?_ ?_ (fun _ => ?_) <;> rw [hb]
  · exact starts_append (hs1.mono (by omega)) fun rest _ => ends_sp _
  · intro m d rest hf
    obtain ⟨l', hl1, hl2⟩ := h1.print_good (k := 16) (p := 16) (by omega) (by omega) (by omega) m d
      (' ' :: (binText .Exp ++ (print 15 r ++ rest))) (follow_bin hs2 (by decide))
    obtain ⟨r', hr1, hr2⟩ := h2.print_good (k := 15) (p := 15) (by omega) (by omega) (by omega) m d rest hf
    refine ⟨.BinOp .Exp l' r', ⟨?_, by simp⟩, ?_⟩
    · show Node.BinOp _ (strip l') (strip r') = _
      rw [hl1.strip, hr1.strip]
    · rw [List.append_assoc, List.cons_append, List.append_assoc]
      have htok := read_bin (op := .Exp) (rest := rest) hs2
      refine Runs.up (g := fun p => parse_exponent p) (fun _ => rfl) ?_
      unfold parse_exponent
      refine Runs.bind hl2 ?_
      exact Runs.yes (cpn_yes htok (by simp)) (Runs.bind hr2 (Runs.pure _))
  · exact num_append (h1.print_num (by omega)) fun rest _ => ends_sp _

theorem claim_bin (op : BinOp) {l r : Node} (h1 : Claim U Γ l Γ₁) (h2 : Claim U Γ₁ r Γ₂) :
    Claim U Γ (.BinOp op l r) Γ₂ := by
  cases op
  case Exp => exact claim_exp h1 h2
  case Eq => exact claim_eq (.inl rfl) h1 h2
  case Ne => exact claim_eq (.inr (.inl rfl)) h1 h2
  case TEq => exact claim_eq (.inr (.inr (.inl rfl))) h1 h2
  case Match => exact claim_eq (.inr (.inr (.inr rfl))) h1 h2
  all_goals exact claim_left (by decide) rfl rfl rfl h1 h2

/-! ## Unary operators -/

def unPunct : UnOp → Punct
  | .BitNot => .BitNot | .Not => .Not | .Pos => .Plus | .Neg => .Minus

theorem un_text (op : UnOp) : Text (unText op) (.Punct (unPunct op)) := by
  cases op
  · exact .punct (t := "~") (by decide) (by decide)
  · exact .punct (t := "!") (by decide) (by decide)
  · exact .punct (t := "+") (by decide) (by decide)
  · exact .punct (t := "-") (by decide) (by decide)

theorem read_un {op : UnOp} (hs : Starts U k s) :
    read_token U (' ' :: (unText op ++ (s ++ rest))) = .ok (.Punct (unPunct op), s ++ rest) := by
  obtain ⟨⟨s', rfl⟩, -⟩ := hs
  exact read_text (un_text op) (ends_sp _)

theorem body_un {op : UnOp} (h : op ≠ .Neg) (e : Node) : body (.UnOp op e) = ' ' :: (unText op ++ print 16 e) := by
  cases op <;> first | rfl | exact absurd rfl h

theorem claim_un {op : UnOp} (hop : op ≠ .Neg) (h : Claim U Γ e Γ') : Claim U Γ (.UnOp op e) Γ' := by
  have hb := body_un hop e
  have hs := h.print_starts (k := 16) (p := 16) (by omega) (by omega)
  have hl : lvl (.UnOp op e) = 16 := by cases op <;> first | rfl | exact absurd rfl hop
  have happ : ∀ rest, ' ' :: (unText op ++ print 16 e) ++ rest = ' ' :: (unText op ++ (print 16 e ++ rest)) := by simp
  refine Claim.of (k := 16) hl (by omega) (not_looping (by decide)) ?_ ?_ (fun _ => ?_) <;> rw [hb]
  · refine ⟨⟨_, rfl⟩, fun rest _ => ?_⟩
    rw [happ]
    refine ⟨_, _, read_un hs, ?_, fun h => by cases h⟩
    cases op <;> first | exact absurd rfl hop | (simp [unPunct, start])
  · intro m d rest hf
    obtain ⟨e', he1, he2⟩ := h.print_good (k := 16) (p := 16) (by omega) (by omega) (by omega) m d rest hf
    refine ⟨.UnOp op e', ⟨?_, by simp⟩, ?_⟩
    · show Node.UnOp op (strip e') = _
      rw [he1.strip]
    · rw [happ]
      have htok := read_un (op := op) (rest := rest) hs
      have hsk := skips_of (fl := env U m d) htok (line_punct (by cases op <;> simp [unPunct]))
      refine Runs.up (g := fun p => parse_unary p) (fun _ => rfl) ?_
      unfold parse_unary
      cases op
      case Neg => exact absurd rfl hop
      · exact Runs.yes (consume_punct_yes hsk) (Runs.bind he2 (Runs.pure _))
      · refine Runs.no (consume_punct_no hsk (by simp [unPunct])) ?_
        exact Runs.yes (consume_punct_yes hsk) (Runs.bind he2 (Runs.pure _))
      · refine Runs.no (consume_punct_no hsk (by simp [unPunct])) ?_
        refine Runs.no (consume_punct_no hsk (by simp [unPunct])) ?_
        exact Runs.yes (consume_punct_yes hsk) (Runs.bind he2 (Runs.pure _))
  · intro rest _
    rw [happ]
    refine ⟨_, _, read_un hs, ?_⟩
    rfl

theorem body_neg (e : Node) : body (.UnOp .Neg e) = ' ' :: '-' :: print (negLevel e) e := rfl

/-- a power of a number -/
def numPower : Node → Prop
  | .BinOp .Exp (.Integer i) _ => 0 ≤ i
  | .BinOp .Exp (.Bignum i) _ => 0 ≤ i
  | _ => False

theorem neg_cases (e : Node) : (numPower e ∧ negLevel e = 14) ∨
    (14 ≤ negLevel e ∧ (negLevel e ≤ lvl e → startsNumber e = false)) := by
  unfold negLevel
  split
  · rename_i i r
    by_cases h : 0 ≤ i
    · exact .inl ⟨h, rfl⟩
    · refine .inr ⟨by omega, fun _ => ?_⟩
      rw [startsNumber_bin, startsNumber_int, decide_eq_false h, Bool.and_false]
  · rename_i i r
    by_cases h : 0 ≤ i
    · exact .inl ⟨h, rfl⟩
    · refine .inr ⟨by omega, fun _ => ?_⟩
      rw [startsNumber_bin, startsNumber_big, decide_eq_false h, Bool.and_false]
  · split
    · exact .inr ⟨by omega, fun h => by have := lvl_le e; omega⟩
    · rename_i h; exact .inr ⟨by omega, fun _ => by simpa using h⟩

theorem print_num (i : Int) (h : 0 ≤ i) : print 16 (.Integer i) = ' ' :: decimal i.natAbs ∧
    print 16 (.Bignum i) = ' ' :: decimal i.natAbs := by
  constructor
  · rcases print_cases 16 (.Integer i) with ⟨-, h1⟩ | ⟨h1, -⟩
    · rw [h1, body_int, number_pos (by omega)]
    · rw [lvl_int, if_neg (by omega)] at h1; omega
  · rcases print_cases 16 (.Bignum i) with ⟨-, h1⟩ | ⟨h1, -⟩
    · rw [h1, body_big, number_pos (by omega)]
    · rw [lvl_big, if_neg (by omega)] at h1; omega

/-- The exponent of a power starts with a space. -/
def Pow : Node → Prop
  | .BinOp .Exp _ r => ∃ s, print 15 r = ' ' :: s
  | _ => True

theorem pow_exp {l r : Node} (h : Claim U Γ r Γ') : Pow (.BinOp .Exp l r) :=
  (h.print_starts (k := 15) (p := 15) (by omega) (by omega)).1

/-- the text of a power of a number: the number, then `**` -/
theorem power_text (h : numPower e) (hp : Pow e) :
    lvl e = 15 ∧ ∃ (n : Nat) (s : Chars), body e = ' ' :: (decimal n ++ ' ' :: '*' :: '*' :: ' ' :: s) := by
  unfold numPower at h
  split at h
  · rename_i i r
    obtain ⟨s, hs⟩ := hp
    refine ⟨rfl, i.natAbs, s, ?_⟩
    rw [body_bin, show leftLevel .Exp = 16 from rfl, (print_num i h).1, show rightLevel .Exp = 15 from rfl, hs]; rfl
  · rename_i i r
    obtain ⟨s, hs⟩ := hp
    refine ⟨rfl, i.natAbs, s, ?_⟩
    rw [body_bin, show leftLevel .Exp = 16 from rfl, (print_num i h).2, show rightLevel .Exp = 15 from rfl, hs]; rfl
  · exact h.elim

theorem claim_neg (h : Claim U Γ e Γ') (hpow : Pow e) : Claim U Γ (.UnOp .Neg e) Γ' := by
  have hb := body_neg e
  have h14 : 14 ≤ negLevel e := by
    rcases neg_cases e with ⟨-, h⟩ | ⟨h, -⟩ <;> omega
  have hs := h.print_starts (k := 14) (p := negLevel e) (by omega) h14
  have hm : ∀ rest, read_token U (' ' :: '-' :: (print (negLevel e) e ++ rest)) =
      .ok (.Punct .Minus, print (negLevel e) e ++ rest) := fun rest => read_un (op := .Neg) hs
  refine Claim.of (k := 14) rfl (by omega) (not_looping (by decide)) ?_ ?_ (fun _ => ?_) <;> rw [hb]
  · exact ⟨⟨_, rfl⟩, fun rest _ => ⟨_, _, hm rest, by simp [start], fun h => by cases h⟩⟩
  · intro m d rest hf
    have s1 := skips_of (fl := env U m d) (hm rest) rfl
    have key : ∃ e', Any (negLevel e) e e' ∧ Runs (fun p => p.unary_minus) (env U m d)
        ⟨' ' :: '-' :: (print (negLevel e) e ++ rest), Γ⟩ (.UnOp .Neg e') ⟨rest, Γ'⟩ := by
      rcases neg_cases e with ⟨hp, he⟩ | ⟨-, hnum⟩
      · -- a power of a number
        obtain ⟨hl, n, s, hbody⟩ := power_text hp hpow
        have hpr : print (negLevel e) e = body e := by
          rcases print_cases (negLevel e) e with ⟨-, h⟩ | ⟨h, -⟩
          · exact h
          · omega
        have hg := (h.good (by omega)).down (k := 15) (by omega) (by omega) (lvl_le e) (h.starts (by omega))
        obtain ⟨e', he1, he2⟩ := hg m d rest (hf.mono (by omega))
        refine ⟨e', .inl ⟨by omega, he1⟩, ?_⟩
        rw [hpr] at s1 ⊢
        have h2 : read_token U (body e ++ rest) = .ok (numTok n, ' ' :: '*' :: '*' :: ' ' :: (s ++ rest)) := by
          rw [hbody]
          have := read_text (U := U) (text_num n) (ends_sp ('*' :: '*' :: ' ' :: (s ++ rest)))
          simpa using this
        have s2 := skips_of (fl := env U m d) h2 (start_line (start_num 18 (n : Int)).1)
        have h3 : read_token U (' ' :: '*' :: '*' :: ' ' :: (s ++ rest)) = .ok (.Punct .DMul, ' ' :: (s ++ rest)) :=
          read_text (bin_text .Exp) (ends_sp _)
        refine Runs.up (g := fun p => parse_unary_minus p) (fun _ => rfl) ?_
        unfold parse_unary_minus
        refine Runs.step save_eq ?_
        refine Runs.yes (consume_punct_yes s1) ?_
        refine Runs.step save_eq ?_
        refine Runs.step (peek_no_term_eq h2) ?_
        simp only [(start_num 18 (n : Int)).2.1, if_true]
        refine Runs.bind (primary_num s2) ?_
        refine Runs.yes (cpn_yes h3 (by simp)) ?_
        refine Runs.step (st₁ := ⟨body e ++ rest, Γ⟩) rfl ?_
        exact Runs.bind he2 (acc_assign_stop hf)
      · obtain ⟨e', he1, he2⟩ := h.print_good (k := 14) (p := negLevel e) (by omega) h14 (by omega) m d rest hf
        obtain ⟨t, a, h2, h3⟩ := h.print_num h14 rest hf.ends
        have h3 : is_number t = false := by
          rw [h3]
          by_cases hle : negLevel e ≤ lvl e
          · rw [hnum hle, Bool.and_false]
          · rw [decide_eq_false hle, Bool.false_and]
        refine ⟨e', he1, ?_⟩
        refine Runs.up (g := fun p => parse_unary_minus p) (fun _ => rfl) ?_
        unfold parse_unary_minus
        refine Runs.step save_eq ?_
        refine Runs.yes (consume_punct_yes s1) ?_
        refine Runs.step save_eq ?_
        refine Runs.step (peek_no_term_eq h2) ?_
        simp only [h3, Bool.false_eq_true, if_false]
        exact Runs.bind he2 (acc_assign_stop hf)
    obtain ⟨e', he1, he2⟩ := key
    refine ⟨.UnOp .Neg e', ⟨?_, by simp⟩, he2⟩
    show Node.UnOp .Neg (strip e') = _
    rw [he1.strip]
  · exact fun rest _ => ⟨_, _, hm rest, rfl⟩

end
end Verif.Parser
