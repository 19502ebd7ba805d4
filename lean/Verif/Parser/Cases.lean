import Verif.Parser.Claim
/-!
# The kinds of trees: lemmas for C49
-/
namespace Verif.Parser
open Verif.Lexer (Chars Unicode BinOp Punct Reserved Tok Name Text Ends read_token is_space is_alpha C73_token C73_space
  Spells value digitTable Quoted Escape i64Max)

section
variable {U : Unicode} {m d : _root_.Bool} {p k : Nat} {s r rest t : Chars} {Γ Γ₁ Γ₂ Γ₃ Γ' : List Chars}
  {e x : Node} {q : Punct} {S : Node → Prop} {tok : Tok}

theorem not_looping {k : Nat} (h : k ∈ [1, 2, 3, 4, 7, 14, 15, 16, 18]) : ¬ Looping k := by
  simp only [List.mem_cons, List.not_mem_nil, or_false] at h
  rintro (h' | h')
  · simp only [leftLevels, List.mem_cons, List.not_mem_nil, or_false] at h'; omega
  · omega

/-! ## Single tokens -/

theorem leaf (hl : lvl e = 18) (hb : body e = ' ' :: t) (ht : Text t tok) (hst : start 18 tok)
    (hd : tok ≠ .Reserved .Defined) (he : strip e = e) (hc : ∀ x, e ≠ .CompStmt [x])
    (hnum : is_number tok = startsNumber e)
    (hrun : ∀ m d rest, Follow U m 17 rest → Skips U (' ' :: (t ++ rest)) tok rest →
      Runs (fun p => parse_primary p false) (env U m d) ⟨' ' :: (t ++ rest), Γ⟩ e ⟨rest, Γ⟩) : Claim U Γ e Γ := by
  refine Claim.of hl (by omega) (not_looping (by decide)) ?_ ?_ ?_ <;> rw [hb]
  · exact ⟨⟨_, rfl⟩, fun rest hr => ⟨tok, rest, read_text ht hr, hst, fun h => absurd h hd⟩⟩
  · intro m d rest hf
    refine ⟨e, ⟨he, hc⟩, Runs.up (g := fun p => parse_primary p false) (fun _ => rfl) ?_⟩
    exact hrun m d rest hf (skips_of (fl := env U m d) (read_text ht hf.ends) (start_line hst))
  · exact fun _ rest hr => ⟨tok, rest, read_text ht hr, hnum⟩

theorem text_word {w : Chars} (hn : Name w) (hr : ∀ r : Reserved, r.text.toList ≠ w)
    (hu : ∀ c t, w = c :: t → ¬ Lexer.is_upper c = true) : Text w (.Ident w) := .ident hn hr hu

theorem text_self : Text ['s', 'e', 'l', 'f'] (.Ident ['s', 'e', 'l', 'f']) := by
  refine text_word (.plain (.inl (by decide)) (by decide)) (fun r => by cases r <;> decide) (fun c t e => by cases e; decide)
theorem text_nil : Text ['n', 'i', 'l'] (.Ident ['n', 'i', 'l']) := by
  refine text_word (.plain (.inl (by decide)) (by decide)) (fun r => by cases r <;> decide) (fun c t e => by cases e; decide)
theorem text_true : Text ['t', 'r', 'u', 'e'] (.Ident ['t', 'r', 'u', 'e']) := by
  refine text_word (.plain (.inl (by decide)) (by decide)) (fun r => by cases r <;> decide) (fun c t e => by cases e; decide)
theorem text_false : Text ['f', 'a', 'l', 's', 'e'] (.Ident ['f', 'a', 'l', 's', 'e']) := by
  refine text_word (.plain (.inl (by decide)) (by decide)) (fun r => by cases r <;> decide) (fun c t e => by cases e; decide)

theorem claim_self : Claim U Γ .SelfValue Γ := by
  refine leaf rfl rfl text_self trivial (by simp) rfl (by simp) rfl fun m d rest hf hs => ?_
  unfold parse_primary
  exact Runs.step (get_eq hs (by simp)) (Runs.pure _)

theorem claim_nil : Claim U Γ .Nil Γ := by
  refine leaf rfl rfl text_nil trivial (by simp) rfl (by simp) rfl fun m d rest hf hs => ?_
  unfold parse_primary
  exact Runs.step (get_eq hs (by simp)) (Runs.pure _)

theorem claim_bool (b : _root_.Bool) : Claim U Γ (.Bool b) Γ := by
  cases b
  · refine leaf rfl rfl text_false trivial (by simp) rfl (by simp) rfl fun m d rest hf hs => ?_
    unfold parse_primary
    exact Runs.step (get_eq hs (by simp)) (Runs.pure _)
  · refine leaf rfl rfl text_true trivial (by simp) rfl (by simp) rfl fun m d rest hf hs => ?_
    unfold parse_primary
    exact Runs.step (get_eq hs (by simp)) (Runs.pure _)

theorem claim_ivar {x : Chars} (h : Text x (.InstanceVar x)) : Claim U Γ (.InstanceVar x) Γ := by
  refine leaf rfl rfl h trivial (by simp) rfl (by simp) rfl fun m d rest hf hs => ?_
  unfold parse_primary
  exact Runs.step (get_eq hs (by simp)) (Runs.pure _)

theorem claim_gvar {x : Chars} (h : Text x (.GlobalVar x)) : Claim U Γ (.GlobalVar x) Γ := by
  refine leaf rfl rfl h trivial (by simp) rfl (by simp) rfl fun m d rest hf hs => ?_
  unfold parse_primary
  exact Runs.step (get_eq hs (by simp)) (Runs.pure _)

theorem claim_cvar {x : Chars} (h : Text x (.ClassVar x)) : Claim U Γ (.ClassVar x) Γ := by
  refine leaf rfl rfl h trivial (by simp) rfl (by simp) rfl fun m d rest hf hs => ?_
  unfold parse_primary
  exact Runs.step (get_eq hs (by simp)) (Runs.pure _)

theorem lparen_no {fl : Env} (hp : rest.head? ≠ some '(') : trailing_lparen fl ⟨rest, Γ⟩ = .ok (false, ⟨rest, Γ⟩) := by
  unfold trailing_lparen
  simp [hp]

theorem command_no {fl : Env} (hc : command fl.U rest = false) : is_command fl ⟨rest, Γ⟩ = .ok (false, ⟨rest, Γ⟩) := by
  rw [is_command_eq, hc]

theorem claim_const {x : Chars} (h : Text x (.Const x)) : Claim U Γ (.Const false x) Γ := by
  refine leaf rfl rfl h trivial (by simp) rfl (by simp) rfl fun m d rest hf hs => ?_
  unfold parse_primary
  refine Runs.step (get_eq hs (by simp)) ?_
  show Runs (fun p => parse_const p false x) _ _ _ _
  unfold parse_const
  refine Runs.no (lparen_no hf.paren) ?_
  simp only [Bool.not_false, Bool.true_and]
  exact Runs.no (command_no hf.cmd) (Runs.pure _)

/-- names of variables are not literals -/
theorem parse_ident_name {x : Chars} (h : VarName x) (p : Parsers) :
    parse_ident p false x = (do
      if ← trailing_lparen then parse_function_args p x
      else if ← is_local_var x then return .LocalVar x
      else parse_new_ident p false x) := by
  obtain ⟨-, h⟩ := h
  have h : x ∉ [['t', 'r', 'u', 'e'], ['f', 'a', 'l', 's', 'e'], ['n', 'i', 'l'], ['s', 'e', 'l', 'f'],
      ['_', '_', 'L', 'I', 'N', 'E', '_', '_'], ['_', '_', 'F', 'I', 'L', 'E', '_', '_']] := by
    have e : ["true", "false", "nil", "self", "__LINE__", "__FILE__"].map String.toList = [['t', 'r', 'u', 'e'],
      ['f', 'a', 'l', 's', 'e'], ['n', 'i', 'l'], ['s', 'e', 'l', 'f'],
      ['_', '_', 'L', 'I', 'N', 'E', '_', '_'], ['_', '_', 'F', 'I', 'L', 'E', '_', '_']] := by decide
    rw [← e]; exact h
  simp only [List.mem_cons, List.not_mem_nil, or_false, not_or] at h
  unfold parse_ident
  simp only [h, if_false, or_self]

theorem local_eq {fl : Env} {x : Chars} {b : _root_.Bool} (h : Γ.contains x = b) :
    is_local_var x fl ⟨rest, Γ⟩ = .ok (b, ⟨rest, Γ⟩) := by
  unfold is_local_var; rw [h]

theorem claim_lvar {x : Chars} (h : VarName x) (hx : x ∈ Γ) : Claim U Γ (.LocalVar x) Γ := by
  refine leaf rfl rfl h.1 trivial (by simp) rfl (by simp) rfl fun m d rest hf hs => ?_
  unfold parse_primary
  refine Runs.step (get_eq hs (by simp)) ?_
  simp only [parse_ident_name h]
  refine Runs.no (lparen_no hf.paren) ?_
  exact Runs.yes (local_eq (by simpa using hx)) (Runs.pure _)

theorem claim_ident {x : Chars} (h : VarName x) (hx : x ∉ Γ) : Claim U Γ (.Ident x) Γ := by
  refine leaf rfl rfl h.1 trivial (by simp) rfl (by simp) rfl fun m d rest hf hs => ?_
  unfold parse_primary
  refine Runs.step (get_eq hs (by simp)) ?_
  simp only [parse_ident_name h]
  refine Runs.no (lparen_no hf.paren) ?_
  refine Runs.no (local_eq (by simpa using hx)) ?_
  obtain ⟨⟨t1, a1, t2, a2, h1, h2, -⟩, -, -, hc⟩ := hf
  unfold parse_new_ident
  refine ⟨0, fun n _ => ?_⟩
  show (match read_token U rest with
    | .ok (.Punct .Comma, _) => (pure (.Ident x) : P Node)
    | .ok (.Punct .LBrace, _) => parse_function_args (level n) x
    | .ok (.Reserved .Do, _) => parse_function_args (level n) x
    | _ => do
      if !false && (← is_command) then parse_command (level n) x
      else return .Ident x) (env U m d) ⟨rest, Γ⟩ = _
  rw [h1]
  have hcmd : (do if !false && (← is_command) then parse_command (level n) x else return .Ident x : P Node)
      (env U m d) ⟨rest, Γ⟩ = .ok (.Ident x, ⟨rest, Γ⟩) := by
    rw [bind_ok (command_no hc)]; rfl
  cases t1 with
  | Punct q =>
    cases q <;> first
      | exact hcmd
      | rfl
      | exact absurd rfl (ne_of_stops h2 (by beyond))
  | Reserved r =>
    cases r <;> first
      | exact hcmd
      | exact absurd rfl (word_of_stops h2 rfl)
  | _ => exact hcmd

/-! ## Numbers -/

theorem spells_append {n : Nat} {t t' : Chars} {ds ds' : List Nat} (h : Spells n t ds) (h' : Spells n t' ds') :
    Spells n (t ++ t') (ds ++ ds') := by
  induction h with
  | nil => exact h'
  | digit h1 h2 _ ih => exact .digit h1 h2 ih
  | underscore _ ih => exact .underscore ih

theorem digit_mem {n : Nat} (h : n < 10) : (digitChar n, n) ∈ digitTable ∧ digitChar n ≠ '_' := by
  have : ∀ n < 10, (digitChar n, n) ∈ digitTable ∧ digitChar n ≠ '_' := by decide
  exact this n h

theorem decimal_spells (n : Nat) : ∃ ds, Spells 10 (decimal n) ds ∧ value 10 ds = n ∧ decimal n ≠ [] ∧
    (decimal n).head? ≠ some '_' := by
  induction n using Nat.strong_induction_on with
  | _ n ih =>
    by_cases h : n < 10
    · rw [show decimal n = [digitChar n] from by rw [decimal, if_pos h]]
      refine ⟨[n], .digit (digit_mem h).1 h .nil, ?_, by simp, by simpa using (digit_mem h).2⟩
      simp [value]
    · rw [show decimal n = decimal (n / 10) ++ [digitChar (n % 10)] from by rw [decimal, if_neg h]]
      obtain ⟨ds, h1, h2, h3, h4⟩ := ih (n / 10) (by omega)
      have hm : n % 10 < 10 := by omega
      refine ⟨ds ++ [n % 10], spells_append h1 (.digit (digit_mem hm).1 hm .nil), ?_, by simp, ?_⟩
      · unfold value at *
        rw [List.foldl_append, h2]
        simp only [List.foldl_cons, List.foldl_nil]
        omega
      · cases hd : decimal (n / 10) with
        | nil => exact absurd hd h3
        | cons c t => rw [hd] at h4; exact h4

theorem text_small {n : Nat} (h : (n : Int) ≤ i64Max) : Text (decimal n) (.IntegerLit n) := by
  obtain ⟨ds, h1, h2, h3, h4⟩ := decimal_spells n
  have := Text.small h1 h4 h3 (by rw [h2]; exact h)
  rwa [h2] at this

theorem text_big {n : Nat} (h : i64Max < (n : Int)) : Text (decimal n) (.BignumLit n) := by
  obtain ⟨ds, h1, h2, h3, h4⟩ := decimal_spells n
  have := Text.big h1 h4 h3 (by rw [h2]; exact h)
  rwa [h2] at this

theorem text_minus : Text ['-'] (.Punct .Minus) := .punct (t := "-") (by decide) (by decide)

/-- The token of a number. -/
def numTok (i : Int) : Tok := if i ≤ i64Max then .IntegerLit i else .BignumLit i

theorem text_num (n : Nat) : Text (decimal n) (numTok n) := by
  unfold numTok
  by_cases h : (n : Int) ≤ i64Max
  · rw [if_pos h]; exact text_small h
  · rw [if_neg h]; exact text_big (by omega)

theorem start_num (k : Nat) (i : Int) : start k (numTok i) ∧ is_number (numTok i) = true ∧ numTok i ≠ .Eof ∧
    numTok i ≠ .Reserved .Defined := by
  unfold numTok; split <;> exact ⟨trivial, rfl, by simp, by simp⟩

/-- The tree of a number, with its sign. -/
def numNode (neg : _root_.Bool) (i : Int) : Node :=
  if i ≤ i64Max then .Integer (if neg then -i else i) else .Bignum (if neg then -i else i)

theorem num_cases (i : Int) : numTok i = .IntegerLit i ∧ (∀ b : _root_.Bool, numNode b i = .Integer (if b then -i else i)) ∨
    numTok i = .BignumLit i ∧ ∀ b : _root_.Bool, numNode b i = .Bignum (if b then -i else i) := by
  unfold numTok numNode
  by_cases h : i ≤ i64Max
  · exact .inl ⟨if_pos h, fun b => if_pos h⟩
  · exact .inr ⟨if_neg h, fun b => if_neg h⟩

theorem primary_num {b : _root_.Bool} {i : Int} {fl : Env} (h : Skips fl.U s (numTok i) rest) :
    Runs (fun p => p.primary b) fl ⟨s, Γ⟩ (numNode false i) ⟨rest, Γ⟩ := by
  refine Runs.up (g := fun p => parse_primary p b) (fun _ => rfl) ?_
  unfold parse_primary
  refine Runs.step (get_eq h (start_num 0 i).2.2.1) ?_
  rcases num_cases i with ⟨h1, h2⟩ | ⟨h1, h2⟩ <;> rw [h1, h2] <;> exact Runs.pure _

theorem number_nonneg {i : Int} (h : 0 ≤ i) : number i = ' ' :: decimal i.natAbs ∧ ((i.natAbs : Nat) : Int) = i := by
  constructor
  · unfold number; rw [if_neg (by omega)]
  · omega

theorem claim_num_nonneg {n : Nat} (hb : body e = ' ' :: decimal n) (hl : lvl e = 18) (he : e = numNode false n)
    (hs : startsNumber e = true) : Claim U Γ e Γ := by
  obtain ⟨h1, h2, h3, h4⟩ := start_num 18 (n : Int)
  refine leaf hl hb (text_num n) h1 h4 ?_ ?_ (h2.trans hs.symm) fun m d rest hf hsk => ?_
  · subst he; unfold numNode; split <;> rfl
  · subst he; unfold numNode; intro x; split <;> simp
  · obtain ⟨N, hN⟩ := primary_num (b := false) (fl := env U m d) (Γ := Γ) hsk
    exact he ▸ ⟨N, fun k hk => hN (k + 1) (by omega)⟩

theorem read_minus (h : Ends r) : read_token U (' ' :: '-' :: r) = .ok (.Punct .Minus, r) := read_text text_minus h

/-- a minus sign and a number -/
theorem good_neg_num (n : Nat) : Good U 14 (' ' :: '-' :: ' ' :: decimal n) Γ (· = numNode true n) Γ := by
  intro m d rest hf
  refine ⟨_, rfl, ?_⟩
  have h1 : read_token U (' ' :: '-' :: ' ' :: (decimal n ++ rest)) = .ok (.Punct .Minus, ' ' :: (decimal n ++ rest)) :=
    read_minus (ends_sp _)
  have s1 := skips_of (fl := env U m d) h1 rfl
  have h2 : read_token U (' ' :: (decimal n ++ rest)) = .ok (numTok n, rest) := read_text (text_num n) hf.ends
  have s2 := skips_of (fl := env U m d) h2 (start_line (start_num 18 (n : Int)).1)
  have hf' := hf.tok
  obtain ⟨t1, a1, t2, a2, g1, g2, g3, g4⟩ := hf'
  refine Runs.up (g := fun p => parse_unary_minus p) (fun _ => rfl) ?_
  unfold parse_unary_minus
  refine Runs.step save_eq ?_
  refine Runs.yes (consume_punct_yes s1) ?_
  refine Runs.step save_eq ?_
  refine Runs.step (peek_no_term_eq h2) ?_
  simp only [(start_num 18 (n : Int)).2.1, if_true]
  refine Runs.bind (primary_num s2) ?_
  refine Runs.no (cpn_no g1 (ne_of_stops g2 (by beyond))) ?_
  refine Runs.step (st₁ := ⟨' ' :: '-' :: ' ' :: (decimal n ++ rest), Γ⟩) rfl ?_
  -- the number again, with its sign
  have hprim : Runs (fun p => p.primary false) (env U m d) ⟨' ' :: '-' :: ' ' :: (decimal n ++ rest), Γ⟩
      (numNode true n) ⟨rest, Γ⟩ := by
    refine Runs.up (g := fun p => parse_primary p false) (fun _ => rfl) ?_
    unfold parse_primary
    refine Runs.step (get_eq s1 (by simp)) ?_
    show Runs (fun _ => parse_minus_literal) _ _ _ _
    unfold parse_minus_literal
    refine Runs.step (get_eq s2 (start_num 18 (n : Int)).2.2.1) ?_
    rcases num_cases (n : Int) with ⟨h1, h2⟩ | ⟨h1, h2⟩ <;> rw [h1, h2] <;> exact Runs.pure _
  have hcall : Runs (fun p => p.method_call) (env U m d) ⟨' ' :: '-' :: ' ' :: (decimal n ++ rest), Γ⟩
      (numNode true n) ⟨rest, Γ⟩ := by
    refine Runs.up (g := fun p => parse_method_call p) (fun _ => rfl) ?_
    unfold parse_method_call
    refine Runs.no (consume_reserved_no s1 (by simp)) ?_
    exact Runs.bind hprim (method_call_stop (hf.mono (by omega)))
  refine chain15 (hf.mono (by omega)) ?_
  refine Runs.up (g := fun p => parse_unary p) (fun _ => rfl) ?_
  unfold parse_unary
  refine Runs.no (consume_punct_no s1 (by simp)) ?_
  refine Runs.no (consume_punct_no s1 (by simp)) ?_
  refine Runs.no (consume_punct_no s1 (by simp)) ?_
  exact hcall

theorem claim_num_neg {n : Nat} (hb : body e = ' ' :: '-' :: ' ' :: decimal n) (hl : lvl e = 14)
    (he : e = numNode true n) (hs : startsNumber e = false) : Claim U Γ e Γ := by
  refine Claim.of hl (by omega) (not_looping (by decide)) ?_ ?_ ?_
  · rw [hb]
    exact ⟨⟨_, rfl⟩, fun rest hr => ⟨.Punct .Minus, _, read_minus (ends_sp _), by simp [start], fun h => by cases h⟩⟩
  · rw [hb]
    refine (good_neg_num n).imp fun e' h => ⟨?_, ?_⟩
    · rw [h, he]; unfold numNode; split <;> rfl
    · rw [h]; unfold numNode; intro x; split <;> simp
  · rw [hb, hs]
    exact fun _ rest hr => ⟨_, _, read_minus (ends_sp _), rfl⟩

theorem body_int (i : Int) : body (.Integer i) = number i := rfl
theorem body_big (i : Int) : body (.Bignum i) = number i := rfl
theorem lvl_int (i : Int) : lvl (.Integer i) = if i < 0 then 14 else 18 := rfl
theorem lvl_big (i : Int) : lvl (.Bignum i) = if i < 0 then 14 else 18 := rfl
theorem startsNumber_int (i : Int) : startsNumber (.Integer i) = decide (0 ≤ i) := rfl
theorem startsNumber_big (i : Int) : startsNumber (.Bignum i) = decide (0 ≤ i) := rfl

theorem number_neg {i : Int} (h : i < 0) : number i = ' ' :: '-' :: ' ' :: decimal i.natAbs := if_pos h
theorem number_pos {i : Int} (h : ¬ i < 0) : number i = ' ' :: decimal i.natAbs := if_neg h

theorem claim_int {i : Int} (h1 : -i64Max ≤ i) (h2 : i ≤ i64Max) : Claim U Γ (.Integer i) Γ := by
  by_cases h : i < 0
  · refine claim_num_neg (n := i.natAbs) (number_neg h) ((lvl_int i).trans (if_pos h)) ?_
      ((startsNumber_int i).trans (decide_eq_false (by omega)))
    unfold numNode; rw [if_pos (by omega)]; simp only [if_true, Node.Integer.injEq]; omega
  · refine claim_num_nonneg (e := .Integer i) (n := i.natAbs) (number_pos h) ((lvl_int i).trans (if_neg h)) ?_
      ((startsNumber_int i).trans (decide_eq_true (by omega)))
    unfold numNode; rw [if_pos (by omega)]
    simp only [Bool.false_eq_true, if_false, Node.Integer.injEq]; omega

theorem claim_big {n : Int} (h1 : n < -i64Max ∨ i64Max < n) : Claim U Γ (.Bignum n) Γ := by
  have hpos : (0 : Int) ≤ i64Max := by decide
  by_cases h : n < 0
  · refine claim_num_neg (n := n.natAbs) (number_neg h) ((lvl_big n).trans (if_pos h)) ?_
      ((startsNumber_big n).trans (decide_eq_false (by omega)))
    unfold numNode; rw [if_neg (by omega)]; simp only [if_true, Node.Bignum.injEq]; omega
  · refine claim_num_nonneg (e := .Bignum n) (n := n.natAbs) (number_pos h) ((lvl_big n).trans (if_neg h)) ?_
      ((startsNumber_big n).trans (decide_eq_true (by omega)))
    unfold numNode; rw [if_neg (by omega)]
    simp only [Bool.false_eq_true, if_false, Node.Bignum.injEq]; omega

/-! ## Strings -/

theorem quoted_quoted (s : Chars) : Quoted (quoted s) s := by
  induction s with
  | nil => exact .nil
  | cons c s ih =>
    unfold quoted
    by_cases h : c = '"' ∨ c = '\\' ∨ c = '#'
    · rw [if_pos h]
      refine Quoted.char (e := ['\\', c]) (.quoted ?_) ih
      rcases h with rfl | rfl | rfl <;> decide
    · rw [if_neg h]
      simp only [not_or] at h
      exact Quoted.char (e := [c]) (.plain h.1 h.2.1 h.2.2) ih

theorem read_string (s rest : Chars) :
    read_token U (' ' :: '"' :: (quoted s ++ '"' :: rest)) = .ok (.StringLit s, rest) :=
  (sp U _).trans (Lexer.C74_double U (quoted_quoted s) rest)

theorem claim_string {s : Chars} : Claim U Γ (.String s) Γ := by
  have hb : ∀ rest, body (.String s) ++ rest = ' ' :: '"' :: (quoted s ++ '"' :: rest) := by
    intro rest
    show (' ' :: '"' :: (quoted s ++ ['"'])) ++ rest = _
    simp
  refine Claim.of (k := 18) rfl (by omega) (not_looping (by decide)) ⟨⟨'"' :: (quoted s ++ ['"']), rfl⟩, ?_⟩ ?_ ?_
  · intro rest hr
    rw [hb]
    exact ⟨_, _, read_string s rest, trivial, fun h => by cases h⟩
  · intro m d rest hf
    rw [hb]
    refine ⟨.String s, ⟨rfl, by simp⟩, Runs.up (g := fun p => parse_primary p false) (fun _ => rfl) ?_⟩
    unfold parse_primary
    refine Runs.step (get_eq (skips_of (fl := env U m d) (read_string s rest) rfl) (by simp)) ?_
    refine Runs.const (x := parse_string_literal s) ?_
    obtain ⟨⟨t1, a1, t2, a2, h1, h2, -⟩, -⟩ := hf
    unfold parse_string_literal
    have : join_strings U (rest.length + 1) s rest = .ok (s, rest) := by
      rw [join_strings, h1]
      split
      · rename_i e; cases e
      · rename_i e; cases e; exact h2.elim
      · rename_i e; cases e; exact h2.elim
      · rfl
    simp only [this]
  · intro _ rest hr
    rw [hb]
    exact ⟨_, _, read_string s rest, rfl⟩

end
end Verif.Parser
