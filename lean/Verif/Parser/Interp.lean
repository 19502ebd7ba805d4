import Verif.Parser.Multi
import Verif.Lexer.Percent
/-!
# String literals with embedded programs (C114)
-/
namespace Verif.Parser.Interp
open Verif.Lexer (Chars Unicode Punct Tok Quoted Ends read_token read_string_literal_double read_interpolate is_space is_alpha is_ident)
open Verif.Parser

/-! ## Model: reading -/

/-- The parts of a literal: a text, a program, a global variable, an instance variable. -/
inductive Part
  | text (s : Chars)
  | code (n : Node)
  | gvar (x : Chars)
  | ivar (x : Chars)
  deriving Repr

/-- ruruby-parse/src/node.rs:16-17: `String` and `InterporatedString`. -/
inductive Lit
  | string (s : Chars)
  | interpolated (l : List Part)
  deriving Repr

/-- `self.lexer.read_string_literal_double(None, delimiter, level)`, called by the parser. -/
def read_double (delimiter : Option Char) (level : Nat) : P Tok := fun _ st =>
  match read_string_literal_double none delimiter level st.s with
  | .error e => .error (.ofLexer e)
  | .ok (t, s) => .ok (t, { st with s := s })

/-- ruruby-parse/src/parser/literals.rs:288-308 (parse_template); `comp` is `parse_comp_stmt`. -/
def parse_template (comp : P Node) : P Part := do
  if ← consume_punct .LBrace then
    let node ← comp
    if ← consume_punct .RBrace then return .code node else fail .syntax
  else
    match ← get with
    | .GlobalVar s => return .gvar s
    | .InstanceVar s => return .ivar s
    | _ => fail .panic

/-- ruruby-parse/src/parser/literals.rs:35-79 (parse_interporated_string_literal): the loops.  Without a text it is the outer loop
(line 43), with a text `s` the inner loop (line 51). The number is the loop count that is left. -/
def interp (comp : P Node) (delimiter : Option Char) (level : Nat) : Nat → List Part → Option Chars → P Lit
  | 0, _, _ => fail .fuel
  | n + 1, nodes, none => do
    let part ← parse_template comp
    match ← read_double delimiter level with
    | .StringLit s => interp comp delimiter level n (nodes ++ [part]) (some s)
    | .OpenString s _ _ => interp comp delimiter level n (nodes ++ [part, .text s]) none
    | _ => fail .panic
  | n + 1, nodes, some s => do
    match ← peek_no_term with
    | .StringLit next => do
      let _ ← get
      interp comp delimiter level n nodes (some (s ++ next))
    | .OpenString next _ _ => do
      let _ ← get
      interp comp delimiter level n (nodes ++ [.text (s ++ next)]) none
    | _ => return .interpolated (nodes ++ [.text s])

/-- ruruby-parse/src/parser/literals.rs:15-33 (parse_string_literal).  The number is the loop count that is left. -/
def string_literal (comp : P Node) : Nat → Chars → P Lit
  | 0, _ => fail .fuel
  | n + 1, s => do
    match ← peek_no_term with
    | .StringLit next => do
      let _ ← get
      string_literal comp n (s ++ next)
    | .OpenString next delimiter level => do
      let _ ← get
      interp comp delimiter level n [.text (s ++ next)] none
    | _ => return .string s

/-- ruruby-parse/src/parser/expression.rs:685, 690-692: the literal that a token begins.  No loop runs more often than there are
characters. -/
def literal (comp : P Node) (t : Tok) : P Lit := fun fl st =>
  match t with
  | .StringLit s => string_literal comp (st.s.length + 1) s fl st
  | .OpenString s delimiter level => interp comp delimiter level (st.s.length + 1) [.text s] none fl st
  | _ => .error .unmodelled

/-- ruruby-parse/src/parser/expression.rs:651, 685, 690-692 (parse_primary), at a string literal. -/
def parse_literal (comp : P Node) : P Lit := do literal comp (← get)

/-- A literal in the percent notation: ruruby-parse/src/parser/literals.rs:110-118 (parse_percent_notation) after the token. -/
def percent_literal (comp : P Node) (fl : Env) (s : Chars) : Except Err (Lit × Chars) :=
  match Lexer.get_percent_notation s with
  | .error e => .error (.ofLexer e)
  | .ok (.StringLit t, s) => .ok (.string t, s)
  | .ok (.OpenString t delimiter level, s) => match interp comp delimiter level (s.length + 1) [.text t] none fl ⟨s, []⟩ with
    | .error e => .error e
    | .ok (l, st) => .ok (l, st.s)
  | .ok _ => .error .unmodelled

/-! ## Model: code and its execution -/

/-- The instructions for a literal; `CODE` stands for the code of a program (`gen_comp_stmt`). -/
inductive Inst
  | PUSH (s : Chars)
  | CODE (n : Node)
  | GET_GLOBAL (x : Chars)
  | TO_S
  | CONCAT_STRING (n : Nat)
  | POP

/-- ruruby/src/codegen.rs:635-656: the code of the parts and their number; `none` is a Rust panic (`unimplemented!`). -/
def gen_parts : List Part → Option (List Inst × Nat)
  | [] => some ([], 0)
  | .text s :: l => (gen_parts l).map fun (c, n) => if s.length ≠ 0 then (.PUSH s :: c, n + 1) else (c, n)
  | .code n :: l => (gen_parts l).map fun (c, k) => (.CODE n :: .TO_S :: c, k + 1)
  | .gvar x :: l => (gen_parts l).map fun (c, k) => (.GET_GLOBAL x :: .TO_S :: c, k + 1)
  | .ivar _ :: _ => none

/-- ruruby/src/codegen.rs:632, 634-661.  Simplification: the pop after an unused plain string is the one after `gen_string`. -/
def gen (use_value : Bool) : Lit → Option (List Inst)
  | .string s => some (.PUSH s :: if use_value then [] else [.POP])
  | .interpolated l => (gen_parts l).map fun (c, n) => c ++ [.CONCAT_STRING n] ++ if use_value then [] else [.POP]

/-- Values: strings, values whose text is fixed (nil, true, false, numbers and symbols), and other objects. -/
inductive Val (α : Type)
  | str (s : Chars)
  | imm (s : Chars)
  | obj (o : α)

inductive Stop (ε : Type)
  | raise (e : ε)
  | panic

/-- What a program and a `to_s` method do.  `σ` is everything that they can change. -/
structure Machine (σ α ε : Type) where
  run : Node → σ → Except (Stop ε) (Val α) × σ
  global : Chars → σ → Val α
  to_s : α → σ → Except (Stop ε) (Val α) × σ

section
variable {σ α ε : Type} (M : Machine σ α ε)

/-- ruruby/src/value/value.rs:393-418 (val_to_s) -/
def val_to_s : Val α → σ → Except (Stop ε) Chars × σ
  | .str s, st => (.ok s, st)
  | .imm s, st => (.ok s, st)
  | .obj o, st => match M.to_s o st with
    | (.ok (.str s), st) => (.ok s, st)
    | (.ok _, st) => (.error .panic, st)
    | (.error e, st) => (.error e, st)

/-- ruruby/src/vm/executor/opt_core.rs:225-234: the strings of the values, the last one first. -/
def concat : List (Val α) → Option Chars
  | [] => some []
  | .str s :: l => (concat l).map (· ++ s)
  | _ :: _ => none

/-- One instruction; the stack has its top first.  ruruby/src/vm/executor/opt_core.rs:225-234 (CONCAT_STRING), 549-555 (TO_S), 556-558
(POP). -/
def step : Inst → List (Val α) → σ → Except (Stop ε) (List (Val α)) × σ
  | .PUSH s, vs, st => (.ok (.str s :: vs), st)
  | .CODE n, vs, st => match M.run n st with
    | (.ok v, st) => (.ok (v :: vs), st)
    | (.error e, st) => (.error e, st)
  | .GET_GLOBAL x, vs, st => (.ok (M.global x st :: vs), st)
  | .TO_S, v :: vs, st => match val_to_s M v st with
    | (.ok s, st) => (.ok (.str s :: vs), st)
    | (.error e, st) => (.error e, st)
  | .TO_S, [], st => (.error .panic, st)
  | .CONCAT_STRING n, vs, st => match concat (vs.take n) with
    | some s => (.ok (.str s :: vs.drop n), st)
    | none => (.error .panic, st)
  | .POP, _ :: vs, st => (.ok vs, st)
  | .POP, [], st => (.error .panic, st)

/-- The instructions one after the other. -/
def exec : List Inst → List (Val α) → σ → Except (Stop ε) (List (Val α)) × σ
  | [], vs, st => (.ok vs, st)
  | i :: l, vs, st => match step M i vs st with
    | (.ok vs, st) => exec l vs st
    | (.error e, st) => (.error e, st)

end

/-! ## Specification -/

/-- The parts that a literal has. -/
def Lit.parts : Lit → List Part
  | .string s => [.text s]
  | .interpolated l => l

/-- The programs of the parts without their parentheses, as in C49. -/
def Part.strip : Part → Part
  | .code (.CompStmt l) => .code (.CompStmt (stripAll l))
  | p => p

/-- `Spelled m Γ t ps Γ'`: after its opening quote a literal is `t` and has the parts `ps`, where before it the variables `Γ` are known and after
it `Γ'`.  Texts are written as in a literal without embedded programs (`Quoted`, C74); programs are those of the grammar of C49; variables
of one program are known in the next; literals side by side are one. -/
inductive Spelled (m : Bool) : List Chars → Chars → List Part → List Chars → Prop
  /-- `...text"` -/
  | last {Γ t v} : Quoted t v → Spelled m Γ (t ++ ['"']) [.text v] Γ
  /-- `...text" "more...` -/
  | beside {Γ t v w t' v' ps Γ'} : Quoted t v → (∀ c ∈ w, is_space c = true ∧ c ≠ '\n') → Spelled m Γ t' (.text v' :: ps) Γ' →
      Spelled m Γ (t ++ ('"' :: (w ++ '"' :: t'))) (.text (v ++ v') :: ps) Γ'
  /-- `...text#{ program }more...` -/
  | code {Γ t v w l Γ₁ t' ps Γ'} : Quoted t v → Lines m Γ w l Γ₁ → Spelled m Γ₁ t' ps Γ' →
      Spelled m Γ (t ++ ('#' :: '{' :: (w ++ (' ' :: '}' :: t')))) (.text v :: .code (.CompStmt l) :: ps) Γ'
  /-- `...text#{}more...` -/
  | nothing {Γ t v w t' ps Γ'} : Quoted t v → (∀ c ∈ w, is_space c = true ∧ c ≠ '\n') → Spelled m Γ t' ps Γ' →
      Spelled m Γ (t ++ ('#' :: '{' :: (w ++ ('}' :: t')))) (.text v :: .code (.CompStmt []) :: ps) Γ'
  /-- `...text#$name more...` -/
  | gvar {Γ t v c x t' ps Γ'} : Quoted t v → is_alpha c = true → (∀ y ∈ x, is_ident y = true) →
      (∀ y r, t' = y :: r → is_ident y = false) → Spelled m Γ t' ps Γ' →
      Spelled m Γ (t ++ ('#' :: '$' :: c :: (x ++ t'))) (.text v :: .gvar ('$' :: c :: x) :: ps) Γ'

/-- What may come after a literal: no other literal. -/
def Last (U : Unicode) (rest : Chars) : Prop :=
  ∃ t a, read_token U rest = .ok (t, a) ∧ (∀ s, t ≠ .StringLit s) ∧ (∀ s d l, t ≠ .OpenString s d l)

section
variable {σ α ε : Type} (M : Machine σ α ε)

/-- The text of a value: its own if it is a string, or what its `to_s` returns. -/
inductive Shows : Val α → σ → Chars → σ → Prop
  | str {s st} : Shows (.str s) st s st
  | imm {s st} : Shows (.imm s) st s st
  | obj {o st s st'} : M.to_s o st = (.ok (.str s), st') → Shows (.obj o) st s st'

/-- The value of the literal is this string: each program runs once, from left to right, and its value is turned into a text before the
next one runs. -/
inductive Gives : List Part → σ → Chars → σ → Prop
  | nil {st} : Gives [] st [] st
  | text {s ps st t st'} : Gives ps st t st' → Gives (.text s :: ps) st (s ++ t) st'
  | code {n ps st v st₁ s st₂ t st₃} : M.run n st = (.ok v, st₁) → Shows M v st₁ s st₂ → Gives ps st₂ t st₃ →
      Gives (.code n :: ps) st (s ++ t) st₃
  | gvar {x ps st s st₁ t st₂} : Shows M (M.global x st) st s st₁ → Gives ps st₁ t st₂ → Gives (.gvar x :: ps) st (s ++ t) st₂

/-- The literal raises this: the first program or `to_s` that raises ends it, and nothing after it runs. -/
inductive Raises : List Part → σ → ε → σ → Prop
  | text {s ps st e st'} : Raises ps st e st' → Raises (.text s :: ps) st e st'
  | run {n ps st e st'} : M.run n st = (.error (.raise e), st') → Raises (.code n :: ps) st e st'
  | show {n ps st o st₁ e st'} : M.run n st = (.ok (.obj o), st₁) → M.to_s o st₁ = (.error (.raise e), st') →
      Raises (.code n :: ps) st e st'
  | code {n ps st v st₁ s st₂ e st₃} : M.run n st = (.ok v, st₁) → Shows M v st₁ s st₂ → Raises ps st₂ e st₃ →
      Raises (.code n :: ps) st e st₃
  | showGlobal {x ps st o e st'} : M.global x st = .obj o → M.to_s o st = (.error (.raise e), st') → Raises (.gvar x :: ps) st e st'
  | gvar {x ps st s st₁ e st₂} : Shows M (M.global x st) st s st₁ → Raises ps st₁ e st₂ → Raises (.gvar x :: ps) st e st₂

end

/-! ## Helpers: reading -/

section
variable {U : Unicode} {m d : Bool} {Γ Γ' Γ₁ : List Chars} {rest t v : Chars}

theorem read_rb (w r : Chars) (hw : ∀ c ∈ w, is_space c = true ∧ c ≠ '\n') :
    read_token U (w ++ '}' :: r) = .ok (.Punct .RBrace, r) := by
  rw [Lexer.C73_space U hw, Lexer.read_token_punct U (by decide) (by decide)]; rfl

theorem read_lb (r : Chars) : read_token U ('{' :: r) = .ok (.Punct .LBrace, r) := by
  rw [Lexer.read_token_punct U (by decide) (by decide)]; rfl

theorem read_rb1 (r : Chars) : read_token U (' ' :: '}' :: r) = .ok (.Punct .RBrace, r) :=
  read_rb [' '] r (by decide)

theorem follow_rb {p : Nat} (r : Chars) : Follow U m p (' ' :: '}' :: r) := by
  have htok := read_rb1 (U := U) r
  refine ⟨⟨_, _, _, _, htok, ⟨0, rfl, by omega⟩, skips_of (fl := env U false false) htok rfl, .inl ⟨rfl, rfl⟩⟩,
    ends_sp _, by simp, ?_⟩
  unfold command
  rw [htok]
  simp only [List.head?_cons, Option.elim_some, show is_space ' ' = true from by decide, if_true]

theorem closing_rb (r : Chars) : Closing U m (' ' :: '}' :: r) (' ' :: '}' :: r) := by
  have htok := read_rb1 (U := U) r
  refine ⟨follow_rb r, ⟨_, _, htok, .inr rfl⟩, fun d nodes Γ => ?_⟩
  refine Runs.no (consume_term_no (fl := env U m d) htok rfl) ?_
  exact Runs.pure _

theorem program_reads {w : Chars} {l : List Node} (h : Lines m Γ w l Γ₁) (r : Chars) : ∃ l', stripAll l' = l ∧
    Runs (fun p => p.comp_stmt) (env U m d) ⟨w ++ (' ' :: '}' :: r), Γ⟩ (.CompStmt l') ⟨' ' :: '}' :: r, Γ₁⟩ := by
  have hc := lines_claim U h
  obtain ⟨l', h1, h2⟩ := hc.run d [] _ _ (closing_rb r)
  refine ⟨l', h1, ?_⟩
  obtain ⟨t, a, g1, g2, -⟩ := hc.opening.token (rest := ' ' :: '}' :: r) (ends_sp _)
  refine Runs.up (g := fun p => parse_comp_stmt p) (fun _ => rfl) ?_
  unfold parse_comp_stmt
  exact Runs.step (peek_eq (skips_of (fl := env U m d) g1 g2)) h2

theorem nothing_reads {w : Chars} (hw : ∀ c ∈ w, is_space c = true ∧ c ≠ '\n') (r : Chars) :
    Runs (fun p => p.comp_stmt) (env U m d) ⟨w ++ ('}' :: r), Γ⟩ (.CompStmt []) ⟨w ++ ('}' :: r), Γ⟩ := by
  have htok := read_rb (U := U) w r hw
  refine Runs.up (g := fun p => parse_comp_stmt p) (fun _ => rfl) ?_
  unfold parse_comp_stmt
  refine Runs.step (peek_eq (skips_of (fl := env U m d) htok rfl)) ?_
  refine Runs.up (g := fun p => parse_comp_stmt_loop p []) (fun _ => rfl) ?_
  unfold parse_comp_stmt_loop
  exact Runs.step (peek_eq (skips_of (fl := env U m d) htok rfl)) (Runs.pure _)

/-- a template with a program -/
theorem template_code {s r w : Chars} {n : Node} (h : Runs (fun p => p.comp_stmt) (env U m d) ⟨s, Γ⟩ n ⟨w ++ '}' :: r, Γ₁⟩)
    (hw : ∀ c ∈ w, is_space c = true ∧ c ≠ '\n') :
    Runs (fun p => parse_template p.comp_stmt) (env U m d) ⟨'{' :: s, Γ⟩ (.code n) ⟨r, Γ₁⟩ := by
  unfold parse_template
  refine Runs.yes (consume_punct_yes (skips_of (fl := env U m d) (read_lb s) rfl)) ?_
  refine Runs.bind h ?_
  exact Runs.yes (consume_punct_yes (skips_of (fl := env U m d) (read_rb w r hw) rfl)) (Runs.pure _)

theorem read_gvar {c : Char} {x r : Chars} (hc : is_alpha c = true) (hx : ∀ y ∈ x, is_ident y = true)
    (hr : ∀ y t, r = y :: t → is_ident y = false) :
    read_token U ('$' :: c :: (x ++ r)) = .ok (.GlobalVar ('$' :: c :: x), r) := by
  rw [Lexer.read_token_nonspace U (by decide) (by decide) (by decide)]
  rw [show Lexer.read_token_at U ('$' :: c :: (x ++ r)) = Lexer.read_global_var U (c :: (x ++ r)) from rfl]
  have h1 : Lexer.is_digit c = false := by
    cases hd : Lexer.is_digit c with
    | false => rfl
    | true => have := (Lexer.is_alpha_iff c).1 hc; have := (Lexer.is_digit_iff c).1 hd; omega
  have h2 : Lexer.is_punct c = false := by
    cases hd : Lexer.is_punct c with
    | false => rfl
    | true => have := (Lexer.is_alpha_iff c).1 hc; have := (Lexer.is_punct_iff c).1 hd; omega
  have h3 : Lexer.read_var U ['$'] (c :: (x ++ r)) = .ok ('$' :: c :: x, r) := by
    unfold Lexer.read_var
    have : (Lexer.is_alphanumeric U c || c == '_' || c == '&' || c == '\'') = true := by
      have h2 := (Lexer.is_alpha_iff c).1 hc
      have : Lexer.is_ascii c = true := by unfold Lexer.is_ascii; simp; omega
      simp [Lexer.is_alphanumeric, this, hc]
    simp only [this, if_true, Lexer.consume_ident_all hx hr]
    rfl
  unfold Lexer.read_global_var
  simp only [Lexer.consume_numeric, h1, h2, Bool.false_eq_true, if_false]
  rw [h3]; rfl

theorem template_gvar {c : Char} {x r : Chars} (hc : is_alpha c = true) (hx : ∀ y ∈ x, is_ident y = true)
    (hr : ∀ y t, r = y :: t → is_ident y = false) :
    Runs (fun p => parse_template p.comp_stmt) (env U m d) ⟨'$' :: c :: (x ++ r), Γ⟩ (.gvar ('$' :: c :: x)) ⟨r, Γ⟩ := by
  have hs := skips_of (fl := env U m d) (read_gvar (U := U) hc hx hr) rfl
  unfold parse_template
  refine Runs.no (consume_punct_no hs (by simp)) ?_
  exact Runs.step (get_eq hs (by simp)) (Runs.pure _)

theorem double_end (h : Quoted t v) (r : Chars) :
    read_string_literal_double none (some '"') 0 (t ++ '"' :: r) = .ok (.StringLit v, r) := by
  unfold read_string_literal_double
  rw [Lexer.interp_end h r 0 rfl]; rfl

theorem double_open (h : Quoted t v) {c : Char} (hc : c = '{' ∨ c = '$') (r : Chars) :
    read_string_literal_double none (some '"') 0 (t ++ '#' :: c :: r) = .ok (.OpenString v (some '"') 0, c :: r) := by
  unfold read_string_literal_double
  obtain ⟨k, hk, he⟩ := Lexer.interp_quoted h ('#' :: c :: r) (by intro c r e; cases e; decide)
  have : (t ++ '#' :: c :: r).length + 1 = (((t ++ '#' :: c :: r).length - k) + 1) + k := by simp; omega
  rw [this, he, List.nil_append, read_interpolate.eq_def]
  rcases hc with rfl | rfl <;> rfl

/-- A quote begins what `read_string_literal_double` reads. -/
theorem read_quote (w s : Chars) (hw : ∀ c ∈ w, is_space c = true ∧ c ≠ '\n') :
    read_token U (w ++ '"' :: s) = read_string_literal_double none (some '"') 0 s := by
  rw [Lexer.C73_space U hw, Lexer.read_token_nonspace U (by decide) (by decide) (by decide)]
  rfl

/-- how the loops go on with a token -/
def cont (comp : P Node) (n : Nat) (nodes : List Part) (acc : Chars) : Tok → P Lit
  | .StringLit s => interp comp (some '"') 0 n nodes (some (acc ++ s))
  | .OpenString s _ _ => interp comp (some '"') 0 n (nodes ++ [.text (acc ++ s)]) none
  | _ => fail .panic

def contStr (comp : P Node) (n : Nat) (acc : Chars) : Tok → P Lit
  | .StringLit s => string_literal comp n (acc ++ s)
  | .OpenString s d l => interp comp d l n [.text (acc ++ s)] none
  | _ => fail .unmodelled

/-- the tokens of literals between double quotes -/
def IsLit (t : Tok) : Prop := (∃ s, t = .StringLit s) ∨ ∃ s, t = .OpenString s (some '"') 0

structure Claim (U : Unicode) (m d : Bool) (rest : Chars) (Γ : List Chars) (t : Chars) (v : Chars) (qs : List Part) (Γ' : List Chars) :
    Prop where
  read : ∃ tok r, read_string_literal_double none (some '"') 0 (t ++ rest) = .ok (tok, r) ∧ IsLit tok ∧ r.length ≤ (t ++ rest).length ∧
    ∃ qs' : List Part, qs'.map Part.strip = qs ∧ ∀ n, r.length < n →
      (∀ nodes acc, Runs (fun p => cont p.comp_stmt n nodes acc tok) (env U m d) ⟨r, Γ⟩
        (.interpolated (nodes ++ .text (acc ++ v) :: qs')) ⟨rest, Γ'⟩) ∧
      (∀ acc, ∃ lit, lit.parts = .text (acc ++ v) :: qs' ∧
        Runs (fun p => contStr p.comp_stmt n acc tok) (env U m d) ⟨r, Γ⟩ lit ⟨rest, Γ'⟩)

/-- one round of the outer loop -/
theorem interp_round {n : Nat} {nodes : List Part} {tok : Tok} {s r s' : Chars} {part : Part} {lit : Lit} {st' : St} (ht : IsLit tok)
    (h : Runs (fun p => parse_template p.comp_stmt) (env U m d) ⟨s, Γ⟩ part ⟨s', Γ₁⟩)
    (h1 : read_string_literal_double none (some '"') 0 s' = .ok (tok, r))
    (h2 : Runs (fun p => cont p.comp_stmt n (nodes ++ [part]) [] tok) (env U m d) ⟨r, Γ₁⟩ lit st') :
    Runs (fun p => interp p.comp_stmt (some '"') 0 (n + 1) nodes none) (env U m d) ⟨s, Γ⟩ lit st' := by
  simp only [interp]
  refine Runs.bind h ?_
  refine Runs.step (st₁ := ⟨r, Γ₁⟩) (a := tok) (by unfold read_double; rw [h1]) ?_
  rcases ht with ⟨s, rfl⟩ | ⟨s, rfl⟩
  · simpa [cont] using h2
  · simpa [cont] using h2

theorem isLit_get {s r : Chars} {tok : Tok} (ht : IsLit tok) (h : read_token U s = .ok (tok, r)) :
    get (env U m d) ⟨s, Γ⟩ = .ok (tok, ⟨r, Γ⟩) := by
  rcases ht with ⟨s, rfl⟩ | ⟨s, rfl⟩ <;> exact get_eq (skips_of (fl := env U m d) h rfl) (by simp)

/-- one round of the inner loop -/
theorem inner_round {n : Nat} {nodes : List Part} {tok : Tok} {s r acc : Chars} {lit : Lit} {st' : St} (ht : IsLit tok)
    (h : read_token U s = .ok (tok, r))
    (h2 : Runs (fun p => cont p.comp_stmt n nodes acc tok) (env U m d) ⟨r, Γ⟩ lit st') :
    Runs (fun p => interp p.comp_stmt (some '"') 0 (n + 1) nodes (some acc)) (env U m d) ⟨s, Γ⟩ lit st' := by
  have hg := isLit_get (m := m) (d := d) (Γ := Γ) ht h
  simp only [interp]
  refine Runs.step (peek_no_term_eq (fl := env U m d) h) ?_
  rcases ht with ⟨s, rfl⟩ | ⟨s, rfl⟩
  · exact Runs.step hg h2
  · exact Runs.step hg h2

theorem string_round {n : Nat} {tok : Tok} {s r acc : Chars} {lit : Lit} {st' : St} (ht : IsLit tok)
    (h : read_token U s = .ok (tok, r))
    (h2 : Runs (fun p => contStr p.comp_stmt n acc tok) (env U m d) ⟨r, Γ⟩ lit st') :
    Runs (fun p => string_literal p.comp_stmt (n + 1) acc) (env U m d) ⟨s, Γ⟩ lit st' := by
  have hg := isLit_get (m := m) (d := d) (Γ := Γ) ht h
  simp only [string_literal]
  refine Runs.step (peek_no_term_eq (fl := env U m d) h) ?_
  rcases ht with ⟨s, rfl⟩ | ⟨s, rfl⟩
  · exact Runs.step hg h2
  · exact Runs.step hg h2

/-- the end of the literal -/
theorem inner_last {n : Nat} {nodes : List Part} {acc : Chars} (h : Last U rest) :
    Runs (fun p => interp p.comp_stmt (some '"') 0 (n + 1) nodes (some acc)) (env U m d) ⟨rest, Γ⟩
      (.interpolated (nodes ++ [.text acc])) ⟨rest, Γ⟩ := by
  obtain ⟨t, a, h1, h2, h3⟩ := h
  simp only [interp]
  refine Runs.step (peek_no_term_eq (fl := env U m d) h1) ?_
  cases t <;> first | exact absurd rfl (h2 _) | exact absurd rfl (h3 _ _ _) | exact Runs.pure _

theorem string_last {n : Nat} {acc : Chars} (h : Last U rest) :
    Runs (fun p => string_literal p.comp_stmt (n + 1) acc) (env U m d) ⟨rest, Γ⟩ (.string acc) ⟨rest, Γ⟩ := by
  obtain ⟨t, a, h1, h2, h3⟩ := h
  simp only [string_literal]
  refine Runs.step (peek_no_term_eq (fl := env U m d) h1) ?_
  cases t <;> first | exact absurd rfl (h2 _) | exact absurd rfl (h3 _ _ _) | exact Runs.pure _

/-- a template and what is after it -/
theorem claim_template {t' v' s : Chars} {qs' : List Part} {c : Char} {part q : Part} (hv : Quoted t v) (hc : c = '{' ∨ c = '$')
    (hq : part.strip = q) (h : Runs (fun p => parse_template p.comp_stmt) (env U m d) ⟨c :: (s ++ (t' ++ rest)), Γ⟩ part
      ⟨t' ++ rest, Γ₁⟩) (ih : Claim U m d rest Γ₁ t' v' qs' Γ') :
    Claim U m d rest Γ (t ++ ('#' :: c :: (s ++ t'))) v (q :: .text v' :: qs') Γ' := by
  obtain ⟨tok, r, h1, ht, hlen, ps', hs, hr⟩ := ih
  refine ⟨.OpenString v (some '"') 0, c :: (s ++ (t' ++ rest)), ?_, .inr ⟨v, rfl⟩, by simp; omega, part :: .text v' :: ps', ?_, ?_⟩
  · have := double_open hv hc (s ++ (t' ++ rest))
    simpa using this
  · simp only [List.map_cons, hs, hq]; rfl
  · intro n hn
    obtain ⟨n, rfl⟩ : ∃ k, n = k + 1 := ⟨n - 1, by simp at hn; omega⟩
    have hl : r.length < n := by simp at hn hlen; omega
    obtain ⟨g1, -⟩ := hr n hl
    refine ⟨fun nodes acc => ?_, fun acc => ⟨.interpolated (.text (acc ++ v) :: part :: .text v' :: ps'), rfl, ?_⟩⟩
    · have := interp_round (nodes := nodes ++ [.text (acc ++ v)]) ht h h1 (g1 _ _)
      simpa [cont] using this
    · have := interp_round (nodes := [.text (acc ++ v)]) ht h h1 (g1 _ _)
      simpa [contStr] using this

theorem spelled_claim {ps : List Part} (h : Spelled m Γ t ps Γ') (hr : Last U rest) :
    ∃ v qs, ps = .text v :: qs ∧ Claim U m d rest Γ t v qs Γ' := by
  induction h with
  | last hv =>
    rename_i t v
    refine ⟨v, [], rfl, ⟨.StringLit v, rest, ?_, .inl ⟨v, rfl⟩, by simp; omega, [], rfl, ?_⟩⟩
    · rw [List.append_assoc]; exact double_end hv rest
    · intro n hn
      obtain ⟨n, rfl⟩ : ∃ k, n = k + 1 := ⟨n - 1, by omega⟩
      exact ⟨fun nodes acc => inner_last hr, fun acc => ⟨.string (acc ++ v), rfl, string_last hr⟩⟩
  | beside hv hw hsp ih =>
    rename_i Γ t v w t' v' ps Γ'
    obtain ⟨v₂, qs, e, ih⟩ := ih
    cases e
    obtain ⟨tok, r, h1, ht, hlen, qs', hs, hc⟩ := ih
    refine ⟨v ++ v', ps, rfl, ⟨.StringLit v, w ++ '"' :: (t' ++ rest), ?_, .inl ⟨v, rfl⟩, by simp; omega, qs', hs, ?_⟩⟩
    · have := double_end hv (w ++ '"' :: (t' ++ rest))
      simpa using this
    · intro n hn
      obtain ⟨n, rfl⟩ : ∃ k, n = k + 1 := ⟨n - 1, by simp at hn; omega⟩
      have hl : r.length < n := by simp at hn hlen; omega
      obtain ⟨g1, g2⟩ := hc n hl
      have hread : read_token U (w ++ '"' :: (t' ++ rest)) = .ok (tok, r) := (read_quote w _ hw).trans h1
      refine ⟨fun nodes acc => ?_, fun acc => ?_⟩
      · have := inner_round ht hread (g1 nodes (acc ++ v))
        simpa [cont] using this
      · obtain ⟨lit, e, g⟩ := g2 (acc ++ v)
        exact ⟨lit, by simpa using e, string_round ht hread g⟩
  | code hv hl hsp ih =>
    rename_i Γ t v w l Γ₁ t' ps Γ'
    obtain ⟨v', qs, rfl, ih⟩ := ih
    obtain ⟨l', hl', hu⟩ := program_reads (U := U) (d := d) hl (t' ++ rest)
    refine ⟨v, _, rfl, ?_⟩
    have := claim_template (s := w ++ [' ', '}']) (part := .code (.CompStmt l')) (q := .code (.CompStmt l)) hv (.inl rfl)
      (by simp [Part.strip, hl']) (by
        have := template_code (w := [' ']) hu (by decide)
        simpa using this) ih
    simpa using this
  | nothing hv hw hsp ih =>
    rename_i Γ t v w t' ps Γ'
    obtain ⟨v', qs, rfl, ih⟩ := ih
    refine ⟨v, _, rfl, ?_⟩
    have := claim_template (s := w ++ ['}']) (part := .code (.CompStmt [])) (q := .code (.CompStmt [])) hv (.inl rfl)
      (by simp [Part.strip, stripAll]) (by
        have := template_code (U := U) (m := m) (d := d) (nothing_reads (Γ := Γ) hw (t' ++ rest)) hw
        simpa using this) ih
    simpa using this
  | gvar hv hc hx hn hsp ih =>
    rename_i Γ t v c x t' ps Γ'
    obtain ⟨v', qs, rfl, ih⟩ := ih
    refine ⟨v, _, rfl, ?_⟩
    have hne : t' ≠ [] := by cases hsp <;> simp
    have := claim_template (s := c :: x) (part := .gvar ('$' :: c :: x)) (q := .gvar ('$' :: c :: x)) hv (.inr rfl) rfl
      (by
        have := template_gvar (U := U) (m := m) (d := d) (Γ := Γ) hc hx (r := t' ++ rest) (by
          intro y r e
          cases t' with
          | nil => exact absurd rfl hne
          | cons a b => cases e; exact hn _ _ rfl)
        simpa using this) ih
    simpa using this
end

/-! ## Helpers: execution -/

section
variable {σ α ε : Type} {M : Machine σ α ε}

theorem exec_append (l l' : List Inst) (vs : List (Val α)) (st : σ) :
    exec M (l ++ l') vs st = match exec M l vs st with
      | (.ok vs, st) => exec M l' vs st
      | (.error e, st) => (.error e, st) := by
  induction l generalizing vs st with
  | nil => rfl
  | cons i l ih =>
    simp only [List.cons_append, exec]
    rcases step M i vs st with ⟨_ | vs, st⟩
    · rfl
    · exact ih vs st

theorem shows_val {v : Val α} {st st' : σ} {s : Chars} (h : Shows M v st s st') : val_to_s M v st = (.ok s, st') := by
  cases h with
  | str => rfl
  | imm => rfl
  | obj h => simp [val_to_s, h]

theorem gives_exec {ps : List Part} {st st' : σ} {t : Chars} (h : Gives M ps st t st') : ∃ c n, gen_parts ps = some (c, n) ∧
    ∀ vs, ∃ ss : List (Val α), ss.length = n ∧ concat ss = some t ∧ exec M c vs st = (.ok (ss ++ vs), st') := by
  have hcat : ∀ (s t : Chars) (ss : List (Val α)), concat ss = some t → concat (ss ++ [.str s]) = some (s ++ t) := by
    intro s t ss
    induction ss generalizing t with
    | nil => intro h; cases h; simp [concat]
    | cons a ss ih =>
      intro h
      cases a with
      | str u =>
        simp only [concat, Option.map_eq_some_iff] at h
        obtain ⟨t', h1, rfl⟩ := h
        simp [concat, ih _ h1]
      | imm u => cases h
      | obj u => cases h
  induction h with
  | nil => exact ⟨[], 0, rfl, fun vs => ⟨[], rfl, rfl, rfl⟩⟩
  | text h ih =>
    rename_i s ps st t st'
    obtain ⟨c, n, h1, h2⟩ := ih
    by_cases hs : s = []
    · subst hs
      exact ⟨c, n, by simp [gen_parts, h1], h2⟩
    · refine ⟨.PUSH s :: c, n + 1, by simp [gen_parts, h1, hs], fun vs => ?_⟩
      obtain ⟨ss, e1, e2, e3⟩ := h2 (.str s :: vs)
      exact ⟨ss ++ [.str s], by simp [e1], hcat _ _ _ e2, by simp [exec, step, e3]⟩
  | code h1 hs h ih =>
    rename_i n ps st v st₁ s st₂ t st₃
    obtain ⟨c, k, g1, g2⟩ := ih
    refine ⟨.CODE n :: .TO_S :: c, k + 1, by simp [gen_parts, g1], fun vs => ?_⟩
    obtain ⟨ss, e1, e2, e3⟩ := g2 (.str s :: vs)
    exact ⟨ss ++ [.str s], by simp [e1], hcat _ _ _ e2, by simp [exec, step, h1, shows_val hs, e3]⟩
  | gvar hs h ih =>
    rename_i x ps st s st₁ t st₂
    obtain ⟨c, k, g1, g2⟩ := ih
    refine ⟨.GET_GLOBAL x :: .TO_S :: c, k + 1, by simp [gen_parts, g1], fun vs => ?_⟩
    obtain ⟨ss, e1, e2, e3⟩ := g2 (.str s :: vs)
    exact ⟨ss ++ [.str s], by simp [e1], hcat _ _ _ e2, by simp [exec, step, shows_val hs, e3]⟩

theorem raises_exec {ps : List Part} {st st' : σ} {e : ε} (h : Raises M ps st e st') {c : List Inst} {n : Nat}
    (hg : gen_parts ps = some (c, n)) (vs : List (Val α)) : exec M c vs st = (.error (.raise e), st') := by
  induction h generalizing c n vs with
  | text h ih =>
    simp only [gen_parts, Option.map_eq_some_iff] at hg
    obtain ⟨⟨c', n'⟩, h1, h2⟩ := hg
    split at h2 <;> cases h2
    · simp [exec, step, ih h1]
    · exact ih h1 vs
  | run h =>
    simp only [gen_parts, Option.map_eq_some_iff] at hg
    obtain ⟨⟨c', n'⟩, h1, h2⟩ := hg
    cases h2
    simp [exec, step, h]
  | «show» h h' =>
    simp only [gen_parts, Option.map_eq_some_iff] at hg
    obtain ⟨⟨c', n'⟩, h1, h2⟩ := hg
    cases h2
    simp [exec, step, h, val_to_s, h']
  | code h hs _ ih =>
    simp only [gen_parts, Option.map_eq_some_iff] at hg
    obtain ⟨⟨c', n'⟩, h1, h2⟩ := hg
    cases h2
    simp [exec, step, h, shows_val hs, ih h1]
  | showGlobal h h' =>
    simp only [gen_parts, Option.map_eq_some_iff] at hg
    obtain ⟨⟨c', n'⟩, h1, h2⟩ := hg
    cases h2
    simp [exec, step, h, val_to_s, h']
  | gvar hs _ ih =>
    simp only [gen_parts, Option.map_eq_some_iff] at hg
    obtain ⟨⟨c', n'⟩, h1, h2⟩ := hg
    cases h2
    simp [exec, step, shows_val hs, ih h1]

theorem strip_gen {l : List Part} : (gen_parts l).isSome = (gen_parts (l.map Part.strip)).isSome := by
  induction l with
  | nil => rfl
  | cons p l ih =>
    cases p with
    | text s => simp [gen_parts, Part.strip, ih]
    | gvar s => simp [gen_parts, Part.strip, ih]
    | ivar s => simp [gen_parts, Part.strip]
    | code n => cases n <;> simp [gen_parts, Part.strip, ih]

theorem spelled_gen {m : Bool} {Γ Γ' : List Chars} {t : Chars} {ps : List Part} (h : Spelled m Γ t ps Γ') :
    (gen_parts ps).isSome = true := by
  induction h with
  | last h => simp [gen_parts]
  | beside _ _ _ ih => simpa [gen_parts] using ih
  | code _ _ _ ih => simpa [gen_parts] using ih
  | nothing _ _ _ ih => simpa [gen_parts] using ih
  | gvar _ _ _ _ _ ih => simpa [gen_parts] using ih

end

/-! ## C114 -/

open Lean Elab Tactic Meta in
/-- Leaves the evaluation to the kernel. -/
local elab "kernel_rfl" : tactic => do
  let g ← getMainGoal
  let some (_, l, _) := (← g.getType).eq? | throwError "not an equation"
  g.assign (← mkEqRefl l)

/-- **C114** (reading).  A literal between double quotes has the parts that are written in it, in that order: the texts, with their escapes,
the programs, and the global variables.  The parser goes on after its closing quote, and knows the variables of the programs. -/
theorem C114_read_partial (U : Unicode) {m : Bool} {Γ Γ' : List Chars} {t : Chars} {ps : List Part} (h : Spelled m Γ t ps Γ') {rest : Chars}
    (hr : Last U rest) (d : Bool) : ∃ lit, lit.parts.map Part.strip = ps ∧
      Runs (fun p => parse_literal p.comp_stmt) (env U m d) ⟨'"' :: (t ++ rest), Γ⟩ lit ⟨rest, Γ'⟩ := by
  obtain ⟨v, qs, rfl, c⟩ := spelled_claim (d := d) h hr
  obtain ⟨tok, r, h1, ht, -, qs', hs, hc⟩ := c
  have hread : read_token U ('"' :: (t ++ rest)) = .ok (tok, r) := (read_quote [] _ (by simp)).trans h1
  obtain ⟨lit, e, g⟩ := (hc (r.length + 1) (by omega)).2 []
  refine ⟨lit, by rw [e, List.map_cons, hs]; rfl, ?_⟩
  unfold parse_literal
  refine Runs.step (isLit_get ht hread) ?_
  have hg : ∀ p : Parsers, literal p.comp_stmt tok (env U m d) ⟨r, Γ⟩ = contStr p.comp_stmt (r.length + 1) [] tok (env U m d) ⟨r, Γ⟩ := by
    intro p
    rcases ht with ⟨s, rfl⟩ | ⟨s, rfl⟩ <;> rfl
  obtain ⟨N, hN⟩ := g
  exact ⟨N, fun n hn => (hg _).trans (hN n hn)⟩

private theorem lines_cast {m Γ s s' l Γ'} (h : Lines m Γ s l Γ') (h1 : s = s') : Lines m Γ s' l Γ' := h1 ▸ h

private theorem spelled_cast {m Γ s s' l Γ'} (h : Spelled m Γ s l Γ') (h1 : s = s') : Spelled m Γ s' l Γ' := h1 ▸ h

private theorem var_x : VarName ['x'] :=
  ⟨.ident (.plain (c := 'x') (t := []) (.inl (by decide)) (by simp)) (by intro r; cases r <;> decide)
    (by rintro c t h; cases h; decide), by decide⟩

/-- The literal `"a\n#{ x = 1 + 2 }#" "#{ x }b#$y"` and `)`. -/
example : Spelled false [] "a\\n#{ x = 1 + 2 }#\" \"#{ x }b#$y\"".toList
    [.text "a\n".toList, .code (.CompStmt [.MulAssign [.Ident ['x']] [.BinOp .Add (.Integer 1) (.Integer 2)]]), .text ['#'],
      .code (.CompStmt [.LocalVar ['x']]), .text ['b'], .gvar "$y".toList, .text []] [['x']] ∧
    (∀ U, Last U [')']) := by
  refine ⟨?_, fun U => ⟨.Punct .RParen, [], by rw [Lexer.read_token_punct U (by decide) (by decide)]; rfl, by simp, by simp⟩⟩
  have h1 : Quoted "a\\n".toList "a\n".toList :=
    .char (e := ['a']) (.plain (by decide) (by decide) (by decide)) (.char (e := ['\\', 'n']) .newline .nil)
  have h2 : Quoted ['#'] ['#'] := .hash (by intro c r e; cases e) .nil
  have h3 : Quoted ['b'] ['b'] := .char (e := ['b']) (.plain (by decide) (by decide) (by decide)) .nil
  have i (Γ) (n : Int) (h : -Lexer.i64Max ≤ n) (h' : n ≤ Lexer.i64Max) : Tree Γ (.Integer n) Γ := .int h h'
  have l1 : Lines false [] " x = 1 + 2".toList [.MulAssign [.Ident ['x']] [.BinOp .Add (.Integer 1) (.Integer 2)]] [['x']] :=
    lines_cast (.one (.statement (.expr (.arg (.tree (.assignNew (Γ := []) (Γ' := [['x']]) var_x (by decide) (.bin (i _ 1 (by decide) (by decide)) (i _ 2 (by decide) (by decide)))))))))
      (by decide +kernel)
  have l2 : Lines false [['x']] " x".toList [.LocalVar ['x']] [['x']] :=
    lines_cast (.one (.statement (.expr (.arg (.tree (.lvar var_x (by decide))))))) (by decide +kernel)
  exact spelled_cast (.code h1 l1 (.beside (v := ['#']) (v' := []) (w := [' ']) h2 (by decide) (.code .nil l2 (.gvar (c := 'y') (x := []) h3 (by decide)
    (by simp) (by intro y r e; cases e; decide) (.last .nil))))) (by decide +kernel)

/-- **C114** (one reading).  What is written has one list of parts. -/
theorem C114_unambiguous {m : Bool} {Γ Γ₁ Γ₂ : List Chars} {t : Chars} {ps qs : List Part} (h : Spelled m Γ t ps Γ₁)
    (h' : Spelled m Γ t qs Γ₂) : ps = qs ∧ Γ₁ = Γ₂ := by
  let U : Unicode := ⟨fun _ => false, fun _ => false⟩
  have hr : Last U [] := ⟨.Eof, [], rfl, by simp, by simp⟩
  obtain ⟨l₁, e₁, r₁⟩ := C114_read_partial U h hr false
  obtain ⟨l₂, e₂, r₂⟩ := C114_read_partial U h' hr false
  obtain ⟨rfl, e⟩ := r₁.det r₂
  cases e
  exact ⟨e₁.symm.trans e₂, rfl⟩

section
variable {σ α ε : Type} (M : Machine σ α ε)

/-- **C114** (value).  The value of a literal is one string: its texts and the texts of the values of its programs, in order.  Each program runs
once, from left to right, and `to_s` of its value is called before the next program runs; nothing else on the stack changes. -/
theorem C114_value {l : List Part} {st st' : σ} {t : Chars} (h : Gives M l st t st') (vs : List (Val α)) :
    ∃ c, gen true (.interpolated l) = some c ∧ exec M c vs st = (.ok (.str t :: vs), st') := by
  obtain ⟨c, n, h1, h2⟩ := gives_exec h
  obtain ⟨ss, e1, e2, e3⟩ := h2 vs
  refine ⟨c ++ [.CONCAT_STRING n], by simp [gen, h1], ?_⟩
  rw [exec_append, e3]
  simp [exec, step, ← e1, e2]

/-- A machine for examples: programs that count in the state, and objects whose `to_s` counts too. -/
private def counter : Machine Nat Nat Unit where
  run
    | .Integer i, n => (.ok (.imm (toString i).toList), n + 1)
    | .Nil, n => (.error (.raise ()), n)
    | _, n => (.ok (.obj n), n + 1)
  global _ _ := .str ['g']
  to_s k n := (.ok (.str (toString (10 * k + n)).toList), n + 10)

/-- `"a#{ obj }b#{ 5 }#$y"`: the object that is made first counts 1, its `to_s` sees 1. -/
example : Gives counter [.text ['a'], .code .SelfValue, .text ['b'], .code (.Integer 5), .gvar ['y']] 0 ['a', '1', 'b', '5', 'g'] 12 :=
  .text (.code (v := .obj 0) (st₁ := 1) (s := ['1']) (st₂ := 11) rfl (.obj rfl) (.text (.code (v := .imm ['5']) (st₁ := 12) rfl .imm
    (.gvar (s := ['g']) .str .nil))))
example : Raises counter [.text ['a'], .code (.Integer 5), .code .Nil, .code (.Integer 6)] 0 () 1 :=
  .text (.code rfl .imm (.run rfl))

/-- A literal whose value is not used runs its programs all the same. -/
theorem C114_unused {l : List Part} {st st' : σ} {t : Chars} (h : Gives M l st t st') (vs : List (Val α)) :
    ∃ c, gen false (.interpolated l) = some c ∧ exec M c vs st = (.ok vs, st') := by
  obtain ⟨c, n, h1, h2⟩ := gives_exec h
  obtain ⟨ss, e1, e2, e3⟩ := h2 vs
  refine ⟨c ++ [.CONCAT_STRING n, .POP], by simp [gen, h1], ?_⟩
  rw [exec_append, e3]
  simp [exec, step, ← e1, e2]

/-- **C114** (exceptions).  An exception of a program, or of a `to_s`, ends the literal, and nothing to its right runs. -/
theorem C114_raises {l : List Part} {st st' : σ} {e : ε} (h : Raises M l st e st') {u : Bool} {c : List Inst}
    (hg : gen u (.interpolated l) = some c) (vs : List (Val α)) : exec M c vs st = (.error (.raise e), st') := by
  simp only [gen, Option.map_eq_some_iff] at hg
  obtain ⟨⟨c', n⟩, h1, rfl⟩ := hg
  simp only
  rw [List.append_assoc, exec_append, raises_exec h h1]

/-- Literals that are written as above have code. -/
theorem C114_code {m : Bool} {Γ Γ' : List Chars} {t : Chars} {ps : List Part} (h : Spelled m Γ t ps Γ') {lit : Lit}
    (hl : lit.parts.map Part.strip = ps) (u : Bool) : (gen u lit).isSome = true := by
  have := spelled_gen h
  rw [← hl, ← strip_gen] at this
  cases lit with
  | string s => rfl
  | interpolated l => simpa [gen, Lit.parts] using this

/-! ## What goes wrong -/

/-- **Violation**: `"#@a"`, the short form with an instance variable, is read but has no code: a Rust panic. -/
theorem C114_ivar_fails : (∀ U comp, parse_literal comp (env U false false) ⟨"\"#@a\"".toList, []⟩ =
    .ok (.interpolated [.text [], .ivar "@a".toList, .text []], ⟨[], []⟩)) ∧
    ∀ u, gen u (.interpolated [.text [], .ivar "@a".toList, .text []]) = none :=
  ⟨fun _ _ => by simp only [String.reduceToList]; kernel_rfl, fun _ => rfl⟩

/-- **Violation**: `"#$1"` and `"#@@a"` (a special or a class variable in the short form) are a Rust panic of the parser. -/
theorem C114_special_fails : ∀ U comp, parse_literal comp (env U false false) ⟨"\"#$1\"".toList, []⟩ = .error .panic ∧
    parse_literal comp (env U false false) ⟨"\"#@@a\"".toList, []⟩ = .error .panic :=
  fun _ _ => ⟨by simp only [String.reduceToList]; kernel_rfl, by simp only [String.reduceToList]; kernel_rfl⟩

/-- **Violation**: `"#@ "` is not the text that it is in Ruby but a syntax error. -/
theorem C114_hash_fails : ∀ U comp, parse_literal comp (env U false false) ⟨"\"#@ \"".toList, []⟩ = .error .syntax :=
  fun _ _ => by simp only [String.reduceToList]; kernel_rfl

/-- **Violation**: in the percent notation, parentheses that are opened after a template are not counted: `%Q(#$x (c) d)` ends after the `c`. -/
theorem C114_nested_fails : ∀ U comp, percent_literal comp (env U false false) "Q(#$x (c) d)".toList =
    .ok (.interpolated [.text [], .gvar "$x".toList, .text " (c".toList], " d)".toList) :=
  fun _ _ => by simp only [String.reduceToList]; kernel_rfl

/-- **Violation**: and parentheses that are closed after a template are counted again after the next: `%Q((#$x) #$y)` has no end. -/
theorem C114_level_fails : ∀ U comp, percent_literal comp (env U false false) "Q((#$x) #$y)".toList = .error .eof :=
  fun _ _ => by simp only [String.reduceToList]; kernel_rfl

/-- **Violation**: the parts of a literal side by side with one in percent notation are read up to the delimiter of the first:
`%Q(#$x) "#$y"` has no end. -/
theorem C114_beside_fails : ∀ U comp, percent_literal comp (env U false false) "Q(#$x) \"#$y\"".toList = .error .eof :=
  fun _ _ => by simp only [String.reduceToList]; kernel_rfl

/-- **Violation**: if `to_s` of an object does not return a string, the literal is a Rust panic. -/
theorem C114_to_s_fails {o : α} {st st₁ st₂ : σ} {s : Chars} {n : Node} (h : M.run n st = (.ok (.obj o), st₁))
    (h' : M.to_s o st₁ = (.ok (.imm s), st₂)) (vs : List (Val α)) :
    ∃ c, gen true (.interpolated [.code n]) = some c ∧ exec M c vs st = (.error .panic, st₂) :=
  ⟨_, rfl, by simp [exec, step, h, val_to_s, h']⟩

end
end Verif.Parser.Interp
