import Verif.Parser.Spec
import Verif.Lexer.Props
/-!
# Running the parser: lemmas for C49
-/
namespace Verif.Parser
open Verif.Lexer (Chars Unicode BinOp Punct Reserved Tok Name Text Ends read_token is_space is_alpha C73_token)

/-- With enough recursion depth the parser goes from one state to the other with this result. -/
def Runs {α : Type} (f : Parsers → P α) (fl : Env) (st : St) (a : α) (st' : St) : Prop :=
  ∃ N, ∀ n, N ≤ n → f (level n) fl st = .ok (a, st')

section
variable {α β : Type} {fl : Env} {st st₁ st₂ : St}

theorem Runs.det {f : Parsers → P α} {a b : α} (h : Runs f fl st a st₁) (h' : Runs f fl st b st₂) :
    a = b ∧ st₁ = st₂ := by
  obtain ⟨N, hN⟩ := h
  obtain ⟨M, hM⟩ := h'
  have := (hN (max N M) (Nat.le_max_left ..)).symm.trans (hM (max N M) (Nat.le_max_right ..))
  cases this
  exact ⟨rfl, rfl⟩

theorem Runs.const {x : P α} {a : α} (h : x fl st = .ok (a, st₁)) : Runs (fun _ => x) fl st a st₁ := ⟨0, fun _ _ => h⟩

theorem Runs.pure (a : α) : Runs (fun _ => (Pure.pure a : P α)) fl st a st := ⟨0, fun _ _ => rfl⟩

theorem Runs.bind {f : Parsers → P α} {g : Parsers → α → P β} {a : α} {b : β} (h : Runs f fl st a st₁)
    (h' : Runs (fun p => g p a) fl st₁ b st₂) : Runs (fun p => f p >>= g p) fl st b st₂ := by
  obtain ⟨N, hN⟩ := h
  obtain ⟨M, hM⟩ := h'
  refine ⟨max N M, fun n hn => ?_⟩
  have h1 := hN n (by omega)
  have h2 := hM n (by omega)
  show (match f (level n) fl st with | Except.error e => Except.error e | .ok (a, st) => g (level n) a fl st) = _
  rw [h1]; exact h2

theorem Runs.step {x : P α} {g : Parsers → α → P β} {a : α} {b : β} (h : x fl st = .ok (a, st₁))
    (h' : Runs (fun p => g p a) fl st₁ b st₂) : Runs (fun p => x >>= g p) fl st b st₂ :=
  Runs.bind (Runs.const h) h'

theorem Runs.yes {x : P _root_.Bool} {f g : Parsers → P β} {b : β} (h : x fl st = .ok (true, st₁))
    (h' : Runs f fl st₁ b st₂) :
    Runs (fun p => x >>= fun c => if c = true then f p else g p) fl st b st₂ :=
  Runs.step h (by simpa using h')

theorem Runs.no {x : P _root_.Bool} {f g : Parsers → P β} {b : β} (h : x fl st = .ok (false, st₁))
    (h' : Runs g fl st₁ b st₂) :
    Runs (fun p => x >>= fun c => if c = true then f p else g p) fl st b st₂ :=
  Runs.step h (by simpa using h')

theorem Runs.up {f g : Parsers → P α} (he : ∀ n, f (level (n + 1)) = g (level n)) {a : α} (h : Runs g fl st a st₁) :
    Runs f fl st a st₁ := by
  obtain ⟨N, hN⟩ := h
  refine ⟨N + 1, fun n hn => ?_⟩
  obtain ⟨n, rfl⟩ : ∃ k, n = k + 1 := ⟨n - 1, by omega⟩
  rw [he]; exact hN n (by omega)

theorem Runs.env {f : Parsers → P α} {g : Env → Env} {a : α} (h : Runs f (g fl) st a st₁) :
    Runs (fun p => withEnv g (f p)) fl st a st₁ := h
end

/-! ## Looking at tokens -/

section
variable {fl : Env} {s a a' : Chars} {Γ : List Chars} {t t' : Tok}

/-- the next token that is not a line terminator -/
def Skips (U : Unicode) (s : Chars) (t : Tok) (a : Chars) : Prop := read_skip U (s.length + 1) s = .ok (t, a)

theorem skips_of (h : read_token fl.U s = .ok (t, a)) (ht : is_line_tok t = false) : Skips fl.U s t a := by
  unfold Skips; rw [read_skip, h]; simp [ht]

theorem peek_no_term_eq (h : read_token fl.U s = .ok (t, a)) : peek_no_term fl ⟨s, Γ⟩ = .ok (t, ⟨s, Γ⟩) := by
  unfold peek_no_term; rw [h]

theorem peek_eq (h : Skips fl.U s t a) : peek fl ⟨s, Γ⟩ = .ok (t, ⟨s, Γ⟩) := by
  unfold Skips at h; unfold peek; rw [h]

theorem get_eq (h : Skips fl.U s t a) (ht : t ≠ .Eof) : get fl ⟨s, Γ⟩ = .ok (t, ⟨a, Γ⟩) := by
  unfold Skips at h; unfold get; simp only [h]

theorem bind_ok {α β : Type} {x : P α} {f : α → P β} {st st₁ : St} {v : α} (h : x fl st = .ok (v, st₁)) :
    (x >>= f) fl st = f v fl st₁ := by
  show (match x fl st with | Except.error e => Except.error e | .ok (a, st) => f a fl st) = _
  rw [h]

theorem is_line_term_eq (h : read_token fl.U s = .ok (t, a)) :
    is_line_term fl ⟨s, Γ⟩ = .ok (is_line_tok t, ⟨s, Γ⟩) := by
  unfold is_line_term; rw [bind_ok (peek_no_term_eq h)]; rfl

theorem consume_punct_no {q : Punct} (h : Skips fl.U s t a) (hne : t ≠ .Punct q) :
    consume_punct q fl ⟨s, Γ⟩ = .ok (false, ⟨s, Γ⟩) := by
  unfold consume_punct; rw [bind_ok (peek_eq h), if_neg hne]; rfl

theorem consume_punct_yes {q : Punct} (h : Skips fl.U s (.Punct q) a) :
    consume_punct q fl ⟨s, Γ⟩ = .ok (true, ⟨a, Γ⟩) := by
  unfold consume_punct; rw [bind_ok (peek_eq h), if_pos rfl, bind_ok (get_eq h (by simp))]; rfl

theorem cpn_no {q : Punct} (h : read_token fl.U s = .ok (t, a)) (hne : t ≠ .Punct q) :
    consume_punct_no_term q fl ⟨s, Γ⟩ = .ok (false, ⟨s, Γ⟩) := by
  unfold consume_punct_no_term; rw [bind_ok (peek_no_term_eq h), if_neg hne]; rfl

theorem cpn_yes {q : Punct} (h : read_token fl.U s = .ok (.Punct q, a)) (hq : q ≠ .Semi) :
    consume_punct_no_term q fl ⟨s, Γ⟩ = .ok (true, ⟨a, Γ⟩) := by
  have : is_line_tok (.Punct q) = false := by cases q <;> first | rfl | exact absurd rfl hq
  unfold consume_punct_no_term
  rw [bind_ok (peek_no_term_eq h), if_pos rfl, bind_ok (get_eq (skips_of h this) (by simp))]; rfl

theorem consume_reserved_no {r : Reserved} (h : Skips fl.U s t a) (hne : t ≠ .Reserved r) :
    consume_reserved r fl ⟨s, Γ⟩ = .ok (false, ⟨s, Γ⟩) := by
  unfold consume_reserved; rw [bind_ok (peek_eq h), if_neg hne]; rfl

theorem consume_reserved_yes {r : Reserved} (h : Skips fl.U s (.Reserved r) a) :
    consume_reserved r fl ⟨s, Γ⟩ = .ok (true, ⟨a, Γ⟩) := by
  unfold consume_reserved; rw [bind_ok (peek_eq h), if_pos rfl, bind_ok (get_eq h (by simp))]; rfl

theorem crn_no {r : Reserved} (h : read_token fl.U s = .ok (t, a)) (hne : t ≠ .Reserved r) :
    consume_reserved_no_term r fl ⟨s, Γ⟩ = .ok (false, ⟨s, Γ⟩) := by
  unfold consume_reserved_no_term; rw [bind_ok (peek_no_term_eq h), if_neg hne]; rfl

theorem assign_op_none (h : read_token fl.U s = .ok (t, a)) (hne : ∀ op, t ≠ .Punct (.AssignOp op)) :
    consume_assign_op_no_term fl ⟨s, Γ⟩ = .ok (none, ⟨s, Γ⟩) := by
  unfold consume_assign_op_no_term
  rw [bind_ok (peek_no_term_eq h)]
  split
  · exact absurd rfl (hne _)
  · rfl

theorem assign_op_some {op : BinOp} (h : read_token fl.U s = .ok (.Punct (.AssignOp op), a)) :
    consume_assign_op_no_term fl ⟨s, Γ⟩ = .ok (some op, ⟨s, Γ⟩) := by
  unfold consume_assign_op_no_term
  rw [bind_ok (peek_no_term_eq h)]; rfl

theorem expect_punct_yes {q : Punct} (h : Skips fl.U s (.Punct q) a) :
    expect_punct q fl ⟨s, Γ⟩ = .ok ((), ⟨a, Γ⟩) := by
  unfold expect_punct; rw [bind_ok (get_eq h (by simp)), if_pos rfl]; rfl

theorem peek_punct_eq {q : Punct} (h : read_token fl.U s = .ok (t, a)) :
    peek_punct_no_term q fl ⟨s, Γ⟩ = .ok (decide (t = .Punct q), ⟨s, Γ⟩) := by
  unfold peek_punct_no_term; rw [h]
end

/-! ## What may follow -/

/-- The level at which a token ends a tree. -/
def stopLevel (m : _root_.Bool) : Punct → Option Nat
  | .Semi | .RParen | .RBracket | .RBrace | .Colon => some 0
  | .Comma => some (if m then 1 else 2)
  | .Question => some 3
  | .Range2 | .Range3 => some 4
  | .LOr => some 5
  | .LAnd => some 6
  | .Eq | .Ne | .TEq | .Match | .Unmatch => some 7
  | .Gt | .Ge | .Lt | .Le | .Cmp => some 8
  | .BitOr | .BitXor => some 9
  | .BitAnd => some 10
  | .Shl | .Shr => some 11
  | .Plus | .Minus => some 12
  | .Mul | .Div | .Rem => some 13
  | .Assign | .AssignOp _ => some 14
  | .DMul => some 15
  | .Dot | .SafeNav | .LBracket => some 17
  | _ => none

/-- The words that may follow an expression that is not a whole statement. -/
def followWord : Reserved → _root_.Bool
  | .And | .Or | .If | .Unless | .While | .Until | .Then => true
  | _ => false

def stops (m : _root_.Bool) (p : Nat) : Tok → Prop
  | .Eof => True
  | .Punct q => ∃ k, stopLevel m q = some k ∧ k ≤ p
  | .Reserved r => followWord r = true ∧ 1 ≤ p
  | _ => False

/-- The tokens that a tree which binds as tightly as `k` may start with. -/
def start (k : Nat) : Tok → Prop
  | .Ident _ | .Const _ | .InstanceVar _ | .GlobalVar _ | .ClassVar _ | .IntegerLit _ | .BignumLit _ | .StringLit _ => True
  | .Punct .LParen | .Punct .LBracket => True
  | .Punct .Minus => k ≤ 14
  | .Punct .BitNot | .Punct .Not | .Punct .Plus => k ≤ 16
  | .Reserved .Defined => True
  | _ => False

/-- The words that start a conditional, a loop, a jump or a definition. -/
def opener : Tok → Prop
  | .Reserved .If | .Reserved .Unless | .Reserved .While | .Reserved .Until => True
  | .Reserved .Return | .Reserved .Break | .Reserved .Next | .Reserved .Def => True
  | _ => False

/-- The text starts with such a token. -/
def Begins (U : Unicode) (k : Nat) (s : Chars) : Prop :=
  ∃ t a, read_token U s = .ok (t, a) ∧ start k t ∧
    (t = .Reserved .Defined → ∃ a', read_token U a = .ok (.Punct .LParen, a'))

/-- The same, or with one of those words. -/
def Opens (U : Unicode) (k : Nat) (s : Chars) : Prop :=
  ∃ t a, read_token U s = .ok (t, a) ∧ (start k t ∨ opener t) ∧
    (t = .Reserved .Defined → ∃ a', read_token U a = .ok (.Punct .LParen, a'))

theorem Begins.opens {U : Unicode} {k : Nat} {s : Chars} (h : Begins U k s) : Opens U k s := by
  obtain ⟨t, a, h1, h2, h3⟩ := h
  exact ⟨t, a, h1, .inl h2, h3⟩

/-- the answer of `is_command` -/
def command (U : Unicode) (s : Chars) : _root_.Bool :=
  match read_token U s with
  | .error _ => false
  | .ok (tok, after) =>
    if s.head?.elim false is_space then
      match tok with
      | .LineTerm => false
      | .Punct p => match p with
        | .LParen | .LBracket | .Scope | .Arrow => true
        | .Colon | .Plus | .Minus | .Mul | .Div | .BitAnd | .Rem | .Shl => !(after.head?.elim false is_space)
        | _ => false
      | .Reserved r => match r with
        | .Do | .If | .Unless | .While | .Until | .And | .Or | .Then | .End => false
        | _ => true
      | _ => true
    else match tok with
      | .GlobalVar _ | .InstanceVar _ | .StringLit _ | .FloatLit _ | .BignumLit _ | .IntegerLit _ => true
      | _ => false

theorem is_command_eq (fl : Env) (s : Chars) (Γ : List Chars) :
    is_command fl ⟨s, Γ⟩ = .ok (command fl.U s, ⟨s, Γ⟩) := rfl

structure Follow (U : Unicode) (m : _root_.Bool) (p : Nat) (rest : Chars) : Prop where
  tok : ∃ t a t' a', read_token U rest = .ok (t, a) ∧ stops m p t ∧ Skips U rest t' a' ∧
    (t' = t ∧ is_line_tok t = false ∨ t = .Punct .Semi ∧ (start 1 t' ∨ ∃ r, t' = .Reserved r))
  ends : Ends rest
  paren : rest.head? ≠ some '('
  cmd : command U rest = false

theorem stops_mono {m : _root_.Bool} {p q : Nat} (h : p ≤ q) {t : Tok} (ht : stops m p t) : stops m q t := by
  cases t <;> first | trivial | exact ht.elim | skip
  · exact ⟨ht.1, by have := ht.2; omega⟩
  · obtain ⟨k, h1, h2⟩ := ht
    exact ⟨k, h1, by omega⟩

theorem stops_true {p : Nat} {t : Tok} (ht : stops false p t) : stops true p t := by
  cases t <;> first | trivial | exact ht.elim | exact ht | skip
  rename_i q
  obtain ⟨k, h1, h2⟩ := ht
  cases q <;> first | exact ⟨k, h1, h2⟩ | skip
  cases h1
  exact ⟨1, rfl, by simp at h2; omega⟩

theorem Follow.mono {U : Unicode} {m : _root_.Bool} {p q : Nat} {rest : Chars} (h : Follow U m p rest) (hpq : p ≤ q) :
    Follow U m q rest := by
  obtain ⟨⟨t, a, t', a', h1, h2, h3⟩, h4, h5, h6⟩ := h
  exact ⟨⟨t, a, t', a', h1, stops_mono hpq h2, h3⟩, h4, h5, h6⟩

theorem Follow.single {U : Unicode} {m : _root_.Bool} {p : Nat} {rest : Chars} (h : Follow U m p rest) :
    Follow U true p rest := by
  obtain ⟨⟨t, a, t', a', h1, h2, h3⟩, h4, h5, h6⟩ := h
  refine ⟨⟨t, a, t', a', h1, ?_, h3⟩, h4, h5, h6⟩
  cases m
  · exact stops_true h2
  · exact h2

theorem start_mono {p q : Nat} (h : p ≤ q) {t : Tok} (ht : start q t) : start p t := by
  unfold start at *
  split at ht <;> first | trivial | exact ht.elim | omega

theorem start_line {k : Nat} {t : Tok} (ht : start k t) : is_line_tok t = false := by
  unfold start at ht
  split at ht <;> first | rfl | exact ht.elim

theorem Begins.mono {U : Unicode} {p q : Nat} (h : p ≤ q) {s : Chars} (hs : Begins U q s) : Begins U p s := by
  obtain ⟨t, a, h1, h2, h3⟩ := hs
  exact ⟨t, a, h1, start_mono h h2, h3⟩

theorem opener_line {t : Tok} (ht : opener t) : is_line_tok t = false := by
  unfold opener at ht
  split at ht <;> first | rfl | exact ht.elim

theorem opener_punct {q : Punct} : ¬ opener (.Punct q) := id

theorem Opens.mono {U : Unicode} {p q : Nat} (h : p ≤ q) {s : Chars} (hs : Opens U q s) : Opens U p s := by
  obtain ⟨t, a, h1, h2, h3⟩ := hs
  exact ⟨t, a, h1, h2.imp (start_mono h) id, h3⟩

theorem Opens.skips {U : Unicode} {p : Nat} {s : Chars} (hb : Opens U p s) :
    ∃ t a, Skips U s t a ∧ (start p t ∨ opener t) := by
  obtain ⟨t, a, h1, h2, -⟩ := hb
  refine ⟨t, a, skips_of (fl := ⟨U, false, false, false⟩) h1 ?_, h2⟩
  exact h2.elim start_line opener_line

/-! ## From one level to the next -/

/-- The parser of a level. -/
def entry : Nat → Parsers → P Node
  | 1, p => p.stmt
  | 2, p => p.arg
  | 3, p => p.ternary
  | 4, p => p.range
  | 5, p => p.lor
  | 6, p => p.land
  | 7, p => p.eq
  | 8, p => p.comp
  | 9, p => p.bitor
  | 10, p => p.bitand
  | 11, p => p.shift
  | 12, p => p.add
  | 13, p => p.mul
  | 14, p => p.unary_minus
  | 15, p => p.exponent
  | 16, p => p.unary
  | 17, p => p.method_call
  | _, p => p.primary false

/-- What a level does after its first operand, where operators group to the left. -/
def tail : Nat → Node → Parsers → P Node
  | 5, e, p => p.lor_loop e
  | 6, e, p => p.land_loop e
  | 8, e, p => p.comp_loop e
  | 9, e, p => p.bitor_loop e
  | 10, e, p => p.bitand_loop e
  | 11, e, p => p.shift_loop e
  | 12, e, p => p.add_loop e
  | 13, e, p => p.mul_loop e
  | _, e, p => p.method_call_loop e

def leftLevels : List Nat := [5, 6, 8, 9, 10, 11, 12, 13]

def ops : Nat → Punct → Option BinOp
  | 5 => lor_ops | 6 => land_ops | 8 => comp_ops | 9 => bitor_ops | 10 => bitand_ops | 11 => shift_ops
  | 12 => add_ops | _ => mul_ops

/-- The flags during the parse of a tree. -/
abbrev env (U : Unicode) (m d : _root_.Bool) : Env := ⟨U, false, m, d⟩

section
variable {U : Unicode} {m d : _root_.Bool} {rest : Chars} {Γ Γ' : List Chars} {e x : Node}

theorem ops_none {k p : Nat} (hk : k ∈ leftLevels) (hp : p < k) {q : Punct} (h : stops m p (.Punct q)) :
    ops k q = none := by
  obtain ⟨j, h1, h2⟩ := h
  simp only [leftLevels, List.mem_cons, List.not_mem_nil, or_false] at hk
  rcases hk with rfl | rfl | rfl | rfl | rfl | rfl | rfl | rfl <;>
    cases q <;> first | rfl | (cases h1; omega)

theorem tail_up {k : Nat} (hk : k ∈ leftLevels) (n : Nat) :
    tail k e (level (n + 1)) = bin_loop (ops k) (entry (k + 1) (level n)) (fun x => tail k x (level n)) e := by
  simp only [leftLevels, List.mem_cons, List.not_mem_nil, or_false] at hk
  rcases hk with rfl | rfl | rfl | rfl | rfl | rfl | rfl | rfl <;> rfl

theorem Runs.tail {k : Nat} (hk : k ∈ leftLevels) {fl : Env} {st st' : St}
    (h : Runs (fun p => bin_loop (ops k) (entry (k + 1) p) (fun x => Parser.tail k x p) e) fl st x st') :
    Runs (Parser.tail k e) fl st x st' :=
  Runs.up (g := fun p => bin_loop (ops k) (entry (k + 1) p) (fun x => Parser.tail k x p) e) (tail_up hk) h

/-- the loop of a level ends at a token of a lower level -/
theorem tail_stop {k p : Nat} (hk : k ∈ leftLevels) (hp : p < k) (h : Follow U m p rest) :
    Runs (tail k e) (env U m d) ⟨rest, Γ⟩ e ⟨rest, Γ⟩ := by
  obtain ⟨⟨t, a, t', a', h1, h2, h3⟩, h4, h5, h6⟩ := h
  refine Runs.tail hk ?_
  unfold bin_loop
  refine Runs.step (peek_no_term_eq h1) ?_
  cases t with
  | Punct q =>
    simp only [ops_none hk hp h2]
    exact Runs.pure _
  | _ => exact Runs.pure _

/-- the parser of a level is the parser of the next level, then the loop -/
theorem entry_loop {k : Nat} (hk : k ∈ leftLevels) (h : Follow U m k rest) {st : St}
    (h1 : Runs (entry (k + 1)) (env U m d) st e ⟨rest, Γ⟩) {st' : St}
    (h2 : Runs (tail k e) (env U m d) ⟨rest, Γ⟩ x st') : Runs (entry k) (env U m d) st x st' := by
  have key : ∀ {k : Nat}, k ∈ leftLevels → (∀ {t a}, read_token U rest = .ok (t, a) → is_line_tok t = true →
      Runs (tail k e) (env U m d) ⟨rest, Γ⟩ x st' → e = x ∧ ⟨rest, Γ⟩ = st') := by
    intro k hk t a ht hl h2
    refine Runs.det (Runs.tail hk ?_) h2
    unfold bin_loop
    refine Runs.step (peek_no_term_eq ht) ?_
    cases t with
    | Punct q =>
      have : ops k q = none := by
        have hq : q = .Semi := by cases q <;> first | rfl | cases hl
        subst hq
        simp only [leftLevels, List.mem_cons, List.not_mem_nil, or_false] at hk
        rcases hk with rfl | rfl | rfl | rfl | rfl | rfl | rfl | rfl <;> rfl
      simp only [this]
      exact Runs.pure _
    | _ => exact Runs.pure _
  obtain ⟨⟨t, a, t', a', ht, -⟩, -⟩ := h
  have hline : ∀ {k : Nat}, k ∈ leftLevels → Runs (tail k e) (env U m d) ⟨rest, Γ⟩ x st' →
      Runs (fun p => is_line_term >>= fun c => if c = true then (pure e : P Node) else tail k e p)
        (env U m d) ⟨rest, Γ⟩ x st' := by
    intro k hk h2
    cases hl : is_line_tok t with
    | true =>
      obtain ⟨rfl, rfl⟩ := key hk ht hl h2
      exact Runs.yes (hl ▸ is_line_term_eq ht) (Runs.pure _)
    | false => exact Runs.no (hl ▸ is_line_term_eq ht) h2
  simp only [leftLevels, List.mem_cons, List.not_mem_nil, or_false] at hk
  rcases hk with rfl | rfl | rfl | rfl | rfl | rfl | rfl | rfl
  · exact Runs.up (fun _ => rfl) (Runs.bind h1 h2)
  · exact Runs.up (fun _ => rfl) (Runs.bind h1 h2)
  · refine Runs.up (g := fun p => parse_arg_comp p) (fun _ => rfl) ?_
    unfold parse_arg_comp
    exact Runs.bind h1 (hline (k := 8) (by decide) h2)
  · exact Runs.up (fun _ => rfl) (Runs.bind h1 h2)
  · exact Runs.up (fun _ => rfl) (Runs.bind h1 h2)
  · exact Runs.up (fun _ => rfl) (Runs.bind h1 h2)
  · exact Runs.up (fun _ => rfl) (Runs.bind h1 h2)
  · refine Runs.up (g := fun p => parse_arg_mul p) (fun _ => rfl) ?_
    unfold parse_arg_mul
    exact Runs.bind h1 (hline (k := 13) (by decide) h2)

end
end Verif.Parser
