import Verif.Parser.Model
/-!
# The recursion depth: lemmas for C49

A parser that answers at some recursion depth gives the same answer at every greater one.
-/
namespace Verif.Parser
open Verif.Lexer (Chars Unicode BinOp Punct Reserved Tok)

/-- `y` answers what `x` answers, unless `x` runs out of depth. -/
def Le {α : Type} (x y : P α) : Prop := ∀ fl st, x fl st = .error .fuel ∨ x fl st = y fl st

theorem Le.refl {α : Type} (x : P α) : Le x x := fun _ _ => .inr rfl

theorem Le.bind {α β : Type} {x y : P α} {f g : α → P β} (h : Le x y) (h' : ∀ a, Le (f a) (g a)) :
    Le (x >>= f) (y >>= g) := by
  intro fl st
  show (match x fl st with | Except.error e => Except.error e | .ok (a, st) => f a fl st) = _ ∨
    (match x fl st with | Except.error e => Except.error e | .ok (a, st) => f a fl st) =
    (match y fl st with | Except.error e => Except.error e | .ok (a, st) => g a fl st)
  rcases h fl st with h | h
  · rw [h]; exact .inl rfl
  · rw [h]
    cases y fl st with
    | error e => exact .inr rfl
    | ok v => exact h' v.1 fl v.2

theorem Le.ite {α : Type} {c : Prop} [Decidable c] {x y x' y' : P α} (h : Le x y) (h' : Le x' y') :
    Le (if c then x else x') (if c then y else y') := by
  split
  · exact h
  · exact h'

theorem Le.env {α : Type} {f : Env → Env} {x y : P α} (h : Le x y) : Le (withEnv f x) (withEnv f y) :=
  fun fl st => h (f fl) st

theorem Le.bot {α : Type} {x : P α} : Le (fail .fuel) x := fun _ _ => .inl rfl

structure PLe (p q : Parsers) : Prop where
  comp_stmt : Le p.comp_stmt q.comp_stmt
  comp_stmt_loop : ∀ a, Le (p.comp_stmt_loop a) (q.comp_stmt_loop a)
  stmt : Le p.stmt q.stmt
  stmt_loop : ∀ a, Le (p.stmt_loop a) (q.stmt_loop a)
  expr : Le p.expr q.expr
  expr_loop : ∀ a, Le (p.expr_loop a) (q.expr_loop a)
  not_ : Le p.not_ q.not_
  mlhs_loop : ∀ a, Le (p.mlhs_loop a) (q.mlhs_loop a)
  mul_assign : ∀ a, Le (p.mul_assign a) (q.mul_assign a)
  rhs_if_allowed : Le p.rhs_if_allowed q.rhs_if_allowed
  rhs : ∀ a, Le (p.rhs a) (q.rhs a)
  rhs_loop : ∀ a b, Le (p.rhs_loop a b) (q.rhs_loop a b)
  arg : Le p.arg q.arg
  arg_assign : Le p.arg_assign q.arg_assign
  ternary : Le p.ternary q.ternary
  range : Le p.range q.range
  lor : Le p.lor q.lor
  lor_loop : ∀ a, Le (p.lor_loop a) (q.lor_loop a)
  land : Le p.land q.land
  land_loop : ∀ a, Le (p.land_loop a) (q.land_loop a)
  eq : Le p.eq q.eq
  comp : Le p.comp q.comp
  comp_loop : ∀ a, Le (p.comp_loop a) (q.comp_loop a)
  bitor : Le p.bitor q.bitor
  bitor_loop : ∀ a, Le (p.bitor_loop a) (q.bitor_loop a)
  bitand : Le p.bitand q.bitand
  bitand_loop : ∀ a, Le (p.bitand_loop a) (q.bitand_loop a)
  shift : Le p.shift q.shift
  shift_loop : ∀ a, Le (p.shift_loop a) (q.shift_loop a)
  add : Le p.add q.add
  add_loop : ∀ a, Le (p.add_loop a) (q.add_loop a)
  mul : Le p.mul q.mul
  mul_loop : ∀ a, Le (p.mul_loop a) (q.mul_loop a)
  unary_minus : Le p.unary_minus q.unary_minus
  acc_assign : ∀ a, Le (p.acc_assign a) (q.acc_assign a)
  assign_op : ∀ a b, Le (p.assign_op a b) (q.assign_op a b)
  exponent : Le p.exponent q.exponent
  unary : Le p.unary q.unary
  method_call : Le p.method_call q.method_call
  method_call_loop : ∀ a, Le (p.method_call_loop a) (q.method_call_loop a)
  primary_method : ∀ a b, Le (p.primary_method a b) (q.primary_method a b)
  primary : ∀ a, Le (p.primary a) (q.primary a)
  arglist : ∀ a, Le (p.arglist a) (q.arglist a)
  arglist_loop : ∀ a b, Le (p.arglist_loop a b) (q.arglist_loop a b)
  if_then : Le p.if_then q.if_then
  while_ : ∀ a, Le (p.while_ a) (q.while_ a)
  break_sub : Le p.break_sub q.break_sub
  break_loop : ∀ a, Le (p.break_loop a) (q.break_loop a)

macro "mono" h:ident : tactic => `(tactic| repeat (first
  | with_reducible refine Le.bind ?_ (fun _ => ?_)
  | with_reducible exact Le.refl _
  | with_reducible refine Le.ite ?_ ?_
  | with_reducible exact ($h).comp_stmt
  | with_reducible exact ($h).comp_stmt_loop _
  | with_reducible exact ($h).stmt
  | with_reducible exact ($h).stmt_loop _
  | with_reducible exact ($h).expr
  | with_reducible exact ($h).expr_loop _
  | with_reducible exact ($h).not_
  | with_reducible exact ($h).mlhs_loop _
  | with_reducible exact ($h).mul_assign _
  | with_reducible exact ($h).rhs_if_allowed
  | with_reducible exact ($h).rhs _
  | with_reducible exact ($h).rhs_loop _ _
  | with_reducible exact ($h).arg
  | with_reducible exact ($h).arg_assign
  | with_reducible exact ($h).ternary
  | with_reducible exact ($h).range
  | with_reducible exact ($h).lor
  | with_reducible exact ($h).lor_loop _
  | with_reducible exact ($h).land
  | with_reducible exact ($h).land_loop _
  | with_reducible exact ($h).eq
  | with_reducible exact ($h).comp
  | with_reducible exact ($h).comp_loop _
  | with_reducible exact ($h).bitor
  | with_reducible exact ($h).bitor_loop _
  | with_reducible exact ($h).bitand
  | with_reducible exact ($h).bitand_loop _
  | with_reducible exact ($h).shift
  | with_reducible exact ($h).shift_loop _
  | with_reducible exact ($h).add
  | with_reducible exact ($h).add_loop _
  | with_reducible exact ($h).mul
  | with_reducible exact ($h).mul_loop _
  | with_reducible exact ($h).unary_minus
  | with_reducible exact ($h).acc_assign _
  | with_reducible exact ($h).assign_op _ _
  | with_reducible exact ($h).exponent
  | with_reducible exact ($h).unary
  | with_reducible exact ($h).method_call
  | with_reducible exact ($h).method_call_loop _
  | with_reducible exact ($h).primary_method _ _
  | with_reducible exact ($h).primary _
  | with_reducible exact ($h).arglist _
  | with_reducible exact ($h).arglist_loop _ _
  | with_reducible exact ($h).if_then
  | with_reducible exact ($h).while_ _
  | with_reducible exact ($h).break_sub
  | with_reducible exact ($h).break_loop _
  | with_reducible refine Le.env ?_
  | with_reducible apply_assumption
  | split
  | (dsimp only)))

section
variable {p q : Parsers} (h : PLe p q)
include h

theorem parse_comp_stmt_loop_mono (nodes : List Node) : Le (parse_comp_stmt_loop p nodes) (parse_comp_stmt_loop q nodes) := by
  unfold parse_comp_stmt_loop
  mono h

theorem parse_comp_stmt_mono : Le (parse_comp_stmt p ) (parse_comp_stmt q ) := by
  unfold parse_comp_stmt
  mono h

theorem parse_stmt_loop_mono (node : Node) : Le (parse_stmt_loop p node) (parse_stmt_loop q node) := by
  unfold parse_stmt_loop
  mono h

theorem parse_stmt_mono : Le (parse_stmt p ) (parse_stmt q ) := by
  unfold parse_stmt
  mono h

theorem parse_expr_loop_mono (node : Node) : Le (parse_expr_loop p node) (parse_expr_loop q node) := by
  unfold parse_expr_loop
  mono h

theorem parse_expr_mono : Le (parse_expr p ) (parse_expr q ) := by
  unfold parse_expr
  mono h

theorem parse_not_mono : Le (parse_not p ) (parse_not q ) := by
  unfold parse_not
  mono h

theorem parse_mlhs_loop_mono (mlhs : List Node) : Le (parse_mlhs_loop p mlhs) (parse_mlhs_loop q mlhs) := by
  unfold parse_mlhs_loop
  mono h

theorem parse_mul_assign_mono (node : Node) : Le (parse_mul_assign p node) (parse_mul_assign q node) := by
  unfold parse_mul_assign
  mono h

theorem parse_mul_assign_rhs_if_allowed_mono : Le (parse_mul_assign_rhs_if_allowed p ) (parse_mul_assign_rhs_if_allowed q ) := by
  intro fl st
  show (if fl.mul = true then _ else _) = _ ∨ (if fl.mul = true then _ else _) = (if fl.mul = true then _ else _)
  by_cases hm : fl.mul = true
  · rw [if_pos hm, if_pos hm]
    exact Le.bind h.arg (fun _ => Le.refl _) fl st
  · rw [if_neg hm, if_neg hm]
    exact h.rhs none fl st

theorem parse_rhs_item_mono (term : Option Punct) (args : List Node) : Le (parse_rhs_item p term args) (parse_rhs_item q term args) := by
  unfold parse_rhs_item
  mono h

theorem parse_mul_assign_rhs_loop_mono (term : Option Punct) (args : List Node) : Le (parse_mul_assign_rhs_loop p term args) (parse_mul_assign_rhs_loop q term args) := by
  have h0 := @parse_rhs_item_mono _ _ h
  unfold parse_mul_assign_rhs_loop
  mono h

theorem parse_mul_assign_rhs_mono (term : Option Punct) : Le (parse_mul_assign_rhs p term) (parse_mul_assign_rhs q term) := by
  unfold parse_mul_assign_rhs
  mono h

theorem parse_arg_mono : Le (parse_arg p ) (parse_arg q ) := by
  unfold parse_arg
  mono h

theorem parse_arg_assign_mono : Le (parse_arg_assign p ) (parse_arg_assign q ) := by
  unfold parse_arg_assign
  mono h

theorem parse_arg_ternary_mono : Le (parse_arg_ternary p ) (parse_arg_ternary q ) := by
  unfold parse_arg_ternary
  mono h

theorem parse_arg_range_mono : Le (parse_arg_range p ) (parse_arg_range q ) := by
  unfold parse_arg_range
  mono h

theorem parse_arg_logical_or_mono : Le (parse_arg_logical_or p ) (parse_arg_logical_or q ) := by
  unfold parse_arg_logical_or
  mono h

theorem parse_arg_logical_and_mono : Le (parse_arg_logical_and p ) (parse_arg_logical_and q ) := by
  unfold parse_arg_logical_and
  mono h

theorem parse_arg_eq_mono : Le (parse_arg_eq p ) (parse_arg_eq q ) := by
  unfold parse_arg_eq
  mono h

theorem parse_arg_comp_mono : Le (parse_arg_comp p ) (parse_arg_comp q ) := by
  unfold parse_arg_comp
  mono h

theorem parse_arg_bitor_mono : Le (parse_arg_bitor p ) (parse_arg_bitor q ) := by
  unfold parse_arg_bitor
  mono h

theorem parse_arg_bitand_mono : Le (parse_arg_bitand p ) (parse_arg_bitand q ) := by
  unfold parse_arg_bitand
  mono h

theorem parse_arg_shift_mono : Le (parse_arg_shift p ) (parse_arg_shift q ) := by
  unfold parse_arg_shift
  mono h

theorem parse_arg_add_mono : Le (parse_arg_add p ) (parse_arg_add q ) := by
  unfold parse_arg_add
  mono h

theorem parse_arg_mul_mono : Le (parse_arg_mul p ) (parse_arg_mul q ) := by
  unfold parse_arg_mul
  mono h

theorem parse_unary_minus_mono : Le (parse_unary_minus p ) (parse_unary_minus q ) := by
  unfold parse_unary_minus
  mono h

theorem parse_accesory_assign_mono (lhs : Node) : Le (parse_accesory_assign p lhs) (parse_accesory_assign q lhs) := by
  have k : Le (do
      if ← consume_punct_no_term .Assign then
        check_lhs lhs
        let mrhs ← p.rhs_if_allowed
        return new_mul_assign [lhs] mrhs
      else match ← consume_assign_op_no_term with
        | some op => p.assign_op lhs op
        | none => return lhs : P Node)
      (do
      if ← consume_punct_no_term .Assign then
        check_lhs lhs
        let mrhs ← q.rhs_if_allowed
        return new_mul_assign [lhs] mrhs
      else match ← consume_assign_op_no_term with
        | some op => q.assign_op lhs op
        | none => return lhs : P Node) := by
    mono h
  intro fl st
  rcases fl with ⟨U, a, b, c⟩
  unfold parse_accesory_assign
  cases a
  · cases b
    · cases c
      · exact k _ st
      · exact k _ st
    · cases c
      · exact k _ st
      · exact k _ st
  · exact .inr rfl

theorem parse_assign_op_mono (lhs : Node) (op : BinOp) : Le (parse_assign_op p lhs op) (parse_assign_op q lhs op) := by
  unfold parse_assign_op
  mono h

theorem parse_exponent_mono : Le (parse_exponent p ) (parse_exponent q ) := by
  unfold parse_exponent
  mono h

theorem parse_unary_mono : Le (parse_unary p ) (parse_unary q ) := by
  unfold parse_unary
  mono h

theorem parse_method_call_loop_mono (node : Node) : Le (parse_method_call_loop p node) (parse_method_call_loop q node) := by
  unfold parse_method_call_loop
  mono h

theorem parse_method_call_mono : Le (parse_method_call p ) (parse_method_call q ) := by
  unfold parse_method_call
  mono h

theorem parse_arglist_block_mono (delimiter : Option Punct) : Le (parse_arglist_block p delimiter) (parse_arglist_block q delimiter) := by
  unfold parse_arglist_block
  mono h

theorem parse_primary_method_mono (receiver : Node) (safe_nav : _root_.Bool) : Le (parse_primary_method p receiver safe_nav) (parse_primary_method q receiver safe_nav) := by
  have h0 := @parse_arglist_block_mono _ _ h
  unfold parse_primary_method
  mono h

theorem parse_command_mono (operation : Chars) : Le (parse_command p operation) (parse_command q operation) := by
  have h0 := @parse_arglist_block_mono _ _ h
  unfold parse_command
  mono h

theorem parse_function_args_mono (x : Chars) : Le (parse_function_args p x) (parse_function_args q x) := by
  have h0 := @parse_arglist_block_mono _ _ h
  unfold parse_function_args
  mono h

theorem parse_new_ident_mono (suppress_unparen_call : _root_.Bool) (name : Chars) : Le (parse_new_ident p suppress_unparen_call name) (parse_new_ident q suppress_unparen_call name) := by
  have h0 := @parse_function_args_mono _ _ h
  have h1 := @parse_command_mono _ _ h
  have k : ∀ r : Except Lexer.Err (Tok × Chars), Le (match r with
      | .ok (.Punct .Comma, _) => pure (Node.Ident name)
      | .ok (.Punct .LBrace, _) => parse_function_args p name
      | .ok (.Reserved .Do, _) => parse_function_args p name
      | _ => do
        if !suppress_unparen_call && (← is_command) then parse_command p name else return Node.Ident name : P Node)
      (match r with
      | .ok (.Punct .Comma, _) => pure (Node.Ident name)
      | .ok (.Punct .LBrace, _) => parse_function_args q name
      | .ok (.Reserved .Do, _) => parse_function_args q name
      | _ => do
        if !suppress_unparen_call && (← is_command) then parse_command q name else return Node.Ident name : P Node) := by
    intro r
    mono h
  exact fun fl st => k _ fl st

theorem parse_ident_mono (suppress_unparen_call : _root_.Bool) (name : Chars) : Le (parse_ident p suppress_unparen_call name) (parse_ident q suppress_unparen_call name) := by
  have h0 := @parse_function_args_mono _ _ h
  have h1 := @parse_new_ident_mono _ _ h
  unfold parse_ident
  mono h

theorem parse_const_mono (suppress_unparen_call : _root_.Bool) (name : Chars) : Le (parse_const p suppress_unparen_call name) (parse_const q suppress_unparen_call name) := by
  have h0 := @parse_function_args_mono _ _ h
  have h1 := @parse_command_mono _ _ h
  unfold parse_const
  mono h

theorem parse_if_mono : Le (parse_if p ) (parse_if q ) := by
  unfold parse_if
  mono h

theorem parse_if_then_mono : Le (parse_if_then p ) (parse_if_then q ) := by
  unfold parse_if_then
  mono h

theorem parse_unless_mono : Le (parse_unless p ) (parse_unless q ) := by
  unfold parse_unless
  mono h

theorem parse_while_mono (is_while : _root_.Bool) : Le (parse_while p is_while) (parse_while q is_while) := by
  unfold parse_while
  mono h

theorem parse_break_loop_mono (l : List Node) : Le (parse_break_loop p l) (parse_break_loop q l) := by
  unfold parse_break_loop
  mono h

theorem parse_break_sub_mono : Le (parse_break_sub p ) (parse_break_sub q ) := by
  unfold parse_break_sub
  mono h

theorem parse_begin_mono : Le (parse_begin p) (parse_begin q) := by
  unfold parse_begin
  mono h

omit h in
theorem Le.inScope {α : Type} {x y : P α} (h : Le x y) : Le (inScope x) (inScope y) := by
  intro fl st
  unfold Parser.inScope
  rcases h fl { st with lvars := [] } with h | h
  · rw [h]; exact .inl rfl
  · rw [h]; exact .inr rfl

theorem parse_def_mono : Le (parse_def p) (parse_def q) := by
  unfold parse_def
  refine Le.bind (Le.refl _) fun name => Le.bind (Le.inScope (Le.bind (Le.refl _) fun params => ?_)) fun r => Le.refl _
  exact Le.bind (parse_begin_mono h) fun body => Le.refl _

theorem parse_primary_mono (suppress_unparen_call : _root_.Bool) : Le (parse_primary p suppress_unparen_call) (parse_primary q suppress_unparen_call) := by
  have h0 := @parse_ident_mono _ _ h
  have h1 := @parse_const_mono _ _ h
  have h2 := @parse_if_mono _ _ h
  have h3 := @parse_unless_mono _ _ h
  have h4 := @parse_def_mono _ _ h
  unfold parse_primary
  mono h

theorem parse_arglist_item_mono (punct : Option Punct) (args : List Node) : Le (parse_arglist_item p punct args) (parse_arglist_item q punct args) := by
  unfold parse_arglist_item
  mono h

theorem parse_arglist_loop_mono (punct : Option Punct) (args : List Node) : Le (parse_arglist_loop p punct args) (parse_arglist_loop q punct args) := by
  have h0 := @parse_arglist_item_mono _ _ h
  unfold parse_arglist_loop
  mono h

theorem parse_arglist_mono (punct : Option Punct) : Le (parse_arglist p punct) (parse_arglist q punct) := by
  unfold parse_arglist
  mono h

omit h in
theorem bin_loop_mono {ops : Punct → Option BinOp} {x y : P Node} {f g : Node → P Node} (h1 : Le x y)
    (h2 : ∀ e, Le (f e) (g e)) (lhs : Node) : Le (bin_loop ops x f lhs) (bin_loop ops y g lhs) := by
  unfold bin_loop
  mono h1

end

theorem level_mono (n : Nat) : PLe (level n) (level (n + 1)) := by
  induction n with
  | zero => constructor <;> intros <;> exact Le.bot
  | succ n h =>
    constructor
    · exact parse_comp_stmt_mono h
    · exact parse_comp_stmt_loop_mono h
    · exact parse_stmt_mono h
    · exact parse_stmt_loop_mono h
    · exact parse_expr_mono h
    · exact parse_expr_loop_mono h
    · exact parse_not_mono h
    · exact parse_mlhs_loop_mono h
    · exact parse_mul_assign_mono h
    · exact parse_mul_assign_rhs_if_allowed_mono h
    · exact parse_mul_assign_rhs_mono h
    · exact parse_mul_assign_rhs_loop_mono h
    · exact parse_arg_mono h
    · exact parse_arg_assign_mono h
    · exact parse_arg_ternary_mono h
    · exact parse_arg_range_mono h
    · exact parse_arg_logical_or_mono h
    · exact bin_loop_mono h.land h.lor_loop
    · exact parse_arg_logical_and_mono h
    · exact bin_loop_mono h.eq h.land_loop
    · exact parse_arg_eq_mono h
    · exact parse_arg_comp_mono h
    · exact bin_loop_mono h.bitor h.comp_loop
    · exact parse_arg_bitor_mono h
    · exact bin_loop_mono h.bitand h.bitor_loop
    · exact parse_arg_bitand_mono h
    · exact bin_loop_mono h.shift h.bitand_loop
    · exact parse_arg_shift_mono h
    · exact bin_loop_mono h.add h.shift_loop
    · exact parse_arg_add_mono h
    · exact bin_loop_mono h.mul h.add_loop
    · exact parse_arg_mul_mono h
    · exact bin_loop_mono h.unary_minus h.mul_loop
    · exact parse_unary_minus_mono h
    · exact parse_accesory_assign_mono h
    · exact parse_assign_op_mono h
    · exact parse_exponent_mono h
    · exact parse_unary_mono h
    · exact parse_method_call_mono h
    · exact parse_method_call_loop_mono h
    · exact parse_primary_method_mono h
    · exact parse_primary_mono h
    · exact parse_arglist_mono h
    · exact parse_arglist_loop_mono h
    · exact parse_if_then_mono h
    · exact parse_while_mono h
    · exact parse_break_sub_mono h
    · exact parse_break_loop_mono h

theorem level_le {n k : Nat} (h : n ≤ k) {fl : Env} {st : St} :
    (level n).comp_stmt fl st = .error .fuel ∨ (level n).comp_stmt fl st = (level k).comp_stmt fl st := by
  induction h with
  | refl => exact .inr rfl
  | step h ih =>
    rcases ih with ih | ih
    · exact .inl ih
    · rw [ih]; exact (level_mono _).comp_stmt fl st

/-- What the parser answers at one recursion depth it answers at every greater one. -/
theorem parse_program_mono (U : Unicode) {n k : Nat} (h : n ≤ k) (code : Chars) :
    parse_program U n code = .error .fuel ∨ parse_program U n code = parse_program U k code := by
  unfold parse_program
  rcases level_le h (fl := ⟨U, false, false, false⟩) (st := ⟨code, []⟩) with h | h
  · rw [h]; exact .inl rfl
  · rw [h]; exact .inr rfl

end Verif.Parser
