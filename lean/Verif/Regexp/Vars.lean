import Verif.Regexp.Model
import Verif.Lexer.Model
import Verif.Lexer.Lemmas
/-!
# C124: global variables, and the variables that a match sets

What `$x`, `$&`, `$'`, `$1`… give, after any history of assignments, matches, calls and fibers.
-/
namespace Verif.Regexp.Vars

open Verif.Lexer (Chars Tok Unicode is_digit read_global_var special_digits)

/-! ## Model -/

/-- The part of the machine that is read and written here.  `global_var` is the table of `Globals`, which all fibers share;
the fields for matches belong to a `VM`, one for each fiber (ruruby/src/vm/executor.rs:39-41). -/
structure State (V : Type) where
  global_var : List (Chars × V)
  specials : Nat → Specials

/-- ruruby/src/vm/executor.rs:105-107,162-164: a new `VM` -/
def fresh : Specials := ⟨none, none, []⟩

/-- Steps of a program, as far as they concern these variables.  `fiber` is the fiber that makes the step.  The frames of a fiber are pushed
and popped by `call` and `return_`. -/
inductive Op (V : Type)
  | assign (name : Chars) (v : V)
  | matched (fiber : Nat) (c : Caps) (given : Bytes)
  | unmatched (fiber : Nat)
  | call (fiber : Nat)
  | return_ (fiber : Nat)
  | new_fiber (fiber : Nat)

/-- ruruby/src/globals/constants.rs:8-10 (set_global_var) -/
def set_global_var {V} (t : List (Chars × V)) (id : Chars) (v : V) : List (Chars × V) := (id, v) :: t.filter (·.1 ≠ id)

/-- ruruby/src/globals/constants.rs:4-6 (get_global_var) -/
def get_global_var {V} (t : List (Chars × V)) (id : Chars) : Option V := t.lookup id

/-- `Inst::GET_GVAR`, ruruby/src/vm/executor/opt_core.rs:337-341; `nil` is the default of a value -/
def GET_GVAR {V} (nil : V) (s : State V) (id : Chars) : V := (get_global_var s.global_var id).getD nil

/-- `Inst::CHECK_GVAR`, ruruby/src/vm/executor/opt_core.rs:342-346: whether `$x ||= v` has to assign because there is no `$x` -/
def CHECK_GVAR {V} (s : State V) (id : Chars) : Bool := (get_global_var s.global_var id).isNone

/-- One step: `SET_GVAR` (ruruby/src/vm/executor/opt_core.rs:332-336); a match calls `get_captures`, a failed one does nothing
(ruruby/src/builtin/regexp.rs:85-88,192-194,217-219,235-237); calls and returns leave the fields alone; a fiber starts with a new `VM`
(ruruby/src/vm/executor.rs:152-168). -/
def step {V} (s : State V) : Op V → State V
  | .assign x v => { s with global_var := set_global_var s.global_var x v }
  | .matched f c t => { s with specials := fun g => if g = f then get_captures c t else s.specials g }
  | .unmatched _ => s
  | .call _ => s
  | .return_ _ => s
  | .new_fiber f => { s with specials := fun g => if g = f then fresh else s.specials g }

/-- A program starts with no global variables (those that ruruby sets itself are left out). -/
def start {V} : State V := ⟨[], fun _ => fresh⟩

def run {V} (ops : List (Op V)) : State V := ops.foldl step start

/-- A text, nil, or a panic. -/
inductive Read | text (t : Bytes) | nil | panic
  deriving DecidableEq, Repr

/-- `None` becomes nil (`unwrap_or_default`, ruruby/src/vm/executor.rs:526,531,574). -/
def text_or_nil : Option Bytes → Read
  | some t => .text t
  | none => .nil

/-- ruruby/src/vm/executor.rs:521-538 (get_special_var) and :571-576: `nth - 1` underflows for 0 -/
def get_special_var (sp : Specials) (id : Nat) : Read :=
  if id = 0 then text_or_nil sp.last
  else if id = 1 then text_or_nil sp.post
  else if id ≥ 100 then (if id = 100 then .panic else text_or_nil (get_special_matches sp (id - 100)))
  else .panic

/-- ruruby/src/codegen.rs:1715-1728 (emit_set_special_var): whether an assignment compiles.  If it did, it would panic when run
(ruruby/src/vm/executor.rs:540-542). -/
def emit_set_special_var (id : Nat) : Bool := if id = 0 ∨ id = 1 ∨ id ≥ 100 then false else true

/-! ## Specification -/

/-- The value given to `x` last. -/
def lastAssigned {V} (x : Chars) : List (Op V) → Option V
  | [] => none
  | .assign y v :: ops => (lastAssigned x ops).or (if y = x then some v else none)
  | _ :: ops => lastAssigned x ops

/-- The last match of each frame of a fiber, innermost first, as in Ruby: a failed match leaves none. -/
def frames {V} (f : Nat) : List (Op V) → List (Option (Caps × Bytes)) → List (Option (Caps × Bytes))
  | [], l => l
  | .matched g c t :: ops, l => frames f ops (if g = f then some (c, t) :: l.tail else l)
  | .unmatched g :: ops, l => frames f ops (if g = f then none :: l.tail else l)
  | .call g :: ops, l => frames f ops (if g = f then none :: l else l)
  | .return_ g :: ops, l => frames f ops (if g = f then l.tail else l)
  | .new_fiber g :: ops, l => frames f ops (if g = f then [none] else l)
  | .assign _ _ :: ops, l => frames f ops l

/-- Steps that do not concern the fiber `f`. -/
def Other {V} (f : Nat) : Op V → Prop
  | .assign _ _ => True
  | .matched g _ _ | .unmatched g | .call g | .return_ g | .new_fiber g => g ≠ f

/-- Steps in which the fiber `f` matches nothing, and returns from all that it calls. -/
inductive Quiet {V} (f : Nat) : List (Op V) → Prop
  | done : Quiet f []
  | other {o ops} : Other f o → Quiet f ops → Quiet f (o :: ops)
  | call {a b} : Quiet f a → Quiet f b → Quiet f (.call f :: (a ++ .return_ f :: b))

/-- `$n` is the text of the `n`-th pair of parentheses, if it took part; `$&` and `$'` are the text of the match and what follows it. -/
structure Shows (sp : Specials) (c : Caps) (t : Bytes) : Prop where
  whole : get_special_var sp 0 = .text ((t.take c.whole.stop).drop c.whole.start)
  post : get_special_var sp 1 = .text (t.drop c.whole.stop)
  group : ∀ n s, c.groups[n]? = some (some s) → get_special_var sp (n + 101) = .text ((t.take s.stop).drop s.start)
  none : ∀ n, (∀ s, c.groups[n]? ≠ some (some s)) → get_special_var sp (n + 101) = .nil

/-! ## Helpers -/

theorem lookup_filter_ne {V} {x y : Chars} (h : x ≠ y) (t : List (Chars × V)) : (t.filter (·.1 ≠ y)).lookup x = t.lookup x := by
  induction t with
  | nil => rfl
  | cons p t ih =>
    by_cases hp : p.1 = y
    · simp [hp, List.lookup]
      rw [show (x == y) = false by simpa using h]
      simpa using ih
    · rw [List.filter_cons_of_pos (by simpa using hp)]
      simp only [List.lookup]
      split
      · rfl
      · exact ih

theorem get_set {V} (t : List (Chars × V)) (x y : Chars) (v : V) :
    get_global_var (set_global_var t y v) x = if y = x then some v else get_global_var t x := by
  unfold get_global_var set_global_var
  by_cases h : y = x
  · subst h; simp
  · rw [if_neg h]
    simp only [List.lookup]
    rw [show (x == y) = false by simpa using fun e => h e.symm]
    exact lookup_filter_ne (fun e => h e.symm) t

theorem global_foldl {V} (x : Chars) (ops : List (Op V)) (s : State V) :
    get_global_var (ops.foldl step s).global_var x = (lastAssigned x ops).or (get_global_var s.global_var x) := by
  induction ops generalizing s with
  | nil => simp [lastAssigned]
  | cons o ops ih =>
    rw [List.foldl_cons, ih]
    cases o with
    | assign y v =>
      simp only [step, get_set, lastAssigned]
      cases lastAssigned x ops with
      | some w => simp
      | none => by_cases h : y = x <;> simp [h]
    | _ => simp [step, lastAssigned]

theorem quiet_specials {V} {f : Nat} {ops : List (Op V)} (h : Quiet f ops) : ∀ s : State V, (ops.foldl step s).specials f = s.specials f := by
  induction h with
  | done => intro s; rfl
  | @other o ops ho _ ih =>
    intro s
    rw [List.foldl_cons, ih]
    cases o with
    | matched g c t => exact if_neg fun e => ho e.symm
    | new_fiber g => exact if_neg fun e => ho e.symm
    | _ => rfl
  | call _ _ iha ihb =>
    intro s
    rw [List.foldl_cons, List.foldl_append, List.foldl_cons, ihb]
    exact iha s

theorem frames_append {V} (f : Nat) (a b : List (Op V)) : ∀ l, frames f (a ++ b) l = frames f b (frames f a l) := by
  induction a with
  | nil => intro l; rfl
  | cons o a ih => intro l; cases o <;> simp [frames, ih]

theorem quiet_frames {V} {f : Nat} {ops : List (Op V)} (h : Quiet f ops) : ∀ l, frames f ops l = l := by
  induction h with
  | done => intro l; rfl
  | @other o ops ho _ ih => intro l; cases o <;> simp_all [frames, Other]
  | call _ _ iha ihb =>
    intro l
    simp [frames, frames_append, iha, ihb]

theorem shows_captures (c : Caps) (t : Bytes) : Shows (get_captures c t) c t := by
  have hg : ∀ n, get_special_var (get_captures c t) (n + 101) = text_or_nil (get_special_matches (get_captures c t) (n + 1)) := by
    intro n
    unfold get_special_var
    rw [if_neg (by omega), if_neg (by omega), if_pos (by omega), if_neg (by omega)]
    congr 2
  refine ⟨rfl, rfl, ?_, ?_⟩
  · intro n s h
    rw [hg]
    simp [get_special_matches, get_captures, h, text_or_nil, slice]
  · intro n h
    rw [hg]
    simp only [get_special_matches, get_captures, Nat.add_sub_cancel, List.getElem?_map]
    cases hn : c.groups[n]? with
    | none => rfl
    | some o =>
      cases o with
      | none => rfl
      | some s => exact absurd hn (h s)

theorem special_digits_ge (s : Chars) : ∀ id, id ≤ (special_digits id s).1 := by
  induction s with
  | nil => intro id; exact Nat.le_refl _
  | cons c s ih =>
    intro id
    unfold special_digits
    split
    · exact Nat.le_trans (Nat.le_add_right _ _) (ih _)
    · exact Nat.le_refl _

theorem special_id {U : Unicode} {s r : Chars} {id : Nat} (h : read_global_var U s = .ok (.SpecialVar id, r)) :
    id = 0 ∨ id = 1 ∨ 100 < id := by
  have key : ∀ y : Lexer.Lex Chars, (y.map fun (n, s) => (Tok.GlobalVar n, s)) ≠ .ok (.SpecialVar id, r) := by
    intro y e
    cases y <;> cases e
  unfold read_global_var at h
  split at h
  · cases h
  · rename_i c s' hne hc
    cases h
    refine .inr (.inr ?_)
    have hd : is_digit c = true ∧ c ≠ '0' := by
      unfold Lexer.consume_numeric at hc
      split at hc
      · split at hc
        · rename_i hd
          cases hc
          refine ⟨hd, ?_⟩
          rintro rfl
          exact hne rfl
        · cases hc
      · cases hc
    have h1 : 1 ≤ c.toNat - '0'.toNat := by
      obtain ⟨a, b⟩ := hd
      simp only [is_digit, decide_eq_true_eq, Bool.decide_and, Bool.and_eq_true] at a
      have h0 : '0'.toNat ≤ c.toNat := a.1
      have hn : c.toNat ≠ '0'.toNat := fun e => b (Char.ext (UInt32.toNat_inj.1 e))
      omega
    have := special_digits_ge s' (c.toNat - '0'.toNat)
    omega
  · split at h
    · split at h
      · split at h
        · cases h; exact .inl rfl
        · split at h
          · cases h; exact .inr (.inl rfl)
          · cases h
      · exact absurd h (key _)
    · exact absurd h (key _)

/-! ## C124 -/

/-- A global variable has the value given to it last, in whatever method, block or fiber, and is nil before; `||=` takes it as not there
exactly if it was never assigned. -/
theorem C124_global {V} (nil : V) (ops : List (Op V)) (x : Chars) :
    GET_GVAR nil (run ops) x = (lastAssigned x ops).getD nil ∧ (CHECK_GVAR (run ops) x = true ↔ lastAssigned x ops = none) := by
  have h := global_foldl x ops start
  have h0 : get_global_var (start : State V).global_var x = none := rfl
  rw [h0, Option.or_none] at h
  simp only [GET_GVAR, CHECK_GVAR, run, h]
  exact ⟨trivial, by cases lastAssigned x ops <;> simp⟩

/-- After a match, `$&`, `$'` and `$1`… tell about it, as long as the fiber does not match anything else: whatever methods it calls and
whatever other fibers do.  The match is the one that Ruby would show there.  Partial: a failed match (`C124_failed_fails`) and
a match in a method that is called (`C124_called_fails`). -/
theorem C124_special_partial {V} {f : Nat} (before after : List (Op V)) (c : Caps) (t : Bytes) (h : Quiet f after) :
    Shows ((run (before ++ .matched f c t :: after)).specials f) c t ∧
    (frames f (before ++ .matched f c t :: after) [none]).head? = some (some (c, t)) := by
  constructor
  · unfold run
    rw [List.foldl_append, List.foldl_cons, quiet_specials h]
    simp only [step, if_true]
    exact shows_captures c t
  · rw [frames_append]
    simp [frames, quiet_frames h]

/-- Before the first match of a fiber they are all nil. -/
theorem C124_before_match {V} {f : Nat} (ops : List (Op V)) (h : Quiet f ops) (id : Nat) (hid : id = 0 ∨ id = 1 ∨ 100 < id) :
    get_special_var ((run ops).specials f) id = .nil ∧
    get_special_var ((run (.new_fiber f :: ops)).specials f) id = .nil := by
  have key : get_special_var fresh id = .nil := by
    unfold get_special_var
    rcases hid with rfl | rfl | hid
    · rfl
    · rfl
    · rw [if_neg (by omega), if_neg (by omega), if_pos (by omega), if_neg (by omega)]
      rfl
  constructor
  · rw [run, quiet_specials h]; exact key
  · rw [run, List.foldl_cons, quiet_specials h]
    simp only [step, if_true]
    exact key

/-- Reading a variable that can be written in a program never panics, and an assignment to one of those that matches set is refused when
the program is compiled (so that the code that would panic does not run). -/
theorem C124_written {U : Unicode} {s r : Chars} {id : Nat} (h : read_global_var U s = .ok (.SpecialVar id, r)) (sp : Specials) :
    get_special_var sp id ≠ .panic ∧ emit_set_special_var id = false := by
  have hid := special_id h
  constructor
  · have ht : ∀ o, text_or_nil o ≠ .panic := by intro o; cases o <;> simp [text_or_nil]
    unfold get_special_var
    rcases hid with rfl | rfl | hid
    · exact ht _
    · exact ht _
    · rw [if_neg (by omega), if_neg (by omega), if_pos (by omega), if_neg (by omega)]
      exact ht _
  · unfold emit_set_special_var
    rw [if_pos (by omega)]

/-- A match that fails leaves the variables as they were; in Ruby they are nil then. -/
theorem C124_failed_fails {V} (f : Nat) (ops : List (Op V)) (c : Caps) (t : Bytes) :
    Shows ((run (ops ++ [.matched f c t, .unmatched f])).specials f) c t ∧
    (frames f (ops ++ [.matched f c t, .unmatched f]) [none]).head? = some none := by
  refine ⟨?_, by simp [frames_append, frames]⟩
  simp only [run, List.foldl_append, List.foldl_cons, List.foldl_nil, step, if_true]
  exact shows_captures c t

/-- A match inside a method changes the variables of its caller; in Ruby those keep telling about the caller's own match. -/
theorem C124_called_fails {V} (f : Nat) (ops : List (Op V)) (c c' : Caps) (t t' : Bytes) :
    Shows ((run (ops ++ [.matched f c t, .call f, .matched f c' t', .return_ f])).specials f) c' t' ∧
    (frames f (ops ++ [.matched f c t, .call f, .matched f c' t', .return_ f]) [none]).head? = some (some (c, t)) := by
  refine ⟨?_, by simp [frames_append, frames]⟩
  simp only [run, List.foldl_append, List.foldl_cons, List.foldl_nil, step, if_true]
  exact shows_captures c' t'

/-! ## Instances -/

example : lastAssigned ['$', 'x'] [Op.assign ['$', 'x'] 1, .call 0, .assign ['$', 'y'] 2, .assign ['$', 'x'] 3, .return_ 0] = some 3 := by decide

example : Quiet 0 [Op.call 0, .assign ['$', 'x'] 1, .matched 1 ⟨⟨0, 0⟩, []⟩ [], .return_ 0] :=
  .call (a := [.assign ['$', 'x'] 1, .matched 1 ⟨⟨0, 0⟩, []⟩ []]) (b := [])
    (.other trivial (.other (by simp [Other]) .done)) .done

example : read_global_var ⟨fun _ => false, fun _ => false⟩ ['2', '+'] = .ok (.SpecialVar 102, ['+']) := by rfl

end Verif.Regexp.Vars
