import Verif.Value.Props
/-!
# Logic on truth values: `&`, `|`, `^` and `!`

`true`, `false` and `nil` answer `&`, `|` and `^` twice: in the instructions (`vm/executor/ops.rs`) and as methods
(`builtin/trueclass.rs`, `falseclass.rs`, `nilclass.rs`, reached with `send`).  Other receivers are out of scope here
(integers: `Verif/Arith`).
-/
namespace Verif.Value

/-! ## Model -/

/-- `value.rs:1237-1239` `to_bool` on values: a reference is a word that is an address (see `C03_objects_true`). -/
def Val.to_bool : Val → Bool
  | .word w => Verif.Value.to_bool w
  | _ => true

/-- `ops.rs:192-210` `invoke_bitand`: `none` when the receiver is an integer with an integer operand or the method is sent. -/
def insn_and (lhs rhs : Val) : Option Val :=
  match unpack lhs with
  | .true => some (bool rhs.to_bool)
  | .false => some false_val
  | .nil => some false_val
  | _ => none

/-- `ops.rs:212-229` `invoke_bitor`; `none` as above. -/
def insn_or (lhs rhs : Val) : Option Val :=
  match unpack lhs with
  | .true => some true_val
  | .false => some (bool rhs.to_bool)
  | .nil => some (bool rhs.to_bool)
  | _ => none

/-- `ops.rs:231-240` `invoke_bitxor`; `none` as above. -/
def insn_xor (lhs rhs : Val) : Option Val :=
  match unpack lhs with
  | .true => some (bool (!rhs.to_bool))
  | .false => some (bool rhs.to_bool)
  | .nil => some (bool rhs.to_bool)
  | _ => none

/-- `opt_core.rs:212-216` the instruction `NOT` -/
def insn_not (lhs : Val) : Val := bool (!lhs.to_bool)

/-- The three operators. -/
inductive LogOp where
  | and | or | xor
  deriving DecidableEq, Repr

/-- `opt_core.rs:188-192` the instruction of an operator -/
def insn : LogOp → Val → Val → Option Val
  | .and => insn_and
  | .or => insn_or
  | .xor => insn_xor

/-- `trueclass.rs:28-41` `and`, `or`, `xor` of `TrueClass` -/
def true_method : LogOp → Val → Val
  | .and, x => bool x.to_bool
  | .or, _ => true_val
  | .xor, x => bool (!x.to_bool)

/-- `falseclass.rs:28-41` `and`, `or`, `xor` of `FalseClass` -/
def false_method : LogOp → Val → Val
  | .and, _ => false_val
  | .or, x => bool x.to_bool
  | .xor, x => bool x.to_bool

/-- `nilclass.rs:34-47` `and`, `or`, `xor` of `NilClass` -/
def nil_method : LogOp → Val → Val
  | .and, _ => false_val
  | .or, x => bool x.to_bool
  | .xor, x => bool x.to_bool

/-- `lhs.send(:op, rhs)`; `none` for other receivers.  The lookup of the method in the class of the receiver
(`trueclass.rs:5-9`, `falseclass.rs:5-9`, `nilclass.rs:5-9`) is folded in. -/
def send_op (op : LogOp) (lhs rhs : Val) : Option Val :=
  match unpack lhs with
  | .true => some (true_method op rhs)
  | .false => some (false_method op rhs)
  | .nil => some (nil_method op rhs)
  | _ => none

/-! ## Specification -/

/-- A value a program can hold: something stored, or a reference to an object. -/
inductive Any where
  | src (s : Src)
  | object (addr : Nat)

/-- The value the interpreter has for it. -/
def Any.val : Any → Val
  | .src s => store s
  | .object a => .obj a

/-- Ruby's truth: everything but `nil` and `false` is true. -/
def Any.truth : Any → Prop
  | .src .nil => False
  | .src .fls => False
  | _ => True

/-- What the operators mean on truth values. -/
def LogOp.means : LogOp → Prop → Prop → Prop
  | .and, p, q => p ∧ q
  | .or, p, q => p ∨ q
  | .xor, p, q => ¬ (p ↔ q)

/-- `v` is `true` or `false`, according to `p`. -/
def IsBool (v : Val) (p : Prop) : Prop := (p ∧ v = store .tru) ∨ (¬ p ∧ v = store .fls)

/-! ## Helpers -/

theorem val_truth (x : Any) : x.val.to_bool = true ↔ x.truth := by
  cases x with
  | object a => simp [Any.val, Val.to_bool, Any.truth]
  | src s =>
    cases hs : store s with
    | word w =>
      have h := C03_truthiness s w hs
      have e : (Any.src s).val.to_bool = to_bool w := by simp [Any.val, hs, Val.to_bool]
      rw [e]
      cases hb : to_bool w with
      | true =>
        have : ¬ (s = .nil ∨ s = .fls) := fun k => by rw [h.2 k] at hb; cases hb
        cases s <;> simp_all [Any.truth]
      | false =>
        rcases h.1 hb with rfl | rfl <;> simp [Any.truth]
    | big n =>
      have e : (Any.src s).val.to_bool = true := by simp [Any.val, hs, Val.to_bool]
      rw [e]
      cases s <;> first | (simp [store, nil, false_val] at hs; done) | simp [Any.truth]
    | flo n =>
      have e : (Any.src s).val.to_bool = true := by simp [Any.val, hs, Val.to_bool]
      rw [e]
      cases s <;> first | (simp [store, nil, false_val] at hs; done) | simp [Any.truth]
    | obj n =>
      have e : (Any.src s).val.to_bool = true := by simp [Any.val, hs, Val.to_bool]
      rw [e]
      cases s <;> first | (simp [store, nil, false_val] at hs; done) | simp [Any.truth]

theorem isBool_bool {b : Bool} {p : Prop} (h : b = true ↔ p) : IsBool (bool b) p := by
  cases b with
  | true => exact .inl ⟨h.1 rfl, rfl⟩
  | false => exact .inr ⟨fun k => by simpa using h.2 k, rfl⟩

theorem unpack_tru : unpack (store .tru) = .true := by decide
theorem unpack_fls : unpack (store .fls) = .false := by decide
theorem unpack_nil : unpack (store .nil) = .nil := by decide

theorem table (f : Val → Val → Option Val) (op : LogOp) (hf : f = insn op ∨ f = send_op op) (s : Src)
    (hs : s = .tru ∨ s = .fls ∨ s = .nil) (x : Any) :
    ∃ v, f (store s) x.val = some v ∧ IsBool v (op.means (Any.src s).truth x.truth) := by
  have hx := val_truth x
  have t1 : (Any.src .tru).truth = True := rfl
  have t2 : (Any.src .fls).truth = False := rfl
  have t3 : (Any.src .nil).truth = False := rfl
  have hn : (!x.val.to_bool) = true ↔ ¬ x.truth := by rw [← hx]; cases x.val.to_bool <;> simp
  rcases hf with rfl | rfl <;> rcases hs with rfl | rfl | rfl <;> cases op <;>
    simp only [insn, insn_and, insn_or, insn_xor, send_op, true_method, false_method, nil_method, unpack_tru, unpack_fls, unpack_nil] <;>
    refine ⟨_, rfl, ?_⟩ <;> simp only [LogOp.means, t1, t2, t3]
  all_goals first
    | exact .inl ⟨by simp, rfl⟩
    | exact .inr ⟨by simp, rfl⟩
    | (refine isBool_bool ?_; rw [hn]; simp; done)
    | (refine isBool_bool ?_; rw [hx]; simp; done)

/-! ## C03 -/

/-- **C03** (operators).  With `true`, `false` or `nil` on the left and any value on the right, `&`, `|` and `^` give `true` or `false`
as conjunction, disjunction and exclusive or of the truth of the two; and `send` with the operator's name gives the same. -/
theorem C03_operators (op : LogOp) (s : Src) (hs : s = .tru ∨ s = .fls ∨ s = .nil) (x : Any) :
    ∃ v, insn op (store s) x.val = some v ∧ send_op op (store s) x.val = some v ∧
      IsBool v (op.means (Any.src s).truth x.truth) := by
  obtain ⟨v, h1, h2⟩ := table (insn op) op (.inl rfl) s hs x
  obtain ⟨u, k1, k2⟩ := table (send_op op) op (.inr rfl) s hs x
  have : u = v := by
    rcases h2 with ⟨a, rfl⟩ | ⟨a, rfl⟩ <;> rcases k2 with ⟨b, rfl⟩ | ⟨b, rfl⟩ <;> first | rfl | exact absurd a b | exact absurd b a
  subst this
  exact ⟨u, h1, k1, h2⟩

/-- `nil | 0` is `true`; `true ^ obj` is `false`; `false & x` is `false`. -/
example : insn .or (store .nil) (Any.src (.int 0)).val = some (store .tru) ∧ insn .xor (store .tru) (Any.object 8).val = some (store .fls) ∧
    send_op .and (store .fls) (Any.object 8).val = some (store .fls) := by decide

/-- **C03** (`!`).  `!x` is `true` for `nil` and `false`, and `false` for every other value. -/
theorem C03_not (x : Any) : IsBool (insn_not x.val) (¬ x.truth) := by
  apply isBool_bool
  rw [← val_truth x]
  cases x.val.to_bool <;> simp

example : insn_not (Any.src (.int 0)).val = store .fls ∧ insn_not (Any.src .nil).val = store .tru := by decide

end Verif.Value
