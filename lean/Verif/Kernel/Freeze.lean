import Mathlib.Data.List.Basic
/-! # C129: `freeze` and `frozen?` -/
namespace Verif.Freeze

/-! ## Model -/

/-- Values (value/value.rs:5-30): those that are packed into the word, and references to objects. -/
inductive V where
  | int (i : Int)
  | sym (s : String)
  | ref (r : Nat)
  deriving DecidableEq, Repr

/-- An object (value/rvalue.rs:8-13), simplified to arrays: the elements and the instance variables.  There is a word of
flags in an object, none of them says that it is frozen (value/rvalue.rs:15-35). -/
structure Obj where
  elems : List V
  ivars : List (String × V)
  deriving DecidableEq, Repr

/-- The calls: `a.push(*xs)`, `a.instance_variable_set(k, v)`, `v.dup`, `v.freeze`, `v.frozen?`. -/
inductive Op where
  | push (r : Nat) (xs : List V)
  | set (r : Nat) (k : String) (v : V)
  | dup (v : V)
  | freeze (v : V)
  | frozen (v : V)
  deriving DecidableEq, Repr

/-- What a call gives; `missing` is for references to nothing, which no program has. -/
inductive Ans where
  | val (v : V)
  | bool (b : Bool)
  | frozenError
  | missing
  deriving DecidableEq, Repr

/-- `set_var` (value/rvalue.rs:838-848), the table simplified to a list of pairs. -/
def setVar (k : String) (v : V) : List (String × V) → List (String × V)
  | [] => [(k, v)]
  | (k', v') :: l => if k' = k then (k, v) :: l else (k', v') :: setVar k v l

/-- One call: `push` (builtin/array.rs:236-240), `instance_variable_set` (builtin/object.rs:131-138), `dup`
(builtin/object.rs:92-96, value/value.rs:343-348, value/rvalue.rs:560-566), `freeze` (builtin/object.rs:173-176), `frozen_`
(builtin/object.rs:298-301). -/
def step (h : List Obj) : Op → List Obj × Ans
  | .push r xs => match h[r]? with
    | some o => (h.set r { o with elems := o.elems ++ xs }, .val (.ref r))
    | none => (h, .missing)
  | .set r k v => match h[r]? with
    | some o => (h.set r { o with ivars := setVar k v o.ivars }, .val v)
    | none => (h, .missing)
  | .dup (.ref r) => match h[r]? with
    | some o => (h ++ [o], .val (.ref h.length))
    | none => (h, .missing)
  | .dup v => (h, .val v)
  | .freeze v => (h, .val v)
  | .frozen _ => (h, .bool false)

/-- A program's calls one after the other. -/
def run (h : List Obj) : List Op → List Obj × List Ans
  | [] => (h, [])
  | op :: ops =>
    let (h, a) := step h op
    let (h, l) := run h ops
    (h, a :: l)

/-! ## Specification -/

/-- What Ruby does: `frozen` is the set of the objects that were frozen.  Integers and symbols always are. -/
inductive Ruby : List Obj × (Nat → Prop) → Op → List Obj × (Nat → Prop) → Ans → Prop
  | push {h z r o xs} : h[r]? = some o → ¬ z r →
      Ruby (h, z) (.push r xs) (h.set r { o with elems := o.elems ++ xs }, z) (.val (.ref r))
  | pushFrozen {h z r xs} : z r → Ruby (h, z) (.push r xs) (h, z) .frozenError
  | set {h z r o k v} : h[r]? = some o → ¬ z r →
      Ruby (h, z) (.set r k v) (h.set r { o with ivars := setVar k v o.ivars }, z) (.val v)
  | setFrozen {h z r k v} : z r → Ruby (h, z) (.set r k v) (h, z) .frozenError
  | dup {h z r o} : h[r]? = some o → Ruby (h, z) (.dup (.ref r)) (h ++ [o], z) (.val (.ref h.length))
  | dupPacked {h z v} : (∀ r, v ≠ .ref r) → Ruby (h, z) (.dup v) (h, z) (.val v)
  | freeze {h z r} : Ruby (h, z) (.freeze (.ref r)) (h, fun q => q = r ∨ z q) (.val (.ref r))
  | freezePacked {h z v} : (∀ r, v ≠ .ref r) → Ruby (h, z) (.freeze v) (h, z) (.val v)
  | frozen {h z r} : z r → Ruby (h, z) (.frozen (.ref r)) (h, z) (.bool true)
  | notFrozen {h z r} : ¬ z r → Ruby (h, z) (.frozen (.ref r)) (h, z) (.bool false)
  | frozenPacked {h z v} : (∀ r, v ≠ .ref r) → Ruby (h, z) (.frozen v) (h, z) (.bool true)

/-- The calls of a program in Ruby. -/
inductive Rubies : List Obj × (Nat → Prop) → List Op → List Obj × (Nat → Prop) → List Ans → Prop
  | nil {w} : Rubies w [] w []
  | cons {w op w' a ops w'' l} : Ruby w op w' a → Rubies w' ops w'' l → Rubies w (op :: ops) w'' (a :: l)

/-- What freezing is for: as long as an object is frozen it stays as it is, whatever is called. -/
theorem ruby_keeps {w w' : List Obj × (Nat → Prop)} {ops : List Op} {l : List Ans} (e : Rubies w ops w' l) {r : Nat} {o : Obj}
    (hr : w.1[r]? = some o) (hz : w.2 r) : w'.1[r]? = some o ∧ w'.2 r := by
  induction e with
  | nil => exact ⟨hr, hz⟩
  | cons e _ ih =>
    have lt : ∀ {h : List Obj}, h[r]? = some o → r < h.length := fun q => by
      rcases Nat.lt_or_ge r _ with k | k
      · exact k
      · rw [List.getElem?_eq_none k] at q; cases q
    refine ih ?_ ?_
    · cases e with
      | push _ h2 => exact (List.getElem?_set_ne (fun k => h2 (by subst k; exact hz))).trans hr
      | set _ h2 => exact (List.getElem?_set_ne (fun k => h2 (by subst k; exact hz))).trans hr
      | dup _ => exact (List.getElem?_append_left (lt hr)).trans hr
      | _ => exact hr
    · cases e with
      | freeze => exact .inr hz
      | _ => exact hz

/-! ## C129 -/

theorem step_ruby {w w' : List Obj × (Nat → Prop)} {op : Op} {a : Ans} (e : Ruby w op w' a) (ha : a ≠ .frozenError ∧ a ≠ .bool true) :
    step w.1 op = (w'.1, a) := by
  cases e with
  | push h1 _ => simp [step, h1]
  | pushFrozen _ => exact absurd rfl ha.1
  | set h1 _ => simp [step, h1]
  | setFrozen _ => exact absurd rfl ha.1
  | dup h1 => simp [step, h1]
  | dupPacked h1 =>
    rename_i v
    cases v with
    | ref r => exact absurd rfl (h1 r)
    | _ => rfl
  | freeze => rfl
  | freezePacked _ => rfl
  | frozen _ => exact absurd rfl ha.2
  | notFrozen _ => rfl
  | frozenPacked _ => exact absurd rfl ha.2

/-- A program that in Ruby changes no frozen object, and does not ask whether one is frozen, does here what it does in Ruby.
Missing: the changes of frozen objects (`C129_change_fails`) and the answers of `frozen?` (`C129_frozen_fails`). -/
theorem C129_unchanged_partial {w w' : List Obj × (Nat → Prop)} {ops : List Op} {l : List Ans} (e : Rubies w ops w' l)
    (hl : ∀ a ∈ l, a ≠ .frozenError ∧ a ≠ .bool true) : run w.1 ops = (w'.1, l) := by
  induction e with
  | nil => rfl
  | cons e _ ih =>
    have := ih fun a q => hl a (by simp [q])
    simp only [run, step_ruby e (hl _ (by simp)), this]

/-- What `setVar` is, which the specification uses too: the variable has the value, the others have what they had. -/
theorem C129_set (k : String) (v : V) (l : List (String × V)) (k' : String) :
    (setVar k v l).lookup k' = if k' = k then some v else l.lookup k' := by
  have ne : ∀ {a b : String}, ¬ a = b → (a == b) = false := fun q => by simpa using q
  induction l with
  | nil => by_cases q : k' = k <;> simp [setVar, List.lookup, q, ne]
  | cons a l ih =>
    obtain ⟨j, u⟩ := a
    unfold setVar
    by_cases q : j = k
    · subst q
      by_cases p : k' = j <;> simp [List.lookup_cons, p, ne]
    · rw [if_neg q, List.lookup_cons, ih, List.lookup_cons]
      by_cases p : k' = j
      · subst p
        simp [q]
      · simp [p, ne]

/-- `freeze` returns the object and changes nothing, for all values. -/
theorem C129_freeze (h : List Obj) (v : V) : step h (.freeze v) = (h, .val v) := rfl

/-- **C129** (violated).  Whatever array is frozen, a later `push` adds to it, and a variable can be set; in Ruby both
raise a FrozenError and the array stays as it is. -/
theorem C129_change_fails {h : List Obj} {r : Nat} {o : Obj} (hr : h[r]? = some o) (z : Nat → Prop) (xs : List V) (hx : xs ≠ [])
    (k : String) (v : V) :
    (run h [.freeze (.ref r), .push r xs]).1[r]? = some { o with elems := o.elems ++ xs } ∧ o.elems ++ xs ≠ o.elems ∧
    (run h [.freeze (.ref r), .set r k v]).2 = [.val (.ref r), .val v] ∧
    (∀ op ∈ [Op.push r xs, .set r k v], ∃ z', Rubies (h, z) [.freeze (.ref r), op] (h, z') [.val (.ref r), .frozenError]) := by
  have lt : r < h.length := by
    rcases Nat.lt_or_ge r h.length with q | q
    · exact q
    · rw [List.getElem?_eq_none q] at hr; cases hr
  refine ⟨?_, by simpa using hx, ?_, ?_⟩
  · obtain ⟨_, rfl⟩ := List.getElem?_eq_some_iff.mp hr
    simp [run, step, lt]
  · simp [run, step, hr]
  · intro op ho
    simp only [List.mem_cons, List.not_mem_nil, or_false] at ho
    rcases ho with rfl | rfl
    · exact ⟨_, .cons .freeze (.cons (.pushFrozen (.inl rfl)) .nil)⟩
    · exact ⟨_, .cons .freeze (.cons (.setFrozen (.inl rfl)) .nil)⟩

/-- No program gets a FrozenError, nor the answer that something is frozen. -/
theorem run_answers (ops : List Op) : ∀ h, ∀ a ∈ (run h ops).2, a ≠ .frozenError ∧ a ≠ .bool true := by
  induction ops with
  | nil => intro h a ha; cases ha
  | cons op ops ih =>
    intro h a ha
    simp only [run, List.mem_cons] at ha
    rcases ha with rfl | ha
    · cases op with
      | dup v => cases v <;> simp only [step] <;> try split
                 all_goals simp
      | push | set => simp only [step]; split <;> simp
      | freeze | frozen => simp [step]
    · exact ih _ _ ha

/-- **C129** (violated).  `frozen?` is false in all programs, for a number and a symbol and for what was frozen just before;
in Ruby it is true. -/
theorem C129_frozen_fails (h : List Obj) (ops : List Op) (z : Nat → Prop) :
    (∀ a ∈ (run h ops).2, a ≠ .frozenError ∧ a ≠ .bool true) ∧
    (∀ v, (run h [.freeze v, .frozen v]).2 = [.val v, .bool false]) ∧
    (∀ v w l, Rubies (h, z) [.freeze v, .frozen v] w l → l = [.val v, .bool true]) ∧
    (∀ v w l, (∀ r, v ≠ .ref r) → Rubies (h, z) [.frozen v] w l → l = [.bool true]) := by
  refine ⟨run_answers ops h, fun _ => rfl, ?_, ?_⟩
  · intro v w l e
    cases e with
    | cons e1 e2 => cases e2 with
      | cons e2 e3 =>
        cases e3
        cases e1 with
        | freeze => cases e2 with
          | frozen => rfl
          | notFrozen q => exact absurd (Or.inl rfl) q
          | frozenPacked => rfl
        | freezePacked q => cases e2 with
          | frozen => rfl
          | notFrozen => exact absurd rfl (q _)
          | frozenPacked => rfl
  · intro v w l q e
    cases e with
    | cons e1 e2 =>
      cases e2
      cases e1 with
      | frozen => rfl
      | notFrozen => exact absurd rfl (q _)
      | frozenPacked => rfl

/-! ## Instances -/

/-- A program as `C129_unchanged_partial` asks for: an array is frozen, a copy of it is changed. -/
example : Rubies ([⟨[.int 1], []⟩], fun _ => False) [.push 0 [.int 2], .freeze (.ref 0), .dup (.ref 0), .push 1 [.sym "a"], .frozen (.ref 1)]
      ([⟨[.int 1, .int 2], []⟩, ⟨[.int 1, .int 2, .sym "a"], []⟩], fun q => q = 0 ∨ False)
      [.val (.ref 0), .val (.ref 0), .val (.ref 1), .val (.ref 1), .bool false] :=
  .cons (.push rfl id) (.cons .freeze (.cons (.dup rfl) (.cons (.push rfl (by simp)) (.cons (.notFrozen (by simp)) .nil))))

example : run [⟨[.int 1], []⟩] [.push 0 [.int 2], .freeze (.ref 0), .dup (.ref 0), .push 1 [.sym "a"], .frozen (.ref 1)] =
    ([⟨[.int 1, .int 2], []⟩, ⟨[.int 1, .int 2, .sym "a"], []⟩],
      [.val (.ref 0), .val (.ref 0), .val (.ref 1), .val (.ref 1), .bool false]) := by decide

end Verif.Freeze
