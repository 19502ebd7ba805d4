import Verif.Ivar.Model
/-!
# What instance variables are

A store gives for every object and name a value, or none if the variable was never set.  `Spec nil s op r s'`:
doing `op` when the variables are `s` answers `r` and makes them `s'`.  `next` is the number the next new object
gets.
-/
namespace Verif.Ivar

structure Store (V : Type) where
  var : Nat → Name → Option V
  next : Nat

variable {V : Type}

/-- one variable changed -/
def Store.write (s : Store V) (o : Nat) (n : Name) (v : V) : Store V :=
  { s with var := fun o' n' => if o' = o ∧ n' = n then some v else s.var o' n' }

/-- the variable with the value nil if it is not set -/
def Store.read (nil : V) (s : Store V) (o : Nat) (n : Name) : V := (s.var o n).getD nil

/-- a new object with the given variables -/
def Store.fresh (s : Store V) (f : Name → Option V) : Store V :=
  { var := fun o n => if o = s.next then f n else s.var o n, next := s.next + 1 }

inductive Spec (nil : V) : Store V → Op V → Reply V → Store V → Prop
  | new (s) : Spec nil s .new (.object (.obj s.next)) (s.fresh (fun _ => none))
  | dup (s o) : Spec nil s (.dup (.obj o)) (.object (.obj s.next)) (s.fresh (s.var o))
  | get (s o n) : Spec nil s (.get (.obj o) n) (.value (s.read nil o n)) s
  | set (s o n v) : Spec nil s (.set (.obj o) n v) .done (s.write o n v)
  | isUndefined (s o n b) : (b = true ↔ s.var o n = none) → Spec nil s (.isUndefined (.obj o) n) (.bool b) s
  /-- `attr_reader :s` reads `@s` -/
  | reader (s o a) : Spec nil s (.reader (.obj o) a) (.value (s.read nil o ('@' :: a))) s
  /-- `attr_writer :s` writes `@s` -/
  | writer (s o a v) : Spec nil s (.writer (.obj o) a v) (.value v) (s.write o ('@' :: a) v)
  | ivGet (s o n) : Spec nil s (.ivGet (.obj o) n) (.value (s.read nil o n)) s
  | ivSet (s o n v) : Spec nil s (.ivSet (.obj o) n v) (.value v) (s.write o n v)
  /-- the names of the instance variables that are set, each once -/
  | names (s o l) : l.Nodup → (∀ n, n ∈ l ↔ (∃ m, n = '@' :: m) ∧ s.var o n ≠ none) →
      Spec nil s (.names (.obj o)) (.names l) s
  /-- too many values for the members of a struct -/
  | structMany (s o ms vs) : ms.length < vs.length → Spec nil s (.structInit (.obj o) ms vs) .raised s
  /-- the values are assigned to the members from left to right -/
  | struct (s o ms vs) : vs.length ≤ ms.length →
      Spec nil s (.structInit (.obj o) ms vs) .done
        ((ms.zip vs).foldl (fun s e => s.write o ('@' :: e.1) e.2) s)

/-- a history -/
inductive Specs (nil : V) : Store V → List (Op V) → List (Reply V) → Store V → Prop
  | nil (s) : Specs nil s [] [] s
  | cons (s op r s' ops rs s'') : Spec nil s op r s' → Specs nil s' ops rs s'' →
      Specs nil s (op :: ops) (r :: rs) s''

/-- the receiver of an operation is an object on the heap -/
def Op.onObject : Op V → Prop
  | .new => True
  | .dup x | .get x _ | .set x _ _ | .isUndefined x _ | .reader x _ | .writer x _ _ | .ivGet x _ | .ivSet x _ _
  | .names x | .structInit x _ _ => x ≠ .packed

end Verif.Ivar
