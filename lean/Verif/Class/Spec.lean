import Verif.Class.Model
/-! # What Ruby says about ancestors

Everything here is computed from the history of class definitions, `include`s, `prepend`s and method definitions
alone (latest first); nothing refers to how the interpreter links its classes. -/
namespace Verif.Class

/-- The modules prepended to `c` and those included in `c`, in lookup order.  `include m` puts `m`, together with what
was prepended to and included in `m` by then, in front of the modules included so far; `prepend m` puts it in front of
the modules prepended so far. -/
def layers : List Event → Addr → List Addr × List Addr
  | [], _ => ([], [])
  | .incl d m :: es, c =>
    if d = c then ((layers es c).1, ((layers es m).1 ++ m :: (layers es m).2) ++ (layers es c).2) else layers es c
  | .prep d m :: es, c =>
    if d = c then (((layers es m).1 ++ m :: (layers es m).2) ++ (layers es c).1, (layers es c).2) else layers es c
  | _ :: es, c => layers es c

/-- `c` with its modules: the prepended ones, `c` itself, the included ones. -/
def own (es : List Event) (c : Addr) : List Addr := (layers es c).1 ++ c :: (layers es c).2

/-- The superclass given when `c` was defined. -/
def superOf : List Event → Addr → Option Addr
  | [], _ => none
  | .cls c s :: es, a => if c = a then s else superOf es a
  | _ :: es, a => superOf es a

/-- `l` is the list of ancestors of `c`: `c` with its modules, then the ancestors of its superclass. -/
inductive Ancestors (es : List Event) : Addr → List Addr → Prop
  | top {c} : superOf es c = none → Ancestors es c (own es c)
  | sub {c s l} : superOf es c = some s → Ancestors es s l → Ancestors es c (own es c ++ l)

/-- The method `name` that `c` itself defines: the latest definition. -/
def methodOf : List Event → Addr → Id → Option Fn
  | [], _, _ => none
  | .defm c n f :: es, a, name => if c = a ∧ n = name then some f else methodOf es a name
  | _ :: es, a, name => methodOf es a name

/-- The value of the constant `name` of `c` itself. -/
def constOf : List Event → Addr → Id → Option Val
  | [], _, _ => none
  | .setc c n v :: es, a, name => if c = a ∧ n = name then some v else constOf es a name
  | _ :: es, a, name => constOf es a name

/-- The first class or module of the list that defines the method, with its definition. -/
def firstMethod (es : List Event) (name : Id) : List Addr → Option (Fn × Addr)
  | [] => none
  | c :: l => match methodOf es c name with
    | some f => some (f, c)
    | none => firstMethod es name l

/-- The first class or module of the list that defines the constant: its value. -/
def firstConst (es : List Event) (name : Id) : List Addr → Option Val
  | [] => none
  | c :: l => match constOf es c name with
    | some v => some v
    | none => firstConst es name l

/-- Something was prepended to `c`. -/
def Prepended (es : List Event) (c : Addr) : Prop := ∃ m, Event.prep c m ∈ es

/-- Nowhere in the history does an `include` into a class or module follow a `prepend` to it. -/
def Orderly : List Event → Prop
  | [] => True
  | .incl c _ :: es => ¬ Prepended es c ∧ Orderly es
  | _ :: es => Orderly es

end Verif.Class
