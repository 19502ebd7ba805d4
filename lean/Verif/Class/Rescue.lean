import Verif.Class.Single
/-! # C98: which `rescue` clause handles an exception

`raise`, the errors that the interpreter itself raises, and the choice of a `rescue` clause.  Classes, modules and their
ancestors are those of `Verif.Class.Model`.  How the machine comes to the clauses (exception tables, frames, `ensure`)
is the subject of C42. -/
namespace Verif.Class

/-! ## Model -/

/-- The exception classes that `from_exception` can name (globals.rs:215-302), and those between them and `Exception`. -/
inductive ErrName
  | exception | standardError | argumentError | indexError | regexpError | typeError | fiberError | nameError
  | noMethodError | zeroDivisionError | stopIteration | localJumpError | runtimeError | frozenError | scriptError
  | syntaxError | systemExit | domainError | rangeError | floatDomainError | loadError
  deriving DecidableEq, Repr

open ErrName

/-- The superclass with which each is made (builtin/exception.rs:3-70, builtin/math.rs:10-11, startup/startup.rb:84-93);
`none`: `Object`. -/
def ErrName.parent : ErrName → Option ErrName
  | exception => none
  | standardError | scriptError | systemExit => some exception
  | argumentError | indexError | regexpError | typeError | fiberError | nameError | zeroDivisionError | stopIteration
  | localJumpError | runtimeError | domainError | rangeError | loadError => some standardError
  | noMethodError => some nameError
  | frozenError => some runtimeError
  | syntaxError => some scriptError
  | floatDomainError => some rangeError

/-- The classes that the library makes, in this order (the same lines). -/
def library : List Cmd :=
  [.newClass 1, .newClass 5] ++ List.replicate 6 (.newClass 8) ++ [.newClass 20] ++ List.replicate 4 (.newClass 8) ++
    [.newClass 30, .newClass 5, .newClass 34, .newClass 5, .newClass 8, .newClass 8, .newClass 42, .newClass 8]

/-- Where `library` puts them. -/
def libraryAt : ErrName → Addr
  | exception => 5 | standardError => 8 | argumentError => 10 | indexError => 12 | regexpError => 14 | typeError => 16
  | fiberError => 18 | nameError => 20 | noMethodError => 22 | zeroDivisionError => 24 | stopIteration => 26
  | localJumpError => 28 | runtimeError => 30 | frozenError => 32 | scriptError => 34 | syntaxError => 36
  | systemExit => 38 | domainError => 40 | rangeError => 42 | floatDomainError => 44 | loadError => 46

/-- `RuntimeErrKind` (ruruby-common/src/error.rs:57-72). -/
inductive RuntimeErrKind
  | name | noMethod | argument | index | type | regexp | fiber | localJump | stopIteration | runtime | loadError | range
  | zeroDivision | domainError
  deriving DecidableEq, Repr

/-- `Debug` of it (ruruby-common/src/error.rs:74-93). -/
def RuntimeErrKind.show : RuntimeErrKind → String
  | .name => "NameError" | .noMethod => "NoMethodError" | .argument => "ArgumentError" | .index => "IndexError"
  | .type => "TypeError" | .regexp => "RegexpError" | .fiber => "FiberError" | .localJump => "LocalJumpError"
  | .stopIteration => "StopIteration" | .runtime => "Runtime" | .loadError => "LoadError" | .range => "RangeError"
  | .zeroDivision => "ZeroDivisionError" | .domainError => "Math::DomainError"

/-- `RubyErrorKind` (ruruby-common/src/error.rs:27-39).  Simplified: a parse error is its text; `Internal`, on which the
interpreter stops (vm/executor.rs:433-437), is left out. -/
inductive Err
  | parse (m : String)
  | runtime (k : RuntimeErrKind) (m : String)
  | exception
  | methodReturn
  | blockReturn
  | systemExit
  | none (m : String)
  deriving DecidableEq, Repr

/-- `RubyError::message` (ruruby-common/src/error.rs:152-168). -/
def Err.message : Err → String
  | .parse m => "SyntaxError (" ++ m ++ ")"
  | .runtime k m => k.show ++ " (" ++ m ++ ")"
  | .methodReturn | .blockReturn => "LocalJumpError"
  | .exception => "Exception"
  | .systemExit => "SystemExit"
  | .none m => m

/-- What the program sees of exceptions: the heap, the message of each exception object (`@message`, set by
value/rvalue.rs:764-775; an object has one exactly when it is an exception), the names of classes, the library's
exception classes, and `globals.val`.  Simplified: backtraces are left out. -/
structure World where
  heap : Heap
  msg : Addr → Option String
  name : Addr → String
  at_ : ErrName → Addr
  val : Addr

/-- `Value::exception` (value/value.rs:1150-1152, value/rvalue.rs:764-775). -/
def World.exception (w : World) (c : Addr) (m : String) : World × Addr :=
  ({ w with heap := (newObject w.heap c).1, msg := fun x => if x = w.heap.next then some m else w.msg x }, w.heap.next)

/-- The class of the object made for an error (`Globals::from_exception`, globals.rs:215-302); `none`: the error is an
exception object already. -/
def errClass : Err → Option ErrName
  | .exception => none
  | .parse _ => some syntaxError
  | .runtime k _ => match k with
    | .type => some typeError
    | .argument => some argumentError
    | .noMethod => some noMethodError
    | .runtime => some runtimeError
    | .loadError => some loadError
    | .stopIteration => some stopIteration
    | .name => some nameError
    | .zeroDivision => some zeroDivisionError
    | .range => some rangeError
    | .index => some indexError
    | .regexp => some regexpError
    | .fiber => some fiberError
    | .localJump => some localJumpError
    | .domainError => some domainError
  | .methodReturn | .blockReturn => some localJumpError
  | .systemExit => some ErrName.systemExit
  | .none _ => some standardError

/-- The object that is pushed for the clauses (vm/executor.rs:438-452). -/
def deliver (w : World) (err : Err) : World × Addr :=
  match errClass err with
  | none => (w, w.val)
  | some k => w.exception (w.at_ k) err.message

/-- `Value::is_exception_class` (value/value.rs:451-464). -/
def isExceptionClass (h : Heap) (ex : Addr) : Nat → Addr → Option Bool
  | 0, _ => none
  | n + 1, c =>
    if c = ex then some true
    else match superclass n h c with
      | none => none
      | some none => some false
      | some (some s) => isExceptionClass h ex n s

/-- `Value::is_class` (value/value.rs:724-735). -/
def isClassB (h : Heap) (a : Addr) : Bool :=
  match (h.obj a).info with
  | some i => !i.isModule
  | none => false

/-- An argument of `raise`: a string, an object that is not a string, or a value outside the heap (a number, …). -/
inductive RArg
  | str (m : String)
  | obj (a : Addr)
  | other
  deriving DecidableEq, Repr

/-- `Kernel#raise` (builtin/kernel.rs:208-238).  Simplified: `new` of the class is `Exception.new` (exception.rs:75-89)
and there is no `initialize`; the text of the message about the number of arguments is cut short. -/
def raise_ (n : Nat) (w : World) : List RArg → Option (World × Err)
  | [] => some (w, .none "")
  | [.str m] => some (w, .none m)
  | [.obj a] =>
    if isClassB w.heap a then
      match isExceptionClass w.heap (w.at_ exception) n a with
      | none => none
      | some true =>
        let (w, e) := w.exception a (w.name a)
        some ({ w with val := e }, .exception)
      | some false => some (w, .runtime .type "Exception class/object expected.")
    else if (w.msg a).isSome then some ({ w with val := a }, .exception)
    else some (w, .runtime .type "Exception class/object expected.")
  | [.other] => some (w, .runtime .type "Exception class/object expected.")
  | [_, .str m] => some (w, .none m)
  | [_, _] => some (w, .runtime .type "2nd arg")
  | _ => some (w, .runtime .argument "Wrong number of arguments.")

/-- An item of the list of a clause: `rescue K` or `rescue *a`, evaluated. -/
inductive Item
  | one (a : Addr)
  | splat (l : List Addr)
  deriving DecidableEq, Repr

/-- The test of one class against the items (vm/executor.rs:638-651). -/
def listed (items : List Item) (m : Addr) : Bool :=
  items.any fun x => match x with
    | .splat l => l.any fun e => e = m
    | .one a => a = m

/-- The loop of `eval_rescue` (vm/executor.rs:637-658). -/
def rescueLoop (h : Heap) (items : List Item) : Nat → Addr → Option Bool
  | 0, _ => none
  | n + 1, m =>
    if !(h.info m).isModule && listed items m then some true
    else
      match upper n h m with
      | none => none
      | some (some u) => rescueLoop h items n u
      | some none => some false

/-- `VM::eval_rescue` (vm/executor.rs:631-660). -/
def evalRescue (n : Nat) (h : Heap) (val : Addr) (items : List Item) : Option Bool :=
  if isClassB h val then rescueLoop h items n val
  else match getClass n h val with
    | some (some c) => rescueLoop h items n c
    | _ => none

/-- The clauses of one `begin` are tried in order, with `StandardError` for an empty list (codegen.rs:1055-1089): the
number of the first that matches.  Simplified: the items are values already (the code evaluates those of a clause when it
comes to it). -/
def select (n : Nat) (w : World) (e : Addr) : List (List Item) → Option (Option Nat)
  | [] => some none
  | items :: rest =>
    match evalRescue n w.heap e (if items.isEmpty then [.one (w.at_ standardError)] else items) with
    | none => none
    | some true => some (some 0)
    | some false => (select n w e rest).map (·.map (· + 1))

/-- What becomes of an exception: clause `i` of the `begin` number `d` (from inside) gets the object `e`, or nobody
does. -/
inductive Fate
  | caught (d i : Nat) (e : Addr)
  | uncaught
  deriving DecidableEq, Repr

def Fate.outer : Fate → Fate
  | .caught d i e => .caught (d + 1) i e
  | .uncaught => .uncaught

/-- An error inside `begin`s, innermost first: when no clause matches, `THROW` raises the object again
(codegen.rs:1090-1097, vm/executor/opt_core.rs:159-164). -/
def handle (n : Nat) : List (List (List Item)) → World → Err → Option (World × Fate)
  | [], w, _ => some (w, .uncaught)
  | clauses :: outer, w, err =>
    let (w, e) := deliver w err
    match select n w e clauses with
    | none => none
    | some (some i) => some (w, .caught 0 i e)
    | some none => (handle n outer { w with val := e } .exception).map fun (w, f) => (w, f.outer)

/-- `begin … raise args … rescue … end`, nested. -/
def raiseIn (n : Nat) (begins : List (List (List Item))) (w : World) (args : List RArg) : Option (World × Fate) :=
  match raise_ n w args with
  | none => none
  | some (w, err) => handle n begins w err

/-! ## Specification -/

/-- The classes that a clause lists; an empty list stands for `StandardError`. -/
def classes (std : Addr) (items : List Item) : List Addr :=
  if items = [] then [std] else items.flatMap fun x => match x with
    | .one a => [a]
    | .splat l => l

/-- A clause is for an exception when it lists an ancestor of its class. -/
def IsFor (std : Addr) (ancestors : List Addr) (items : List Item) : Prop :=
  ∃ k ∈ classes std items, k ∈ ancestors

/-- Ruby's choice: the innermost `begin` that has a clause for the exception, and there the first such clause; it gets
`e`. -/
def Right (std : Addr) (ancestors : List Addr) (begins : List (List (List Item))) (e : Addr) : Fate → Prop
  | .caught d i e' => e' = e ∧ (∀ d' < d, ∀ b, begins[d']? = some b → ∀ items ∈ b, ¬ IsFor std ancestors items) ∧
    ∃ b, begins[d]? = some b ∧ (∀ j < i, ∀ items, b[j]? = some items → ¬ IsFor std ancestors items) ∧
      ∃ items, b[i]? = some items ∧ IsFor std ancestors items
  | .uncaught => ∀ b ∈ begins, ∀ items ∈ b, ¬ IsFor std ancestors items

/-- A world that programs can reach: the library's classes are there, what has a message is an object and no class. -/
structure Live (w : World) : Prop where
  reach : Reach w.heap
  cls : ∀ k, IsClass w.heap (w.at_ k) ∧ 4 < w.at_ k
  sup : ∀ k, superOf w.heap.log (w.at_ k) = some ((k.parent.map w.at_).getD objectC)
  inj : ∀ k k', w.at_ k = w.at_ k' → k = k'
  plain : ∀ k, w.heap.isSingleton (w.at_ k) = false
  obj : ∀ a m, w.msg a = some m → a < w.heap.next ∧ (w.heap.obj a).info = none

/-- The clauses list classes to which nothing was prepended. -/
def Unmixed (w : World) (begins : List (List (List Item))) : Prop :=
  ∀ b ∈ begins, ∀ items ∈ b, ∀ k ∈ classes (w.at_ standardError) items, IsClass w.heap k ∧ ¬ Prepended w.heap.log k

/-- The library's exception classes above each, in Ruby. -/
def rubyAbove : ErrName → List ErrName
  | exception => [exception]
  | standardError => [standardError, exception]
  | scriptError => [scriptError, exception]
  | systemExit => [systemExit, exception]
  | argumentError => [argumentError, standardError, exception]
  | indexError => [indexError, standardError, exception]
  | regexpError => [regexpError, standardError, exception]
  | typeError => [typeError, standardError, exception]
  | fiberError => [fiberError, standardError, exception]
  | nameError => [nameError, standardError, exception]
  | zeroDivisionError => [zeroDivisionError, standardError, exception]
  | localJumpError => [localJumpError, standardError, exception]
  | runtimeError => [runtimeError, standardError, exception]
  | rangeError => [rangeError, standardError, exception]
  | stopIteration => [stopIteration, indexError, standardError, exception]
  | domainError => [domainError, argumentError, standardError, exception]
  | loadError => [loadError, scriptError, exception]
  | noMethodError => [noMethodError, nameError, standardError, exception]
  | frozenError => [frozenError, runtimeError, standardError, exception]
  | syntaxError => [syntaxError, scriptError, exception]
  | floatDomainError => [floatDomainError, rangeError, standardError, exception]

/-- The names of the classes. -/
def ErrName.ruby : ErrName → String
  | exception => "Exception" | standardError => "StandardError" | argumentError => "ArgumentError"
  | indexError => "IndexError" | regexpError => "RegexpError" | typeError => "TypeError" | fiberError => "FiberError"
  | nameError => "NameError" | noMethodError => "NoMethodError" | zeroDivisionError => "ZeroDivisionError"
  | stopIteration => "StopIteration" | localJumpError => "LocalJumpError" | runtimeError => "RuntimeError"
  | frozenError => "FrozenError" | scriptError => "ScriptError" | syntaxError => "SyntaxError"
  | systemExit => "SystemExit" | domainError => "Math::DomainError" | rangeError => "RangeError"
  | floatDomainError => "FloatDomainError" | loadError => "LoadError"

/-! ## Helpers -/

theorem rescueLoop_spec {h : Heap} {items : List Item} : ∀ {n c l}, Seg h (h.info c).upper l none → l.length + 1 < n →
    rescueLoop h items n c = some ((c :: l.filter (vis h)).any fun t => !(h.info t).isModule && listed items t)
  | n + 1, c, l, s, hn => by
    by_cases hc : (!(h.info c).isModule && listed items c) = true
    · rw [rescueLoop, if_pos hc, List.any_cons, hc]; rfl
    rcases upper_cases s (show l.length < n by omega) with ⟨a, b⟩ | ⟨y, l₂, a, p, q, r, _⟩
    · rw [rescueLoop, if_neg hc, a, b, List.any_cons, eq_false_of_ne_true hc]; rfl
    · rw [rescueLoop, if_neg hc, a]
      simp only
      rw [rescueLoop_spec p (show l₂.length + 1 < n by omega), q, List.any_cons (a := c), eq_false_of_ne_true hc, Bool.false_or]

/-- The only class among a class with its modules is the class itself. -/
theorem Reach.own_class {h : Heap} (R : Reach h) {c k} (hk : IsClass h k) : k ∈ own h.log c ↔ k = c := by
  constructor
  · intro hm
    simp only [own, List.mem_append, List.mem_cons] at hm
    have no : ¬ (k ∈ (layers h.log c).1 ∨ k ∈ (layers h.log c).2) := fun e => by
      obtain ⟨d, hd⟩ := mem_layers e
      have := (R.modules d k hd).2
      rw [hk.2] at this; cases this
    rcases hm with e | e | e
    · exact absurd (.inl e) no
    · exact e
    · exact absurd (.inr e) no
  · rintro rfl; exact mem_own _ _

/-- The class ancestors: the class and those of its superclass. -/
theorem Reach.class_top {h : Heap} (R : Reach h) {c k l} (hk : IsClass h k) (e : superOf h.log c = none)
    (a : Ancestors h.log c l) : k ∈ l ↔ k = c := by
  cases a with
  | top _ => exact R.own_class hk
  | sub e' _ => rw [e] at e'; cases e'

theorem Reach.class_sub {h : Heap} (R : Reach h) {c k l s l'} (hk : IsClass h k) (e : superOf h.log c = some s)
    (a : Ancestors h.log c l) (a' : Ancestors h.log s l') : k ∈ l ↔ k = c ∨ k ∈ l' := by
  cases a with
  | top e' => rw [e] at e'; cases e'
  | sub e' b =>
    rw [e] at e'; cases e'
    rw [b.unique a', List.mem_append, R.own_class hk]

theorem Ancestors.up {es c l s} (a : Ancestors es c l) (e : superOf es c = some s) : ∃ l', Ancestors es s l' := by
  cases a with
  | top e' => rw [e] at e'; cases e'
  | sub e' b => rw [e] at e'; cases e'; exact ⟨_, b⟩

theorem Reach.class_le {h : Heap} (R : Reach h) {c k l} (hk : IsClass h k) (a : Ancestors h.log c l) (hm : k ∈ l) : k ≤ c := by
  have I := R.good.toInv
  induction c using Nat.strongRecOn generalizing l with
  | _ c ih =>
    rcases e : superOf h.log c with _ | s
    · exact Nat.le_of_eq ((R.class_top hk e a).1 hm)
    · obtain ⟨l', a'⟩ := a.up e
      have hlt := (I.sup c s e).1
      rcases (R.class_sub hk e a a').1 hm with rfl | hm'
      · exact Nat.le_refl _
      · have := ih s hlt a' hm'
        omega

/-- The chain that the loops walk and the ancestors have the same classes. -/
theorem Reach.chain_class {h : Heap} (R : Reach h) (ho : Orderly h.log) {c k l} (hc : Real h c) (hk : IsClass h k)
    (hp : ¬ Prepended h.log k) (a : Ancestors h.log c l) :
    ∃ ch, Seg h (h.info c).upper ch none ∧ ch.length ≤ h.next ∧ (k ∈ c :: ch.filter (vis h) ↔ k ∈ l) := by
  have I := R.good.toInv
  obtain ⟨ch, w, s, len, hch, W, _, e2, hcopy⟩ := I.chain c hc
  refine ⟨ch, s, len, ?_⟩
  have el := (walk_ancestors ho W).unique a
  constructor
  · intro hm
    rcases List.mem_cons.1 hm with rfl | hm
    · exact a.self
    · rw [← el]
      refine List.mem_append_right _ ?_
      rw [← e2]
      exact List.mem_map.2 ⟨k, hm, I.ext k hk.1⟩
  · intro hm
    rw [← el] at hm
    rcases List.mem_append.1 hm with hm | hm
    · split at hm
      · cases hm
      · exact List.mem_cons.2 (.inl (by simpa using hm))
    · rw [← e2] at hm
      obtain ⟨y, hy, e⟩ := List.mem_map.1 hm
      rcases hch y (List.mem_of_mem_filter hy) with cy | r
      · exfalso
        obtain ⟨t, ht⟩ := hcopy y hy cy
        rw [e] at ht
        rcases mem_between ht with ⟨d, hd⟩ | hd
        · have := (R.modules d k hd).2
          rw [hk.2] at this; cases this
        · exact hp hd
      · rw [I.ext y r] at e
        subst e
        exact List.mem_cons_of_mem _ hy

theorem listed_iff {items : List Item} {m : Addr} (std : Addr) (hne : items ≠ []) :
    listed items m = true ↔ m ∈ classes std items := by
  simp only [listed, classes, if_neg hne, List.any_eq_true, List.mem_flatMap]
  constructor
  · rintro ⟨x, hx, e⟩
    refine ⟨x, hx, ?_⟩
    cases x with
    | one a => simpa [eq_comm] using e
    | splat l => simpa using e
  · rintro ⟨x, hx, e⟩
    refine ⟨x, hx, ?_⟩
    cases x with
    | one a => simpa [eq_comm] using e
    | splat l => simpa using e

theorem listed_classes (std : Addr) (items : List Item) (m : Addr) :
    listed (if items.isEmpty then [.one std] else items) m = true ↔ m ∈ classes std items := by
  cases items with
  | nil => simp [listed, classes, eq_comm]
  | cons x xs => exact listed_iff std (by simp)

theorem evalRescue_iff {w : World} (S : Live w) (ho : Orderly w.heap.log) {e : Addr} (he : (w.heap.obj e).info = none)
    (hs : w.heap.isSingleton (w.heap.obj e).cls = false) {l} (a : Ancestors w.heap.log (w.heap.obj e).cls l)
    {n : Nat} (hn : w.heap.next + 1 < n) {items : List Item}
    (hk : ∀ k ∈ classes (w.at_ standardError) items, IsClass w.heap k ∧ ¬ Prepended w.heap.log k) :
    ∃ b, evalRescue n w.heap e (if items.isEmpty then [.one (w.at_ standardError)] else items) = some b ∧
      (b = true ↔ IsFor (w.at_ standardError) l items) := by
  have R := S.reach
  have hc := (R.good.cls e).1
  obtain ⟨ch, _, s, len, _⟩ := R.good.toInv.chain _ hc
  have hg : getClass n w.heap e = some (some (w.heap.obj e).cls) := by
    obtain ⟨k, rfl⟩ : ∃ k, n = k + 1 := ⟨n - 1, by omega⟩
    simp [getClass, realClassLoop, hs]
  refine ⟨_, by rw [evalRescue, hg]; simp only [isClassB, he]; exact rescueLoop_spec s (by omega), ?_⟩
  rw [List.any_eq_true]
  have mem : ∀ k, IsClass w.heap k → ¬ Prepended w.heap.log k →
      (k ∈ (w.heap.obj e).cls :: ch.filter (vis w.heap) ↔ k ∈ l) := by
    intro k h1 h2
    obtain ⟨ch', s', _, hm⟩ := R.chain_class ho hc h1 h2 a
    rw [s.unique s']; exact hm
  constructor
  · rintro ⟨t, ht, e⟩
    rw [Bool.and_eq_true, listed_classes] at e
    exact ⟨t, e.2, (mem t (hk t e.2).1 (hk t e.2).2).1 ht⟩
  · rintro ⟨k, h1, h2⟩
    refine ⟨k, (mem k (hk k h1).1 (hk k h1).2).2 h2, ?_⟩
    rw [Bool.and_eq_true, listed_classes]
    exact ⟨by simp [(hk k h1).1.2], h1⟩

theorem select_spec {w : World} (S : Live w) (ho : Orderly w.heap.log) {e : Addr} (he : (w.heap.obj e).info = none)
    (hs : w.heap.isSingleton (w.heap.obj e).cls = false) {l} (a : Ancestors w.heap.log (w.heap.obj e).cls l)
    {n : Nat} (hn : w.heap.next + 1 < n) : ∀ {b : List (List Item)},
    (∀ items ∈ b, ∀ k ∈ classes (w.at_ standardError) items, IsClass w.heap k ∧ ¬ Prepended w.heap.log k) →
    (select n w e b = some none ∧ ∀ items ∈ b, ¬ IsFor (w.at_ standardError) l items) ∨
    ∃ i, select n w e b = some (some i) ∧ (∀ j < i, ∀ items, b[j]? = some items → ¬ IsFor (w.at_ standardError) l items) ∧
      ∃ items, b[i]? = some items ∧ IsFor (w.at_ standardError) l items
  | [], _ => .inl ⟨rfl, by simp⟩
  | items :: b, hk => by
    obtain ⟨v, ev, hv⟩ := evalRescue_iff S ho he hs a hn (hk items (by simp))
    cases v with
    | true =>
      refine .inr ⟨0, by rw [select, ev], fun j hj => absurd hj (by omega), items, rfl, hv.1 rfl⟩
    | false =>
      have no : ¬ IsFor (w.at_ standardError) l items := fun h => by simpa using hv.2 h
      rcases select_spec S ho he hs a hn (fun i hi => hk i (List.mem_cons_of_mem _ hi)) with ⟨h1, h2⟩ | ⟨i, h1, h2, it, h3, h4⟩
      · refine .inl ⟨by rw [select, ev]; simp [h1], ?_⟩
        intro i hi
        rcases List.mem_cons.1 hi with rfl | hi
        · exact no
        · exact h2 i hi
      · refine .inr ⟨i + 1, by rw [select, ev]; simp [h1], ?_, it, by simpa using h3, h4⟩
        intro j hj it' hit
        cases j with
        | zero => simp at hit; subst hit; exact no
        | succ j => exact h2 j (by omega) it' (by simpa using hit)

theorem Right.outer {std l b bs e f} (hb : ∀ items ∈ b, ¬ IsFor std l items) (r : Right std l bs e f) :
    Right std l (b :: bs) e f.outer := by
  cases f with
  | uncaught =>
    intro b' hb'
    rcases List.mem_cons.1 hb' with rfl | hb'
    · exact hb
    · exact r b' hb'
  | caught d i e' =>
    obtain ⟨h1, h2, b', h3, h4⟩ := r
    refine ⟨h1, ?_, b', by simpa using h3, h4⟩
    intro d' hd' b'' hb''
    cases d' with
    | zero => simp at hb''; subst hb''; exact hb
    | succ d' => exact h2 d' (by omega) b'' (by simpa using hb'')

/-- An object on its way through the `begin`s. -/
theorem handle_object {n : Nat} : ∀ {bs : List (List (List Item))} {w : World}, Live w → Orderly w.heap.log →
    (w.heap.obj w.val).info = none → w.heap.isSingleton (w.heap.obj w.val).cls = false →
    ∀ {l}, Ancestors w.heap.log (w.heap.obj w.val).cls l → w.heap.next + 1 < n → Unmixed w bs →
    ∃ f, handle n bs w .exception = some (w, f) ∧ Right (w.at_ standardError) l bs w.val f
  | [], w, _, _, _, _, _, _, _, _ => ⟨.uncaught, rfl, by simp [Right]⟩
  | b :: bs, w, S, ho, he, hs, l, a, hn, hp => by
    rcases select_spec S ho he hs a hn (hp b (by simp)) with ⟨h1, h2⟩ | ⟨i, h1, h2, it, h3, h4⟩
    · obtain ⟨f, h3, h4⟩ := handle_object (bs := bs) S ho he hs a hn fun b' hb' => hp b' (List.mem_cons_of_mem _ hb')
      refine ⟨f.outer, ?_, h4.outer h2⟩
      simp only [handle, deliver, errClass, h1]
      rw [h3]; rfl
    · refine ⟨.caught 0 i w.val, ?_, rfl, fun d' hd' => absurd hd' (by omega), b, rfl, h2, it, h3, h4⟩
      simp only [handle, deliver, errClass, h1]

theorem IsClass.newObj {h : Heap} {c x} (hx : IsClass h x) : IsClass (newObject h c).1 x := by
  have hlt := hx.1.1
  have ho : (newObject h c).1.obj x = h.obj x := by simp [newObject, Heap.alloc, upd]; omega
  obtain ⟨⟨_, i, e1, e2⟩, hm⟩ := hx
  refine ⟨⟨by simp [newObject, Heap.alloc]; omega, i, by rw [ho]; exact e1, e2⟩, ?_⟩
  simp only [Heap.info, ho] at *
  exact hm

theorem newObject_single {h : Heap} {c x} (hx : IsClass h x) : (newObject h c).1.isSingleton x = h.isSingleton x := by
  have hlt := hx.1.1
  have ho : (newObject h c).1.obj x = h.obj x := by simp [newObject, Heap.alloc, upd]; omega
  simp only [Heap.isSingleton, Heap.info, ho]
  rfl

theorem Live.exception {w : World} (S : Live w) {c m} (hc : IsClass w.heap c) : Live (w.exception c m).1 := by
  refine ⟨.newObject S.reach hc, fun k => ⟨(S.cls k).1.newObj, (S.cls k).2⟩, S.sup, S.inj, fun k => ?_, ?_⟩
  · show (newObject w.heap c).1.isSingleton (w.at_ k) = false
    rw [newObject_single (S.cls k).1]; exact S.plain k
  · intro a m' e
    simp only [World.exception, newObject, Heap.alloc, upd] at e ⊢
    by_cases ha : a = w.heap.next
    · subst ha; simp
    · rw [if_neg ha] at e
      obtain ⟨h1, h2⟩ := S.obj a m' e
      exact ⟨by omega, by simp [ha, h2]⟩

theorem Live.withVal {w : World} (S : Live w) (v : Addr) : Live { w with val := v } :=
  ⟨S.reach, S.cls, S.sup, S.inj, S.plain, S.obj⟩

theorem Unmixed.exception {w : World} {bs c m} (p : Unmixed w bs) : Unmixed (w.exception c m).1 bs :=
  fun b hb i hi k hk => ⟨(p b hb i hi k hk).1.newObj, (p b hb i hi k hk).2⟩

/-- An object made on the spot, on its way. -/
theorem handle_fresh {n : Nat} {bs : List (List (List Item))} {w : World} (S : Live w) (ho : Orderly w.heap.log) {c m}
    (hc : IsClass w.heap c) (hs : w.heap.isSingleton c = false) {l} (a : Ancestors w.heap.log c l)
    (hn : w.heap.next + 2 < n) (hp : Unmixed w bs) :
    ∃ w' f, handle n bs { (w.exception c m).1 with val := (w.exception c m).2 } .exception = some (w', f) ∧
      Right (w.at_ standardError) l bs w.heap.next f ∧ (w'.heap.obj w.heap.next).cls = c ∧
      w'.msg w.heap.next = some m := by
  have ho' : Orderly (w.exception c m).1.heap.log := ho
  have e1 : ((w.exception c m).1.heap.obj (w.exception c m).2).info = none := by
    simp [World.exception, newObject, Heap.alloc, upd]
  have e2 : ((w.exception c m).1.heap.obj (w.exception c m).2).cls = c := by
    simp [World.exception, newObject, Heap.alloc, upd]
  obtain ⟨f, h1, h2⟩ := handle_object (bs := bs) (n := n) (l := l) ((S.exception (m := m) hc).withVal (w.exception c m).2) ho'
    e1 (by
      show (newObject w.heap c).1.isSingleton ((w.exception c m).1.heap.obj (w.exception c m).2).cls = false
      rw [e2, newObject_single hc]; exact hs)
    (by
      show Ancestors w.heap.log ((w.exception c m).1.heap.obj (w.exception c m).2).cls l
      rw [e2]; exact a)
    (by show w.heap.next + 1 + 1 < n; omega) (hp.exception (m := m))
  exact ⟨_, f, h1, h2, e2, by simp [World.exception, newObject, Heap.alloc]⟩

theorem select_val {n : Nat} {w : World} {v e : Addr} : ∀ {b}, select n { w with val := v } e b = select n w e b
  | [] => rfl
  | items :: b => by
    simp only [select]
    rw [select_val (b := b)]

/-- An error of the interpreter goes the way of the object made for it. -/
theorem handle_err {n : Nat} {bs : List (List (List Item))} {w w' : World} {err k f} (hk : errClass err = some k)
    (hb : bs ≠ []) (e : handle n bs { (w.exception (w.at_ k) err.message).1 with
      val := (w.exception (w.at_ k) err.message).2 } .exception = some (w', f)) :
    ∃ w'', handle n bs w err = some (w'', f) ∧ w''.heap = w'.heap ∧ w''.msg = w'.msg := by
  cases bs with
  | nil => exact absurd rfl hb
  | cons b bs =>
    simp only [handle, deliver, hk] at e ⊢
    rw [show errClass .exception = none from rfl] at e
    simp only at e
    rw [select_val] at e
    split at e
    · cases e
    · rename_i i hi
      cases e
      exact ⟨_, rfl, rfl, rfl⟩
    · exact ⟨_, e, rfl, rfl⟩

theorem isExceptionClass_spec {h : Heap} (R : Reach h) {ex : Addr} (hx : IsClass h ex) : ∀ {c n l}, IsClass h c →
    Ancestors h.log c l → h.next + c + 1 < n → isExceptionClass h ex n c = some (decide (ex ∈ l)) := by
  have I := R.good.toInv
  intro c
  induction c using Nat.strongRecOn with
  | _ c ih =>
    intro n l hc a hn
    obtain ⟨n, rfl⟩ : ∃ k, n = k + 1 := ⟨n - 1, by omega⟩
    obtain ⟨b, sb, hb, _⟩ := I.body c hc.1
    have len : b.length ≤ h.next := by
      rcases e : superOf h.log c with _ | s
      · rw [e] at sb
        exact nodup_length sb.nodup fun x hx => (hb x hx).1
      · rw [e] at sb
        obtain ⟨r, m, sr, _, hr, _⟩ := I.chain s (I.sup c s e).2.1
        have seg := sb.cons_none sr
        have := nodup_length seg.nodup (n := h.next) fun x hx => by
          rcases List.mem_append.1 hx with h1 | h1
          · exact (hb x h1).1
          · rcases List.mem_cons.1 h1 with rfl | h1
            · exact (I.sup c x e).2.1.1
            · rcases hr x h1 with h2 | h2 <;> exact h2.1
        simp at this; omega
    by_cases e0 : c = ex
    · subst e0; simp [isExceptionClass, a.self]
    rw [isExceptionClass, if_neg e0]
    rcases e : superOf h.log c with _ | s
    · rw [e] at sb
      rw [superclass, superLoop_none sb (fun x hx => (hb x hx).included) (by omega)]
      have : ex ∉ l := fun hm => e0 ((R.class_top hx e a).1 hm).symm
      simp [this]
    · rw [e] at sb
      obtain ⟨hlt, r, m⟩ := I.sup c s e
      rw [superclass, superLoop_spec sb (fun x hx => (hb x hx).included) r.included (by omega)]
      obtain ⟨l', a'⟩ := a.up e
      simp only
      rw [ih s hlt ⟨r, m⟩ a' (by omega)]
      have : ex ∈ l ↔ ex ∈ l' := by
        rw [R.class_sub hx e a a']
        exact ⟨fun h => h.resolve_left fun h => e0 h.symm, .inr⟩
      simp [this]

theorem isClassB_class {h : Heap} {c} (hc : IsClass h c) : isClassB h c = true := by
  obtain ⟨⟨_, i, e, _⟩, m⟩ := hc
  rw [info_eq e] at m
  simp [isClassB, e, m]

/-- The library's classes above one, by the superclasses the code gives them. -/
def above : Nat → ErrName → List ErrName
  | 0, _ => []
  | n + 1, k => k :: match k.parent with
    | none => []
    | some p => above n p

/-- How many superclasses up `Exception` is. -/
def ErrName.depth : ErrName → Nat
  | exception => 0
  | standardError | scriptError | systemExit => 1
  | noMethodError | frozenError | floatDomainError => 3
  | _ => 2

theorem ErrName.depth_parent {k p : ErrName} (h : k.parent = some p) : p.depth < k.depth := by
  cases k <;> simp only [ErrName.parent, reduceCtorEq, Option.some.injEq] at h <;> subst h <;> decide

theorem Live.above {w : World} (S : Live w) : ∀ {n k l}, k.depth ≤ n → Ancestors w.heap.log (w.at_ k) l → ∀ x,
    (w.at_ x ∈ l ↔ x ∈ Verif.Class.above (n + 1) k) := by
  intro n
  induction n with
  | zero =>
    intro k l hd a x
    have hp : k.parent = none := by
      rcases e : k.parent with _ | p
      · rfl
      · have := ErrName.depth_parent e; omega
    have e := S.sup k
    rw [hp] at e
    obtain ⟨l', a'⟩ := a.up e
    rw [S.reach.class_sub (S.cls x).1 e a a']
    have no : w.at_ x ∉ l' := fun h => by
      have h1 := S.reach.class_le (S.cls x).1 a' h
      have h2 := (S.cls x).2
      have h3 : objectC = 1 := rfl
      simp only [Option.map_none, Option.getD_none] at h1
      omega
    simp only [Verif.Class.above, hp, List.mem_singleton, no, or_false]
    exact ⟨S.inj x k, fun e => by rw [e]⟩
  | succ n ih =>
    intro k l hd a x
    have e := S.sup k
    obtain ⟨l', a'⟩ := a.up e
    rw [S.reach.class_sub (S.cls x).1 e a a', Verif.Class.above, List.mem_cons]
    refine or_congr ⟨S.inj x k, fun e => by rw [e]⟩ ?_
    rcases hp : k.parent with _ | p
    · rw [hp] at a'
      have no : w.at_ x ∉ l' := fun h => by
        have h1 := S.reach.class_le (S.cls x).1 a' h
        have h2 := (S.cls x).2
        have h3 : objectC = 1 := rfl
        simp only [Option.map_none, Option.getD_none] at h1
        omega
      simp [no]
    · rw [hp] at a'
      have := ErrName.depth_parent hp
      exact ih (by omega) a' x

/-- All the names. -/
def names : List ErrName :=
  [exception, standardError, argumentError, indexError, regexpError, typeError, fiberError, nameError, noMethodError,
    zeroDivisionError, stopIteration, localJumpError, runtimeError, frozenError, scriptError, syntaxError, systemExit,
    domainError, rangeError, floatDomainError, loadError]

/-- The world after a program that begins with `library`; the objects at `xs` are exceptions. -/
def world (xs : List Addr) (h : Heap) : World :=
  { heap := h, msg := fun x => if x ∈ xs then some "oops" else none, name := fun c => if c = 48 then "Mine" else "",
    at_ := libraryAt, val := 0 }

def liveB (xs : List Addr) (h : Heap) : Bool :=
  (names.all fun k => h.realB (libraryAt k) && !(h.info (libraryAt k)).isModule &&
    decide (superOf h.log (libraryAt k) = some ((k.parent.map libraryAt).getD objectC)) && !h.isSingleton (libraryAt k)) &&
  xs.all fun x => decide (x < h.next) && (h.obj x).info.isNone

theorem mem_names (k : ErrName) : k ∈ names := by cases k <;> decide

theorem live_world {xs h} (R : Reach h) (e : liveB xs h = true) : Live (world xs h) := by
  simp only [liveB, Bool.and_eq_true, List.all_eq_true, Bool.not_eq_true', decide_eq_true_eq, realB_iff,
    Option.isNone_iff_eq_none] at e
  refine ⟨R, fun k => ⟨⟨(e.1 k (mem_names k)).1.1.1, (e.1 k (mem_names k)).1.1.2⟩, ?_⟩, fun k => (e.1 k (mem_names k)).1.2, ?_,
    fun k => (e.1 k (mem_names k)).2, ?_⟩
  · show 4 < libraryAt k
    cases k <;> decide
  · show ∀ k k', libraryAt k = libraryAt k' → k = k'
    intro k k'
    cases k <;> cases k' <;> decide
  · intro a m h
    by_cases ha : a ∈ xs
    · exact e.2 a ha
    · simp [world, ha] at h

theorem live_runs {xs : List Addr} {cs : List Cmd} {p : Heap → Bool} (e : runs cs (fun h => liveB xs h && p h) = true) : ∃ h, Live (world xs h) ∧ p h = true := by
  obtain ⟨h, R, e⟩ := runs_reach e
  rw [Bool.and_eq_true] at e
  exact ⟨h, live_world R e.1, e.2⟩

/-- Below `library`: a subclass 48 of `RuntimeError` that includes the module 50, an object 52 of it, a subclass 53 of
`StandardError`, the module 55 prepended to it, and a subclass 58 of that class. -/
def sample : List Cmd := library ++
  [.newClass 30, .newModule, .incl 48 50, .newObject 48, .newClass 8, .newModule, .prep 53 55, .newClass 53]

/-! ## C98 -/

/-- An exception object that is on its way meets the `begin`s around it, innermost first.  The clause that gets it is the
one Ruby chooses: the first clause, in the innermost `begin` that has one, listing an ancestor of its class; the clause
gets this very object.  Partial: the clauses list classes to which nothing was prepended (`C98_module_fails`,
`C98_prepended_fails`), and the object has no singleton class. -/
theorem C98_handler_partial {w : World} (S : Live w) (ho : Orderly w.heap.log) {bs : List (List (List Item))}
    (hp : Unmixed w bs) {e : Addr} {m : String} (he : w.msg e = some m)
    (hs : w.heap.isSingleton (w.heap.obj e).cls = false) {l} (a : Ancestors w.heap.log (w.heap.obj e).cls l)
    {n : Nat} (hn : w.heap.next + 1 < n) :
    ∃ f, raiseIn n bs w [.obj e] = some ({ w with val := e }, f) ∧ Right (w.at_ standardError) l bs e f := by
  obtain ⟨_, hi⟩ := S.obj e m he
  obtain ⟨f, h1, h2⟩ := handle_object (bs := bs) (n := n) (l := l) (S.withVal e) ho hi hs a hn hp
  refine ⟨f, ?_, h2⟩
  simp only [raiseIn, raise_, isClassB, hi, he]
  exact h1

/-- `raise C`, for a class `C` that has `Exception` among its ancestors: the clause that Ruby chooses gets a new object
of the class `C`, whose message is the name of `C`. -/
theorem C98_raise_class_partial {w : World} (S : Live w) (ho : Orderly w.heap.log) {bs : List (List (List Item))}
    (hp : Unmixed w bs) {c : Addr} (hc : IsClass w.heap c) (hs : w.heap.isSingleton c = false) {l}
    (a : Ancestors w.heap.log c l) (hx : w.at_ exception ∈ l) {n : Nat} (hn : w.heap.next + c + 2 < n) :
    ∃ w' f, raiseIn n bs w [.obj c] = some (w', f) ∧ Right (w.at_ standardError) l bs w.heap.next f ∧
      (w'.heap.obj w.heap.next).cls = c ∧ w'.msg w.heap.next = some (w.name c) := by
  obtain ⟨w', f, h1, h2⟩ := handle_fresh (m := w.name c) S ho hc hs a (n := n) (by omega) hp
  refine ⟨w', f, ?_, h2⟩
  simp only [raiseIn, raise_, isClassB_class hc, if_true]
  rw [isExceptionClass_spec S.reach (S.cls _).1 hc a (by omega)]
  simp only [hx, decide_true]
  exact h1

/-- An error that the interpreter raises itself, or a `raise` of a string: the clause that Ruby chooses for the class
`k` of the error gets a new object of that class with the text of the error.  (Which class: `C98_library_partial`,
`C98_string_fails`.) -/
theorem C98_error_partial {w : World} (S : Live w) (ho : Orderly w.heap.log) {bs : List (List (List Item))}
    (hp : Unmixed w bs) {err : Err} {k : ErrName} (hk : errClass err = some k) {l}
    (a : Ancestors w.heap.log (w.at_ k) l) {n : Nat} (hn : w.heap.next + 2 < n) :
    ∃ w' f, handle n bs w err = some (w', f) ∧ Right (w.at_ standardError) l bs w.heap.next f ∧
      (f ≠ .uncaught → (w'.heap.obj w.heap.next).cls = w.at_ k ∧ w'.msg w.heap.next = some err.message) := by
  by_cases hb : bs = []
  · subst hb
    exact ⟨w, .uncaught, rfl, by simp [Right], fun h => absurd rfl h⟩
  obtain ⟨w', f, h1, h2, h3, h4⟩ := handle_fresh (m := err.message) S ho (S.cls k).1 (S.plain k) a hn hp
  obtain ⟨w'', h5, h6, h7⟩ := handle_err hk hb h1
  exact ⟨w'', f, h5, h2, fun _ => ⟨by rw [h6]; exact h3, by rw [h7]; exact h4⟩⟩

/-- The class of an error is the one that its message names (`RuntimeError` is called `Runtime` there); an error in the
text of a program is a `SyntaxError`, a stray `return` or `break` a `LocalJumpError`, `exit` a `SystemExit`. -/
theorem C98_class_of_error : (∀ k m, ∃ e, errClass (.runtime k m) = some e ∧
      (e.ruby = k.show ∨ k = .runtime ∧ e = runtimeError)) ∧
    (∀ m, errClass (.parse m) = some syntaxError) ∧ errClass .methodReturn = some localJumpError ∧
    errClass .blockReturn = some localJumpError ∧ errClass .systemExit = some ErrName.systemExit := by
  refine ⟨fun k m => ?_, fun _ => rfl, rfl, rfl, rfl⟩
  cases k
  case runtime => exact ⟨_, rfl, .inr ⟨rfl, rfl⟩⟩
  all_goals exact ⟨_, rfl, .inl rfl⟩

/-- `raise` of what is neither an exception nor a class of exceptions raises a `TypeError`. -/
theorem C98_raise_other {w : World} (S : Live w) {x : RArg} {n : Nat} (hn : ∀ c, x = .obj c → w.heap.next + c + 1 < n)
    (hx : match x with
      | .str _ => False
      | .other => True
      | .obj c => (IsClass w.heap c ∧ ∃ l, Ancestors w.heap.log c l ∧ w.at_ exception ∉ l) ∨
          (isClassB w.heap c = false ∧ w.msg c = none)) :
    ∃ m, raise_ n w [x] = some (w, .runtime .type m) := by
  cases x with
  | str m => cases hx
  | other => exact ⟨_, rfl⟩
  | obj c =>
    rcases hx with ⟨hc, l, a, no⟩ | ⟨h1, h2⟩
    · refine ⟨"Exception class/object expected.", ?_⟩
      rw [raise_, if_pos (isClassB_class hc), isExceptionClass_spec S.reach (S.cls _).1 hc a (hn c rfl)]
      simp [no]
    · exact ⟨"Exception class/object expected.", by simp [raise_, h1, h2]⟩

/-- Among the library's exception classes, those above each are as in Ruby.  Partial: not for `LoadError`,
`StopIteration` and `Math::DomainError` (`C98_library_fails`). -/
theorem C98_library_partial {w : World} (S : Live w) {k : ErrName} (h1 : k ≠ loadError) (h2 : k ≠ stopIteration)
    (h3 : k ≠ domainError) {l} (a : Ancestors w.heap.log (w.at_ k) l) (x : ErrName) :
    w.at_ x ∈ l ↔ x ∈ rubyAbove k := by
  rw [S.above (n := 3) (by cases k <;> decide) a x]
  have : above 4 k = rubyAbove k := by
    cases k <;> first | rfl | exact absurd rfl h1 | exact absurd rfl h2 | exact absurd rfl h3
  rw [this]


/-- The object 52 of class 48 (below `RuntimeError`) passes an inner `begin … rescue ArgumentError` and is caught by the
second clause of the outer one; `raise` of its class makes a new object, 60, that goes the same way; a division by zero
is not for those clauses but for a bare `rescue`. -/
example : ∃ h, Live (world [52] h) ∧ (decide ((h.obj 52).cls = 48) && !h.isSingleton 48 &&
    decide (ancestors h 200 48 = some [48, 50, 30, 8, 5, 1, 0]) &&
    decide ((raiseIn 200 [[[.one 10]], [[.one 12], [.splat [14, 30]]]] (world [52] h) [.obj 52]).map (·.2) =
      some (.caught 1 1 52)) &&
    decide ((raiseIn 200 [[[.one 10]], [[.one 12], [.splat [14, 30]]]] (world [52] h) [.obj 48]).map (·.2) =
      some (.caught 1 1 60)) &&
    decide ((handle 200 [[[.one 10]], [[.one 12], [.splat [14, 30]], []]] (world [52] h)
      (.runtime .zeroDivision "Divided by 0.")).map (·.2) = some (.caught 1 2 60)) &&
    decide ((raise_ 200 (world [52] h) [.obj 1]).map (·.2) =
      some (.runtime .type "Exception class/object expected."))) = true :=
  live_runs (cs := sample) (by decide +kernel)

/-- The clauses of that example meet the hypotheses: all are classes to which nothing was prepended, and nothing was
prepended before an `include`. -/
example : runs sample (fun h => [10, 12, 14, 30].all (fun k => h.realB k && !(h.info k).isModule && h.log.all (fun e =>
      match e with | .prep c _ => c != k | _ => true)) &&
    decide (h.log.filter (fun e => match e with | .prep _ _ => true | .incl _ _ => true | _ => false) =
      [.prep 53 55, .incl 48 50])) = true := by decide +kernel

/-- `rescue M`, for a module `M` that the class of the exception includes, does not catch it, although `M` is among its
ancestors. -/
theorem C98_module_fails : ∃ w, Live w ∧ ancestors w.heap 200 48 = some [48, 50, 30, 8, 5, 1, 0] ∧
    (raiseIn 200 [[[.one 50]]] w [.obj 48]).map (·.2) = some .uncaught := by
  obtain ⟨h, L, e⟩ := live_runs (xs := [52]) (cs := sample) (p := fun h =>
    decide (ancestors h 200 48 = some [48, 50, 30, 8, 5, 1, 0]) &&
    decide ((raiseIn 200 [[[.one 50]]] (world [52] h) [.obj 48]).map (·.2) = some .uncaught)) (by decide +kernel)
  simp only [Bool.and_eq_true, decide_eq_true_eq] at e
  exact ⟨_, L, e⟩

/-- `rescue K`, for a superclass `K` of the class of the exception to which a module was prepended, does not catch it. -/
theorem C98_prepended_fails : ∃ w, Live w ∧ IsClass w.heap 53 ∧ superclass 200 w.heap 58 = some (some 53) ∧
    ancestors w.heap 200 58 = some [58, 55, 53, 8, 5, 1, 0] ∧
    (raiseIn 200 [[[.one 53]]] w [.obj 58]).map (·.2) = some .uncaught := by
  obtain ⟨h, L, e⟩ := live_runs (xs := [52]) (cs := sample) (p := fun h =>
    (h.realB 53 && !(h.info 53).isModule) && (decide (superclass 200 h 58 = some (some 53)) &&
    (decide (ancestors h 200 58 = some [58, 55, 53, 8, 5, 1, 0]) &&
    decide ((raiseIn 200 [[[.one 53]]] (world [52] h) [.obj 58]).map (·.2) = some .uncaught)))) (by decide +kernel)
  simp only [Bool.and_eq_true, decide_eq_true_eq, realB_iff, Bool.not_eq_true'] at e
  exact ⟨_, L, e⟩

/-- `raise "oops"` is not caught by `rescue RuntimeError` (Ruby raises a `RuntimeError`): the object is a
`StandardError`. -/
theorem C98_string_fails : ∃ w, Live w ∧
    (raiseIn 200 [[[.one (w.at_ runtimeError)]]] w [.str "oops"]).map (·.2) = some .uncaught ∧
    (raiseIn 200 [[[]]] w [.str "oops"]).map (fun r => (r.2, (r.1.heap.obj 60).cls)) =
      some (.caught 0 0 60, w.at_ standardError) := by
  obtain ⟨h, L, e⟩ := live_runs (xs := [52]) (cs := sample) (p := fun h =>
    decide ((raiseIn 200 [[[.one (libraryAt runtimeError)]]] (world [52] h) [.str "oops"]).map (·.2) = some .uncaught) &&
    decide ((raiseIn 200 [[[]]] (world [52] h) [.str "oops"]).map (fun r => (r.2, (r.1.heap.obj 60).cls)) =
      some (.caught 0 0 60, libraryAt standardError))) (by decide +kernel)
  simp only [Bool.and_eq_true, decide_eq_true_eq] at e
  exact ⟨_, L, e⟩

/-- `raise C, "oops"` is not caught by `rescue C`: the class is ignored. -/
theorem C98_class_message_fails : ∃ w, Live w ∧
    (raiseIn 200 [[[.one 48]]] w [.obj 48]).map (·.2) = some (.caught 0 0 60) ∧
    (raiseIn 200 [[[.one 48]]] w [.obj 48, .str "oops"]).map (·.2) = some .uncaught := by
  obtain ⟨h, L, e⟩ := live_runs (xs := [52]) (cs := sample) (p := fun h =>
    decide ((raiseIn 200 [[[.one 48]]] (world [52] h) [.obj 48]).map (·.2) = some (.caught 0 0 60)) &&
    decide ((raiseIn 200 [[[.one 48]]] (world [52] h) [.obj 48, .str "oops"]).map (·.2) = some .uncaught))
    (by decide +kernel)
  simp only [Bool.and_eq_true, decide_eq_true_eq] at e
  exact ⟨_, L, e⟩

/-- `raise` without arguments in a clause that handles an exception (52, of class 48) does not raise it again: the
`rescue` of its class around it does not catch what is raised. -/
theorem C98_again_fails : ∃ w, Live w ∧ w.val = 52 ∧ (w.heap.obj 52).cls = 48 ∧
    (raiseIn 200 [[[.one 48]]] w []).map (·.2) = some .uncaught := by
  obtain ⟨h, L, e⟩ := live_runs (xs := [52]) (cs := sample) (p := fun h => decide ((h.obj 52).cls = 48) &&
    decide ((raiseIn 200 [[[.one 48]]] { world [52] h with val := 52 } []).map (·.2) = some .uncaught))
    (by decide +kernel)
  simp only [Bool.and_eq_true, decide_eq_true_eq] at e
  exact ⟨_, L.withVal 52, rfl, e⟩

/-- A `LoadError` is caught by a bare `rescue` and not by `rescue ScriptError`; in Ruby it is the other way round.
`StopIteration` is not below `IndexError`, nor `Math::DomainError` below `ArgumentError`. -/
theorem C98_library_fails : ∃ w, Live w ∧
    (handle 200 [[[.one (w.at_ scriptError)], []]] w (.runtime .loadError "x")).map (·.2) = some (.caught 0 1 60) ∧
    (handle 200 [[[.one (w.at_ indexError)], []]] w (.runtime .stopIteration "x")).map (·.2) = some (.caught 0 1 60) ∧
    (handle 200 [[[.one (w.at_ argumentError)], []]] w (.runtime .domainError "x")).map (·.2) = some (.caught 0 1 60) ∧
    scriptError ∈ rubyAbove loadError ∧ standardError ∉ rubyAbove loadError ∧ indexError ∈ rubyAbove stopIteration ∧
    argumentError ∈ rubyAbove domainError := by
  obtain ⟨h, L, e⟩ := live_runs (xs := [52]) (cs := sample) (p := fun h =>
    decide ((handle 200 [[[.one (libraryAt scriptError)], []]] (world [52] h) (.runtime .loadError "x")).map (·.2) =
      some (.caught 0 1 60)) &&
    (decide ((handle 200 [[[.one (libraryAt indexError)], []]] (world [52] h) (.runtime .stopIteration "x")).map (·.2) =
      some (.caught 0 1 60)) &&
    decide ((handle 200 [[[.one (libraryAt argumentError)], []]] (world [52] h) (.runtime .domainError "x")).map (·.2) =
      some (.caught 0 1 60)))) (by decide +kernel)
  simp only [Bool.and_eq_true, decide_eq_true_eq] at e
  exact ⟨_, L, e.1, e.2.1, e.2.2, by decide, by decide, by decide, by decide⟩

/-- The `message` of an error of the interpreter has the name of its class in front. -/
theorem C98_message_fails : ∃ w, Live w ∧
    (handle 200 [[[]]] w (.runtime .zeroDivision "Divided by 0.")).bind (·.1.msg 60) =
      some "ZeroDivisionError (Divided by 0.)" := by
  obtain ⟨h, L, e⟩ := live_runs (xs := [52]) (cs := sample) (p := fun h =>
    decide ((handle 200 [[[]]] (world [52] h) (.runtime .zeroDivision "Divided by 0.")).bind (·.1.msg 60) =
      some "ZeroDivisionError (Divided by 0.)")) (by decide +kernel)
  exact ⟨_, L, of_decide_eq_true e⟩

end Verif.Class
