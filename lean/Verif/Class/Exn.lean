/-! # C125: exception objects

`Exception.new`, the `initialize` methods of a program's own exception classes, and what `message`, `to_s` and `inspect`
tell of an exception object.  Which class and message an exception has when it is raised is the subject of C98. -/
namespace Verif.Class.Exn

/-! ## Model -/

/-- The values that the model needs: strings and two other kinds. -/
inductive Val
  | str (s : String)
  | int (n : Int)
  | nil
  deriving DecidableEq, Repr

/-- The errors of `new`: TypeError, ArgumentError. -/
inductive Err
  | type
  | argument
  deriving DecidableEq, Repr

/-- An expression in an `initialize` method: a parameter, a literal, two strings joined. -/
inductive Expr
  | param (i : Nat)
  | lit (v : Val)
  | cat (a b : Expr)
  deriving DecidableEq, Repr

/-- A statement of an `initialize` method: `@x = e`, `super(e, …)`, `super`. -/
inductive Stmt
  | set (x : String) (e : Expr)
  | super_ (es : List Expr)
  | zsuper
  deriving DecidableEq, Repr

/-- An `initialize` method: the number of its (required) parameters, its statements. -/
structure Init where
  arity : Nat
  body : List Stmt
  deriving DecidableEq, Repr

/-- An exception class below `Exception` that a program or the library makes (exception.rs:22-68): its name, and its own
`initialize`, if it has one.  A class with those above it, up to and without `Exception`, is a list of these.  Simplified:
no modules are included. -/
structure Cls where
  name : String
  init : Option Init
  deriving DecidableEq, Repr

/-- The name of the first class of a list; none: `Exception` itself. -/
def name_of : List Cls → String
  | [] => "Exception"
  | c :: _ => c.name

/-- An exception object (`RValue::new_exception`, value/rvalue.rs:764-775): its class, the error in it, and its instance
variables, of which `@message` and `@backtrace` are set.  Simplified: the error is its text (`RubyErrorKind::None`), and the
backtrace, which is always an empty array here, is left out. -/
structure Obj where
  cls : List Cls
  err : String
  vars : String → Val

/-- `set_var`, and `@x = v` of a method. -/
def Obj.set (o : Obj) (x : String) (v : Val) : Obj := { o with vars := fun y => if y = x then v else o.vars y }

/-- `Value::exception` (value/value.rs:1150-1152) of `RubyError::none(err)` (ruruby-common/src/error.rs:152-168: the message
of such an error is its text). -/
def exception (cls : List Cls) (err : String) : Obj :=
  Obj.set { cls := cls, err := err, vars := fun _ => .nil } "@message" (.str err)

/-- The value of an expression (`none`: TypeError, of `+`).  Simplified: a parameter that is not there is nil. -/
def eval (args : List Val) : Expr → Option Val
  | .param i => some (args.getD i .nil)
  | .lit v => some v
  | .cat a b => match eval args a, eval args b with
    | some (.str x), some (.str y) => some (.str (x ++ y))
    | _, _ => none

/-- `Object#initialize` (builtin/object.rs:40-42). -/
def object_initialize (o : Obj) (_ : List Val) : Except Err Obj := .ok o

/-- The statements of a method; `up` is the method that `super` calls. -/
def exec (up : Obj → List Val → Except Err Obj) (args : List Val) : List Stmt → Obj → Except Err Obj
  | [], o => .ok o
  | .set x e :: r, o => match eval args e with
    | some v => exec up args r (o.set x v)
    | none => .error .type
  | .super_ es :: r, o => match es.mapM (eval args) with
    | some vs => match up o vs with
      | .ok o => exec up args r o
      | .error e => .error e
    | none => .error .type
  | .zsuper :: r, o => match up o args with
    | .ok o => exec up args r o
    | .error e => .error e

/-- The call of the method `initialize` that the classes of a list have (`eval_initialize`, vm/executor/method.rs:312-327);
`base` is the one of the classes above them: `Exception` has none (exception.rs:3-20), so this is that of `Object`. -/
def call_init (base : Obj → List Val → Except Err Obj) : List Cls → Obj → List Val → Except Err Obj
  | [], o, args => base o args
  | c :: r, o, args => match c.init with
    | none => call_init base r o args
    | some i => if args.length = i.arity then exec (call_init base r) args i.body o else .error .argument

/-- `exception_new` (exception.rs:75-89). -/
def exception_new (cls : List Cls) (args : List Val) : Except Err Obj :=
  match args with
  | [] => call_init object_initialize cls (exception cls (name_of cls)) args
  | [.str m] => call_init object_initialize cls (exception cls m) args
  | [_] => .error .type
  | _ => .error .argument

/-- `exception_allocate` (exception.rs:91-96). -/
def exception_allocate (cls : List Cls) (args : List Val) : Except Err Obj :=
  match args with
  | [] => .ok (exception cls "")
  | _ => .error .argument

/-- `Exception#message`, an attribute (exception.rs:12-20, builtin/module.rs:333-340). -/
def message (o : Obj) : Val := o.vars "@message"

/-- `Exception#message=` (exception.rs:12-20, builtin/module.rs:342-350). -/
def set_message (o : Obj) (v : Val) : Obj := o.set "@message" v

/-- `Exception#to_s` (exception.rs:114-122). -/
def to_s (o : Obj) : String := o.err

/-- `Exception#inspect` (exception.rs:100-112). -/
def inspect (o : Obj) : String := "#<" ++ name_of o.cls ++ ": " ++ o.err ++ ">"

/-! ## Specification -/

/-- What Ruby knows of an exception object: its class, its message (`none`: no message was given) and the variables that
the program has set. -/
structure RObj where
  cls : List Cls
  msg : Option Val
  vars : String → Val

/-- The `initialize` of `Exception` in Ruby: it keeps the message, if there is one. -/
def ruby_base (o : RObj) : List Val → Except Err RObj
  | [] => .ok { o with msg := none }
  | [v] => .ok { o with msg := some v }
  | _ => .error .argument

/-- A method in Ruby. -/
def ruby_exec (up : RObj → List Val → Except Err RObj) (args : List Val) : List Stmt → RObj → Except Err RObj
  | [], o => .ok o
  | .set x e :: r, o => match eval args e with
    | some v => ruby_exec up args r { o with vars := fun y => if y = x then v else o.vars y }
    | none => .error .type
  | .super_ es :: r, o => match es.mapM (eval args) with
    | some vs => match up o vs with
      | .ok o => ruby_exec up args r o
      | .error e => .error e
    | none => .error .type
  | .zsuper :: r, o => match up o args with
    | .ok o => ruby_exec up args r o
    | .error e => .error e

/-- The call of `initialize` in Ruby. -/
def ruby_initialize : List Cls → RObj → List Val → Except Err RObj
  | [], o, args => ruby_base o args
  | c :: r, o, args => match c.init with
    | none => ruby_initialize r o args
    | some i => if args.length = i.arity then ruby_exec (ruby_initialize r) args i.body o else .error .argument

/-- `E.new(…)` in Ruby: an object without message, and then `initialize`. -/
def ruby_new (cls : List Cls) (args : List Val) : Except Err RObj :=
  ruby_initialize cls { cls := cls, msg := none, vars := fun _ => .nil } args

/-- `to_s` of the values of the model. -/
def Val.text : Val → String
  | .str s => s
  | .int n => toString n
  | .nil => ""

/-- The message of an exception in Ruby: what was kept, as a string, or the name of the class. -/
def RObj.message (o : RObj) : String :=
  match o.msg with
  | none | some .nil => name_of o.cls
  | some v => v.text

/-- An `initialize` that gives its arguments to `super` as they are, and otherwise sets other variables. -/
def Passes (i : Init) (n : Nat) : Prop :=
  i.arity = n ∧
  (∀ s ∈ i.body, s = .zsuper ∨ s = .super_ ((List.range n).map .param) ∨
    ∃ x e, s = .set x e ∧ x ≠ "@message" ∧ ∀ args, (eval args e).isSome) ∧
  (n = 0 ∨ .zsuper ∈ i.body ∨ .super_ ((List.range n).map .param) ∈ i.body)

/-! ## Helpers -/

/-- The object of the machine is the one of Ruby, but for the message in it. -/
structure Same (args : List Val) (o : Obj) (r : RObj) (m : String) : Prop where
  cls : o.cls = r.cls
  vars : ∀ x, x ≠ "@message" → o.vars x = r.vars x
  err : o.err = m
  message : o.vars "@message" = .str m
  empty : args = [] → r.msg = none

/-- What was given. -/
def given : List Val → Option Val
  | [v] => some v
  | _ => none

theorem eval_params {args : List Val} (h : args.length ≤ 1) :
    ((List.range args.length).map Expr.param).mapM (eval args) = some args := by
  match args, h with
  | [], _ => rfl
  | [v], _ => rfl

theorem exec_same {up : Obj → List Val → Except Err Obj} {rup : RObj → List Val → Except Err RObj} {args : List Val}
    {m : String} (ha : args.length ≤ 1)
    (hup : ∀ {o r}, Same args o r m → ∃ o' r', up o args = .ok o' ∧ rup r args = .ok r' ∧ Same args o' r' m ∧ r'.msg = given args)
    {b : List Stmt} (hb : ∀ s ∈ b, s = .zsuper ∨ s = .super_ ((List.range args.length).map .param) ∨
      ∃ x e, s = .set x e ∧ x ≠ "@message" ∧ ∀ args, (eval args e).isSome) :
    ∀ {o r}, Same args o r m → ∃ o' r', exec up args b o = .ok o' ∧ ruby_exec rup args b r = .ok r' ∧ Same args o' r' m ∧
      (r.msg = given args ∨ .zsuper ∈ b ∨ .super_ ((List.range args.length).map .param) ∈ b → r'.msg = given args) := by
  induction b with
  | nil => exact fun {o r} h => ⟨o, r, rfl, rfl, h, by simp⟩
  | cons s b ih =>
    intro o r h
    have ih := @ih (fun s hs => hb s (List.mem_cons_of_mem _ hs))
    rcases hb s List.mem_cons_self with rfl | rfl | ⟨x, e, rfl, hx, he⟩
    · obtain ⟨o1, r1, h1, h2, h3, h4⟩ := hup h
      obtain ⟨o2, r2, g1, g2, g3, g4⟩ := ih h3
      exact ⟨o2, r2, by simp only [exec, h1, g1], by simp only [ruby_exec, h2, g2], g3, fun _ => g4 (.inl h4)⟩
    · obtain ⟨o1, r1, h1, h2, h3, h4⟩ := hup h
      obtain ⟨o2, r2, g1, g2, g3, g4⟩ := ih h3
      exact ⟨o2, r2, by simp only [exec, eval_params ha, h1, g1], by simp only [ruby_exec, eval_params ha, h2, g2], g3,
        fun _ => g4 (.inl h4)⟩
    · obtain ⟨v, hv⟩ := Option.isSome_iff_exists.1 (he args)
      obtain ⟨o2, r2, g1, g2, g3, g4⟩ := ih (o := o.set x v) (r := { r with vars := fun y => if y = x then v else r.vars y })
        ⟨h.cls, fun y hy => by
          show (if y = x then v else o.vars y) = if y = x then v else r.vars y
          rw [h.vars y hy], h.err, by
          show (if "@message" = x then v else o.vars "@message") = _
          rw [if_neg (fun q => hx q.symm)]; exact h.message, h.empty⟩
      refine ⟨o2, r2, by simp only [exec, hv, g1], by simp only [ruby_exec, hv, g2], g3, fun q => g4 ?_⟩
      simpa using q

theorem init_same {args : List Val} {m : String} (ha : args.length ≤ 1) :
    ∀ {cls : List Cls}, (∀ c ∈ cls, ∀ i, c.init = some i → Passes i args.length) →
    ∀ {o r}, Same args o r m →
      ∃ o' r', call_init object_initialize cls o args = .ok o' ∧ ruby_initialize cls r args = .ok r' ∧
        Same args o' r' m ∧ r'.msg = given args := by
  intro cls
  induction cls with
  | nil =>
    intro _ o r h
    match args, ha with
    | [], _ => exact ⟨o, { r with msg := none }, rfl, rfl, ⟨h.cls, h.vars, h.err, h.message, fun _ => rfl⟩, rfl⟩
    | [v], _ => exact ⟨o, { r with msg := some v }, rfl, rfl, ⟨h.cls, h.vars, h.err, h.message, fun q => nomatch q⟩, rfl⟩
  | cons c cls ih =>
    intro hp o r h
    have ih := @ih (fun c hc => hp c (List.mem_cons_of_mem _ hc))
    simp only [call_init, ruby_initialize]
    cases hi : c.init with
    | none => exact ih h
    | some i =>
      obtain ⟨p1, p2, p3⟩ := hp c List.mem_cons_self i hi
      dsimp only
      rw [if_pos p1.symm, if_pos p1.symm]
      obtain ⟨o', r', h1, h2, h3, h4⟩ := exec_same ha ih p2 h
      refine ⟨o', r', h1, h2, h3, h4 ?_⟩
      rcases p3 with q | q
      · refine .inl ?_
        have : args = [] := List.length_eq_zero_iff.1 q
        rw [h.empty this, this]; rfl
      · exact .inr q

theorem exec_cls {up : Obj → List Val → Except Err Obj} (hup : ∀ o args o', up o args = .ok o' → o'.cls = o.cls)
    (args : List Val) : ∀ (b : List Stmt) (o o' : Obj), exec up args b o = .ok o' → o'.cls = o.cls := by
  intro b
  induction b with
  | nil => intro o o' h; cases h; rfl
  | cons s b ih =>
    intro o o' h
    cases s with
    | set x e =>
      simp only [exec] at h
      split at h
      · exact (ih _ _ h).trans rfl
      · cases h
    | super_ es =>
      simp only [exec] at h
      split at h
      · split at h
        · rename_i h2; exact (ih _ _ h).trans (hup _ _ _ h2)
        · cases h
      · cases h
    | zsuper =>
      simp only [exec] at h
      split at h
      · rename_i h2; exact (ih _ _ h).trans (hup _ _ _ h2)
      · cases h

theorem init_cls : ∀ (cls : List Cls) (o : Obj) (args : List Val) (o' : Obj),
    call_init object_initialize cls o args = .ok o' → o'.cls = o.cls := by
  intro cls
  induction cls with
  | nil => intro o args o' h; cases h; rfl
  | cons c cls ih =>
    intro o args o' h
    simp only [call_init] at h
    split at h
    · exact ih _ _ _ h
    · split at h
      · exact exec_cls ih args _ _ _ h
      · cases h

/-! ## C125 -/

/-- **C125** (partial): `E.new` and `E.new("text")` make an object of the class `E` with the message and the variables that
Ruby gives it, when every `initialize` of the program hands its arguments to `super` as they are (a class without its own
`initialize` is fine): the message is the text, or the name of the class; `to_s` is the message and `inspect` shows both.
Missing, as these fail: `initialize` that gives something else to `super` or nothing, more or other arguments. -/
theorem C125_new_partial {cls : List Cls} {args : List Val} (ha : args = [] ∨ ∃ m, args = [.str m])
    (hp : ∀ c ∈ cls, ∀ i, c.init = some i → Passes i args.length) :
    ∃ o r, exception_new cls args = .ok o ∧ ruby_new cls args = .ok r ∧ o.cls = cls ∧ r.cls = cls ∧
      (∀ x, x ≠ "@message" → o.vars x = r.vars x) ∧ message o = .str r.message ∧ to_s o = r.message ∧
      inspect o = "#<" ++ name_of cls ++ ": " ++ r.message ++ ">" := by
  have key : ∀ m, (∀ v, given args = some v → v = .str m) → (args = [] → m = name_of cls) → args.length ≤ 1 →
      exception_new cls args = call_init object_initialize cls (exception cls m) args →
      ∃ o r, exception_new cls args = .ok o ∧ ruby_new cls args = .ok r ∧ Same args o r m ∧ r.msg = given args ∧
        o.cls = cls := by
    intro m _ _ h1 h2
    obtain ⟨o, r, g1, g2, g3, g4⟩ := init_same (m := m) h1 hp (o := exception cls m)
      (r := { cls := cls, msg := none, vars := fun _ => .nil })
      ⟨rfl, fun x hx => by simp [exception, Obj.set, hx], rfl, by simp [exception, Obj.set], fun _ => rfl⟩
    exact ⟨o, r, h2.trans g1, g2, g3, g4, init_cls cls _ _ _ g1⟩
  rcases ha with rfl | ⟨m, rfl⟩
  · obtain ⟨o, r, h1, h2, h3, h4, h5⟩ := key (name_of cls) (by simp [given]) (fun _ => rfl) (by simp) rfl
    have hr : r.cls = cls := h3.cls.symm.trans h5
    have hm : r.message = name_of cls := by simp [RObj.message, h4, given, hr]
    exact ⟨o, r, h1, h2, h5, hr, h3.vars, by rw [hm]; exact h3.message, by rw [hm]; exact h3.err, by
      rw [hm, inspect, h5, h3.err]⟩
  · obtain ⟨o, r, h1, h2, h3, h4, h5⟩ := key m (by simp [given]) (by simp) (by simp) rfl
    have hm : r.message = m := by simp [RObj.message, h4, given, Val.text]
    exact ⟨o, r, h1, h2, h5, h3.cls.symm.trans h5, h3.vars, by rw [hm]; exact h3.message, by rw [hm]; exact h3.err, by
      rw [hm, inspect, h5, h3.err]⟩

/-- **C125**: without any `initialize` the text given is the message, and without a text the name of the class. -/
theorem C125_message {cls : List Cls} (hp : ∀ c ∈ cls, c.init = none) (m : String) :
    (∃ o, exception_new cls [.str m] = .ok o ∧ o.cls = cls ∧ message o = .str m ∧ to_s o = m) ∧
    (∃ o, exception_new cls [] = .ok o ∧ o.cls = cls ∧ message o = .str (name_of cls) ∧ to_s o = name_of cls) := by
  have key : ∀ (cs : List Cls) o args, (∀ c ∈ cs, c.init = none) → call_init object_initialize cs o args = .ok o := by
    intro cs o args
    induction cs with
    | nil => exact fun _ => rfl
    | cons c cs ih =>
      intro h
      simp only [call_init, h c List.mem_cons_self]
      exact ih fun c hc => h c (List.mem_cons_of_mem _ hc)
  exact ⟨⟨_, key cls _ _ hp, rfl, by simp [message, exception, Obj.set], rfl⟩,
    ⟨_, key cls _ _ hp, rfl, by simp [message, exception, Obj.set], rfl⟩⟩

/-- **C125 fails** for an `initialize` that makes its own message: for every class with
`def initialize(x); super("no " + x); end` the message is the argument of `new`, without `"no "`. -/
theorem C125_super_fails (name m : String) :
    let e := { name := name, init := some ⟨1, [.super_ [.cat (.lit (.str "no ")) (.param 0)]]⟩ : Cls }
    ((exception_new [e] [.str m]).toOption.map message = some (.str m)) ∧
    ((ruby_new [e] [.str m]).toOption.map RObj.message = some ("no " ++ m)) := by
  exact ⟨rfl, rfl⟩

/-- **C125 fails** for an `initialize` without parameters, `def initialize; super("text"); end`: the message is the name of
the class. -/
theorem C125_default_fails (name m : String) :
    let e := { name := name, init := some ⟨0, [.super_ [.lit (.str m)]]⟩ : Cls }
    ((exception_new [e] []).toOption.map message = some (.str name)) ∧
    ((ruby_new [e] []).toOption.map RObj.message = some m) := by
  exact ⟨rfl, rfl⟩

/-- **C125 fails** for an `initialize` with other parameters: with two, or with one that is not a string, `new` raises. -/
theorem C125_arguments_fails (name : String) (body : List Stmt) (a b : Val) (n : Int) :
    exception_new [{ name := name, init := some ⟨2, body⟩ }] [a, b] = .error .argument ∧
    exception_new [{ name := name, init := some ⟨1, [.set "@code" (.param 0)]⟩ }] [.int n] = .error .type ∧
    exception_new [{ name := name, init := none }] [.int n] = .error .type ∧
    (ruby_new [{ name := name, init := some ⟨2, [.set "@a" (.param 0)]⟩ }] [a, b]).toOption.map RObj.message = some name ∧
    (ruby_new [{ name := name, init := some ⟨1, [.set "@code" (.param 0)]⟩ }] [.int n]).toOption.map RObj.message =
      some name ∧
    (ruby_new [{ name := name, init := none }] [.int n]).toOption.map RObj.message = some (toString n) := by
  exact ⟨by cases a <;> rfl, rfl, rfl, rfl, rfl, rfl⟩

/-- **C125 fails** after `e.message = v`, or when a method sets `@message`: `message` is the new value and `to_s` and
`inspect` tell the old one. -/
theorem C125_assign_fails (o : Obj) (v : Val) :
    message (set_message o v) = v ∧ to_s (set_message o v) = to_s o ∧ inspect (set_message o v) = inspect o := by
  exact ⟨by simp [message, set_message, Obj.set], rfl, rfl⟩

/-- **C125 fails** for `allocate`: the message is empty, where Ruby gives the name of the class. -/
theorem C125_allocate_fails (cls : List Cls) : (exception_allocate cls []).toOption.map to_s = some "" := rfl

/-! ## Instances -/

/-- The classes of `class E < StandardError; def initialize(m); @at = 1; super; end; end`. -/
def sample : List Cls := [⟨"E", some ⟨1, [.set "@at" (.lit (.int 1)), .zsuper]⟩⟩, ⟨"StandardError", none⟩]

theorem sample_passes : ∀ c ∈ sample, ∀ i, c.init = some i → Passes i 1 := by
  intro c hc i hi
  simp only [sample, List.mem_cons, List.not_mem_nil, or_false] at hc
  rcases hc with rfl | rfl <;> cases hi
  refine ⟨rfl, ?_, .inr (.inl (by simp))⟩
  intro s hs
  simp only [List.mem_cons, List.not_mem_nil, or_false] at hs
  rcases hs with rfl | rfl
  · exact .inr (.inr ⟨_, _, rfl, by decide, fun _ => rfl⟩)
  · exact .inl rfl

example : (exception_new sample [.str "oops"]).toOption.map inspect = some "#<E: oops>" := by decide +kernel
example : (exception_new sample [.str "oops"]).toOption.map (·.vars "@at") = some (.int 1) := by decide +kernel
example : ∃ o r, exception_new sample [.str "oops"] = .ok o ∧ ruby_new sample [.str "oops"] = .ok r ∧
    message o = .str r.message ∧ r.message = "oops" := by
  obtain ⟨o, r, h1, h2, _, _, _, h3, h4, _⟩ := C125_new_partial (args := [.str "oops"]) (.inr ⟨_, rfl⟩) sample_passes
  exact ⟨o, r, h1, h2, h3, by have : ruby_new sample [.str "oops"] = .ok _ := rfl; rw [this] at h2; cases h2; rfl⟩
example : (exception_new [⟨"StandardError", none⟩] []).toOption.map message = some (.str "StandardError") := by
  decide +kernel
example : (exception_new sample []).toOption.map message = none := by decide +kernel

end Verif.Class.Exn
