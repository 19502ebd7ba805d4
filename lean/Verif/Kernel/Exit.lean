/-!
# How a program ends: exit status, `exit`, `abort`, `at_exit`, `ARGV`

Model of the command line (`ruruby/src/main.rs`) and of the methods that end a program (`builtin/kernel.rs`).  A program is
what it does on its way: a list of acts.  Evaluation of expressions, `rescue` and `ensure` are elsewhere (C42, C43, C98).
-/
namespace Verif.Kernel.Exit

/-! ## Model -/

/-- The argument of `exit`: what `coerce_to_fixnum` tells apart (value/value.rs:565-571): an integer, a float (given by what
`trunc as i64` makes of it), or anything else (big integers, `true`, strings, …). -/
inductive Code where
  | int (i : Int)
  | float (trunc : Int)
  | other
  deriving DecidableEq, Repr

/-- What a program does, one act after the other. -/
inductive Act where
  /-- prints a text -/
  | print (t : String)
  /-- `at_exit { print … }` -/
  | atExit (body : List String)
  /-- `exit` or `exit(code)` -/
  | exit (code : Option Code)
  /-- `abort` or `abort(message)` -/
  | abort (msg : Option String)
  /-- an exception that nobody rescues -/
  | raise (msg : String)
  deriving DecidableEq, Repr

/-- An error on its way out (ruruby-common/src/error.rs:27-39): a `SystemExit` with its code, or another with its message. -/
inductive Err where
  | systemExit (code : Int)
  | other (msg : String)
  deriving DecidableEq, Repr

/-- What has been written. -/
structure Out where
  out : List String
  err : List String
  deriving DecidableEq, Repr

/-- How the evaluation of the program ends: `std::process::exit` was called, or `VM::run` returned. -/
inductive Fin where
  | dead (status : Int)
  | ok
  | err (e : Err)
  deriving DecidableEq, Repr

/-- `exit`, builtin/kernel.rs:270-279; the message of the `TypeError` is simplified. -/
def exit_ : Option Code → Err
  | none => .systemExit 0
  | some (.int i) => .systemExit i
  | some (.float t) => .systemExit t
  | some .other => .other "TypeError"

/-- The acts one after the other (`VM::run`, vm/executor.rs:327-341); `abort` is builtin/kernel.rs:281-288, `at_exit`
builtin/kernel.rs:396-398 (it does nothing with its block). -/
def run : List Act → Out → Out × Fin
  | [], w => (w, .ok)
  | .print t :: as, w => run as { w with out := w.out ++ [t] }
  | .atExit _ :: as, w => run as w
  | .exit c :: _, w => (w, .err (exit_ c))
  | .abort m :: _, w => ((match m with | some m => { w with err := w.err ++ [m] } | none => w), .dead 1)
  | .raise m :: _, w => (w, .err (.other m))

/-- `show_err`, globals.rs:304-312; the text is simplified to the message (error.rs:152-168). -/
def show_err : Err → String
  | .systemExit _ => "SystemExit"
  | .other m => m

/-- `execute`, main.rs:82-107, and the return from `main`, which the process ends with status 0. -/
def execute (as : List Act) : Out × Int :=
  match run as ⟨[], []⟩ with
  | (w, .dead n) => (w, n)
  | (w, .ok) => (w, 0)
  | (w, .err e) => ({ w with err := w.err ++ [show_err e] }, 0)

/-- What `load_file` finds under a name (main.rs:59-72). -/
inductive Found where
  | missing (ioerr : String)
  | unreadable (err : String)
  | program (text : String)

/-- The command line (main.rs:11-24; no verbose mode). -/
structure Cli where
  exec : Option String
  args : List String

/-- What the process shows when it has ended; `argv` is the constant `ARGV`, `none` if it is not defined; `name` is `$0`. -/
structure Shown where
  w : Out
  status : Int
  argv : Option (List String)
  name : Option String
  deriving DecidableEq, Repr

/-- `main`, main.rs:26-79.  `find` is the file system, `base` the last part of a path, `parse` the compiler: the acts of a program
or a syntax error (`VM::run` returns it).  Without arguments the interactive mode starts, which is not modelled (`none`). -/
def main (find : String → Found) (base : String → String) (parse : String → List Act) (cli : Cli) : Option Shown :=
  match cli.exec with
  | some command =>
    let (w, n) := execute (parse command)
    some ⟨w, n, none, some "-e"⟩
  | none =>
    match cli.args with
    | [] => none
    | file :: args =>
      match find file with
      | .missing e => some ⟨⟨[], ["ruruby: " ++ e ++ " -- " ++ file ++ " (LoadError)"]⟩, 0, some args, none⟩
      | .unreadable e => some ⟨⟨[], [e]⟩, 0, some args, none⟩
      | .program text =>
        let (w, n) := execute (parse text)
        some ⟨w, n, some args, some (base file)⟩

/-! ## Specification -/

/-- The acts that end a program. -/
def Act.Ends : Act → Prop
  | .exit _ | .abort _ | .raise _ => True
  | _ => False

/-- What the acts print, in order. -/
def prints : List Act → List String
  | [] => []
  | .print t :: as => t :: prints as
  | _ :: as => prints as

/-- What the blocks given to `at_exit` print: the last registered runs first. -/
def blocks : List Act → List String
  | [] => []
  | .atExit b :: as => blocks as ++ b
  | _ :: as => blocks as

/-- The status an operating system reports is the last byte. -/
def byte (i : Int) : Int := i % 256

/-- Ruby: what the process that gets to the act `a` (none: to the end of the program) ends with. -/
inductive Ruby : Option Act → Int → Prop where
  | finished : Ruby none 0
  | exit : Ruby (some (.exit none)) 0
  | exitInt (i : Int) : Ruby (some (.exit (some (.int i)))) (byte i)
  | exitFloat (i : Int) : Ruby (some (.exit (some (.float i)))) (byte i)
  | exitOther : Ruby (some (.exit (some .other))) 1
  | abort (m : Option String) : Ruby (some (.abort m)) 1
  | raise (m : String) : Ruby (some (.raise m)) 1

/-- `before` is what runs: it does not end the program; then comes `last`, which does, or nothing. -/
inductive Course : List Act → List Act → Option Act → Prop where
  | whole {as : List Act} (h : ∀ a ∈ as, ¬ a.Ends) : Course as as none
  | cut {before after : List Act} {a : Act} (h : ∀ a ∈ before, ¬ a.Ends) (ha : a.Ends) : Course (before ++ a :: after) before (some a)

/-! ## Helpers -/

theorem run_append {before rest : List Act} (h : ∀ a ∈ before, ¬ a.Ends) (w : Out) :
    run (before ++ rest) w = run rest { w with out := w.out ++ prints before } := by
  induction before generalizing w with
  | nil => simp [prints]
  | cons a as ih =>
    have h' : ∀ a ∈ as, ¬ a.Ends := fun b hb => h b (List.mem_cons_of_mem _ hb)
    have ha := h a (List.mem_cons_self ..)
    cases a with
    | print t => simp only [List.cons_append, run, prints, ih h']; simp
    | atExit b => simp only [List.cons_append, run, prints, ih h']
    | exit c => exact absurd trivial ha
    | abort c => exact absurd trivial ha
    | raise c => exact absurd trivial ha

theorem course_total (as : List Act) : ∃ before last, Course as before last := by
  induction as with
  | nil => exact ⟨[], none, .whole (by simp)⟩
  | cons a as ih =>
    by_cases ha : a.Ends
    · exact ⟨[], some a, .cut (before := []) (by simp) ha⟩
    · obtain ⟨b, l, c⟩ := ih
      cases c with
      | whole h =>
        refine ⟨a :: as, none, .whole ?_⟩
        intro x hx
        rcases List.mem_cons.1 hx with rfl | hx
        · exact ha
        · exact h x hx
      | @cut b after x h hx =>
        refine ⟨a :: b, some x, .cut (before := a :: b) ?_ hx⟩
        intro y hy
        rcases List.mem_cons.1 hy with rfl | hy
        · exact ha
        · exact h y hy

theorem execute_course {as before : List Act} {last : Option Act} (c : Course as before last) :
    execute as = match last with
      | none => (⟨prints before, []⟩, 0)
      | some (.exit c) => (⟨prints before, [show_err (exit_ c)]⟩, 0)
      | some (.abort m) => (⟨prints before, m.toList⟩, 1)
      | some (.raise m) => (⟨prints before, [m]⟩, 0)
      | some _ => execute as := by
  cases c with
  | whole h =>
    have := run_append (rest := []) h ⟨[], []⟩
    rw [List.append_nil] at this
    simp [execute, this, run]
  | @cut before after a h ha =>
    have := run_append (rest := a :: after) h ⟨[], []⟩
    cases a with
    | print t => rfl
    | atExit t => rfl
    | exit c => simp [execute, this, run]
    | abort m => cases m <;> simp [execute, this, run]
    | raise m => simp [execute, this, run, show_err]

/-! ## C118 -/

/-- **C118** (what runs).  Every program has a course: it runs up to its first act that ends it, or to its end.  The output is what the acts up to there
print, in order, and nothing of what follows. -/
theorem C118_course (as : List Act) : ∃ before last, Course as before last ∧ (execute as).1.out = prints before := by
  obtain ⟨b, l, c⟩ := course_total as
  refine ⟨b, l, c, ?_⟩
  rw [execute_course c]
  cases c with
  | whole h => rfl
  | @cut b after a h ha => cases a <;> first | rfl | exact absurd ha id

example : execute [.print "a", .abort (some "m"), .print "b"] = (⟨["a"], ["m"]⟩, 1) := by decide

/-- **C118** (the status; part: programs that end by themselves, with `abort`, or with an `exit` whose code is 0).  Missing: other codes and
exceptions, where it is false. -/
theorem C118_status_partial {as before : List Act} {last : Option Act} (c : Course as before last) {n : Int} (r : Ruby last n)
    (h : (∃ m, last = some (.abort m)) ∨ n = 0) : (execute as).2 = n := by
  rw [execute_course c]
  cases r with
  | finished => rfl
  | exit => rfl
  | abort m => rfl
  | exitInt i => rcases h with ⟨m, h⟩ | h <;> simp_all
  | exitFloat i => rcases h with ⟨m, h⟩ | h <;> simp_all
  | exitOther => simp at h
  | raise m => simp at h

example : Course [.print "a", .exit (some (.int 256)), .print "b"] [.print "a"] (some (.exit (some (.int 256)))) ∧
    Ruby (some (.exit (some (.int 256)))) 0 :=
  ⟨.cut (before := [.print "a"]) (by simp [Act.Ends]) trivial, .exitInt 256⟩

/-- **C118** (violated).  Whenever Ruby's status would not be 0 and the program does not end with `abort`, the status is 0 all the same: `exit(1)`, exceptions that
nobody rescues. -/
theorem C118_status_fails {as before : List Act} {last : Option Act} (c : Course as before last) {n : Int} (r : Ruby last n) (hn : n ≠ 0)
    (h : ∀ m, last ≠ some (.abort m)) : (execute as).2 = 0 := by
  rw [execute_course c]
  cases r with
  | finished => rfl
  | exit => rfl
  | abort m => exact absurd rfl (h m)
  | exitInt i => rfl
  | exitFloat i => rfl
  | exitOther => rfl
  | raise m => rfl

example : execute [.print "a", .exit (some (.int 3))] = (⟨["a"], ["SystemExit"]⟩, 0) ∧ Ruby (some (.exit (some (.int 3)))) 3 :=
  ⟨by decide, .exitInt 3⟩

/-- **C118** (violated).  A program that cannot be found or read ends with status 0. -/
theorem C118_load_fails (find : String → Found) (base : String → String) (parse : String → List Act) (file : String) (args : List String)
    (h : ∀ t, find file ≠ .program t) : ∃ s, main find base parse ⟨none, file :: args⟩ = some s ∧ s.status = 0 ∧ s.w.out = [] ∧ s.w.err ≠ [] := by
  cases hf : find file with
  | missing e => simp only [main, hf]; exact ⟨_, rfl, rfl, rfl, by simp⟩
  | unreadable e => simp only [main, hf]; exact ⟨_, rfl, rfl, rfl, by simp⟩
  | program t => exact absurd hf (h t)

example : ∀ t, (fun _ : String => Found.missing "no such file") "x.rb" ≠ .program t := by simp

theorem run_without (as : List Act) (w : Out) : run as w = run (as.filter fun a => !a matches .atExit _) w := by
  induction as generalizing w with
  | nil => rfl
  | cons a as ih => cases a <;> simp [List.filter, run, ih]

/-- **C118** (violated).  Blocks given to `at_exit` never run: the program does the same without them. -/
theorem C118_at_exit_fails (as : List Act) : execute as = execute (as.filter fun a => !a matches .atExit _) := by
  unfold execute
  rw [← run_without]

/-- The end of this program should print `b`, `c` and `a`. -/
example : blocks [.atExit ["a"], .print "x", .atExit ["b", "c"]] = ["b", "c", "a"] ∧
    execute [.atExit ["a"], .print "x", .atExit ["b", "c"]] = (⟨["x"], []⟩, 0) := by decide

/-- **C118** (violated).  `exit` writes to the error stream, though it is no error; even with the code 0. -/
theorem C118_exit_writes_fails {as before : List Act} {c : Option Code} (h : Course as before (some (.exit c))) : (execute as).1.err ≠ [] := by
  rw [execute_course h]
  simp

example : (execute [.exit none]).1.err = ["SystemExit"] := by decide

/-- **C118** (`abort`).  It writes its message, if it has one, and nothing else, to the error stream. -/
theorem C118_abort {as before : List Act} {m : Option String} (h : Course as before (some (.abort m))) :
    execute as = (⟨prints before, m.toList⟩, 1) := by
  rw [execute_course h]

/-- **C118** (`ARGV`; part: a program in a file).  `ARGV` is what follows the file on the command line, and the program runs as it would by itself. -/
theorem C118_argv_partial (find : String → Found) (base : String → String) (parse : String → List Act) (file text : String) (args : List String)
    (h : find file = .program text) :
    main find base parse ⟨none, file :: args⟩ = some ⟨(execute (parse text)).1, (execute (parse text)).2, some args, some (base file)⟩ := by
  simp [main, h]

example : (main (fun _ => .program "p") id (fun _ => [.print "x"]) ⟨none, ["f.rb", "1", "2"]⟩) =
    some ⟨⟨["x"], []⟩, 0, some ["1", "2"], some "f.rb"⟩ := by decide

/-- **C118** (violated).  In a program given with `-e`, `ARGV` is not defined, whatever the arguments. -/
theorem C118_argv_fails (find : String → Found) (base : String → String) (parse : String → List Act) (command : String) (args : List String) :
    ∃ s, main find base parse ⟨some command, args⟩ = some s ∧ s.argv = none ∧ s.w = (execute (parse command)).1 :=
  ⟨_, rfl, rfl, rfl⟩

end Verif.Kernel.Exit
