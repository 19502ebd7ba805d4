/-!
# Model of `require`, `require_relative` and `load`
(`ruruby/src/vm/executor/loader.rs`, `ruruby/src/builtin/kernel.rs`)

A program is any automaton: a state either finishes, raises, does something else (which may change the file
system and `$:`), or calls one of the three methods and goes on with the answer.  A file that is being loaded
runs on top of the program that asked for it.  The events are what an observer sees: a file begins to run, a
call is answered.
-/
namespace Verif.Loader

/-- A path of the operating system (`std::path::PathBuf`): absolute or not, and its components. -/
structure Path where
  abs : Bool
  parts : List (List Char)
deriving DecidableEq, Repr

/-- `PathBuf::push`: an absolute path replaces, a relative one is appended. -/
def Path.push (p q : Path) : Path := if q.abs then q else ⟨p.abs, p.parts ++ q.parts⟩

/-- `PathBuf::pop` -/
def Path.pop (p : Path) : Path := ⟨p.abs, p.parts.dropLast⟩

/-- `Path::file_stem` of a component: up to the last dot that is not the first character. -/
def stem (name : List Char) : List Char :=
  if name = ['.', '.'] then name
  else
    match (name.reverse.dropWhile (· ≠ '.')) with
    | [] => name
    | _ :: before => if before = [] then name else before.reverse

/-- `PathBuf::set_extension` -/
def Path.set_extension (p : Path) (ext : List Char) : Path :=
  match p.parts.reverse with
  | [] => p
  | name :: dirs => if name = ['.', '.'] then p else ⟨p.abs, (((stem name) ++ '.' :: ext) :: dirs).reverse⟩

/-- The file system: `canonicalize` gives the one absolute path without links of an existing file;
`exists` holds if there is one; `read` gives the contents. -/
structure Fs (T : Type) where
  canonicalize : Path → Option Path
  read : Path → Option T

/-- The answer to `require` and the others: a boolean or an exception. -/
inductive Reply
  | value (b : Bool)
  | raised
deriving DecidableEq, Repr

/-- What a program state does next. -/
inductive Act (T S : Type)
  | done
  | raise
  | other (s : S) (fs : Fs T) (loadPath : Option (List Path))
  | require (name : Path) (k : Reply → S)
  | require_relative (name : Path) (k : Reply → S)
  | load (name : Path) (k : Reply → S)

/-- Programs: how a state goes on, and the state in which the text of a file starts (`none`: syntax error). -/
structure Prog (T S : Type) where
  next : S → Act T S
  parse : T → Option S

/-- What can be observed.  `byLoad` tells whether the file was asked for by `load`. -/
inductive Event
  | began (file : Path) (byLoad : Bool)
  | answered (file : Path) (byLoad : Bool) (r : Reply)
deriving DecidableEq, Repr

/-- A suspended caller: the file it belongs to, how it goes on, and which file it asked for. -/
structure Waiting (S : Type) where
  path : Path
  k : Reply → S
  asked : Path
  byLoad : Bool

/-- The interpreter.  `source_files`: `ruruby/src/globals.rs:26`. -/
structure State (T S : Type) where
  source_files : List Path
  fs : Fs T
  loadPath : Option (List Path)
  path : Path
  cur : S
  stack : List (Waiting S)
  trace : List Event
  halted : Bool

variable {T S : Type}

/-- `ruruby/src/globals.rs:205-213` (`add_source_file`): false if the file was known. -/
def add_source_file (l : List Path) (f : Path) : Bool × List Path :=
  if l.contains f then (false, l) else (true, l ++ [f])

/-- The caller goes on with an answer. -/
def State.reply (σ : State T S) (k : Reply → S) (r : Reply) : State T S := { σ with cur := k r }

/-- The caller goes on with an answer about file `f`. -/
def State.answer (σ : State T S) (k : Reply → S) (f : Path) (byLoad : Bool) (r : Reply) : State T S :=
  { σ with cur := k r, trace := σ.trace ++ [.answered f byLoad r] }

/-- `ruruby/src/vm/executor/loader.rs:63-78` (`load_exec`) with `load_file` (`:8-18`) and `run`
(`ruruby/src/vm/executor.rs:327-331`): the text is read and parsed, and the new program starts. -/
def State.load_exec (P : Prog T S) (σ : State T S) (path : Path) (allow_repeat : Bool) (k : Reply → S) :
    State T S :=
  match σ.fs.canonicalize path with
  | none => σ.reply k .raised
  | some f =>
    let r := add_source_file σ.source_files f
    let σ := { σ with source_files := r.2 }
    if !allow_repeat && !r.1 then σ.answer k f allow_repeat (.value false)
    else
      match σ.fs.read f with
      | none => σ.answer k f allow_repeat .raised
      | some text =>
        let σ := { σ with source_files := (add_source_file σ.source_files f).2 }
        match P.parse text with
        | none => σ.answer k f allow_repeat .raised
        | some s =>
          { σ with
            stack := ⟨σ.path, k, f, allow_repeat⟩ :: σ.stack
            path := f
            cur := s
            trace := σ.trace ++ [.began f allow_repeat] }

/-- What `require` finds: a file to load, nothing to do (`false`), or an error. -/
inductive Found
  | file (p : Path)
  | nothing
  | missing
deriving DecidableEq, Repr

/-- `Path::exists` -/
def Fs.exists_ (fs : Fs T) (p : Path) : Bool := (fs.canonicalize p).isSome

/-- `ruruby/src/vm/executor/loader.rs:38-53`: the search through the directories of `$:`. -/
def search (fs : Fs T) (name : Path) : List Path → Found
  | [] => .missing
  | dir :: dirs =>
    let base := (dir.push name).set_extension "rb".toList
    if fs.exists_ base then .file base
    else
      let base := base.set_extension "so".toList
      if fs.exists_ base then .nothing else search fs name dirs

/-- `ruruby/src/vm/executor/loader.rs:21-58` (`require`) up to the call of `load_exec`. -/
def find (fs : Fs T) (loadPath : Option (List Path)) (name : Path) : Found :=
  let viaPath := match loadPath with
    | none => .nothing
    | some dirs => search fs name dirs
  if name.abs then
    let p := name.set_extension "rb".toList
    if fs.exists_ p then .file p
    else
      let p := p.set_extension "so".toList
      if fs.exists_ p then .nothing else viaPath
  else viaPath

/-- `ruruby/src/builtin/kernel.rs:136-149` (`require_relative`): the path relative to the running file. -/
def relative (caller : Path) (name : Path) : Path :=
  (name.parts.foldl (fun p c => if c = ['.', '.'] then p.pop else p.push ⟨false, [c]⟩) caller.pop).set_extension
    "rb".toList

/-- `ruruby/src/builtin/kernel.rs:153-183` (`load`): the file to load. -/
def findLoad (fs : Fs T) (loadPath : Option (List Path)) (name : Path) : Option Path :=
  if fs.exists_ name then some name
  else
    match loadPath with
    | none => none
    | some dirs => (dirs.map (·.push name)).find? fs.exists_

/-- The end of a program: a loaded file answers its caller (`load_exec` gives true, or passes the exception
on), the main program ends. -/
def State.finish (σ : State T S) (r : Reply) : State T S :=
  match σ.stack with
  | [] => { σ with halted := true }
  | w :: rest => { σ with stack := rest, path := w.path }.answer w.k w.asked w.byLoad r

/-- One step. -/
def step (P : Prog T S) (σ : State T S) : State T S :=
  if σ.halted then σ
  else
    match P.next σ.cur with
    | .done => σ.finish (.value true)
    | .raise => σ.finish .raised
    | .other s fs loadPath => { σ with cur := s, fs := fs, loadPath := loadPath }
    | .require name k =>
      match find σ.fs σ.loadPath name with
      | .file p => σ.load_exec P p false k
      | .nothing => σ.reply k (.value false)
      | .missing => σ.reply k .raised
    | .require_relative name k => σ.load_exec P (relative σ.path name) false k
    | .load name k =>
      match findLoad σ.fs σ.loadPath name with
      | some p => σ.load_exec P p true k
      | none => σ.reply k .raised

/-- The start: `ruruby/src/main.rs:56-80` reads the main script (and enters it in `source_files`). -/
def start (main : Path) (fs : Fs T) (loadPath : Option (List Path)) (s : S) : State T S :=
  ⟨[main], fs, loadPath, main, s, [], [.began main true], false⟩

/-- `n` steps. -/
def run (P : Prog T S) : Nat → State T S → State T S
  | 0, σ => σ
  | n + 1, σ => run P n (step P σ)

end Verif.Loader
