/-!
# Leaving blocks that builtin methods run: `next`, `break`, `return`, exceptions (C115, C42)

A builtin method that is given a block runs it in an interpreter loop of its own (`eval_block`, `run_loop`), so that leaving the
block has to pass through the builtin method (Rust code) before it reaches the Ruby method around it.  The other half, blocks that
Ruby methods run with `yield`, is C83.
-/
namespace Verif.Blocks.Leave

/-! ## Programs

What matters here is how control moves; everything that a program does besides that is in the parameters: `act` and `bin` are
arbitrary computations, a builtin method is an arbitrary strategy for running its block. -/

/-- Integers stand for all ordinary values.  A `Proc` object is the number of its block and whether `lambda` made it
(`ruruby/src/builtin/procobj.rs:3-8`; the flag is `kind` of the code of the block, `ruruby/src/vm/executor.rs:961-973`).
Simplification: no captured variables (C41, C83); what blocks and methods share is in the world `W`. -/
inductive Val
  | int (i : Int)
  | proc (i : Nat) (lam : Bool)
  deriving DecidableEq

/-- `nil` and `false` are falsy (C03); here 0 stands for them. -/
def Val.truthy : Val → Bool
  | .int i => i ≠ 0
  | .proc _ _ => true

/-- What a builtin method does next: it is finished, or raises an exception, or it runs its block, or it calls a method written in Ruby (`<=>`, `to_s`,
`each`, …). -/
inductive Ask
  | done (v : Val)
  | raise (v : Val)
  | block (v : Val)
  | method (m : Nat) (v : Val)

/-- A builtin method: given its argument and what the block (or the method it called) has answered so far, it decides what to do
next. -/
def Builtin (W : Type) := Val → List Val → W → Ask × W

/-- Expressions.  Every method and every block has one parameter. -/
inductive Expr (W : Type)
  | act (f : Val → W → Val × W)
  | bin (g : Val → Val → Val) (a b : Expr W)
  | seq (a b : Expr W)
  | ite (c a b : Expr W)
  /-- a method written in Ruby -/
  | send (m : Nat) (a : Expr W)
  /-- a builtin method with a block: `k(a) { |x| b }` -/
  | native (k : Builtin W) (a b : Expr W)
  /-- a builtin method with a block argument: `k(a, &p)` -/
  | nativep (k : Builtin W) (a p : Expr W)
  /-- `proc { … }`, `-> { … }` -/
  | mkproc (i : Nat)
  /-- `lambda { … }` -/
  | mklambda (i : Nat)
  /-- `p.call(a)` -/
  | callp (p a : Expr W)
  | next (a : Expr W)
  | brk (a : Expr W)
  | ret (a : Expr W)
  /-- `raise a` -/
  | raise (a : Expr W)
  /-- `begin; a; rescue => e; h; end`, where `f` stores the exception -/
  | rescue (a : Expr W) (f : Val → W → W) (h : Expr W)

/-- Bodies of the methods and of the blocks of `proc`, `lambda` and `->`. -/
structure Program (W : Type) where
  methods : List (Expr W)
  procs : List (Expr W)

/-! ## Model -/
section
variable {W : Type}

/-- Instructions.  Simplification: code is a list, branches are inside the instruction (C29, C31: jumps). -/
inductive Inst (W : Type)
  | push (f : Val → W → Val × W)
  | pop
  | op (g : Val → Val → Val)
  | branch (a b : List (Inst W))
  /-- `OPT_SEND`, `OPT_SEND_N` of a Ruby method -/
  | send (m : Nat) (use : Bool)
  /-- `OPT_SEND`, `OPT_SEND_N` of a builtin method, with the code of a block -/
  | native (k : Builtin W) (b : List (Inst W)) (use : Bool)
  /-- `SEND` of a builtin method, with a block argument -/
  | nativep (k : Builtin W)
  /-- `OPT_SEND`, `OPT_SEND_N` of `Proc#call` -/
  | callp (use : Bool)
  | ret
  | brk
  | mret
  | raise
  /-- the code `a` of a body with a rescue clause, whose code is `h`; `endtry` is the end of the body.  In the interpreter this is an
  entry of the exception table (C42: entries, places, nesting). -/
  | try_ (a h : List (Inst W))
  | endtry
  /-- the exception is stored -/
  | take (f : Val → W → W)

/-- `gen_iseq` (`ruruby/src/codegen.rs:180-240`): the value of the body is returned. -/
def closed (c : List (Inst W)) : List (Inst W) := c ++ [.ret]

/-- `if !use_value { iseq.gen_pop() }`. -/
def popped (use : Bool) : List (Inst W) := if use then [] else [.pop]

/-- `gen` (`ruruby/src/codegen.rs:700-1640`); `return`, `break`, `next`: `codegen.rs:1495-1574`, in methods and blocks, outside of
loops.  `break` and `next` directly in a method are syntax errors (C65); here they get the code that they get in blocks.  `SEND`
always gives a value (`ruruby/src/codegen/send.rs:56-76`). -/
def gen (block : Bool) : Bool → Expr W → List (Inst W)
  | use, .act f => .push f :: popped use
  | use, .bin g a b => gen block true a ++ (gen block true b ++ (.op g :: popped use))
  | use, .seq a b => gen block false a ++ gen block use b
  | use, .ite c a b => gen block true c ++ [.branch (gen block use a) (gen block use b)]
  | use, .send m a => gen block true a ++ [.send m use]
  | use, .native k a b => gen block true a ++ [.native k (closed (gen true true b)) use]
  | use, .nativep k a p => gen block true a ++ (gen block true p ++ (.nativep k :: popped use))
  | use, .mkproc i => .push (fun _ w => (.proc i false, w)) :: popped use
  | use, .mklambda i => .push (fun _ w => (.proc i true, w)) :: popped use
  | use, .callp p a => gen block true p ++ (gen block true a ++ [.callp use])
  | _, .next a => gen block true a ++ [.ret]
  | _, .brk a => gen block true a ++ [.brk]
  | _, .ret a => gen block true a ++ [if block then .mret else .ret]
  | _, .raise a => gen block true a ++ [.raise]
  | use, .rescue a f h => [.try_ (gen block use a) (.take f :: gen block use h)]

/-- The code of the program. -/
structure Image (W : Type) where
  methods : List (List (Inst W))
  procs : List (List (Inst W))

/-- `gen_iseq` for all methods and blocks. -/
def Program.image (P : Program W) : Image W :=
  ⟨P.methods.map fun e => closed (gen false true e), P.procs.map fun e => closed (gen true true e)⟩

/-- A frame (`ruruby/src/vm/executor/frame.rs`): the instructions that are left, the operands, the argument, not `discard_val`,
`iseq.is_method()` (`ruruby/src/globals/method.rs:553-555`). -/
structure Frame (W : Type) where
  code : List (Inst W)
  stack : List Val
  arg : Val
  keep : Bool
  isMethod : Bool
  /-- the rescue clauses around the place where the frame is, innermost first -/
  handlers : List (List (Inst W))

def Frame.push (f : Frame W) (v : Val) : Frame W := { f with stack := v :: f.stack }

/-- What an interpreter loop or a builtin method gives back to the Rust code that called it (`VMResult`; the value of the two errors
is in `globals.val`). -/
inductive Out
  | ok (v : Val)
  | blockReturn (v : Val)
  | methodReturn (v : Val)
  | raise (v : Val)
  deriving DecidableEq

/-- `run_loop` on `MethodReturn` (`ruruby/src/vm/executor.rs:397-417`): frames are removed until the running one is that of a
method.  `none`: the frame that the loop was started for is removed, too. -/
def unwound : List (Frame W) → Option (Frame W × List (Frame W))
  | [] => none
  | f :: fs => if f.isMethod then some (f, fs) else unwound fs

/-- `Proc#call` runs the block once (`proc_call`, `ruruby/src/builtin/procobj.rs:68-71`; `eval_proc`, `invoke_proc`, `invoke_block`,
`ruruby/src/vm/executor/method.rs:329-340`, `429-485`). -/
def once : Builtin W := fun x vs w =>
  match vs with
  | [] => (.block x, w)
  | v :: _ => (.done v, w)

/-- `run_loop` on an exception (`ruruby/src/vm/executor.rs:424-463`): frames are removed until the running one has an entry for its
place; its operand stack is cleared (`clear_stack`) and gets the exception.  `none`: the frame that the loop was started for is
removed, too. -/
def caught (v : Val) : List (Frame W) → Option (Frame W × List (Frame W))
  | [] => none
  | f :: fs =>
    match f.handlers with
    | h :: hs => some ({ f with code := h, stack := [v], handlers := hs }, fs)
    | [] => caught v fs

mutual
/-- `run_loop` with `run_context_main` (`ruruby/src/vm/executor.rs:378-460`, `ruruby/src/vm/executor/opt_core.rs:14-600`): `f` is
the running frame, `fs` are the frames below it down to the one that this loop was started for (`invoke_count` is their number).
Simplification: one rescue clause for all exceptions (C98: which clause) and no ensure clauses (C43).  The first argument bounds the steps. -/
def run (M : Image W) : Nat → Frame W → List (Frame W) → W → Option (Out × W)
  | 0, _, _, _ => none
  | n + 1, f, fs, w =>
    match f.code with
    | [] => none
    | i :: rest =>
      let g : Frame W := { f with code := rest }
      match i, f.stack with
      | .push h, st => let r := h f.arg w; run M n { g with stack := r.1 :: st } fs r.2
      | .pop, _ :: st => run M n { g with stack := st } fs w
      | .op h, y :: x :: st => run M n { g with stack := h x y :: st } fs w
      | .branch a b, x :: st => run M n { g with code := (if x.truthy then a else b) ++ rest, stack := st } fs w
      -- `invoke_method`, `push_method_frame_fast` (`ruruby/src/vm/executor/method.rs:487-522`); `dispatch!`, `Invoke`
      | .send m use, x :: st =>
        match M.methods[m]? with
        | none => none
        | some c => run M n ⟨c, [], x, use, true, []⟩ ({ g with stack := st } :: fs) w
      | .native k b use, x :: st =>
        match native M n k x b false [] w with
        | none => none
        | some (r, w) => dispatch M n r { g with stack := st } use fs w
      | .nativep k, p :: x :: st =>
        match p with
        | .int _ => none
        | .proc i lam =>
          match M.procs[i]? with
          | none => none
          | some b =>
            match native M n k x b lam [] w with
            | none => none
            | some (r, w) => dispatch M n r { g with stack := st } true fs w
      | .callp use, x :: p :: st =>
        match p with
        | .int _ => none
        | .proc i lam =>
          match M.procs[i]? with
          | none => none
          | some b =>
            match native M n once x b lam [] w with
            | none => none
            | some (r, w) => dispatch M n r { g with stack := st } use fs w
      -- `opt_core.rs:116-134`
      | .ret, v :: _ =>
        match fs with
        | [] => some (.ok v, w)
        | c :: fs => run M n (if f.keep then c.push v else c) fs w
      -- `opt_core.rs:135-151`
      | .brk, v :: _ =>
        match fs with
        | [] => some (.blockReturn v, w)
        | c :: fs => run M n c fs w
      -- `opt_core.rs:152-158`
      | .mret, v :: _ => leave M n v fs w
      | .raise, v :: _ => throw M n v g fs w
      | .try_ a h, _ => run M n { g with code := a ++ .endtry :: rest, handlers := (h ++ rest) :: f.handlers } fs w
      | .endtry, _ => run M n { g with handlers := f.handlers.tail } fs w
      | .take h, v :: st => run M n { g with stack := st } fs (h v w)
      | _, _ => none

/-- `dispatch!` (`ruruby/src/vm/executor/opt_core.rs:24-58`) with what a builtin method gave back; `f` is the frame that called
it. -/
def dispatch (M : Image W) : Nat → Out → Frame W → Bool → List (Frame W) → W → Option (Out × W)
  | 0, _, _, _, _, _ => none
  | n + 1, .ok v, f, use, fs, w => run M n (if use then f.push v else f) fs w
  | n + 1, .blockReturn _, f, _, fs, w => run M n f fs w
  | n + 1, .methodReturn v, f, _, fs, w =>
    if f.isMethod then
      match fs with
      | [] => some (.ok v, w)
      | c :: fs => run M n (c.push v) fs w
    else leave M n v fs w
  | n + 1, .raise v, f, _, fs, w => throw M n v f fs w

/-- `run_loop` on an exception (`ruruby/src/vm/executor.rs:424-463`). -/
def throw (M : Image W) : Nat → Val → Frame W → List (Frame W) → W → Option (Out × W)
  | 0, _, _, _, _ => none
  | n + 1, v, f, fs, w =>
    match caught v (f :: fs) with
    | none => some (.raise v, w)
    | some (c, fs) => run M n c fs w

/-- `run_loop` on `MethodReturn` (`ruruby/src/vm/executor.rs:397-417`). -/
def leave (M : Image W) : Nat → Val → List (Frame W) → W → Option (Out × W)
  | 0, _, _, _ => none
  | n + 1, v, fs, w =>
    match unwound fs with
    | none => some (.methodReturn v, w)
    | some (c, fs) => run M n (c.push v) fs w

/-- `exec_native` (`ruruby/src/vm/executor/method.rs:525-577`) with a builtin method that runs blocks and methods, each in an
interpreter loop of its own (`eval_block`, `eval_method`: `VMResKind::handle`, `ruruby/src/vm/executor.rs:53-59`), and passes on
errors (`?`). -/
def native (M : Image W) : Nat → Builtin W → Val → List (Inst W) → Bool → List Val → W → Option (Out × W)
  | 0, _, _, _, _, _, _ => none
  | n + 1, k, x, b, lam, vs, w =>
    match k x vs w with
    | (.done v, w) => some (.ok v, w)
    | (.raise v, w) => some (.raise v, w)
    | (.block y, w) =>
      match run M n ⟨b, [], y, true, lam, []⟩ [] w with
      | some (.ok v, w) => native M n k x b lam (vs ++ [v]) w
      | some (.blockReturn v, w) => some (.ok v, w)
      | r => r
    | (.method m y, w) =>
      match M.methods[m]? with
      | none => none
      | some c =>
        match run M n ⟨c, [], y, true, true, []⟩ [] w with
        | some (.ok v, w) => native M n k x b lam (vs ++ [v]) w
        | some (.blockReturn v, w) => some (.ok v, w)
        | r => r
end

end

/-! ## Specification

What `next`, `break` and `return` mean, as rules. -/

/-- How the evaluation of an expression ends: with a value, or with `next`, `break`, `return`, or an exception. -/
inductive Exit
  | val (v : Val)
  | next (v : Val)
  | brk (v : Val)
  | ret (v : Val)
  | raise (v : Val)

/-- What is evaluated: an expression of a method or block whose argument is `x`; or a builtin method with a block (`own`: the block
is written at the call) that has answered `vs` so far. -/
inductive Task (W : Type)
  | expr (e : Expr W) (x : Val)
  | iter (k : Builtin W) (x : Val) (b : Expr W) (own : Bool) (vs : List Val)

/-- Rules.  There is no rule for `break` and `return` in a block that is run as a `Proc` object, except for lambdas. -/
inductive Means {W : Type} (P : Program W) : Task W → W → Exit → W → Prop
  | act {f x w} : Means P (.expr (.act f) x) w (.val (f x w).1) (f x w).2
  | bin {g a b x w u w1 v w2} : Means P (.expr a x) w (.val u) w1 → Means P (.expr b x) w1 (.val v) w2 →
      Means P (.expr (.bin g a b) x) w (.val (g u v)) w2
  | seq {a b x w u w1 r w2} : Means P (.expr a x) w (.val u) w1 → Means P (.expr b x) w1 r w2 →
      Means P (.expr (.seq a b) x) w r w2
  | ite {c a b x w u w1 r w2} : Means P (.expr c x) w (.val u) w1 →
      Means P (.expr (if u.truthy then a else b) x) w1 r w2 → Means P (.expr (.ite c a b) x) w r w2
  /-- the value of a call is the value of the body … -/
  | send {m a x w u w1 e v w2} : Means P (.expr a x) w (.val u) w1 → P.methods[m]? = some e →
      Means P (.expr e u) w1 (.val v) w2 → Means P (.expr (.send m a) x) w (.val v) w2
  /-- … or what the body returns -/
  | sendRet {m a x w u w1 e v w2} : Means P (.expr a x) w (.val u) w1 → P.methods[m]? = some e →
      Means P (.expr e u) w1 (.ret v) w2 → Means P (.expr (.send m a) x) w (.val v) w2
  | native {k a b x w u w1 r w2} : Means P (.expr a x) w (.val u) w1 → Means P (.iter k u b true []) w1 r w2 →
      Means P (.expr (.native k a b) x) w r w2
  | nativep {k a p x w u w1 i l w2 b r w3} : Means P (.expr a x) w (.val u) w1 → Means P (.expr p x) w1 (.val (.proc i l)) w2 →
      P.procs[i]? = some b → Means P (.iter k u b false []) w2 r w3 → Means P (.expr (.nativep k a p) x) w r w3
  | mkproc {i x w} : Means P (.expr (.mkproc i) x) w (.val (.proc i false)) w
  | mklambda {i x w} : Means P (.expr (.mklambda i) x) w (.val (.proc i true)) w
  | callp {p a x w i l w1 u w2 b v w3} : Means P (.expr p x) w (.val (.proc i l)) w1 → Means P (.expr a x) w1 (.val u) w2 →
      P.procs[i]? = some b → Means P (.expr b u) w2 (.val v) w3 → Means P (.expr (.callp p a) x) w (.val v) w3
  | callpNext {p a x w i l w1 u w2 b v w3} : Means P (.expr p x) w (.val (.proc i l)) w1 → Means P (.expr a x) w1 (.val u) w2 →
      P.procs[i]? = some b → Means P (.expr b u) w2 (.next v) w3 → Means P (.expr (.callp p a) x) w (.val v) w3
  /-- `return` in a lambda ends the lambda -/
  | callpRet {p a x w i w1 u w2 b v w3} : Means P (.expr p x) w (.val (.proc i true)) w1 → Means P (.expr a x) w1 (.val u) w2 →
      P.procs[i]? = some b → Means P (.expr b u) w2 (.ret v) w3 → Means P (.expr (.callp p a) x) w (.val v) w3
  | next {a x w v w1} : Means P (.expr a x) w (.val v) w1 → Means P (.expr (.next a) x) w (.next v) w1
  | brk {a x w v w1} : Means P (.expr a x) w (.val v) w1 → Means P (.expr (.brk a) x) w (.brk v) w1
  | ret {a x w v w1} : Means P (.expr a x) w (.val v) w1 → Means P (.expr (.ret a) x) w (.ret v) w1
  | raise {a x w v w1} : Means P (.expr a x) w (.val v) w1 → Means P (.expr (.raise a) x) w (.raise v) w1
  /-- an exception in the body is stored, and the rescue clause is evaluated … -/
  | rescued {a f h x w v w1 r w2} : Means P (.expr a x) w (.raise v) w1 → Means P (.expr h x) (f v w1) r w2 →
      Means P (.expr (.rescue a f h) x) w r w2
  /-- … and in every other case the clause does nothing -/
  | body {a f h x w r w1} : Means P (.expr a x) w r w1 → (∀ v, r ≠ .raise v) → Means P (.expr (.rescue a f h) x) w r w1
  /-- an exception ends the method, the block and the builtin method it leaves -/
  | sendRaise {m a x w u w1 e v w2} : Means P (.expr a x) w (.val u) w1 → P.methods[m]? = some e →
      Means P (.expr e u) w1 (.raise v) w2 → Means P (.expr (.send m a) x) w (.raise v) w2
  | callpRaise {p a x w i l w1 u w2 b v w3} : Means P (.expr p x) w (.val (.proc i l)) w1 → Means P (.expr a x) w1 (.val u) w2 →
      P.procs[i]? = some b → Means P (.expr b u) w2 (.raise v) w3 → Means P (.expr (.callp p a) x) w (.raise v) w3
  | builtinRaise {k x b o vs w v w1} : k x vs w = (.raise v, w1) → Means P (.iter k x b o vs) w (.raise v) w1
  | blockRaise {k x b o vs w y w1 v w2} : k x vs w = (.block y, w1) → Means P (.expr b y) w1 (.raise v) w2 →
      Means P (.iter k x b o vs) w (.raise v) w2
  | methodRaise {k x b o vs w m y w1 e v w2} : k x vs w = (.method m y, w1) → P.methods[m]? = some e →
      Means P (.expr e y) w1 (.raise v) w2 → Means P (.iter k x b o vs) w (.raise v) w2
  | raiseA {a x w r w1} : Means P (.expr a x) w r w1 → (∀ v, r ≠ .val v) → Means P (.expr (.raise a) x) w r w1
  /-- an operand that ends with `next`, `break`, `return` or an exception ends the expression around it -/
  | binL {g a b x w r w1} : Means P (.expr a x) w r w1 → (∀ v, r ≠ .val v) → Means P (.expr (.bin g a b) x) w r w1
  | binR {g a b x w u w1 r w2} : Means P (.expr a x) w (.val u) w1 → Means P (.expr b x) w1 r w2 → (∀ v, r ≠ .val v) →
      Means P (.expr (.bin g a b) x) w r w2
  | seqL {a b x w r w1} : Means P (.expr a x) w r w1 → (∀ v, r ≠ .val v) → Means P (.expr (.seq a b) x) w r w1
  | iteC {c a b x w r w1} : Means P (.expr c x) w r w1 → (∀ v, r ≠ .val v) → Means P (.expr (.ite c a b) x) w r w1
  | sendA {m a x w r w1} : Means P (.expr a x) w r w1 → (∀ v, r ≠ .val v) → Means P (.expr (.send m a) x) w r w1
  | nativeA {k a b x w r w1} : Means P (.expr a x) w r w1 → (∀ v, r ≠ .val v) → Means P (.expr (.native k a b) x) w r w1
  | nativepA {k a p x w r w1} : Means P (.expr a x) w r w1 → (∀ v, r ≠ .val v) → Means P (.expr (.nativep k a p) x) w r w1
  | nativepP {k a p x w u w1 r w2} : Means P (.expr a x) w (.val u) w1 → Means P (.expr p x) w1 r w2 → (∀ v, r ≠ .val v) →
      Means P (.expr (.nativep k a p) x) w r w2
  | callpP {p a x w r w1} : Means P (.expr p x) w r w1 → (∀ v, r ≠ .val v) → Means P (.expr (.callp p a) x) w r w1
  | callpA {p a x w u w1 r w2} : Means P (.expr p x) w (.val u) w1 → Means P (.expr a x) w1 r w2 → (∀ v, r ≠ .val v) →
      Means P (.expr (.callp p a) x) w r w2
  | nextA {a x w r w1} : Means P (.expr a x) w r w1 → (∀ v, r ≠ .val v) → Means P (.expr (.next a) x) w r w1
  | brkA {a x w r w1} : Means P (.expr a x) w r w1 → (∀ v, r ≠ .val v) → Means P (.expr (.brk a) x) w r w1
  | retA {a x w r w1} : Means P (.expr a x) w r w1 → (∀ v, r ≠ .val v) → Means P (.expr (.ret a) x) w r w1
  /-- the builtin method is finished -/
  | done {k x b o vs w v w1} : k x vs w = (.done v, w1) → Means P (.iter k x b o vs) w (.val v) w1
  /-- the block ends with a value or with `next`: the builtin method goes on with that value -/
  | block {k x b o vs w y w1 v w2 r w3} : k x vs w = (.block y, w1) → Means P (.expr b y) w1 (.val v) w2 →
      Means P (.iter k x b o (vs ++ [v])) w2 r w3 → Means P (.iter k x b o vs) w r w3
  | blockNext {k x b o vs w y w1 v w2 r w3} : k x vs w = (.block y, w1) → Means P (.expr b y) w1 (.next v) w2 →
      Means P (.iter k x b o (vs ++ [v])) w2 r w3 → Means P (.iter k x b o vs) w r w3
  /-- `break`: the call of the builtin method is finished, the value of `break` is its value -/
  | blockBrk {k x b vs w y w1 v w2} : k x vs w = (.block y, w1) → Means P (.expr b y) w1 (.brk v) w2 →
      Means P (.iter k x b true vs) w (.val v) w2
  /-- `return`: the method (or block) around the call is left with `return` -/
  | blockRet {k x b vs w y w1 v w2} : k x vs w = (.block y, w1) → Means P (.expr b y) w1 (.ret v) w2 →
      Means P (.iter k x b true vs) w (.ret v) w2
  /-- a method that the builtin method calls -/
  | method {k x b o vs w m y w1 e v w2 r w3} : k x vs w = (.method m y, w1) → P.methods[m]? = some e →
      Means P (.expr e y) w1 (.val v) w2 → Means P (.iter k x b o (vs ++ [v])) w2 r w3 → Means P (.iter k x b o vs) w r w3
  | methodRet {k x b o vs w m y w1 e v w2 r w3} : k x vs w = (.method m y, w1) → P.methods[m]? = some e →
      Means P (.expr e y) w1 (.ret v) w2 → Means P (.iter k x b o (vs ++ [v])) w2 r w3 → Means P (.iter k x b o vs) w r w3

/-- A call of a method: its value and the world afterwards. -/
def Gives {W : Type} (P : Program W) (m : Nat) (x : Val) (w : W) (v : Val) (w' : W) : Prop :=
  ∃ e, P.methods[m]? = some e ∧ (Means P (.expr e x) w (.val v) w' ∨ Means P (.expr e x) w (.ret v) w')

/-- The exception `v` leaves method `m` of argument `x`; the world is `w'` then. -/
def Raises (P : Program W) (m : Nat) (x : Val) (w : W) (v : Val) (w' : W) : Prop :=
  ∃ e, P.methods[m]? = some e ∧ Means P (.expr e x) w (.raise v) w'

section
variable {W : Type}

/-- There is a `return` somewhere in the expression. -/
def Expr.returns : Expr W → Bool
  | .act _ | .mkproc _ | .mklambda _ => false
  | .bin _ a b | .seq a b | .native _ a b | .nativep _ a b | .callp a b => a.returns || b.returns
  | .ite c a b => c.returns || a.returns || b.returns
  | .rescue a _ h => a.returns || h.returns
  | .send _ a | .next a | .brk a | .raise a => a.returns
  | .ret _ => true

/-- There is a `return` in a block of the expression. -/
def Expr.blockReturns : Expr W → Bool
  | .act _ | .mkproc _ | .mklambda _ => false
  | .bin _ a b | .seq a b | .nativep _ a b | .callp a b => a.blockReturns || b.blockReturns
  | .native _ a b => a.blockReturns || b.returns
  | .ite c a b => c.blockReturns || a.blockReturns || b.blockReturns
  | .rescue a _ h => a.blockReturns || h.blockReturns
  | .send _ a | .next a | .brk a | .ret a | .raise a => a.blockReturns

/-- There is a `break` in the expression, not counting the blocks in it. -/
def Expr.breaks : Expr W → Bool
  | .act _ | .mkproc _ | .mklambda _ => false
  | .bin _ a b | .seq a b | .nativep _ a b | .callp a b => a.breaks || b.breaks
  | .native _ a _ => a.breaks
  | .ite c a b => c.breaks || a.breaks || b.breaks
  | .rescue a _ h => a.breaks || h.breaks
  | .send _ a | .next a | .ret a | .raise a => a.breaks
  | .brk _ => true

/-- The programs the theorem is about.  `block`: in a block, not directly in a method; `use`: the value is used; `bottom`: no operands
of expressions around it are waiting in the frame.
* `next` and `break` are in blocks (C65: anything else is a syntax error).
* A call whose value is not used is not a call of a method with a `return` in a block.
* `begin … rescue … end` is not an operand after another one. -/
def Expr.Fine (P : Program W) (block : Bool) : Bool → Bool → Expr W → Prop
  | _, _, .act _ | _, _, .mkproc _ | _, _, .mklambda _ => True
  | _, bottom, .bin _ a b | _, bottom, .nativep _ a b | _, bottom, .callp a b => a.Fine P block true bottom ∧ b.Fine P block true false
  | use, bottom, .seq a b => a.Fine P block false bottom ∧ b.Fine P block use bottom
  | use, bottom, .ite c a b => c.Fine P block true bottom ∧ a.Fine P block use bottom ∧ b.Fine P block use bottom
  | use, bottom, .send m a => a.Fine P block true bottom ∧ (use = true ∨ ∀ e, P.methods[m]? = some e → e.blockReturns = false)
  | _, bottom, .native _ a b => a.Fine P block true bottom ∧ b.Fine P true true true
  | _, bottom, .next a | _, bottom, .brk a => block = true ∧ a.Fine P block true bottom
  | _, bottom, .ret a | _, bottom, .raise a => a.Fine P block true bottom
  | use, bottom, .rescue a _ h => bottom = true ∧ a.Fine P block use true ∧ h.Fine P block use true

/-- * There is no `return` and no `break` in the blocks of `Proc` objects (`break` out of a call in such a block is possible). -/
structure Program.Fine (P : Program W) : Prop where
  methods : ∀ e ∈ P.methods, e.Fine P false true true
  procs : ∀ e ∈ P.procs, e.Fine P true true true ∧ e.returns = false ∧ e.breaks = false

/-- The interpreter ends. -/
def Ends (M : Image W) (f : Frame W) (fs : List (Frame W)) (w : W) (r : Out × W) : Prop := ∃ n, run M n f fs w = some r

/-- A frame for method `m` (`push_method_frame_fast`), if there is one. -/
def Image.frame (M : Image W) (m : Nat) (x : Val) : Frame W := ⟨(M.methods[m]?).getD [], [], x, true, true, []⟩

end

/-! ## Helpers -/
section
variable {W : Type} {M : Image W}

theorem mono (M : Image W) (n : Nat) :
    (∀ f fs w r, run M n f fs w = some r → run M (n + 1) f fs w = some r) ∧
    (∀ o f u fs w r, dispatch M n o f u fs w = some r → dispatch M (n + 1) o f u fs w = some r) ∧
    (∀ v fs w r, leave M n v fs w = some r → leave M (n + 1) v fs w = some r) ∧
    (∀ k x b lam vs w r, native M n k x b lam vs w = some r → native M (n + 1) k x b lam vs w = some r) ∧
    (∀ v f fs w r, throw M n v f fs w = some r → throw M (n + 1) v f fs w = some r) := by
  induction n with
  | zero =>
    refine ⟨fun _ _ _ _ h => ?_, fun _ _ _ _ _ _ h => ?_, fun _ _ _ _ h => ?_, fun _ _ _ _ _ _ _ h => ?_, fun _ _ _ _ _ h => ?_⟩
    · simp [run] at h
    · simp [dispatch] at h
    · simp [leave] at h
    · simp [native] at h
    · simp [throw] at h
  | succ n ih =>
    obtain ⟨hr, hd, hl, hn, ht⟩ := ih
    refine ⟨?_, ?_, ?_, ?_, ?_⟩
    · intro f fs w r h
      obtain ⟨code, st, x, keep, im, hs⟩ := f
      cases code with
      | nil => simp [run] at h
      | cons i rest =>
        cases i with
        | push g => exact hr _ _ _ _ h
        | pop =>
          rcases st with _ | ⟨y, st⟩
          · simp [run] at h
          · exact hr _ _ _ _ h
        | op g =>
          rcases st with _ | ⟨y, _ | ⟨z, st⟩⟩
          · simp [run] at h
          · simp [run] at h
          · exact hr _ _ _ _ h
        | branch a b =>
          rcases st with _ | ⟨y, st⟩
          · simp [run] at h
          · exact hr _ _ _ _ h
        | send m u =>
          rcases st with _ | ⟨y, st⟩
          · simp [run] at h
          · rw [run] at h ⊢
            dsimp only at h ⊢
            cases e : M.methods[m]? with
            | none => simp [e] at h
            | some c => rw [e] at h; exact hr _ _ _ _ h
        | native k b u =>
          rcases st with _ | ⟨y, st⟩
          · simp [run] at h
          · rw [run] at h ⊢
            dsimp only at h ⊢
            cases e : native M n k y b false [] w with
            | none => simp [e] at h
            | some o => rw [e] at h; rw [hn _ _ _ _ _ _ _ e]; exact hd _ _ _ _ _ _ h
        | nativep k =>
          rcases st with _ | ⟨p, _ | ⟨y, st⟩⟩
          · simp [run] at h
          · simp [run] at h
          · rw [run] at h ⊢
            dsimp only at h ⊢
            cases p with
            | int i => simp at h
            | proc i lam =>
              dsimp only at h ⊢
              cases e1 : M.procs[i]? with
              | none => simp [e1] at h
              | some b =>
                rw [e1] at h
                dsimp only at h ⊢
                cases e : native M n k y b lam [] w with
                | none => simp [e] at h
                | some o => rw [e] at h; rw [hn _ _ _ _ _ _ _ e]; exact hd _ _ _ _ _ _ h
        | callp u =>
          rcases st with _ | ⟨y, _ | ⟨p, st⟩⟩
          · simp [run] at h
          · simp [run] at h
          · rw [run] at h ⊢
            dsimp only at h ⊢
            cases p with
            | int i => simp at h
            | proc i lam =>
              dsimp only at h ⊢
              cases e1 : M.procs[i]? with
              | none => simp [e1] at h
              | some b =>
                rw [e1] at h
                dsimp only at h ⊢
                cases e : native M n once y b lam [] w with
                | none => simp [e] at h
                | some o => rw [e] at h; rw [hn _ _ _ _ _ _ _ e]; exact hd _ _ _ _ _ _ h
        | ret =>
          rcases st with _ | ⟨y, st⟩
          · simp [run] at h
          · rcases fs with _ | ⟨c, fs⟩
            · exact h
            · exact hr _ _ _ _ h
        | brk =>
          rcases st with _ | ⟨y, st⟩
          · simp [run] at h
          · rcases fs with _ | ⟨c, fs⟩
            · exact h
            · exact hr _ _ _ _ h
        | mret =>
          rcases st with _ | ⟨y, st⟩
          · simp [run] at h
          · exact hl _ _ _ _ h
        | raise =>
          rcases st with _ | ⟨y, st⟩
          · simp [run] at h
          · exact ht _ _ _ _ _ h
        | try_ a b => exact hr _ _ _ _ h
        | endtry => exact hr _ _ _ _ h
        | take g =>
          rcases st with _ | ⟨y, st⟩
          · simp [run] at h
          · exact hr _ _ _ _ h
    · intro o f u fs w r h
      cases o with
      | ok v => exact hr _ _ _ _ h
      | blockReturn v => exact hr _ _ _ _ h
      | methodReturn v =>
        unfold dispatch at h ⊢
        split at h
        · rename_i c
          rw [if_pos c]
          split at h
          · exact h
          · exact hr _ _ _ _ h
        · rename_i c
          rw [if_neg c]
          exact hl _ _ _ _ h
      | raise v => exact ht _ _ _ _ _ h
    · intro v fs w r h
      unfold leave at h ⊢
      split at h
      · exact h
      · exact hr _ _ _ _ h
    · intro k x b lam vs w r h
      rw [native] at h ⊢
      rcases e0 : k x vs w with ⟨q, w1⟩
      rw [e0] at h
      cases q with
      | done v => exact h
      | raise v => exact h
      | block y =>
        dsimp only at h ⊢
        cases e : run M n ⟨b, [], y, true, lam, []⟩ [] w1 with
        | none => simp [e] at h
        | some o =>
          obtain ⟨o, w2⟩ := o
          rw [e] at h
          rw [hr _ _ _ _ e]
          cases o with
          | ok v => exact hn _ _ _ _ _ _ _ h
          | blockReturn v => exact h
          | methodReturn v => exact h
          | raise v => exact h
      | method m y =>
        dsimp only at h ⊢
        cases e1 : M.methods[m]? with
        | none => simp [e1] at h
        | some c =>
          rw [e1] at h
          dsimp only at h ⊢
          cases e : run M n ⟨c, [], y, true, true, []⟩ [] w1 with
          | none => simp [e] at h
          | some o =>
            obtain ⟨o, w2⟩ := o
            rw [e] at h
            rw [hr _ _ _ _ e]
            cases o with
            | ok v => exact hn _ _ _ _ _ _ _ h
            | blockReturn v => exact h
            | methodReturn v => exact h
            | raise v => exact h
    · intro v f fs w r h
      unfold throw at h ⊢
      split at h
      · exact h
      · exact hr _ _ _ _ h

theorem run_le {n m : Nat} (h : n ≤ m) {f fs w r} (e : run M n f fs w = some r) : run M m f fs w = some r := by
  induction h with
  | refl => exact e
  | step _ ih => exact (mono M _).1 _ _ _ _ ih

theorem dispatch_le {n m : Nat} (h : n ≤ m) {o f u fs w r} (e : dispatch M n o f u fs w = some r) :
    dispatch M m o f u fs w = some r := by
  induction h with
  | refl => exact e
  | step _ ih => exact (mono M _).2.1 _ _ _ _ _ _ ih

theorem native_le {n m : Nat} (h : n ≤ m) {k x b lam vs w r} (e : native M n k x b lam vs w = some r) :
    native M m k x b lam vs w = some r := by
  induction h with
  | refl => exact e
  | step _ ih => exact (mono M _).2.2.2.1 _ _ _ _ _ _ _ ih

theorem ends_unique {f : Frame W} {fs w r r'} (h : Ends M f fs w r) (h' : Ends M f fs w r') : r = r' := by
  obtain ⟨n, h⟩ := h
  obtain ⟨m, h'⟩ := h'
  have a := run_le (Nat.le_max_left n m) h
  rw [run_le (Nat.le_max_right n m) h'] at a
  exact (Option.some.inj a).symm

/-- A builtin method ends. -/
def NEnds (M : Image W) (k : Builtin W) (x : Val) (b : List (Inst W)) (lam : Bool) (vs : List Val) (w : W) (r : Out × W) : Prop :=
  ∃ n, native M n k x b lam vs w = some r

/-- What `dispatch!` does ends. -/
def DEnds (M : Image W) (o : Out) (f : Frame W) (u : Bool) (fs : List (Frame W)) (w : W) (r : Out × W) : Prop :=
  ∃ n, dispatch M n o f u fs w = some r

variable {rest : List (Inst W)} {st : List Val} {x : Val} {keep im : Bool} {hs : List (List (Inst W))} {fs : List (Frame W)} {w : W} {out : Out × W}

theorem e_push {f : Val → W → Val × W} (h : Ends M ⟨rest, (f x w).1 :: st, x, keep, im, hs⟩ fs (f x w).2 out) :
    Ends M ⟨.push f :: rest, st, x, keep, im, hs⟩ fs w out := let ⟨n, h⟩ := h; ⟨n + 1, h⟩

theorem e_pop {v} (h : Ends M ⟨rest, st, x, keep, im, hs⟩ fs w out) :
    Ends M ⟨.pop :: rest, v :: st, x, keep, im, hs⟩ fs w out := let ⟨n, h⟩ := h; ⟨n + 1, h⟩

theorem e_op {g u v} (h : Ends M ⟨rest, g u v :: st, x, keep, im, hs⟩ fs w out) :
    Ends M ⟨.op g :: rest, v :: u :: st, x, keep, im, hs⟩ fs w out := let ⟨n, h⟩ := h; ⟨n + 1, h⟩

theorem e_branch {u : Val} {a b} (h : Ends M ⟨(if u.truthy then a else b) ++ rest, st, x, keep, im, hs⟩ fs w out) :
    Ends M ⟨.branch a b :: rest, u :: st, x, keep, im, hs⟩ fs w out := let ⟨n, h⟩ := h; ⟨n + 1, h⟩

theorem e_send {m use c u} (hm : M.methods[m]? = some c)
    (h : Ends M ⟨c, [], u, use, true, []⟩ (⟨rest, st, x, keep, im, hs⟩ :: fs) w out) :
    Ends M ⟨.send m use :: rest, u :: st, x, keep, im, hs⟩ fs w out := by
  obtain ⟨n, h⟩ := h
  refine ⟨n + 1, ?_⟩
  rw [run]
  dsimp only
  rw [hm]
  exact h

theorem e_native {k b use u o w1} (h : NEnds M k u b false [] w (o, w1))
    (h' : DEnds M o ⟨rest, st, x, keep, im, hs⟩ use fs w1 out) :
    Ends M ⟨.native k b use :: rest, u :: st, x, keep, im, hs⟩ fs w out := by
  obtain ⟨n, h⟩ := h
  obtain ⟨m, h'⟩ := h'
  refine ⟨max n m + 1, ?_⟩
  rw [run]
  dsimp only
  rw [native_le (Nat.le_max_left n m) h]
  exact dispatch_le (Nat.le_max_right n m) h'

theorem e_nativep {k b u o w1 i lam} (hp : M.procs[i]? = some b) (h : NEnds M k u b lam [] w (o, w1))
    (h' : DEnds M o ⟨rest, st, x, keep, im, hs⟩ true fs w1 out) :
    Ends M ⟨.nativep k :: rest, .proc i lam :: u :: st, x, keep, im, hs⟩ fs w out := by
  obtain ⟨n, h⟩ := h
  obtain ⟨m, h'⟩ := h'
  refine ⟨max n m + 1, ?_⟩
  rw [run]
  dsimp only
  rw [hp]
  dsimp only
  rw [native_le (Nat.le_max_left n m) h]
  exact dispatch_le (Nat.le_max_right n m) h'

theorem e_callp {use b u o w1 i lam} (hp : M.procs[i]? = some b) (h : NEnds M once u b lam [] w (o, w1))
    (h' : DEnds M o ⟨rest, st, x, keep, im, hs⟩ use fs w1 out) :
    Ends M ⟨.callp use :: rest, u :: .proc i lam :: st, x, keep, im, hs⟩ fs w out := by
  obtain ⟨n, h⟩ := h
  obtain ⟨m, h'⟩ := h'
  refine ⟨max n m + 1, ?_⟩
  rw [run]
  dsimp only
  rw [hp]
  dsimp only
  rw [native_le (Nat.le_max_left n m) h]
  exact dispatch_le (Nat.le_max_right n m) h'

/-- The frame is left, its value goes to the frame below. -/
def Left (M : Image W) (keep : Bool) (fs : List (Frame W)) (v : Val) (w : W) (out : Out × W) : Prop :=
  match fs with
  | [] => out = (.ok v, w)
  | c :: fs => Ends M (if keep then c.push v else c) fs w out

theorem e_ret {v} (h : Left M keep fs v w out) : Ends M ⟨.ret :: rest, v :: st, x, keep, im, hs⟩ fs w out := by
  cases fs with
  | nil => subst h; exact ⟨1, rfl⟩
  | cons c fs => obtain ⟨n, h⟩ := h; exact ⟨n + 1, h⟩

theorem e_brk {v} : Ends M ⟨.brk :: rest, v :: st, x, keep, im, hs⟩ [] w (.blockReturn v, w) := ⟨1, rfl⟩

theorem e_mret {v} : Ends M ⟨.mret :: rest, v :: st, x, keep, im, hs⟩ [] w (.methodReturn v, w) := ⟨2, rfl⟩

theorem d_ok {v use} (h : Ends M ⟨rest, if use then v :: st else st, x, keep, im, hs⟩ fs w out) :
    DEnds M (.ok v) ⟨rest, st, x, keep, im, hs⟩ use fs w out := by
  obtain ⟨n, h⟩ := h
  refine ⟨n + 1, ?_⟩
  rw [dispatch]
  cases use <;> exact h

theorem d_method {v use} (hk : keep = true) (h : Left M keep fs v w out) :
    DEnds M (.methodReturn v) ⟨rest, st, x, keep, true, hs⟩ use fs w out := by
  cases fs with
  | nil => subst h; exact ⟨1, rfl⟩
  | cons c fs => subst hk; obtain ⟨n, h⟩ := h; exact ⟨n + 1, h⟩

theorem d_block {v use} : DEnds M (.methodReturn v) ⟨rest, st, x, keep, false, hs⟩ use [] w (.methodReturn v, w) := ⟨2, rfl⟩

theorem n_done {k : Builtin W} {u b lam vs v w1} (h : k u vs w = (.done v, w1)) : NEnds M k u b lam vs w (.ok v, w1) := by
  refine ⟨1, ?_⟩
  rw [native, h]

theorem n_raise {k : Builtin W} {u b lam vs v w1} (h : k u vs w = (.raise v, w1)) : NEnds M k u b lam vs w (.raise v, w1) := by
  refine ⟨1, ?_⟩
  rw [native, h]

theorem n_block {k : Builtin W} {u b lam vs y w1 v w2} (h : k u vs w = (.block y, w1))
    (hb : Ends M ⟨b, [], y, true, lam, []⟩ [] w1 (.ok v, w2)) (hn : NEnds M k u b lam (vs ++ [v]) w2 out) :
    NEnds M k u b lam vs w out := by
  obtain ⟨n, hb⟩ := hb
  obtain ⟨m, hn⟩ := hn
  refine ⟨max n m + 1, ?_⟩
  rw [native, h]
  dsimp only
  rw [run_le (Nat.le_max_left n m) hb]
  exact native_le (Nat.le_max_right n m) hn

theorem n_brk {k : Builtin W} {u b lam vs y w1 v w2} (h : k u vs w = (.block y, w1))
    (hb : Ends M ⟨b, [], y, true, lam, []⟩ [] w1 (.blockReturn v, w2)) : NEnds M k u b lam vs w (.ok v, w2) := by
  obtain ⟨n, hb⟩ := hb
  refine ⟨n + 1, ?_⟩
  rw [native, h]
  dsimp only
  rw [hb]

theorem n_ret {k : Builtin W} {u b lam vs y w1 v w2} (h : k u vs w = (.block y, w1))
    (hb : Ends M ⟨b, [], y, true, lam, []⟩ [] w1 (.methodReturn v, w2)) : NEnds M k u b lam vs w (.methodReturn v, w2) := by
  obtain ⟨n, hb⟩ := hb
  refine ⟨n + 1, ?_⟩
  rw [native, h]
  dsimp only
  rw [hb]

theorem n_method {k : Builtin W} {u b lam vs y w1 v w2 m c} (h : k u vs w = (.method m y, w1)) (hm : M.methods[m]? = some c)
    (hb : Ends M ⟨c, [], y, true, true, []⟩ [] w1 (.ok v, w2)) (hn : NEnds M k u b lam (vs ++ [v]) w2 out) :
    NEnds M k u b lam vs w out := by
  obtain ⟨n, hb⟩ := hb
  obtain ⟨l, hn⟩ := hn
  refine ⟨max n l + 1, ?_⟩
  rw [native, h]
  dsimp only
  rw [hm]
  dsimp only
  rw [run_le (Nat.le_max_left n l) hb]
  exact native_le (Nat.le_max_right n l) hn

/-- The exception `v` goes to the innermost rescue clause. -/
def Thrown (M : Image W) (x : Val) (keep im : Bool) (hs : List (List (Inst W))) (fs : List (Frame W)) (v : Val) (w : W)
    (out : Out × W) : Prop :=
  match hs with
  | h :: hs => Ends M ⟨h, [v], x, keep, im, hs⟩ fs w out
  | [] => match caught v fs with
    | none => out = (.raise v, w)
    | some (c, fs) => Ends M c fs w out

theorem t_throw {v} (h : Thrown M x keep im hs fs v w out) : ∃ n, throw M n v ⟨rest, st, x, keep, im, hs⟩ fs w = some out := by
  cases hs with
  | cons a hs =>
    obtain ⟨n, h⟩ := h
    exact ⟨n + 1, h⟩
  | nil =>
    cases e : caught v fs with
    | none =>
      simp only [Thrown, e] at h
      subst h
      exact ⟨1, by rw [throw, caught]; simp only [e]⟩
    | some c =>
      simp only [Thrown, e] at h
      obtain ⟨n, h⟩ := h
      exact ⟨n + 1, by rw [throw, caught]; simp only [e]; exact h⟩

/-- … also from a frame above. -/
theorem t_above {v y k i rest st} (h : Thrown M x keep im hs fs v w out) :
    Thrown M y k i [] (⟨rest, st, x, keep, im, hs⟩ :: fs) v w out := by
  cases hs with
  | cons a hs => exact h
  | nil => exact h

theorem e_raise {v} (h : Thrown M x keep im hs fs v w out) : Ends M ⟨.raise :: rest, v :: st, x, keep, im, hs⟩ fs w out := by
  obtain ⟨n, h⟩ := t_throw h
  exact ⟨n + 1, h⟩

theorem e_try {a b} (h : Ends M ⟨a ++ .endtry :: rest, st, x, keep, im, (b ++ rest) :: hs⟩ fs w out) :
    Ends M ⟨.try_ a b :: rest, st, x, keep, im, hs⟩ fs w out := let ⟨n, h⟩ := h; ⟨n + 1, h⟩

theorem e_endtry {b} (h : Ends M ⟨rest, st, x, keep, im, hs⟩ fs w out) :
    Ends M ⟨.endtry :: rest, st, x, keep, im, b :: hs⟩ fs w out := let ⟨n, h⟩ := h; ⟨n + 1, h⟩

theorem e_take {g v} (h : Ends M ⟨rest, st, x, keep, im, hs⟩ fs (g v w) out) :
    Ends M ⟨.take g :: rest, v :: st, x, keep, im, hs⟩ fs w out := let ⟨n, h⟩ := h; ⟨n + 1, h⟩

theorem d_raise {v use} (h : Thrown M x keep im hs fs v w out) : DEnds M (.raise v) ⟨rest, st, x, keep, im, hs⟩ use fs w out := by
  obtain ⟨n, h⟩ := t_throw h
  exact ⟨n + 1, h⟩

theorem n_blockRaise {k : Builtin W} {u b lam vs y w1 v w2} (h : k u vs w = (.block y, w1))
    (hb : Ends M ⟨b, [], y, true, lam, []⟩ [] w1 (.raise v, w2)) : NEnds M k u b lam vs w (.raise v, w2) := by
  obtain ⟨n, hb⟩ := hb
  refine ⟨n + 1, ?_⟩
  rw [native, h]
  dsimp only
  rw [hb]

theorem n_methodRaise {k : Builtin W} {u b lam vs y w1 v w2 m c} (h : k u vs w = (.method m y, w1)) (hm : M.methods[m]? = some c)
    (hb : Ends M ⟨c, [], y, true, true, []⟩ [] w1 (.raise v, w2)) : NEnds M k u b lam vs w (.raise v, w2) := by
  obtain ⟨n, hb⟩ := hb
  refine ⟨n + 1, ?_⟩
  rw [native, h]
  dsimp only
  rw [hm]
  dsimp only
  rw [hb]

/-- How an expression that ends with `r` leaves the machine.  `rest`, `use`, `st`: where it goes on if it has a value. -/
def Goes (M : Image W) (block im keep : Bool) (x : Val) (q : Bool) (rest : List (Inst W)) (use : Bool) (st : List Val)
    (hs : List (List (Inst W))) (fs : List (Frame W)) (c : List (Inst W)) (s : List Val) (w : W) : Exit → W → Prop
  | .val v, w' => ∀ out, Ends M ⟨rest, if use then v :: st else st, x, keep, im, hs⟩ fs w' out → Ends M ⟨c, s, x, keep, im, hs⟩ fs w out
  | .next v, w' => fs = [] → Ends M ⟨c, s, x, keep, im, hs⟩ fs w (.ok v, w')
  | .brk v, w' => fs = [] → Ends M ⟨c, s, x, keep, im, hs⟩ fs w (.blockReturn v, w')
  | .ret v, w' =>
    if block then fs = [] → im = false → Ends M ⟨c, s, x, keep, im, hs⟩ fs w (.methodReturn v, w')
    else keep = true ∨ q = false → ∀ out, Left M keep fs v w' out → Ends M ⟨c, s, x, keep, im, hs⟩ fs w out
  | .raise v, w' => ∀ out, Thrown M x keep im hs fs v w' out → Ends M ⟨c, s, x, keep, im, hs⟩ fs w out

/-- The evaluation before it. -/
theorem Goes.after {block q use st c s r w' c0 s0 w0} (h : Goes M block im keep x q rest use st hs fs c s w r w')
    (hc : ∀ out, Ends M ⟨c, s, x, keep, im, hs⟩ fs w out → Ends M ⟨c0, s0, x, keep, im, hs⟩ fs w0 out) :
    Goes M block im keep x q rest use st hs fs c0 s0 w0 r w' := by
  cases r with
  | val v => exact fun out ho => hc _ (h out ho)
  | next v => exact fun e => hc _ (h e)
  | brk v => exact fun e => hc _ (h e)
  | ret v =>
    cases block with
    | true => exact fun e1 e2 => hc _ (h e1 e2)
    | false => exact fun e out ho => hc _ (h e out ho)
  | raise v => exact fun out ho => hc _ (h out ho)

/-- Where an expression without value would go on does not matter. -/
theorem Goes.abrupt {block q use st c s r w' q' rest' use' st'} (h : Goes M block im keep x q rest use st hs fs c s w r w')
    (hr : ∀ v, r ≠ .val v) (hq : q' = false → q = false) : Goes M block im keep x q' rest' use' st' hs fs c s w r w' := by
  cases r with
  | val v => exact absurd rfl (hr v)
  | next v => exact h
  | brk v => exact h
  | ret v =>
    cases block with
    | true => exact h
    | false => exact fun e out ho => h (e.imp id hq) out ho
  | raise v => exact h

/-- What is to be shown of each rule. -/
def Claim (P : Program W) : Task W → W → Exit → W → Prop
  | .expr e x, w, r, w' => (e.returns = false → ∀ v, r ≠ .ret v) ∧ (e.breaks = false → ∀ v, r ≠ .brk v) ∧
    ∀ block im use bottom, e.Fine P block use bottom → (block = false → im = true) → ∀ keep rest st hs fs, (bottom = true → st = []) →
      Goes P.image block im keep x e.blockReturns rest use st hs fs (gen block use e ++ rest) st w r w'
  | .iter k x b own vs, w, r, w' => (b.returns = false → ∀ v, r ≠ .ret v) ∧ (∀ v, r ≠ .brk v) ∧ (∀ v, r ≠ .next v) ∧
    ∀ lam, (own = true → lam = false) → (own = false → b.returns = false ∧ b.breaks = false) → b.Fine P true true true →
      (∀ v, r = .val v → NEnds P.image k x (closed (gen true true b)) lam vs w (.ok v, w')) ∧
      (∀ v, r = .ret v → NEnds P.image k x (closed (gen true true b)) lam vs w (.methodReturn v, w')) ∧
      (∀ v, r = .raise v → NEnds P.image k x (closed (gen true true b)) lam vs w (.raise v, w'))

theorem after_popped {use : Bool} {v : Val} {out : Out × W} (h : Ends M ⟨rest, if use then v :: st else st, x, keep, im, hs⟩ fs w out) :
    Ends M ⟨popped use ++ rest, v :: st, x, keep, im, hs⟩ fs w out := by
  cases use with
  | true => exact h
  | false => exact e_pop h

theorem method_code {P : Program W} {m : Nat} {e} (h : P.methods[m]? = some e) :
    P.image.methods[m]? = some (closed (gen false true e)) := by
  simp [Program.image, h]

theorem proc_code {P : Program W} {m : Nat} {e} (h : P.procs[m]? = some e) :
    P.image.procs[m]? = some (closed (gen true true e)) := by
  simp [Program.image, h]

/-- A method in a loop of its own or in that of its caller. -/
theorem method_ends {P : Program W} (hP : P.Fine) {m : Nat} {e u v w'} (hm : P.methods[m]? = some e) {keep : Bool}
    (hk : keep = true ∨ e.blockReturns = false)
    (h : Claim P (.expr e u) w (.val v) w' ∨ Claim P (.expr e u) w (.ret v) w') {out : Out × W}
    (ho : Left P.image keep fs v w' out) : Ends P.image ⟨closed (gen false true e), [], u, keep, true, []⟩ fs w out := by
  have hf := hP.methods e (List.mem_of_getElem? hm)
  rcases h with h | h
  · exact h.2.2 false true true true hf (fun _ => rfl) keep [.ret] [] [] fs (fun _ => rfl) out (e_ret ho)
  · exact h.2.2 false true true true hf (fun _ => rfl) keep [.ret] [] [] fs (fun _ => rfl) hk out ho

theorem sim {P : Program W} (hP : P.Fine) {t : Task W} {w r w'} (h : Means P t w r w') : Claim P t w r w' := by
  induction h with
  | act =>
    refine ⟨fun _ _ => nofun, fun _ _ => nofun, fun block im use bottom _ _ keep rest st hs fs _ out ho => ?_⟩
    exact e_push (after_popped ho)
  | mkproc =>
    refine ⟨fun _ _ => nofun, fun _ _ => nofun, fun block im use bottom _ _ keep rest st hs fs _ out ho => ?_⟩
    exact e_push (after_popped ho)
  | mklambda =>
    refine ⟨fun _ _ => nofun, fun _ _ => nofun, fun block im use bottom _ _ keep rest st hs fs _ out ho => ?_⟩
    exact e_push (after_popped ho)
  | bin h1 h2 ih1 ih2 =>
    refine ⟨fun _ _ => nofun, fun _ _ => nofun, fun block im use bottom hf hi keep rest st hs fs hst out ho => ?_⟩
    rw [gen, List.append_assoc, List.append_assoc]
    exact ih1.2.2 block im true _ hf.1 hi keep _ st hs fs hst out (ih2.2.2 block im true _ hf.2 hi keep _ _ hs fs nofun out (e_op (after_popped ho)))
  | binL h1 hr ih1 =>
    refine ⟨fun e => ih1.1 (Bool.or_eq_false_iff.1 e).1, fun e => ih1.2.1 (Bool.or_eq_false_iff.1 e).1,
      fun block im use bottom hf hi keep rest st hs fs hst => ?_⟩
    rw [gen, List.append_assoc]
    exact (ih1.2.2 block im true _ hf.1 hi keep _ st hs fs hst).abrupt hr fun e => (Bool.or_eq_false_iff.1 e).1
  | binR h1 h2 hr ih1 ih2 =>
    refine ⟨fun e => ih2.1 (Bool.or_eq_false_iff.1 e).2, fun e => ih2.2.1 (Bool.or_eq_false_iff.1 e).2,
      fun block im use bottom hf hi keep rest st hs fs hst => ?_⟩
    rw [gen, List.append_assoc, List.append_assoc]
    exact ((ih2.2.2 block im true _ hf.2 hi keep _ _ hs fs nofun).abrupt hr fun e => (Bool.or_eq_false_iff.1 e).2).after
      (ih1.2.2 block im true _ hf.1 hi keep _ st hs fs hst)
  | seq h1 h2 ih1 ih2 =>
    refine ⟨fun e => ih2.1 (Bool.or_eq_false_iff.1 e).2, fun e => ih2.2.1 (Bool.or_eq_false_iff.1 e).2,
      fun block im use bottom hf hi keep rest st hs fs hst => ?_⟩
    rw [gen, List.append_assoc]
    have g := (ih2.2.2 block im use _ hf.2 hi keep rest st hs fs hst).after (ih1.2.2 block im false _ hf.1 hi keep _ st hs fs hst)
    rename_i r _
    cases r with
    | val v => exact g
    | _ => exact g.abrupt nofun fun e => (Bool.or_eq_false_iff.1 e).2
  | seqL h1 hr ih1 =>
    refine ⟨fun e => ih1.1 (Bool.or_eq_false_iff.1 e).1, fun e => ih1.2.1 (Bool.or_eq_false_iff.1 e).1,
      fun block im use bottom hf hi keep rest st hs fs hst => ?_⟩
    rw [gen, List.append_assoc]
    exact (ih1.2.2 block im false _ hf.1 hi keep _ st hs fs hst).abrupt hr fun e => (Bool.or_eq_false_iff.1 e).1
  | @ite c a b x w u w1 r w2 h1 h2 ih1 ih2 =>
    have hor : ∀ f : Expr W → Bool, (f c || f a || f b) = false → f (if u.truthy then a else b) = false := by
      intro f e
      simp only [Bool.or_eq_false_iff] at e
      split
      · exact e.1.2
      · exact e.2
    refine ⟨fun e => ih2.1 (hor _ e), fun e => ih2.2.1 (hor _ e), fun block im use bottom hf hi keep rest st hs fs hst => ?_⟩
    rw [gen, List.append_assoc]
    have hf2 : (if u.truthy then a else b).Fine P block use bottom := by
      split
      · exact hf.2.1
      · exact hf.2.2
    have g := (ih2.2.2 block im use _ hf2 hi keep rest st hs fs hst).after
      (c0 := .branch (gen block use a) (gen block use b) :: rest) (s0 := u :: st) (w0 := w1) fun out ho =>
        e_branch (by split at ho <;> simp_all)
    have g := g.after (ih1.2.2 block im true _ hf.1 hi keep _ st hs fs hst)
    cases r with
    | val v => exact g
    | _ => exact g.abrupt nofun (hor _)
  | iteC h1 hr ih1 =>
    have hor : ∀ {p q r : Bool}, (p || q || r) = false → p = false := by decide
    refine ⟨fun e => ih1.1 (hor e), fun e => ih1.2.1 (hor e), fun block im use bottom hf hi keep rest st hs fs hst => ?_⟩
    rw [gen, List.append_assoc]
    exact (ih1.2.2 block im true _ hf.1 hi keep _ st hs fs hst).abrupt hr hor
  | send h1 hm h2 ih1 ih2 =>
    refine ⟨fun _ _ => nofun, fun _ _ => nofun, fun block im use bottom hf hi keep rest st hs fs hst out ho => ?_⟩
    rw [gen, List.append_assoc]
    refine ih1.2.2 block im true _ hf.1 hi keep _ st hs fs hst out (e_send (method_code hm) ?_)
    exact method_ends hP hm (hf.2.imp id fun g => g _ hm) (.inl ih2) (by cases use <;> exact ho)
  | sendRet h1 hm h2 ih1 ih2 =>
    refine ⟨fun _ _ => nofun, fun _ _ => nofun, fun block im use bottom hf hi keep rest st hs fs hst out ho => ?_⟩
    rw [gen, List.append_assoc]
    refine ih1.2.2 block im true _ hf.1 hi keep _ st hs fs hst out (e_send (method_code hm) ?_)
    exact method_ends hP hm (hf.2.imp id fun g => g _ hm) (.inr ih2) (by cases use <;> exact ho)
  | sendA h1 hr ih1 =>
    refine ⟨ih1.1, ih1.2.1, fun block im use bottom hf hi keep rest st hs fs hst => ?_⟩
    rw [gen, List.append_assoc]
    exact (ih1.2.2 block im true _ hf.1 hi keep _ st hs fs hst).abrupt hr id
  | @native k a b x w u w1 r w2 h1 h2 ih1 ih2 =>
    refine ⟨fun e => ih2.1 (Bool.or_eq_false_iff.1 e).2, fun _ => ih2.2.1, fun block im use bottom hf hi keep rest st hs fs hst => ?_⟩
    rw [gen, List.append_assoc]
    obtain ⟨g1, g2, g3⟩ := ih2.2.2.2 false (fun _ => rfl) nofun hf.2
    refine Goes.after ?_ (ih1.2.2 block im true _ hf.1 hi keep _ st hs fs hst)
    cases r with
    | val v => exact fun out ho => e_native (g1 v rfl) (d_ok ho)
    | next v => exact absurd rfl (ih2.2.2.1 v)
    | brk v => exact absurd rfl (ih2.2.1 v)
    | ret v =>
      cases block with
      | true => rintro rfl rfl; exact e_native (g2 v rfl) d_block
      | false =>
        obtain rfl := hi rfl
        intro e out ho
        rcases e with e | e
        · exact e_native (g2 v rfl) (d_method e ho)
        · exact absurd rfl (ih2.1 (Bool.or_eq_false_iff.1 e).2 v)
    | raise v => exact fun out ho => e_native (g3 v rfl) (d_raise ho)
  | nativeA h1 hr ih1 =>
    refine ⟨fun e => ih1.1 (Bool.or_eq_false_iff.1 e).1, ih1.2.1, fun block im use bottom hf hi keep rest st hs fs hst => ?_⟩
    rw [gen, List.append_assoc]
    exact (ih1.2.2 block im true _ hf.1 hi keep _ st hs fs hst).abrupt hr fun e => (Bool.or_eq_false_iff.1 e).1
  | @nativep k a p x w u w1 i l w2 b r w3 h1 h2 hp h3 ih1 ih2 ih3 =>
    obtain ⟨hb, hret, hbrk⟩ := hP.procs b (List.mem_of_getElem? hp)
    obtain ⟨n1, n2, n3, n4⟩ := ih3
    refine ⟨fun _ => n1 hret, fun _ => n2, fun block im use bottom hf hi keep rest st hs fs hst => ?_⟩
    rw [gen, List.append_assoc, List.append_assoc]
    obtain ⟨g1, -, g3⟩ := n4 l nofun (fun _ => ⟨hret, hbrk⟩) hb
    refine Goes.after ?_ fun out ho => ih1.2.2 block im true _ hf.1 hi keep _ st hs fs hst out (ih2.2.2 block im true _ hf.2 hi keep _ _ hs fs nofun out ho)
    cases r with
    | val v => exact fun out ho => e_nativep (proc_code hp) (g1 v rfl) (d_ok (after_popped ho))
    | next v => exact absurd rfl (n3 v)
    | brk v => exact absurd rfl (n2 v)
    | ret v => exact absurd rfl (n1 hret v)
    | raise v => exact fun out ho => e_nativep (proc_code hp) (g3 v rfl) (d_raise ho)
  | nativepA h1 hr ih1 =>
    refine ⟨fun e => ih1.1 (Bool.or_eq_false_iff.1 e).1, fun e => ih1.2.1 (Bool.or_eq_false_iff.1 e).1,
      fun block im use bottom hf hi keep rest st hs fs hst => ?_⟩
    rw [gen, List.append_assoc]
    exact (ih1.2.2 block im true _ hf.1 hi keep _ st hs fs hst).abrupt hr fun e => (Bool.or_eq_false_iff.1 e).1
  | nativepP h1 h2 hr ih1 ih2 =>
    refine ⟨fun e => ih2.1 (Bool.or_eq_false_iff.1 e).2, fun e => ih2.2.1 (Bool.or_eq_false_iff.1 e).2,
      fun block im use bottom hf hi keep rest st hs fs hst => ?_⟩
    rw [gen, List.append_assoc, List.append_assoc]
    exact ((ih2.2.2 block im true _ hf.2 hi keep _ _ hs fs nofun).abrupt hr fun e => (Bool.or_eq_false_iff.1 e).2).after
      (ih1.2.2 block im true _ hf.1 hi keep _ st hs fs hst)
  | callp h1 h2 hp h3 ih1 ih2 ih3 =>
    refine ⟨fun _ _ => nofun, fun _ _ => nofun, fun block im use bottom hf hi keep rest st hs fs hst out ho => ?_⟩
    obtain ⟨hb, hret, hbrk⟩ := hP.procs _ (List.mem_of_getElem? hp)
    rw [gen, List.append_assoc, List.append_assoc]
    refine ih1.2.2 block im true _ hf.1 hi keep _ st hs fs hst out (ih2.2.2 block im true _ hf.2 hi keep _ _ hs fs nofun out ?_)
    exact e_callp (proc_code hp) (n_block rfl (ih3.2.2 true _ true true hb nofun true [.ret] [] [] [] (fun _ => rfl) _ (e_ret rfl)) (n_done rfl)) (d_ok ho)
  | callpNext h1 h2 hp h3 ih1 ih2 ih3 =>
    refine ⟨fun _ _ => nofun, fun _ _ => nofun, fun block im use bottom hf hi keep rest st hs fs hst out ho => ?_⟩
    obtain ⟨hb, hret, hbrk⟩ := hP.procs _ (List.mem_of_getElem? hp)
    rw [gen, List.append_assoc, List.append_assoc]
    refine ih1.2.2 block im true _ hf.1 hi keep _ st hs fs hst out (ih2.2.2 block im true _ hf.2 hi keep _ _ hs fs nofun out ?_)
    exact e_callp (proc_code hp) (n_block rfl (ih3.2.2 true _ true true hb nofun true [.ret] [] [] [] (fun _ => rfl) rfl) (n_done rfl)) (d_ok ho)
  | callpRet h1 h2 hp h3 ih1 ih2 ih3 =>
    exact absurd rfl (ih3.1 (hP.procs _ (List.mem_of_getElem? hp)).2.1 _)
  | callpP h1 hr ih1 =>
    refine ⟨fun e => ih1.1 (Bool.or_eq_false_iff.1 e).1, fun e => ih1.2.1 (Bool.or_eq_false_iff.1 e).1,
      fun block im use bottom hf hi keep rest st hs fs hst => ?_⟩
    rw [gen, List.append_assoc]
    exact (ih1.2.2 block im true _ hf.1 hi keep _ st hs fs hst).abrupt hr fun e => (Bool.or_eq_false_iff.1 e).1
  | callpA h1 h2 hr ih1 ih2 =>
    refine ⟨fun e => ih2.1 (Bool.or_eq_false_iff.1 e).2, fun e => ih2.2.1 (Bool.or_eq_false_iff.1 e).2,
      fun block im use bottom hf hi keep rest st hs fs hst => ?_⟩
    rw [gen, List.append_assoc, List.append_assoc]
    exact ((ih2.2.2 block im true _ hf.2 hi keep _ _ hs fs nofun).abrupt hr fun e => (Bool.or_eq_false_iff.1 e).2).after
      (ih1.2.2 block im true _ hf.1 hi keep _ st hs fs hst)
  | next h1 ih1 =>
    refine ⟨fun _ _ => nofun, fun _ _ => nofun, fun block im use bottom hf hi keep rest st hs fs hst e => ?_⟩
    subst e
    rw [gen, List.append_assoc]
    exact ih1.2.2 block im true _ hf.2 hi keep _ st hs [] hst _ (e_ret rfl)
  | nextA h1 hr ih1 =>
    refine ⟨ih1.1, ih1.2.1, fun block im use bottom hf hi keep rest st hs fs hst => ?_⟩
    rw [gen, List.append_assoc]
    exact (ih1.2.2 block im true _ hf.2 hi keep _ st hs fs hst).abrupt hr id
  | brk h1 ih1 =>
    refine ⟨fun _ _ => nofun, fun e => by simp [Expr.breaks] at e, fun block im use bottom hf hi keep rest st hs fs hst e => ?_⟩
    subst e
    rw [gen, List.append_assoc]
    exact ih1.2.2 block im true _ hf.2 hi keep _ st hs [] hst _ e_brk
  | brkA h1 hr ih1 =>
    refine ⟨ih1.1, fun e => by simp [Expr.breaks] at e, fun block im use bottom hf hi keep rest st hs fs hst => ?_⟩
    rw [gen, List.append_assoc]
    exact (ih1.2.2 block im true _ hf.2 hi keep _ st hs fs hst).abrupt hr id
  | ret h1 ih1 =>
    refine ⟨fun e => by simp [Expr.returns] at e, fun _ _ => nofun, fun block im use bottom hf hi keep rest st hs fs hst => ?_⟩
    rw [gen, List.append_assoc]
    cases block with
    | true => rintro rfl rfl; exact ih1.2.2 true false true _ hf hi keep _ st hs [] hst _ e_mret
    | false => exact fun _ out ho => ih1.2.2 false im true _ hf hi keep _ st hs fs hst _ (e_ret ho)
  | retA h1 hr ih1 =>
    refine ⟨fun e => by simp [Expr.returns] at e, ih1.2.1, fun block im use bottom hf hi keep rest st hs fs hst => ?_⟩
    rw [gen, List.append_assoc]
    exact (ih1.2.2 block im true _ hf hi keep _ st hs fs hst).abrupt hr id
  | done h =>
    exact ⟨fun _ _ => nofun, fun _ => nofun, fun _ => nofun, fun lam _ _ _ =>
      ⟨fun v e => by cases e; exact n_done h, fun v => nofun, fun v => nofun⟩⟩
  | block h h1 h2 ih1 ih2 =>
    refine ⟨ih2.1, ih2.2.1, ih2.2.2.1, fun lam hl hb hf => ?_⟩
    obtain ⟨g1, g2, g3⟩ := ih2.2.2.2 lam hl hb hf
    have g := ih1.2.2 true lam true true hf nofun true [.ret] [] [] [] (fun _ => rfl) _ (e_ret rfl)
    exact ⟨fun v e => n_block h g (g1 v e), fun v e => n_block h g (g2 v e), fun v e => n_block h g (g3 v e)⟩
  | blockNext h h1 h2 ih1 ih2 =>
    refine ⟨ih2.1, ih2.2.1, ih2.2.2.1, fun lam hl hb hf => ?_⟩
    obtain ⟨g1, g2, g3⟩ := ih2.2.2.2 lam hl hb hf
    have g := ih1.2.2 true lam true true hf nofun true [.ret] [] [] [] (fun _ => rfl) rfl
    exact ⟨fun v e => n_block h g (g1 v e), fun v e => n_block h g (g2 v e), fun v e => n_block h g (g3 v e)⟩
  | blockBrk h h1 ih1 =>
    refine ⟨fun _ _ => nofun, fun _ => nofun, fun _ => nofun, fun lam hl hb hf => ⟨fun v e => ?_, fun v => nofun, fun v => nofun⟩⟩
    cases e
    exact n_brk h (ih1.2.2 true lam true true hf nofun true [.ret] [] [] [] (fun _ => rfl) rfl)
  | blockRet h h1 ih1 =>
    refine ⟨fun e => absurd rfl (ih1.1 e _), fun _ => nofun, fun _ => nofun, fun lam hl hb hf => ⟨fun v => nofun, fun v e => ?_, fun v => nofun⟩⟩
    cases e
    exact n_ret h (ih1.2.2 true lam true true hf nofun true [.ret] [] [] [] (fun _ => rfl) rfl (hl rfl))
  | method h hm h1 h2 ih1 ih2 =>
    refine ⟨ih2.1, ih2.2.1, ih2.2.2.1, fun lam hl hb hf => ?_⟩
    obtain ⟨g1, g2, g3⟩ := ih2.2.2.2 lam hl hb hf
    have g := method_ends hP hm (keep := true) (fs := []) (.inl rfl) (.inl ih1) rfl
    exact ⟨fun v e => n_method h (method_code hm) g (g1 v e), fun v e => n_method h (method_code hm) g (g2 v e),
      fun v e => n_method h (method_code hm) g (g3 v e)⟩
  | methodRet h hm h1 h2 ih1 ih2 =>
    refine ⟨ih2.1, ih2.2.1, ih2.2.2.1, fun lam hl hb hf => ?_⟩
    obtain ⟨g1, g2, g3⟩ := ih2.2.2.2 lam hl hb hf
    have g := method_ends hP hm (keep := true) (fs := []) (.inl rfl) (.inr ih1) rfl
    exact ⟨fun v e => n_method h (method_code hm) g (g1 v e), fun v e => n_method h (method_code hm) g (g2 v e),
      fun v e => n_method h (method_code hm) g (g3 v e)⟩
  | raise h1 ih1 =>
    refine ⟨fun _ _ => nofun, fun _ _ => nofun, fun block im use bottom hf hi keep rest st hs fs hst out ho => ?_⟩
    rw [gen, List.append_assoc]
    exact ih1.2.2 block im true _ hf hi keep _ st hs fs hst out (e_raise ho)
  | raiseA h1 hr ih1 =>
    refine ⟨ih1.1, ih1.2.1, fun block im use bottom hf hi keep rest st hs fs hst => ?_⟩
    rw [gen, List.append_assoc]
    exact (ih1.2.2 block im true _ hf hi keep _ st hs fs hst).abrupt hr id
  | @rescued a f h x w v w1 r w2 h1 h2 ih1 ih2 =>
    refine ⟨fun e => ih2.1 (Bool.or_eq_false_iff.1 e).2, fun e => ih2.2.1 (Bool.or_eq_false_iff.1 e).2,
      fun block im use bottom hf hi keep rest st hs fs hst => ?_⟩
    obtain rfl := hst hf.1
    rw [gen]
    have g := (ih2.2.2 block im use true hf.2.2 hi keep rest [] hs fs fun _ => rfl).after fun out ho =>
      e_try (a := gen block use a) (b := .take f :: gen block use h)
        (ih1.2.2 block im use true hf.2.1 hi keep (.endtry :: rest) [] _ fs (fun _ => rfl) out (e_take ho))
    cases r with
    | val v => exact g
    | _ => exact g.abrupt nofun fun e => (Bool.or_eq_false_iff.1 e).2
  | @body a f h x w r w1 h1 hr ih1 =>
    refine ⟨fun e => ih1.1 (Bool.or_eq_false_iff.1 e).1, fun e => ih1.2.1 (Bool.or_eq_false_iff.1 e).1,
      fun block im use bottom hf hi keep rest st hs fs hst => ?_⟩
    obtain rfl := hst hf.1
    rw [gen]
    have g := ih1.2.2 block im use true hf.2.1 hi keep (.endtry :: rest) []
      (((.take f :: gen block use h) ++ rest) :: hs) fs fun _ => rfl
    cases r with
    | val v => exact fun out ho => e_try (g out (e_endtry ho))
    | next v => exact fun e => e_try (g e)
    | brk v => exact fun e => e_try (g e)
    | ret v =>
      cases block with
      | true => exact fun e1 e2 => e_try (g e1 e2)
      | false => exact fun e out ho => e_try (g (e.imp id fun e => (Bool.or_eq_false_iff.1 e).1) out ho)
    | raise v => exact absurd rfl (hr v)
  | sendRaise h1 hm h2 ih1 ih2 =>
    refine ⟨fun _ _ => nofun, fun _ _ => nofun, fun block im use bottom hf hi keep rest st hs fs hst out ho => ?_⟩
    rw [gen, List.append_assoc]
    refine ih1.2.2 block im true _ hf.1 hi keep _ st hs fs hst out (e_send (method_code hm) ?_)
    exact ih2.2.2 false true true true (hP.methods _ (List.mem_of_getElem? hm)) (fun _ => rfl) use [.ret] [] [] _ (fun _ => rfl) out
      (t_above ho)
  | callpRaise h1 h2 hp h3 ih1 ih2 ih3 =>
    refine ⟨fun _ _ => nofun, fun _ _ => nofun, fun block im use bottom hf hi keep rest st hs fs hst out ho => ?_⟩
    obtain ⟨hb, hret, hbrk⟩ := hP.procs _ (List.mem_of_getElem? hp)
    rw [gen, List.append_assoc, List.append_assoc]
    refine ih1.2.2 block im true _ hf.1 hi keep _ st hs fs hst out (ih2.2.2 block im true _ hf.2 hi keep _ _ hs fs nofun out ?_)
    exact e_callp (proc_code hp) (n_blockRaise rfl (ih3.2.2 true _ true true hb nofun true [.ret] [] [] [] (fun _ => rfl) _ rfl))
      (d_raise ho)
  | builtinRaise h =>
    exact ⟨fun _ _ => nofun, fun _ => nofun, fun _ => nofun, fun lam _ _ _ =>
      ⟨fun v => nofun, fun v => nofun, fun v e => by cases e; exact n_raise h⟩⟩
  | blockRaise h h1 ih1 =>
    refine ⟨fun _ _ => nofun, fun _ => nofun, fun _ => nofun, fun lam hl hb hf => ⟨fun v => nofun, fun v => nofun, fun v e => ?_⟩⟩
    cases e
    exact n_blockRaise h (ih1.2.2 true lam true true hf nofun true [.ret] [] [] [] (fun _ => rfl) _ rfl)
  | methodRaise h hm h1 ih1 =>
    refine ⟨fun _ _ => nofun, fun _ => nofun, fun _ => nofun, fun lam hl hb hf => ⟨fun v => nofun, fun v => nofun, fun v e => ?_⟩⟩
    cases e
    exact n_methodRaise h (method_code hm) (ih1.2.2 false true true true (hP.methods _ (List.mem_of_getElem? hm)) (fun _ => rfl) true
      [.ret] [] [] [] (fun _ => rfl) _ rfl)

/-! ### The other direction -/

/-- After fewer than `n` steps the frame has been left, and its value went to the frame below. -/
def LeftAt (M : Image W) (n : Nat) (keep : Bool) (fs : List (Frame W)) (v : Val) (w : W) (out : Out × W) : Prop :=
  match fs with
  | [] => out = (.ok v, w)
  | c :: fs => ∃ m < n, run M m (if keep then c.push v else c) fs w = some out

/-- What is left to do after an expression that ends with `r`, if everything takes `n` steps. -/
def Remains (M : Image W) (block im keep : Bool) (x : Val) (q : Bool) (rest : List (Inst W)) (use : Bool) (st : List Val)
    (hs : List (List (Inst W))) (fs : List (Frame W)) (n : Nat) (out : Out × W) : Exit → W → Prop
  | .val v, w' => ∃ m < n, run M m ⟨rest, if use then v :: st else st, x, keep, im, hs⟩ fs w' = some out
  | .next _, _ => block = true
  | .brk _, _ => block = true
  | .ret v, w' => block = false → keep = true ∨ q = false → LeftAt M n keep fs v w' out
  | .raise v, w' => ∃ m < n, ∃ c s, throw M m v ⟨c, s, x, keep, im, hs⟩ fs w' = some out

theorem LeftAt.le {n n' : Nat} (hn : n ≤ n') {v} (h : LeftAt M n keep fs v w out) : LeftAt M n' keep fs v w out := by
  cases fs with
  | nil => exact h
  | cons c fs => obtain ⟨m, hm, h⟩ := h; exact ⟨m, Nat.lt_of_lt_of_le hm hn, h⟩

theorem Remains.le {block q use r} {n n' : Nat} (hn : n ≤ n') (h : Remains M block im keep x q rest use st hs fs n out r w) :
    Remains M block im keep x q rest use st hs fs n' out r w := by
  cases r with
  | val v => obtain ⟨m, hm, h⟩ := h; exact ⟨m, Nat.lt_of_lt_of_le hm hn, h⟩
  | next v => exact h
  | brk v => exact h
  | ret v => exact fun a b => (h a b).le hn
  | raise v => obtain ⟨m, hm, h⟩ := h; exact ⟨m, Nat.lt_of_lt_of_le hm hn, h⟩

theorem Remains.abrupt {block q use r q' rest' use' st'} {n : Nat} (h : Remains M block im keep x q rest use st hs fs n out r w)
    (hr : ∀ v, r ≠ .val v) (hq : q' = false → q = false) : Remains M block im keep x q' rest' use' st' hs fs n out r w := by
  cases r with
  | val v => exact absurd rfl (hr v)
  | next v => exact h
  | brk v => exact h
  | ret v => exact fun a b => h a (b.imp id hq)
  | raise v => exact h

theorem Remains.weaken {block q use r q'} {n : Nat} (h : Remains M block im keep x q rest use st hs fs n out r w)
    (hq : q' = false → q = false) : Remains M block im keep x q' rest use st hs fs n out r w := by
  cases r with
  | ret v => exact fun a b => h a (b.imp id hq)
  | _ => exact h

/-- What is to be shown: an expression that the interpreter gets through in `n` steps has a meaning. -/
def Back (P : Program W) (n : Nat) (e : Expr W) : Prop :=
  ∀ x block im use bottom, e.Fine P block use bottom → (block = false → im = true) → ∀ keep rest st hs fs w out,
    (bottom = true → st = []) → run P.image n ⟨gen block use e ++ rest, st, x, keep, im, hs⟩ fs w = some out →
      ∃ r w', Means P (.expr e x) w r w' ∧ Remains P.image block im keep x e.blockReturns rest use st hs fs n out r w'

/-- The same of a builtin method. -/
def BackIter (P : Program W) (n : Nat) : Prop :=
  ∀ k x b own lam vs w o w', (own = true → lam = false) → (own = false → b.returns = false ∧ b.breaks = false) →
    b.Fine P true true true → native P.image n k x (closed (gen true true b)) lam vs w = some (o, w') →
      (∃ v, o = .ok v ∧ Means P (.iter k x b own vs) w (.val v) w') ∨
      (∃ v, o = .methodReturn v ∧ Means P (.iter k x b own vs) w (.ret v) w') ∨
      (∃ v, o = .raise v ∧ Means P (.iter k x b own vs) w (.raise v) w')

theorem i_popped {n : Nat} {use : Bool} {v : Val} (h : run M n ⟨popped use ++ rest, v :: st, x, keep, im, hs⟩ fs w = some out) :
    ∃ m ≤ n, run M m ⟨rest, if use then v :: st else st, x, keep, im, hs⟩ fs w = some out := by
  cases use with
  | true => exact ⟨n, Nat.le_refl _, h⟩
  | false =>
    cases n with
    | zero => simp [run] at h
    | succ n => exact ⟨n, Nat.le_succ _, h⟩

/-- One step. -/
theorem run_succ {n : Nat} {f : Frame W} (h : run M n f fs w = some out) : ∃ m, n = m + 1 := by
  cases n with
  | zero => simp [run] at h
  | succ n => exact ⟨n, rfl⟩

theorem dispatch_succ {n : Nat} {f : Frame W} {o u} (h : dispatch M n o f u fs w = some out) : ∃ m, n = m + 1 := by
  cases n with
  | zero => simp [dispatch] at h
  | succ n => exact ⟨n, rfl⟩

theorem throw_succ {n : Nat} {f : Frame W} {v} (h : throw M n v f fs w = some out) : ∃ m, n = m + 1 := by
  cases n with
  | zero => simp [throw] at h
  | succ n => exact ⟨n, rfl⟩

/-- The block or the method of a builtin method, in a loop of its own. -/
theorem own_loop {P : Program W} {n : Nat} {b : Expr W} (ih : Back P n b) {block lam : Bool} {y o w'}
    (hl : block = false → lam = true) (hf : b.Fine P block true true)
    (h : run P.image n ⟨closed (gen block true b), [], y, true, lam, []⟩ [] w = some (o, w')) :
    ∃ r w1, Means P (.expr b y) w r w1 ∧ (block = false → (∀ v, r ≠ .next v) ∧ ∀ v, r ≠ .brk v) := by
  obtain ⟨r, w1, hm, hr⟩ := ih y block lam true true hf hl true [.ret] [] [] [] w _ (fun _ => rfl) h
  refine ⟨r, w1, hm, ?_⟩
  rintro rfl
  constructor
  · rintro v rfl; exact absurd hr nofun
  · rintro v rfl; exact absurd hr nofun

theorem back_iter {P : Program W} (hP : P.Fine) {n : Nat} (ih : ∀ m < n, (∀ e, Back P m e) ∧ BackIter P m) : BackIter P n := by
  intro k x b own lam vs w o w' hl hb hf h
  cases n with
  | zero => simp [native] at h
  | succ n =>
    obtain ⟨ih1, ih2⟩ := ih n (Nat.lt_succ_self n)
    rw [native] at h
    rcases e0 : k x vs w with ⟨q, w1⟩
    rw [e0] at h
    cases q with
    | done v => dsimp only at h; cases h; exact .inl ⟨v, rfl, .done e0⟩
    | raise v => dsimp only at h; cases h; exact .inr (.inr ⟨v, rfl, .builtinRaise e0⟩)
    | block y =>
      dsimp only at h
      cases e : run P.image n ⟨closed (gen true true b), [], y, true, lam, []⟩ [] w1 with
      | none => simp [e] at h
      | some p =>
        obtain ⟨p, w2⟩ := p
        obtain ⟨r, w3, hm, -⟩ := own_loop (block := true) (ih1 b) nofun hf e
        have g := sim hP hm
        rw [e] at h
        have go : ∀ v, (.ok v, w3) = (p, w2) → (∀ r w4, Means P (.iter k x b own (vs ++ [v])) w3 r w4 → Means P (.iter k x b own vs) w r w4) →
            ((∃ v, o = .ok v ∧ Means P (.iter k x b own vs) w (.val v) w') ∨
            (∃ v, o = .methodReturn v ∧ Means P (.iter k x b own vs) w (.ret v) w') ∨
            (∃ v, o = .raise v ∧ Means P (.iter k x b own vs) w (.raise v) w')) := by
          intro v ev hv
          cases ev
          rcases ih2 k x b own lam (vs ++ [v]) _ o w' hl hb hf h with ⟨u, rfl, hu⟩ | ⟨u, rfl, hu⟩ | ⟨u, rfl, hu⟩
          · exact .inl ⟨u, rfl, hv _ _ hu⟩
          · exact .inr (.inl ⟨u, rfl, hv _ _ hu⟩)
          · exact .inr (.inr ⟨u, rfl, hv _ _ hu⟩)
        cases r with
        | val v =>
          exact go v (ends_unique (g.2.2 true lam true true hf nofun true [.ret] [] [] [] (fun _ => rfl) _ (e_ret rfl)) ⟨n, e⟩)
            fun r w4 hr => .block e0 hm hr
        | next v =>
          exact go v (ends_unique (g.2.2 true lam true true hf nofun true [.ret] [] [] [] (fun _ => rfl) rfl) ⟨n, e⟩)
            fun r w4 hr => .blockNext e0 hm hr
        | brk v =>
          cases own with
          | false => exact absurd rfl (g.2.1 (hb rfl).2 v)
          | true =>
            cases ends_unique (g.2.2 true lam true true hf nofun true [.ret] [] [] [] (fun _ => rfl) rfl) ⟨n, e⟩
            dsimp only at h
            cases h
            exact .inl ⟨v, rfl, .blockBrk e0 hm⟩
        | ret v =>
          cases own with
          | false => exact absurd rfl (g.1 (hb rfl).1 v)
          | true =>
            cases ends_unique (g.2.2 true lam true true hf nofun true [.ret] [] [] [] (fun _ => rfl) rfl (hl rfl)) ⟨n, e⟩
            dsimp only at h
            cases h
            exact .inr (.inl ⟨v, rfl, .blockRet e0 hm⟩)
        | raise v =>
          cases ends_unique (g.2.2 true lam true true hf nofun true [.ret] [] [] [] (fun _ => rfl) _ rfl) ⟨n, e⟩
          dsimp only at h
          cases h
          exact .inr (.inr ⟨v, rfl, .blockRaise e0 hm⟩)
    | method m y =>
      dsimp only at h
      cases e1 : P.image.methods[m]? with
      | none => simp [e1] at h
      | some c =>
        rw [e1] at h
        dsimp only at h
        obtain ⟨b', hm', rfl⟩ : ∃ b', P.methods[m]? = some b' ∧ closed (gen false true b') = c := by
          simpa [Program.image] using e1
        cases e : run P.image n ⟨closed (gen false true b'), [], y, true, true, []⟩ [] w1 with
        | none => simp [e] at h
        | some p =>
          obtain ⟨p, w2⟩ := p
          have hf' := hP.methods _ (List.mem_of_getElem? hm')
          obtain ⟨r, w3, hm, hnb⟩ := own_loop (ih1 b') (fun _ => rfl) hf' e
          rw [e] at h
          have go : ∀ v, (.ok v, w3) = (p, w2) → (∀ r w4, Means P (.iter k x b own (vs ++ [v])) w3 r w4 → Means P (.iter k x b own vs) w r w4) →
              ((∃ v, o = .ok v ∧ Means P (.iter k x b own vs) w (.val v) w') ∨
              (∃ v, o = .methodReturn v ∧ Means P (.iter k x b own vs) w (.ret v) w') ∨
              (∃ v, o = .raise v ∧ Means P (.iter k x b own vs) w (.raise v) w')) := by
            intro v ev hv
            cases ev
            rcases ih2 k x b own lam (vs ++ [v]) _ o w' hl hb hf h with ⟨u, rfl, hu⟩ | ⟨u, rfl, hu⟩ | ⟨u, rfl, hu⟩
            · exact .inl ⟨u, rfl, hv _ _ hu⟩
            · exact .inr (.inl ⟨u, rfl, hv _ _ hu⟩)
            · exact .inr (.inr ⟨u, rfl, hv _ _ hu⟩)
          cases r with
          | val v =>
            exact go v (ends_unique (method_ends hP hm' (keep := true) (fs := []) (.inl rfl) (.inl (sim hP hm)) rfl) ⟨n, e⟩)
              fun r w4 hr => .method e0 hm' hm hr
          | ret v =>
            exact go v (ends_unique (method_ends hP hm' (keep := true) (fs := []) (.inl rfl) (.inr (sim hP hm)) rfl) ⟨n, e⟩)
              fun r w4 hr => .methodRet e0 hm' hm hr
          | next v => exact absurd rfl ((hnb rfl).1 v)
          | brk v => exact absurd rfl ((hnb rfl).2 v)
          | raise v =>
            cases ends_unique ((sim hP hm).2.2 false true true true hf' (fun _ => rfl) true [.ret] [] [] [] (fun _ => rfl) _ rfl) ⟨n, e⟩
            dsimp only at h
            cases h
            exact .inr (.inr ⟨v, rfl, .methodRaise e0 hm' hm⟩)

theorem Exit.cases (r : Exit) : (∃ v, r = .val v) ∨ ∀ v, r ≠ .val v := by
  cases r with
  | val v => exact .inl ⟨v, rfl⟩
  | _ => exact .inr fun _ => nofun

/-- The rest of a builtin method that was called by an expression. -/
theorem back_native {P : Program W} {n m : Nat} (hn : m < n) {k : Builtin W} {u : Val} {b : Expr W} {own lam : Bool} {block use q : Bool}
    {o w1 w2} (hl : own = true → lam = false) (hb : own = false → b.returns = false ∧ b.breaks = false)
    (hf : b.Fine P true true true) (hi : block = false → im = true) (ih : BackIter P m)
    (hq : ∀ v, Means P (.iter k u b own []) w1 (.ret v) w2 → q = true)
    (hv : native P.image m k u (closed (gen true true b)) lam [] w1 = some (o, w2))
    (h : dispatch P.image m o ⟨rest, st, x, keep, im, hs⟩ use fs w2 = some out) :
    ∃ r, Means P (.iter k u b own []) w1 r w2 ∧ Remains P.image block im keep x q rest use st hs fs n out r w2 := by
  obtain ⟨m, rfl⟩ := dispatch_succ h
  rcases ih k u b own lam [] w1 o w2 hl hb hf hv with ⟨v, rfl, hr⟩ | ⟨v, rfl, hr⟩ | ⟨v, rfl, hr⟩
  · refine ⟨_, hr, m, by omega, ?_⟩
    rw [dispatch] at h
    cases use <;> exact h
  · refine ⟨_, hr, fun hbl hk => ?_⟩
    obtain rfl := hi hbl
    rw [hq v hr] at hk
    obtain rfl : keep = true := hk.resolve_right nofun
    cases fs with
    | nil => exact (Option.some.inj h).symm
    | cons c fs => exact ⟨m, by omega, h⟩
  · exact ⟨_, hr, m, by omega, _, _, h⟩

/-- Calling a `Proc` object is running a block once. -/
theorem once_means {P : Program W} {u : Val} {b : Expr W} {w1 r w2} (h : Means P (.iter once u b false []) w1 r w2) :
    (∃ v, r = .val v ∧ (Means P (.expr b u) w1 (.val v) w2 ∨ Means P (.expr b u) w1 (.next v) w2)) ∨
    (∃ v, r = .raise v ∧ Means P (.expr b u) w1 (.raise v) w2) := by
  have one : ∀ {v w3 r w2}, Means P (.iter once u b false [v]) w3 r w2 → r = .val v ∧ w2 = w3 := by
    intro v w3 r w2 h
    cases h with
    | done e => cases e; exact ⟨rfl, rfl⟩
    | block e => cases e
    | blockNext e => cases e
    | method e => cases e
    | methodRet e => cases e
    | blockRaise e => cases e
    | methodRaise e => cases e
    | builtinRaise e => cases e
  cases h with
  | done e => cases e
  | block e h1 h2 =>
    cases e
    obtain ⟨rfl, rfl⟩ := one h2
    exact .inl ⟨_, rfl, .inl h1⟩
  | blockNext e h1 h2 =>
    cases e
    obtain ⟨rfl, rfl⟩ := one h2
    exact .inl ⟨_, rfl, .inr h1⟩
  | method e => cases e
  | methodRet e => cases e
  | blockRaise e h1 => cases e; exact .inr ⟨_, rfl, h1⟩
  | methodRaise e => cases e
  | builtinRaise e => cases e

theorem back_expr {P : Program W} (hP : P.Fine) {n : Nat} (ih : ∀ m < n, (∀ e, Back P m e) ∧ BackIter P m) (e : Expr W) : Back P n e := by
  have push : ∀ {f : Val → W → Val × W} {use : Bool} {rest st x keep im hs fs w} {out : Out × W},
      run P.image n ⟨(.push f :: popped use) ++ rest, st, x, keep, im, hs⟩ fs w = some out →
      ∃ m < n, run P.image m ⟨rest, if use then (f x w).1 :: st else st, x, keep, im, hs⟩ fs (f x w).2 = some out := by
    intro f use rest st x keep im hs fs w out h
    obtain ⟨n, rfl⟩ := run_succ h
    obtain ⟨m, hm, h⟩ := i_popped (rest := rest) (st := st) h
    exact ⟨m, by omega, h⟩
  induction e with
  | act f =>
    intro x block im use bottom hf hi keep rest st hs fs w out hst h
    exact ⟨_, _, .act, push h⟩
  | mkproc i =>
    intro x block im use bottom hf hi keep rest st hs fs w out hst h
    exact ⟨_, _, .mkproc, push h⟩
  | mklambda i =>
    intro x block im use bottom hf hi keep rest st hs fs w out hst h
    exact ⟨_, _, .mklambda, push h⟩
  | bin g a b iha ihb =>
    intro x block im use bottom hf hi keep rest st hs fs w out hst h
    rw [gen, List.append_assoc, List.append_assoc] at h
    obtain ⟨r, w1, h1, k1⟩ := iha x block im true _ hf.1 hi keep _ st hs fs w out hst h
    rcases r.cases with ⟨u, rfl⟩ | hr
    · obtain ⟨m, hm, h⟩ := k1
      obtain ⟨r, w2, h2, k2⟩ := (ih m hm).1 b x block im true _ hf.2 hi keep _ _ hs fs w1 out nofun h
      rcases r.cases with ⟨v, rfl⟩ | hr
      · obtain ⟨m', hm', h⟩ := k2
        obtain ⟨m', rfl⟩ := run_succ h
        obtain ⟨m2, hm2, h⟩ := i_popped (v := g u v) (rest := rest) (st := st) h
        exact ⟨_, _, .bin h1 h2, m2, by omega, h⟩
      · exact ⟨_, _, .binR h1 h2 hr, (k2.le (by omega)).abrupt hr fun e => (Bool.or_eq_false_iff.1 e).2⟩
    · exact ⟨_, _, .binL h1 hr, k1.abrupt hr fun e => (Bool.or_eq_false_iff.1 e).1⟩
  | seq a b iha ihb =>
    intro x block im use bottom hf hi keep rest st hs fs w out hst h
    rw [gen, List.append_assoc] at h
    obtain ⟨r, w1, h1, k1⟩ := iha x block im false _ hf.1 hi keep _ st hs fs w out hst h
    rcases r.cases with ⟨u, rfl⟩ | hr
    · obtain ⟨m, hm, h⟩ := k1
      obtain ⟨r, w2, h2, k2⟩ := (ih m hm).1 b x block im use _ hf.2 hi keep _ _ hs fs w1 out hst h
      exact ⟨_, _, .seq h1 h2, (k2.le (by omega)).weaken fun e => (Bool.or_eq_false_iff.1 e).2⟩
    · exact ⟨_, _, .seqL h1 hr, k1.abrupt hr fun e => (Bool.or_eq_false_iff.1 e).1⟩
  | ite c a b ihc iha ihb =>
    intro x block im use bottom hf hi keep rest st hs fs w out hst h
    rw [gen, List.append_assoc] at h
    obtain ⟨r, w1, h1, k1⟩ := ihc x block im true _ hf.1 hi keep _ st hs fs w out hst h
    rcases r.cases with ⟨u, rfl⟩ | hr
    · obtain ⟨m, hm, h⟩ := k1
      obtain ⟨m, rfl⟩ := run_succ h
      have hor : (Expr.ite c a b).blockReturns = false → (if u.truthy then a else b).blockReturns = false := by
        intro e
        simp only [Expr.blockReturns, Bool.or_eq_false_iff] at e
        split
        · exact e.1.2
        · exact e.2
      have hf2 : (if u.truthy then a else b).Fine P block use bottom := by
        split
        · exact hf.2.1
        · exact hf.2.2
      have h : run P.image m ⟨gen block use (if u.truthy then a else b) ++ rest, st, x, keep, im, hs⟩ fs w1 = some out := by
        have h' : run P.image m ⟨(if u.truthy then gen block use a else gen block use b) ++ rest, st, x, keep, im, hs⟩ fs w1 = some out := h
        split at h' <;> simp_all
      obtain ⟨r, w2, h2, k2⟩ := (ih m (by omega)).1 _ x block im use _ hf2 hi keep _ _ hs fs w1 out hst h
      exact ⟨_, _, .ite h1 h2, (k2.le (by omega)).weaken hor⟩
    · refine ⟨_, _, .iteC h1 hr, k1.abrupt hr fun e => ?_⟩
      simp only [Expr.blockReturns, Bool.or_eq_false_iff] at e
      exact e.1.1
  | send m a iha =>
    intro x block im use bottom hf hi keep rest st hs fs w out hst h
    rw [gen, List.append_assoc] at h
    obtain ⟨r, w1, h1, k1⟩ := iha x block im true _ hf.1 hi keep _ st hs fs w out hst h
    rcases r.cases with ⟨u, rfl⟩ | hr
    · obtain ⟨l, hl, h⟩ := k1
      obtain ⟨l, rfl⟩ := run_succ h
      simp only [if_true, List.cons_append, List.nil_append] at h
      rw [run] at h
      dsimp only at h
      cases e1 : P.image.methods[m]? with
      | none => simp [e1] at h
      | some c =>
        rw [e1] at h
        dsimp only at h
        obtain ⟨b, hm, rfl⟩ : ∃ b, P.methods[m]? = some b ∧ closed (gen false true b) = c := by simpa [Program.image] using e1
        obtain ⟨r, w2, h2, k2⟩ := (ih l (by omega)).1 b u false true true true (hP.methods _ (List.mem_of_getElem? hm)) (fun _ => rfl)
          use [.ret] [] [] _ w1 out (fun _ => rfl) h
        cases r with
        | val v =>
          obtain ⟨l', hl', h⟩ := k2
          obtain ⟨l', rfl⟩ := run_succ h
          refine ⟨_, _, .send h1 hm h2, l', by omega, ?_⟩
          cases use <;> exact h
        | ret v =>
          obtain ⟨l', hl', h⟩ := k2 rfl (hf.2.imp id fun g => g _ hm)
          refine ⟨_, _, .sendRet h1 hm h2, l', by omega, ?_⟩
          cases use <;> exact h
        | next v => exact absurd k2 nofun
        | brk v => exact absurd k2 nofun
        | raise v =>
          obtain ⟨l', hl', c, s, h⟩ := k2
          obtain ⟨l', rfl⟩ := throw_succ h
          exact ⟨_, _, .sendRaise h1 hm h2, l' + 1, by omega, _, _, h⟩
    · exact ⟨_, _, .sendA h1 hr, k1.abrupt hr id⟩
  | native k a b iha ihb =>
    intro x block im use bottom hf hi keep rest st hs fs w out hst h
    rw [gen, List.append_assoc] at h
    obtain ⟨r, w1, h1, k1⟩ := iha x block im true _ hf.1 hi keep _ st hs fs w out hst h
    rcases r.cases with ⟨u, rfl⟩ | hr
    · obtain ⟨l, hl, h⟩ := k1
      obtain ⟨l, rfl⟩ := run_succ h
      simp only [if_true, List.cons_append, List.nil_append] at h
      rw [run] at h
      dsimp only at h
      cases e1 : native P.image l k u (closed (gen true true b)) false [] w1 with
      | none => simp [e1] at h
      | some o =>
        obtain ⟨o, w2⟩ := o
        rw [e1] at h
        obtain ⟨r, h2, k2⟩ := back_native (n := n) (m := l) (by omega) (own := true) (block := block)
          (q := (Expr.native k a b).blockReturns) (fun _ => rfl) nofun hf.2 hi (ih l (by omega)).2 (by
            intro v hv
            cases e : b.returns with
            | false => exact absurd rfl ((sim hP hv).1 e v)
            | true => simp [Expr.blockReturns, e]) e1 h
        exact ⟨_, _, .native h1 h2, k2⟩
    · exact ⟨_, _, .nativeA h1 hr, k1.abrupt hr fun e => (Bool.or_eq_false_iff.1 e).1⟩
  | nativep k a p iha ihp =>
    intro x block im use bottom hf hi keep rest st hs fs w out hst h
    rw [gen, List.append_assoc, List.append_assoc] at h
    obtain ⟨r, w1, h1, k1⟩ := iha x block im true _ hf.1 hi keep _ st hs fs w out hst h
    rcases r.cases with ⟨u, rfl⟩ | hr
    · obtain ⟨m, hm, h⟩ := k1
      obtain ⟨r, w2, h2, k2⟩ := (ih m hm).1 p x block im true _ hf.2 hi keep _ _ hs fs w1 out nofun h
      rcases r.cases with ⟨v, rfl⟩ | hr
      · obtain ⟨l, hl, h⟩ := k2
        obtain ⟨l, rfl⟩ := run_succ h
        simp only [if_true, List.cons_append] at h
        rw [run] at h
        dsimp only at h
        cases v with
        | int i => simp at h
        | proc i lam =>
          dsimp only at h
          cases e1 : P.image.procs[i]? with
          | none => simp [e1] at h
          | some c =>
            rw [e1] at h
            dsimp only at h
            obtain ⟨b, hp, rfl⟩ : ∃ b, P.procs[i]? = some b ∧ closed (gen true true b) = c := by simpa [Program.image] using e1
            obtain ⟨hb, hret, hbrk⟩ := hP.procs b (List.mem_of_getElem? hp)
            cases e1 : native P.image l k u (closed (gen true true b)) lam [] w2 with
            | none => simp [e1] at h
            | some o =>
              obtain ⟨o, w3⟩ := o
              rw [e1] at h
              obtain ⟨r, h3, k3⟩ := back_native (n := n) (m := l) (by omega) (own := false) (block := block) (q := true)
                nofun (fun _ => ⟨hret, hbrk⟩) hb hi (ih l (by omega)).2 (fun _ _ => rfl) e1 h
              refine ⟨_, _, .nativep h1 h2 hp h3, ?_⟩
              cases r with
              | val v =>
                obtain ⟨m', hm', h⟩ := k3
                obtain ⟨m2, hm2, h⟩ := i_popped (v := v) (rest := rest) (st := st) h
                exact ⟨m2, by omega, h⟩
              | next v => exact absurd rfl ((sim hP h3).2.2.1 v)
              | brk v => exact absurd rfl ((sim hP h3).2.1 v)
              | ret v => exact absurd rfl ((sim hP h3).1 hret v)
              | raise v => exact k3
      · exact ⟨_, _, .nativepP h1 h2 hr, (k2.le (by omega)).abrupt hr fun e => (Bool.or_eq_false_iff.1 e).2⟩
    · exact ⟨_, _, .nativepA h1 hr, k1.abrupt hr fun e => (Bool.or_eq_false_iff.1 e).1⟩
  | callp p a ihp iha =>
    intro x block im use bottom hf hi keep rest st hs fs w out hst h
    rw [gen, List.append_assoc, List.append_assoc] at h
    obtain ⟨r, w1, h1, k1⟩ := ihp x block im true _ hf.1 hi keep _ st hs fs w out hst h
    rcases r.cases with ⟨v, rfl⟩ | hr
    · obtain ⟨m, hm, h⟩ := k1
      obtain ⟨r, w2, h2, k2⟩ := (ih m hm).1 a x block im true _ hf.2 hi keep _ _ hs fs w1 out nofun h
      rcases r.cases with ⟨u, rfl⟩ | hr
      · obtain ⟨l, hl, h⟩ := k2
        obtain ⟨l, rfl⟩ := run_succ h
        simp only [if_true, List.cons_append, List.nil_append] at h
        rw [run] at h
        dsimp only at h
        cases v with
        | int i => simp at h
        | proc i lam =>
          dsimp only at h
          cases e1 : P.image.procs[i]? with
          | none => simp [e1] at h
          | some c =>
            rw [e1] at h
            dsimp only at h
            obtain ⟨b, hp, rfl⟩ : ∃ b, P.procs[i]? = some b ∧ closed (gen true true b) = c := by simpa [Program.image] using e1
            obtain ⟨hb, hret, hbrk⟩ := hP.procs b (List.mem_of_getElem? hp)
            cases e1 : native P.image l once u (closed (gen true true b)) lam [] w2 with
            | none => simp [e1] at h
            | some o =>
              obtain ⟨o, w3⟩ := o
              rw [e1] at h
              obtain ⟨r, h3, k3⟩ := back_native (n := n) (m := l) (by omega) (own := false) (block := block) (q := true)
                nofun (fun _ => ⟨hret, hbrk⟩) hb hi (ih l (by omega)).2 (fun _ _ => rfl) e1 h
              rcases once_means h3 with ⟨v, rfl, h4 | h4⟩ | ⟨v, rfl, h4⟩
              · exact ⟨_, _, .callp h1 h2 hp h4, k3⟩
              · exact ⟨_, _, .callpNext h1 h2 hp h4, k3⟩
              · exact ⟨_, _, .callpRaise h1 h2 hp h4, k3⟩
      · exact ⟨_, _, .callpA h1 h2 hr, (k2.le (by omega)).abrupt hr fun e => (Bool.or_eq_false_iff.1 e).2⟩
    · exact ⟨_, _, .callpP h1 hr, k1.abrupt hr fun e => (Bool.or_eq_false_iff.1 e).1⟩
  | next a iha =>
    intro x block im use bottom hf hi keep rest st hs fs w out hst h
    rw [gen, List.append_assoc] at h
    obtain ⟨r, w1, h1, k1⟩ := iha x block im true _ hf.2 hi keep _ st hs fs w out hst h
    rcases r.cases with ⟨u, rfl⟩ | hr
    · exact ⟨_, _, .next h1, hf.1⟩
    · exact ⟨_, _, .nextA h1 hr, k1.abrupt hr id⟩
  | brk a iha =>
    intro x block im use bottom hf hi keep rest st hs fs w out hst h
    rw [gen, List.append_assoc] at h
    obtain ⟨r, w1, h1, k1⟩ := iha x block im true _ hf.2 hi keep _ st hs fs w out hst h
    rcases r.cases with ⟨u, rfl⟩ | hr
    · exact ⟨_, _, .brk h1, hf.1⟩
    · exact ⟨_, _, .brkA h1 hr, k1.abrupt hr id⟩
  | ret a iha =>
    intro x block im use bottom hf hi keep rest st hs fs w out hst h
    rw [gen, List.append_assoc] at h
    obtain ⟨r, w1, h1, k1⟩ := iha x block im true _ hf hi keep _ st hs fs w out hst h
    rcases r.cases with ⟨v, rfl⟩ | hr
    · refine ⟨_, _, .ret h1, ?_⟩
      rintro rfl -
      obtain ⟨l, hl, h⟩ := k1
      obtain ⟨l, rfl⟩ := run_succ h
      cases fs with
      | nil => exact (Option.some.inj h).symm
      | cons c fs => exact ⟨l, by omega, h⟩
    · exact ⟨_, _, .retA h1 hr, k1.abrupt hr id⟩
  | raise a iha =>
    intro x block im use bottom hf hi keep rest st hs fs w out hst h
    rw [gen, List.append_assoc] at h
    obtain ⟨r, w1, h1, k1⟩ := iha x block im true _ hf hi keep _ st hs fs w out hst h
    rcases r.cases with ⟨v, rfl⟩ | hr
    · obtain ⟨l, hl, h⟩ := k1
      obtain ⟨l, rfl⟩ := run_succ h
      exact ⟨_, _, .raise h1, l, by omega, _, _, h⟩
    · exact ⟨_, _, .raiseA h1 hr, k1.abrupt hr id⟩
  | rescue a f b iha ihb =>
    intro x block im use bottom hf hi keep rest st hs fs w out hst h
    obtain rfl := hst hf.1
    rw [gen] at h
    obtain ⟨l, rfl⟩ := run_succ h
    obtain ⟨r, w1, h1, k1⟩ := (ih l (by omega)).1 a x block im use true hf.2.1 hi keep (.endtry :: rest) []
      (((.take f :: gen block use b) ++ rest) :: hs) fs w out (fun _ => rfl) h
    cases r with
    | val v =>
      obtain ⟨m, hm, h⟩ := k1
      obtain ⟨m, rfl⟩ := run_succ h
      exact ⟨_, _, .body h1 fun _ => nofun, m, by omega, h⟩
    | next v => exact ⟨_, _, .body h1 fun _ => nofun, k1⟩
    | brk v => exact ⟨_, _, .body h1 fun _ => nofun, k1⟩
    | ret v =>
      exact ⟨_, _, .body h1 fun _ => nofun, fun hb hk => (k1 hb (hk.imp id fun e => (Bool.or_eq_false_iff.1 e).1)).le (by omega)⟩
    | raise v =>
      obtain ⟨m, hm, c, s, h⟩ := k1
      obtain ⟨m, rfl⟩ := throw_succ h
      obtain ⟨m', rfl⟩ := run_succ (f := ⟨(.take f :: gen block use b) ++ rest, [v], x, keep, im, hs⟩) h
      obtain ⟨r, w2, h2, k2⟩ := (ih m' (by omega)).1 b x block im use true hf.2.2 hi keep rest [] hs fs _ out (fun _ => rfl) h
      exact ⟨_, _, .rescued h1 h2, (k2.le (by omega)).weaken fun e => (Bool.or_eq_false_iff.1 e).2⟩

theorem back {P : Program W} (hP : P.Fine) (n : Nat) : (∀ e, Back P n e) ∧ BackIter P n := by
  induction n using Nat.strongRecOn with
  | _ n ih => exact ⟨back_expr hP ih, back_iter hP ih⟩

/-- The rules as a function, to find what they say of concrete programs; the first argument bounds the depth. -/
def eval (P : Program W) : Nat → Task W → W → Option (Exit × W)
  | 0, _, _ => none
  | n + 1, t, w =>
    match t with
    | .expr (.act f) x => some (.val (f x w).1, (f x w).2)
    | .expr (.bin g a b) x => match eval P n (.expr a x) w with
      | some (.val u, w1) => match eval P n (.expr b x) w1 with
        | some (.val v, w2) => some (.val (g u v), w2)
        | r => r
      | r => r
    | .expr (.seq a b) x => match eval P n (.expr a x) w with
      | some (.val _, w1) => eval P n (.expr b x) w1
      | r => r
    | .expr (.ite c a b) x => match eval P n (.expr c x) w with
      | some (.val u, w1) => eval P n (.expr (if u.truthy then a else b) x) w1
      | r => r
    | .expr (.send m a) x => match eval P n (.expr a x) w with
      | some (.val u, w1) => match P.methods[m]? with
        | none => none
        | some e => match eval P n (.expr e u) w1 with
          | some (.val v, w2) => some (.val v, w2)
          | some (.ret v, w2) => some (.val v, w2)
          | some (.raise v, w2) => some (.raise v, w2)
          | _ => none
      | r => r
    | .expr (.native k a b) x => match eval P n (.expr a x) w with
      | some (.val u, w1) => eval P n (.iter k u b true []) w1
      | r => r
    | .expr (.mkproc i) _ => some (.val (.proc i false), w)
    | .expr (.mklambda i) _ => some (.val (.proc i true), w)
    | .expr (.callp p a) x => match eval P n (.expr p x) w with
      | some (.val (.proc i l), w1) => match eval P n (.expr a x) w1 with
        | some (.val u, w2) => match P.procs[i]? with
          | none => none
          | some b => match eval P n (.expr b u) w2 with
            | some (.val v, w3) => some (.val v, w3)
            | some (.next v, w3) => some (.val v, w3)
            | some (.ret v, w3) => if l then some (.val v, w3) else none
            | some (.raise v, w3) => some (.raise v, w3)
            | _ => none
        | _ => none
      | _ => none
    | .expr (.next a) x => match eval P n (.expr a x) w with
      | some (.val v, w1) => some (.next v, w1)
      | r => r
    | .expr (.brk a) x => match eval P n (.expr a x) w with
      | some (.val v, w1) => some (.brk v, w1)
      | r => r
    | .expr (.raise a) x => match eval P n (.expr a x) w with
      | some (.val v, w1) => some (.raise v, w1)
      | r => r
    | .expr (.rescue a f h) x => match eval P n (.expr a x) w with
      | some (.raise v, w1) => eval P n (.expr h x) (f v w1)
      | r => r
    | .expr (.ret a) x => match eval P n (.expr a x) w with
      | some (.val v, w1) => some (.ret v, w1)
      | r => r
    | .expr (.nativep k a p) x => match eval P n (.expr a x) w with
      | some (.val u, w1) => match eval P n (.expr p x) w1 with
        | some (.val (.proc i _), w2) => match P.procs[i]? with
          | none => none
          | some b => eval P n (.iter k u b false []) w2
        | _ => none
      | _ => none
    | .iter k x b o vs => match k x vs w with
      | (.done v, w1) => some (.val v, w1)
      | (.raise v, w1) => some (.raise v, w1)
      | (.block y, w1) => match eval P n (.expr b y) w1 with
        | some (.val v, w2) => eval P n (.iter k x b o (vs ++ [v])) w2
        | some (.next v, w2) => eval P n (.iter k x b o (vs ++ [v])) w2
        | some (.brk v, w2) => if o then some (.val v, w2) else none
        | some (.ret v, w2) => if o then some (.ret v, w2) else none
        | some (.raise v, w2) => some (.raise v, w2)
        | none => none
      | (.method m y, w1) => match P.methods[m]? with
        | none => none
        | some e => match eval P n (.expr e y) w1 with
          | some (.val v, w2) => eval P n (.iter k x b o (vs ++ [v])) w2
          | some (.ret v, w2) => eval P n (.iter k x b o (vs ++ [v])) w2
          | some (.raise v, w2) => some (.raise v, w2)
          | _ => none

theorem notRaise {r : Option (Exit × W)} {q : Exit} {w' : W} (h : r = some (q, w')) (hn : ∀ v w, r = some (.raise v, w) → False) :
    ∀ v, q ≠ .raise v := fun v e => hn v w' (e ▸ h)

theorem notVal {r : Option (Exit × W)} {q : Exit} {w' : W} (h : r = some (q, w')) (hn : ∀ v w, r = some (.val v, w) → False) :
    ∀ v, q ≠ .val v := fun v e => hn v w' (e ▸ h)

theorem eval_means {P : Program W} {n : Nat} : ∀ {t : Task W} {w r w'}, eval P n t w = some (r, w') → Means P t w r w' := by
  induction n with
  | zero => intro t w r w' h; simp [eval] at h
  | succ n ih =>
    intro t w r w' h
    rw [eval.eq_def] at h
    dsimp only at h
    split at h
    · cases h; exact .act
    · split at h
      · rename_i e1
        split at h
        · rename_i e2; cases h; exact .bin (ih e1) (ih e2)
        · rename_i e2; exact .binR (ih e1) (ih h) (notVal h e2)
      · rename_i e1; exact .binL (ih h) (notVal h e1)
    · split at h
      · rename_i e1; exact .seq (ih e1) (ih h)
      · rename_i e1; exact .seqL (ih h) (notVal h e1)
    · split at h
      · rename_i e1; exact .ite (ih e1) (ih h)
      · rename_i e1; exact .iteC (ih h) (notVal h e1)
    · split at h
      · rename_i e1
        split at h
        · cases h
        · rename_i hm
          split at h
          · rename_i e2; cases h; exact .send (ih e1) hm (ih e2)
          · rename_i e2; cases h; exact .sendRet (ih e1) hm (ih e2)
          · rename_i e2; cases h; exact .sendRaise (ih e1) hm (ih e2)
          · cases h
      · rename_i e1; exact .sendA (ih h) (notVal h e1)
    · split at h
      · rename_i e1; exact .native (ih e1) (ih h)
      · rename_i e1; exact .nativeA (ih h) (notVal h e1)
    · cases h; exact .mkproc
    · cases h; exact .mklambda
    · split at h
      · rename_i e1
        split at h
        · rename_i e2
          split at h
          · cases h
          · rename_i hp
            split at h
            · rename_i e3; cases h; exact .callp (ih e1) (ih e2) hp (ih e3)
            · rename_i e3; cases h; exact .callpNext (ih e1) (ih e2) hp (ih e3)
            · rename_i e3
              split at h
              · rename_i hl; cases h; subst hl; exact .callpRet (ih e1) (ih e2) hp (ih e3)
              · cases h
            · rename_i e3; cases h; exact .callpRaise (ih e1) (ih e2) hp (ih e3)
            · cases h
        · cases h
      · cases h
    · split at h
      · rename_i e1; cases h; exact .next (ih e1)
      · rename_i e1; exact .nextA (ih h) (notVal h e1)
    · split at h
      · rename_i e1; cases h; exact .brk (ih e1)
      · rename_i e1; exact .brkA (ih h) (notVal h e1)
    · split at h
      · rename_i e1; cases h; exact .raise (ih e1)
      · rename_i e1; exact .raiseA (ih h) (notVal h e1)
    · split at h
      · rename_i e1; exact .rescued (ih e1) (ih h)
      · rename_i e1; exact .body (ih h) (notRaise h e1)
    · split at h
      · rename_i e1; cases h; exact .ret (ih e1)
      · rename_i e1; exact .retA (ih h) (notVal h e1)
    · split at h
      · rename_i e1
        split at h
        · rename_i e2
          split at h
          · cases h
          · rename_i hp; exact .nativep (ih e1) (ih e2) hp (ih h)
        · cases h
      · cases h
    · split at h
      · rename_i e1; cases h; exact .done e1
      · rename_i e1; cases h; exact .builtinRaise e1
      · rename_i e1
        split at h
        · rename_i e2; exact .block e1 (ih e2) (ih h)
        · rename_i e2; exact .blockNext e1 (ih e2) (ih h)
        · rename_i e2
          split at h
          · rename_i ho; cases h; subst ho; exact .blockBrk e1 (ih e2)
          · cases h
        · rename_i e2
          split at h
          · rename_i ho; cases h; subst ho; exact .blockRet e1 (ih e2)
          · cases h
        · rename_i e2; cases h; exact .blockRaise e1 (ih e2)
        · cases h
      · rename_i e1
        split at h
        · cases h
        · rename_i hm
          split at h
          · rename_i e2; exact .method e1 hm (ih e2) (ih h)
          · rename_i e2; exact .methodRet e1 hm (ih e2) (ih h)
          · rename_i e2; cases h; exact .methodRaise e1 hm (ih e2)
          · cases h

end

/-! ## C115 -/
section
variable {W : Type}

/-- **C115**, **C42** (partly).  What the interpreter ends with is what the program means, and the other way round: it ends with
the value `v` and the world `w'` exactly if the meaning of the method is this value and this world; it ends with the exception `v`
exactly if the meaning is that this exception leaves the method; it ends in no other way.  So it goes on for ever exactly if the
rules give the method no meaning.  (An exception that a rescue clause around it takes, however many blocks, builtin methods and
methods are between them, is part of the meaning.)
Missing: ensure clauses, and the programs that are not `Fine`, see the theorems below. -/
theorem C115_leave_partial {P : Program W} (hP : P.Fine) {m : Nat} {x : Val} {w w' : W} :
    (∀ v, (∃ n, run P.image n (P.image.frame m x) [] w = some (.ok v, w')) ↔ Gives P m x w v w') ∧
    (∀ v, (∃ n, run P.image n (P.image.frame m x) [] w = some (.raise v, w')) ↔ Raises P m x w v w') ∧
    ∀ n o, run P.image n (P.image.frame m x) [] w = some (o, w') → (∃ v, o = .ok v) ∨ ∃ v, o = .raise v := by
  have g1 : ∀ v, Gives P m x w v w' → ∃ n, run P.image n (P.image.frame m x) [] w = some (.ok v, w') := by
    rintro v ⟨e, hm, h⟩
    have := method_ends hP hm (keep := true) (fs := []) (.inl rfl) (h.imp (sim hP) (sim hP)) rfl
    rwa [Image.frame, method_code hm]
  have g2 : ∀ v, Raises P m x w v w' → ∃ n, run P.image n (P.image.frame m x) [] w = some (.raise v, w') := by
    rintro v ⟨e, hm, h⟩
    rw [Image.frame, method_code hm]
    exact (sim hP h).2.2 false true true true (hP.methods _ (List.mem_of_getElem? hm)) (fun _ => rfl) true [.ret] [] [] []
      (fun _ => rfl) _ rfl
  have g3 : ∀ n o, run P.image n (P.image.frame m x) [] w = some (o, w') →
      (∃ v, o = .ok v ∧ Gives P m x w v w') ∨ ∃ v, o = .raise v ∧ Raises P m x w v w' := by
    intro n o h
    cases hm : P.methods[m]? with
    | none =>
      obtain ⟨n, rfl⟩ := run_succ h
      simp [Image.frame, Program.image, hm, run] at h
    | some e =>
      rw [Image.frame, method_code hm] at h
      have hf := hP.methods _ (List.mem_of_getElem? hm)
      obtain ⟨r, w1, h1, hnb⟩ := own_loop (block := false) ((back hP n).1 e) (fun _ => rfl) hf h
      cases r with
      | val v =>
        cases ends_unique ⟨n, h⟩ (method_ends hP hm (keep := true) (fs := []) (.inl rfl) (.inl (sim hP h1)) rfl)
        exact .inl ⟨v, rfl, e, hm, .inl h1⟩
      | ret v =>
        cases ends_unique ⟨n, h⟩ (method_ends hP hm (keep := true) (fs := []) (.inl rfl) (.inr (sim hP h1)) rfl)
        exact .inl ⟨v, rfl, e, hm, .inr h1⟩
      | next v => exact absurd rfl ((hnb rfl).1 v)
      | brk v => exact absurd rfl ((hnb rfl).2 v)
      | raise v =>
        cases ends_unique ⟨n, h⟩ ((sim hP h1).2.2 false true true true hf (fun _ => rfl) true [.ret] [] [] [] (fun _ => rfl) _ rfl)
        exact .inr ⟨v, rfl, e, hm, h1⟩
  refine ⟨fun v => ⟨?_, g1 v⟩, fun v => ⟨?_, g2 v⟩, fun n o h => ?_⟩
  · rintro ⟨n, h⟩
    rcases g3 n _ h with ⟨_, e, h⟩ | ⟨_, e, -⟩
    · cases e; exact h
    · cases e
  · rintro ⟨n, h⟩
    rcases g3 n _ h with ⟨_, e, -⟩ | ⟨_, e, h⟩
    · cases e
    · cases e; exact h
  · exact (g3 n o h).imp (fun ⟨v, e, _⟩ => ⟨v, e⟩) fun ⟨v, e, _⟩ => ⟨v, e⟩

/-- **C42** (partly).  An exception that nothing in the method takes, wherever in blocks, builtin methods and methods it is raised,
is what the interpreter ends with.
Missing: as for `C115_leave_partial`. -/
theorem C42_through_blocks_partial {P : Program W} (hP : P.Fine) {m : Nat} {x v : Val} {w w' : W} (h : Raises P m x w v w') :
    (∃ n, run P.image n (P.image.frame m x) [] w = some (.raise v, w')) ∧
    ∀ n r, run P.image n (P.image.frame m x) [] w = some r → r = (.raise v, w') := by
  have g := ((C115_leave_partial hP).2.1 v).2 h
  exact ⟨g, fun n r hr => ends_unique ⟨n, hr⟩ g⟩

/-- **C115**.  The rules do not contradict each other on the programs of the theorem. -/
theorem C115_one_meaning {P : Program W} (hP : P.Fine) {m : Nat} {x v v' : Val} {w w1 w2 : W} (h : Gives P m x w v w1)
    (h' : Gives P m x w v' w2) : v = v' ∧ w1 = w2 := by
  cases ends_unique (((C115_leave_partial hP).1 v).2 h) (((C115_leave_partial hP).1 v').2 h')
  exact ⟨rfl, rfl⟩

/-- **C115**.  … also where one of them says that the method is left by an exception. -/
theorem C115_value_or_exception {P : Program W} (hP : P.Fine) {m : Nat} {x v v' : Val} {w w1 w2 : W} (h : Gives P m x w v w1) :
    ¬ Raises P m x w v' w2 := by
  intro h'
  cases ends_unique (((C115_leave_partial hP).1 v).2 h) (((C115_leave_partial hP).2.1 v').2 h')

/-! ### Programs -/

/-- A value. -/
def lit (i : Int) : Expr (List Int) := .act fun _ w => (.int i, w)

/-- The argument. -/
def arg : Expr (List Int) := .act fun x w => (x, w)

/-- `p x` with the argument. -/
def say : Expr (List Int) := .act fun x w => (x, match x with | .int i => w ++ [i] | .proc _ _ => w)

def add : Val → Val → Val
  | .int i, .int j => .int (i + j)
  | v, _ => v

/-- Whether the argument is `i`. -/
def is (i : Int) : Expr (List Int) := .act fun x w => (.int (if x = .int i then 1 else 0), w)

/-- `n.times`, counting from 1. -/
def times : Builtin (List Int) := fun x vs w =>
  match x with
  | .int n => if vs.length < n then (.block (.int (vs.length + 1)), w) else (.done x, w)
  | .proc _ _ => (.raise (.int 60), w)

/-- Calls method 1 with 4 and then runs the block with what it gave. -/
def ask : Builtin (List Int) := fun _ vs w =>
  match vs with
  | [] => (.method 1 (.int 4), w)
  | [v] => (.block v, w)
  | _ :: v :: _ => (.done v, w)

/-- `def f(x); 5.times { |i| 3.times { |j| if j == 2; break 6; end; p j }; if i == 3; return 7; end; next 9 }; 8; end`,
`def g(x); h { |y| p y }; f(0) + f(0); end` and `def h(x); 2.times { return x }; end`, where the builtin method calls `h`. -/
def nested : Program (List Int) :=
  ⟨[.seq (.native times (lit 5) (.seq (.native times (lit 3) (.seq (.ite (is 2) (.brk (lit 6)) arg) say))
      (.seq (.ite (is 3) (.ret (lit 7)) (lit 0)) (.next (lit 9))))) (lit 8),
    .native times (lit 2) (.ret (lit 4)),
    .seq (.native ask (lit 0) say) (.bin add (.send 0 (lit 0)) (.send 0 (lit 0)))], []⟩

/-- The hypotheses of `C115_leave_partial` are met: `break` ends the inner loop each time, `return` the outer one. -/
example : nested.Fine ∧ Gives nested 2 (.int 0) [] (.int 14) [4, 1, 1, 1, 1, 1, 1] := by
  refine ⟨⟨?_, nofun⟩, _, rfl, .inl (eval_means (n := 40) rfl)⟩
  intro e he
  simp only [nested, List.mem_cons, List.not_mem_nil, or_false] at he
  rcases he with rfl | rfl | rfl <;> simp [Expr.Fine, lit, arg, say, is]

/-- A `Proc` object with `next`, called and given to a builtin method. -/
def passed : Program (List Int) :=
  ⟨[.bin add (.callp (.mkproc 0) (lit 3)) (.nativep times (lit 2) (.mkproc 0))], [.seq say (.seq (.next (lit 5)) say)]⟩

example : passed.Fine ∧ Gives passed 0 (.int 0) [] (.int 7) [3, 1, 2] := by
  refine ⟨⟨?_, ?_⟩, _, rfl, .inl (eval_means (n := 40) rfl)⟩
  · intro e he
    simp only [passed, List.mem_cons, List.not_mem_nil, or_false] at he
    subst he
    simp [Expr.Fine, lit]
  · intro e he
    simp only [passed, List.mem_cons, List.not_mem_nil, or_false] at he
    subst he
    simp [Expr.Fine, Expr.returns, Expr.breaks, lit, say]

/-- `def f(x); 2.times { |i| p i; ask { |y| p y; raise 30 } }; end`, `def k(x); if x == 4; 5; else raise 40; end; end` (which `ask` calls with 4),
`def g(x); 2.times { |i| begin; p i; f(0); 1; rescue => e; p e; end }; begin; 3; rescue => e; p e; end; raise 50; end`: both times
`g` takes the exception that leaves the two blocks, the builtin methods and `f`, and then is left by the last one. -/
def rescues : Program (List Int) :=
  let store : Val → List Int → List Int := fun v w => match v with | .int i => w ++ [i] | .proc _ _ => w
  ⟨[.native times (lit 2) (.seq say (.native ask (lit 0) (.seq say (.raise (lit 30))))),
    .ite (is 4) (lit 5) (.raise (lit 40)),
    .seq (.native times (lit 2) (.rescue (.seq say (.seq (.send 0 (lit 0)) (lit 1))) store (lit 2)))
      (.seq (.rescue (lit 3) store (lit 4)) (.raise (lit 50)))], []⟩

/-- The hypotheses of `C42_through_blocks_partial` are met. -/
example : rescues.Fine ∧ Raises rescues 2 (.int 0) [] (.int 50) [1, 1, 5, 30, 2, 1, 5, 30] := by
  refine ⟨⟨?_, nofun⟩, _, rfl, eval_means (n := 40) rfl⟩
  intro e he
  simp only [rescues, List.mem_cons, List.not_mem_nil, or_false] at he
  rcases he with rfl | rfl | rfl <;> simp [Expr.Fine, Expr.blockReturns, Expr.returns, rescues, lit, say, is]

/-- `def f; 1.times { return 10 }; end; def g; 1 + (f; 2); end`. -/
def unused : Program (List Int) :=
  ⟨[.native times (lit 1) (.ret (lit 10)), .bin add (lit 1) (.seq (.send 0 (lit 0)) (lit 2))], []⟩

/-- **C115** (violated: a call whose value is not used).  The value of `f` is left among the operands of `g`, and is taken for the
left operand of `+`: 12 instead of 3. -/
theorem C115_unused_call_fails : Gives unused 1 (.int 0) [] (.int 3) [] ∧
    run unused.image 30 (unused.image.frame 1 (.int 0)) [] [] = some (.ok (.int 12), []) :=
  ⟨⟨_, rfl, .inl (eval_means (n := 20) rfl)⟩, rfl⟩

/-- `def f; lambda { return 1 }.call; 2; end`. -/
def lambdas : Program (List Int) := ⟨[.seq (.callp (.mklambda 0) (lit 0)) (lit 2)], [.ret (lit 1)]⟩

/-- **C115** (violated: `return` in a lambda).  The method that called the lambda is left: 1 instead of 2.  (A debug build stops
with an assertion, `opt_core.rs:154`.) -/
theorem C115_lambda_return_fails : Gives lambdas 0 (.int 0) [] (.int 2) [] ∧
    run lambdas.image 30 (lambdas.image.frame 0 (.int 0)) [] [] = some (.ok (.int 1), []) :=
  ⟨⟨_, rfl, .inl (eval_means (n := 20) rfl)⟩, rfl⟩

/-- `def m(q); q.call; p 5; 6; end; def g; m(proc { return 1 }); 2; end`. -/
def procs : Program (List Int) :=
  ⟨[.seq (.callp arg (lit 0)) (.seq (.act fun x w => (x, w ++ [5])) (lit 6)), .seq (.send 0 (.mkproc 0)) (lit 2)], [.ret (lit 1)]⟩

/-- **C115** (violated: `return` in a `proc`).  In Ruby, `return` ends `g`, where the block is written, with 1; here it ends `m`, where
it is called, and the value of `g` is 2. -/
theorem C115_proc_return_fails :
    run procs.image 30 (procs.image.frame 1 (.int 0)) [] [] = some (.ok (.int 2), []) := rfl

/-- `def m(&b); 3.times(&b); p 5; 6; end; def g; m { break 1 }; end`. -/
def passedOn : Program (List Int) :=
  ⟨[.seq (.nativep times (lit 3) arg) (.seq (.act fun x w => (x, w ++ [5])) (lit 6)), .send 0 (.mkproc 0)], [.brk (lit 1)]⟩

/-- **C115** (violated: `break` in a block that a method passes on).  In Ruby, `break` ends the call of `m`: the value is 1 and nothing
is printed.  Here it ends `times`, 5 is printed and the value is 6. -/
theorem C115_passed_on_break_fails :
    run passedOn.image 30 (passedOn.image.frame 1 (.int 0)) [] [] = some (.ok (.int 6), [5]) := rfl

end
end Verif.Blocks.Leave
