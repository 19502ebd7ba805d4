/-! # C94: ways to call a method

Direct calls, `send`, Method and UnboundMethod objects, symbols as blocks, `method_missing` and `respond_to?`.  The stack is
modelled word by word, as the arguments are passed on by copying parts of it.  What is left out: the search for a method (C35,
C36; here a parameter), and how the method that is run takes its arguments (C38). -/
namespace Verif.Dispatch

abbrev Name := Nat
abbrev Fid := Nat
abbrev Cls := Nat

/-! ## Model -/

/-- Values, as far as the functions below tell them apart; `str n`: a string that spells the name `n`; `word`: a word of a frame on
the stack; `method`, `unbound`: the objects of builtin/method.rs and builtin/unbound_method.rs (value/method.rs:5-26). -/
inductive Val
  | nil
  | bool (b : Bool)
  | sym (n : Name)
  | str (n : Name)
  | obj (n : Nat)
  | word
  | method (name : Name) (receiver : Val) (fid : Fid) (owner : Cls)
  | unbound (name : Name) (fid : Fid) (owner : Cls)
  deriving DecidableEq

/-- `Block` (vm/args.rs): a block in the source, a Proc object, a symbol. -/
inductive Block
  | block (n : Nat)
  | proc (n : Nat)
  | sym (n : Name)
  deriving DecidableEq

/-- `Args2` (vm/args.rs:81-86). -/
structure Args2 where
  block : Option Block
  kw : Val
  len : Nat
  deriving DecidableEq

/-- `Args2::new` (vm/args.rs:90-96). -/
def Args2.new (len : Nat) : Args2 := ⟨none, .nil, len⟩

/-- `Args2::new_with_block` (vm/args.rs:99-105). -/
def Args2.newWithBlock (len : Nat) (b : Option Block) : Args2 := ⟨b, .nil, len⟩

/-- The builtin methods that are modelled here. -/
inductive Prim
  | send
  | method
  | respondTo
  | call
  | unbind
  | bind
  | bindCall
  | methodMissing
  deriving DecidableEq

/-- `IdentId::_METHOD_MISSING`. -/
def nMissing : Name := 0

/-- The classes of a program at some time: the method that is found for a receiver and a name (globals.rs:182-190), the class or
module it was found in, and which methods are the builtin ones. -/
structure World where
  find : Val → Name → Option Fid
  owner : Val → Name → Cls
  prim : Fid → Option Prim

/-- A method is run. -/
structure Call where
  fid : Fid
  me : Val
  args : List Val
  block : Option Block
  kw : Val
  deriving DecidableEq

/-- What comes of a call; the methods other than `Prim` are not looked into.  `panic`: the program aborts. -/
inductive Out
  | runs (c : Call)
  | value (v : Val)
  | nameError
  | noMethodError
  | argumentError
  | typeError
  | panic
  deriving DecidableEq

/-- `invoke_method` is about to be called: the stack, with its top at the end. -/
structure Conf where
  stack : List Val
  fid : Fid
  args : Args2

inductive Next
  | out (o : Out)
  | go (c : Conf)

/-- `(self.sp() - len - 1)[0]`; `none`: below the stack. -/
def receiver (st : List Val) (len : Nat) : Option Val := if len < st.length then st[st.length - len - 1]? else none

/-- The `len` words at the top. -/
def top (st : List Val) (len : Nat) : List Val := st.drop (st.length - len)

/-- `eval_method_range` (vm/executor/method.rs:284-296). -/
def evalMethodRange (frame : List Val) (fid : Fid) (me : Val) (src len : Nat) (args : Args2) : Next :=
  .go ⟨frame ++ me :: (frame.drop src).take len, fid, args⟩

/-- The builtin methods.  `frame`: the stack with the native frame; `lfp`: where the arguments begin; `me`: the receiver. -/
def native (w : World) (frame : List Val) (lfp : Nat) (me : Val) (args : Args2) : Prim → Next
  /- `send` (builtin/object.rs:183-197) -/
  | .send =>
    if args.len < 1 then .out .argumentError else
    match frame[lfp]? with
    | some (.sym m) => match w.find me m with
      | some fid => evalMethodRange frame fid me (lfp + 1) (args.len - 1) (.newWithBlock (args.len - 1) args.block)
      | none => .out .noMethodError
    | some _ => .out .argumentError
    | none => .out .panic
  /- `method` (builtin/object.rs:110-129) -/
  | .method =>
    if args.len ≠ 1 then .out .argumentError else
    match frame[lfp]? with
    | some (.sym m) => match w.find me m with
      | some fid => .out (.value (.method m me fid (w.owner me m)))
      | none => .out .nameError
    | some _ => .out .typeError
    | none => .out .panic
  /- `respond_to?` (builtin/object.rs:270-281) -/
  | .respondTo =>
    if args.len < 1 ∨ 2 < args.len then .out .argumentError else
    match frame[lfp]? with
    | some (.sym m) => .out (.value (.bool (w.find me m).isSome))
    | some (.str m) => .out (.value (.bool (w.find me m).isSome))
    | some _ => .out .typeError
    | none => .out .panic
  /- `call` (builtin/method.rs:13-18) -/
  | .call => match me with
    | .method _ r fid _ => evalMethodRange frame fid r lfp args.len args
    | _ => .out .panic
  /- `unbind` (builtin/method.rs:20-25) -/
  | .unbind =>
    if args.len ≠ 0 then .out .argumentError else
    match me with
    | .method n _ fid c => .out (.value (.unbound n fid c))
    | _ => .out .panic
  /- `bind` (builtin/unbound_method.rs:14-19) -/
  | .bind =>
    if args.len ≠ 1 then .out .argumentError else
    match me, frame[lfp]? with
    | .unbound n fid c, some r => .out (.value (.method n r fid c))
    | _, _ => .out .panic
  /- `bind_call` (builtin/unbound_method.rs:21-30) -/
  | .bindCall =>
    if args.len < 1 then .out .argumentError else
    match me, frame[lfp]? with
    | .unbound _ fid _, some r => evalMethodRange frame fid r (lfp + 1) (args.len - 1) (.new (args.len - 1))
    | _, _ => .out .panic
  /- `method_missing` (builtin/basicobject.rs:42-63); `vm.self_value()` is the word below the arguments -/
  | .methodMissing =>
    if args.len < 1 then .out .argumentError else
    match frame[lfp]? with
    | some (.sym _) => if frame[lfp - 1]? = some me then .out .nameError else .out .noMethodError
    | some _ => .out .argumentError
    | none => .out .panic

/-- `invoke_method`, `exec_native`, `push_native_frame` (vm/executor/method.rs:487-570, vm/executor/frame.rs:620-632): the receiver
and the three words of a control frame (vm/executor/frame.rs:685-687) are pushed. -/
def step (w : World) (c : Conf) : Next :=
  match receiver c.stack c.args.len with
  | none => .out .panic
  | some me => match w.prim c.fid with
    | none => .out (.runs ⟨c.fid, me, top c.stack c.args.len, c.args.block, c.args.kw⟩)
    | some p => native w (c.stack ++ [me, .word, .word, .word]) (c.stack.length - c.args.len) me c.args p

/-- `invoke_method_missing` (vm/executor/method.rs:357-387); `caller`: `self` where the call is. -/
def invokeMethodMissing (w : World) (caller : Val) (st : List Val) (m : Name) (args : Args2) : Next :=
  match receiver st args.len with
  | none => .out .panic
  | some r => match w.find r nMissing with
    | some fid => .go ⟨st.take (st.length - args.len) ++ .sym m :: top st args.len, fid, .new (args.len + 1)⟩
    | none => if r = caller then .out .nameError else .out .noMethodError

/-- `send` and `invoke_send` (vm/executor/opt_core.rs:727-746, vm/executor/method.rs:418-429), for a receiver on the stack. -/
def sendTo (w : World) (caller : Val) (st : List Val) (m : Name) (args : Args2) : Next :=
  match receiver st args.len with
  | none => .out .panic
  | some r => match w.find r m with
    | some fid => .go ⟨st, fid, args⟩
    | none => invokeMethodMissing w caller st m args

/-- `invoke_sym_proc` (vm/executor/method.rs:447-456), for `yield` and `eval_block` when the block is a symbol. -/
def invokeSymProc (w : World) (caller : Val) (st : List Val) (m : Name) (args : Args2) : Next :=
  if args.len = 0 then .out .argumentError else sendTo w caller st m { args with len := args.len - 1 }

/-- The code of `Symbol#to_proc` (codegen.rs:50-77), run with the arguments `as`: a missing argument is nil. -/
def symToProc (w : World) (caller : Val) (st : List Val) (m : Name) (as : List Val) : Next :=
  sendTo w caller (st ++ [as.head?.getD .nil]) m (.new 0)

/-- `eval_block_map1` (vm/executor/method.rs:197-216) for a symbol as block and one value. -/
def blockMap1 (w : World) (caller : Val) (st : List Val) (m : Name) (v : Val) : Next := sendTo w caller (st ++ [v]) m (.new 0)

/-- `eval_block_each1_iter`, `eval_block_map1_iter` (vm/executor/method.rs:83-195) for a symbol as block: `unimplemented!`. -/
def blockEach1Iter : Next := .out .panic

/-! ## Specification -/

/-- What comes of a call in the end. -/
inductive Ends (w : World) : Next → Out → Prop
  | out (o : Out) : Ends w (.out o) o
  | go {c : Conf} {o : Out} : Ends w (step w c) o → Ends w (.go c) o

/-- The call `x.m(as…)` with a block and keywords; `rest` is what is on the stack below. -/
def call (w : World) (caller : Val) (rest : List Val) (x : Val) (m : Name) (as : List Val) (b : Option Block) (kw : Val) : Next :=
  sendTo w caller (rest ++ x :: as) m ⟨b, kw, as.length⟩

/-- The method `n` of `x` is the builtin method `p`. -/
def Is (w : World) (x : Val) (n : Name) (p : Prim) : Prop := ∃ f, w.find x n = some f ∧ w.prim f = some p

/-! ## Helpers -/

theorem receiver_at (rest : List Val) (x : Val) (as : List Val) : receiver (rest ++ x :: as) as.length = some x := by
  have h : as.length < (rest ++ x :: as).length := by simp; omega
  rw [receiver, if_pos h]
  have : (rest ++ x :: as).length - as.length - 1 = rest.length := by simp; omega
  rw [this]; simp

theorem top_at (rest : List Val) (x : Val) (as : List Val) : top (rest ++ x :: as) as.length = as := by
  have : (rest ++ x :: as).length - as.length = (rest ++ [x]).length := by simp; omega
  rw [top, this]
  have e : rest ++ x :: as = (rest ++ [x]) ++ as := by simp
  rw [e, List.drop_left]

theorem lfp_at (rest : List Val) (x : Val) (as : List Val) : (rest ++ x :: as).length - as.length = (rest ++ [x]).length := by
  simp; omega

theorem Ends.unique {w : World} {n : Next} {o o' : Out} (h : Ends w n o) (h' : Ends w n o') : o = o' := by
  induction h with
  | out => cases h'; rfl
  | go _ ih => cases h' with | go h' => exact ih h'

theorem ends_out {w : World} {o o' : Out} : Ends w (.out o) o' ↔ o' = o := ⟨fun h => by cases h; rfl, fun h => h ▸ .out _⟩

theorem ends_go {w : World} {c : Conf} {o : Out} : Ends w (.go c) o ↔ Ends w (step w c) o :=
  ⟨fun h => by cases h with | go h => exact h, .go⟩

/-- The frame of a builtin method. -/
def frame (rest : List Val) (x : Val) (as : List Val) : List Val := rest ++ x :: as ++ [x, .word, .word, .word]

theorem step_at (w : World) (rest : List Val) (x : Val) (as : List Val) (f : Fid) (b : Option Block) (kw : Val) :
    step w ⟨rest ++ x :: as, f, ⟨b, kw, as.length⟩⟩ = match w.prim f with
      | none => .out (.runs ⟨f, x, as, b, kw⟩)
      | some p => native w (frame rest x as) (rest ++ [x]).length x ⟨b, kw, as.length⟩ p := by
  rw [step]
  dsimp only
  rw [receiver_at, top_at, lfp_at]
  rfl

theorem frame_lfp (rest : List Val) (x y : Val) (as : List Val) : (frame rest x (y :: as))[(rest ++ [x]).length]? = some y := by
  have : frame rest x (y :: as) = (rest ++ [x]) ++ (y :: as ++ [x, .word, .word, .word]) := by simp [frame]
  rw [this]; simp

theorem frame_below (rest : List Val) (x : Val) (as : List Val) : (frame rest x as)[(rest ++ [x]).length - 1]? = some x := by
  simp [frame]

theorem frame_args (rest : List Val) (x : Val) (as : List Val) : ((frame rest x as).drop (rest ++ [x]).length).take as.length = as := by
  have : frame rest x as = (rest ++ [x]) ++ (as ++ [x, .word, .word, .word]) := by simp [frame]
  rw [this, List.drop_left, List.take_left]

theorem frame_args1 (rest : List Val) (x y : Val) (as : List Val) :
    ((frame rest x (y :: as)).drop ((rest ++ [x]).length + 1)).take as.length = as := by
  have : frame rest x (y :: as) = (rest ++ [x, y]) ++ (as ++ [x, .word, .word, .word]) := by simp [frame]
  have e : (rest ++ [x]).length + 1 = (rest ++ [x, y]).length := by simp
  rw [this, e, List.drop_left, List.take_left]

/-- The size of a value: a method object contains its receiver. -/
def Val.size : Val → Nat
  | .method _ r _ _ => r.size + 1
  | _ => 1

def sizes (l : List Val) : Nat := (l.map Val.size).sum

/-- Does a builtin method go on to another one, and with what. -/
def passes (w : World) (x : Val) (as : List Val) (b : Option Block) (kw : Val) : Prim → Option (Fid × Val × List Val × Option Block × Val)
  | .send => match as with
    | .sym m :: as => match w.find x m with
      | some f => some (f, x, as, b, .nil)
      | none => none
    | _ => none
  | .call => match x with
    | .method _ r f _ => some (f, r, as, b, kw)
    | _ => none
  | .bindCall => match x, as with
    | .unbound _ f _, r :: as => some (f, r, as, none, .nil)
    | _, _ => none
  | _ => none

/-- … and if not, what is its outcome. -/
def gives (w : World) (x : Val) (as : List Val) : Prim → Out
  | .send => match as with
    | [] => .argumentError
    | .sym _ :: _ => .noMethodError
    | _ => .argumentError
  | .method => match as with
    | [.sym m] => match w.find x m with
      | some f => .value (.method m x f (w.owner x m))
      | none => .nameError
    | [_] => .typeError
    | _ => .argumentError
  | .respondTo => match as with
    | .sym m :: as => if as.length ≤ 1 then .value (.bool (w.find x m).isSome) else .argumentError
    | .str m :: as => if as.length ≤ 1 then .value (.bool (w.find x m).isSome) else .argumentError
    | _ :: as => if as.length ≤ 1 then .typeError else .argumentError
    | [] => .argumentError
  | .call => .panic
  | .unbind => match as, x with
    | [], .method n _ f c => .value (.unbound n f c)
    | [], _ => .panic
    | _, _ => .argumentError
  | .bind => match as, x with
    | [r], .unbound n f c => .value (.method n r f c)
    | [_], _ => .panic
    | _, _ => .argumentError
  | .bindCall => if as = [] then .argumentError else .panic
  | .methodMissing => match as with
    | .sym _ :: _ => .nameError
    | _ => .argumentError

theorem native_at (w : World) (rest : List Val) (x : Val) (as : List Val) (b : Option Block) (kw : Val) (p : Prim) :
    native w (frame rest x as) (rest ++ [x]).length x ⟨b, kw, as.length⟩ p = match passes w x as b kw p with
      | some (f, r, as', b', kw') => .go ⟨frame rest x as ++ r :: as', f, ⟨b', kw', as'.length⟩⟩
      | none => .out (gives w x as p) := by
  cases p with
  | send =>
    rcases as with _ | ⟨y, as⟩
    · simp [native, passes, gives]
    · rw [native, if_neg (by simp), frame_lfp]
      cases y with
      | sym m =>
        dsimp only [passes, gives]
        cases w.find x m with
        | none => rfl
        | some f =>
          simp only [evalMethodRange, List.length_cons, Nat.add_sub_cancel, frame_args1, Args2.newWithBlock]
      | _ => rfl
  | method =>
    rcases as with _ | ⟨y, _ | ⟨z, as⟩⟩
    · simp [native, passes, gives]
    · rw [native, if_neg (by simp), frame_lfp]
      cases y with
      | sym m => dsimp only [passes, gives]; cases w.find x m <;> rfl
      | _ => rfl
    · simp [native, passes, gives]
  | respondTo =>
    rcases as with _ | ⟨y, as⟩
    · simp [native, passes, gives]
    · rw [native, frame_lfp]
      by_cases h : as.length ≤ 1
      · rw [if_neg (by simp; omega)]
        cases y <;> simp [passes, gives, h]
      · rw [if_pos (by simp; omega)]
        cases y <;> simp [passes, gives, h]
  | call =>
    cases x with
    | method n r f c => simp only [native, passes, evalMethodRange, frame_args]
    | _ => rfl
  | unbind =>
    rcases as with _ | ⟨y, as⟩
    · cases x <;> simp [native, passes, gives]
    · simp [native, passes, gives]
  | bind =>
    rcases as with _ | ⟨y, _ | ⟨z, as⟩⟩
    · simp [native, passes, gives]
    · cases x with
      | unbound n f c => simp only [native, List.length_cons, List.length_nil, frame_lfp]; rfl
      | _ => rfl
    · simp [native, passes, gives]
  | bindCall =>
    rcases as with _ | ⟨y, as⟩
    · cases x <;> simp [native, passes, gives]
    · cases x with
      | unbound n f c =>
        have h : ¬ as.length + 1 < 1 := by omega
        simp only [native, if_neg h, frame_lfp, passes, evalMethodRange, List.length_cons, Nat.add_sub_cancel, frame_args1, Args2.new]
      | _ => rfl
  | methodMissing =>
    rcases as with _ | ⟨y, as⟩
    · simp [native, passes, gives]
    · rw [native, if_neg (by simp), frame_lfp, frame_below]
      cases y <;> simp [passes, gives]

theorem passes_size {w : World} {x : Val} {as : List Val} {b : Option Block} {kw : Val} {p : Prim} {f r as' b' kw'}
    (h : passes w x as b kw p = some (f, r, as', b', kw')) : r.size + sizes as' < x.size + sizes as := by
  cases p with
  | send =>
    simp only [passes] at h
    split at h
    · rename_i m as
      split at h
      · simp only [Option.some.injEq, Prod.mk.injEq] at h
        obtain ⟨rfl, rfl, rfl, rfl, rfl⟩ := h
        simp [sizes, Val.size]
      · cases h
    · cases h
  | call =>
    simp only [passes] at h
    split at h
    · simp only [Option.some.injEq, Prod.mk.injEq] at h
      obtain ⟨rfl, rfl, rfl, rfl, rfl⟩ := h
      simp [Val.size]
    · cases h
  | bindCall =>
    simp only [passes] at h
    split at h
    · simp only [Option.some.injEq, Prod.mk.injEq] at h
      obtain ⟨rfl, rfl, rfl, rfl, rfl⟩ := h
      simp [sizes, Val.size]
    · cases h
  | _ => cases h

/-- What comes of it does not depend on the rest of the stack. -/
theorem ends_rest (w : World) {k : Nat} : ∀ {x : Val} {as : List Val}, x.size + sizes as ≤ k → ∀ (f : Fid) (b : Option Block) (kw : Val),
    ∃ o, ∀ rest o', Ends w (.go ⟨rest ++ x :: as, f, ⟨b, kw, as.length⟩⟩) o' ↔ o' = o := by
  induction k with
  | zero =>
    intro x as h
    have : 0 < x.size := by cases x <;> simp [Val.size]
    omega
  | succ k ih =>
    intro x as h f b kw
    cases hp : w.prim f with
    | none =>
      refine ⟨.runs ⟨f, x, as, b, kw⟩, fun rest o' => ?_⟩
      rw [ends_go, step_at, hp]; exact ends_out
    | some p =>
      cases hq : passes w x as b kw p with
      | none =>
        refine ⟨gives w x as p, fun rest o' => ?_⟩
        rw [ends_go, step_at, hp]; dsimp only
        rw [native_at, hq]; exact ends_out
      | some q =>
        obtain ⟨f', r, as', b', kw'⟩ := q
        have := passes_size hq
        obtain ⟨o, ho⟩ := ih (x := r) (as := as') (by omega) f' b' kw'
        refine ⟨o, fun rest o' => ?_⟩
        rw [ends_go, step_at, hp]; dsimp only
        rw [native_at, hq]; exact ho _ _

theorem ends_same (w : World) (rest rest' : List Val) (x : Val) (as : List Val) (f : Fid) (b : Option Block) (kw : Val) (o : Out) :
    Ends w (.go ⟨rest ++ x :: as, f, ⟨b, kw, as.length⟩⟩) o ↔ Ends w (.go ⟨rest' ++ x :: as, f, ⟨b, kw, as.length⟩⟩) o := by
  obtain ⟨o', h⟩ := ends_rest w (Nat.le_refl (x.size + sizes as)) f b kw
  rw [h, h]

theorem call_found {w : World} {x : Val} {m : Name} {f : Fid} (h : w.find x m = some f) (caller : Val) (rest as : List Val)
    (b : Option Block) (kw : Val) : call w caller rest x m as b kw = .go ⟨rest ++ x :: as, f, ⟨b, kw, as.length⟩⟩ := by
  simp only [call, sendTo, receiver_at, h]

theorem call_prim {w : World} {x : Val} {n : Name} {p : Prim} (h : Is w x n p) (caller : Val) (rest as : List Val)
    (b : Option Block) (kw : Val) (o : Out) : Ends w (call w caller rest x n as b kw) o ↔
      Ends w (match passes w x as b kw p with
      | some (f, r, as', b', kw') => .go ⟨frame rest x as ++ r :: as', f, ⟨b', kw', as'.length⟩⟩
      | none => .out (gives w x as p)) o := by
  obtain ⟨f, h1, h2⟩ := h
  rw [call_found h1, ends_go, step_at, h2]; dsimp only
  rw [native_at]

theorem runs_at {w : World} {f : Fid} (h : w.prim f = none) (rest : List Val) (x : Val) (as : List Val) (b : Option Block) (kw : Val) (o : Out) :
    Ends w (.go ⟨rest ++ x :: as, f, ⟨b, kw, as.length⟩⟩) o ↔ o = .runs ⟨f, x, as, b, kw⟩ := by
  rw [ends_go, step_at, h]; exact ends_out

/-! ## C94 -/

/-- **C94.** A direct call runs the method that was found, with the receiver, the arguments in their order, the block and the
keywords. -/
theorem C94_direct (w : World) (caller : Val) (rest : List Val) (x : Val) (m : Name) (as : List Val) (b : Option Block) (kw : Val)
    {f : Fid} (hf : w.find x m = some f) (hp : w.prim f = none) (o : Out) :
    Ends w (call w caller rest x m as b kw) o ↔ o = .runs ⟨f, x, as, b, kw⟩ := by
  rw [call_found hf]; exact runs_at hp ..

/-- **C94.** Every call has exactly one outcome, and it depends neither on what is below on the stack nor on where it is: chains of
`send`, `call` and `bind_call` come to an end. -/
theorem C94_outcome (w : World) (x : Val) (m : Name) (as : List Val) (b : Option Block) (kw : Val) {f : Fid} (hf : w.find x m = some f) :
    ∃ o, ∀ caller rest o', Ends w (call w caller rest x m as b kw) o' ↔ o' = o := by
  obtain ⟨o, ho⟩ := ends_rest w (Nat.le_refl (x.size + sizes as)) f b kw
  exact ⟨o, fun caller rest o' => by rw [call_found hf, ho]⟩

/-- **C94.** `x.send(:m, …)` has the outcome of `x.m(…)`, also if `m` is itself `send` or one of the other builtin methods.
Missing: keywords (`C94_send_keywords_fails`), and methods that are not found (`C94_send_missing_fails`). -/
theorem C94_send_partial (w : World) (caller caller' : Val) (rest rest' : List Val) (x : Val) (s m : Name) (as : List Val) (b : Option Block)
    (hs : Is w x s .send) {f : Fid} (hf : w.find x m = some f) (o : Out) :
    Ends w (call w caller rest x s (.sym m :: as) b .nil) o ↔ Ends w (call w caller' rest' x m as b .nil) o := by
  rw [call_prim hs, call_found hf]
  simp only [passes, hf]
  exact ends_same ..

/-- **C94.** `x.method(:m)` makes an object from the method that is found at that time; its `call` runs this method on `x`, whatever
has become of the classes since (`w'`), with the arguments, the block and the keywords. -/
theorem C94_method (w w' : World) (caller : Val) (rest : List Val) (x : Val) (n c m : Name) (b : Option Block) (kw : Val)
    (hn : Is w x n .method) {f : Fid} (hf : w.find x m = some f) :
    ∃ M, (∀ o, Ends w (call w caller rest x n [.sym m] b kw) o ↔ o = .value M) ∧
      (Is w' M c .call → w'.prim f = none → ∀ caller rest as b kw o, Ends w' (call w' caller rest M c as b kw) o ↔ o = .runs ⟨f, x, as, b, kw⟩) := by
  refine ⟨.method m x f (w.owner x m), fun o => ?_, fun hc hp caller rest as b kw o => ?_⟩
  · rw [call_prim hn]; simp only [passes, gives, hf]; exact ends_out
  · rw [call_prim hc]; simp only [passes]; exact runs_at hp ..

/-- **C94.** So `x.method(:m).call(…)` is `x.m(…)`, while the classes are the same. -/
theorem C94_method_call (w : World) (caller caller' : Val) (rest rest' : List Val) (x : Val) (n c m : Name) (as : List Val) (b : Option Block) (kw : Val)
    (hn : Is w x n .method) {f : Fid} (hf : w.find x m = some f) (M : Val) (hM : Ends w (call w caller rest x n [.sym m] none .nil) (.value M))
    (hc : Is w M c .call) (o : Out) :
    Ends w (call w caller rest M c as b kw) o ↔ Ends w (call w caller' rest' x m as b kw) o := by
  rw [call_prim hn] at hM
  simp only [passes, gives, hf] at hM
  cases hM
  rw [call_prim hc, call_found hf]
  simp only [passes]
  exact ends_same ..

/-- **C94.** There is no method object for a method that is not found: NameError. -/
theorem C94_method_none (w : World) (caller : Val) (rest : List Val) (x : Val) (n m : Name) (b : Option Block) (kw : Val)
    (hn : Is w x n .method) (hf : w.find x m = none) (o : Out) :
    Ends w (call w caller rest x n [.sym m] b kw) o ↔ o = .nameError := by
  rw [call_prim hn]; simp only [passes, gives, hf]; exact ends_out

/-- **C94.** Unbinding a method object and binding it to `y` makes the object that `y.method(:m)` makes, if `y` finds the same
method in the same class. -/
theorem C94_bind (w : World) (caller : Val) (rest : List Val) (x y : Val) (n u d m : Name)
    (hn : Is w x n .method) (hy : Is w y n .method) {f : Fid} (hf : w.find x m = some f) (hfy : w.find y m = some f)
    (ho : w.owner y m = w.owner x m)
    (M U N : Val) (hM : Ends w (call w caller rest x n [.sym m] none .nil) (.value M))
    (hu : Is w M u .unbind) (hU : Ends w (call w caller rest M u [] none .nil) (.value U))
    (hd : Is w U d .bind) (hN : Ends w (call w caller rest U d [y] none .nil) (.value N)) :
    Ends w (call w caller rest y n [.sym m] none .nil) (.value N) := by
  rw [call_prim hn] at hM; simp only [passes, gives, hf] at hM; cases hM
  rw [call_prim hu] at hU; simp only [passes, gives] at hU; cases hU
  rw [call_prim hd] at hN; simp only [passes, gives] at hN; cases hN
  rw [call_prim hy]; simp only [passes, gives, hfy, ho]; exact .out _

/-- **C94.** `bind_call(y, …)` is `bind(y).call(…)`.  Missing: blocks and keywords (`C94_bind_call_fails`). -/
theorem C94_bind_call_partial (w : World) (caller : Val) (rest : List Val) (U y N : Val) (d e c : Name) (as : List Val)
    (hd : Is w U d .bind) (he : Is w U e .bindCall) (hN : Ends w (call w caller rest U d [y] none .nil) (.value N))
    (hc : Is w N c .call) (o : Out) :
    Ends w (call w caller rest U e (y :: as) none .nil) o ↔ Ends w (call w caller rest N c as none .nil) o := by
  rw [call_prim hd] at hN
  cases U with
  | unbound n f k =>
    simp only [passes, gives] at hN; cases hN
    rw [call_prim he, call_prim hc]
    simp only [passes]
    exact ends_same ..
  | _ => simp only [passes, gives] at hN; cases hN

/-- **C94.** `respond_to?` tells, of a symbol or a string, whether the method is found. -/
theorem C94_respond_to (w : World) (caller : Val) (rest : List Val) (x : Val) (n m : Name) (v : Val) (b : Option Block) (kw : Val)
    (hn : Is w x n .respondTo) (hv : v = .sym m ∨ v = .str m) :
    ∃ r : Bool, (∀ o, Ends w (call w caller rest x n [v] b kw) o ↔ o = .value (.bool r)) ∧ (r = true ↔ ∃ f, w.find x m = some f) := by
  refine ⟨(w.find x m).isSome, fun o => ?_, Option.isSome_iff_exists⟩
  rw [call_prim hn]
  rcases hv with rfl | rfl <;> simp only [passes, gives, List.length_nil, Nat.zero_le, if_true] <;> exact ends_out

/-- **C94.** A call of a method that is not found runs `method_missing` with the name as the first argument and then the arguments.
Missing: the block and the keywords (`C94_missing_block_fails`). -/
theorem C94_missing_partial (w : World) (caller : Val) (rest : List Val) (x : Val) (m : Name) (as : List Val)
    (hm : w.find x m = none) {f : Fid} (hf : w.find x nMissing = some f) (hp : w.prim f = none) (o : Out) :
    Ends w (call w caller rest x m as none .nil) o ↔ o = .runs ⟨f, x, .sym m :: as, none, .nil⟩ := by
  have e : call w caller rest x m as none .nil = .go ⟨rest ++ x :: (.sym m :: as), f, ⟨none, .nil, (Val.sym m :: as).length⟩⟩ := by
    simp only [call, sendTo, invokeMethodMissing, receiver_at, hm, hf, top_at, lfp_at, Args2.new, List.length_cons]
    have : rest ++ x :: as = (rest ++ [x]) ++ as := by simp
    rw [this, List.take_left]; simp
  rw [e]; exact runs_at hp ..

/-- **C94.** A block that is a symbol, called with `v` and further arguments, calls the method of this name on `v` with them. -/
theorem C94_symbol_block (w : World) (caller caller' : Val) (rest rest' : List Val) (v : Val) (m : Name) (as : List Val) (b : Option Block) (kw : Val)
    {f : Fid} (hf : w.find v m = some f) (o : Out) :
    Ends w (invokeSymProc w caller (rest ++ v :: as) m ⟨b, kw, (v :: as).length⟩) o ↔ Ends w (call w caller' rest' v m as b kw) o := by
  have : invokeSymProc w caller (rest ++ v :: as) m ⟨b, kw, (v :: as).length⟩ = call w caller rest v m as b kw := by
    rw [invokeSymProc, if_neg (by simp)]; rfl
  rw [this, call_found hf, call_found hf]
  exact ends_same ..

/-- **C94.** `Symbol#to_proc` and the methods of arrays: with one value, the method is called on it without arguments.  Missing:
further arguments (`C94_to_proc_fails`), and iteration over integers and ranges (`C94_each_symbol_fails`). -/
theorem C94_to_proc_partial (w : World) (caller caller' : Val) (rest rest' : List Val) (v : Val) (m : Name) {f : Fid} (hf : w.find v m = some f) (o : Out) :
    (Ends w (symToProc w caller rest m [v]) o ↔ Ends w (call w caller' rest' v m [] none .nil) o) ∧
    (Ends w (blockMap1 w caller rest m v) o ↔ Ends w (call w caller' rest' v m [] none .nil) o) := by
  have e1 : symToProc w caller rest m [v] = call w caller rest v m [] none .nil := rfl
  have e2 : blockMap1 w caller rest m v = call w caller rest v m [] none .nil := rfl
  rw [e1, e2, call_found hf, call_found hf]
  exact ⟨ends_same .., ends_same ..⟩

/-- An example: name 1 is `send`, 2 `method`, 3 `respond_to?`, 4 `call`, 5 `unbind`, 6 `bind`, 7 `bind_call`; methods 1 to 8 are the
builtin ones; name 10 is method 10 for all objects, name 11 none; objects from 5 on have their own `method_missing`, method 20. -/
def sample : World where
  find x n := if 1 ≤ n ∧ n ≤ 7 ∨ n = 10 then some n else if n = 0 then (match x with | .obj k => if 5 ≤ k then some 20 else some 8 | _ => some 8) else none
  owner _ n := n
  prim f := [none, some .send, some .method, some .respondTo, some .call, some .unbind, some .bind, some .bindCall, some .methodMissing][f]?.join

example : Is sample (.obj 1) 1 .send ∧ Is sample (.obj 1) 2 .method ∧ Is sample (.obj 1) 3 .respondTo ∧
    Is sample (.method 10 (.obj 1) 10 10) 4 .call ∧ Is sample (.method 10 (.obj 1) 10 10) 5 .unbind ∧
    Is sample (.unbound 10 10 10) 6 .bind ∧ Is sample (.unbound 10 10 10) 7 .bindCall ∧
    sample.find (.obj 1) 10 = some 10 ∧ sample.prim 10 = none ∧ sample.find (.obj 1) 11 = none ∧
    sample.find (.obj 5) nMissing = some 20 ∧ sample.prim 20 = none :=
  ⟨⟨1, rfl, rfl⟩, ⟨2, rfl, rfl⟩, ⟨3, rfl, rfl⟩, ⟨4, rfl, rfl⟩, ⟨5, rfl, rfl⟩, ⟨6, rfl, rfl⟩, ⟨7, rfl, rfl⟩, rfl, rfl, rfl, rfl, rfl⟩

example : Ends sample (call sample .nil [.obj 9] (.obj 1) 1 [.sym 1, .sym 10, .obj 2, .obj 3] (some (.block 4)) .nil)
    (.runs ⟨10, .obj 1, [.obj 2, .obj 3], some (.block 4), .nil⟩) :=
  .go (.go (.go (.out _)))

/-- `send` does not call `method_missing`: the direct call runs it, `send` raises NoMethodError. -/
theorem C94_send_missing_fails : ∃ (w : World) (x : Val) (s m : Name), Is w x s .send ∧
    Ends w (call w .nil [] x m [] none .nil) (.runs ⟨20, x, [.sym m], none, .nil⟩) ∧
    Ends w (call w .nil [] x s [.sym m] none .nil) .noMethodError :=
  ⟨sample, .obj 5, 1, 11, ⟨1, rfl, rfl⟩, .go (.out _), .go (.out _)⟩

/-- `send` drops the keywords. -/
theorem C94_send_keywords_fails : ∃ (w : World) (x : Val) (s m : Name) (kw : Val), Is w x s .send ∧ kw ≠ .nil ∧
    Ends w (call w .nil [] x m [] none kw) (.runs ⟨10, x, [], none, kw⟩) ∧
    Ends w (call w .nil [] x s [.sym m] none kw) (.runs ⟨10, x, [], none, .nil⟩) :=
  ⟨sample, .obj 1, 1, 10, .obj 7, ⟨1, rfl, rfl⟩, by decide, .go (.out _), .go (.go (.out _))⟩

/-- `method_missing` does not get the block. -/
theorem C94_missing_block_fails : ∃ (w : World) (x : Val) (m : Name), w.find x m = none ∧
    Ends w (call w .nil [] x m [] (some (.block 1)) .nil) (.runs ⟨20, x, [.sym m], none, .nil⟩) :=
  ⟨sample, .obj 5, 11, rfl, .go (.out _)⟩

/-- Without a `method_missing` of the program, a call of an unknown method on any object, also another than `self`, raises NameError:
Ruby raises NoMethodError. -/
theorem C94_no_method_fails (w : World) (caller : Val) (rest : List Val) (x : Val) (m : Name) (as : List Val) (b : Option Block) (kw : Val)
    (hm : w.find x m = none) (hf : Is w x nMissing .methodMissing) (o : Out) :
    Ends w (call w caller rest x m as b kw) o ↔ o = .nameError := by
  obtain ⟨f, h1, h2⟩ := hf
  have e : call w caller rest x m as b kw = .go ⟨rest ++ x :: (.sym m :: as), f, ⟨none, .nil, (Val.sym m :: as).length⟩⟩ := by
    simp only [call, sendTo, invokeMethodMissing, receiver_at, hm, h1, top_at, lfp_at, Args2.new, List.length_cons]
    have : rest ++ x :: as = (rest ++ [x]) ++ as := by simp
    rw [this, List.take_left]; simp
  rw [e, ends_go, step_at, h2]; dsimp only
  rw [native_at]
  exact ends_out

example : sample.find (.obj 1) 11 = none ∧ Is sample (.obj 1) nMissing .methodMissing := ⟨rfl, 8, rfl, rfl⟩

/-- `bind_call` drops the block. -/
theorem C94_bind_call_fails : ∃ (w : World) (U y : Val) (e : Name) (b : Option Block), Is w U e .bindCall ∧ b ≠ none ∧
    Ends w (call w .nil [] U e [y] b .nil) (.runs ⟨10, y, [], none, .nil⟩) :=
  ⟨sample, .unbound 10 10 10, .obj 1, 7, some (.block 1), ⟨7, rfl, rfl⟩, by decide, .go (.go (.out _))⟩

/-- `bind` takes any object, also one that does not have the method: its `call` runs the method on it.  Ruby raises TypeError. -/
theorem C94_bind_fails : ∃ (w : World) (f : Fid) (m : Name) (U y N : Val) (d c : Name), U = .unbound m f m ∧ w.find y m = none ∧
    Is w U d .bind ∧ Ends w (call w .nil [] U d [y] none .nil) (.value N) ∧ Is w N c .call ∧
    Ends w (call w .nil [] N c [] none .nil) (.runs ⟨f, y, [], none, .nil⟩) :=
  ⟨sample, 12, 12, .unbound 12 12 12, .obj 1, .method 12 (.obj 1) 12 12, 6, 4, rfl, rfl, ⟨6, rfl, rfl⟩, .go (.out _), ⟨4, rfl, rfl⟩,
    .go (.go (.out _))⟩

/-- The Proc of `Symbol#to_proc` drops its further arguments; the symbol as a block does not. -/
theorem C94_to_proc_fails : ∃ (w : World) (m : Name) (v a : Val),
    Ends w (symToProc w .nil [] m [v, a]) (.runs ⟨10, v, [], none, .nil⟩) ∧
    Ends w (invokeSymProc w .nil [v, a] m (.new 2)) (.runs ⟨10, v, [a], none, .nil⟩) :=
  ⟨sample, 10, .obj 1, .obj 2, .go (.out _), .go (.out _)⟩

/-- `Integer#times`, `Range#each` and the like abort when the block is a symbol (`3.times(&:to_s)`). -/
theorem C94_each_symbol_fails (w : World) : Ends w blockEach1Iter .panic := .out _

end Verif.Dispatch
