/-!
# Parameters and arguments

Models the way a parameter list is turned into slots of a frame
(`ruruby-parse/src/parser.rs:470-620`, `ruruby/src/codegen.rs:144-212`,
`ruruby/src/globals/method.rs:355-405,478-492`), the way the arguments of a call are written into these
slots (`ruruby/src/vm/executor/frame/arg_handler.rs`), and the expansion of splat arguments
(`ruruby/src/vm/executor.rs:842-930`).

Simplifications:
* names are numbers; a value is one of the shapes the argument code distinguishes;
* an array or a hash is represented by its contents, not by its heap address (the code below never
  mutates one that it did not just create);
* the stack is represented by the list of slots from `base` up to the stack pointer.  A write above the
  stack pointer, or a subtraction of `usize` that would be negative, is the outcome `fault`.
-/
namespace Verif.Args

/-- the values the argument code tells apart; `obj` stands for any other value, `splat v` for the
internal wrapper object around `*v` (`ruruby/src/value/rvalue.rs`, `ObjKind::SPLAT`), `proc` for a block
turned into a Proc object. -/
inductive Val where
  | nil
  | uninit
  | int (n : Int)
  | obj (n : Nat)
  | array (l : List Val)
  | hash (l : List (Nat × Val))
  | range (lo hi : Val) (excl : Bool)
  | splat (v : Val)
  | proc (n : Nat)
deriving Inhabited

/-- how a call can fail: a wrong number of arguments, an unknown keyword, or the program aborting. -/
inductive Err where
  | arity
  | keyword
  | fault
deriving DecidableEq, Repr

/-! ## From the parameter list to slots -/

/-- one entry of a parameter list as written: `a`, `a = e`, `*a` or `*`, `a:` (`true`: without default)
or `a: e`, `**a`, `&a`, `...`. -/
inductive Item where
  | ident (n : Nat)
  | opt (n : Nat)
  | star (n : Option Nat)
  | kw (n : Nat) (required : Bool)
  | kwrest (n : Nat)
  | block (n : Nat)
  | delegate
deriving DecidableEq, Repr

/-- `ruruby-parse/src/node.rs:173-186` (`ParamKind`); default expressions are left out. -/
inductive ParamKind where
  | param (n : Nat)
  | post (n : Nat)
  | optional (n : Nat)
  | rest (n : Nat)
  | restDiscard
  | keyword (n : Nat) (required : Bool)
  | kwrest (n : Nat)
  | block (n : Nat)
  | delegate
deriving DecidableEq, Repr

/-- `ruruby-common/src/lvar_collector.rs:41-47` (`LvarCollector`). -/
structure Lvars where
  kw : List Nat := []
  table : List Nat := []
  kwrest : Option Nat := none
  block : Option Nat := none
  delegateParam : Option Nat := none
deriving DecidableEq, Repr

/-- The name `...` under which the delegate parameter is entered
(`ruruby-common/src/lvar_collector.rs:115-119`); no identifier of a program is spelled so.  Names of
parameters are represented by the numbers from 1. -/
def delegateName : Nat := 0

/-- `ruruby-common/src/lvar_collector.rs:87-95` (`insert_new`). -/
def Lvars.insertNew (lv : Lvars) (n : Nat) : Option (Lvars × Nat) :=
  if n ∈ lv.table then none
  else some ({ lv with table := lv.table ++ [n] }, lv.table.length)

/-- `ruruby-parse/src/parser.rs:477-484` (`Kind`, ordered). -/
def KRequired := 0
def KOptional := 1
def KRest := 2
def KPostReq := 3
def KKeyWord := 4
def KKWRest := 5

/-- `ruruby-parse/src/parser.rs:470-617` (`parse_formal_params`): `state` is the position reached,
`args` and `lv` what was collected.  `none` is a syntax error.  After `&a` and `...` the loop is left,
and anything that follows is a syntax error because the closing token is expected. -/
def parseParams (state : Nat) (args : List ParamKind) (lv : Lvars) :
    List Item → Option (List ParamKind × Lvars)
  | [] => some (args, lv)
  | .delegate :: rest =>
    if state > KRequired then none
    else
      match lv.insertNew delegateName with
      | none => none
      | some (lv, id) =>
        if rest = [] then some (args ++ [.delegate], { lv with delegateParam := some id }) else none
  | .block n :: rest =>
    match lv.insertNew n with
    | none => none
    | some (lv, id) =>
      if rest = [] then some (args ++ [.block n], { lv with block := some id }) else none
  | .star n? :: rest =>
    if state ≥ KRest then none
    else
      match n? with
      | some n =>
        match lv.insertNew n with
        | none => none
        | some (lv, _) => parseParams KRest (args ++ [.rest n]) lv rest
      | none => parseParams KRest (args ++ [.restDiscard]) lv rest
  | .kwrest n :: rest =>
    if state ≥ KKWRest then none
    else
      match lv.insertNew n with
      | none => none
      | some (lv, id) => parseParams KKWRest (args ++ [.kwrest n]) { lv with kwrest := some id } rest
  | .opt n :: rest =>
    if state = KRequired ∨ state = KOptional then
      match lv.insertNew n with
      | none => none
      | some (lv, _) => parseParams KOptional (args ++ [.optional n]) lv rest
    else none
  | .kw n required :: rest =>
    if state = KKWRest then none
    else
      match lv.insertNew n with
      | none => none
      | some (lv, id) =>
        parseParams KKeyWord (args ++ [.keyword n required]) { lv with kw := lv.kw ++ [id] } rest
  | .ident n :: rest =>
    if state = KRequired then
      match lv.insertNew n with
      | none => none
      | some (lv, _) => parseParams KRequired (args ++ [.param n]) lv rest
    else if state = KPostReq ∨ state = KOptional ∨ state = KRest then
      match lv.insertNew n with
      | none => none
      | some (lv, _) => parseParams KPostReq (args ++ [.post n]) lv rest
    else none

/-- `ruruby/src/globals/method.rs:355-371` (`ISeqParams`); `keyword` is the hash map from names to
slots, as an association list. -/
structure Params where
  req : Nat := 0
  opt : Nat := 0
  rest : Option Bool := none
  post : Nat := 0
  block : Bool := false
  keyword : List (Nat × Nat) := []
  kwrest : Bool := false
  delegate : Option Nat := none
deriving DecidableEq, Repr

/-- One turn of the loop of `ruruby/src/codegen.rs:166-209`; `i` is the position in the list. -/
def genParam (p : Params) (i : Nat) : ParamKind → Params
  | .param _ => { p with req := p.req + 1 }
  | .post _ => { p with post := p.post + 1 }
  | .optional _ => { p with opt := p.opt + 1 }
  | .rest _ => { p with rest := some true }
  | .restDiscard => { p with rest := some false }
  | .keyword n _ => { p with keyword := (n, i) :: p.keyword }
  | .kwrest _ => { p with kwrest := true }
  | .block _ => { p with block := true }
  | .delegate => { p with delegate := some p.req }

/-- The loop of `ruruby/src/codegen.rs:166-209`; it is left at the delegate parameter. -/
def genParams (p : Params) (i : Nat) : List ParamKind → Params
  | [] => p
  | .delegate :: _ => genParam p i .delegate
  | k :: ks => genParams (genParam p i k) (i + 1) ks

/-- The parts of `ISeqInfo` (`ruruby/src/globals/method.rs:437-460`) used here. -/
structure Code where
  params : Params
  lvar : Lvars
  /-- number of slots -/
  lvars : Nat
  optFlag : Bool
  mulargFlag : Bool
deriving DecidableEq, Repr

/-- `ruruby/src/globals/method.rs:373-382` (`is_opt`). -/
def Params.isOpt (p : Params) : Bool :=
  p.opt == 0 && p.rest.isNone && p.post == 0 && !p.block && p.keyword.isEmpty && !p.kwrest
    && p.delegate.isNone

/-- `ruruby/src/globals/method.rs:481-510` (`ISeqInfo::new`). -/
def mkCode (params : Params) (lv : Lvars) : Code :=
  { params, lvar := lv, lvars := lv.table.length, optFlag := params.isOpt,
    mulargFlag := decide (1 < params.req + params.post) }

/-- A parameter list followed by a body that uses the further local variables `locals`
(`ruruby-common/src/lvar_collector.rs:75-84`: the body adds its variables after the parameters). -/
def define (items : List Item) (locals : List Nat) : Option Code :=
  match parseParams KRequired [] {} items with
  | none => none
  | some (ks, lv) => some (mkCode (genParams {} 0 ks) { lv with table := lv.table ++ locals })

/-! ## Stack operations -/

/-- write one slot (`base[i] = v`). -/
def write (l : List Val) (i : Nat) (v : Val) : Except Err (List Val) :=
  if i < l.length then .ok (l.set i v) else .error .fault

/-- `base[a..b].fill(v)`: does nothing for an empty range. -/
def fill (l : List Val) (a b : Nat) (v : Val) : Except Err (List Val) :=
  if a ≤ b ∧ b ≤ l.length then .ok (l.take a ++ List.replicate (b - a) v ++ l.drop b)
  else .error .fault

/-- `ruruby/src/vm/executor/frame/ruby_stack.rs:147-149` (`stack_copy_within`): copy the slots
`a..b` to the slots from `dest` on, as `memmove`. -/
def copyWithin (l : List Val) (a b dest : Nat) : Except Err (List Val) :=
  if a ≤ b ∧ b ≤ l.length ∧ dest + (b - a) ≤ l.length then
    .ok (l.take dest ++ (l.drop a).take (b - a) ++ l.drop (dest + (b - a)))
  else .error .fault

/-- `ruruby/src/vm/executor/frame/ruby_stack.rs:66-76` (`resize_to`): truncate, or extend with nil. -/
def resizeTo (l : List Val) (n : Nat) : List Val :=
  l.take n ++ List.replicate (n - l.length) .nil

/-! ## Calls -/

/-- Keyword arguments of a call: `kw_arg`, nil or a hash with symbol keys
(`ruruby/src/vm/args.rs:81-85`). -/
abbrev KwArg := Option (List (Nat × Val))

/-- `ruruby/src/globals/method.rs:384-407` (`check_arity`); `n` is the number of positional arguments
without the keyword hash. -/
def checkArity (p : Params) (additionalKw : Bool) (n : Nat) : Except Err Unit :=
  let min := p.req + p.post
  let kw := if additionalKw then 1 else 0
  if p.rest.isSome then
    if min > kw then (if n < min - kw then .error .arity else .ok ()) else .ok ()
  else if p.delegate.isNone then
    let len := n + kw
    if min > len ∨ len > min + p.opt then .error .arity else .ok ()
  else
    let len := n + kw
    if min > len then .error .arity else .ok ()

/-- `base[id] = uninitialized` for the slots of keyword parameters
(`ruruby/src/vm/executor/frame/arg_handler.rs:213-217`). -/
def clearKw (l : List Val) : List Nat → Except Err (List Val)
  | [] => .ok l
  | i :: is => do clearKw (← write l i .uninit) is

/-- `ruruby/src/vm/executor/frame/arg_handler.rs:169-218` (`fill_positional_arguments`); `l` are the
slots from `base` to the stack pointer, that is the arguments. -/
def fillPositional (c : Code) (l : List Val) : Except Err (List Val) := do
  let p := c.params
  let argsLen := l.length
  let restLen := if p.rest = some true then 1 else 0
  if argsLen < p.post then .error .fault else
  let noPost := argsLen - p.post
  let optreq := p.req + p.opt
  let l ←
    if optreq < noPost then do
      let surplus := (l.drop optreq).take (noPost - optreq)
      let l ← match p.delegate with
        | some d => write l d (.array surplus)
        | none => .ok l
      let surplus := (l.drop optreq).take (noPost - optreq)
      let l ← if restLen = 1 then write l optreq (.array surplus) else .ok l
      let l ← copyWithin l noPost argsLen (optreq + restLen)
      let sp := optreq + restLen + p.post + (if p.delegate.isSome then 1 else 0)
      if sp ≤ l.length then .ok (resizeTo (l.take sp) c.lvars) else .error .fault
    else do
      let l := resizeTo l c.lvars
      let l ← copyWithin l noPost argsLen (optreq + restLen)
      let l ←
        if noPost < p.req then do
          let l ← fill l noPost p.req .nil
          fill l p.req optreq .uninit
        else fill l noPost optreq .uninit
      if restLen = 1 then write l optreq (.array []) else .ok l
  clearKw l c.lvar.kw

/-- The loop over the keyword arguments (`ruruby/src/vm/executor/frame/arg_handler.rs:229-243`). -/
def fillKwLoop (c : Code) (l : List Val) (kwrest : List (Nat × Val)) :
    List (Nat × Val) → Except Err (List Val × List (Nat × Val))
  | [] => .ok (l, kwrest)
  | (k, v) :: ps =>
    match c.params.keyword.lookup k with
    | some i => do fillKwLoop c (← write l i v) kwrest ps
    | none => if c.params.kwrest then fillKwLoop c l (kwrest ++ [(k, v)]) ps else .error .keyword

/-- `ruruby/src/vm/executor/frame/arg_handler.rs:220-248` (`fill_keyword_arguments`). -/
def fillKeyword (c : Code) (l : List Val) (kw : List (Nat × Val)) : Except Err (List Val) := do
  let (l, kwrest) ← fillKwLoop c l [] kw
  match c.lvar.kwrest with
  | some i => write l i (.hash kwrest)
  | none => .ok l

/-- `ruruby/src/vm/executor/frame/arg_handler.rs:250-254` (`fill_block_argument`). -/
def fillBlock (c : Code) (l : List Val) (blk : Option Nat) : Except Err (List Val) :=
  match c.lvar.block with
  | some i => write l i (match blk with | some b => .proc b | none => .nil)
  | none => .ok l

/-- A method or block without keyword parameters takes keyword arguments as one more positional
argument (`ruruby/src/vm/executor/frame/arg_handler.rs:16-32,69-86`). -/
def pushKw (noKw : Bool) (args : List Val) : KwArg → List Val
  | some h => if noKw then args ++ [.hash h] else args
  | none => args

/-- `ruruby/src/vm/executor/frame/arg_handler.rs:60-102` (`push_method_frame_slow`): the slots of the
new frame. -/
def methodSlow (c : Code) (args : List Val) (kw : KwArg) (blk : Option Nat) :
    Except Err (List Val) := do
  let noKw := c.params.keyword.isEmpty && !c.params.kwrest
  let l := pushKw noKw args kw
  checkArity c.params (noKw && kw.isSome) args.length
  let l ← fillPositional c l
  let ordinary := !noKw && kw.isSome
  let l ← if c.params.kwrest || ordinary then fillKeyword c l (kw.getD []) else .ok l
  fillBlock c l blk

/-- `ruruby/src/vm/executor/frame/arg_handler.rs:136-151` (`push_method_frame_fast`). -/
def methodFast (c : Code) (args : List Val) : Except Err (List Val) :=
  if args.length ≠ c.params.req then .error .arity
  else if c.lvars < args.length then .error .fault
  else .ok (args ++ List.replicate (c.lvars - args.length) .nil)

/-- `ruruby/src/vm/executor/method.rs:509-516`: the frame of a method call. -/
def callMethod (c : Code) (args : List Val) (kw : KwArg) (blk : Option Nat) :
    Except Err (List Val) :=
  if c.optFlag then methodFast c args else methodSlow c args kw blk

/-- `ruruby/src/vm/executor/frame/arg_handler.rs:155-164` (`prepare_block_args`). -/
def prepareBlockArgs (c : Code) (l : List Val) : List Val :=
  match l with
  | [.array a] => if c.mulargFlag then a else l
  | _ => l

/-- `ruruby/src/vm/executor/frame/arg_handler.rs:104-134` (`push_block_frame_fast`). -/
def blockFast (c : Code) (args : List Val) : List Val :=
  let l := prepareBlockArgs c args
  let l := if c.params.req < l.length then l.take c.params.req else l
  resizeTo l c.lvars

/-- `ruruby/src/vm/executor/frame/arg_handler.rs:4-58` (`push_block_frame_slow`). -/
def blockSlow (c : Code) (args : List Val) (kw : KwArg) (blk : Option Nat) :
    Except Err (List Val) := do
  let noKw := c.params.keyword.isEmpty && !c.params.kwrest
  let l := pushKw noKw args kw
  let l := prepareBlockArgs c l
  let l ← fillPositional c l
  let ordinary := !noKw && kw.isSome
  let l ← if c.params.kwrest || ordinary then fillKeyword c l (kw.getD []) else .ok l
  fillBlock c l blk

/-- `ruruby/src/vm/executor/method.rs:474-481`: the frame of a block call. -/
def callBlock (c : Code) (args : List Val) (kw : KwArg) (blk : Option Nat) :
    Except Err (List Val) :=
  if c.optFlag then .ok (blockFast c args) else blockSlow c args kw blk

/-- `ruruby/src/vm/executor/frame.rs:438-446` (`cur_delegate`) and
`ruruby/src/vm/executor/opt_core.rs:717-723`: the arguments that `g(...)` adds in a method with a
delegate parameter whose slots are `l`. -/
def delegated (c : Code) (l : List Val) : Except Err (List Val) :=
  match c.params.delegate with
  | none => .ok []
  | some d =>
    match l[d]? with
    | none => .error .fault
    | some .nil => .ok []
    | some (.array a) => .ok a
    | some _ => .error .fault

/-! ## Splat -/

/-- The integers from `lo` up to but excluding `hi` (Rust's `lo..hi`). -/
def intsFrom (lo : Int) : Nat → List Val
  | 0 => []
  | n + 1 => .int lo :: intsFrom (lo + 1) n

/-- `stack.remove(p)` (`ruruby/src/vm/executor/frame/ruby_stack.rs:88-93`). -/
def removeAt (l : List Val) (p : Nat) : List Val := l.eraseIdx p

/-- The part `stack.grow(n - 1); stack_copy_within(p, 1..(prev_sp - p), n); p[0..n] = a` shared by the
two cases of `pop_args_to_args` (`ruruby/src/vm/executor.rs:861-863,874-878`). -/
def spread (l : List Val) (p : Nat) (a : List Val) : Except Err (List Val) := do
  if a.length = 0 then .error .fault   -- `ary_len - 1` is negative
  else
    let prev := l.length
    let l := l ++ List.replicate (a.length - 1) .nil
    let l ← copyWithin l (p + 1) prev (p + a.length)
    if p + a.length ≤ l.length then .ok (l.take p ++ a ++ l.drop (p + a.length))
    else .error .fault

/-- `ruruby/src/vm/executor.rs:842-896` (`pop_args_to_args`): `l` are the slots from the first argument
to the stack pointer, `p` the loop pointer.  The fuel bounds the number of turns; every turn brings `p`
closer to the end by one.  Integer values of range ends outside the fixnum range make the program abort;
here every integer is accepted. -/
def popArgs : Nat → List Val → Nat → Except Err (List Val)
  | 0, _, _ => .error .fault
  | fuel + 1, l, p =>
    match l[p]? with
    | none => .ok l
    | some (.splat (.array a)) =>
      if a.length = 0 then popArgs fuel (removeAt l p) p
      else do popArgs fuel (← spread l p a) (p + a.length)
    | some (.splat (.range lo hi excl)) =>
      match lo, hi with
      | .int start, .int e =>
        let e := e + (if excl then 0 else 1)
        if e ≥ start then do
          let a := intsFrom start (e - start).toNat
          popArgs fuel (← spread l p a) (p + a.length)
        else popArgs fuel (removeAt l p) p
      | _, _ => .error .fault
    | some (.splat v) => popArgs fuel (l.set p v) (p + 1)
    | some _ => popArgs fuel l (p + 1)

/-- The arguments of a call after expansion. -/
def popArgsToArgs (l : List Val) : Except Err (List Val) := popArgs (l.length + 1) l 0

/-- `ruruby/src/vm/executor.rs:898-930` (`pop_args_to_array`): the elements of an array literal. -/
def popArgsToArray (acc : List Val) : List Val → Except Err (List Val)
  | [] => .ok acc
  | .splat (.array a) :: l => popArgsToArray (acc ++ a) l
  | .splat (.range lo hi excl) :: l =>
    match lo, hi with
    | .int start, .int e =>
      let e := e + (if excl then 0 else 1)
      if e ≥ start then popArgsToArray (acc ++ intsFrom start (e - start).toNat) l
      else popArgsToArray acc l
    | _, _ => .error .fault
  | .splat v :: l => popArgsToArray (acc ++ [v]) l
  | v :: l => popArgsToArray (acc ++ [v]) l

end Verif.Args
