import Verif.Frame.Model
/-!
# Specification: environments that live for ever

What a Ruby programmer has in mind: every call creates a new environment with its own variables; the
environment of a block refers to the environment the block was written in; environments are never moved
or destroyed.  A frame has an operand stack of its own and a position in its code.

A step is undefined (`none`) if a program compiled by `ruruby` cannot make it (taking an operand that was
not pushed, a variable that does not exist), and in one more case, in which the implementation goes wrong:
a *literal* block of a method may be used (`yield`, passing it on, turning it into a Proc) only if the
running frame was reached from the method by calling and yielding alone (`canYield`), not inside the body
of a Proc.
-/
namespace Verif.Frame.Spec

/-- A literal block, with the environment in which it was written, or a Proc. -/
inductive SBlk where
  | lit (code env : Nat)
  | proc (p : Nat)
deriving DecidableEq, Repr

structure Env where
  self : Nat
  vars : List Nat
  /-- the environment around a block -/
  outer : Option Nat
  /-- the environment of the method the code is written in -/
  meth : Nat
  iseq : Nat
  /-- the block given to the method -/
  blk : Option SBlk
  /-- `false` for builtin functions -/
  ruby : Bool
deriving DecidableEq, Repr

structure Fr where
  env : Nat
  ops : List Nat
  pc : Nat
  /-- the caller wants the value -/
  use : Bool
  /-- the block given to a builtin function -/
  held : Option SBlk
  canYield : Bool
deriving DecidableEq, Repr

structure Proc where
  self : Nat
  method : Nat
  env : Nat
deriving DecidableEq, Repr

structure Mach where
  envs : List Env
  frames : List Fr
  procs : List Proc
deriving DecidableEq, Repr

/-- The environment `k` levels outwards. -/
def outward (envs : List Env) : Nat → Nat → Option Nat
  | e, 0 => some e
  | e, k + 1 =>
    match envs[e]? with
    | some E => match E.outer with
      | some o => outward envs o k
      | none => none
    | none => none

/-- The block that the running frame may use: `none` if it may not, `some none` if there is none. -/
def ownBlock (α : Mach) (f : Fr) : Option (Option SBlk) :=
  match α.envs[f.env]? with
  | none => none
  | some E =>
    if E.ruby then
      match α.envs[E.meth]? with
      | none => none
      | some M =>
        match M.blk with
        | some (.lit code e) => if f.canYield then some (some (.lit code e)) else none
        | b => some b
    else some f.held

/-- The block given to a call. -/
def blockArg (α : Mach) (f : Fr) : BlockArg → Option (Option SBlk)
  | .none => some none
  | .lit code =>
    match α.envs[f.env]? with
    | some E => if E.ruby then some (some (.lit code f.env)) else none
    | none => none
  | .own => ownBlock α f
  | .proc p => if p < α.procs.length then some (some (.proc p)) else none

/-- Enter a frame with a new environment; `ops` is the operand stack left to the caller. -/
def enter (α : Mach) (f : Fr) (rest : List Fr) (ops : List Nat) (E : Env) (use : Bool)
    (held : Option SBlk) (canYield : Bool) : Mach :=
  { α with
    envs := α.envs ++ [E],
    frames := ⟨α.envs.length, [], 0, use, held, canYield⟩ :: { f with ops := ops } :: rest }

/-- Call a block: its environment is new and lies in the environment `o`. -/
def callBlock (α : Mach) (f : Fr) (rest : List Fr) (self code o args : Nat) (locals : List Nat)
    (use canYield : Bool) : Option Mach :=
  match α.envs[o]? with
  | none => none
  | some O =>
    if args ≤ f.ops.length then
      some (enter α f rest (f.ops.drop args) ⟨self, locals, some o, O.meth, code, none, true⟩ use none
        canYield)
    else none

/-- Call a block or a Proc given as a block.  The body of a literal block may use the literal block of its
method if the frame it was written in may. -/
def yieldTo (α : Mach) (f : Fr) (rest : List Fr) (b : SBlk) (args : Nat) (locals : List Nat)
    (use : Bool) : Option Mach :=
  match b with
  | .lit code e =>
    match α.envs[e]?, (f :: rest).find? (fun h => h.env = e) with
    | some E, some h => callBlock α f rest E.self code e args locals use h.canYield
    | _, _ => none
  | .proc p =>
    match α.procs[p]? with
    | some P => callBlock α f rest P.self P.method P.env args locals use false
    | none => none

/-- The nearest frame of Ruby code. -/
def caller (envs : List Env) : List Fr → Option Fr
  | [] => none
  | f :: fs =>
    match envs[f.env]? with
    | some E => if E.ruby then some f else caller envs fs
    | none => none

def step (α : Mach) (op : Op) : Option (Mach × Option Nat) :=
  match α.frames with
  | [] => none
  | f :: rest =>
    match α.envs[f.env]? with
    | none => none
    | some E =>
      match op with
      | .push v => some ({ α with frames := { f with ops := v :: f.ops } :: rest }, none)
      | .pop =>
        match f.ops with
        | v :: ops => some ({ α with frames := { f with ops := ops } :: rest }, some v)
        | [] => none
      | .jump n => if E.ruby then some ({ α with frames := { f with pc := n } :: rest }, none) else none
      | .self => some (α, some E.self)
      | .getLocal i =>
        match E.vars[i]? with
        | some v => some (α, some v)
        | none => none
      | .setLocal i v =>
        if i < E.vars.length then
          some ({ α with envs := α.envs.set f.env { E with vars := E.vars.set i v } }, none)
        else none
      | .getDyn k i =>
        match outward α.envs f.env k with
        | none => none
        | some e =>
          match α.envs[e]? with
          | some E' =>
            match E'.vars[i]? with
            | some v => some (α, some v)
            | none => none
          | none => none
      | .setDyn k i v =>
        match outward α.envs f.env k with
        | none => none
        | some e =>
          match α.envs[e]? with
          | some E' =>
            if i < E'.vars.length then
              some ({ α with envs := α.envs.set e { E' with vars := E'.vars.set i v } }, none)
            else none
          | none => none
      | .callMethod args code locals u b =>
        match f.ops[args]?, blockArg α f b with
        | some recv, some blk =>
          some (enter α f rest (f.ops.drop (args + 1))
            ⟨recv, locals, none, α.envs.length, code, blk, true⟩ u none true, none)
        | _, _ => none
      | .callNative args b =>
        match f.ops[args]?, blockArg α f b with
        | some recv, some blk =>
          some (enter α f rest (f.ops.drop (args + 1))
            ⟨recv, (f.ops.take args).reverse, none, α.envs.length, 0, none, false⟩ true blk true, none)
        | _, _ => none
      | .callProc p s args locals u =>
        match α.procs[p]? with
        | some P =>
          match callBlock α f rest (s.getD P.self) P.method P.env args locals u false with
          | some α' => some (α', none)
          | none => none
        | none => none
      | .yield args locals u =>
        match ownBlock α f with
        | some (some b) =>
          match yieldTo α f rest b args locals u with
          | some α' => some (α', none)
          | none => none
        | _ => none
      | .iterate args locals u =>
        match E.ruby, f.held with
        | false, some b =>
          match yieldTo α f rest b args locals u with
          | some α' => some (α', none)
          | none => none
        | _, _ => none
      | .ret toRust =>
        match E.ruby, f.ops, rest with
        | true, v :: _, g :: rest' =>
          if toRust then some ({ α with frames := g :: rest' }, some v)
          else if f.use then some ({ α with frames := { g with ops := v :: g.ops } :: rest' }, none)
          else some ({ α with frames := g :: rest' }, none)
        | _, _, _ => none
      | .raise =>
        match E.ruby, rest with
        | true, g :: rest' => some ({ α with frames := g :: rest' }, none)
        | _, _ => none
      | .retNative v =>
        match E.ruby, rest with
        | false, g :: rest' =>
          match v with
          | some v => some ({ α with frames := { g with ops := v :: g.ops } :: rest' }, none)
          | none => some ({ α with frames := g :: rest' }, none)
        | _, _ => none
      | .clear => some ({ α with frames := { f with ops := [] } :: rest }, none)
      | .createProc code =>
        if E.ruby then
          some ({ α with procs := α.procs ++ [⟨E.self, code, f.env⟩] }, some α.procs.length)
        else none
      | .blockToProc =>
        match ownBlock α f with
        | some (some (.lit code e)) =>
          match α.envs[e]? with
          | some D => some ({ α with procs := α.procs ++ [⟨D.self, code, e⟩] }, some α.procs.length)
          | none => none
        | some (some (.proc p)) => some (α, some p)
        | _ => none
      | .binding =>
        if E.ruby then none
        else
          match caller α.envs rest with
          | some g => some ({ α with procs := α.procs ++ [⟨0, 0, g.env⟩] }, some α.procs.length)
          | none => none

/-- The values made visible by a sequence of steps. -/
def run (α : Mach) : List Op → Option (Mach × List (Option Nat))
  | [] => some (α, [])
  | op :: ops =>
    match step α op with
    | none => none
    | some (α, o) =>
      match run α ops with
      | none => none
      | some (α, os) => some (α, o :: os)

/-- The same without the restriction: a literal block can be yielded to from everywhere, also from the body
of a Proc, and also when the method it was written in has returned. -/
def stepFree (α : Mach) (op : Op) : Option (Mach × Option Nat) :=
  match op, α.frames with
  | .yield args locals u, f :: rest =>
    match α.envs[f.env]? with
    | none => none
    | some E =>
      match α.envs[E.meth]? with
      | none => none
      | some M =>
        match M.blk with
        | some (.lit code e) =>
          match α.envs[e]? with
          | none => none
          | some D =>
            match callBlock α f rest D.self code e args locals u true with
            | some α' => some (α', none)
            | none => none
        | _ => step α op
  | _, _ => step α op

def runFree (α : Mach) : List Op → Option (Mach × List (Option Nat))
  | [] => some (α, [])
  | op :: ops =>
    match stepFree α op with
    | none => none
    | some (α, o) =>
      match runFree α ops with
      | none => none
      | some (α, os) => some (α, o :: os)

/-- The start: one frame, in which nothing is written in Ruby. -/
def init : Mach :=
  ⟨[⟨0, [], none, 0, 0, none, false⟩], [⟨0, [], 0, true, none, true⟩], []⟩

end Verif.Frame.Spec
