import Verif.Args.Model
/-!
# What a Ruby programmer expects of parameters, arguments and splats

Written from the language rules, without reference to slots or to the stack.
-/
namespace Verif.Args

/-- A parameter list, sorted into its sections:
`req…, opt = …, *rest, post…, kw: …, **kwrest, &block`.  `rest = some none` is the bare `*`. -/
structure Sig where
  req : List Nat := []
  opt : List Nat := []
  rest : Option (Option Nat) := none
  post : List Nat := []
  /-- keyword parameters; `true`: no default given -/
  kw : List (Nat × Bool) := []
  kwrest : Option Nat := none
  block : Option Nat := none

/-- the parameter list as written -/
def Sig.items (s : Sig) : List Item :=
  s.req.map .ident ++ s.opt.map .opt ++ (s.rest.map Item.star).toList ++ s.post.map .ident
    ++ s.kw.map (fun p => .kw p.1 p.2) ++ (s.kwrest.map Item.kwrest).toList
    ++ (s.block.map Item.block).toList

/-- the names of the parameters, in order -/
def Sig.names (s : Sig) : List Nat :=
  s.req ++ s.opt ++ (s.rest.join).toList ++ s.post ++ s.kw.map (·.1) ++ s.kwrest.toList
    ++ s.block.toList

/-- names are distinct, and parameters after the optional and rest section exist only if that section
does (otherwise they are simply required parameters) -/
structure Sig.Ok (s : Sig) : Prop where
  nodup : s.names.Nodup
  post : s.opt = [] → s.rest = none → s.post = []

/-- the keyword arguments go to keyword parameters; a method without any takes them as a last
positional hash -/
def Sig.takesKw (s : Sig) : Bool := !s.kw.isEmpty || s.kwrest.isSome

/-- the positional arguments of a call -/
def Sig.positional (s : Sig) (args : List Val) (kw : KwArg) : List Val :=
  match kw with
  | some h => if s.takesKw then args else args ++ [.hash h]
  | none => args

/-- the number of positional arguments is acceptable -/
def Sig.arityOk (s : Sig) (n : Nat) : Prop :=
  s.req.length + s.post.length ≤ n ∧
    (s.rest.isSome ∨ n ≤ s.req.length + s.opt.length + s.post.length)

instance (s : Sig) (n : Nat) : Decidable (s.arityOk n) := by unfold Sig.arityOk; infer_instance

/-- every keyword given is a keyword parameter, unless there is `**kwrest` (or no keyword section) -/
def Sig.kwKnown (s : Sig) (kw : KwArg) : Prop :=
  s.takesKw = false ∨ s.kwrest.isSome ∨ ∀ p ∈ kw.getD [], p.1 ∈ s.kw.map (·.1)

/-- every keyword parameter without a default is given -/
def Sig.kwComplete (s : Sig) (kw : KwArg) : Prop :=
  ∀ n, (n, true) ∈ s.kw → ∃ v, (n, v) ∈ kw.getD []

/-- What parameter `n` is bound to by `args` (an acceptable number of positional arguments), `kw` and
`blk`.  `uninit` stands for: the default expression of the parameter is evaluated. -/
inductive Sig.Binds (s : Sig) (args : List Val) (kw : KwArg) (blk : Option Nat) : Nat → Val → Prop
  /-- leading arguments go to required parameters -/
  | req (i : Nat) (n : Nat) (v : Val) : s.req[i]? = some n → args[i]? = some v →
      Sig.Binds s args kw blk n v
  /-- the following ones to optional parameters, as long as enough remain for the trailing ones -/
  | opt (i : Nat) (n : Nat) (v : Val) : s.opt[i]? = some n →
      s.req.length + i + s.post.length < args.length → args[s.req.length + i]? = some v →
      Sig.Binds s args kw blk n v
  | optDefault (i : Nat) (n : Nat) : s.opt[i]? = some n →
      args.length ≤ s.req.length + i + s.post.length → Sig.Binds s args kw blk n .uninit
  /-- the last arguments to the parameters after the rest -/
  | post (i : Nat) (n : Nat) (v : Val) : s.post[i]? = some n →
      args[args.length - s.post.length + i]? = some v → Sig.Binds s args kw blk n v
  /-- what remains in the middle to the rest array -/
  | rest (n : Nat) (mid : List Val) : s.rest = some (some n) →
      (∀ (v : Val) (i : Nat), mid[i]? = some v ↔ args[s.req.length + s.opt.length + i]? = some v ∧
        s.req.length + s.opt.length + i + s.post.length < args.length) →
      Sig.Binds s args kw blk n (.array mid)
  /-- keyword arguments by name -/
  | kw (n : Nat) (b : Bool) (v : Val) : (n, b) ∈ s.kw → (n, v) ∈ kw.getD [] →
      Sig.Binds s args kw blk n v
  | kwDefault (n : Nat) : (n, false) ∈ s.kw → (∀ v, (n, v) ∉ kw.getD []) →
      Sig.Binds s args kw blk n .uninit
  /-- the other keyword arguments, in the order given, to `**kwrest` -/
  | kwrest (n : Nat) : s.kwrest = some n →
      Sig.Binds s args kw blk n
        (.hash ((kw.getD []).filter (fun p => p.1 ∉ s.kw.map (·.1))))
  /-- the block, or nil -/
  | block (n : Nat) (b : Nat) : s.block = some n → blk = some b → Sig.Binds s args kw blk n (.proc b)
  | noBlock (n : Nat) : s.block = some n → blk = none → Sig.Binds s args kw blk n .nil

/-- A block called with a single array takes its elements as arguments, if it has more than one
parameter (a rest parameter counts when there is another one besides it). -/
def Sig.spreads (s : Sig) : Bool :=
  1 < s.req.length + s.opt.length + s.post.length ||
    (s.rest.isSome && 0 < s.req.length + s.opt.length + s.post.length)

/-- The arguments of a block, a single array spread. -/
def Sig.spreadArgs (s : Sig) : List Val → List Val
  | [.array a] => if s.spreads then a else [.array a]
  | args => args

/-- The positional arguments of a block: an array is spread, missing arguments are nil, surplus ones are
dropped. -/
def Sig.blockArgs (s : Sig) (args : List Val) : List Val :=
  let args := s.spreadArgs args
  let args := args ++ List.replicate (s.req.length + s.post.length - args.length) .nil
  if s.rest.isSome then args else args.take (s.req.length + s.opt.length + s.post.length)

/-- The frame `l` of code `c` holds `v` for the variable `n`. -/
def Holds (c : Code) (l : List Val) (n : Nat) (v : Val) : Prop :=
  ∃ i : Nat, c.lvar.table[i]? = some n ∧ l[i]? = some v

/-- What `*v` stands for in an argument list: the elements of an array, the integers of an integer
range, any other object itself.  (`nil` and objects with `to_a` are not covered.) -/
inductive Expands : Val → List Val → Prop
  | array (a : List Val) : Expands (.array a) a
  | range (lo hi : Int) (excl : Bool) (is : List Int) :
      (∀ i, i ∈ is ↔ lo ≤ i ∧ (if excl then i < hi else i ≤ hi)) → is.Pairwise (· < ·) →
      Expands (.range (.int lo) (.int hi) excl) (is.map .int)
  | obj (n : Nat) : Expands (.obj n) [.obj n]
  | int (n : Int) : Expands (.int n) [.int n]
  | proc (n : Nat) : Expands (.proc n) [.proc n]

/-- `out` are the values of the argument list `l` with every splat expanded in place. -/
inductive Splatted : List Val → List Val → Prop
  | nil : Splatted [] []
  | plain (v : Val) (l out : List Val) : (∀ w, v ≠ .splat w) → Splatted l out →
      Splatted (v :: l) (v :: out)
  | splat (v : Val) (a l out : List Val) : Expands v a → Splatted l out →
      Splatted (.splat v :: l) (a ++ out)

end Verif.Args
