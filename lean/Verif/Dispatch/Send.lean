import Verif.Args.Props2
/-! # C101: what a call passes

The code that `gen_send` makes for a method call (codegen/send.rs), run on the stack of the VM up to the call itself
(`vm_send`, `vm_fast_send`).  The expressions for the receiver and the arguments and the method that is called are
arbitrary computations. -/
namespace Verif.Dispatch.Send
open Verif.Args (Val popArgsToArgs popArgsToArray Splatted JustEmpty)

variable {σ ε : Type}

/-! ## Model -/

/-- What the code for an expression does: it leaves one value on the stack, or raises. -/
abbrev Ev (σ ε : Type) := σ → Except ε Val × σ

/-- `Block` (vm/args.rs:6-10). -/
inductive Blk
  | block (fn : Nat)
  | proc (n : Nat)
  | sym (id : Nat)
  deriving DecidableEq

/-- The block part of a call: none, a literal `{ … }` that has been compiled to this function (never 0), or `&expr`. -/
inductive BlockArg (σ ε : Type)
  | none
  | lit (fn : Nat)
  | arg (e : Ev σ ε)

/-- A call with its `ArgList` (ruruby-parse/src/node.rs:185-218). -/
structure Node (σ ε : Type) where
  recv : Ev σ ε
  method : Nat
  /-- `true`: written `*expr` -/
  args : List (Bool × Ev σ ε) := []
  kws : List (Nat × Ev σ ε) := []
  hashSplat : List (Ev σ ε) := []
  block : BlockArg σ ε := .none
  delegate : Bool := false
  safeNav : Bool := false
  useValue : Bool := true

/-- The instructions of a call.  Simplified: the symbols of keyword arguments, which are pushed one by one, are given to
`hash`; inline caches and source positions are left out; `jmpF n` skips `n` instructions. -/
inductive Instr (σ ε : Type)
  | eval (e : Ev σ ε)
  | splat
  | hash (keys : List Nat)
  | array (n : Nat)
  | dup
  | pushNil
  | ne
  | jmpF (n : Nat)
  | optSend (method args block : Nat) (useValue : Bool)
  | send (method args flag block : Nat)
  | pop

/-- `ArgFlag::new` (ruruby-common/src/arg_flag.rs:44-57). -/
def flagNew (kw block delegate hashSplat splat : Bool) : Nat :=
  (if kw then 1 else 0) + (if block then 2 else 0) + (if delegate then 4 else 0) + (if hashSplat then 8 else 0) + (if splat then 16 else 0)

/-- `has_hash_arg`, `has_block_arg`, `has_delegate`, `has_hash_splat`, `has_splat` (ruruby-common/src/arg_flag.rs:79-103). -/
def hasKw (f : Nat) : Bool := f &&& 1 != 0
def hasBlock (f : Nat) : Bool := f &&& 2 != 0
def hasDelegate (f : Nat) : Bool := f &&& 4 != 0
def hasHashSplat (f : Nat) : Bool := f &&& 8 != 0
def hasSplat (f : Nat) : Bool := f &&& 16 != 0

/-- The arguments as `gen_nodes_check_splat` compiles them (codegen/send.rs:101-115; `NodeKind::Splat`, codegen.rs:958-961). -/
def genArgs : List (Bool × Ev σ ε) → List (Instr σ ε)
  | [] => []
  | (false, e) :: l => .eval e :: genArgs l
  | (true, e) :: l => .eval e :: .splat :: genArgs l

/-- `get_block` (codegen.rs:495-528): the code, the function (0: none), and whether there is a block argument. -/
def genBlock : BlockArg σ ε → List (Instr σ ε) × Nat × Bool
  | .none => ([], 0, false)
  | .lit fn => ([], fn, false)
  | .arg e => ([.eval e], 0, true)

/-- `gen_send` (codegen/send.rs:16-79, 119-160); the number of arguments is written as 16 bits. -/
def genSend (c : Node σ ε) : List (Instr σ ε) :=
  let splat := c.args.any (·.1)
  let n := c.args.length % 2 ^ 16
  let kw := !c.kws.isEmpty
  let b := genBlock c.block
  .eval c.recv :: genArgs c.args ++
    (if kw then c.kws.map (fun p => .eval p.2) ++ [.hash (c.kws.map (·.1))] else []) ++
    (if c.hashSplat.length > 0 then c.hashSplat.map .eval ++ [.array c.hashSplat.length] else []) ++ b.1 ++
    (if !b.2.2 && !kw && !splat && c.hashSplat.length == 0 && !c.delegate then
      if c.safeNav then [.dup, .pushNil, .ne, .jmpF 1, .optSend c.method n b.2.1 c.useValue] else [.optSend c.method n b.2.1 c.useValue]
    else .send c.method n (flagNew kw b.2.2 c.delegate (c.hashSplat.length > 0) splat) b.2.1 :: (if !c.useValue then [.pop] else []))

/-- What is handed to the method (`Args2`, vm/args.rs:79-85, with the arguments themselves). -/
structure Sent where
  method : Nat
  recv : Val
  args : List Val
  kw : Option (List (Nat × Val))
  block : Option Blk

/-- The program around the call: how a method runs, `==` with nil, which values are symbols, `to_proc`, the exceptions the
VM itself raises, and the array of the parameter `...` of the running method, if there is one. -/
structure World (σ ε : Type) where
  call : Sent → σ → Except ε Val × σ
  eqNil : Val → σ → Except ε Bool × σ
  asSym : Val → Option Nat
  toProc : Val → σ → Except ε Val × σ
  notProc : ε
  notHash : ε
  delegate : Option (List Val) := none

/-- How the code ends: with this stack (top first), an exception, or the interpreter stops. -/
inductive Res (ε : Type)
  | ok (stack : List Val)
  | raised (e : ε)
  | panic

/-- `hash.insert` of an index map. -/
def insertKey (l : List (Nat × Val)) (k : Nat) (v : Val) : List (Nat × Val) :=
  match l with
  | [] => [(k, v)]
  | (k', v') :: l => if k' = k then (k, v) :: l else (k', v') :: insertKey l k v

/-- `pop_key_value_pair` (vm/executor.rs:828-838) and the inner loop of `handle_hash_args` (vm/executor/opt_core.rs:624-626). -/
def insertAll (l : List (Nat × Val)) : List (Nat × Val) → List (Nat × Val)
  | [] => l
  | (k, v) :: r => insertAll (insertKey l k v) r

/-- The loop of `handle_hash_args` (vm/executor/opt_core.rs:623-627): `none` for the TypeError. -/
def mergeSplats (l : List (Nat × Val)) : List Val → Option (List (Nat × Val))
  | [] => some l
  | .hash h :: r => mergeSplats (insertAll l h) r
  | _ :: _ => none

/-- `handle_hash_args` (vm/executor/opt_core.rs:608-632): the keywords and the rest of the stack.  `none`: a panic;
`some none`: the TypeError. -/
def handleHashIf (kw hashSplat : Bool) (st : List Val) : Option (Option (Option (List (Nat × Val)) × List Val)) :=
  if !kw && !hashSplat then some (some (none, st))
  else
    match (if hashSplat then (match st with | .array a :: st => some (a, st) | _ => none) else some ([], st)) with
    | none => none
    | some (sp, st) =>
      match (if kw then (match st with | .hash h :: st => some (h, st) | _ => none) else some ([], st)) with
      | none => none
      | some (kw, st) => some ((mergeSplats kw sp).map fun kw => (some kw, st))

/-- `handle_hash_args` with the flag of the instruction. -/
def handleHash (flag : Nat) (st : List Val) : Option (Option (Option (List (Nat × Val)) × List Val)) :=
  handleHashIf (hasKw flag) (hasHashSplat flag) st

/-- `handle_block_arg` (vm/executor/opt_core.rs:634-666): the block and the rest of the stack.  `none`: a panic. -/
def handleBlock (w : World σ ε) (block flag : Nat) (st : List Val) (s : σ) : Option (Except ε (Option Blk × List Val) × σ) :=
  if block ≠ 0 then some (.ok (some (.block block), st), s)
  else if hasBlock flag then
    match st with
    | [] => none
    | .nil :: st => some (.ok (none, st), s)
    | .proc n :: st => some (.ok (some (.proc n), st), s)
    | v :: st =>
      match w.asSym v with
      | some id => some (.ok (some (.sym id), st), s)
      | none =>
        match w.toProc v s with
        | (.error e, s) => some (.error e, s)
        | (.ok (.proc n), s) => some (.ok (some (.proc n), st), s)
        | (.ok _, s) => some (.error w.notProc, s)
  else some (.ok (none, st), s)

/-- The code of a call (vm/executor/opt_core.rs; `vm_fast_send` 673-695, `vm_send` 709-737).  A call takes the receiver and
the arguments from the stack. -/
def run (w : World σ ε) : List (Instr σ ε) → List Val → σ → Res ε × σ
  | [], st, s => (.ok st, s)
  | .eval e :: is, st, s =>
    match e s with
    | (.error x, s) => (.raised x, s)
    | (.ok v, s) => run w is (v :: st) s
  | .splat :: is, st, s =>
    match st with
    | v :: st => run w is (.splat v :: st) s
    | [] => (.panic, s)
  | .hash keys :: is, st, s => run w is (.hash (insertAll [] (keys.zip (st.take keys.length).reverse)) :: st.drop keys.length) s
  | .array n :: is, st, s =>
    match popArgsToArray [] (st.take n).reverse with
    | .error _ => (.panic, s)
    | .ok a => run w is (.array a :: st.drop n) s
  | .dup :: is, st, s =>
    match st with
    | v :: st => run w is (v :: v :: st) s
    | [] => (.panic, s)
  | .pushNil :: is, st, s => run w is (.nil :: st) s
  | .ne :: is, st, s =>
    match st with
    | .nil :: v :: st =>
      match w.eqNil v s with
      | (.error x, s) => (.raised x, s)
      | (.ok b, s) => run w is ((if b then .nil else .obj 0) :: st) s
    | _ => (.panic, s)
  | .jmpF n :: is, st, s =>
    match st with
    | .nil :: st => run w (is.drop n) st s
    | _ :: st => run w is st s
    | [] => (.panic, s)
  | .optSend m n b use :: is, st, s =>
    match st.drop n with
    | [] => (.panic, s)
    | r :: rest =>
      match w.call ⟨m, r, (st.take n).reverse, none, if b ≠ 0 then some (.block b) else none⟩ s with
      | (.error x, s) => (.raised x, s)
      | (.ok v, s) => run w is (if use then v :: rest else rest) s
  | .send m n flag b :: is, st, s =>
    match handleBlock w b flag st s with
    | none => (.panic, s)
    | some (.error x, s) => (.raised x, s)
    | some (.ok (blk, st), s) =>
      match handleHash flag st with
      | none => (.panic, s)
      | some none => (.raised w.notHash, s)
      | some (some (kw, st)) =>
        match st.drop n with
        | [] => (.panic, s)
        | r :: rest =>
          match (if hasSplat flag then popArgsToArgs (st.take n).reverse else .ok (st.take n).reverse) with
          | .error _ => (.panic, s)
          | .ok args =>
            match w.call ⟨m, r, args ++ (if hasDelegate flag then w.delegate.getD [] else []), kw, blk⟩ s with
            | (.error x, s) => (.raised x, s)
            | (.ok v, s) => run w is (v :: rest) s
  | .pop :: is, st, s => run w is st.tail s
  termination_by is => is.length
  decreasing_by all_goals simp only [List.length_cons, List.length_drop]; omega

/-- A parameter of the running method, for `super` (`ISeqParams::param_ident`, codegen.rs:167-208). -/
inductive Param
  | req
  | opt
  | post
  | rest
  | kw (name : Nat)
  | kwrest
  | block
  deriving DecidableEq

/-- `super(…)` (codegen.rs:1383-1405): `none` if the compiler stops.  Only the arguments and the block are looked at. -/
def genSuper (c : Node σ ε) : Option (List (Instr σ ε) × Nat) :=
  match c.block with
  | .arg _ => none
  | _ => some (genArgs c.args, c.args.length % 2 ^ 16)

/-- `super(…)` of the receiver `me` (codegen.rs:1384, 1389-1404; `SUPER`, vm/executor/opt_core.rs:498-504; `vm_super` with arguments
765-768): the block is read and dropped. -/
def runSuper (w : World σ ε) (me : Val) (c : Node σ ε) (st : List Val) (s : σ) : Res ε × σ :=
  match genSuper c with
  | none => (.panic, s)
  | some (is, n) =>
    match run w is (me :: st) s with
    | (.ok st, s) =>
      match st.drop n, popArgsToArgs (st.take n).reverse with
      | _ :: rest, .ok args =>
        match w.call ⟨c.method, me, args, none, none⟩ s with
        | (.error x, s) => (.raised x, s)
        | (.ok v, s) => (.ok (if c.useValue then v :: rest else rest), s)
      | _, _ => (.panic, s)
    | o => o

/-- The arguments of `super` without argument list (`vm_super`, vm/executor/opt_core.rs:757-763): the first slots of the
running frame, as many as the method has parameters.  A slot beyond the frame is read as nil here. -/
def implicitArgs (params : List Param) (slots : List Val) : List Val := (List.range params.length).map fun i => slots.getD i .nil

/-- `super` without argument list: what is sent. -/
def implicitSuper (method : Nat) (me : Val) (params : List Param) (slots : List Val) : Sent :=
  ⟨method, me, implicitArgs params slots, none, none⟩

/-! ## Specification -/

/-- The expressions are evaluated from the first to the last. -/
inductive Evals : List (Ev σ ε) → σ → List Val → σ → Prop
  | nil {s} : Evals [] s [] s
  | cons {e es s v s' vs s''} : e s = (.ok v, s') → Evals es s' vs s'' → Evals (e :: es) s (v :: vs) s''

/-- The expressions are evaluated from the first on until one raises. -/
inductive Raises : List (Ev σ ε) → σ → ε → σ → Prop
  | here {e es s x s'} : e s = (.error x, s') → Raises (e :: es) s x s'
  | later {e es s v s' x s''} : e s = (.ok v, s') → Raises es s' x s'' → Raises (e :: es) s x s''

/-- All expressions of a call in the order of the text. -/
def Node.exprs (c : Node σ ε) : List (Ev σ ε) :=
  c.recv :: c.args.map (·.2) ++ c.kws.map (·.2) ++ c.hashSplat ++ (match c.block with | .arg e => [e] | _ => [])

/-- No expression has the wrapper of `*` as its value. -/
def Proper (es : List (Ev σ ε)) : Prop := ∀ e ∈ es, ∀ s v s', e s = (.ok v, s') → ∀ w, v ≠ .splat w

/-- The block that a call passes: a literal, or what the value of `&expr` stands for. -/
inductive BlockOf (w : World σ ε) : BlockArg σ ε → List Val → σ → Option Blk → σ → Prop
  | none {s} : BlockOf w .none [] s none s
  | lit {fn s} : BlockOf w (.lit fn) [] s (some (.block fn)) s
  | nil {e s} : BlockOf w (.arg e) [.nil] s .none s
  | proc {e n s} : BlockOf w (.arg e) [.proc n] s (some (.proc n)) s
  | sym {e v id s} : v ≠ .nil → (∀ n, v ≠ .proc n) → w.asSym v = some id → BlockOf w (.arg e) [v] s (some (.sym id)) s
  | conv {e v n s s'} : v ≠ .nil → (∀ n, v ≠ .proc n) → w.asSym v = .none → w.toProc v s = (.ok (.proc n), s') →
      BlockOf w (.arg e) [v] s (some (.proc n)) s'

/-- The last value that the list has for the key. -/
def lastOf (k : Nat) (l : List (Nat × Val)) : Option Val := (l.reverse.find? (·.1 == k)).map (·.2)

/-- `kw` are keywords with these entries: a later entry for the same key counts. -/
def Keywords (entries : List (Nat × Val)) (kw : List (Nat × Val)) : Prop :=
  (kw.map (·.1)).Nodup ∧ ∀ k, (kw.find? (·.1 == k)).map (·.2) = lastOf k entries

/-- The values of `*expr` are marked. -/
def marked (args : List (Bool × Ev σ ε)) (vs : List Val) : List Val :=
  (args.zip vs).map fun p => if p.1.1 then .splat p.2 else p.2

/-! ## Helpers -/

theorem flags (k b d h s : Bool) : hasKw (flagNew k b d h s) = k ∧ hasBlock (flagNew k b d h s) = b ∧ hasDelegate (flagNew k b d h s) = d ∧
    hasHashSplat (flagNew k b d h s) = h ∧ hasSplat (flagNew k b d h s) = s := by
  revert k b d h s; decide

theorem evals_length {es : List (Ev σ ε)} {s vs s'} (h : Evals es s vs s') : vs.length = es.length := by
  induction h with
  | nil => rfl
  | cons _ _ ih => simp [ih]

theorem evals_proper {es : List (Ev σ ε)} {s vs s'} (h : Evals es s vs s') (p : Proper es) : ∀ v ∈ vs, ∀ w, v ≠ .splat w := by
  induction h with
  | nil => simp
  | cons e _ ih =>
    intro v hv
    rcases List.mem_cons.1 hv with rfl | hv
    · exact p _ (by simp) _ _ _ e
    · exact ih (fun e he => p e (by simp [he])) v hv

theorem evals_append {a b : List (Ev σ ε)} {s vs s''} : Evals (a ++ b) s vs s'' ↔ ∃ xs ys s', vs = xs ++ ys ∧ Evals a s xs s' ∧ Evals b s' ys s'' := by
  induction a generalizing s vs with
  | nil =>
    constructor
    · intro h; exact ⟨[], vs, s, rfl, .nil, h⟩
    · rintro ⟨xs, ys, s', rfl, h1, h2⟩; cases h1; exact h2
  | cons e a ih =>
    constructor
    · intro h
      cases h with
      | cons e1 e2 =>
        obtain ⟨xs, ys, s', rfl, h1, h2⟩ := ih.1 e2
        exact ⟨_ :: xs, ys, s', rfl, .cons e1 h1, h2⟩
    · rintro ⟨xs, ys, s', rfl, h1, h2⟩
      cases h1 with
      | cons e1 e2 => exact .cons e1 (ih.2 ⟨_, ys, s', rfl, e2, h2⟩)

theorem run_evals (w : World σ ε) {es : List (Ev σ ε)} {s vs s'} (h : Evals es s vs s') (is : List (Instr σ ε)) (st : List Val) :
    run w (es.map .eval ++ is) st s = run w is (vs.reverse ++ st) s' := by
  induction h generalizing st with
  | nil => rfl
  | cons e _ ih => simp only [List.map_cons, List.cons_append, run, e, ih]; simp

theorem run_args (w : World σ ε) : ∀ {args : List (Bool × Ev σ ε)} {s vs s'}, Evals (args.map (·.2)) s vs s' → ∀ (is : List (Instr σ ε)) (st : List Val),
    run w (genArgs args ++ is) st s = run w is ((marked args vs).reverse ++ st) s'
  | [], s, vs, s', h, is, st => by cases h; rfl
  | (b, e) :: args, s, vs, s', h, is, st => by
    cases h with
    | cons e1 e2 =>
      have e0 : e s = _ := e1
      cases b
      · simp only [genArgs, List.cons_append, run, e0, run_args w e2]; simp [marked]
      · simp only [genArgs, List.cons_append, run, e0, run_args w e2]; simp [marked]

theorem insertKey_keys (l : List (Nat × Val)) (k : Nat) (v : Val) (h : (l.map (·.1)).Nodup) : ((insertKey l k v).map (·.1)).Nodup ∧
    ∀ k', k' ∈ (insertKey l k v).map (·.1) ↔ k' = k ∨ k' ∈ l.map (·.1) := by
  induction l with
  | nil => simp [insertKey]
  | cons p l ih =>
    obtain ⟨a, b⟩ := p
    simp only [List.map_cons, List.nodup_cons] at h
    obtain ⟨i1, i2⟩ := ih h.2
    simp only [insertKey]
    by_cases ha : a = k
    · subst ha
      simp only [if_true, List.map_cons, List.nodup_cons, List.mem_cons]
      exact ⟨h, fun k' => by tauto⟩
    · simp only [if_neg ha, List.map_cons, List.nodup_cons, List.mem_cons]
      refine ⟨⟨?_, i1⟩, fun k' => by rw [i2]; tauto⟩
      rw [i2]; rintro (h' | h')
      · exact ha h'
      · exact h.1 h'

theorem insertKey_find (l : List (Nat × Val)) (k : Nat) (v : Val) (k' : Nat) :
    ((insertKey l k v).find? (·.1 == k')).map (·.2) = if k = k' then some v else (l.find? (·.1 == k')).map (·.2) := by
  induction l with
  | nil => by_cases h : k = k' <;> simp [insertKey, h]
  | cons p l ih =>
    obtain ⟨a, b⟩ := p
    simp only [insertKey]
    by_cases ha : a = k
    · subst ha
      by_cases h : a = k' <;> simp [h]
    · rw [if_neg ha]
      by_cases h : a = k'
      · subst h; simp [Ne.symm ha]
      · simp [h, ih]

theorem keywords_insert {es l : List (Nat × Val)} (h : Keywords es l) (k : Nat) (v : Val) : Keywords (es ++ [(k, v)]) (insertKey l k v) := by
  refine ⟨(insertKey_keys l k v h.1).1, fun k' => ?_⟩
  rw [insertKey_find, h.2, lastOf, lastOf]
  by_cases hk : k = k' <;> simp [hk]

theorem keywords_all {es l : List (Nat × Val)} : ∀ {r : List (Nat × Val)}, Keywords es l → Keywords (es ++ r) (insertAll l r)
  | [], h => by simpa [insertAll] using h
  | (k, v) :: r, h => by
    have := keywords_all (r := r) (keywords_insert h k v)
    simpa [insertAll] using this

theorem keywords_merge {es l : List (Nat × Val)} : ∀ {hs : List (List (Nat × Val))}, Keywords es l →
    ∃ kw, mergeSplats l (hs.map .hash) = some kw ∧ Keywords (es ++ hs.flatten) kw
  | [], h => ⟨l, rfl, by simpa using h⟩
  | x :: hs, h => by
    obtain ⟨kw, e, k⟩ := keywords_merge (hs := hs) (keywords_all (r := x) h)
    exact ⟨kw, by simp [mergeSplats, e], by simpa using k⟩

theorem keywords_nil : Keywords [] [] := ⟨by simp, fun k => by simp [lastOf]⟩

theorem array_plain : ∀ {l : List Val} (acc : List Val), (∀ v ∈ l, ∀ w, v ≠ .splat w) → popArgsToArray acc l = .ok (acc ++ l)
  | [], acc, _ => by simp [popArgsToArray]
  | v :: l, acc, h => by
    have ih := array_plain (l := l) (acc ++ [v]) (fun v hv => h v (by simp [hv]))
    have hv := h v (by simp)
    cases v with
    | splat v => exact absurd rfl (hv v)
    | _ => simpa [popArgsToArray] using ih

theorem marked_plain : ∀ {args : List (Bool × Ev σ ε)} {vs : List Val}, args.any (·.1) = false → vs.length = args.length → marked args vs = vs
  | [], [], _, _ => rfl
  | [], _ :: _, _, h => by simp at h
  | _ :: _, [], _, h => by simp at h
  | (b, e) :: args, v :: vs, h, hl => by
    simp only [List.any_cons, Bool.or_eq_false_iff] at h
    have := marked_plain (args := args) (vs := vs) h.2 (by simpa using hl)
    simp only [marked] at this ⊢
    simp [h.1, this]

theorem splatted_plain {l out : List Val} (hl : ∀ v ∈ l, ∀ w, v ≠ .splat w) (h : Splatted l out) : out = l := by
  induction h with
  | nil => rfl
  | plain v l out _ _ ih => rw [ih fun v hv => hl v (by simp [hv])]
  | splat v a l out _ _ _ => exact absurd rfl (hl (.splat v) (by simp) v)

theorem evals_split {a b : List (Ev σ ε)} {s xs ys s''} (h : Evals (a ++ b) s (xs ++ ys) s'') (hl : xs.length = a.length) :
    ∃ s', Evals a s xs s' ∧ Evals b s' ys s'' := by
  obtain ⟨xs', ys', s', e, h1, h2⟩ := evals_append.1 h
  obtain ⟨rfl, rfl⟩ := List.append_inj e (by rw [hl, evals_length h1])
  exact ⟨s', h1, h2⟩

theorem block_eval {w : World σ ε} {b : BlockArg σ ε} {bs : List Val} {s1 s2 s3 : σ} {blk : Option Blk}
    (he : Evals (match b with | .arg e => [e] | _ => []) s1 bs s2) (hb : BlockOf w b bs s2 blk s3) (hf : ∀ fn, b = .lit fn → fn ≠ 0)
    (kw d h sp : Bool) (st : List Val) (is : List (Instr σ ε)) :
    run w ((genBlock b).1 ++ is) st s1 = run w is (bs.reverse ++ st) s2 ∧
    handleBlock w (genBlock b).2.1 (flagNew kw (genBlock b).2.2 d h sp) (bs.reverse ++ st) s2 = some (.ok (blk, st), s3) := by
  have fl := fun x => (flags kw x d h sp).2.1
  cases hb with
  | none => cases he; exact ⟨rfl, by simp [handleBlock, genBlock, fl]⟩
  | lit => cases he; exact ⟨rfl, by simp [handleBlock, genBlock, hf _ rfl]⟩
  | nil =>
    cases he with
    | cons e1 e2 => cases e2; exact ⟨by simp [genBlock, run, e1], by simp [handleBlock, genBlock, fl]⟩
  | proc =>
    cases he with
    | cons e1 e2 => cases e2; exact ⟨by simp [genBlock, run, e1], by simp [handleBlock, genBlock, fl]⟩
  | sym h1 h2 h3 =>
    rename_i v id
    cases he with
    | cons e1 e2 =>
      cases e2
      refine ⟨by simp [genBlock, run, e1], ?_⟩
      cases v <;> first | exact absurd rfl h1 | exact absurd rfl (h2 _) | simp [handleBlock, genBlock, fl, h3]
  | conv h1 h2 h3 h4 =>
    rename_i v id
    cases he with
    | cons e1 e2 =>
      cases e2
      refine ⟨by simp [genBlock, run, e1], ?_⟩
      cases v <;> first | exact absurd rfl h1 | exact absurd rfl (h2 _) | simp [handleBlock, genBlock, fl, h3, h4]

/-- What the keyword arguments leave on the stack. -/
def kwSlot (kws : List (Nat × Ev σ ε)) (ks : List Val) : List Val :=
  if !kws.isEmpty then [.hash (insertAll [] ((kws.map (·.1)).zip ks))] else []

theorem run_kws (w : World σ ε) {kws : List (Nat × Ev σ ε)} {s ks s'} (h : Evals (kws.map (·.2)) s ks s') (is : List (Instr σ ε)) (st : List Val) :
    run w ((if !kws.isEmpty then kws.map (fun p => .eval p.2) ++ [.hash (kws.map (·.1))] else []) ++ is) st s =
      run w is (kwSlot kws ks ++ st) s' := by
  have hl := evals_length h
  cases kws with
  | nil => cases h; rfl
  | cons p kws =>
    have hm : (p :: kws).map (fun p => Instr.eval p.2) = ((p :: kws).map (·.2)).map (Instr.eval (σ := σ) (ε := ε)) := by simp
    simp only [List.isEmpty_cons, Bool.not_false, if_true, kwSlot]
    rw [hm, List.append_assoc, run_evals w h]
    simp only [List.map_cons, List.cons_append, List.nil_append, run, List.length_cons, List.length_map]
    simp only [List.length_map, List.length_cons] at hl
    rw [List.take_left' (by simpa using hl), List.drop_left' (by simpa using hl), List.reverse_reverse]

/-- What the `**` arguments leave on the stack. -/
def splatSlot (hs : List Val) : List Val := if hs.length > 0 then [.array hs] else []

theorem run_splats (w : World σ ε) {es : List (Ev σ ε)} {s} {hs : List Val} {s'} (h : Evals es s hs s') (hp : ∀ v ∈ hs, ∀ w, v ≠ .splat w) (is : List (Instr σ ε)) (st : List Val) :
    run w ((if es.length > 0 then es.map .eval ++ [.array es.length] else []) ++ is) st s = run w is (splatSlot hs ++ st) s' := by
  have hl := evals_length h
  by_cases h0 : es.length > 0
  · rw [if_pos h0, splatSlot, if_pos (by omega), List.append_assoc, run_evals w h]
    simp only [List.cons_append, List.nil_append, run]
    rw [List.take_left' (by simpa using hl), List.drop_left' (by simpa using hl), List.reverse_reverse, array_plain _ hp]
    simp
  · obtain rfl : es = [] := List.length_eq_zero_iff.1 (by omega)
    cases h; rfl

theorem raises_append {a b : List (Ev σ ε)} {s x s''} (h : Raises (a ++ b) s x s'') : Raises a s x s'' ∨ ∃ vs s', Evals a s vs s' ∧ Raises b s' x s'' := by
  induction a generalizing s with
  | nil => exact .inr ⟨[], s, .nil, h⟩
  | cons e a ih =>
    cases h with
    | here e1 => exact .inl (.here e1)
    | later e1 e2 =>
      rcases ih e2 with h | ⟨vs, s', h1, h2⟩
      · exact .inl (.later e1 h)
      · exact .inr ⟨_ :: vs, s', .cons e1 h1, h2⟩

theorem run_raises (w : World σ ε) {es : List (Ev σ ε)} {s x s'} (h : Raises es s x s') (is : List (Instr σ ε)) (st : List Val) :
    run w (es.map .eval ++ is) st s = (.raised x, s') := by
  induction h generalizing st with
  | here e => simp [run, e]
  | later e _ ih => simp only [List.map_cons, List.cons_append, run, e, ih]

theorem run_args_raises (w : World σ ε) : ∀ {args : List (Bool × Ev σ ε)} {s x s'}, Raises (args.map (·.2)) s x s' → ∀ (is : List (Instr σ ε)) (st : List Val),
    run w (genArgs args ++ is) st s = (.raised x, s')
  | (b, e) :: args, s, x, s', h, is, st => by
    cases h with
    | here e1 =>
      have e0 : e s = _ := e1
      cases b <;> simp only [genArgs, List.cons_append, run, e0]
    | later e1 e2 =>
      have e0 : e s = _ := e1
      cases b <;> simp only [genArgs, List.cons_append, run, e0, run_args_raises w e2]

theorem run_kws_raises (w : World σ ε) {kws : List (Nat × Ev σ ε)} {s x s'} (h : Raises (kws.map (·.2)) s x s') (is : List (Instr σ ε)) (st : List Val) :
    run w ((if !kws.isEmpty then kws.map (fun p => .eval p.2) ++ [.hash (kws.map (·.1))] else []) ++ is) st s = (.raised x, s') := by
  cases kws with
  | nil => cases h
  | cons p kws =>
    have hm : (p :: kws).map (fun p => Instr.eval p.2) = ((p :: kws).map (·.2)).map (Instr.eval (σ := σ) (ε := ε)) := by simp
    simp only [List.isEmpty_cons, Bool.not_false, if_true]
    rw [hm, List.append_assoc, run_raises w h]

theorem run_splats_raises (w : World σ ε) {es : List (Ev σ ε)} {s x s'} (h : Raises es s x s') (is : List (Instr σ ε)) (st : List Val) :
    run w ((if es.length > 0 then es.map .eval ++ [.array es.length] else []) ++ is) st s = (.raised x, s') := by
  cases es with
  | nil => cases h
  | cons e es => rw [if_pos (by simp), List.append_assoc, run_raises w h]

/-! ## C101 -/

/-- A call evaluates the receiver, the arguments, the keyword arguments, the `**` arguments and the block argument in the
order of the text, each once, and then calls the method once: with the receiver, the arguments with every `*` expanded (and
the arguments of `...`), the keywords, and the block.  The stack afterwards is the one before with the value of the call on
it if it is used.

`_partial`: not `&.`, less than 65536 arguments, and not for the ranges of `C39_empty_range_fails`. -/
theorem C101_call_partial (w : World σ ε) (c : Node σ ε) (hsafe : c.safeNav = false) (hlen : c.args.length < 2 ^ 16)
    (hlit : ∀ fn, c.block = .lit fn → fn ≠ 0) (hp : Proper c.exprs)
    {s s' s'' : σ} {r : Val} {as ks bs out : List Val} {hs : List (List (Nat × Val))} {b : Option Blk}
    (la : as.length = c.args.length) (lk : ks.length = c.kws.length) (lh : hs.length = c.hashSplat.length)
    (h : Evals c.exprs s (r :: as ++ ks ++ hs.map .hash ++ bs) s') (hb : BlockOf w c.block bs s' b s'')
    (hout : Splatted (marked c.args as) out) (hj : ∀ v ∈ marked c.args as, ¬ JustEmpty v) (st : List Val) :
    ∃ kw, (kw = none ↔ c.kws = [] ∧ c.hashSplat = []) ∧ (∀ l, kw = some l → Keywords ((c.kws.map (·.1)).zip ks ++ hs.flatten) l) ∧
      run w (genSend c) st s =
        match w.call ⟨c.method, r, out ++ (if c.delegate then w.delegate.getD [] else []), kw, b⟩ s'' with
        | (.error x, t) => (.raised x, t)
        | (.ok v, t) => (.ok (if c.useValue then v :: st else st), t) := by
  have hall := evals_proper h hp
  obtain ⟨s4, h, hbk⟩ := evals_split h (by simp [la, lk, lh])
  obtain ⟨s3, h, hhs⟩ := evals_split h (by simp [la, lk])
  obtain ⟨s2, h, hks⟩ := evals_split h (by simp [la])
  cases h with
  | cons er ha =>
  rename_i s1
  have hml : (marked c.args as).length = c.args.length := by simp [marked, la]
  have hn : c.args.length % 2 ^ 16 = c.args.length := Nat.mod_eq_of_lt hlen
  have blk := fun kw d h sp st is => block_eval hbk hb hlit kw d h sp st is
  -- the code up to the call
  have pre : ∀ T, run w (.eval c.recv :: genArgs c.args ++
      (if !c.kws.isEmpty then c.kws.map (fun p => .eval p.2) ++ [.hash (c.kws.map (·.1))] else []) ++
      (if c.hashSplat.length > 0 then c.hashSplat.map .eval ++ [.array c.hashSplat.length] else []) ++ (genBlock c.block).1 ++ T) st s =
      run w T (bs.reverse ++ (splatSlot (hs.map .hash) ++ (kwSlot c.kws ks ++ ((marked c.args as).reverse ++ r :: st)))) s' := by
    intro T
    simp only [List.append_assoc, List.cons_append]
    rw [run, er]
    show run w _ (r :: st) s1 = _
    rw [run_args w ha, run_kws w hks, run_splats w hhs (fun v hv => hall v (by simp only [List.mem_append]; exact .inl (.inr hv))), (blk false false false false _ _).1]
  -- the keywords
  obtain ⟨kw, hkw1, hkw2, hkw3⟩ : ∃ kw, (kw = none ↔ c.kws = [] ∧ c.hashSplat = []) ∧
      (∀ l, kw = some l → Keywords ((c.kws.map (·.1)).zip ks ++ hs.flatten) l) ∧
      ∀ bf d sp st, handleHash (flagNew (!c.kws.isEmpty) bf d (decide (c.hashSplat.length > 0)) sp) (splatSlot (hs.map .hash) ++ (kwSlot c.kws ks ++ st)) = some (some (kw, st)) := by
    have kz := keywords_all (r := (c.kws.map (·.1)).zip ks) keywords_nil
    simp only [List.nil_append] at kz
    obtain ⟨l, hl1, hl2⟩ := keywords_merge (hs := hs) kz
    by_cases hk : c.kws = []
    · by_cases hh : c.hashSplat = []
      · refine ⟨none, by simp [hk, hh], by simp, fun bf d sp st => ?_⟩
        have hs0 : hs = [] := List.length_eq_zero_iff.1 (by rw [lh, hh]; rfl)
        obtain ⟨f1, _, _, f4, _⟩ := flags (!c.kws.isEmpty) bf d (decide (c.hashSplat.length > 0)) sp
        rw [handleHash, f1, f4]
        unfold handleHashIf
        simp [hk, hh, hs0, kwSlot, splatSlot]
      · refine ⟨some l, by simp [hh], fun l' e => by cases e; exact hl2, fun bf d sp st => ?_⟩
        have hs0 : 0 < c.hashSplat.length := List.length_pos_iff.2 hh
        obtain ⟨f1, _, _, f4, _⟩ := flags (!c.kws.isEmpty) bf d (decide (c.hashSplat.length > 0)) sp
        rw [handleHash, f1, f4]
        unfold handleHashIf
        have hs1 : 0 < hs.length := by omega
        simp only [hk, List.map_nil, List.zip_nil_left, insertAll] at hl1
        simp [hk, hs0, hs1, kwSlot, splatSlot, hl1]
    · refine ⟨some l, by simp [hk], fun l' e => by cases e; exact hl2, fun bf d sp st => ?_⟩
      obtain ⟨f1, _, _, f4, _⟩ := flags (!c.kws.isEmpty) bf d (decide (c.hashSplat.length > 0)) sp
      rw [handleHash, f1, f4]
      unfold handleHashIf
      have hk' : c.kws.isEmpty = false := by cases hc : c.kws with
        | nil => exact absurd hc hk
        | cons _ _ => rfl
      by_cases hs0 : 0 < c.hashSplat.length
      · have hs1 : 0 < hs.length := by omega
        simp [hk', hs0, hs1, kwSlot, splatSlot, hl1]
      · have hs1 : hs = [] := List.length_eq_zero_iff.1 (by omega)
        subst hs1
        simp only [List.map_nil, mergeSplats, Option.some.injEq] at hl1
        simp [hk', hs0, kwSlot, splatSlot, mergeSplats, hl1]
  refine ⟨kw, hkw1, hkw2, ?_⟩
  unfold genSend
  simp only [hn]
  rw [pre]
  have argv : ∀ st', ((marked c.args as).reverse ++ st').take c.args.length = (marked c.args as).reverse ∧ ((marked c.args as).reverse ++ st').drop c.args.length = st' :=
    fun st' => ⟨List.take_left' (by simp [hml]), List.drop_left' (by simp [hml])⟩
  have exp : (if c.args.any (·.1) then popArgsToArgs (marked c.args as) else .ok (marked c.args as)) = .ok out := by
    by_cases hsp : c.args.any (·.1) = true
    · rw [if_pos hsp]; exact Args.C39_call_partial _ _ hout hj
    · rw [if_neg hsp]
      have := marked_plain (eq_false_of_ne_true hsp) la
      rw [this] at hout ⊢
      rw [splatted_plain (fun v hv => hall v (by simp [hv])) hout]
  by_cases hfast : (!(genBlock c.block).2.2 && !(!c.kws.isEmpty) && !c.args.any (·.1) && c.hashSplat.length == 0 && !c.delegate) = true
  · rw [if_pos hfast, hsafe]
    simp only [Bool.false_eq_true, if_false]
    simp only [Bool.and_eq_true, Bool.not_eq_true', Bool.not_eq_false', beq_iff_eq] at hfast
    obtain ⟨⟨⟨⟨f1, f2⟩, f3⟩, f4⟩, f5⟩ := hfast
    have hkn : kw = none := hkw1.2 ⟨List.isEmpty_iff.1 f2, List.length_eq_zero_iff.1 f4⟩
    have hs0 : hs = [] := List.length_eq_zero_iff.1 (by omega)
    have hbs : bs = [] ∧ s' = s'' ∧ b = (if (genBlock c.block).2.1 ≠ 0 then some (.block (genBlock c.block).2.1) else none) := by
      generalize hcb : c.block = cb at *
      cases hb with
      | none => exact ⟨rfl, rfl, rfl⟩
      | lit => exact ⟨rfl, rfl, by simp [genBlock, hlit _ rfl]⟩
      | _ => simp [genBlock] at f1
    obtain ⟨rfl, rfl, hb'⟩ := hbs
    rw [f3] at exp
    simp only [Bool.false_eq_true, if_false, Except.ok.injEq] at exp
    simp only [hs0, List.map_nil, splatSlot, kwSlot, f2, List.reverse_nil, List.nil_append, List.length_nil, Nat.lt_irrefl, gt_iff_lt, if_false, Bool.not_true, Bool.false_eq_true, run]
    rw [(argv _).2, (argv _).1, List.reverse_reverse]
    simp only [exp, ← hb', f5, Bool.false_eq_true, if_false, List.append_nil, hkn]
  · rw [if_neg hfast]
    obtain ⟨_, _, g3, _, g5⟩ := flags (!c.kws.isEmpty) (genBlock c.block).2.2 c.delegate (decide (c.hashSplat.length > 0)) (c.args.any (·.1))
    rw [run, (blk _ _ _ _ _ []).2]
    simp only []
    rw [hkw3]
    simp only []
    rw [(argv _).2, (argv _).1, List.reverse_reverse, g3, g5]
    simp only [exp]
    rcases w.call ⟨c.method, r, out ++ (if c.delegate = true then w.delegate.getD [] else []), kw, b⟩ s'' with ⟨_ | v, t⟩
    · rfl
    · cases c.useValue <;> simp [run]

/-- If one of the expressions raises, the expressions after it are not evaluated and the method is not called. -/
theorem C101_raises (w : World σ ε) (c : Node σ ε) (hp : Proper c.exprs) {s s' : σ} {x : ε} (h : Raises c.exprs s x s') (st : List Val) :
    run w (genSend c) st s = (.raised x, s') := by
  unfold genSend
  simp only [List.append_assoc, List.cons_append]
  rcases raises_append h with h | ⟨vs, s4, h4, h⟩
  · rcases raises_append h with h | ⟨vs, s3, h3, h⟩
    · rcases raises_append h with h | ⟨vs, s2, h2, h⟩
      · cases h with
        | here e => rw [run, e]
        | later e h =>
          rw [run, e]
          show run w _ _ _ = _
          rw [run_args_raises w h]
      · cases h2 with
        | cons e h2 =>
          rw [run, e]
          show run w _ _ _ = _
          rw [run_args w h2, run_kws_raises w h]
    · obtain ⟨xs, ys, t, _, h1, h2⟩ := evals_append.1 h3
      cases h1 with
      | cons e h1 =>
        rw [run, e]
        show run w _ _ _ = _
        rw [run_args w h1, run_kws w h2, run_splats_raises w h]
  · obtain ⟨xs, hs, t, _, h1, h3⟩ := evals_append.1 h4
    obtain ⟨ys, zs, u, _, h1, h2⟩ := evals_append.1 h1
    cases h1 with
    | cons e h1 =>
      rw [run, e]
      show run w _ _ _ = _
      rw [run_args w h1, run_kws w h2, run_splats w h3 (evals_proper h3 fun e he => hp e (by simp [Node.exprs, he]))]
      generalize c.block = b at *
      cases b with
      | none => cases h
      | lit => cases h
      | arg e =>
        cases h with
        | here e1 => simp [genBlock, run, e1]
        | later _ h => cases h

/-- `recv&.m` and `recv&.m { … }`: nil for nil, without a call; the ordinary call otherwise.

`_partial`: without arguments, with a value that is used, and for receivers whose `==` says that they are not nil. -/
theorem C101_safe_partial (w : World σ ε) (c : Node σ ε) (hsafe : c.safeNav = true) (ha : c.args = []) (hk : c.kws = []) (hh : c.hashSplat = [])
    (hb : ∀ e, c.block ≠ .arg e) (hd : c.delegate = false) (hu : c.useValue = true) {s s' : σ} {r : Val} (hr : c.recv s = (.ok r, s'))
    (hnil : w.eqNil .nil s' = (.ok true, s')) (hne : r ≠ .nil → w.eqNil r s' = (.ok false, s')) (st : List Val) :
    (r = .nil → run w (genSend c) st s = (.ok (.nil :: st), s')) ∧
    (r ≠ .nil → run w (genSend c) st s = run w (genSend { c with safeNav := false }) st s) := by
  have hbf : (genBlock c.block).2.2 = false ∧ (genBlock c.block).1 = [] := by
    cases hc : c.block with
    | arg e => exact absurd hc (hb e)
    | _ => exact ⟨rfl, rfl⟩
  constructor
  · rintro rfl
    simp [genSend, hsafe, ha, hk, hh, hd, hbf, genArgs, run, hr, hnil]
  · intro hn
    simp [genSend, hsafe, ha, hk, hh, hd, hbf, genArgs, run, hr, hne hn]

/-- `super(…)` with arguments (and `*`) evaluates them in order and calls the method of the superclass with them.

`_partial`: no keywords, `**` and block. -/
theorem C101_super_partial (w : World σ ε) (me : Val) (c : Node σ ε) (hlen : c.args.length < 2 ^ 16) (hb : c.block = .none)
    {s s' : σ} {as out : List Val} (h : Evals (c.args.map (·.2)) s as s')
    (hout : Splatted (marked c.args as) out) (hj : ∀ v ∈ marked c.args as, ¬ JustEmpty v) (st : List Val) :
    runSuper w me c st s =
      match w.call ⟨c.method, me, out, none, none⟩ s' with
      | (.error x, t) => (.raised x, t)
      | (.ok v, t) => (.ok (if c.useValue then v :: st else st), t) := by
  have la : as.length = c.args.length := by simpa using evals_length h
  have hml : (marked c.args as).length = c.args.length := by simp [marked, la]
  have hr := run_args w h [] (me :: st)
  rw [List.append_nil] at hr
  simp only [runSuper, genSuper, hb, hr, run, Nat.mod_eq_of_lt hlen]
  rw [List.take_left' (by simp [hml]), List.drop_left' (by simp [hml]), List.reverse_reverse, Args.C39_call_partial _ _ hout hj]

/-- `super` without argument list passes the values that the parameters have now.

`_partial`: for required and optional parameters, not inside a block, and if the method got no block. -/
theorem C101_implicit_super_partial (method : Nat) (me : Val) (params : List Param) (vals locals : List Val)
    (_hp : ∀ p ∈ params, p = .req ∨ p = .opt ∨ p = .post) (hl : vals.length = params.length) :
    implicitSuper method me params (vals ++ locals) = ⟨method, me, vals, none, none⟩ := by
  have : implicitArgs params (vals ++ locals) = vals := by
    apply List.ext_getElem?
    intro i
    by_cases hi : i < params.length
    · simp [implicitArgs, hi, List.getElem?_append_left (show i < vals.length by omega), List.getElem?_eq_getElem (show i < vals.length by omega)]
    · simp [implicitArgs, hi, List.getElem?_eq_none (show vals.length ≤ i by omega)]
  simp [implicitSuper, this]

/-! ## C101: where the code differs -/

/-- A world in which calls are recorded and answer 7. -/
def demo : World (List Nat) String where
  call := fun c s => (.ok (.int 7), s ++ [c.method])
  eqNil := fun v s => (.ok (match v with | .nil => true | _ => false), s)
  asSym := fun _ => none
  toProc := fun _ s => (.error "to_proc", s)
  notProc := "not a proc"
  notHash := "not a hash"

/-- A constant. -/
def lit (v : Val) : Ev σ ε := fun s => (.ok v, s)

/-- `nil&.m(1)` calls `m` of nil. -/
theorem C101_safe_arg_fails : run demo (genSend { recv := lit .nil, method := 5, args := [(false, lit (.int 1))], safeNav := true }) [] [] =
    (.ok [.int 7], [5]) := by
  simp [genSend, genArgs, genBlock, run, lit, demo]

/-- `3&.m(nil)` does not call `m`, and leaves the receiver on the stack under the value. -/
theorem C101_safe_nil_arg_fails : run demo (genSend { recv := lit (.int 3), method := 5, args := [(false, lit .nil)], safeNav := true }) [] [] =
    (.ok [.nil, .int 3], []) := by
  simp [genSend, genArgs, genBlock, run, lit, demo]

/-- `nil&.m(&nil)` calls `m` of nil. -/
theorem C101_safe_block_fails : run demo (genSend { recv := lit .nil, method := 5, block := .arg (lit .nil), safeNav := true }) [] [] =
    (.ok [.int 7], [5]) := by
  simp [genSend, genArgs, genBlock, run, lit, demo, handleBlock, handleHash, handleHashIf, flagNew, hasBlock, hasKw, hasHashSplat, hasSplat, hasDelegate]

/-- The statement `nil&.m` leaves a value on the stack. -/
theorem C101_safe_unused_fails : run demo (genSend { recv := lit .nil, method := 5, safeNav := true, useValue := false }) [] [] =
    (.ok [.nil], []) := by
  simp [genSend, genArgs, genBlock, run, lit, demo]

/-- `x&.m` is nil, without a call, if the `==` of `x` says that it is equal to nil. -/
theorem C101_safe_eq_fails : run { demo with eqNil := fun _ s => (.ok true, s) } (genSend { recv := lit (.obj 1), method := 5, safeNav := true }) [] [] =
    (.ok [.obj 1], []) := by
  simp [genSend, genArgs, genBlock, run, lit, demo]

/-- `m(**{})` passes a hash, which a method without keywords takes for an argument. -/
theorem C101_empty_splat_fails (w : World σ ε) (st : List Val) (s : σ) {v : Val} {s' : σ} (hc : w.call ⟨5, .nil, [], some [], none⟩ s = (.ok v, s')) :
    run w (genSend { recv := lit .nil, method := 5, hashSplat := [lit (.hash [])] }) st s = (.ok (v :: st), s') := by
  simp [genSend, genArgs, genBlock, run, lit, handleBlock, handleHash, handleHashIf, flagNew, hasBlock, hasKw, hasHashSplat, hasSplat, hasDelegate,
    popArgsToArray, mergeSplats, insertAll, hc]

/-- A call with 65536 arguments has the last one as receiver and passes none. -/
theorem C101_many_fails (w : World σ ε) (r : Val) (vs : List Val) (v : Val) (hv : vs.length = 2 ^ 16 - 1) (s : σ) :
    run w (genSend { recv := lit r, method := 5, args := (vs ++ [v]).map fun v => (false, lit v) }) [] s =
      match w.call ⟨5, v, [], none, none⟩ s with
      | (.error x, t) => (.raised x, t)
      | (.ok u, t) => (.ok (u :: (vs.reverse ++ [r])), t) := by
  have hlen : (vs ++ [v]).length = 2 ^ 16 := by simp [hv]
  have he : ∀ (l : List Val) (s : σ), Evals (ε := ε) ((l.map fun v => (false, lit v)).map (·.2)) s l s := by
    intro l s
    induction l with
    | nil => exact .nil
    | cons v l ih => exact .cons rfl ih
  have hm : ∀ l : List Val, marked (σ := σ) (ε := ε) (l.map fun v => (false, lit v)) l = l := by
    intro l
    exact marked_plain (by simp) (by simp)
  have ha : ((vs ++ [v]).map fun v => ((false, lit v) : Bool × Ev σ ε)).any (·.1) = false := by simp
  unfold genSend
  simp only [List.length_map, hlen, Nat.mod_self, ha, genBlock, List.append_nil, List.length_nil, Nat.lt_irrefl, gt_iff_lt, if_false, List.isEmpty_nil, Bool.not_true, Bool.false_eq_true,
    List.append_assoc, List.cons_append, Bool.not_false, Bool.and_true, beq_self_eq_true, if_true]
  rw [run]
  show run w _ [r] s = _
  rw [run_args w (he _ _), hm]
  simp [run]

/-- `super(1) { … }` does not pass the block, `super(1, k: e)` does not evaluate `e` and passes no keyword, and
`super(1, &b)` stops the compiler. -/
theorem C101_super_block_fails (w : World σ ε) (me : Val) (fn : Nat) (e : Ev σ ε) (s : σ) {v : Val} {s' : σ}
    (hc : w.call ⟨5, me, [.int 1], none, none⟩ s = (.ok v, s')) :
    runSuper w me { recv := e, method := 5, args := [(false, lit (.int 1))], block := .lit fn } [] s = (.ok [v], s') ∧
    runSuper w me { recv := e, method := 5, args := [(false, lit (.int 1))], kws := [(1, e)] } [] s = (.ok [v], s') ∧
    runSuper w me { recv := e, method := 5, args := [(false, lit (.int 1))], block := .arg e } [] s = (.panic, s) := by
  have hp : popArgsToArgs [.int 1] = .ok [.int 1] := rfl
  refine ⟨?_, ?_, ?_⟩ <;> simp [runSuper, genSuper, genArgs, run, lit, hp, hc]

/-- `def m(*a) super end` passes the array as one argument, and `def m(k:) super end` the value of `k` as an argument. -/
theorem C101_implicit_super_fails :
    (implicitSuper 5 .nil [.rest] [.array [.int 1, .int 2]]).args = [.array [.int 1, .int 2]] ∧
    (implicitSuper 5 .nil [.kw 1] [.int 3]).args = [.int 3] ∧ (implicitSuper 5 .nil [.kw 1] [.int 3]).kw = none := ⟨rfl, rfl, rfl⟩

/-- In a block `super` passes the variables of the block. -/
theorem C101_block_super_fails : ∃ params frame block : List Val, params.length = 1 ∧ frame = params ∧
    (implicitSuper 5 .nil [.req] frame).args = params ∧ (implicitSuper 5 .nil [.req] block).args ≠ params :=
  ⟨[.int 1], [.int 1], [.int 2], rfl, rfl, rfl, by simp [implicitSuper, implicitArgs, List.range_succ]⟩

/-! ## Example -/

/-- An expression that writes down its number. -/
def note (n : Nat) (v : Val) : Ev (List Nat) String := fun s => (.ok v, s ++ [n])

/-- `recv.m5(1, *[2, 3], a: 4, **{a: 5, b: 6}, &blk)` -/
def sample : Node (List Nat) String where
  recv := note 1 (.obj 1)
  method := 5
  args := [(false, note 2 (.int 1)), (true, note 3 (.array [.int 2, .int 3]))]
  kws := [(10, note 4 (.int 4))]
  hashSplat := [note 5 (.hash [(10, .int 5), (11, .int 6)])]
  block := .arg (note 6 (.proc 9))

theorem proper_note {n v s v' s'} (h : note n v s = (.ok v', s')) (hv : ∀ w, v ≠ .splat w) : ∀ w, v' ≠ .splat w := by
  simp only [note, Prod.mk.injEq, Except.ok.injEq] at h
  obtain ⟨rfl, _⟩ := h; exact hv

/-- The call gets 1, 2, 3, the keywords a: 5, b: 6 and the block, after the expressions 1 to 6. -/
example (call : Sent → List Nat → Except String Val × List Nat) :
    ∃ kw, (kw = none ↔ sample.kws = [] ∧ sample.hashSplat = []) ∧ (∀ l, kw = some l → Keywords [(10, .int 4), (10, .int 5), (11, .int 6)] l) ∧
      run { demo with call := call } (genSend sample) [] [] =
        match call ⟨5, .obj 1, [.int 1, .int 2, .int 3], kw, some (.proc 9)⟩ [1, 2, 3, 4, 5, 6] with
        | (.error x, t) => (.raised x, t)
        | (.ok v, t) => (.ok [v], t) := by
  obtain ⟨kw, h1, h2, h3⟩ := C101_call_partial { demo with call := call } sample rfl (by decide) (by intro fn h; cases h)
    (by
      intro e he s v s' h
      simp only [Node.exprs, sample, List.map_cons, List.map_nil, List.mem_append, List.mem_cons, List.not_mem_nil, or_false] at he
      rcases he with (((rfl | rfl | rfl) | rfl) | rfl) | rfl <;> exact proper_note h (by simp))
    (as := [.int 1, .array [.int 2, .int 3]]) (ks := [.int 4]) (hs := [[(10, .int 5), (11, .int 6)]]) (bs := [.proc 9]) rfl rfl rfl
    (.cons rfl (.cons rfl (.cons rfl (.cons rfl (.cons rfl (.cons rfl .nil)))))) .proc
    (.plain _ _ _ (by simp) (.splat _ [.int 2, .int 3] _ _ (.array _) .nil))
    (by
      intro v hv
      simp only [marked, sample, List.zip_cons_cons, List.zip_nil_right, List.map_cons, List.map_nil, List.mem_cons, List.not_mem_nil, or_false] at hv
      rcases hv with rfl | rfl <;> simp [JustEmpty]) [] (s := [])
  exact ⟨kw, h1, h2, h3.trans (by
    simp only [sample, Bool.false_eq_true, if_false, List.nil_append, List.append_nil, List.cons_append]
    generalize call _ _ = o
    rcases o with ⟨_ | _, _⟩ <;> rfl)⟩

/-- The third expression raises: only the expressions up to it are evaluated. -/
example : Raises ({ sample with args := [(false, note 2 .nil), (true, fun s => (.error "no", s ++ [3]))] } : Node (List Nat) String).exprs [] "no" [1, 2, 3] :=
  .later rfl (.later rfl (.here rfl))

/-- Receivers for `&.`. -/
example : run demo (genSend { recv := lit .nil, method := 5, safeNav := true }) [] [] = (.ok [.nil], []) ∧
    run demo (genSend { recv := lit (.int 1), method := 5, safeNav := true }) [] [] = (.ok [.int 7], [5]) :=
  ⟨(C101_safe_partial demo _ rfl rfl rfl rfl (by intro e h; cases h) rfl rfl rfl rfl (fun h => absurd rfl h) []).1 rfl,
   ((C101_safe_partial demo _ rfl rfl rfl rfl (by intro e h; cases h) rfl rfl rfl rfl (fun _ => rfl) []).2 (by simp)).trans (by
    simp [genSend, genArgs, genBlock, run, lit, demo])⟩

example (call : Sent → List Nat → Except String Val × List Nat) : runSuper { demo with call := call } (.obj 3) { sample with block := .none } [] [] =
    match call ⟨5, .obj 3, [.int 1, .int 2, .int 3], none, none⟩ [2, 3] with
    | (.error x, t) => (.raised x, t)
    | (.ok v, t) => (.ok [v], t) := by
  rw [C101_super_partial { demo with call := call } (.obj 3) { sample with block := .none } (by decide) rfl (s := []) (as := [.int 1, .array [.int 2, .int 3]])
    (.cons rfl (.cons rfl .nil)) (.plain _ _ _ (by simp) (.splat _ [.int 2, .int 3] _ _ (.array _) .nil))
    (by
      intro v hv
      simp only [marked, sample, List.zip_cons_cons, List.zip_nil_right, List.map_cons, List.map_nil, List.mem_cons, List.not_mem_nil, or_false] at hv
      rcases hv with rfl | rfl <;> simp [JustEmpty])]
  simp only [sample, List.nil_append, List.append_nil, List.cons_append]
  rcases h : call ⟨5, .obj 3, [.int 1, .int 2, .int 3], none, none⟩ [2, 3] with ⟨_ | _, _⟩ <;> simp [h]

example : implicitSuper 5 .nil [.req, .opt] [.int 1, .int 2, .int 3] = ⟨5, .nil, [.int 1, .int 2], none, none⟩ :=
  C101_implicit_super_partial 5 .nil [.req, .opt] [.int 1, .int 2] [.int 3] (by decide) rfl

end Verif.Dispatch.Send
