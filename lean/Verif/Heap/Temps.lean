import Mathlib.Logic.Relation
import Mathlib.Tactic.Tauto

/-!
# C113: values that a builtin method holds while a block runs

A builtin method written in Rust keeps values in Rust variables.  The garbage
collector does not look at those.  It starts from the value stacks of the main
virtual machine and it can run at any moment while Ruby code runs.  Ruby code
runs whenever the builtin calls its block.  So a value that only a Rust variable
holds can be freed during the call of a block, and its memory can be given to
another object.

The model gives every object a generation number: address and generation
together identify an object for ever, the address alone does not.
-/

namespace Verif.Temps

/-! ## Model -/

/-- A value.  `ref a g` is the object that was allocated at address `a` when the
address had been freed `g` times.  The machine word is only `a`: the generation is
what the model adds, to tell an object from a later one at the same address.
`imm` stands for every packed value other than `nil`.
(ruruby/src/value.rs:112-132) -/
inductive Val
  | nil
  | imm (n : Int)
  | ref (a : Nat) (g : Nat)
  deriving DecidableEq, Repr

/-- The heap: which addresses hold an object, how often each has been freed, what the
object holds, and whether it is an array.  Simplified: what an object holds is one list,
for an array its elements.  (ruruby/src/alloc.rs:26-60, value/rvalue.rs:449-490) -/
structure World where
  live : Nat → Bool
  gen : Nat → Nat
  kids : Nat → List Val
  arr : Nat → Bool

/-- The object is still the one it was.  -/
def intact (h : World) : Val → Bool
  | .ref a g => h.live a && h.gen a == g
  | _ => true

/-- Allocation at a free address.  (ruruby/src/alloc.rs:171-229) -/
def World.alloc (h : World) (a : Nat) (arr : Bool) (ks : List Val) : World :=
  { h with
    live := fun x => if x = a then true else h.live x
    kids := fun x => if x = a then ks else h.kids x
    arr := fun x => if x = a then arr else h.arr x }

/-- Changing what an object holds. -/
def World.write (h : World) (a : Nat) (ks : List Val) : World :=
  { h with kids := fun x => if x = a then ks else h.kids x }

/-- What the sweep does with one unmarked cell.  (ruruby/src/alloc.rs:318-350) -/
def World.free (h : World) (a : Nat) : World :=
  { h with
    live := fun x => if x = a then false else h.live x
    gen := fun x => if x = a then h.gen x + 1 else h.gen x }

/-- What the mark phase marks from a list of values.
(ruruby/src/value/rvalue.rs:449-490, vm/executor.rs:71-91) -/
inductive Reach (h : World) (roots : List Val) : Val → Prop
  | root {v} : v ∈ roots → Reach h roots v
  | kid {a g k} : Reach h roots (.ref a g) → k ∈ h.kids a → Reach h roots k

/-- The machine while Ruby code called by a builtin runs: the heap, the temporary area
(`temp_stack`) and the values in the frames of the code itself. -/
structure M where
  heap : World
  temp : List Val
  own : List Val

/-- One step of Ruby code, or of the collector, above a stack `stack` that belongs to
the callers and that the code cannot change.  `may` says which objects the code may
change.  The collector frees objects that it does not reach.  `keep` is what passing
`&obj` does when `obj` is none of nil, a Proc and a Symbol: the result of `to_proc` is
pushed on the temporary area and nothing takes it off before a builtin method returns.
(ruruby/src/vm/executor/opt_core.rs:20,428,632-664, vm/executor.rs:346-372) -/
inductive Step (may : Nat → Prop) (stack : List Val) : M → M → Prop
  | lit {h t o v} (n : Int) : (v = Val.nil ∨ v = Val.imm n) → Step may stack ⟨h, t, o⟩ ⟨h, t, v :: o⟩
  | load {h t o v} : Reach h (stack ++ t ++ o) v → Step may stack ⟨h, t, o⟩ ⟨h, t, v :: o⟩
  | drop {h t o o'} : (∀ v ∈ o', v ∈ o) → Step may stack ⟨h, t, o⟩ ⟨h, t, o'⟩
  | alloc {h t o ks} (a : Nat) (arr : Bool) : h.live a = false → (∀ k ∈ ks, k ∈ o) →
      Step may stack ⟨h, t, o⟩ ⟨h.alloc a arr ks, t, .ref a (h.gen a) :: o⟩
  | write {h t o a g ks} : may a → .ref a g ∈ o → (∀ k ∈ ks, k ∈ o) →
      Step may stack ⟨h, t, o⟩ ⟨h.write a ks, t, o⟩
  | keep {h t o v} : v ∈ o → Step may stack ⟨h, t, o⟩ ⟨h, t ++ [v], o⟩
  | free {h t o} (a : Nat) : h.live a = true → ¬ Reach h (stack ++ t ++ o) (.ref a (h.gen a)) →
      Step may stack ⟨h, t, o⟩ ⟨h.free a, t, o⟩

/-- Any number of steps. -/
abbrev Runs (may : Nat → Prop) (stack : List Val) : M → M → Prop :=
  Relation.ReflTransGen (Step may stack)

/-- A block, as a builtin sees it: the number of the call, the heap, the temporary area
and the arguments give the heap and temporary area afterwards and the value of the block,
or nothing if the block raises.  The number makes it free to answer differently each
time. -/
abbrev Block := Nat → World → List Val → List Val → World × List Val × Option Val

/-- The state of a builtin: heap, temporary area, calls so far.  `log` is what the calls
have returned; the code does not have it, the theorems speak about it. -/
structure S where
  heap : World
  temp : List Val
  n : Nat
  log : List Val

/-- How a builtin can fail.  `dangling`: it used a value whose object has been freed.
`moved`: it went on reading the elements of an array whose length the block had changed,
so that the elements may be elsewhere (C86 is about that).  `fuel` is a bound of the
model only. -/
inductive Stop
  | dangling
  | moved
  | raised (s : S)
  | fuel

/-- Calling the block: the arguments are pushed on the stack and the block runs.
(ruruby/src/vm/executor/method.rs:14-100,198-260) -/
def call (blk : Block) (s : S) (args : List Val) : Except Stop (S × Val) :=
  if args.all (intact s.heap) then
    match blk s.n s.heap s.temp args with
    | (h, t, some r) => .ok (⟨h, t, s.n + 1, s.log ++ [r]⟩, r)
    | (h, t, none) => .error (.raised ⟨h, t, s.n + 1, s.log⟩)
  else .error .dangling

/-- `vm.temp_push`.  (ruruby/src/vm/executor.rs:238-241) -/
def push (s : S) (v : Val) : S := { s with temp := s.temp ++ [v] }

/-- `vm.temp_pop_vec`.  (ruruby/src/vm/executor.rs:243-245) -/
def popVec (s : S) (len : Nat) : S × List Val :=
  ({ s with temp := s.temp.take len }, s.temp.drop len)

/-- Building the array that is returned reads every value put in it. -/
def finish (s : S) (res : List Val) : Except Stop (S × List Val) :=
  if res.all (intact s.heap) then .ok (s, res) else .error .dangling

/-- The loop of `Array#map`: the index is compared with the length each time.
(ruruby/src/builtin/array.rs:408-414) -/
def mapLoop (blk : Block) (a : Nat) : Nat → Nat → S → Except Stop S
  | 0, _, _ => .error .fuel
  | f + 1, i, s =>
    match (s.heap.kids a)[i]? with
    | none => .ok s
    | some v => do
      let (s, r) ← call blk s [v]
      mapLoop blk a f (i + 1) (push s r)

/-- `Array#map`; `a` is the receiver.  (ruruby/src/builtin/array.rs:402-418) -/
def map (blk : Block) (a fuel : Nat) (s : S) : Except Stop (S × List Val) := do
  let len := s.temp.length
  let s ← mapLoop blk a fuel 0 s
  let (s, res) := popVec s len
  finish s res

/-- Reading the element at `i` of a slice that was taken when the array had `len` elements. -/
def slice (s : S) (a len i : Nat) : Except Stop Val :=
  if (s.heap.kids a).length = len then .ok ((s.heap.kids a).getD i .nil) else .error .moved

/-- What `flat_map` pushes for one result: the elements of an array, any other value itself. -/
def spread (h : World) : Val → List Val
  | .ref a g => if h.arr a then h.kids a else [.ref a g]
  | v => [v]

/-- The loop of `Array#flat_map`; `len - i` elements are left.  Only blocks with one
parameter.  (ruruby/src/builtin/array.rs:439-455) -/
def flatLoop (blk : Block) (a len : Nat) : List Nat → S → Except Stop S
  | [], s => .ok s
  | i :: is, s => do
    let v ← slice s a len i
    let (s, r) ← call blk s [v]
    if intact s.heap r then
      flatLoop blk a len is { s with temp := s.temp ++ spread s.heap r }
    else .error .dangling

/-- `Array#flat_map`.  (ruruby/src/builtin/array.rs:434-458) -/
def flatMap (blk : Block) (a : Nat) (s : S) : Except Stop (S × List Val) := do
  let t := s.temp.length
  let len := (s.heap.kids a).length
  let s ← flatLoop blk a len (List.range len) s
  let (s, res) := popVec s t
  finish s res

/-- `Value::to_bool`; `imm 0` stands for `false`.  (ruruby/src/value.rs:560-566) -/
def truthy : Val → Bool
  | .nil => false
  | .imm 0 => false
  | _ => true

/-- The loop of `Array#select` (`want = true`) and `Array#reject` (`want = false`).  The
elements kept are in a Rust vector.  The element is read again after the block: it is read
through a reference into the array.  (ruruby/src/builtin/array.rs:1121-1125,1135-1139) -/
def selectLoop (blk : Block) (want : Bool) (a len : Nat) : List Nat → S → List Val →
    Except Stop (S × List Val)
  | [], s, res => .ok (s, res)
  | i :: is, s, res => do
    let v ← slice s a len i
    let (s, r) ← call blk s [v]
    let v ← slice s a len i
    selectLoop blk want a len is s (if truthy r = want then res ++ [v] else res)

/-- `Array#select` and `Array#reject`.  (ruruby/src/builtin/array.rs:1115-1141) -/
def select (blk : Block) (want : Bool) (a : Nat) (s : S) : Except Stop (S × List Val) := do
  let len := (s.heap.kids a).length
  let (s, res) ← selectLoop blk want a len (List.range len) s []
  finish s res

/-- The loop of `Array#partition`.  (ruruby/src/builtin/array.rs:520-526) -/
def partitionLoop (blk : Block) (a len : Nat) : List Nat → S → List Val → List Val →
    Except Stop (S × List Val × List Val)
  | [], s, yes, no => .ok (s, yes, no)
  | i :: is, s, yes, no => do
    let v ← slice s a len i
    let (s, r) ← call blk s [v]
    let v ← slice s a len i
    if truthy r then partitionLoop blk a len is s (yes ++ [v]) no
    else partitionLoop blk a len is s yes (no ++ [v])

/-- `Array#partition`; both arrays in one list.  (ruruby/src/builtin/array.rs:513-532) -/
def partition (blk : Block) (a : Nat) (s : S) : Except Stop (S × List Val) := do
  let len := (s.heap.kids a).length
  let (s, yes, no) ← partitionLoop blk a len (List.range len) s [] []
  finish s (yes ++ no)

/-- Putting a key into the hash set of `uniq`: the set may compare or hash again every key
it has, so every key is read.  `same` is `eql?`.
(ruruby/src/builtin/array.rs:704,731, value/hash.rs:45-80) -/
def insertKey (same : World → Val → Val → Bool) (h : World) (keys : List Val) (k : Val) :
    Except Stop (List Val × Bool) :=
  if (k :: keys).all (intact h) then
    if keys.any (same h k) then .ok (keys, false) else .ok (keys ++ [k], true)
  else .error .dangling

/-- The loop of `Array#uniq` with a block.  The keys are only in the hash set.
(ruruby/src/builtin/array.rs:728-734) -/
def uniqLoop (same : World → Val → Val → Bool) (blk : Block) (a len : Nat) :
    List Nat → S → List Val → List Val → Except Stop (S × List Val)
  | [], s, _, res => .ok (s, res)
  | i :: is, s, keys, res => do
    let v ← slice s a len i
    let (s, r) ← call blk s [v]
    let (keys, new) ← insertKey same s.heap keys r
    let v ← slice s a len i
    uniqLoop same blk a len is s keys (if new then res ++ [v] else res)

/-- `Array#uniq` with a block.  (ruruby/src/builtin/array.rs:700-738) -/
def uniq (same : World → Val → Val → Bool) (blk : Block) (a : Nat) (s : S) :
    Except Stop (S × List Val) := do
  let len := (s.heap.kids a).length
  let (s, res) ← uniqLoop same blk a len (List.range len) s [] []
  finish s res

/-- The loop of `Array#uniq!` with a block: the same, but each key is pushed on the
temporary area first.  Simplified: the elements are not moved in the array, the elements
that stay are returned.  (ruruby/src/builtin/array.rs:766-772, value/array.rs:186-206) -/
def uniqBangLoop (same : World → Val → Val → Bool) (blk : Block) (a len : Nat) :
    List Nat → S → List Val → List Val → Except Stop (S × List Val)
  | [], s, _, res => .ok (s, res)
  | i :: is, s, keys, res => do
    let v ← slice s a len i
    let (s, r) ← call blk s [v]
    let s := push s r
    let (keys, new) ← insertKey same s.heap keys r
    let v ← slice s a len i
    uniqBangLoop same blk a len is s keys (if new then res ++ [v] else res)

/-- `Array#uniq!` with a block.  (ruruby/src/builtin/array.rs:745-779) -/
def uniqBang (same : World → Val → Val → Bool) (blk : Block) (a : Nat) (s : S) :
    Except Stop (S × List Val) := do
  let len := (s.heap.kids a).length
  let (s, res) ← uniqBangLoop same blk a len (List.range len) s [] []
  finish s res

/-- A comparison sort: which two positions are compared next, given the answers so far,
and at the end where each element goes.  Any algorithm that only compares is of this form.
(ruruby/src/vm/executor/sort.rs — the merge sort is the subject of C16) -/
structure Sorter where
  pick : List Val → Option (Nat × Nat)
  order : List Val → List Nat

/-- The comparisons of a sort; `xs` is what they compare.  -/
def compareLoop (blk : Block) (so : Sorter) (xs : List Val) : Nat → S → List Val →
    Except Stop (S × List Val)
  | 0, _, _ => .error .fuel
  | f + 1, s, ans =>
    match so.pick ans with
    | none => .ok (s, ans)
    | some (i, j) => do
      let (s, r) ← call blk s [xs.getD i .nil, xs.getD j .nil]
      compareLoop blk so xs f s (ans ++ [r])

/-- `Array#sort` with a block: the elements are copied to a Rust vector first.
(ruruby/src/builtin/array.rs:944-959) -/
def sort (blk : Block) (so : Sorter) (a fuel : Nat) (s : S) : Except Stop (S × List Val) := do
  let xs := s.heap.kids a
  let (s, ans) ← compareLoop blk so xs fuel s []
  finish s ((so.order ans).map (fun i => xs.getD i .nil))

/-- The first loop of `Array#sort_by`: element and key are put in a Rust vector and the key
is pushed on the temporary area.  (ruruby/src/builtin/array.rs:971-976) -/
def keyLoop (blk : Block) (a len : Nat) : List Nat → S → List (Val × Val) →
    Except Stop (S × List (Val × Val))
  | [], s, acc => .ok (s, acc)
  | i :: is, s, acc => do
    let v ← slice s a len i
    let (s, r) ← call blk s [v]
    let v ← slice s a len i
    keyLoop blk a len is (push s r) (acc ++ [(v, r)])

/-- `Array#sort_by`; `cmp` is `<=>` of the keys, which may be a Ruby method.
(ruruby/src/builtin/array.rs:966-983) -/
def sortBy (blk cmp : Block) (so : Sorter) (a fuel : Nat) (s : S) :
    Except Stop (S × List Val) := do
  let len := (s.heap.kids a).length
  let (s, ps) ← keyLoop blk a len (List.range len) s []
  let (s, ans) ← compareLoop cmp so (ps.map Prod.snd) fuel s []
  finish s ((so.order ans).map (fun i => (ps.map Prod.fst).getD i .nil))

/-- The loop of `Array#inject`.  (ruruby/src/builtin/array.rs:1085-1087) -/
def injectLoop (blk : Block) (a len : Nat) : List Nat → S → Val → Except Stop (S × Val)
  | [], s, res => .ok (s, res)
  | i :: is, s, res => do
    let v ← slice s a len i
    let (s, r) ← call blk s [res, v]
    injectLoop blk a len is s r

/-- `Array#inject`; the first value is the argument.
(ruruby/src/builtin/array.rs:1080-1089) -/
def inject (blk : Block) (a : Nat) (first : Val) (s : S) : Except Stop (S × List Val) := do
  let len := (s.heap.kids a).length
  let (s, r) ← injectLoop blk a len (List.range len) s first
  finish s [r]

/-- Calling the block for each value of a Rust vector. -/
def eachLoop (blk : Block) : List Val → S → Except Stop S
  | [], s => .ok s
  | v :: vs, s => do
    let (s, _) ← call blk s [v]
    eachLoop blk vs s

/-- `Array#zip` and `String#scan` with a block: the values `vs` the builtin has just made
are pushed on the temporary area, then the block is called for each.
(ruruby/src/builtin/array.rs:911-919, builtin/string.rs:624-637) -/
def eachNew (blk : Block) (vs : List Val) (s : S) : Except Stop S :=
  eachLoop blk vs { s with temp := s.temp ++ vs }

/-- The call of a builtin: afterwards the temporary area is cut to the length it had.
(ruruby/src/vm/executor/method.rs:548-570) -/
def execNative {α : Type} (s : S) (f : S → Except Stop (S × α)) : Except Stop (S × α) :=
  match f s with
  | .ok (s', r) => .ok ({ s' with temp := s'.temp.take s.temp.length }, r)
  | .error (.raised s') => .error (.raised { s' with temp := s'.temp.take s.temp.length })
  | .error e => .error e

/-- The code of a fiber: from the number of the resumption, heap, temporary area and the values
in its frames, to the same afterwards and the value yielded, or nothing at its end. -/
abbrev Producer := Nat → World → List Val → List Val → World × List Val × List Val × Option Val

/-- An enumerator at work: the fiber is resumed, it uses the values in its frames, it yields a
value, the block gets it.  `rooted` says whether the collector sees the frames of the fiber
while the block runs.  It does when the fiber belongs to an object that a stack holds, as for
`Enumerator#next` and `Fiber#resume`.  It does not in `Enumerator#each`, `map` and `with_index`,
which make a new fiber and hold it in a Rust variable.  The block is given by its behaviour above
a stack.  (ruruby/src/builtin/enumerator.rs:94-121,128-155,158-190, coroutine.rs:71-79,
globals.rs:36-53) -/
def enumLoop (blk : List Val → Block) (prod : Producer) (rooted : Bool) (stack : List Val) :
    Nat → S → List Val → Except Stop S
  | 0, _, _ => .error .fuel
  | f + 1, s, frames =>
    if frames.all (intact s.heap) then
      match prod s.n s.heap s.temp frames with
      | (h, t, _, none) => .ok { s with heap := h, temp := t }
      | (h, t, frames, some v) => do
        let st := if rooted then stack ++ frames else stack
        let (s, _) ← call (blk st) { s with heap := h, temp := t } [v]
        enumLoop blk prod rooted stack f s frames
    else .error .dangling

/-! ## Specification -/

/-- Everything the collector reaches from these values is in order. -/
def Good (h : World) (roots : List Val) : Prop := ∀ v, Reach h roots v → intact h v

/-- The block is Ruby code that runs above `stack`, starting with its arguments, and changes
only objects that `may` allows; the collector runs whenever it likes. -/
def Ruby (may : Nat → Prop) (stack : List Val) (blk : Block) : Prop :=
  ∀ n h t args, Good h (stack ++ t ++ args) →
    ∃ own, Runs may stack ⟨h, t, args⟩ ⟨(blk n h t args).1, (blk n h t args).2.1, own⟩ ∧
      ∀ r, (blk n h t args).2.2 = some r → r ∈ own

/-- The code of a fiber is Ruby code. -/
def RubyFiber (stack : List Val) (p : Producer) : Prop :=
  ∀ n h t fr, Good h (stack ++ t ++ fr) →
    ∃ own, Runs (fun _ => True) stack ⟨h, t, fr⟩ ⟨(p n h t fr).1, (p n h t fr).2.1, own⟩ ∧
      (∀ v ∈ (p n h t fr).2.2.1, v ∈ own) ∧ ∀ r, (p n h t fr).2.2.2 = some r → r ∈ own

/-- The block leaves nothing on the temporary area: it passes no `&obj` that needs `to_proc`. -/
def Tidy (blk : Block) : Prop := ∀ n h t args, (blk n h t args).2.1 = t

/-- The builtin never uses a freed object, and what it returns is in order. -/
def Safe (r : Except Stop (S × List Val)) : Prop :=
  match r with
  | .ok (s, vs) => ∀ v ∈ vs, intact s.heap v
  | .error .dangling => False
  | .error _ => True

/-- All objects may be changed. -/
def anything : Nat → Prop := fun _ => True

/-- All objects but one may be changed. -/
def allBut (a : Nat) : Nat → Prop := fun x => x ≠ a

/-! ## Helpers -/

theorem Reach.mono {h : World} {r r' : List Val} (hs : ∀ v ∈ r, v ∈ r') {v : Val}
    (H : Reach h r v) : Reach h r' v := by
  induction H with
  | root hv => exact .root (hs _ hv)
  | kid _ hk ih => exact .kid ih hk

theorem Good.mono {h : World} {r r' : List Val} (hs : ∀ v ∈ r, v ∈ r') (H : Good h r') :
    Good h r := fun v hv => H v (hv.mono hs)

theorem Good.extend {h : World} {r r' : List Val} (H : Good h r')
    (hs : ∀ v ∈ r, Reach h r' v) : Good h r := by
  intro v hv
  have : Reach h r' v := by
    induction hv with
    | root hv => exact hs _ hv
    | kid _ hk ih => exact .kid ih hk
  exact H v this

def M.Good (stack : List Val) (m : M) : Prop := Temps.Good m.heap (stack ++ m.temp ++ m.own)

theorem step_good {may stack m m'} (H : Step may stack m m') (G : m.Good stack) :
    m'.Good stack := by
  cases H with
  | @lit h t o v n hv =>
    intro w hw
    have : (w = Val.nil ∨ w = Val.imm n) ∨ Reach h (stack ++ t ++ o) w := by
      induction hw with
      | @root x hx =>
        simp only [List.mem_append, List.mem_cons] at hx
        rcases hx with (hx | hx) | hx | hx
        · exact .inr (.root (by simp [hx]))
        · exact .inr (.root (by simp [hx]))
        · subst hx; exact .inl hv
        · exact .inr (.root (by simp [hx]))
      | kid _ hk ih =>
        rcases ih with (ih | ih) | ih
        · cases ih
        · cases ih
        · exact .inr (.kid ih hk)
    rcases this with (e | e) | e
    · subst e; rfl
    · subst e; rfl
    · exact G w e
  | @load h t o v hv =>
    refine Good.extend (r' := stack ++ t ++ o) G ?_
    intro w hw
    simp only [List.mem_append, List.mem_cons] at hw
    rcases hw with (hw | hw) | hw | hw
    · exact .root (by simp [hw])
    · exact .root (by simp [hw])
    · subst hw; exact hv
    · exact .root (by simp [hw])
  | @drop h t o o' hs =>
    refine Good.mono (r' := stack ++ t ++ o) ?_ G
    intro w hw
    simp only [List.mem_append] at hw ⊢
    rcases hw with hw | hw
    · exact .inl hw
    · exact .inr (hs w hw)
  | @alloc h t o ks a arr hl hk =>
    intro w hw
    have : w = Val.ref a (h.gen a) ∨ Reach h (stack ++ t ++ o) w := by
      induction hw with
      | @root x hx =>
        simp only [List.mem_append, List.mem_cons] at hx
        rcases hx with (hx | hx) | hx | hx
        · exact .inr (.root (by simp [hx]))
        · exact .inr (.root (by simp [hx]))
        · exact .inl hx
        · exact .inr (.root (by simp [hx]))
      | @kid b g k _ hk' ih =>
        simp only [World.alloc] at hk'
        by_cases e : b = a
        · rw [if_pos e] at hk'
          exact .inr (.root (by simp [hk k hk']))
        · rw [if_neg e] at hk'
          rcases ih with ih | ih
          · cases ih; exact absurd rfl e
          · exact .inr (.kid ih hk')
    rcases this with e | e
    · subst e; simp [intact, World.alloc]
    · have := G w e
      cases w with
      | nil => rfl
      | imm => rfl
      | ref b g =>
        simp only [intact, World.alloc, Bool.and_eq_true] at this ⊢
        refine ⟨?_, this.2⟩
        split
        · rfl
        · exact this.1
  | @write h t o a g ks hm ha hk =>
    intro w hw
    have : Reach h (stack ++ t ++ o) w := by
      induction hw with
      | root hx => exact .root hx
      | @kid b g k _ hk' ih =>
        simp only [World.write] at hk'
        by_cases e : b = a
        · rw [if_pos e] at hk'
          exact .root (by simp [hk k hk'])
        · rw [if_neg e] at hk'
          exact .kid ih hk'
    have := G w this
    cases w <;> simpa [intact, World.write] using this
  | @keep h t o v hv =>
    refine Good.mono (r' := stack ++ t ++ o) ?_ G
    intro w hw
    simp only [List.mem_append, List.mem_singleton] at hw ⊢
    rcases hw with (hw | hw | hw) | hw
    · exact .inl (.inl hw)
    · exact .inl (.inr hw)
    · subst hw; exact .inr hv
    · exact .inr hw
  | @free h t o a hl hr =>
    intro w hw
    have hw' : Reach h (stack ++ t ++ o) w := by
      induction hw with
      | root hx => exact .root hx
      | kid _ hk ih => exact .kid ih hk
    have := G w hw'
    cases w with
    | nil => rfl
    | imm => rfl
    | ref b g =>
      simp only [intact, World.free, Bool.and_eq_true, beq_iff_eq] at this ⊢
      by_cases e : b = a
      · subst e
        rw [this.2] at hr
        exact absurd hw' hr
      · rw [if_neg e, if_neg e]; exact this

theorem runs_good {may stack m m'} (H : Runs may stack m m') (G : m.Good stack) :
    m'.Good stack := by
  induction H with
  | refl => exact G
  | tail _ h ih => exact step_good h ih

theorem runs_temp {may stack m m'} (H : Runs may stack m m') : ∃ x, m'.temp = m.temp ++ x := by
  induction H with
  | refl => exact ⟨[], by simp⟩
  | tail _ h ih =>
    obtain ⟨x, hx⟩ := ih
    cases h <;> first
      | exact ⟨x, hx⟩
      | exact ⟨x ++ [_], by simp only at hx; rw [hx, List.append_assoc]⟩

theorem runs_quiet {a g stack m m'} (H : Runs (allBut a) stack m m') (G : m.Good stack)
    (hs : Val.ref a g ∈ stack) : m'.heap.kids a = m.heap.kids a := by
  induction H with
  | refl => rfl
  | @tail b c hab h ih =>
    have Gb : b.Good stack := runs_good hab G
    rw [← ih]
    cases h with
    | @alloc h t o ks x arr hl hk =>
      have := Gb (.ref a g) (.root (by simp [hs]))
      have hne : a ≠ x := by
        intro e
        subst e
        simp only [intact, Bool.and_eq_true] at this
        rw [hl] at this
        cases this.1
      simp [World.alloc, hne]
    | @write h t o x g' ks hm ha hk =>
      have hne : a ≠ x := fun e => hm e.symm
      simp [World.write, hne]
    | _ => rfl

theorem runs_weaken {may may' : Nat → Prop} {stack m m'} (hm : ∀ a, may a → may' a)
    (H : Runs may stack m m') : Runs may' stack m m' := by
  induction H with
  | refl => exact .refl
  | tail _ h ih =>
    refine ih.tail ?_
    cases h with
    | lit n hv => exact .lit n hv
    | load hv => exact .load hv
    | drop hs => exact .drop hs
    | alloc a arr hl hk => exact .alloc a arr hl hk
    | write h1 h2 h3 => exact .write (hm _ h1) h2 h3
    | keep hv => exact .keep hv
    | free a hl hr => exact .free a hl hr

/-- Reached, or nil. -/
def Fine (h : World) (roots : List Val) (v : Val) : Prop := v = .nil ∨ Reach h roots v

theorem Good.fine {h : World} {r r' : List Val} (H : Good h r') (hs : ∀ v ∈ r, Fine h r' v) :
    Good h r := by
  intro v hv
  have : Fine h r' v := by
    induction hv with
    | root hv => exact hs _ hv
    | kid _ hk ih =>
      rcases ih with ih | ih
      · cases ih
      · exact .inr (.kid ih hk)
  rcases this with e | e
  · subst e; rfl
  · exact H v e

theorem Good.intact {h : World} {roots : List Val} (G : Good h roots) {v : Val}
    (hv : Fine h roots v) : intact h v := by
  rcases hv with e | e
  · subst e; rfl
  · exact G v e

theorem all_intact {h : World} {roots vs : List Val} (G : Good h roots)
    (hv : ∀ v ∈ vs, Fine h roots v) : vs.all (intact h) = true := by
  rw [List.all_eq_true]
  exact fun v h => G.intact (hv v h)

def Ext (s s' : S) : Prop := ∃ x, s'.temp = s.temp ++ x

theorem Ext.refl (s : S) : Ext s s := ⟨[], by simp⟩

theorem Ext.trans {a b c : S} (h : Ext a b) (h' : Ext b c) : Ext a c := by
  obtain ⟨x, hx⟩ := h
  obtain ⟨y, hy⟩ := h'
  exact ⟨x ++ y, by rw [hy, hx, List.append_assoc]⟩

/-- A part of a builtin went well. -/
def Part {α : Type} (stack : List Val) (s0 : S) (Q : S → α → Prop) :
    Except Stop (S × α) → Prop
  | .ok (s, a) => Good s.heap (stack ++ s.temp) ∧ Ext s0 s ∧ Q s a
  | .error .dangling => False
  | .error (.raised s) => Ext s0 s
  | .error _ => True

theorem Part.bind {α β : Type} {stack : List Val} {s0 : S} {Q : S → α → Prop}
    {Q' : S → β → Prop} {r : Except Stop (S × α)} {f : S × α → Except Stop (S × β)}
    (H : Part stack s0 Q r)
    (hf : ∀ s a, Good s.heap (stack ++ s.temp) → Ext s0 s → Q s a → Part stack s Q' (f (s, a))) :
    Part stack s0 Q' (r >>= f) := by
  match r, H with
  | .ok (s, a), ⟨h1, h2, h3⟩ =>
    have h := hf s a h1 h2 h3
    show Part stack s0 Q' (f (s, a))
    match hfa : f (s, a), h with
    | .ok (s', b), ⟨g1, g2, g3⟩ => exact ⟨g1, h2.trans g2, g3⟩
    | .error (.raised s'), g => exact h2.trans g
    | .error .moved, _ => trivial
    | .error .fuel, _ => trivial
  | .error (.raised s), h => exact h
  | .error .moved, _ => trivial
  | .error .fuel, _ => trivial

theorem Part.imp {α : Type} {stack : List Val} {s0 : S} {Q Q' : S → α → Prop}
    {r : Except Stop (S × α)} (H : Part stack s0 Q r)
    (hf : ∀ s a, Good s.heap (stack ++ s.temp) → Q s a → Q' s a) : Part stack s0 Q' r := by
  match r, H with
  | .ok (s, a), ⟨h1, h2, h3⟩ => exact ⟨h1, h2, hf s a h1 h3⟩
  | .error (.raised s), h => exact h
  | .error .moved, _ => trivial
  | .error .fuel, _ => trivial

/-- What the receiver still holds when nothing but other objects may be changed. -/
def Same (may : Nat → Prop) (stack : List Val) (s s' : S) : Prop :=
  ∀ a g, may = allBut a → Val.ref a g ∈ stack → s'.heap.kids a = s.heap.kids a

theorem call_part {may stack blk} (R : Ruby may stack blk) {s : S} {args : List Val}
    (G : Good s.heap (stack ++ s.temp)) (ha : ∀ v ∈ args, Fine s.heap (stack ++ s.temp) v) :
    Part stack s (fun s' r => Good s'.heap (stack ++ s'.temp ++ [r]) ∧ Same may stack s s')
      (call blk s args) := by
  have Ga : Good s.heap (stack ++ s.temp ++ args) := by
    refine G.fine ?_
    intro v hv
    rcases List.mem_append.mp hv with hv | hv
    · exact .inr (.root hv)
    · exact ha v hv
  obtain ⟨own, hr, hres⟩ := R s.n s.heap s.temp args Ga
  have hall := all_intact G ha
  have hg := runs_good hr Ga
  obtain ⟨x, hx⟩ := runs_temp hr
  unfold call
  rw [if_pos hall]
  generalize hb : blk s.n s.heap s.temp args = o at *
  obtain ⟨h, t, res⟩ := o
  cases res with
  | none => exact ⟨x, hx⟩
  | some r =>
    have hg' : Good h (stack ++ t ++ [r]) := by
      refine Good.mono ?_ hg
      intro v hv
      simp only [List.mem_append, List.mem_singleton] at hv ⊢
      rcases hv with hv | hv
      · exact .inl hv
      · subst hv; exact .inr (hres _ rfl)
    refine ⟨?_, ⟨x, hx⟩, hg', ?_⟩
    · exact Good.mono (fun v hv => List.mem_append_left _ hv) hg'
    · intro a g e hst
      subst e
      exact runs_quiet hr Ga hst

theorem good_push {stack : List Val} {s : S} {r : Val}
    (G : Good s.heap (stack ++ s.temp ++ [r])) :
    Good (push s r).heap (stack ++ (push s r).temp) := by
  refine Good.mono ?_ G
  intro v hv
  simpa [push, List.append_assoc] using hv

theorem fine_kid {stack : List Val} {s : S} {a g : Nat} (hs : Val.ref a g ∈ stack) {v : Val}
    (hv : v ∈ s.heap.kids a) : Reach s.heap (stack ++ s.temp) v :=
  .kid (.root (List.mem_append_left _ hs)) hv

theorem fine_getD {stack : List Val} {s : S} {xs : List Val}
    (hx : ∀ v ∈ xs, Fine s.heap (stack ++ s.temp) v) (i : Nat) :
    Fine s.heap (stack ++ s.temp) (xs.getD i .nil) := by
  rw [List.getD_eq_getElem?_getD]
  cases e : xs[i]? with
  | none => exact .inl rfl
  | some v => exact hx v (List.mem_of_getElem? e)

theorem slice_bind {β : Type} {stack : List Val} {s : S} {a g len i : Nat}
    (hs : Val.ref a g ∈ stack) {Q : S → β → Prop} {f : Val → Except Stop (S × β)}
    (hf : ∀ v, v = (s.heap.kids a).getD i .nil → Fine s.heap (stack ++ s.temp) v →
      Part stack s Q (f v)) :
    Part stack s Q (slice s a len i >>= f) := by
  unfold slice
  split
  · exact hf _ rfl (fine_getD (fun v hv => .inr (fine_kid hs hv)) i)
  · trivial

theorem mapLoop_part {may stack blk a g} (R : Ruby may stack blk) (hs : Val.ref a g ∈ stack) :
    ∀ fuel i (s : S), Good s.heap (stack ++ s.temp) →
    Part stack s (fun _ (_ : Unit) => True) ((mapLoop blk a fuel i s).map (fun s => (s, ())))
  | 0, _, _, _ => trivial
  | f + 1, i, s, G => by
    unfold mapLoop
    split
    · exact ⟨G, Ext.refl s, trivial⟩
    · rename_i v hv
      have h := call_part R G (args := [v]) (by
        intro w hw
        rw [List.mem_singleton] at hw
        subst hw
        exact .inr (fine_kid hs (List.mem_of_getElem? hv)))
      have key := Part.bind (Q' := fun _ (_ : Unit) => True) h
        (f := fun p => (mapLoop blk a f (i + 1) (push p.1 p.2)).map (fun s => (s, ()))) (by
          intro s' r G' _ hq
          have h2 := mapLoop_part R hs f (i + 1) (push s' r) (good_push hq.1)
          have he : Ext s' (push s' r) := ⟨[r], rfl⟩
          revert h2
          cases mapLoop blk a f (i + 1) (push s' r) with
          | ok s'' => exact fun h2 => ⟨h2.1, he.trans h2.2.1, trivial⟩
          | error e =>
            cases e with
            | raised s'' => exact fun h2 => he.trans h2
            | dangling => exact fun h2 => h2
            | moved => exact fun _ => trivial
            | fuel => exact fun _ => trivial)
      revert key
      cases call blk s [v] with
      | ok p => exact fun k => k
      | error e => exact fun k => k

theorem finish_part {stack : List Val} {s : S} {vs : List Val}
    (G : Good s.heap (stack ++ s.temp)) (hv : vs.all (intact s.heap) = true) :
    Part stack s (fun s vs => ∀ v ∈ vs, intact s.heap v = true) (finish s vs) := by
  unfold finish
  rw [if_pos hv]
  exact ⟨G, Ext.refl s, fun v h => List.all_eq_true.mp hv v h⟩

theorem Part.safe {stack : List Val} {s0 : S} {r : Except Stop (S × List Val)}
    (H : Part stack s0 (fun s vs => ∀ v ∈ vs, intact s.heap v = true) r) : Safe r := by
  match r, H with
  | .ok (s, a), ⟨_, _, h3⟩ => exact h3
  | .error (.raised s), _ => trivial
  | .error .moved, _ => trivial
  | .error .fuel, _ => trivial

/-- Taking values off the temporary area and putting them in an array. -/
theorem pop_finish {stack : List Val} {s0 s : S} (G : Good s.heap (stack ++ s.temp))
    (E : Ext s0 s) :
    Part stack s0 (fun s vs => ∀ v ∈ vs, intact s.heap v = true)
      (finish (popVec s s0.temp.length).1 (popVec s s0.temp.length).2) := by
  have hall : (popVec s s0.temp.length).2.all (intact (popVec s s0.temp.length).1.heap) = true := by
    rw [List.all_eq_true]
    intro v hv
    exact G v (.root (List.mem_append_right _ (List.mem_of_mem_drop hv)))
  unfold finish
  rw [if_pos hall]
  refine ⟨?_, ?_, fun v h => List.all_eq_true.mp hall v h⟩
  · refine Good.mono ?_ G
    intro v hv
    rcases List.mem_append.mp hv with hv | hv
    · exact List.mem_append_left _ hv
    · exact List.mem_append_right _ (List.mem_of_mem_take hv)
  · obtain ⟨x, hx⟩ := E
    exact ⟨[], by simp [popVec, hx]⟩

theorem map_part {may stack blk a g} (R : Ruby may stack blk) (hs : Val.ref a g ∈ stack)
    (fuel : Nat) (s : S) (G : Good s.heap (stack ++ s.temp)) :
    Part stack s (fun s vs => ∀ v ∈ vs, intact s.heap v = true) (map blk a fuel s) := by
  have h := mapLoop_part R hs fuel 0 s G
  unfold map
  revert h
  cases mapLoop blk a fuel 0 s with
  | ok s' => exact fun h => pop_finish h.1 h.2.1
  | error e =>
    cases e with
    | raised s'' => exact fun h => h
    | dangling => exact fun h => h
    | moved => exact fun _ => trivial
    | fuel => exact fun _ => trivial

theorem flatLoop_part {may stack blk a g len} (R : Ruby may stack blk)
    (hs : Val.ref a g ∈ stack) :
    ∀ is (s : S), Good s.heap (stack ++ s.temp) →
    Part stack s (fun _ (_ : Unit) => True) ((flatLoop blk a len is s).map (fun s => (s, ())))
  | [], s, G => ⟨G, Ext.refl s, trivial⟩
  | i :: is, s, G => by
    have key : Part stack s (fun _ (_ : Unit) => True) (slice s a len i >>= fun v =>
        call blk s [v] >>= fun p => if intact p.1.heap p.2 then
          (flatLoop blk a len is { p.1 with temp := p.1.temp ++ spread p.1.heap p.2 }).map
            (fun s => (s, ())) else .error .dangling) := by
      refine slice_bind hs ?_
      intro v _ hv
      refine Part.bind (call_part R G (args := [v]) (by simpa using hv)) ?_
      intro s' r G' _ hq
      have hi : intact s'.heap r = true := hq.1 r (.root (by simp))
      simp only [hi, if_true]
      have hg : Good s'.heap (stack ++ (s'.temp ++ spread s'.heap r)) := by
        refine Good.extend hq.1 ?_
        intro w hw
        rw [← List.append_assoc] at hw
        rcases List.mem_append.mp hw with hw | hw
        · exact .root (List.mem_append_left _ hw)
        · cases r with
          | nil => exact .root (by simp [spread] at hw; simp [hw])
          | imm n => exact .root (by simp [spread] at hw; simp [hw])
          | ref b k =>
            simp only [spread] at hw
            split at hw
            · exact .kid (g := k) (.root (by simp)) hw
            · exact .root (by simp only [List.mem_singleton] at hw; simp [hw])
      have h2 := flatLoop_part (len := len) R hs is
        { s' with temp := s'.temp ++ spread s'.heap r } hg
      have he : Ext s' { s' with temp := s'.temp ++ spread s'.heap r } := ⟨_, rfl⟩
      revert h2
      cases flatLoop blk a len is { s' with temp := s'.temp ++ spread s'.heap r } with
      | ok s'' => exact fun h2 => ⟨h2.1, he.trans h2.2.1, trivial⟩
      | error e =>
        cases e with
        | raised s'' => exact fun h2 => he.trans h2
        | dangling => exact fun h2 => h2
        | moved => exact fun _ => trivial
        | fuel => exact fun _ => trivial
    unfold flatLoop
    revert key
    cases slice s a len i with
    | error e => exact fun k => k
    | ok v =>
      show Part _ _ _ (call blk s [v] >>= _) → Part _ _ _ (Except.map _ (call blk s [v] >>= _))
      cases call blk s [v] with
      | error e => exact fun k => k
      | ok p =>
        obtain ⟨p1, p2⟩ := p
        show Part _ _ _ (if intact p1.heap p2 = true then _ else _) →
          Part _ _ _ (Except.map _ (if intact p1.heap p2 = true then _ else _))
        split
        · exact fun k => k
        · exact fun k => k

theorem flatMap_part {may stack blk a g} (R : Ruby may stack blk) (hs : Val.ref a g ∈ stack)
    (s : S) (G : Good s.heap (stack ++ s.temp)) :
    Part stack s (fun s vs => ∀ v ∈ vs, intact s.heap v = true) (flatMap blk a s) := by
  have h := flatLoop_part (len := (s.heap.kids a).length) R hs
    (List.range (s.heap.kids a).length) s G
  unfold flatMap
  dsimp only
  revert h
  cases flatLoop blk a (s.heap.kids a).length (List.range (s.heap.kids a).length) s with
  | ok s' => exact fun h => pop_finish h.1 h.2.1
  | error e =>
    cases e with
    | raised s'' => exact fun h => h
    | dangling => exact fun h => h
    | moved => exact fun _ => trivial
    | fuel => exact fun _ => trivial

/-- The receiver holds `ks` and the values held are among them. -/
def Among (a : Nat) (ks : List Val) (s : S) (res : List Val) : Prop :=
  s.heap.kids a = ks ∧ ∀ v ∈ res, v = .nil ∨ v ∈ ks

theorem Among.intact {stack : List Val} {s : S} {a g : Nat} {ks res : List Val}
    (hs : Val.ref a g ∈ stack) (G : Good s.heap (stack ++ s.temp)) (H : Among a ks s res) :
    res.all (intact s.heap) = true := by
  refine all_intact G ?_
  intro v hv
  rcases H.2 v hv with e | e
  · exact .inl e
  · rw [← H.1] at e
    exact .inr (fine_kid hs e)

theorem mem_getD (ks : List Val) (i : Nat) : ks.getD i .nil = .nil ∨ ks.getD i .nil ∈ ks := by
  rw [List.getD_eq_getElem?_getD]
  cases e : ks[i]? with
  | none => exact .inl rfl
  | some v => exact .inr (List.mem_of_getElem? e)

theorem Among.snoc {s : S} {a i : Nat} {ks res : List Val} (H : Among a ks s res) {v : Val}
    (hv : v = (s.heap.kids a).getD i .nil) : Among a ks s (res ++ [v]) := by
  refine ⟨H.1, ?_⟩
  intro w hw
  rcases List.mem_append.mp hw with hw | hw
  · exact H.2 w hw
  · rw [List.mem_singleton] at hw
    rw [hw, hv, H.1]
    exact mem_getD ks i

theorem Among.next {s s' : S} {a g : Nat} {stack ks res : List Val} (H : Among a ks s res)
    (hs : Val.ref a g ∈ stack) (h : Same (allBut a) stack s s') : Among a ks s' res :=
  ⟨by rw [h a g rfl hs]; exact H.1, H.2⟩

theorem selectLoop_part {stack blk want a g len ks} (R : Ruby (allBut a) stack blk)
    (hs : Val.ref a g ∈ stack) :
    ∀ is (s : S) res, Good s.heap (stack ++ s.temp) → Among a ks s res →
    Part stack s (Among a ks) (selectLoop blk want a len is s res)
  | [], s, _, G, H => ⟨G, Ext.refl s, H⟩
  | i :: is, s, res, G, H => by
    unfold selectLoop
    refine slice_bind hs ?_
    intro v _ hv
    refine Part.bind (call_part R G (args := [v]) (by simpa using hv)) ?_
    intro s' r G' _ hq
    refine slice_bind hs ?_
    intro v' hv' _
    have H' := H.next hs hq.2
    refine selectLoop_part R hs is s' _ G' ?_
    split
    · exact H'.snoc hv'
    · exact H'

theorem select_part {stack blk want a g} (R : Ruby (allBut a) stack blk)
    (hs : Val.ref a g ∈ stack) (s : S) (G : Good s.heap (stack ++ s.temp)) :
    Part stack s (fun s vs => ∀ v ∈ vs, intact s.heap v = true) (select blk want a s) := by
  unfold select
  refine Part.bind (selectLoop_part R hs _ s [] G ⟨rfl, by simp⟩) ?_
  intro s' vs G' _ H
  exact finish_part G' (H.intact hs G')

theorem partitionLoop_part {stack blk a g len ks} (R : Ruby (allBut a) stack blk)
    (hs : Val.ref a g ∈ stack) :
    ∀ is (s : S) yes no, Good s.heap (stack ++ s.temp) → Among a ks s (yes ++ no) →
    Part stack s (fun s p => Among a ks s (p.1 ++ p.2)) (partitionLoop blk a len is s yes no)
  | [], s, _, _, G, H => ⟨G, Ext.refl s, H⟩
  | i :: is, s, yes, no, G, H => by
    unfold partitionLoop
    refine slice_bind hs ?_
    intro v _ hv
    refine Part.bind (call_part R G (args := [v]) (by simpa using hv)) ?_
    intro s' r G' _ hq
    refine slice_bind hs ?_
    intro v' hv' _
    have H' := (H.next hs hq.2).snoc hv'
    show Part stack s' _ (if truthy r = true then _ else _)
    split
    · refine partitionLoop_part R hs is s' _ _ G' ⟨H'.1, fun w hw => H'.2 w ?_⟩
      simp only [List.mem_append, List.mem_singleton] at hw ⊢
      tauto
    · refine partitionLoop_part R hs is s' _ _ G' ⟨H'.1, fun w hw => H'.2 w ?_⟩
      simp only [List.mem_append, List.mem_singleton] at hw ⊢
      tauto

theorem partition_part {stack blk a g} (R : Ruby (allBut a) stack blk)
    (hs : Val.ref a g ∈ stack) (s : S) (G : Good s.heap (stack ++ s.temp)) :
    Part stack s (fun s vs => ∀ v ∈ vs, intact s.heap v = true) (partition blk a s) := by
  unfold partition
  refine Part.bind (partitionLoop_part R hs _ s [] [] G ⟨rfl, by simp⟩) ?_
  intro s' p G' _ H
  exact finish_part G' (H.intact hs G')

theorem ext_mem {s s' : S} (E : Ext s s') {v : Val} (h : v ∈ s.temp) : v ∈ s'.temp := by
  obtain ⟨x, hx⟩ := E
  rw [hx]
  exact List.mem_append_left _ h

theorem uniqBangLoop_part {same stack blk a g len ks} (R : Ruby (allBut a) stack blk)
    (hs : Val.ref a g ∈ stack) :
    ∀ is (s : S) keys res, Good s.heap (stack ++ s.temp) → (∀ k ∈ keys, k ∈ s.temp) →
    Among a ks s res →
    Part stack s (Among a ks) (uniqBangLoop same blk a len is s keys res)
  | [], s, _, _, G, _, H => ⟨G, Ext.refl s, H⟩
  | i :: is, s, keys, res, G, K, H => by
    unfold uniqBangLoop
    refine slice_bind hs ?_
    intro v _ hv
    refine Part.bind (call_part R G (args := [v]) (by simpa using hv)) ?_
    intro s' r _ E hq
    have G' := good_push hq.1
    have he : Ext s' (push s' r) := ⟨[r], rfl⟩
    have K' : ∀ k ∈ r :: keys, k ∈ (push s' r).temp := by
      intro k hk
      rcases List.mem_cons.mp hk with e | e
      · subst e; simp [push]
      · exact ext_mem he (ext_mem E (K k e))
    have hall : (r :: keys).all (intact (push s' r).heap) = true := by
      refine all_intact G' ?_
      intro k hk
      exact .inr (.root (List.mem_append_right _ (K' k hk)))
    have H' : Among a ks (push s' r) res := H.next hs hq.2
    have step : ∀ keys' new, (∀ k ∈ keys', k ∈ (push s' r).temp) →
        Part stack (push s' r) (Among a ks) (slice (push s' r) a len i >>= fun v =>
          uniqBangLoop same blk a len is (push s' r) keys'
            (if new = true then res ++ [v] else res)) := by
      intro keys' new hk
      refine slice_bind hs ?_
      intro v' hv' _
      refine uniqBangLoop_part R hs is _ _ _ G' hk ?_
      split
      · exact H'.snoc hv'
      · exact H'
    have lift : ∀ x, Part stack (push s' r) (Among a ks) x → Part stack s' (Among a ks) x := by
      intro x hx
      match x, hx with
      | .ok (s'', a), ⟨h1, h2, h3⟩ => exact ⟨h1, he.trans h2, h3⟩
      | .error (.raised s''), h => exact he.trans h
      | .error .moved, _ => trivial
      | .error .fuel, _ => trivial
    show Part stack s' _ (insertKey same (push s' r).heap keys r >>= fun p =>
      slice (push s' r) a len i >>= fun v => uniqBangLoop same blk a len is (push s' r) p.1
        (if p.2 = true then res ++ [v] else res))
    unfold insertKey
    rw [if_pos hall]
    split
    · exact lift _ (step keys false (fun k hk => K' k (List.mem_cons_of_mem _ hk)))
    · refine lift _ (step (keys ++ [r]) true (fun k hk => K' k ?_))
      simp only [List.mem_append, List.mem_singleton, List.mem_cons] at hk ⊢
      tauto

theorem uniqBang_part {same stack blk a g} (R : Ruby (allBut a) stack blk)
    (hs : Val.ref a g ∈ stack) (s : S) (G : Good s.heap (stack ++ s.temp)) :
    Part stack s (fun s vs => ∀ v ∈ vs, intact s.heap v = true) (uniqBang same blk a s) := by
  unfold uniqBang
  refine Part.bind (uniqBangLoop_part R hs _ s [] [] G (by simp) ⟨rfl, by simp⟩) ?_
  intro s' vs G' _ H
  exact finish_part G' (H.intact hs G')

theorem compareLoop_part {may stack blk so xs} (R : Ruby may stack blk) (P : S → Prop)
    (hP : ∀ s s', P s → Ext s s' → Same may stack s s' → P s')
    (hx : ∀ s, P s → ∀ v ∈ xs, Fine s.heap (stack ++ s.temp) v) :
    ∀ fuel (s : S) ans, Good s.heap (stack ++ s.temp) → P s →
    Part stack s (fun s (_ : List Val) => P s) (compareLoop blk so xs fuel s ans)
  | 0, _, _, _, _ => trivial
  | f + 1, s, ans, G, p => by
    unfold compareLoop
    split
    · exact ⟨G, Ext.refl s, p⟩
    · rename_i i j _
      refine Part.bind (call_part R G (args := [xs.getD i .nil, xs.getD j .nil]) ?_) ?_
      · intro v hv
        simp only [List.mem_cons, List.not_mem_nil, or_false] at hv
        rcases hv with e | e
        · rw [e]; exact fine_getD (hx s p) i
        · rw [e]; exact fine_getD (hx s p) j
      · intro s' r G' E hq
        exact compareLoop_part R P hP hx f s' _ G' (hP s s' p E hq.2)

theorem sort_part {stack blk so a g fuel} (R : Ruby (allBut a) stack blk)
    (hs : Val.ref a g ∈ stack) (s : S) (G : Good s.heap (stack ++ s.temp)) :
    Part stack s (fun s vs => ∀ v ∈ vs, intact s.heap v = true) (sort blk so a fuel s) := by
  unfold sort
  refine Part.bind (compareLoop_part R (fun s' => s'.heap.kids a = s.heap.kids a) ?_ ?_
    fuel s [] G rfl) ?_
  · intro s1 s2 h1 _ h2
    rw [h2 a g rfl hs]; exact h1
  · intro s' h v hv
    exact .inr (fine_kid hs (by rw [h]; exact hv))
  · intro s' ans G' _ h
    refine finish_part G' (Among.intact hs G' (ks := s.heap.kids a) ⟨h, ?_⟩)
    intro v hv
    obtain ⟨i, _, rfl⟩ := List.mem_map.mp hv
    exact mem_getD _ i

theorem keyLoop_part {stack blk a g len ks} (R : Ruby (allBut a) stack blk)
    (hs : Val.ref a g ∈ stack) :
    ∀ is (s : S) acc, Good s.heap (stack ++ s.temp) →
    Among a ks s (acc.map Prod.fst) → (∀ p ∈ acc, p.2 ∈ s.temp) →
    Part stack s (fun s acc => Among a ks s (acc.map Prod.fst) ∧ ∀ p ∈ acc, p.2 ∈ s.temp)
      (keyLoop blk a len is s acc)
  | [], s, _, G, H, K => ⟨G, Ext.refl s, H, K⟩
  | i :: is, s, acc, G, H, K => by
    unfold keyLoop
    refine slice_bind hs ?_
    intro v _ hv
    refine Part.bind (call_part R G (args := [v]) (by simpa using hv)) ?_
    intro s' r _ E hq
    refine slice_bind hs ?_
    intro v' hv' _
    have G' := good_push hq.1
    have he : Ext s' (push s' r) := ⟨[r], rfl⟩
    have H' : Among a ks (push s' r) (acc.map Prod.fst) := H.next hs hq.2
    have := keyLoop_part (len := len) (ks := ks) R hs is (push s' r) (acc ++ [(v', r)]) G'
      (by
        rw [List.map_append]
        exact H'.snoc (i := i) hv')
      (by
        intro p hp
        rcases List.mem_append.mp hp with hp | hp
        · exact ext_mem he (ext_mem E (K p hp))
        · rw [List.mem_singleton] at hp; subst hp; simp [push])
    revert this
    cases keyLoop blk a len is (push s' r) (acc ++ [(v', r)]) with
    | ok s'' => exact fun h2 => ⟨h2.1, he.trans h2.2.1, h2.2.2⟩
    | error e =>
      cases e with
      | raised s'' => exact fun h2 => he.trans h2
      | dangling => exact fun h2 => h2
      | moved => exact fun _ => trivial
      | fuel => exact fun _ => trivial

theorem sortBy_part {stack blk cmp so a g fuel} (R : Ruby (allBut a) stack blk)
    (C : Ruby (allBut a) stack cmp)
    (hs : Val.ref a g ∈ stack) (s : S) (G : Good s.heap (stack ++ s.temp)) :
    Part stack s (fun s vs => ∀ v ∈ vs, intact s.heap v = true)
      (sortBy blk cmp so a fuel s) := by
  unfold sortBy
  refine Part.bind (keyLoop_part R hs _ s [] G ⟨rfl, by simp⟩ (by simp)) ?_
  intro s1 ps G1 _ H
  refine Part.bind (compareLoop_part C
    (fun s' => s'.heap.kids a = s.heap.kids a ∧ ∀ p ∈ ps, p.2 ∈ s'.temp) ?_ ?_
    fuel s1 [] G1 ⟨H.1.1, H.2⟩) ?_
  · intro s1 s2 h1 E h2
    exact ⟨by rw [h2 a g rfl hs]; exact h1.1, fun p hp => ext_mem E (h1.2 p hp)⟩
  · intro s' h v hv
    obtain ⟨p, hp, rfl⟩ := List.mem_map.mp hv
    exact .inr (.root (List.mem_append_right _ (h.2 p hp)))
  · intro s' ans G' _ h
    refine finish_part G' (Among.intact hs G' (ks := s.heap.kids a) ⟨h.1, ?_⟩)
    intro v hv
    obtain ⟨i, _, rfl⟩ := List.mem_map.mp hv
    rcases mem_getD (ps.map Prod.fst) i with e | e
    · exact .inl e
    · exact H.1.2 _ e

theorem injectLoop_part {may stack blk a g len} (R : Ruby may stack blk)
    (hs : Val.ref a g ∈ stack) :
    ∀ is (s : S) res, Good s.heap (stack ++ s.temp ++ [res]) →
    Part stack s (fun s r => Good s.heap (stack ++ s.temp ++ [r])) (injectLoop blk a len is s res)
  | [], s, _, G => ⟨G.mono (fun _ h => List.mem_append_left _ h), Ext.refl s, G⟩
  | i :: is, s, res, G => by
    unfold injectLoop
    refine slice_bind hs ?_
    intro v _ hv
    /- the value so far counts as one more value of the stack while the arguments are pushed -/
    have G0 : Good s.heap (stack ++ s.temp) := G.mono (fun _ h => List.mem_append_left _ h)
    have key : Part stack s (fun s' r => Good s'.heap (stack ++ s'.temp ++ [r]) ∧
        Same may stack s s') (call blk s [res, v]) := by
      have Ga : Good s.heap (stack ++ s.temp ++ [res, v]) := by
        refine G.fine ?_
        intro w hw
        simp only [List.mem_append, List.mem_cons, List.not_mem_nil, or_false] at hw
        rcases hw with (hw | hw) | hw | hw
        · exact .inr (.root (by simp [hw]))
        · exact .inr (.root (by simp [hw]))
        · exact .inr (.root (by simp [hw]))
        · subst hw
          rcases hv with e | e
          · exact .inl e
          · exact .inr (e.mono (fun _ h => List.mem_append_left _ h))
      obtain ⟨own, hr, hres⟩ := R s.n s.heap s.temp [res, v] Ga
      have hall : [res, v].all (intact s.heap) = true := by
        rw [List.all_eq_true]
        intro w hw
        exact Ga w (.root (List.mem_append_right _ hw))
      have hg := runs_good hr Ga
      obtain ⟨x, hx⟩ := runs_temp hr
      unfold call
      rw [if_pos hall]
      generalize hb : blk s.n s.heap s.temp [res, v] = o at *
      obtain ⟨h, t, res⟩ := o
      cases res with
      | none => exact ⟨x, hx⟩
      | some r =>
        have hg' : Good h (stack ++ t ++ [r]) := by
          refine Good.mono ?_ hg
          intro v hv
          simp only [List.mem_append, List.mem_singleton] at hv ⊢
          rcases hv with hv | hv
          · exact .inl hv
          · subst hv; exact .inr (hres _ rfl)
        refine ⟨hg'.mono (fun v hv => List.mem_append_left _ hv), ⟨x, hx⟩, hg', ?_⟩
        intro a g e hst
        subst e
        exact runs_quiet hr Ga hst
    refine Part.bind key ?_
    intro s' r _ _ hq
    exact injectLoop_part R hs is s' r hq.1

theorem eachLoop_part {may stack blk} (R : Ruby may stack blk) :
    ∀ vs (s : S), Good s.heap (stack ++ s.temp) → (∀ v ∈ vs, v ∈ s.temp) →
    Part stack s (fun _ (_ : Unit) => True) ((eachLoop blk vs s).map (fun s => (s, ())))
  | [], s, G, _ => ⟨G, Ext.refl s, trivial⟩
  | v :: vs, s, G, H => by
    have key := Part.bind (Q' := fun _ (_ : Unit) => True) (call_part R G (args := [v]) (by
        intro w hw
        rw [List.mem_singleton] at hw
        subst hw
        exact .inr (.root (List.mem_append_right _ (H _ List.mem_cons_self)))))
      (f := fun p => (eachLoop blk vs p.1).map (fun s => (s, ()))) (by
        intro s' r G' E _
        exact eachLoop_part R vs s' G' (fun w hw => ext_mem E (H w (List.mem_cons_of_mem _ hw))))
    unfold eachLoop
    revert key
    cases call blk s [v] with
    | ok p => exact fun k => k
    | error e => exact fun k => k

theorem enumLoop_safe {blk prod stack} (B : ∀ st, Ruby anything st (blk st))
    (F : RubyFiber stack prod) :
    ∀ fuel (s : S) fr, Good s.heap (stack ++ s.temp ++ fr) →
    enumLoop blk prod true stack fuel s fr ≠ .error .dangling
  | 0, _, _, _ => by unfold enumLoop; simp
  | f + 1, s, fr, G => by
    have hall : fr.all (intact s.heap) = true := by
      rw [List.all_eq_true]
      exact fun w hw => G w (.root (List.mem_append_right _ hw))
    obtain ⟨own, hr, hfr, hres⟩ := F s.n s.heap s.temp fr G
    have hg := runs_good hr G
    unfold enumLoop
    rw [if_pos hall]
    generalize prod s.n s.heap s.temp fr = o at *
    obtain ⟨h, t, fr', res⟩ := o
    cases res with
    | none => simp
    | some v =>
      have G1 : Good h ((stack ++ fr') ++ t) := by
        refine Good.mono ?_ hg
        intro w hw
        simp only [List.mem_append] at hw ⊢
        rcases hw with (hw | hw) | hw
        · exact .inl (.inl hw)
        · exact .inr (hfr w hw)
        · exact .inl (.inr hw)
      have Gv : Good h ((stack ++ fr') ++ t ++ [v]) := by
        refine Good.mono ?_ hg
        intro w hw
        simp only [List.mem_append, List.mem_singleton] at hw ⊢
        rcases hw with ((hw | hw) | hw) | hw
        · exact .inl (.inl hw)
        · exact .inr (hfr w hw)
        · exact .inl (.inr hw)
        · subst hw; exact .inr (hres _ rfl)
      obtain ⟨own', hr', hres'⟩ := B (stack ++ fr') s.n h t [v] Gv
      have hg' := runs_good hr' Gv
      have hall' : [v].all (intact h) = true := by
        rw [List.all_eq_true]
        exact fun w hw => Gv w (.root (List.mem_append_right _ hw))
      simp only [if_true, call, hall']
      generalize blk (stack ++ fr') s.n h t [v] = o' at *
      obtain ⟨h', t', res'⟩ := o'
      cases res' with
      | none =>
        intro e
        cases e
      | some r =>
        refine enumLoop_safe B F f _ fr' ?_
        refine Good.mono ?_ hg'
        intro w hw
        simp only [List.mem_append] at hw ⊢
        rcases hw with (hw | hw) | hw
        · exact .inl (.inl (.inl hw))
        · exact .inl (.inr hw)
        · exact .inl (.inl (.inr hw))

theorem reach_in {h : World} {roots : List Val} (L : List Val) (h1 : ∀ v ∈ roots, v ∈ L)
    (h2 : ∀ a g, Val.ref a g ∈ L → ∀ k ∈ h.kids a, k ∈ L) {v : Val} (H : Reach h roots v) :
    v ∈ L := by
  induction H with
  | root hv => exact h1 _ hv
  | kid _ hk ih => exact h2 _ _ ih _ hk

/-- Whether a builtin used a freed object. -/
def dangles {α : Type} : Except Stop α → Bool
  | .error .dangling => true
  | _ => false

/-- The values returned. -/
def values : Except Stop (S × List Val) → Option (List Val)
  | .ok (_, vs) => some vs
  | _ => none

/-- The heap of the examples: an array at 0 and two objects at 1 and 2, of which the first
`n` addresses are in use. -/
def heap (n : Nat) (elems : List Val) : World where
  live := fun x => decide (x < n)
  gen := fun _ => 0
  kids := fun x => if x = 0 then elems else []
  arr := fun x => decide (x = 0)

/-- A builtin at its start. -/
def start (n : Nat) (elems : List Val) : S := ⟨heap n elems, [], 0, []⟩

theorem heap_good {n : Nat} {elems : List Val} (hn : 0 < n)
    (he : ∀ v ∈ elems, intact (heap n elems) v = true) :
    Good (heap n elems) ([.ref 0 0] ++ []) := by
  intro v hv
  have : v ∈ Val.ref 0 0 :: elems := by
    refine reach_in _ ?_ ?_ hv
    · intro v hv
      simp only [List.append_nil, List.mem_singleton] at hv
      subst hv
      exact List.mem_cons_self
    · intro a g _ k hk
      simp only [heap] at hk
      split at hk
      · exact List.mem_cons_of_mem _ hk
      · cases hk
  rcases List.mem_cons.mp this with e | e
  · subst e; simp [intact, heap, hn]
  · exact he v e

/-- The block `{ |x| x.to_s }` for elements 1 and 2, with a collection during the second call.
In any other situation it returns nil. -/
def keyBlock : Block := fun n h t args =>
  if n = 0 ∧ h.live 1 = false then (h.alloc 1 false [], t, some (.ref 1 (h.gen 1)))
  else if t = [] ∧ args = [.imm 2] ∧ h.kids 0 = [.imm 1, .imm 2] ∧ h.live 1 = true then
    ((h.free 1).alloc 1 false [], t, some (.ref 1 ((h.free 1).gen 1)))
  else (h, t, some .nil)

theorem keyBlock_ruby : Ruby (allBut 0) [.ref 0 0] keyBlock := by
  intro n h t args G
  unfold keyBlock
  split
  · rename_i hc
    refine ⟨_, .single (.alloc (ks := []) 1 false hc.2 (by simp)), ?_⟩
    intro r hr
    cases hr
    exact List.mem_cons_self
  · split
    · rename_i hc
      obtain ⟨rfl, rfl, hk, hl⟩ := hc
      have hno : ¬ Reach h ([Val.ref 0 0] ++ [] ++ [.imm 2]) (.ref 1 (h.gen 1)) := by
        intro hr
        have := reach_in [Val.ref 0 0, .imm 1, .imm 2] (by simp) (by
          intro a g ha k hka
          simp only [List.mem_cons, Val.ref.injEq, List.not_mem_nil, or_false, reduceCtorEq] at ha
          rw [ha.1, hk] at hka
          exact List.mem_cons_of_mem _ hka) hr
        simp at this
      refine ⟨_, (Relation.ReflTransGen.single (.free 1 hl hno)).tail
        (.alloc (ks := []) 1 false (by simp [World.free]) (by simp)), ?_⟩
      intro r hr
      cases hr
      exact List.mem_cons_self
    · refine ⟨_, .single (.lit 0 (.inl rfl)), ?_⟩
      intro r hr
      cases hr
      exact List.mem_cons_self

theorem keyBlock_tidy : Tidy keyBlock := by
  intro n h t args
  unfold keyBlock
  split
  · rfl
  · split <;> rfl

/-- The block `{ |x| a[0] = nil; true }` at the second of two elements, with a collection
after the assignment. -/
def nilBlock : Block := fun _ h t args =>
  if t = [] ∧ args = [.ref 2 0] ∧ h.kids 0 = [.ref 1 0, .ref 2 0] ∧ h.kids 2 = [] ∧
      h.live 1 = true then
    ((h.write 0 [.nil, .ref 2 0]).free 1, t, some (.imm 1))
  else (h, t, some (.imm 1))

theorem nilBlock_ruby : Ruby anything [.ref 0 0] nilBlock := by
  intro n h t args G
  unfold nilBlock
  split
  · rename_i hc
    obtain ⟨rfl, rfl, hk, hk2, hl⟩ := hc
    have s1 : Step anything [Val.ref 0 0] ⟨h, [], [.ref 2 0]⟩ ⟨h, [], [.nil, .ref 2 0]⟩ :=
      .lit 0 (.inl rfl)
    have s2 : Step anything [Val.ref 0 0] ⟨h, [], [.nil, .ref 2 0]⟩
        ⟨h, [], [.ref 0 0, .nil, .ref 2 0]⟩ := .load (.root (by simp))
    have s3 : Step anything [Val.ref 0 0] ⟨h, [], [.ref 0 0, .nil, .ref 2 0]⟩
        ⟨h.write 0 [.nil, .ref 2 0], [], [.ref 0 0, .nil, .ref 2 0]⟩ :=
      .write (g := 0) trivial (by simp) (by simp)
    have hno : ¬ Reach (h.write 0 [.nil, .ref 2 0])
        ([Val.ref 0 0] ++ [] ++ [.ref 0 0, .nil, .ref 2 0])
        (.ref 1 ((h.write 0 [.nil, .ref 2 0]).gen 1)) := by
      intro hr
      have := reach_in [Val.ref 0 0, .nil, .ref 2 0] (by simp) (by
        intro a g ha k hka
        simp only [List.mem_cons, Val.ref.injEq, List.not_mem_nil, or_false, reduceCtorEq,
          false_or] at ha
        rcases ha with ha | ha
        · rw [ha.1] at hka
          simp only [World.write, if_true] at hka
          exact List.mem_cons_of_mem _ hka
        · rw [ha.1] at hka
          simp [World.write, hk2] at hka) hr
      simp at this
    have s4 := Step.free (may := anything) (stack := [Val.ref 0 0])
      (h := h.write 0 [.nil, .ref 2 0]) (t := []) (o := [.ref 0 0, .nil, .ref 2 0]) 1
      (by simpa [World.write] using hl) hno
    refine ⟨_, ((((Relation.ReflTransGen.single s1).tail s2).tail s3).tail s4).tail
      (.lit (v := .imm 1) 1 (.inr rfl)), ?_⟩
    intro r hr
    cases hr
    exact List.mem_cons_self
  · refine ⟨_, .single (.lit 1 (.inr rfl)), ?_⟩
    intro r hr
    cases hr
    exact List.mem_cons_self

theorem nilBlock_tidy : Tidy nilBlock := by
  intro n h t args
  unfold nilBlock
  split <;> rfl

/-- The block `{ |x, y| a.clear; 1 }`, with a collection after the call of `clear`. -/
def clearBlock : Block := fun _ h t args =>
  if t = [] ∧ args = [.ref 1 0, .ref 2 0] ∧ h.live 1 = true then
    ((h.write 0 []).free 1, t, some (.imm 1))
  else (h, t, some (.imm 1))

theorem clearBlock_ruby : Ruby anything [.ref 0 0] clearBlock := by
  intro n h t args G
  unfold clearBlock
  split
  · rename_i hc
    obtain ⟨rfl, rfl, hl⟩ := hc
    have s1 : Step anything [Val.ref 0 0] ⟨h, [], [.ref 1 0, .ref 2 0]⟩
        ⟨h, [], [.ref 0 0, .ref 1 0, .ref 2 0]⟩ := .load (.root (by simp))
    have s2 : Step anything [Val.ref 0 0] ⟨h, [], [.ref 0 0, .ref 1 0, .ref 2 0]⟩
        ⟨h.write 0 [], [], [.ref 0 0, .ref 1 0, .ref 2 0]⟩ :=
      .write (g := 0) trivial (by simp) (by simp)
    have s3 : Step anything [Val.ref 0 0] ⟨h.write 0 [], [], [.ref 0 0, .ref 1 0, .ref 2 0]⟩
        ⟨h.write 0 [], [], []⟩ := .drop (by simp)
    have hno : ¬ Reach (h.write 0 []) ([Val.ref 0 0] ++ [] ++ [])
        (.ref 1 ((h.write 0 []).gen 1)) := by
      intro hr
      have := reach_in [Val.ref 0 0] (by simp) (by
        intro a g ha k hka
        simp only [List.mem_singleton, Val.ref.injEq] at ha
        rw [ha.1] at hka
        simp [World.write] at hka) hr
      simp at this
    have s4 := Step.free (may := anything) (stack := [Val.ref 0 0])
      (h := h.write 0 []) (t := []) (o := []) 1 (by simpa [World.write] using hl) hno
    refine ⟨_, ((((Relation.ReflTransGen.single s1).tail s2).tail s3).tail s4).tail
      (.lit (v := .imm 1) 1 (.inr rfl)), ?_⟩
    intro r hr
    cases hr
    exact List.mem_cons_self
  · refine ⟨_, .single (.lit 1 (.inr rfl)), ?_⟩
    intro r hr
    cases hr
    exact List.mem_cons_self

/-- The block `{ |x| foo(&obj); 7 }`: the Proc that `obj.to_proc` makes stays on the temporary
area. -/
def procBlock : Block := fun _ h t _ =>
  if h.live 1 = false then (h.alloc 1 false [], t ++ [.ref 1 (h.gen 1)], some (.imm 7))
  else (h, t, some (.imm 7))

theorem procBlock_ruby (stack : List Val) : Ruby (allBut 0) stack procBlock := by
  intro n h t args G
  unfold procBlock
  split
  · rename_i hc
    refine ⟨_, ((Relation.ReflTransGen.single
      (.alloc (ks := []) 1 false hc (by simp))).tail (.keep List.mem_cons_self)).tail
      (.lit (v := .imm 7) 7 (.inr rfl)), ?_⟩
    intro r hr
    cases hr
    exact List.mem_cons_self
  · refine ⟨_, .single (.lit 7 (.inr rfl)), ?_⟩
    intro r hr
    cases hr
    exact List.mem_cons_self

/-- A fiber with the local variable `x`: it yields 1 and then goes on to use `x`. -/
def oneProducer : Producer := fun n h t fr => (h, t, fr, if n = 0 then some (.imm 1) else none)

theorem oneProducer_ruby (stack : List Val) : RubyFiber stack oneProducer := by
  intro n h t fr _
  refine ⟨.imm 1 :: fr, .single (.lit 1 (.inr rfl)), ?_, ?_⟩
  · intro v hv
    exact List.mem_cons_of_mem _ hv
  · intro r hr
    simp only [oneProducer] at hr
    split at hr
    · cases hr; exact List.mem_cons_self
    · cases hr

/-- A block during which a collection runs. -/
def gcBlock (stack : List Val) : Block := fun _ h t args =>
  if stack = [] ∧ t = [] ∧ args = [.imm 1] ∧ h.live 1 = true then (h.free 1, t, some .nil)
  else (h, t, some .nil)

theorem gcBlock_ruby (stack : List Val) : Ruby anything stack (gcBlock stack) := by
  intro n h t args G
  unfold gcBlock
  split
  · rename_i hc
    obtain ⟨rfl, rfl, rfl, hl⟩ := hc
    have hno : ¬ Reach h ([] ++ [] ++ [.imm 1]) (.ref 1 (h.gen 1)) := by
      intro hr
      have := reach_in [.imm 1] (by simp) (by
        intro a g ha k _
        simp at ha) hr
      simp at this
    refine ⟨_, (Relation.ReflTransGen.single (.free 1 hl hno)).tail
      (.lit (v := .nil) 1 (.inl rfl)), ?_⟩
    intro r hr
    cases hr
    exact List.mem_cons_self
  · refine ⟨_, .single (.lit 1 (.inl rfl)), ?_⟩
    intro r hr
    cases hr
    exact List.mem_cons_self

theorem mapLoop_log {blk : Block} (T : Tidy blk) {a : Nat} :
    ∀ fuel i (s s' : S), mapLoop blk a fuel i s = .ok s' →
    ∃ y, s'.temp = s.temp ++ y ∧ s'.log = s.log ++ y
  | 0, _, _, _, h => by simp [mapLoop] at h
  | f + 1, i, s, s', h => by
    unfold mapLoop at h
    split at h
    · cases h; exact ⟨[], by simp, by simp⟩
    · rename_i v _
      unfold call at h
      split at h
      · have ht := T s.n s.heap s.temp [v]
        generalize blk s.n s.heap s.temp [v] = o at *
        obtain ⟨h1, t1, r1⟩ := o
        cases r1 with
        | none => cases h
        | some r =>
          simp only at ht
          subst ht
          obtain ⟨y, h2, h3⟩ := mapLoop_log T f (i + 1) _ s' h
          refine ⟨r :: y, ?_, ?_⟩
          · rw [h2]; simp [push]
          · rw [h3]; simp [push]
      · cases h

/-! ## C113 -/

/-- **C113** `map`: whatever the block does, with a collection at any moment, no freed object
is used and every value in the result is the one the builtin put there. -/
theorem C113_map {stack : List Val} {blk : Block} {a g : Nat} (R : Ruby anything stack blk)
    (hs : Val.ref a g ∈ stack) (fuel : Nat) (s : S) (G : Good s.heap (stack ++ s.temp)) :
    Safe (map blk a fuel s) := (map_part R hs fuel s G).safe

example : Safe (map keyBlock 0 9 (start 1 [.imm 1, .imm 2])) :=
  C113_map (g := 0) (fun n h t args G => by
    obtain ⟨own, hr, h2⟩ := keyBlock_ruby n h t args G
    exact ⟨own, runs_weaken (fun _ _ => trivial) hr, h2⟩)
    List.mem_cons_self 9 _ (heap_good (by omega) (by decide))

/-- Under `map` the first key stays alive: the second call finds address 1 in use. -/
example : values (map keyBlock 0 9 (start 1 [.imm 1, .imm 2])) = some [.ref 1 0, .nil] := by
  decide +kernel

/-- **C113** `flat_map`. -/
theorem C113_flat_map {stack : List Val} {blk : Block} {a g : Nat} (R : Ruby anything stack blk)
    (hs : Val.ref a g ∈ stack) (s : S) (G : Good s.heap (stack ++ s.temp)) :
    Safe (flatMap blk a s) := (flatMap_part R hs s G).safe

example : values (flatMap (fun _ h t _ => (h, t, some (.ref 0 0))) 0
    (start 1 [.imm 1, .imm 2])) = some [.imm 1, .imm 2, .imm 1, .imm 2] := by decide +kernel

/-- **C113** `inject`: the value handed from call to call is never lost. -/
theorem C113_inject {stack : List Val} {blk : Block} {a g : Nat} {first : Val}
    (R : Ruby anything stack blk) (hs : Val.ref a g ∈ stack) (hf : first ∈ stack) (s : S)
    (G : Good s.heap (stack ++ s.temp)) : Safe (inject blk a first s) := by
  unfold inject
  refine Part.safe (stack := stack) (s0 := s) ?_
  refine Part.bind (injectLoop_part R hs _ s first ?_) ?_
  · refine G.mono ?_
    intro v hv
    rcases List.mem_append.mp hv with hv | hv
    · exact hv
    · rw [List.mem_singleton] at hv
      subst hv
      exact List.mem_append_left _ hf
  · intro s' r G' _ hq
    exact finish_part G' (by simpa using hq r (.root (by simp)))

example : Safe (inject (fun _ h t args => (h, t, args.head?)) 0 (.ref 0 0)
    (start 3 [.ref 1 0, .ref 2 0])) :=
  C113_inject (stack := [.ref 0 0]) (g := 0) (fun n h t args _ => ⟨args, .refl, fun r hr => by
    simp only at hr; exact List.mem_of_mem_head? hr⟩) List.mem_cons_self List.mem_cons_self _
    (heap_good (by omega) (by decide))

/-- **C113** `zip` and `scan` with a block: the values made before the first call are still
there when their turn comes. -/
theorem C113_zip {stack : List Val} {blk : Block} (R : Ruby anything stack blk) (vs : List Val)
    (s : S) (G : Good s.heap (stack ++ s.temp ++ vs)) :
    eachNew blk vs s ≠ .error .dangling := by
  have h := eachLoop_part R vs { s with temp := s.temp ++ vs }
    (by simpa [List.append_assoc] using G) (fun v hv => List.mem_append_right _ hv)
  unfold eachNew
  intro e
  rw [e] at h
  exact h

example : eachNew keyBlock [.imm 1, .ref 0 0] (start 1 [.imm 1, .imm 2]) ≠ .error .dangling :=
  C113_zip (stack := [.ref 0 0]) (fun n h t args G => by
    obtain ⟨own, hr, h2⟩ := keyBlock_ruby n h t args G
    exact ⟨own, runs_weaken (fun _ _ => trivial) hr, h2⟩) _ _ (by
      refine (heap_good (n := 1) (elems := [.imm 1, .imm 2]) (by omega) (by decide)).extend ?_
      intro v hv
      simp only [start, List.append_nil, List.mem_append, List.mem_cons, List.not_mem_nil,
        or_false] at hv
      rcases hv with rfl | rfl | rfl
      · exact .root (by simp)
      · exact .kid (a := 0) (g := 0) (.root (by simp)) (by simp [heap])
      · exact .root (by simp))

/-- **C113** `select` and `reject`, as long as the block does not change the receiver. -/
theorem C113_select_partial {stack : List Val} {blk : Block} {want : Bool} {a g : Nat}
    (R : Ruby (allBut a) stack blk) (hs : Val.ref a g ∈ stack) (s : S)
    (G : Good s.heap (stack ++ s.temp)) : Safe (select blk want a s) :=
  (select_part R hs s G).safe

example : Safe (select keyBlock true 0 (start 1 [.imm 1, .imm 2])) :=
  C113_select_partial (g := 0) keyBlock_ruby List.mem_cons_self _ (heap_good (by omega) (by decide))

/-- **C113** `partition`, as long as the block does not change the receiver. -/
theorem C113_partition_partial {stack : List Val} {blk : Block} {a g : Nat}
    (R : Ruby (allBut a) stack blk) (hs : Val.ref a g ∈ stack) (s : S)
    (G : Good s.heap (stack ++ s.temp)) : Safe (partition blk a s) :=
  (partition_part R hs s G).safe

example : Safe (partition keyBlock 0 (start 1 [.imm 1, .imm 2])) :=
  C113_partition_partial (g := 0) keyBlock_ruby List.mem_cons_self _
    (heap_good (by omega) (by decide))

/-- **C113** `uniq!` with a block, as long as the block does not change the receiver. -/
theorem C113_uniq_bang_partial {same : World → Val → Val → Bool} {stack : List Val} {blk : Block}
    {a g : Nat} (R : Ruby (allBut a) stack blk) (hs : Val.ref a g ∈ stack) (s : S)
    (G : Good s.heap (stack ++ s.temp)) : Safe (uniqBang same blk a s) :=
  (uniqBang_part R hs s G).safe

example : values (uniqBang (fun _ v w => decide (v = w)) keyBlock 0 (start 1 [.imm 1, .imm 2])) =
    some [.imm 1, .imm 2] := by decide +kernel

/-- **C113** `sort` with a block, as long as the block does not change the receiver. -/
theorem C113_sort_partial {stack : List Val} {blk : Block} {so : Sorter} {a g fuel : Nat}
    (R : Ruby (allBut a) stack blk) (hs : Val.ref a g ∈ stack) (s : S)
    (G : Good s.heap (stack ++ s.temp)) : Safe (sort blk so a fuel s) :=
  (sort_part R hs s G).safe

example : Safe (sort keyBlock ⟨fun ans => if ans = [] then some (0, 1) else none, fun _ => [1, 0]⟩
    0 9 (start 1 [.imm 1, .imm 2])) :=
  C113_sort_partial (g := 0) keyBlock_ruby List.mem_cons_self _ (heap_good (by omega) (by decide))

/-- **C113** `sort_by`, as long as neither the block nor the comparison changes the receiver. -/
theorem C113_sort_by_partial {stack : List Val} {blk cmp : Block} {so : Sorter} {a g fuel : Nat}
    (R : Ruby (allBut a) stack blk) (C : Ruby (allBut a) stack cmp) (hs : Val.ref a g ∈ stack)
    (s : S) (G : Good s.heap (stack ++ s.temp)) : Safe (sortBy blk cmp so a fuel s) :=
  (sortBy_part R C hs s G).safe

example : Safe (sortBy keyBlock (procBlock)
    ⟨fun ans => if ans = [] then some (0, 1) else none, fun _ => [1, 0]⟩
    0 9 (start 1 [.imm 1, .imm 2])) :=
  C113_sort_by_partial (g := 0) keyBlock_ruby (procBlock_ruby _) List.mem_cons_self _
    (heap_good (by omega) (by decide))

/-- **C113** An enumerator that is resumed with `next`, and a fiber: what is in its frames is
still there when it is resumed. -/
theorem C113_next {stack : List Val} {blk : List Val → Block} {prod : Producer}
    (B : ∀ st, Ruby anything st (blk st)) (F : RubyFiber stack prod) (fuel : Nat) (s : S)
    (frames : List Val) (G : Good s.heap (stack ++ s.temp ++ frames)) :
    enumLoop blk prod true stack fuel s frames ≠ .error .dangling :=
  enumLoop_safe B F fuel s frames G

example : enumLoop gcBlock oneProducer true [] 5 (start 2 []) [.ref 1 0] ≠ .error .dangling :=
  C113_next gcBlock_ruby (oneProducer_ruby _) 5 _ _ (by
    intro v hv
    have := reach_in [.ref 1 0] (by simp [start]) (by
      intro a g ha k hk
      simp only [List.mem_singleton, Val.ref.injEq] at ha
      rw [ha.1] at hk
      simp [start, heap] at hk) hv
    rw [List.mem_singleton] at this
    subst this
    decide)

/-- **C113** The call of a builtin leaves the temporary area as it was, whether the builtin
returns or the block raises. -/
theorem C113_temporary_area {stack : List Val} {blk : Block} {a g : Nat}
    (R : Ruby anything stack blk) (hs : Val.ref a g ∈ stack) (fuel : Nat) (s : S)
    (G : Good s.heap (stack ++ s.temp)) :
    match execNative s (map blk a fuel) with
    | .ok (s', _) => s'.temp = s.temp
    | .error (.raised s') => s'.temp = s.temp
    | .error _ => True := by
  have h := map_part R hs fuel s G
  unfold execNative
  revert h
  cases map blk a fuel s with
  | ok p =>
    intro h
    obtain ⟨x, hx⟩ := h.2.1
    simp [hx]
  | error e =>
    cases e with
    | raised s' =>
      intro h
      obtain ⟨x, hx⟩ := h
      simp [hx]
    | _ => intro _; trivial

/-- **C113** `map` returns exactly what the calls of the block returned, in their order, if
the block passes no `&obj` that needs `to_proc`. -/
theorem C113_map_values_partial {blk : Block} (T : Tidy blk) {a fuel : Nat} {s s' : S}
    {vs : List Val} (h : map blk a fuel s = .ok (s', vs)) : s'.log = s.log ++ vs := by
  unfold map at h
  cases hm : mapLoop blk a fuel 0 s with
  | error e => rw [hm] at h; cases h
  | ok s1 =>
    rw [hm] at h
    obtain ⟨y, h1, h2⟩ := mapLoop_log T fuel 0 s s1 hm
    change finish (popVec s1 s.temp.length).1 (popVec s1 s.temp.length).2 = _ at h
    unfold finish at h
    split at h
    · cases h
      simp only [popVec, h1, h2, List.drop_left]
    · cases h

example : values (map nilBlock 0 9 (start 3 [.ref 1 0, .ref 2 0])) = some [.imm 1, .imm 1] := by
  decide +kernel

/-- **C113** fails for `uniq` with a block: `[1, 2].uniq { |x| x.to_s }` looks at the key of
the first element after it was freed, though the block changes nothing. -/
theorem C113_uniq_fails : ∃ (stack : List Val) (blk : Block) (s : S),
    Ruby (allBut 0) stack blk ∧ Tidy blk ∧ Val.ref 0 0 ∈ stack ∧
    Good s.heap (stack ++ s.temp) ∧
    ∀ same, ¬ Safe (uniq same blk 0 s) := by
  refine ⟨[.ref 0 0], keyBlock, start 1 [.imm 1, .imm 2], keyBlock_ruby, keyBlock_tidy,
    List.mem_cons_self, heap_good (by omega) (by decide), ?_⟩
  intro same
  have : uniq same keyBlock 0 (start 1 [.imm 1, .imm 2]) = .error .dangling := rfl
  rw [this]
  exact fun h => h

/-- **C113** fails for `select` when the block changes the receiver:
`a.select { |x| a[0] = nil; true }` returns an array with a freed object. -/
theorem C113_select_fails : ∃ (stack : List Val) (blk : Block) (s : S),
    Ruby anything stack blk ∧ Tidy blk ∧ Val.ref 0 0 ∈ stack ∧
    Good s.heap (stack ++ s.temp) ∧ ¬ Safe (select blk true 0 s) := by
  refine ⟨[.ref 0 0], nilBlock, start 3 [.ref 1 0, .ref 2 0], nilBlock_ruby, nilBlock_tidy,
    List.mem_cons_self, heap_good (by omega) (by decide), ?_⟩
  have : select nilBlock true 0 (start 3 [.ref 1 0, .ref 2 0]) = .error .dangling := rfl
  rw [this]
  exact fun h => h

/-- **C113** fails for `sort` when the block changes the receiver:
`a.sort { |x, y| a.clear; 1 }`. -/
theorem C113_sort_fails : ∃ (stack : List Val) (blk : Block) (so : Sorter) (s : S),
    Ruby anything stack blk ∧ Val.ref 0 0 ∈ stack ∧
    Good s.heap (stack ++ s.temp) ∧ ¬ Safe (sort blk so 0 9 s) := by
  refine ⟨[.ref 0 0], clearBlock,
    ⟨fun ans => if ans = [] then some (0, 1) else none, fun _ => [1, 0]⟩,
    start 3 [.ref 1 0, .ref 2 0], clearBlock_ruby,
    List.mem_cons_self, heap_good (by omega) (by decide), ?_⟩
  have : sort clearBlock ⟨fun ans => if ans = [] then some (0, 1) else none, fun _ => [1, 0]⟩ 0 9
    (start 3 [.ref 1 0, .ref 2 0]) = .error .dangling := rfl
  rw [this]
  exact fun h => h

/-- **C113** fails for `each`, `map` and `with_index` of an enumerator: a collection while the
block runs frees what the local variables of the enumerated method hold. -/
theorem C113_enumerator_each_fails : ∃ (blk : List Val → Block) (prod : Producer)
    (stack frames : List Val) (s : S),
    (∀ st, Ruby anything st (blk st)) ∧ RubyFiber stack prod ∧
    Good s.heap (stack ++ s.temp ++ frames) ∧
    enumLoop blk prod false stack 5 s frames = .error .dangling := by
  refine ⟨gcBlock, oneProducer, [], [.ref 1 0], start 2 [], gcBlock_ruby, oneProducer_ruby _, ?_,
    rfl⟩
  intro v hv
  have := reach_in [.ref 1 0] (by simp [start]) (by
    intro a g ha k hk
    simp only [List.mem_singleton, Val.ref.injEq] at ha
    rw [ha.1] at hk
    simp [start, heap] at hk) hv
  rw [List.mem_singleton] at this
  subst this
  decide

/-- **C113** fails for the values of `map`: `[1].map { |x| foo(&obj); 7 }` returns
`[#<Proc>, 7]`. -/
theorem C113_map_values_fails : ∃ (stack : List Val) (blk : Block) (s s' : S) (vs : List Val),
    Ruby (allBut 0) stack blk ∧ Val.ref 0 0 ∈ stack ∧ Good s.heap (stack ++ s.temp) ∧
    map blk 0 9 s = .ok (s', vs) ∧ s.log = [] ∧ s'.log = [.imm 7] ∧ vs = [.ref 1 0, .imm 7] :=
  ⟨[.ref 0 0], procBlock, start 1 [.imm 1], _, _, procBlock_ruby _, List.mem_cons_self,
    heap_good (by omega) (by decide), rfl, rfl, rfl, rfl⟩

/-- **C113** fails for what is not held any more: Ruby code that passes `&obj` again and again
keeps every Proc that `to_proc` made.  For every number there is code that ends with no value
in its frames and with that many objects that no later step can free, as long as the builtin
that called it has not returned. -/
theorem C113_released_fails (stack : List Val) (n : Nat) :
    ∀ h : World, (∀ a, h.live a = true → a = 0) → Good h stack →
    ∃ h' t', Runs anything stack ⟨h, [], []⟩ ⟨h', t', []⟩ ∧ t'.length = n ∧ t'.Nodup ∧
      ∀ m, Runs anything stack ⟨h', t', []⟩ m → ∀ v ∈ t', (∃ a g, v = .ref a g) ∧ intact m.heap v := by
  intro h hl hg
  have main : ∃ h' t', Runs anything stack ⟨h, [], []⟩ ⟨h', t', []⟩ ∧ t'.length = n ∧ t'.Nodup ∧
      (∀ v ∈ t', ∃ a g, v = Val.ref a g ∧ a ≤ n) ∧ ∀ a, n < a → h'.live a = false := by
    induction n with
    | zero =>
      refine ⟨h, [], .refl, rfl, List.nodup_nil, by simp, ?_⟩
      intro a ha
      cases e : h.live a with
      | false => rfl
      | true => have := hl a e; omega
    | succ n ih =>
      obtain ⟨h1, t1, hr, hlen, hnd, hb, hfree⟩ := ih
      refine ⟨h1.alloc (n + 1) false [], t1 ++ [.ref (n + 1) (h1.gen (n + 1))],
        ((hr.tail (.alloc (ks := []) (n + 1) false (hfree _ (by omega)) (by simp))).tail
          (.keep List.mem_cons_self)).tail (.drop (by simp)), by simp [hlen], ?_, ?_, ?_⟩
      · rw [List.nodup_append]
        refine ⟨hnd, by simp, ?_⟩
        intro v hv w hw e
        rw [List.mem_singleton] at hw
        obtain ⟨a, g, rfl, ha⟩ := hb v hv
        rw [hw] at e
        cases e
        omega
      · intro v hv
        rcases List.mem_append.mp hv with hv | hv
        · obtain ⟨a, g, e, ha⟩ := hb v hv
          exact ⟨a, g, e, by omega⟩
        · rw [List.mem_singleton] at hv
          exact ⟨_, _, hv, Nat.le_refl _⟩
      · intro a ha
        have : a ≠ n + 1 := by omega
        simp only [World.alloc, if_neg this]
        exact hfree a (by omega)
  obtain ⟨h', t', hr, hlen, hnd, hb, _⟩ := main
  refine ⟨h', t', hr, hlen, hnd, ?_⟩
  intro m hm v hv
  obtain ⟨a, g, e, _⟩ := hb v hv
  refine ⟨⟨a, g, e⟩, ?_⟩
  have G : M.Good stack ⟨h, [], []⟩ := by simpa [M.Good] using hg
  have := runs_good (hr.trans hm) G
  refine this v (.root ?_)
  obtain ⟨x, hx⟩ := runs_temp hm
  rw [hx]
  simp [hv]

end Verif.Temps
