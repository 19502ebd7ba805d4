/-!
# Sorting

Model of `VM::merge_sort` and its helpers (`ruruby/src/vm/executor/opt_core.rs:803-1074`), used by
`Array#sort`, `Array#sort_by` and `Hash#sort`.

The slice being sorted is a list that is overwritten element by element, as in the code; the temporary buffer is
a second list.  The comparison may change the state of the interpreter and may raise: it is a function from two
elements and a state to an answer or an exception, and a new state.  Whatever happens, the outcome has the contents
of the slice as it is left behind.  The two `Drop` implementations (`InsertionHole`, `MergeHole`) run on every way
out, including `?`.
-/
namespace Verif.Sort
section
variable {T σ ε : Type}

abbrev Less (T σ ε : Type) := T → T → σ → Except ε Bool × σ

/-- Slice contents, state, and success or exception. -/
abbrev Out (T σ ε : Type) := List T × σ × Except ε Unit

variable (is_less : Less T σ ε)

/-- `opt_core.rs:943-949`: the loop of `insert_head`.  `hole` is where `InsertionHole::dest` points. -/
def insertLoop (tmp : T) : (fuel : Nat) → (v : List T) → (i hole : Nat) → σ → List T × Nat × σ × Except ε Unit
  | 0, v, _, hole, s => (v, hole, s, .ok ())
  | fuel + 1, v, i, hole, s =>
    match v[i]? with
    | none => (v, hole, s, .ok ())
    | some x =>
      match is_less x tmp s with
      | (.error e, s') => (v, hole, s', .error e)
      | (.ok false, s') => (v, hole, s', .ok ())
      | (.ok true, s') => insertLoop tmp fuel (v.set (i - 1) x) (i + 1) i s'

/-- `opt_core.rs:927-967` `insert_head` -/
def insert_head (v : List T) (s : σ) : Out T σ ε :=
  match v with
  | v0 :: v1 :: _ =>
    match is_less v1 v0 s with
    | (.error e, s') => (v, s', .error e)
    | (.ok false, s') => (v, s', .ok ())
    | (.ok true, s') =>
      match insertLoop is_less v0 v.length (v.set 0 v1) 2 1 s' with
      | (w, hole, s'', r) => (w.set hole v0, s'', r)       -- drop of `InsertionHole`
  | _ => (v, s, .ok ())

/-- Overwrite `dst[at ..]` with `src`. -/
def copyTo (dst : List T) (at_ : Nat) (src : List T) : List T := dst.take at_ ++ src ++ dst.drop (at_ + src.length)

/-- `opt_core.rs:994-1010`: the loop when the left run is in the buffer.  `left`, `right`, `out` are offsets. -/
def mergeLoLoop (buf : List T) : (fuel : Nat) → (v : List T) → (left right out : Nat) → σ →
    List T × Nat × Nat × σ × Except ε Unit
  | 0, v, left, _, out, s => (v, left, out, s, .ok ())
  | fuel + 1, v, left, right, out, s =>
    match buf[left]?, v[right]? with
    | some l, some r =>
      match is_less r l s with
      | (.error e, s') => (v, left, out, s', .error e)
      | (.ok true, s') => mergeLoLoop buf fuel (v.set out r) left (right + 1) (out + 1) s'
      | (.ok false, s') => mergeLoLoop buf fuel (v.set out l) (left + 1) right (out + 1) s'
    | _, _ => (v, left, out, s, .ok ())

/-- `opt_core.rs:1022-1040`: the loop when the right run is in the buffer, from the end.  `left` is `hole.dest`,
`right` is `hole.end`. -/
def mergeHiLoop (buf : List T) : (fuel : Nat) → (v : List T) → (left right out : Nat) → σ →
    List T × Nat × Nat × σ × Except ε Unit
  | 0, v, left, right, _, s => (v, left, right, s, .ok ())
  | fuel + 1, v, left, right, out, s =>
    match left, right with
    | left' + 1, right' + 1 =>
      match buf[right']?, v[left']? with
      | some r, some l =>
        match is_less r l s with
        | (.error e, s') => (v, left, right, s', .error e)
        | (.ok true, s') => mergeHiLoop buf fuel (v.set (out - 1) l) left' right (out - 1) s'
        | (.ok false, s') => mergeHiLoop buf fuel (v.set (out - 1) r) left right' (out - 1) s'
      | _, _ => (v, left, right, s, .ok ())                 -- not reached
    | _, _ => (v, left, right, s, .ok ())

/-- `opt_core.rs:969-1073` `merge` -/
def merge (v : List T) (mid : Nat) (s : σ) : Out T σ ε :=
  let len := v.length
  if mid ≤ len - mid then
    let buf := v.take mid
    match mergeLoLoop is_less buf len v 0 mid 0 s with
    | (w, left, out, s', r) => (copyTo w out (buf.drop left), s', r)            -- drop of `MergeHole`
  else
    let buf := v.drop mid
    match mergeHiLoop is_less buf len v mid (len - mid) len s with
    | (w, left, right, s', r) => (copyTo w left (buf.take right), s', r)        -- drop of `MergeHole`

/-- Run `f` on `v[start..end]` in place. -/
def onSlice (f : List T → σ → Out T σ ε) (v : List T) (start fin : Nat) (s : σ) : Out T σ ε :=
  match f ((v.take fin).drop start) s with
  | (w, s', r) => (v.take start ++ w ++ v.drop fin, s', r)

/-- `opt_core.rs:830-836`: `for i in (0..n).rev() { insert_head(&mut v[i..]) }` -/
def insertionSort : (n : Nat) → (v : List T) → σ → Out T σ ε
  | 0, v, s => (v, s, .ok ())
  | i + 1, v, s =>
    match onSlice (insert_head is_less) v i v.length s with
    | (v', s', .error e) => (v', s', .error e)
    | (v', s', .ok ()) => insertionSort i v' s'

/-- `opt_core.rs:850-854`, `857-861`: extend a descending (`want = true`) or ascending (`want = false`) run to the
left of `start`. -/
def extendRun (want : Bool) (v : List T) : (start : Nat) → σ → Nat × σ × Except ε Unit
  | 0, s => (0, s, .ok ())
  | start + 1, s =>
    match v[start + 1]?, v[start]? with
    | some a, some b =>
      match is_less a b s with
      | (.error e, s') => (start + 1, s', .error e)
      | (.ok c, s') => if c = want then extendRun want v start s' else (start + 1, s', .ok ())
    | _, _ => (start + 1, s, .ok ())                        -- not reached

/-- `opt_core.rs:842-865`: find the natural run that ends at `fin`, reversing it if it is strictly descending. -/
def findRun (v : List T) (fin : Nat) (s : σ) : List T × Nat × σ × Except ε Unit :=
  let start := fin - 1
  if start > 0 then
    let start := start - 1
    match v[start + 1]?, v[start]? with
    | some a, some b =>
      match is_less a b s with
      | (.error e, s') => (v, start, s', .error e)
      | (.ok true, s') =>
        match extendRun is_less true v start s' with
        | (start, s'', .error e) => (v, start, s'', .error e)
        | (start, s'', .ok ()) => (v.take start ++ ((v.take fin).drop start).reverse ++ v.drop fin, start, s'', .ok ())
      | (.ok false, s') =>
        match extendRun is_less false v start s' with
        | (start, s'', r) => (v, start, s'', r)
    | _, _ => (v, start, s, .ok ())                         -- not reached
  else (v, start, s, .ok ())

/-- `opt_core.rs:869-872`: lengthen a short run by insertion. -/
def growRun (fin : Nat) : (start : Nat) → (v : List T) → σ → List T × Nat × σ × Except ε Unit
  | 0, v, s => (v, 0, s, .ok ())
  | start + 1, v, s =>
    if fin - (start + 1) < 10 then
      match onSlice (insert_head is_less) v start fin s with
      | (v', s', .error e) => (v', start, s', .error e)
      | (v', s', .ok ()) => growRun fin start v' s'
    else (v, start + 1, s, .ok ())

/-- `opt_core.rs:920-924` `Run` -/
structure Run where
  start : Nat
  len : Nat

/-- `opt_core.rs:901-918` `collapse`.  The vector of runs is kept here with its last element first.  `some false`
stands for the index `n - 2`, `some true` for `n - 3`. -/
def collapse : List Run → Option Bool
  | r1 :: r2 :: rest =>
    let c3 := match rest with
      | r3 :: _ => decide (r3.len ≤ r2.len + r1.len)
      | [] => false
    let c4 := match rest with
      | r3 :: r4 :: _ => decide (r4.len ≤ r3.len + r2.len)
      | _ => false
    if r1.start = 0 ∨ r2.len ≤ r1.len ∨ c3 = true ∨ c4 = true then
      match rest with
      | r3 :: _ => if r3.len < r1.len then some true else some false
      | [] => some false
    else none
  | _ => none

/-- `opt_core.rs:882-896`: merge runs until `collapse` finds nothing to do. -/
def collapseLoop : (fuel : Nat) → (v : List T) → List Run → σ → List T × List Run × σ × Except ε Unit
  | 0, v, runs, s => (v, runs, s, .ok ())
  | fuel + 1, v, runs, s =>
    match collapse runs, runs with
    | some false, left :: right :: rest =>
      match onSlice (fun w => merge is_less w left.len) v left.start (right.start + right.len) s with
      | (v', s', .error e) => (v', runs, s', .error e)
      | (v', s', .ok ()) => collapseLoop fuel v' (⟨left.start, left.len + right.len⟩ :: rest) s'
    | some true, top :: left :: right :: rest =>
      match onSlice (fun w => merge is_less w left.len) v left.start (right.start + right.len) s with
      | (v', s', .error e) => (v', runs, s', .error e)
      | (v', s', .ok ()) => collapseLoop fuel v' (top :: ⟨left.start, left.len + right.len⟩ :: rest) s'
    | _, _ => (v, runs, s, .ok ())

/-- `opt_core.rs:840-897`: the main loop, `while end > 0`. -/
def mainLoop : (fuel : Nat) → (v : List T) → List Run → (fin : Nat) → σ → List T × List Run × σ × Except ε Unit
  | 0, v, runs, _, s => (v, runs, s, .ok ())
  | fuel + 1, v, runs, fin, s =>
    if fin > 0 then
      match findRun is_less v fin s with
      | (v, _, s, .error e) => (v, runs, s, .error e)
      | (v, start, s, .ok ()) =>
        match growRun is_less fin start v s with
        | (v, _, s, .error e) => (v, runs, s, .error e)
        | (v, start, s, .ok ()) =>
          let runs := ⟨start, fin - start⟩ :: runs
          match collapseLoop is_less runs.length v runs s with
          | (v, runs, s, .error e) => (v, runs, s, .error e)
          | (v, runs, s, .ok ()) => mainLoop fuel v runs start s
    else (v, runs, s, .ok ())

/-- `opt_core.rs:818-925` `merge_sort` -/
def merge_sort (v : List T) (s : σ) : Out T σ ε :=
  let len := v.length
  if len ≤ 20 then
    if len ≥ 2 then insertionSort is_less (len - 1) v s
    else (v, s, .ok ())
  else
    match mainLoop is_less len v [] len s with
    | (v, _, s, r) => (v, s, r)

/-- The answer of a comparison. -/
inductive Ord where
  | lt | eq | gt
  deriving DecidableEq

/-- `opt_core.rs:813-815`: the closure of `sort_by`: "the comparison says Less". -/
def lessOf (compare : T → T → σ → Except ε Ord × σ) : Less T σ ε := fun a b s =>
  match compare a b s with
  | (.error e, s') => (.error e, s')
  | (.ok o, s') => (.ok (decide (o = .lt)), s')

/-- `opt_core.rs:805-816` `sort_by` -/
def sort_by (compare : T → T → σ → Except ε Ord × σ) (v : List T) (s : σ) : Out T σ ε :=
  merge_sort (lessOf compare) v s

/-- What `<=>` may answer: `nil`, an integer (whose sign counts), or something that is neither. -/
inductive Ans where
  | nil | ord (o : Ord) | other

/-- `value/value.rs:1164-1182` `to_ordering`: only the sign of an integer is an ordering. -/
def to_ordering (notOrdering : ε) : Ans → Except ε Ord
  | .ord o => .ok o
  | _ => .error notOrdering

/-- `vm/executor.rs:730`, `builtin/array.rs:953-955`, `978-980`: the answer of `<=>` or of the block, as an ordering. -/
def orderBy (notOrdering : ε) (cmp : T → T → σ → Except ε Ans × σ) (a b : T) (s : σ) : Except ε Ord × σ :=
  match cmp a b s with
  | (.error e, s') => (.error e, s')
  | (.ok o, s') => (to_ordering notOrdering o, s')

/-- `vm/executor.rs:717-730`: the first loop of `sort_array`: `first <=> x` must not be `nil`. -/
def checkComparable (incomparable : ε) (cmp : T → T → σ → Except ε Ans × σ) (first : T) : List T → σ → σ × Except ε Unit
  | [], s => (s, .ok ())
  | x :: xs, s =>
    match cmp first x s with
    | (.error e, s') => (s', .error e)
    | (.ok .nil, s') => (s', .error incomparable)
    | (.ok _, s') => checkComparable incomparable cmp first xs s'

/-- `vm/executor.rs:714-734` `sort_array`.  `cmp a b` is `a <=> b` (`eval_compare(b, a)`). -/
def sort_array (incomparable notOrdering : ε) (cmp : T → T → σ → Except ε Ans × σ) (v : List T) (s : σ) : Out T σ ε :=
  match v with
  | [] => (v, s, .ok ())
  | first :: rest =>
    match checkComparable incomparable cmp first rest s with
    | (s', .error e) => (v, s', .error e)
    | (s', .ok ()) =>
      sort_by (orderBy notOrdering cmp) v s'

/-- `builtin/array.rs:940-960` `Array#sort` with a block: the receiver is copied and the copy sorted. -/
def array_sort_block (notOrdering : ε) (block : T → T → σ → Except ε Ans × σ) (v : List T) (s : σ) :
    Except ε (List T) × σ :=
  match sort_by (orderBy notOrdering block) v s with
  | (_, s', .error e) => (.error e, s')
  | (w, s', .ok ()) => (.ok w, s')

/-- `builtin/array.rs:968-975`: the first loop of `sort_by`: the block is called on each element in turn. -/
def keyAll {K : Type} (block : T → σ → Except ε K × σ) : List T → σ → Except ε (List (T × K)) × σ
  | [], s => (.ok [], s)
  | x :: xs, s =>
    match block x s with
    | (.error e, s') => (.error e, s')
    | (.ok k, s') =>
      match keyAll block xs s' with
      | (.error e, s'') => (.error e, s'')
      | (.ok ys, s'') => (.ok ((x, k) :: ys), s'')

/-- `builtin/array.rs:962-985` `Array#sort_by`: pairs of element and key are sorted by their keys. -/
def array_sort_by {K : Type} (notOrdering : ε) (cmp : K → K → σ → Except ε Ans × σ)
    (block : T → σ → Except ε K × σ) (v : List T) (s : σ) : Except ε (List T) × σ :=
  match keyAll block v s with
  | (.error e, s') => (.error e, s')
  | (.ok pairs, s') =>
    match sort_by (fun a b => orderBy notOrdering cmp a.2 b.2) pairs s' with
    | (_, s'', .error e) => (.error e, s'')
    | (sorted, s'', .ok ()) => (.ok (sorted.map (·.1)), s'')

end
end Verif.Sort
