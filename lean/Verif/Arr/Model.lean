/-!
# Arrays

Model of `ruruby/src/value/array.rs` and of the array methods of `ruruby/src/builtin/array.rs`.

An array's contents (`SmallVec<[Value; 4]>`) is a list over an arbitrary type `α` of values with a
distinguished `nil`.  Index arguments have already passed `coerce_to_fixnum`, so they are integers; the
casts `as usize` are modelled (reduction modulo 2^64), and a Rust index/slice panic is the error `panic`.
Lengths are below 2^62 (a vector of 8-byte values cannot be longer), so the additions of lengths and
indices do not overflow.
-/
namespace Verif.Arr

inductive Err where
  | range | index | argument | typeErr | panic
  deriving DecidableEq, Repr

abbrev Res := Except Err

/-- `x as usize` for an `i64`. -/
def asUsize (x : Int) : Nat := (x % 18446744073709551616).toNat

/-! ### Vector operations (Rust `SmallVec` and slices) -/

section
variable {α : Type}

/-- `resize(new_len, v)` -/
def resize (l : List α) (n : Nat) (v : α) : List α := l.take n ++ List.replicate (n - l.length) v

/-- `l[s..e]`, panics unless `s ≤ e ≤ len`. -/
def slice (l : List α) (s e : Nat) : Res (List α) :=
  if s ≤ e ∧ e ≤ l.length then .ok ((l.take e).drop s) else .error .panic

/-- `copy_within(s..e, d)`: panics unless `s ≤ e ≤ len` and `d ≤ len - (e - s)`. -/
def copy_within (l : List α) (s e d : Nat) : Res (List α) :=
  if s ≤ e ∧ e ≤ l.length ∧ d + (e - s) ≤ l.length then
    .ok (l.take d ++ (l.take e).drop s ++ l.drop (d + (e - s)))
  else .error .panic

/-- `l[s..s+src.len()].copy_from_slice(src)` -/
def copy_from_slice (l : List α) (s : Nat) (src : List α) : Res (List α) :=
  if s + src.length ≤ l.length then .ok (l.take s ++ src ++ l.drop (s + src.length)) else .error .panic

/-- `l[i] = v` -/
def setAt (l : List α) (i : Nat) (v : α) : Res (List α) :=
  if i < l.length then .ok (l.set i v) else .error .panic

/-! ### `value/array.rs` -/

/-- `array.rs:213-223` `get_array_index` -/
def get_array_index (len : Nat) (index : Int) : Res Nat :=
  if index < 0 then
    let i := (len : Int) + index
    if i < 0 then .error .range else .ok (asUsize i)
  else .ok (asUsize index)

/-- `get_array_index(index).unwrap_or(self_len)` -/
def get_array_index_or (len : Nat) (index : Int) : Nat :=
  match get_array_index len index with
  | .ok i => i
  | .error _ => len

/-- `array.rs:284-290` `get_elem_imm` -/
def get_elem_imm (nil : α) (l : List α) (index : Nat) : α :=
  if index ≥ l.length then nil else l.getD index nil

/-- `array.rs:245-282` `get_elem1` with an integer -/
def get_elem1 (nil : α) (l : List α) (index : Int) : α :=
  get_elem_imm nil l (get_array_index_or l.length index)

/-- `array.rs:225-243` `get_elem` with start and length; `none` is Ruby's `nil`. -/
def get_elem (l : List α) (index len : Int) : Res (Option (List α)) :=
  let self_len := l.length
  let index := get_array_index_or self_len index
  if len < 0 then .ok none
  else if index ≥ self_len then .ok (some [])
  else
    let len := asUsize len
    let fin := min self_len (index + len)
    (slice l index fin).map some

/-- `array.rs:245-282` `get_elem1` with a range `first..last` (`...` when `exclude`). -/
def get_elem_range (l : List α) (first last : Int) (exclude : Bool) : Res (Option (List α)) :=
  let len : Int := l.length
  let i_start := if first < 0 then len + first else first
  if len < i_start then .ok none
  else if len = i_start then .ok (some [])
  else
    let start := asUsize i_start
    let fin :=
      if last ≥ 0 then
        let e := asUsize last + (if exclude then 0 else 1)
        if l.length < e then l.length else e
      else asUsize (len + last + (if exclude then 0 else 1))
    if start ≥ fin then .ok (some [])
    else (slice l start fin).map some

/-- `array.rs:376-383` `set_elem_imm` -/
def set_elem_imm (nil : α) (l : List α) (index : Nat) (v : α) : Res (List α) :=
  if index ≥ l.length then .ok (resize l index nil ++ [v])
  else setAt l index v

/-- `array.rs:307-334` `set_elem1` with an integer -/
def set_elem1 (nil : α) (l : List α) (index : Int) (v : α) : Res (List α) :=
  if index ≥ 0 then set_elem_imm nil l (asUsize index) v
  else
    match get_array_index l.length index with
    | .error e => .error e
    | .ok i => setAt l i v

/-- The right-hand side of a slice assignment: an array (its elements) or any other value. -/
inductive Rhs (α : Type) where
  | ary (xs : List α)
  | one (v : α)

/-- `array.rs:336-374` `set_elem2`.  The right-hand array is a different object from the receiver. -/
def set_elem2 (nil : α) (l : List α) (index length : Nat) : Rhs α → Res (List α)
  | .ary ary => do
    let len := l.length
    let ary_len := ary.length
    let l1 ←
      if index ≥ len ∨ index + length > len then pure (resize l (index + ary_len) nil)
      else if ary_len > length then
        copy_within (resize l (len + ary_len - length) nil) (index + length) len (index + ary_len)
      else do
        let l' ← copy_within l (index + length) len (index + ary_len)
        pure (resize l' (len + ary_len - length) nil)
    copy_from_slice l1 index ary
  | .one v => do
    let len := l.length
    let l1 ←
      if index ≥ len then pure (resize l (index + 1) nil)
      else if length = 0 then copy_within (l ++ [nil]) index len (index + 1)
      else
        let fin := index + length
        if fin < len then do
          let l' ← copy_within l fin len (index + 1)
          pure (l'.take (len + 1 - length))
        else pure (l.take (index + 1))
    setAt l1 index v

/-- `array.rs:292-305` `set_elem` with start and length -/
def set_elem (nil : α) (l : List α) (index length : Int) (v : Rhs α) : Res (List α) :=
  match get_array_index l.length index with
  | .error e => .error e
  | .ok i => if length < 0 then .error .index else set_elem2 nil l i (asUsize length) v

/-- `array.rs:307-334` `set_elem1` with a range -/
def set_elem_range (nil : α) (l : List α) (first last : Int) (exclude : Bool) (v : Rhs α) : Res (List α) :=
  match get_array_index l.length first with
  | .error e => .error e
  | .ok first =>
    match get_array_index l.length last with
    | .error e => .error e
    | .ok last =>
      let last := last + (if exclude then 0 else 1)
      if last < first then set_elem2 nil l first 0 v
      else set_elem2 nil l first (last - first) v

/-- `array.rs:186-206` `retain`: the loop, with the predicate a block that may keep state and may raise.
`v` is the vector being permuted, `i` the loop index, `del` the number of removed elements so far. Result:
the vector as it is left, and the number deleted or the error. -/
def retainLoop {σ ε : Type} (f : α → σ → Except ε Bool × σ) :
    (fuel : Nat) → (v : List α) → (i del : Nat) → (s : σ) → (List α × σ × Except ε Nat)
  | 0, v, _, del, s => (v, s, .ok del)
  | fuel + 1, v, i, del, s =>
    match v[i]? with
    | none => (v, s, .ok del)
    | some x =>
      match f x s with
      | (.error e, s') => (v, s', .error e)
      | (.ok false, s') => retainLoop f fuel v (i + 1) (del + 1) s'
      | (.ok true, s') =>
        if del > 0 then
          match v[i - del]? with
          | none => (v, s', .ok del)                          -- not reached
          | some y => retainLoop f fuel ((v.set (i - del) x).set i y) (i + 1) del s'
        else retainLoop f fuel v (i + 1) del s'

/-- `array.rs:186-206` `retain`: truncates when something was deleted; returns whether it was. -/
def retain {σ ε : Type} (f : α → σ → Except ε Bool × σ) (v : List α) (s : σ) : List α × σ × Except ε Bool :=
  match retainLoop f v.length v 0 0 s with
  | (v', s', .error e) => (v', s', .error e)
  | (v', s', .ok del) => (if del > 0 then v'.take (v.length - del) else v', s', .ok (del ≠ 0))

/-! ### `builtin/array.rs` -/

/-- `builtin/array.rs:236-240` `push` (any number of arguments) -/
def push (l args : List α) : List α := l ++ args
/-- `builtin/array.rs:242-247` `pop` -/
def pop (nil : α) (l : List α) : α × List α := (l.getLast?.getD nil, l.dropLast)
/-- `builtin/array.rs:254-285` `shift` without argument -/
def shift (nil : α) (l : List α) : α × List α :=
  match l with
  | [] => (nil, [])
  | x :: xs => (x, xs)
/-- `builtin/array.rs:254-285` `shift(n)` -/
def shift_n (l : List α) (n : Int) : Res (List α × List α) :=
  if n < 0 then .error .argument
  else
    let num := asUsize n
    if l.length < num then .ok ([], l)
    else .ok (l.take num, l.drop num)
/-- `builtin/array.rs:287-296` `unshift` -/
def unshift (l args : List α) : List α := if args.length = 0 then l else args ++ l

/-- `builtin/array.rs:310-339` `*` with an integer (`slice::repeat`) -/
def mul (l : List α) (n : Int) : Res (List α) :=
  if n < 0 then .error .argument else .ok (List.replicate (asUsize n) l).flatten

/-- `builtin/array.rs:341-347` `+` -/
def add (l r : List α) : List α := l ++ r

/-- `builtin/array.rs:357-375` `-`; `eq` is `==` on elements. -/
def sub (eq : α → α → Bool) (l r : List α) : List α :=
  l.foldl (fun v x => if r.any (fun y => eq x y) then v else v ++ [x]) []

/-- `builtin/array.rs:565-586` `rotate!` (`rotate_left`, `rotate_right` of a slice) -/
def rotate (l : List α) (i : Int) : List α :=
  if l.isEmpty then l
  else if i ≥ 0 then
    let k := (Int.tmod i l.length).toNat
    l.drop k ++ l.take k
  else
    let k := (Int.tmod (-i) l.length).toNat
    l.drop (l.length - k) ++ l.take (l.length - k)

/-- `builtin/array.rs:546-552` `reverse` -/
def reverse (l : List α) : List α := l.reverse

/-- `builtin/array.rs:588-593` `compact` -/
def compact (isNil : α → Bool) (l : List α) : List α := l.filter (fun x => !isNil x)

/-- `builtin/array.rs:613-640` `transpose` of a list of rows (`none`: an element that is not an array) -/
def transpose (rows : List (Option (List α))) : Res (List (List α)) :=
  match rows with
  | [] => .ok []
  | r0 :: _ =>
    match r0 with
    | none => .error .argument
    | some r0 =>
      (List.range r0.length).mapM (fun i =>
        rows.mapM (fun v =>
          match v with
          | none => .error .argument
          | some a => if a.length ≠ r0.length then .error .index
                      else match a[i]? with | some x => .ok x | none => .error .panic))

/-- `builtin/array.rs:708-738` `uniq` without a block; `eqv` is the key equality of the hash set
(`HashKey`, see `Verif.Hash`).  The `self_val.id() == elem.id()` case (an array inside itself) is not
modelled. `seen` is the set. -/
def uniqLoop (eqv : α → α → Bool) : List α → List α → List α → List α
  | [], _, v => v
  | x :: xs, seen, v =>
    if seen.any (fun y => eqv y x) then uniqLoop eqv xs seen v
    else uniqLoop eqv xs (seen ++ [x]) (v ++ [x])
def uniq (eqv : α → α → Bool) (l : List α) : List α := uniqLoop eqv l [] []

/-- `builtin/array.rs:788-815` `slice!(start, len)`: result and remaining array -/
def slice_bang (l : List α) (start len : Int) : Res (Option (List α) × List α) :=
  if start < 0 then .error .argument
  else if len < 0 then .error .argument
  else
    let start := asUsize start
    let len := asUsize len
    if l.length < start then .ok (none, l)
    else if l.length ≤ start ∨ len = 0 then .ok (some [], l)
    else
      let fin := if l.length < start + len then l.length else start + len
      match slice l start fin with
      | .error e => .error e
      | .ok new => .ok (some new, l.take start ++ l.drop fin)

/-- `builtin/array.rs:817-835` `first`, `last` -/
def first (nil : α) (l : List α) : α := if l.length = 0 then nil else l.getD 0 nil
def last (nil : α) (l : List α) : α := if l.length = 0 then nil else l.getLast?.getD nil

/-- `builtin/array.rs:880-889` `drop` -/
def drop (l : List α) (n : Int) : Res (List α) :=
  let num := asUsize n
  if num ≥ l.length then .error .argument else .ok (l.drop num)

/-- `builtin/array.rs:891-921` `zip` without a block -/
def zip (nil : α) (l : List α) (args : List (List α)) : List (List α) :=
  l.zipIdx.map (fun (v, i) => v :: args.map (fun a => if i < a.length then a.getD i nil else nil))

/-- A value that may be an array of values (no sharing or cycles): for `flatten`. -/
inductive Tree (α : Type) where
  | leaf (x : α)
  | node (ts : List (Tree α))

mutual
/-- `builtin/array.rs:1270-1302` `ary_flatten`: what is appended to `res`, and the flag.  The check for an
array containing itself is not modelled (a `Tree` never does). -/
def ary_flatten : Tree α → Option Nat → List (Tree α) × Bool
  | .leaf x, _ => ([.leaf x], false)
  | .node ts, none => (ary_flattenL ts none, true)
  | .node ts, some 0 => ([.node ts], false)
  | .node ts, some (k + 1) => (ary_flattenL ts (some k), true)
/-- the loop `for v in &**ainfo` -/
def ary_flattenL : List (Tree α) → Option Nat → List (Tree α)
  | [], _ => []
  | t :: ts, lv => (ary_flatten t lv).1 ++ ary_flattenL ts lv
end

/-- `builtin/array.rs:1230-1247` `flatten` (`level` absent or negative: none) -/
def flatten (ts : List (Tree α)) (level : Option Int) : List (Tree α) :=
  ary_flattenL ts (match level with
    | none => none
    | some i => if i < 0 then none else some (asUsize i))

/-- `builtin/array.rs:1249-1268` `flatten!`: the new contents, and whether the receiver is returned. -/
def flatten_bang (ts : List (Tree α)) (level : Option Int) : List (Tree α) × Bool :=
  let lv := match level with
    | none => none
    | some i => if i < 0 then none else some (asUsize i)
  (ary_flattenL ts lv, ts.foldl (fun fl t => fl || (ary_flatten t lv).2) false)

/-! ### Methods that call a block -/

/-- A block call: it may change the state, and it may raise. -/
abbrev Blk (σ ε α β : Type) := α → σ → Except ε (β × σ)

/-- `builtin/array.rs:465-476` `each`: the loop re-reads the array (`arr s`) and its length in every
round.  `i` is the loop index; `fuel` bounds the rounds of the model. -/
def each {σ ε β : Type} (arr : σ → List α) (f : Blk σ ε α β) : Nat → Nat → σ → Except (Option ε) σ
  | 0, _, _ => .error none
  | fuel + 1, i, s =>
    match (arr s)[i]? with
    | none => .ok s
    | some x =>
      match f x s with
      | .error e => .error (some e)
      | .ok (_, s') => each arr f fuel (i + 1) s'

/-- `builtin/array.rs:402-418` `map`: like `each`, collecting the results. -/
def map {σ ε β : Type} (arr : σ → List α) (f : Blk σ ε α β) :
    Nat → Nat → List β → σ → Except (Option ε) (List β × σ)
  | 0, _, _, _ => .error none
  | fuel + 1, i, acc, s =>
    match (arr s)[i]? with
    | none => .ok (acc, s)
    | some x =>
      match f x s with
      | .error e => .error (some e)
      | .ok (y, s') => map arr f fuel (i + 1) (acc ++ [y]) s'

/-- `builtin/array.rs:513-532` `partition` -/
def partition {σ ε : Type} (f : Blk σ ε α Bool) : List α → List α → List α → σ → Except ε ((List α × List α) × σ)
  | [], ts, fs, s => .ok ((ts, fs), s)
  | x :: xs, ts, fs, s =>
    match f x s with
    | .error e => .error e
    | .ok (true, s') => partition f xs (ts ++ [x]) fs s'
    | .ok (false, s') => partition f xs ts (fs ++ [x]) s'

/-- `builtin/array.rs:1129-1141` `select`, `1115-1127` `reject` (`keep = false`) -/
def selectLoop {σ ε : Type} (keep : Bool) (f : Blk σ ε α Bool) : List α → List α → σ → Except ε (List α × σ)
  | [], res, s => .ok (res, s)
  | x :: xs, res, s =>
    match f x s with
    | .error e => .error e
    | .ok (b, s') => selectLoop keep f xs (if b = keep then res ++ [x] else res) s'

/-- `builtin/array.rs:1143-1154` `find` and `1091-1113` `find_index`: the first element for which the block
is true, with its position -/
def findLoop {σ ε : Type} (f : Blk σ ε α Bool) : List α → Nat → σ → Except ε (Option (α × Nat) × σ)
  | [], _, s => .ok (none, s)
  | x :: xs, i, s =>
    match f x s with
    | .error e => .error e
    | .ok (true, s') => .ok (some (x, i), s')
    | .ok (false, s') => findLoop f xs (i + 1) s'

/-- `builtin/array.rs:1080-1089` `inject` (with an initial value) -/
def inject {σ ε β : Type} (f : β → Blk σ ε α β) : β → List α → σ → Except ε (β × σ)
  | acc, [], s => .ok (acc, s)
  | acc, x :: xs, s =>
    match f acc x s with
    | .error e => .error e
    | .ok (acc', s') => inject f acc' xs s'

/-- `builtin/array.rs:1156-1181` `binary_search`: the loop.  `fuel` bounds the rounds of the model. -/
def bsearchLoop {σ ε : Type} (f : Blk σ ε α Bool) (l : List α) : Nat → Nat → Nat → σ → Except (Option ε) (Option Nat × σ)
  | 0, _, _, _ => .error none
  | fuel + 1, i_min, i_max, s =>
    let i_mid := i_min + (i_max - i_min) / 2
    if i_mid = i_min then .ok (some i_max, s)
    else
      match l[i_mid]? with
      | none => .error none          -- index panic: not reached
      | some x =>
        match f x s with
        | .error e => .error (some e)
        | .ok (true, s') => bsearchLoop f l fuel i_min i_mid s'
        | .ok (false, s') => bsearchLoop f l fuel i_mid i_max s'

/-- `builtin/array.rs:1156-1181` `binary_search` -/
def binary_search {σ ε : Type} (f : Blk σ ε α Bool) (l : List α) (s : σ) : Except (Option ε) (Option Nat × σ) :=
  match l with
  | [] => .ok (none, s)
  | x0 :: _ =>
    match f x0 s with
    | .error e => .error (some e)
    | .ok (true, s) => .ok (some 0, s)
    | .ok (false, s) =>
      match l.getLast? with
      | none => .error none
      | some xl =>
        match f xl s with
        | .error e => .error (some e)
        | .ok (false, s) => .ok (none, s)
        | .ok (true, s) => bsearchLoop f l (l.length + 1) 0 (l.length - 1) s

end
end Verif.Arr
