import Verif.Arr.Props2
/-! # C86: iterating over an array that the block changes

`Arr/Model.lean` reads arrays as lists.  Here an array has its storage, since some methods keep a Rust slice (an address and
a length) of the elements while the block runs. -/
namespace Verif.Arr.Mutate

variable {α β γ σ ε : Type}

/-! ## Model -/

/-- The storage of an array (`SmallVec<[Value; 4]>`, value/array.rs:77-112).  `place`: the memory in which the elements are,
inside the object or in a buffer of their own; `cells`: the cells of this memory that were ever written; the first `len` of
them are the elements.  Assumed of the crate smallvec: elements only move when a `push` finds `len = cap` or when the whole
array is assigned; the memory from which they have moved is freed or used for other things. -/
structure Store (α : Type) where
  place : Nat
  cap : Nat
  cells : List α
  len : Nat

/-- The elements. -/
def Store.elems (a : Store α) : List α := a.cells.take a.len

def Store.WF (a : Store α) : Prop := a.len ≤ a.cells.length

/-- `ArrayInfo::push` (value/array.rs:142-145); `fresh`: the new memory, if it is needed. -/
def Store.push (fresh : Nat) (a : Store α) (v : α) : Store α :=
  if a.len < a.cap then { a with cells := a.cells.take a.len ++ v :: a.cells.drop (a.len + 1), len := a.len + 1 }
  else ⟨fresh, 2 * a.cap, a.elems ++ [v], a.len + 1⟩

/-- `ArrayInfo::clear` (value/array.rs:137-140): the cells stay as they are. -/
def Store.clear (a : Store α) : Store α := { a with len := 0 }

/-- `ary[i]`: bounds are checked, `none` is a panic (slice indexing through `Deref`, value/array.rs:113-119). -/
def Store.index (a : Store α) (i : Nat) : Option α := a.elems[i]?

/-- Reading element `i` of a slice that was made when the elements were in `place`: nothing is checked.  `none`: the memory
is not that of the array any more. -/
def Store.peek (a : Store α) (place i : Nat) : Option α := if a.place = place then a.cells[i]? else none

/-- How a builtin method ends. -/
inductive Res (ε β : Type)
  | ok (b : β)
  | raised (e : ε)
  /-- a Rust panic -/
  | panic
  /-- a read of memory that is not that of the array -/
  | dangling
  deriving DecidableEq

/-- A block: it may do anything to the state, and it may raise. -/
abbrev Block (σ ε α β : Type) := α → σ → Except ε β × σ

/-- The loop `while i < aref.len() { … f(vm, aref[i])? … i += 1 }` of `each` (builtin/array.rs:465-476) and `map`
(402-418, which collects the results).  `none`: out of fuel. -/
def indexLoop (arr : σ → Store α) (f : Block σ ε α β) : Nat → Nat → List β → σ → Option (Res ε (List β) × σ)
  | 0, _, _, _ => none
  | n + 1, i, acc, s =>
    if i < (arr s).len then
      match (arr s).index i with
      | none => some (.panic, s)
      | some x => match f x s with
        | (.error e, s') => some (.raised e, s')
        | (.ok y, s') => indexLoop arr f n (i + 1) (acc ++ [y]) s'
    else some (.ok acc, s)

/-- `Array#map` (builtin/array.rs:402-418). -/
def map (arr : σ → Store α) (f : Block σ ε α β) (n : Nat) (s : σ) : Option (Res ε (List β) × σ) := indexLoop arr f n 0 [] s

/-- `Array#each` (builtin/array.rs:465-476): the same loop, the results are dropped. -/
def each (arr : σ → Store α) (f : Block σ ε α β) (n : Nat) (s : σ) : Option (Res ε Unit × σ) :=
  (indexLoop arr f n 0 [] s).map fun
    | (.ok _, s) => (.ok (), s)
    | (.raised e, s) => (.raised e, s)
    | (.panic, s) => (.panic, s)
    | (.dangling, s) => (.dangling, s)

/-- `Array#map!` (builtin/array.rs:420-432): `aref[i] = f(vm, aref[i])?` checks the bounds again after the block.  `set`: the
assignment of one element in the state. -/
def mapBang (arr : σ → Store α) (set : Nat → α → σ → σ) (f : Block σ ε α α) : Nat → Nat → σ → Option (Res ε Unit × σ)
  | 0, _, _ => none
  | n + 1, i, s =>
    if i < (arr s).len then
      match (arr s).index i with
      | none => some (.panic, s)
      | some x => match f x s with
        | (.error e, s') => some (.raised e, s')
        | (.ok y, s') => if i < (arr s').len then mapBang arr set f n (i + 1) (set i y s') else some (.panic, s')
    else some (.ok (), s)

/-- The loop `for elem in aref.iter() { … f(vm, *elem)? … }` over a slice with the elements from `i` on, of which `r` are left.
`stop`: the answers that end the loop (`find`, `any?`, `all?`).  `again`: the answers after which `*elem` is read a second
time (`res.push(*elem)`); it is this second value that is kept. -/
def sliceLoop (arr : σ → Store α) (f : Block σ ε α β) (stop again : β → Bool) (place : Nat) :
    Nat → Nat → List (α × β) → σ → Res ε (List (α × β)) × σ
  | 0, _, acc, s => (.ok acc, s)
  | r + 1, i, acc, s =>
    match (arr s).peek place i with
    | none => (.dangling, s)
    | some x => match f x s with
      | (.error e, s') => (.raised e, s')
      | (.ok y, s') =>
        match (if again y then (arr s').peek place i else some x) with
        | none => (.dangling, s')
        | some x =>
          if stop y then (.ok (acc ++ [(x, y)]), s') else sliceLoop arr f stop again place r (i + 1) (acc ++ [(x, y)]) s'

/-- What was visited, with the answers of the block. -/
def slice (arr : σ → Store α) (f : Block σ ε α β) (stop again : β → Bool) (s : σ) : Res ε (List (α × β)) × σ :=
  sliceLoop arr f stop again (arr s).place (arr s).len 0 [] s

/-- Makes an answer from what was visited. -/
def Res.map (g : β → γ) : Res ε β → Res ε γ
  | .ok b => .ok (g b)
  | .raised e => .raised e
  | .panic => .panic
  | .dangling => .dangling

/-- `Array#select` (builtin/array.rs:1129-1141). -/
def select (arr : σ → Store α) (f : Block σ ε α Bool) (s : σ) : Res ε (List α) × σ :=
  let r := slice arr f (fun _ => false) id s
  (r.1.map fun l => (l.filter (·.2)).map (·.1), r.2)

/-- `Array#reject` (builtin/array.rs:1115-1127). -/
def reject (arr : σ → Store α) (f : Block σ ε α Bool) (s : σ) : Res ε (List α) × σ :=
  let r := slice arr f (fun _ => false) (!·) s
  (r.1.map fun l => (l.filter (!·.2)).map (·.1), r.2)

/-- `Array#partition` (builtin/array.rs:513-532). -/
def partition (arr : σ → Store α) (f : Block σ ε α Bool) (s : σ) : Res ε (List α × List α) × σ :=
  let r := slice arr f (fun _ => false) (fun _ => true) s
  (r.1.map fun l => ((l.filter (·.2)).map (·.1), (l.filter (!·.2)).map (·.1)), r.2)

/-- `Array#find` (builtin/array.rs:1143-1154): `none` for `nil`. -/
def find (arr : σ → Store α) (f : Block σ ε α Bool) (s : σ) : Res ε (Option α) × σ :=
  let r := slice arr f id id s
  (r.1.map fun l => (l.find? (·.2)).map (·.1), r.2)

/-- `Array#any?` with a block (builtin/array.rs:1008-1016). -/
def any (arr : σ → Store α) (f : Block σ ε α Bool) (s : σ) : Res ε Bool × σ :=
  let r := slice arr f id (fun _ => false) s
  (r.1.map fun l => l.any (·.2), r.2)

/-- `Array#all?` with a block (builtin/array.rs:1043-1051). -/
def all (arr : σ → Store α) (f : Block σ ε α Bool) (s : σ) : Res ε Bool × σ :=
  let r := slice arr f (!·) (fun _ => false) s
  (r.1.map fun l => l.all (·.2), r.2)

/-- `Array#inject` (builtin/array.rs:1080-1089): the block gets the value so far and the element. -/
def inject (arr : σ → Store α) (f : β → α → σ → Except ε β × σ) (place : Nat) : Nat → Nat → β → σ → Res ε β × σ
  | 0, _, b, s => (.ok b, s)
  | r + 1, i, b, s =>
    match (arr s).peek place i with
    | none => (.dangling, s)
    | some x => match f b x s with
      | (.error e, s') => (.raised e, s')
      | (.ok b, s') => inject arr f place r (i + 1) b s'

/-- The loop of `binary_search` (builtin/array.rs:1169-1180).  The bounds `i_min`, `i_max` are from the start, the elements
are read again each time. -/
def bsearchLoop (arr : σ → Store α) (f : Block σ ε α Bool) : Nat → Nat → Nat → σ → Option (Res ε (Option Nat) × σ)
  | 0, _, _, _ => none
  | n + 1, i_min, i_max, s =>
    let i_mid := i_min + (i_max - i_min) / 2
    if i_mid = i_min then some (.ok (some i_max), s)
    else
      match (arr s).index i_mid with
      | none => some (.panic, s)
      | some x => match f x s with
        | (.error e, s') => some (.raised e, s')
        | (.ok true, s') => bsearchLoop arr f n i_min i_mid s'
        | (.ok false, s') => bsearchLoop arr f n i_mid i_max s'

/-- `binary_search` (builtin/array.rs:1156-1181). -/
def bsearch (arr : σ → Store α) (f : Block σ ε α Bool) (n : Nat) (s : σ) : Option (Res ε (Option Nat) × σ) :=
  if (arr s).len = 0 then some (.ok none, s)
  else
    let i_max := (arr s).len - 1
    match (arr s).index 0 with
    | none => some (.panic, s)
    | some x => match f x s with
      | (.error e, s') => some (.raised e, s')
      | (.ok true, s') => some (.ok (some 0), s')
      | (.ok false, s') =>
        match (arr s').index i_max with
        | none => some (.panic, s')
        | some x => match f x s' with
          | (.error e, s'') => some (.raised e, s'')
          | (.ok false, s'') => some (.ok none, s'')
          | (.ok true, s'') => bsearchLoop arr f n 0 i_max s''

/-! ## Specification -/

/-- Iterating as Ruby does: at each step the block gets the element that is at index `i` now; the end is reached when the
array is no longer than `i` now.  `l`: what the block got and answered; `e`: the exception it raised; `stop`: answers that
end the iteration. -/
inductive Visits (elems : σ → List α) (f : Block σ ε α β) (stop : β → Bool) :
    Nat → σ → List (α × β) → Option ε → σ → Prop
  | done {i s} : (elems s).length ≤ i → Visits elems f stop i s [] none s
  | raised {i s x e s'} : (elems s)[i]? = some x → f x s = (.error e, s') → Visits elems f stop i s [] (some e) s'
  | stop {i s x y s'} : (elems s)[i]? = some x → f x s = (.ok y, s') → stop y = true →
      Visits elems f stop i s [(x, y)] none s'
  | next {i s x y s' l e s''} : (elems s)[i]? = some x → f x s = (.ok y, s') → stop y = false →
      Visits elems f stop (i + 1) s' l e s'' → Visits elems f stop i s ((x, y) :: l) e s''

/-- `map!` as Ruby does it: the element at `i` now is replaced with the answer. -/
inductive Replaces (elems : σ → List α) (assign : Nat → α → σ → σ) (f : Block σ ε α α) : Nat → σ → Option ε → σ → Prop
  | done {i s} : (elems s).length ≤ i → Replaces elems assign f i s none s
  | raised {i s x e s'} : (elems s)[i]? = some x → f x s = (.error e, s') → Replaces elems assign f i s (some e) s'
  | next {i s x y s' e s''} : (elems s)[i]? = some x → f x s = (.ok y, s') →
      Replaces elems assign f (i + 1) (assign i y s') e s'' → Replaces elems assign f i s e s''

/-- Folding as Ruby does it. -/
inductive Folds (elems : σ → List α) (f : β → α → σ → Except ε β × σ) : Nat → β → σ → Except ε β → σ → Prop
  | done {i b s} : (elems s).length ≤ i → Folds elems f i b s (.ok b) s
  | raised {i b s x e s'} : (elems s)[i]? = some x → f b x s = (.error e, s') → Folds elems f i b s (.error e) s'
  | next {i b s x b' s' r s''} : (elems s)[i]? = some x → f b x s = (.ok b', s') → Folds elems f (i + 1) b' s' r s'' →
      Folds elems f i b s r s''

/-- The elements of the array in the state. -/
def now (arr : σ → Store α) (s : σ) : List α := (arr s).elems

/-- The answer of a method that gives `b` if the block raises nothing. -/
def answer (b : β) : Option ε → Res ε β
  | none => .ok b
  | some e => .raised e

/-! ## Helpers -/

theorem elems_length {a : Store α} (h : a.WF) : a.elems.length = a.len := by
  have : a.len ≤ a.cells.length := h
  simp [Store.elems]; omega

theorem index_lt {a : Store α} (h : a.WF) {i : Nat} (hi : i < a.len) : ∃ x, a.index i = some x ∧ a.elems[i]? = some x := by
  have : i < a.elems.length := by rw [elems_length h]; exact hi
  exact ⟨a.elems[i], by simp [Store.index, this], by simp [this]⟩

/-- A deterministic iteration. -/
theorem Visits.unique {elems : σ → List α} {f : Block σ ε α β} {stop i s l e s'} (h : Visits elems f stop i s l e s') :
    ∀ {l2 e2 s2}, Visits elems f stop i s l2 e2 s2 → l = l2 ∧ e = e2 ∧ s' = s2 := by
  induction h with
  | done h =>
    intro l2 e2 s2 k
    cases k with
    | done => exact ⟨rfl, rfl, rfl⟩
    | raised k => rw [List.getElem?_eq_none h] at k; cases k
    | stop k => rw [List.getElem?_eq_none h] at k; cases k
    | next k => rw [List.getElem?_eq_none h] at k; cases k
  | raised h hf =>
    intro l2 e2 s2 k
    cases k with
    | done k => rw [List.getElem?_eq_none k] at h; cases h
    | raised k kf => rw [h] at k; cases k; rw [hf] at kf; cases kf; exact ⟨rfl, rfl, rfl⟩
    | stop k kf => rw [h] at k; cases k; rw [hf] at kf; cases kf
    | next k kf => rw [h] at k; cases k; rw [hf] at kf; cases kf
  | stop h hf hs =>
    intro l2 e2 s2 k
    cases k with
    | done k => rw [List.getElem?_eq_none k] at h; cases h
    | raised k kf => rw [h] at k; cases k; rw [hf] at kf; cases kf
    | stop k kf => rw [h] at k; cases k; rw [hf] at kf; cases kf; exact ⟨rfl, rfl, rfl⟩
    | next k kf ks => rw [h] at k; cases k; rw [hf] at kf; cases kf; rw [hs] at ks; cases ks
  | next h hf hs _ ih =>
    intro l2 e2 s2 k
    cases k with
    | done k => rw [List.getElem?_eq_none k] at h; cases h
    | raised k kf => rw [h] at k; cases k; rw [hf] at kf; cases kf
    | stop k kf ks => rw [h] at k; cases k; rw [hf] at kf; cases kf; rw [hs] at ks; cases ks
    | next k kf ks k' =>
      rw [h] at k; cases k; rw [hf] at kf; cases kf
      obtain ⟨rfl, rfl, rfl⟩ := ih k'
      exact ⟨rfl, rfl, rfl⟩

theorem indexLoop_sound {arr : σ → Store α} (hw : ∀ s, (arr s).WF) {f : Block σ ε α β} :
    ∀ {n i : Nat} {acc : List β} {s : σ} {r : Res ε (List β)} {s' : σ},
    indexLoop arr f n i acc s = some (r, s') → ∃ l e, Visits (now arr) f (fun _ => false) i s l e s' ∧
      r = answer (acc ++ l.map (·.2)) e
  | n + 1, i, acc, s, r, s', h => by
    rw [indexLoop] at h
    split at h
    · rename_i hi
      obtain ⟨x, hx, hx'⟩ := index_lt (hw s) hi
      rw [hx] at h
      simp only at h
      split at h
      · rename_i e s1 hf
        cases h
        exact ⟨[], some e, .raised hx' hf, rfl⟩
      · rename_i y s1 hf
        obtain ⟨l, e, hv, hr⟩ := indexLoop_sound hw h
        exact ⟨(x, y) :: l, e, .next hx' hf rfl hv, by rw [hr]; simp⟩
    · rename_i hi
      cases h
      exact ⟨[], none, .done (by rw [now, elems_length (hw s)]; omega), by simp [answer]⟩

theorem indexLoop_complete {arr : σ → Store α} (hw : ∀ s, (arr s).WF) {f : Block σ ε α β} {i s l e s'}
    (h : Visits (now arr) f (fun _ => false) i s l e s') :
    ∀ acc, ∃ n, indexLoop arr f n i acc s = some (answer (acc ++ l.map (·.2)) e, s') := by
  induction h with
  | done h =>
    rename_i i s
    intro acc
    refine ⟨1, ?_⟩
    rw [now, elems_length (hw s)] at h
    rw [indexLoop, if_neg (by omega)]; simp [answer]
  | raised h hf =>
    rename_i i s x e s'
    intro acc
    refine ⟨1, ?_⟩
    have hi : i < (arr s).len := by
      have := (List.getElem?_eq_some_iff.1 h).1
      rwa [now, elems_length (hw s)] at this
    rw [indexLoop, if_pos hi, show (arr s).index i = some x from h]
    simp only [hf]; rfl
  | stop _ _ h => cases h
  | next h hf hs0 hv0 ih =>
    rename_i i s x y s1 l e s'
    intro acc
    obtain ⟨n, hn⟩ := ih (acc ++ [y])
    refine ⟨n + 1, ?_⟩
    have hi : i < (arr s).len := by
      have := (List.getElem?_eq_some_iff.1 h).1
      rwa [now, elems_length (hw s)] at this
    rw [indexLoop, if_pos hi, show (arr s).index i = some x from h]
    simp only [hf, hn]; simp

/-- The block neither moves the array's elements nor changes its length, nor the element it was called with. -/
def Keeps (arr : σ → Store α) (f : Block σ ε α β) : Prop :=
  ∀ x s, (arr (f x s).2).place = (arr s).place ∧ (arr (f x s).2).len = (arr s).len ∧
    ∀ i : Nat, (now arr s)[i]? = some x → (now arr (f x s).2)[i]? = some x

theorem peek_lt {a : Store α} {i : Nat} (hi : i < a.len) : a.peek a.place i = a.elems[i]? := by
  rw [Store.peek, if_pos rfl, Store.elems, List.getElem?_take, if_pos hi]

theorem sliceLoop_spec {arr : σ → Store α} (hw : ∀ s, (arr s).WF) {f : Block σ ε α β} {stop again : β → Bool}
    (hk : Keeps arr f) :
    ∀ {r i acc s}, (arr s).len = i + r → ∃ l e s', Visits (now arr) f stop i s l e s' ∧
      sliceLoop arr f stop again (arr s).place r i acc s = (answer (acc ++ l) e, s')
  | 0, i, acc, s, h => ⟨[], none, s, .done (by rw [now, elems_length (hw s)]; omega), by simp [sliceLoop, answer]⟩
  | r + 1, i, acc, s, h => by
    obtain ⟨x, _, hx⟩ := index_lt (hw s) (show i < (arr s).len by omega)
    rw [sliceLoop, peek_lt (by omega), hx]
    simp only
    have hk' := hk x s
    split
    · rename_i e s1 hf
      exact ⟨[], some e, s1, .raised hx hf, rfl⟩
    · rename_i y s1 hf
      rw [hf] at hk'
      have hl : (arr s1).len = (arr s).len := hk'.2.1
      have hp1 : (arr s1).place = (arr s).place := hk'.1
      have hx1 : (if again y then (arr s1).peek (arr s).place i else some x) = some x := by
        split
        · rw [← hp1, peek_lt (by omega)]
          exact hk'.2.2 i hx
        · rfl
      rw [hx1]
      simp only
      by_cases hs : stop y = true
      · rw [if_pos hs]
        exact ⟨[(x, y)], none, s1, .stop hx hf hs, rfl⟩
      · rw [if_neg hs]
        obtain ⟨l, e, s', hv, hr⟩ := sliceLoop_spec hw (again := again) (stop := stop) hk (r := r) (i := i + 1)
          (acc := acc ++ [(x, y)]) (s := s1) (by omega)
        rw [hp1] at hr
        exact ⟨(x, y) :: l, e, s', .next hx hf (by simpa using hs) hv, by rw [hr]; simp⟩

/-! ## C86 -/

/-- `each`, whatever the block does to the array: it gets the elements that are there when their turn comes, and the method
ends when the array has no more of them; there is no panic and no read of foreign memory.  The method ends exactly if this
iteration does. -/
theorem C86_each {arr : σ → Store α} (hw : ∀ s, (arr s).WF) (f : Block σ ε α β) (s : σ) (r : Res ε Unit) (s' : σ) :
    (∃ n, each arr f n s = some (r, s')) ↔
      ∃ l e, Visits (now arr) f (fun _ => false) 0 s l e s' ∧ r = answer () e := by
  constructor
  · rintro ⟨n, h⟩
    rw [each, Option.map_eq_some_iff] at h
    obtain ⟨⟨q, s1⟩, h, h'⟩ := h
    obtain ⟨l, e, hv, rfl⟩ := indexLoop_sound hw h
    cases e <;> (simp only [answer, Prod.mk.injEq] at h'; obtain ⟨rfl, rfl⟩ := h'; exact ⟨l, _, hv, rfl⟩)
  · rintro ⟨l, e, hv, rfl⟩
    obtain ⟨n, hn⟩ := indexLoop_complete hw hv []
    refine ⟨n, ?_⟩
    rw [each, hn]
    cases e <;> rfl

/-- `map` likewise; its value is the list of the answers. -/
theorem C86_map {arr : σ → Store α} (hw : ∀ s, (arr s).WF) (f : Block σ ε α β) (s : σ) (r : Res ε (List β)) (s' : σ) :
    (∃ n, map arr f n s = some (r, s')) ↔
      ∃ l e, Visits (now arr) f (fun _ => false) 0 s l e s' ∧ r = answer (l.map (·.2)) e := by
  constructor
  · rintro ⟨n, h⟩
    obtain ⟨l, e, hv, hr⟩ := indexLoop_sound hw h
    exact ⟨l, e, hv, by simpa using hr⟩
  · rintro ⟨l, e, hv, rfl⟩
    obtain ⟨n, hn⟩ := indexLoop_complete hw hv []
    exact ⟨n, by simpa [map] using hn⟩

/-- `select`, `reject`, `partition`: likewise, if the block changes neither the length of the array nor moves its elements, nor
changes the element it is called with (assigning to others is allowed).  Without that they read memory that is not the
array's (`C86_select_fails`). -/
theorem C86_select_partial {arr : σ → Store α} (hw : ∀ s, (arr s).WF) (f : Block σ ε α Bool)
    (hk : Keeps arr f) (s : σ) :
    ∃ l e s', Visits (now arr) f (fun _ => false) 0 s l e s' ∧
      select arr f s = (answer ((l.filter (·.2)).map (·.1)) e, s') ∧
      reject arr f s = (answer ((l.filter (!·.2)).map (·.1)) e, s') ∧
      partition arr f s = (answer ((l.filter (·.2)).map (·.1), (l.filter (!·.2)).map (·.1)) e, s') := by
  have key := fun again => sliceLoop_spec hw (f := f) (stop := fun _ => false) (again := again) hk (r := (arr s).len) (i := 0)
    (acc := []) (s := s) (by omega)
  obtain ⟨l, e, s', hv, hr⟩ := key id
  obtain ⟨l1, e1, s1, hv1, hr1⟩ := key (!·)
  obtain ⟨l2, e2, s2, hv2, hr2⟩ := key (fun _ => true)
  obtain ⟨rfl, rfl, rfl⟩ := hv.unique hv1
  obtain ⟨rfl, rfl, rfl⟩ := hv.unique hv2
  refine ⟨l, e, s', hv, ?_⟩
  simp only [select, reject, partition, slice, hr, hr1, hr2, List.nil_append]
  cases e <;> exact ⟨rfl, rfl, rfl⟩

/-- `find`, `any?` and `all?` with a block: the iteration ends with the first element for which the answer is clear; under the
same condition. -/
theorem C86_find_partial {arr : σ → Store α} (hw : ∀ s, (arr s).WF) (f : Block σ ε α Bool)
    (hk : Keeps arr f) (s : σ) :
    (∃ l e s', Visits (now arr) f id 0 s l e s' ∧ find arr f s = (answer ((l.find? (·.2)).map (·.1)) e, s') ∧
      any arr f s = (answer (l.any (·.2)) e, s')) ∧
    (∃ l e s', Visits (now arr) f (!·) 0 s l e s' ∧ all arr f s = (answer (l.all (·.2)) e, s')) := by
  have key := fun stop again => sliceLoop_spec hw (f := f) (stop := stop) (again := again) hk (r := (arr s).len) (i := 0)
    (acc := []) (s := s) (by omega)
  obtain ⟨l, e, s', hv, hr⟩ := key id id
  obtain ⟨l1, e1, s1, hv1, hr1⟩ := key id (fun _ => false)
  obtain ⟨rfl, rfl, rfl⟩ := hv.unique hv1
  obtain ⟨l', e', s'', hv', hr'⟩ := key (!·) (fun _ => false)
  refine ⟨⟨l, e, s', hv, ?_⟩, ⟨l', e', s'', hv', ?_⟩⟩
  · simp only [find, any, slice, hr, hr1, List.nil_append]
    cases e <;> exact ⟨rfl, rfl⟩
  · simp only [all, slice, hr', List.nil_append]
    cases e' <;> rfl

/-- `inject`, under the like condition on its block. -/
theorem C86_inject_partial {arr : σ → Store α} (hw : ∀ s, (arr s).WF) (f : β → α → σ → Except ε β × σ)
    (hk : ∀ b x s, (arr (f b x s).2).place = (arr s).place ∧ (arr (f b x s).2).len = (arr s).len) (b : β) (s : σ) :
    ∃ r s', Folds (now arr) f 0 b s r s' ∧
      inject arr f (arr s).place (arr s).len 0 b s = (match r with | .ok b => .ok b | .error e => .raised e, s') := by
  have key : ∀ (n i : Nat) (b : β) (s : σ), (arr s).len = i + n → ∃ r s', Folds (now arr) f i b s r s' ∧
      inject arr f (arr s).place n i b s = (match r with | .ok b => .ok b | .error e => .raised e, s') := by
    intro n
    induction n with
    | zero => exact fun i b s h => ⟨.ok b, s, .done (by rw [now, elems_length (hw s)]; omega), rfl⟩
    | succ n ih =>
      intro i b s h
      obtain ⟨x, _, hx⟩ := index_lt (hw s) (show i < (arr s).len by omega)
      rw [inject, peek_lt (by omega), hx]
      simp only
      have hk' := hk b x s
      split
      · rename_i e s1 hf
        exact ⟨.error e, s1, .raised hx hf, rfl⟩
      · rename_i b1 s1 hf
        rw [hf] at hk'
        have hl : (arr s1).len = (arr s).len := hk'.2
        have hp1 : (arr s1).place = (arr s).place := hk'.1
        obtain ⟨r, s', hv, hr⟩ := ih (i + 1) b1 s1 (by omega)
        rw [hp1] at hr
        exact ⟨r, s', .next hx hf hv, hr⟩
  exact key _ 0 b s (by omega)

/-- The array with 1 2 3 4 in its four cells inside the object, and the program's other state: a counter. -/
def four : Store Nat := ⟨0, 4, [1, 2, 3, 4], 4⟩

/-- `a.select { |x| a.push(x); true }`: the first `push` moves the elements; the second element is read from where they were. -/
theorem C86_select_fails : ∃ (f : Block (Store Nat) Unit Nat Bool) (l : List (Nat × Bool)) (s' : Store Nat),
    (∀ x s, f x s = (.ok true, if s.len < 6 then s.push (s.place + 1) x else s)) ∧ four.WF ∧
    Visits Store.elems f (fun _ => false) 0 four l none s' ∧ l.map (·.1) = [1, 2, 3, 4, 1, 2] ∧
    (select id f four).1 = .dangling := by
  refine ⟨fun x s => (.ok true, if s.len < 6 then s.push (s.place + 1) x else s),
    [(1, true), (2, true), (3, true), (4, true), (1, true), (2, true)], ⟨1, 8, [1, 2, 3, 4, 1, 2], 6⟩, fun _ _ => rfl,
    by show 4 ≤ 4; omega, ?_, rfl, by decide⟩
  refine .next (s' := ⟨1, 8, [1, 2, 3, 4, 1], 5⟩) rfl (by rfl) rfl ?_
  refine .next (s' := ⟨1, 8, [1, 2, 3, 4, 1, 2], 6⟩) rfl (by rfl) rfl ?_
  refine .next (s' := ⟨1, 8, [1, 2, 3, 4, 1, 2], 6⟩) rfl (by rfl) rfl ?_
  refine .next (s' := ⟨1, 8, [1, 2, 3, 4, 1, 2], 6⟩) rfl (by rfl) rfl ?_
  refine .next (s' := ⟨1, 8, [1, 2, 3, 4, 1, 2], 6⟩) rfl (by rfl) rfl ?_
  refine .next (s' := ⟨1, 8, [1, 2, 3, 4, 1, 2], 6⟩) rfl (by rfl) rfl ?_
  exact .done (by decide)

/-- `a.select { |x| a.clear; true }`: the elements that were removed are still given to the block and selected. -/
theorem C86_cleared_elements_fails : ∃ (f : Block (Store Nat) Unit Nat Bool) (s' : Store Nat),
    (∀ x s, f x s = (.ok true, s.clear)) ∧
    Visits Store.elems f (fun _ => false) 0 four [(1, true)] none s' ∧ (select id f four).1 = .ok [1, 2, 3, 4] := by
  refine ⟨fun x s => (.ok true, s.clear), four.clear, fun _ _ => rfl, .next rfl (by rfl) rfl (.done (by decide)), by decide⟩

/-- `each` and `map` on the same: the elements pushed meanwhile are visited. -/
example : map id (fun x (s : Store Nat) => (Except.ok (ε := Unit) x, if s.len < 6 then s.push (s.place + 1) x else s)) 10 four =
    some (.ok [1, 2, 3, 4, 1, 2], ⟨1, 8, [1, 2, 3, 4, 1, 2], 6⟩) := by rfl

/-- `map!` with a block that does not shorten the array: no panic, each element in turn is replaced with the answer for it; the
method ends exactly if this iteration does.  Otherwise it may panic (`C86_map_bang_fails`). -/
theorem C86_map_bang_partial {arr : σ → Store α} {assign : Nat → α → σ → σ} (hw : ∀ s, (arr s).WF) (f : Block σ ε α α)
    (hk : ∀ x s, (arr s).len ≤ (arr (f x s).2).len) (s : σ) (r : Res ε Unit) (s' : σ) :
    (∃ n, mapBang arr assign f n 0 s = some (r, s')) ↔ ∃ e, Replaces (now arr) assign f 0 s e s' ∧ r = answer () e := by
  constructor
  · rintro ⟨n, h⟩
    suffices H : ∀ (n i : Nat) (s : σ), mapBang arr assign f n i s = some (r, s') →
        ∃ e, Replaces (now arr) assign f i s e s' ∧ r = answer () e from H n 0 s h
    intro n
    induction n with
    | zero => intro i s h; cases h
    | succ n ih =>
      intro i s h
      rw [mapBang] at h
      split at h
      · rename_i hi
        obtain ⟨x, hx, hx'⟩ := index_lt (hw s) hi
        rw [hx] at h
        simp only at h
        have hk' := hk x s
        split at h
        · rename_i e s1 hf
          cases h
          exact ⟨some e, .raised hx' hf, rfl⟩
        · rename_i y s1 hf
          rw [hf] at hk'
          have hk1 : (arr s).len ≤ (arr s1).len := hk'
          rw [if_pos (by omega)] at h
          obtain ⟨e, hv, hr⟩ := ih _ _ h
          exact ⟨e, .next hx' hf hv, hr⟩
      · rename_i hi
        cases h
        exact ⟨none, .done (by rw [now, elems_length (hw _)]; omega), rfl⟩
  · rintro ⟨e, hv, rfl⟩
    generalize (0 : Nat) = i at hv
    induction hv with
    | done h =>
      rename_i i s
      refine ⟨1, ?_⟩
      rw [now, elems_length (hw s)] at h
      rw [mapBang, if_neg (by omega)]; rfl
    | raised h hf =>
      rename_i i s x e s'
      refine ⟨1, ?_⟩
      have hi : i < (arr s).len := by
        have := (List.getElem?_eq_some_iff.1 h).1
        rwa [now, elems_length (hw s)] at this
      rw [mapBang, if_pos hi, show (arr s).index i = some x from h]
      simp only [hf]; rfl
    | next h hf hv0 ih =>
      rename_i i s x y s1 e s'
      obtain ⟨n, hn⟩ := ih
      refine ⟨n + 1, ?_⟩
      have hi : i < (arr s).len := by
        have := (List.getElem?_eq_some_iff.1 h).1
        rwa [now, elems_length (hw s)] at this
      have hk1 : (arr s).len ≤ (arr s1).len := by have := hk x s; rwa [hf] at this
      rw [mapBang, if_pos hi, show (arr s).index i = some x from h]
      simp only [hf]
      rw [if_pos (by omega)]
      exact hn

/-- Assigning an element of an array that is the whole state. -/
def assignElem (i : Nat) (y : Nat) (a : Store Nat) : Store Nat := { a with cells := a.cells.set i y }

example : mapBang id assignElem (fun x s => (Except.ok (ε := Unit) (x * 10), s)) 10 0 four =
    some (.ok (), ⟨0, 4, [10, 20, 30, 40], 4⟩) := by rfl

/-- `a.map! { |x| a.clear; x }` panics; Ruby writes the answer at index 0 and ends. -/
theorem C86_map_bang_fails : ∃ f : Block (Store Nat) Unit Nat Nat, (∀ x s, f x s = (.ok x, s.clear)) ∧
    ∀ n, mapBang id assignElem f (n + 1) 0 four = some (.panic, four.clear) :=
  ⟨fun x s => (.ok x, s.clear), fun _ _ => rfl, fun _ => rfl⟩

theorem bsearchLoop_eq {arr : σ → Store α} {f : Block σ ε α Bool} (L : List α) (p : α → Bool)
    (hf : ∀ x s, (f x s).1 = .ok (p x) ∧ now arr (f x s).2 = now arr s) :
    ∀ n i j s, now arr s = L → ∀ r s', Arr.bsearchLoop (fun x s => Except.ok (ε := ε) (p x, (f x s).2)) L n i j s = .ok (r, s') →
      bsearchLoop arr f n i j s = some (.ok r, s')
  | 0, _, _, _, _, _, _, h => by cases h
  | n + 1, i, j, s, hL, r, s', h => by
    rw [Arr.bsearchLoop] at h
    rw [bsearchLoop]
    split at h
    · rename_i hm
      cases h
      rw [if_pos hm]
    · rename_i hm
      rw [if_neg hm]
      have hi : (arr s).index (i + (j - i) / 2) = L[i + (j - i) / 2]? := by rw [← hL]; rfl
      rw [hi]
      split at h
      · cases h
      · rename_i x hx
        rw [hx]
        simp only
        obtain ⟨h1, h2⟩ := hf x s
        generalize hq : f x s = q at h1 h2 h
        obtain ⟨q1, q2⟩ := q
        simp only at h1 h2
        subst h1
        cases hp : p x with
        | true =>
          rw [hp] at h
          simp only at h ⊢
          exact bsearchLoop_eq L p hf n _ _ _ (h2.trans hL) _ _ h
        | false =>
          rw [hp] at h
          simp only at h ⊢
          exact bsearchLoop_eq L p hf n _ _ _ (h2.trans hL) _ _ h

/-- `bsearch` with a block that leaves the array alone and decides a property: what C23 says holds of the program that reads
the elements again each time. -/
theorem C86_bsearch_partial {arr : σ → Store α} (hw : ∀ s, (arr s).WF) {f : Block σ ε α Bool} (p : α → Bool)
    (hf : ∀ x s, (f x s).1 = .ok (p x) ∧ now arr (f x s).2 = now arr s) (s : σ)
    (mono : ∀ i j (hij : i ≤ j) (hj : j < (now arr s).length), p (now arr s)[i] = true → p (now arr s)[j] = true) :
    ∃ n r s', bsearch arr f n s = some (.ok r, s') ∧ (r = none → ∀ x ∈ now arr s, p x = false) ∧
      (∀ k, r = some k → ∃ h : k < (now arr s).length, p (now arr s)[k] = true ∧ ∀ i (hi : i < k), p (now arr s)[i] = false) := by
  obtain ⟨r, s', h, hr⟩ := C23_bsearch (fun x s => Except.ok (ε := ε) (p x, (f x s).2)) p (fun _ _ => ⟨_, rfl⟩) (now arr s) s mono
  refine ⟨(now arr s).length + 1, r, s', ?_, hr⟩
  have hlen : (arr s).len = (now arr s).length := (elems_length (hw s)).symm
  rw [bsearch, hlen]
  have hidx : ∀ i, (arr s).index i = (now arr s)[i]? := fun _ => rfl
  rw [hidx]
  generalize hL : now arr s = L at h
  cases L with
  | nil => cases h; rfl
  | cons x0 xs =>
    rw [binary_search] at h
    rw [if_neg (by simp)]
    simp only [List.getElem?_cons_zero]
    obtain ⟨h1, h2⟩ := hf x0 s
    generalize hq : f x0 s = q at h1 h2 h
    obtain ⟨q1, q2⟩ := q
    simp only at h1 h2
    subst h1
    cases hp : p x0 with
    | true => rw [hp] at h; simp only at h ⊢; cases h; rfl
    | false =>
      rw [hp] at h
      simp only at h ⊢
      rw [List.getLast?_eq_getElem?] at h
      have hi : (arr q2).index ((x0 :: xs).length - 1) = (x0 :: xs)[(x0 :: xs).length - 1]? := by rw [← hL, ← h2]; rfl
      rw [hi]
      split at h
      · cases h
      · rename_i xl hx
        rw [hx]
        simp only
        obtain ⟨k1, k2⟩ := hf xl q2
        generalize hq' : f xl q2 = q' at k1 k2 h
        obtain ⟨q3, q4⟩ := q'
        simp only at k1 k2
        subst k1
        cases hp' : p xl with
        | false => rw [hp'] at h; simp only at h ⊢; cases h; rfl
        | true =>
          rw [hp'] at h
          simp only at h ⊢
          exact bsearchLoop_eq _ p hf _ _ _ _ (k2.trans (h2.trans hL)) _ _ h

theorem bsearchLoop_raises {arr : σ → Store α} {f : Block σ ε α Bool} (last : σ → Option ε)
    (h1 : ∀ x s e s', f x s = (.error e, s') → last s' = some e)
    (h2 : ∀ x s y s', f x s = (.ok y, s') → last s' = none) :
    ∀ n i_min i_max s, i_max - i_min < n → last s = none →
      ∃ r s', bsearchLoop arr f n i_min i_max s = some (r, s') ∧ ∀ e, r = .raised e ↔ last s' = some e := by
  intro n
  induction n with
  | zero => intro i_min i_max s h; omega
  | succ n ih =>
    intro i_min i_max s h hs
    rw [bsearchLoop]
    split
    · exact ⟨_, _, rfl, by simp [hs]⟩
    · rename_i hne
      split
      · exact ⟨_, _, rfl, by simp [hs]⟩
      · split
        · rename_i q
          exact ⟨_, _, rfl, by simp [h1 _ _ _ _ q]⟩
        · rename_i q
          exact ih _ _ _ (by omega) (h2 _ _ _ _ q)
        · rename_i q
          exact ih _ _ _ (by omega) (h2 _ _ _ _ q)

/-- `bsearch` with any block, also one that changes the array: it ends, after a number of steps the length of the array
bounds, and it raises what the block raises.  `last`: what the block's last call raised, if it did. -/
theorem C86_bsearch_raises {arr : σ → Store α} {f : Block σ ε α Bool} (last : σ → Option ε)
    (h1 : ∀ x s e s', f x s = (.error e, s') → last s' = some e)
    (h2 : ∀ x s y s', f x s = (.ok y, s') → last s' = none) (n : Nat) (s : σ) (hn : (arr s).len ≤ n) (hs : last s = none) :
    ∃ r s', bsearch arr f n s = some (r, s') ∧ ∀ e, r = .raised e ↔ last s' = some e := by
  rw [bsearch]
  split
  · exact ⟨_, _, rfl, by simp [hs]⟩
  · split
    · exact ⟨_, _, rfl, by simp [hs]⟩
    · split
      · rename_i q
        exact ⟨_, _, rfl, by simp [h1 _ _ _ _ q]⟩
      · rename_i q
        exact ⟨_, _, rfl, by simp [h2 _ _ _ _ q]⟩
      · rename_i q
        simp only
        split
        · exact ⟨_, _, rfl, by simp [h2 _ _ _ _ q]⟩
        · split
          · rename_i q
            exact ⟨_, _, rfl, by simp [h1 _ _ _ _ q]⟩
          · rename_i q
            exact ⟨_, _, rfl, by simp [h2 _ _ _ _ q]⟩
          · rename_i q
            exact bsearchLoop_raises last h1 h2 _ _ _ _ (by omega) (h2 _ _ _ _ q)

/-- A block that raises at the third call: the exception is what `bsearch` ends with. -/
example : bsearch (σ := Store Nat × Option Nat) (ε := Nat) (·.1)
    (fun x s => if x = 2 then (.error x, (s.1, some x)) else (.ok (decide (3 ≤ x)), (s.1, none))) 4 (four, none) =
      some (.raised 2, (four, some 2)) := rfl

/-- `a.bsearch { |x| a.clear; false }` panics. -/
theorem C86_bsearch_fails : ∃ f : Block (Store Nat) Unit Nat Bool, (∀ x s, f x s = (.ok false, s.clear)) ∧
    ∀ n, bsearch id f n four = some (.panic, four.clear) :=
  ⟨fun _ s => (.ok false, s.clear), fun _ _ => rfl, fun _ => rfl⟩

/-- A block as the theorems ask for: the state is the array and a counter, the block counts. -/
example : Keeps (σ := Store Nat × Nat) (ε := Unit) (·.1) (fun x s => (.ok (x % 2 == 0), (s.1, s.2 + 1))) ∧
    select (σ := Store Nat × Nat) (ε := Unit) (·.1) (fun x s => (.ok (x % 2 == 0), (s.1, s.2 + 1))) (four, 0) = (.ok [2, 4], (four, 4)) ∧
    find (σ := Store Nat × Nat) (ε := Unit) (·.1) (fun x s => (.ok (x % 2 == 0), (s.1, s.2 + 1))) (four, 0) = (.ok (some 2), (four, 2)) ∧
    bsearch (σ := Store Nat × Nat) (ε := Unit) (·.1) (fun x s => (.ok (decide (3 ≤ x)), (s.1, s.2 + 1))) 5 (four, 0) =
      some (.ok (some 2), (four, 4)) :=
  ⟨fun _ _ => ⟨rfl, rfl, fun _ h => h⟩, rfl, rfl, rfl⟩

end Verif.Arr.Mutate
