import Verif.Arr.Props2
import Verif.Eq.Model
/-! # C100: asking and searching arrays

`grep`, `any?`, `all?`, `count`, `find_index`, `delete`, `max`, `min`, `fill`, `each_with_index`, `each_index`, `flat_map` and
`uniq!` of `builtin/array.rs`.  The methods they call (`===`, `==`, `>`, blocks) are arbitrary: they keep state and raise. -/
namespace Verif.Arr.Search

variable {σ ε α β κ : Type}

/-! ## Model -/

/-- A call that keeps state and may raise. -/
abbrev Ask (σ ε α β : Type) := α → σ → Except ε β × σ

/-- `grep` without a block (builtin/array.rs:923-937); `f x` is `pattern === x`.  An exception counts as `false`. -/
def grep (f : Ask σ ε α Bool) : List α → σ → List α × σ
  | [], s => ([], s)
  | x :: xs, s =>
    match f x s with
    | (.ok true, s) => (x :: (grep f xs s).1, (grep f xs s).2)
    | (_, s) => grep f xs s

/-- `any?` (builtin/array.rs:985-1018) with a pattern, a block or neither: `f x` is `pattern === x`, the answer of the
block, or the element taken as a truth value. -/
def any (f : Ask σ ε α Bool) : List α → σ → Except ε Bool × σ
  | [], s => (.ok false, s)
  | x :: xs, s =>
    match f x s with
    | (.error e, s) => (.error e, s)
    | (.ok b, s) => if b then (.ok true, s) else any f xs s

/-- `all?` (builtin/array.rs:1020-1053). -/
def all (f : Ask σ ε α Bool) : List α → σ → Except ε Bool × σ
  | [], s => (.ok true, s)
  | x :: xs, s =>
    match f x s with
    | (.error e, s) => (.error e, s)
    | (.ok b, s) => if !b then (.ok false, s) else all f xs s

/-- The loop of `count(other)` (builtin/array.rs:1066-1077); `f x` is `x == other`. -/
def countLoop (f : Ask σ ε α Bool) : List α → Nat → σ → Except ε Nat × σ
  | [], n, s => (.ok n, s)
  | x :: xs, n, s =>
    match f x s with
    | (.error e, s) => (.error e, s)
    | (.ok b, s) => countLoop f xs (if b then n + 1 else n) s

/-- `count(other)` (builtin/array.rs:1055-1081). -/
def count (f : Ask σ ε α Bool) (l : List α) (s : σ) : Except ε Nat × σ := countLoop f l 0 s

/-- The loop of `find_index(other)` (builtin/array.rs:1098-1102); `eq x` is `x.eq(other)`, the equality of the interpreter
(see `Verif.Eq`), which calls no method. -/
def findIndexLoop (eq : α → Bool) : List α → Nat → Option Nat
  | [], _ => none
  | x :: xs, i => if eq x then some i else findIndexLoop eq xs (i + 1)

/-- `find_index(other)` (builtin/array.rs:1091-1104). -/
def findIndex (eq : α → Bool) (l : List α) : Option Nat := findIndexLoop eq l 0

/-- The closure of `delete` (builtin/array.rs:1219-1226); the state is `removed`. -/
def deleteStep (eq : α → Bool) (x : α) (removed : Option α) : Except Empty Bool × Option α :=
  if eq x then (.ok false, some x) else (.ok true, removed)

/-- `delete` (builtin/array.rs:1213-1229): the answer (`none` for `nil`) and the array afterwards. -/
def delete (eq : α → Bool) (l : List α) : Option α × List α :=
  let r := retain (deleteStep eq) l none
  (r.2.1, r.1)

/-- The loop of `max` (builtin/array.rs:678-683): `gt x m` is `x > m` (`eval_gt2(max, elem)` has the right operand first,
vm/executor/ops.rs:449-451). -/
def maxLoop (gt : α → α → σ → Except ε Bool × σ) : List α → α → σ → Except ε α × σ
  | [], m, s => (.ok m, s)
  | x :: xs, m, s =>
    match gt x m s with
    | (.error e, s) => (.error e, s)
    | (.ok b, s) => maxLoop gt xs (if b then x else m) s

/-- `max` (builtin/array.rs:672-685). -/
def max (gt : α → α → σ → Except ε Bool × σ) (l : List α) (s : σ) : Except ε (Option α) × σ :=
  match l with
  | [] => (.ok none, s)
  | x :: _ => match maxLoop gt l x s with
    | (.error e, s) => (.error e, s)
    | (.ok m, s) => (.ok (some m), s)

/-- The loop of `min` (builtin/array.rs:661-667); `key` is `to_float`. -/
def minLoop (key : α → Option κ) (lt : κ → κ → Bool) : List α → α → κ → Option α
  | [], m, _ => some m
  | x :: xs, m, k =>
    match key x with
    | none => none
    | some kx => if lt kx k then minLoop key lt xs x kx else minLoop key lt xs m k

/-- `min` (builtin/array.rs:642-670).  `none`: a TypeError; `some none`: `nil`. -/
def min (key : α → Option κ) (lt : κ → κ → Bool) (l : List α) : Option (Option α) :=
  match l with
  | [] => some none
  | x :: _ => match key x with
    | none => none
    | some k => (minLoop key lt l x k).map some

/-- `fill` (builtin/array.rs:687-694). -/
def fill (v : α) : List α → List α
  | [] => []
  | _ :: xs => v :: fill v xs

/-- The loops of `each_with_index` and `each_index` (builtin/array.rs:501-511, 483-494), which look at the array again for
every round; the block of `each_index` does not get the element.  `none`: not finished within the fuel. -/
def indexed (arr : σ → List α) (f : Nat → Ask σ ε α β) : Nat → Nat → σ → Option (Option ε × σ)
  | 0, _, _ => none
  | n + 1, i, s =>
    match (arr s)[i]? with
    | none => some (none, s)
    | some x =>
      match f i x s with
      | (.error e, s) => some (some e, s)
      | (.ok _, s) => indexed arr f n (i + 1) s

/-- A value that may be an array. -/
inductive Elem (α : Type)
  | one (a : α)
  | many (l : List α)
  deriving DecidableEq, Repr

/-- What `flat_map` passes to a block with `p` required parameters (builtin/array.rs:440-449).  `none`: the slice is out of
range and the interpreter stops. -/
def flatArgs (p : Nat) (x : Elem α) : Option (List (Elem α)) :=
  if p = 0 then some []
  else if p = 1 then some [x]
  else
    match x with
    | .many l => if p ≤ l.length then some ((l.take p).map .one) else none
    | .one a => some [.one a]

/-- How `flat_map` ends. -/
inductive Flat (ε β : Type)
  | ok (l : List β)
  | raised (e : ε)
  | panic
  deriving DecidableEq, Repr

/-- The loop of `flat_map` (builtin/array.rs:434-456): arrays that the block answers are spliced in. -/
def flatMap (p : Nat) (f : Ask σ ε (List (Elem α)) (Elem β)) : List (Elem α) → List β → σ → Flat ε β × σ
  | [], acc, s => (.ok acc, s)
  | x :: xs, acc, s =>
    match flatArgs p x with
    | none => (.panic, s)
    | some args =>
      match f args s with
      | (.error e, s) => (.raised e, s)
      | (.ok (.many l), s) => flatMap p f xs (acc ++ l) s
      | (.ok (.one b), s) => flatMap p f xs (acc ++ [b]) s

/-- The closure of `uniq!` with a block (builtin/array.rs:763-767): the state is that of the program and the set of answers
so far; `eqv` is the equality of hash keys. -/
def uniqStep (f : Ask σ ε α κ) (eqv : κ → κ → Bool) (x : α) (s : σ × List κ) : Except ε Bool × (σ × List κ) :=
  match f x s.1 with
  | (.error e, t) => (.error e, (t, s.2))
  | (.ok k, t) => if s.2.any (eqv · k) then (.ok false, (t, s.2)) else (.ok true, (t, s.2 ++ [k]))

/-- `uniq!` with a block (builtin/array.rs:745-775): the array afterwards, and whether the answer is the array (`false`: it
is `nil`). -/
def uniqBang (f : Ask σ ε α κ) (eqv : κ → κ → Bool) (l : List α) (s : σ) : List α × Except ε Bool × σ :=
  let r := retain (uniqStep f eqv) l (s, [])
  (r.1, r.2.2, r.2.1.1)

/-! ## Specification -/

/-- `f` is called for the elements of the list, from the first to the last, and answers `ys`. -/
inductive Asks (f : Ask σ ε α β) : List α → σ → List β → σ → Prop
  | nil {s} : Asks f [] s [] s
  | cons {x xs s y ys s' s''} : f x s = (.ok y, s') → Asks f xs s' ys s'' → Asks f (x :: xs) s (y :: ys) s''

/-- `f` is called for the elements in order, answers `b` until it comes to an element for which it ends with `r`; the
elements after that are not looked at. -/
def Stops (f : Ask σ ε α Bool) (b : Bool) (l : List α) (s : σ) (r : Except ε Bool) (s' : σ) : Prop :=
  ∃ front x rest t, l = front ++ x :: rest ∧ Asks f front s (List.replicate front.length b) t ∧ f x t = (r, s')

/-- The block is called with each index and the element that is there at that time, until the array is no longer than the
index or the block raises. -/
inductive Goes (arr : σ → List α) (f : Nat → Ask σ ε α β) : Nat → σ → List (Nat × α) → Option ε → σ → Prop
  | done {i s} : (arr s).length ≤ i → Goes arr f i s [] none s
  | raised {i s x e s'} : (arr s)[i]? = some x → f i x s = (.error e, s') → Goes arr f i s [(i, x)] (some e) s'
  | next {i s x y s' l e s''} : (arr s)[i]? = some x → f i x s = (.ok y, s') → Goes arr f (i + 1) s' l e s'' →
      Goes arr f i s ((i, x) :: l) e s''

/-- What a block with `p` parameters binds to them if it is called with one element, as `each` does: an array is spread over
two or more parameters. -/
def bound (p : Nat) (nil : Elem α) (x : Elem α) : List (Elem α) :=
  let given := match x with
    | .many l => if 2 ≤ p then l.map .one else [x]
    | .one _ => [x]
  (given ++ List.replicate p nil).take p

/-- What a block with `p` parameters binds to them if it is called with these arguments and they are no array to spread. -/
def binds (p : Nat) (nil : Elem α) (args : List (Elem α)) : List (Elem α) := (args ++ List.replicate p nil).take p

/-- What is put in for an answer. -/
def Elem.flat : Elem α → List α
  | .one a => [a]
  | .many l => l

/-! ## C100: questions -/

/-- `grep` asks every element once and in order, and keeps those with a true answer.  Partial: if nothing raises. -/
theorem C100_grep_partial {f : Ask σ ε α Bool} {l : List α} {s : σ} {ys : List Bool} {s' : σ} (h : Asks f l s ys s') :
    grep f l s = (((l.zip ys).filter (·.2)).map (·.1), s') := by
  induction h with
  | nil => rfl
  | cons e _ ih => rename_i y _ _ _ _; cases y <;> simp [grep, e, ih]

/-- `any?` stops at the first true answer, or at an exception; without either it has asked all and is false. -/
theorem C100_any (f : Ask σ ε α Bool) (l : List α) (s s' : σ) :
    (any f l s = (.ok true, s') ↔ Stops f false l s (.ok true) s') ∧
    (∀ e, any f l s = (.error e, s') ↔ Stops f false l s (.error e) s') ∧
    (any f l s = (.ok false, s') ↔ Asks f l s (List.replicate l.length false) s') := by
  have stopCons : ∀ {x xs s t r s'}, f x s = (.ok false, t) → (Stops f false (x :: xs) s r s' ↔
      Stops f false xs t r s' ∨ (r = .ok false ∧ t = s')) := by
    intro x xs s t r s' hx
    constructor
    · rintro ⟨front, y, rest, u, e, hf, hy⟩
      cases front with
      | nil =>
        simp only [List.nil_append, List.cons.injEq] at e
        obtain ⟨rfl, rfl⟩ := e
        cases hf
        rw [hx] at hy
        simp only [Prod.mk.injEq] at hy
        exact .inr ⟨hy.1.symm, hy.2⟩
      | cons z front =>
        simp only [List.cons_append, List.cons.injEq] at e
        obtain ⟨rfl, rfl⟩ := e
        simp only [List.length_cons, List.replicate_succ] at hf
        cases hf with
        | cons e1 e2 =>
          rw [hx] at e1
          simp only [Prod.mk.injEq, true_and] at e1
          subst e1
          exact .inl ⟨front, y, rest, u, rfl, e2, hy⟩
    · rintro (⟨front, y, rest, u, rfl, hf, hy⟩ | ⟨rfl, rfl⟩)
      · exact ⟨x :: front, y, rest, u, rfl, .cons hx hf, hy⟩
      · exact ⟨[], x, xs, s, rfl, .nil, hx⟩
  have stopHere : ∀ {x xs s t r r' s'}, f x s = (r', t) → r' ≠ .ok false → (Stops f false (x :: xs) s r s' ↔ r = r' ∧ t = s') := by
    intro x xs s t r r' s' hx hr
    constructor
    · rintro ⟨front, y, rest, u, e, hf, hy⟩
      cases front with
      | nil =>
        simp only [List.nil_append, List.cons.injEq] at e
        obtain ⟨rfl, rfl⟩ := e
        cases hf
        rw [hx] at hy
        simp only [Prod.mk.injEq] at hy
        exact ⟨hy.1.symm, hy.2⟩
      | cons z front =>
        simp only [List.cons_append, List.cons.injEq] at e
        obtain ⟨rfl, rfl⟩ := e
        simp only [List.length_cons, List.replicate_succ] at hf
        cases hf with
        | cons e1 e2 =>
          rw [hx] at e1
          simp only [Prod.mk.injEq] at e1
          exact absurd e1.1 hr
    · rintro ⟨rfl, rfl⟩
      exact ⟨[], x, xs, s, rfl, .nil, hx⟩
  induction l generalizing s with
  | nil =>
    refine ⟨⟨fun h => by simp [any] at h, ?_⟩, fun e => ⟨fun h => by simp [any] at h, ?_⟩, ⟨fun h => ?_, fun h => ?_⟩⟩
    · rintro ⟨front, x, rest, t, h, _⟩; cases front <;> cases h
    · rintro ⟨front, x, rest, t, h, _⟩; cases front <;> cases h
    · simp only [any, Prod.mk.injEq, true_and] at h; subst h; exact .nil
    · cases h; rfl
  | cons x xs ih =>
    rcases hx : f x s with ⟨r, t⟩
    rcases r with e | b
    · have h0 : (Except.error e : Except ε Bool) ≠ .ok false := by simp
      refine ⟨?_, fun e' => ?_, ?_⟩
      · rw [stopHere hx h0]; simp [any, hx]
      · rw [stopHere hx h0]; simp [any, hx, eq_comm]
      · simp only [any, hx]
        refine ⟨fun h => by simp at h, fun h => ?_⟩
        cases h with
        | cons e1 _ => rw [hx] at e1; cases e1
    · cases b with
      | true =>
        have h0 : (Except.ok true : Except ε Bool) ≠ .ok false := by simp
        refine ⟨?_, fun e' => ?_, ?_⟩
        · rw [stopHere hx h0]; simp [any, hx]
        · rw [stopHere hx h0]; simp [any, hx]
        · simp only [any, hx, if_true]
          refine ⟨fun h => by simp at h, fun h => ?_⟩
          cases h with
          | cons e1 _ => rw [hx] at e1; cases e1
      | false =>
        have hany : any f (x :: xs) s = any f xs t := by simp [any, hx]
        rw [hany]
        refine ⟨?_, fun e' => ?_, ?_⟩
        · rw [stopCons hx, (ih t).1]; simp
        · rw [stopCons hx, (ih t).2.1]; simp
        · rw [(ih t).2.2]
          refine ⟨fun h => .cons hx h, fun h => ?_⟩
          cases h with
          | cons e1 e2 =>
            rw [hx] at e1
            simp only [Prod.mk.injEq, true_and] at e1
            subst e1; exact e2

/-- The same question with the opposite answers. -/
def neg (f : Ask σ ε α Bool) : Ask σ ε α Bool := fun x s => match f x s with
  | (.error e, s) => (.error e, s)
  | (.ok b, s) => (.ok (!b), s)

theorem all_neg (f : Ask σ ε α Bool) : ∀ (l : List α) (s : σ), all f l s = match any (neg f) l s with
    | (.error e, s) => (.error e, s)
    | (.ok b, s) => (.ok (!b), s)
  | [], s => rfl
  | x :: xs, s => by
    rcases hx : f x s with ⟨r, t⟩
    rcases r with e | b
    · simp [all, any, neg, hx]
    · cases b with
      | true => simp [all, any, neg, hx, all_neg f xs t]
      | false => simp [all, any, neg, hx]

theorem asks_neg {f : Ask σ ε α Bool} : ∀ {l : List α} {n : Nat} {s s' : σ} {b : Bool}, Asks (neg f) l s (List.replicate n b) s' ↔ Asks f l s (List.replicate n (!b)) s'
  | [], n, s, s', b => by
    cases n with
    | zero => constructor <;> intro h <;> cases h <;> exact .nil
    | succ n => constructor <;> intro h <;> cases h
  | x :: xs, 0, s, s', b => by constructor <;> intro h <;> cases h
  | x :: xs, n + 1, s, s', b => by
    simp only [List.replicate_succ]
    constructor
    · intro h
      cases h with
      | cons e1 e2 =>
        simp only [neg] at e1
        rcases hx : f x s with ⟨r, t⟩
        rw [hx] at e1
        rcases r with e | c
        · simp at e1
        · simp only [Prod.mk.injEq, Except.ok.injEq] at e1
          obtain ⟨rfl, rfl⟩ := e1
          exact .cons (by rw [hx]; simp) (asks_neg.1 e2)
    · intro h
      cases h with
      | cons e1 e2 => exact .cons (by simp [neg, e1]) (asks_neg.2 e2)

/-- `all?` stops at the first false answer, or at an exception; without either it has asked all and is true. -/
theorem C100_all (f : Ask σ ε α Bool) (l : List α) (s s' : σ) :
    (all f l s = (.ok false, s') ↔ Stops f true l s (.ok false) s') ∧
    (∀ e, all f l s = (.error e, s') ↔ Stops f true l s (.error e) s') ∧
    (all f l s = (.ok true, s') ↔ Asks f l s (List.replicate l.length true) s') := by
  have st : ∀ {r r' : Except ε Bool}, (∀ x t, neg f x t = (r, s') ↔ f x t = (r', s')) → (Stops (neg f) false l s r s' ↔ Stops f true l s r' s') := by
    intro r r' h
    constructor
    · rintro ⟨front, x, rest, t, e, hf, hx⟩
      exact ⟨front, x, rest, t, e, asks_neg.1 hf, (h x t).1 hx⟩
    · rintro ⟨front, x, rest, t, e, hf, hx⟩
      exact ⟨front, x, rest, t, e, asks_neg.2 hf, (h x t).2 hx⟩
  obtain ⟨h1, h2, h3⟩ := C100_any (neg f) l s s'
  rw [all_neg]
  refine ⟨?_, fun e => ?_, ?_⟩
  · rw [← st (r := .ok true), ← h1]
    · rcases any (neg f) l s with ⟨_ | b, t⟩ <;> simp
    · intro x t
      simp only [neg]
      rcases f x t with ⟨_ | b, u⟩ <;> simp
  · rw [← st (r := .error e), ← h2]
    · rcases any (neg f) l s with ⟨_ | b, t⟩ <;> simp
    · intro x t
      simp only [neg]
      rcases f x t with ⟨_ | b, u⟩ <;> simp
  · rw [show List.replicate l.length true = List.replicate l.length (!false) from rfl, ← asks_neg, ← h3]
    rcases any (neg f) l s with ⟨_ | b, t⟩ <;> simp

theorem countLoop_asks {f : Ask σ ε α Bool} {l : List α} {s : σ} {ys : List Bool} {s' : σ} (h : Asks f l s ys s') :
    ∀ n, countLoop f l n s = (.ok (n + ys.count true), s') := by
  induction h with
  | nil => intro n; simp [countLoop]
  | cons e _ ih =>
    intro n
    rename_i y _ _ _ _
    cases y
    · simp [countLoop, e, ih]
    · simp only [countLoop, e, ih, if_true, List.count_cons_self]; congr 2; omega

/-- `count(other)` compares every element once and in order, and counts the true answers; an exception of `==` ends it. -/
theorem C100_count (f : Ask σ ε α Bool) (l : List α) (s : σ) :
    (∃ ys s', Asks f l s ys s' ∧ count f l s = (.ok (ys.count true), s')) ∨
    (∃ front x rest ys t e s', l = front ++ x :: rest ∧ Asks f front s ys t ∧ f x t = (.error e, s') ∧ count f l s = (.error e, s')) := by
  have key : ∀ (l : List α) (s : σ), (∃ ys s', Asks f l s ys s') ∨
      (∃ front x rest ys t e s', l = front ++ x :: rest ∧ Asks f front s ys t ∧ f x t = (.error e, s') ∧ ∀ n, countLoop f l n s = (.error e, s')) := by
    intro l
    induction l with
    | nil => intro s; exact .inl ⟨_, _, .nil⟩
    | cons x xs ih =>
      intro s
      rcases hx : f x s with ⟨r, t⟩
      rcases r with e | b
      · exact .inr ⟨[], x, xs, [], s, e, t, rfl, .nil, hx, fun n => by simp [countLoop, hx]⟩
      · rcases ih t with ⟨ys, s', h⟩ | ⟨front, y, rest, ys, u, e, s', rfl, h1, h2, h3⟩
        · exact .inl ⟨_, _, .cons hx h⟩
        · exact .inr ⟨x :: front, y, rest, b :: ys, u, e, s', rfl, .cons hx h1, h2, fun n => by simp [countLoop, hx, h3]⟩
  rcases key l s with ⟨ys, s', h⟩ | ⟨front, x, rest, ys, t, e, s', h1, h2, h3, h4⟩
  · exact .inl ⟨ys, s', h, by rw [count, countLoop_asks h]; simp⟩
  · exact .inr ⟨front, x, rest, ys, t, e, s', h1, h2, h3, h4 0⟩

/-! ## C100: places -/

theorem findIndexLoop_spec (eq : α → Bool) : ∀ (l : List α) (k : Nat),
    (∀ i, findIndexLoop eq l k = some i ↔ ∃ j x, i = k + j ∧ l[j]? = some x ∧ eq x = true ∧ ∀ m y, m < j → l[m]? = some y → eq y = false) ∧
    (findIndexLoop eq l k = none ↔ ∀ x ∈ l, eq x = false)
  | [], k => by simp [findIndexLoop]
  | a :: l, k => by
    by_cases ha : eq a = true
    · refine ⟨fun i => ?_, by simp [findIndexLoop, ha]⟩
      simp only [findIndexLoop, ha, if_true, Option.some.injEq]
      constructor
      · rintro rfl
        exact ⟨0, a, rfl, rfl, ha, fun m y hm => absurd hm (Nat.not_lt_zero _)⟩
      · rintro ⟨j, x, rfl, hx, hex, hb⟩
        cases j with
        | zero => rfl
        | succ j => have := hb 0 a (Nat.succ_pos _) rfl; rw [ha] at this; cases this
    · have ha := eq_false_of_ne_true ha
      obtain ⟨h1, h2⟩ := findIndexLoop_spec eq l (k + 1)
      simp only [findIndexLoop, ha, Bool.false_eq_true, if_false]
      refine ⟨fun i => ?_, by rw [h2]; simp [ha]⟩
      rw [h1]
      constructor
      · rintro ⟨j, x, rfl, hx, hex, hb⟩
        refine ⟨j + 1, x, by omega, by simpa using hx, hex, fun m y hm hy => ?_⟩
        cases m with
        | zero => simp at hy; rw [← hy]; exact ha
        | succ m => exact hb m y (by omega) (by simpa using hy)
      · rintro ⟨j, x, rfl, hx, hex, hb⟩
        cases j with
        | zero => simp at hx; rw [hx, hex] at ha; cases ha
        | succ j => exact ⟨j, x, by omega, by simpa using hx, hex, fun m y hm hy => hb (m + 1) y (by omega) (by simpa using hy)⟩

/-- `find_index(other)` is the first index of an equal element, and `nil` exactly if there is none. -/
theorem C100_find_index (eq : α → Bool) (l : List α) :
    (∀ i, findIndex eq l = some i ↔ ∃ x, l[i]? = some x ∧ eq x = true ∧ ∀ j y, j < i → l[j]? = some y → eq y = false) ∧
    (findIndex eq l = none ↔ ∀ x ∈ l, eq x = false) := by
  obtain ⟨h1, h2⟩ := findIndexLoop_spec eq l 0
  refine ⟨fun i => ?_, h2⟩
  rw [findIndex, h1]
  constructor
  · rintro ⟨j, x, rfl, h⟩; exact ⟨x, by rw [Nat.zero_add]; exact h⟩
  · rintro ⟨x, h⟩; exact ⟨i, x, (Nat.zero_add i).symm, h⟩

theorem keep_delete (eq : α → Bool) : ∀ (l : List α) (s : Option α),
    keepSpec (deleteStep eq) l s = (.ok (l.filter fun x => !eq x), (l.filter eq).getLast?.or s)
  | [], s => by simp [keepSpec]
  | x :: xs, s => by
    by_cases hx : eq x = true
    · have := keep_delete eq xs (some x)
      simp only [keepSpec, deleteStep, hx, if_true]
      rw [this]
      simp only [Bool.false_eq_true, if_false, List.filter_cons, hx, Bool.not_true, if_true, Prod.mk.injEq, true_and]
      rcases h : (xs.filter eq).getLast? with _ | y
      · rw [List.getLast?_eq_none_iff] at h; simp [h]
      · rw [List.getLast?_cons, h]; simp
    · have hx := eq_false_of_ne_true hx
      have := keep_delete eq xs s
      simp only [keepSpec, deleteStep, hx, Bool.false_eq_true, if_false]
      rw [this]
      simp [hx]

/-- `delete` removes exactly the equal elements, leaves the others in their order, and answers the last one it removed, `nil`
if there was none. -/
theorem C100_delete (eq : α → Bool) (l : List α) : delete eq l = ((l.filter eq).getLast?, l.filter fun x => !eq x) := by
  have h := C24_retain (deleteStep eq) l none
  rw [keep_delete] at h
  simp only at h
  rw [delete, h]
  simp

/-! ## C100: the greatest and the least -/

/-- With a comparison that only looks at the elements and is a total order on them (equal keys are allowed), `max` is the
first of the greatest elements, `nil` only for the empty array. -/
theorem C100_max {le : α → α → Prop} (total : ∀ a b, le a b ∨ le b a) (trans : ∀ a b c, le a b → le b c → le a c)
    {gt : α → α → σ → Except ε Bool × σ} (hgt : ∀ a b s, ∃ r s', gt a b s = (.ok r, s') ∧ (r = true ↔ ¬ le a b)) (l : List α) (s : σ) :
    ∃ r s', max gt l s = (.ok r, s') ∧ (r = none ↔ l = []) ∧
      ∀ m, r = some m → ∃ i : Nat, l[i]? = some m ∧ (∀ x ∈ l, le x m) ∧ ∀ j y, j < i → l[j]? = some y → ¬ le m y := by
  have refl : ∀ a, le a a := fun a => (total a a).elim id id
  -- what is known after the first part of the array
  have loop : ∀ (rest front : List α) (m : α) (i : Nat) (s : σ), (front ++ rest)[i]? = some m → (∀ x ∈ front, le x m) →
      (∀ j y, j < i → (front ++ rest)[j]? = some y → ¬ le m y) →
      ∃ (m' : α) (i' : Nat) (s' : σ), maxLoop gt rest m s = (.ok m', s') ∧ (front ++ rest)[i']? = some m' ∧ (∀ x ∈ front ++ rest, le x m') ∧
        ∀ j y, j < i' → (front ++ rest)[j]? = some y → ¬ le m' y := by
    intro rest
    induction rest with
    | nil => intro front m i s h1 h2 h3; exact ⟨m, i, s, rfl, h1, by simpa using h2, h3⟩
    | cons x rest ih =>
      intro front m i s h1 h2 h3
      obtain ⟨r, s', e, hr⟩ := hgt x m s
      have app : front ++ x :: rest = (front ++ [x]) ++ rest := by simp
      simp only [maxLoop, e]
      cases r with
      | true =>
        have hn : ¬ le x m := hr.1 rfl
        have hm : le m x := (total m x).resolve_right hn
        rw [if_pos rfl, app]
        refine ih (front ++ [x]) x front.length s' (by simp) (fun y hy => ?_) (fun j y hj hy => ?_)
        · rcases List.mem_append.1 hy with hy | hy
          · exact trans _ _ _ (h2 y hy) hm
          · rw [List.mem_singleton.1 hy]; exact refl x
        · rw [List.append_assoc, List.getElem?_append_left hj] at hy
          exact fun h => hn (trans _ _ _ h (h2 y (List.mem_of_getElem? hy)))
      | false =>
        have hm : le x m := Classical.byContradiction fun h => by have := hr.2 h; cases this
        rw [if_neg (by decide), app]
        rw [app] at h1 h3
        refine ih (front ++ [x]) m i s' h1 (fun y hy => ?_) h3
        rcases List.mem_append.1 hy with hy | hy
        · exact h2 y hy
        · rw [List.mem_singleton.1 hy]; exact hm
  cases l with
  | nil => exact ⟨none, s, rfl, by simp, fun m h => by cases h⟩
  | cons x xs =>
    obtain ⟨m, i, s', e, h1, h2, h3⟩ := loop (x :: xs) [] x 0 s (by simp) (by simp) (fun j y hj => absurd hj (Nat.not_lt_zero _))
    refine ⟨some m, s', by simp [max, e], by simp, fun m' hm => ?_⟩
    cases hm
    exact ⟨i, h1, by simpa using h2, h3⟩

/-- `min` of numbers whose conversion to floats keeps their order (`lt` and `key` give a total order on the elements):
the first of the least elements.  Partial: the conversion does not keep the order of great integers, and other elements
are a TypeError. -/
theorem C100_min_partial {key : α → Option κ} {lt : κ → κ → Bool} {le : α → α → Prop} (total : ∀ a b, le a b ∨ le b a)
    (trans : ∀ a b c, le a b → le b c → le a c) {l : List α}
    (hkey : ∀ a ∈ l, ∃ k, key a = some k) (hlt : ∀ a ∈ l, ∀ b ∈ l, ∀ ka kb, key a = some ka → key b = some kb → (lt ka kb = true ↔ ¬ le b a)) :
    ∃ r, min key lt l = some r ∧ (r = none ↔ l = []) ∧
      ∀ m, r = some m → ∃ i : Nat, l[i]? = some m ∧ (∀ x ∈ l, le m x) ∧ ∀ j y, j < i → l[j]? = some y → ¬ le y m := by
  have refl : ∀ a, le a a := fun a => (total a a).elim id id
  have loop : ∀ (rest front : List α) (m : α) (k : κ) (i : Nat), (∀ x ∈ front ++ rest, x ∈ l) → m ∈ l → key m = some k → (front ++ rest)[i]? = some m →
      (∀ x ∈ front, le m x) → (∀ j y, j < i → (front ++ rest)[j]? = some y → ¬ le y m) →
      ∃ (m' : α) (i' : Nat), minLoop key lt rest m k = some m' ∧ (front ++ rest)[i']? = some m' ∧ (∀ x ∈ front ++ rest, le m' x) ∧
        ∀ j y, j < i' → (front ++ rest)[j]? = some y → ¬ le y m' := by
    intro rest
    induction rest with
    | nil => intro front m k i _ _ _ h1 h2 h3; exact ⟨m, i, rfl, h1, by simpa using h2, h3⟩
    | cons x rest ih =>
      intro front m k i hl hm hk h1 h2 h3
      have hx : x ∈ l := hl x (by simp)
      obtain ⟨kx, ekx⟩ := hkey x hx
      have app : front ++ x :: rest = (front ++ [x]) ++ rest := by simp
      simp only [minLoop, ekx]
      have hc := hlt x hx m hm kx k ekx hk
      rcases hb : lt kx k with _ | _
      · have hmx : le m x := Classical.byContradiction fun h => by rw [hc.2 h] at hb; cases hb
        rw [if_neg (by decide), app]
        rw [app] at h1 h3 hl
        refine ih (front ++ [x]) m k i hl hm hk h1 (fun y hy => ?_) h3
        rcases List.mem_append.1 hy with hy | hy
        · exact h2 y hy
        · rw [List.mem_singleton.1 hy]; exact hmx
      · have hn : ¬ le m x := hc.1 hb
        have hxm : le x m := (total m x).resolve_left hn
        rw [if_pos rfl, app]
        rw [app] at hl
        refine ih (front ++ [x]) x kx front.length hl hx ekx (by simp) (fun y hy => ?_) (fun j y hj hy => ?_)
        · rcases List.mem_append.1 hy with hy | hy
          · exact trans _ _ _ hxm (h2 y hy)
          · rw [List.mem_singleton.1 hy]; exact refl x
        · rw [List.append_assoc, List.getElem?_append_left hj] at hy
          exact fun h => hn (trans _ _ _ (h2 y (List.mem_of_getElem? hy)) h)
  cases l with
  | nil => exact ⟨none, rfl, by simp, fun m h => by cases h⟩
  | cons x xs =>
    obtain ⟨k, ek⟩ := hkey x (by simp)
    obtain ⟨m, i, e, h1, h2, h3⟩ := loop (x :: xs) [] x k 0 (fun _ h => h) (by simp) ek (by simp) (by simp) (fun j y hj => absurd hj (Nat.not_lt_zero _))
    refine ⟨some m, by simp [min, ek, e], by simp, fun m' hm => ?_⟩
    cases hm
    exact ⟨i, h1, by simpa using h2, h3⟩

/-! ## C100: the rest -/

/-- `fill` gives an array of the same length with the value everywhere. -/
theorem C100_fill (v : α) (l : List α) : fill v l = List.replicate l.length v := by
  induction l with
  | nil => rfl
  | cons x xs ih => simp [fill, ih, List.replicate_succ]

/-- `each_with_index` and `each_index` call the block with 0, 1, 2, … and the element that is there at that time. -/
theorem C100_indexed (arr : σ → List α) (f : Nat → Ask σ ε α β) {n i : Nat} {s : σ} {e : Option ε} {s' : σ} :
    indexed arr f n i s = some (e, s') → ∃ l, Goes arr f i s l e s' := by
  induction n generalizing i s with
  | zero => intro h; cases h
  | succ n ih =>
    intro h
    rw [indexed] at h
    split at h
    · rename_i hx
      simp only [Option.some.injEq, Prod.mk.injEq] at h
      obtain ⟨rfl, rfl⟩ := h
      exact ⟨_, .done (by simpa using hx)⟩
    · rename_i x hx
      split at h
      · rename_i e' t ht
        simp only [Option.some.injEq, Prod.mk.injEq] at h
        obtain ⟨rfl, rfl⟩ := h
        exact ⟨_, .raised hx ht⟩
      · rename_i y t ht
        obtain ⟨l, hl⟩ := ih h
        exact ⟨_, .next hx ht hl⟩

/-- And they end as the specification says whenever it ends: with a block that leaves the array as long as it is, after one
call per element. -/
theorem C100_indexed_ends {arr : σ → List α} {f : Nat → Ask σ ε α β} {i : Nat} {s : σ} {l : List (Nat × α)} {e : Option ε} {s' : σ}
    (h : Goes arr f i s l e s') {n : Nat} (hn : l.length < n) : indexed arr f n i s = some (e, s') := by
  induction h generalizing n with
  | done hi =>
    cases n with
    | zero => cases hn
    | succ n => simp [indexed, hi]
  | raised hx he =>
    cases n with
    | zero => cases hn
    | succ n => simp [indexed, hx, he]
  | next hx hy _ ih =>
    cases n with
    | zero => cases hn
    | succ n => simp only [indexed, hx, hy]; exact ih (by simpa using hn)

/-- `flat_map` calls the block once per element and in order, and splices the answers.  The arguments bind to the
parameters as those of `each` do.  Partial: for a block with two or more parameters the array elements must be at least
that long. -/
theorem C100_flat_map_partial {p : Nat} {nil : Elem α} {l : List (Elem α)}
    (hl : ∀ x ∈ l, ∀ xs, x = .many xs → 2 ≤ p → p ≤ xs.length) :
    ∃ argss : List (List (Elem α)), argss.map (binds p nil) = l.map (bound p nil) ∧
      ∀ (σ ε β : Type) (f : Ask σ ε (List (Elem α)) (Elem β)) (s : σ) (ys : List (Elem β)) (s' : σ), Asks f argss s ys s' →
        flatMap p f l [] s = (.ok (ys.flatMap Elem.flat), s') := by
  have one : ∀ (x : Elem α) args, (∀ xs, x = .many xs → 2 ≤ p → p ≤ xs.length) → flatArgs p x = some args → binds p nil args = bound p nil x := by
    intro x args hx e
    unfold flatArgs at e
    split at e
    · rename_i h0; cases e; subst h0; simp [binds, bound]
    · split at e
      · rename_i h1; cases e; subst h1
        cases x <;> simp [binds, bound]
      · have h2 : 2 ≤ p := by omega
        split at e
        · rename_i xs
          have := hx xs rfl h2
          rw [if_pos this] at e
          cases e
          simp only [binds, bound, if_pos h2]
          rw [List.take_append_of_le_length (by simp; omega), List.take_append_of_le_length (by simp; omega)]
          rw [List.map_take, List.take_take, Nat.min_self]
        · cases e; simp [binds, bound]
  have loop : ∀ (σ ε β : Type) (f : Ask σ ε (List (Elem α)) (Elem β)) (s' : σ) (l : List (Elem α)) (argss : List (List (Elem α))) (s : σ)
      (ys : List (Elem β)) (acc : List β), l.map (flatArgs p) = argss.map some →
      Asks f argss s ys s' → flatMap p f l acc s = (.ok (acc ++ ys.flatMap Elem.flat), s') := by
    intro σ ε β f s' l
    induction l with
    | nil =>
      intro argss s ys acc ha h
      cases argss with
      | nil => cases h; simp [flatMap]
      | cons a as => cases ha
    | cons x l ih =>
      intro argss s ys acc ha h
      cases argss with
      | nil => cases ha
      | cons a as =>
        simp only [List.map_cons, List.cons.injEq] at ha
        cases h with
        | cons e1 e2 =>
          rename_i y ys t
          simp only [flatMap, ha.1, e1]
          cases y with
          | one b => simp only; rw [ih as t ys _ ha.2 e2]; simp [Elem.flat]
          | many bs => simp only; rw [ih as t ys _ ha.2 e2]; simp [Elem.flat]
  have args : ∃ argss : List (List (Elem α)), l.map (flatArgs p) = argss.map some ∧ argss.map (binds p nil) = l.map (bound p nil) := by
    clear loop
    induction l with
    | nil => exact ⟨[], rfl, rfl⟩
    | cons x l ih =>
      obtain ⟨as, h1, h2⟩ := ih (fun y hy => hl y (by simp [hy]))
      have hx := hl x (by simp)
      have : ∃ a, flatArgs p x = some a := by
        unfold flatArgs
        split
        · exact ⟨_, rfl⟩
        · split
          · exact ⟨_, rfl⟩
          · split
            · rename_i xs; rw [if_pos (hx xs rfl (by omega))]; exact ⟨_, rfl⟩
            · exact ⟨_, rfl⟩
      obtain ⟨a, ha⟩ := this
      exact ⟨a :: as, by simp [ha, h1], by simp [h2, one x a hx ha]⟩
  obtain ⟨argss, ha, hb⟩ := args
  exact ⟨argss, hb, fun σ ε β f s ys s' h => by simpa using loop σ ε β f s' l argss s ys [] ha h⟩

theorem keep_uniq {f : Ask σ ε α κ} {eqv : κ → κ → Bool} (trans : ∀ x y z, eqv x y = true → eqv y z = true → eqv x z = true)
    {l : List α} {s : σ} {ks : List κ} {s' : σ} (h : Asks f l s ks s') :
    ∀ (seen : List κ) (before : List (α × κ)), (∀ k, seen.any (eqv · k) = before.any fun p => eqv p.2 k) →
    ∃ seen', keepSpec (uniqStep f eqv) l (s, seen) =
      (.ok ((firstOccurrences (fun p q => eqv p.2 q.2) before (l.zip ks)).map (·.1)), (s', seen')) := by
  induction h with
  | nil => intro seen before _; exact ⟨seen, rfl⟩
  | @cons x xs s k ks t s'' e _ ih =>
    intro seen before hs
    simp only [List.zip_cons_cons, firstOccurrences, keepSpec, uniqStep, e]
    by_cases hb : seen.any (eqv · k) = true
    · obtain ⟨seen', h'⟩ := ih seen (before ++ [(x, k)]) (fun z => by
        rw [hs z, List.any_append]
        simp only [List.any_cons, List.any_nil, Bool.or_false]
        cases hkz : eqv k z with
        | false => simp
        | true =>
          rw [hs k] at hb
          obtain ⟨y, hy, hyk⟩ := List.any_eq_true.1 hb
          simp only [Bool.or_true]
          exact List.any_eq_true.2 ⟨y, hy, trans _ _ _ hyk hkz⟩)
      refine ⟨seen', ?_⟩
      rw [hs k] at hb
      simp only [hs k, hb, if_true, h', Bool.false_eq_true, if_false]
    · obtain ⟨seen', h'⟩ := ih (seen ++ [k]) (before ++ [(x, k)]) (fun z => by
        rw [List.any_append, List.any_append, hs z]; simp)
      refine ⟨seen', ?_⟩
      have hb' := eq_false_of_ne_true hb
      rw [hs k] at hb'
      simp only [hs k, hb', if_true, h', Bool.false_eq_true, if_false, List.map_cons]

/-- `uniq!` with a block calls it once per element and in order, keeps the elements whose answer is equal to none before, and
says whether it has removed something (it is `nil` otherwise).  Partial: if the block does not raise. -/
theorem C100_uniq_bang_partial {f : Ask σ ε α κ} {eqv : κ → κ → Bool} (trans : ∀ x y z, eqv x y = true → eqv y z = true → eqv x z = true)
    {l : List α} {s : σ} {ks : List κ} {s' : σ} (h : Asks f l s ks s') :
    ∃ kept, kept = (firstOccurrences (fun p q => eqv p.2 q.2) [] (l.zip ks)).map (·.1) ∧
      uniqBang f eqv l s = (kept, .ok (decide (kept.length ≠ l.length)), s') := by
  obtain ⟨seen', e⟩ := keep_uniq trans h [] [] (by simp)
  have hr := C24_retain (uniqStep f eqv) l (s, [])
  rw [e] at hr
  exact ⟨_, rfl, by simp only [uniqBang]; rw [hr]⟩

/-! ## C100: where the code differs -/

/-- `grep` takes an exception of `===` for "does not match" and goes on. -/
theorem C100_grep_fails : grep (σ := List Nat) (ε := String) (fun x s => if x = 2 then (.error "no", s ++ [x]) else (.ok true, s ++ [x])) [1, 2, 3] [] =
    ([1, 3], [1, 2, 3]) := by decide

/-- `min` goes by the floats nearest to the integers: `[2**53 + 1, 2**53].min` is the greater one. -/
theorem C100_min_fails (lt : Value.Word → Value.Word → Bool) (irrefl : ∀ k, lt k k = false) :
    min (fun n : Int => some (Eq.asF64 n)) lt [2 ^ 53 + 1, 2 ^ 53] = some (some (2 ^ 53 + 1)) := by
  have h : Eq.asF64 (2 ^ 53 + 1) = Eq.asF64 (2 ^ 53) := by decide +kernel
  simp only [min, minLoop, h, irrefl, Bool.false_eq_true, if_false, Option.map]

/-- `[[1]].flat_map { |a, b| … }` stops the interpreter. -/
theorem C100_flat_map_fails (f : Ask σ ε (List (Elem Nat)) (Elem β)) (s : σ) : flatMap 2 f [.many [1]] [] s = (.panic, s) := rfl

/-- `[[1, 2, 3]].flat_map { |a, b, *c| c }` is empty: the elements beyond the required parameters are not passed. -/
theorem C100_flat_map_rest_fails :
    (flatMap (σ := Unit) (ε := Unit) 2 (fun args s => (.ok (.many (args.drop 2)), s)) [Elem.many [1, 2, 3]] [] ()).1 = .ok [] ∧
    (Elem.many [1, 2, 3]) ≠ .many [] := by decide

/-- If the block of `uniq!` raises, the array is left in another order. -/
theorem C100_uniq_bang_fails :
    (uniqBang (σ := Unit) (ε := String) (fun x s => if x = 9 then (.error "no", s) else (.ok x, s)) (· == ·) [1, 1, 2, 9] ()).1 = [1, 2, 1, 9] := by
  decide

/-! ## Examples -/

/-- The elements up to the value, counting the calls. -/
def below (n : Nat) : Ask Nat String Nat Bool := fun x s => if x = 0 then (.error "zero", s + 1) else (.ok (decide (x < n)), s + 1)

theorem asks_below : Asks (below 3) [1, 5, 2] 0 [true, false, true] 3 := .cons rfl (.cons rfl (.cons rfl .nil))

example : grep (below 3) [1, 5, 2] 0 = ([1, 2], 3) := C100_grep_partial asks_below
example : Stops (below 3) false [5, 6, 1, 0] 0 (.ok true) 3 :=
  ⟨[5, 6], 1, [0], 2, rfl, .cons rfl (.cons rfl .nil), rfl⟩
example : any (below 3) [5, 6, 1, 0] 0 = (.ok true, 3) := (C100_any _ _ _ _).1.2 ⟨[5, 6], 1, [0], 2, rfl, .cons rfl (.cons rfl .nil), rfl⟩
example : all (below 3) [1, 0, 5] 0 = (.error "zero", 2) := ((C100_all _ _ _ _).2.1 _).2 ⟨[1], 0, [5], 1, rfl, .cons rfl .nil, rfl⟩
example : count (below 3) [1, 5, 2] 0 = (.ok 2, 3) := countLoop_asks asks_below 0
example : findIndex (· == 2) [1, 2, 3, 2] = some 1 := ((C100_find_index _ _).1 1).2 ⟨2, rfl, rfl, fun j y hj hy => by
  obtain rfl : j = 0 := by omega
  simp only [List.getElem?_cons_zero, Option.some.injEq] at hy
  subst hy; rfl⟩
example : delete (· == 2) [1, 2, 3, 2] = (some 2, [1, 3]) := C100_delete _ _
/-- Pairs that are ordered by their first part: the first of the greatest. -/
example : ∃ r s', max (σ := Unit) (ε := Unit) (fun (a b : Nat × Nat) s => (.ok (decide (a.1 > b.1)), s)) [(1, 0), (3, 1), (2, 2), (3, 3)] () = (.ok r, s') ∧ r = some (3, 1) ∧
    ((r = none ↔ [(1, 0), (3, 1), (2, 2), (3, 3)] = ([] : List (Nat × Nat)))) := by
  obtain ⟨r, s', h, h1, _⟩ := C100_max (le := fun (a b : Nat × Nat) => a.1 ≤ b.1) (fun a b => Nat.le_total _ _) (fun a b c => Nat.le_trans)
    (gt := fun (a b : Nat × Nat) (s : Unit) => ((.ok (decide (a.1 > b.1)) : Except Unit Bool), s))
    (fun a b s => ⟨_, _, rfl, by simp⟩) [(1, 0), (3, 1), (2, 2), (3, 3)] ()
  refine ⟨r, s', h, ?_, h1⟩
  have h2 : max (σ := Unit) (ε := Unit) (fun (a b : Nat × Nat) s => (.ok (decide (a.1 > b.1)), s)) [(1, 0), (3, 1), (2, 2), (3, 3)] () =
      (.ok (some (3, 1)), ()) := rfl
  rw [h2] at h
  cases h; rfl
example : min (fun n : Nat => some n) (fun a b => decide (a < b)) [3, 1, 2] = some (some 1) := by decide
example : ∃ r, min (fun n : Nat => some n) (fun a b => decide (a < b)) [3, 1, 2] = some r ∧ (r = none ↔ [3, 1, 2] = ([] : List Nat)) := by
  obtain ⟨r, h, h1, _⟩ := C100_min_partial (key := fun n : Nat => some n) (lt := fun a b => decide (a < b)) (le := (· ≤ ·)) (l := [3, 1, 2]) Nat.le_total (fun _ _ _ => Nat.le_trans)
    (fun a _ => ⟨a, rfl⟩) (fun a _ b _ ka kb ha hb => by cases ha; cases hb; simp)
  exact ⟨r, h, h1⟩
/-- A block that shortens the array: it is called for what is there. -/
example : Goes (σ := List Nat) (ε := Unit) id (fun _ _ s => (.ok (), s.dropLast)) 0 [7, 8, 9] [(0, 7), (1, 8)] none [7] :=
  .next rfl rfl (.next rfl rfl (.done (by decide)))
example : indexed (σ := List Nat) (ε := Unit) id (fun _ _ s => ((.ok () : Except Unit Unit), s.dropLast)) 3 0 [7, 8, 9] = some (none, [7]) :=
  C100_indexed_ends (.next rfl rfl (.next rfl rfl (.done (by decide)))) (by decide)
example : (flatMap (σ := Unit) (ε := Unit) 2 (fun args s => (.ok (match args with | [.one a, .one b] => .many [a + b, a] | _ => .one 0), s))
    [.many [1, 2], .many [3, 4, 5], .one 6] [] ()) = (.ok [3, 1, 7, 3, 0], ()) := by decide
example : ∀ x ∈ [Elem.many [1, 2], .many [3, 4, 5], .one 6], ∀ xs, x = .many xs → 2 ≤ 2 → 2 ≤ xs.length := by
  intro x hx xs he _
  simp only [List.mem_cons, List.not_mem_nil, or_false] at hx
  rcases hx with rfl | rfl | rfl <;> cases he <;> decide
example : (uniqBang (σ := Nat) (ε := String) (fun x s => (.ok (x % 3), s + 1)) (· == ·) [1, 4, 2, 5, 3] 0) = ([1, 2, 3], .ok true, 5) := by
  obtain ⟨kept, rfl, h⟩ := C100_uniq_bang_partial (f := fun x s => ((.ok (x % 3), s + 1) : Except String Nat × Nat)) (eqv := (· == ·)) (l := [1, 4, 2, 5, 3]) (s := 0)
    (by intro x y z h1 h2; simp only [beq_iff_eq] at *; rw [h1, h2]) (.cons rfl (.cons rfl (.cons rfl (.cons rfl (.cons rfl .nil)))))
  exact h

end Verif.Arr.Search
