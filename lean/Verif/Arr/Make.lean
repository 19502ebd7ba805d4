/-!
# C123: making arrays

`Array.new`, `Array.[]`, `Array.allocate`, `Array#to_a` and `Kernel#Array`.
-/
namespace Verif.Arr.Make

/-! ## Model -/

/-- Values, as far as they matter here.  `float t`: a float for which `f.trunc() as i64` is `t`.  `obj` is any object that is not an array,
and any symbol or truth value. -/
inductive V | nil | int (i : Int) | float (t : Int) | arr (ref : Nat) | obj (ref : Nat)
  deriving DecidableEq, Repr

/-- An array in memory: its class (0 is `Array`, others are subclasses) and its elements. -/
structure Cell where
  cls : Nat
  elems : List V
  deriving DecidableEq, Repr

/-- Arrays in memory; a reference is a position. -/
abbrev Heap := List Cell

inductive Err | argument | type | panic
  deriving DecidableEq, Repr

/-- ruruby/src/value/value.rs:1099-1101 (array_from_with_class): a new array; where arrays go when memory is collected is left to C24. -/
def array_from_with_class (h : Heap) (elems : List V) (cls : Nat) : V × Heap := (.arr h.length, h ++ [⟨cls, elems⟩])

/-- ruruby/src/value/value.rs:565-571 (coerce_to_fixnum) -/
def coerce_to_fixnum : V → Except Err Int
  | .int i => .ok i
  | .float t => .ok t
  | _ => .error .type

/-- `vec![v; num as usize]` in ruruby/src/builtin/array.rs:104,118: Rust panics ("capacity overflow") if the bytes do not fit `isize`.
That memory may run out before is not modelled. -/
def vec_of (v : V) (num : Int) : Except Err (List V) :=
  if num * 8 > 2 ^ 63 - 1 then .error .panic else .ok (List.replicate num.toNat v)

/-- ruruby/src/builtin/array.rs:96-119: the elements of the new array -/
def elements (h : Heap) : List V → Except Err (List V)
  | [] => .ok []
  | [.int num] => if num < 0 then .error .argument else vec_of .nil num
  | [.arr r] => match h[r]? with
    | some c => .ok c.elems
    | none => .error .panic
  | [_] => .error .type
  | [n, v] =>
    match coerce_to_fixnum n with
    | .error e => .error e
    | .ok num => if num < 0 then .error .argument else vec_of v num
  | _ => .error .argument

/-- ruruby/src/builtin/array.rs:93-123 (array_new), for a class without an `initialize` of its own: the one of Object does nothing
(ruruby/src/builtin/object.rs:40-42).  The block is passed on to that, and otherwise not looked at. -/
def array_new (h : Heap) (cls : Nat) (args : List V) (_block : Option (Nat → V)) : Except Err (V × Heap) :=
  match elements h args with
  | .error e => .error e
  | .ok l => .ok (array_from_with_class h l cls)

/-- ruruby/src/builtin/array.rs:125-129 (array_allocate) -/
def array_allocate (h : Heap) (cls : Nat) (args : List V) : Except Err (V × Heap) :=
  if args.length = 0 then .ok (array_from_with_class h [] cls) else .error .argument

/-- ruruby/src/builtin/array.rs:131-134 (array_elem) -/
def array_elem (h : Heap) (cls : Nat) (args : List V) : V × Heap := array_from_with_class h args cls

/-- ruruby/src/builtin/array.rs:160-168 (toa), ruruby/src/value/rvalue.rs:560-571 (shallow_dup); instance variables are left out. -/
def array_toa (h : Heap) (r : Nat) : Except Err (V × Heap) :=
  match h[r]? with
  | none => .error .panic
  | some c => if c.cls = 0 then .ok (.arr r, h) else .ok (array_from_with_class h c.elems 0)

/-- What methods `to_a` and `to_ary` do, where they are defined, apart from those of arrays and nil. -/
structure Methods where
  to_a : V → Option (Heap → Except Err (V × Heap))
  to_ary : V → Option (Heap → Except Err (V × Heap))

/-- `to_a`: ruruby/src/builtin/array.rs:10, ruruby/src/builtin/nilclass.rs:12,59-62, and those defined elsewhere -/
def find_to_a (M : Methods) : V → Option (Heap → Except Err (V × Heap))
  | .arr r => some (fun h => array_toa h r)
  | .nil => some (fun h => .ok (array_from_with_class h [] 0))
  | v => M.to_a v

/-- ruruby/src/builtin/kernel.rs:372-396 (kernel_array) -/
def kernel_array (M : Methods) (h : Heap) (arg : V) : Except Err (V × Heap) :=
  match find_to_a M arg with
  | some m => m h
  | none =>
    match M.to_ary arg with
    | some m => m h
    | none => .ok (array_from_with_class h [arg] 0)

/-! ## Specification -/

/-- `v` is an array of the class `cls` with the elements `l`, that was not there in `h`; all arrays of `h` are as they were in `h'`. -/
def Fresh (h h' : Heap) (v : V) (cls : Nat) (l : List V) : Prop :=
  ∃ r : Nat, v = .arr r ∧ h[r]? = none ∧ h'[r]? = some ⟨cls, l⟩ ∧ ∀ (i : Nat) (c : Cell), h[i]? = some c → h'[i]? = some c

/-- The elements that Ruby gives to `Array.new(args)` with or without a block. -/
inductive Elements (h : Heap) : List V → Option (Nat → V) → List V → Prop
  | empty : Elements h [] none []
  | nils {n : Nat} : Elements h [.int n] none (List.replicate n .nil)
  | copies {n : Nat} {v} : Elements h [.int n, v] none (List.replicate n v)
  | trunc {n : Nat} {v} : Elements h [.float n, v] none (List.replicate n v)
  | trunc_nils {n : Nat} : Elements h [.float n] none (List.replicate n .nil)
  | copy {r c} : h[r]? = some c → Elements h [.arr r] none c.elems
  | block {n : Nat} {f} : Elements h [.int n] (some f) ((List.range n).map f)

/-! ## Helpers -/

theorem fresh (h : Heap) (l : List V) (cls : Nat) :
    Fresh h (array_from_with_class h l cls).2 (array_from_with_class h l cls).1 cls l := by
  refine ⟨h.length, rfl, by simp, by simp [array_from_with_class], ?_⟩
  intro i c hi
  have : i < h.length := by
    rcases Nat.lt_or_ge i h.length with q | q
    · exact q
    · rw [List.getElem?_eq_none q] at hi; cases hi
  simp [array_from_with_class, List.getElem?_append_left this, hi]

theorem vec_of_small {v : V} {n : Nat} (h : n < 2 ^ 60) : vec_of v n = .ok (List.replicate n v) := by
  unfold vec_of
  rw [if_neg (by omega)]
  simp

/-! ## C123 -/

/-- `Array.new` without a block gives a new array with the elements that Ruby gives it, and changes no other array.
Missing: a block (`C123_block_fails`), a float alone (`C123_float_fails`), sizes beyond the memory there is (`C123_size_fails`). -/
theorem C123_new_partial {h : Heap} {cls : Nat} {args l : List V} (he : Elements h args none l)
    (hs : ∀ n : Nat, args.head? = some (.int n) ∨ args.head? = some (.float n) → n < 2 ^ 60) (hf : ∀ t, args ≠ [.float t]) :
    ∃ v h', array_new h cls args none = .ok (v, h') ∧ Fresh h h' v cls l := by
  have key : elements h args = .ok l := by
    cases he with
    | empty => rfl
    | @nils n =>
      have : n < 2 ^ 60 := hs n (.inl rfl)
      simp only [elements]
      rw [if_neg (by omega), vec_of_small this]
    | @copies n v =>
      have : n < 2 ^ 60 := hs n (.inl rfl)
      simp only [elements, coerce_to_fixnum]
      rw [if_neg (by omega), vec_of_small this]
    | @trunc n v =>
      have : n < 2 ^ 60 := hs n (.inr rfl)
      simp only [elements, coerce_to_fixnum]
      rw [if_neg (by omega), vec_of_small this]
    | trunc_nils => exact absurd rfl (hf _)
    | copy hc => simp only [elements, hc]
  refine ⟨_, _, ?_, fresh h l cls⟩
  simp only [array_new, key]

/-- A negative size, and what is neither a size nor an array, is an error, and so are more than two arguments. -/
theorem C123_new_error (h : Heap) (cls : Nat) (b : Option (Nat → V)) (args : List V) :
    (∀ i v, i < 0 → args = [.int i] ∨ args = [.int i, v] → array_new h cls args b = .error .argument) ∧
    (∀ v, v = .nil ∨ (∃ r, v = .obj r) → args = [v] ∨ (∃ w, args = [v, w]) → array_new h cls args b = .error .type) ∧
    (∀ r w, args = [.arr r, w] → array_new h cls args b = .error .type) ∧
    (2 < args.length → array_new h cls args b = .error .argument) := by
  refine ⟨?_, ?_, ?_, ?_⟩
  · rintro i v hi (rfl | rfl) <;> simp [array_new, elements, coerce_to_fixnum, hi]
  · rintro v (rfl | ⟨r, rfl⟩) (rfl | ⟨w, rfl⟩) <;> rfl
  · rintro r w rfl; rfl
  · intro hl
    match args, hl with
    | a :: c :: d :: l, _ => simp [array_new, elements]

/-- `Array[…]` holds its arguments, and `Array.allocate` nothing; both are new. -/
theorem C123_elem (h : Heap) (cls : Nat) (args : List V) :
    Fresh h (array_elem h cls args).2 (array_elem h cls args).1 cls args ∧
    ∃ v h', array_allocate h cls [] = .ok (v, h') ∧ Fresh h h' v cls [] :=
  ⟨fresh h args cls, _, _, rfl, fresh h [] cls⟩

/-- `Array(x)` is an array itself, nothing for nil, what the one of `to_ary` and `to_a` that there is gives, and otherwise an array of `x`.
Missing: objects with both (`C123_order_fails`), arrays of subclasses (`C123_subclass_fails`), results that are no arrays
(`C123_result_fails`). -/
theorem C123_Array_partial (M : Methods) (h : Heap) :
    (∀ r c, h[r]? = some c → c.cls = 0 → kernel_array M h (.arr r) = .ok (.arr r, h)) ∧
    (∃ v h', kernel_array M h .nil = .ok (v, h') ∧ Fresh h h' v 0 []) ∧
    ∀ x, x ≠ .nil → (∀ r, x ≠ .arr r) →
      (∀ m, M.to_ary x = some m → M.to_a x = none → kernel_array M h x = m h) ∧
      (∀ m, M.to_ary x = none → M.to_a x = some m → kernel_array M h x = m h) ∧
      (M.to_ary x = none → M.to_a x = none → ∃ v h', kernel_array M h x = .ok (v, h') ∧ Fresh h h' v 0 [x]) := by
  refine ⟨?_, ⟨_, _, rfl, fresh h [] 0⟩, ?_⟩
  · intro r c hr hc
    simp [kernel_array, find_to_a, array_toa, hr, hc]
  · intro x h1 h2
    have hf : find_to_a M x = M.to_a x := by
      cases x with
      | nil => exact absurd rfl h1
      | arr r => exact absurd rfl (h2 r)
      | _ => rfl
    refine ⟨?_, ?_, ?_⟩
    · intro m e1 e2; simp [kernel_array, hf, e1, e2]
    · intro m e1 e2; simp [kernel_array, hf, e2]
    · intro e1 e2
      exact ⟨_, _, by simp only [kernel_array, hf, e1, e2], fresh h [x] 0⟩

/-- A block that gives the elements is not called: `Array.new(n) { … }` holds nils. -/
theorem C123_block_fails {n : Nat} (hn : 0 < n) (hs : n < 2 ^ 60) (h : Heap) (f : Nat → V) (hf : f 0 ≠ .nil) :
    ∃ v h' l, array_new h 0 [.int n] (some f) = .ok (v, h') ∧ Fresh h h' v 0 l ∧ ¬ Elements h [.int n] (some f) l := by
  refine ⟨_, _, List.replicate n .nil, ?_, fresh h _ 0, ?_⟩
  · simp only [array_new, elements]
    rw [if_neg (by omega), vec_of_small hs]
  · intro e
    generalize hl : List.replicate n V.nil = l at e
    generalize ha : [V.int n] = a at e
    cases e with
    | @block m f =>
      simp only [List.cons.injEq, V.int.injEq, and_true] at ha
      obtain rfl : n = m := by omega
      have := congrArg (fun l => l[0]?) hl
      simp [hn] at this
      exact hf this.symm

/-- `Array.new(2.0)` is a TypeError, although `Array.new(2.0, nil)` is not; in Ruby both make two nils. -/
theorem C123_float_fails (h : Heap) (cls : Nat) (t : Int) : array_new h cls [.float t] none = .error .type := rfl

/-- A size that the address space cannot hold is a panic, not an error of the program. -/
theorem C123_size_fails {n : Int} (hn : 2 ^ 60 ≤ n) (h : Heap) (cls : Nat) (v : V) (b : Option (Nat → V)) :
    array_new h cls [.int n] b = .error .panic ∧ array_new h cls [.int n, v] b = .error .panic := by
  have : ∀ w, vec_of w n = .error .panic := by
    intro w
    unfold vec_of
    rw [if_pos (by omega)]
  constructor <;>
    (simp only [array_new, elements, coerce_to_fixnum]
     rw [if_neg (by omega), this])

/-- For an object with both methods `Array()` calls `to_a`; Ruby calls `to_ary`. -/
theorem C123_order_fails (M : Methods) (h : Heap) (r : Nat) {m m'} (h1 : M.to_a (.obj r) = some m) (_h2 : M.to_ary (.obj r) = some m') :
    kernel_array M h (.obj r) = m h := by
  simp [kernel_array, find_to_a, h1]

/-- For an array of a subclass of Array, `Array()` makes a new array; in Ruby it gives that array itself. -/
theorem C123_subclass_fails (M : Methods) (h : Heap) {r : Nat} {c : Cell} (hr : h[r]? = some c) (hc : c.cls ≠ 0) :
    ∃ v h', kernel_array M h (.arr r) = .ok (v, h') ∧ v ≠ .arr r ∧ Fresh h h' v 0 c.elems := by
  refine ⟨_, _, by simp only [kernel_array, find_to_a, array_toa, hr, if_neg hc], ?_, fresh h c.elems 0⟩
  intro e
  obtain ⟨q, hq, hn, _⟩ := fresh h c.elems 0
  rw [e] at hq
  cases hq
  rw [hr] at hn
  cases hn

/-- What `to_a` gives is not looked at: `Array()` gives a number, if `to_a` does.  Ruby raises a TypeError. -/
theorem C123_result_fails (h : Heap) : ∃ (M : Methods) (x : V), kernel_array M h x = .ok (.int 1, h) :=
  ⟨⟨fun _ => some (fun h => .ok (.int 1, h)), fun _ => none⟩, .obj 0, rfl⟩

/-! ## Instances -/

example : array_new [⟨0, [.int 1]⟩] 0 [.int 2, .arr 0] none = .ok (.arr 1, [⟨0, [.int 1]⟩, ⟨0, [.arr 0, .arr 0]⟩]) := rfl

example : Elements [⟨5, [.int 1, .nil]⟩] [.arr 0] none [.int 1, .nil] := .copy (c := ⟨5, [.int 1, .nil]⟩) rfl

example : (2 : Int) ^ 60 ≤ 2 ^ 62 - 1 := by decide

end Verif.Arr.Make
