import Verif.Arr.Mutate
import Verif.Hash.MapProps
/-! # C91: iterating over a hash; keys that change

The entries of an `IndexMap` are in a vector of their own (value/hash.rs:9-11); a loop over `hash.iter()` keeps a slice of it
while the block runs.  Stores, blocks and the meaning of an iteration (`Visits`) are those of `Arr/Mutate.lean`. -/
namespace Verif.Hash
open Verif.Arr.Mutate (Store Res Block Visits now answer sliceLoop slice Res.map)

variable {K V σ ε β : Type}

/-! ## Model -/

/-- `IndexMap::insert` (value/hash.rs:251-256): the value of an entry with this key is replaced in its place, else a new entry is
pushed; `fresh`: the new memory, if it is needed. -/
def storeInsert (eq : K → K → Bool) (fresh : Nat) (a : Store (K × V)) (k : K) (v : V) : Store (K × V) :=
  match indexOf eq a.elems k with
  | some i => { a with cells := (a.cells.take a.len).modify i (fun e => (e.1, v)) ++ a.cells.drop a.len }
  | none => a.push fresh (k, v)

/-- `IndexMap::remove` (value/hash.rs:258-263): the last entry is moved into the place of the removed one; the cell it was in
keeps what it held. -/
def storeRemove (eq : K → K → Bool) (a : Store (K × V)) (k : K) : Store (K × V) :=
  match indexOf eq a.elems k with
  | some i => { a with cells := (match a.elems.getLast? with
      | some z => a.cells.set i z
      | none => a.cells), len := a.len - 1 }
  | none => a

/-- `Hash#each`, `each_pair` (builtin/hash.rs:206-215). -/
def each (map : σ → Store (K × V)) (f : Block σ ε (K × V) β) (s : σ) : Res ε Unit × σ :=
  let r := slice map f (fun _ => false) (fun _ => false) s
  (r.1.map fun _ => (), r.2)

/-- `Hash#each_key` (builtin/hash.rs:191-202). -/
def each_key (map : σ → Store (K × V)) (f : Block σ ε K β) (s : σ) : Res ε Unit × σ := each map (fun e s => f e.1 s) s

/-- `Hash#each_value` (builtin/hash.rs:178-189). -/
def each_value (map : σ → Store (K × V)) (f : Block σ ε V β) (s : σ) : Res ε Unit × σ := each map (fun e s => f e.2 s) s

/-- `Hash#select` and `reject` (builtin/hash.rs:112-139); `keep` is `true` for `select`.  The key and the value that were given
to the block are inserted into the result. -/
def filter (eq : K → K → Bool) (keep : Bool) (map : σ → Store (K × V)) (f : Block σ ε (K × V) Bool) (s : σ) :
    Res ε (List (K × V)) × σ :=
  let r := slice map f (fun _ => false) (fun _ => false) s
  (r.1.map fun l => l.foldl (fun res e => if e.2 = keep then insert eq res e.1.1 e.1.2 else res) [], r.2)

/-- `Hash#has_value?` (builtin/hash.rs:148-157); the block is `==` of the argument, which may be a method of the program. -/
def has_value (map : σ → Store (K × V)) (eqv : Block σ ε V Bool) (s : σ) : Res ε Bool × σ :=
  let r := slice map (fun e s => eqv e.2 s) id (fun _ => false) s
  (r.1.map fun l => l.any (·.2), r.2)

/-! ## Helpers -/

/-- The block, called with an entry of the hash, neither moves the entries nor changes their number. -/
def Stays (map : σ → Store (K × V)) (f : Block σ ε (K × V) β) : Prop :=
  ∀ e s, e ∈ now map s → (map (f e s).2).place = (map s).place ∧ (map (f e s).2).len = (map s).len

theorem sliceLoop_stays {map : σ → Store (K × V)} (hw : ∀ s, (map s).WF) {f : Block σ ε (K × V) β} {stop : β → Bool}
    (hk : Stays map f) :
    ∀ {r i acc s}, (map s).len = i + r → ∃ l e s', Visits (now map) f stop i s l e s' ∧
      sliceLoop map f stop (fun _ => false) (map s).place r i acc s = (answer (acc ++ l) e, s')
  | 0, i, acc, s, h => ⟨[], none, s, .done (by rw [now, Arr.Mutate.elems_length (hw s)]; omega), by simp [sliceLoop, answer]⟩
  | r + 1, i, acc, s, h => by
    obtain ⟨x, _, hx⟩ := Arr.Mutate.index_lt (hw s) (show i < (map s).len by omega)
    rw [sliceLoop, Arr.Mutate.peek_lt (by omega), hx]
    simp only
    have hk' := hk x s (List.mem_of_getElem? hx)
    split
    · rename_i e s1 hf
      exact ⟨[], some e, s1, .raised hx hf, rfl⟩
    · rename_i y s1 hf
      rw [hf] at hk'
      have hl : (map s1).len = (map s).len := hk'.2
      have hp1 : (map s1).place = (map s).place := hk'.1
      simp only [if_neg (show ¬ (false = true) by simp)]
      by_cases hs : stop y = true
      · rw [if_pos hs]
        exact ⟨[(x, y)], none, s1, .stop hx hf hs, rfl⟩
      · rw [if_neg hs]
        obtain ⟨l, e, s', hv, hr⟩ := sliceLoop_stays hw (stop := stop) hk (r := r) (i := i + 1)
          (acc := acc ++ [(x, y)]) (s := s1) (by omega)
        rw [hp1] at hr
        exact ⟨(x, y) :: l, e, s', .next hx hf (by simpa using hs) hv, by rw [hr]; simp⟩

theorem indexOf_none {eq : K → K → Bool} : ∀ {m : List (K × V)} {k : K}, indexOf eq m k = none ↔ ∀ e ∈ m, eq e.1 k = false
  | [], k => by simp [indexOf]
  | (k', v) :: m, k => by
    rw [indexOf]
    split
    · rename_i h; simp [h]
    · rename_i h
      rw [Option.map_eq_none_iff, indexOf_none]
      simp [h]

theorem insert_modify {eq : K → K → Bool} {v : V} : ∀ {m : List (K × V)} {k : K} {i : Nat}, indexOf eq m k = some i →
    insert eq m k v = m.modify i (fun e => (e.1, v))
  | (k', w) :: m, k, i, h => by
    rw [indexOf] at h
    rw [insert]
    split at h
    · rename_i hk; cases h; simp [hk]
    · rename_i hk
      obtain ⟨j, hj, rfl⟩ := Option.map_eq_some_iff.1 h
      rw [if_neg hk, insert_modify hj]; simp

/-! ## C91 -/

/-- `each` (so `each_key`, `each_value`): the block gets the entries in their order, each as it is when its turn comes, up to an
exception; for every block that neither adds nor removes entries.  Blocks may assign to keys that are there
(`C91_assign`). -/
theorem C91_each_partial {map : σ → Store (K × V)} (hw : ∀ s, (map s).WF) (f : Block σ ε (K × V) β) (hk : Stays map f) (s : σ) :
    ∃ l e s', Visits (now map) f (fun _ => false) 0 s l e s' ∧ each map f s = (answer () e, s') := by
  obtain ⟨l, e, s', hv, hr⟩ := sliceLoop_stays hw (stop := fun _ => false) hk (r := (map s).len) (i := 0) (acc := []) (s := s) (by omega)
  refine ⟨l, e, s', hv, ?_⟩
  simp only [each, slice, hr]
  cases e <;> rfl

theorem C91_each_key_value_partial {map : σ → Store (K × V)} (hw : ∀ s, (map s).WF) (fk : Block σ ε K β) (fv : Block σ ε V β)
    (hk : Stays map fun e s => fk e.1 s) (hv : Stays map fun e s => fv e.2 s) (s : σ) :
    (∃ l e s', Visits (now map) (fun x s => fk x.1 s) (fun _ => false) 0 s l e s' ∧ each_key map fk s = (answer () e, s')) ∧
    (∃ l e s', Visits (now map) (fun x s => fv x.2 s) (fun _ => false) 0 s l e s' ∧ each_value map fv s = (answer () e, s')) :=
  ⟨C91_each_partial hw _ hk s, C91_each_partial hw _ hv s⟩

/-- Assigning to a key: if the key is there, the entries are those with the new value in its place, nothing moves and nothing is
added; else the entry comes last. -/
theorem C91_assign {eq : K → K → Bool} {a : Store (K × V)} (hw : a.WF) (fresh : Nat) (k : K) (v : V) :
    (storeInsert eq fresh a k v).elems = insert eq a.elems k v ∧ (storeInsert eq fresh a k v).WF ∧
    (contains_key eq a.elems k = true → (storeInsert eq fresh a k v).place = a.place ∧ (storeInsert eq fresh a k v).len = a.len) := by
  have hw' : a.len ≤ a.cells.length := hw
  unfold storeInsert
  cases hi : indexOf eq a.elems k with
  | some i =>
    have hlen : ((a.cells.take a.len).modify i (fun e => (e.1, v))).length = a.len := by simp; omega
    refine ⟨?_, ?_, fun _ => ⟨rfl, rfl⟩⟩
    · rw [insert_modify hi]
      simp only [Store.elems]
      rw [List.take_append_of_le_length (by rw [hlen]), List.take_of_length_le (by rw [hlen])]
    · show a.len ≤ _
      rw [List.length_append, hlen]; omega
  | none =>
    have hno := indexOf_none.1 hi
    have hcells : (a.cells.take a.len).length = a.len := by simp; omega
    refine ⟨?_, ?_, ?_⟩
    · rw [insert_fresh _ _ _ hno]
      simp only [Store.push]
      split
      · simp only [Store.elems]
        rw [List.take_append, List.take_of_length_le (by omega), hcells]
        simp
      · simp only [Store.elems]
        rw [List.take_of_length_le (by simp)]
    · simp only [Store.push]
      split
      · show a.len + 1 ≤ _
        rw [List.length_append, hcells]; simp
      · show a.len + 1 ≤ _
        rw [List.length_append, show a.elems = a.cells.take a.len from rfl, hcells]; simp
    · intro hc
      obtain ⟨e, he, hek⟩ := List.any_eq_true.1 hc
      rw [hno e he] at hek; cases hek

/-- `select` and `reject`: the entries for which the block gave (did not give) a true value, in their order, as they were given to
the block. -/
theorem C91_filter_partial {eq : K → K → Bool} {map : σ → Store (K × V)} (hw : ∀ s, (map s).WF) (f : Block σ ε (K × V) Bool)
    (hk : Stays map f) (s : σ) (keep : Bool) :
    ∃ l e s', Visits (now map) f (fun _ => false) 0 s l e s' ∧
      ((l.map (·.1)).Pairwise (fun a b => eq a.1 b.1 = false) →
        filter eq keep map f s = (answer ((l.filter (·.2 = keep)).map (·.1)) e, s')) := by
  obtain ⟨l, e, s', hv, hr⟩ := sliceLoop_stays hw (stop := fun _ => false) hk (r := (map s).len) (i := 0) (acc := []) (s := s) (by omega)
  refine ⟨l, e, s', hv, ?_⟩
  intro hd
  have key : ∀ (l : List ((K × V) × Bool)) (acc : List (K × V)), (acc ++ l.map (·.1)).Pairwise (fun a b => eq a.1 b.1 = false) →
      l.foldl (fun res e => if e.2 = keep then insert eq res e.1.1 e.1.2 else res) acc = acc ++ (l.filter (·.2 = keep)).map (·.1) := by
    intro l
    induction l with
    | nil => simp
    | cons x l ih =>
      intro acc h
      rw [List.foldl_cons]
      by_cases hx : x.2 = keep
      · rw [if_pos hx, insert_fresh, ih]
        · simp [List.filter_cons, hx]
        · simpa using h
        · rw [List.pairwise_append] at h
          intro y hy
          exact h.2.2 y hy x.1 (by simp)
      · rw [if_neg hx, ih, List.filter_cons, if_neg (by simpa using hx)]
        rw [List.pairwise_append] at h ⊢
        simp only [List.map_cons, List.pairwise_cons] at h
        exact ⟨h.1, h.2.1.2, fun a ha b hb => h.2.2 a ha b (by simp only [List.map_cons, List.mem_cons]; exact .inr hb)⟩
  simp only [filter, slice, hr, List.nil_append]
  cases e with
  | some e => rfl
  | none => simp only [answer, Res.map]; rw [key l [] (by simpa using hd)]; simp

/-- `has_value?`: whether `==` holds for one of the values, tried in order up to the first. -/
theorem C91_has_value_partial {map : σ → Store (K × V)} (hw : ∀ s, (map s).WF) (eqv : Block σ ε V Bool)
    (hk : Stays map fun e s => eqv e.2 s) (s : σ) :
    ∃ l e s', Visits (now map) (fun x s => eqv x.2 s) id 0 s l e s' ∧ has_value map eqv s = (answer (l.any (·.2)) e, s') := by
  obtain ⟨l, e, s', hv, hr⟩ := sliceLoop_stays hw (stop := id) hk (r := (map s).len) (i := 0) (acc := []) (s := s) (by omega)
  refine ⟨l, e, s', hv, ?_⟩
  simp only [has_value, slice, hr, List.nil_append]
  cases e <;> rfl

/-- Equality of the keys of the examples. -/
def eqN (a b : Nat) : Bool := a == b

/-- Three entries in a vector of this capacity. -/
def three (cap : Nat) : Store (Nat × Nat) := ⟨0, cap, [(1, 10), (2, 20), (3, 30)], 3⟩

/-- A block that assigns to the key it is called with and notes what it saw. -/
def doubling : Block (Store (Nat × Nat) × List (Nat × Nat)) Unit (Nat × Nat) Unit :=
  fun e s => (.ok (), (storeInsert eqN 99 s.1 e.1 (2 * e.2), s.2 ++ [e]))

example : Stays (fun s => s.1) doubling := by
  rintro e ⟨a, l⟩ he
  have he : e ∈ a.elems := he
  have : (storeInsert eqN 99 a e.1 (2 * e.2)).place = a.place ∧ (storeInsert eqN 99 a e.1 (2 * e.2)).len = a.len := by
    unfold storeInsert
    cases hi : indexOf eqN a.elems e.1 with
    | some i => exact ⟨rfl, rfl⟩
    | none => have := indexOf_none.1 hi e he; simp [eqN] at this
  exact this

example : each (fun s => s.1) doubling (three 4, []) =
    (.ok (), (⟨0, 4, [(1, 20), (2, 40), (3, 60)], 3⟩, [(1, 10), (2, 20), (3, 30)])) := rfl

/-- A block that adds a key can make the entries move: `each` then reads freed memory (Ruby raises an exception when the key is
added). -/
theorem C91_add_fails : (each (fun s : Store (Nat × Nat) × List (Nat × Nat) => s.1)
    (fun e s => (.ok (), (storeInsert eqN 99 s.1 (e.1 + 10) 0, s.2 ++ [e])) : Block _ Unit (Nat × Nat) Unit) (three 3, [])).1 = .dangling := by
  decide

/-- A block that removes another key: an entry is visited twice.  `h = {1=>10, 2=>20, 3=>30}; h.each { |k, v| h.delete(2) }` calls
the block with 1, 3 and 3. -/
theorem C91_delete_fails : each (fun s : Store (Nat × Nat) × List (Nat × Nat) => s.1)
    (fun e s => (.ok (), (storeRemove eqN s.1 2, s.2 ++ [e])) : Block _ Unit (Nat × Nat) Unit) (three 4, []) =
    (.ok (), (⟨0, 4, [(1, 10), (3, 30), (3, 30)], 2⟩, [(1, 10), (3, 30), (3, 30)])) := rfl

/-- Keys that are strings are kept by reference (vm/executor/ops.rs:506-509; Ruby takes a copy): for every string `s` and every
text that it is changed to, the entry made with `h[s] = v` cannot be found any more under the text it was made with.  `at_`:
the content of the strings, before and after. -/
theorem C91_string_key_fails {A : Type} (before after : A → List Char) (s t : A) (v : V) (ht : before t = before s)
    (hsame : after t = before t) (hchanged : after s ≠ before s) :
    get (fun a b => decide (before a = before b)) (insert (fun a b => decide (before a = before b)) [] s v) t = some v ∧
    get (fun a b => decide (after a = after b)) (insert (fun a b => decide (before a = before b)) [] s v) t = none := by
  refine ⟨by simp [insert, get, ht], ?_⟩
  have : after s ≠ after t := by rw [hsame, ht]; exact hchanged
  simp [insert, get, this]

end Verif.Hash
