import Verif.Range.Model
import Verif.Range.Spec
import Verif.Arith.Props
import Verif.Value.Props
import Mathlib.Tactic.Ring
/-!
# C46: ranges denote intervals of integers
-/
namespace Verif.Range
open Verif.Value Verif.Arith

theorem mem_span {a b x : Int} : x ∈ span a b ↔ a ≤ x ∧ x < b := by
  unfold span
  rw [List.mem_map]
  constructor
  · rintro ⟨i, hi, rfl⟩
    rw [List.mem_range] at hi
    omega
  · intro h
    exact ⟨(x - a).toNat, by rw [List.mem_range]; omega, by omega⟩

theorem span_sorted (a b : Int) : (span a b).Pairwise (· < ·) := by
  unfold span
  rw [List.pairwise_map]
  exact List.Pairwise.imp (by intro x y h; omega) List.pairwise_lt_range

theorem span_length (a b : Int) : (span a b).length = (b - a).toNat := by simp [span]

/-- a list of integers is determined by what it lists -/
theorem Lists.unique {l l' : List Int} {P : Int → Prop} (h : Lists l P) (h' : Lists l' P) : l = l' := by
  obtain ⟨h1, h2⟩ := h
  obtain ⟨h3, h4⟩ := h'
  have hm : ∀ x, x ∈ l ↔ x ∈ l' := fun x => (h2 x).trans (h4 x).symm
  clear h2 h4
  induction l generalizing l' with
  | nil =>
    cases l' with
    | nil => rfl
    | cons b l' => exact absurd ((hm b).2 (List.mem_cons_self ..)) (by simp)
  | cons a l ih =>
    cases l' with
    | nil => exact absurd ((hm a).1 (List.mem_cons_self ..)) (by simp)
    | cons b l' =>
      rw [List.pairwise_cons] at h1 h3
      have hab : a = b := by
        rcases List.mem_cons.1 ((hm a).1 (List.mem_cons_self ..)) with h | h
        · exact h
        · rcases List.mem_cons.1 ((hm b).2 (List.mem_cons_self ..)) with h' | h'
          · exact h'.symm
          · have := h1.1 b h'; have := h3.1 a h; omega
      subst hab
      congr 1
      refine ih h1.2 h3.2 (fun x => ?_)
      have := hm x
      simp only [List.mem_cons] at this
      constructor
      · intro hx
        rcases this.1 (Or.inr hx) with h | h
        · have := h1.1 x hx; omega
        · exact h
      · intro hx
        rcases this.2 (Or.inr hx) with h | h
        · have := h3.1 x hx; omega
        · exact h

/-- end of the interval as used by the code -/
def hi (b : Int) (exclude : Bool) : Int := if exclude then b else b + 1

theorem span_lists (a b : Int) (exclude : Bool) : Lists (span a (hi b exclude)) (Within a b exclude) := by
  refine ⟨span_sorted _ _, fun x => ?_⟩
  rw [mem_span]
  unfold hi Within
  cases exclude <;> (simp; try omega)

theorem map_integer_span {a b : Int} (ha : -2^63 ≤ a) (hb : b ≤ 2^63) :
    (span a b).map Value.integer = (span a b).map num := by
  apply List.map_congr_left
  intro x hx
  rw [mem_span] at hx
  exact integer_eq_num (by unfold InI64; omega)

theorem fixnum!_num {n : Int} (h : InI63 n) : fixnum! (num n) = .ok n := by
  unfold fixnum!; rw [as_fixnum_num, if_pos h]

theorem coerce_num {m : Int} (h : InI63 m) : coerce_to_fixnum (num m) = .ok m := by
  unfold coerce_to_fixnum; rw [unpack_num, if_pos h]

theorem exactI64_ok {x : Int} (h : InI64 x) : exactI64 x = .ok x := by unfold exactI64; rw [if_pos h]

theorem bounds_num {a b : Int} {excl : Bool} (ha : InI63 a) (hb : InI63 b) :
    bounds ⟨num a, num b, excl⟩ = .ok (a, hi b excl) := by
  unfold bounds hi
  have h1 : InI64 (b + if excl then 0 else 1) := by unfold InI63 at hb; unfold InI64; split <;> omega
  simp only [coerce_num ha, coerce_num hb, bind, Except.bind, exactI64_ok h1]
  cases excl <;> simp

/-- **C46 (`to_a`).**  For bounds of at most 63 bits `(a..b).to_a` lists the integers of the interval in
ascending order, each once. -/
theorem C46_to_a_partial (a b : Int) (excl : Bool) (ha : -2^62 ≤ a ∧ a < 2^62) (hb : -2^62 ≤ b ∧ b < 2^62) :
    ∃ l, to_a ⟨num a, num b, excl⟩ = .ok (l.map num) ∧ Lists l (Within a b excl) := by
  have ha' : InI63 a := ha
  have hb' : InI63 b := hb
  refine ⟨span a (hi b excl), ?_, span_lists a b excl⟩
  rw [← map_integer_span (by omega) (by unfold hi; split <;> omega)]
  unfold to_a hi
  rw [as_fixnum_num, if_pos ha']
  have h1 : InI64 (b + 1) := by unfold InI64; omega
  cases excl <;> simp [coerce_num hb', bind, Except.bind, exactI64_ok h1]

/-- **C46 (`each`).**  The block is run on the integers of the interval in ascending order until it stops
with an exception; the value is the range. -/
theorem C46_each_partial {σ ε : Type} (a b : Int) (excl : Bool) (ha : -2^62 ≤ a ∧ a < 2^62)
    (hb : -2^62 ≤ b ∧ b < 2^62) (f : Blk σ ε) (s : σ) :
    ∃ l, Lists l (Within a b excl) ∧
      each ⟨num a, num b, excl⟩ f s =
        match l.foldlM (fun s i => (f (num i) s).map Prod.snd) s with
        | .ok s' => .ok (⟨num a, num b, excl⟩, s')
        | .error e => .error (.inr e) := by
  refine ⟨span a (hi b excl), span_lists a b excl, ?_⟩
  unfold each
  rw [bounds_num ha hb]
  simp only [lift, bind, Except.bind]
  rw [map_integer_span (by omega) (by unfold hi; split <;> omega)]
  generalize span a (hi b excl) = l
  have key : ∀ s, eachIter f (l.map num) s = l.foldlM (fun s i => (f (num i) s).map Prod.snd) s := by
    induction l with
    | nil => intro s; rfl
    | cons i l ih =>
      intro s
      simp only [List.map_cons, eachIter, List.foldlM_cons, bind, Except.bind]
      cases hf : f (num i) s with
      | error e => rfl
      | ok x => simp only [Except.map]; exact ih x.2
  rw [key]
  cases l.foldlM (fun s i => (f (num i) s).map Prod.snd) s <;> rfl

/-- the values and states of running the block on a list of integers -/
def runAll {σ ε : Type} (f : Blk σ ε) : List Int → σ → Except ε (List Val × σ)
  | [], s => .ok ([], s)
  | i :: l, s =>
    match f (num i) s with
    | .error e => .error e
    | .ok (w, s) =>
      match runAll f l s with
      | .error e => .error e
      | .ok (ws, s) => .ok (w :: ws, s)

theorem mapIter_eq {σ ε : Type} (f : Blk σ ε) (l : List Int) (s : σ) :
    mapIter f (l.map num) s = runAll f l s := by
  induction l generalizing s with
  | nil => rfl
  | cons i l ih =>
    simp only [List.map_cons, mapIter, runAll, bind, Except.bind]
    cases f (num i) s with
    | error e => rfl
    | ok x =>
      dsimp only
      rw [ih]
      cases runAll f l x.2 <;> rfl

/-- **C46 (`map`).**  The values of the block on the integers of the interval, in ascending order. -/
theorem C46_map_partial {σ ε : Type} (a b : Int) (excl : Bool) (ha : -2^62 ≤ a ∧ a < 2^62)
    (hb : -2^62 ≤ b ∧ b < 2^62) (f : Blk σ ε) (s : σ) :
    ∃ l, Lists l (Within a b excl) ∧
      map ⟨num a, num b, excl⟩ f s =
        match runAll f l s with
        | .ok r => .ok r
        | .error e => .error (.inr e) := by
  refine ⟨span a (hi b excl), span_lists a b excl, ?_⟩
  unfold map
  rw [bounds_num ha hb]
  simp only [lift, bind, Except.bind]
  rw [map_integer_span (by omega) (by unfold hi; split <;> omega), mapIter_eq]
  cases runAll f (span a (hi b excl)) s <;> rfl

/-- **C46 (`map`), blocks without effects.** -/
theorem C46_map_pure_partial (a b : Int) (excl : Bool) (ha : -2^62 ≤ a ∧ a < 2^62)
    (hb : -2^62 ≤ b ∧ b < 2^62) (f : Int → Val) (g : Blk Unit Empty)
    (hg : ∀ i, g (num i) () = .ok (f i, ())) :
    ∃ l, Lists l (Within a b excl) ∧ map ⟨num a, num b, excl⟩ g () = .ok (l.map f, ()) := by
  obtain ⟨l, h1, h2⟩ := C46_map_partial a b excl ha hb g ()
  refine ⟨l, h1, ?_⟩
  have : ∀ l : List Int, runAll g l () = .ok (l.map f, ()) := by
    intro l
    induction l with
    | nil => rfl
    | cons i l ih => simp only [runAll, hg, ih, List.map_cons]
  rw [h2, this]

/-- **C46 (`flat_map`).**  The arrays given by the block, joined; a value that is no array counts as an
array of one element. -/
theorem C46_flat_map_partial {σ ε : Type} (asArray : Val → Option (List Val)) (a b : Int) (excl : Bool)
    (ha : -2^62 ≤ a ∧ a < 2^62) (hb : -2^62 ≤ b ∧ b < 2^62) (f : Blk σ ε) (s : σ) :
    ∃ l, Lists l (Within a b excl) ∧
      flatMap asArray ⟨num a, num b, excl⟩ f s =
        match runAll f l s with
        | .ok (ws, s) => .ok (ws.flatMap (fun w => (asArray w).getD [w]), s)
        | .error e => .error (.inr e) := by
  refine ⟨span a (hi b excl), span_lists a b excl, ?_⟩
  unfold flatMap
  rw [bounds_num ha hb]
  simp only [lift, bind, Except.bind]
  rw [map_integer_span (by omega) (by unfold hi; split <;> omega)]
  generalize span a (hi b excl) = l
  have key : ∀ s, flatMap.loop asArray f (l.map num) s =
      match runAll f l s with
      | .ok (ws, s) => .ok (ws.flatMap (fun w => (asArray w).getD [w]), s)
      | .error e => .error e := by
    induction l with
    | nil => intro s; rfl
    | cons i l ih =>
      intro s
      simp only [List.map_cons, flatMap.loop, runAll, bind, Except.bind]
      cases f (num i) s with
      | error e => rfl
      | ok x =>
        dsimp only
        rw [ih]
        cases runAll f l x.2 with
        | error e => rfl
        | ok y =>
          dsimp only
          cases hx : asArray x.1 <;> simp [hx]
  rw [key]
  cases runAll f l s <;> rfl

/-- **C46 (`all?`).**  The block is run on the integers of the interval in ascending order up to the first one
for which it gives a false value. -/
theorem C46_all_partial (a b : Int) (excl : Bool) (ha : -2^62 ≤ a ∧ a < 2^62)
    (hb : -2^62 ≤ b ∧ b < 2^62) (f : Int → Val) (g : Blk Unit Empty)
    (hg : ∀ i, g (num i) () = .ok (f i, ())) :
    ∃ r, all ⟨num a, num b, excl⟩ g () = .ok (r, ()) ∧
      (r = true ↔ ∀ x, Within a b excl x → truthy (f x) = true) := by
  unfold all
  rw [bounds_num ha hb]
  simp only [lift, bind, Except.bind]
  rw [map_integer_span (by omega) (by unfold hi; split <;> omega)]
  have hl := (span_lists a b excl).2
  generalize span a (hi b excl) = l at hl
  have key : ∀ l : List Int, all.loop g (l.map num) () = .ok (l.all (fun x => truthy (f x)), ()) := by
    intro l
    induction l with
    | nil => rfl
    | cons i l ih =>
      simp only [List.map_cons, all.loop, hg, bind, Except.bind, List.all_cons]
      cases truthy (f i) with
      | false => rfl
      | true => simpa using ih
  rw [key]
  refine ⟨_, rfl, ?_⟩
  rw [List.all_eq_true]
  exact ⟨fun h x hx => h x ((hl x).2 hx), fun h x hx => h x ((hl x).1 hx)⟩

/-- What counts as true for `all?`: everything that can be stored, and every object, but `nil` and `false`. -/
theorem C46_all_truth (s : Src) (a : Nat) : (truthy (store s) = false ↔ s = .nil ∨ s = .fls) ∧ truthy (.obj a) = true := by
  refine ⟨?_, rfl⟩
  cases h : store s with
  | word w => exact C03_truthiness s w h
  | big n => cases s <;> simp_all [truthy, store] <;> cases h
  | flo n => cases s <;> simp_all [truthy, store] <;> cases h
  | obj n => cases s <;> simp_all [truthy, store] <;> cases h

theorem span_take (a b : Int) (n : Nat) : (span a b).take n = span a (min b (a + n)) := by
  unfold span
  rw [← List.map_take]
  congr 1
  rw [List.take_range]
  congr 1
  omega

theorem span_drop (a b : Int) (n : Nat) (h : a + n ≤ b) : (span a b).drop n = span (a + n) b := by
  refine List.ext_getElem ?_ ?_
  · simp only [List.length_drop, span_length]; omega
  · intro i h1 h2
    simp only [span, List.getElem_drop, List.getElem_map, List.getElem_range]
    push_cast; ring

/-- **C46 (`first(n)`).**  The first `n` elements of `to_a`. -/
theorem C46_first_partial (a b n : Int) (excl : Bool) (ha : -2^62 ≤ a ∧ a < 2^62)
    (hb : -2^62 ≤ b ∧ b < 2^62) (hn : 0 ≤ n ∧ n < 2^62) :
    ∃ l, Lists l (Within a b excl) ∧ first ⟨num a, num b, excl⟩ (num n) = .ok ((l.take n.toNat).map num) := by
  have ha' : InI63 a := ha
  have hb' : InI63 b := hb
  have hn' : InI63 n := ⟨by omega, hn.2⟩
  refine ⟨span a (hi b excl), span_lists a b excl, ?_⟩
  unfold first
  have h1 : InI64 (b - if excl then 1 else 0) := by unfold InI64; split <;> omega
  have h2 : InI64 (a + n) := by unfold InI64; omega
  have h3 : InI64 (a + n - 1) := by unfold InI64; omega
  simp only [fixnum!_num ha', fixnum!_num hb', coerce_num hn', bind, Except.bind, exactI64_ok h1,
    exactI64_ok h2, exactI64_ok h3]
  rw [if_neg (by omega)]
  rw [span_take]
  congr 1
  rw [map_integer_span (by omega) (by split <;> split <;> omega)]
  congr 2
  unfold hi
  split <;> split <;> omega

/-- **C46 (`last(n)`).**  The last `n` elements of `to_a`. -/
theorem C46_last_partial (a b n : Int) (excl : Bool) (ha : -2^62 ≤ a ∧ a < 2^62)
    (hb : -2^62 ≤ b ∧ b < 2^62) (hn : 0 ≤ n ∧ n < 2^62) :
    ∃ l, Lists l (Within a b excl) ∧
      last ⟨num a, num b, excl⟩ (num n) = .ok ((l.drop (l.length - n.toNat)).map num) := by
  have ha' : InI63 a := ha
  have hb' : InI63 b := hb
  have hn' : InI63 n := ⟨by omega, hn.2⟩
  refine ⟨span a (hi b excl), span_lists a b excl, ?_⟩
  unfold last
  have h1 : InI64 (b - if excl then 1 else 0) := by unfold InI64; split <;> omega
  have h2 : InI64 (b - (if excl then 1 else 0) - n) := by unfold InI64; split <;> omega
  have h3 : InI64 (b - (if excl then 1 else 0) - n + 1) := by unfold InI64; split <;> omega
  simp only [fixnum!_num ha', fixnum!_num hb', coerce_num hn', bind, Except.bind, exactI64_ok h1,
    exactI64_ok h2, exactI64_ok h3]
  rw [if_neg (by omega)]
  congr 1
  rw [map_integer_span (by split <;> split <;> omega) (by split <;> omega)]
  congr 1
  rw [span_length]
  have hh : b - (if excl then 1 else 0) + 1 = hi b excl := by unfold hi; cases excl <;> simp
  rw [hh]
  have hh2 : b - (if excl then 1 else 0) - n + 1 = hi b excl - n := by omega
  rw [hh2]
  split
  · rw [span_drop _ _ _ (by omega)]
    congr 1
    omega
  · rename_i hlt
    rw [show (hi b excl - a).toNat - n.toNat = 0 by omega, List.drop_zero]

/-- A negative count is an `ArgumentError`. -/
theorem C46_negative_count (a b n : Int) (excl : Bool) (ha : -2^62 ≤ a ∧ a < 2^62)
    (hb : -2^62 ≤ b ∧ b < 2^62) (hn : -2^62 ≤ n ∧ n < 0) :
    first ⟨num a, num b, excl⟩ (num n) = .error .argument ∧
    last ⟨num a, num b, excl⟩ (num n) = .error .argument := by
  have ha' : InI63 a := ha
  have hb' : InI63 b := hb
  have hn' : InI63 n := ⟨hn.1, by omega⟩
  have h1 : InI64 (b - if excl then 1 else 0) := by unfold InI64; split <;> omega
  constructor
  · simp only [first, fixnum!_num ha', fixnum!_num hb', coerce_num hn', bind, Except.bind, exactI64_ok h1]
    rw [if_pos hn.2]
  · simp only [last, fixnum!_num ha', fixnum!_num hb', coerce_num hn', bind, Except.bind, exactI64_ok h1]
    rw [if_pos hn.2]

/-- the comparison of integers -/
theorem partial_cmp_num (a b : Int) :
    Real.partial_cmp (if InI63 a then .Integer a else .Bignum a) (if InI63 b then .Integer b else .Bignum b) =
      .ok (some (compare a b)) := by
  unfold Real.partial_cmp
  rw [into_val_to_real]
  by_cases ha : InI63 a
  · simp only [ha, if_true]; exact cmp_fixnum_num b ha
  · simp only [ha, if_false]; exact cmp_bignum_num b ha

/-- **C46 (`include?`).**  For integers of any size: `x` is in the range exactly if it lies in the
interval. -/
theorem C46_include (a b x : Int) (excl : Bool) :
    ∃ r, includes ⟨num a, num b, excl⟩ (num x) = .ok r ∧ (r = true ↔ Within a b excl x) := by
  unfold includes
  rw [unpack_num]
  by_cases ha : InI63 a
  · simp only [ha, if_true]
    rw [to_real_num, to_real_num]
    simp only [included]
    have h1 := partial_cmp_num a x
    have h2 := partial_cmp_num x b
    simp only [ha, if_true] at h1
    rw [h1, h2]
    simp only [bind, Except.bind]
    unfold Within
    rcases lt_trichotomy a x with h | h | h
    · rw [Int.compare_eq_lt.2 h]
      rcases lt_trichotomy x b with h' | h' | h'
      · rw [Int.compare_eq_lt.2 h']
        exact ⟨_, rfl, by cases excl <;> simp <;> omega⟩
      · rw [compare_eq_iff_eq.2 h']
        exact ⟨_, rfl, by cases excl <;> simp <;> omega⟩
      · rw [Int.compare_eq_gt.2 h']
        exact ⟨_, rfl, by cases excl <;> simp <;> omega⟩
    · rw [compare_eq_iff_eq.2 h]
      rcases lt_trichotomy x b with h' | h' | h'
      · rw [Int.compare_eq_lt.2 h']
        exact ⟨_, rfl, by cases excl <;> simp <;> omega⟩
      · rw [compare_eq_iff_eq.2 h']
        exact ⟨_, rfl, by cases excl <;> simp <;> omega⟩
      · rw [Int.compare_eq_gt.2 h']
        exact ⟨_, rfl, by cases excl <;> simp <;> omega⟩
    · rw [Int.compare_eq_gt.2 h]
      exact ⟨false, rfl, by simp; omega⟩
  · simp only [ha, if_false]
    rw [numeric_cmp_num, numeric_cmp_num, numeric_cmp_num]
    simp only [bind, Except.bind, CmpOp.onInt]
    unfold Within
    by_cases h : a ≤ x
    · cases excl
      · exact ⟨decide (b ≥ x), by simp [h], by simp; omega⟩
      · exact ⟨decide (b > x), by simp [h], by simp; omega⟩
    · exact ⟨false, by simp [h], by simp; omega⟩

/-- `include?` of something that is no number is false for a range that begins with a small integer. -/
theorem C46_include_other (a b : Int) (ha : -2^62 ≤ a ∧ a < 2^62) (excl : Bool) (v : Val)
    (hv : to_real v = none) : includes ⟨num a, num b, excl⟩ v = .ok false := by
  unfold includes
  have ha' : InI63 a := ha
  rw [unpack_num, if_pos ha', to_real_num]
  simp only [hv]

/-- Two integers of any size are accepted as the bounds of a range. -/
theorem C46_create (a b : Int) (excl : Bool) : create (num a) (num b) excl = .ok ⟨num a, num b, excl⟩ := by
  unfold create
  rw [C06_compare]
  simp only [bind, Except.bind]
  rw [if_neg]
  split
  · decide
  · split <;> decide

/-- **C46 is false for large bounds**: the elements of a range with a bound beyond 63 bits cannot be listed
(the interpreter aborts), and `first` aborts. -/
theorem C46_big_bounds_fails (a b n : Int) (ha : a ≥ 2^62) (excl : Bool) :
    to_a ⟨num a, num b, excl⟩ = .error .panic ∧ first ⟨num a, num b, excl⟩ (num n) = .error .panic := by
  have h : ¬ InI63 a := by unfold InI63; omega
  constructor
  · unfold to_a; rw [as_fixnum_num, if_neg h]
  · unfold first fixnum!; rw [as_fixnum_num, if_neg h]; rfl

/-- **C46 (ranges of one-character strings).**  `("a".."e").to_a` for ASCII characters lists the
characters of the interval in ascending order. -/
theorem C46_to_a_chars (a b : UInt8) (excl : Bool) (ha : a < 128) (hb : b < 128) :
    ∃ l : List Int, Lists l (Within a.toNat b.toNat excl) ∧
      to_a_str [a] [b] excl = .ok (l.map (fun i => [UInt8.ofNat i.toNat])) := by
  refine ⟨span a.toNat (hi b.toNat excl), span_lists _ _ _, ?_⟩
  unfold to_a_str
  simp only []
  rw [if_pos ⟨ha, hb⟩]
  split
  · rename_i h
    have : (hi b.toNat excl - a.toNat).toNat = 0 := by
      unfold hi
      rcases h with h | ⟨h, he⟩
      · have : b.toNat < a.toNat := h
        split <;> omega
      · subst h; simp [he]
    unfold span
    rw [this]; rfl
  · unfold hi; cases excl <;> rfl

/-! ## Cases that meet the hypotheses -/

example : to_a ⟨num 2, num 5, true⟩ = .ok ([2, 3, 4].map num) := by rfl
example : first ⟨num 5, num 10, false⟩ (num 4) = .ok ([5, 6, 7, 8].map num) := by rfl
example : last ⟨num 5, num 10, true⟩ (num 2) = .ok ([8, 9].map num) := by rfl
example : Lists [2, 3, 4] (Within 2 5 true) := by
  refine ⟨by decide, fun x => ?_⟩
  simp [Within]; omega
example : includes ⟨num 3, num (2^70), false⟩ (num (2^65)) = .ok true := by rfl
example : to_a_str "x".toUTF8.toList "z".toUTF8.toList false = .ok (["x", "y", "z"].map (·.toUTF8.toList)) := by
  decide +kernel

end Verif.Range
