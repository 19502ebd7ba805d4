import Verif.Arr.Model
import Mathlib.Data.List.Basic
import Mathlib.Tactic.Linarith
/-! # C14, C15, C16: element and slice access -/
namespace Verif.Arr
variable {α : Type}

theorem asUsize_nonneg {x : Int} (h0 : 0 ≤ x) (h1 : x < 2^63) : asUsize x = x.toNat := by
  unfold asUsize; rw [Int.emod_eq_of_lt h0 (by omega)]
theorem asUsize_nat {n : Nat} (h : n < 2^63) : asUsize (n : Int) = n := by
  rw [asUsize_nonneg (by omega) (by omega)]; omega

/-! ## C14 -/

theorem idx_nonneg {len : Nat} {i : Int} (h0 : 0 ≤ i) (h1 : i < 2^62) : get_array_index len i = .ok i.toNat := by
  unfold get_array_index; rw [if_neg (by omega), asUsize_nonneg h0 (by omega)]
theorem idx_neg {len : Nat} {i : Int} (hl : len < 2^62) (h0 : i < 0) (h1 : -(len:Int) ≤ i) :
    get_array_index len i = .ok ((len : Int) + i).toNat := by
  unfold get_array_index; simp only [if_pos h0]
  rw [if_neg (by omega), asUsize_nonneg (by omega) (by omega)]
theorem idx_low {len : Nat} {i : Int} (h1 : i < -(len:Int)) : get_array_index len i = .error .range := by
  unfold get_array_index; rw [if_pos (by omega)]; simp only; rw [if_pos (by omega)]

/-- C14, reading: `a[k]` and `a[k - a.size]` are the `k`-th element; any other index gives `nil`. -/
theorem C14_read (nil : α) (l : List α) (hl : l.length < 2^62) :
    (∀ k (h : k < l.length), get_elem1 nil l k = l[k] ∧ get_elem1 nil l ((k : Int) - l.length) = l[k]) ∧
    (∀ i : Int, i < 2^62 → (l.length ≤ i ∨ i < -(l.length : Int)) → get_elem1 nil l i = nil) := by
  constructor
  · intro k h
    constructor
    · unfold get_elem1 get_array_index_or
      rw [idx_nonneg (by omega) (by omega)]
      simp only [Int.toNat_natCast, get_elem_imm]
      rw [if_neg (by omega)]; simp [h]
    · unfold get_elem1 get_array_index_or
      rw [idx_neg hl (by omega) (by omega)]
      have : ((l.length : Int) + ((k:Int) - l.length)).toNat = k := by omega
      simp only [this, get_elem_imm]
      rw [if_neg (by omega)]; simp [h]
  · intro i hi h
    unfold get_elem1 get_array_index_or
    rcases h with h | h
    · rw [idx_nonneg (by omega) hi]
      simp only [get_elem_imm]; rw [if_pos (by omega)]
    · rw [idx_low h]
      simp only [get_elem_imm]; rw [if_pos (by omega)]

example : get_elem1 (0:Nat) [7, 8, 9] (-1) = 9 ∧ get_elem1 (0:Nat) [7, 8, 9] 3 = 0 := by decide

/-- C14, writing: inside the array exactly the element changes; past the end the gap is filled with `nil`; before the
beginning an error is raised.  (The error is RangeError in the code; Ruby documents IndexError.) -/
theorem C14_write_partial (nil v : α) (l : List α) (hl : l.length < 2^62) :
    (∀ k, k < l.length → set_elem1 nil l k v = .ok (l.set k v) ∧
        set_elem1 nil l ((k : Int) - l.length) v = .ok (l.set k v)) ∧
    (∀ k, l.length ≤ k → k < 2^62 →
        set_elem1 nil l (k : Nat) v = .ok (l ++ List.replicate (k - l.length) nil ++ [v])) ∧
    (∀ i : Int, i < -(l.length : Int) → set_elem1 nil l i v = .error .range) := by
  refine ⟨?_, ?_, ?_⟩
  · intro k h
    constructor
    · unfold set_elem1 set_elem_imm setAt
      rw [if_pos (by omega), asUsize_nat (by omega), if_neg (by omega), if_pos h]
    · unfold set_elem1 setAt
      rw [if_neg (by omega), idx_neg hl (by omega) (by omega)]
      have : ((l.length : Int) + ((k:Int) - l.length)).toNat = k := by omega
      simp only [this]
      rw [if_pos h]
  · intro k h1 h2
    unfold set_elem1 set_elem_imm resize
    rw [if_pos (by omega), asUsize_nat (by omega), if_pos h1, List.take_of_length_le h1]
  · intro i h
    unfold set_elem1
    rw [if_neg (by omega), idx_low h]

example : set_elem1 (0:Nat) [7, 8] 4 5 = .ok [7, 8, 0, 0, 5] ∧ set_elem1 (0:Nat) [7, 8] (-2) 5 = .ok [5, 8] ∧
    set_elem1 (0:Nat) [7, 8] (-3) 5 = .error .range := by decide

/-- **C14** fails before the beginning: the exception is never `IndexError` (value/array.rs:get_array_index). -/
theorem C14_before_start_fails (nil v : α) (l : List α) (i : Int) (h : i < -(l.length : Int)) (hl : l.length < 2^62) :
    set_elem1 nil l i v = .error .range ∧ set_elem1 nil l i v ≠ .error .index := by
  have e := (C14_write_partial nil v l hl).2.2 i h
  exact ⟨e, by rw [e]; intro c; cases c⟩

example : set_elem1 0 [1, 2] (-3) 9 = .error .range := rfl

/-- What is read after a write: the written element at the index written, the old element elsewhere. -/
theorem C14_read_after_write (nil v : α) (l l' : List α) (k : Nat) (hk : k < 2^61) (hl : l.length < 2^61)
    (h : set_elem1 nil l (k : Nat) v = .ok l') (j : Nat) (hj : j < 2^62) :
    get_elem1 nil l' (j : Nat) = if j = k then v else get_elem1 nil l (j : Nat) := by
  have hw := C14_write_partial nil v l (by omega)
  have rd : ∀ (m : List α), m.length < 2^62 → get_elem1 nil m (j : Nat) = m.getD j nil := by
    intro m hm
    have hr := C14_read nil m hm
    by_cases hj' : j < m.length
    · rw [(hr.1 j hj').1, List.getD_eq_getElem?_getD, List.getElem?_eq_getElem hj']; rfl
    · rw [hr.2 j (by omega) (Or.inl (by omega)), List.getD_eq_getElem?_getD, List.getElem?_eq_none (by omega)]; rfl
  by_cases hkl : k < l.length
  · have e := (hw.1 k hkl).1
    rw [h] at e
    injection e with e
    subst e
    rw [rd _ (by simpa using (by omega)), rd _ (by omega)]
    by_cases hjk : j = k
    · subst hjk; rw [if_pos rfl]; simp [List.getD, hkl]
    · rw [if_neg hjk]; simp [List.getD, Ne.symm hjk]
  · have e := hw.2.1 k (by omega) (by omega)
    rw [h] at e
    injection e with e
    subst e
    rw [rd _ (by simp; omega), rd _ (by omega)]
    by_cases hjk : j = k
    · subst hjk; rw [if_pos rfl]
      rw [List.getD_eq_getElem?_getD, List.getElem?_append_right (by simp; omega)]
      simp [show j - (l.length + (j - l.length)) = 0 by omega]
    · rw [if_neg hjk]
      rw [List.getD_eq_getElem?_getD, List.getD_eq_getElem?_getD, List.append_assoc]
      by_cases hjl : j < l.length
      · rw [List.getElem?_append_left hjl]
      · rw [List.getElem?_append_right (by omega), List.getElem?_eq_none (l := l) (by omega)]
        by_cases hlt : j < k
        · rw [List.getElem?_append_left (by simp; omega), List.getElem?_replicate]
          simp [show j - l.length < k - l.length by omega]
        · rw [List.getElem?_append_right (by simp; omega)]
          simp only [List.length_replicate]
          rw [List.getElem?_eq_none (by simp; omega)]

/-! ## C15 -/

/-- The documented reading of `a[start, len]`: `nil` for a negative length or a start outside
`-size ≤ start ≤ size`; otherwise the elements from there, at most `len` of them. -/
def windowSpec (l : List α) (start len : Int) : Option (List α) :=
  let s := if start < 0 then (l.length : Int) + start else start
  if len < 0 ∨ s < 0 ∨ l.length < s then none else some ((l.drop s.toNat).take len.toNat)

/-- The documented reading of `a[first..last]` / `a[first...last]`. -/
def rangeSpec (l : List α) (first last : Int) (exclude : Bool) : Option (List α) :=
  let s := if first < 0 then (l.length : Int) + first else first
  let e := (if last < 0 then (l.length : Int) + last else last) + (if exclude then 0 else 1)
  if s < 0 ∨ l.length < s then none else some ((l.drop s.toNat).take (e - s).toNat)

theorem slice_eq (l : List α) {s e : Nat} (h1 : s ≤ e) (h2 : e ≤ l.length) :
    slice l s e = .ok ((l.drop s).take (e - s)) := by
  unfold slice; rw [if_pos ⟨h1, h2⟩, List.drop_take]

/-- C15, start and length: right whenever the start lies within the array (or one past its end), or the length is
negative. -/
theorem C15_window_partial (l : List α) (hl : l.length < 2^62) (start len : Int)
    (hs : -2^62 ≤ start ∧ start < 2^62) (hlen : -2^62 ≤ len ∧ len < 2^62)
    (h : len < 0 ∨ (-(l.length : Int) ≤ start ∧ start ≤ l.length)) :
    get_elem l start len = .ok (windowSpec l start len) := by
  unfold get_elem windowSpec
  by_cases hneg : len < 0
  · simp only [if_pos hneg]; rw [if_pos (Or.inl hneg)]
  · have hr : -(l.length : Int) ≤ start ∧ start ≤ l.length := by omega
    have hi : get_array_index_or l.length start =
        (if start < 0 then (l.length : Int) + start else start).toNat := by
      unfold get_array_index_or
      by_cases h0 : start < 0
      · rw [idx_neg hl h0 hr.1, if_pos h0]
      · rw [idx_nonneg (by omega) hs.2, if_neg h0]
    simp only [hi, if_neg hneg]
    generalize hse : (if start < 0 then (l.length : Int) + start else start) = s
    have hs0 : 0 ≤ s ∧ s ≤ l.length := by rw [← hse]; split <;> omega
    rw [if_neg (show ¬ (len < 0 ∨ s < 0 ∨ (l.length:Int) < s) by omega)]
    by_cases hge : s.toNat ≥ l.length
    · rw [if_pos hge, List.drop_of_length_le (by omega)]; simp
    · rw [if_neg hge, asUsize_nonneg (by omega) (by omega), slice_eq l (by omega) (by omega)]
      simp only [Except.map]
      congr 2
      rcases Nat.le_total l.length (s.toNat + len.toNat) with h1 | h1
      · rw [Nat.min_eq_left h1, List.take_of_length_le (by simp), List.take_of_length_le (by simp; omega)]
      · rw [Nat.min_eq_right h1, Nat.add_sub_cancel_left]

example : get_elem [1, 2, 3, 4] (-3) 2 = .ok (some [2, 3]) ∧ get_elem [1, 2] 2 5 = .ok (some ([] : List Nat)) := by
  decide

/-- C15 fails in the code when the start is outside: `[1][5, 1]` and `[1][-5, 1]` are `[]` instead of `nil`. -/
theorem C15_window_fails : get_elem [1] 5 1 = .ok (some ([] : List Nat)) ∧ windowSpec [1] 5 1 = none ∧
    get_elem [1] (-5) 1 = .ok (some ([] : List Nat)) ∧ windowSpec [1] (-5) 1 = none := by decide

/-- C15, ranges: right whenever the first index is not before the beginning and the end of the range is not more
than one position before it. -/
theorem C15_range_partial (l : List α) (hl : l.length < 2^62) (first last : Int) (exclude : Bool)
    (hf : first < 2^62) (hla : last < 2^62) (h1 : -(l.length : Int) ≤ first)
    (h2 : 0 ≤ (l.length : Int) + last + (if exclude then 0 else 1)) :
    get_elem_range l first last exclude = .ok (rangeSpec l first last exclude) := by
  unfold get_elem_range rangeSpec
  simp only
  generalize hse : (if first < 0 then (l.length : Int) + first else first) = s
  have hs0 : 0 ≤ s ∧ s < 2^62 := by rw [← hse]; split <;> omega
  generalize hx : (if exclude = true then 0 else 1 : Nat) = x
  have hx' : (if exclude = true then 0 else 1 : Int) = x := by rw [← hx]; split <;> rfl
  have hxb : x ≤ 1 := by rw [← hx]; split <;> omega
  rw [hx'] at h2 ⊢
  by_cases hlt : (l.length : Int) < s
  · rw [if_pos hlt, if_pos (Or.inr hlt)]
  · rw [if_neg hlt, if_neg (show ¬ (s < 0 ∨ (l.length : Int) < s) by omega)]
    by_cases heq : (l.length : Int) = s
    · rw [if_pos heq, List.drop_of_length_le (by omega)]; simp
    · rw [if_neg heq, asUsize_nonneg hs0.1 (by omega)]
      have hfin : ∃ fin : Nat, (if last ≥ 0 then
            (if l.length < asUsize last + x then l.length else asUsize last + x)
          else asUsize ((l.length : Int) + last + x)) = fin ∧ fin ≤ l.length ∧
          ((fin : Int) = (if last < 0 then (l.length : Int) + last else last) + x ∨
            (fin = l.length ∧ (l.length : Int) ≤ (if last < 0 then (l.length : Int) + last else last) + x)) := by
        by_cases hlast : last ≥ 0
        · rw [if_pos hlast, asUsize_nonneg hlast (by omega), if_neg (show ¬ last < 0 by omega)]
          by_cases hb : l.length < last.toNat + x
          · exact ⟨l.length, by rw [if_pos hb], le_refl _, Or.inr ⟨rfl, by omega⟩⟩
          · exact ⟨last.toNat + x, by rw [if_neg hb], by omega, Or.inl (by omega)⟩
        · rw [if_neg hlast, asUsize_nonneg (by omega) (by omega), if_pos (show last < 0 by omega)]
          exact ⟨_, rfl, by omega, Or.inl (by omega)⟩
      obtain ⟨fin, hfe, hfl, hfc⟩ := hfin
      rw [hfe]
      generalize (if last < 0 then (l.length : Int) + last else last) + (x : Int) = e at *
      by_cases hge : s.toNat ≥ fin
      · rw [if_pos hge]
        have : (e - s).toNat = 0 := by omega
        rw [this]; simp
      · rw [if_neg hge, slice_eq l (by omega) hfl]
        simp only [Except.map]
        congr 2
        rcases hfc with hfc | ⟨hfc, hle⟩
        · congr 1; omega
        · rw [List.take_of_length_le (by simp; omega), List.take_of_length_le (by simp; omega)]

example : get_elem_range [1, 2, 3, 4] 1 (-2) false = .ok (some [2, 3]) ∧
    get_elem_range [1, 2, 3, 4] (-3) 9 true = .ok (some [2, 3, 4]) ∧
    get_elem_range [1, 2] 3 9 true = .ok none := by decide

/-- C15 fails in the code for ranges that end before the beginning (Rust panic, instead of `[]`) and for ranges
that start before the beginning (`[]` instead of `nil`). -/
theorem C15_range_fails : get_elem_range [1, 2] 0 (-4) false = .error .panic ∧
    rangeSpec [1, 2] 0 (-4) false = some [] ∧
    get_elem_range [1, 2] (-4) 1 false = .ok (some []) ∧ rangeSpec [1, 2] (-4) 1 false = none := by decide

/-! ## C16 -/

/-- Documented effect of `a[start, len] = v`, for a start that has been counted from the front: the window is replaced,
everything else stays; a gap is filled with `nil`. -/
def spliceSpec (nil : α) (l : List α) (start len : Nat) (xs : List α) : List α :=
  l.take start ++ List.replicate (start - l.length) nil ++ xs ++ l.drop (start + len)

def Rhs.elems : Rhs α → List α
  | .ary xs => xs
  | .one v => [v]

theorem copy_from_slice_split (P Q xs : List α) (start : Nat) (h : P.length = start + xs.length) :
    copy_from_slice (P ++ Q) start xs = .ok (P.take start ++ xs ++ Q) := by
  unfold copy_from_slice
  rw [if_pos (by simp; omega), List.take_append_of_le_length (by omega), ← h, List.drop_left]

theorem setAt_split (P Q : List α) (v : α) (start : Nat) (h : P.length = start + 1) :
    setAt (P ++ Q) start v = .ok (P.take start ++ [v] ++ Q) := by
  unfold setAt
  rw [if_pos (by simp; omega), List.set_append_left _ _ (by omega)]
  congr 2
  apply List.ext_getElem?
  intro i
  simp only [List.getElem?_set, List.getElem?_append, List.getElem?_take, List.length_take]
  rcases Nat.lt_trichotomy i start with hi | hi | hi
  · rw [if_neg (by omega), if_pos (by omega), if_pos hi]
  · subst hi; rw [if_pos rfl, if_pos (by omega), if_neg (by omega)]
    simp [show i - min i P.length = 0 by omega]
  · rw [if_neg (by omega), if_neg (by omega), List.getElem?_eq_none (by omega)]
    rw [List.getElem?_eq_none (by simp; omega)]

theorem copy_within_tail (R : List α) (s n d : Nat) (h1 : s ≤ n) (h2 : n ≤ R.length) (h3 : d + (n - s) ≤ R.length) :
    copy_within R s n d = .ok (R.take d ++ (R.take n).drop s ++ R.drop (d + (n - s))) := by
  unfold copy_within; rw [if_pos ⟨h1, h2, h3⟩]

/-- The splice, from a start that has been counted from the front. -/
theorem set_elem2_spec (nil : α) (l : List α) (start len : Nat) (v : Rhs α) :
    set_elem2 nil l start len v = .ok (spliceSpec nil l start len v.elems) := by
  cases v with
  | ary xs =>
    simp only [spliceSpec, Rhs.elems, set_elem2]
    by_cases h1 : start ≥ l.length ∨ start + len > l.length
    · simp only [if_pos h1, pure, Except.pure, bind, Except.bind]
      have := copy_from_slice_split (resize l (start + xs.length) nil) [] xs start
        (by simp [resize]; omega)
      rw [List.append_nil] at this
      rw [this, List.drop_of_length_le (show l.length ≤ start + len by omega)]
      congr 3
      unfold resize
      rw [List.take_append, List.take_take]
      have : min start (start + xs.length) = start := by omega
      rw [this]
      congr 1
      simp
      omega
    · have hlt : start + len ≤ l.length := by omega
      have hrep : start - l.length = 0 := by omega
      rw [hrep]
      simp only [if_neg h1, List.replicate_zero, List.append_nil]
      by_cases h2 : xs.length > len
      · have hR : resize l (l.length + xs.length - len) nil =
            l ++ List.replicate (xs.length - len) nil := by
          unfold resize
          rw [List.take_of_length_le (by omega)]
          congr 2; omega
        simp only [if_pos h2, hR]
        rw [copy_within_tail _ _ _ _ hlt (by simp) (by simp; omega)]
        simp only [bind, Except.bind]
        rw [List.append_assoc, copy_from_slice_split _ _ xs start (by simp; omega)]
        rw [List.take_take, Nat.min_eq_left (by omega), List.take_append_of_le_length (by omega),
          List.take_left' rfl]
        rw [List.drop_of_length_le (l := l ++ _) (by simp; omega), List.append_nil]
      · simp only [if_neg h2]
        rw [copy_within_tail _ _ _ _ hlt (le_refl _) (by omega)]
        simp only [bind, Except.bind, pure, Except.pure]
        have hR : ∀ T : List α, resize (l.take (start + xs.length) ++ (l.take l.length).drop (start + len) ++ T)
            (l.length + xs.length - len) nil = l.take (start + xs.length) ++ l.drop (start + len) := by
          intro T
          unfold resize
          rw [List.take_length]
          have hl : (l.take (start + xs.length) ++ l.drop (start + len)).length = l.length + xs.length - len := by
            simp; omega
          rw [← hl, List.take_left' rfl]
          simp
        rw [hR, copy_from_slice_split _ _ xs start (by simp; omega), List.take_take, Nat.min_eq_left (by omega)]
  | one v =>
    simp only [spliceSpec, Rhs.elems, set_elem2]
    by_cases h1 : start ≥ l.length
    · simp only [if_pos h1, pure, Except.pure, bind, Except.bind]
      have := setAt_split (resize l (start + 1) nil) [] v start (by simp [resize]; omega)
      rw [List.append_nil] at this
      rw [this, List.drop_of_length_le (show l.length ≤ start + len by omega)]
      congr 3
      unfold resize
      rw [List.take_append, List.take_take]
      have : min start (start + 1) = start := by omega
      rw [this]
      congr 1
      simp
      omega
    · have hrep : start - l.length = 0 := by omega
      rw [hrep]
      simp only [if_neg h1, List.replicate_zero, List.append_nil]
      by_cases h2 : len = 0
      · subst h2
        simp only [if_pos]
        rw [copy_within_tail _ _ _ _ (by omega) (by simp) (by simp; omega)]
        simp only [bind, Except.bind]
        rw [List.append_assoc, setAt_split _ _ v start (by simp; omega)]
        rw [List.take_take, Nat.min_eq_left (by omega), List.take_append_of_le_length (by omega),
          List.take_left' rfl, List.drop_of_length_le (l := l ++ _) (by simp; omega), List.append_nil,
          Nat.add_zero]
      · simp only [if_neg h2]
        by_cases h3 : start + len < l.length
        · simp only [if_pos h3]
          rw [copy_within_tail _ _ _ _ (by omega) (le_refl _) (by omega)]
          simp only [bind, Except.bind, pure, Except.pure]
          have hR : ∀ T : List α, (l.take (start + 1) ++ (l.take l.length).drop (start + len) ++ T).take
              (l.length + 1 - len) = l.take (start + 1) ++ l.drop (start + len) := by
            intro T
            rw [List.take_length]
            have hl : (l.take (start + 1) ++ l.drop (start + len)).length = l.length + 1 - len := by
              simp; omega
            rw [← hl, List.take_left' rfl]
          rw [hR, setAt_split _ _ v start (by simp; omega), List.take_take, Nat.min_eq_left (by omega)]
        · simp only [if_neg h3, bind, Except.bind, pure, Except.pure]
          have := setAt_split (l.take (start + 1)) [] v start (by simp; omega)
          rw [List.append_nil] at this
          rw [this, List.drop_of_length_le (show l.length ≤ start + len by omega), List.take_take,
            Nat.min_eq_left (by omega)]

/-- C16: `a[start, len] = v`, for every array, every start not before the beginning, every length and every value (an
array is spliced, anything else becomes one element). -/
theorem C16_splice (nil : α) (l : List α) (hl : l.length < 2^62) (start len : Int) (v : Rhs α)
    (hs : -(l.length : Int) ≤ start ∧ start < 2^62) (hlen : 0 ≤ len ∧ len < 2^62) :
    set_elem nil l start len v = .ok (spliceSpec nil l
      (if start < 0 then (l.length : Int) + start else start).toNat len.toNat v.elems) := by
  unfold set_elem
  by_cases h0 : start < 0
  · rw [idx_neg hl h0 hs.1]
    simp only
    rw [if_neg (by omega), asUsize_nonneg hlen.1 (by omega), set_elem2_spec, if_pos h0]
  · rw [idx_nonneg (by omega) hs.2]
    simp only
    rw [if_neg (by omega), asUsize_nonneg hlen.1 (by omega), set_elem2_spec, if_neg h0]

example : set_elem (0:Nat) [1, 2, 3, 4] 1 2 (.ary [7, 8, 9]) = .ok [1, 7, 8, 9, 4] ∧
    set_elem (0:Nat) [1, 2] 4 0 (.one 9) = .ok [1, 2, 0, 0, 9] := by decide

/-- C16: errors.  A start before the beginning and a negative length raise, and (the result being an error) leave
the array as it was. -/
theorem C16_errors (nil : α) (l : List α) (start len : Int) (v : Rhs α) :
    (start < -(l.length : Int) → set_elem nil l start len v = .error .range) ∧
    (l.length < 2^62 → -(l.length : Int) ≤ start → start < 2^62 → len < 0 →
      set_elem nil l start len v = .error .index) := by
  constructor
  · intro h; unfold set_elem; rw [idx_low h]
  · intro hl h1 h2 h3
    unfold set_elem
    by_cases h0 : start < 0
    · rw [idx_neg hl h0 h1]; simp only; rw [if_pos h3]
    · rw [idx_nonneg (by omega) h2]; simp only; rw [if_pos h3]

/-- C16, ranges: `a[first..last] = v` replaces the elements the range covers (none when it is empty). -/
theorem C16_splice_range (nil : α) (l : List α) (hl : l.length < 2^62) (first last : Int) (exclude : Bool) (v : Rhs α)
    (hf : -(l.length : Int) ≤ first ∧ first < 2^62) (hla : -(l.length : Int) ≤ last ∧ last < 2^62) :
    set_elem_range nil l first last exclude v = .ok (
      let s := if first < 0 then (l.length : Int) + first else first
      let e := (if last < 0 then (l.length : Int) + last else last) + (if exclude then 0 else 1)
      spliceSpec nil l s.toNat (e - s).toNat v.elems) := by
  have key : ∀ i : Int, -(l.length : Int) ≤ i → i < 2^62 →
      get_array_index l.length i = .ok (if i < 0 then (l.length : Int) + i else i).toNat ∧
      0 ≤ (if i < 0 then (l.length : Int) + i else i) := by
    intro i h1 h2
    by_cases h0 : i < 0
    · exact ⟨by rw [idx_neg hl h0 h1, if_pos h0], by rw [if_pos h0]; omega⟩
    · exact ⟨by rw [idx_nonneg (by omega) h2, if_neg h0], by rw [if_neg h0]; omega⟩
  obtain ⟨k1, p1⟩ := key first hf.1 hf.2
  obtain ⟨k2, p2⟩ := key last hla.1 hla.2
  unfold set_elem_range
  rw [k1, k2]
  simp only
  generalize (if first < 0 then (l.length : Int) + first else first) = s at *
  generalize (if last < 0 then (l.length : Int) + last else last) = e at *
  cases exclude
  · simp only [Bool.false_eq_true, if_false]
    split
    · rw [set_elem2_spec, show (e + 1 - s).toNat = 0 by omega]
    · rw [set_elem2_spec, show e.toNat + 1 - s.toNat = (e + 1 - s).toNat by omega]
  · simp only [if_true]
    split
    · rw [set_elem2_spec, show (e + 0 - s).toNat = 0 by omega]
    · rw [set_elem2_spec, show e.toNat + 0 - s.toNat = (e + 0 - s).toNat by omega]

example : set_elem_range (0:Nat) [1, 2, 3, 4] 1 (-2) false (.ary [9]) = .ok [1, 9, 4] := by decide

end Verif.Arr
