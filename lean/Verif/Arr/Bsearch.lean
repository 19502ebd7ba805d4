import Verif.Arr.Search
import Mathlib.Data.Nat.Log
/-! # C103: binary search

`bsearch` and `bsearch_index` (builtin/array.rs).  The block is arbitrary: it keeps state, raises and may change the array. -/
namespace Verif.Arr.Search

variable {σ ε α : Type}

/-! ## Model -/

/-- What a block answers: true, false or nil, a number (the rounded-away digits of a float do not matter; only the sign
does), or something else. -/
inductive Ans
  | yes
  | no
  | num (i : Int)
  | other
  deriving DecidableEq, Repr

/-- `expect_bool_nil_num` (value/value.rs:1241-1251); `none` is the TypeError.  For floats only the sign is kept. -/
def Ans.truth : Ans → Option Bool
  | .yes => some true
  | .no => some false
  | .num i => some (i == 0)
  | .other => none

/-- How a search ends. -/
inductive Found (ε : Type)
  | ok (i : Option Nat)
  | raised (e : ε)
  | typeError
  | panic
  deriving DecidableEq, Repr

/-- `f(vm, ary[i])?.expect_bool_nil_num()?` followed by `k`; an index outside the array, which the block may have shortened,
stops the interpreter. -/
def askAt (arr : σ → List α) (f : Ask σ ε α Ans) (i : Nat) (s : σ) (k : Bool → σ → Found ε × σ) : Found ε × σ :=
  match (arr s)[i]? with
  | none => (.panic, s)
  | some x =>
    match f x s with
    | (.error e, s) => (.raised e, s)
    | (.ok a, s) =>
      match a.truth with
      | none => (.typeError, s)
      | some b => k b s

/-- The loop of `binary_search` (builtin/array.rs:1170-1180). -/
def bsearchLoop (arr : σ → List α) (f : Ask σ ε α Ans) (lo hi : Nat) (s : σ) : Found ε × σ :=
  if _h : lo + (hi - lo) / 2 = lo then (.ok (some hi), s)
  else askAt arr f (lo + (hi - lo) / 2) s fun b s =>
    if b then bsearchLoop arr f lo (lo + (hi - lo) / 2) s else bsearchLoop arr f (lo + (hi - lo) / 2) hi s
  termination_by hi - lo
  decreasing_by all_goals omega

/-- `binary_search` (builtin/array.rs:1156-1181), the answer of `bsearch_index` (1203-1211); `bsearch` (1188-1196) gives the
element there. -/
def bsearch (arr : σ → List α) (f : Ask σ ε α Ans) (s : σ) : Found ε × σ :=
  if (arr s).length = 0 then (.ok none, s)
  else
    let last := (arr s).length - 1
    askAt arr f 0 s fun b s =>
      if b then (.ok (some 0), s)
      else askAt arr f last s fun b s => if !b then (.ok none, s) else bsearchLoop arr f 0 last s

/-! ## Specification -/

/-- The block answers `g x` for `x`, whenever it is asked, and leaves the array alone. -/
def Answers (arr : σ → List α) (l : List α) (f : Ask σ ε α Ans) (g : α → Ans) : Prop :=
  ∀ x ∈ l, ∀ s, arr s = l → ∃ s', f x s = (.ok (g x), s') ∧ arr s' = l

/-- Find-minimum: false (or nil) for a first part of the array and true for the rest. -/
def FindMinimum (g : α → Ans) (l : List α) : Prop :=
  (∀ x ∈ l, g x = .yes ∨ g x = .no) ∧ ∀ (i j : Nat) (x y : α), i ≤ j → l[i]? = some x → l[j]? = some y → g x = .yes → g y = .yes

/-- `i` is the first place where the answer is true; none if there is none. -/
def First (g : α → Ans) (l : List α) : Option Nat → Prop
  | some i => (∃ x, l[i]? = some x ∧ g x = .yes) ∧ ∀ (j : Nat) (x : α), j < i → l[j]? = some x → g x = .no
  | none => ∀ x ∈ l, g x = .no

/-- `f`, counting how often it is called. -/
def counted (f : Ask σ ε α Ans) : Ask (σ × Nat) ε α Ans := fun x s => ((f x s.1).1, ((f x s.1).2, s.2 + 1))

/-! ## Helpers -/

theorem askAt_answers {arr : σ → List α} {l : List α} {f : Ask σ ε α Ans} {g : α → Ans} (hf : Answers arr l f g) {i : Nat} {x : α}
    (hx : l[i]? = some x) {b : Bool} (hb : (g x).truth = some b) {s : σ} (hs : arr s = l) {k : Bool → σ → Found ε × σ} :
    ∃ s', arr s' = l ∧ askAt arr f i s k = k b s' := by
  obtain ⟨s', e, hs'⟩ := hf x (List.mem_of_getElem? hx) s hs
  refine ⟨s', hs', ?_⟩
  simp [askAt, hs, hx, e, hb]

theorem truth_min {g : α → Ans} {l : List α} (hm : FindMinimum g l) {i : Nat} {x : α} (hx : l[i]? = some x) :
    ((g x).truth = some true ∧ g x = .yes) ∨ ((g x).truth = some false ∧ g x = .no) := by
  rcases hm.1 x (List.mem_of_getElem? hx) with h | h
  · left; simp [h, Ans.truth]
  · right; simp [h, Ans.truth]

theorem loop_min {arr : σ → List α} {l : List α} {f : Ask σ ε α Ans} {g : α → Ans} (hf : Answers arr l f g) (hm : FindMinimum g l) :
    ∀ (lo hi : Nat) (s : σ), arr s = l → lo < hi → (∃ x, l[lo]? = some x ∧ g x = .no) → (∃ x, l[hi]? = some x ∧ g x = .yes) →
      ∃ i s', bsearchLoop arr f lo hi s = (.ok (some i), s') ∧ arr s' = l ∧ First g l (some i) := by
  intro lo hi
  induction hd : hi - lo using Nat.strongRecOn generalizing lo hi with
  | _ d ih =>
  intro s hs hlt hlo hhi
  rw [bsearchLoop]
  split
  · rename_i hmid
    have : hi = lo + 1 := by omega
    subst this
    refine ⟨lo + 1, s, rfl, hs, hhi, ?_⟩
    intro j x hj hx
    obtain ⟨y, hy, hno⟩ := hlo
    rcases hm.1 x (List.mem_of_getElem? hx) with h | h
    · have := hm.2 j lo x y (by omega) hx hy h
      rw [this] at hno; cases hno
    · exact h
  · rename_i hmid
    have hlen : hi < l.length := by
      obtain ⟨x, hx, _⟩ := hhi
      exact (List.getElem?_eq_some_iff.1 hx).1
    have hx : l[lo + (hi - lo) / 2]? = some l[lo + (hi - lo) / 2] := List.getElem?_eq_getElem (by omega)
    rcases truth_min hm hx with ⟨ht, hg⟩ | ⟨ht, hg⟩
    · obtain ⟨s', hs', e⟩ := askAt_answers hf hx ht hs (k := fun b s =>
        if b then bsearchLoop arr f lo (lo + (hi - lo) / 2) s else bsearchLoop arr f (lo + (hi - lo) / 2) hi s)
      rw [e]
      exact ih _ (show (lo + (hi - lo) / 2) - lo < d by omega) lo _ rfl s' hs' (by omega) hlo ⟨_, hx, hg⟩
    · obtain ⟨s', hs', e⟩ := askAt_answers hf hx ht hs (k := fun b s =>
        if b then bsearchLoop arr f lo (lo + (hi - lo) / 2) s else bsearchLoop arr f (lo + (hi - lo) / 2) hi s)
      rw [e]
      exact ih _ (show hi - (lo + (hi - lo) / 2) < d by omega) _ hi rfl s' hs' (by omega) ⟨_, hx, hg⟩ hhi

/-! ## C103 -/

/-- In find-minimum mode the first element with a true answer is found, or nil if there is none. -/
theorem C103_minimum {arr : σ → List α} {l : List α} {f : Ask σ ε α Ans} {g : α → Ans} (hf : Answers arr l f g) (hm : FindMinimum g l)
    {s : σ} (hs : arr s = l) : ∃ r s', bsearch arr f s = (.ok r, s') ∧ First g l r ∧ arr s' = l := by
  rw [bsearch, hs]
  split
  · rename_i h0
    have : l = [] := List.length_eq_zero_iff.1 h0
    subst this
    exact ⟨none, s, rfl, by simp [First], hs⟩
  · rename_i h0
    have hx : l[0]? = some l[0] := List.getElem?_eq_getElem (by omega)
    have hy : l[l.length - 1]? = some l[l.length - 1] := List.getElem?_eq_getElem (by omega)
    simp only
    rcases truth_min hm hx with ⟨ht, hg⟩ | ⟨ht, hg⟩
    · obtain ⟨s', hs', e⟩ := askAt_answers hf hx ht hs (k := fun b s =>
        if b then (.ok (some 0), s)
        else askAt arr f (l.length - 1) s fun b s => if !b then (.ok none, s) else bsearchLoop arr f 0 (l.length - 1) s)
      rw [e]
      exact ⟨some 0, s', rfl, ⟨⟨_, hx, hg⟩, fun j x hj _ => by omega⟩, hs'⟩
    · obtain ⟨s', hs', e⟩ := askAt_answers hf hx ht hs (k := fun b s =>
        if b then (.ok (some 0), s)
        else askAt arr f (l.length - 1) s fun b s => if !b then (.ok none, s) else bsearchLoop arr f 0 (l.length - 1) s)
      rw [e]
      simp only [Bool.false_eq_true, if_false]
      rcases truth_min hm hy with ⟨ht', hg'⟩ | ⟨ht', hg'⟩
      · obtain ⟨s₂, hs₂, e₂⟩ := askAt_answers hf hy ht' hs' (k := fun b s => if !b then (.ok none, s) else bsearchLoop arr f 0 (l.length - 1) s)
        rw [e₂]
        have hlt : 0 < l.length - 1 := by
          rcases Nat.eq_zero_or_pos (l.length - 1) with h | h
          · simp only [h] at hg'
            rw [hg] at hg'; cases hg'
          · exact h
        obtain ⟨i, s₃, e₃, hs₃, hfirst⟩ := loop_min hf hm 0 (l.length - 1) s₂ hs₂ hlt ⟨_, hx, hg⟩ ⟨_, hy, hg'⟩
        exact ⟨some i, s₃, by simpa using e₃, hfirst, hs₃⟩
      · obtain ⟨s₂, hs₂, e₂⟩ := askAt_answers hf hy ht' hs' (k := fun b s => if !b then (.ok none, s) else bsearchLoop arr f 0 (l.length - 1) s)
        rw [e₂]
        refine ⟨none, s₂, rfl, fun x hx' => ?_, hs₂⟩
        obtain ⟨i, hi, rfl⟩ := List.mem_iff_getElem.1 hx'
        rcases hm.1 _ hx' with h | h
        · have := hm.2 i (l.length - 1) _ _ (by omega) (List.getElem?_eq_getElem hi) hy h
          rw [this] at hg'; cases hg'
        · exact h

/-- Whatever the block answers, raises or changes: an element that is found is one for which it answered true or 0. -/
theorem C103_sound (arr : σ → List α) (f : Ask σ ε α Ans) (s s' : σ) (i : Nat) (h : bsearch arr f s = (.ok (some i), s')) :
    ∃ x t t' a, (arr t)[i]? = some x ∧ f x t = (.ok a, t') ∧ (a = .yes ∨ a = .num 0) := by
  have ask : ∀ {j s k r s'}, askAt arr f j s k = (.ok r, s') → ∃ x a b t, (arr s)[j]? = some x ∧ f x s = (.ok a, t) ∧
      a.truth = some b ∧ k b t = (.ok r, s') := by
    intro j s k r s' e
    unfold askAt at e
    split at e
    · cases e
    · rename_i x hx
      split at e
      · cases e
      · rename_i a t hfx
        split at e
        · cases e
        · rename_i b hb
          exact ⟨x, a, b, t, hx, hfx, hb, e⟩
  have truth : ∀ {a : Ans}, a.truth = some true → a = .yes ∨ a = .num 0 := by
    intro a ha
    cases a <;> simp_all [Ans.truth]
  have loop : ∀ (lo hi : Nat) (s s' : σ) (i : Nat), (∃ x t t' a, (arr t)[hi]? = some x ∧ f x t = (.ok a, t') ∧ (a = .yes ∨ a = .num 0)) →
      bsearchLoop arr f lo hi s = (.ok (some i), s') → ∃ x t t' a, (arr t)[i]? = some x ∧ f x t = (.ok a, t') ∧ (a = .yes ∨ a = .num 0) := by
    intro lo hi
    induction hd : hi - lo using Nat.strongRecOn generalizing lo hi with
    | _ d ih =>
    intro s s' i hhi e
    rw [bsearchLoop] at e
    split at e
    · cases e; exact hhi
    · obtain ⟨x, a, b, t, hx, hfx, hb, e⟩ := ask e
      cases b
      · exact ih (hi - (lo + (hi - lo) / 2)) (by omega) _ hi rfl t s' i hhi (by simpa using e)
      · exact ih (lo + (hi - lo) / 2 - lo) (by omega) lo _ rfl t s' i ⟨x, s, t, a, hx, hfx, truth hb⟩ (by simpa using e)
  unfold bsearch at h
  split at h
  · cases h
  · obtain ⟨x, a, b, t, hx, hfx, hb, e⟩ := ask h
    cases b
    · simp only [Bool.false_eq_true, if_false] at e
      obtain ⟨y, a', b', t', hy, hfy, hb', e⟩ := ask e
      cases b'
      · simp at e
      · simp only [Bool.not_true, Bool.false_eq_true, if_false] at e
        exact loop _ _ _ _ _ ⟨y, t, t', a', hy, hfy, truth hb'⟩ e
    · simp only [if_true, Prod.mk.injEq, Found.ok.injEq, Option.some.injEq] at e
      obtain ⟨rfl, rfl⟩ := e
      exact ⟨x, s, t, a, hx, hfx, truth hb⟩

/-- The block is called at most `⌈log₂ n⌉ + 2` times for `n` elements, whatever it does. -/
theorem C103_calls (arr : σ → List α) (f : Ask σ ε α Ans) (s : σ) (n : Nat) :
    (bsearch (fun t => arr t.1) (counted f) (s, n)).2.2 ≤ n + (Nat.clog 2 (arr s).length + 2) := by
  have ask : ∀ {j : Nat} {s : σ} {n : Nat} {k : Bool → σ × Nat → Found ε × (σ × Nat)} {m : Nat}, (∀ b u, (k b (u, n + 1)).2.2 ≤ m) → n + 1 ≤ m →
      (askAt (fun t => arr t.1) (counted f) j (s, n) k).2.2 ≤ m := by
    intro j s n k m hk hm
    unfold askAt
    split
    · exact Nat.le_of_succ_le hm
    · rename_i x hx
      rcases hfx : f x s with ⟨r, u⟩
      simp only [counted, hfx]
      rcases r with e | a
      · exact hm
      · simp only
        split
        · exact hm
        · exact hk _ _
  have loop : ∀ (lo hi : Nat) (s : σ) (n : Nat), (bsearchLoop (fun t => arr t.1) (counted f) lo hi (s, n)).2.2 ≤ n + Nat.clog 2 (hi - lo) := by
    intro lo hi
    induction hd : hi - lo using Nat.strongRecOn generalizing lo hi with
    | _ d ih =>
    intro s n
    rw [bsearchLoop]
    split
    · simp
    · rename_i hmid
      have h2 : 2 ≤ d := by omega
      have key : ∀ m, m ≤ (d + 1) / 2 → Nat.clog 2 m + 1 ≤ Nat.clog 2 d := fun m hm => by
        rw [Nat.clog_of_two_le (by omega : 1 < 2) h2]
        exact Nat.succ_le_succ (Nat.clog_mono_right 2 hm)
      refine ask (fun b u => ?_) ?_
      · cases b
        · simp only [Bool.false_eq_true, if_false]
          refine Nat.le_trans (ih (hi - (lo + (hi - lo) / 2)) (by omega) _ hi rfl u (n + 1)) ?_
          have := key (hi - (lo + (hi - lo) / 2)) (by omega)
          omega
        · simp only [if_true]
          refine Nat.le_trans (ih (lo + (hi - lo) / 2 - lo) (by omega) lo _ rfl u (n + 1)) ?_
          have := key (lo + (hi - lo) / 2 - lo) (by omega)
          omega
      · have := key 1 (by omega)
        omega
  unfold bsearch
  split
  · simp
  · refine ask (fun b u => ?_) (by omega)
    cases b
    · simp only [Bool.false_eq_true, if_false]
      refine ask (fun b u => ?_) (by omega)
      cases b
      · simp; omega
      · simp only [Bool.not_true, Bool.false_eq_true, if_false]
        refine Nat.le_trans (loop _ _ _ _) ?_
        have : Nat.clog 2 ((arr s).length - 1 - 0) ≤ Nat.clog 2 (arr s).length := Nat.clog_mono_right 2 (by omega)
        omega
    · simp

/-- An exception of the block ends the search, and an answer that is no number, true, false or nil is a TypeError. -/
theorem C103_ends (arr : σ → List α) (f : Ask σ ε α Ans) (s : σ) {x : α} {l : List α} (hx : arr s = x :: l) :
    (∀ e s', f x s = (.error e, s') → bsearch arr f s = (.raised e, s')) ∧
    (∀ s', f x s = (.ok .other, s') → bsearch arr f s = (.typeError, s')) := by
  constructor
  · intro e s' h; simp [bsearch, askAt, hx, h]
  · intro s' h; simp [bsearch, askAt, hx, h, Ans.truth]

/-! ## Examples and differences -/

/-- `[0, 4, 7, 10, 12].bsearch_index { |x| x >= 6 }` -/
example : (bsearch (ε := Empty) (fun _ : Unit => [0, 4, 7, 10, 12]) (fun x s => (.ok (if x ≥ 6 then .yes else .no), s)) ()).1 = .ok (some 2) := by
  simp [bsearch, askAt, bsearchLoop, Ans.truth]

example : Answers (ε := Empty) (fun _ : Unit => [0, 4, 7, 10, 12]) [0, 4, 7, 10, 12] (fun x s => (.ok (if x ≥ 6 then .yes else .no), s))
    (fun x => if x ≥ 6 then .yes else .no) ∧ FindMinimum (fun x : Nat => if x ≥ 6 then .yes else .no) [0, 4, 7, 10, 12] := by
  refine ⟨fun x _ s hs => ⟨s, rfl, hs⟩, fun x _ => by by_cases h : x ≥ 6 <;> simp [h], ?_⟩
  intro i j x y hij hx hy
  have hi : i < 5 := (List.getElem?_eq_some_iff.1 hx).1
  have hj : j < 5 := (List.getElem?_eq_some_iff.1 hy).1
  have hi' : i = 0 ∨ i = 1 ∨ i = 2 ∨ i = 3 ∨ i = 4 := by omega
  have hj' : j = 0 ∨ j = 1 ∨ j = 2 ∨ j = 3 ∨ j = 4 := by omega
  rcases hi' with rfl | rfl | rfl | rfl | rfl <;> rcases hj' with rfl | rfl | rfl | rfl | rfl <;> simp_all <;> omega

/-- Find-any mode does not work: `[1, 2, 3].bsearch { |x| 2 <=> x }` is nil. -/
theorem C103_any_fails : ∃ (g : Int → Ans), (∀ x, g x = .num (if 2 < x then -1 else if 2 = x then 0 else 1)) ∧
    (bsearch (ε := Empty) (fun _ : Unit => [1, 2, 3]) (fun x s => (.ok (g x), s)) ()).1 = .ok none ∧ g 2 = .num 0 :=
  ⟨_, fun _ => rfl, by simp [bsearch, askAt, Ans.truth], rfl⟩

/-- A block that shortens the array stops the interpreter. -/
theorem C103_shrink_fails : (bsearch (ε := Empty) (fun s : List Nat => s) (fun _ _ => (.ok .no, [])) [1, 2]).1 = .panic := by
  simp [bsearch, askAt, Ans.truth]

end Verif.Arr.Search
