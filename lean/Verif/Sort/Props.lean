import Verif.Sort.Inv
import Mathlib.Data.List.Basic
/-!
# C20, C21, C22: sorting

`compare a b s` is the comparison a program supplies (a block, or `<=>`): it runs in interpreter state `s`, may change
it, and either answers or raises.
-/
namespace Verif.Sort
section
variable {T σ ε : Type}

/-! ## Specification -/

/-- A consistent comparison: swapping the arguments swaps the answer, and "not greater" is transitive. -/
structure Consistent (ord : T → T → Ord) : Prop where
  swap : ∀ a b, ord a b = .lt ↔ ord b a = .gt
  trans : ∀ a b c, ord a b ≠ .gt → ord b c ≠ .gt → ord a c ≠ .gt

/-- The comparison always answers `ord a b`, whatever it does to the state of the interpreter. -/
def Answers (compare : T → T → σ → Except ε Ord × σ) (ord : T → T → Ord) : Prop :=
  ∀ a b s, ∃ s', compare a b s = (.ok (ord a b), s')

/-- Non-descending order: no element is greater than one that comes after it. -/
def Ordered (ord : T → T → Ord) (l : List T) : Prop := l.Pairwise (fun x y => ord x y ≠ .gt)

/-! ## Permutation, whatever the comparison does -/

theorem mergeE_perm (is_less : Less T σ ε) (A B : List T) (s : σ) : (A ++ B).Perm (mergeE is_less A B s).1 := by
  fun_induction mergeE is_less A B s with
  | case1 => simp
  | case2 => simp
  | case3 => simp
  | case4 a A b B s s' h ih =>
    refine List.Perm.trans ?_ (ih.cons b)
    exact List.perm_middle
  | case5 a A b B s s' h ih => exact ih.cons a

theorem adm_perm (is_less : Less T σ ε) : Adm is_less (fun _ => True) List.Perm where
  refl := List.Perm.refl
  trans := fun _ _ _ => List.Perm.trans
  app := fun _ _ _ _ => List.Perm.append
  nil := trivial
  single := fun _ => trivial
  lo := fun A B s _ _ => ⟨mergeE_perm is_less A B s, fun _ => trivial⟩
  hi := fun A B s _ _ => ⟨by
    have := mergeE_perm (fun x y => is_less y x) B.reverse A.reverse s
    refine List.Perm.trans ?_ (List.reverse_perm _).symm
    refine List.Perm.trans ?_ this
    rw [← List.reverse_append]
    exact (List.reverse_perm _).symm, fun _ => trivial⟩
  asc := fun _ _ => trivial
  desc := fun l _ => ⟨trivial, (List.reverse_perm l).symm⟩

/-- C22: whatever the comparison does — answer inconsistently, change its mind, raise at any point — the vector being
sorted holds the same elements afterwards, each the same number of times; and the sort raises only what a comparison
raised. -/
theorem C22_permutation (compare : T → T → σ → Except ε Ord × σ) (v : List T) (s : σ) :
    (sort_by compare v s).1.Perm v ∧
    ∀ e, (sort_by compare v s).2.2 = .error e → ∃ a b s1 s2, compare a b s1 = (.error e, s2) := by
  have := merge_sort_inv (adm_perm (lessOf compare)) v s
  refine ⟨this.1.symm, ?_⟩
  intro e he
  rcases this.2.1 with h | ⟨a, b, s1, s2, e', h1, h2⟩
  · rw [sort_by] at he
    rw [he] at h
    cases h
  · rw [sort_by] at he
    rw [he] at h2
    cases h2
    rcases hc : compare a b s1 with ⟨r, s'⟩
    rw [lessOf, hc] at h1
    rcases r with e'' | o
    · exact ⟨a, b, s1, s2, by simpa [hc] using h1⟩
    · simp at h1

/-! ## Order and stability -/

section Pure
variable (less : T → T → Bool)

/-- The answers of the comparison, with state and exceptions left out. -/
def mergeP : List T → List T → List T
  | [], B => B
  | a :: A, [] => a :: A
  | a :: A, b :: B => if less b a then b :: mergeP (a :: A) B else a :: mergeP A (b :: B)
  termination_by A B => A.length + B.length

structure Weak : Prop where
  asymm : ∀ a b, less a b = true → less b a = false
  ntrans : ∀ a b c, less b a = false → less c b = false → less c a = false

def SortedP (l : List T) : Prop := l.Pairwise (fun x y => less y x = false)
def eqv (x y : T) : Bool := !less x y && !less y x
/-- Every class of mutually equal elements appears in the same order. -/
def Stab (l l' : List T) : Prop := ∀ x, l'.filter (eqv less x) = l.filter (eqv less x)

variable {less}

theorem mergeP_mem (A B : List T) (x : T) : x ∈ mergeP less A B ↔ x ∈ A ∨ x ∈ B := by
  fun_induction mergeP less A B with
  | case1 => simp
  | case2 => simp
  | case3 a A b B h ih => simp [ih]; tauto
  | case4 a A b B h ih => simp [ih]; tauto

theorem mergeP_sorted (hw : Weak less) (A B : List T) (hA : SortedP less A) (hB : SortedP less B) :
    SortedP less (mergeP less A B) := by
  fun_induction mergeP less A B with
  | case1 => exact hB
  | case2 => exact hA
  | case3 a A b B h ih =>
    have hB' := List.pairwise_cons.mp hB
    refine List.pairwise_cons.mpr ⟨?_, ih hA hB'.2⟩
    intro y hy
    rcases (mergeP_mem _ _ _).mp hy with hy | hy
    · have hab := hw.asymm _ _ h
      rcases List.mem_cons.mp hy with rfl | hy
      · exact hab
      · exact hw.ntrans b a y hab ((List.pairwise_cons.mp hA).1 y hy)
    · exact hB'.1 y hy
  | case4 a A b B h ih =>
    have hA' := List.pairwise_cons.mp hA
    have hba : less b a = false := by simpa using h
    refine List.pairwise_cons.mpr ⟨?_, ih hA'.2 hB⟩
    intro y hy
    rcases (mergeP_mem _ _ _).mp hy with hy | hy
    · exact hA'.1 y hy
    · rcases List.mem_cons.mp hy with rfl | hy
      · exact hba
      · exact hw.ntrans a b y hba ((List.pairwise_cons.mp hB).1 y hy)

theorem mergeP_stab (hw : Weak less) (A B : List T) (hA : SortedP less A) (hB : SortedP less B) (x : T) :
    (mergeP less A B).filter (eqv less x) = A.filter (eqv less x) ++ B.filter (eqv less x) := by
  fun_induction mergeP less A B with
  | case1 => simp
  | case2 => simp
  | case3 a A b B h ih =>
    have ih := ih hA (List.pairwise_cons.mp hB).2
    rw [List.filter_cons, ih, List.filter_cons (x := b)]
    split
    · rename_i hx
      have : (a :: A).filter (eqv less x) = [] := by
        rw [List.filter_eq_nil_iff]
        intro y hy hxy
        have hay : less y a = false := by
          rcases List.mem_cons.mp hy with rfl | hy
          · rcases hyy : less y y with _ | _
            · rfl
            · exact absurd (hw.asymm _ _ hyy) (by simp [hyy])
          · exact (List.pairwise_cons.mp hA).1 y hy
        simp [eqv] at hx hxy
        have hby : less b y = false := hw.ntrans y x b hxy.1 hx.2
        have := hw.ntrans a y b hay hby
        simp [h] at this
      rw [this]; simp
    · rfl
  | case4 a A b B h ih =>
    have ih := ih (List.pairwise_cons.mp hA).2 hB
    rw [List.filter_cons, ih, List.filter_cons (x := a)]
    split <;> rfl

variable {is_less : Less T σ ε} (hp : ∀ a b s, ∃ s', is_less a b s = (.ok (less a b), s'))
include hp

theorem mergeE_pure (A B : List T) (s : σ) :
    (mergeE is_less A B s).1 = mergeP less A B ∧ (mergeE is_less A B s).2.2 = .ok () := by
  fun_induction mergeE is_less A B s with
  | case1 => simp [mergeP]
  | case2 => simp [mergeP]
  | case3 a A b B s e s' h =>
    obtain ⟨s2, h2⟩ := hp b a s
    rw [h2] at h; simp at h
  | case4 a A b B s s' h ih =>
    obtain ⟨s2, h2⟩ := hp b a s
    rw [h2] at h
    simp at h
    rw [mergeP, if_pos h.1]
    exact ⟨by rw [ih.1], ih.2⟩
  | case5 a A b B s s' h ih =>
    obtain ⟨s2, h2⟩ := hp b a s
    rw [h2] at h
    simp at h
    rw [mergeP, if_neg (by simp [h.1])]
    exact ⟨by rw [ih.1], ih.2⟩

theorem adm_stab (hw : Weak less) : Adm is_less (SortedP less) (Stab less) where
  refl := fun l x => rfl
  trans := fun a b c h1 h2 x => (h2 x).trans (h1 x)
  app := fun a a' b b' h1 h2 x => by rw [List.filter_append, List.filter_append, h1 x, h2 x]
  nil := List.Pairwise.nil
  single := fun a => List.pairwise_singleton _ _
  lo := fun A B s hA hB => by
    rw [(mergeE_pure hp A B s).1]
    exact ⟨fun x => by rw [mergeP_stab hw A B hA hB, List.filter_append], fun _ => mergeP_sorted hw A B hA hB⟩
  hi := fun A B s hA hB => by
    have hp' : ∀ a b s, ∃ s', (fun x y => is_less y x) a b s = (.ok ((fun x y => less y x) a b), s') :=
      fun a b s => hp b a s
    have hw' : Weak (fun x y => less y x) := ⟨fun a b h => hw.asymm b a h, fun a b c h1 h2 => hw.ntrans c b a h2 h1⟩
    have hA' : SortedP (fun x y => less y x) A.reverse := by
      rw [SortedP, List.pairwise_reverse]; exact hA
    have hB' : SortedP (fun x y => less y x) B.reverse := by
      rw [SortedP, List.pairwise_reverse]; exact hB
    rw [(mergeE_pure hp' B.reverse A.reverse s).1]
    refine ⟨fun x => ?_, fun _ => ?_⟩
    · have h := mergeP_stab hw' _ _ hB' hA' x
      have he : eqv (fun x y => less y x) x = eqv less x := by
        funext y; simp [eqv, Bool.and_comm]
      rw [he] at h
      rw [List.filter_reverse, h, List.reverse_append, ← List.filter_reverse, ← List.filter_reverse, List.reverse_reverse,
        List.reverse_reverse, List.filter_append]
    · have h := mergeP_sorted hw' _ _ hB' hA'
      rw [SortedP, List.pairwise_reverse]; exact h
  asc := fun l hc => by
    have : l.IsChain (fun x y => less y x = false) := by
      refine hc.imp ?_
      rintro a b ⟨s, s', h⟩
      obtain ⟨s2, h2⟩ := hp b a s
      rw [h2] at h; simp at h; exact h.1
    have ht : IsTrans T (fun x y => less y x = false) := ⟨fun a b c => hw.ntrans a b c⟩
    exact List.isChain_iff_pairwise.mp this
  desc := fun l hc => by
    have hch : l.IsChain (fun x y => less y x = true) := by
      refine hc.imp ?_
      rintro a b ⟨s, s', h⟩
      obtain ⟨s2, h2⟩ := hp b a s
      rw [h2] at h; simp at h; exact h.1
    have ltrans : ∀ a b c, less b a = true → less c b = true → less c a = true := by
      intro a b c h1 h2
      rcases h : less c a with _ | _
      · have h3 := hw.asymm _ _ h2
        have h4 := hw.ntrans a c b h h3
        simp [h1] at h4
      · rfl
    have ht : IsTrans T (fun x y => less y x = true) := ⟨fun a b c => ltrans a b c⟩
    have hpw : l.Pairwise (fun x y => less y x = true) := List.isChain_iff_pairwise.mp hch
    refine ⟨?_, ?_⟩
    · rw [SortedP, List.pairwise_reverse]
      exact hpw.imp (fun {a b} h => hw.asymm _ _ h)
    · intro x
      rw [List.filter_reverse]
      have h1 : (l.filter (eqv less x)).Pairwise (fun x y => less y x = true) := hpw.filter _
      match hf : l.filter (eqv less x), h1 with
      | [], _ => rfl
      | [a], _ => rfl
      | a :: b :: r, h1 =>
        have hba : less b a = true := (List.pairwise_cons.mp h1).1 b (by simp)
        have ha : a ∈ l.filter (eqv less x) := by rw [hf]; simp
        have hb : b ∈ l.filter (eqv less x) := by rw [hf]; simp
        rw [List.mem_filter] at ha hb
        have ha := ha.2
        have hb := hb.2
        simp [eqv] at ha hb
        have := hw.ntrans a x b ha.1 hb.2
        simp [hba] at this

end Pure

variable {compare : T → T → σ → Except ε Ord × σ} {ord : T → T → Ord}

theorem weak_of_consistent (hc : Consistent ord) : Weak (fun a b => decide (ord a b = .lt)) where
  asymm := fun a b h => by
    have h1 : ord a b = .lt := by simpa using h
    have h2 := (hc.swap a b).mp h1
    simp [h2]
  ntrans := fun a b c h1 h2 => by
    have e1 : ord a b ≠ .gt := fun h => by rw [← hc.swap] at h; simp [h] at h1
    have e2 : ord b c ≠ .gt := fun h => by rw [← hc.swap] at h; simp [h] at h2
    have e3 := hc.trans a b c e1 e2
    simp only [decide_eq_false_iff_not]
    intro h
    exact e3 ((hc.swap c a).mp h)

theorem sort_by_stab (hc : Consistent ord) (ha : Answers compare ord) (v : List T) (s : σ) :
    (sort_by compare v s).2.2 = .ok () ∧ SortedP (fun a b => decide (ord a b = .lt)) (sort_by compare v s).1 ∧
    Stab (fun a b => decide (ord a b = .lt)) v (sort_by compare v s).1 := by
  have hp : ∀ a b s, ∃ s', lessOf compare a b s = (.ok (decide (ord a b = .lt)), s') := by
    intro a b s
    obtain ⟨s', h⟩ := ha a b s
    exact ⟨s', by simp [lessOf, h]⟩
  have := merge_sort_inv (adm_stab hp (weak_of_consistent hc)) v s
  have hok : (sort_by compare v s).2.2 = .ok () := by
    rcases this.2.1 with h | ⟨a, b, s1, s2, e, h1, h2⟩
    · exact h
    · obtain ⟨s', h⟩ := hp a b s1
      rw [h] at h1
      cases h1
  exact ⟨hok, this.2.2 hok, this.1⟩

/-- C20: with a consistent comparison that answers, the sort succeeds and leaves the same elements, in non-descending
order. -/
theorem C20_sorted (hc : Consistent ord) (ha : Answers compare ord) (v : List T) (s : σ) :
    (sort_by compare v s).2.2 = .ok () ∧ (sort_by compare v s).1.Perm v ∧ Ordered ord (sort_by compare v s).1 := by
  obtain ⟨h1, h2, _⟩ := sort_by_stab hc ha v s
  refine ⟨h1, (C22_permutation compare v s).1, h2.imp ?_⟩
  intro x y h hgt
  rw [← hc.swap] at hgt
  simp [hgt] at h

/-- C21: elements that compare equal to any given `x` appear in the result in their original order. -/
theorem C21_stable (hc : Consistent ord) (ha : Answers compare ord) (v : List T) (s : σ) (x : T) :
    (sort_by compare v s).1.filter (fun y => decide (ord x y = .eq)) = v.filter (fun y => decide (ord x y = .eq)) := by
  obtain ⟨_, _, h⟩ := sort_by_stab hc ha v s
  have e : (fun y => decide (ord x y = .eq)) = eqv (fun a b => decide (ord a b = .lt)) x := by
    funext y
    have h1 := hc.swap x y
    have h2 := hc.swap y x
    simp only [eqv]
    rcases ho : ord x y <;> rcases ho' : ord y x <;> simp_all
  rw [e]
  exact h x

/-- Non-vacuity of C20/C21: sorting 25 pairs by their first component, a list long enough for the merge path, with
equal keys. -/
def ordNat (a b : Nat) : Ord := if a < b then .lt else if b < a then .gt else .eq

theorem ordNat_consistent {A : Type} (f : A → Nat) : Consistent (fun a b => ordNat (f a) (f b)) where
  swap := fun a b => by simp only [ordNat]; split <;> split <;> simp_all <;> omega
  trans := fun a b c => by
    have key : ∀ x y : Nat, ordNat x y ≠ .gt ↔ x ≤ y := by
      intro x y
      unfold ordNat
      split
      · simp; omega
      · split
        · simp; omega
        · simp; omega
    simp only [key]
    omega

/-- a comparison that counts how often it was called -/
def cmpPair (a b : Nat × Nat) (s : Nat) : Except Unit Ord × Nat := (.ok (ordNat a.1 b.1), s + 1)

example : Consistent (fun a b : Nat × Nat => ordNat a.1 b.1) ∧ Answers cmpPair (fun a b => ordNat a.1 b.1) ∧
    (sort_by cmpPair ((List.range 25).map (fun i => ((i * 7) % 3, i))) 0).1.map (·.2) =
      [0, 3, 6, 9, 12, 15, 18, 21, 24, 1, 4, 7, 10, 13, 16, 19, 22, 2, 5, 8, 11, 14, 17, 20, 23] :=
  ⟨ordNat_consistent _, fun _ _ s => ⟨s + 1, rfl⟩, by decide +kernel⟩

/-- Non-vacuity of C22: the comparison raises the thirtieth time it is called. -/
def cmpFail (a b : Nat) (s : Nat) : Except String Ord × Nat :=
  if s = 30 then (.error "boom", s) else (.ok (ordNat b a), s + 1)

example : (sort_by cmpFail ((List.range 22).map (fun i => (i * 7) % 22)) 0).2.2 = .error "boom" ∧
    (sort_by cmpFail ((List.range 22).map (fun i => (i * 7) % 22)) 0).1 ≠ (List.range 22).map (fun i => (i * 7) % 22) := by
  decide +kernel

/-! ## `Array#sort` without a block, and `Array#sort_by` -/

/-- C20 for `Array#sort` without a block: if `<=>` between elements is consistent and always answers an integer, the
result is the elements in non-descending, stable order. -/
theorem C20_sort_array (incomparable notOrdering : ε) {cmp : T → T → σ → Except ε Ans × σ} (hc : Consistent ord)
    (ha : ∀ a b s, ∃ s', cmp a b s = (.ok (.ord (ord a b)), s')) (v : List T) (s : σ) :
    let o := sort_array incomparable notOrdering cmp v s
    o.2.2 = .ok () ∧ o.1.Perm v ∧ Ordered ord o.1 ∧
    ∀ x, o.1.filter (fun y => decide (ord x y = .eq)) = v.filter (fun y => decide (ord x y = .eq)) := by
  cases v with
  | nil => exact ⟨rfl, .refl _, List.Pairwise.nil, fun _ => rfl⟩
  | cons a l =>
    have hck : ∀ (l : List T) (s : σ), ∃ s', checkComparable incomparable cmp a l s = (s', .ok ()) := by
      intro l
      induction l with
      | nil => intro s; exact ⟨s, rfl⟩
      | cons x l ih =>
        intro s
        obtain ⟨s', h⟩ := ha a x s
        obtain ⟨s'', h'⟩ := ih s'
        exact ⟨s'', by simp [checkComparable, h, h']⟩
    obtain ⟨s', h⟩ := hck l s
    have ha' : Answers (orderBy notOrdering cmp) ord := by
      intro a b s
      obtain ⟨s', h⟩ := ha a b s
      exact ⟨s', by simp [orderBy, h, to_ordering]⟩
    have e : sort_array incomparable notOrdering cmp (a :: l) s = sort_by (orderBy notOrdering cmp) (a :: l) s' := by
      simp [sort_array, h]
    dsimp only
    rw [e]
    have h20 := C20_sorted hc ha' (a :: l) s'
    exact ⟨h20.1, h20.2.1, h20.2.2, C21_stable hc ha' (a :: l) s'⟩

/-- C20 for `Array#sort` with a block. -/
theorem C20_sort_block (notOrdering : ε) {block : T → T → σ → Except ε Ans × σ} (hc : Consistent ord)
    (ha : ∀ a b s, ∃ s', block a b s = (.ok (.ord (ord a b)), s')) (v : List T) (s : σ) :
    ∃ w s', array_sort_block notOrdering block v s = (.ok w, s') ∧ w.Perm v ∧ Ordered ord w ∧
      ∀ x, w.filter (fun y => decide (ord x y = .eq)) = v.filter (fun y => decide (ord x y = .eq)) := by
  have ha' : Answers (orderBy notOrdering block) ord := by
    intro a b s
    obtain ⟨s', h⟩ := ha a b s
    exact ⟨s', by simp [orderBy, h, to_ordering]⟩
  have h20 := C20_sorted hc ha' v s
  have h21 := C21_stable hc ha' v s
  rcases hs : sort_by (orderBy notOrdering block) v s with ⟨w, s', r⟩
  rw [hs] at h20
  simp only [hs] at h21
  dsimp only at h20
  obtain ⟨rfl, h1, h2⟩ := h20
  exact ⟨w, s', by simp [array_sort_block, hs], h1, h2, h21⟩

/-- C20 for `Array#sort`: an array whose first element does not compare with some other one is rejected, whatever the
rest. -/
theorem C20_incomparable (incomparable notOrdering : ε) {cmp : T → T → σ → Except ε Ans × σ} {ans : T → T → Ans}
    (ha : ∀ a b s, ∃ s', cmp a b s = (.ok (ans a b), s')) (a x : T) (l : List T) (hx : x ∈ l) (hn : ans a x = .nil) (s : σ) :
    (sort_array incomparable notOrdering cmp (a :: l) s).2.2 = .error incomparable ∧
    (sort_array incomparable notOrdering cmp (a :: l) s).1 = a :: l := by
  have hck : ∀ (l : List T) (s : σ), x ∈ l → ∃ s', checkComparable incomparable cmp a l s = (s', .error incomparable) := by
    intro l
    induction l with
    | nil => intro s h; simp at h
    | cons y l ih =>
      intro s hx
      obtain ⟨s', h⟩ := ha a y s
      by_cases hy : ans a y = .nil
      · exact ⟨s', by simp [checkComparable, h, hy]⟩
      · have hx' : x ∈ l := by
          rcases List.mem_cons.mp hx with rfl | h
          · exact absurd hn hy
          · exact h
        obtain ⟨s'', h'⟩ := ih s' hx'
        refine ⟨s'', ?_⟩
        rw [checkComparable, h]
        match hyy : ans a y with
        | .nil => exact absurd hyy hy
        | .ord o => exact h'
        | .other => exact h'
  obtain ⟨s', h⟩ := hck l s hx
  simp [sort_array, h]

theorem keyAll_pure {K : Type} {block : T → σ → Except ε K × σ} {key : T → K}
    (hk : ∀ a s, ∃ s', block a s = (.ok (key a), s')) : ∀ (v : List T) (s : σ),
    ∃ s', keyAll block v s = (.ok (v.map (fun x => (x, key x))), s') := by
  intro v
  induction v with
  | nil => intro s; exact ⟨s, rfl⟩
  | cons x v ih =>
    intro s
    obtain ⟨s', h⟩ := hk x s
    obtain ⟨s'', h'⟩ := ih s'
    exact ⟨s'', by simp [keyAll, h, h']⟩

/-- C20/C21 for `Array#sort_by`: the elements ordered by the keys the block gives, equal keys in original order. -/
theorem C20_sort_by {K : Type} (notOrdering : ε) {cmp : K → K → σ → Except ε Ans × σ} {block : T → σ → Except ε K × σ}
    {ord : K → K → Ord} {key : T → K} (hc : Consistent ord)
    (ha : ∀ a b s, ∃ s', cmp a b s = (.ok (.ord (ord a b)), s'))
    (hk : ∀ a s, ∃ s', block a s = (.ok (key a), s')) (v : List T) (s : σ) :
    ∃ w s', array_sort_by notOrdering cmp block v s = (.ok w, s') ∧ w.Perm v ∧
      w.Pairwise (fun x y => ord (key x) (key y) ≠ .gt) ∧
      ∀ k, w.filter (fun y => decide (ord k (key y) = .eq)) = v.filter (fun y => decide (ord k (key y) = .eq)) := by
  obtain ⟨s', h⟩ := keyAll_pure hk v s
  have hc' : Consistent (fun (a b : T × K) => ord a.2 b.2) :=
    ⟨fun a b => hc.swap _ _, fun a b c => hc.trans _ _ _⟩
  have ha' : Answers (fun (a b : T × K) => orderBy notOrdering cmp a.2 b.2) (fun a b => ord a.2 b.2) := by
    intro a b s
    obtain ⟨s', h⟩ := ha a.2 b.2 s
    exact ⟨s', by simp [orderBy, h, to_ordering]⟩
  have h20 := C20_sorted hc' ha' (v.map (fun x => (x, key x))) s'
  have h21 := C21_stable hc' ha' (v.map (fun x => (x, key x))) s'
  rcases hs : sort_by (fun (a b : T × K) => orderBy notOrdering cmp a.2 b.2) (v.map (fun x => (x, key x))) s' with ⟨w, s'', r⟩
  rw [hs] at h20
  simp only [hs] at h21
  dsimp only at h20
  obtain ⟨rfl, hperm, hord⟩ := h20
  have hkey : ∀ p ∈ w, p.2 = key p.1 := by
    intro p hp
    have := hperm.mem_iff.mp hp
    obtain ⟨x, _, rfl⟩ := List.mem_map.mp this
    rfl
  refine ⟨w.map (·.1), s'', ?_, ?_, ?_, ?_⟩
  · simp only [array_sort_by, h]
    simp only [hs]
  · have := hperm.map (·.1)
    simpa [Function.comp_def] using this
  · rw [List.pairwise_map]
    refine List.Pairwise.imp_of_mem ?_ hord
    intro a b ha hb h
    rw [← hkey a ha, ← hkey b hb]; exact h
  · intro k
    -- any element of key class `k`
    have hf : ∀ (l : List (T × K)), (∀ p ∈ l, p.2 = key p.1) →
        (l.map (·.1)).filter (fun y => decide (ord k (key y) = .eq)) =
          (l.filter (fun p => decide (ord k p.2 = .eq))).map (·.1) := by
      intro l hl
      induction l with
      | nil => rfl
      | cons p l ih =>
        have hp := hl p (by simp)
        have := ih (fun q hq => hl q (by simp [hq]))
        simp only [List.map_cons, List.filter_cons, hp, this]
        split <;> simp
    rw [hf w hkey]
    match v with
    | [] =>
      have : w = [] := by simpa using hperm
      simp [this]
    | x0 :: _ =>
      have h21' := h21 (x0, k)
      dsimp only at h21'
      rw [h21']
      rw [← hf _ (by intro p hp; obtain ⟨x, _, rfl⟩ := List.mem_map.mp hp; rfl)]
      simp [Function.comp_def]

example : (array_sort_by "no" (fun (a b : Nat) (s : Nat) => (.ok (.ord (ordNat a b)), s + 1))
    (fun (x : Nat) (s : Nat) => (.ok (x % 3), s)) [5, 4, 3, 2, 1, 0] 0).1 = .ok [3, 0, 4, 1, 5, 2] := by decide +kernel

end
end Verif.Sort
