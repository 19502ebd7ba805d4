import Verif.Heap.Mark
import Mathlib.Data.List.Range
import Mathlib.Data.List.Flatten
/-! Helper lemmas: what the sweep phase frees, and the list it builds. -/
namespace Verif.Heap
variable {D : Type}

theorem sweepBitsLoop_eq (page : Nat) : ∀ (n : Nat) (map : BitVec 64) (ptr : Nat) (st : SweepSt D) (c : Nat),
    sweepBitsLoop page n map ptr st c =
      (ptr + n, (((List.range n).filter (fun j => !map.getLsbD j)).map (fun j => (⟨page, ptr + j⟩ : Cell))).foldl sweepCell st,
        c + ((List.range n).filter (fun j => !map.getLsbD j)).length) := by
  intro n
  induction n with
  | zero => intros; simp [sweepBitsLoop]
  | succ n ih =>
    intro map ptr st c
    have h0 : (map &&& 1 = 0) ↔ map.getLsbD 0 = false := by
      have : (1 : BitVec 64) = BitVec.twoPow 64 0 := by decide
      rw [this, BitVec.and_twoPow]
      rcases map.getLsbD 0 with _ | _ <;> simp
      decide
    have hshift : ∀ j, (map >>> 1).getLsbD j = map.getLsbD (j + 1) := by
      intro j; rw [BitVec.getLsbD_ushiftRight, Nat.add_comm]
    rw [sweepBitsLoop, List.range_succ_eq_map]
    simp only [ih, hshift, List.filter_cons, List.filter_map, Function.comp_def]
    rcases h : map.getLsbD 0 with _ | _
    · rw [if_pos (h0.mpr h)]
      simp [List.map_map, Function.comp_def, Nat.add_comm, Nat.add_left_comm]
      omega
    · rw [if_neg (by rw [h0]; simp [h])]
      simp [List.map_map, Function.comp_def, Nat.add_comm, Nat.add_left_comm]

theorem trailing_ones_le (w : BitVec 64) : trailing_ones w ≤ 64 := by
  have := (List.takeWhile_prefix (l := List.range 64) (fun i => w.getLsbD i)).length_le
  simpa [trailing_ones] using this

theorem mem_takeWhile_true {α : Type} (p : α → Bool) : ∀ (l : List α) (x : α), x ∈ l.takeWhile p → p x = true := by
  intro l
  induction l with
  | nil => intro x h; simp at h
  | cons y ys ih =>
    intro x h
    rw [List.takeWhile_cons] at h
    rcases hy : p y with _ | _
    · simp [hy] at h
    · simp only [hy, if_true, List.mem_cons] at h
      rcases h with rfl | h
      · exact hy
      · exact ih x h

theorem trailing_ones_set (w : BitVec 64) (j : Nat) (h : j < trailing_ones w) : w.getLsbD j = true := by
  have hle := trailing_ones_le w
  obtain ⟨t, ht⟩ := List.takeWhile_prefix (l := List.range 64) (fun i => w.getLsbD i)
  have hj : ((List.range 64).takeWhile (fun i => w.getLsbD i))[j]? = some j := by
    rw [← List.getElem?_append_left (l₂ := t) (by simpa [trailing_ones] using h), ht]
    exact List.getElem?_range (by omega)
  exact mem_takeWhile_true _ _ _ (List.mem_of_getElem? hj)

theorem sweep_bits_eq (page bit : Nat) (hbit : bit ≤ 64) (map : BitVec 64) (ptr : Nat) (st : SweepSt D) :
    (sweep_bits page bit map ptr st).2 =
      ((((List.range bit).filter (fun j => !map.getLsbD j)).map (fun j => (⟨page, ptr + j⟩ : Cell))).foldl sweepCell st,
        ((List.range bit).filter (fun j => !map.getLsbD j)).length) ∧
    (bit = 64 → (sweep_bits page bit map ptr st).1 = ptr + 64) := by
  have hle := trailing_ones_le map
  have hset := trailing_ones_set map
  rw [sweep_bits]
  generalize htt : trailing_ones map = t at *
  rw [sweepBitsLoop_eq]
  refine ⟨?_, fun h => by dsimp only; omega⟩
  by_cases hlt : bit ≤ t
  · have e : (List.range bit).filter (fun j => !map.getLsbD j) = [] := by
      rw [List.filter_eq_nil_iff]
      intro j hj
      simp [hset j (by have := List.mem_range.mp hj; omega)]
    have e2 : bit - t = 0 := by omega
    simp [e, e2]
  · have hb : bit = t + (bit - t) := by omega
    have e : (List.range bit).filter (fun j => !map.getLsbD j) =
        ((List.range (bit - t)).filter (fun j => !map.getLsbD (t + j))).map (fun j => t + j) := by
      rw [hb, List.range_add, List.filter_append, List.filter_map]
      have : (List.range t).filter (fun j => !map.getLsbD j) = [] := by
        rw [List.filter_eq_nil_iff]
        intro j hj
        simp [hset j (List.mem_range.mp hj)]
      rw [this, List.nil_append, ← hb]
      rfl
    have e3 : ∀ j, (if t < 64 then map >>> t else 0).getLsbD j = map.getLsbD (t + j) := by
      intro j
      rw [if_pos (by omega), BitVec.getLsbD_ushiftRight]
    simp only [e3, e, List.map_map, List.length_map, Function.comp_def]
    simp [Nat.add_assoc]

/-- The unmarked cells among the first `n` of a page. -/
def deadIn (bits : Nat → BitVec 64) (page n : Nat) : List Cell :=
  ((List.range n).filter (fun i => !(bits (i / 64)).getLsbD (i % 64))).map (fun i => ⟨page, i⟩)

theorem dead_word (bits : Nat → BitVec 64) (page w bit : Nat) (hbit : bit ≤ 64) :
    ((List.range' (64 * w) bit).filter (fun i => !(bits (i / 64)).getLsbD (i % 64))).map (fun i => (⟨page, i⟩ : Cell)) =
      ((List.range bit).filter (fun j => !(bits w).getLsbD j)).map (fun j => ⟨page, 64 * w + j⟩) := by
  rw [List.range'_eq_map_range, List.filter_map, List.map_map]
  have : (List.range bit).filter ((fun i => !(bits (i / 64)).getLsbD (i % 64)) ∘ fun x => 64 * w + x) =
      (List.range bit).filter (fun j => !(bits w).getLsbD j) := by
    apply List.filter_congr
    intro j hj
    have := List.mem_range.mp hj
    have e1 : (64 * w + j) / 64 = w := by omega
    have e2 : (64 * w + j) % 64 = j := by omega
    simp [e1, e2]
  rw [this]
  rfl

theorem sweepWords_eq (page : Nat) (bits : Nat → BitVec 64) : ∀ (k w : Nat) (st : SweepSt D) (c : Nat),
    sweepWords page bits (List.range' w k) (64 * w) st c =
      (64 * (w + k),
        (((List.range' (64 * w) (64 * k)).filter (fun i => !(bits (i / 64)).getLsbD (i % 64))).map
          (fun i => (⟨page, i⟩ : Cell))).foldl sweepCell st,
        c + ((List.range' (64 * w) (64 * k)).filter (fun i => !(bits (i / 64)).getLsbD (i % 64))).length) := by
  intro k
  induction k with
  | zero => intros; simp [sweepWords]
  | succ k ih =>
    intro w st c
    rw [List.range'_succ, sweepWords]
    have hb := sweep_bits_eq page 64 (Nat.le_refl _) (bits w) (64 * w) st
    rcases hs : sweep_bits page 64 (bits w) (64 * w) st with ⟨p, st', n⟩
    rw [hs] at hb
    obtain ⟨h1, h2⟩ := hb
    dsimp only at h1 h2 ⊢
    rw [h2 rfl]
    have e : 64 * w + 64 = 64 * (w + 1) := by omega
    rw [e, ih]
    have er : List.range' (64 * w) (64 * (k + 1)) = List.range' (64 * w) 64 ++ List.range' (64 * (w + 1)) (64 * k) := by
      have : 64 * (k + 1) = 64 + 64 * k := by omega
      rw [this, ← e]
      exact (List.range'_append_1).symm
    have hd := dead_word bits page w 64 (Nat.le_refl _)
    rw [er]
    simp only [Prod.mk.injEq] at h1
    obtain ⟨h1, h3⟩ := h1
    refine Prod.ext ?_ (Prod.ext ?_ ?_)
    · dsimp only; omega
    · dsimp only
      rw [List.filter_append, List.map_append, List.foldl_append, hd, h1]
    · dsimp only
      have hl : ((List.range' (64 * w) 64).filter (fun i => !(bits (i / 64)).getLsbD (i % 64))).length = n := by
        rw [h3]
        have := congrArg List.length hd
        simpa using this
      rw [List.filter_append, List.length_append, hl]
      omega

theorem sweepPages_eq (bits : Nat → Nat → BitVec 64) : ∀ (ps : List Nat) (st : SweepSt D) (c : Nat),
    sweepPages bits ps st c =
      ((ps.flatMap (fun p => deadIn (bits p) p DATA_LEN)).foldl sweepCell st,
        c + (ps.flatMap (fun p => deadIn (bits p) p DATA_LEN)).length) := by
  intro ps
  induction ps with
  | nil => intros; simp [sweepPages]
  | cons p ps ih =>
    intro st c
    rw [sweepPages]
    have h := sweepWords_eq p (bits p) (SIZE - 1) 0 st c
    rw [← List.range_eq_range'] at h
    simp only [Nat.mul_zero] at h
    rw [h]
    dsimp only
    rw [ih]
    have e : 64 * (SIZE - 1) = DATA_LEN := rfl
    rw [e, ← List.range_eq_range']
    simp only [List.flatMap_cons, List.foldl_append, List.length_append]
    refine Prod.ext rfl ?_
    dsimp only [deadIn]
    simp only [List.length_map]
    omega

/-- What `sweep` frees, in order. -/
def deadList (a : Alloc D) : List Cell :=
  a.pages.flatMap (fun p => deadIn (a.bits p) p DATA_LEN) ++ deadIn (a.bits a.current) a.current a.used_in_current

theorem sweep_eq (a : Alloc D) (hu : a.used_in_current ≤ DATA_LEN) :
    a.sweep = { a with
      mem := ((deadList a).foldl sweepCell ⟨a.mem, none, none⟩).mem,
      free := ((deadList a).foldl sweepCell ⟨a.mem, none, none⟩).anchor,
      free_list_count := (deadList a).length } := by
  rw [Alloc.sweep, sweepPages_eq]
  dsimp only
  have hu' : a.used_in_current / 64 ≤ 63 := by simp [DATA_LEN] at hu; omega
  have ht : (List.range (SIZE - 1)).take (a.used_in_current / 64) = List.range' 0 (a.used_in_current / 64) := by
    rw [List.take_range, ← List.range_eq_range']
    congr 1
    simp [SIZE]; omega
  have h := sweepWords_eq (D := D) a.current (a.bits a.current) (a.used_in_current / 64) 0
  simp only [Nat.mul_zero, Nat.zero_add] at h
  rw [ht, h]
  dsimp only
  rw [← List.range_eq_range']
  by_cases hi : a.used_in_current / 64 < SIZE - 1
  · rw [if_pos hi]
    have hb := (sweep_bits_eq (D := D) a.current (a.used_in_current % 64) (by omega)
      (a.bits a.current (a.used_in_current / 64)) (64 * (a.used_in_current / 64)))
    generalize hst : (List.map (fun i => ({ page := a.current, idx := i } : Cell))
      (List.filter (fun i => !(a.bits a.current (i / 64)).getLsbD (i % 64)) (List.range (64 * (a.used_in_current / 64))))).foldl
      sweepCell (List.foldl sweepCell { mem := a.mem, anchor := none, head := none }
        (List.flatMap (fun p => deadIn (a.bits p) p DATA_LEN) a.pages)) = st
    have hb1 := (hb st).1
    rcases hs : sweep_bits a.current (a.used_in_current % 64) (a.bits a.current (a.used_in_current / 64))
      (64 * (a.used_in_current / 64)) st with ⟨p, st', n⟩
    rw [hs] at hb1
    dsimp only at hb1 ⊢
    simp only [Prod.mk.injEq] at hb1
    have hd := dead_word (a.bits a.current) a.current (a.used_in_current / 64) (a.used_in_current % 64) (by omega)
    have er : List.range a.used_in_current = List.range (64 * (a.used_in_current / 64)) ++
        List.range' (64 * (a.used_in_current / 64)) (a.used_in_current % 64) := by
      have e : a.used_in_current = 64 * (a.used_in_current / 64) + a.used_in_current % 64 := by omega
      conv => lhs; rw [e]
      rw [List.range_eq_range', List.range_eq_range']
      have := @List.range'_append_1 0 (64 * (a.used_in_current / 64)) (a.used_in_current % 64)
      rw [← this, Nat.zero_add]
    have hl := congrArg List.length hd
    simp only [List.length_map] at hl
    have hdl : (deadList a).foldl sweepCell ⟨a.mem, none, none⟩ = st' := by
      rw [deadList, List.foldl_append, deadIn, er, List.filter_append, List.map_append, List.foldl_append, hst, hd, hb1.1]
    rw [hdl]
    have hlen : (deadList a).length = 0 + (a.pages.flatMap (fun p => deadIn (a.bits p) p DATA_LEN)).length +
        ((List.range (64 * (a.used_in_current / 64))).filter
          (fun i => !(a.bits a.current (i / 64)).getLsbD (i % 64))).length + n := by
      rw [deadList, List.length_append, deadIn, er, List.filter_append]
      simp only [List.length_map, List.length_append]
      rw [hl, hb1.2]
      omega
    rw [hlen]
  · rw [if_neg hi]
    have hfull : a.used_in_current = 64 * (a.used_in_current / 64) := by
      simp [SIZE, DATA_LEN] at hi hu; omega
    have hdl : (deadList a).foldl sweepCell ⟨a.mem, none, none⟩ =
        (List.map (fun i => ({ page := a.current, idx := i } : Cell))
      (List.filter (fun i => !(a.bits a.current (i / 64)).getLsbD (i % 64)) (List.range (64 * (a.used_in_current / 64))))).foldl
      sweepCell (List.foldl sweepCell { mem := a.mem, anchor := none, head := none }
        (List.flatMap (fun p => deadIn (a.bits p) p DATA_LEN) a.pages)) := by
      rw [deadList, List.foldl_append, deadIn, ← hfull]
    rw [← hdl]
    have hlen : (deadList a).length = 0 + (a.pages.flatMap (fun p => deadIn (a.bits p) p DATA_LEN)).length +
        ((List.range (64 * (a.used_in_current / 64))).filter
          (fun i => !(a.bits a.current (i / 64)).getLsbD (i % 64))).length + 0 := by
      rw [deadList, List.length_append, deadIn, ← hfull]
      simp
    rw [hlen]

/-! ### The linked list -/

def FreeList (mem : Cell → CellSt D) : Option Cell → List Cell → Prop
  | none, [] => True
  | some c, x :: l => c = x ∧ ∃ n, mem c = .free n ∧ FreeList mem n l
  | _, _ => False

theorem FreeList.congr {mem mem' : Cell → CellSt D} : ∀ {l : List Cell} {o : Option Cell}, (∀ c ∈ l, mem' c = mem c) →
    FreeList mem o l → FreeList mem' o l
  | [], none, _, _ => trivial
  | [], some c, _, h => h.elim
  | x :: l, none, _, h => h.elim
  | x :: l, some c, hm, h => by
    obtain ⟨rfl, n, h1, h2⟩ := h
    exact ⟨rfl, n, by rw [hm c (by simp)]; exact h1, FreeList.congr (fun y hy => hm y (by simp [hy])) h2⟩

theorem FreeList.free {mem : Cell → CellSt D} : ∀ {l : List Cell} {o : Option Cell}, FreeList mem o l → ∀ c ∈ l, ∃ n, mem c = .free n
  | [], _, _, _, hc => by simp at hc
  | x :: l, none, h, _, _ => h.elim
  | x :: l, some c, h, y, hy => by
    obtain ⟨rfl, n, h1, h2⟩ := h
    rcases List.mem_cons.mp hy with rfl | hy
    · exact ⟨n, h1⟩
    · exact FreeList.free h2 y hy

/-- Appending a cell behind the last one. -/
theorem FreeList.snoc {mem : Cell → CellSt D} (h c : Cell) : ∀ {l : List Cell} {o : Option Cell}, (l ++ [h]).Nodup →
    c ∉ l ++ [h] → FreeList mem o (l ++ [h]) →
    FreeList (setMem (setMem mem h (.free (some c))) c (.free none)) o (l ++ [h, c])
  | [], none, _, _, hf => hf.elim
  | [], some x, _, hc, hf => by
    obtain ⟨rfl, n, h1, h2⟩ := hf
    have hne : x ≠ c := by rintro rfl; simp at hc
    refine ⟨rfl, some c, by simp [setMem, hne], rfl, none, by simp [setMem], trivial⟩
  | y :: l, none, _, _, hf => hf.elim
  | y :: l, some x, hn, hc, hf => by
    obtain ⟨rfl, n, h1, h2⟩ := hf
    have hn' := List.nodup_cons.mp hn
    have hxh : x ≠ h := by rintro rfl; exact hn'.1 (by simp)
    have hxc : x ≠ c := by rintro rfl; exact hc (by simp)
    refine ⟨rfl, n, by simp [setMem, hxh, hxc, h1], FreeList.snoc h c hn'.2 (fun h' => hc (by simp at h' ⊢; tauto)) h2⟩

theorem sweepCell_fold : ∀ (cs l : List Cell) (st : SweepSt D), (l ++ cs).Nodup → FreeList st.mem st.anchor l →
    st.head = l.getLast? →
    let st' := cs.foldl sweepCell st
    FreeList st'.mem st'.anchor (l ++ cs) ∧ (∀ c, c ∉ l ++ cs → st'.mem c = st.mem c) := by
  intro cs
  induction cs with
  | nil => intro l st hn hf hh; simpa using hf
  | cons c cs ih =>
    intro l st hn hf hh
    have e : l ++ c :: cs = (l ++ [c]) ++ cs := by simp
    have hcl : c ∉ l := by
      intro h
      have := List.nodup_append.mp hn
      exact this.2.2 c h c (by simp) rfl
    have hnl : l.Nodup := (List.nodup_append.mp hn).1
    have hstep : FreeList (sweepCell st c).mem (sweepCell st c).anchor (l ++ [c]) ∧
        (sweepCell st c).head = (l ++ [c]).getLast? ∧ (∀ x, x ∉ l ++ [c] → (sweepCell st c).mem x = st.mem x) := by
      rcases List.eq_nil_or_concat l with rfl | ⟨l0, h, rfl⟩
      · simp only [List.getLast?_nil] at hh
        simp only [sweepCell, hh]
        refine ⟨⟨rfl, none, by simp [setMem], trivial⟩, by simp, fun x hx => ?_⟩
        have : x ≠ c := by simpa using hx
        simp [setMem, this]
      · simp only [List.concat_eq_append, List.getLast?_append, List.getLast?_singleton, Option.some_or] at hh hf hcl hnl
        simp only [sweepCell, hh]
        refine ⟨?_, by simp, fun x hx => ?_⟩
        · have := FreeList.snoc h c hnl hcl hf
          simpa using this
        · simp at hx
          simp [setMem, hx]
    rw [List.foldl_cons]
    have := ih (l ++ [c]) (sweepCell st c) (by rw [← e]; exact hn) hstep.1 hstep.2.1
    rw [e]
    refine ⟨this.1, fun x hx => ?_⟩
    rw [this.2 x hx, hstep.2.2 x (fun h => hx (by simp at h ⊢; tauto))]

/-! ### Pages given back -/

theorem dealloc_eq : ∀ (n : Nat) (A B : List Nat) (a : Alloc D), A.length = n → a.pages = A ++ B →
    dealloc_empty_pages n a = { a with
      pages := A.filter (fun p => !a.all_dead p) ++ B,
      mem := fun c => if c.page ∈ A.filter (fun p => a.all_dead p) ∧ c.idx < DATA_LEN then .free none else a.mem c,
      free_pages := A.filter (fun p => a.all_dead p) ++ a.free_pages } := by
  intro n
  induction n with
  | zero =>
    intro A B a hA hp
    have : A = [] := List.length_eq_zero_iff.mp hA
    subst this
    simp only [List.nil_append] at hp
    simp [dealloc_empty_pages, ← hp]
  | succ n ih =>
    intro A B a hA hp
    rcases List.eq_nil_or_concat A with rfl | ⟨A, p, rfl⟩
    · simp at hA
    · have hA' : A.length = n := by simpa using hA
      have hget : a.pages[n]? = some p := by
        rw [hp, List.getElem?_append_left (by simp; omega)]
        simp [← hA']
      rw [dealloc_empty_pages, hget]
      dsimp only
      rcases hd : a.all_dead p with _ | _
      · simp only [Bool.false_eq_true, if_false]
        rw [ih A (p :: B) a hA' (by rw [hp]; simp)]
        simp [List.filter_append, hd]
      · simp only [if_true]
        have hp' : a.pages.eraseIdx n = A ++ B := by
          rw [hp, List.concat_eq_append, List.append_assoc, ← hA', List.eraseIdx_append_of_length_le (Nat.le_refl _)]
          simp
        rw [ih A B _ hA' hp']
        have hall : ∀ q, Alloc.all_dead ({ a with pages := a.pages.eraseIdx n, mem := freePage a.mem p, free_pages := p :: a.free_pages }) q =
          a.all_dead q := fun _ => rfl
        simp only [hall]
        simp only [List.concat_eq_append, List.filter_append, List.filter_cons, hd, List.filter_nil, Bool.not_true,
          if_true, Bool.false_eq_true, if_false, List.append_nil, List.append_assoc, List.singleton_append]
        congr 1
        funext c
        simp only [freePage, List.mem_append, List.mem_singleton]
        by_cases h1 : c.page ∈ A.filter (fun p => a.all_dead p) <;> by_cases h2 : c.page = p <;>
          by_cases h3 : c.idx < DATA_LEN <;> simp [h1, h2, h3]

end Verif.Heap
