import Verif.Heap.Model
import Mathlib.Data.List.Basic
import Mathlib.Data.List.Nodup
/-! Helper lemmas: the mark phase marks exactly what is reachable. -/
namespace Verif.Heap
variable {D : Type}

def Alloc.marked (a : Alloc D) (c : Cell) : Bool := (a.bits c.page (c.idx / 64)).getLsbD (c.idx % 64)

theorem check_was (a : Alloc D) (c : Cell) : (a.gc_check_and_mark c).1 = a.marked c := by
  have hlt : c.idx % 64 < 64 := Nat.mod_lt _ (by omega)
  simp only [Alloc.gc_check_and_mark, Alloc.marked]
  rw [← BitVec.twoPow_eq, BitVec.and_twoPow]
  rcases h : (a.bits c.page (c.idx / 64)).getLsbD (c.idx % 64) with _ | _
  · simp
  · simp only [if_true, ne_eq, decide_eq_true_eq]
    intro h0
    have := congrArg (fun x : BitVec 64 => x.getLsbD (c.idx % 64)) h0
    simp [hlt] at this

theorem check_marked (a : Alloc D) (c x : Cell) :
    (a.gc_check_and_mark c).2.marked x = (a.marked x || decide (x = c)) := by
  have hlt : c.idx % 64 < 64 := Nat.mod_lt _ (by omega)
  have hltx : x.idx % 64 < 64 := Nat.mod_lt _ (by omega)
  simp only [Alloc.gc_check_and_mark, Alloc.marked]
  by_cases h : x.page = c.page ∧ x.idx / 64 = c.idx / 64
  · rw [if_pos h, ← BitVec.twoPow_eq, BitVec.getLsbD_or, BitVec.getLsbD_twoPow, h.1, h.2]
    congr 1
    have : x = c ↔ c.idx % 64 = x.idx % 64 := by
      constructor
      · rintro rfl; rfl
      · intro hm
        cases x; cases c
        simp only [Cell.mk.injEq] at *
        obtain ⟨h1, h2⟩ := h
        exact ⟨h1, by omega⟩
    simp [this]
    intro h; omega
  · rw [if_neg h]
    have : x ≠ c := by rintro rfl; exact h ⟨rfl, rfl⟩
    simp [this]

/-- Everything but the marks. -/
def SameBut (a a' : Alloc D) : Prop :=
  a'.mem = a.mem ∧ a'.pages = a.pages ∧ a'.current = a.current ∧ a'.used_in_current = a.used_in_current ∧
  a'.free = a.free ∧ a'.free_pages = a.free_pages ∧ a'.free_list_count = a.free_list_count ∧ a'.next_page = a.next_page ∧
  a'.gc_enabled = a.gc_enabled ∧ a'.count = a.count ∧ a'.allocated = a.allocated

theorem SameBut.refl (a : Alloc D) : SameBut a a := by simp [SameBut]
theorem SameBut.trans {a b c : Alloc D} (h1 : SameBut a b) (h2 : SameBut b c) : SameBut a c := by
  simp only [SameBut] at *
  obtain ⟨a1, a2, a3, a4, a5, a6, a7, a8, a9, a10, a11⟩ := h1
  obtain ⟨b1, b2, b3, b4, b5, b6, b7, b8, b9, b10, b11⟩ := h2
  exact ⟨b1.trans a1, b2.trans a2, b3.trans a3, b4.trans a4, b5.trans a5, b6.trans a6, b7.trans a7, b8.trans a8,
    b9.trans a9, b10.trans a10, b11.trans a11⟩

theorem check_same (a : Alloc D) (c : Cell) : SameBut a (a.gc_check_and_mark c).2 := by
  simp [SameBut, Alloc.gc_check_and_mark]

variable (kids : D → List Cell)

/-- Reachability through what the collector visits. -/
inductive Reach (mem : Cell → CellSt D) (kids : D → List Cell) (roots : List Cell) : Cell → Prop
  | root {c} : c ∈ roots → Reach mem kids roots c
  | step {c d k} : Reach mem kids roots c → mem c = .obj d → k ∈ kids d → Reach mem kids roots k

theorem Reach.mono {mem : Cell → CellSt D} {kids : D → List Cell} {r r' : List Cell} (h : ∀ c ∈ r, Reach mem kids r' c) {c : Cell}
    (hc : Reach mem kids r c) : Reach mem kids r' c := by
  induction hc with
  | root hc => exact h _ hc
  | step _ hm hk ih => exact .step ih hm hk

def unmarked (U : List Cell) (a : Alloc D) : Nat := (U.filter (fun c => !a.marked c)).length

variable {kids} (mem : Cell → CellSt D) (U : List Cell) (hU : U.Nodup)
  (hobj : ∀ c ∈ U, ∃ d, mem c = .obj d ∧ ∀ k ∈ kids d, k ∈ U)

structure MarkPost (kids : D → List Cell) (mem : Cell → CellSt D) (U : List Cell) (cs : List Cell) (a a' : Alloc D) : Prop where
  same : SameBut a a'
  mono : ∀ x, a.marked x = true → a'.marked x = true
  got : ∀ c ∈ cs, a'.marked c = true
  sound : ∀ x, a'.marked x = true → a.marked x = true ∨ Reach mem kids cs x
  closed : ∀ x d, a'.marked x = true → a.marked x = false → mem x = .obj d → ∀ k ∈ kids d, a'.marked k = true
  inU : ∀ x, a'.marked x = true → a.marked x = true ∨ x ∈ U
  count : a'.mark_counter + unmarked U a' = a.mark_counter + unmarked U a

theorem MarkPost.seq {kids : D → List Cell} {mem : Cell → CellSt D} {U : List Cell} {cs ds : List Cell} {a b c : Alloc D}
    (h1 : MarkPost kids mem U cs a b)
    (h2 : MarkPost kids mem U ds b c) : MarkPost kids mem U (cs ++ ds) a c where
  same := h1.same.trans h2.same
  mono := fun x h => h2.mono x (h1.mono x h)
  got := fun x h => by
    rcases List.mem_append.mp h with h | h
    · exact h2.mono x (h1.got x h)
    · exact h2.got x h
  sound := fun x h => by
    rcases h2.sound x h with h | h
    · rcases h1.sound x h with h | h
      · exact .inl h
      · exact .inr (h.mono (fun c hc => .root (by simp [hc])))
    · exact .inr (h.mono (fun c hc => .root (by simp [hc])))
  closed := fun x d h hn hm k hk => by
    rcases hb : b.marked x with _ | _
    · exact h2.closed x d h hb hm k hk
    · exact h2.mono k (h1.closed x d hb hn hm k hk)
  inU := fun x h => by
    rcases h2.inU x h with h | h
    · exact h1.inU x h
    · exact .inr h
  count := by rw [h2.count, h1.count]

theorem MarkPost.nil (a : Alloc D) : MarkPost kids mem U [] a a where
  same := .refl a
  mono := fun _ h => h
  got := fun _ h => by simp at h
  sound := fun _ h => .inl h
  closed := fun x d h hn => by simp [h] at hn
  inU := fun _ h => .inl h
  count := rfl

include hU in
theorem unmarked_check (a : Alloc D) (c : Cell) (hc : c ∈ U) (hm : a.marked c = false) :
    unmarked U (a.gc_check_and_mark c).2 + 1 = unmarked U a := by
  unfold unmarked
  simp only [check_marked]
  induction U with
  | nil => simp at hc
  | cons x U ih =>
    have hx := (List.nodup_cons.mp hU)
    rcases List.mem_cons.mp hc with rfl | hc'
    · have e : U.filter (fun y => !(a.marked y || decide (y = c))) = U.filter (fun y => !a.marked y) := by
        apply List.filter_congr
        intro y hy
        have : y ≠ c := by rintro rfl; exact hx.1 hy
        simp [this]
      rw [List.filter_cons, if_neg (by simp), e, List.filter_cons, if_pos (by simp [hm])]
      rfl
    · have hne : x ≠ c := by rintro rfl; exact hx.1 hc'
      have := ih hx.2 hc'
      simp only [List.filter_cons, hne, decide_false, Bool.or_false]
      split
      · simp only [List.length_cons]; omega
      · exact this

include hU hobj in
theorem markFrom_spec : ∀ (fuel : Nat) (a : Alloc D) (c : Cell), a.mem = mem → c ∈ U → unmarked U a < fuel →
    MarkPost kids mem U [c] a (markFrom kids fuel a c) := by
  intro fuel
  induction fuel with
  | zero => intro a c _ _ h; omega
  | succ fuel ih =>
    intro a c hmem hc hfuel
    rw [markFrom]
    have hw := check_was a c
    have hmk := check_marked a c
    have hsame := check_same a c
    have hcnt := unmarked_check U hU a c hc
    rcases hcm : a.gc_check_and_mark c with ⟨was, a1⟩
    rw [hcm] at hw hmk hsame hcnt
    dsimp only at hw hmk hsame hcnt ⊢
    cases was with
    | true =>
      have hmc : a.marked c = true := hw.symm
      have heq : ∀ x, a1.marked x = a.marked x := by
        intro x
        rw [hmk]
        by_cases h : x = c
        · subst h; simp [hmc]
        · simp [h]
      refine ⟨hsame, fun x h => by rw [heq]; exact h, fun x h => ?_, fun x h => .inl (by rw [← heq]; exact h), ?_,
        fun x h => .inl (by rw [← heq]; exact h), ?_⟩
      · have : x = c := by simpa using h
        subst this; rw [heq]; exact hmc
      · intro x d h hn; rw [heq] at h; simp [h] at hn
      · have e1 : unmarked U a1 = unmarked U a := by simp [unmarked, heq]
        have e2 : a1.mark_counter = a.mark_counter := by
          have h3 : (a.gc_check_and_mark c).1 = true := by rw [hcm]
          have h2 : a1 = (a.gc_check_and_mark c).2 := by rw [hcm]
          rw [h2]
          simp only [Alloc.gc_check_and_mark] at h3 ⊢
          rw [if_pos (by simpa using h3)]
        dsimp only
        rw [e1, e2]
    | false =>
      have hmc : a.marked c = false := hw.symm
      have hcnt := hcnt hmc
      obtain ⟨d, hd, hk⟩ := hobj c hc
      have hd1 : a1.mem c = .obj d := by rw [hsame.1, hmem]; exact hd
      dsimp only
      rw [hd1]
      dsimp only
      have e2 : a1.mark_counter = a.mark_counter + 1 := by
        have h3 : (a.gc_check_and_mark c).1 = false := by rw [hcm]
        have h2 : a1 = (a.gc_check_and_mark c).2 := by rw [hcm]
        rw [h2]
        simp only [Alloc.gc_check_and_mark] at h3 ⊢
        rw [if_neg (by simpa using h3)]
      -- the children
      have hfold : ∀ (ks : List Cell) (b : Alloc D), (∀ k ∈ ks, k ∈ U) → b.mem = mem → unmarked U b < fuel →
          MarkPost kids mem U ks b (ks.foldl (markFrom kids fuel) b) := by
        intro ks
        induction ks with
        | nil => intro b _ _ _; exact MarkPost.nil mem U b
        | cons k ks ihk =>
          intro b hks hb hlt
          have h1 := ih b k hb (hks k (by simp)) hlt
          have hle : unmarked U (markFrom kids fuel b k) ≤ unmarked U b := by
            unfold unmarked
            have : ∀ (V : List Cell), (V.filter (fun c => !(markFrom kids fuel b k).marked c)).length ≤
                (V.filter (fun c => !b.marked c)).length := by
              intro V
              induction V with
              | nil => simp
              | cons v V ihV =>
                simp only [List.filter_cons]
                rcases hbv : b.marked v with _ | _
                · split <;> simp <;> omega
                · have := h1.mono v hbv
                  simp [this]; exact ihV
            exact this U
          have h2 := ihk (markFrom kids fuel b k) (fun x hx => hks x (by simp [hx])) (h1.same.1.trans hb) (by omega)
          exact h1.seq h2
      have hpost := hfold (kids d) a1 hk (hsame.1.trans hmem) (by omega)
      refine ⟨hsame.trans hpost.same, ?_, ?_, ?_, ?_, ?_, ?_⟩
      · intro x hx
        apply hpost.mono
        rw [hmk]; simp [hx]
      · intro x hx
        have : x = c := by simpa using hx
        subst this
        apply hpost.mono
        rw [hmk]; simp
      · intro x hx
        rcases hpost.sound x hx with h | h
        · rw [hmk] at h
          simp only [Bool.or_eq_true, decide_eq_true_eq] at h
          rcases h with h | h
          · exact .inl h
          · subst h; exact .inr (.root (by simp))
        · exact .inr (h.mono (fun k hk' => .step (.root (by simp)) hd hk'))
      · intro x d' hx hn hm k hk'
        by_cases hxc : x = c
        · subst hxc
          rw [hd] at hm
          cases hm
          exact hpost.got k hk'
        · refine hpost.closed x d' hx ?_ hm k hk'
          rw [hmk]; simp [hn, hxc]
      · intro x hx
        rcases hpost.inU x hx with h | h
        · rw [hmk] at h
          simp only [Bool.or_eq_true, decide_eq_true_eq] at h
          rcases h with h | h
          · exact .inl h
          · subst h; exact .inr hc
        · exact .inr h
      · have := hpost.count
        omega

include hU hobj in
/-- Marking from all roots. -/
theorem markRoots_spec : ∀ (roots : List Cell) (a : Alloc D) (fuel : Nat), a.mem = mem → (∀ c ∈ roots, c ∈ U) →
    U.length < fuel → MarkPost kids mem U roots a (roots.foldl (markFrom kids fuel) a) := by
  intro roots
  induction roots with
  | nil => intro a _ _ _ _; exact MarkPost.nil mem U a
  | cons c roots ih =>
    intro a fuel hm hr hf
    have hle : unmarked U a ≤ U.length := List.length_filter_le _ _
    have h1 := markFrom_spec mem U hU hobj fuel a c hm (hr c (by simp)) (by omega)
    have h2 := ih (markFrom kids fuel a c) fuel (h1.same.1.trans hm) (fun x hx => hr x (by simp [hx])) hf
    exact h1.seq h2

include hU hobj in
/-- With no marks to begin with, exactly the reachable cells end up marked, and `mark_counter` counts them. -/
theorem markAll (roots : List Cell) (a : Alloc D) (fuel : Nat) (hm : a.mem = mem) (hr : ∀ c ∈ roots, c ∈ U)
    (hf : U.length < fuel) (hclear : ∀ c ∈ U, a.marked c = false) (h0 : a.mark_counter = 0) :
    let a' := roots.foldl (markFrom kids fuel) a
    SameBut a a' ∧ (∀ c ∈ U, a'.marked c = true ↔ Reach mem kids roots c) ∧ (∀ c, Reach mem kids roots c → c ∈ U) ∧
    (∀ c, c ∉ U → a'.marked c = a.marked c) ∧
    a'.mark_counter = (U.filter (fun c => a'.marked c)).length := by
  have hp := markRoots_spec mem U hU hobj roots a fuel hm hr hf
  have hreachU : ∀ c, Reach mem kids roots c → c ∈ U := by
    intro c hc
    induction hc with
    | root h => exact hr _ h
    | step _ hmo hk ih =>
      obtain ⟨d, hd, hk'⟩ := hobj _ ih
      rw [hd] at hmo; cases hmo
      exact hk' _ hk
  refine ⟨hp.same, ?_, hreachU, ?_, ?_⟩
  · intro c hc
    constructor
    · intro h
      rcases hp.sound c h with h | h
      · rw [hclear c hc] at h; simp at h
      · exact h
    · intro h
      clear hc
      induction h with
      | root h => exact hp.got _ h
      | step hre hmo hk ih =>
        exact hp.closed _ _ ih (hclear _ (hreachU _ hre)) hmo _ hk
  · intro c hc
    rcases h : a.marked c with _ | _
    · rcases h' : (roots.foldl (markFrom kids fuel) a).marked c with _ | _
      · rfl
      · rcases hp.inU c h' with h'' | h''
        · simp [h] at h''
        · exact absurd h'' hc
    · exact hp.mono c h
  · have hcount := hp.count
    have e : unmarked U a = U.length := by
      unfold unmarked
      rw [List.filter_eq_self.mpr]
      intro x hx; simp [hclear x hx]
    have e2 : ∀ (V : List Cell) (f : Cell → Bool), (V.filter f).length + (V.filter (fun c => !f c)).length = V.length := by
      intro V f
      induction V with
      | nil => rfl
      | cons v V ih => simp only [List.filter_cons]; rcases f v <;> simp <;> omega
    have := e2 U (fun c => (roots.foldl (markFrom kids fuel) a).marked c)
    unfold unmarked at hcount e
    omega

end Verif.Heap
