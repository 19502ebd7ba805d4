import Verif.Heap.Inv
/-! Helper lemmas: one collection. -/
namespace Verif.Heap
variable {D : Type}

/-- The cells in use, in order of address. -/
def usedCells (a : Alloc D) : List Cell :=
  a.pages.flatMap (fun p => (List.range DATA_LEN).map (fun i => ⟨p, i⟩)) ++
    (List.range a.used_in_current).map (fun i => ⟨a.current, i⟩)

theorem mem_usedCells (a : Alloc D) (c : Cell) : c ∈ usedCells a ↔ inUse a c := by
  rcases c with ⟨p, i⟩
  simp only [usedCells, inUse, List.mem_append, List.mem_flatMap, List.mem_map, List.mem_range, Cell.mk.injEq]
  constructor
  · rintro (⟨q, hq, j, hj, rfl, rfl⟩ | ⟨j, hj, rfl, rfl⟩)
    · exact .inl ⟨hq, hj⟩
    · exact .inr ⟨rfl, hj⟩
  · rintro (⟨hp, hi⟩ | ⟨rfl, hi⟩)
    · exact .inl ⟨p, hp, i, hi, rfl, rfl⟩
    · exact .inr ⟨i, hi, rfl, rfl⟩

theorem nodup_page (p n : Nat) : ((List.range n).map (fun i => (⟨p, i⟩ : Cell))).Nodup := by
  apply List.Nodup.map
  · intro i j h; simpa using h
  · exact List.nodup_range

theorem nodup_usedCells (a : Alloc D) (hp : a.pages.Nodup) (hc : a.current ∉ a.pages) : (usedCells a).Nodup := by
  rw [usedCells, List.nodup_append]
  refine ⟨?_, nodup_page _ _, ?_⟩
  · rw [List.nodup_flatMap]
    refine ⟨fun p _ => nodup_page _ _, ?_⟩
    refine hp.imp ?_
    intro p q hpq x hx hy
    simp only [List.mem_map] at hx hy
    obtain ⟨i, _, rfl⟩ := hx
    obtain ⟨j, _, he⟩ := hy
    simp only [Cell.mk.injEq] at he
    exact hpq he.1.symm
  · intro x hx y hy hxy
    subst hxy
    simp only [List.mem_flatMap, List.mem_map] at hx hy
    obtain ⟨q, hq, i, _, rfl⟩ := hx
    obtain ⟨j, _, he⟩ := hy
    simp only [Cell.mk.injEq] at he
    exact hc (he.1 ▸ hq)

theorem length_usedCells (a : Alloc D) : (usedCells a).length = a.pages.length * DATA_LEN + a.used_in_current := by
  simp [usedCells, List.length_flatMap]

theorem deadList_eq (a : Alloc D) : deadList a = (usedCells a).filter (fun c => !a.marked c) := by
  rw [deadList, usedCells, List.filter_append, List.filter_flatMap]
  simp only [deadIn, List.filter_map, Function.comp_def, Alloc.marked]

theorem all_dead_iff (a : Alloc D) (p : Nat) :
    a.all_dead p = true ↔ ∀ i, i < DATA_LEN → a.marked ⟨p, i⟩ = false := by
  simp only [Alloc.all_dead, List.all_eq_true, List.mem_range, decide_eq_true_eq, Alloc.marked]
  constructor
  · intro h i hi
    rw [h (i / 64) (by simp [DATA_LEN, SIZE] at *; omega)]
    simp
  · intro h w hw
    apply BitVec.eq_of_getLsbD_eq
    intro j hj
    have := h (64 * w + j) (by simp [DATA_LEN, SIZE] at *; omega)
    have e1 : (64 * w + j) / 64 = w := by omega
    have e2 : (64 * w + j) % 64 = j := by omega
    simpa [e1, e2] using this

theorem clear_marked (a : Alloc D) (c : Cell) (hc : inUse a c) : a.clear_mark.marked c = false := by
  have : c.page = a.current ∨ c.page ∈ a.pages := by
    rcases hc with h | h
    · exact .inr h.1
    · exact .inl h.1
  simp [Alloc.clear_mark, Alloc.marked, this]

theorem Reach_iff_Reachable (a : Alloc D) (refs : D → List Cell) (roots : List Cell) (c : Cell) :
    Reach a.mem refs roots c ↔ Reachable (contents a) refs roots c := by
  constructor
  · intro h
    induction h with
    | root h => exact .root h
    | step _ hm hk ih => exact .step ih (contents_some.mpr hm) hk
  · intro h
    induction h with
    | root h => exact .root h
    | step _ hm hk ih => exact .step ih (contents_some.mp hm) hk

theorem Nodup.filter' {l : List Cell} (p : Cell → Bool) (h : l.Nodup) : (l.filter p).Nodup := h.filter p

/-- One collection. -/
theorem gc_spec (a : Alloc D) (l : List Cell) (h : WF a l) (hen : a.gc_enabled = true)
    (refs : D → List Cell) (roots : List Cell)
    (hroots : ∀ c ∈ roots, (contents a c).isSome)
    (hclosed : ∀ c d, contents a c = some d → ∀ k ∈ refs d, (contents a k).isSome) :
    let a' := a.gc refs roots
    (∃ l', WF a' l') ∧
    (∀ c, Reachable (contents a) refs roots c → contents a' c = contents a c) ∧
    (∀ c, ¬ Reachable (contents a) refs roots c → contents a' c = none) ∧
    NumberOf (Reachable (contents a) refs roots) a'.mark_counter ∧
    a'.next_page = a.next_page ∧ a'.gc_enabled = true ∧ a'.count = a.count + 1 ∧ a'.allocated = a.allocated ∧
    (∀ p ∈ a'.pages, ∃ i, i < DATA_LEN ∧ Reachable (contents a) refs roots ⟨p, i⟩) := by
  intro a'
  -- marking
  let U := (usedCells a).filter (fun c => decide (c ∉ l))
  have hUm : ∀ c, c ∈ U ↔ (contents a c).isSome := by
    intro c
    rw [h.live]
    simp only [U, List.mem_filter, mem_usedCells, decide_eq_true_eq]
  have hU : U.Nodup := (nodup_usedCells a h.pages h.curr).filter _
  have hobj : ∀ c ∈ U, ∃ d, a.mem c = .obj d ∧ ∀ k ∈ refs d, k ∈ U := by
    intro c hc
    obtain ⟨d, hd⟩ := Option.isSome_iff_exists.mp ((hUm c).mp hc)
    exact ⟨d, contents_some.mp hd, fun k hk => (hUm k).mpr (hclosed c d hd k hk)⟩
  have hUlen : U.length < a.pages.length * DATA_LEN + a.used_in_current + 1 := by
    have h1 : U.length ≤ (usedCells a).length := List.length_filter_le _ _
    rw [length_usedCells] at h1
    omega
  have hmark := markAll a.mem U hU hobj roots a.clear_mark (a.pages.length * DATA_LEN + a.used_in_current + 1) rfl
    (fun c hc => (hUm c).mpr (hroots c hc)) hUlen
    (fun c hc => clear_marked a c ((h.live c).mp ((hUm c).mp hc)).1) rfl
  have ha' : a' = (let a1 := roots.foldl (markFrom refs (a.pages.length * DATA_LEN + a.used_in_current + 1)) a.clear_mark
      let a2 := dealloc_empty_pages a1.pages.length a1
      let a3 := a2.sweep
      { a3 with alloc_flag := false, count := a3.count + 1 }) := by
    simp only [a', Alloc.gc, hen, Bool.not_true, Bool.false_eq_true, if_false]
    rfl
  generalize ha1 : roots.foldl (markFrom refs (a.pages.length * DATA_LEN + a.used_in_current + 1)) a.clear_mark = a1 at hmark ha'
  dsimp only at hmark ha'
  obtain ⟨⟨s1, s2, s3, s4, s5, s6, s7, s8, s9, s10, s11⟩, hm1, hm2, hm3, hm4⟩ := hmark
  change a1.mem = a.mem at s1
  change a1.pages = a.pages at s2
  change a1.current = a.current at s3
  change a1.used_in_current = a.used_in_current at s4
  change a1.free_pages = a.free_pages at s6
  change a1.next_page = a.next_page at s8
  change a1.gc_enabled = a.gc_enabled at s9
  change a1.count = a.count at s10
  change a1.allocated = a.allocated at s11
  -- marks on the cells in use
  have hmk : ∀ c, inUse a c → (a1.marked c = true ↔ Reachable (contents a) refs roots c) := by
    intro c hc
    rw [← Reach_iff_Reachable]
    by_cases hcU : c ∈ U
    · exact hm1 c hcU
    · rw [hm3 c hcU, clear_marked a c hc]
      simp only [Bool.false_eq_true, false_iff]
      exact fun hr => hcU (hm2 c hr)
  have hreachUse : ∀ c, Reachable (contents a) refs roots c → inUse a c := by
    intro c hc
    rw [← Reach_iff_Reachable] at hc
    exact ((h.live c).mp ((hUm c).mp (hm2 c hc))).1
  -- pages given back
  have hde := dealloc_eq a1.pages.length a1.pages [] a1 rfl (by simp)
  generalize ha2 : dealloc_empty_pages a1.pages.length a1 = a2 at hde ha'
  have hmarked2 : ∀ c, a2.marked c = a1.marked c := by intro c; rw [hde]; rfl
  have hp2 : a2.pages = a.pages.filter (fun p => !a1.all_dead p) := by rw [hde]; simp [s2]
  have hc2 : a2.current = a.current := by rw [hde]; exact s3
  have hu2 : a2.used_in_current = a.used_in_current := by rw [hde]; exact s4
  have hf2 : a2.free_pages = a.pages.filter (fun p => a1.all_dead p) ++ a.free_pages := by rw [hde]; simp [s2, s6]
  have hmem2 : a2.mem = fun c => if c.page ∈ a.pages.filter (fun p => a1.all_dead p) ∧ c.idx < DATA_LEN then .free none else a.mem c := by
    rw [hde]; simp [s1, s2]
  have hcount2 : a2.mark_counter = a1.mark_counter := by rw [hde]
  have hnp2 : a2.next_page = a.next_page := by rw [hde]; exact s8
  have hen2 : a2.gc_enabled = a.gc_enabled := by rw [hde]; exact s9
  have hct2 : a2.count = a.count := by rw [hde]; exact s10
  have hal2 : a2.allocated = a.allocated := by rw [hde]; exact s11
  have hdead : ∀ p ∈ a.pages, (a1.all_dead p = true ↔ ∀ i, i < DATA_LEN → ¬ Reachable (contents a) refs roots ⟨p, i⟩) := by
    intro p hp
    rw [all_dead_iff]
    constructor
    · intro hd i hi hr
      have := (hmk ⟨p, i⟩ (.inl ⟨hp, hi⟩)).mpr hr
      rw [hd i hi] at this; cases this
    · intro hd i hi
      rcases hb : a1.marked ⟨p, i⟩ with _ | _
      · rfl
      · exact absurd ((hmk ⟨p, i⟩ (.inl ⟨hp, hi⟩)).mp hb) (hd i hi)
  have hin2 : ∀ c, inUse a2 c → inUse a c := by
    intro c hc
    simp only [inUse, hp2, hc2, hu2, List.mem_filter] at hc ⊢
    tauto
  -- sweep
  have hsw := sweep_eq a2 (by rw [hu2]; exact h.used)
  have hpn2 : a2.pages.Nodup := by rw [hp2]; exact h.pages.filter _
  have hcn2 : a2.current ∉ a2.pages := by
    rw [hc2, hp2]
    intro hc
    exact h.curr (List.mem_filter.mp hc).1
  have hdl : ∀ c, c ∈ deadList a2 ↔ inUse a2 c ∧ ¬ Reachable (contents a) refs roots c := by
    intro c
    rw [deadList_eq, List.mem_filter, mem_usedCells, hmarked2]
    constructor
    · rintro ⟨h1, h2⟩
      refine ⟨h1, fun hr => ?_⟩
      rw [(hmk c (hin2 c h1)).mpr hr] at h2
      simp at h2
    · rintro ⟨h1, h2⟩
      refine ⟨h1, ?_⟩
      rcases hb : a1.marked c with _ | _
      · rfl
      · exact absurd ((hmk c (hin2 c h1)).mp hb) h2
  have hdn : (deadList a2).Nodup := by
    rw [deadList_eq]
    exact (nodup_usedCells a2 hpn2 hcn2).filter _
  have hfold := sweepCell_fold (deadList a2) [] ⟨a2.mem, none, none⟩ (by simpa using hdn) trivial rfl
  dsimp only at hfold
  generalize hst : (deadList a2).foldl sweepCell ⟨a2.mem, none, none⟩ = st at hfold hsw
  obtain ⟨hfl, hrest⟩ := hfold
  simp only [List.nil_append] at hfl hrest
  have hf : a' = { a2 with
      mem := st.mem, free := st.anchor, free_list_count := (deadList a2).length, alloc_flag := false, count := a2.count + 1 } := by
    rw [ha', hsw]
  have hin' : ∀ c, inUse a' c ↔ inUse a2 c := by intro c; rw [hf]; rfl
  have hmem' : a'.mem = st.mem := by rw [hf]
  -- reachable cells
  have hreach2 : ∀ c, Reachable (contents a) refs roots c → inUse a2 c := by
    intro c hc
    rcases hreachUse c hc with ⟨h1, h2⟩ | ⟨h1, h2⟩
    · refine .inl ⟨?_, h2⟩
      rw [hp2, List.mem_filter]
      refine ⟨h1, ?_⟩
      rcases hb : a1.all_dead c.page with _ | _
      · rfl
      · exact absurd hc ((hdead c.page h1).mp hb c.idx h2)
    · refine .inr ⟨by rw [hc2]; exact h1, by rw [hu2]; exact h2⟩
  have hkeep : ∀ c, Reachable (contents a) refs roots c → a'.mem c = a.mem c := by
    intro c hc
    rw [hmem', hrest c (fun hd => ((hdl c).mp hd).2 hc), hmem2]
    have : ¬ (c.page ∈ a.pages.filter (fun p => a1.all_dead p) ∧ c.idx < DATA_LEN) := by
      rintro ⟨h1, h2⟩
      rw [List.mem_filter] at h1
      exact (hdead c.page h1.1).mp h1.2 c.idx h2 hc
    simp only [this, if_false]
  have hgone : ∀ c, ¬ Reachable (contents a) refs roots c → ∀ d, a'.mem c ≠ .obj d := by
    intro c hc d hd
    rw [hmem'] at hd
    by_cases hcd : c ∈ deadList a2
    · obtain ⟨n, hn⟩ := hfl.free c hcd
      rw [hd] at hn; cases hn
    · rw [hrest c hcd, hmem2] at hd
      dsimp only at hd
      split at hd
      · cases hd
      · rename_i hnp
        have hnu : ¬ inUse a2 c := fun hu => hcd ((hdl c).mpr ⟨hu, hc⟩)
        refine h.noobj c ?_ d hd
        intro hu
        apply hnu
        rcases hu with ⟨h1, h2⟩ | ⟨h1, h2⟩
        · refine .inl ⟨?_, h2⟩
          rw [hp2, List.mem_filter]
          refine ⟨h1, ?_⟩
          rcases hb : a1.all_dead c.page with _ | _
          · rfl
          · exact absurd ⟨List.mem_filter.mpr ⟨h1, hb⟩, h2⟩ hnp
        · refine .inr ⟨by rw [hc2]; exact h1, by rw [hu2]; exact h2⟩
  have hlive : ∀ c, Reachable (contents a) refs roots c → ∃ d, a.mem c = .obj d := by
    intro c hc
    rw [← Reach_iff_Reachable] at hc
    obtain ⟨d, hd, _⟩ := hobj c (hm2 c hc)
    exact ⟨d, hd⟩
  refine ⟨⟨deadList a2, ?_⟩, ?_, ?_, ?_, ?_, ?_, ?_, ?_, ?_⟩
  · exact {
      used := by rw [hf]; show a2.used_in_current ≤ _; rw [hu2]; exact h.used
      pages := by rw [hf]; exact hpn2
      curr := by rw [hf]; exact hcn2
      freeNodup := by
        rw [hf]; show a2.free_pages.Nodup
        rw [hf2, List.nodup_append]
        refine ⟨h.pages.filter _, h.freeNodup, ?_⟩
        intro x hx y hy hxy
        subst hxy
        exact (h.freePages x hy).1 (List.mem_filter.mp hx).1
      freePages := by
        rw [hf]; show ∀ p ∈ a2.free_pages, p ∉ a2.pages ∧ p ≠ a2.current
        intro p hp
        rw [hf2, List.mem_append] at hp
        rw [hp2, hc2]
        rcases hp with hp | hp
        · rw [List.mem_filter] at hp
          refine ⟨fun hq => ?_, fun e => h.curr (e ▸ hp.1)⟩
          rw [List.mem_filter] at hq
          rw [hp.2] at hq
          exact absurd hq.2 (by simp)
        · have := h.freePages p hp
          exact ⟨fun hq => this.1 (List.mem_filter.mp hq).1, this.2⟩
      known := by
        rw [hf]; show ∀ p, p < a2.next_page ↔ (p ∈ a2.pages ∨ p = a2.current ∨ p ∈ a2.free_pages)
        intro p
        rw [hnp2, hp2, hc2, hf2, h.known, List.mem_append, List.mem_filter, List.mem_filter]
        rcases a1.all_dead p with _ | _ <;> simp
        tauto
      list := by rw [hf]; exact hfl
      nodup := hdn
      sub := fun c hc => (hin' c).mpr ((hdl c).mp hc).1
      count := by rw [hf]
      objs := by
        intro c hc hcl
        have hr : Reachable (contents a) refs roots c := by
          by_contra hn
          exact hcl ((hdl c).mpr ⟨(hin' c).mp hc, hn⟩)
        rw [hkeep c hr]
        exact hlive c hr
      noobj := fun c hc => hgone c (fun hr => hc ((hin' c).mpr (hreach2 c hr))) }
  · intro c hc
    simp only [contents, hkeep c hc]
  · intro c hc
    rcases hm : contents a' c with _ | d
    · rfl
    · exact absurd (contents_some.mp hm) (hgone c hc d)
  · have hcm : a'.mark_counter = (U.filter (fun c => a1.marked c)).length := by
      rw [hf]; show a2.mark_counter = _
      rw [hcount2]; exact hm4
    refine ⟨U.filter (fun c => a1.marked c), hU.filter _, hcm.symm, ?_⟩
    intro c
    rw [List.mem_filter]
    constructor
    · rintro ⟨h1, h2⟩
      exact (Reach_iff_Reachable a refs roots c).mp ((hm1 c h1).mp h2)
    · intro hr
      have := hm2 c ((Reach_iff_Reachable a refs roots c).mpr hr)
      exact ⟨this, (hm1 c this).mpr ((Reach_iff_Reachable a refs roots c).mpr hr)⟩
  · rw [hf]; exact hnp2
  · rw [hf]; exact hen2.trans hen
  · rw [hf]; show a2.count + 1 = _; rw [hct2]
  · rw [hf]; exact hal2
  · intro p hp
    rw [hf] at hp
    change p ∈ a2.pages at hp
    rw [hp2, List.mem_filter] at hp
    by_contra hn
    have hd : a1.all_dead p = true := (hdead p hp.1).mpr (fun i hi hr => hn ⟨i, hi, hr⟩)
    rw [hd] at hp
    simp at hp

end Verif.Heap
