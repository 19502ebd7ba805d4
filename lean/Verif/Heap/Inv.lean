import Verif.Heap.Sweep
import Verif.Heap.Spec
/-! Helper lemmas: the invariant of the allocator. -/
namespace Verif.Heap
variable {D : Type}

structure WF (a : Alloc D) (l : List Cell) : Prop where
  used : a.used_in_current ≤ DATA_LEN
  pages : a.pages.Nodup
  curr : a.current ∉ a.pages
  freeNodup : a.free_pages.Nodup
  freePages : ∀ p ∈ a.free_pages, p ∉ a.pages ∧ p ≠ a.current
  known : ∀ p, p < a.next_page ↔ (p ∈ a.pages ∨ p = a.current ∨ p ∈ a.free_pages)
  list : FreeList a.mem a.free l
  nodup : l.Nodup
  sub : ∀ c ∈ l, inUse a c
  count : a.free_list_count = l.length
  objs : ∀ c, inUse a c → c ∉ l → ∃ d, a.mem c = .obj d
  noobj : ∀ c, ¬ inUse a c → ∀ d, a.mem c ≠ .obj d

theorem WF.live {a : Alloc D} {l : List Cell} (h : WF a l) (c : Cell) :
    (contents a c).isSome ↔ inUse a c ∧ c ∉ l := by
  constructor
  · intro hs
    have hobj : ∃ d, a.mem c = .obj d := by
      simp only [contents] at hs
      rcases hm : a.mem c with _ | d | _
      · simp [hm] at hs
      · exact ⟨d, rfl⟩
      · simp [hm] at hs
    obtain ⟨d, hd⟩ := hobj
    refine ⟨?_, ?_⟩
    · by_contra hn
      exact h.noobj c hn d hd
    · intro hl
      obtain ⟨n, hn⟩ := h.list.free c hl
      rw [hd] at hn; cases hn
  · rintro ⟨h1, h2⟩
    obtain ⟨d, hd⟩ := h.objs c h1 h2
    simp [contents, hd]

theorem contents_some {a : Alloc D} {c : Cell} {d : D} : contents a c = some d ↔ a.mem c = .obj d := by
  simp only [contents]
  rcases a.mem c with _ | d' | _ <;> simp

theorem contents_setMem (a : Alloc D) (c : Cell) (d : D) :
    contents { a with mem := setMem a.mem c (.obj d) } = upd (contents a) c d := by
  funext x
  simp only [contents, setMem, upd]
  by_cases h : x = c <;> simp [h]

theorem wf_new : WF (Alloc.new : Alloc D) [] where
  used := by simp [Alloc.new]
  pages := by simp [Alloc.new]
  curr := by simp [Alloc.new]
  freeNodup := by simp [Alloc.new]
  freePages := by simp [Alloc.new]
  known := by intro p; simp [Alloc.new]
  list := by simp [Alloc.new, FreeList]
  nodup := by simp
  sub := by simp
  count := by simp [Alloc.new]
  objs := by intro c hc; simp [inUse, Alloc.new] at hc
  noobj := by intro c _ d; simp [Alloc.new]

/-- One allocation: the cell was empty, the map changes there only, the invariant stays; a free cell is taken from the
front of the list, and the list stays empty if it was. -/
theorem alloc_spec (a : Alloc D) (l : List Cell) (h : WF a l) (d : D) :
    let r := a.alloc d
    WF r.2 l.tail ∧ contents a r.1 = none ∧ contents r.2 = upd (contents a) r.1 d ∧
    (∀ x, l.head? = some x → r.1 = x ∧ r.2.next_page = a.next_page ∧ r.2.pages = a.pages ∧ r.2.current = a.current ∧
      r.2.used_in_current = a.used_in_current ∧ r.2.free_pages = a.free_pages) ∧
    (r.2.next_page ≠ a.next_page → l = [] ∧ a.used_in_current = DATA_LEN ∧ a.free_pages = [] ∧
      r.2.next_page = a.next_page + 1) := by
  intro r
  rcases l with _ | ⟨x, l⟩
  · -- no free cell
    have hfree : a.free = none := by
      have := h.list
      rcases hf : a.free with _ | c
      · rfl
      · rw [hf] at this; exact this.elim
    by_cases hu : a.used_in_current = DATA_LEN
    · rcases hfp : a.free_pages with _ | ⟨p, rest⟩
      · have hr : r = (⟨a.next_page, 0⟩, { a with
            allocated := a.allocated + 1, used_in_current := 1, pages := a.pages ++ [a.current], current := a.next_page,
            next_page := a.next_page + 1, mem := setMem a.mem ⟨a.next_page, 0⟩ (.obj d) }) := by
          simp only [r, Alloc.alloc, hfree, hu, hfp, if_true]
        have hnk : ¬ (a.next_page ∈ a.pages ∨ a.next_page = a.current ∨ a.next_page ∈ a.free_pages) := by
          rw [← h.known]; omega
        have hn0 : ∀ d, a.mem ⟨a.next_page, 0⟩ ≠ .obj d := by
          apply h.noobj
          rintro (⟨h1, _⟩ | ⟨h1, _⟩)
          · exact hnk (.inl h1)
          · exact hnk (.inr (.inl h1))
        rw [hr]
        have hin : ∀ c, inUse { a with
            allocated := a.allocated + 1, used_in_current := 1, pages := a.pages ++ [a.current], current := a.next_page,
            next_page := a.next_page + 1, mem := setMem a.mem ⟨a.next_page, 0⟩ (.obj d) } c ↔ inUse a c ∨ c = ⟨a.next_page, 0⟩ := by
          intro c
          rcases c with ⟨p, i⟩
          simp only [inUse, List.mem_append, List.mem_singleton, Cell.mk.injEq, hu]
          constructor
          · rintro (⟨h1 | h1, h2⟩ | ⟨h1, h2⟩)
            · exact .inl (.inl ⟨h1, h2⟩)
            · exact .inl (.inr ⟨h1, h2⟩)
            · exact .inr ⟨h1, by omega⟩
          · rintro ((⟨h1, h2⟩ | ⟨h1, h2⟩) | ⟨h1, h2⟩)
            · exact .inl ⟨.inl h1, h2⟩
            · exact .inl ⟨.inr h1, h2⟩
            · exact .inr ⟨h1, by omega⟩
        refine ⟨?_, ?_, ?_, ?_, ?_⟩
        · exact {
            used := by simp [DATA_LEN]
            pages := by
              rw [List.nodup_append]
              refine ⟨h.pages, by simp, ?_⟩
              intro x hx y hy
              simp only [List.mem_singleton] at hy
              rintro rfl
              subst hy
              exact h.curr hx
            curr := by
              simp only [List.mem_append, List.mem_singleton, not_or]
              exact ⟨fun h1 => hnk (.inl h1), fun h1 => hnk (.inr (.inl h1))⟩
            freeNodup := h.freeNodup
            freePages := by rw [hfp]; simp
            known := by
              intro q
              have := h.known q
              simp only [List.mem_append, List.mem_singleton]
              constructor
              · intro hq
                by_cases hq' : q = a.next_page
                · exact .inr (.inl hq')
                · rcases this.mp (by omega) with h1 | h1 | h1
                  · exact .inl (.inl h1)
                  · exact .inl (.inr h1)
                  · exact .inr (.inr h1)
              · rintro ((h1 | h1) | h1 | h1)
                · have := this.mpr (.inl h1); omega
                · have := this.mpr (.inr (.inl h1)); omega
                · omega
                · have := this.mpr (.inr (.inr h1)); omega
            list := by simp [hfree, FreeList]
            nodup := by simp
            sub := by simp
            count := h.count
            objs := by
              intro c hc _
              rcases (hin c).mp hc with h1 | rfl
              · simp only [setMem]
                by_cases hcx : c = ⟨a.next_page, 0⟩
                · simp [hcx]
                · simp only [hcx, if_false]
                  exact h.objs c h1 (by simp)
              · simp [setMem]
            noobj := by
              intro c hc d'
              have := mt (hin c).mpr hc
              simp only [not_or] at this
              simp only [setMem, this.2, if_false]
              exact h.noobj c this.1 d' }
        · rcases hm : contents a ⟨a.next_page, 0⟩ with _ | d'
          · rfl
          · exact absurd (contents_some.mp hm) (hn0 d')
        · exact contents_setMem a _ d
        · intro x hx; simp at hx
        · intro _; exact ⟨rfl, hu, rfl, rfl⟩
      · have hr : r = (⟨p, 0⟩, { a with
            allocated := a.allocated + 1, used_in_current := 1, pages := a.pages ++ [a.current], current := p,
            free_pages := rest, mem := setMem a.mem ⟨p, 0⟩ (.obj d) }) := by
          simp only [r, Alloc.alloc, hfree, hu, hfp, if_true]
        have hp := h.freePages p (by simp [hfp])
        have hrn := h.freeNodup
        rw [hfp, List.nodup_cons] at hrn
        have hn0 : ∀ d, a.mem ⟨p, 0⟩ ≠ .obj d := by
          apply h.noobj
          rintro (⟨h1, _⟩ | ⟨h1, _⟩)
          · exact hp.1 h1
          · exact hp.2 h1
        rw [hr]
        have hin : ∀ c, inUse { a with
            allocated := a.allocated + 1, used_in_current := 1, pages := a.pages ++ [a.current], current := p,
            free_pages := rest, mem := setMem a.mem ⟨p, 0⟩ (.obj d) } c ↔ inUse a c ∨ c = ⟨p, 0⟩ := by
          intro c
          rcases c with ⟨q, i⟩
          simp only [inUse, List.mem_append, List.mem_singleton, Cell.mk.injEq, hu]
          constructor
          · rintro (⟨h1 | h1, h2⟩ | ⟨h1, h2⟩)
            · exact .inl (.inl ⟨h1, h2⟩)
            · exact .inl (.inr ⟨h1, h2⟩)
            · exact .inr ⟨h1, by omega⟩
          · rintro ((⟨h1, h2⟩ | ⟨h1, h2⟩) | ⟨h1, h2⟩)
            · exact .inl ⟨.inl h1, h2⟩
            · exact .inl ⟨.inr h1, h2⟩
            · exact .inr ⟨h1, by omega⟩
        refine ⟨?_, ?_, ?_, ?_, ?_⟩
        · exact {
            used := by simp [DATA_LEN]
            pages := by
              rw [List.nodup_append]
              refine ⟨h.pages, by simp, ?_⟩
              intro x hx y hy
              simp only [List.mem_singleton] at hy
              rintro rfl
              subst hy
              exact h.curr hx
            curr := by
              simp only [List.mem_append, List.mem_singleton, not_or]
              exact hp
            freeNodup := hrn.2
            freePages := by
              intro q hq
              have hq' := h.freePages q (by simp [hfp, hq])
              simp only [List.mem_append, List.mem_singleton, not_or]
              exact ⟨hq', fun e => hrn.1 (e ▸ hq)⟩
            known := by
              intro q
              have := h.known q
              rw [hfp] at this
              simp only [List.mem_append, List.mem_cons] at this ⊢
              rw [this]; tauto
            list := by simp [hfree, FreeList]
            nodup := by simp
            sub := by simp
            count := h.count
            objs := by
              intro c hc _
              rcases (hin c).mp hc with h1 | rfl
              · simp only [setMem]
                by_cases hcx : c = ⟨p, 0⟩
                · simp [hcx]
                · simp only [hcx, if_false]
                  exact h.objs c h1 (by simp)
              · simp [setMem]
            noobj := by
              intro c hc d'
              have := mt (hin c).mpr hc
              simp only [not_or] at this
              simp only [setMem, this.2, if_false]
              exact h.noobj c this.1 d' }
        · rcases hm : contents a ⟨p, 0⟩ with _ | d'
          · rfl
          · exact absurd (contents_some.mp hm) (hn0 d')
        · exact contents_setMem a _ d
        · intro x hx; simp at hx
        · intro hne; exact absurd rfl hne
    · obtain ⟨fl, hr⟩ : ∃ fl, r = (⟨a.current, a.used_in_current⟩, { a with
            allocated := a.allocated + 1, alloc_flag := fl, used_in_current := a.used_in_current + 1,
            mem := setMem a.mem ⟨a.current, a.used_in_current⟩ (.obj d) }) := by
        refine ⟨if a.used_in_current = THRESHOLD then true else a.alloc_flag, ?_⟩
        simp only [r, Alloc.alloc, hfree, hu, if_false]
      have hlt : a.used_in_current < DATA_LEN := by have := h.used; omega
      have hn0 : ∀ d, a.mem ⟨a.current, a.used_in_current⟩ ≠ .obj d := by
        apply h.noobj
        rintro (⟨h1, _⟩ | ⟨_, h1⟩)
        · exact h.curr h1
        · exact Nat.lt_irrefl _ h1
      rw [hr]
      have hin : ∀ c, inUse { a with
            allocated := a.allocated + 1, alloc_flag := fl, used_in_current := a.used_in_current + 1,
            mem := setMem a.mem ⟨a.current, a.used_in_current⟩ (.obj d) } c ↔ inUse a c ∨ c = ⟨a.current, a.used_in_current⟩ := by
        intro c
        rcases c with ⟨q, i⟩
        simp only [inUse, Cell.mk.injEq]
        constructor
        · rintro (h1 | ⟨h1, h2⟩)
          · exact .inl (.inl h1)
          · by_cases hi : i = a.used_in_current
            · exact .inr ⟨h1, hi⟩
            · exact .inl (.inr ⟨h1, by omega⟩)
        · rintro ((h1 | ⟨h1, h2⟩) | ⟨h1, h2⟩)
          · exact .inl h1
          · exact .inr ⟨h1, by omega⟩
          · exact .inr ⟨h1, by omega⟩
      refine ⟨?_, ?_, ?_, ?_, ?_⟩
      · exact {
          used := hlt
          pages := h.pages
          curr := h.curr
          freeNodup := h.freeNodup
          freePages := h.freePages
          known := h.known
          list := by simp [hfree, FreeList]
          nodup := by simp
          sub := by simp
          count := h.count
          objs := by
            intro c hc _
            rcases (hin c).mp hc with h1 | rfl
            · simp only [setMem]
              by_cases hcx : c = ⟨a.current, a.used_in_current⟩
              · simp [hcx]
              · simp only [hcx, if_false]
                exact h.objs c h1 (by simp)
            · simp [setMem]
          noobj := by
            intro c hc d'
            have := mt (hin c).mpr hc
            simp only [not_or] at this
            simp only [setMem, this.2, if_false]
            exact h.noobj c this.1 d' }
      · rcases hm : contents a ⟨a.current, a.used_in_current⟩ with _ | d'
        · rfl
        · exact absurd (contents_some.mp hm) (hn0 d')
      · exact contents_setMem a _ d
      · intro x hx; simp at hx
      · intro hne; exact absurd rfl hne
  · -- from the free list
    have hl := h.list
    rcases hf : a.free with _ | c
    · rw [hf] at hl; exact hl.elim
    · rw [hf] at hl
      obtain ⟨rfl, n, hn, hl⟩ := hl
      have hr : r = (c, { a with
          allocated := a.allocated + 1, free := n, mem := setMem a.mem c (.obj d),
          free_list_count := a.free_list_count - 1 }) := by
        simp only [r, Alloc.alloc, hf, hn]
      have hnd := List.nodup_cons.mp h.nodup
      have hcu := h.sub c (by simp)
      rw [hr]
      refine ⟨?_, ?_, ?_, ?_, ?_⟩
      · exact {
          used := h.used
          pages := h.pages
          curr := h.curr
          freeNodup := h.freeNodup
          freePages := h.freePages
          known := h.known
          list := by
            refine hl.congr (fun y hy => ?_)
            have : y ≠ c := by rintro rfl; exact hnd.1 hy
            simp [setMem, this]
          nodup := hnd.2
          sub := fun y hy => h.sub y (by simp at hy; simp [hy])
          count := by simp [h.count]
          objs := by
            intro y hy hyl
            simp only [setMem]
            by_cases hyc : y = c
            · simp [hyc]
            · simp only [hyc, if_false]
              exact h.objs y hy (by simp at hyl; simp [hyc, hyl])
          noobj := by
            intro y hy d'
            have : y ≠ c := by rintro rfl; exact hy hcu
            simp only [setMem, this, if_false]
            exact h.noobj y hy d' }
      · simp [contents, hn]
      · exact contents_setMem a _ d
      · intro x hx
        simp only [List.head?_cons, Option.some.injEq] at hx
        exact ⟨hx, rfl, rfl, rfl, rfl, rfl⟩
      · intro hne; exact absurd rfl hne

end Verif.Heap
