import Verif.Heap.Collect
/-!
# C26 C27 C28: the heap as a program sees it

`Run refs h roots a`: a program has built the ideal heap `h` (in which nothing is ever collected) and holds `roots`; `a`
is the allocator after the same operations with collections at arbitrary moments.  `refs` is what an object refers to;
in these theorems the collector visits the same references.  Which kinds of object that is true of in ruruby is the
subject of `Verif.Heap.Kinds`.
-/
namespace Verif.Heap
variable {D : Type}

theorem Run.inv {refs : D → List Cell} {h : Cell → Option D} {roots : List Cell} {a : Alloc D} (hr : Run refs h roots a) :
    (∃ l, WF a l) ∧ (∀ c d, contents a c = some d → h c = some d) ∧
    (∀ c d, contents a c = some d → ∀ k ∈ refs d, (contents a k).isSome) ∧
    (∀ c, Reachable h refs roots c → (contents a c).isSome) := by
  induction hr with
  | start =>
    refine ⟨⟨[], wf_new⟩, ?_, ?_, ?_⟩
    · intro c d hc; simp [contents, Alloc.new] at hc
    · intro c d hc; simp [contents, Alloc.new] at hc
    · intro c hc
      induction hc with
      | root h => simp at h
      | step _ hm => simp at hm
  | @alloc h roots a d hrun hd ih =>
    obtain ⟨⟨l, hw⟩, i1, i2, i3⟩ := ih
    have hs := alloc_spec a l hw d
    dsimp only at hs
    obtain ⟨s1, s2, s3, s4, _⟩ := hs
    generalize (a.alloc d) = r at *
    have hd' : ∀ k ∈ refs d, (contents a k).isSome := fun k hk => i3 k (hd k hk)
    have hmono : ∀ k, (contents a k).isSome → (upd (contents a) r.1 d k).isSome := by
      intro k hk
      simp only [upd]; split <;> simp_all
    have hreach : ∀ c, Reachable (upd h r.1 d) refs (r.1 :: roots) c → c = r.1 ∨ Reachable h refs roots c := by
      intro c hc
      induction hc with
      | root hc =>
        rcases List.mem_cons.mp hc with rfl | hc
        · exact .inl rfl
        · exact .inr (.root hc)
      | @step c d' k _ hm hk ihc =>
        simp only [upd] at hm
        split at hm
        · cases hm
          exact .inr (hd k hk)
        · rename_i hne
          exact .inr (.step (ihc.resolve_left hne) hm hk)
    refine ⟨⟨_, s1⟩, ?_, ?_, ?_⟩
    · intro c d' hc
      rw [s3] at hc
      simp only [upd] at hc ⊢
      split at hc
      · rename_i he; rw [if_pos he]; exact hc
      · rename_i he; rw [if_neg he]; exact i1 c d' hc
    · intro c d' hc k hk
      rw [s3] at hc ⊢
      apply hmono
      simp only [upd] at hc
      split at hc
      · cases hc; exact hd' k hk
      · exact i2 c d' hc k hk
    · intro c hc
      rw [s3]
      rcases hreach c hc with rfl | hc
      · simp [upd]
      · exact hmono c (i3 c hc)
  | @write h roots a c0 d hrun hc0 hd ih =>
    obtain ⟨⟨l, hw⟩, i1, i2, i3⟩ := ih
    have hlive := (hw.live c0).mp (i3 c0 hc0)
    have hcont := contents_setMem a c0 d
    have hreach : ∀ c, Reachable (upd h c0 d) refs roots c → Reachable h refs roots c := by
      intro c hc
      induction hc with
      | root hc => exact .root hc
      | @step c d' k _ hm hk ihc =>
        simp only [upd] at hm
        split at hm
        · cases hm
          exact hd k hk
        · exact .step ihc hm hk
    have hmono : ∀ k, (contents a k).isSome → (upd (contents a) c0 d k).isSome := by
      intro k hk
      simp only [upd]; split <;> simp_all
    refine ⟨⟨l, ?_⟩, ?_, ?_, ?_⟩
    · exact {
        used := hw.used, pages := hw.pages, curr := hw.curr, freeNodup := hw.freeNodup, freePages := hw.freePages,
        known := hw.known, nodup := hw.nodup, sub := hw.sub, count := hw.count
        list := by
          refine hw.list.congr (fun y hy => ?_)
          have : y ≠ c0 := by rintro rfl; exact hlive.2 hy
          simp [setMem, this]
        objs := by
          intro y hy hyl
          simp only [setMem]
          by_cases hyc : y = c0
          · simp [hyc]
          · simp only [hyc, if_false]; exact hw.objs y hy hyl
        noobj := by
          intro y hy d'
          have : y ≠ c0 := by rintro rfl; exact hy hlive.1
          simp only [setMem, this, if_false]
          exact hw.noobj y hy d' }
    · intro c d' hc
      rw [hcont] at hc
      simp only [upd] at hc ⊢
      split at hc
      · rename_i he; rw [if_pos he]; exact hc
      · rename_i he; rw [if_neg he]; exact i1 c d' hc
    · intro c d' hc k hk
      rw [hcont] at hc ⊢
      apply hmono
      simp only [upd] at hc
      split at hc
      · cases hc; exact i3 k (hd k hk)
      · exact i2 c d' hc k hk
    · intro c hc
      rw [hcont]
      exact hmono c (i3 c (hreach c hc))
  | @roots h roots a roots' hrun hsub ih =>
    obtain ⟨hw, i1, i2, i3⟩ := ih
    refine ⟨hw, i1, i2, fun c hc => i3 c ?_⟩
    induction hc with
    | root hc => exact hsub _ hc
    | step _ hm hk ihc => exact .step ihc hm hk
  | @gc h roots a hrun ih =>
    obtain ⟨⟨l, hw⟩, i1, i2, i3⟩ := ih
    rcases hen : a.gc_enabled with _ | _
    · have : a.gc refs roots = a := by simp [Alloc.gc, hen]
      rw [this]
      exact ⟨⟨l, hw⟩, i1, i2, i3⟩
    · have hg := gc_spec a l hw hen refs roots (fun c hc => i3 c (.root hc)) i2
      dsimp only at hg
      obtain ⟨g1, g2, g3, _⟩ := hg
      have hiff : ∀ c, Reachable h refs roots c → Reachable (contents a) refs roots c := by
        intro c hc
        induction hc with
        | root hc => exact .root hc
        | @step c d k hcr hm hk ihc =>
          obtain ⟨d', hd'⟩ := Option.isSome_iff_exists.mp (i3 c hcr)
          have := i1 c d' hd'
          rw [hm] at this; cases this
          exact .step ihc hd' hk
      have hback : ∀ c d, contents (a.gc refs roots) c = some d → Reachable (contents a) refs roots c ∧ contents a c = some d := by
        intro c d hc
        by_cases hcr : Reachable (contents a) refs roots c
        · exact ⟨hcr, by rw [← g2 c hcr]; exact hc⟩
        · rw [g3 c hcr] at hc; cases hc
      refine ⟨g1, ?_, ?_, ?_⟩
      · intro c d hc
        exact i1 c d (hback c d hc).2
      · intro c d hc k hk
        obtain ⟨h1, h2⟩ := hback c d hc
        rw [g2 k (.step h1 h2 hk)]
        exact i2 c d h2 k hk
      · intro c hc
        rw [g2 c (hiff c hc)]
        exact i3 c hc
  | gc_enable b hrun ih =>
    obtain ⟨⟨l, hw⟩, i1, i2, i3⟩ := ih
    exact ⟨⟨l, { hw with }⟩, i1, i2, i3⟩

theorem Run.reach {refs : D → List Cell} {h : Cell → Option D} {roots : List Cell} {a : Alloc D} (hr : Run refs h roots a)
    (c : Cell) : Reachable h refs roots c ↔ Reachable (contents a) refs roots c := by
  obtain ⟨_, i1, _, i3⟩ := hr.inv
  constructor
  · intro hc
    induction hc with
    | root hc => exact .root hc
    | @step c d k hcr hm hk ihc =>
      obtain ⟨d', hd'⟩ := Option.isSome_iff_exists.mp (i3 c hcr)
      have := i1 c d' hd'
      rw [hm] at this; cases this
      exact .step ihc hd' hk
  · intro hc
    induction hc with
    | root hc => exact .root hc
    | step _ hm hk ihc => exact .step ihc (i1 _ _ hm) hk

/-- C26: whatever the program did and whenever collections happened, every object it can get at is in its cell with the
contents last written to it. -/
theorem C26_reachable_intact {refs : D → List Cell} {h : Cell → Option D} {roots : List Cell} {a : Alloc D}
    (hr : Run refs h roots a) (c : Cell) (hc : Reachable h refs roots c) :
    (h c).isSome ∧ contents a c = h c := by
  obtain ⟨_, i1, _, i3⟩ := hr.inv
  obtain ⟨d, hd⟩ := Option.isSome_iff_exists.mp (i3 c hc)
  have := i1 c d hd
  exact ⟨by simp [this], by rw [hd, this]⟩

/-- C26: no cell ever shows the program anything but what it wrote there. -/
theorem C26_nothing_else {refs : D → List Cell} {h : Cell → Option D} {roots : List Cell} {a : Alloc D}
    (hr : Run refs h roots a) (c : Cell) (d : D) (hc : contents a c = some d) : h c = some d := hr.inv.2.1 c d hc

/-- C26: one collection keeps every reachable object as it was. -/
theorem C26_collection {refs : D → List Cell} {h : Cell → Option D} {roots : List Cell} {a : Alloc D}
    (hr : Run refs h roots a) (c : Cell) (hc : Reachable h refs roots c) :
    contents (a.gc refs roots) c = contents a c := by
  have h1 := C26_reachable_intact hr c hc
  have h2 := C26_reachable_intact (Run.gc hr) c hc
  rw [h1.2, h2.2]

/-- C27: the cell handed out for a new object is empty: no live object, reachable or not, is in it.  The allocation
writes that cell and no other. -/
theorem C27_alloc_unused {refs : D → List Cell} {h : Cell → Option D} {roots : List Cell} {a : Alloc D}
    (hr : Run refs h roots a) (d : D) :
    contents a (a.alloc d).1 = none ∧ ¬ Reachable h refs roots (a.alloc d).1 ∧
    ∀ c, contents (a.alloc d).2 c = if c = (a.alloc d).1 then some d else contents a c := by
  obtain ⟨⟨l, hw⟩, _, _, i3⟩ := hr.inv
  have hs := alloc_spec a l hw d
  dsimp only at hs
  refine ⟨hs.2.1, fun hc => ?_, fun c => ?_⟩
  · have := i3 _ hc
    rw [hs.2.1] at this; simp at this
  · rw [hs.2.2.1]; rfl

/-- C28: right after a collection the heap holds the reachable objects and nothing else, and the mark counter is their
number. -/
theorem C28_garbage_reclaimed {refs : D → List Cell} {h : Cell → Option D} {roots : List Cell} {a : Alloc D}
    (hr : Run refs h roots a) (hen : a.gc_enabled = true) :
    (∀ c, (contents (a.gc refs roots) c).isSome ↔ Reachable h refs roots c) ∧
    NumberOf (Reachable h refs roots) (a.gc refs roots).mark_counter := by
  obtain ⟨⟨l, hw⟩, i1, i2, i3⟩ := hr.inv
  have hg := gc_spec a l hw hen refs roots (fun c hc => i3 c (.root hc)) i2
  dsimp only at hg
  obtain ⟨_, g2, g3, g4, _⟩ := hg
  refine ⟨fun c => ⟨fun hs => ?_, fun hc => ?_⟩, ?_⟩
  · rw [hr.reach]
    by_contra hn
    rw [g3 c hn] at hs; simp at hs
  · rw [g2 c ((hr.reach c).mp hc)]
    exact i3 c hc
  · obtain ⟨l', h1, h2, h3⟩ := g4
    exact ⟨l', h1, h2, fun c => (h3 c).trans (hr.reach c).symm⟩

/-- C28: the count of free cells kept by the allocator is at all times the number of empty cells among those in use. -/
theorem C28_free_count {refs : D → List Cell} {h : Cell → Option D} {roots : List Cell} {a : Alloc D}
    (hr : Run refs h roots a) :
    NumberOf (fun c => inUse a c ∧ contents a c = none) a.free_list_count := by
  obtain ⟨⟨l, hw⟩, _⟩ := hr.inv
  refine ⟨l, hw.nodup, hw.count.symm, fun c => ?_⟩
  have hl := hw.live c
  constructor
  · intro hc
    refine ⟨hw.sub c hc, ?_⟩
    rcases hm : contents a c with _ | d
    · rfl
    · exact absurd hc (hl.mp (by simp [hm])).2
  · rintro ⟨h1, h2⟩
    by_contra hn
    have := hl.mpr ⟨h1, hn⟩
    rw [h2] at this; simp at this

/-- C28: a new page is asked of the system only when every cell of every page obtained so far holds an object. -/
theorem C28_grows_only_when_full {refs : D → List Cell} {h : Cell → Option D} {roots : List Cell} {a : Alloc D}
    (hr : Run refs h roots a) (d : D) (hgrow : (a.alloc d).2.next_page ≠ a.next_page) :
    (a.alloc d).2.next_page = a.next_page + 1 ∧
    ∀ p i, p < a.next_page → i < DATA_LEN → (contents a ⟨p, i⟩).isSome := by
  obtain ⟨⟨l, hw⟩, _⟩ := hr.inv
  have hs := alloc_spec a l hw d
  dsimp only at hs
  obtain ⟨rfl, hu, hf, hn⟩ := hs.2.2.2.2 hgrow
  refine ⟨hn, fun p i hp hi => ?_⟩
  rw [hw.live]
  refine ⟨?_, by simp⟩
  rcases (hw.known p).mp hp with h1 | h1 | h1
  · exact .inl ⟨h1, hi⟩
  · exact .inr ⟨h1, by rw [hu]; exact hi⟩
  · rw [hf] at h1; simp at h1

/-- C28: while there are free cells, allocation uses one of them and takes no page. -/
theorem C28_reuse {refs : D → List Cell} {h : Cell → Option D} {roots : List Cell} {a : Alloc D}
    (hr : Run refs h roots a) (d : D) (hfree : 0 < a.free_list_count) :
    inUse a (a.alloc d).1 ∧ (a.alloc d).2.next_page = a.next_page ∧
    (a.alloc d).2.free_list_count = a.free_list_count - 1 := by
  obtain ⟨⟨l, hw⟩, _⟩ := hr.inv
  rcases l with _ | ⟨x, l⟩
  · have := hw.count; simp at this; omega
  · have hs := alloc_spec a (x :: l) hw d
    dsimp only at hs
    obtain ⟨s1, _, _, s4, _⟩ := hs
    obtain ⟨hx, hn, _⟩ := s4 x rfl
    refine ⟨by rw [hx]; exact hw.sub x (by simp), hn, ?_⟩
    have h1 := s1.count
    have h2 := hw.count
    simp only [List.tail_cons, List.length_cons] at h1 h2
    omega

/-- C28: a collection takes no page and keeps a full page in use only if a reachable object is in it. -/
theorem C28_empty_pages_released {refs : D → List Cell} {h : Cell → Option D} {roots : List Cell} {a : Alloc D}
    (hr : Run refs h roots a) (hen : a.gc_enabled = true) :
    (a.gc refs roots).next_page = a.next_page ∧
    ∀ p ∈ (a.gc refs roots).pages, ∃ i, i < DATA_LEN ∧ Reachable h refs roots ⟨p, i⟩ := by
  obtain ⟨⟨l, hw⟩, i1, i2, i3⟩ := hr.inv
  have hg := gc_spec a l hw hen refs roots (fun c hc => i3 c (.root hc)) i2
  dsimp only at hg
  obtain ⟨_, _, _, _, g5, _, _, _, g9⟩ := hg
  refine ⟨g5, fun p hp => ?_⟩
  obtain ⟨i, hi, hc⟩ := g9 p hp
  exact ⟨i, hi, (hr.reach _).mpr hc⟩

/-! ### A concrete run -/

section Example

/-- Objects that are just lists of references. -/
abbrev refsE : List Cell → List Cell := id

/-- Allocate three objects, the second referring to the first, drop all but the second, and collect. -/
def exA : Alloc (List Cell) := ((((Alloc.new).alloc []).2.alloc [⟨0, 0⟩]).2.alloc []).2

theorem exRun : ∃ h, Run refsE h [⟨0, 1⟩] exA ∧ Reachable h refsE [⟨0, 1⟩] ⟨0, 0⟩ := by
  have h0 : Run refsE (fun _ => none) [] (Alloc.new : Alloc (List Cell)) := .start
  have h1 := Run.alloc (refs := refsE) [] h0 (by intro k hk; simp at hk)
  have h2 := Run.alloc (refs := refsE) [⟨0, 0⟩] h1 (by
    intro k hk
    simp at hk
    exact .root (by simp [hk, Alloc.alloc, Alloc.new, DATA_LEN]))
  have h3 := Run.alloc (refs := refsE) [] h2 (by intro k hk; simp at hk)
  have h4 := Run.roots (refs := refsE) [⟨0, 1⟩] h3 (by
    intro k hk
    simp at hk
    exact .root (by simp [hk, Alloc.alloc, Alloc.new, DATA_LEN]))
  refine ⟨_, h4, ?_⟩
  refine .step (c := ⟨0, 1⟩) (d := [⟨0, 0⟩]) (.root (by simp)) ?_ (by simp)
  simp [upd, Alloc.alloc, Alloc.new, DATA_LEN]

/-- The collection keeps the two, drops the third, and the next object goes where the third was. -/
example : contents (exA.gc refsE [⟨0, 1⟩]) ⟨0, 0⟩ = some [] ∧
    contents (exA.gc refsE [⟨0, 1⟩]) ⟨0, 1⟩ = some [⟨0, 0⟩] ∧
    contents (exA.gc refsE [⟨0, 1⟩]) ⟨0, 2⟩ = none ∧
    (exA.gc refsE [⟨0, 1⟩]).mark_counter = 2 ∧ (exA.gc refsE [⟨0, 1⟩]).free_list_count = 1 ∧
    ((exA.gc refsE [⟨0, 1⟩]).alloc []).1 = ⟨0, 2⟩ := by decide +kernel

example : ∃ h, Run refsE h [⟨0, 1⟩] (exA.gc refsE [⟨0, 1⟩]) := by
  obtain ⟨h, hr, _⟩ := exRun
  exact ⟨h, .gc hr⟩

/-- Growing does happen: a full page with nothing free makes the next allocation take a page. -/
example : ((({ (Alloc.new : Alloc Nat) with used_in_current := DATA_LEN } : Alloc Nat).alloc 5).2).next_page ≠ 1 := by
  decide

end Example

end Verif.Heap
