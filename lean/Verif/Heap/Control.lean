import Verif.Heap.Props
/-!
# When collections happen, and `GC.start`, `GC.enable`, `GC.disable`, `GC.count`, `GC.stat`

The rest of `Allocator` (`ruruby/src/alloc.rs`): what makes the interpreter start a collection, and the methods of `GC`
(`ruruby/src/builtin/gc.rs`).
-/
namespace Verif.Heap
namespace Control

variable {D : Type}

/-! ## Model -/

/-- The allocator with `malloc_threshold` (alloc.rs:80), and the counter of the interpreter (`gc_count`, vm/executor.rs:42).
Simplified: one interpreter, that is no fibers; the counter does not wrap. -/
structure Mach (D : Type) where
  a : Alloc D
  malloc_threshold : Nat
  ticks : Nat

/-- `MALLOC_THRESHOLD`, alloc.rs:35 -/
def MALLOC_THRESHOLD : Nat := 256 * 1024

/-- A new interpreter: alloc.rs:84-102, vm/executor.rs:94-115. -/
def Mach.new : Mach D := ⟨Alloc.new, MALLOC_THRESHOLD, 0⟩

/-- `gc`, alloc.rs:210-245, with the new threshold (239-240); `malloced` is `MALLOC_AMOUNT` at that moment. -/
def Mach.gc (m : Mach D) (kids : D → List Cell) (roots : List Cell) (malloced : Nat) : Mach D :=
  { m with
    a := m.a.gc kids roots
    malloc_threshold := if !m.a.gc_enabled then m.malloc_threshold else malloced + MALLOC_THRESHOLD }

/-- `check_gc`, alloc.rs:196-208 -/
def Mach.check_gc (m : Mach D) (kids : D → List Cell) (roots : List Cell) (malloced : Nat) : Mach D :=
  if !m.a.alloc_flag && !decide (m.malloc_threshold < malloced) then m else m.gc kids roots malloced

/-- `checked_gc`, vm/executor.rs:345-357: called at loops and at calls (opt_core.rs:20, 428). -/
def Mach.checked_gc (m : Mach D) (kids : D → List Cell) (roots : List Cell) (malloced : Nat) : Mach D :=
  let m := { m with ticks := m.ticks + 1 }
  if m.ticks % 16 ≠ 0 then m else m.check_gc kids roots malloced

/-- `GC.enable`, builtin/gc.rs:22-30 -/
def Mach.enable (m : Mach D) : Bool × Mach D := (m.a.gc_enabled, { m with a := { m.a with gc_enabled := true } })

/-- `GC.disable`, builtin/gc.rs:32-40 -/
def Mach.disable (m : Mach D) : Bool × Mach D := (m.a.gc_enabled, { m with a := { m.a with gc_enabled := false } })

/-- `GC.start`, builtin/gc.rs:42-45 -/
def Mach.start (m : Mach D) (kids : D → List Cell) (roots : List Cell) (malloced : Nat) : Mach D := m.gc kids roots malloced

/-- `GC.count`, builtin/gc.rs:16-20 (alloc.rs:135-137) -/
def Mach.gcCount (m : Mach D) : Nat := m.a.count

/-- `GC.stat`, builtin/gc.rs:47-66 -/
structure Stat where
  count : Nat
  heap_allocated_pages : Nat
  heap_free_slots : Nat
  heap_live_slots : Nat
  total_allocated_objects : Nat
  deriving DecidableEq, Repr

/-- builtin/gc.rs:47-66, alloc.rs:114-144 -/
def Mach.stat (m : Mach D) : Stat := ⟨m.a.count, m.a.pages.length + 1, m.a.free_list_count, m.a.mark_counter, m.a.allocated⟩

/-! ## Specification -/

/-- What happens to a program that matters for the collector. -/
inductive Ev (D : Type) where
  | alloc (d : D)
  | write (c : Cell) (d : D)
  | roots (rs : List Cell)
  | check (malloced : Nat)
  | start (malloced : Nat)
  | enable
  | disable

/-- The ideal heap and the roots of the program (see `Run`), with the interpreter. -/
structure St (D : Type) where
  h : Cell → Option D
  roots : List Cell
  m : Mach D

/-- What a program can do: it writes and refers to what it can get at. -/
def Allowed (refs : D → List Cell) (s : St D) : Ev D → Prop
  | .alloc d => ∀ k ∈ refs d, Reachable s.h refs s.roots k
  | .write c d => Reachable s.h refs s.roots c ∧ ∀ k ∈ refs d, Reachable s.h refs s.roots k
  | .roots rs => ∀ k ∈ rs, Reachable s.h refs s.roots k
  | _ => True

/-- What then happens. -/
def next (refs : D → List Cell) (s : St D) : Ev D → St D
  | .alloc d => ⟨upd s.h (s.m.a.alloc d).1 d, (s.m.a.alloc d).1 :: s.roots, { s.m with a := (s.m.a.alloc d).2 }⟩
  | .write c d => ⟨upd s.h c d, s.roots, { s.m with a := { s.m.a with mem := setMem s.m.a.mem c (.obj d) } }⟩
  | .roots rs => { s with roots := rs }
  | .check n => { s with m := s.m.checked_gc refs s.roots n }
  | .start n => { s with m := s.m.start refs s.roots n }
  | .enable => { s with m := s.m.enable.2 }
  | .disable => { s with m := s.m.disable.2 }

/-- A stretch of the history of a program. -/
inductive Path (refs : D → List Cell) : St D → List (Ev D) → St D → Prop
  | refl (s : St D) : Path refs s [] s
  | step {s t : St D} {e : Ev D} {es : List (Ev D)} : Allowed refs s e → Path refs (next refs s e) es t → Path refs s (e :: es) t

/-- The beginning. -/
def St.init : St D := ⟨fun _ => none, [], Mach.new⟩

/-- The states that programs reach. -/
def Reached (refs : D → List Cell) (s : St D) : Prop := ∃ es, Path refs St.init es s

def allocs : List (Ev D) → Nat
  | [] => 0
  | .alloc _ :: es => allocs es + 1
  | _ :: es => allocs es

def checks : List (Ev D) → Nat
  | [] => 0
  | .check _ :: es => checks es + 1
  | _ :: es => checks es

/-- The last of `enable` and `disable`; `b` if there is none. -/
def switched : Bool → List (Ev D) → Bool
  | b, [] => b
  | _, .enable :: es => switched true es
  | _, .disable :: es => switched false es
  | b, _ :: es => switched b es

/-! ## Helpers -/

theorem run_gc {refs : D → List Cell} {s : St D} (r : Run refs s.h s.roots s.m.a) (n : Nat) : Run refs s.h s.roots (s.m.gc refs s.roots n).a := .gc r

theorem run_next {refs : D → List Cell} {s : St D} (r : Run refs s.h s.roots s.m.a) {e : Ev D} (h : Allowed refs s e) :
    Run refs (next refs s e).h (next refs s e).roots (next refs s e).m.a := by
  cases e with
  | alloc d => exact .alloc d r h
  | write c d => exact .write c d r h.1 h.2
  | roots rs => exact .roots rs r h
  | check n =>
    simp only [next, Mach.checked_gc, Mach.check_gc]
    split
    · exact r
    · split
      · exact r
      · exact .gc r
  | start n => exact .gc r
  | enable => exact .gc_enable true r
  | disable => exact .gc_enable false r

theorem run_path {refs : D → List Cell} {s t : St D} {es : List (Ev D)} (p : Path refs s es t) (r : Run refs s.h s.roots s.m.a) :
    Run refs t.h t.roots t.m.a := by
  induction p with
  | refl s => exact r
  | step h _ ih => exact ih (run_next r h)

theorem run_reached {refs : D → List Cell} {s : St D} (h : Reached refs s) : Run refs s.h s.roots s.m.a := by
  obtain ⟨es, p⟩ := h
  exact run_path p .start

theorem gc_facts {refs : D → List Cell} {h : Cell → Option D} {roots : List Cell} {a : Alloc D} (r : Run refs h roots a) (hen : a.gc_enabled = true) :
    (a.gc refs roots).count = a.count + 1 ∧ (a.gc refs roots).gc_enabled = true ∧ (a.gc refs roots).allocated = a.allocated := by
  obtain ⟨⟨l, hw⟩, i1, i2, i3⟩ := r.inv
  have hg := gc_spec a l hw hen refs roots (fun c hc => i3 c (.root hc)) i2
  dsimp only at hg
  exact ⟨hg.2.2.2.2.2.2.1, hg.2.2.2.2.2.1, hg.2.2.2.2.2.2.2.1⟩

theorem gc_off {refs : D → List Cell} {roots : List Cell} {a : Alloc D} (h : a.gc_enabled = false) : a.gc refs roots = a := by
  simp [Alloc.gc, h]

theorem alloc_keeps (a : Alloc D) (d : D) :
    (a.alloc d).2.count = a.count ∧ (a.alloc d).2.gc_enabled = a.gc_enabled ∧ (a.alloc d).2.allocated = a.allocated + 1 ∧
    (a.alloc_flag = true → (a.alloc d).2.alloc_flag = true) := by
  unfold Alloc.alloc
  dsimp only
  split
  · exact ⟨rfl, rfl, rfl, id⟩
  · split
    · split <;> exact ⟨rfl, rfl, rfl, id⟩
    · refine ⟨rfl, rfl, rfl, fun h => ?_⟩
      dsimp only
      split
      · rfl
      · exact h

/-- One event: whether collection is on, and the count. -/
theorem next_facts {refs : D → List Cell} {s : St D} (r : Run refs s.h s.roots s.m.a) (e : Ev D) :
    (next refs s e).m.a.gc_enabled = switched s.m.a.gc_enabled [e] ∧
    s.m.a.count ≤ (next refs s e).m.a.count ∧
    (s.m.a.gc_enabled = false → (next refs s e).m.a.count = s.m.a.count) ∧
    (next refs s e).m.a.allocated = s.m.a.allocated + allocs [e] := by
  cases e with
  | alloc d => obtain ⟨h1, h2, h3, -⟩ := alloc_keeps s.m.a d; exact ⟨h2, le_of_eq h1.symm, fun _ => h1, h3⟩
  | write c d => exact ⟨rfl, le_refl _, fun _ => rfl, rfl⟩
  | roots rs => exact ⟨rfl, le_refl _, fun _ => rfl, rfl⟩
  | enable => exact ⟨rfl, le_refl _, fun _ => rfl, rfl⟩
  | disable => exact ⟨rfl, le_refl _, fun _ => rfl, rfl⟩
  | start n =>
    cases hb : s.m.a.gc_enabled with
    | true =>
      obtain ⟨h1, h2, h3⟩ := gc_facts r hb
      exact ⟨h2, by show _ ≤ (s.m.a.gc refs s.roots).count; omega, by simp, h3⟩
    | false =>
      have : (next refs s (.start n)).m.a = s.m.a := gc_off hb
      rw [this]
      exact ⟨hb, le_refl _, fun _ => rfl, rfl⟩
  | check n =>
    have key : (next refs s (.check n)).m.a = s.m.a ∨ (next refs s (.check n)).m.a = s.m.a.gc refs s.roots := by
      simp only [next, Mach.checked_gc, Mach.check_gc]
      split
      · exact .inl rfl
      · split
        · exact .inl rfl
        · exact .inr rfl
    rcases key with k | k
    · rw [k]; exact ⟨rfl, le_refl _, fun _ => rfl, rfl⟩
    · rw [k]
      cases hb : s.m.a.gc_enabled with
      | true =>
        obtain ⟨h1, h2, h3⟩ := gc_facts r hb
        exact ⟨h2, by omega, by simp, h3⟩
      | false =>
        rw [gc_off hb]
        exact ⟨hb, le_refl _, fun _ => rfl, rfl⟩

theorem switched_cons (b : Bool) (e : Ev D) (es : List (Ev D)) : switched b (e :: es) = switched (switched b [e]) es := by
  cases e <;> rfl

theorem allocs_cons (e : Ev D) (es : List (Ev D)) : allocs (e :: es) = allocs [e] + allocs es := by
  cases e <;> simp [allocs]; omega

theorem path_facts {refs : D → List Cell} {s t : St D} {es : List (Ev D)} (p : Path refs s es t) (r : Run refs s.h s.roots s.m.a) :
    t.m.a.gc_enabled = switched s.m.a.gc_enabled es ∧ s.m.a.count ≤ t.m.a.count ∧ t.m.a.allocated = s.m.a.allocated + allocs es := by
  induction p with
  | refl s => exact ⟨rfl, le_refl _, rfl⟩
  | @step s t e es h _ ih =>
    obtain ⟨h1, h2, -, h4⟩ := next_facts r e
    obtain ⟨k1, k2, k4⟩ := ih (run_next r h)
    refine ⟨by rw [k1, h1, ← switched_cons], by omega, by rw [k4, h4, allocs_cons e es]; omega⟩

/-- A collection that is due happens within 16 checks. -/
theorem due {refs : D → List Cell} {s t : St D} {es : List (Ev D)} (p : Path refs s es t) (r : Run refs s.h s.roots s.m.a)
    (hf : s.m.a.alloc_flag = true) (hen : s.m.a.gc_enabled = true) (hno : Ev.disable ∉ es) :
    s.m.a.count < t.m.a.count ∨ s.m.ticks % 16 + checks es < 16 := by
  induction p with
  | refl s => right; simp [checks]; omega
  | @step s t e es h p' ih =>
    have hno' : Ev.disable ∉ es := fun k => hno (List.mem_cons_of_mem _ k)
    have r' := run_next r h
    obtain ⟨h1, h2, -, -⟩ := next_facts r e
    have hmono := (path_facts p' r').2.1
    by_cases hc : s.m.a.count < (next refs s e).m.a.count
    · exact .inl (by omega)
    · cases e with
      | alloc d =>
        rcases ih r' ((alloc_keeps s.m.a d).2.2.2 hf) (h1.trans hen) hno' with k | k
        · exact .inl (by omega)
        · exact .inr (by simpa [checks, next] using k)
      | write c d =>
        rcases ih r' hf hen hno' with k | k
        · exact .inl (by omega)
        · exact .inr (by simpa [checks, next] using k)
      | roots rs =>
        rcases ih r' hf hen hno' with k | k
        · exact .inl (by omega)
        · exact .inr (by simpa [checks, next] using k)
      | enable =>
        rcases ih r' hf rfl hno' with k | k
        · exact .inl (by omega)
        · exact .inr (by simpa [checks, next, Mach.enable] using k)
      | disable => exact absurd (List.mem_cons_self ..) hno
      | start n =>
        have := (gc_facts r hen).1
        exact absurd (show s.m.a.count < (s.m.a.gc refs s.roots).count by omega) hc
      | check n =>
        by_cases ht : (s.m.ticks + 1) % 16 = 0
        · exfalso
          apply hc
          have : (next refs s (.check n)).m.a = s.m.a.gc refs s.roots := by
            simp [next, Mach.checked_gc, Mach.check_gc, ht, hf, Mach.gc]
          rw [this, (gc_facts r hen).1]
          omega
        · have e1 : next refs s (.check n) = { s with m := { s.m with ticks := s.m.ticks + 1 } } := by
            simp [next, Mach.checked_gc, ht]
          rw [e1] at ih r' hmono
          rcases ih r' hf hen hno' with k | k
          · exact .inl k
          · right
            simp only [checks] at k ⊢
            omega

/-- How many allocations are left before the flag is set. -/
def left (a : Alloc D) : Nat :=
  a.free_list_count + (if a.used_in_current ≤ THRESHOLD then THRESHOLD - a.used_in_current + 1 else DATA_LEN - a.used_in_current + 1 + THRESHOLD)

theorem left_alloc {a : Alloc D} {l : List Cell} (hw : WF a l) (d : D) :
    (a.alloc d).2.alloc_flag = true ∨ left (a.alloc d).2 + 1 = left a := by
  have hs := alloc_spec a l hw d
  dsimp only at hs
  obtain ⟨w', -, -, hx, -⟩ := hs
  have hT : THRESHOLD = 3968 := rfl
  have hD : DATA_LEN = 4032 := rfl
  cases l with
  | cons x l =>
    right
    have hu := (hx x rfl).2.2.2.2.1
    have c1 := hw.count
    have c2 := w'.count
    simp only [List.length_cons, List.tail_cons] at c1 c2
    unfold left
    rw [hu, c1, c2]
    split <;> omega
  | nil =>
    have hfree : a.free = none := by
      have := hw.list
      rcases hf : a.free with _ | c
      · rfl
      · rw [hf] at this; exact this.elim
    have c1 := hw.count
    have hu := hw.used
    simp only [List.length_nil] at c1
    by_cases hfull : a.used_in_current = DATA_LEN
    · right
      rcases hfp : a.free_pages with _ | ⟨p, rest⟩
      · have : left (a.alloc d).2 = a.free_list_count + THRESHOLD := by simp [Alloc.alloc, hfree, hfull, hfp, left, hT, hD]
        rw [this, left, hfull]
        simp [hT, hD]
      · have : left (a.alloc d).2 = a.free_list_count + THRESHOLD := by simp [Alloc.alloc, hfree, hfull, hfp, left, hT, hD]
        rw [this, left, hfull]
        simp [hT, hD]
    · by_cases ht : a.used_in_current = THRESHOLD
      · left
        simp [Alloc.alloc, hfree, ht, hT, hD]
      · right
        have e1 : (a.alloc d).2.free_list_count = a.free_list_count := by simp [Alloc.alloc, hfree, hfull]
        have e2 : (a.alloc d).2.used_in_current = a.used_in_current + 1 := by simp [Alloc.alloc, hfree, hfull]
        unfold left
        rw [e1, e2]
        split <;> split <;> omega

theorem flagged {refs : D → List Cell} {s t : St D} {es : List (Ev D)} (p : Path refs s es t) (r : Run refs s.h s.roots s.m.a)
    (hen : s.m.a.gc_enabled = true) (hno : Ev.disable ∉ es) :
    s.m.a.count < t.m.a.count ∨ t.m.a.alloc_flag = true ∨ left t.m.a + allocs es = left s.m.a := by
  induction p with
  | refl s => exact .inr (.inr rfl)
  | @step s t e es h p' ih =>
    have hno' : Ev.disable ∉ es := fun k => hno (List.mem_cons_of_mem _ k)
    have r' := run_next r h
    obtain ⟨h1, h2, -, -⟩ := next_facts r e
    have hmono := (path_facts p' r').2.1
    by_cases hc : s.m.a.count < (next refs s e).m.a.count
    · exact .inl (by omega)
    · have stay : ∀ {u : St D}, Path refs u es t → Run refs u.h u.roots u.m.a → u.m.a.alloc_flag = true → u.m.a.gc_enabled = true →
          u.m.a.count < t.m.a.count ∨ t.m.a.alloc_flag = true := by
        intro u pu ru fu eu
        clear ih hmono h2 h1 r' p' hno hen r h hc
        induction pu with
        | refl u => exact .inr fu
        | @step u t e es h p' ih =>
          have hno'' : Ev.disable ∉ es := fun k => hno' (List.mem_cons_of_mem _ k)
          have r' := run_next ru h
          obtain ⟨h1, h2, -, -⟩ := next_facts ru e
          have hmono := (path_facts p' r').2.1
          by_cases hc : u.m.a.count < (next refs u e).m.a.count
          · exact .inl (by omega)
          · have fl : (next refs u e).m.a.alloc_flag = true := by
              cases e with
              | alloc d => exact (alloc_keeps u.m.a d).2.2.2 fu
              | write c d => exact fu
              | roots rs => exact fu
              | enable => exact fu
              | disable => exact fu
              | start n =>
                have := (gc_facts ru eu).1
                exact absurd (show u.m.a.count < (u.m.a.gc refs u.roots).count by omega) hc
              | check n =>
                have key : (next refs u (.check n)).m.a = u.m.a ∨ (next refs u (.check n)).m.a = u.m.a.gc refs u.roots := by
                  simp only [next, Mach.checked_gc, Mach.check_gc]
                  split
                  · exact .inl rfl
                  · split
                    · exact .inl rfl
                    · exact .inr rfl
                rcases key with k | k
                · rw [k]; exact fu
                · have := (gc_facts ru eu).1
                  rw [k] at hc
                  omega
            have en : (next refs u e).m.a.gc_enabled = true := by
              rw [h1]
              cases e <;> first | exact eu | rfl | exact absurd (List.mem_cons_self ..) hno'
            rcases ih hno'' r' fl en with k | k
            · exact .inl (by omega)
            · exact .inr k
      have en : (next refs s e).m.a.gc_enabled = true := by
        rw [h1]
        cases e <;> first | exact hen | rfl | exact absurd (List.mem_cons_self ..) hno
      have same : ∀ {b : Alloc D}, (next refs s e).m.a = b → left b = left s.m.a → allocs (e :: es) = allocs es →
          s.m.a.count < t.m.a.count ∨ t.m.a.alloc_flag = true ∨ left t.m.a + allocs (e :: es) = left s.m.a := by
        intro b hb hl ha
        rcases ih r' en hno' with k | k | k
        · exact .inl (by omega)
        · exact .inr (.inl k)
        · exact .inr (.inr (by rw [ha, k, hb, hl]))
      cases e with
      | alloc d =>
        obtain ⟨⟨l, hw⟩, -⟩ := r.inv
        rcases left_alloc hw d with k | k
        · rcases stay p' r' k en with k | k
          · exact .inl (by omega)
          · exact .inr (.inl k)
        · rcases ih r' en hno' with j | j | j
          · exact .inl (by omega)
          · exact .inr (.inl j)
          · refine .inr (.inr ?_)
            have : left (next refs s (.alloc d)).m.a = left (s.m.a.alloc d).2 := rfl
            simp only [allocs]
            omega
      | write c d => exact same rfl rfl rfl
      | roots rs => exact same rfl rfl rfl
      | enable => exact same rfl rfl rfl
      | disable => exact absurd (List.mem_cons_self ..) hno
      | start n =>
        have := (gc_facts r hen).1
        exact absurd (show s.m.a.count < (s.m.a.gc refs s.roots).count by omega) hc
      | check n =>
        have key : (next refs s (.check n)).m.a = s.m.a ∨ (next refs s (.check n)).m.a = s.m.a.gc refs s.roots := by
          simp only [next, Mach.checked_gc, Mach.check_gc]
          split
          · exact .inl rfl
          · split
            · exact .inl rfl
            · exact .inr rfl
        rcases key with k | k
        · exact same k rfl rfl
        · have := (gc_facts r hen).1
          rw [k] at hc
          omega

/-! ## C119 -/

/-- **C119** (switching).  Whatever a program does, collection is on or off as the last `GC.enable` or `GC.disable` said; at first it is on. -/
theorem C119_switch {refs : D → List Cell} {es : List (Ev D)} {s : St D} (p : Path refs St.init es s) :
    s.m.a.gc_enabled = switched true es := (path_facts p .start).1

/-- **C119** (counters).  `total_allocated_objects` is the number of objects made; `GC.count` never goes down; the free slots are as many as there are
cells in use without an object. -/
theorem C119_counters {refs : D → List Cell} {es es' : List (Ev D)} {s t : St D} (p : Path refs St.init es s) (q : Path refs s es' t) :
    s.m.stat.total_allocated_objects = allocs es ∧ s.m.gcCount ≤ t.m.gcCount ∧ s.m.stat.count = s.m.gcCount ∧
    NumberOf (fun c => inUse s.m.a c ∧ contents s.m.a c = none) s.m.stat.heap_free_slots := by
  have r := run_path p .start
  refine ⟨?_, (path_facts q r).2.1, rfl, C28_free_count r⟩
  have := (path_facts p .start).2.2
  simpa [St.init, Mach.new, Alloc.new, Mach.stat] using this

/-- **C119** (pages).  `heap_allocated_pages` is the number of pages: the current one, and those with a cell in use. -/
theorem C119_pages {refs : D → List Cell} {s : St D} (R : Reached refs s) :
    ∃ ps : List Nat, ps.Nodup ∧ ps.length = s.m.stat.heap_allocated_pages ∧
      ∀ p, p ∈ ps ↔ p = s.m.a.current ∨ ∃ i, inUse s.m.a ⟨p, i⟩ := by
  obtain ⟨⟨l, hw⟩, -⟩ := (run_reached R).inv
  refine ⟨s.m.a.current :: s.m.a.pages, List.nodup_cons.2 ⟨hw.curr, hw.pages⟩, rfl, fun p => ?_⟩
  constructor
  · intro hp
    rcases List.mem_cons.1 hp with h | h
    · exact .inl h
    · exact .inr ⟨0, .inl ⟨h, show 0 < DATA_LEN by decide⟩⟩
  · rintro (h | ⟨i, h | h⟩)
    · exact h ▸ List.mem_cons_self ..
    · exact List.mem_cons_of_mem _ h.1
    · exact h.1 ▸ List.mem_cons_self ..

/-- **C119** (`GC.start`; part: while collection is on).  It is one collection: the count goes up by one, exactly the objects that the program can get at
remain, and they are as many as `heap_live_slots` says. -/
theorem C119_start_partial {refs : D → List Cell} {s : St D} (R : Reached refs s) (hen : s.m.a.gc_enabled = true) (n : Nat) :
    (s.m.start refs s.roots n).gcCount = s.m.gcCount + 1 ∧
    (∀ c, (contents (s.m.start refs s.roots n).a c).isSome ↔ Reachable s.h refs s.roots c) ∧
    NumberOf (Reachable s.h refs s.roots) (s.m.start refs s.roots n).stat.heap_live_slots :=
  ⟨(gc_facts (run_reached R) hen).1, (C28_garbage_reclaimed (run_reached R) hen).1, (C28_garbage_reclaimed (run_reached R) hen).2⟩

/-- **C119** (violated).  While collection is off, `GC.start` does nothing at all (in Ruby it collects). -/
theorem C119_start_fails (refs : D → List Cell) (s : St D) (hen : s.m.a.gc_enabled = false) (n : Nat) :
    s.m.start refs s.roots n = s.m := by
  unfold Mach.start Mach.gc
  rw [gc_off hen]
  simp [hen]

/-- **C119** (off is off).  From `GC.disable` on, until `GC.enable`, no collection happens, and every object stays, also those that the program cannot get at
any more, with what was last written to it. -/
theorem C119_disabled {refs : D → List Cell} {s t : St D} {es : List (Ev D)} (R : Reached refs s) (hen : s.m.a.gc_enabled = false)
    (p : Path refs s es t) (hno : Ev.enable ∉ es) :
    t.m.gcCount = s.m.gcCount ∧
    ∀ c, (contents s.m.a c).isSome → (contents t.m.a c).isSome ∧ ((∀ d, Ev.write c d ∉ es) → contents t.m.a c = contents s.m.a c) := by
  have r := run_reached R
  clear R
  induction p with
  | refl s => exact ⟨rfl, fun c hc => ⟨hc, fun _ => rfl⟩⟩
  | @step s t e es h p' ih =>
    have hno' : Ev.enable ∉ es := fun k => hno (List.mem_cons_of_mem _ k)
    have r' := run_next r h
    obtain ⟨h1, -, h3, -⟩ := next_facts r e
    have en : (next refs s e).m.a.gc_enabled = false := by
      rw [h1]
      cases e <;> first | exact hen | rfl | exact absurd (List.mem_cons_self ..) hno
    obtain ⟨k1, k2⟩ := ih en hno' r'
    have hcnt := h3 hen
    refine ⟨by unfold Mach.gcCount at *; omega, fun c hc => ?_⟩
    have one : (contents (next refs s e).m.a c).isSome ∧ ((∀ d, e ≠ Ev.write c d) → contents (next refs s e).m.a c = contents s.m.a c) := by
      cases e with
      | alloc d =>
        have f := C27_alloc_unused r d
        have ne : c ≠ (s.m.a.alloc d).1 := by
          rintro rfl
          rw [f.1] at hc
          cases hc
        have : contents (next refs s (.alloc d)).m.a c = contents s.m.a c := by
          show contents (s.m.a.alloc d).2 c = _
          rw [f.2.2 c, if_neg ne]
        exact ⟨by rw [this]; exact hc, fun _ => this⟩
      | write x d =>
        by_cases hx : c = x
        · subst hx
          refine ⟨?_, fun k => absurd rfl (k d)⟩
          simp [next, contents, setMem]
        · have : contents (next refs s (.write x d)).m.a c = contents s.m.a c := by simp [next, contents, setMem, hx]
          exact ⟨by rw [this]; exact hc, fun _ => this⟩
      | roots rs => exact ⟨hc, fun _ => rfl⟩
      | enable => exact ⟨hc, fun _ => rfl⟩
      | disable => exact ⟨hc, fun _ => rfl⟩
      | start n =>
        have : (next refs s (.start n)).m.a = s.m.a := gc_off hen
        rw [this]
        exact ⟨hc, fun _ => rfl⟩
      | check n =>
        have : (next refs s (.check n)).m.a = s.m.a := by
          simp only [next, Mach.checked_gc, Mach.check_gc]
          split
          · rfl
          · split
            · rfl
            · exact gc_off hen
        rw [this]
        exact ⟨hc, fun _ => rfl⟩
    refine ⟨(k2 c one.1).1, fun hw => ?_⟩
    rw [(k2 c one.1).2 (fun d hd => hw d (List.mem_cons_of_mem _ hd)), one.2 (fun d hd => hw d (by simp [hd]))]

/-- **C119** (memory does not grow forever).  While collection is on: when a program makes as many objects as there are free slots and cells in a page, and then
comes 16 times to a loop or a call, a collection has happened meanwhile. -/
theorem C119_collects {refs : D → List Cell} {s t u : St D} {es es' : List (Ev D)} (R : Reached refs s) (hen : s.m.a.gc_enabled = true)
    (p : Path refs s es t) (q : Path refs t es' u) (hno : Ev.disable ∉ es ++ es')
    (ha : s.m.stat.heap_free_slots + DATA_LEN ≤ allocs es) (hc : 16 ≤ checks es') : s.m.gcCount < u.m.gcCount := by
  have r := run_reached R
  have rt := run_path p r
  have n1 : Ev.disable ∉ es := fun k => hno (List.mem_append_left _ k)
  have n2 : Ev.disable ∉ es' := fun k => hno (List.mem_append_right _ k)
  have hmono := (path_facts q rt).2.1
  show s.m.a.count < u.m.a.count
  rcases flagged p r hen n1 with k | k | k
  · omega
  · have ent : t.m.a.gc_enabled = true := by
      rw [(path_facts p r).1, hen]
      clear ha p k hmono rt q hno
      induction es with
      | nil => rfl
      | cons e es ih =>
        cases e with
        | disable => exact absurd (List.mem_cons_self ..) n1
        | _ => exact ih (fun j => n1 (List.mem_cons_of_mem _ j))
    have := (path_facts p r).2.1
    rcases due q rt k ent n2 with j | j
    · omega
    · omega
  · exfalso
    have hl : left s.m.a ≤ s.m.a.free_list_count + DATA_LEN := by
      unfold left
      have hT : THRESHOLD = 3968 := rfl
      have hD : DATA_LEN = 4032 := rfl
      split <;> omega
    have hp : 0 < left t.m.a := by
      unfold left
      split <;> omega
    have : s.m.stat.heap_free_slots = s.m.a.free_list_count := rfl
    omega

/-- **C119** (allocation outside the heap).  While collection is on, the 16th check collects when more than the threshold was taken from the system since. -/
theorem C119_malloc {refs : D → List Cell} {s : St D} (R : Reached refs s) (hen : s.m.a.gc_enabled = true) (n : Nat)
    (ht : (s.m.ticks + 1) % 16 = 0) (hn : s.m.malloc_threshold < n) :
    (s.m.checked_gc refs s.roots n).gcCount = s.m.gcCount + 1 ∧ (s.m.checked_gc refs s.roots n).malloc_threshold = n + 262144 := by
  have h1 : s.m.checked_gc refs s.roots n = Mach.gc { s.m with ticks := s.m.ticks + 1 } refs s.roots n := by
    simp [Mach.checked_gc, Mach.check_gc, ht, hn]
  rw [h1]
  exact ⟨(gc_facts (run_reached R) hen).1, by simp [Mach.gc, hen, MALLOC_THRESHOLD]⟩

/-- **C119** (violated).  `GC.enable` and `GC.disable` answer the opposite of Ruby, where they tell whether collection was off before. -/
theorem C119_previous_fails (m : Mach D) :
    m.enable.1 ≠ decide (m.a.gc_enabled = false) ∧ m.disable.1 ≠ decide (m.a.gc_enabled = false) := by
  cases h : m.a.gc_enabled <;> simp [Mach.enable, Mach.disable, h]

/-! ### Instances -/

/-- Objects that refer to nothing. -/
def none_ : Nat → List Cell := fun _ => []

/-- Make 1, forget it, make 2, collect. -/
def sample : List (Ev Nat) := [.alloc 1, .roots [], .alloc 2, .start 0, .disable, .start 0]

theorem sample_path : Path none_ St.init sample (sample.foldl (next none_) St.init) := by
  refine .step (by simp [Allowed, none_]) (.step (by simp [Allowed]) (.step (by simp [Allowed, none_]) (.step trivial (.step trivial (.step trivial (.refl _))))))

example : (sample.foldl (next none_) (St.init (D := Nat))).m.a.gc_enabled = false :=
  C119_switch sample_path

example : (sample.foldl (next none_) (St.init (D := Nat))).m.stat.total_allocated_objects = 2 :=
  (C119_counters sample_path (.refl _)).1

/-- Objects that refer to nothing can always be made, and checks come at any time. -/
theorem free_path : ∀ (es : List (Ev Nat)) (s : St Nat), (∀ e ∈ es, (∃ d, e = .alloc d) ∨ ∃ n, e = .check n) → Path none_ s es (es.foldl (next none_) s)
  | [], s, _ => .refl s
  | e :: es, s, h => by
    refine .step ?_ (free_path es _ (fun x hx => h x (List.mem_cons_of_mem _ hx)))
    rcases h e (List.mem_cons_self ..) with ⟨d, rfl⟩ | ⟨n, rfl⟩
    · simp [Allowed, none_]
    · trivial

theorem allocs_replicate (n : Nat) (d : Nat) : allocs (List.replicate n (Ev.alloc d)) = n := by
  induction n with
  | zero => rfl
  | succ n ih => simp [List.replicate_succ, allocs, ih]

/-- A program that makes 4032 objects and then comes to 16 loops has had its first collection. -/
example : 0 < ((List.replicate 16 (Ev.check 0)).foldl (next none_) ((List.replicate 4032 (Ev.alloc 7)).foldl (next none_) St.init)).m.gcCount := by
  have p := free_path (List.replicate 4032 (.alloc 7)) St.init (by intro e he; exact .inl ⟨7, List.eq_of_mem_replicate he⟩)
  have q := free_path (List.replicate 16 (.check 0)) ((List.replicate 4032 (Ev.alloc 7)).foldl (next none_) St.init)
    (by intro e he; exact .inr ⟨0, List.eq_of_mem_replicate he⟩)
  refine C119_collects (s := St.init) ⟨[], .refl _⟩ rfl p q ?_ ?_ (by decide)
  · intro h
    rcases List.mem_append.1 h with h | h <;> exact nomatch List.eq_of_mem_replicate h
  · rw [allocs_replicate]
    decide

example : (Mach.new (D := Nat)).disable.1 = true ∧ (Mach.new (D := Nat)).disable.2.enable.1 = false := ⟨rfl, rfl⟩

end Control
end Verif.Heap
