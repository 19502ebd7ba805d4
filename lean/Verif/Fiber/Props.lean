import Verif.Fiber.Lemmas
/-!
# Fibers alternate control and deliver values in order (C44)
-/
namespace Verif.Fiber

variable {V E S W : Type}

/-- **C44, partial (the machine is the textbook).**  As long as no fiber is resumed that is already running, the
interpreter — which passes values through operand stacks and one global register, and control through stack
pointers stored in the fibers — goes through exactly the states of the textbook: after `n` steps the same
program state is in control, with the same world.

Missing: `resume` of a running fiber (`C44_double_resume_fails`). -/
theorem C44_refines_partial (P : Prog V E S W) (s : S) (w : W) (n : Nat) (c : Coroutines V E S W)
    (h : (begin_ s w).run P n = some c) :
    (run P n (start s w)).cur = c.cur ∧ (run P n (start s w)).world = c.world ∧
    (run P n (start s w)).halted = c.halted ∧ (run P n (start s w)).undefined = false := by
  have R := (Rel.start s w).run n h
  exact ⟨R.cur, R.world, R.halted, R.defined⟩

theorem run_succ (P : Prog V E S W) (n : Nat) (c : Coroutines V E S W) :
    c.run P (n + 1) = (c.run P n).bind (·.step P) := by
  induction n generalizing c with
  | zero => simp [Coroutines.run]
  | succ n ih =>
    unfold Coroutines.run
    cases h : c.step P with
    | none => rfl
    | some c1 =>
      simp only [Option.bind_some]
      rw [ih c1]

/-- The fiber on top of the stack gives something, or the stack below stays. -/
theorem step_stack {P : Prog V E S W} {c c' : Coroutines V E S W} (h : c.step P = some c') {f : Nat}
    {k : Res V E → S} {inner base : List (Nat × (Res V E → S))} (hs : c.stack = inner ++ (f, k) :: base) :
    (∃ inner', c'.stack = inner' ++ (f, k) :: base) ∨
    (inner = [] ∧ ∃ r, c.gives P = some (f, r) ∧ c'.cur = k r ∧ c'.stack = base ∧ c'.world = c.world) := by
  have hres : ∀ g v d k', c.resume g v d k' = some c' → ∃ inner', c'.stack = inner' ++ (f, k) :: base := by
    intro g v d k' h
    unfold Coroutines.resume at h
    split at h
    · cases h; exact ⟨(g, k') :: inner, by simp [hs]⟩
    · cases h; exact ⟨(g, k') :: inner, by simp [hs]⟩
    · cases h; exact ⟨inner, hs⟩
    · cases h
    · cases h
  unfold Coroutines.step at h
  by_cases hh : c.halted.isSome = true
  · rw [if_pos hh] at h; cases h; exact Or.inl ⟨inner, hs⟩
  · rw [if_neg hh] at h
    cases hn : P.next c.cur c.world with
    | other s w => rw [hn] at h; cases h; exact Or.inl ⟨inner, hs⟩
    | create b k' => rw [hn] at h; cases h; exact Or.inl ⟨inner, hs⟩
    | resume g v k' => rw [hn] at h; exact Or.inl (hres _ _ _ _ h)
    | enum_next g k' => rw [hn] at h; exact Or.inl (hres _ _ _ _ h)
    | yield_ v k' =>
      rw [hn] at h
      simp only at h
      cases inner with
      | nil =>
        rw [List.nil_append] at hs
        rw [hs] at h; cases h
        refine Or.inr ⟨rfl, .ok v, ?_, rfl, rfl, rfl⟩
        unfold Coroutines.gives
        rw [if_neg hh, hs, hn]
      | cons e inner =>
        obtain ⟨g, kg⟩ := e
        rw [List.cons_append] at hs
        rw [hs] at h; cases h
        exact Or.inl ⟨inner, rfl⟩
    | done r =>
      rw [hn] at h
      simp only at h
      cases inner with
      | nil =>
        rw [List.nil_append] at hs
        rw [hs] at h; cases h
        refine Or.inr ⟨rfl, conv P r, ?_, rfl, rfl, rfl⟩
        unfold Coroutines.gives
        rw [if_neg hh, hs, hn]
      | cons e inner =>
        obtain ⟨g, kg⟩ := e
        rw [List.cons_append] at hs
        rw [hs] at h; cases h
        exact Or.inl ⟨inner, rfl⟩

/-- **C44 (what `resume` returns).**  From the moment a fiber `f` has been resumed by a program that goes on with
`k`: at every later time either `f` (or a fiber above it) has still control, or there was a moment when `f` gave
a result `r` — the value of its next `Fiber.yield`, or the end of its block — and in the very next step the
resumer went on with exactly that result. -/
theorem C44_resume_returns (P : Prog V E S W) (c : Coroutines V E S W) (f : Nat) (k : Res V E → S)
    (base : List (Nat × (Res V E → S))) (hs : c.stack = (f, k) :: base) (n : Nat) (c' : Coroutines V E S W)
    (h : c.run P n = some c') :
    (∃ inner, c'.stack = inner ++ (f, k) :: base) ∨
    ∃ m, m < n ∧ ∃ c₁ c₂ r, c.run P m = some c₁ ∧ c₁.step P = some c₂ ∧ c₁.stack = (f, k) :: base ∧
      c₁.gives P = some (f, r) ∧ c₂.cur = k r ∧ c₂.stack = base ∧ c₂.world = c₁.world := by
  induction n generalizing c' with
  | zero => cases h; exact Or.inl ⟨[], hs⟩
  | succ n ih =>
    rw [run_succ, Option.bind_eq_some_iff] at h
    obtain ⟨c₁, h1, h2⟩ := h
    rcases ih c₁ h1 with ⟨inner, hi⟩ | ⟨m, hm, h⟩
    · rcases step_stack h2 hi with h | ⟨rfl, r, hg, hc, hb, hw⟩
      · exact Or.inl h
      · exact Or.inr ⟨n, by omega, c₁, c', r, h1, h2, hi, hg, hc, hb, hw⟩
    · exact Or.inr ⟨m, by omega, h⟩

/-- Resuming a fresh or paused fiber puts it on top and gives it the value. -/
theorem C44_resume_enters (P : Prog V E S W) (c : Coroutines V E S W) (f : Nat) (v : V) (k : Res V E → S)
    (hh : c.halted = none) (hn : P.next c.cur c.world = .resume f v k) :
    (∀ block, c.fibers[f]? = some (.fresh block) →
      ∃ c', c.step P = some c' ∧ c'.stack = (f, k) :: c.stack ∧ c'.cur = block v) ∧
    (∀ s, c.fibers[f]? = some (.paused s) →
      ∃ c', c.step P = some c' ∧ c'.stack = (f, k) :: c.stack ∧ c'.cur = s (.ok v)) ∧
    (c.fibers[f]? = some .finished → c.step P = some { c with cur := k (.err P.deadFiber) }) := by
  unfold Coroutines.step
  rw [if_neg (by simp [hh]), hn]
  simp only [Coroutines.resume]
  refine ⟨?_, ?_, ?_⟩
  · intro b e; rw [e]; exact ⟨_, rfl, rfl, rfl⟩
  · intro s e; rw [e]; exact ⟨_, rfl, rfl, rfl⟩
  · intro e; rw [e]

/-- The running fibers are exactly those on the stack, each once. -/
structure Inv (c : Coroutines V E S W) : Prop where
  running : ∀ f : Nat, (∃ k, (f, k) ∈ c.stack) ↔ c.fibers[f]? = some .running
  nodup : (c.stack.map Prod.fst).Nodup

theorem Inv.reached {P : Prog V E S W} {s : S} {w : W} {n : Nat} {c : Coroutines V E S W}
    (h : (begin_ s w).run P n = some c) : Inv c := by
  have R := (Rel.start s w).run n h
  refine ⟨?_, R.nodup⟩
  intro f
  rw [R.running f, List.getElem?_eq_some_iff]

/-- How a fiber's status may change in a step. -/
theorem step_status {P : Prog V E S W} {c c' : Coroutines V E S W} (I : Inv c) (h : c.step P = some c') (f : Nat)
    (st : Status V E S) (hf : c.fibers[f]? = some st) :
    c'.fibers[f]? = some st ∨
    (c'.fibers[f]? = some .running ∧ ∃ v k, (P.next c.cur c.world = .resume f v k ∨ (P.next c.cur c.world = .enum_next f k ∧ v = P.nil)) ∧
      c'.stack = (f, k) :: c.stack ∧
      ((∃ b, st = .fresh b ∧ c'.cur = b v) ∨ (∃ s, st = .paused s ∧ c'.cur = s (.ok v)))) ∨
    (st = .running ∧ ∃ v k, P.next c.cur c.world = .yield_ v k ∧ c'.fibers[f]? = some (.paused k)) ∨
    (st = .running ∧ c'.fibers[f]? = some .finished) := by
  have hlt := (List.getElem?_eq_some_iff.1 hf).1
  have hset : ∀ (g : Nat) (x : Status V E S), g ≠ f → (c.fibers.set g x)[f]? = some st := by
    intro g x hg; rw [List.getElem?_set_ne hg]; exact hf
  have hself : ∀ (x : Status V E S), (c.fibers.set f x)[f]? = some x := by
    intro x; rw [List.getElem?_set_self hlt]
  have hres : ∀ g v d k, (P.next c.cur c.world = .resume g v k ∨ (P.next c.cur c.world = .enum_next g k ∧ v = P.nil)) →
      c.resume g v d k = some c' → c'.fibers[f]? = some st ∨
      (c'.fibers[f]? = some .running ∧ ∃ v k, (P.next c.cur c.world = .resume f v k ∨ (P.next c.cur c.world = .enum_next f k ∧ v = P.nil)) ∧
        c'.stack = (f, k) :: c.stack ∧
        ((∃ b, st = .fresh b ∧ c'.cur = b v) ∨ (∃ s, st = .paused s ∧ c'.cur = s (.ok v)))) := by
    intro g v d k hn h
    unfold Coroutines.resume at h
    split at h
    · rename_i b hg
      cases h
      by_cases e : g = f
      · subst e
        rw [hf] at hg; cases hg
        exact Or.inr ⟨hself _, v, k, hn, rfl, Or.inl ⟨b, rfl, rfl⟩⟩
      · exact Or.inl (hset _ _ e)
    · rename_i s hg
      cases h
      by_cases e : g = f
      · subst e
        rw [hf] at hg; cases hg
        exact Or.inr ⟨hself _, v, k, hn, rfl, Or.inr ⟨s, rfl, rfl⟩⟩
      · exact Or.inl (hset _ _ e)
    · cases h; exact Or.inl hf
    · cases h
    · cases h
  unfold Coroutines.step at h
  by_cases hh : c.halted.isSome = true
  · rw [if_pos hh] at h; cases h; exact Or.inl hf
  · rw [if_neg hh] at h
    cases hn : P.next c.cur c.world with
    | other s w => rw [hn] at h; cases h; exact Or.inl hf
    | create b k' =>
      rw [hn] at h; cases h
      left; simp only
      rw [List.getElem?_append_left hlt]; exact hf
    | resume g v k' =>
      rw [hn] at h hres
      rcases hres _ _ _ _ (Or.inl rfl) h with h | h
      · exact Or.inl h
      · exact Or.inr (Or.inl h)
    | enum_next g k' =>
      rw [hn] at h hres
      rcases hres _ _ _ _ (Or.inr ⟨rfl, rfl⟩) h with h | h
      · exact Or.inl h
      · exact Or.inr (Or.inl h)
    | yield_ v k' =>
      rw [hn] at h
      simp only at h
      cases hst : c.stack with
      | nil => rw [hst] at h; cases h; exact Or.inl hf
      | cons e below =>
        obtain ⟨g, kg⟩ := e
        rw [hst] at h; cases h
        by_cases e : g = f
        · subst e
          have := (I.running g).1 ⟨kg, by rw [hst]; simp⟩
          rw [hf] at this
          cases this
          exact Or.inr (Or.inr (Or.inl ⟨rfl, v, k', rfl, hself _⟩))
        · exact Or.inl (hset _ _ e)
    | done r =>
      rw [hn] at h
      simp only at h
      cases hst : c.stack with
      | nil => rw [hst] at h; cases h; exact Or.inl hf
      | cons e below =>
        obtain ⟨g, kg⟩ := e
        rw [hst] at h; cases h
        by_cases e : g = f
        · subst e
          have := (I.running g).1 ⟨kg, by rw [hst]; simp⟩
          rw [hf] at this
          cases this
          exact Or.inr (Or.inr (Or.inr ⟨rfl, hself _⟩))
        · exact Or.inl (hset _ _ e)

theorem run_add (P : Prog V E S W) (m n : Nat) (c : Coroutines V E S W) :
    c.run P (m + n) = (c.run P m).bind (·.run P n) := by
  induction m generalizing c with
  | zero => simp [Coroutines.run]
  | succ m ih =>
    rw [Nat.add_right_comm]
    rw [show c.run P (m + n + 1) = (c.step P).bind (Coroutines.run P (m + n)) from rfl,
      show c.run P (m + 1) = (c.step P).bind (Coroutines.run P m) from rfl]
    cases c.step P with
    | none => rfl
    | some c1 => simp only [Option.bind_some]; exact ih c1

/-- **C44 (what `Fiber.yield` returns).**  A fiber that has yielded and goes on with `s` stays exactly there, whatever
the rest of the program does, until somebody resumes it; then it goes on with `s` and the value it was resumed
with. -/
theorem C44_yield_returns (P : Prog V E S W) (s₀ : S) (w₀ : W) (n₀ : Nat) (c : Coroutines V E S W)
    (h₀ : (begin_ s₀ w₀).run P n₀ = some c) (f : Nat) (s : Res V E → S) (hf : c.fibers[f]? = some (.paused s)) (n : Nat)
    (c' : Coroutines V E S W) (h : c.run P n = some c') :
    c'.fibers[f]? = some (.paused s) ∨
    ∃ m, m < n ∧ ∃ c₁ c₂ v k, c.run P m = some c₁ ∧ c₁.step P = some c₂ ∧ c₁.fibers[f]? = some (.paused s) ∧
      (P.next c₁.cur c₁.world = .resume f v k ∨ (P.next c₁.cur c₁.world = .enum_next f k ∧ v = P.nil)) ∧
      c₂.cur = s (.ok v) ∧ c₂.stack = (f, k) :: c₁.stack := by
  induction n generalizing c' with
  | zero => cases h; exact Or.inl hf
  | succ n ih =>
    rw [run_succ, Option.bind_eq_some_iff] at h
    obtain ⟨c₁, h1, h2⟩ := h
    have I : Inv c₁ := Inv.reached (P := P) (s := s₀) (w := w₀) (n := n₀ + n) (by rw [run_add, h₀]; exact h1)
    rcases ih c₁ h1 with hi | ⟨m, hm, h⟩
    · rcases step_status I h2 f _ hi with h | ⟨_, v, k, hn, hst, h⟩ | ⟨h, _⟩ | ⟨h, _⟩
      · exact Or.inl h
      · rcases h with ⟨b, h, _⟩ | ⟨s', h, hc⟩
        · cases h
        · cases h
          exact Or.inr ⟨n, by omega, c₁, c', v, k, h1, h2, hi, hn, hc, hst⟩
      · cases h
      · cases h
    · exact Or.inr ⟨m, by omega, h⟩

/-- **C44 (dead fibers).**  A finished fiber stays finished; together with the third part of `C44_resume_enters`:
every later `resume` raises FiberError at once and nothing else happens. -/
theorem C44_finished (P : Prog V E S W) (s₀ : S) (w₀ : W) (n₀ : Nat) (c : Coroutines V E S W)
    (h₀ : (begin_ s₀ w₀).run P n₀ = some c) (f : Nat) (hf : c.fibers[f]? = some .finished) (n : Nat)
    (c' : Coroutines V E S W) (h : c.run P n = some c') : c'.fibers[f]? = some .finished := by
  induction n generalizing c' with
  | zero => cases h; exact hf
  | succ n ih =>
    rw [run_succ, Option.bind_eq_some_iff] at h
    obtain ⟨c₁, h1, h2⟩ := h
    have I : Inv c₁ := Inv.reached (P := P) (s := s₀) (w := w₀) (n := n₀ + n) (by rw [run_add, h₀]; exact h1)
    rcases step_status I h2 f _ (ih c₁ h1) with h | ⟨_, v, k, _, _, h⟩ | ⟨h, _⟩ | ⟨h, _⟩
    · exact h
    · rcases h with ⟨b, h, _⟩ | ⟨s', h, _⟩ <;> cases h
    · cases h
    · cases h

/-- The end of the block finishes the fiber; `Fiber.yield` outside every fiber raises. -/
theorem C44_end (P : Prog V E S W) (c : Coroutines V E S W) (hh : c.halted = none) :
    (∀ r f k base, P.next c.cur c.world = .done r → c.stack = (f, k) :: base → f < c.fibers.length →
      ∃ c', c.step P = some c' ∧ c'.fibers[f]? = some .finished ∧ c'.cur = k (conv P r)) ∧
    (∀ v k, P.next c.cur c.world = .yield_ v k → c.stack = [] →
      c.step P = some { c with cur := k (.err P.yieldFromMain) }) := by
  unfold Coroutines.step
  rw [if_neg (by simp [hh])]
  constructor
  · intro r f k base hn hs hf
    rw [hn]; simp only [hs]
    exact ⟨_, rfl, by rw [List.getElem?_set_self hf], rfl⟩
  · intro v k hn hs
    rw [hn]; simp only [hs]

/-- **C44 is false for double resume**: a fiber that resumes itself (or one of its resumers) does not raise
FiberError; control goes to a stack pointer that is not a saved context. -/
theorem C44_double_resume_fails (P : Prog V E S W) (s : S) (w : W) (n : Nat) (c : Coroutines V E S W)
    (h : (begin_ s w).run P n = some c) (hh : c.halted = none) (f : Nat) (v : V) (k : Res V E → S)
    (hn : P.next c.cur c.world = .resume f v k) (hf : c.fibers[f]? = some .running) :
    (run P (n + 1) (start s w)).undefined = true := by
  have R := (Rel.start s w).run n h
  have hrun : ∀ m (x : Machine V E S W), run P (m + 1) x = step P (run P m x) := by
    intro m
    induction m with
    | zero => intro x; rfl
    | succ m ih => intro x; show run P (m + 1) (step P x) = step P (run P m (step P x)); exact ih _
  rw [hrun]
  generalize run P n (start s w) = m at R
  have hlt : f < m.fibers.length := by rw [R.len]; exact (List.getElem?_eq_some_iff.1 hf).1
  have hx := List.getElem?_eq_getElem hlt
  obtain ⟨s1, s2, s3⟩ := R.same f _ _ hx hf
  unfold step
  rw [if_neg (by rw [R.halted, R.defined, hh]; simp), R.cur, R.world, hn]
  simp only
  unfold Machine.resume
  rw [hx]
  simp only [s1, s3]
  rfl

/-! ## Enumerators (C45) -/

/-- `s` is an iteration that, whatever the world and the answers it gets, yields `xs` in order and ends with `r`.
(An enumerator runs such a method with a block that calls `Fiber.yield`; `enumerator_fiber` then ends with
StopIteration.) -/
inductive Emits (P : Prog V E S W) : S → List V → Res V E → Prop
  | skip {s xs r} (t : W → S) (w' : W → W) : (∀ w, P.next s w = .other (t w) (w' w)) → (∀ w, Emits P (t w) xs r) →
      Emits P s xs r
  | give {s x xs r} (k : Res V E → S) : (∀ w, P.next s w = .yield_ x k) → (∀ a, Emits P (k a) xs r) →
      Emits P s (x :: xs) r
  | fin {s r} : (∀ w, P.next s w = .done r) → Emits P s [] r

/-- where fiber `f` stands when it still has to give `left` -/
def Stands (P : Prog V E S W) (c : Coroutines V E S W) (f : Nat) (r : Res V E) : Option (List V) → Prop
  | some left =>
    (∃ b, c.fibers[f]? = some (.fresh b) ∧ ∀ v, Emits P (b v) left r) ∨
    (∃ s, c.fibers[f]? = some (.paused s) ∧ ∀ a, Emits P (s a) left r) ∨
    (∃ k base, c.stack = (f, k) :: base ∧ Emits P c.cur left r ∧ c.fibers[f]? = some .running)
  | none => c.fibers[f]? = some .finished

theorem Emits.steps {P : Prog V E S W} {s : S} {xs : List V} {r : Res V E} (h : Emits P s xs r) (w : W) :
    (∃ t w', P.next s w = .other t w' ∧ Emits P t xs r) ∨
    (∃ x rest k, xs = x :: rest ∧ P.next s w = .yield_ x k ∧ ∀ a, Emits P (k a) rest r) ∨
    (xs = [] ∧ P.next s w = .done r) := by
  cases h with
  | skip t w' h1 h2 => exact Or.inl ⟨t w, w' w, h1 w, h2 w⟩
  | give k h1 h2 => exact Or.inr (Or.inl ⟨_, _, k, rfl, h1 w, h2⟩)
  | fin h1 => exact Or.inr (Or.inr ⟨rfl, h1 w⟩)

/-- one step of any program keeps the fiber where it stands, or lets it give its next result -/
theorem Stands.step {P : Prog V E S W} {c c' : Coroutines V E S W} (I : Inv c) {f : Nat} {r : Res V E}
    {o : Option (List V)} (h : Stands P c f r o) (hs : c.step P = some c') :
    (Stands P c' f r o ∧ ∀ x, c.gives P ≠ some (f, x)) ∨
    (∃ x rest, o = some (x :: rest) ∧ c.gives P = some (f, .ok x) ∧ Stands P c' f r (some rest)) ∨
    (o = some [] ∧ c.gives P = some (f, conv P r) ∧ Stands P c' f r none) := by
  have notop : ∀ st : Status V E S, c.fibers[f]? = some st → st ≠ .running → ∀ x, c.gives P ≠ some (f, x) := by
    intro st hf hn x hg
    unfold Coroutines.gives at hg
    split at hg
    · cases hg
    · have hon : ∀ g k base, c.stack = (g, k) :: base → g ≠ f := by
        rintro g k base hst rfl
        have := (I.running g).1 ⟨k, by rw [hst]; simp⟩
        rw [hf] at this; cases this; exact hn rfl
      split at hg
      · rename_i g k _ v _ hst _
        cases hg; exact hon _ _ _ hst rfl
      · rename_i g k _ v hst _
        cases hg; exact hon _ _ _ hst rfl
      · cases hg
  cases o with
  | none =>
    have hf : c.fibers[f]? = some .finished := h
    refine Or.inl ⟨?_, notop _ hf (by simp)⟩
    rcases step_status I hs f _ hf with h | ⟨_, v, k, _, _, h⟩ | ⟨h, _⟩ | ⟨h, _⟩
    · exact h
    · rcases h with ⟨b, h, _⟩ | ⟨s', h, _⟩ <;> cases h
    · cases h
    · cases h
  | some left =>
    rcases h with ⟨b, hf, he⟩ | ⟨s, hf, he⟩ | ⟨k, base, hst, he, hf⟩
    · refine Or.inl ⟨?_, notop _ hf (by simp)⟩
      rcases step_status I hs f _ hf with h | ⟨h', v, k, _, hst, h⟩ | ⟨h, _⟩ | ⟨h, _⟩
      · exact Or.inl ⟨b, h, he⟩
      · rcases h with ⟨b', h, hc⟩ | ⟨s', h, _⟩
        · cases h
          exact Or.inr (Or.inr ⟨k, _, hst, by rw [hc]; exact he v, h'⟩)
        · cases h
      · cases h
      · cases h
    · refine Or.inl ⟨?_, notop _ hf (by simp)⟩
      rcases step_status I hs f _ hf with h | ⟨h', v, k, _, hst, h⟩ | ⟨h, _⟩ | ⟨h, _⟩
      · exact Or.inr (Or.inl ⟨s, h, he⟩)
      · rcases h with ⟨b', h, hc⟩ | ⟨s', h, hc⟩
        · cases h
        · cases h
          exact Or.inr (Or.inr ⟨k, _, hst, by rw [hc]; exact he _, h'⟩)
      · cases h
      · cases h
    · have hlt := (List.getElem?_eq_some_iff.1 hf).1
      by_cases hh : c.halted.isSome = true
      · unfold Coroutines.step at hs
        rw [if_pos hh] at hs; cases hs
        refine Or.inl ⟨Or.inr (Or.inr ⟨k, base, hst, he, hf⟩), ?_⟩
        intro x; unfold Coroutines.gives; rw [if_pos hh]; simp
      · unfold Coroutines.step at hs
        rw [if_neg hh] at hs
        rcases he.steps c.world with ⟨t, w', hn, he'⟩ | ⟨x, rest, k', rfl, hn, he'⟩ | ⟨rfl, hn⟩
        · rw [hn] at hs; cases hs
          refine Or.inl ⟨Or.inr (Or.inr ⟨k, base, hst, he', hf⟩), ?_⟩
          intro x; unfold Coroutines.gives; rw [if_neg hh, hn]; simp
        · rw [hn] at hs; simp only [hst] at hs; cases hs
          refine Or.inr (Or.inl ⟨x, rest, rfl, ?_, Or.inr (Or.inl ⟨k', ?_, he'⟩)⟩)
          · unfold Coroutines.gives; rw [if_neg hh, hst, hn]
          · rw [List.getElem?_set_self hlt]
        · rw [hn] at hs; simp only [hst] at hs; cases hs
          refine Or.inr (Or.inr ⟨rfl, ?_, ?_⟩)
          · unfold Coroutines.gives; rw [if_neg hh, hst, hn]
          · show (c.fibers.set f _)[f]? = _
            rw [List.getElem?_set_self hlt]

/-- all the results a fiber gives that has still to give `o` -/
def outputs (P : Prog V E S W) (r : Res V E) : Option (List V) → List (Res V E)
  | some xs => xs.map .ok ++ [conv P r]
  | none => []

/-- **C45 (in order, once).**  The results an enumerator (or any fiber that runs such an iteration) gives, over any
stretch of any program — with any other fibers, resumes, `next`s and `each`s of other copies in between, and any
changes of the world — are, in order and without gaps or repetitions, the elements of the sequence, then the
end. -/
theorem C45_order (P : Prog V E S W) (s₀ : S) (w₀ : W) (n₀ : Nat) (c : Coroutines V E S W)
    (h₀ : (begin_ s₀ w₀).run P n₀ = some c) (f : Nat) (block : V → S) (xs : List V) (r : Res V E)
    (hf : c.fibers[f]? = some (.fresh block)) (he : ∀ v, Emits P (block v) xs r) (n : Nat) :
    c.given P f n <+: xs.map .ok ++ [conv P r] := by
  have key : ∀ (n n₀ : Nat) (c : Coroutines V E S W) (o : Option (List V)), (begin_ s₀ w₀).run P n₀ = some c →
      Stands P c f r o → c.given P f n <+: outputs P r o := by
    intro n
    induction n with
    | zero => intro n₀ c o _ _; exact List.nil_prefix
    | succ n ih =>
      intro n₀ c o h₀ h
      unfold Coroutines.given
      cases hs : c.step P with
      | none =>
        simp only [List.append_nil]
        -- the step that is not defined is a resume: nothing is given
        have : c.gives P = none := by
          unfold Coroutines.step at hs
          unfold Coroutines.gives
          split at hs
          · cases hs
          · rename_i hh
            rw [if_neg hh]
            cases hn : P.next c.cur c.world with
            | other => rw [hn] at hs; cases hs
            | create => rw [hn] at hs; cases hs
            | resume => cases c.stack <;> simp
            | enum_next => cases c.stack <;> simp
            | yield_ => rw [hn] at hs; simp only at hs; split at hs <;> cases hs
            | done => rw [hn] at hs; simp only at hs; split at hs <;> cases hs
        rw [this]; exact List.nil_prefix
      | some c' =>
        simp only
        have h1 : (begin_ s₀ w₀).run P (n₀ + 1) = some c' := by rw [run_succ, h₀]; exact hs
        rcases h.step (Inv.reached h₀) hs with ⟨h2, hg⟩ | ⟨x, rest, rfl, hg, h2⟩ | ⟨rfl, hg, h2⟩
        · have := ih (n₀ + 1) c' o h1 h2
          have e : ofFiber f (c.gives P) = ([] : List (Res V E)) := by
            cases hgr : c.gives P with
            | none => rfl
            | some p =>
              obtain ⟨g, r'⟩ := p
              show (if g = f then [r'] else []) = _
              rw [if_neg]
              rintro rfl
              exact hg _ hgr
          rw [e]; exact this
        · rw [hg]
          have := ih (n₀ + 1) c' _ h1 h2
          simp only [ofFiber, if_true, outputs, List.map_cons, List.cons_append, List.nil_append] at this ⊢
          exact (List.prefix_cons_inj _).2 this
        · rw [hg]
          have := ih (n₀ + 1) c' _ h1 h2
          simp only [ofFiber, if_true, outputs, List.map_nil, List.nil_append, List.cons_append] at this ⊢
          exact (List.prefix_cons_inj _).2 this
  exact key n n₀ c (some xs) h₀ (Or.inl ⟨block, hf, he⟩)

/-- **C45 (`next`).**  `next` on an enumerator that has not ended gives it control, like `resume`
(`C44_resume_returns` says what comes back: its next result); on one that has ended it raises StopIteration, and
nothing else happens. -/
theorem C45_next (P : Prog V E S W) (c : Coroutines V E S W) (f : Nat) (k : Res V E → S)
    (hh : c.halted = none) (hn : P.next c.cur c.world = .enum_next f k) :
    (∀ block, c.fibers[f]? = some (.fresh block) →
      ∃ c', c.step P = some c' ∧ c'.stack = (f, k) :: c.stack ∧ c'.cur = block P.nil) ∧
    (∀ s, c.fibers[f]? = some (.paused s) →
      ∃ c', c.step P = some c' ∧ c'.stack = (f, k) :: c.stack ∧ c'.cur = s (.ok P.nil)) ∧
    (c.fibers[f]? = some .finished → c.step P = some { c with cur := k (.err P.stopIteration) }) := by
  unfold Coroutines.step
  rw [if_neg (by simp [hh]), hn]
  simp only [Coroutines.resume]
  refine ⟨?_, ?_, ?_⟩
  · intro b e; rw [e]; exact ⟨_, rfl, rfl, rfl⟩
  · intro s e; rw [e]; exact ⟨_, rfl, rfl, rfl⟩
  · intro e; rw [e]

/-! ## A case that meets the hypotheses -/

/-- A main program that makes an enumerator over `1, 2` and calls `next` four times, and a fiber. -/
inductive Demo
  | main (todo : Nat) (got : List (Res Nat String))
  | body (left : List Nat)
deriving DecidableEq

def demo : Prog Nat String Demo Unit where
  next s _ := match s with
    | .main 5 got => .create (fun _ => .body [1, 2]) (fun _ => .main 4 got)
    | .main 0 got => .done (.ok got.length)
    | .main (n + 1) got => .enum_next 0 (fun r => .main n (got ++ [r]))
    | .body [] => .done (.err "StopIteration: end")
    | .body (x :: xs) => .yield_ x (fun _ => .body xs)
  conv e := e
  deadFiber := "dead"
  yieldFromMain := "main"
  stopIteration := "StopIteration"
  nil := 0

example : (run demo 10 (start (.main 5 []) ())).halted = none ∧
    (run demo 9 (start (.main 5 []) ())).cur =
      .main 0 [.ok 1, .ok 2, .err "StopIteration: end", .err "StopIteration"] ∨
    (run demo 8 (start (.main 5 []) ())).cur =
      .main 0 [.ok 1, .ok 2, .err "StopIteration: end", .err "StopIteration"] := by decide +kernel

example : ∀ v : Nat, Emits demo ((fun _ => Demo.body [1, 2]) v) [1, 2] (.err "StopIteration: end") := fun _ =>
  .give _ (fun _ => rfl) (fun _ => .give _ (fun _ => rfl) (fun _ => .fin (fun _ => rfl)))

/-- a fiber that resumes itself -/
def selfish : Prog Nat String Nat Unit where
  next s _ := match s with
    | 0 => .create (fun _ => 2) (fun _ => 1)
    | _ => .resume 0 0 (fun _ => 3)
  conv e := e
  deadFiber := "dead"
  yieldFromMain := "main"
  stopIteration := "StopIteration"
  nil := 0

example : (run selfish 3 (start 0 ())).undefined = true := by decide +kernel

end Verif.Fiber
