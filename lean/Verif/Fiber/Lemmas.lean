import Verif.Fiber.Spec
import Mathlib.Data.List.Nodup
/-!
# The machine and the textbook run in lock step
-/
namespace Verif.Fiber

variable {V E S W : Type}

/-- The contexts saved in `main_rsp` are the stack of the textbook. -/
inductive Chain (fs : List (FiberContext V E S)) : Option Nat → List (Nat × (Res V E → S)) → Prop
  | nil : Chain fs none []
  | cons {f c h k rest} : fs[f]? = some c → c.main_rsp = some ⟨h, k⟩ → Chain fs h rest →
      Chain fs (some f) ((f, k) :: rest)

theorem Chain.head {fs : List (FiberContext V E S)} {h : Option Nat} {f : Nat} {k : Res V E → S}
    {rest : List (Nat × (Res V E → S))} (ch : Chain fs h ((f, k) :: rest)) :
    ∃ x h', h = some f ∧ fs[f]? = some x ∧ x.main_rsp = some ⟨h', k⟩ ∧ Chain fs h' rest := by
  cases ch with
  | cons h1 h2 h3 => exact ⟨_, _, rfl, h1, h2, h3⟩

theorem Chain.empty {fs : List (FiberContext V E S)} {h : Option Nat} (ch : Chain fs h []) : h = none := by
  cases ch; rfl

theorem convResult_eq (P : Prog V E S W) (r : Res V E) : convResult P r = conv P r := by cases r <;> rfl

/-- A fiber of the machine and its status. -/
def Same : FiberContext V E S → Status V E S → Prop
  | c, .fresh b => c.state = .Created ∧ c.stack = [] ∧ c.block = b
  | c, .paused k => c.state = .Running ∧ c.stack = [] ∧ c.rsp = some k
  | c, .running => c.state = .Running ∧ c.stack = [] ∧ c.rsp = none
  | c, .finished => c.state = .Dead

structure Rel (m : Machine V E S W) (c : Coroutines V E S W) : Prop where
  cur : m.cur = c.cur
  world : m.world = c.world
  halted : m.halted = c.halted
  defined : m.undefined = false
  len : m.fibers.length = c.fibers.length
  same : ∀ (f : Nat) x s, m.fibers[f]? = some x → c.fibers[f]? = some s → Same x s
  chain : Chain m.fibers m.handle c.stack
  running : ∀ f : Nat, (∃ k, (f, k) ∈ c.stack) ↔ ∃ h : f < c.fibers.length, c.fibers[f] = .running
  nodup : (c.stack.map Prod.fst).Nodup
  created : ∀ (f : Nat) x, m.fibers[f]? = some x → x.state = .Created → x.rsp = none

theorem Chain.set {fs : List (FiberContext V E S)} {h : Option Nat} {st : List (Nat × (Res V E → S))}
    (ch : Chain fs h st) (f : Nat) (x : FiberContext V E S) (hf : f ∉ st.map Prod.fst) : Chain (fs.set f x) h st := by
  induction ch with
  | nil => exact .nil
  | @cons g c h k rest h1 h2 _ ih =>
    simp only [List.map_cons, List.mem_cons, not_or] at hf
    refine .cons (c := c) ?_ h2 (ih hf.2)
    rw [List.getElem?_set_ne hf.1]; exact h1

theorem Chain.push {fs : List (FiberContext V E S)} {h : Option Nat} {st : List (Nat × (Res V E → S))}
    (ch : Chain fs h st) (x : FiberContext V E S) : Chain (fs ++ [x]) h st := by
  induction ch with
  | nil => exact .nil
  | @cons g c h k rest h1 h2 _ ih =>
    refine .cons (c := c) ?_ h2 ih
    rw [List.getElem?_append_left (List.getElem?_eq_some_iff.1 h1).1]; exact h1

/-- control goes to fiber `f` -/
theorem Rel.enter {m : Machine V E S W} {c : Coroutines V E S W} (R : Rel m c) {f : Nat} {x : FiberContext V E S}
    {s : Status V E S} (hm : m.fibers[f]? = some x) (hc : c.fibers[f]? = some s) (hs : ¬ ∃ k, (f, k) ∈ c.stack)
    (y : FiberContext V E S) (hy : Same y .running) (k : Res V E → S) (hk : y.main_rsp = some ⟨m.handle, k⟩) (t : S) :
    Rel { m.setFiber f y with handle := some f, cur := t }
      { c with fibers := c.fibers.set f .running, stack := (f, k) :: c.stack, cur := t } := by
  have hfm := (List.getElem?_eq_some_iff.1 hm).1
  have hfc := (List.getElem?_eq_some_iff.1 hc).1
  have hst : f ∉ c.stack.map Prod.fst := by
    intro h
    obtain ⟨⟨g, k⟩, h1, rfl⟩ := List.mem_map.1 h
    exact hs ⟨k, h1⟩
  refine ⟨rfl, R.world, R.halted, R.defined, by simp [Machine.setFiber, R.len], ?_, ?_, ?_, ?_, ?_⟩
  · intro g x' s' h1 h2
    simp only [Machine.setFiber] at h1
    by_cases hg : f = g
    · subst hg
      rw [List.getElem?_set_self hfm] at h1
      rw [List.getElem?_set_self hfc] at h2
      cases h1; cases h2; exact hy
    · rw [List.getElem?_set_ne hg] at h1 h2
      exact R.same g x' s' h1 h2
  · exact .cons (c := y) (by simp [Machine.setFiber, List.getElem?_set_self hfm]) hk (R.chain.set f y hst)
  · intro g
    simp only [List.mem_cons, Prod.mk.injEq, List.length_set]
    by_cases hg : f = g
    · subst hg
      constructor
      · intro _; exact ⟨hfc, by simp⟩
      · intro _; exact ⟨k, Or.inl ⟨rfl, rfl⟩⟩
    · constructor
      · rintro ⟨k', ⟨h, _⟩ | h⟩
        · exact absurd h.symm hg
        · obtain ⟨h1, h2⟩ := (R.running g).1 ⟨k', h⟩
          exact ⟨h1, by rw [List.getElem_set_ne hg]; exact h2⟩
      · rintro ⟨h1, h2⟩
        rw [List.getElem_set_ne hg] at h2
        obtain ⟨k', h⟩ := (R.running g).2 ⟨h1, h2⟩
        exact ⟨k', Or.inr h⟩
  · simp only [List.map_cons, List.nodup_cons]
    exact ⟨hst, R.nodup⟩
  · intro g x' h1 h2
    simp only [Machine.setFiber] at h1
    by_cases hg : f = g
    · subst hg
      rw [List.getElem?_set_self hfm] at h1
      cases h1
      rw [hy.1] at h2; cases h2
    · rw [List.getElem?_set_ne hg] at h1
      exact R.created g x' h1 h2

/-- the fiber on top gives a result -/
theorem Rel.leave {m : Machine V E S W} {c : Coroutines V E S W} (R : Rel m c) {f : Nat} {kr : Res V E → S}
    {below : List (Nat × (Res V E → S))} (hst : c.stack = (f, kr) :: below) (r : Res V E)
    (saved : Option (Res V E → S)) (upd : FiberContext V E S → FiberContext V E S)
    (hupd : ∀ x, (upd x).main_rsp = x.main_rsp) (s : Status V E S) (hns : s ≠ .running)
    (hsame : ∀ x, Same x .running → Same { upd x with rsp := saved, main_rsp := none } s)
    (hcr : ∀ x, Same x .running → (upd x).state ≠ .Created) :
    ∃ x, m.handle = some f ∧ m.fibers[f]? = some x ∧
      Rel (({ m with fiber_result := some r }.setFiber f (upd x)).yield_context f saved)
        { c with fibers := c.fibers.set f s, stack := below, cur := kr r } := by
  have hch := R.chain
  rw [hst] at hch
  obtain ⟨x, h, hh, h1, h2, h3⟩ := hch.head
  refine ⟨x, hh, h1, ?_⟩
  have hfm := (List.getElem?_eq_some_iff.1 h1).1
  have hfc : f < c.fibers.length := by rw [← R.len]; exact hfm
  obtain ⟨_, hrun⟩ := (R.running f).1 ⟨kr, by rw [hst]; simp⟩
  have hsx : Same x .running := R.same f x .running h1 (List.getElem?_eq_some_iff.2 ⟨hfc, hrun⟩)
  have hnd := R.nodup
  rw [hst] at hnd
  simp only [List.map_cons, List.nodup_cons] at hnd
  have e : ({ m with fiber_result := some r }.setFiber f (upd x)).yield_context f saved =
      { m with
        fibers := m.fibers.set f { upd x with rsp := saved, main_rsp := none }
        fiber_result := some r
        handle := h
        cur := kr r } := by
    unfold Machine.yield_context Machine.setFiber
    simp only [List.getElem?_set_self hfm, hupd, h2, List.set_set]
  rw [e]
  refine ⟨rfl, R.world, R.halted, R.defined, by simp [R.len], ?_, ?_, ?_, hnd.2, ?_⟩
  · intro g x' s' h1 h2
    simp only at h1
    by_cases hg : f = g
    · subst hg
      rw [List.getElem?_set_self hfm] at h1
      rw [List.getElem?_set_self hfc] at h2
      cases h1; cases h2; exact hsame x hsx
    · rw [List.getElem?_set_ne hg] at h1 h2
      exact R.same g x' s' h1 h2
  · exact h3.set f _ hnd.1
  · intro g
    simp only [List.length_set]
    by_cases hg : f = g
    · subst hg
      constructor
      · rintro ⟨k', h⟩
        exact absurd (List.mem_map.2 ⟨_, h, rfl⟩) hnd.1
      · rintro ⟨_, h⟩
        rw [List.getElem_set_self] at h
        exact absurd h hns
    · have := R.running g
      rw [hst] at this
      constructor
      · rintro ⟨k', h⟩
        obtain ⟨h1, h2⟩ := this.1 ⟨k', by simp [h]⟩
        exact ⟨h1, by rw [List.getElem_set_ne hg]; exact h2⟩
      · rintro ⟨h1, h2⟩
        rw [List.getElem_set_ne hg] at h2
        obtain ⟨k', h⟩ := this.2 ⟨h1, h2⟩
        rcases List.mem_cons.1 h with h | h
        · exact absurd (congrArg Prod.fst h).symm hg
        · exact ⟨k', h⟩
  · intro g x' h1 h2
    simp only at h1
    by_cases hg : f = g
    · subst hg
      rw [List.getElem?_set_self hfm] at h1
      cases h1
      exact absurd h2 (hcr x hsx)
    · rw [List.getElem?_set_ne hg] at h1
      exact R.created g x' h1 h2

theorem Rel.setCur {m : Machine V E S W} {c : Coroutines V E S W} (R : Rel m c) (s : S) :
    Rel { m with cur := s } { c with cur := s } :=
  ⟨rfl, R.world, R.halted, R.defined, R.len, R.same, R.chain, R.running, R.nodup, R.created⟩

/-- `resume` in both worlds; `dead` is the error for a finished fiber -/
theorem Rel.resume {P : Prog V E S W} {m : Machine V E S W} {c c' : Coroutines V E S W} (R : Rel m c) (f : Nat) (v : V)
    (dead : E) (k : Res V E → S) (h : c.resume f v dead k = some c') :
    ∃ x, m.fibers[f]? = some x ∧
      ((x.state = .Dead ∧ Rel { m with cur := k (.err dead) } c') ∨ (x.state ≠ .Dead ∧ Rel (m.resume P f v k) c')) := by
  unfold Coroutines.resume at h
  have hget : ∀ s, c.fibers[f]? = some s → ∃ x, m.fibers[f]? = some x ∧ Same x s := by
    intro s hs
    have hfc := (List.getElem?_eq_some_iff.1 hs).1
    have hfm : f < m.fibers.length := by rw [R.len]; exact hfc
    exact ⟨_, List.getElem?_eq_getElem hfm, R.same f _ s (List.getElem?_eq_getElem hfm) hs⟩
  have hnot : ∀ s, c.fibers[f]? = some s → s ≠ .running → ¬ ∃ k, (f, k) ∈ c.stack := by
    intro s hs hn hk
    obtain ⟨h1, h2⟩ := (R.running f).1 hk
    rw [List.getElem?_eq_getElem h1, h2] at hs
    exact hn (Option.some.inj hs).symm
  split at h
  · rename_i block hs
    obtain ⟨x, hx, hsm⟩ := hget _ hs
    obtain ⟨s1, s2, s3⟩ := hsm
    refine ⟨x, hx, Or.inr ⟨by rw [s1]; simp, ?_⟩⟩
    cases h
    unfold Machine.resume
    rw [hx]
    simp only [s1]
    subst s3
    exact R.enter hx hs (hnot _ hs (by simp)) { x with state := .Running, stack := x.stack, main_rsp := some ⟨m.handle, k⟩ }
      ⟨rfl, s2, R.created f x hx s1⟩ k rfl _
  · rename_i s hs
    obtain ⟨x, hx, hsm⟩ := hget _ hs
    obtain ⟨s1, s2, s3⟩ := hsm
    refine ⟨x, hx, Or.inr ⟨by rw [s1]; simp, ?_⟩⟩
    cases h
    unfold Machine.resume
    rw [hx]
    simp only [s1, s3]
    exact R.enter hx hs (hnot _ hs (by simp)) { x with state := .Running, rsp := none, stack := x.stack, main_rsp := some ⟨m.handle, k⟩ }
      ⟨rfl, s2, rfl⟩ k rfl _
  · rename_i hs
    obtain ⟨x, hx, hsm⟩ := hget _ hs
    cases h
    exact ⟨x, hx, Or.inl ⟨hsm, R.setCur _⟩⟩
  · cases h
  · cases h

theorem Rel.step {P : Prog V E S W} {m : Machine V E S W} {c c' : Coroutines V E S W} (R : Rel m c)
    (h : c.step P = some c') : Rel (Fiber.step P m) c' := by
  unfold Coroutines.step at h
  unfold Fiber.step
  by_cases hh : c.halted.isSome = true
  · rw [if_pos hh] at h
    cases h
    rw [if_pos (by rw [R.halted, hh]; rfl)]
    exact R
  · rw [if_neg hh] at h
    rw [if_neg (by rw [R.halted, R.defined]; simpa using hh), R.cur, R.world]
    cases hn : P.next c.cur c.world with
    | other s w =>
      rw [hn] at h; cases h
      exact ⟨rfl, rfl, R.halted, R.defined, R.len, R.same, R.chain, R.running, R.nodup, R.created⟩
    | create block k =>
      rw [hn] at h; cases h
      simp only [R.len]
      refine ⟨rfl, rfl, R.halted, R.defined, by simp [R.len], ?_, R.chain.push _, ?_, R.nodup, ?_⟩
      · intro g x s h1 h2
        rw [List.getElem?_append] at h1 h2
        split at h1
        · rename_i hlt
          rw [if_pos (by rw [← R.len]; exact hlt)] at h2
          exact R.same g x s h1 h2
        · rename_i hlt
          rw [if_neg (by rw [← R.len]; exact hlt)] at h2
          rw [R.len] at h1
          cases hd : g - c.fibers.length with
          | zero => rw [hd] at h1 h2; simp at h1 h2; subst h1 h2; exact ⟨rfl, rfl, rfl⟩
          | succ n => rw [hd] at h1; simp at h1
      · intro g
        constructor
        · intro hk
          obtain ⟨h1, h2⟩ := (R.running g).1 hk
          exact ⟨by simp; omega, by simp only; rw [List.getElem_append_left h1]; exact h2⟩
        · rintro ⟨h1, h2⟩
          simp only at h1 h2
          by_cases hlt : g < c.fibers.length
          · rw [List.getElem_append_left hlt] at h2
            exact (R.running g).2 ⟨hlt, h2⟩
          · rw [List.getElem_append_right (by omega)] at h2
            simp at h2
      · intro g x h1 h2
        simp only at h1
        rw [List.getElem?_append] at h1
        split at h1
        · exact R.created g x h1 h2
        · cases hd : g - m.fibers.length with
          | zero => rw [hd] at h1; simp at h1; subst h1; rfl
          | succ n => rw [hd] at h1; simp at h1
    | resume f v k =>
      rw [hn] at h
      obtain ⟨x, hx, h' | h'⟩ := R.resume (P := P) f v P.deadFiber k h
      · simp only
        unfold Machine.resume
        rw [hx]
        simp only [h'.1]
        exact h'.2
      · exact h'.2
    | enum_next f k =>
      rw [hn] at h
      obtain ⟨x, hx, h' | h'⟩ := R.resume (P := P) f P.nil P.stopIteration k h
      · simp only
        unfold Machine.enum_next
        rw [hx]
        simp only [h'.1, if_true]
        exact h'.2
      · simp only
        unfold Machine.enum_next
        rw [hx]
        simp only [h'.1, if_false]
        exact h'.2
    | yield_ v k =>
      rw [hn] at h
      simp only at h ⊢
      cases hst : c.stack with
      | nil =>
        rw [hst] at h; cases h
        have hc := R.chain
        rw [hst] at hc
        have hc' := hc.empty
        unfold Machine.fiber_yield
        simp only [hc']
        have := R.setCur (k (.err P.yieldFromMain))
        rw [hc', hst] at this
        exact this
      | cons e below =>
        obtain ⟨f, kr⟩ := e
        rw [hst] at h; cases h
        obtain ⟨x, hh1, hx, hR⟩ := R.leave hst (.ok v) (some k) id (fun _ => rfl) (.paused k) (by simp)
          (fun x hx => ⟨hx.1, hx.2.1, rfl⟩) (fun x hx => by rw [show (id x).state = x.state from rfl, hx.1]; simp)
        have e : ({ m with fiber_result := some (.ok v) } : Machine V E S W).setFiber f (id x) =
            { m with fiber_result := some (.ok v) } := by
          have : m.fibers.set f x = m.fibers := by
            obtain ⟨h1, h2⟩ := List.getElem?_eq_some_iff.1 hx
            rw [← h2]; exact List.set_getElem_self h1
          unfold Machine.setFiber
          simp only [id, this]
        rw [e] at hR
        have e2 : m.fiber_yield P v k = { m with fiber_result := some (.ok v) }.yield_context f (some k) := by
          unfold Machine.fiber_yield; simp only [hh1]
        rw [e2]
        exact hR
    | done r =>
      rw [hn] at h
      simp only at h ⊢
      cases hst : c.stack with
      | nil =>
        rw [hst] at h; cases h
        have hc := R.chain
        rw [hst] at hc
        have hc' := hc.empty
        have e2 : m.finish P r = { m with halted := some r } := by
          unfold Machine.finish; simp only [hc']
        rw [e2]
        refine ⟨R.cur, R.world, rfl, R.defined, R.len, R.same, hc, ?_, by simp, R.created⟩
        have := R.running
        rw [hst] at this
        exact this
      | cons e below =>
        obtain ⟨f, kr⟩ := e
        rw [hst] at h; cases h
        obtain ⟨x, hh1, hx, hR⟩ := R.leave hst (conv P r) none (fun x => { x with state := .Dead }) (fun _ => rfl) .finished
          (by simp) (fun x hx => rfl) (fun x hx => by simp)
        have e2 : m.finish P r =
            ({ m with fiber_result := some (conv P r) }.setFiber f { x with state := .Dead }).yield_context f none := by
          unfold Machine.finish; simp only [hh1, hx, convResult_eq]
        rw [e2]
        exact hR

theorem Rel.start (s : S) (w : W) : Rel (Fiber.start s w : Machine V E S W) (begin_ s w) := by
  refine ⟨rfl, rfl, rfl, rfl, rfl, ?_, .nil, ?_, ?_, ?_⟩
  · intro f x s h; simp [Fiber.start] at h
  · intro f; simp [begin_]
  · simp [begin_]
  · intro f x h; simp [Fiber.start] at h

theorem Rel.run {P : Prog V E S W} (n : Nat) {m : Machine V E S W} {c c' : Coroutines V E S W} (R : Rel m c)
    (h : c.run P n = some c') : Rel (Fiber.run P n m) c' := by
  induction n generalizing m c with
  | zero => cases h; exact R
  | succ n ih =>
    unfold Coroutines.run at h
    rw [Option.bind_eq_some_iff] at h
    obtain ⟨c1, h1, h2⟩ := h
    exact ih (R.step h1) h2

end Verif.Fiber
