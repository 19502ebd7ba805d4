import Verif.Class.Cache
/-! # C36: the method caches never change which method is called -/
namespace Verif.Class

/-- Whatever the program did before, a call instruction calls the method that a search of the class chain finds at that
moment, and calls `method_missing` if the search finds none.  Partial: the version count has 32 bits
(`C36_wraparound_fails`) and is not advanced when the singleton class of a singleton class is made
(`C36_singleton_of_singleton_fails`). -/
theorem C36_call_partial {nm : Nat → Id} {n : Nat} {ops : List Op} {s s' : VM} {slot c name r}
    (run : execAll n {} ops = some s) (plain : AllPlain n {} ops) (one : OneName nm ops) (few : bumpCount ops < 2 ^ 32)
    (hname : name = nm slot) (call : exec n s (.call slot c name) = some (s', r)) :
    ∀ m, 2 * s.heap.next + 2 < m → (searchMethod m s.heap c name).map (·.map (·.1)) = some r := by
  have S := execAll_sound (sound_start nm) plain one (by omega) run
  refine (exec_sound (o := .call slot c name) S trivial (fun a b d h => ?_) ?_ call).2
  · simp only [List.mem_singleton, Op.call.injEq] at h
    rw [h.2.2, h.1]; exact hname
  · simp only [bumpCount]; omega

/-- The same for lookups that are not call instructions (`super`, `respond_to?`, `send`, `method_missing`). -/
theorem C36_find_partial {nm : Nat → Id} {n : Nat} {ops : List Op} {s s' : VM} {c name r}
    (run : execAll n {} ops = some s) (plain : AllPlain n {} ops) (one : OneName nm ops) (few : bumpCount ops < 2 ^ 32)
    (call : exec n s (.find c name) = some (s', r)) :
    ∀ m, 2 * s.heap.next + 2 < m → (searchMethod m s.heap c name).map (·.map (·.1)) = some r := by
  have S := execAll_sound (sound_start nm) plain one (by omega) run
  refine (exec_sound (o := .find c name) S trivial (fun a b d h => ?_) ?_ call).2
  · simp at h
  · simp only [bumpCount]; omega

/-- Caches and lookup order together: a call runs the first definition in the ancestor list. -/
theorem C36_call_ancestors_partial {nm : Nat → Id} {n : Nat} {ops : List Op} {s s' : VM} {slot c name r}
    (run : execAll n {} ops = some s) (plain : AllPlain n {} ops) (one : OneName nm ops) (few : bumpCount ops < 2 ^ 32)
    (hname : name = nm slot) (call : exec n s (.call slot c name) = some (s', r))
    (ho : Orderly s.heap.log) (hc : Real s.heap c) (hp : ¬ Prepended s.heap.log c) (hs : s.heap.isSingleton c = false)
    {l : List Addr} (hl : Ancestors s.heap.log c l) :
    r = (firstMethod s.heap.log name l).map (·.1) := by
  have S := execAll_sound (sound_start nm) plain one (by omega) run
  have a := C36_call_partial run plain one few hname call (2 * s.heap.next + 3) (by omega)
  have b := C35_lookup_order_partial S.reach ho hc hp hs hl name (n := 2 * s.heap.next + 3) (by omega)
  rcases hm : searchMethod (2 * s.heap.next + 3) s.heap c name with _ | x
  · rw [hm] at a; cases a
  · rw [hm] at a b
    simp only [Option.map_some, Option.some.injEq] at a b
    rw [← a, ← b]
    cases x <;> rfl

/-- The last answer of a run. -/
def lastAnswer (n : Nat) (ops : List Op) (o : Op) : Option (Option Fn) :=
  match execAll n {} ops with
  | none => none
  | some s => (exec n s o).map (·.2)

/-- `class C; def foo; end; end; class D < C; end`, two calls of `foo` at one place, then `D` overrides `foo`; module
`M`, included later, does not matter. -/
def overriding : List Op :=
  [.cmd (.newClass 1), .cmd (.newClass 5), .cmd (.defm 5 7 10), .call 0 8 7, .call 0 8 7, .call 0 5 7, .call 0 8 7, .find 8 7,
   .cmd (.defm 8 7 20), .call 0 5 7, .call 0 8 7, .cmd .newModule, .cmd (.incl 8 10)]

/-- `AllPlain`, computed. -/
def allPlainB (n : Nat) : VM → List Op → Bool
  | _, [] => true
  | s, o :: os => (match o with
      | .cmd (.newClass sup) => !s.heap.isSingleton sup
      | .cmd (.singleton a) => !s.heap.isSingleton a
      | _ => true) && (match exec n s o with
      | none => true
      | some (s', _) => allPlainB n s' os)

theorem allPlainB_ok {n} : ∀ {os s}, allPlainB n s os = true → AllPlain n s os
  | [], _, _ => trivial
  | o :: os, s, e => by
    simp only [allPlainB, Bool.and_eq_true] at e
    refine ⟨?_, fun s' r h => ?_⟩
    · have := e.1
      unfold Plain
      split <;> simp_all
    · rw [h] at e; exact allPlainB_ok e.2

/-- The hypotheses hold of that program, and the answers are as they should be. -/
example : AllPlain 60 {} overriding ∧ OneName (fun _ => 7) overriding ∧ bumpCount overriding < 2 ^ 32 ∧
    lastAnswer 60 (overriding.take 6) (.call 0 8 7) = some (some 10) ∧
    lastAnswer 60 overriding (.call 0 8 7) = some (some 20) ∧ lastAnswer 60 overriding (.call 0 5 7) = some (some 10) ∧
    lastAnswer 60 overriding (.call 1 5 8) = some none := by
  refine ⟨allPlainB_ok (by decide +kernel), ?_, by decide, by decide +kernel, by decide +kernel, by decide +kernel, by decide +kernel⟩
  intro slot c name h
  simp only [overriding, List.mem_cons, Op.call.injEq, reduceCtorEq, false_or, or_false, List.not_mem_nil] at h
  grind

/-! ## Where it does not hold -/

theorem execAll_append {n} : ∀ {a b s}, execAll n s (a ++ b) = (execAll n s a).bind (execAll n · b)
  | [], _, _ => rfl
  | o :: a, b, s => by
    rw [List.cons_append, execAll, execAll]
    rcases exec n s o with _ | ⟨s', r⟩
    · rfl
    · exact execAll_append

/-- Defining a method again and again. -/
theorem redefine {n : Nat} {c : Addr} {name : Id} {f : Fn} : ∀ (k : Nat) (s : VM), s.heap.realB c = true →
    ∃ s', execAll n s (List.replicate k (.cmd (.defm c name f))) = some s' ∧ s'.version = s.version + BitVec.ofNat 32 k ∧
      s'.global = s.global ∧ s'.inline = s.inline ∧ s'.heap.obj = s.heap.obj ∧ s'.heap.next = s.heap.next ∧
      (0 < k → (s'.heap.ext (s'.heap.info c).ext).methods name = some f)
  | 0, s, _ => ⟨s, rfl, by simp, rfl, rfl, rfl, rfl, fun h => absurd h (by omega)⟩
  | k + 1, s, h => by
    have step : exec n s (.cmd (.defm c name f)) = some ({ s with heap := addMethod s.heap c name f, version := s.version + 1 }, none) := by
      simp [exec, Cmd.run, h, Cmd.bumps]
    obtain ⟨s', e1, e2, e3, e4, e5, e6, e7⟩ := redefine (n := n) (name := name) (f := f) k
      { s with heap := addMethod s.heap c name f, version := s.version + 1 } h
    refine ⟨s', by rw [List.replicate_succ, execAll, step]; exact e1, ?_, e3, e4, e5, e6, fun _ => ?_⟩
    · rw [e2]
      simp only [Nat.add_comm k 1, BitVec.ofNat_add]
      rw [BitVec.add_assoc]; rfl
    · rcases Nat.eq_zero_or_pos k with rfl | hk
      · simp only [List.replicate_zero, execAll, Option.some.injEq] at e1
        subst e1
        have hi : (addMethod s.heap c name f).info c = s.heap.info c := rfl
        simp only [hi]
        simp [addMethod, upd]
      · exact e7 hk

/-- After 2^32 method definitions the version count is back where it was, and a call instruction calls the method it
called before them, which has been replaced.  (A debug build stops at the overflow instead.) -/
theorem C36_wraparound_fails : ∃ ops : List Op, OneName (fun _ => 7) ops ∧ AllPlain 60 {} ops ∧
    ∃ s s', execAll 60 {} ops = some s ∧ exec 60 s (.call 0 5 7) = some (s', some 10) ∧
      searchMethod 60 s.heap 5 7 = some (some (20, 5)) := by
  have pre : (match execAll 60 {} [.cmd (.newClass 1), .cmd (.defm 5 7 10), .call 0 5 7] with
      | none => false
      | some s => s.heap.realB 5 && (s.inline 0).cls == some 5 && (s.inline 0).version == s.version && (s.inline 0).fid == 10 &&
        !s.heap.isSingleton 5) = true := by decide +kernel
  split at pre
  · cases pre
  rename_i s hs
  simp only [Bool.and_eq_true, beq_iff_eq, Bool.not_eq_true'] at pre
  obtain ⟨⟨⟨⟨p1, p2⟩, p3⟩, p4⟩, p5⟩ := pre
  obtain ⟨s', e1, e2, e3, e4, e5, e6, e7⟩ := redefine (n := 60) (c := 5) (name := 7) (f := 20) (2 ^ 32) s p1
  have e2 : s'.version = s.version := by rw [e2]; simp
  refine ⟨_ ++ List.replicate (2 ^ 32) (.cmd (.defm 5 7 20)), ?_, ?_, s', s', by rw [execAll_append, hs]; exact e1, ?_, ?_⟩
  · intro slot c name h
    simp only [List.mem_append, List.mem_cons, Op.call.injEq, reduceCtorEq, false_or, or_false, List.not_mem_nil,
      List.mem_replicate, and_false] at h
    grind
  · have pl : ∀ k t, AllPlain 60 t (List.replicate k (.cmd (.defm 5 7 20))) := by
      intro k
      induction k with
      | zero => intro t; trivial
      | succ k ih => intro t; exact ⟨trivial, fun s' _ _ => ih s'⟩
    have app : ∀ (a b : List Op) (t : VM), AllPlain 60 t a → (∀ u, AllPlain 60 u b) → AllPlain 60 t (a ++ b) := by
      intro a
      induction a with
      | nil => intro b t _ h; exact h t
      | cons o a ih => intro b t h1 h2; exact ⟨h1.1, fun u r hu => ih b u (h1.2 u r hu) h2⟩
    exact app _ _ _ (allPlainB_ok (by decide +kernel)) (pl _)
  · have hr : s'.heap.realB 5 = true := by
      simp only [Heap.realB, e5, e6] at p1 ⊢; exact p1
    simp only [exec, hr, if_true, findInline, e4, e2, p2, p3, p4, and_self]
  · have := e7 (by decide)
    rw [searchMethod, searchLoop, this]

/-- Making the singleton class of a singleton class changes where the search for an object with a singleton class falls
back to (`C35_singleton_object_fails`), but does not advance the version count: a call instruction calls the method it
called before. -/
theorem C36_singleton_of_singleton_fails : ∃ ops : List Op, OneName (fun _ => 7) ops ∧ bumpCount ops < 2 ^ 32 ∧
    ∃ s s', execAll 60 {} ops = some s ∧ exec 60 s (.call 0 6 7) = some (s', some 30) ∧
      searchMethod 60 s.heap 6 7 = some (some (40, 7)) := by
  have pre : (match execAll 60 {} [.cmd (.newObject 1), .cmd (.singleton 5), .cmd (.singleton 1), .cmd (.defm 3 7 30), .cmd (.defm 7 7 40),
      .call 0 6 7, .cmd (.singleton 6)] with
      | none => false
      | some s => decide ((exec 60 s (.call 0 6 7)).map (·.2) = some (some 30)) && decide (searchMethod 60 s.heap 6 7 = some (some (40, 7)))) = true := by
    decide +kernel
  split at pre
  · cases pre
  rename_i s hs
  simp only [Bool.and_eq_true, decide_eq_true_eq, Option.map_eq_some_iff, Prod.exists, exists_eq_right] at pre
  obtain ⟨⟨s', e1⟩, e2⟩ := pre
  refine ⟨_, ?_, by decide, s, s', hs, e1, e2⟩
  intro slot c name h
  simp only [List.mem_cons, Op.call.injEq, reduceCtorEq, false_or, or_false, List.not_mem_nil] at h
  grind

end Verif.Class
