import Verif.Class.Const
import Verif.Class.CacheProps
/-! # C37: which constant a name means -/
namespace Verif.Class

/-- The value that Ruby gives a constant used inside the classes `scopes` (the innermost last), where `l` are the
ancestors of the innermost one (of `Object` outside all classes): the first of the enclosing classes from the inside
out that has the constant, then the first of the ancestors. -/
def rubyConst (es : List Event) (scopes l : List Addr) (id : Id) : Option Val :=
  (firstConst es id scopes.reverse).or (firstConst es id l)

theorem lexical_first {h : Heap} (I : Inv h) {id : Id} : ∀ {l : List Addr}, (∀ x ∈ l, Real h x) →
    l.findSome? (ownConst h · id) = firstConst h.log id l := by
  intro l hl
  have := constIn_first I (id := id) (l := l) fun x hx => .inr (hl x hx)
  rw [constIn] at this
  rw [this]
  congr 1
  calc l.map (realModule h) = l.map (fun x => x) := List.map_congr_left fun x hx => by rw [(hl x hx).real I, I.ext x (hl x hx)]
    _ = l := List.map_id' l

/-- Looking up a constant in a method whose receiver is a direct instance of the innermost enclosing class (or outside
all classes, where the receiver is an instance of `Object`) follows Ruby's rule.  Partial: the code searches the
ancestors of the class of `self` instead of those of the enclosing class, which differ in class bodies, in methods
called on instances of subclasses and in modules (`C37_class_body_fails`, `C37_subclass_instance_fails`); prepended
modules are left out as in C35. -/
theorem C37_lookup_partial {h : Heap} (R : Reach h) (ho : Orderly h.log) {scopes : List Addr} (hs : ∀ x ∈ scopes, Real h x)
    {c : Addr} (hc : IsClass h c) (hinner : c = scopes.getLast?.getD objectC) (hp : ¬ Prepended h.log c)
    {l : List Addr} (hl : Ancestors h.log (scopes.getLast?.getD objectC) l) (id : Id) {n : Nat} (hn : h.next + 1 < n) :
    findConst n h scopes c id = some (rubyConst h.log scopes l id) := by
  rw [← hinner] at hl
  have I := R.good.toInv
  obtain ⟨ch, w, s, len, hch, W, e1, _⟩ := I.chain c hc.1
  obtain ⟨ch', s', hch', e⟩ := findConst_spec I hc (scopes := scopes) (id := id) hn
  have := s.unique s'
  subst this
  have hb : hpB h.log c = false := by simpa [← hpB_iff] using hp
  have hu := (walk_ancestors ho W).unique hl
  rw [e, rubyConst]
  congr 2
  · exact lexical_first I fun x hx => hs x (List.mem_reverse.1 hx)
  · rw [constIn_first I, List.map_cons, e1, ← hu, hc.1.real I, I.ext c hc.1]
    · simp [hb]
    · intro x hx
      rcases List.mem_cons.1 hx with rfl | hx
      · exact .inr hc.1
      · exact hch x (List.mem_of_mem_filter hx)

/-- `A::X` gives the constant that `A` itself has, if it has one.  Partial: it does not search the ancestors of `A`
(`C37_inherited_scope_fails`). -/
theorem C37_scope_partial {h : Heap} (R : Reach h) {c : Addr} (hc : Real h c) (id : Id) {v : Val}
    (hv : constOf h.log c id = some v) : getScope h c id = some v := by
  have I := R.good.toInv
  rw [getScope, ownConst, I.ext c hc, I.cons, hv]

/-- The cache for constants never changes what a constant means, whatever constants, methods, classes and objects the
program makes or replaces in between.  Partial: classes include no further modules once constants are used
(`C37_include_stale_fails`), an instruction is always run for receivers of the same class
(`C37_shared_slot_fails`), and the 32-bit version count does not overflow. -/
theorem C37_cached_partial {u : Nat → Use} {n : Nat} {build : List Cmd} {ops : List COp} {s s' : CVM} {slot id scopes c r}
    (run : cexecAll n {} (build.map COp.cmd ++ ops) = some s) (still : Still ops)
    (self : ∀ t, cexecAll n {} (build.map COp.cmd) = some t → SelfClass n t ops)
    (one : OneUse u ops) (few : setCount (build.map COp.cmd) + setCount ops < 2 ^ 32)
    (huse : u slot = ⟨id, scopes, c⟩) (hc : (s.heap.info c).isModule = false)
    (get : cexec n s (.get slot id scopes c) = some (s', r)) :
    ∀ m, s.heap.next + 1 < m → findConst m s.heap scopes c id = some r := by
  rw [cexecAll_append] at run
  rcases hb : cexecAll n {} (build.map COp.cmd) with _ | t
  · rw [hb] at run; cases run
  · rw [hb] at run
    have S := cexecAll_build (csound_start u) (fun _ => rfl) (by omega) hb
    have S' := cexecAll_sound S (self t hb) one still (by omega) run
    refine (cexec_sound (o := .get slot id scopes c) S' (fun a b d e h => ?_) (by simp only [setCount]; omega) (fun a b d e h => ?_)
      (.inl fun c h => ?_) get).2
    · simp only [List.mem_singleton, COp.get.injEq] at h
      obtain ⟨rfl, rfl, rfl, rfl⟩ := h; exact huse
    · simp only [COp.get.injEq] at h
      obtain ⟨rfl, rfl, rfl, rfl⟩ := h; exact hc
    · simp at h

/-! ## A program that meets the hypotheses -/

/-- `class B < Object; X = 1; end; class C < B; include M` with `Y = 3` in `M` and `Z = 5` in `Object`. -/
def constBuild : List Cmd := [.newModule, .newClass 1, .setc 6 1 1, .newClass 6, .incl 9 5, .setc 5 2 3, .setc 1 3 5]

def clast (build : List Cmd) (ops : List COp) (o : COp) : Option (Option Val) :=
  match cexecAll 60 {} (build.map COp.cmd ++ ops) with
  | none => none
  | some s => (cexec 60 s o).map (·.2)

example : clast constBuild [] (.get 0 1 [9] 9) = some (some 1) ∧ clast constBuild [] (.get 0 2 [9] 9) = some (some 3) ∧
    clast constBuild [] (.get 0 3 [9] 9) = some (some 5) ∧ clast constBuild [] (.get 0 4 [9] 9) = some none ∧
    clast constBuild [.get 0 1 [9] 9, .get 0 1 [9] 9, .cmd (.setc 9 1 7)] (.get 0 1 [9] 9) = some (some 7) ∧
    clast constBuild [.get 0 1 [9] 9, .cmd (.newClass 9), .get 0 1 [9] 9, .cmd (.defm 9 1 7)] (.get 0 1 [9] 9) = some (some 1) := by
  decide +kernel

/-- The hypotheses of `C37_cached_partial` hold for the program that looks up `X` in a method of `C` twice, with a
definition in between. -/
example : Still [.get 0 1 [9] 9, .cmd (.setc 9 1 7)] ∧ OneUse (fun _ => ⟨1, [9], 9⟩) [.get 0 1 [9] 9, .cmd (.setc 9 1 7)] ∧
    ∀ t, cexecAll 60 {} (constBuild.map COp.cmd) = some t → SelfClass 60 t [.get 0 1 [9] 9, .cmd (.setc 9 1 7)] := by
  refine ⟨?_, ?_, fun t ht => ⟨fun slot id scopes c e => ?_, fun _ _ _ => ⟨fun _ _ _ _ e => by simp at e, fun _ _ _ => trivial⟩⟩⟩
  · intro c h
    simp only [List.mem_cons, reduceCtorEq, COp.cmd.injEq, false_or, List.not_mem_nil, or_false] at h
    subst h; rfl
  · intro slot id scopes c h
    simp only [List.mem_cons, reduceCtorEq, COp.get.injEq, List.not_mem_nil, or_false] at h
    obtain ⟨_, rfl, rfl, rfl⟩ := h; rfl
  · simp only [COp.get.injEq] at e
    obtain ⟨_, _, _, rfl⟩ := e
    have : (match cexecAll 60 {} (constBuild.map COp.cmd) with
      | some t => !(t.heap.info 9).isModule
      | none => true) = true := by decide +kernel
    rw [ht] at this
    simpa using this

/-! ## Where it does not hold -/

/-- In the body of `class C < B`, where `self` is `C` and its class is `Class`, a constant of `B` is not found. -/
theorem C37_class_body_fails : ∃ h, Reach h ∧ Orderly h.log ∧ IsClass h 8 ∧ getClass 60 h 8 = some (some classC) ∧
    ∃ l, Ancestors h.log 8 l ∧ rubyConst h.log [8] l 1 = some 10 ∧ findConst 60 h [8] classC 1 = some none := by
  obtain ⟨h, R, e⟩ := runs_reach (cs := [.newClass 1, .newClass 5, .setc 5 1 10])
    (p := fun h => decide (h.log = [.setc 5 1 10, .cls 9 (some 7), .cls 8 (some 5), .cls 7 (some 6), .cls 6 (some 4), .cls 5 (some 1),
      .cls 4 (some 3), .cls 3 (some 2), .cls 2 (some 1), .cls 1 (some 0), .cls 0 none]) && h.realB 8 && !(h.info 8).isModule &&
      decide (getClass 60 h 8 = some (some classC)) && decide (findConst 60 h [8] classC 1 = some none)) (by decide +kernel)
  simp only [Bool.and_eq_true, decide_eq_true_eq, Bool.not_eq_true', realB_iff] at e
  obtain ⟨⟨⟨⟨e1, e2⟩, e3⟩, e4⟩, e5⟩ := e
  refine ⟨h, R, by rw [e1]; simp [Orderly], ⟨e2, e3⟩, e4, [8, 5, 1, 0], ?_, by rw [e1]; rfl, e5⟩
  rw [e1]
  exact .sub (l := [5, 1, 0]) rfl (.sub (l := [1, 0]) rfl (.sub (l := [0]) rfl (.top rfl)))

/-- A method of `B` called on an instance of its subclass `D` takes the constant of `D`, where Ruby takes that of
`Object`. -/
theorem C37_subclass_instance_fails : ∃ h, Reach h ∧ Orderly h.log ∧ IsClass h 5 ∧ IsClass h 8 ∧
    ∃ l, Ancestors h.log 5 l ∧ rubyConst h.log [5] l 1 = some 10 ∧ findConst 60 h [5] 8 1 = some (some 20) := by
  obtain ⟨h, R, e⟩ := runs_reach (cs := [.newClass 1, .newClass 5, .setc 1 1 10, .setc 8 1 20])
    (p := fun h => decide (h.log = [.setc 8 1 20, .setc 1 1 10, .cls 9 (some 7), .cls 8 (some 5), .cls 7 (some 6), .cls 6 (some 4), .cls 5 (some 1),
      .cls 4 (some 3), .cls 3 (some 2), .cls 2 (some 1), .cls 1 (some 0), .cls 0 none]) && h.realB 8 && !(h.info 8).isModule &&
      h.realB 5 && !(h.info 5).isModule && decide (findConst 60 h [5] 8 1 = some (some 20))) (by decide +kernel)
  simp only [Bool.and_eq_true, decide_eq_true_eq, Bool.not_eq_true', realB_iff] at e
  obtain ⟨⟨⟨⟨⟨e1, e2⟩, e3⟩, e4⟩, e5⟩, e6⟩ := e
  refine ⟨h, R, by rw [e1]; simp [Orderly], ⟨e4, e5⟩, ⟨e2, e3⟩, [5, 1, 0], ?_, by rw [e1]; rfl, e6⟩
  rw [e1]
  exact .sub (l := [1, 0]) rfl (.sub (l := [0]) rfl (.top rfl))

/-- `C::X` does not find the constant `X` of the superclass of `C`. -/
theorem C37_inherited_scope_fails : ∃ h, Reach h ∧ Orderly h.log ∧ IsClass h 8 ∧
    ∃ l, Ancestors h.log 8 l ∧ firstConst h.log 1 l = some 10 ∧ getScope h 8 1 = none := by
  obtain ⟨h, R, e⟩ := runs_reach (cs := [.newClass 1, .newClass 5, .setc 5 1 10])
    (p := fun h => decide (h.log = [.setc 5 1 10, .cls 9 (some 7), .cls 8 (some 5), .cls 7 (some 6), .cls 6 (some 4), .cls 5 (some 1),
      .cls 4 (some 3), .cls 3 (some 2), .cls 2 (some 1), .cls 1 (some 0), .cls 0 none]) && h.realB 8 && !(h.info 8).isModule &&
      decide (getScope h 8 1 = none)) (by decide +kernel)
  simp only [Bool.and_eq_true, decide_eq_true_eq, Bool.not_eq_true', realB_iff] at e
  obtain ⟨⟨⟨e1, e2⟩, e3⟩, e4⟩ := e
  refine ⟨h, R, by rw [e1]; simp [Orderly], ⟨e2, e3⟩, [8, 5, 1, 0], ?_, by rw [e1]; rfl, e4⟩
  rw [e1]
  exact .sub (l := [5, 1, 0]) rfl (.sub (l := [1, 0]) rfl (.sub (l := [0]) rfl (.top rfl)))

/-- A run of a program, then one use of a constant: what the cache answers and what the search answers. -/
def cacheVersus (ops : List COp) (slot : Nat) (id : Id) (scopes : List Addr) (c : Addr) : Option (Option Val × Option Val) :=
  match cexecAll 60 {} ops with
  | none => none
  | some s => match cexec 60 s (.get slot id scopes c), findConst 60 s.heap scopes c id with
    | some (_, r), some r' => some (r, r')
    | _, _ => none

/-- After `C` includes a module with the constant, a place that looked it up before still has the old value (20), although
the search finds the new one (10). -/
theorem C37_include_stale_fails : ∃ ops : List COp, OneUse (fun _ => ⟨1, [6], 6⟩) ops ∧
    cacheVersus ops 0 1 [6] 6 = some (some 20, some 10) := by
  refine ⟨[.cmd .newModule, .cmd (.newClass 1), .cmd (.setc 5 1 10), .cmd (.setc 1 1 20), .get 0 1 [6] 6, .cmd (.incl 6 5)], ?_, by decide +kernel⟩
  intro slot id scopes c h
  simp only [List.mem_cons, reduceCtorEq, COp.get.injEq, List.not_mem_nil, or_false, false_or] at h
  obtain ⟨_, rfl, rfl, rfl⟩ := h; rfl

/-- A method of `B` that was called on an instance of its subclass `D` first answers with the constant of `D` (20) also
when it is called on an instance of `B`, although the search finds 10 and no class includes anything. -/
theorem C37_shared_slot_fails : ∃ ops : List COp, Still ops ∧ cacheVersus ops 0 1 [5] 5 = some (some 20, some 10) := by
  refine ⟨[.cmd (.newClass 1), .cmd (.newClass 5), .cmd (.setc 1 1 10), .cmd (.setc 8 1 20), .get 0 1 [5] 8], ?_, by decide +kernel⟩
  intro c h
  simp only [List.mem_cons, reduceCtorEq, COp.cmd.injEq, List.not_mem_nil, or_false] at h
  rcases h with rfl | rfl | rfl | rfl <;> rfl

end Verif.Class
