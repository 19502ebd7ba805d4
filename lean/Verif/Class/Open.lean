import Verif.Class.Rescue
/-! # C99: opening classes and modules, and their names

`class A … end` and `module A … end` make the class or module the first time and open it again later; a class or module
takes its name from the first constant it is bound to.  The classes, the constants and the history are those of
`Verif.Class.Model` and `Verif.Class.Const`; the value of a constant is read as the address of an object. -/
namespace Verif.Class

/-! ## Model -/

/-- The classes, with the field `name` of `ClassExt` (value/class.rs:662-670): the parts of the name that `::` joins.
Simplified: the text `#<Class:…>` that `op_name` computes for a singleton class (value/class.rs:415-440) is not kept. -/
structure Names where
  heap : Heap := boot
  name : Addr → Option (List Id) := fun _ => none

/-- `ClassInfo::set_const` (value/class.rs:576-598) on the class or module `c`: a class or module that has no name takes
the one of the constant.  `op_name` of a singleton class is never `None`. -/
def setNamed (s : Names) (c : Addr) (id : Id) (v : Val) : Names :=
  { heap := setConst s.heap c id v
    name := fun a =>
      if a = v ∧ s.heap.realB v = true ∧ s.heap.isSingleton v = false ∧ s.name v = none then
        if c = objectC then some [id] else (s.name c).map (· ++ [id])
      else s.name a }

/-- How `class` and `module` go wrong. -/
inductive Trap
  | typeError
  /-- the interpreter itself stops -/
  | panic
  deriving DecidableEq, Repr

/-- The end of `define_class` for a constant that is not there (vm/executor.rs:695-707) when the class is made. -/
def makeClass (n : Nat) (s : Names) (c : Addr) (id : Id) (sup : Addr) : Option (Except Trap (Names × Addr)) :=
  match newClass n s.heap sup with
  | none => none
  | some (h, k) => some (.ok (setNamed { s with heap := h } c id k, k))

/-- `VM::define_class` (vm/executor.rs:661-709): `c` is the class or module in which the statement stands or that is
written before `::`, `sup` the given superclass, `none` for `nil`.  `Module::new` panics on what is no class or module
(value/class.rs:67-70).  Simplified: no constant is `ConstEntry::Autoload`. -/
def defineClass (n : Nat) (s : Names) (c : Addr) (id : Id) (isModule : Bool) (sup : Option Addr) :
    Option (Except Trap (Names × Addr)) :=
  match ownConst s.heap c id with
  | some v =>
    if s.heap.realB v then
      if (s.heap.info v).isModule != isModule then some (.error .typeError)
      else
        match superclass n s.heap v with
        | none => none
        | some valSuper =>
          if sup.isSome && valSuper != sup then some (.error .typeError) else some (.ok (s, v))
    else some (.error .panic)
  | none =>
    if isModule then
      if sup.isSome then some (.error .panic)
      else some (.ok (setNamed { s with heap := (newModule s.heap).1 } c id (newModule s.heap).2, (newModule s.heap).2))
    else
      match sup with
      | none => makeClass n s c id objectC
      | some x => if s.heap.realB x && !(s.heap.info x).isModule then makeClass n s c id x else some (.error .typeError)

/-- The superclass as it is written: DEF_CLASS gets `nil` if there is none (codegen.rs:1443-1467). -/
inductive Sup
  | absent
  | nil
  | obj (a : Addr)

/-- `super_val.is_nil()` (vm/executor.rs:686, 697). -/
def Sup.value : Sup → Option Addr
  | .absent => none
  | .nil => none
  | .obj a => some a

/-- What a program does. -/
inductive Open
  /-- anything that sets no constant -/
  | cmd (k : Cmd)
  /-- `c::id = v` (SET_CONST, vm/executor/opt_core.rs:263-277) -/
  | set (c : Addr) (id : Id) (v : Val)
  /-- `class c::id < sup` or `module c::id` (DEF_CLASS, vm/executor/opt_core.rs:505-517); a TypeError is rescued -/
  | define (c : Addr) (id : Id) (isModule : Bool) (sup : Sup)

/-- One step, if its arguments are what it needs: the heap after it. -/
def Open.run (n : Nat) (s : Names) : Open → Option Names
  | .cmd k => if k.sets then none else (k.run n s.heap).map fun h => { s with heap := h }
  | .set c id v => if s.heap.realB c && decide (v < s.heap.next) then some (setNamed s c id v) else none
  | .define c id isModule sup =>
    if s.heap.realB c then
      match defineClass n s c id isModule sup.value with
      | some (.ok (s', _)) => some s'
      | some (.error .typeError) => some s
      | some (.error .panic) => none
      | none => none
    else none

/-! ## Specification -/

/-- The states that programs reach, whatever they do and for however long. -/
inductive Opened : Names → Prop
  | start : Opened {}
  | step {s n o s'} : Opened s → Open.run n s o = some s' → Opened s'

/-- `s'` comes after `s`, and nothing on the way satisfies `bad`. -/
inductive After (bad : Names → Open → Prop) (s : Names) : Names → Prop
  | here : After bad s s
  | step {t n o t'} : After bad s t → ¬ bad t o → Open.run n t o = some t' → After bad s t'

/-- The step gives the constant `c::id` a value. -/
def Sets (c : Addr) (id : Id) (_ : Names) : Open → Prop
  | .set c' id' _ => c' = c ∧ id' = id
  | _ => False

/-- The step gives a constant that has a value a new one. -/
def Overwrites (s : Names) : Open → Prop
  | .set c id _ => (getScope s.heap c id).isSome = true
  | _ => False

/-- `A::B::C` read from the class or module `c`. -/
def resolve (h : Heap) : Addr → List Id → Option Addr
  | c, [] => some c
  | c, i :: is =>
    if h.realB c then
      match getScope h c i with
      | none => none
      | some d => resolve h d is
    else none

/-! ## Helpers -/

/-- What stays as a program goes on. -/
structure Later (h g : Heap) : Prop where
  next : h.next ≤ g.next
  real : ∀ a, Real h a → Real g a ∧ (g.info a).isModule = (h.info a).isModule
  sup : ∀ a, a < h.next → superOf g.log a = superOf h.log a
  sing : ∀ a, a < h.next → (g.ext a).singletonFor = (h.ext a).singletonFor

theorem Later.refl (h : Heap) : Later h h := ⟨Nat.le_refl _, fun _ ha => ⟨ha, rfl⟩, fun _ _ => rfl, fun _ _ => rfl⟩

theorem Later.trans {h g k : Heap} (a : Later h g) (b : Later g k) : Later h k :=
  ⟨Nat.le_trans a.next b.next, fun x hx => ⟨(b.real x (a.real x hx).1).1, (b.real x (a.real x hx).1).2.trans (a.real x hx).2⟩,
    fun x hx => (b.sup x (Nat.lt_of_lt_of_le hx a.next)).trans (a.sup x hx),
    fun x hx => (b.sing x (Nat.lt_of_lt_of_le hx a.next)).trans (a.sing x hx)⟩

theorem later_new (h : Heap) (cls b sup target) : Later h (newInfo h cls b sup target).1 ∧
    ∀ c id, constOf (newInfo h cls b sup target).1.log c id = constOf h.log c id := by
  refine ⟨⟨Nat.le_succ _, fun a ha => ⟨(newInfo_real ha).1, by rw [(newInfo_real ha).2]⟩, fun a ha => ?_, fun a ha => ?_⟩, fun c id => ?_⟩
  · simp only [newInfo]
    cases b <;> simp [superOf, (Nat.ne_of_lt ha).symm]
  · simp [newInfo, upd, Nat.ne_of_lt ha]
  · simp only [newInfo]
    cases b <;> simp [constOf]

theorem later_setCls (h : Heap) (a c : Addr) : Later h (h.setCls a c) :=
  ⟨Nat.le_refl _, fun x hx => ⟨(setCls_real h a c x).2 hx, by rw [setCls_info]⟩, fun _ _ => rfl, fun _ _ => rfl⟩

theorem later_single : ∀ {n h a g s}, getSingleton n h a = some (g, s) →
    Later h g ∧ ∀ c id, constOf g.log c id = constOf h.log c id
  | n + 1, h, a, g, s, e => by
    have one : ∀ (h : Heap) (sup : Option Addr), Later h ((newInfo h classC false sup (some a)).1.setCls a (newInfo h classC false sup (some a)).2) ∧
        ∀ c id, constOf ((newInfo h classC false sup (some a)).1.setCls a (newInfo h classC false sup (some a)).2).log c id = constOf h.log c id :=
      fun h sup => ⟨(later_new h _ _ _ _).1.trans (later_setCls _ _ _), (later_new h classC false sup (some a)).2⟩
    rw [getSingleton] at e
    simp only at e
    split at e
    · simp only [Option.some.injEq, Prod.mk.injEq] at e
      obtain ⟨rfl, rfl⟩ := e
      exact ⟨.refl _, fun _ _ => rfl⟩
    · split at e
      · split at e
        · simp only [Option.some.injEq, Prod.mk.injEq] at e
          obtain ⟨rfl, rfl⟩ := e
          exact one _ _
        · split at e
          · cases e
          · simp only [Option.some.injEq, Prod.mk.injEq] at e
            obtain ⟨rfl, rfl⟩ := e
            exact one _ _
          · split at e
            · cases e
            · rename_i hg
              simp only [Option.some.injEq, Prod.mk.injEq] at e
              obtain ⟨rfl, rfl⟩ := e
              have ih := later_single hg
              exact ⟨ih.1.trans (one _ _).1, fun c id => ((one _ _).2 c id).trans (ih.2 c id)⟩
      · simp only [Option.some.injEq, Prod.mk.injEq] at e
        obtain ⟨rfl, rfl⟩ := e
        exact one _ _

theorem later_class {n h sup g k} (e : newClass n h sup = some (g, k)) : Later h g ∧
    (∀ c id, constOf g.log c id = constOf h.log c id) ∧ k = h.next ∧ superOf g.log k = some sup ∧ IsClass g k ∧ (g.ext k).singletonFor = none := by
  unfold newClass at e
  dsimp only at e
  split at e
  · cases e
  · rename_i hg
    simp only [Option.some.injEq, Prod.mk.injEq] at e
    obtain ⟨rfl, rfl⟩ := e
    have a := later_new h classC false (some sup) none
    have b := later_single hg
    have nr := newInfo_new (h := h) (cls := classC) (b := false) (sup := some sup) (target := none)
    refine ⟨a.1.trans b.1, fun c id => (b.2 c id).trans (a.2 c id), rfl, ?_, ?_, ?_⟩
    · rw [b.1.sup _ (show (newInfo h classC false (some sup) none).2 < _ from Nat.lt_succ_self _)]
      simp [newInfo, superOf]
    · have := b.1.real _ nr.1
      exact ⟨this.1, this.2.trans (by rw [nr.2])⟩
    · rw [b.1.sing _ (show (newInfo h classC false (some sup) none).2 < _ from Nat.lt_succ_self _)]
      simp [newInfo, upd]

theorem later_set (h : Heap) (c id v) : Later h (setConst h c id v) := by
  refine ⟨Nat.le_refl _, fun _ ha => ⟨ha, rfl⟩, fun _ _ => rfl, fun a _ => ?_⟩
  simp only [setConst, upd]; split <;> simp_all

theorem cmd_later {n h c g} (R : Reach h) (e : Cmd.run n h c = some g) : Later h g ∧
    (c.sets = false → ∀ a id, constOf g.log a id = constOf h.log a id) := by
  cases c <;> simp only [Cmd.run] at e
  case newModule => cases e; exact ⟨(later_new _ _ _ _ _).1, fun _ => (later_new _ _ _ _ _).2⟩
  all_goals
    split at e
    case isFalse => cases e
    rename_i hc
    simp only [Bool.and_eq_true, Bool.or_eq_true, Bool.not_eq_true', realB_iff, bne_iff_ne, Option.isNone_iff_eq_none] at hc
  case newClass sup =>
    simp only [Option.map_eq_some_iff, Prod.exists, exists_and_right, exists_eq_right] at e
    obtain ⟨c, e⟩ := e
    have := later_class e
    exact ⟨this.1, fun _ => this.2.1⟩
  case newObject c =>
    cases e
    have ne : ∀ x, x < h.next → x ≠ h.next := fun x hx => Nat.ne_of_lt hx
    have ho : ∀ x, x < h.next → (newObject h c).1.obj x = h.obj x := fun x hx => by simp [newObject, Heap.alloc, upd, ne x hx]
    refine ⟨⟨Nat.le_succ _, fun a ha => ?_, fun _ _ => rfl, fun _ _ => rfl⟩, fun _ _ _ => rfl⟩
    obtain ⟨h1, i, h2, h3⟩ := ha
    exact ⟨⟨Nat.lt_succ_of_lt h1, i, by rw [ho a h1]; exact h2, h3⟩, by rw [info_of_obj (ho a h1)]⟩
  case singleton a =>
    simp only [Option.map_eq_some_iff, Prod.exists, exists_and_right, exists_eq_right] at e
    obtain ⟨c, e⟩ := e
    have := later_single e
    exact ⟨this.1, fun _ => this.2⟩
  case incl c m =>
    have g := grows_include e
    have l := (incl_good R.good hc.1.1.1 ⟨hc.1.1.2, hc.1.2⟩ hc.2 e).2
    exact ⟨⟨g.next, fun a ha => g.real ha, fun a _ => by rw [l]; rfl, fun a _ => g.sing a⟩, fun _ a id => by rw [l]; rfl⟩
  case prep c m =>
    have g := grows_prepend e
    have l := (prep_good R.good hc.1.1.1 ⟨hc.1.1.2, hc.1.2⟩ hc.2 e).2
    exact ⟨⟨g.next, fun a ha => g.real ha, fun a _ => by rw [l]; rfl, fun a _ => g.sing a⟩, fun _ a id => by rw [l]; rfl⟩
  case defm c name f =>
    cases e
    refine ⟨⟨Nat.le_refl _, fun a ha => ⟨ha, rfl⟩, fun _ _ => rfl, fun a _ => ?_⟩, fun _ _ _ => rfl⟩
    simp only [addMethod, upd]; split <;> simp_all
  case setc c id v =>
    cases e
    exact ⟨later_set _ _ _ _, fun hs => by cases hs⟩

theorem own_log {h : Heap} (I : Inv h) {c : Addr} (hc : Real h c) (id : Id) : ownConst h c id = constOf h.log c id := by
  rw [ownConst, I.ext c hc, I.cons]

theorem superclass_log {h : Heap} (I : Inv h) {n c} (hc : Real h c) (hn : h.next + 1 < n) : superclass n h c = some (superOf h.log c) := by
  obtain ⟨l, s, cl, _⟩ := I.body c hc
  obtain ⟨ch, _, sc, len, _⟩ := I.chain c hc
  have hl : l.length ≤ ch.length := by
    rcases hs : superOf h.log c with _ | t
    · rw [hs] at s; rw [s.unique sc]; exact Nat.le_refl _
    · rw [hs] at s
      obtain ⟨l', _, s', _⟩ := I.chain t (I.sup c t hs).2.1
      rw [sc.unique (s.cons_none s')]; simp
  rw [superclass]
  rcases hs : superOf h.log c with _ | t
  · rw [hs] at s
    exact superLoop_none s (fun x hx => (cl x hx).included) (by omega)
  · rw [hs] at s
    exact superLoop_spec s (fun x hx => (cl x hx).included) (I.sup c t hs).2.1.included (by omega)

theorem const_set (h : Heap) {c : Addr} {id v} (a : Addr) (i : Id) :
    constOf (setConst h c id v).log a i = if c = a ∧ id = i then some v else constOf h.log a i := rfl

/-- The invariant of a program's state. -/
structure Fit (s : Names) : Prop where
  reach : Reach s.heap
  object : IsClass s.heap objectC
  known : ∀ a p, s.name a = some p → Real s.heap a

theorem Later.isClass {h g : Heap} (l : Later h g) {a} (ha : IsClass h a) : IsClass g a :=
  ⟨(l.real a ha.1).1, (l.real a ha.1).2.trans ha.2⟩

theorem setNamed_keep {s : Names} {c id v a p} (e : s.name a = some p) : (setNamed s c id v).name a = some p := by
  simp only [setNamed]
  split
  · rename_i h; rw [h.1, h.2.2.2] at e; cases e
  · exact e

theorem setNamed_new {s : Names} {c id v a p} (e : (setNamed s c id v).name a = some p) : s.name a = some p ∨
    (a = v ∧ Real s.heap v ∧ s.heap.isSingleton v = false ∧ s.name v = none ∧
      ((c = objectC ∧ p = [id]) ∨ (c ≠ objectC ∧ ∃ q, s.name c = some q ∧ p = q ++ [id]))) := by
  simp only [setNamed] at e
  split at e
  · rename_i h
    refine .inr ⟨h.1, realB_iff.1 h.2.1, h.2.2.1, h.2.2.2, ?_⟩
    split at e
    · rename_i hc; simp only [Option.some.injEq] at e; exact .inl ⟨hc, e.symm⟩
    · rename_i hc
      rw [Option.map_eq_some_iff] at e
      obtain ⟨q, hq, e⟩ := e
      exact .inr ⟨hc, q, hq, e.symm⟩
  · exact .inl e

theorem setNamed_fit {s : Names} (F : Fit s) {c id v} (hc : Real s.heap c) : Fit (setNamed s c id v) := by
  have l := later_set s.heap c id v
  refine ⟨.setc F.reach hc, l.isClass F.object, fun a p e => (l.real a ?_).1⟩
  rcases setNamed_new e with e | ⟨rfl, h, _⟩
  · exact F.known a p e
  · exact h

theorem not_single {h : Heap} (I : Inv h) {k : Addr} (hk : Real h k) : h.isSingleton k = (h.ext k).singletonFor.isSome := by
  rw [Heap.isSingleton, I.ext k hk]

/-- What `class` and `module` do when they end well. -/
theorem define_cases {n s c id b sup s' k} (F : Fit s) (e : defineClass n s c id b sup = some (.ok (s', k))) :
    (s' = s ∧ ownConst s.heap c id = some k ∧ Real s.heap k ∧ (s.heap.info k).isModule = b ∧
      ∀ x, sup = some x → superclass n s.heap k = some (some x)) ∨
    (ownConst s.heap c id = none ∧ ∃ g, Reach g ∧ Later s.heap g ∧ (∀ a i, constOf g.log a i = constOf s.heap.log a i) ∧
      k = s.heap.next ∧ s' = setNamed { s with heap := g } c id k ∧ Real g k ∧ (g.info k).isModule = b ∧ g.isSingleton k = false ∧
      superOf g.log k = (if b then none else some (sup.getD objectC)) ∧ ∀ x, sup = some x → IsClass s.heap x ∧ b = false) := by
  have make : ∀ x, IsClass s.heap x → makeClass n s c id x = some (.ok (s', k)) →
      ∃ g, Reach g ∧ Later s.heap g ∧ (∀ a i, constOf g.log a i = constOf s.heap.log a i) ∧
      k = s.heap.next ∧ s' = setNamed { s with heap := g } c id k ∧ Real g k ∧ (g.info k).isModule = false ∧ g.isSingleton k = false ∧
      superOf g.log k = some x := by
    intro x hx e
    rw [makeClass] at e
    split at e
    · cases e
    · rename_i g k' hk
      simp only [Option.some.injEq, Except.ok.injEq, Prod.mk.injEq] at e
      obtain ⟨rfl, rfl⟩ := e
      have R := Reach.newClass F.reach hx hk
      obtain ⟨l, cs, ek, es, C, sg⟩ := later_class hk
      exact ⟨g, R, l, cs, ek, rfl, C.1, C.2, by rw [not_single R.good.toInv C.1, sg]; rfl, es⟩
  rw [defineClass.eq_def] at e
  split at e
  · rename_i v hv
    split at e
    · rename_i hr
      split at e
      · cases e
      · rename_i hm
        split at e
        · cases e
        · rename_i vs hvs
          split at e
          · cases e
          · rename_i hsup
            simp only [Option.some.injEq, Except.ok.injEq, Prod.mk.injEq] at e
            obtain ⟨rfl, rfl⟩ := e
            refine .inl ⟨rfl, hv, realB_iff.1 hr, by simpa using hm, fun x hx => ?_⟩
            subst hx
            rw [hvs]
            simp only [Option.isSome_some, Bool.true_and, bne_iff_ne, ne_eq, Decidable.not_not] at hsup
            rw [hsup]
    · cases e
  · rename_i hv
    refine .inr ⟨hv, ?_⟩
    split at e
    · rename_i hb
      subst hb
      split at e
      · cases e
      · rename_i hsup
        simp only [Option.some.injEq, Except.ok.injEq, Prod.mk.injEq] at e
        obtain ⟨rfl, rfl⟩ := e
        have R := Reach.newModule F.reach
        have l := later_new s.heap moduleC true none none
        have nr := newInfo_new (h := s.heap) (cls := moduleC) (b := true) (sup := none) (target := none)
        refine ⟨_, R, l.1, l.2, rfl, rfl, nr.1, by rw [show (newModule s.heap).2 = s.heap.next from rfl, newModule, nr.2], ?_, ?_, fun x hx => ?_⟩
        · show (newModule s.heap).1.isSingleton s.heap.next = false
          rw [not_single R.good.toInv nr.1]; simp [newModule, newInfo, upd]
        · simp only [newModule, newInfo, if_true, superOf]
          exact fresh_super F.reach.good.toInv.below (Nat.le_refl _)
        · rw [hx] at hsup; exact absurd rfl hsup
    · rename_i hb
      have hb := eq_false_of_ne_true hb
      subst hb
      split at e
      · obtain ⟨g, a1, a2, a3, a4, a5, a6, a7, a8, a9⟩ := make _ F.object e
        exact ⟨g, a1, a2, a3, a4, a5, a6, a7, a8, a9, fun x hx => by cases hx⟩
      · rename_i x
        split at e
        · rename_i hx
          simp only [Bool.and_eq_true, Bool.not_eq_true', realB_iff] at hx
          obtain ⟨g, a1, a2, a3, a4, a5, a6, a7, a8, a9⟩ := make _ hx e
          exact ⟨g, a1, a2, a3, a4, a5, a6, a7, a8, a9, fun y hy => by cases hy; exact ⟨hx, rfl⟩⟩
        · cases e

theorem run_fit {n s o s'} (F : Fit s) (e : Open.run n s o = some s') : Fit s' ∧ Later s.heap s'.heap ∧
    ∀ a p, s.name a = some p → s'.name a = some p := by
  cases o <;> simp only [Open.run] at e
  case cmd k =>
    split at e
    · cases e
    · rw [Option.map_eq_some_iff] at e
      obtain ⟨h, e, rfl⟩ := e
      have l := (cmd_later F.reach e).1
      exact ⟨⟨k.run_reach F.reach e, l.isClass F.object, fun a p ha => (l.real a (F.known a p ha)).1⟩, l, fun _ _ h => h⟩
  case set c id v =>
    split at e
    · rename_i hc
      simp only [Bool.and_eq_true, realB_iff] at hc
      cases e
      exact ⟨setNamed_fit F hc.1, later_set _ _ _ _, fun _ _ h => setNamed_keep h⟩
    · cases e
  case define c id b sup =>
    split at e
    · rename_i hc
      have hc := realB_iff.1 hc
      split at e
      · rename_i s'' k hd
        cases e
        rcases define_cases F hd with ⟨rfl, _⟩ | ⟨_, g, R, l, _, _, rfl, _⟩
        · exact ⟨F, .refl _, fun _ _ h => h⟩
        · have F' : Fit { s with heap := g } := ⟨R, l.isClass F.object, fun a p ha => (l.real a (F.known a p ha)).1⟩
          exact ⟨setNamed_fit F' (l.real c hc).1, l.trans (later_set _ _ _ _), fun _ _ h => setNamed_keep (s := { s with heap := g }) h⟩
      · cases e; exact ⟨F, .refl _, fun _ _ h => h⟩
      · cases e
      · cases e
    · cases e

theorem Opened.fit {s} (O : Opened s) : Fit s := by
  induction O with
  | start => exact ⟨.boot, ⟨⟨by decide, _, rfl, rfl⟩, rfl⟩, fun _ _ h => by cases h⟩
  | step _ e ih => exact (run_fit ih e).1

theorem After.fit {bad s s'} (F : Fit s) (A : After bad s s') : Fit s' ∧ Later s.heap s'.heap ∧ ∀ a p, s.name a = some p → s'.name a = some p := by
  induction A with
  | here => exact ⟨F, .refl _, fun _ _ h => h⟩
  | step _ _ e ih =>
    obtain ⟨F', l, k⟩ := ih
    obtain ⟨F'', l', k'⟩ := run_fit F' e
    exact ⟨F'', l.trans l', fun a p h => k' a p (k a p h)⟩

theorem const_setNamed (s : Names) {c id v} (a : Addr) (i : Id) :
    constOf (setNamed s c id v).heap.log a i = if c = a ∧ id = i then some v else constOf s.heap.log a i := rfl

/-- A constant that is there keeps its value unless the program sets it. -/
theorem run_const {n s o s' c id v} (F : Fit s) (e : Open.run n s o = some s') (hc : Real s.heap c) (hv : ownConst s.heap c id = some v)
    (hn : ¬ Sets c id s o) : ownConst s'.heap c id = some v := by
  obtain ⟨F', l, _⟩ := run_fit F e
  rw [own_log F.reach.good.toInv hc] at hv
  rw [own_log F'.reach.good.toInv (l.real c hc).1, ← hv]
  cases o <;> simp only [Open.run] at e
  case cmd k =>
    split at e
    · cases e
    · rename_i hk
      rw [Option.map_eq_some_iff] at e
      obtain ⟨h, e, rfl⟩ := e
      exact (cmd_later F.reach e).2 (eq_false_of_ne_true hk) c id
  case set c' id' v' =>
    split at e
    · cases e
      rw [const_setNamed, if_neg (show ¬(c' = c ∧ id' = id) from hn)]
    · cases e
  case define c' id' b sup =>
    split at e
    · rename_i hc'
      have hc' := realB_iff.1 hc'
      split at e
      · rename_i s'' k hd
        cases e
        rcases define_cases F hd with ⟨rfl, _⟩ | ⟨ho, g, R, l, cs, _, rfl, _⟩
        · rfl
        · rw [const_setNamed, cs]
          split
          · rename_i heq
            obtain ⟨rfl, rfl⟩ := heq
            rw [own_log F.reach.good.toInv hc', hv] at ho
            cases ho
          · rfl
      · cases e; rfl
      · cases e
      · cases e
    · cases e

/-! ## C99 -/

/-- The first `class` or `module` makes a new class or module: of that kind, with the given superclass (or `Object`), bound
to the constant, all other constants, classes and names being left as they were, and named after the constant. -/
theorem C99_new {s : Names} (O : Opened s) {n c id b sup s' k} (hc : Real s.heap c) (hfree : getScope s.heap c id = none)
    (e : defineClass n s c id b sup = some (.ok (s', k))) {m : Nat} (hm : s'.heap.next + 1 < m) :
    s.heap.next ≤ k ∧ Real s'.heap k ∧ (s'.heap.info k).isModule = b ∧
    superclass m s'.heap k = some (if b then none else some (sup.getD objectC)) ∧
    (∀ a i, Real s.heap a → getScope s'.heap a i = if a = c ∧ i = id then some k else getScope s.heap a i) ∧
    (∀ i, k ≠ c → getScope s'.heap k i = none) ∧
    s'.name k = (if c = objectC then some [id] else (s.name c).map (· ++ [id])) ∧
    (∀ a, a ≠ k → s'.name a = s.name a) := by
  have F := O.fit
  rcases define_cases F e with ⟨_, ho, _⟩ | ⟨_, g, R, l, cs, rfl, rfl, Rk, hb, sg, hsup, _⟩
  · rw [getScope] at hfree; rw [hfree] at ho; cases ho
  · have Rs : Reach (setConst g c id s.heap.next) := .setc R (l.real c hc).1
    have I := Rs.good.toInv
    have hnone : s.name s.heap.next = none := by
      rcases hn : s.name s.heap.next with _ | p
      · rfl
      · exact absurd (F.known _ _ hn).1 (Nat.lt_irrefl _)
    refine ⟨Nat.le_refl _, Rk, hb, ?_, ?_, ?_, ?_, ?_⟩
    · show superclass m (setConst g c id s.heap.next) s.heap.next = _
      rw [superclass_log (h := setConst g c id s.heap.next) I Rk hm]
      exact congrArg some hsup
    · intro a i ha
      show ownConst (setConst g c id s.heap.next) a i = _
      rw [getScope, own_log (h := setConst g c id s.heap.next) I (l.real a ha).1, own_log F.reach.good.toInv ha, const_set, cs]
      by_cases h : a = c ∧ i = id
      · rw [if_pos h, if_pos ⟨h.1.symm, h.2.symm⟩]
      · rw [if_neg h, if_neg fun h' => h ⟨h'.1.symm, h'.2.symm⟩]
    · intro i hk
      show ownConst (setConst g c id s.heap.next) s.heap.next i = _
      rw [own_log (h := setConst g c id s.heap.next) I Rk, const_set, cs, if_neg fun h' => hk h'.1.symm]
      exact fresh_const F.reach.good.toInv.below (Nat.le_refl _) i
    · simp only [setNamed]
      rw [if_pos ⟨trivial, realB_iff.2 Rk, sg, hnone⟩]
    · intro a ha
      simp only [setNamed]
      rw [if_neg fun h => ha h.1]

/-- A superclass that is no class is a TypeError, and no class is made. -/
theorem C99_superclass {s : Names} {c : Addr} {id : Id} (hfree : getScope s.heap c id = none) {x : Addr}
    (hx : ¬ (Real s.heap x ∧ (s.heap.info x).isModule = false)) (n : Nat) :
    defineClass n s c id false (some x) = some (.error .typeError) := by
  rw [getScope] at hfree
  rw [defineClass.eq_def, hfree]
  have : (s.heap.realB x && !(s.heap.info x).isModule) = false := by
    rw [Bool.eq_false_iff]
    intro q
    simp only [Bool.and_eq_true, Bool.not_eq_true', realB_iff] at q
    exact hx q
  simp [this]

/-- Later, whatever else the program did, the same `class` or `module` opens the same class or module and changes nothing, as
long as no assignment gave the constant another value; with a superclass, only if it is the one of the class; with the other
keyword, or with another superclass, it is a TypeError. -/
theorem C99_reopen {s : Names} (O : Opened s) {n c id b sup s' k} (hc : Real s.heap c)
    (e : defineClass n s c id b sup = some (.ok (s', k))) {t : Names} (A : After (Sets c id) s' t) {m : Nat} (hm : t.heap.next + 1 < m) :
    defineClass m t c id b none = some (.ok (t, k)) ∧
    (∀ x, defineClass m t c id b (some x) = some (if superclass m t.heap k = some (some x) then .ok (t, k) else .error .typeError)) ∧
    (∀ sup', defineClass m t c id (!b) sup' = some (.error .typeError)) ∧
    (∀ x, sup = some x → superclass m t.heap k = some (some x)) := by
  have F := O.fit
  have key : ∃ sp, Fit s' ∧ Real s'.heap c ∧ ownConst s'.heap c id = some k ∧ Real s'.heap k ∧ (s'.heap.info k).isModule = b ∧
      superOf s'.heap.log k = sp ∧ ∀ x, sup = some x → sp = some x := by
    rcases define_cases F e with ⟨rfl, h1, h2, h3, h4⟩ | ⟨_, g, R, l, cs, hk, rfl, Rk, hb, sg, hsup, hx⟩
    · exact ⟨_, F, hc, h1, h2, h3, rfl, fun x hx => superclass_super F.reach.good.toInv h2 (h4 x hx)⟩
    · have F' : Fit { s with heap := g } := ⟨R, l.isClass F.object, fun a p ha => (l.real a (F.known a p ha)).1⟩
      have F'' := setNamed_fit F' (c := c) (id := id) (v := k) (l.real c hc).1
      refine ⟨_, F'', (l.real c hc).1, ?_, Rk, hb, rfl, fun x h => ?_⟩
      · rw [own_log F''.reach.good.toInv (l.real c hc).1, const_setNamed, if_pos ⟨rfl, rfl⟩]
      · refine hsup.trans ?_
        rw [(hx x h).2, h]; rfl
  obtain ⟨sp, F', hc', h1, h2, h3, h4, h5⟩ := key
  have now : Fit t ∧ Later s'.heap t.heap ∧ ownConst t.heap c id = some k := by
    clear hm
    induction A with
    | here => exact ⟨F', .refl _, h1⟩
    | step _ hn e ih =>
      obtain ⟨F1, l1, o1⟩ := ih
      obtain ⟨F2, l2, _⟩ := run_fit F1 e
      exact ⟨F2, l1.trans l2, run_const F1 e (l1.real c hc').1 o1 hn⟩
  obtain ⟨Ft, l, ho⟩ := now
  obtain ⟨r, im⟩ := l.real k h2
  have hs := superclass_log Ft.reach.good.toInv r hm
  have hsp : superOf t.heap.log k = sp := (l.sup k h2.1).trans h4
  refine ⟨?_, fun x => ?_, fun sup' => ?_, fun x hx => ?_⟩
  · simp [defineClass, ho, realB_iff.2 r, im.trans h3, hs]
  · rw [defineClass.eq_def, ho]
    simp only [realB_iff.2 r, if_true, im.trans h3, bne_self_eq_false, Bool.false_eq_true, if_false, hs, Option.isSome_some, Bool.true_and,
      bne_iff_ne, ne_eq, Option.some.injEq]
    by_cases h : superOf t.heap.log k = some x
    · simp [h]
    · simp [h]
  · rw [defineClass.eq_def, ho]
    simp [realB_iff.2 r, im.trans h3]
  · rw [hs, hsp, h5 x hx]

/-- A class or module keeps the name it has, whatever the program does. -/
theorem C99_name_stays {s t : Names} (O : Opened s) (A : After (fun _ _ => False) s t) {a p} (e : s.name a = some p) : t.name a = some p :=
  (A.fit O.fit).2.2 a p e

theorem resolve_append {h : Heap} : ∀ {is c d i v}, resolve h c is = some d → Real h d → getScope h d i = some v →
    resolve h c (is ++ [i]) = some v
  | [], c, d, i, v, e, hd, e' => by cases e; simp [resolve, e', realB_iff.2 hd]
  | j :: is, c, d, i, v, e, hd, e' => by
    simp only [resolve, List.cons_append] at e ⊢
    split at e
    · rename_i hr
      rw [if_pos hr]
      split at e
      · cases e
      · exact resolve_append e hd e'
    · cases e

/-- Constants that stay keep what a path means. -/
theorem resolve_keep {h g : Heap} (l : Later h g) (k : ∀ c i v, Real h c → getScope h c i = some v → getScope g c i = some v) : ∀ {is c d},
    resolve h c is = some d → resolve g c is = some d
  | [], c, d, e => e
  | i :: is, c, d, e => by
    simp only [resolve] at e ⊢
    split at e
    · rename_i hr
      have hr := realB_iff.1 hr
      rw [if_pos (realB_iff.2 (l.real c hr).1)]
      split at e
      · cases e
      · rename_i v hv
        rw [k c i v hr hv]
        exact resolve_keep l k e
    · cases e

theorem setNamed_path {s : Names} (F : Fit s) (P : ∀ a p, s.name a = some p → p ≠ [] ∧ resolve s.heap objectC p = some a) {c id v}
    (hc : Real s.heap c) (hn : ownConst s.heap c id = none) :
    ∀ a p, (setNamed s c id v).name a = some p → p ≠ [] ∧ resolve (setNamed s c id v).heap objectC p = some a := by
  intro a p e
  have F' := setNamed_fit F (c := c) (id := id) (v := v) hc
  have l := later_set s.heap c id v
  have at' : getScope (setNamed s c id v).heap c id = some v := by
    rw [getScope, own_log F'.reach.good.toInv (l.real c hc).1, const_setNamed, if_pos ⟨rfl, rfl⟩]
  have keep : ∀ d i w, Real s.heap d → getScope s.heap d i = some w → getScope (setNamed s c id v).heap d i = some w := by
    intro d i w hd e
    rw [getScope, own_log F.reach.good.toInv hd] at e
    rw [getScope, own_log F'.reach.good.toInv (l.real d hd).1, const_setNamed]
    split
    · rename_i h
      rw [own_log F.reach.good.toInv hc, h.1, h.2, e] at hn
      cases hn
    · exact e
  rcases setNamed_new e with e | ⟨rfl, _, _, _, h⟩
  · exact ⟨(P a p e).1, resolve_keep l keep (P a p e).2⟩
  · rcases h with ⟨rfl, rfl⟩ | ⟨_, q, hq, rfl⟩
    · refine ⟨by simp, ?_⟩
      simp [resolve, at', realB_iff.2 F'.object.1]
    · exact ⟨by simp, resolve_append (resolve_keep l keep (P c q hq).2) (l.real c hc).1 at'⟩

theorem After.path {s t : Names} (F : Fit s) (P : ∀ a p, s.name a = some p → p ≠ [] ∧ resolve s.heap objectC p = some a)
    (A : After Overwrites s t) : ∀ a p, t.name a = some p → p ≠ [] ∧ resolve t.heap objectC p = some a := by
  induction A with
  | here => exact P
  | step A hn e ih =>
    rename_i t n o t'
    have Ft := (A.fit F).1
    have keepOf : ∀ {g : Heap}, Reach g → Later t.heap g → (∀ a i, constOf g.log a i = constOf t.heap.log a i) →
        ∀ a p, t.name a = some p → p ≠ [] ∧ resolve g objectC p = some a := by
      intro g R l cs a p ha
      refine ⟨(ih a p ha).1, resolve_keep l (fun c i v hc hv => ?_) (ih a p ha).2⟩
      rw [getScope, own_log Ft.reach.good.toInv hc] at hv
      rw [getScope, own_log R.good.toInv (l.real c hc).1, cs, hv]
    cases o <;> simp only [Open.run] at e
    case cmd k =>
      split at e
      · cases e
      · rename_i hk
        rw [Option.map_eq_some_iff] at e
        obtain ⟨h, e, rfl⟩ := e
        have l := cmd_later Ft.reach e
        exact keepOf (k.run_reach Ft.reach e) l.1 (l.2 (eq_false_of_ne_true hk))
    case set c id v =>
      split at e
      · rename_i hc
        simp only [Bool.and_eq_true, realB_iff] at hc
        cases e
        refine setNamed_path Ft ih hc.1 ?_
        rcases ho : ownConst t.heap c id with _ | w
        · rfl
        · exact absurd (by simp [Overwrites, getScope, ho]) hn
      · cases e
    case define c id b sup =>
      split at e
      · rename_i hc
        have hc := realB_iff.1 hc
        split at e
        · rename_i s'' k hd
          cases e
          rcases define_cases Ft hd with ⟨rfl, _⟩ | ⟨ho, g, R, l, cs, _, rfl, _⟩
          · exact ih
          · have F' : Fit { t with heap := g } := ⟨R, l.isClass Ft.object, fun a p ha => (l.real a (Ft.known a p ha)).1⟩
            refine setNamed_path F' (keepOf R l cs) (l.real c hc).1 ?_
            rw [own_log Ft.reach.good.toInv hc] at ho
            rw [own_log R.good.toInv (l.real c hc).1, cs, ho]
        · cases e; exact ih
        · cases e
        · cases e
      · cases e

/-- The name of a class or module is a path to it: as long as the program gives no constant a second value, reading
`A::B::C` finds the class or module whose name that is. -/
theorem C99_name_path {s : Names} (A : After Overwrites {} s) {a p} (e : s.name a = some p) :
    p ≠ [] ∧ resolve s.heap objectC p = some a :=
  A.path Opened.start.fit (fun _ _ h => by cases h) a p e

/-- So two classes or modules never have the same name. -/
theorem C99_name_unique {s : Names} (A : After Overwrites {} s) {a b p} (ea : s.name a = some p) (eb : s.name b = some p) : a = b :=
  Option.some.inj ((C99_name_path A ea).2.symm.trans (C99_name_path A eb).2)

/-- Runs a program. -/
def openAll (n : Nat) : Names → List Open → Option Names
  | s, [] => some s
  | s, o :: os => match o.run n s with
    | none => none
    | some t => openAll n t os

theorem openAll_opened {n} : ∀ {os s t}, Opened s → openAll n s os = some t → Opened t
  | [], _, _, O, e => by cases e; exact O
  | o :: os, s, t, O, e => by
    rw [openAll] at e
    split at e
    · cases e
    · rename_i u hu
      exact openAll_opened (.step O hu) e

def opens (os : List Open) (p : Names → Bool) : Bool :=
  match openAll 60 {} os with
  | some s => p s
  | none => false

theorem opens_opened {os p} (e : opens os p = true) : ∃ s, Opened s ∧ p s = true := by
  unfold opens at e
  split at e
  · rename_i s hs; exact ⟨s, openAll_opened .start hs, e⟩
  · cases e

def Overwrites.test (s : Names) : Open → Bool
  | .set c id _ => (getScope s.heap c id).isSome
  | _ => false

theorem overwrites_test {s o} (h : Overwrites.test s o = false) : ¬ Overwrites s o := by
  cases o <;> simp_all [Overwrites, Overwrites.test]

/-- Runs a program that must not give a constant a second value. -/
def onceAll (n : Nat) : Names → List Open → Option Names
  | s, [] => some s
  | s, o :: os => if Overwrites.test s o then none else match o.run n s with
    | none => none
    | some t => onceAll n t os

theorem onceAll_after {n s} : ∀ {os t u}, After Overwrites s t → onceAll n t os = some u → After Overwrites s u
  | [], _, _, O, e => by cases e; exact O
  | o :: os, t, u, O, e => by
    rw [onceAll] at e
    split at e
    · cases e
    · rename_i hn
      split at e
      · cases e
      · rename_i v hv
        exact onceAll_after (.step O (overwrites_test (eq_false_of_ne_true hn)) hv) e

/-- `Object`, `module 10; class 20; end; end`, `class 30 < 10::20`, `X = Class.new`, and `30` and `10` opened again, with a
`TypeError` on the way. -/
def openSample : List Open :=
  [.set 1 1 1, .define 1 10 true .absent, .define 5 20 false .absent, .define 1 30 false (.obj 6), .cmd (.newClass 1), .set 1 40 11,
   .define 1 30 false .absent, .define 1 30 false (.obj 6), .define 1 30 true .absent, .cmd (.incl 9 5), .define 1 10 true .absent]

/-- The hypotheses can be met. -/
example : opens openSample (fun s => decide (s.name 5 = some [10]) && decide (s.name 6 = some [10, 20]) && decide (s.name 9 = some [30])
    && decide (s.name 11 = some [40]) && s.heap.realB 5 && decide (getScope s.heap 1 30 = some 9) && decide (getScope s.heap 5 99 = none)
    && decide (resolve s.heap 1 [10, 20] = some 6) && decide (superclass 60 s.heap 9 = some (some 6))) = true := by decide +kernel

example : ∃ s, After Overwrites {} s ∧ s.name 6 = some [10, 20] := by
  have : (onceAll 60 {} openSample).any (fun s => decide (s.name 6 = some [10, 20])) = true := by decide +kernel
  rcases h : onceAll 60 {} openSample with _ | s
  · rw [h] at this; cases this
  · rw [h] at this
    exact ⟨s, onceAll_after .here h, by simpa using this⟩

/-- `class C < Kernel`, where `Kernel` stands for a new module at address 5. -/
example : ∃ s, Opened s ∧ getScope s.heap objectC 10 = none ∧ Real s.heap 5 ∧ (s.heap.info 5).isModule = true := by
  obtain ⟨s, O, e⟩ := opens_opened (os := [.cmd .newModule])
    (p := fun s => decide (getScope s.heap objectC 10 = none) && s.heap.realB 5 && (s.heap.info 5).isModule) (by decide +kernel)
  simp only [Bool.and_eq_true, decide_eq_true_eq, realB_iff] at e
  exact ⟨s, O, e.1.1, e.1.2, e.2⟩

/-- `X = Object.new; class X; end` stops the interpreter; Ruby raises a TypeError. -/
theorem C99_value_fails : ∃ s, Opened s ∧ defineClass 60 s objectC 10 false none = some (.error .panic) := by
  obtain ⟨s, O, e⟩ := opens_opened (os := [.cmd (.newObject 1), .set 1 10 5])
    (p := fun s => decide (ownConst s.heap 1 10 = some 5) && !s.heap.realB 5) (by decide +kernel)
  simp only [Bool.and_eq_true, decide_eq_true_eq, Bool.not_eq_true'] at e
  refine ⟨s, O, ?_⟩
  rw [defineClass.eq_def, show ownConst s.heap objectC 10 = some 5 from e.1]
  simp [e.2]

/-- `class A < nil; end` makes a subclass of `Object`; Ruby raises a TypeError. -/
theorem C99_nil_fails : ∃ t k, defineClass 60 {} objectC 10 false Sup.nil.value = some (.ok (t, k)) ∧
    superclass 60 t.heap k = some (some objectC) := by
  have h : (match defineClass 60 {} objectC 10 false Sup.nil.value with
      | some (.ok (t, k)) => decide (superclass 60 t.heap k = some (some objectC))
      | _ => false) = true := by decide +kernel
  split at h
  · rename_i t k hp; exact ⟨t, k, hp, by simpa using h⟩
  · cases h

/-- `class A < x.singleton_class; end` makes a subclass of a singleton class; Ruby raises a TypeError. -/
theorem C99_singleton_fails : ∃ s, Opened s ∧ (∃ t k, defineClass 60 s objectC 10 false (some 6) = some (.ok (t, k))) ∧
    s.heap.isSingleton 6 = true := by
  obtain ⟨s, O, e⟩ := opens_opened (os := [.cmd (.newObject 1), .cmd (.singleton 5)])
    (p := fun s => s.heap.isSingleton 6 && (match defineClass 60 s objectC 10 false (some 6) with
      | some (.ok _) => true
      | _ => false)) (by decide +kernel)
  simp only [Bool.and_eq_true] at e
  refine ⟨s, O, ?_, e.1⟩
  have h := e.2
  split at h
  · rename_i p hp; exact ⟨p.1, p.2, hp⟩
  · cases h

/-- A class that is bound to a constant of a class without a name has no name, and gets none when that class gets its own:
`C = Class.new; c::D = …` before `X = c`.  Ruby names it `X::D` then. -/
theorem C99_anonymous_fails : ∃ s, Opened s ∧ s.name 5 = some [10] ∧ resolve s.heap objectC [10, 20] = some 8 ∧ s.name 8 = none := by
  obtain ⟨s, O, e⟩ := opens_opened (os := [.cmd (.newClass 1), .cmd (.newClass 1), .set 5 20 8, .set 1 10 5])
    (p := fun s => decide (s.name 5 = some [10]) && decide (resolve s.heap objectC [10, 20] = some 8) && decide (s.name 8 = none))
    (by decide +kernel)
  simp only [Bool.and_eq_true, decide_eq_true_eq] at e
  exact ⟨s, O, e.1.1, e.1.2, e.2⟩

end Verif.Class
