import Verif.Class.Reflect
import Verif.Class.Cache
import Verif.Class.Const
/-! # C96: methods of one object

`def x.m`, what it does to calls on other objects, and what `dup` does to it.  The classes, singleton classes and the
search for a method are those of `Verif.Class.Model`. -/
namespace Verif.Class

/-! ## Model -/

/-- `def x.name … end` (`Inst::DEF_SMETHOD`, vm/executor/opt_core.rs:538-548, and `VM::define_singleton_method`,
vm/executor.rs:805-815) outside `module_function`.  `none`: a loop did not end within the fuel. -/
def defOn (n : Nat) (h : Heap) (x : Addr) (name : Id) (f : Fn) : Option Heap :=
  match getSingleton n h x with
  | none => none
  | some (g, s) => some (addMethod g s name f)

/-- A call `x.name`: the method it runs and where it was found (value/value.rs:1224-1262, value/class.rs:185-212).  The
search starts in the class field of the object. -/
def callOn (n : Nat) (h : Heap) (x : Addr) (name : Id) : Option (Option (Fn × Addr)) :=
  searchMethod n h (h.obj x).cls name

/-- `x.dup` (`Object#dup`, builtin/object.rs:92-96; `RValue::shallow_dup`, value/rvalue.rs:560-593): the class field is
copied as it is, and the information of a class or module is cloned with its pointer to the shared tables
(value/class.rs:308-312).  Simplified: variables are left out (see `Verif.Ivar`). -/
def dupObj (h : Heap) (x : Addr) : Heap × Addr := h.alloc { cls := (h.obj x).cls, info := (h.obj x).info }

/-! ## Specification -/

/-- Something the program can name: an object, or a class or module that is not one of the copies `include` makes. -/
def Named (h : Heap) (x : Addr) : Prop := x < h.next ∧ ∀ i, (h.obj x).info = some i → i.included = false

/-- Not a class: an ordinary object or a module. -/
def NoClass (h : Heap) (x : Addr) : Prop := ∀ i, (h.obj x).info = some i → i.isModule = true

/-- What a usual program does: singleton classes have no subclasses and no instances (Ruby forbids both). -/
def Proper (h : Heap) : Cmd → Prop
  | .newClass c => h.isSingleton c = false
  | .newObject c => h.isSingleton c = false
  | .singleton a => a < h.next
  | _ => True

/-- The heaps of usual programs, whatever they do and for however long. -/
inductive Usual : Heap → Prop
  | boot : Usual boot
  | step {h n c g} : Usual h → Proper h c → Cmd.run n h c = some g → Usual g

/-! ## Helpers -/

theorem Usual.reach {h} (u : Usual h) : Reach h := by
  induction u with
  | boot => exact .boot
  | step _ _ e ih => exact Cmd.run_reach ih e

/-- Singleton classes serve the one object they were made for, and only classes pass theirs on. -/
structure Solo (h : Heap) : Prop where
  one : ∀ y, Named h y → ∀ t, (h.ext (h.obj y).cls).singletonFor = some t → t = y
  sup : ∀ c s, superOf h.log c = some s → ∀ t, (h.ext s).singletonFor = some t → IsClass h t
  cls : (h.ext classC).singletonFor = none
  modu : (h.ext moduleC).singletonFor = none

theorem Real.named {h x} (r : Real h x) : Named h x := by
  obtain ⟨a, i, b, c⟩ := r
  exact ⟨a, fun j hj => by rw [b] at hj; cases hj; exact c⟩

theorem isSingleton_ext {h : Heap} (I : Inv h) {c} (hc : Real h c) :
    h.isSingleton c = (h.ext c).singletonFor.isSome := by rw [Heap.isSingleton, I.ext c hc]

theorem not_singleton {h : Heap} (I : Inv h) {c} (hc : Real h c) (e : h.isSingleton c = false) {t} :
    (h.ext c).singletonFor ≠ some t := fun e' => by
  rw [isSingleton_ext I hc, e'] at e; cases e

theorem solo_boot : Solo boot := by
  refine ⟨?_, ?_, rfl, rfl⟩
  · rintro y ⟨hy, _⟩ t e
    have : y = 0 ∨ y = 1 ∨ y = 2 ∨ y = 3 ∨ y = 4 := by
      have : y < 5 := hy
      omega
    rcases this with rfl | rfl | rfl | rfl | rfl <;> simp [boot] at e
    exact e.symm
  · intro c s hs t e
    simp only [boot, superOf] at hs
    simp only [boot] at e
    split at e
    · rename_i h4
      cases e
      exact boot_class (by decide)
    · cases e

theorem solo_new {h : Heap} (G : Good h) (S : Solo h) {cls b sup target} (hc : (h.ext cls).singletonFor = none) (hcn : cls < h.next)
    (hsr : ∀ s, sup = some s → Real h s) (hst : ∀ s, sup = some s → ∀ t, (h.ext s).singletonFor = some t → IsClass h t)
    (hb : b = true → sup = none) : Solo (newInfo h cls b sup target).1 := by
  have old : ∀ c, c < h.next → ((newInfo h cls b sup target).1.ext c).singletonFor = (h.ext c).singletonFor := fun c hc => by
    simp [newInfo, upd, Nat.ne_of_lt hc]
  refine ⟨fun y hy t e => ?_, fun c s hs t e => ?_, ?_, ?_⟩
  · by_cases ey : y = h.next
    · subst ey
      have : ((newInfo h cls b sup target).1.obj h.next).cls = cls := by simp [newInfo, upd]
      rw [this, old _ hcn, hc] at e
      cases e
    · have ho : (newInfo h cls b sup target).1.obj y = h.obj y := by simp [newInfo, upd, ey]
      obtain ⟨hy1, hy2⟩ := hy
      have hy1 : y < h.next + 1 := hy1
      rw [ho] at hy2 e
      rw [old _ (G.cls y).1.1] at e
      exact S.one y ⟨by omega, hy2⟩ t e
  · by_cases ec : c = h.next
    · subst ec
      have h1 : superOf (newInfo h cls b sup target).1.log h.next = sup := by
        simp only [newInfo]
        cases b
        · simp [superOf]
        · rw [hb rfl]; simp only [if_true, superOf]; exact fresh_super G.toInv.below (Nat.le_refl _)
      rw [h1] at hs
      rw [old _ (hsr s hs).1] at e
      exact (hst s hs t e).newInfo
    · have h1 : superOf h.log c = some s := by
        rw [← hs]
        simp only [newInfo]
        cases b <;> simp [superOf, Ne.symm ec]
      rw [old _ (G.toInv.sup c s h1).2.1.1] at e
      exact (S.sup c s h1 t e).newInfo
  · rw [old _ G.top.1.1]; exact S.cls
  · rw [old _ G.modu.1.1]; exact S.modu

theorem solo_setCls {h : Heap} (S : Solo h) {a c : Addr} (hc : (h.ext c).singletonFor = some a) : Solo (h.setCls a c) := by
  refine ⟨fun y hy t e => ?_, fun d s hs t e => ?_, S.cls, S.modu⟩
  · by_cases ey : y = a
    · subst ey
      have : ((h.setCls y c).obj y).cls = c := by simp [Heap.setCls, upd]
      rw [this] at e
      have e : (h.ext c).singletonFor = some t := e
      rw [hc] at e
      exact (Option.some.inj e).symm
    · have ho : (h.setCls a c).obj y = h.obj y := by simp [Heap.setCls, upd, ey]
      obtain ⟨hy1, hy2⟩ := hy
      rw [ho] at hy2 e
      exact S.one y ⟨hy1, hy2⟩ t e
  · have := S.sup d s hs t e
    exact ⟨(setCls_real _ _ _ _).2 this.1, by rw [setCls_info]; exact this.2⟩

theorem solo_single {h : Heap} (G : Good h) (S : Solo h) (a : Addr) {sup : Option Addr} (hsr : ∀ s, sup = some s → Real h s)
    (hst : ∀ s, sup = some s → ∀ t, (h.ext s).singletonFor = some t → IsClass h t) :
    Solo ((newInfo h classC false sup (some a)).1.setCls a (newInfo h classC false sup (some a)).2) :=
  solo_setCls (solo_new G S S.cls G.top.1.1 hsr hst (fun e => by cases e)) (by simp [newInfo, upd])

/-- The singleton class is the class field afterwards. -/
theorem getSingleton_cls {n h a g s} (e : getSingleton n h a = some (g, s)) : (g.obj a).cls = s := by
  cases n with
  | zero => cases e
  | succ n =>
    rw [getSingleton] at e
    simp only at e
    split at e
    · simp only [Option.some.injEq, Prod.mk.injEq] at e
      obtain ⟨rfl, rfl⟩ := e
      rfl
    · split at e
      · split at e
        · simp only [Option.some.injEq, Prod.mk.injEq] at e
          obtain ⟨rfl, rfl⟩ := e
          simp [Heap.setCls, upd]
        · split at e
          · cases e
          · simp only [Option.some.injEq, Prod.mk.injEq] at e
            obtain ⟨rfl, rfl⟩ := e
            simp [Heap.setCls, upd]
          · split at e
            · cases e
            · simp only [Option.some.injEq, Prod.mk.injEq] at e
              obtain ⟨rfl, rfl⟩ := e
              simp [Heap.setCls, upd]
      · simp only [Option.some.injEq, Prod.mk.injEq] at e
        obtain ⟨rfl, rfl⟩ := e
        simp [Heap.setCls, upd]

theorem getSingleton_solo : ∀ {n h a g s}, Good h → Solo h → Named h a → getSingleton n h a = some (g, s) → Solo g
  | n + 1, h, a, g, s, G, S, ha, e => by
    have har : ∀ i, (h.obj a).info = some i → Real h a := fun i hi => ⟨ha.1, i, hi, ha.2 i hi⟩
    rw [getSingleton] at e
    simp only at e
    split at e
    · simp only [Option.some.injEq, Prod.mk.injEq] at e
      obtain ⟨rfl, rfl⟩ := e
      exact S
    · rename_i hns
      have hns : h.isSingleton (h.obj a).cls = false := by simpa using hns
      have own : Solo ((newInfo h classC false (some (h.obj a).cls) (some a)).1.setCls a
          (newInfo h classC false (some (h.obj a).cls) (some a)).2) :=
        solo_single G S a (fun s hs => by cases hs; exact (G.cls a).1)
          (fun s hs t e => by cases hs; exact absurd e (not_singleton G.toInv (G.cls a).1 hns))
      split at e
      · rename_i i hi
        split at e
        · simp only [Option.some.injEq, Prod.mk.injEq] at e
          obtain ⟨rfl, rfl⟩ := e
          exact own
        · split at e
          · cases e
          · simp only [Option.some.injEq, Prod.mk.injEq] at e
            obtain ⟨rfl, rfl⟩ := e
            exact solo_single G S a (fun s hs => by cases hs) (fun s hs => by cases hs)
          · rename_i sup hsup
            split at e
            · cases e
            · rename_i h' ss hg
              simp only [Option.some.injEq, Prod.mk.injEq] at e
              obtain ⟨rfl, rfl⟩ := e
              have hsc := superclass_class G.toInv (har i hi) hsup
              obtain ⟨g1, c1, mono⟩ := getSingleton_good G (fun _ _ => hsc.1) hg
              have S1 := getSingleton_solo G S hsc.1.named hg
              refine solo_single g1 S1 a (fun s hs => by cases hs; exact c1.1) (fun s hs t e => ?_)
              cases hs
              have hm := mono _ hsc
              have := S1.one sup hm.1.named t (by rw [getSingleton_cls hg]; exact e)
              subst this
              exact hm
      · simp only [Option.some.injEq, Prod.mk.injEq] at e
        obtain ⟨rfl, rfl⟩ := e
        exact own

/-- Everything made on the way is a copy. -/
def NewCopies (h g : Heap) : Prop := ∀ x, h.next ≤ x → x < g.next → ∃ i, (g.obj x).info = some i ∧ i.included = true

theorem NewCopies.refl (h : Heap) : NewCopies h h := fun x a b => absurd b (by omega)

theorem NewCopies.trans {h g k : Heap} (a : NewCopies h g) (b : NewCopies g k) (r : Grows g k) : NewCopies h k := fun x h1 h2 => by
  by_cases e : x < g.next
  · obtain ⟨i, e1, e2⟩ := a x h1 e
    obtain ⟨u, p, e3⟩ := (r.keep x e).2 i e1
    exact ⟨_, e3, e2⟩
  · exact b x (by omega) h2

theorem copies_gen (h : Heap) (m o : Addr) : NewCopies h (generateIncludedFrom h m o).1 := fun x a b => by
  have b : x < h.next + 1 := b
  have : x = h.next := by omega
  subst this
  exact ⟨{ h.info m with included := true }, by simp [generateIncludedFrom, Heap.alloc, upd], rfl⟩

theorem copies_same {h g : Heap} (e : g.next = h.next) : NewCopies h g := fun x a b => absurd b (by omega)

theorem copies_loop : ∀ {n h m i g last}, includeLoop n h m i = some (g, last) → NewCopies h g
  | n + 1, h, m, i, g, last, e => by
    rw [includeLoop] at e
    rcases hu : upper n h m with _ | _ | y
    · simp [hu] at e
    · rw [hu] at e; simp at e; obtain ⟨rfl, _⟩ := e; exact .refl _
    · rw [hu] at e
      have h1 : NewCopies h ((generateIncluded h y).1.setUpper i (some (generateIncluded h y).2)) :=
        (copies_gen h y (realModule h y)).trans (copies_same rfl) (grows_setUpper _ _ _)
      exact h1.trans (copies_loop e) (grows_loop e)

theorem copies_include {n h c m g} (e : appendInclude n h c m = some g) : NewCopies h g := by
  unfold appendInclude at e
  have e : (match includeLoop n ((generateIncluded h m).1.setUpper c (some h.next)) m h.next with
      | none => none
      | some (h', imodule) => some ((h'.setUpper imodule (h.info c).upper).record (.incl c m))) = some g := e
  rcases hl : includeLoop n ((generateIncluded h m).1.setUpper c (some h.next)) m h.next with _ | ⟨k, last⟩
  · rw [hl] at e; simp at e
  · rw [hl] at e; simp only [Option.some.injEq] at e; subst e
    have h0 : NewCopies h ((generateIncluded h m).1.setUpper c (some h.next)) :=
      (copies_gen h m (realModule h m)).trans (copies_same rfl) (grows_setUpper _ _ _)
    have h1 : NewCopies h k := h0.trans (copies_loop hl) (grows_loop hl)
    exact h1.trans (copies_same rfl) ((grows_setUpper k last (h.info c).upper).record _)

theorem copies_prepend {n h c m g} (e : appendPrepend n h c m = some g) : NewCopies h g := by
  unfold appendPrepend at e
  have e : (match includeLoop n ((generateIncluded h m).1.setUpper c (some h.next)) m h.next with
        | none => none
        | some (h', imodule) => if !(h'.info c).prepended then
            some ((((((generateIncludedFrom h' c c).1.setUpper (generateIncludedFrom h' c c).2 (h.info c).upper).setUpper imodule
              (some (generateIncludedFrom h' c c).2)).setInfo c { (((generateIncludedFrom h' c c).1.setUpper (generateIncludedFrom h' c c).2 (h.info c).upper).setUpper imodule
              (some (generateIncludedFrom h' c c).2)).info c with prepended := true })).record (.prep c m))
          else some ((h'.setUpper imodule (h.info c).upper).record (.prep c m))) = some g := e
  rcases hl : includeLoop n ((generateIncluded h m).1.setUpper c (some h.next)) m h.next with _ | ⟨k, last⟩
  · rw [hl] at e; simp at e
  · rw [hl] at e; simp only at e
    have h0 : NewCopies h ((generateIncluded h m).1.setUpper c (some h.next)) :=
      (copies_gen h m (realModule h m)).trans (copies_same rfl) (grows_setUpper _ _ _)
    have h1 : NewCopies h k := h0.trans (copies_loop hl) (grows_loop hl)
    split at e
    · simp only [Option.some.injEq] at e; subst e
      exact (h1.trans (copies_gen k c c) (grows_gen k c c)).trans (copies_same rfl)
        (((grows_setUpper _ _ _).trans (grows_setUpper _ _ _)).trans (grows_setInfo _ c _ true) |>.record _)
    · simp only [Option.some.injEq] at e; subst e
      exact h1.trans (copies_same rfl) ((grows_setUpper k last (h.info c).upper).record _)

theorem solo_grows {h g : Heap} (S : Solo h) (r : Grows h g) (nc : NewCopies h g) (hl : ∀ c, superOf g.log c = superOf h.log c) :
    Solo g := by
  refine ⟨fun y hy t e => ?_, fun c s hs t e => ?_, by rw [r.sing]; exact S.cls, by rw [r.sing]; exact S.modu⟩
  · by_cases hlt : y < h.next
    · rw [(r.keep y hlt).1, r.sing] at e
      refine S.one y ⟨hlt, fun i hi => ?_⟩ t e
      obtain ⟨u, p, e'⟩ := (r.keep y hlt).2 i hi
      have := hy.2 _ e'
      exact this
    · obtain ⟨i, e1, e2⟩ := nc y (by omega) hy.1
      rw [hy.2 i e1] at e2
      cases e2
  · rw [hl] at hs
    rw [r.sing] at e
    exact r.isClass (S.sup c s hs t e)

theorem solo_same {h g : Heap} (S : Solo h) (hn : g.next = h.next) (ho : g.obj = h.obj)
    (he : ∀ a, (g.ext a).singletonFor = (h.ext a).singletonFor) (hl : ∀ c, superOf g.log c = superOf h.log c) : Solo g := by
  refine ⟨fun y hy t e => ?_, fun c s hs t e => ?_, by rw [he]; exact S.cls, by rw [he]; exact S.modu⟩
  · rw [ho, he] at e
    exact S.one y ⟨by rw [← hn]; exact hy.1, by rw [← ho]; exact hy.2⟩ t e
  · rw [hl] at hs
    rw [he] at e
    obtain ⟨⟨a, i, b, c⟩, d⟩ := S.sup c s hs t e
    exact ⟨⟨by rw [hn]; exact a, i, by rw [ho]; exact b, c⟩, by rw [Heap.info, ho]; exact d⟩

theorem Usual.solo {h} (u : Usual h) : Solo h := by
  induction u with
  | boot => exact solo_boot
  | @step h n c g u hp e S =>
    have G := u.reach.good
    cases c <;> simp only [Cmd.run] at e
    case newModule =>
      cases e
      exact solo_new G S S.modu G.modu.1.1 (fun s hs => by cases hs) (fun s hs => by cases hs) (fun _ => rfl)
    all_goals
      split at e
      case isFalse => cases e
      rename_i hc
      simp only [Bool.and_eq_true, Bool.or_eq_true, Bool.not_eq_true', realB_iff, bne_iff_ne, Option.isNone_iff_eq_none] at hc
    case step.newClass.isTrue sup =>
      simp only [Option.map_eq_some_iff, Prod.exists, exists_and_right, exists_eq_right] at e
      obtain ⟨c, e⟩ := e
      unfold newClass at e
      dsimp only at e
      split at e
      · cases e
      · rename_i hg
        simp only [Option.some.injEq, Prod.mk.injEq] at e
        obtain ⟨rfl, _⟩ := e
        have g1 := newInfo_good G (cls := classC) (b := false) (sup := some sup) (target := none) G.top
          (fun s hs' => by cases hs'; exact hc) (fun e => by cases e)
        have s1 : Solo (newInfo h classC false (some sup) none).1 := solo_new G S S.cls G.top.1.1
          (fun s hs => by cases hs; exact hc.1)
          (fun s hs t e => by cases hs; exact absurd e (not_singleton G.toInv hc.1 hp)) (fun e => by cases e)
        exact getSingleton_solo g1 s1 newInfo_new.1.named hg
    case step.newObject.isTrue c =>
      cases e
      refine ⟨fun y hy t e => ?_, fun d s hs t e => ?_, S.cls, S.modu⟩
      · by_cases ey : y = h.next
        · subst ey
          have : ((newObject h c).1.obj h.next).cls = c := by simp [newObject, Heap.alloc, upd]
          rw [this] at e
          exact absurd e (not_singleton G.toInv hc.1 hp)
        · have ho : (newObject h c).1.obj y = h.obj y := by simp [newObject, Heap.alloc, upd, ey]
          obtain ⟨hy1, hy2⟩ := hy
          have hy1 : y < h.next + 1 := hy1
          rw [ho] at hy2 e
          exact S.one y ⟨by omega, hy2⟩ t e
      · obtain ⟨⟨a, i, b, c'⟩, d'⟩ := S.sup d s hs t e
        have ho : (newObject h c).1.obj t = h.obj t := by simp [newObject, Heap.alloc, upd]; omega
        exact ⟨⟨Nat.lt_succ_of_lt a, i, by rw [ho]; exact b, c'⟩, by rw [info_of_obj ho]; exact d'⟩
    case step.singleton.isTrue a =>
      simp only [Option.map_eq_some_iff, Prod.exists, exists_and_right, exists_eq_right] at e
      obtain ⟨c, e⟩ := e
      refine getSingleton_solo G S ⟨hp, fun i hi => ?_⟩ e
      rcases hc with hc | hc
      · exact hc.named.2 i hi
      · rw [hc] at hi; cases hi
    case step.incl.isTrue c m =>
      refine solo_grows S (grows_include e) (copies_include e) fun x => ?_
      rw [(incl_good G hc.1.1.1 ⟨hc.1.1.2, hc.1.2⟩ hc.2 e).2]; rfl
    case step.prep.isTrue c m =>
      refine solo_grows S (grows_prepend e) (copies_prepend e) fun x => ?_
      rw [(prep_good G hc.1.1.1 ⟨hc.1.1.2, hc.1.2⟩ hc.2 e).2]; rfl
    case step.defm.isTrue c name f =>
      cases e
      exact solo_same S rfl rfl (fun a => by simp only [addMethod, upd]; split <;> simp_all) (fun _ => rfl)
    case step.setc.isTrue c name v =>
      cases e
      exact solo_same S rfl rfl (fun a => by simp only [setConst, upd]; split <;> simp_all) (fun _ => rfl)

theorem mem_between_self : ∀ {es c t}, t ∈ between es c → (∃ d, Event.incl d t ∈ es ∨ Event.prep d t ∈ es) ∨ t = c
  | .incl d m :: es, c, t, h => by
    have lift : (∃ d, Event.incl d t ∈ es ∨ Event.prep d t ∈ es) →
        (∃ d', Event.incl d' t ∈ Event.incl d m :: es ∨ Event.prep d' t ∈ Event.incl d m :: es) := by
      rintro ⟨e, h⟩
      exact ⟨e, by rcases h with h | h <;> simp [h]⟩
    rw [between] at h
    split at h
    · rcases List.mem_append.1 h with h | h
      · rcases List.mem_append.1 h with h | h
        · split at h
          · cases h
          · exact .inl ⟨d, .inl (by simp at h; simp [h])⟩
        · rcases mem_between_self h with h | rfl
          · exact .inl (lift h)
          · exact .inl ⟨d, .inl (by simp)⟩
      · exact (mem_between_self h).imp lift id
    · exact (mem_between_self h).imp lift id
  | .prep d m :: es, c, t, h => by
    have lift : (∃ d, Event.incl d t ∈ es ∨ Event.prep d t ∈ es) →
        (∃ d', Event.incl d' t ∈ Event.prep d m :: es ∨ Event.prep d' t ∈ Event.prep d m :: es) := by
      rintro ⟨e, h⟩
      exact ⟨e, by rcases h with h | h <;> simp [h]⟩
    rw [between] at h
    split at h
    · rename_i hd
      rcases List.mem_append.1 h with h | h
      · rcases List.mem_append.1 h with h | h
        · split at h
          · cases h
          · exact .inl ⟨d, .inr (by simp at h; simp [h])⟩
        · rcases mem_between_self h with h | rfl
          · exact .inl (lift h)
          · exact .inl ⟨d, .inr (by simp)⟩
      · split at h
        · exact (mem_between_self h).imp lift id
        · rcases List.mem_cons.1 h with h | h
          · exact .inr h
          · exact (mem_between_self h).imp lift id
    · exact (mem_between_self h).imp lift id
  | .cls _ _ :: es, c, t, h | .mod _ :: es, c, t, h | .defm _ _ _ :: es, c, t, h | .setc _ _ _ :: es, c, t, h => by
    rcases mem_between_self (es := es) (c := c) h with ⟨e, h⟩ | h
    · exact .inl ⟨e, by rcases h with h | h <;> simp [h]⟩
    · exact .inr h

/-- A walk meets a class that is not a module only by starting there or by superclasses. -/
theorem mem_walk {es c w t} (W : Walk es c w) (ht : t ∈ w) (hm : ∀ d, Event.incl d t ∉ es ∧ Event.prep d t ∉ es)
    (hs : ∀ d, superOf es d ≠ some t) : t = c := by
  have bet : ∀ {d}, t ∈ between es d → t = d := fun h => by
    rcases mem_between_self h with ⟨d', h | h⟩ | h
    · exact absurd h (hm d').1
    · exact absurd h (hm d').2
    · exact h
  induction W with
  | top _ => exact bet ht
  | @sub c s l hsup _ ih =>
    rcases List.mem_append.1 ht with h | h
    · exact bet h
    · rcases List.mem_append.1 h with h | h
      · split at h
        · cases h
        · simp only [List.mem_singleton] at h
          subst h
          exact absurd hsup (hs c)
      · have := ih h
        subst this
        exact absurd hsup (hs c)

/-- The singleton class of something that is not a class is met by no search that starts elsewhere. -/
theorem apart {h : Heap} (u : Usual h) {x c s : Addr} (hx : NoClass h x) (hs : (h.ext s).singletonFor = some x)
    (hsr : IsClass h s) (hc : Real h c) (hne : c ≠ s) {l} (sg : Seg h (h.info c).upper l none) :
    ∀ y ∈ c :: l.filter (vis h), (h.info y).ext ≠ s := by
  have I := u.reach.good.toInv
  obtain ⟨l', w, sg', _, _, W, _, e2, _⟩ := I.chain c hc
  have := sg.unique sg'
  subst this
  intro y hy e
  rcases List.mem_cons.1 hy with rfl | hy
  · rw [I.ext _ hc] at e; exact hne e
  · have hw : s ∈ w := by rw [← e2]; exact List.mem_map.2 ⟨y, hy, e⟩
    refine hne (mem_walk W hw (fun d => ?_) (fun d hd => ?_)).symm
    · have key : ¬ IsModule h s := fun hm => by have := hm.2; rw [hsr.2] at this; cases this
      exact ⟨fun h1 => key (u.reach.modules d s (.inl h1)), fun h1 => key (u.reach.modules d s (.inr h1))⟩
    · obtain ⟨⟨_, i, e1, _⟩, e3⟩ := u.solo.sup d s hd x hs
      rw [info_eq e1, hx i e1] at e3
      cases e3

/-- The list that a call on `y` searches, also after changes elsewhere; it avoids the singleton classes of others. -/
theorem search_list {h : Heap} (u : Usual h) {x y : Addr} (hx : NoClass h x) (hy : Named h y) (hne : y ≠ x) :
    ∃ l : List Addr, (∀ g : Heap, (∀ z < h.next, (g.obj z).info = (h.obj z).info) → (g.obj y).cls = (h.obj y).cls →
        (g.obj (h.obj y).cls).cls = (h.obj (h.obj y).cls).cls → (∀ a < h.next, (g.ext a).singletonFor = (h.ext a).singletonFor) →
        ∀ n name, 2 * h.next + 2 < n → callOn n g y name = some (firstIn g name l)) ∧
      ∀ z ∈ l, z < h.next ∧ (h.info z).ext < h.next ∧ realModule h z = (h.info z).ext ∧
        ∀ s, IsClass h s → (h.ext s).singletonFor = some x → (h.info z).ext ≠ s := by
  have G := u.reach.good
  have I := G.toInv
  have hc := G.cls y
  obtain ⟨l, w, sg, len, hl, _⟩ := I.chain _ hc.1
  have hd := G.cls (h.obj y).cls
  obtain ⟨l', w', sg', len', hl', _⟩ := I.chain _ hd.1
  have ok : ∀ x, Copy h x ∨ Real h x → x < h.next ∧ (h.info x).ext < h.next := by
    intro x hx
    rcases hx with a | a
    · exact ⟨a.1, a.ext_lt⟩
    · exact ⟨a.1, by rw [I.ext x a]; exact a.1⟩
  have rm : ∀ x, Copy h x ∨ Real h x → realModule h x = (h.info x).ext := by
    intro x hx
    rcases hx with a | a
    · exact a.real
    · exact a.real I
  have ne1 : ∀ s, (h.ext s).singletonFor = some x → (h.obj y).cls ≠ s := fun s hs e =>
    hne (u.solo.one y hy x (by rw [e]; exact hs)).symm
  have ne2 : ∀ s, (h.ext s).singletonFor = some x → (h.obj (h.obj y).cls).cls ≠ s := fun s hs e => by
    have := u.solo.one _ hc.1.named x (by rw [e]; exact hs)
    subst this
    obtain ⟨⟨_, i, e1, _⟩, e2⟩ := hc
    rw [info_eq e1, hx i e1] at e2
    cases e2
  have b1 : ∀ z ∈ (h.obj y).cls :: l.filter (vis h), z < h.next ∧ (h.info z).ext < h.next ∧ realModule h z = (h.info z).ext ∧
        ∀ s, IsClass h s → (h.ext s).singletonFor = some x → (h.info z).ext ≠ s := by
    intro z hz
    have : Copy h z ∨ Real h z := by
      rcases List.mem_cons.1 hz with rfl | hz
      · exact .inr hc.1
      · exact hl z (List.mem_of_mem_filter hz)
    exact ⟨(ok z this).1, (ok z this).2, rm z this, fun s hsr hs => apart u hx hs hsr hc.1 (ne1 s hs) sg z hz⟩
  have b2 : ∀ z ∈ (h.obj (h.obj y).cls).cls :: l'.filter (vis h), z < h.next ∧ (h.info z).ext < h.next ∧ realModule h z = (h.info z).ext ∧
        ∀ s, IsClass h s → (h.ext s).singletonFor = some x → (h.info z).ext ≠ s := by
    intro z hz
    have : Copy h z ∨ Real h z := by
      rcases List.mem_cons.1 hz with rfl | hz
      · exact .inr hd.1
      · exact hl' z (List.mem_of_mem_filter hz)
    exact ⟨(ok z this).1, (ok z this).2, rm z this, fun s hsr hs => apart u hx hs hsr hd.1 (ne2 s hs) sg' z hz⟩
  have inf : ∀ {g : Heap}, (∀ z < h.next, (g.obj z).info = (h.obj z).info) → ∀ z < h.next, g.info z = h.info z :=
    fun gi z hz => by simp [Heap.info, gi z hz]
  have seg : ∀ {g : Heap}, (∀ z < h.next, (g.obj z).info = (h.obj z).info) → ∀ {c l}, Real h c → Seg h (h.info c).upper l none →
      (∀ z ∈ l, Copy h z ∨ Real h z) → Seg g (g.info c).upper l none ∧ l.filter (vis g) = l.filter (vis h) := by
    intro g gi c l hc s hl
    constructor
    · rw [inf gi c hc.1]
      exact s.congr fun z hz => by rw [inf gi z (ok z (hl z hz)).1]
    · apply List.filter_congr
      intro z hz
      rw [vis, vis, inf gi z (ok z (hl z hz)).1]
  have sing : ∀ {g : Heap}, (∀ z < h.next, (g.obj z).info = (h.obj z).info) →
      (∀ a < h.next, (g.ext a).singletonFor = (h.ext a).singletonFor) → g.isSingleton (h.obj y).cls = h.isSingleton (h.obj y).cls := by
    intro g gi gs
    rw [Heap.isSingleton, Heap.isSingleton, inf gi _ hc.1.1, gs _ (ok _ (.inr hc.1)).2]
  rcases hb : h.isSingleton (h.obj y).cls with _ | _
  · refine ⟨_, fun g gi g1 g2 gs n name hn => ?_, b1⟩
    obtain ⟨p, q⟩ := seg gi hc.1 sg hl
    rw [callOn, searchMethod, g1, sing gi gs, hb, searchLoop_false p (by omega), q]
  · refine ⟨_, fun g gi g1 g2 gs n name hn => ?_, fun z hz => (List.mem_append.1 hz).elim (b1 z) (b2 z)⟩
    obtain ⟨p, q⟩ := seg gi hc.1 sg hl
    obtain ⟨p', q'⟩ := seg gi hd.1 sg' hl'
    rw [callOn, searchMethod, g1, sing gi gs, hb, searchLoop_true (l' := l') (by rw [g2]; exact p') p (by omega), q, q', g2]

theorem firstIn_congr {h g : Heap} {name : Id} : ∀ {l : List Addr},
    (∀ z ∈ l, (g.ext (g.info z).ext).methods name = (h.ext (h.info z).ext).methods name) → firstIn g name l = firstIn h name l
  | [], _ => rfl
  | x :: l, hl => by
    rw [firstIn, firstIn, hl x (by simp), firstIn_congr (l := l) fun y hy => hl y (by simp [hy])]

theorem firstIn_mem {h : Heap} {name : Id} : ∀ {l : List Addr} {f o}, firstIn h name l = some (f, o) → o ∈ l
  | c :: l, f, o, e => by
    rw [firstIn] at e
    split at e
    · cases e; simp
    · exact List.mem_cons_of_mem _ (firstIn_mem e)

def Heap.properB (h : Heap) : Cmd → Bool
  | .newClass c => !h.isSingleton c
  | .newObject c => !h.isSingleton c
  | .singleton a => decide (a < h.next)
  | _ => true

def usualAll : Heap → List Cmd → Option Heap
  | h, [] => some h
  | h, c :: cs => if h.properB c then
      match c.run 60 h with
      | none => none
      | some g => usualAll g cs
    else none

theorem usualAll_usual : ∀ {cs h g}, Usual h → usualAll h cs = some g → Usual g
  | [], _, _, u, e => by cases e; exact u
  | c :: cs, h, g, u, e => by
    rw [usualAll] at e
    split at e
    · rename_i hp
      split at e
      · cases e
      · rename_i k hk
        refine usualAll_usual (u.step ?_ hk) e
        cases c <;> simp_all [Heap.properB, Proper]
    · cases e

theorem usual_witness {cs : List Cmd} {p : Heap → Bool} (e : (match usualAll boot cs with
    | some h => p h
    | none => false) = true) : ∃ h, Usual h ∧ p h = true := by
  split at e
  · rename_i h hh; exact ⟨h, usualAll_usual .boot hh, e⟩
  · cases e

/-! ## C96 -/

/-- After `def x.name`, a call `x.name` runs the new method.  It is the program's next step in a usual program, so
every theorem about usual programs holds afterwards. -/
theorem C96_own {h g : Heap} (u : Usual h) {x : Addr} (hx : Named h x) {n : Nat} {name : Id} {f : Fn}
    (e : defOn n h x name f = some g) : Usual g ∧ Named g x ∧ ∃ s, ∀ n' > 0, callOn n' g x name = some (some (f, s)) := by
  unfold defOn at e
  split at e
  · cases e
  · rename_i g0 s hg
    cases e
    have har : ∀ i, (h.obj x).info = some i → Real h x := fun i hi => ⟨hx.1, i, hi, hx.2 i hi⟩
    obtain ⟨G0, C0, _⟩ := getSingleton_good u.reach.good har hg
    have run0 : Cmd.run n h (.singleton x) = some g0 := by
      have : (h.realB x || (h.obj x).info.isNone) = true := by
        rcases hi : (h.obj x).info with _ | i
        · simp
        · simp [realB_iff.2 (har i hi)]
      simp only [Cmd.run, this, if_true, hg, Option.map_some]
    have u0 : Usual g0 := .step u (by exact hx.1) run0
    have run1 : Cmd.run n g0 (.defm s name f) = some (addMethod g0 s name f) := by
      simp only [Cmd.run, realB_iff.2 C0.1, if_true]
    have hcls := getSingleton_cls hg
    have N : Named g0 x := by
      have hnx : h.next ≤ g0.next ∧ (g0.obj x).info = (h.obj x).info := by
        have k := getSingleton_keepC hg
        exact ⟨k.next, k.info x hx.1⟩
      exact ⟨Nat.lt_of_lt_of_le hx.1 hnx.1, by rw [hnx.2]; exact hx.2⟩
    refine ⟨.step u0 (by trivial) run1, N, s, fun n' hn' => ?_⟩
    obtain ⟨k, rfl⟩ : ∃ k, n' = k + 1 := ⟨n' - 1, by omega⟩
    have hc1 : ((addMethod g0 s name f).obj x).cls = s := hcls
    have : ((addMethod g0 s name f).ext ((addMethod g0 s name f).info s).ext).methods name = some f := by
      simp [addMethod, Heap.info, upd]
    rw [callOn, hc1]
    simp [searchMethod, searchLoop, this]

/-- A call on any other object never runs a method of `x`: what it finds was not defined with `def x.…`. -/
theorem C96_private {h : Heap} (u : Usual h) {x y : Addr} (hx : Named h x) (hxc : NoClass h x) (hy : Named h y) (hne : y ≠ x)
    (hs : h.isSingleton (h.obj x).cls = true) {n : Nat} {name : Id} {f : Fn} {o : Addr} (hn : 2 * h.next + 2 < n)
    (e : callOn n h y name = some (some (f, o))) : realModule h o ≠ (h.obj x).cls := by
  have G := u.reach.good
  obtain ⟨l, e1, e2⟩ := search_list u hxc hy hne
  have e1 := e1 h (fun _ _ => rfl) rfl rfl (fun _ _ => rfl) n name hn
  rw [e] at e1
  have hx1 : (h.ext (h.obj x).cls).singletonFor = some x := by
    rw [isSingleton_ext G.toInv (G.cls x).1] at hs
    obtain ⟨t, ht⟩ := Option.isSome_iff_exists.1 hs
    rw [ht, u.solo.one x hx t ht]
  have ho := firstIn_mem (Option.some.inj e1).symm
  obtain ⟨_, _, h3, h4⟩ := e2 o ho
  rw [h3]
  exact h4 _ (G.cls x) hx1

/-- `def x.name` does not change what a call on any other object does. -/
theorem C96_others {h g : Heap} (u : Usual h) {x y : Addr} (hx : Named h x) (hxc : NoClass h x) (hy : Named h y) (hne : y ≠ x)
    {n : Nat} {name : Id} {f : Fn} (e : defOn n h x name f = some g) (m : Id) {n' : Nat} (hn : 2 * h.next + 2 < n') :
    callOn n' g y m = callOn n' h y m := by
  have G := u.reach.good
  have I := G.toInv
  obtain ⟨l, e1, e2⟩ := search_list u hxc hy hne
  rw [e1 h (fun _ _ => rfl) rfl rfl (fun _ _ => rfl) n' m hn]
  cases n with
  | zero => cases e
  | succ n =>
  rw [defOn, getSingleton_flat hxc] at e
  by_cases hs : h.isSingleton (h.obj x).cls = true
  · rw [if_pos hs] at e
    cases e
    have hx1 : (h.ext (h.obj x).cls).singletonFor = some x := by
      rw [isSingleton_ext I (G.cls x).1] at hs
      obtain ⟨t, ht⟩ := Option.isSome_iff_exists.1 hs
      rw [ht, u.solo.one x hx t ht]
    rw [e1 (addMethod h (h.obj x).cls name f) (fun _ _ => rfl) rfl rfl
      (fun a _ => by simp only [addMethod, upd]; split <;> simp_all) n' m hn]
    congr 1
    apply firstIn_congr
    intro z hz
    obtain ⟨_, _, _, hz⟩ := e2 z hz
    have := hz _ (G.cls x) hx1
    have hi : (addMethod h (h.obj x).cls name f).info z = h.info z := rfl
    rw [hi]
    simp [addMethod, upd, I.ext _ (G.cls x).1, this]
  · rw [if_neg hs] at e
    cases e
    have hcx : (h.obj y).cls ≠ x := fun e => by
      obtain ⟨⟨_, i, e1, _⟩, e2⟩ := G.cls y
      rw [e] at e1 e2
      rw [info_eq e1, hxc i e1] at e2
      cases e2
    have hyn := Nat.ne_of_lt hy.1
    have hcn := Nat.ne_of_lt (G.cls y).1.1
    have hxn := Nat.ne_of_lt hx.1
    generalize hg0 : ((newInfo h classC false (some (h.obj x).cls) (some x)).1).setCls x h.next = g0
    have oi : ∀ z < h.next, (g0.obj z).info = (h.obj z).info := fun z hz => by
      rw [← hg0]; simp only [Heap.setCls, newInfo, upd]; split <;> simp_all [Nat.ne_of_lt hz]
    have oc : ∀ z < h.next, z ≠ x → (g0.obj z).cls = (h.obj z).cls := fun z hz hzx => by
      rw [← hg0]; simp [Heap.setCls, newInfo, upd, Nat.ne_of_lt hz, hzx]
    have ext : (g0.info h.next).ext = h.next := by
      rw [← hg0, setCls_info, newInfo_new.2]
    have oe : ∀ a < h.next, g0.ext a = h.ext a := fun a ha => by
      rw [← hg0]; simp [Heap.setCls, newInfo, upd, Nat.ne_of_lt ha]
    rw [e1 (addMethod g0 h.next name f) oi (oc y hy.1 hne) (oc _ (G.cls y).1.1 hcx)
      (fun a ha => by simp [addMethod, upd, ext, Nat.ne_of_lt ha, oe a ha]) n' m hn]
    congr 1
    apply firstIn_congr
    intro z hz
    obtain ⟨hz1, hz2, _⟩ := e2 z hz
    have hi : (addMethod g0 h.next name f).info z = h.info z := by simp [Heap.info, addMethod, oi z hz1]
    rw [hi]
    simp [addMethod, upd, ext, Nat.ne_of_lt hz2, oe _ hz2]

/-- Objects 8 and 9 of class 5, and method 3 of object 8, after which it is called there and not found on 9. -/
example : ∃ h, Usual h ∧ Named h 8 ∧ NoClass h 8 ∧ Named h 9 ∧ h.isSingleton (h.obj 8).cls = true ∧ callOn 60 h 8 3 = some (some (100, 10)) ∧
    callOn 60 h 9 3 = some none ∧ callOn 60 h 9 4 = some (some (200, 5)) ∧ callOn 60 h 8 4 = some (some (200, 5)) := by
  obtain ⟨h, u, e⟩ := usual_witness (cs := [.newClass 1, .newObject 5, .newObject 5, .singleton 8, .defm 10 3 100, .defm 5 4 200])
    (p := fun h => decide (h.next = 11 ∧ (h.obj 8).info = none ∧ (h.obj 9).info = none ∧ h.isSingleton (h.obj 8).cls = true ∧
      callOn 60 h 8 3 = some (some (100, 10)) ∧ callOn 60 h 9 3 = some none ∧ callOn 60 h 9 4 = some (some (200, 5)) ∧
      callOn 60 h 8 4 = some (some (200, 5)))) (by decide +kernel)
  simp only [decide_eq_true_eq] at e
  obtain ⟨e1, e2, e3, e4, e5⟩ := e
  have hn : NoClass h 8 := fun i hi => by rw [e2] at hi; cases hi
  exact ⟨h, u, ⟨by omega, fun i hi => by rw [e2] at hi; cases hi⟩, hn,
    ⟨by omega, fun i hi => by rw [e3] at hi; cases hi⟩, e4, e5⟩

/-- A copy of an object without methods of its own answers calls as the original does, and is a new object of a usual
program, so that methods defined on it later are its own (`C96_others`).  Partial: not if the object has methods of its
own (`C96_dup_fails`), nor for classes and modules (`C96_dup_class_fails`). -/
theorem C96_dup_partial {h : Heap} (u : Usual h) {x : Addr} (hx : Named h x) (hi : (h.obj x).info = none)
    (hs : h.isSingleton (h.obj x).cls = false) :
    Usual (dupObj h x).1 ∧ Named (dupObj h x).1 (dupObj h x).2 ∧ (dupObj h x).2 ≠ x ∧
    ∀ n name, callOn n (dupObj h x).1 (dupObj h x).2 name = callOn n (dupObj h x).1 x name := by
  have e : dupObj h x = newObject h (h.obj x).cls := by rw [dupObj, newObject]; rcases ho : h.obj x with ⟨c, i⟩; rw [ho] at hi; cases hi; rfl
  have hxn := Nat.ne_of_lt hx.1
  have G := u.reach.good
  refine ⟨?_, ?_, hxn.symm, fun n name => ?_⟩
  · rw [e]
    refine .step (n := 0) (c := .newObject (h.obj x).cls) u hs ?_
    simp [Cmd.run, realB_iff.2 (G.cls x).1, (G.cls x).2]
  · exact ⟨Nat.lt_succ_self _, fun i h' => by simp [dupObj, Heap.alloc, upd, hi] at h'⟩
  · rw [callOn, callOn]
    simp [dupObj, Heap.alloc, upd, hxn]

example : ∃ h, Usual h ∧ Named h 8 ∧ (h.obj 8).info = none ∧ h.isSingleton (h.obj 8).cls = false ∧
    callOn 60 (dupObj h 8).1 (dupObj h 8).2 4 = some (some (200, 5)) := by
  obtain ⟨h, u, e⟩ := usual_witness (cs := [.newClass 1, .newObject 5, .defm 5 4 200])
    (p := fun h => decide (h.next = 9 ∧ (h.obj 8).info = none ∧ h.isSingleton (h.obj 8).cls = false ∧
      callOn 60 (dupObj h 8).1 (dupObj h 8).2 4 = some (some (200, 5)))) (by decide +kernel)
  simp only [decide_eq_true_eq] at e
  obtain ⟨e1, e2, e3, e4⟩ := e
  exact ⟨h, u, ⟨by omega, fun i hi => by rw [e2] at hi; cases hi⟩, e2, e3, e4⟩

/-- The copy of an object with methods of its own (object 8 with method 3) has these methods too, and a method 4 defined
on the copy can then be called on the original.  In Ruby `dup` leaves singleton methods behind. -/
theorem C96_dup_fails : ∃ h, Usual h ∧ (h.obj 8).info = none ∧ callOn 60 h 8 4 = some none ∧
    callOn 60 (dupObj h 8).1 (dupObj h 8).2 3 = some (some (100, 9)) ∧
    ((defOn 60 (dupObj h 8).1 (dupObj h 8).2 4 200).bind fun g => callOn 60 g 8 4) = some (some (200, 9)) := by
  obtain ⟨h, u, e⟩ := usual_witness (cs := [.newClass 1, .newObject 5, .singleton 8, .defm 9 3 100])
    (p := fun h => decide ((h.obj 8).info = none ∧ callOn 60 h 8 4 = some none ∧
      callOn 60 (dupObj h 8).1 (dupObj h 8).2 3 = some (some (100, 9)) ∧
      ((defOn 60 (dupObj h 8).1 (dupObj h 8).2 4 200).bind fun g => callOn 60 g 8 4) = some (some (200, 9)))) (by decide +kernel)
  exact ⟨h, u, by simpa only [decide_eq_true_eq] using e⟩

/-- A method 4 defined in the copy of a class (class 5) can be called on the instances of the original class. -/
theorem C96_dup_class_fails : ∃ h, Usual h ∧ IsClass h 5 ∧ (h.obj 8).cls = 5 ∧ callOn 60 h 8 4 = some none ∧
    callOn 60 (addMethod (dupObj h 5).1 (dupObj h 5).2 4 200) 8 4 = some (some (200, 5)) := by
  obtain ⟨h, u, e⟩ := usual_witness (cs := [.newClass 1, .newObject 5])
    (p := fun h => h.realB 5 && decide ((h.info 5).isModule = false ∧ (h.obj 8).cls = 5 ∧ callOn 60 h 8 4 = some none ∧
      callOn 60 (addMethod (dupObj h 5).1 (dupObj h 5).2 4 200) 8 4 = some (some (200, 5)))) (by decide +kernel)
  simp only [Bool.and_eq_true, realB_iff, decide_eq_true_eq] at e
  exact ⟨h, u, ⟨e.1, e.2.1⟩, e.2.2⟩

end Verif.Class
