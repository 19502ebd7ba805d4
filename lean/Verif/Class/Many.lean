import Verif.Class.Reflect
/-! # C35 with several modules: `include A, B` and `prepend A, B` -/
namespace Verif.Class

/-! ## Model -/

/-- `RValue::is_module` on the argument, as `expect_module` asks it (value/value.rs:738-748, 774-780). -/
def expectModule (h : Heap) (m : Addr) : Bool :=
  match (h.obj m).info with
  | some i => i.isModule
  | none => false

/-- `Module#include` (builtin/module.rs:373-381): one argument after the other.  The answer tells whether all were
modules; at the first that is not, a TypeError is raised and the rest is left.  Arguments that are packed values are not
modelled; they end like a plain object. -/
def includeMany (n : Nat) (h : Heap) (c : Addr) : List Addr → Option (Heap × Bool)
  | [] => some (h, true)
  | m :: ms =>
    if expectModule h m then
      match appendInclude n h c m with
      | none => none
      | some g => includeMany n g c ms
    else some (h, false)

/-- `Module#prepend` (builtin/module.rs:385-394). -/
def prependMany (n : Nat) (h : Heap) (c : Addr) : List Addr → Option (Heap × Bool)
  | [] => some (h, true)
  | m :: ms =>
    if expectModule h m then
      match appendPrepend n h c m with
      | none => none
      | some g => prependMany n g c ms
    else some (h, false)

/-! ## Specification -/

/-- The history (latest first) after `c.include(*ms)` in Ruby, where the last argument goes first, so that the ancestors
come in the order of the arguments. -/
def afterInclude (c : Addr) (ms : List Addr) (es : List Event) : List Event := ms.map (Event.incl c) ++ es

/-- The history after `c.prepend(*ms)` in Ruby. -/
def afterPrepend (c : Addr) (ms : List Addr) (es : List Event) : List Event := ms.map (Event.prep c) ++ es

/-- The arguments come in the order of the ancestors: what `include` puts in front is the arguments, each with
its own modules. -/
theorem afterInclude_layers (c : Addr) (es : List Event) : ∀ (ms : List Addr), (∀ m ∈ ms, m ≠ c) →
    (layers (afterInclude c ms es) c).2 = ms.flatMap (own es) ++ (layers es c).2
  | [], _ => rfl
  | m :: ms, h => by
    have ih := afterInclude_layers c es ms fun x hx => h x (by simp [hx])
    have hm : ∀ (l : List Addr), layers (afterInclude c l es) m = layers es m := by
      intro l
      induction l with
      | nil => rfl
      | cons a l ih =>
        have : ¬ c = m := fun e => h m (by simp) e.symm
        simp only [afterInclude, List.map_cons, List.cons_append, layers, if_neg this]
        exact ih
    have hm := hm ms
    simp only [afterInclude] at ih hm
    simp [afterInclude, layers, hm, ih, own]

/-! ## Helpers -/

theorem expectModule_iff {h : Heap} {m : Addr} (hm : IsModule h m) : expectModule h m = true := by
  obtain ⟨⟨_, i, e, _⟩, hm⟩ := hm
  rw [info_eq e] at hm
  rw [expectModule, e]; exact hm

theorem includeMany_reach (n : Nat) (c : Addr) : ∀ (ms : List Addr) {h g : Heap} {b : Bool}, Reach h → Real h c →
    (∀ m ∈ ms, IsModule h m ∧ m ≠ c) → includeMany n h c ms = some (g, b) →
    Reach g ∧ b = true ∧ g.log = ms.reverse.map (Event.incl c) ++ h.log ∧ Grows h g
  | [], h, g, b, R, hc, _, e => by
    simp only [includeMany, Option.some.injEq, Prod.mk.injEq] at e
    obtain ⟨rfl, rfl⟩ := e
    exact ⟨R, rfl, rfl, .refl _⟩
  | m :: ms, h, g, b, R, hc, hm, e => by
    have hm0 := hm m (by simp)
    rw [includeMany, if_pos (expectModule_iff hm0.1)] at e
    rcases e1 : appendInclude n h c m with _ | k
    · rw [e1] at e; cases e
    · rw [e1] at e
      have gr := grows_include e1
      have R1 := Reach.incl R hc hm0.1 hm0.2.symm e1
      have l1 := (incl_good R.good hc hm0.1 hm0.2.symm e1).2
      obtain ⟨Rg, hb, hl, hg⟩ := includeMany_reach n c ms R1 (gr.real hc).1 (fun x hx => by
        have := hm x (by simp [hx])
        exact ⟨⟨(gr.real this.1.1).1, (gr.real this.1.1).2.trans this.1.2⟩, this.2⟩) e
      exact ⟨Rg, hb, by rw [hl, l1]; simp, gr.trans hg⟩

theorem prependMany_reach (n : Nat) (c : Addr) : ∀ (ms : List Addr) {h g : Heap} {b : Bool}, Reach h → Real h c →
    (∀ m ∈ ms, IsModule h m ∧ m ≠ c) → prependMany n h c ms = some (g, b) →
    Reach g ∧ b = true ∧ g.log = ms.reverse.map (Event.prep c) ++ h.log ∧ Grows h g
  | [], h, g, b, R, hc, _, e => by
    simp only [prependMany, Option.some.injEq, Prod.mk.injEq] at e
    obtain ⟨rfl, rfl⟩ := e
    exact ⟨R, rfl, rfl, .refl _⟩
  | m :: ms, h, g, b, R, hc, hm, e => by
    have hm0 := hm m (by simp)
    rw [prependMany, if_pos (expectModule_iff hm0.1)] at e
    rcases e1 : appendPrepend n h c m with _ | k
    · rw [e1] at e; cases e
    · rw [e1] at e
      have gr := grows_prepend e1
      have R1 := Reach.prep R hc hm0.1 hm0.2.symm e1
      have l1 := (prep_good R.good hc hm0.1 hm0.2.symm e1).2
      obtain ⟨Rg, hb, hl, hg⟩ := prependMany_reach n c ms R1 (gr.real hc).1 (fun x hx => by
        have := hm x (by simp [hx])
        exact ⟨⟨(gr.real this.1.1).1, (gr.real this.1.1).2.trans this.1.2⟩, this.2⟩) e
      exact ⟨Rg, hb, by rw [hl, l1]; simp, gr.trans hg⟩

theorem orderly_incl {c : Addr} {es : List Event} (ho : Orderly es) (hp : ¬ Prepended es c) : ∀ ms : List Addr,
    Orderly (ms.map (Event.incl c) ++ es)
  | [] => ho
  | m :: ms => ⟨fun ⟨t, ht⟩ => hp ⟨t, by simpa using ht⟩, orderly_incl ho hp ms⟩

theorem orderly_prep {c : Addr} {es : List Event} (ho : Orderly es) : ∀ ms : List Addr,
    Orderly (ms.map (Event.prep c) ++ es)
  | [] => ho
  | m :: ms => orderly_prep ho ms

/-! ## C35 -/

/-- `c.include(M1, …, Mk)` with modules succeeds and gives every class the ancestors that Ruby gives it for
`c.include(Mk, …, M1)`.  Partial: the order of the arguments is reversed (`C35_include_order_fails`); and nothing was
prepended to `c` or to the class that is asked before. -/
theorem C35_include_many_partial {h : Heap} (R : Reach h) (ho : Orderly h.log) {c : Addr} (hc : Real h c)
    (hpc : ¬ Prepended h.log c) {ms : List Addr} (hm : ∀ m ∈ ms, IsModule h m ∧ m ≠ c) {n : Nat} {g : Heap} {b : Bool}
    (e : includeMany n h c ms = some (g, b)) :
    b = true ∧ ∀ d, Real h d → ¬ Prepended h.log d → ∀ l, Ancestors (afterInclude c ms.reverse h.log) d l →
      ∀ n', g.next + 1 < n' → ancestors g n' d = some l := by
  obtain ⟨Rg, hb, hl, hg⟩ := includeMany_reach n c ms R hc hm e
  refine ⟨hb, fun d hd hp l A n' hn' => ?_⟩
  refine C35_ancestors_partial Rg (hl ▸ orderly_incl ho hpc _) (hg.real hd).1 ?_ (hl ▸ A) hn'
  rintro ⟨t, ht⟩
  rw [hl] at ht
  exact hp ⟨t, by simpa using ht⟩

/-- Class 7 includes modules 5 and 6; its ancestors are 7, 6, 5, Object, BasicObject. -/
example : runs [.newModule, .newModule, .newClass 1] (fun h =>
    h.realB 7 && h.realB 5 && h.realB 6 && (h.info 5).isModule && (h.info 6).isModule &&
    match includeMany 60 h 7 [5, 6] with
    | some (g, true) => decide (ancestors g 60 7 = some [7, 6, 5, 1, 0])
    | _ => false) = true := by decide +kernel

/-- `c.prepend(M1, …, Mk)` with modules succeeds and gives every class the ancestors that Ruby gives it for
`c.prepend(Mk, …, M1)`.  Partial: the order of the arguments is reversed (`C35_prepend_order_fails`), and `c` itself
answers without the prepended modules (`C35_prepend_to_receiver_fails`). -/
theorem C35_prepend_many_partial {h : Heap} (R : Reach h) (ho : Orderly h.log) {c : Addr} (hc : Real h c)
    {ms : List Addr} (hm : ∀ m ∈ ms, IsModule h m ∧ m ≠ c) {n : Nat} {g : Heap} {b : Bool}
    (e : prependMany n h c ms = some (g, b)) :
    b = true ∧ ∀ d, Real h d → d ≠ c → ¬ Prepended h.log d → ∀ l, Ancestors (afterPrepend c ms.reverse h.log) d l →
      ∀ n', g.next + 1 < n' → ancestors g n' d = some l := by
  obtain ⟨Rg, hb, hl, hg⟩ := prependMany_reach n c ms R hc hm e
  refine ⟨hb, fun d hd hdc hp l A n' hn' => ?_⟩
  refine C35_ancestors_partial Rg (hl ▸ orderly_prep ho _) (hg.real hd).1 ?_ (hl ▸ A) hn'
  rintro ⟨t, ht⟩
  rw [hl] at ht
  simp only [List.mem_append, List.mem_map, Event.prep.injEq] at ht
  rcases ht with ⟨_, _, h1, _⟩ | ht
  · exact hdc h1.symm
  · exact hp ⟨t, ht⟩

/-- Class 7 with subclass 9; 7 prepends modules 5 and 6; the ancestors of 9 are 9, 6, 5, 7, Object, BasicObject. -/
example : runs [.newModule, .newModule, .newClass 1, .newClass 7] (fun h =>
    h.realB 7 && h.realB 10 && h.realB 5 && h.realB 6 && (h.info 5).isModule && (h.info 6).isModule &&
    match prependMany 60 h 7 [5, 6] with
    | some (g, true) => decide (ancestors g 60 10 = some [10, 6, 5, 7, 1, 0])
    | _ => false) = true := by decide +kernel

/-- **Violation**: after `class C; include A, B; end` with method 7 in both modules, a call on an instance of `C` runs
the method of `B`; in Ruby `A` comes first. -/
theorem C35_include_order_fails : ∃ h, Reach h ∧ Orderly h.log ∧ Real h 7 ∧ h.isSingleton 7 = false ∧
    ¬ Prepended h.log 7 ∧ IsModule h 5 ∧ IsModule h 6 ∧
    ∃ l, Ancestors (afterInclude 7 [5, 6] h.log) 7 l ∧ l = [7, 5, 6, 1, 0] ∧ firstMethod h.log 7 l = some (10, 5) ∧
      ∃ g, includeMany 60 h 7 [5, 6] = some (g, true) ∧ ancestors g 60 7 = some [7, 6, 5, 1, 0] ∧
        (searchMethod 60 g 7 7).map (·.map (·.1)) = some (some 20) := by
  obtain ⟨h, R, e⟩ := runs_reach (cs := [.newModule, .newModule, .newClass 1, .defm 5 7 10, .defm 6 7 20])
    (p := fun h => decide (h.log = [.defm 6 7 20, .defm 5 7 10,
     .cls 9 (some 8), .cls 8 (some 4), .cls 7 (some 1), .mod 6, .mod 5,
     .cls 4 (some 3), .cls 3 (some 2), .cls 2 (some 1), .cls 1 (some 0), .cls 0 none]) && h.realB 7 && h.realB 5 &&
     h.realB 6 && (h.info 5).isModule && (h.info 6).isModule && !h.isSingleton 7 &&
     match includeMany 60 h 7 [5, 6] with
     | some (g, true) => decide (ancestors g 60 7 = some [7, 6, 5, 1, 0]) &&
       decide ((searchMethod 60 g 7 7).map (·.map (·.1)) = some (some 20))
     | _ => false) (by decide +kernel)
  simp only [Bool.and_eq_true, decide_eq_true_eq, Bool.not_eq_true', realB_iff] at e
  obtain ⟨⟨⟨⟨⟨⟨⟨e1, e2⟩, e3⟩, e4⟩, e5⟩, e6⟩, e7⟩, e8⟩ := e
  refine ⟨h, R, by rw [e1]; exact trivial, e2, e7, by rw [e1]; simp [Prepended], ⟨e3, e5⟩, ⟨e4, e6⟩, _, ?_, rfl,
    by rw [e1]; rfl, ?_⟩
  · rw [e1]; exact .sub (l := [1, 0]) rfl (.sub (l := [0]) rfl (.top rfl))
  · split at e8
    · rename_i g hg
      simp only [Bool.and_eq_true, decide_eq_true_eq] at e8
      exact ⟨g, hg, e8⟩
    · cases e8

/-- **Violation**: after `class C; prepend A, B; end` the ancestors of a subclass have `B` before `A`. -/
theorem C35_prepend_order_fails : ∃ h, Reach h ∧ Orderly h.log ∧ Real h 7 ∧ Real h 10 ∧ IsModule h 5 ∧ IsModule h 6 ∧
    Ancestors (afterPrepend 7 [5, 6] h.log) 10 [10, 5, 6, 7, 1, 0] ∧
      ∃ g, prependMany 60 h 7 [5, 6] = some (g, true) ∧ ancestors g 60 10 = some [10, 6, 5, 7, 1, 0] := by
  obtain ⟨h, R, e⟩ := runs_reach (cs := [.newModule, .newModule, .newClass 1, .newClass 7])
    (p := fun h => decide (h.log = [.cls 11 (some 9), .cls 10 (some 7),
     .cls 9 (some 8), .cls 8 (some 4), .cls 7 (some 1), .mod 6, .mod 5,
     .cls 4 (some 3), .cls 3 (some 2), .cls 2 (some 1), .cls 1 (some 0), .cls 0 none]) && h.realB 7 && h.realB 10 &&
     h.realB 5 && h.realB 6 && (h.info 5).isModule && (h.info 6).isModule &&
     match prependMany 60 h 7 [5, 6] with
     | some (g, true) => decide (ancestors g 60 10 = some [10, 6, 5, 7, 1, 0])
     | _ => false) (by decide +kernel)
  simp only [Bool.and_eq_true, decide_eq_true_eq, realB_iff] at e
  obtain ⟨⟨⟨⟨⟨⟨⟨e1, e2⟩, e3⟩, e4⟩, e5⟩, e6⟩, e7⟩, e8⟩ := e
  refine ⟨h, R, by rw [e1]; exact trivial, e2, e3, ⟨e4, e6⟩, ⟨e5, e7⟩, ?_, ?_⟩
  · rw [e1]; exact .sub (l := [5, 6, 7, 1, 0]) rfl (.sub (l := [1, 0]) rfl (.sub (l := [0]) rfl (.top rfl)))
  · split at e8
    · rename_i g hg
      simp only [decide_eq_true_eq] at e8
      exact ⟨g, hg, e8⟩
    · cases e8

/-- An argument that is no module (a class, or an object that is neither) raises a TypeError, when it is the first nothing
is changed. -/
theorem C35_not_module {h : Heap} {m : Addr} (hm : ∀ i, (h.obj m).info = some i → i.isModule = false) (n : Nat) (c : Addr)
    (ms : List Addr) : includeMany n h c (m :: ms) = some (h, false) ∧ prependMany n h c (m :: ms) = some (h, false) := by
  have : expectModule h m = false := by
    unfold expectModule
    split
    · rename_i i e
      exact hm i e
    · rfl
  simp [includeMany, prependMany, this]

/-- `Object` (at address 1) is no module, nor is what is at an address with no class. -/
example : (∀ i, (boot.obj 1).info = some i → i.isModule = false) ∧ (boot.obj 1).info ≠ none ∧
    ∀ i, (boot.obj 99).info = some i → i.isModule = false := by
  have e : ∃ i, (boot.obj 1).info = some i ∧ i.isModule = false := ⟨_, rfl, rfl⟩
  obtain ⟨i, e, q⟩ := e
  exact ⟨fun j f => by rw [e] at f; cases f; exact q, by rw [e]; simp, fun i f => by cases (show none = some i from f)⟩

/-- **Violation**: `C.include(A, Object)` raises a TypeError, but `A` stays included; Ruby looks at all the arguments
before it includes any. -/
theorem C35_include_error_fails : ∃ h, Reach h ∧ Real h 6 ∧ IsModule h 5 ∧ ¬ IsModule h 1 ∧
    ancestors h 60 6 = some [6, 1, 0] ∧
      ∃ g, includeMany 60 h 6 [5, 1] = some (g, false) ∧ ancestors g 60 6 = some [6, 5, 1, 0] := by
  obtain ⟨h, R, e⟩ := runs_reach (cs := [.newModule, .newClass 1])
    (p := fun h => h.realB 6 && h.realB 5 && (h.info 5).isModule && !(h.info 1).isModule &&
      decide (ancestors h 60 6 = some [6, 1, 0]) &&
     match includeMany 60 h 6 [5, 1] with
     | some (g, false) => decide (ancestors g 60 6 = some [6, 5, 1, 0])
     | _ => false) (by decide +kernel)
  simp only [Bool.and_eq_true, decide_eq_true_eq, Bool.not_eq_true', realB_iff] at e
  obtain ⟨⟨⟨⟨⟨e2, e3⟩, e4⟩, e5⟩, e6⟩, e8⟩ := e
  refine ⟨h, R, e2, ⟨e3, e4⟩, (fun x => by rw [x.2] at e5; cases e5), e6, ?_⟩
  split at e8
  · rename_i g hg
    simp only [decide_eq_true_eq] at e8
    exact ⟨g, hg, e8⟩
  · cases e8

end Verif.Class
