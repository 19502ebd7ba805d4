import Verif.Class.Reach
/-! # C35, C56, C66: method lookup, `is_a?`, `super` -/
namespace Verif.Class

/-! ## Helpers -/

theorem Ancestors.unique {es c l l'} (a : Ancestors es c l) (b : Ancestors es c l') : l = l' := by
  induction a generalizing l' with
  | top h => cases b with
    | top => rfl
    | sub h' => rw [h] at h'; cases h'
  | sub h _ ih => cases b with
    | top h' => rw [h] at h'; cases h'
    | sub h' b => rw [h] at h'; cases h'; rw [ih b]

theorem walk_ancestors {es} (ho : Orderly es) {c w} (W : Walk es c w) :
    Ancestors es c ((if hpB es c then [] else [c]) ++ w) := by
  induction W with
  | top h =>
    rename_i c
    rw [show (if hpB es c then [] else [c]) ++ between es c = own es c from shown_orderly ho c]
    exact .top h
  | sub h _ ih =>
    rename_i c s l _
    rw [← List.append_assoc, show (if hpB es c then [] else [c]) ++ between es c = own es c from shown_orderly ho c]
    exact .sub h ih

theorem firstIn_method {h : Heap} (I : Inv h) {name : Id} : ∀ {l : List Addr}, (∀ x ∈ l, Copy h x ∨ Real h x) →
    (firstIn h name l).map (fun r => (r.1, realModule h r.2)) = firstMethod h.log name (l.map (realModule h))
  | [], _ => rfl
  | x :: l, hl => by
    have hx : realModule h x = (h.info x).ext := by
      rcases hl x (by simp) with a | a
      · exact a.real
      · exact a.real I
    have ih := firstIn_method I (name := name) (l := l) fun y hy => hl y (by simp [hy])
    simp only [firstIn, firstMethod, List.map_cons, I.meth, hx]
    rcases methodOf h.log (h.info x).ext name with _ | f
    · simpa using ih
    · simp [hx]

theorem firstMethod_append {es name} : ∀ {l l' : List Addr} {r}, firstMethod es name l = some r →
    firstMethod es name (l ++ l') = some r
  | c :: l, l', r, e => by
    simp only [List.cons_append, firstMethod] at e ⊢
    rcases hm : methodOf es c name with _ | f
    · rw [hm] at e; exact firstMethod_append e
    · rw [hm] at e; exact e

/-- Modules that were included or prepended are modules. -/
theorem Reach.modules {h : Heap} (r : Reach h) : ∀ d t, Event.incl d t ∈ h.log ∨ Event.prep d t ∈ h.log → IsModule h t := by
  have news : ∀ {h : Heap} {cls b sup target}, (∀ d t, Event.incl d t ∈ h.log ∨ Event.prep d t ∈ h.log → IsModule h t) →
      ∀ d t, Event.incl d t ∈ (newInfo h cls b sup target).1.log ∨ Event.prep d t ∈ (newInfo h cls b sup target).1.log →
      IsModule (newInfo h cls b sup target).1 t := by
    intro h cls b sup target ih d t e
    have : IsModule h t := ih d t (by
      revert e
      simp only [newInfo, List.mem_cons]
      cases b <;> simp)
    exact ⟨(newInfo_real this.1).1, by rw [(newInfo_real this.1).2]; exact this.2⟩
  have sets : ∀ {h : Heap} {a c : Addr}, (∀ d t, Event.incl d t ∈ h.log ∨ Event.prep d t ∈ h.log → IsModule h t) →
      ∀ d t, Event.incl d t ∈ (h.setCls a c).log ∨ Event.prep d t ∈ (h.setCls a c).log → IsModule (h.setCls a c) t :=
    fun ih d t e => ⟨(setCls_real _ _ _ _).2 (ih d t e).1, by rw [setCls_info]; exact (ih d t e).2⟩
  have sing : ∀ {n h a g s}, getSingleton n h a = some (g, s) → (∀ d t, Event.incl d t ∈ h.log ∨ Event.prep d t ∈ h.log → IsModule h t) →
      ∀ d t, Event.incl d t ∈ g.log ∨ Event.prep d t ∈ g.log → IsModule g t := by
    intro n
    induction n with
    | zero => intro h a g s e; simp [getSingleton] at e
    | succ n ihn =>
      intro h a g s e ih
      rw [getSingleton] at e
      simp only at e
      split at e
      · simp only [Option.some.injEq, Prod.mk.injEq] at e
        obtain ⟨rfl, rfl⟩ := e
        exact ih
      · split at e
        · split at e
          · simp only [Option.some.injEq, Prod.mk.injEq] at e
            obtain ⟨rfl, rfl⟩ := e
            exact sets (news ih)
          · split at e
            · cases e
            · simp only [Option.some.injEq, Prod.mk.injEq] at e
              obtain ⟨rfl, rfl⟩ := e
              exact sets (news ih)
            · split at e
              · cases e
              · rename_i hg
                simp only [Option.some.injEq, Prod.mk.injEq] at e
                obtain ⟨rfl, rfl⟩ := e
                exact sets (news (ihn hg ih))
        · simp only [Option.some.injEq, Prod.mk.injEq] at e
          obtain ⟨rfl, rfl⟩ := e
          exact sets (news ih)
  induction r with
  | boot => intro d t e; simp [Verif.Class.boot] at e
  | newClass _ hs e ih =>
    unfold Verif.Class.newClass at e
    dsimp only at e
    split at e
    · cases e
    · rename_i hg
      simp only [Option.some.injEq, Prod.mk.injEq] at e
      obtain ⟨rfl, _⟩ := e
      exact sing hg (news ih)
  | newModule _ ih => exact news ih
  | newObject R hc ih =>
    intro d t e
    obtain ⟨⟨h1, i, h2, h3⟩, h4⟩ := ih d t e
    rename_i h c
    have ho : (Verif.Class.newObject h c).1.obj t = h.obj t := by simp [Verif.Class.newObject, Heap.alloc, upd]; omega
    exact ⟨⟨Nat.lt_succ_of_lt h1, i, by rw [ho]; exact h2, h3⟩, by rw [info_of_obj ho]; exact h4⟩
  | singleton _ ha e ih => exact sing e ih
  | incl R hc hm hcm e ih =>
    have g := grows_include e
    intro d t et
    rw [(incl_good R.good hc hm hcm e).2] at et
    simp only [List.mem_cons] at et
    rename_i h _ _ _ _
    have : IsModule h t := by
      rcases et with (et | et) | (et | et)
      · cases et; exact hm
      · exact ih d t (.inl et)
      · cases et
      · exact ih d t (.inr et)
    exact ⟨(g.real this.1).1, (g.real this.1).2.trans this.2⟩
  | prep R hc hm hcm e ih =>
    have g := grows_prepend e
    intro d t et
    rw [(prep_good R.good hc hm hcm e).2] at et
    simp only [List.mem_cons] at et
    rename_i h _ _ _ _
    have : IsModule h t := by
      rcases et with (et | et) | (et | et)
      · cases et
      · exact ih d t (.inl et)
      · cases et; exact hm
      · exact ih d t (.inr et)
    exact ⟨(g.real this.1).1, (g.real this.1).2.trans this.2⟩
  | defm _ hc ih => intro d t e; exact ih d t (by simpa [addMethod] using e)
  | setc _ hc ih => intro d t e; exact ih d t (by simpa [setConst] using e)

/-- Runs a program that builds classes and asks a question of the result. -/
def runs (cs : List Cmd) (p : Heap → Bool) : Bool :=
  match runAll 60 boot cs with
  | some h => p h
  | none => false

theorem runs_reach {cs p} (e : runs cs p = true) : ∃ h, Reach h ∧ p h = true := by
  unfold runs at e
  split at e
  · rename_i h hh; exact ⟨h, runAll_reach .boot hh, e⟩
  · cases e

/-! ## C35 -/

/-- Every class and module has an ancestor list, which the history determines. -/
theorem C35_ancestors_exist {h : Heap} (R : Reach h) (ho : Orderly h.log) {c : Addr} (hc : Real h c) :
    ∃ l, Ancestors h.log c l ∧ ∀ l', Ancestors h.log c l' → l' = l := by
  obtain ⟨_, w, _, _, _, W, _⟩ := R.good.toInv.chain c hc
  exact ⟨_, walk_ancestors ho W, fun l' h' => h'.unique (walk_ancestors ho W)⟩

/-- `Module#ancestors` lists the ancestors: prepended modules, the class, included modules latest first, then the same
for the superclass.  Partial: not if something was prepended to the class itself
(`C35_prepend_to_receiver_fails`), nor if an `include` into a class followed a `prepend` to it
(`C35_include_after_prepend_fails`). -/
theorem C35_ancestors_partial {h : Heap} (R : Reach h) (ho : Orderly h.log) {c : Addr} (hc : Real h c)
    (hp : ¬ Prepended h.log c) {l : List Addr} (hl : Ancestors h.log c l) {n : Nat} (hn : h.next + 1 < n) :
    ancestors h n c = some l := by
  have I := R.good.toInv
  obtain ⟨ch, w, s, len, _, W, e1, _⟩ := I.chain c hc
  have hb : hpB h.log c = false := by simpa [← hpB_iff] using hp
  have := (walk_ancestors ho W).unique hl
  rw [ancestors_spec s (by omega), List.map_cons, e1, ← this, hc.real I, I.ext c hc]
  simp [hb]

/-- A call runs the first definition found in the ancestor list (`searchMethod` also answers in which class or module it
found it).  Partial: as above, and the class is not a singleton class (`C35_singleton_lookup_partial`). -/
theorem C35_lookup_order_partial {h : Heap} (R : Reach h) (ho : Orderly h.log) {c : Addr} (hc : Real h c)
    (hp : ¬ Prepended h.log c) (hs : h.isSingleton c = false) {l : List Addr} (hl : Ancestors h.log c l) (name : Id)
    {n : Nat} (hn : h.next + 1 < n) :
    (searchMethod n h c name).map (·.map fun r => (r.1, realModule h r.2)) = some (firstMethod h.log name l) := by
  have I := R.good.toInv
  obtain ⟨ch, w, s, len, hch, W, e1, _⟩ := I.chain c hc
  have hb : hpB h.log c = false := by simpa [← hpB_iff] using hp
  have hu := (walk_ancestors ho W).unique hl
  rw [searchMethod, hs, searchLoop_false s (by omega), Option.map_some, firstIn_method I, List.map_cons, e1, ← hu,
    hc.real I, I.ext c hc]
  · simp [hb]
  · intro x hx
    rcases List.mem_cons.1 hx with rfl | hx
    · exact .inr hc
    · exact hch x (List.mem_of_mem_filter hx)

/-- For an object with a singleton class the lookup starts at the singleton class, and finds the first definition in its
ancestors, if there is one.  If there is none, the lookup should fail, but does not
(`C35_singleton_object_fails`). -/
theorem C35_singleton_lookup_partial {h : Heap} (R : Reach h) (ho : Orderly h.log) {c : Addr} (hc : Real h c)
    (hp : ¬ Prepended h.log c) (hs : h.isSingleton c = true) {l : List Addr} (hl : Ancestors h.log c l) (name : Id)
    {r} (hr : firstMethod h.log name l = some r) {n : Nat} (hn : 2 * h.next + 2 < n) :
    (searchMethod n h c name).map (·.map fun r => (r.1, realModule h r.2)) = some (some r) := by
  have G := R.good
  have I := G.toInv
  obtain ⟨ch, w, s, len, hch, W, e1, _⟩ := I.chain c hc
  obtain ⟨ch', w', s', len', hch', W', e1', _⟩ := I.chain _ (G.cls c).1
  have hb : hpB h.log c = false := by simpa [← hpB_iff] using hp
  have hu := (walk_ancestors ho W).unique hl
  rw [searchMethod, hs, searchLoop_true s' s (by omega), Option.map_some, firstIn_method I]
  · rw [List.cons_append, List.map_cons, List.map_append, e1, hc.real I, I.ext c hc]
    simp [hb] at hu
    rw [← List.cons_append, hu, firstMethod_append hr]
  · intro x hx
    rcases List.mem_append.1 hx with hx | hx
    · rcases List.mem_cons.1 hx with rfl | hx
      · exact .inr hc
      · exact hch x (List.mem_of_mem_filter hx)
    · rcases List.mem_cons.1 hx with rfl | hx
      · exact .inr (G.cls c).1
      · exact hch' x (List.mem_of_mem_filter hx)

/-- Object < S < C with M1 included in S, M2 prepended to S and M3 included in C; method 7 is defined in M1, M2, S. -/
def hierarchy : List Cmd :=
  [.newModule, .newModule, .newModule, .newClass 1, .incl 8 5, .prep 8 6, .newClass 8, .defm 5 7 100, .defm 6 7 101, .defm 8 7 102]

example : runs hierarchy (fun h => decide (h.log =
    [.defm 8 7 102, .defm 6 7 101, .defm 5 7 100, .cls 15 (some 10), .cls 14 (some 8), .prep 8 6, .incl 8 5,
     .cls 10 (some 9), .cls 9 (some 4), .cls 8 (some 1), .mod 7, .mod 6, .mod 5, .cls 4 (some 3), .cls 3 (some 2), .cls 2 (some 1),
     .cls 1 (some 0), .cls 0 none]) && h.realB 14 && !h.isSingleton 14 && decide (h.next = 16) &&
     decide (ancestors h 20 14 = some [14, 6, 8, 5, 1, 0]) &&
     decide (searchMethod 40 h 14 7 = some (some (101, 12)))) = true := by decide +kernel

/-- The hypotheses of the theorems hold of that hierarchy. -/
example : ∃ h, Reach h ∧ Orderly h.log ∧ Real h 14 ∧ ¬ Prepended h.log 14 ∧ h.isSingleton 14 = false ∧
    Ancestors h.log 14 [14, 6, 8, 5, 1, 0] ∧ firstMethod h.log 7 [14, 6, 8, 5, 1, 0] = some (101, 6) := by
  obtain ⟨h, R, e⟩ := runs_reach (cs := hierarchy) (p := fun h => decide (h.log =
    [.defm 8 7 102, .defm 6 7 101, .defm 5 7 100, .cls 15 (some 10), .cls 14 (some 8), .prep 8 6, .incl 8 5,
     .cls 10 (some 9), .cls 9 (some 4), .cls 8 (some 1), .mod 7, .mod 6, .mod 5, .cls 4 (some 3), .cls 3 (some 2), .cls 2 (some 1),
     .cls 1 (some 0), .cls 0 none]) && h.realB 14 && !h.isSingleton 14) (by decide +kernel)
  simp only [Bool.and_eq_true, decide_eq_true_eq, Bool.not_eq_true', realB_iff] at e
  obtain ⟨⟨e1, e2⟩, e3⟩ := e
  refine ⟨h, R, ?_, e2, ?_, e3, ?_, ?_⟩
  · rw [e1]; simp [Orderly, Prepended]
  · rw [e1]; simp [Prepended]
  · rw [e1]
    exact .sub (l := [6, 8, 5, 1, 0]) rfl (.sub (l := [1, 0]) rfl (.sub (l := [0]) rfl (.top rfl)))
  · rw [e1]; rfl

/-- A module prepended to the class of the receiver itself does not override its methods: with method 7 in `C` and in
the prepended `M`, a call on an instance of `C` runs the method of `C`. -/
theorem C35_prepend_to_receiver_fails : ∃ h, Reach h ∧ Orderly h.log ∧ Real h 6 ∧ h.isSingleton 6 = false ∧
    ∃ l, Ancestors h.log 6 l ∧ firstMethod h.log 7 l = some (20, 5) ∧ searchMethod 60 h 6 7 = some (some (10, 6)) := by
  obtain ⟨h, R, e⟩ := runs_reach (cs := [.newModule, .newClass 1, .defm 5 7 20, .defm 6 7 10, .prep 6 5])
    (p := fun h => decide (h.log = [.prep 6 5, .defm 6 7 10, .defm 5 7 20, .cls 8 (some 7), .cls 7 (some 4), .cls 6 (some 1), .mod 5,
     .cls 4 (some 3), .cls 3 (some 2), .cls 2 (some 1), .cls 1 (some 0), .cls 0 none]) && h.realB 6 && !h.isSingleton 6 &&
     decide (searchMethod 60 h 6 7 = some (some (10, 6)))) (by decide +kernel)
  simp only [Bool.and_eq_true, decide_eq_true_eq, Bool.not_eq_true', realB_iff] at e
  obtain ⟨⟨⟨e1, e2⟩, e3⟩, e4⟩ := e
  refine ⟨h, R, by rw [e1]; simp [Orderly], e2, e3, [5, 6, 1, 0], ?_, by rw [e1]; rfl, e4⟩
  rw [e1]
  exact .sub (l := [1, 0]) rfl (.sub (l := [0]) rfl (.top rfl))

/-- A module included after a prepend comes before the prepended modules and the class: with method 7 in `C` and in the
module `N` included later, a call on an instance of a subclass runs the method of `N`. -/
theorem C35_include_after_prepend_fails : ∃ h, Reach h ∧ Real h 13 ∧ ¬ Prepended h.log 13 ∧ h.isSingleton 13 = false ∧
    ∃ l, Ancestors h.log 13 l ∧ firstMethod h.log 7 l = some (10, 7) ∧
      (searchMethod 60 h 13 7).map (·.map (·.1)) = some (some 20) := by
  obtain ⟨h, R, e⟩ := runs_reach (cs := [.newModule, .newModule, .newClass 1, .defm 6 7 20, .defm 7 7 10, .prep 7 5, .incl 7 6, .newClass 7])
    (p := fun h => decide (h.log = [.cls 14 (some 9), .cls 13 (some 7), .incl 7 6, .prep 7 5, .defm 7 7 10, .defm 6 7 20,
     .cls 9 (some 8), .cls 8 (some 4), .cls 7 (some 1), .mod 6, .mod 5,
     .cls 4 (some 3), .cls 3 (some 2), .cls 2 (some 1), .cls 1 (some 0), .cls 0 none]) && h.realB 13 && !h.isSingleton 13 &&
     decide ((searchMethod 60 h 13 7).map (·.map (·.1)) = some (some 20))) (by decide +kernel)
  simp only [Bool.and_eq_true, decide_eq_true_eq, Bool.not_eq_true', realB_iff] at e
  obtain ⟨⟨⟨e1, e2⟩, e3⟩, e4⟩ := e
  refine ⟨h, R, e2, by rw [e1]; simp [Prepended], e3, [13, 5, 7, 6, 1, 0], ?_, by rw [e1]; rfl, e4⟩
  rw [e1]
  exact .sub (l := [5, 7, 6, 1, 0]) rfl (.sub (l := [1, 0]) rfl (.sub (l := [0]) rfl (.top rfl)))

/-- An ordinary object with a singleton class answers to the instance methods of `Class` (class 3), although `Class` is
not among its ancestors. -/
theorem C35_singleton_object_fails : ∃ h, Reach h ∧ Orderly h.log ∧ (h.obj 5).info = none ∧ (h.obj 5).cls = 6 ∧
    h.isSingleton 6 = true ∧
    ∃ l, Ancestors h.log 6 l ∧ 3 ∉ l ∧ firstMethod h.log 7 l = none ∧ searchMethod 60 h 6 7 = some (some (30, 3)) := by
  obtain ⟨h, R, e⟩ := runs_reach (cs := [.defm 3 7 30, .newObject 1, .singleton 5])
    (p := fun h => decide (h.log = [.cls 6 (some 1), .defm 3 7 30,
     .cls 4 (some 3), .cls 3 (some 2), .cls 2 (some 1), .cls 1 (some 0), .cls 0 none]) && h.isSingleton 6 && decide ((h.obj 5).cls = 6) &&
     decide ((h.obj 5).info = none) &&
     decide (searchMethod 60 h 6 7 = some (some (30, 3)))) (by decide +kernel)
  simp only [Bool.and_eq_true, decide_eq_true_eq] at e
  obtain ⟨⟨⟨⟨e1, e2⟩, e3⟩, e4⟩, e5⟩ := e
  refine ⟨h, R, by rw [e1]; simp [Orderly], e4, e3, e2, [6, 1, 0], ?_, by decide, by rw [e1]; rfl, e5⟩
  rw [e1]
  exact .sub (l := [1, 0]) rfl (.sub (l := [0]) rfl (.top rfl))

/-- Including a module in itself never returns, however long one waits; Ruby refuses it with an exception. -/
theorem C35_self_include_fails {h : Heap} (R : Reach h) {m : Addr} (hm : IsModule h m) (hp : ¬ Prepended h.log m) :
    ∀ n, appendInclude n h m m = none := by
  intro n
  have I := R.good.toInv
  have hb : hpB h.log m = false := by simpa [← hpB_iff] using hp
  have hpm : (h.info m).prepended = false := by rw [I.hp m hm.1, hb]
  have hmn := hm.1.1
  obtain ⟨g1, g2, g3, g4, g5, _⟩ := gen_spec (h := h) hmn (hm.1.real I)
  have key : includeLoop n ((generateIncluded h m).1.setUpper m (some h.next)) m h.next = none := by
    have gm : (generateIncluded h m).1.info m = h.info m := info_of_obj (g4 m (by omega))
    apply selfLoop
    · rw [setUpper_info, if_pos rfl]
    · rw [setUpper_info, if_neg (by omega), setUpper_info, if_pos rfl, gm]
      have : (generateIncluded h m).1.info h.next = { h.info m with included := true } := info_eq g5
      rw [this]
    · rw [setUpper_info, if_pos rfl, gm]; exact hpm
    · rw [setUpper_next]; show m < h.next + 1; omega
    · rw [setUpper_next]; exact Nat.lt_succ_self _
  unfold appendInclude
  show (match includeLoop n ((generateIncluded h m).1.setUpper m (some h.next)) m h.next with
    | none => none
    | some (h', imodule) => some ((h'.setUpper imodule (h.info m).upper).record (.incl m m))) = none
  rw [key]

example : ∃ h, Reach h ∧ IsModule h 5 ∧ ¬ Prepended h.log 5 :=
  ⟨_, .newModule .boot, ⟨⟨by decide, _, rfl, rfl⟩, rfl⟩, by simp [newModule, newInfo, boot, Prepended]⟩

/-! ## C56 -/

/-- `M === x` holds exactly when `M` is in the list that `Module#ancestors` gives for the class of `x`. -/
theorem C56_case_equality {h : Heap} (R : Reach h) {x m : Addr} (hs : h.isSingleton (h.obj x).cls = false)
    {n : Nat} (hn : h.next + 1 < n) :
    ∃ l, ancestors h n (h.obj x).cls = some l ∧ teqModule n h m x = some (decide (m ∈ l)) := by
  have G := R.good
  obtain ⟨ch, w, s, len, _⟩ := G.toInv.chain _ (G.cls x).1
  refine ⟨_, ancestors_spec s (by omega), ?_⟩
  have hg : getClass n h x = some (some (h.obj x).cls) := by
    obtain ⟨k, rfl⟩ : ∃ k, n = k + 1 := ⟨n - 1, by omega⟩
    simp [getClass, realClassLoop, hs]
  rw [teqModule, hg]
  simp only
  rw [includeModule_spec s (by omega)]

/-- `x.is_a?(K)` holds exactly when `K` is in the ancestor list of the class of `x`, for a class `K` to which nothing
was prepended.  Partial: for modules (`C56_module_fails`) and for classes with prepended modules
(`C56_prepended_class_fails`) it does not hold. -/
theorem C56_is_a_class_partial {h : Heap} (R : Reach h) {x k : Addr} (hk : IsClass h k) (hp : ¬ Prepended h.log k)
    (hs : h.isSingleton (h.obj x).cls = false) {n : Nat} (hn : h.next + 1 < n) :
    ∃ l, ancestors h n (h.obj x).cls = some l ∧ isA n h x k = some (decide (k ∈ l)) := by
  have G := R.good
  have I := G.toInv
  have hcl := (G.cls x).1
  obtain ⟨ch, w, s, len, hch, _, _, _, hcopy⟩ := I.chain _ hcl
  refine ⟨_, ancestors_spec s (by omega), ?_⟩
  have hg : getClass n h x = some (some (h.obj x).cls) := by
    obtain ⟨k, rfl⟩ : ∃ k, n = k + 1 := ⟨n - 1, by omega⟩
    simp [getClass, realClassLoop, hs]
  rw [isA, hg]
  simp only
  rw [kindOf_spec s (by omega)]
  congr 1
  apply decide_eq_decide.2
  constructor
  · intro hm
    refine List.mem_map.2 ⟨k, hm, ?_⟩
    rw [hk.1.real I, I.ext k hk.1]
  · intro hm
    obtain ⟨y, hy, e⟩ := List.mem_map.1 hm
    have real : Real h y → k ∈ (h.obj x).cls :: ch.filter (vis h) := fun hr => by
      rw [hr.real I, I.ext y hr] at e; subst e; exact hy
    rcases List.mem_cons.1 hy with rfl | hy'
    · exact real hcl
    · rcases hch y (List.mem_of_mem_filter hy') with c | r
      · exfalso
        obtain ⟨t, ht⟩ := hcopy y hy' c
        rw [← c.real, e] at ht
        rcases mem_between ht with ⟨d, hd⟩ | hd
        · have := (R.modules d k hd).2
          rw [hk.2] at this; cases this
        · exact hp hd
      · exact real r

/-- An instance of the class at 14 of `hierarchy`: `is_a?` of classes and `===` of modules answer as in Ruby. -/
example : runs (hierarchy ++ [.newObject 14]) (fun h => decide ((h.obj 16).cls = 14) && !h.isSingleton 14 &&
    decide (isA 40 h 16 1 = some true) && decide (isA 40 h 16 2 = some false) && decide (isA 40 h 16 14 = some true) &&
    decide (teqModule 40 h 5 16 = some true) && decide (teqModule 40 h 7 16 = some false)) = true := by decide +kernel

/-- `x.is_a?(M)` is false for a module `M` that the class of `x` includes, although `M` is among its ancestors. -/
theorem C56_module_fails : ∃ h, Reach h ∧ (h.obj 10).cls = 6 ∧ h.isSingleton 6 = false ∧ IsModule h 5 ∧
    ancestors h 60 6 = some [6, 5, 1, 0] ∧ isA 60 h 10 5 = some false := by
  obtain ⟨h, R, e⟩ := runs_reach (cs := [.newModule, .newClass 1, .incl 6 5, .newObject 6])
    (p := fun h => decide ((h.obj 10).cls = 6) && !h.isSingleton 6 && h.realB 5 && (h.info 5).isModule &&
     decide (ancestors h 60 6 = some [6, 5, 1, 0]) && decide (isA 60 h 10 5 = some false)) (by decide +kernel)
  simp only [Bool.and_eq_true, decide_eq_true_eq, Bool.not_eq_true', realB_iff] at e
  obtain ⟨⟨⟨⟨⟨e1, e2⟩, e3⟩, e4⟩, e5⟩, e6⟩ := e
  exact ⟨h, R, e1, e2, ⟨e3, e4⟩, e5, e6⟩

/-- After a module is prepended to `K`, instances of subclasses of `K` are no longer `is_a?(K)`. -/
theorem C56_prepended_class_fails : ∃ h, Reach h ∧ (h.obj 13).cls = 9 ∧ h.isSingleton 9 = false ∧ IsClass h 6 ∧
    ancestors h 60 9 = some [9, 5, 6, 1, 0] ∧ isA 60 h 13 6 = some false := by
  obtain ⟨h, R, e⟩ := runs_reach (cs := [.newModule, .newClass 1, .newClass 6, .prep 6 5, .newObject 9])
    (p := fun h => decide ((h.obj 13).cls = 9) && !h.isSingleton 9 && h.realB 6 && !(h.info 6).isModule &&
     decide (ancestors h 60 9 = some [9, 5, 6, 1, 0]) && decide (isA 60 h 13 6 = some false)) (by decide +kernel)
  simp only [Bool.and_eq_true, decide_eq_true_eq, Bool.not_eq_true', realB_iff] at e
  obtain ⟨⟨⟨⟨⟨e1, e2⟩, e3⟩, e4⟩, e5⟩, e6⟩ := e
  exact ⟨h, R, e1, e2, ⟨e3, e4⟩, e5, e6⟩

/-! ## C66 -/

/-- `super` in a method that the class of the receiver defines itself calls the next definition in the ancestor list.
Partial: only if the class of the receiver has no modules of its own and nothing was prepended to its superclass; a
method found further up the list calls the wrong method (`C66_second_super_fails`, `C66_module_skipped_fails`). -/
theorem C66_super_partial {h : Heap} (R : Reach h) (ho : Orderly h.log) {c s : Addr} (hc : Real h c)
    (hlay : layers h.log c = ([], [])) (hsup : superOf h.log c = some s) (hps : ¬ Prepended h.log s)
    (hss : h.isSingleton s = false) {l : List Addr} (hl : Ancestors h.log c (c :: l)) (name : Id)
    {n : Nat} (hn : h.next + 1 < n) :
    (superMethod n h c name).map (·.map fun r => (r.1, realModule h r.2)) = some (firstMethod h.log name l) := by
  have I := R.good.toInv
  obtain ⟨b, sb, cb, eb⟩ := I.body c hc
  rw [hsup] at sb
  obtain ⟨_, hsr, _⟩ := I.sup c s hsup
  have hlen : b.length ≤ h.next := by
    obtain ⟨l', _, s', _⟩ := I.chain s hsr
    have nd := (sb.cons_none s').nodup
    exact nodup_length (List.Nodup.of_append_left nd) fun x hx => (cb x hx).1
  have hls : Ancestors h.log s l := by
    generalize hm : c :: l = m at hl
    cases hl with
    | top h' => rw [hsup] at h'; cases h'
    | sub h' b =>
      rw [hsup] at h'
      cases h'
      simp only [own, hlay, List.nil_append, List.cons_append, List.cons.injEq, true_and] at hm
      rw [hm]; exact b
  have e : superclass n h c = some (some s) :=
    superLoop_spec sb (fun x hx => (cb x hx).included) hsr.included (by omega)
  rw [superMethod, e]
  exact C35_lookup_order_partial R ho hsr hps hss hls name hn

/-- A class with a superclass that defines method 7, as does the superclass's module. -/
example : runs (hierarchy ++ [.newClass 14, .defm 14 7 103]) (fun h => decide (h.next = 18) && h.realB 16 &&
    decide (layers h.log 16 = ([], [])) && decide (superOf h.log 16 = some 14) && !h.isSingleton 14 &&
    decide (firstMethod h.log 7 [14, 6, 8, 5, 1, 0] = some (103, 14)) &&
    decide (superMethod 40 h 16 7 = some (some (103, 14)))) = true := by decide +kernel

/-- With method 7 defined in `A < Object`, `B < A` and `C < B`, `super` inside the method of `B`, called on an instance of
`C`, finds the method of `B` again instead of that of `A`: the receiver's class and the name alone decide. -/
theorem C66_second_super_fails : ∃ h, Reach h ∧ Orderly h.log ∧ Real h 10 ∧ Ancestors h.log 10 [10, 8, 5, 1, 0] ∧
    firstMethod h.log 7 [8, 5, 1, 0] = some (20, 8) ∧ firstMethod h.log 7 [5, 1, 0] = some (10, 5) ∧
    superMethod 60 h 10 7 = some (some (20, 8)) := by
  obtain ⟨h, R, e⟩ := runs_reach (cs := [.newClass 1, .newClass 5, .newClass 8, .defm 5 7 10, .defm 8 7 20, .defm 10 7 30])
    (p := fun h => decide (h.log = [.defm 10 7 30, .defm 8 7 20, .defm 5 7 10, .cls 11 (some 9), .cls 10 (some 8), .cls 9 (some 7),
      .cls 8 (some 5), .cls 7 (some 6), .cls 6 (some 4), .cls 5 (some 1), .cls 4 (some 3), .cls 3 (some 2), .cls 2 (some 1),
      .cls 1 (some 0), .cls 0 none]) && h.realB 10 && decide (superMethod 60 h 10 7 = some (some (20, 8)))) (by decide +kernel)
  simp only [Bool.and_eq_true, decide_eq_true_eq, realB_iff] at e
  obtain ⟨⟨e1, e2⟩, e3⟩ := e
  refine ⟨h, R, by rw [e1]; simp [Orderly], e2, ?_, by rw [e1]; rfl, by rw [e1]; rfl, e3⟩
  rw [e1]
  exact .sub (l := [8, 5, 1, 0]) rfl (.sub (l := [5, 1, 0]) rfl (.sub (l := [1, 0]) rfl (.sub (l := [0]) rfl (.top rfl))))

/-- With method 7 defined in `B < Object`, in `C < B` and in the module `M` that `C` includes, `super` inside the method of
`C` calls the method of `B`, although that of `M` comes first. -/
theorem C66_module_skipped_fails : ∃ h, Reach h ∧ Orderly h.log ∧ Real h 9 ∧ Ancestors h.log 9 [9, 5, 6, 1, 0] ∧
    firstMethod h.log 7 [5, 6, 1, 0] = some (10, 5) ∧ superMethod 60 h 9 7 = some (some (20, 6)) := by
  obtain ⟨h, R, e⟩ := runs_reach (cs := [.newModule, .newClass 1, .newClass 6, .defm 5 7 10, .defm 6 7 20, .defm 9 7 30, .incl 9 5])
    (p := fun h => decide (h.log = [.incl 9 5, .defm 9 7 30, .defm 6 7 20, .defm 5 7 10, .cls 10 (some 8), .cls 9 (some 6), .cls 8 (some 7),
      .cls 7 (some 4), .cls 6 (some 1), .mod 5, .cls 4 (some 3), .cls 3 (some 2), .cls 2 (some 1),
      .cls 1 (some 0), .cls 0 none]) && h.realB 9 && decide (superMethod 60 h 9 7 = some (some (20, 6)))) (by decide +kernel)
  simp only [Bool.and_eq_true, decide_eq_true_eq, realB_iff] at e
  obtain ⟨⟨e1, e2⟩, e3⟩ := e
  refine ⟨h, R, by rw [e1]; simp [Orderly, Prepended], e2, ?_, by rw [e1]; rfl, e3⟩
  rw [e1]
  exact .sub (l := [6, 1, 0]) rfl (.sub (l := [1, 0]) rfl (.sub (l := [0]) rfl (.top rfl)))

end Verif.Class
