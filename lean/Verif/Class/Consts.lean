import Verif.Class.ConstProps
import Verif.Class.Reflect
import Verif.Class.Open
/-! # C102: asking classes for constants

`Module#constants`, `const_get` and `const_defined?` (builtin/module.rs).  That names in the table begin with a capital letter
is left out, and so are constants that load a file. -/
namespace Verif.Class

/-! ## Model -/

/-- `Module#constants` without argument or with a true one (builtin/module.rs:157-189): how often each name is listed.  The
order of the names is left out. -/
def constants (h : Heap) : Nat → Addr → Option (Id → Nat)
  | 0, _ => none
  | n + 1, c =>
    match upper n h c with
    | none => none
    | some none => some fun id => if (ownConst h c id).isSome then 1 else 0
    | some (some u) =>
      if u = objectC then some fun id => if (ownConst h c id).isSome then 1 else 0
      else (constants h n u).map fun f id => (if (ownConst h c id).isSome then 1 else 0) + f id

/-- `Module#constants(false)` (builtin/module.rs:174-176). -/
def ownConstants (h : Heap) (c : Addr) : Id → Nat := fun id => if (ownConst h c id).isSome then 1 else 0

/-- `Module#const_get` (builtin/module.rs:227-235); the inner `none` is the NameError. -/
def constGet (n : Nat) (h : Heap) (c : Addr) (id : Id) : Option (Option Val) := superConst h (h.info c).isModule id n c

/-- `Module#const_defined?` (builtin/module.rs:219-225), which does not look at its second argument. -/
def constDefined (n : Nat) (h : Heap) (c : Addr) (id : Id) (_inherit : Bool) : Option Bool := (constGet n h c id).map (·.isSome)

/-! ## Specification -/

/-- The ancestors whose constants are listed: all of them for Object, otherwise those before Object. -/
def beforeObject (c : Addr) (l : List Addr) : List Addr := if c = objectC then l else l.takeWhile (· ≠ objectC)

/-- Where a constant of `c` is looked for: among its ancestors, and for a module also in Object. -/
def searched (isModule : Bool) (l : List Addr) : List Addr := if isModule then l ++ [objectC] else l

/-! ## Helpers -/

theorem object_class {h : Heap} (R : Reach h) : IsClass h objectC := by
  induction R with
  | boot => exact boot_class (by decide)
  | newClass _ _ e ih => exact (later_class e).1.isClass ih
  | newModule _ ih => exact (later_new _ _ _ _ _).1.isClass ih
  | @newObject h c _ _ ih =>
    obtain ⟨⟨h1, i, h2, h3⟩, h4⟩ := ih
    have ho : (newObject h c).1.obj objectC = h.obj objectC := by simp [newObject, Heap.alloc, upd, Nat.ne_of_lt h1]
    exact ⟨⟨Nat.lt_succ_of_lt h1, i, by rw [ho]; exact h2, h3⟩, by rw [info_of_obj ho]; exact h4⟩
  | singleton _ _ e ih => exact (later_single e).1.isClass ih
  | incl _ _ _ _ e ih => exact (grows_include e).isClass ih
  | prep _ _ _ _ e ih => exact (grows_prepend e).isClass ih
  | defm _ _ ih => exact ih
  | setc _ _ ih => exact (later_set _ _ _ _).isClass ih

theorem constants_spec {h : Heap} : ∀ {n c l}, Seg h (h.info c).upper l none → l.length + 1 < n →
    constants h n c = some fun id => (c :: (l.filter (vis h)).takeWhile (· ≠ objectC)).countP fun x => (ownConst h x id).isSome
  | n + 1, c, l, s, hn => by
    rcases upper_cases s (show l.length < n by omega) with ⟨a, b⟩ | ⟨y, l₂, a, p, q, r, _⟩
    · simp only [constants, a, b]
      congr 1; funext id
      simp [List.countP_cons]
    · by_cases hy : y = objectC
      · simp only [constants, a, q, hy, if_true]
        congr 1; funext id
        simp [List.countP_cons]
      · simp only [constants, a, q, hy, if_false, constants_spec p (show l₂.length + 1 < n by omega), Option.map_some]
        congr 1; funext id
        simp [List.countP_cons, List.takeWhile_cons, hy]
        omega

theorem superConst_all {h : Heap} {b : Bool} {id : Id} : ∀ {n c l}, Seg h (h.info c).upper l none → l.length + 1 < n →
    superConst h b id n c = some (constIn h id (c :: l.filter (vis h) ++ if b then [objectC] else []))
  | n + 1, c, l, s, hn => by
    rcases hm : ownConst h c id with _ | f
    · rcases upper_cases s (show l.length < n by omega) with ⟨a, b'⟩ | ⟨y, l₂, a, p, q, r, _⟩
      · cases b
        · simp [superConst, hm, a, b', constIn]
        · simp only [superConst, hm, a, b', constIn, if_true, List.cons_append, List.nil_append, List.findSome?_cons, List.findSome?_nil]
          rcases ownConst h objectC id with _ | v <;> rfl
      · simp only [superConst, hm, a, constIn, List.cons_append, List.findSome?_cons]
        rw [superConst_all p (show l₂.length + 1 < n by omega), q]
        rfl
    · simp [superConst, hm, constIn]

theorem constIn_isSome {h : Heap} {id : Id} (l : List Addr) : (constIn h id l).isSome = l.any fun x => (ownConst h x id).isSome := by
  induction l with
  | nil => rfl
  | cons x l ih =>
    simp only [constIn, List.findSome?_cons, List.any_cons] at ih ⊢
    rcases ownConst h x id with _ | v
    · simpa using ih
    · simp

theorem own_between : ∀ {es c}, Prepended es c → c ∈ between es c
  | .prep d m :: es, c, hp => by
    rw [between]
    split
    · rename_i e
      by_cases hb : hpB es c = true
      · simp [hb, own_between (hpB_iff.1 hb)]
      · simp [hb]
    · rename_i e
      obtain ⟨m', hm⟩ := hp
      rcases List.mem_cons.1 hm with hm | hm
      · cases hm; exact absurd rfl e
      · exact own_between ⟨m', hm⟩
  | .incl d m :: es, c, ⟨m', hm⟩ => by
    have ih := own_between (es := es) (c := c) ⟨m', by simpa using hm⟩
    rw [between]
    split
    · simp [ih]
    · exact ih
  | .cls _ _ :: es, c, ⟨m', hm⟩ | .mod _ :: es, c, ⟨m', hm⟩ | .defm _ _ _ :: es, c, ⟨m', hm⟩ | .setc _ _ _ :: es, c, ⟨m', hm⟩ => by
    exact own_between (es := es) (c := c) ⟨m', by simpa using hm⟩
  | [], c, ⟨m', hm⟩ => by cases hm

theorem class_not_between {h : Heap} (R : Reach h) {k : Addr} (hk : IsClass h k) (hp : ¬ Prepended h.log k) (c : Addr) : k ∉ between h.log c := by
  intro e
  rcases mem_between e with ⟨d, hd⟩ | hd
  · have := (R.modules d k hd).2
    rw [hk.2] at this; cases this
  · exact hp hd

theorem walk_lt {h : Heap} (R : Reach h) {k : Addr} (hk : IsClass h k) (hp : ¬ Prepended h.log k) {c : Addr} {w : List Addr}
    (W : Walk h.log c w) (hm : k ∈ w) : k < c := by
  induction W with
  | top _ => exact absurd hm (class_not_between R hk hp _)
  | @sub c s l hs _ ih =>
    have lt := (R.good.toInv.sup _ _ hs).1
    rcases List.mem_append.1 hm with e | e
    · exact absurd e (class_not_between R hk hp _)
    · rcases List.mem_append.1 e with e | e
      · split at e
        · cases e
        · rw [List.mem_singleton.1 e]; exact lt
      · exact Nat.lt_trans (ih e) lt

theorem walk_between {es : List Event} {c : Addr} {w : List Addr} (W : Walk es c w) : ∃ r, w = between es c ++ r := by
  cases W with
  | top _ => exact ⟨[], by simp⟩
  | sub _ _ => exact ⟨_, rfl⟩

theorem takeWhile_append_all {α : Type} {p : α → Bool} : ∀ {a b : List α}, (∀ x ∈ a, p x = true) → (a ++ b).takeWhile p = a ++ b.takeWhile p
  | [], _, _ => rfl
  | x :: a, b, h => by
    have ih := takeWhile_append_all (a := a) (b := b) fun y hy => h y (List.mem_cons_of_mem _ hy)
    rw [List.cons_append, List.takeWhile_cons, h x (by simp), ih]
    rfl

theorem takeWhile_all {α : Type} {p : α → Bool} {l : List α} (h : ∀ x ∈ l, p x = true) : l.takeWhile p = l := by
  have := takeWhile_append_all (b := []) h
  simpa using this

theorem takeWhile_congr {α : Type} {p q : α → Bool} : ∀ {l : List α}, (∀ x ∈ l, p x = q x) → l.takeWhile p = l.takeWhile q
  | [], _ => rfl
  | x :: l, h => by
    rw [List.takeWhile_cons, List.takeWhile_cons, h x (by simp), takeWhile_congr fun y hy => h y (by simp [hy])]

/-! ## C102 -/

/-- `constants` lists the names that some ancestor before Object has (any ancestor, for Object itself).

`_partial`: not if an `include` into a class followed a `prepend` to it, or something was prepended to Object; a name can be
listed more than once (`C102_twice_fails`). -/
theorem C102_constants_partial {h : Heap} (R : Reach h) (ho : Orderly h.log) (hobj : ¬ Prepended h.log objectC) {c : Addr} (hc : Real h c)
    {l : List Addr} (hl : Ancestors h.log c l) {n : Nat} (hn : h.next + 1 < n) :
    ∃ listed, constants h n c = some listed ∧
      ∀ id, 0 < listed id ↔ ∃ a ∈ beforeObject c l, ∃ v, constOf h.log a id = some v := by
  have I := R.good.toInv
  have hO : IsClass h objectC := object_class R
  obtain ⟨ch, w, s, len, hch, W, e1, e2, hcopy⟩ := I.chain c hc
  refine ⟨_, constants_spec s (by omega), fun id => ?_⟩
  have hu := (walk_ancestors ho W).unique hl
  have hext : ∀ x ∈ ch.filter (vis h), ((h.info x).ext = objectC ↔ x = objectC) := by
    intro x hx
    rcases hch x (List.mem_of_mem_filter hx) with cx | rx
    · constructor
      · intro e
        obtain ⟨t, ht⟩ := hcopy x hx cx
        rw [e] at ht
        exact absurd ht (class_not_between R hO hobj t)
      · rintro rfl
        exact absurd hO.1 cx.not_real
    · rw [I.ext x rx]
  have hw : ((ch.filter (vis h)).takeWhile (· ≠ objectC)).map (fun x => (h.info x).ext) = w.takeWhile (· ≠ objectC) := by
    rw [← e2, List.takeWhile_map]
    congr 1
    apply takeWhile_congr
    intro x hx
    simp [hext x hx]
  have same : ∀ a, a ∈ beforeObject c l ↔ ∃ x ∈ c :: (ch.filter (vis h)).takeWhile (· ≠ objectC), (h.info x).ext = a := fun a => by
    have hw' : (∃ x ∈ (ch.filter (vis h)).takeWhile (· ≠ objectC), (h.info x).ext = a) ↔ a ∈ w.takeWhile (· ≠ objectC) := by
      rw [← hw, List.mem_map]
    rw [List.exists_mem_cons_iff, hw', I.ext c hc, ← hu, beforeObject]
    by_cases hco : c = objectC
    · subst hco
      have hb : hpB h.log objectC = false := by simpa [← hpB_iff] using hobj
      have : w.takeWhile (· ≠ objectC) = w := takeWhile_all fun x hx => by
        simp only [decide_eq_true_eq]
        rintro rfl
        exact absurd (walk_lt R hO hobj W hx) (Nat.lt_irrefl _)
      simp only [this, hb, if_true, List.mem_append, Bool.false_eq_true, if_false, List.mem_singleton]
      rw [eq_comm (a := a)]
    · by_cases hb : hpB h.log c = true
      · obtain ⟨r, hr⟩ := walk_between W
        have hall : ∀ x ∈ between h.log c, decide (x ≠ objectC) = true := by
          intro x hx
          simp only [decide_eq_true_eq]
          rintro rfl
          exact class_not_between R hO hobj _ hx
        have hin : c ∈ w.takeWhile (· ≠ objectC) := by
          rw [hr, takeWhile_append_all hall]
          exact List.mem_append_left _ (own_between (hpB_iff.1 hb))
        simp only [hco, hb, if_false, if_true, List.nil_append]
        constructor
        · exact .inr
        · rintro (rfl | m)
          · exact hin
          · exact m
      · simp [hco, hb, List.takeWhile_cons, eq_comm]
  simp only [List.countP_pos_iff, ownConst, I.cons, Option.isSome_iff_exists]
  constructor
  · rintro ⟨x, hx, v, hv⟩
    exact ⟨_, (same _).2 ⟨x, hx, rfl⟩, v, hv⟩
  · rintro ⟨a, ha, v, hv⟩
    obtain ⟨x, hx, rfl⟩ := (same a).1 ha
    exact ⟨x, hx, v, hv⟩

/-- `constants(false)` lists what the class itself has, each name once. -/
theorem C102_own {h : Heap} (R : Reach h) {c : Addr} (hc : Real h c) (id : Id) :
    (ownConstants h c id = 1 ↔ ∃ v, constOf h.log c id = some v) ∧ ownConstants h c id ≤ 1 := by
  rw [ownConstants, own_log R.good.toInv hc]
  rcases constOf h.log c id with _ | v <;> simp

/-- What is listed can be got, and `const_defined?` affirms it, whatever was included or prepended. -/
theorem C102_listed {h : Heap} (R : Reach h) {c : Addr} (hc : Real h c) {n : Nat} (hn : h.next + 1 < n) {listed : Id → Nat}
    (e : constants h n c = some listed) {id : Id} (hid : 0 < listed id) :
    (∃ v, constGet n h c id = some (some v)) ∧ constDefined n h c id true = some true := by
  obtain ⟨ch, w, s, len, _⟩ := R.good.toInv.chain c hc
  rw [constants_spec s (by omega)] at e
  cases e
  have : (constIn h id (c :: ch.filter (vis h) ++ if (h.info c).isModule then [objectC] else [])).isSome = true := by
    rw [constIn_isSome, List.any_append, Bool.or_eq_true]
    left
    simp only [List.countP_pos_iff] at hid
    obtain ⟨x, hx, hv⟩ := hid
    rw [List.any_eq_true]
    refine ⟨x, ?_, hv⟩
    rcases List.mem_cons.1 hx with rfl | hx
    · simp
    · exact List.mem_cons_of_mem _ ((List.takeWhile_sublist _).subset hx)
  have e := superConst_all (b := (h.info c).isModule) (id := id) s (show ch.length + 1 < n by omega)
  rw [constDefined, constGet, e]
  obtain ⟨v, hv⟩ := Option.isSome_iff_exists.1 this
  exact ⟨⟨v, by rw [hv]⟩, by rw [Option.map_some, this]⟩

/-- `const_get` gives the constant of the first ancestor that has it; for a module Object comes last.

`_partial`: not if something was prepended to the class (`C102_prepended_fails`), or an `include` followed a `prepend`; a
module does not see the constants of what Object includes (`C102_module_fails`). -/
theorem C102_get_partial {h : Heap} (R : Reach h) (ho : Orderly h.log) {c : Addr} (hc : Real h c) (hp : ¬ Prepended h.log c)
    {l : List Addr} (hl : Ancestors h.log c l) (id : Id) {n : Nat} (hn : h.next + 1 < n) :
    constGet n h c id = some (firstConst h.log id (searched (h.info c).isModule l)) := by
  have I := R.good.toInv
  have hO : IsClass h objectC := object_class R
  obtain ⟨ch, w, s, len, hch, W, e1, _⟩ := I.chain c hc
  have hu := (walk_ancestors ho W).unique hl
  have hb : hpB h.log c = false := by simpa [← hpB_iff] using hp
  rw [constGet, superConst_all s (by omega), constIn_first I]
  · congr 2
    rw [List.map_append, List.map_cons, e1, ← hu, hc.real I, I.ext c hc, searched]
    cases (h.info c).isModule
    · simp [hb]
    · simp [hb, hO.1.real I, I.ext _ hO.1]
  · intro x hx
    rcases List.mem_append.1 hx with hx | hx
    · rcases List.mem_cons.1 hx with rfl | hx
      · exact .inr hc
      · exact hch x (List.mem_of_mem_filter hx)
    · split at hx
      · rw [List.mem_singleton.1 hx]; exact .inr hO.1
      · cases hx

/-- `const_defined?` tells whether one of them has the constant.

`_partial`: not if an `include` followed a `prepend`; a false second argument is not looked at (`C102_own_defined_fails`). -/
theorem C102_defined_partial {h : Heap} (R : Reach h) (ho : Orderly h.log) {c : Addr} (hc : Real h c)
    {l : List Addr} (hl : Ancestors h.log c l) (id : Id) {n : Nat} (hn : h.next + 1 < n) :
    ∃ b, constDefined n h c id true = some b ∧ (b = true ↔ ∃ a ∈ searched (h.info c).isModule l, ∃ v, constOf h.log a id = some v) := by
  have I := R.good.toInv
  have hO : IsClass h objectC := object_class R
  obtain ⟨ch, w, s, len, hch, W, e1, e2, hcopy⟩ := I.chain c hc
  have hu := (walk_ancestors ho W).unique hl
  refine ⟨_, by rw [constDefined, constGet, superConst_all s (by omega), Option.map_some], ?_⟩
  rw [constIn_isSome]
  have same : ∀ a, a ∈ l ↔ ∃ x ∈ c :: ch.filter (vis h), (h.info x).ext = a := fun a => by
    have hw : (∃ x ∈ ch.filter (vis h), (h.info x).ext = a) ↔ a ∈ w := by rw [← e2, List.mem_map]
    rw [List.exists_mem_cons_iff, hw, I.ext c hc]
    constructor
    · intro m
      rw [← hu] at m
      rcases List.mem_append.1 m with m | m
      · split at m
        · cases m
        · left; simpa using (List.mem_singleton.1 m).symm
      · exact .inr m
    · rintro (rfl | m)
      · exact hl.self
      · rw [← hu]; exact List.mem_append_right _ m
  have same' : ∀ a, a ∈ searched (h.info c).isModule l ↔
      ∃ x ∈ c :: ch.filter (vis h) ++ (if (h.info c).isModule then [objectC] else []), (h.info x).ext = a := fun a => by
    rw [searched]
    cases (h.info c).isModule
    · simpa using same a
    · have : (∃ x ∈ [objectC], (h.info x).ext = a) ↔ a = objectC := by simp [I.ext _ hO.1, eq_comm]
      simp only [if_true, List.mem_append, or_and_right, exists_or, same a, this, List.mem_singleton]
      rw [← this]; simp
  simp only [List.any_eq_true, ownConst, I.cons, Option.isSome_iff_exists]
  constructor
  · rintro ⟨x, hx, v, hv⟩
    exact ⟨_, (same' _).2 ⟨x, hx, rfl⟩, v, hv⟩
  · rintro ⟨a, ha, v, hv⟩
    obtain ⟨x, hx, rfl⟩ := (same' a).1 ha
    exact ⟨x, hx, v, hv⟩

/-! ## Examples and differences -/

/-- Object (1) has constant 9, module 5 constant 1, class 6 includes it and has constant 2, class 10 below it has 3. -/
example : ∃ h, Reach h ∧ Orderly h.log ∧ ¬ Prepended h.log objectC ∧ Real h 10 ∧ ¬ Prepended h.log 10 ∧ Ancestors h.log 10 [10, 6, 5, 1, 0] ∧
    beforeObject 10 [10, 6, 5, 1, 0] = [10, 6, 5] ∧ constOf h.log 5 1 = some 20 ∧ constOf h.log 1 9 = some 23 ∧
    constGet 60 h 10 9 = some (some 23) ∧
    ∃ f, constants h 60 10 = some f ∧ f 1 = 1 ∧ f 2 = 1 ∧ f 3 = 1 ∧ f 9 = 0 := by
  obtain ⟨h, R, e⟩ := runs_reach (cs := [.newModule, .newClass 1, .incl 6 5, .newClass 6, .setc 5 1 20, .setc 6 2 21, .setc 10 3 22, .setc 1 9 23])
    (p := fun h => decide (h.log = [.setc 1 9 23, .setc 10 3 22, .setc 6 2 21, .setc 5 1 20, .cls 11 (some 8), .cls 10 (some 6), .incl 6 5, .cls 8 (some 7),
      .cls 7 (some 4), .cls 6 (some 1), .mod 5, .cls 4 (some 3), .cls 3 (some 2), .cls 2 (some 1), .cls 1 (some 0), .cls 0 none]) && h.realB 10 &&
      decide (constGet 60 h 10 9 = some (some 23)) &&
      match constants h 60 10 with
      | some f => decide (f 1 = 1 ∧ f 2 = 1 ∧ f 3 = 1 ∧ f 9 = 0)
      | none => false) (by decide +kernel)
  simp only [Bool.and_eq_true, decide_eq_true_eq, realB_iff] at e
  obtain ⟨⟨⟨e1, e2⟩, e3⟩, e4⟩ := e
  refine ⟨h, R, by rw [e1]; simp [Orderly, Prepended], by rw [e1]; simp [Prepended], e2, by rw [e1]; simp [Prepended], ?_, rfl, by rw [e1]; rfl,
    by rw [e1]; rfl, e3, ?_⟩
  · rw [e1]
    exact .sub (l := [6, 5, 1, 0]) rfl (.sub (l := [1, 0]) rfl (.sub (l := [0]) rfl (.top rfl)))
  · split at e4
    · rename_i f hf; exact ⟨f, hf, by simpa using e4⟩
    · cases e4

/-- A constant that a subclass defines again is listed twice. -/
theorem C102_twice_fails : ∃ h, Reach h ∧ IsClass h 8 ∧ ∃ f, constants h 60 8 = some f ∧ f 1 = 2 := by
  obtain ⟨h, R, e⟩ := runs_reach (cs := [.newClass 1, .newClass 5, .setc 5 1 20, .setc 8 1 21])
    (p := fun h => h.realB 8 && !(h.info 8).isModule && match constants h 60 8 with
      | some f => decide (f 1 = 2)
      | none => false) (by decide +kernel)
  simp only [Bool.and_eq_true, Bool.not_eq_true', realB_iff] at e
  obtain ⟨⟨e1, e2⟩, e3⟩ := e
  split at e3
  · rename_i f hf; exact ⟨h, R, ⟨e1, e2⟩, f, hf, by simpa using e3⟩
  · cases e3

/-- Once a module was prepended to Object, every class lists the constants of Object. -/
theorem C102_object_fails : ∃ h, Reach h ∧ Orderly h.log ∧ Ancestors h.log 6 [6, 5, 1, 0] ∧ beforeObject 6 [6, 5, 1, 0] = [6, 5] ∧
    constOf h.log 6 9 = none ∧ constOf h.log 5 9 = none ∧ ∃ f, constants h 60 6 = some f ∧ f 9 = 1 := by
  obtain ⟨h, R, e⟩ := runs_reach (cs := [.newModule, .newClass 1, .setc 1 9 20, .prep 1 5])
    (p := fun h => decide (h.log = [.prep 1 5, .setc 1 9 20, .cls 8 (some 7), .cls 7 (some 4), .cls 6 (some 1), .mod 5, .cls 4 (some 3), .cls 3 (some 2),
      .cls 2 (some 1), .cls 1 (some 0), .cls 0 none]) && match constants h 60 6 with
      | some f => decide (f 9 = 1)
      | none => false) (by decide +kernel)
  simp only [Bool.and_eq_true, decide_eq_true_eq] at e
  obtain ⟨e1, e3⟩ := e
  refine ⟨h, R, by rw [e1]; simp [Orderly], ?_, rfl, by rw [e1]; rfl, by rw [e1]; rfl, ?_⟩
  · rw [e1]
    exact .sub (l := [5, 1, 0]) rfl (.sub (l := [0]) rfl (.top rfl))
  · split at e3
    · rename_i f hf; exact ⟨f, hf, by simpa using e3⟩
    · cases e3

/-- `const_get` takes the constant of the class although a prepended module has it too. -/
theorem C102_prepended_fails : ∃ h, Reach h ∧ Orderly h.log ∧ Ancestors h.log 6 [5, 6, 1, 0] ∧ firstConst h.log 1 [5, 6, 1, 0] = some 20 ∧
    constGet 60 h 6 1 = some (some 21) := by
  obtain ⟨h, R, e⟩ := runs_reach (cs := [.newModule, .newClass 1, .prep 6 5, .setc 5 1 20, .setc 6 1 21])
    (p := fun h => decide (h.log = [.setc 6 1 21, .setc 5 1 20, .prep 6 5, .cls 8 (some 7), .cls 7 (some 4), .cls 6 (some 1), .mod 5, .cls 4 (some 3),
      .cls 3 (some 2), .cls 2 (some 1), .cls 1 (some 0), .cls 0 none]) && decide (constGet 60 h 6 1 = some (some 21))) (by decide +kernel)
  simp only [Bool.and_eq_true, decide_eq_true_eq] at e
  obtain ⟨e1, e2⟩ := e
  refine ⟨h, R, by rw [e1]; simp [Orderly], ?_, by rw [e1]; rfl, e2⟩
  rw [e1]
  exact .sub (l := [1, 0]) rfl (.sub (l := [0]) rfl (.top rfl))

/-- A module does not find the constants of a module that Object includes. -/
theorem C102_module_fails : ∃ h, Reach h ∧ IsModule h 6 ∧ Ancestors h.log 1 [1, 5, 0] ∧ firstConst h.log 1 [1, 5, 0] = some 20 ∧
    constGet 60 h 1 1 = some (some 20) ∧ constGet 60 h 6 1 = some none := by
  obtain ⟨h, R, e⟩ := runs_reach (cs := [.newModule, .newModule, .setc 5 1 20, .incl 1 5])
    (p := fun h => decide (h.log = [.incl 1 5, .setc 5 1 20, .mod 6, .mod 5, .cls 4 (some 3), .cls 3 (some 2), .cls 2 (some 1), .cls 1 (some 0), .cls 0 none]) &&
      h.realB 6 && (h.info 6).isModule && decide (constGet 60 h 1 1 = some (some 20)) && decide (constGet 60 h 6 1 = some none)) (by decide +kernel)
  simp only [Bool.and_eq_true, decide_eq_true_eq, realB_iff] at e
  obtain ⟨⟨⟨⟨e1, e2⟩, e3⟩, e4⟩, e5⟩ := e
  refine ⟨h, R, ⟨e2, e3⟩, ?_, by rw [e1]; rfl, e4, e5⟩
  rw [e1]
  exact .sub (l := [0]) rfl (.top rfl)

/-- `const_defined?(name, false)` is true for a constant that the class does not have itself. -/
theorem C102_own_defined_fails : ∃ h, Reach h ∧ IsClass h 5 ∧ constOf h.log 5 1 = none ∧ constDefined 60 h 5 1 false = some true := by
  obtain ⟨h, R, e⟩ := runs_reach (cs := [.newClass 1, .setc 1 1 20])
    (p := fun h => decide (constOf h.log 5 1 = none) && h.realB 5 && !(h.info 5).isModule && decide (constDefined 60 h 5 1 false = some true)) (by decide +kernel)
  simp only [Bool.and_eq_true, decide_eq_true_eq, Bool.not_eq_true', realB_iff] at e
  obtain ⟨⟨⟨e1, e2⟩, e3⟩, e4⟩ := e
  exact ⟨h, R, ⟨e2, e3⟩, e1, e4⟩

end Verif.Class
