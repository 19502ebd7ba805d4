import Verif.Class.Props
/-! # C84, C85: what a program is told about its methods, and aliases

Model of the functions of `builtin/module.rs`, `builtin/object.rs` and `builtin/method.rs` that ask or copy method
tables, on the class graph of `Class/Model.lean`. -/
namespace Verif.Class

/-! ## Model -/

/-- `Module::search_method_no_inherit` (value/class.rs:214-216, 218-222). -/
def ownMethod (h : Heap) (c : Addr) (name : Id) : Option Fn := (h.ext (h.info c).ext).methods name

/-- `Module#instance_methods` with inherited ones (builtin/module.rs:247-262): the names, as a set.  Their order is not
modelled. -/
def instanceMethods (h : Heap) : Nat → Addr → Option (Id → Bool)
  | 0, _ => none
  | n + 1, m =>
    match upper n h m with
    | none => none
    | some none => some fun name => (ownMethod h m name).isSome
    | some (some u) => (instanceMethods h n u).map fun s name => (ownMethod h m name).isSome || s name

/-- `Module#instance_methods(false)` (builtin/module.rs:241-244). -/
def ownMethods (h : Heap) (m : Addr) : Id → Bool := fun name => (ownMethod h m name).isSome

/-- `Module#method_defined?` (builtin/module.rs:286-298). -/
def methodDefined (n : Nat) (h : Heap) (c : Addr) (name : Id) (inherit : Bool) : Option Bool :=
  if inherit then (searchMethod n h c name).map (·.isSome) else some (ownMethod h c name).isSome

/-- `Object#respond_to?` (builtin/object.rs:270-281, globals.rs:182-189), for an object that is not packed.  The lookup
goes through the method cache, which answers like `search_method` (C36). -/
def respondTo (n : Nat) (h : Heap) (x : Addr) (name : Id) : Option Bool :=
  (searchMethod n h (h.obj x).cls name).map (·.isSome)

/-- `Object#methods` (builtin/object.rs:221-228). -/
def methodsOf (n : Nat) (h : Heap) (x : Addr) : Option (Id → Bool) := instanceMethods h n (h.obj x).cls

/-- `Object#method(name).owner` (builtin/object.rs:110-127, builtin/method.rs:29-34): `none` inside for the NameError. -/
def methodOwner (n : Nat) (h : Heap) (x : Addr) (name : Id) : Option (Option Addr) :=
  (searchMethod n h (h.obj x).cls name).map (·.map (·.2))

/-- The loop of `Object#singleton_methods` (builtin/object.rs:248-263). -/
def singletonLoop (h : Heap) : Nat → Option Addr → Option (Id → Bool)
  | 0, _ => none
  | _ + 1, none => some fun _ => false
  | n + 1, some m =>
    if !h.isSingleton m && !(h.info m).included then some fun _ => false
    else
      match upper n h m with
      | none => none
      | some u => (singletonLoop h n u).map fun s name => (ownMethod h m name).isSome || s name

/-- `Object#singleton_methods` (builtin/object.rs:233-268) of an object that is not packed: it makes the singleton
class if there is none, so it also answers with a new heap. -/
def singletonMethods (n : Nat) (h : Heap) (x : Addr) : Option (Heap × (Id → Bool)) :=
  match getSingleton n h x with
  | none => none
  | some (g, s) =>
    match upper n g s with
    | none => none
    | some u => (singletonLoop g n u).map fun t => (g, fun name => (ownMethod g s name).isSome || t name)

/-- `Module#<=>` of two modules (builtin/module.rs:92-112): `none` inside for `nil`. -/
def moduleCmp (n : Nat) (h : Heap) (a b : Addr) : Option (Option Int) :=
  if a = b then some (some 0)
  else
    match includeModule h a n b with
    | none => none
    | some true => some (some 1)
    | some false =>
      match includeModule h b n a with
      | none => none
      | some true => some (some (-1))
      | some false => some none

/-- `Module#include?` (builtin/module.rs:487-492). -/
def includeP (n : Nat) (h : Heap) (c m : Addr) : Option Bool := includeModule h m n c

/-- `Module#included_modules` (builtin/module.rs:396-412).  `origin().unwrap()` as in `realModule`. -/
def includedModules (h : Heap) : Nat → Addr → Option (List Addr)
  | 0, _ => none
  | n + 1, m =>
    let here := if (h.info m).included then [((h.ext (h.info m).ext).origin).getD 0] else []
    match upper n h m with
    | none => none
    | some none => some here
    | some (some u) => (includedModules h n u).map (here ++ ·)

/-- `Module#alias_method` (builtin/module.rs:460-469) and the alias statement in the body of `c`
(builtin/basicobject.rs:14-40, value/class.rs:157-166): `none` inside for the NoMethodError. -/
def aliasMethod (n : Nat) (h : Heap) (c : Addr) (new org : Id) : Option (Option Heap) :=
  (searchMethod n h c org).map fun r => r.map fun r => addMethod h c new r.1

/-- `Module#module_function(name)` (builtin/module.rs:352-365). -/
def moduleFunction (n : Nat) (h : Heap) (c : Addr) (name : Id) : Option (Option Heap) :=
  match getSingleton n h c with
  | none => none
  | some (g, s) => (searchMethod n g c name).map fun r => r.map fun r => addMethod g s name r.1

/-- `Object#extend(m)` (builtin/object.rs:83-90). -/
def extend (n : Nat) (h : Heap) (x m : Addr) : Option Heap :=
  match getSingleton n h x with
  | none => none
  | some (g, s) => appendInclude n g s m

/-! ## Helpers -/

theorem instanceMethods_spec {h : Heap} : ∀ {n c l}, Seg h (h.info c).upper l none → l.length + 1 < n →
    instanceMethods h n c = some fun name => (c :: l.filter (vis h)).any fun x => (ownMethod h x name).isSome
  | n + 1, c, l, s, hn => by
    rcases upper_cases s (show l.length < n by omega) with ⟨a, b⟩ | ⟨y, l₂, a, p, q, r, _⟩
    · simp [instanceMethods, a, b]
    · simp [instanceMethods, a, q, instanceMethods_spec p (show l₂.length + 1 < n by omega)]

theorem firstIn_isSome {h : Heap} {name : Id} : ∀ {l : List Addr},
    (firstIn h name l).isSome = l.any fun x => (ownMethod h x name).isSome
  | [] => rfl
  | x :: l => by
    rw [firstIn, List.any_cons, ← firstIn_isSome]
    simp only [ownMethod]
    cases (h.ext (h.info x).ext).methods name <;> simp

theorem mem_own (es : List Event) (c : Addr) : c ∈ own es c := by simp [own]

theorem Ancestors.self {es c l} (a : Ancestors es c l) : c ∈ l := by
  cases a with
  | top _ => exact mem_own es c
  | sub _ _ => exact List.mem_append_left _ (mem_own es c)

theorem methodOf_skip {es : List Event} {c : Addr} {name : Id} {f : Fn} {rest : List Event}
    (hno : ∀ g, Event.defm c name g ∉ es) : methodOf (es ++ .defm c name f :: rest) c name = some f := by
  induction es with
  | nil => simp [methodOf]
  | cons e es ih =>
    have := ih fun g hg => hno g (by simp [hg])
    cases e with
    | defm d k g =>
      rw [List.cons_append, methodOf]
      rw [if_neg]
      · exact this
      · rintro ⟨rfl, rfl⟩; exact hno g (by simp)
    | _ => simpa [methodOf] using this

theorem mem_layers : ∀ {es c t}, t ∈ (layers es c).1 ∨ t ∈ (layers es c).2 →
    ∃ d, Event.incl d t ∈ es ∨ Event.prep d t ∈ es
  | .incl d m :: es, c, t, h => by
    have lift : (∃ d, Event.incl d t ∈ es ∨ Event.prep d t ∈ es) →
        ∃ d', Event.incl d' t ∈ Event.incl d m :: es ∨ Event.prep d' t ∈ Event.incl d m :: es := by
      rintro ⟨e, h | h⟩ <;> exact ⟨e, by simp [h]⟩
    rw [layers] at h
    split at h
    · simp only [List.mem_append, List.mem_cons] at h
      rcases h with h | (h | h | h) | h
      · exact lift (mem_layers (.inl h))
      · exact lift (mem_layers (.inl h))
      · exact ⟨d, .inl (by simp [h])⟩
      · exact lift (mem_layers (.inr h))
      · exact lift (mem_layers (.inr h))
    · exact lift (mem_layers h)
  | .prep d m :: es, c, t, h => by
    have lift : (∃ d, Event.incl d t ∈ es ∨ Event.prep d t ∈ es) →
        ∃ d', Event.incl d' t ∈ Event.prep d m :: es ∨ Event.prep d' t ∈ Event.prep d m :: es := by
      rintro ⟨e, h | h⟩ <;> exact ⟨e, by simp [h]⟩
    rw [layers] at h
    split at h
    · simp only [List.mem_append, List.mem_cons] at h
      rcases h with ((h | h | h) | h) | h
      · exact lift (mem_layers (.inl h))
      · exact ⟨d, .inr (by simp [h])⟩
      · exact lift (mem_layers (.inr h))
      · exact lift (mem_layers (.inl h))
      · exact lift (mem_layers (.inr h))
    · exact lift (mem_layers h)
  | .cls _ _ :: es, c, t, h | .mod _ :: es, c, t, h | .defm _ _ _ :: es, c, t, h | .setc _ _ _ :: es, c, t, h => by
    obtain ⟨e, h | h⟩ := mem_layers (es := es) (c := c) h <;> exact ⟨e, by simp [h]⟩
  | [], c, t, h => by simp [layers] at h

theorem fresh_layers : ∀ {es n}, (∀ e ∈ es, Event.below n e) → ∀ {a}, n ≤ a → layers es a = ([], [])
  | [], _, _, _, _ => rfl
  | e :: es, n, h, a, ha => by
    have ih := fresh_layers (es := es) (fun e he => h e (by simp [he])) ha
    have he := h e (by simp)
    clear h
    cases e <;> simp only [Event.below] at he <;> simp only [layers] <;>
      first
        | exact ih
        | (rw [if_neg (by omega)]; exact ih)

/-- A class among the ancestors is the class itself or an older one. -/
theorem ancestors_class_le {h : Heap} (R : Reach h) {k : Addr} (hk : IsClass h k) {c : Addr} {l : List Addr}
    (hl : Ancestors h.log c l) (hm : k ∈ l) : k ≤ c := by
  have inOwn : ∀ c, k ∈ own h.log c → k = c := fun c hm => by
    simp only [own, List.mem_append, List.mem_cons] at hm
    have no : ¬ (k ∈ (layers h.log c).1 ∨ k ∈ (layers h.log c).2) := fun e => by
      obtain ⟨d, e⟩ := mem_layers e
      have := (R.modules d k e).2
      rw [hk.2] at this; cases this
    rcases hm with e | e | e
    · exact absurd (.inl e) no
    · exact e
    · exact absurd (.inr e) no
  induction hl with
  | top _ => exact Nat.le_of_eq (inOwn _ hm)
  | sub hs _ ih =>
    rcases List.mem_append.1 hm with e | e
    · exact Nat.le_of_eq (inOwn _ e)
    · exact Nat.le_of_lt (Nat.lt_of_le_of_lt (ih e) (R.good.toInv.sup _ _ hs).1)

/-- The cells of a chain that are not copies are classes. -/
theorem chain_classes {h : Heap} (I : Inv h) : ∀ {c : Addr} {l : List Addr}, Real h c → Seg h (h.info c).upper l none →
    ∀ x ∈ l, Real h x → (h.info x).isModule = false := by
  intro c
  induction c using Nat.strongRecOn with
  | _ c ih =>
  intro l hc s x hx rx
  obtain ⟨b, sb, hb, _⟩ := I.body c hc
  rcases es : superOf h.log c with _ | t
  · rw [es] at sb
    rw [s.unique sb] at hx
    exact absurd rx (hb x hx).not_real
  · rw [es] at sb
    obtain ⟨hlt, ht, hm⟩ := I.sup c t es
    obtain ⟨l', _, s', _⟩ := I.chain t ht
    rw [s.unique (sb.cons_none s')] at hx
    rcases List.mem_append.1 hx with hx | hx
    · exact absurd rx (hb x hx).not_real
    · rcases List.mem_cons.1 hx with rfl | hx
      · exact hm
      · exact ih t hlt ht s' x hx rx

/-! ## C84 -/

/-- The names that `instance_methods` lists, those that `method_defined?` affirms and those that a call on an instance
finds are the same, for every class and module that is not a singleton class, whatever was included or prepended. -/
theorem C84_instance_methods {h : Heap} (R : Reach h) {c : Addr} (hc : Real h c) (hs : h.isSingleton c = false)
    {n : Nat} (hn : h.next + 1 < n) :
    ∃ names, instanceMethods h n c = some names ∧ ∀ name,
      methodDefined n h c name true = some (names name) ∧
      (names name = true ↔ ∃ f owner, searchMethod n h c name = some (some (f, owner))) := by
  obtain ⟨ch, w, s, len, _⟩ := R.good.toInv.chain c hc
  refine ⟨_, instanceMethods_spec s (by omega), fun name => ?_⟩
  have e : searchMethod n h c name = some (firstIn h name (c :: ch.filter (vis h))) := by
    rw [searchMethod, hs, searchLoop_false s (by omega)]
  rw [methodDefined, if_pos rfl, e, ← firstIn_isSome]
  refine ⟨rfl, ?_⟩
  rcases firstIn h name (c :: ch.filter (vis h)) with _ | ⟨f, o⟩ <;> simp

/-- Told from the history: `instance_methods` lists exactly the names that some ancestor defines.  Partial: not if an
`include` into a class followed a `prepend` to it. -/
theorem C84_instance_methods_history_partial {h : Heap} (R : Reach h) (ho : Orderly h.log) {c : Addr} (hc : Real h c)
    {l : List Addr} (hl : Ancestors h.log c l) {n : Nat} (hn : h.next + 1 < n) :
    ∃ names, instanceMethods h n c = some names ∧
      ∀ name, names name = true ↔ ∃ a ∈ l, ∃ f, methodOf h.log a name = some f := by
  have I := R.good.toInv
  obtain ⟨ch, w, s, len, hch, W, e1, e2, _⟩ := I.chain c hc
  refine ⟨_, instanceMethods_spec s (by omega), fun name => ?_⟩
  have hu := (walk_ancestors ho W).unique hl
  have same : ∀ a, a ∈ l ↔ ∃ x ∈ c :: ch.filter (vis h), (h.info x).ext = a := fun a => by
    have hw : (∃ x ∈ ch.filter (vis h), (h.info x).ext = a) ↔ a ∈ w := by rw [← e2, List.mem_map]
    rw [List.exists_mem_cons_iff, hw, I.ext c hc]
    constructor
    · intro m
      rw [← hu] at m
      rcases List.mem_append.1 m with m | m
      · split at m
        · cases m
        · left; simpa using (List.mem_singleton.1 m).symm
      · exact .inr m
    · rintro (rfl | m)
      · exact hl.self
      · rw [← hu]; exact List.mem_append_right _ m
  simp only [List.any_eq_true, ownMethod, I.meth, Option.isSome_iff_exists]
  constructor
  · rintro ⟨x, hx, f, hf⟩
    exact ⟨_, (same _).2 ⟨x, hx, rfl⟩, f, hf⟩
  · rintro ⟨a, ha, f, hf⟩
    obtain ⟨x, hx, rfl⟩ := (same a).1 ha
    exact ⟨x, hx, f, hf⟩

/-- `method_defined?(name, false)` and `instance_methods(false)` tell what the class itself defines, whatever its
ancestors do. -/
theorem C84_own_methods {h : Heap} (R : Reach h) {c : Addr} (hc : Real h c) (n : Nat) (name : Id) :
    methodDefined n h c name false = some (methodOf h.log c name).isSome ∧
    ownMethods h c name = (methodOf h.log c name).isSome := by
  have I := R.good.toInv
  simp [methodDefined, ownMethods, ownMethod, I.ext c hc, I.meth]

/-- `x.respond_to?(name)` and `x.methods` tell whether some ancestor of the class of `x` defines the method, and
`x.method(name)` finds the first such definition.  Partial: as for lookup (C35) the class of `x` is not a singleton
class and nothing was prepended to it. -/
theorem C84_respond_to_partial {h : Heap} (R : Reach h) (ho : Orderly h.log) {x : Addr}
    (hp : ¬ Prepended h.log (h.obj x).cls) (hs : h.isSingleton (h.obj x).cls = false) {l : List Addr}
    (hl : Ancestors h.log (h.obj x).cls l) {n : Nat} (hn : h.next + 1 < n) :
    ∃ names, methodsOf n h x = some names ∧ ∀ name,
      respondTo n h x name = some (names name) ∧
      (names name = true ↔ ∃ a ∈ l, ∃ f, methodOf h.log a name = some f) ∧
      (methodOwner n h x name).map (·.map (realModule h)) = some ((firstMethod h.log name l).map (·.2)) := by
  have hc := (R.good.cls x).1
  obtain ⟨names, e, key⟩ := C84_instance_methods R hc hs hn
  obtain ⟨names', e', key'⟩ := C84_instance_methods_history_partial R ho hc hl hn
  rw [e] at e'; cases e'
  refine ⟨names, e, fun name => ⟨(key name).1, key' name, ?_⟩⟩
  have := C35_lookup_order_partial R ho hc hp hs hl name hn
  rw [methodOwner]
  rcases he : searchMethod n h (h.obj x).cls name with _ | _ | r
  · rw [he] at this; cases this
  · rw [he] at this
    have := Option.some.inj this
    rw [← this]; rfl
  · rw [he] at this
    have := Option.some.inj this
    rw [← this]; rfl

/-- Object 16 of class 14 of `hierarchy` meets the hypotheses; it responds to method 7, which three ancestors define. -/
example : ∃ h, Reach h ∧ Orderly h.log ∧ Real h 14 ∧ (h.obj 16).cls = 14 ∧ ¬ Prepended h.log 14 ∧ h.isSingleton 14 = false ∧
    Ancestors h.log 14 [14, 6, 8, 5, 1, 0] ∧ respondTo 60 h 16 7 = some true ∧ respondTo 60 h 16 8 = some false := by
  obtain ⟨h, R, e⟩ := runs_reach (cs := hierarchy ++ [.newObject 14]) (p := fun h => decide (h.log =
    [.defm 8 7 102, .defm 6 7 101, .defm 5 7 100, .cls 15 (some 10), .cls 14 (some 8), .prep 8 6, .incl 8 5,
     .cls 10 (some 9), .cls 9 (some 4), .cls 8 (some 1), .mod 7, .mod 6, .mod 5, .cls 4 (some 3), .cls 3 (some 2), .cls 2 (some 1),
     .cls 1 (some 0), .cls 0 none]) && h.realB 14 && !h.isSingleton 14 && decide ((h.obj 16).cls = 14) &&
     decide (respondTo 60 h 16 7 = some true) && decide (respondTo 60 h 16 8 = some false)) (by decide +kernel)
  simp only [Bool.and_eq_true, decide_eq_true_eq, Bool.not_eq_true', realB_iff] at e
  obtain ⟨⟨⟨⟨⟨e1, e2⟩, e3⟩, e4⟩, e5⟩, e6⟩ := e
  refine ⟨h, R, ?_, e2, e4, ?_, e3, ?_, e5, e6⟩
  · rw [e1]; simp [Orderly, Prepended]
  · rw [e1]; simp [Prepended]
  · rw [e1]
    exact .sub (l := [6, 8, 5, 1, 0]) rfl (.sub (l := [1, 0]) rfl (.sub (l := [0]) rfl (.top rfl)))

/-- `A <=> B` is 0 if they are the same, 1 if `A` is among the `ancestors` of `B`, otherwise -1 if `B` is among those of
`A`, otherwise nil. -/
theorem C84_compare {h : Heap} (R : Reach h) {a b : Addr} (ha : Real h a) (hb : Real h b) {n : Nat} (hn : h.next + 1 < n) :
    ∃ la lb, ancestors h n a = some la ∧ ancestors h n b = some lb ∧
      moduleCmp n h a b = some (if a = b then some 0 else if a ∈ lb then some 1 else if b ∈ la then some (-1) else none) := by
  obtain ⟨ca, _, sa, na, _⟩ := R.good.toInv.chain a ha
  obtain ⟨cb, _, sb, nb, _⟩ := R.good.toInv.chain b hb
  refine ⟨_, _, ancestors_spec sa (by omega), ancestors_spec sb (by omega), ?_⟩
  rw [moduleCmp, includeModule_spec sb (by omega), includeModule_spec sa (by omega)]
  by_cases e : a = b
  · rw [if_pos e, if_pos e]
  rw [if_neg e, if_neg e]
  by_cases e1 : a ∈ (b :: cb.filter (vis h)).map (realModule h)
  · rw [if_pos e1]; simp only [e1, decide_true]
  rw [if_neg e1]; simp only [e1, decide_false]
  by_cases e2 : b ∈ (a :: ca.filter (vis h)).map (realModule h)
  · rw [if_pos e2]; simp only [e2, decide_true]
  · rw [if_neg e2]; simp only [e2, decide_false]

/-- For classes `<=>` is an order turned around: `A <=> B` is 1 exactly if `B <=> A` is -1.  Partial: the history is
orderly and nothing was prepended to the two classes; for modules that include each other it does not hold
(`C84_mutual_modules_fails`). -/
theorem C84_compare_turned_partial {h : Heap} (R : Reach h) (ho : Orderly h.log) {a b : Addr} (ha : IsClass h a)
    (hb : IsClass h b) (hpa : ¬ Prepended h.log a) (hpb : ¬ Prepended h.log b) {n : Nat} (hn : h.next + 1 < n) :
    moduleCmp n h a b = some (some 1) ↔ moduleCmp n h b a = some (some (-1)) := by
  obtain ⟨la, lb, ea, eb, e⟩ := C84_compare R ha.1 hb.1 hn
  obtain ⟨lb', la', eb', ea', e'⟩ := C84_compare R hb.1 ha.1 hn
  rw [ea] at ea'; cases ea'
  rw [eb] at eb'; cases eb'
  obtain ⟨ta, ha', _⟩ := C35_ancestors_exist R ho ha.1
  obtain ⟨tb, hb', _⟩ := C35_ancestors_exist R ho hb.1
  have xa := C35_ancestors_partial R ho ha.1 hpa ha' hn
  have xb := C35_ancestors_partial R ho hb.1 hpb hb' hn
  rw [ea] at xa; cases xa
  rw [eb] at xb; cases xb
  rw [e, e']
  by_cases hab : a = b
  · subst hab; simp
  have hba : ¬ b = a := fun x => hab x.symm
  rw [if_neg hab, if_neg hba]
  by_cases h1 : a ∈ lb
  · have h2 : b ∉ la := fun h2 => hab (Nat.le_antisymm (ancestors_class_le R ha hb' h1) (ancestors_class_le R hb ha' h2))
    simp [h1, h2]
  · by_cases h2 : b ∈ la <;> simp [h1, h2]

/-- Class 14 of `hierarchy` is below Object, and unrelated to Module. -/
example : runs hierarchy (fun h => h.realB 14 && !(h.info 14).isModule && decide (moduleCmp 40 h 14 1 = some (some (-1))) &&
    decide (moduleCmp 40 h 1 14 = some (some 1)) && decide (moduleCmp 40 h 14 2 = some none) &&
    decide (moduleCmp 40 h 14 6 = some (some (-1))) && !hpB h.log 14 && !hpB h.log 1) = true := by decide +kernel

/-- Two modules that include each other, which Ruby refuses: each is said to be above the other. -/
theorem C84_mutual_modules_fails : ∃ h, Reach h ∧ IsModule h 5 ∧ IsModule h 6 ∧ moduleCmp 60 h 5 6 = some (some 1) ∧
    moduleCmp 60 h 6 5 = some (some 1) := by
  obtain ⟨h, R, e⟩ := runs_reach (cs := [.newModule, .newModule, .incl 5 6, .incl 6 5])
    (p := fun h => h.realB 5 && (h.info 5).isModule && h.realB 6 && (h.info 6).isModule &&
      decide (moduleCmp 60 h 5 6 = some (some 1)) && decide (moduleCmp 60 h 6 5 = some (some 1))) (by decide +kernel)
  simp only [Bool.and_eq_true, decide_eq_true_eq, realB_iff] at e
  obtain ⟨⟨⟨⟨⟨e1, e2⟩, e3⟩, e4⟩, e5⟩, e6⟩ := e
  exact ⟨h, R, ⟨e1, e2⟩, ⟨e3, e4⟩, e5, e6⟩

/-- `C.include?(M)` tells whether the module `M` is among the other ancestors of `C`.  Partial: nothing was prepended to
`C`, and `M` is not `C` itself (`C84_include_itself_fails`). -/
theorem C84_include_partial {h : Heap} (R : Reach h) (ho : Orderly h.log) {c m : Addr} (hc : Real h c)
    (hp : ¬ Prepended h.log c) {l : List Addr} (hl : Ancestors h.log c l) (hcm : m ≠ c) {n : Nat} (hn : h.next + 1 < n) :
    includeP n h c m = some (decide (m ∈ l ∧ m ≠ c)) := by
  have e := C35_ancestors_partial R ho hc hp hl hn
  obtain ⟨ch, _, s, len, _⟩ := R.good.toInv.chain c hc
  rw [ancestors_spec s (by omega)] at e
  rw [includeP, includeModule_spec s (by omega), Option.some.inj e]
  simp [hcm]

/-- Every module is said to include itself. -/
theorem C84_include_itself_fails {h : Heap} (R : Reach h) {m : Addr} (hm : IsModule h m) (n : Nat) :
    includeP (n + 1) h m m = some true := by
  have : realModule h m = m := by rw [hm.1.real R.good.toInv, R.good.toInv.ext m hm.1]
  simp [includeP, includeModule, this]

example : ∃ h, Reach h ∧ IsModule h 5 := ⟨_, .newModule .boot, ⟨⟨by decide, _, rfl, rfl⟩, rfl⟩⟩

/-- `included_modules` lists the modules among the ancestors, in order.  Partial: the history has no `prepend` at all; a
class with a prepended module lists itself (`C84_included_modules_fails`). -/
theorem C84_included_modules_partial {h : Heap} (R : Reach h) (hp : ∀ c, ¬ Prepended h.log c) {c : Addr} (hc : IsClass h c)
    {l : List Addr} (hl : Ancestors h.log c l) {n : Nat} (hn : h.next + 1 < n) :
    includedModules h n c = some (l.filter fun a => (h.info a).isModule) := by
  have I := R.good.toInv
  have ho : Orderly h.log := by
    have : ∀ es : List Event, (∀ c, ¬ Prepended es c) → Orderly es := by
      intro es
      induction es with
      | nil => intro _; trivial
      | cons e es ih =>
        intro hp
        have hp' : ∀ c, ¬ Prepended es c := fun c ⟨m, hm⟩ => hp c ⟨m, by simp [hm]⟩
        cases e <;> first | exact ih hp' | exact ⟨hp' _, ih hp'⟩
    exact this _ hp
  have spec : ∀ {n c l}, Seg h (h.info c).upper l none → l.length + 1 < n → includedModules h n c =
      some (((c :: l.filter (vis h)).filter fun x => (h.info x).included).map (realModule h)) := by
    intro n
    induction n with
    | zero => intro c l _ hn; omega
    | succ n ih =>
      intro c l s hn
      have here : (if (h.info c).included then [((h.ext (h.info c).ext).origin).getD 0] else []) =
          ([c].filter fun x => (h.info x).included).map (realModule h) := by
        by_cases e : (h.info c).included = true <;> simp [e, realModule]
      rcases upper_cases s (show l.length < n by omega) with ⟨a, b⟩ | ⟨y, l₂, a, p, q, r, _⟩
      · simp only [includedModules, a, b, here]
      · simp only [includedModules, a, q, here, ih p (show l₂.length + 1 < n by omega), Option.map_some]
        rw [← List.map_append, ← List.filter_append]; rfl
  obtain ⟨ch, w, s, len, hch, W, e1, _, hcopy⟩ := I.chain c hc.1
  have key : l = (c :: ch.filter (vis h)).map (realModule h) := by
    have hb : hpB h.log c = false := by simpa [← hpB_iff] using hp c
    have := (walk_ancestors ho W).unique hl
    rw [← this, List.map_cons, e1, hc.1.real I, I.ext c hc.1]; simp [hb]
  rw [spec s (by omega), key, List.filter_map]
  congr 2
  apply List.filter_congr
  intro x hx
  have hclass : Real h x → (h.info x).isModule = false → (h.info x).included = ((fun a => (h.info a).isModule) ∘ realModule h) x := by
    intro r hm
    rw [Function.comp, r.real I, I.ext x r, hm, r.included]
  rcases List.mem_cons.1 hx with rfl | hx'
  · exact hclass hc.1 hc.2
  · rcases hch x (List.mem_of_mem_filter hx') with cx | rx
    · obtain ⟨t, ht⟩ := hcopy x hx' cx
      rw [Function.comp, cx.included, cx.real]
      rcases mem_between ht with ⟨d, hd⟩ | hd
      · exact (R.modules d _ hd).2.symm
      · exact absurd hd (hp _)
    · refine hclass rx ?_
      exact chain_classes I hc.1 s x (List.mem_of_mem_filter hx') rx
/-- A class that includes two modules, below a class that includes a third. -/
example : runs [.newModule, .newModule, .newModule, .newClass 1, .incl 8 5, .newClass 8, .incl 12 6, .incl 12 7]
    (fun h => h.realB 12 && !(h.info 12).isModule && decide (includedModules h 60 12 = some [7, 6, 5]) &&
      decide (ancestors h 60 12 = some [12, 7, 6, 8, 5, 1, 0])) = true := by decide +kernel

/-- A class to which a module was prepended lists itself among its included modules. -/
theorem C84_included_modules_fails : ∃ h, Reach h ∧ IsClass h 6 ∧ includedModules h 60 6 = some [5, 6] := by
  obtain ⟨h, R, e⟩ := runs_reach (cs := [.newModule, .newClass 1, .prep 6 5])
    (p := fun h => h.realB 6 && !(h.info 6).isModule && decide (includedModules h 60 6 = some [5, 6])) (by decide +kernel)
  simp only [Bool.and_eq_true, decide_eq_true_eq, Bool.not_eq_true', realB_iff] at e
  obtain ⟨⟨e1, e2⟩, e3⟩ := e
  exact ⟨h, R, ⟨e1, e2⟩, e3⟩

/-- `x.method(name).owner` is not the module that defines the method, but a copy that the program never made. -/
theorem C84_owner_fails : ∃ h, Reach h ∧ Orderly h.log ∧ (h.obj 10).cls = 6 ∧ Ancestors h.log 6 [6, 5, 1, 0] ∧
    firstMethod h.log 7 [6, 5, 1, 0] = some (20, 5) ∧ methodOwner 60 h 10 7 = some (some 9) ∧ ¬ Real h 9 := by
  obtain ⟨h, R, e⟩ := runs_reach (cs := [.newModule, .newClass 1, .incl 6 5, .newObject 6, .defm 5 7 20])
    (p := fun h => decide (h.log = [.defm 5 7 20, .incl 6 5, .cls 8 (some 7), .cls 7 (some 4), .cls 6 (some 1), .mod 5,
      .cls 4 (some 3), .cls 3 (some 2), .cls 2 (some 1), .cls 1 (some 0), .cls 0 none]) && decide ((h.obj 10).cls = 6) &&
      decide (methodOwner 60 h 10 7 = some (some 9)) && !h.realB 9) (by decide +kernel)
  simp only [Bool.and_eq_true, decide_eq_true_eq, Bool.not_eq_true'] at e
  obtain ⟨⟨⟨e1, e2⟩, e3⟩, e4⟩ := e
  refine ⟨h, R, by rw [e1]; simp [Orderly, Prepended], e2, ?_, by rw [e1]; rfl, e3, fun r => ?_⟩
  · rw [e1]
    exact .sub (l := [1, 0]) rfl (.sub (l := [0]) rfl (.top rfl))
  · rw [realB_iff.2 r] at e4; cases e4

/-- The classes above `c` up to, and without, the first that is an ordinary class: the singleton classes and the modules that
were mixed into them. -/
inductive SingletonChain (h : Heap) : Addr → List Addr → Prop
  | top {c k} : upper k h c = some none → SingletonChain h c []
  | ordinary {c d k} : upper k h c = some (some d) → h.isSingleton d = false → (h.info d).included = false → SingletonChain h c []
  | step {c d k l} : upper k h c = some (some d) → h.isSingleton d = true ∨ (h.info d).included = true → SingletonChain h d l →
      SingletonChain h c (d :: l)

theorem singletonLoop_chain {h : Heap} {c : Addr} {u : Option Addr} {k n : Nat} {t : Id → Bool} (hu : upper k h c = some u)
    (hl : singletonLoop h n u = some t) :
    ∃ l, SingletonChain h c l ∧ ∀ name, t name = true ↔ ∃ d ∈ l, (ownMethod h d name).isSome := by
  induction n generalizing c u k t with
  | zero => simp [singletonLoop] at hl
  | succ n ih =>
    cases u with
    | none =>
      simp only [singletonLoop, Option.some.injEq] at hl
      exact ⟨[], .top hu, by simp [← hl]⟩
    | some m =>
      simp only [singletonLoop] at hl
      split at hl
      · rename_i hc
        simp only [Bool.and_eq_true, Bool.not_eq_true'] at hc
        simp only [Option.some.injEq] at hl
        exact ⟨[], .ordinary hu hc.1 hc.2, by simp [← hl]⟩
      · rename_i hc
        split at hl
        · simp at hl
        · rename_i v hv
          obtain ⟨s, hs, rfl⟩ := Option.map_eq_some_iff.1 hl
          obtain ⟨l, h1, h2⟩ := ih hv hs
          refine ⟨m :: l, .step hu ?_ h1, fun name => ?_⟩
          · cases ha : h.isSingleton m <;> cases hb : (h.info m).included <;> simp_all
          · simp [h2]

/-- **C84 (`singleton_methods`).**  It answers the methods of the singleton class and of the singleton classes and mixed-in modules
above it, up to the first ordinary class. Missing: names that are undefined below, or hidden (`C84_singleton_methods_fails`). -/
theorem C84_singleton_methods_partial {h g : Heap} {x : Addr} {n : Nat} {names : Id → Bool}
    (hn : singletonMethods n h x = some (g, names)) :
    ∃ s l, getSingleton n h x = some (g, s) ∧ SingletonChain g s l ∧
      ∀ name, names name = true ↔ ∃ d ∈ s :: l, (ownMethod g d name).isSome := by
  unfold singletonMethods at hn
  split at hn
  · simp at hn
  · rename_i g' s hs
    split at hn
    · simp at hn
    · rename_i u hu
      obtain ⟨t, ht, he⟩ := Option.map_eq_some_iff.1 hn
      cases he
      obtain ⟨l, h1, h2⟩ := singletonLoop_chain hu ht
      exact ⟨s, l, hs, h1, fun name => by simp [h2]⟩

/-- Asking an object for its singleton methods changes what it responds to: afterwards it has the instance methods of
`Class`. -/
theorem C84_singleton_methods_fails : ∃ h g names, Reach h ∧ (h.obj 5).cls = 1 ∧ (h.obj 5).info = none ∧
    respondTo 60 h 5 7 = some false ∧ singletonMethods 60 h 5 = some (g, names) ∧ names 7 = false ∧
    respondTo 60 g 5 7 = some true := by
  obtain ⟨h, R, e⟩ := runs_reach (cs := [.defm 3 7 30, .newObject 1])
    (p := fun h => decide ((h.obj 5).cls = 1) && decide ((h.obj 5).info = none) && decide (respondTo 60 h 5 7 = some false) &&
      match singletonMethods 60 h 5 with
      | some (g, names) => !names 7 && decide (respondTo 60 g 5 7 = some true)
      | none => false) (by decide +kernel)
  simp only [Bool.and_eq_true, decide_eq_true_eq] at e
  obtain ⟨⟨⟨e1, e2⟩, e3⟩, e4⟩ := e
  split at e4
  · rename_i g names hg
    simp only [Bool.and_eq_true, decide_eq_true_eq, Bool.not_eq_true'] at e4
    exact ⟨h, g, names, R, e1, e2, e3, hg, e4.1, e4.2⟩
  · cases e4

/-! ## C85 -/

/-- `alias_method(new, org)` fails exactly if a call of `org` on an instance would not find a method; otherwise it
defines `new` as what such a call runs, and nothing else changes.  Partial: as for lookup, nothing was prepended to the
class, and it is not a singleton class. -/
theorem C85_alias_defines_partial {h : Heap} (R : Reach h) (ho : Orderly h.log) {c : Addr} (hc : Real h c)
    (hp : ¬ Prepended h.log c) (hs : h.isSingleton c = false) {l : List Addr} (hl : Ancestors h.log c l) (new org : Id)
    {n : Nat} (hn : h.next + 1 < n) :
    match firstMethod h.log org l with
    | none => aliasMethod n h c new org = some none
    | some (f, _) => ∃ g, aliasMethod n h c new org = some (some g) ∧ Reach g ∧ g.log = .defm c new f :: h.log := by
  have := C35_lookup_order_partial R ho hc hp hs hl org hn
  rw [aliasMethod]
  rcases he : searchMethod n h c org with _ | _ | r
  · rw [he] at this; cases this
  · rw [he] at this
    rw [← Option.some.inj this]; rfl
  · rw [he] at this
    rw [← Option.some.inj this]
    exact ⟨_, rfl, .defm R hc, rfl⟩

/-- If a call of `org` on an instance runs `f` at the time of the alias, a call of `new` runs `f` for ever after, whatever
happens — `org` is defined again, here or elsewhere, modules are included or prepended, classes are made —, until `new`
itself is defined again in the class. -/
theorem C85_alias_stays {h g k : Heap} (R : Reach h) {c : Addr} (hc : Real h c) {new org : Id} {f : Fn} {o : Addr} {n : Nat}
    (hf : searchMethod n h c org = some (some (f, o))) (ha : aliasMethod n h c new org = some (some g))
    (Rk : Reach k) {later : List Event} (hk : k.log = later ++ g.log) (hck : Real k c)
    (hno : ∀ f', Event.defm c new f' ∉ later) (n' : Nat) :
    Reach g ∧ searchMethod (n' + 1) k c new = some (some (f, c)) := by
  rw [aliasMethod, hf] at ha
  obtain rfl : addMethod h c new f = g := Option.some.inj (Option.some.inj ha)
  refine ⟨.defm R hc, ?_⟩
  have I := Rk.good.toInv
  have : (k.ext (k.info c).ext).methods new = some f := by
    rw [I.ext c hck, I.meth, hk]
    exact methodOf_skip hno
  simp [searchMethod, searchLoop, this]

/-- The alias 8 of method 7 in class 14 of `hierarchy`, after which the module that defines 7 gets another definition
and the class one of its own: a call of 8 still runs the old one. -/
example : runs hierarchy (fun h => match aliasMethod 60 h 14 8 7 with
    | some (some g) => match runAll 60 g [.defm 6 7 200, .defm 14 7 201, .defm 8 8 202, .incl 14 7, .defm 7 8 203] with
      | some k => decide (searchMethod 60 h 14 7 = some (some (101, 12))) && decide (searchMethod 60 k 14 8 = some (some (101, 14))) &&
        decide (searchMethod 60 k 14 7 = some (some (201, 14))) && k.realB 14 && decide (k.log.drop 5 = g.log)
      | none => false
    | _ => false) = true := by decide +kernel

/-- Instances of subclasses and of classes that include the module see the alias too, unless a nearer ancestor defines a
method of that name. -/
theorem C85_alias_inherited_partial {g k : Heap} {c : Addr} {new : Id} {f : Fn} {rest : List Event}
    (hg : g.log = .defm c new f :: rest) (Rk : Reach k) (ho : Orderly k.log) {later : List Event}
    (hk : k.log = later ++ g.log) (hno : ∀ f', Event.defm c new f' ∉ later)
    {d : Addr} (hd : Real k d) (hp : ¬ Prepended k.log d) (hs : k.isSingleton d = false) {before after : List Addr}
    (hl : Ancestors k.log d (before ++ c :: after)) (hb : ∀ a ∈ before, methodOf k.log a new = none)
    {n : Nat} (hn : k.next + 1 < n) :
    (searchMethod n k d new).map (·.map fun r => (r.1, realModule k r.2)) = some (some (f, c)) := by
  rw [C35_lookup_order_partial Rk ho hd hp hs hl new hn]
  congr 1
  have hm : methodOf k.log c new = some f := by rw [hk, hg, methodOf_skip hno]
  clear hl
  induction before with
  | nil => simp [firstMethod, hm]
  | cons a as ih =>
    rw [List.cons_append, firstMethod, hb a (by simp)]
    exact ih fun x hx => hb x (by simp [hx])

/-- What `getSingleton` does for a module or an ordinary object: nothing, or one new class above the old one. -/
theorem getSingleton_flat {n : Nat} {h : Heap} {x : Addr} (hx : ∀ i, (h.obj x).info = some i → i.isModule = true) :
    getSingleton (n + 1) h x = some (if h.isSingleton (h.obj x).cls then (h, (h.obj x).cls)
      else (((newInfo h classC false (some (h.obj x).cls) (some x)).1).setCls x h.next, h.next)) := by
  rw [getSingleton]
  by_cases e : h.isSingleton (h.obj x).cls = true
  · simp [e]
  · simp only [e]
    rcases hi : (h.obj x).info with _ | i
    · rfl
    · simp only [hx i hi]; rfl

/-- `module_function :name` makes the method of the module callable on the module itself: a call finds the definition
that instances of including classes would get, now as the module's own; without such a definition it fails. -/
theorem C85_module_function_partial {h : Heap} (R : Reach h) (ho : Orderly h.log) {m : Addr} (hm : IsModule h m)
    (hp : ¬ Prepended h.log m) (hs : h.isSingleton m = false) (name : Id) {n : Nat} (hn : h.next + 2 < n) :
    match firstMethod h.log name (own h.log m) with
    | none => moduleFunction n h m name = some none
    | some (f, _) => ∃ g, moduleFunction n h m name = some (some g) ∧ Reach g ∧
        ∀ n', searchMethod (n' + 1) g (g.obj m).cls name = some (some (f, (g.obj m).cls)) := by
  obtain ⟨k, rfl⟩ : ∃ k, n = k + 1 := ⟨n - 1, by omega⟩
  have hx : ∀ i, (h.obj m).info = some i → i.isModule = true := fun i hi => by rw [← info_eq hi]; exact hm.2
  have es := getSingleton_flat (n := k) hx
  -- the heap after the singleton class is there
  obtain ⟨g0, s, e0, R0, hs0, hc0, hl0, hsing0, hn0⟩ : ∃ g0 s, getSingleton (k + 1) h m = some (g0, s) ∧ Reach g0 ∧
      IsModule g0 m ∧ (g0.obj m).cls = s ∧ (g0.log = h.log ∨ g0.log = .cls h.next (some (h.obj m).cls) :: h.log) ∧
      g0.isSingleton m = false ∧ g0.next ≤ h.next + 1 := by
    by_cases e : h.isSingleton (h.obj m).cls = true
    · rw [if_pos e] at es
      exact ⟨_, _, es, R, hm, rfl, .inl rfl, hs, by omega⟩
    · rw [if_neg e] at es
      have hne : m ≠ h.next := Nat.ne_of_lt hm.1.1
      have nr := newInfo_real (cls := classC) (b := false) (sup := some (h.obj m).cls) (target := some m) hm.1
      refine ⟨_, _, es, .singleton R (.inl hm.1) es, ⟨(setCls_real _ _ _ _).2 nr.1, by rw [setCls_info, nr.2]; exact hm.2⟩, ?_,
        .inr rfl, ?_, Nat.le_refl _⟩
      · simp [Heap.setCls, upd]
      · have : (h.info m).ext = m := R.good.toInv.ext m hm.1
        simp only [Heap.isSingleton, setCls_info, nr.2, this] at hs ⊢
        simp [Heap.setCls, newInfo, upd, hne, hs]
  have I := R.good.toInv
  have hsup : superOf h.log m = none := I.mod m hm.1 hm.2
  have hown : own g0.log m = own h.log m := by rcases hl0 with e | e <;> rw [e] <;> rfl
  have hmeth : ∀ a, methodOf g0.log a name = methodOf h.log a name := by
    intro a; rcases hl0 with e | e <;> rw [e] <;> rfl
  have hfirst : ∀ l, firstMethod g0.log name l = firstMethod h.log name l := by
    intro l
    induction l with
    | nil => rfl
    | cons a l ih => rw [firstMethod, firstMethod, hmeth, ih]
  have ho0 : Orderly g0.log := by rcases hl0 with e | e <;> rw [e] <;> exact ho
  have hp0 : ¬ Prepended g0.log m := by
    rcases hl0 with e | e <;> rw [e]
    · exact hp
    · rintro ⟨t, ht⟩; exact hp ⟨t, by simpa using ht⟩
  have A : Ancestors g0.log m (own h.log m) := by
    rw [← hown]; exact .top (R0.good.toInv.mod m hs0.1 hs0.2)
  have look := C35_lookup_order_partial R0 ho0 hs0.1 hp0 hsing0 A name (n := k + 1) (by omega)
  rw [hfirst] at look
  rw [moduleFunction, e0]
  simp only
  rcases he : searchMethod (k + 1) g0 m name with _ | _ | r
  · rw [he] at look; cases look
  · rw [he] at look
    rw [← Option.some.inj look]; rfl
  · rw [he] at look
    rw [← Option.some.inj look]
    have hreal : Real g0 s := by rw [← hc0]; exact (R0.good.cls m).1
    refine ⟨_, rfl, .defm R0 hreal, fun n' => ?_⟩
    have hc1 : ((addMethod g0 s name r.1).obj m).cls = s := hc0
    rw [hc1]
    have Rg : Reach (addMethod g0 s name r.1) := .defm R0 hreal
    have : ((addMethod g0 s name r.1).ext ((addMethod g0 s name r.1).info s).ext).methods name = some r.1 := by
      simp [addMethod, Heap.info, upd]
    simp [searchMethod, searchLoop, this]

/-- Module 5 with method 7: afterwards `M.7` is found, before it is not. -/
example : runs [.newModule, .defm 5 7 100] (fun h => !h.isSingleton 5 && h.realB 5 && (h.info 5).isModule &&
    decide (firstMethod h.log 7 (own h.log 5) = some (100, 5)) && decide (searchMethod 60 h (h.obj 5).cls 7 = some none) &&
    match moduleFunction 60 h 5 7 with
    | some (some g) => decide (searchMethod 60 g (g.obj 5).cls 7 = some (some (100, (g.obj 5).cls)))
    | _ => false) = true := by decide +kernel

/-- `x.extend(M)`: a call on the object looks in `M` with its modules, then in the ancestors of the class of `x`.
Partial: the object had no singleton class, and some definition is found (`C35_singleton_object_fails`). -/
theorem C35_extend_partial {h : Heap} (R : Reach h) (ho : Orderly h.log) {x m : Addr} (hxn : x < h.next)
    (hx : (h.obj x).info = none)
    (hs : h.isSingleton (h.obj x).cls = false) (hm : IsModule h m) {l : List Addr}
    (hl : Ancestors h.log (h.obj x).cls l) (name : Id) {r} (hr : firstMethod h.log name (own h.log m ++ l) = some r)
    {n : Nat} {g : Heap} (e : extend n h x m = some g) {n' : Nat} (hn' : 2 * g.next + 2 < n') :
    (searchMethod n' g (g.obj x).cls name).map (·.map fun r => (r.1, realModule g r.2)) = some (some r) := by
  have I := R.good.toInv
  cases n with
  | zero => simp [extend, getSingleton] at e
  | succ n =>
  have es := getSingleton_flat (n := n) (h := h) (x := x) (fun i hi => by rw [hx] at hi; cases hi)
  rw [if_neg (by simp [hs])] at es
  rw [extend, es] at e
  simp only at e
  have nw := newInfo_new (h := h) (cls := classC) (b := false) (sup := some (h.obj x).cls) (target := some x)
  have R0 := Reach.singleton R (.inr hx) es
  generalize hg0 : ((newInfo h classC false (some (h.obj x).cls) (some x)).1).setCls x h.next = g0 at *
  have hlog0 : g0.log = .cls h.next (some (h.obj x).cls) :: h.log := by rw [← hg0]; rfl
  have hr0 : Real g0 h.next := by rw [← hg0]; exact (setCls_real _ _ _ _).2 nw.1
  have nm := newInfo_real (cls := classC) (b := false) (sup := some (h.obj x).cls) (target := some x) hm.1
  have hm0 : IsModule g0 m := by
    rw [← hg0]
    exact ⟨(setCls_real _ _ _ _).2 nm.1, by rw [setCls_info, nm.2]; exact hm.2⟩
  have hne : h.next ≠ m := Nat.ne_of_gt hm.1.1
  have hcls0 : (g0.obj x).cls = h.next := by rw [← hg0]; simp [Heap.setCls, upd]
  have gr := grows_include e
  have Rg : Reach g := .incl R0 hr0 hm0 hne e
  have hlog : g.log = .incl h.next m :: .cls h.next (some (h.obj x).cls) :: h.log := by
    rw [(incl_good R0.good hr0 hm0 hne e).2, hlog0]
  have hn0 : h.next < g0.next := hr0.1
  have hcls : (g.obj x).cls = h.next := by rw [(gr.keep x (by omega)).1, hcls0]
  have Ig := Rg.good.toInv
  have hrg := (gr.real hr0).1
  have hsing : g.isSingleton h.next = true := by
    rw [Heap.isSingleton, Ig.ext _ hrg, gr.sing, ← hg0]
    simp [Heap.setCls, newInfo, upd]
  have hpre : ∀ c, Prepended g.log c → Prepended h.log c := by
    rintro c ⟨t, ht⟩; rw [hlog] at ht; exact ⟨t, by simpa using ht⟩
  have hnp : ¬ Prepended g.log h.next := fun hp => by
    obtain ⟨t, ht⟩ := hpre _ hp
    exact absurd (I.below _ ht) (by simp [Event.below])
  have hog : Orderly g.log := by
    rw [hlog]
    refine ⟨fun ⟨t, ht⟩ => ?_, ho⟩
    have ht : Event.prep h.next t ∈ h.log := by simpa using ht
    exact absurd (I.below _ ht) (by simp [Event.below])
  have hlay : ∀ c, c ≠ h.next → layers g.log c = layers h.log c := fun c hc => by
    rw [hlog]; simp [layers, hc.symm]
  have hsupO : ∀ c, c ≠ h.next → superOf g.log c = superOf h.log c := fun c hc => by
    rw [hlog]; simp [superOf, hc.symm]
  have anc : ∀ {c l}, Ancestors h.log c l → c < h.next → Ancestors g.log c l := by
    intro c l A
    induction A with
    | top hs =>
      intro hc
      have e1 := hlay _ (Nat.ne_of_lt hc)
      have := Ancestors.top ((hsupO _ (Nat.ne_of_lt hc)).trans hs)
      rwa [own, e1] at this
    | sub hs _ ih =>
      intro hc
      have e1 := hlay _ (Nat.ne_of_lt hc)
      have := Ancestors.sub ((hsupO _ (Nat.ne_of_lt hc)).trans hs) (ih (Nat.lt_trans (I.sup _ _ hs).1 hc))
      rwa [own, e1] at this
  have ownS : own g.log h.next = h.next :: own h.log m := by
    rw [own, hlog]
    simp [layers, own, fresh_layers I.below (Nat.le_refl h.next)]
  have A : Ancestors g.log h.next (own g.log h.next ++ l) :=
    .sub (by rw [hlog]; simp [superOf]) (anc hl (R.good.cls x).1.1)
  have hmeth : ∀ a, methodOf g.log a name = methodOf h.log a name := fun a => by rw [hlog]; rfl
  have hfirst : ∀ l, firstMethod g.log name l = firstMethod h.log name l := by
    intro l
    induction l with
    | nil => rfl
    | cons a l ih => rw [firstMethod, firstMethod, hmeth, ih]
  rw [hcls]
  refine C35_singleton_lookup_partial Rg hog hrg hnp hsing A name ?_ hn'
  rw [hfirst, ownS, List.cons_append, firstMethod, fresh_method I.below (Nat.le_refl _)]
  exact hr

/-- An object of class 6, which defines method 7, is extended with module 5, which defines 7 and 8: both calls go to the
module. -/
example : runs [.newModule, .newClass 1, .defm 6 7 100, .defm 5 7 101, .defm 5 8 102, .newObject 6] (fun h =>
    decide ((h.obj 9).cls = 6) && decide ((h.obj 9).info = none) && !h.isSingleton 6 && h.realB 5 && (h.info 5).isModule &&
    decide (firstMethod h.log 7 (own h.log 5 ++ [6, 1, 0]) = some (101, 5)) &&
    match extend 60 h 9 5 with
    | some g => decide ((searchMethod 60 g (g.obj 9).cls 7).map (·.map (·.1)) = some (some 101)) &&
      decide ((searchMethod 60 g (g.obj 9).cls 8).map (·.map (·.1)) = some (some 102)) &&
      decide ((searchMethod 60 h (h.obj 9).cls 7).map (·.map (·.1)) = some (some 100))
    | none => false) = true := by decide +kernel

end Verif.Class
