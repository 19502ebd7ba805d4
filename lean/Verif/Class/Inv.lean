import Verif.Class.Chain
/-! # The shape of the class graph, and that every operation keeps it -/
namespace Verif.Class

/-! ## What the links hold, from the history -/

def hpB : List Event → Addr → Bool
  | [], _ => false
  | .prep d _ :: es, c => d == c || hpB es c
  | _ :: es, c => hpB es c

theorem hpB_iff {es c} : hpB es c = true ↔ Prepended es c := by
  induction es with
  | nil => simp [hpB, Prepended]
  | cons e es ih =>
    cases e <;> simp_all [hpB, Prepended, exists_or]
    constructor <;> rintro (h | h) <;> simp [h]

/-- The modules found between `c` and its superclass. -/
def between : List Event → Addr → List Addr
  | [], _ => []
  | .incl d m :: es, c =>
    if d = c then ((if hpB es m then [] else [m]) ++ between es m) ++ between es c else between es c
  | .prep d m :: es, c =>
    if d = c then ((if hpB es m then [] else [m]) ++ between es m) ++ (if hpB es c then between es c else c :: between es c)
    else between es c
  | _ :: es, c => between es c

def shown (es : List Event) (m : Addr) : List Addr := (if hpB es m then [] else [m]) ++ between es m

theorem between_orderly : ∀ {es}, Orderly es → ∀ c,
    (hpB es c = false → (layers es c).1 = []) ∧
    between es c = if hpB es c then own es c else (layers es c).2
  | [], _, c => by simp [hpB, layers, between]
  | .incl d m :: es, ho, c => by
    obtain ⟨hd, ho⟩ := ho
    have ic := between_orderly ho c
    have im := between_orderly ho m
    rw [← hpB_iff] at hd
    by_cases h : d = c
    · subst h
      simp only [Bool.not_eq_true] at hd
      simp only [hpB, layers, between, if_pos, hd, ic.1 hd]
      rw [ic.2, im.2]
      cases hm : hpB es m
      · simp [im.1 hm, hd]
      · simp [hd, own]
    · simp [hpB, layers, between, h, ic.2, own]; exact ic.1
  | .prep d m :: es, ho, c => by
    have ic := between_orderly (es := es) ho c
    have im := between_orderly (es := es) ho m
    by_cases h : d = c
    · subst h
      simp only [hpB, layers, between, beq_self_eq_true, Bool.true_or, if_true, own]
      refine ⟨by simp, ?_⟩
      rw [ic.2, im.2]
      cases hm : hpB es m <;> cases hc : hpB es d
      · simp [im.1 hm, ic.1 hc]
      · simp [im.1 hm, own]
      · simp [ic.1 hc, own]
      · simp [own]
    · simp [hpB, layers, between, h, ic.2, own]; exact ic.1
  | .cls _ _ :: es, ho, c | .mod _ :: es, ho, c | .defm _ _ _ :: es, ho, c | .setc _ _ _ :: es, ho, c => by
    have ic := between_orderly (es := es) ho c
    simp only [hpB, layers, between, own] at *
    exact ic

theorem shown_orderly {es} (ho : Orderly es) (m) : shown es m = own es m := by
  have im := between_orderly ho m
  rw [shown, im.2]
  cases hm : hpB es m
  · simp [own, im.1 hm]
  · simp

/-- The address the event is about is below `n`. -/
def Event.below (n : Nat) : Event → Prop
  | .cls c _ | .mod c | .incl c _ | .prep c _ | .defm c _ _ | .setc c _ _ => c < n

theorem fresh_hpB : ∀ {es n}, (∀ e ∈ es, Event.below n e) → ∀ {a}, n ≤ a → hpB es a = false
  | [], _, _, _, _ => rfl
  | e :: es, n, h, a, ha => by
    have ih := fresh_hpB (es := es) (fun e he => h e (by simp [he])) ha
    have he := h e (by simp)
    clear h
    cases e <;> simp only [Event.below] at he <;> simp only [hpB] <;>
      first
        | exact ih
        | (simp [ih]; omega)

theorem fresh_between : ∀ {es n}, (∀ e ∈ es, Event.below n e) → ∀ {a}, n ≤ a → between es a = []
  | [], _, _, _, _ => rfl
  | e :: es, n, h, a, ha => by
    have ih := fresh_between (es := es) (fun e he => h e (by simp [he])) ha
    have he := h e (by simp)
    clear h
    cases e <;> simp only [Event.below] at he <;> simp only [between] <;>
      first
        | exact ih
        | (rw [if_neg (by omega)]; exact ih)

theorem fresh_super : ∀ {es n}, (∀ e ∈ es, Event.below n e) → ∀ {a}, n ≤ a → superOf es a = none
  | [], _, _, _, _ => rfl
  | e :: es, n, h, a, ha => by
    have ih := fresh_super (es := es) (fun e he => h e (by simp [he])) ha
    have he := h e (by simp)
    clear h
    cases e <;> simp only [Event.below] at he <;> simp only [superOf] <;>
      first
        | exact ih
        | (rw [if_neg (by omega)]; exact ih)

theorem fresh_method : ∀ {es n}, (∀ e ∈ es, Event.below n e) → ∀ {a}, n ≤ a → ∀ name, methodOf es a name = none
  | [], _, _, _, _, _ => rfl
  | e :: es, n, h, a, ha, name => by
    have ih := fresh_method (es := es) (fun e he => h e (by simp [he])) ha name
    have he := h e (by simp)
    clear h
    cases e <;> simp only [Event.below] at he <;> simp only [methodOf] <;>
      first
        | exact ih
        | (rw [if_neg (by omega)]; exact ih)

theorem fresh_const : ∀ {es n}, (∀ e ∈ es, Event.below n e) → ∀ {a}, n ≤ a → ∀ name, constOf es a name = none
  | [], _, _, _, _, _ => rfl
  | e :: es, n, h, a, ha, name => by
    have ih := fresh_const (es := es) (fun e he => h e (by simp [he])) ha name
    have he := h e (by simp)
    clear h
    cases e <;> simp only [Event.below] at he <;> simp only [constOf] <;>
      first
        | exact ih
        | (rw [if_neg (by omega)]; exact ih)

/-! ## The invariant -/

/-- A class or module that the program can name: not one of the copies that `include` links in. -/
def Real (h : Heap) (c : Addr) : Prop := c < h.next ∧ ∃ i, (h.obj c).info = some i ∧ i.included = false

/-- One of the copies. -/
def Copy (h : Heap) (x : Addr) : Prop :=
  x < h.next ∧ ∃ i, (h.obj x).info = some i ∧ i.included = true ∧ i.ext < h.next ∧ (h.ext i.ext).origin = some i.ext

structure Inv (h : Heap) : Prop where
  ext : ∀ c, Real h c → (h.info c).ext = c
  body : ∀ c, Real h c → ∃ l, Seg h (h.info c).upper l (superOf h.log c) ∧ (∀ x ∈ l, Copy h x) ∧
    (l.filter (vis h)).map (fun x => (h.info x).ext) = between h.log c
  hp : ∀ c, Real h c → (h.info c).prepended = hpB h.log c
  sup : ∀ c s, superOf h.log c = some s → s < c ∧ Real h s ∧ (h.info s).isModule = false
  mod : ∀ c, Real h c → (h.info c).isModule = true → superOf h.log c = none
  below : ∀ e ∈ h.log, e.below h.next
  meth : ∀ c name, (h.ext c).methods name = methodOf h.log c name
  cons : ∀ c name, (h.ext c).consts name = constOf h.log c name

theorem info_eq {h : Heap} {x i} (e : (h.obj x).info = some i) : h.info x = i := by simp [Heap.info, e]

theorem Copy.included {h x} (c : Copy h x) : (h.info x).included = true := by
  obtain ⟨_, i, e, a, _⟩ := c; rw [info_eq e]; exact a

theorem Copy.real {h x} (c : Copy h x) : realModule h x = (h.info x).ext := by
  obtain ⟨_, i, e, a, _, b⟩ := c; simp [realModule, info_eq e, a, b]

theorem Copy.ext_lt {h x} (c : Copy h x) : (h.info x).ext < h.next := by
  obtain ⟨_, i, e, _, a, _⟩ := c; rw [info_eq e]; exact a

theorem Real.included {h x} (c : Real h x) : (h.info x).included = false := by
  obtain ⟨_, i, e, a⟩ := c; rw [info_eq e]; exact a

theorem Real.real {h x} (I : Inv h) (c : Real h x) : realModule h x = (h.info x).ext := by
  rw [I.ext x c]; simp [realModule, c.included]

theorem Copy.not_real {h x} (c : Copy h x) : ¬ Real h x := by
  intro r; have := c.included; rw [r.included] at this; cases this

/-! ## The whole chain of a class -/

/-- The walk from `c`, by real classes and modules. -/
inductive Walk (es : List Event) : Addr → List Addr → Prop
  | top {c} : superOf es c = none → Walk es c (between es c)
  | sub {c s l} : superOf es c = some s → Walk es s l → Walk es c (between es c ++ ((if hpB es s then [] else [s]) ++ l))

/-- The chain above a class ends; by real modules it reads as `Walk` says. -/
theorem Inv.chain {h : Heap} (I : Inv h) : ∀ c, Real h c → ∃ l w, Seg h (h.info c).upper l none ∧ l.length ≤ h.next ∧
    (∀ x ∈ l, Copy h x ∨ Real h x) ∧ Walk h.log c w ∧ (l.filter (vis h)).map (realModule h) = w ∧
    (l.filter (vis h)).map (fun x => (h.info x).ext) = w ∧
    (∀ x ∈ l.filter (vis h), Copy h x → ∃ s, (h.info x).ext ∈ between h.log s) := by
  intro c
  induction c using Nat.strongRecOn with
  | _ c ih =>
  intro hc
  obtain ⟨b, sb, hb, eb⟩ := I.body c hc
  have key : ∀ l : List Addr, (∀ x ∈ l, Copy h x ∨ Real h x) → (l.filter (vis h)).map (realModule h) =
      (l.filter (vis h)).map (fun x => (h.info x).ext) := by
    intro l hl
    apply List.map_congr_left
    intro x hx
    rcases hl x (List.mem_of_mem_filter hx) with h1 | h1
    · exact h1.real
    · exact h1.real I
  have lt : ∀ x, (Copy h x ∨ Real h x) → x < h.next := by
    rintro x (h1 | h1) <;> exact h1.1
  rcases es : superOf h.log c with _ | s
  · rw [es] at sb
    have hl : ∀ x ∈ b, Copy h x ∨ Real h x := fun x hx => .inl (hb x hx)
    exact ⟨b, _, sb, nodup_length sb.nodup fun x hx => lt x (hl x hx), hl, .top es, by rw [key b hl, eb], eb,
      fun x hx _ => ⟨c, by rw [← eb]; exact List.mem_map.2 ⟨x, hx, rfl⟩⟩⟩
  · rw [es] at sb
    obtain ⟨hlt, hs, _⟩ := I.sup c s es
    obtain ⟨l, w, sl, _, hl, ww, _, e2, e3⟩ := ih s hlt hs
    have hl' : ∀ x ∈ b ++ s :: l, Copy h x ∨ Real h x := by
      intro x hx
      rcases List.mem_append.1 hx with h1 | h1
      · exact .inl (hb x h1)
      · rcases List.mem_cons.1 h1 with rfl | h1
        · exact .inr hs
        · exact hl x h1
    have seg := sb.cons_none sl
    have hext : ((b ++ s :: l).filter (vis h)).map (fun x => (h.info x).ext) =
        between h.log c ++ ((if hpB h.log s then [] else [s]) ++ w) := by
      rw [List.filter_append, List.map_append, eb]
      congr 1
      by_cases hv : hpB h.log s = true
      · rw [List.filter_cons_of_neg (by simp [vis, I.hp s hs, hv]), e2]; simp [hv]
      · rw [List.filter_cons_of_pos (by simp [vis, I.hp s hs, hv]), List.map_cons, e2, I.ext s hs]; simp [hv]
    refine ⟨_, _, seg, nodup_length seg.nodup fun x hx => lt x (hl' x hx), hl', .sub es ww,
      by rw [key _ hl', hext], hext, fun x hx cx => ?_⟩
    rw [List.filter_append] at hx
    rcases List.mem_append.1 hx with hx | hx
    · exact ⟨c, by rw [← eb]; exact List.mem_map.2 ⟨x, hx, rfl⟩⟩
    · obtain ⟨hx1, hx2⟩ := List.mem_filter.1 hx
      rcases List.mem_cons.1 hx1 with rfl | hx1
      · exact absurd hs cx.not_real
      · exact e3 x (List.mem_filter.2 ⟨hx1, hx2⟩) cx

theorem mem_between : ∀ {es c t}, t ∈ between es c → (∃ d, Event.incl d t ∈ es ∨ Event.prep d t ∈ es) ∨ Prepended es t
  | .incl d m :: es, c, t, h => by
    have lift : (∃ d, Event.incl d t ∈ es ∨ Event.prep d t ∈ es) ∨ Prepended es t →
        (∃ d', Event.incl d' t ∈ Event.incl d m :: es ∨ Event.prep d' t ∈ Event.incl d m :: es) ∨ Prepended (.incl d m :: es) t := by
      rintro (⟨e, h⟩ | ⟨e, h⟩)
      · exact .inl ⟨e, by rcases h with h | h <;> simp [h]⟩
      · exact .inr ⟨e, by simp [h]⟩
    rw [between] at h
    split at h
    · rcases List.mem_append.1 h with h | h
      · rcases List.mem_append.1 h with h | h
        · split at h
          · cases h
          · exact .inl ⟨d, .inl (by simp at h; simp [h])⟩
        · exact lift (mem_between h)
      · exact lift (mem_between h)
    · exact lift (mem_between h)
  | .prep d m :: es, c, t, h => by
    have lift : (∃ d, Event.incl d t ∈ es ∨ Event.prep d t ∈ es) ∨ Prepended es t →
        (∃ d', Event.incl d' t ∈ Event.prep d m :: es ∨ Event.prep d' t ∈ Event.prep d m :: es) ∨ Prepended (.prep d m :: es) t := by
      rintro (⟨e, h⟩ | ⟨e, h⟩)
      · exact .inl ⟨e, by rcases h with h | h <;> simp [h]⟩
      · exact .inr ⟨e, by simp [h]⟩
    rw [between] at h
    split at h
    · rename_i hd
      rcases List.mem_append.1 h with h | h
      · rcases List.mem_append.1 h with h | h
        · split at h
          · cases h
          · exact .inl ⟨d, .inr (by simp at h; simp [h])⟩
        · exact lift (mem_between h)
      · split at h
        · exact lift (mem_between h)
        · rcases List.mem_cons.1 h with h | h
          · exact .inr ⟨m, by simp [h, hd]⟩
          · exact lift (mem_between h)
    · exact lift (mem_between h)
  | .cls _ _ :: es, c, t, h | .mod _ :: es, c, t, h | .defm _ _ _ :: es, c, t, h | .setc _ _ _ :: es, c, t, h => by
    rcases mem_between (es := es) (c := c) h with ⟨e, h⟩ | ⟨e, h⟩
    · exact .inl ⟨e, by rcases h with h | h <;> simp [h]⟩
    · exact .inr ⟨e, by simp [h]⟩

end Verif.Class
