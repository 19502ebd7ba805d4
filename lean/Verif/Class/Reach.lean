import Verif.Class.Ops
/-! # Every reachable class graph has the shape -/
namespace Verif.Class

/-! ## What never changes about an object -/

/-- Objects stay, with their class field and everything but their links. -/
structure Grows (h g : Heap) : Prop where
  next : h.next ≤ g.next
  cls : ∀ x, ∃ y, (g.obj x).cls = (h.obj y).cls
  keep : ∀ x, x < h.next → (g.obj x).cls = (h.obj x).cls ∧
    ∀ i, (h.obj x).info = some i → ∃ u p, (g.obj x).info = some { i with upper := u, prepended := p }
  sing : ∀ a, (g.ext a).singletonFor = (h.ext a).singletonFor

theorem Grows.refl (h : Heap) : Grows h h :=
  ⟨Nat.le_refl _, fun x => ⟨x, rfl⟩, fun _ _ => ⟨rfl, fun i hi => ⟨i.upper, i.prepended, hi⟩⟩, fun _ => rfl⟩

theorem Grows.trans {h g k} (a : Grows h g) (b : Grows g k) : Grows h k := by
  refine ⟨Nat.le_trans a.next b.next, fun x => ?_, fun x hx => ?_, fun x => (b.sing x).trans (a.sing x)⟩
  · obtain ⟨y, hy⟩ := b.cls x
    obtain ⟨z, hz⟩ := a.cls y
    exact ⟨z, hy.trans hz⟩
  · have hx' : x < g.next := Nat.lt_of_lt_of_le hx a.next
    refine ⟨(b.keep x hx').1.trans (a.keep x hx).1, fun i hi => ?_⟩
    obtain ⟨u, p, e⟩ := (a.keep x hx).2 i hi
    obtain ⟨u', p', e'⟩ := (b.keep x hx').2 _ e
    exact ⟨u', p', e'⟩

theorem Grows.info {h g : Heap} (r : Grows h g) {x i} (hx : x < h.next) (e : (h.obj x).info = some i) :
    ∃ u p, g.info x = { i with upper := u, prepended := p } := by
  obtain ⟨u, p, t⟩ := (r.keep x hx).2 i e
  exact ⟨u, p, info_eq t⟩

theorem grows_gen (h : Heap) (m o : Addr) : Grows h (generateIncludedFrom h m o).1 := by
  refine ⟨Nat.le_succ _, fun x => ?_, fun x hx => ?_, fun x => by
    simp only [generateIncludedFrom, Heap.alloc, upd]; split <;> simp_all⟩
  · by_cases e : x = h.next
    · exact ⟨m, by simp [generateIncludedFrom, Heap.alloc, upd, e]⟩
    · exact ⟨x, by simp [generateIncludedFrom, Heap.alloc, upd, e]⟩
  · have : (generateIncludedFrom h m o).1.obj x = h.obj x := by
      simp [generateIncludedFrom, Heap.alloc, upd, Nat.ne_of_lt hx]
    rw [this]
    exact ⟨rfl, fun i hi => ⟨i.upper, i.prepended, hi⟩⟩

theorem grows_setInfo (h : Heap) (a : Addr) (u p) : Grows h (h.setInfo a { h.info a with upper := u, prepended := p }) := by
  refine ⟨Nat.le_refl _, fun x => ⟨x, ?_⟩, fun x _ => ⟨?_, fun i hi => ?_⟩, fun _ => rfl⟩
  · rw [setInfo_obj]; split
    · rename_i e; rw [e]
    · rfl
  · rw [setInfo_obj]; split
    · rename_i e; rw [e]
    · rfl
  · rw [setInfo_obj]; split
    · rename_i e; subst e; exact ⟨u, p, by simp [info_eq hi]⟩
    · exact ⟨i.upper, i.prepended, hi⟩

theorem grows_setUpper (h : Heap) (a : Addr) (u) : Grows h (h.setUpper a u) := grows_setInfo h a u (h.info a).prepended

theorem Grows.record {h g : Heap} (r : Grows h g) (e : Event) : Grows h (g.record e) := ⟨r.next, r.cls, r.keep, r.sing⟩

theorem grows_loop : ∀ {n h m i g last}, includeLoop n h m i = some (g, last) → Grows h g
  | n + 1, h, m, i, g, last, e => by
    rw [includeLoop] at e
    rcases hu : upper n h m with _ | _ | y
    · simp [hu] at e
    · rw [hu] at e; simp at e; obtain ⟨rfl, _⟩ := e; exact .refl _
    · rw [hu] at e
      exact ((grows_gen h y _).trans (grows_setUpper _ _ _)).trans (grows_loop e)

theorem grows_include {n h c m g} (e : appendInclude n h c m = some g) : Grows h g := by
  unfold appendInclude at e
  have e : (match includeLoop n ((generateIncluded h m).1.setUpper c (some h.next)) m h.next with
      | none => none
      | some (h', imodule) => some ((h'.setUpper imodule (h.info c).upper).record (.incl c m))) = some g := e
  rcases hl : includeLoop n ((generateIncluded h m).1.setUpper c (some h.next)) m h.next with _ | ⟨k, last⟩
  · rw [hl] at e; simp at e
  · rw [hl] at e; simp only [Option.some.injEq] at e; subst e
    exact (((grows_gen h m _).trans (grows_setUpper _ _ _)).trans (grows_loop hl)).trans (grows_setUpper _ _ _) |>.record _

theorem grows_prepend {n h c m g} (e : appendPrepend n h c m = some g) : Grows h g := by
  unfold appendPrepend at e
  have e : (match includeLoop n ((generateIncluded h m).1.setUpper c (some h.next)) m h.next with
        | none => none
        | some (h', imodule) => if !(h'.info c).prepended then
            some ((((((generateIncludedFrom h' c c).1.setUpper (generateIncludedFrom h' c c).2 (h.info c).upper).setUpper imodule
              (some (generateIncludedFrom h' c c).2)).setInfo c { (((generateIncludedFrom h' c c).1.setUpper (generateIncludedFrom h' c c).2 (h.info c).upper).setUpper imodule
              (some (generateIncludedFrom h' c c).2)).info c with prepended := true })).record (.prep c m))
          else some ((h'.setUpper imodule (h.info c).upper).record (.prep c m))) = some g := e
  rcases hl : includeLoop n ((generateIncluded h m).1.setUpper c (some h.next)) m h.next with _ | ⟨k, last⟩
  · rw [hl] at e; simp at e
  · rw [hl] at e; simp only at e
    have base := ((grows_gen h m (realModule h m)).trans (grows_setUpper _ c (some h.next))).trans (grows_loop hl)
    split at e
    · simp only [Option.some.injEq] at e; subst e
      exact (((base.trans (grows_gen k c c)).trans (grows_setUpper _ _ _)).trans (grows_setUpper _ _ _)).trans
        (grows_setInfo _ c _ true) |>.record _
    · simp only [Option.some.injEq] at e; subst e
      exact base.trans (grows_setUpper _ _ _) |>.record _

/-- Classes of objects are classes. -/
def ClsOK (h : Heap) : Prop := ∀ x, Real h (h.obj x).cls ∧ (h.info (h.obj x).cls).isModule = false

/-- A class that the program can name. -/
def IsClass (h : Heap) (c : Addr) : Prop := Real h c ∧ (h.info c).isModule = false
/-- A module that the program can name. -/
def IsModule (h : Heap) (m : Addr) : Prop := Real h m ∧ (h.info m).isModule = true

theorem Grows.real {h g : Heap} (r : Grows h g) {a} (ha : Real h a) :
    Real g a ∧ (g.info a).isModule = (h.info a).isModule := by
  obtain ⟨h1, i, e, a1⟩ := ha
  obtain ⟨u, p, t⟩ := (r.keep a h1).2 i e
  exact ⟨⟨Nat.lt_of_lt_of_le h1 r.next, _, t, a1⟩, by rw [info_eq t, info_eq e]⟩

theorem Grows.clsOK {h g : Heap} (r : Grows h g) (c : ClsOK h) : ClsOK g := fun x => by
  obtain ⟨y, e⟩ := r.cls x
  rw [e]
  obtain ⟨a, b⟩ := r.real (c y).1
  exact ⟨a, b.trans (c y).2⟩

/-! ## The other operations -/

theorem inv_congr {h g : Heap} (I : Inv h) (hn : g.next = h.next) (ho : ∀ x, (g.obj x).info = (h.obj x).info)
    (he : g.ext = h.ext) (hl : g.log = h.log) : Inv g := by
  have hi : ∀ x, g.info x = h.info x := fun x => by simp [Heap.info, ho]
  have hr : ∀ a, Real g a ↔ Real h a := fun a => by simp [Real, hn, ho]
  have hc : ∀ a, Copy g a ↔ Copy h a := fun a => by simp [Copy, hn, ho, he]
  refine ⟨fun c hc' => ?_, fun c hc' => ?_, fun c hc' => ?_, fun c s hs => ?_, fun c hc' hm => ?_, ?_, ?_, ?_⟩
  · rw [hi]; exact I.ext c ((hr c).1 hc')
  · obtain ⟨l, s, a, b⟩ := I.body c ((hr c).1 hc')
    refine ⟨l, ?_, fun x hx => (hc x).2 (a x hx), ?_⟩
    · rw [hi, hl]; exact s.congr fun x _ => by rw [hi]
    · rw [hl, ← b, List.filter_congr (q := vis h) (fun x _ => by simp [vis, hi])]
      exact List.map_congr_left fun x _ => by rw [hi]
  · rw [hi, hl]; exact I.hp c ((hr c).1 hc')
  · rw [hl] at hs
    obtain ⟨a, b, c'⟩ := I.sup c s hs
    exact ⟨a, (hr s).2 b, by rw [hi]; exact c'⟩
  · rw [hl]; rw [hi] at hm; exact I.mod c ((hr c).1 hc') hm
  · rw [hl, hn]; exact I.below
  · rw [he, hl]; exact I.meth
  · rw [he, hl]; exact I.cons

theorem setCls_inv {h : Heap} (I : Inv h) (a c : Addr) : Inv (h.setCls a c) :=
  inv_congr I rfl (fun x => by simp only [Heap.setCls, upd]; split <;> simp_all) rfl rfl

theorem inv_new {h g : Heap} (I : Inv h) (hn : g.next = h.next + 1) (ho : ∀ x, x ≠ h.next → g.obj x = h.obj x)
    (hx : ∀ e, e ≠ h.next → g.ext e = h.ext e)
    (hxm : (g.ext h.next).methods = fun _ => none) (hxc : (g.ext h.next).consts = fun _ => none)
    (hi : ((g.obj h.next).info = none ∧ g.log = h.log) ∨
      ∃ b sup, (g.obj h.next).info = some { upper := sup, isModule := b, ext := h.next } ∧
        g.log = (if b then .mod h.next else .cls h.next sup) :: h.log ∧
        (∀ s, sup = some s → IsClass h s) ∧ (b = true → sup = none)) : Inv g := by
  have oldinfo : ∀ x, x ≠ h.next → g.info x = h.info x := fun x hx => info_of_obj (ho x hx)
  have real_old : ∀ a, a ≠ h.next → (Real g a ↔ Real h a) := fun a ha => by
    simp only [Real, ho a ha, hn]
    constructor
    · rintro ⟨h1, h2⟩; exact ⟨by omega, h2⟩
    · rintro ⟨h1, h2⟩; exact ⟨by omega, h2⟩
  have real_mono : ∀ a, Real h a → Real g a := fun a ha => (real_old a (by have := ha.1; omega)).2 ha
  have copy_mono : ∀ a, Copy h a → Copy g a := by
    rintro a ⟨h1, i, h2, h3, h4, h5⟩
    exact ⟨by omega, i, by rw [ho a (by omega)]; exact h2, h3, by omega, by rw [hx _ (by omega)]; exact h5⟩
  have hs : ∀ a, a ≠ h.next → superOf g.log a = superOf h.log a := fun a ha => by
    rcases hi with ⟨_, e⟩ | ⟨b, sup, _, e, _, _⟩
    · rw [e]
    · rw [e]; cases b <;> simp [superOf, Ne.symm ha]
  have hb : ∀ a, between g.log a = between h.log a := fun a => by
    rcases hi with ⟨_, e⟩ | ⟨b, sup, _, e, _, _⟩
    · rw [e]
    · rw [e]; cases b <;> simp [between]
  have hp : ∀ a, hpB g.log a = hpB h.log a := fun a => by
    rcases hi with ⟨_, e⟩ | ⟨b, sup, _, e, _, _⟩
    · rw [e]
    · rw [e]; cases b <;> simp [hpB]
  have hm : ∀ a name, methodOf g.log a name = methodOf h.log a name := fun a name => by
    rcases hi with ⟨_, e⟩ | ⟨b, sup, _, e, _, _⟩
    · rw [e]
    · rw [e]; cases b <;> simp [methodOf]
  have hc : ∀ a name, constOf g.log a name = constOf h.log a name := fun a name => by
    rcases hi with ⟨_, e⟩ | ⟨b, sup, _, e, _, _⟩
    · rw [e]
    · rw [e]; cases b <;> simp [constOf]
  have newreal : Real g h.next → ∃ b sup, (g.obj h.next).info = some { upper := sup, isModule := b, ext := h.next } ∧
        g.log = (if b then .mod h.next else .cls h.next sup) :: h.log ∧
        (∀ s, sup = some s → IsClass h s) ∧ (b = true → sup = none) := by
    rintro ⟨_, i, e, _⟩
    rcases hi with ⟨e', _⟩ | h'
    · rw [e'] at e; cases e
    · exact h'
  have hsn : ∀ b sup, g.log = (if b then .mod h.next else .cls h.next sup) :: h.log → (b = true → sup = none) →
      superOf g.log h.next = sup := by
    intro b sup e hb
    rw [e]
    cases b
    · simp [superOf]
    · simp only [if_true, superOf]
      rw [fresh_super I.below (Nat.le_refl _), hb rfl]
  refine ⟨?_, ?_, ?_, ?_, ?_, ?_, ?_, ?_⟩
  · intro a ha
    by_cases e : a = h.next
    · subst e
      obtain ⟨b, sup, h1, _⟩ := newreal ha
      rw [info_eq h1]
    · rw [oldinfo a e]; exact I.ext a ((real_old a e).1 ha)
  · intro a ha
    by_cases e : a = h.next
    · subst e
      obtain ⟨b, sup, h1, h2, _, h4⟩ := newreal ha
      refine ⟨[], ?_, by simp, ?_⟩
      · rw [info_eq h1, hsn b sup h2 h4]; rfl
      · rw [hb, fresh_between I.below (Nat.le_refl _)]; rfl
    · obtain ⟨l, s, c, t⟩ := I.body a ((real_old a e).1 ha)
      have inf : ∀ x ∈ l, g.info x = h.info x := fun x hx => oldinfo x (by have := (c x hx).1; omega)
      refine ⟨l, ?_, fun x hx => copy_mono x (c x hx), ?_⟩
      · rw [oldinfo a e, hs a e]
        exact s.congr fun x hx => by rw [inf x hx]
      · rw [hb, ← t, List.filter_congr (q := vis h) (fun x hx => by simp [vis, inf x hx])]
        exact List.map_congr_left fun x hx => by rw [inf x (List.mem_of_mem_filter hx)]
  · intro a ha
    rw [hp]
    by_cases e : a = h.next
    · subst e
      obtain ⟨b, sup, h1, _⟩ := newreal ha
      rw [info_eq h1, fresh_hpB I.below (Nat.le_refl _)]
    · rw [oldinfo a e]; exact I.hp a ((real_old a e).1 ha)
  · intro a s hsa
    by_cases e : a = h.next
    · subst e
      rcases hi with ⟨_, e⟩ | ⟨b, sup, _, e, h3, h4⟩
      · rw [e, fresh_super I.below (Nat.le_refl _)] at hsa; cases hsa
      · rw [hsn b sup e h4] at hsa
        obtain ⟨r, m⟩ := h3 s hsa
        exact ⟨r.1, real_mono s r, by rw [oldinfo s (by have := r.1; omega)]; exact m⟩
    · rw [hs a e] at hsa
      obtain ⟨h1, h2, h3⟩ := I.sup a s hsa
      exact ⟨h1, real_mono s h2, by rw [oldinfo s (by have := h2.1; omega)]; exact h3⟩
  · intro a ha hmod
    by_cases e : a = h.next
    · subst e
      obtain ⟨b, sup, h1, h2, _, h4⟩ := newreal ha
      rw [info_eq h1] at hmod
      rw [hsn b sup h2 h4]; exact h4 hmod
    · rw [hs a e]; rw [oldinfo a e] at hmod
      exact I.mod a ((real_old a e).1 ha) hmod
  · have old : ∀ e ∈ h.log, e.below g.next := fun e he => by
      have := I.below e he
      rw [hn]
      revert this
      cases e <;> simp only [Event.below] <;> omega
    rcases hi with ⟨_, e⟩ | ⟨b, sup, _, e, _, _⟩
    · rw [e]; exact old
    · rw [e]
      intro e' he'
      rcases List.mem_cons.1 he' with rfl | he'
      · cases b <;> simp [Event.below, hn]
      · exact old e' he'
  · intro a name
    rw [hm]
    by_cases e : a = h.next
    · subst e; rw [hxm, fresh_method I.below (Nat.le_refl _)]
    · rw [hx a e]; exact I.meth a name
  · intro a name
    rw [hc]
    by_cases e : a = h.next
    · subst e; rw [hxc, fresh_const I.below (Nat.le_refl _)]
    · rw [hx a e]; exact I.cons a name

theorem newObject_inv {h : Heap} (I : Inv h) (c : Addr) : Inv (newObject h c).1 := by
  refine inv_new I rfl (fun x hx => by simp [newObject, Heap.alloc, upd, hx]) (fun _ _ => rfl) ?_ ?_
    (.inl ⟨by simp [newObject, Heap.alloc, upd], rfl⟩)
  · funext name; exact (I.meth _ name).trans (fresh_method I.below (Nat.le_refl _) name)
  · funext name; exact (I.cons _ name).trans (fresh_const I.below (Nat.le_refl _) name)

theorem newInfo_inv {h : Heap} (I : Inv h) (cls b sup target) (hs : ∀ s, sup = some s → IsClass h s) (hb : b = true → sup = none) :
    Inv (newInfo h cls b sup target).1 :=
  inv_new I rfl (fun x hx => by simp [newInfo, upd, hx]) (fun x hx => by simp [newInfo, upd, hx])
    (by simp [newInfo, upd]) (by simp [newInfo, upd])
    (.inr ⟨b, sup, by simp [newInfo, upd], rfl, hs, hb⟩)

theorem newInfo_real {h : Heap} {cls b sup target} {a} (ha : Real h a) :
    Real (newInfo h cls b sup target).1 a ∧ (newInfo h cls b sup target).1.info a = h.info a := by
  have := ha.1
  have ho : (newInfo h cls b sup target).1.obj a = h.obj a := by simp [newInfo, upd]; omega
  obtain ⟨_, i, e1, e2⟩ := ha
  exact ⟨⟨Nat.lt_succ_of_lt this, i, by rw [ho]; exact e1, e2⟩, info_of_obj ho⟩

theorem newInfo_new {h : Heap} {cls b sup target} : Real (newInfo h cls b sup target).1 h.next ∧
    (newInfo h cls b sup target).1.info h.next = { upper := sup, isModule := b, ext := h.next } := by
  have : ((newInfo h cls b sup target).1.obj h.next).info = some { upper := sup, isModule := b, ext := h.next } := by
    simp [newInfo, upd]
  exact ⟨⟨Nat.lt_succ_self _, _, this, rfl⟩, info_eq this⟩

theorem setCls_info (h : Heap) (a c x) : (h.setCls a c).info x = h.info x := by
  simp only [Heap.info, Heap.setCls, upd]; split <;> simp_all

theorem setCls_real (h : Heap) (a c x) : Real (h.setCls a c) x ↔ Real h x := by
  have : ((h.setCls a c).obj x).info = (h.obj x).info := by
    simp only [Heap.setCls, upd]; split <;> simp_all
  simp only [Real, this]; rfl

/-- The invariant of a reachable heap. -/
structure Good (h : Heap) : Prop extends Inv h where
  cls : ClsOK h
  top : IsClass h classC
  modu : IsClass h moduleC

theorem IsClass.newInfo {h : Heap} {cls b sup target a} (ha : IsClass h a) : IsClass (newInfo h cls b sup target).1 a :=
  ⟨(newInfo_real ha.1).1, by rw [(newInfo_real ha.1).2]; exact ha.2⟩

theorem newInfo_good {h : Heap} (I : Good h) {cls b sup target} (hc : IsClass h cls) (hs : ∀ s, sup = some s → IsClass h s)
    (hb : b = true → sup = none) : Good (newInfo h cls b sup target).1 := by
  refine ⟨newInfo_inv I.toInv cls b sup target hs hb, fun x => ?_, I.top.newInfo, I.modu.newInfo⟩
  have : IsClass h ((newInfo h cls b sup target).1.obj x).cls := by
    simp only [newInfo, upd]; split
    · exact hc
    · exact I.cls x
  exact this.newInfo

theorem setCls_good {h : Heap} (I : Good h) {a c : Addr} (hc : IsClass h c) : Good (h.setCls a c) := by
  have key : ∀ x, IsClass h x → IsClass (h.setCls a c) x := fun x hx =>
    ⟨(setCls_real h a c x).2 hx.1, by rw [setCls_info]; exact hx.2⟩
  refine ⟨setCls_inv I.toInv a c, fun x => key _ ?_, key _ I.top, key _ I.modu⟩
  simp only [Heap.setCls, upd]; split
  · exact hc
  · exact I.cls x

theorem newObject_good {h : Heap} (I : Good h) {c : Addr} (hc : IsClass h c) : Good (newObject h c).1 := by
  have key : ∀ x, IsClass h x → IsClass (newObject h c).1 x := fun x hx => by
    have := hx.1.1
    have ho : (newObject h c).1.obj x = h.obj x := by simp [newObject, Heap.alloc, upd]; omega
    obtain ⟨_, i, e1, e2⟩ := hx.1
    exact ⟨⟨Nat.lt_succ_of_lt this, i, by rw [ho]; exact e1, e2⟩, by rw [info_of_obj ho]; exact hx.2⟩
  refine ⟨newObject_inv I.toInv c, fun x => key _ ?_, key _ I.top, key _ I.modu⟩
  simp only [newObject, Heap.alloc, upd]; split
  · exact hc
  · exact I.cls x

/-- Making one singleton class. -/
theorem singleton_good {h : Heap} (I : Good h) (a : Addr) {sup : Option Addr} (hs : ∀ s, sup = some s → IsClass h s) :
    Good ((newInfo h classC false sup (some a)).1.setCls a (newInfo h classC false sup (some a)).2) ∧
    IsClass ((newInfo h classC false sup (some a)).1.setCls a (newInfo h classC false sup (some a)).2)
      (newInfo h classC false sup (some a)).2 ∧
    ∀ x, IsClass h x → IsClass ((newInfo h classC false sup (some a)).1.setCls a (newInfo h classC false sup (some a)).2) x := by
  have g := newInfo_good I (b := false) (target := some a) I.top hs (fun e => by cases e)
  have c : IsClass (newInfo h classC false sup (some a)).1 h.next := ⟨newInfo_new.1, by rw [newInfo_new.2]⟩
  have key : ∀ x, IsClass (newInfo h classC false sup (some a)).1 x →
    IsClass ((newInfo h classC false sup (some a)).1.setCls a (newInfo h classC false sup (some a)).2) x := fun x hx =>
    ⟨(setCls_real _ _ _ x).2 hx.1, by rw [setCls_info]; exact hx.2⟩
  exact ⟨setCls_good g c, key _ c, fun x hx => key x hx.newInfo⟩

theorem superclass_class {h : Heap} (I : Inv h) {n c s} (hc : Real h c) (e : superclass n h c = some (some s)) : IsClass h s := by
  obtain ⟨l, sl, cl, _⟩ := I.body c hc
  have big : ∃ r, superclass (n + l.length + 1) h c = some r ∧ ∀ s, r = some s → IsClass h s := by
    rcases hs : superOf h.log c with _ | t
    · rw [hs] at sl
      exact ⟨none, superLoop_none sl (fun x hx => (cl x hx).included) (by omega), fun s e => by cases e⟩
    · rw [hs] at sl
      obtain ⟨_, r, m⟩ := I.sup c t hs
      exact ⟨some t, superLoop_spec sl (fun x hx => (cl x hx).included) r.included (by omega), fun s e => by
        cases e; exact ⟨r, m⟩⟩
  obtain ⟨r, e', hr⟩ := big
  have mono : ∀ k, superclass (n + k) h c = some (some s) := by
    intro k
    induction k with
    | zero => exact e
    | succ k ih => exact superLoop_mono ih
  have := mono (l.length + 1)
  rw [show n + (l.length + 1) = n + l.length + 1 by omega, e'] at this
  exact hr s (Option.some.inj this)

theorem getSingleton_good : ∀ {n h a g s}, Good h → (∀ i, (h.obj a).info = some i → Real h a) →
    getSingleton n h a = some (g, s) → Good g ∧ IsClass g s ∧ ∀ x, IsClass h x → IsClass g x
  | n + 1, h, a, g, s, I, ha, e => by
    rw [getSingleton] at e
    simp only at e
    split at e
    · simp only [Option.some.injEq, Prod.mk.injEq] at e
      obtain ⟨rfl, rfl⟩ := e
      exact ⟨I, I.cls a, fun _ hx => hx⟩
    · split at e
      · rename_i i hi
        have hr := ha i hi
        split at e
        · simp only [Option.some.injEq, Prod.mk.injEq] at e
          obtain ⟨rfl, rfl⟩ := e
          exact singleton_good I a fun s hs => by cases hs; exact I.cls a
        · split at e
          · cases e
          · simp only [Option.some.injEq, Prod.mk.injEq] at e
            obtain ⟨rfl, rfl⟩ := e
            exact singleton_good I a fun s hs => by cases hs
          · rename_i sup hsup
            have hsc := superclass_class I.toInv hr hsup
            split at e
            · cases e
            · rename_i g1 ss hg
              obtain ⟨G, cs, mono⟩ := getSingleton_good I (fun _ _ => hsc.1) hg
              simp only [Option.some.injEq, Prod.mk.injEq] at e
              obtain ⟨rfl, rfl⟩ := e
              obtain ⟨q1, q2, q3⟩ := singleton_good G a (sup := some ss) (fun s hs => by cases hs; exact cs)
              exact ⟨q1, q2, fun x hx => q3 x (mono x hx)⟩
      · simp only [Option.some.injEq, Prod.mk.injEq] at e
        obtain ⟨rfl, rfl⟩ := e
        exact singleton_good I a fun s hs => by cases hs; exact I.cls a

theorem newClass_good {n h sup g c} (I : Good h) (hs : IsClass h sup) (e : newClass n h sup = some (g, c)) :
    Good g ∧ IsClass g c ∧ ∀ x, IsClass h x → IsClass g x := by
  have G := newInfo_good I (cls := classC) (b := false) (sup := some sup) (target := none) I.top (fun s hs' => by cases hs'; exact hs)
    (fun e => by cases e)
  have C : IsClass (newInfo h classC false (some sup) none).1 h.next := ⟨newInfo_new.1, by rw [newInfo_new.2]⟩
  unfold newClass at e
  have e : (match getSingleton n (newInfo h classC false (some sup) none).1 h.next with
    | none => none
    | some (h', _) => some (h', h.next)) = some (g, c) := e
  split at e
  · cases e
  · rename_i g' s hg
    obtain ⟨a, b, d⟩ := getSingleton_good G (fun _ _ => C.1) hg
    simp only [Option.some.injEq, Prod.mk.injEq] at e
    obtain ⟨rfl, rfl⟩ := e
    exact ⟨a, d _ C, fun x hx => d x hx.newInfo⟩

theorem newModule_good {h} (I : Good h) : Good (newModule h).1 :=
  newInfo_good I I.modu (fun s hs => by cases hs) (fun _ => rfl)

/-- Writing into the extension of a class. -/
theorem inv_ext {h g : Heap} (I : Good h) {c : Addr} (hc : Real h c) {e : Event} (hn : g.next = h.next) (ho : g.obj = h.obj)
    (hx : ∀ a, a ≠ c → g.ext a = h.ext a) (hxo : (g.ext c).origin = (h.ext c).origin)
    (hl : g.log = e :: h.log) (he : (∃ name f, e = .defm c name f) ∨ ∃ name v, e = .setc c name v)
    (hm : ∀ name, (g.ext c).methods name = methodOf g.log c name)
    (hcs : ∀ name, (g.ext c).consts name = constOf g.log c name) : Good g := by
  have hi : ∀ x, g.info x = h.info x := fun x => by simp [Heap.info, ho]
  have hr : ∀ a, Real g a ↔ Real h a := fun a => by simp [Real, hn, ho]
  have hor : ∀ a, (g.ext a).origin = (h.ext a).origin := fun a => by
    by_cases e : a = c
    · subst e; exact hxo
    · rw [hx a e]
  have hcp : ∀ a, Copy g a ↔ Copy h a := fun a => by simp [Copy, hn, ho, hor]
  have hs : ∀ a, superOf g.log a = superOf h.log a := fun a => by
    rw [hl]; rcases he with ⟨_, _, rfl⟩ | ⟨_, _, rfl⟩ <;> rfl
  have hb : ∀ a, between g.log a = between h.log a := fun a => by
    rw [hl]; rcases he with ⟨_, _, rfl⟩ | ⟨_, _, rfl⟩ <;> rfl
  have hp : ∀ a, hpB g.log a = hpB h.log a := fun a => by
    rw [hl]; rcases he with ⟨_, _, rfl⟩ | ⟨_, _, rfl⟩ <;> rfl
  have hcl : ∀ x, IsClass h x → IsClass g x := fun x hx => ⟨(hr x).2 hx.1, by rw [hi]; exact hx.2⟩
  refine ⟨⟨fun c hc' => ?_, fun c hc' => ?_, fun c hc' => ?_, fun c s hs' => ?_, fun c hc' hm => ?_, ?_, ?_, ?_⟩,
    fun x => ?_, hcl _ I.top, hcl _ I.modu⟩
  · rw [hi]; exact I.ext c ((hr c).1 hc')
  · obtain ⟨l, s, a, b⟩ := I.body c ((hr c).1 hc')
    refine ⟨l, ?_, fun x hx => (hcp x).2 (a x hx), ?_⟩
    · rw [hi, hs]; exact s.congr fun x _ => by rw [hi]
    · rw [hb, ← b, List.filter_congr (q := vis h) (fun x _ => by simp [vis, hi])]
      exact List.map_congr_left fun x _ => by rw [hi]
  · rw [hi, hp]; exact I.hp c ((hr c).1 hc')
  · rw [hs] at hs'
    obtain ⟨a, b, c'⟩ := I.sup c s hs'
    exact ⟨a, (hr s).2 b, by rw [hi]; exact c'⟩
  · rw [hs]; rw [hi] at hm; exact I.mod c ((hr c).1 hc') hm
  · rw [hl, hn]
    intro e' he'
    rcases List.mem_cons.1 he' with rfl | he'
    · rcases he with ⟨_, _, rfl⟩ | ⟨_, _, rfl⟩ <;> exact hc.1
    · exact I.below e' he'
  · intro a name
    by_cases e' : a = c
    · subst e'; exact hm name
    · rw [hx a e', I.meth, hl]
      rcases he with ⟨_, _, rfl⟩ | ⟨_, _, rfl⟩ <;> simp [methodOf, Ne.symm e']
  · intro a name
    by_cases e' : a = c
    · subst e'; exact hcs name
    · rw [hx a e', I.cons, hl]
      rcases he with ⟨_, _, rfl⟩ | ⟨_, _, rfl⟩ <;> simp [constOf, Ne.symm e']
  · rw [show (g.obj x).cls = (h.obj x).cls by rw [ho]]; exact hcl _ (I.cls x)

theorem addMethod_good {h c name f} (I : Good h) (hc : Real h c) : Good (addMethod h c name f) := by
  have hx := I.ext c hc
  refine inv_ext I hc (e := .defm c name f) rfl rfl (fun a ha => ?_) ?_ rfl (.inl ⟨_, _, rfl⟩) (fun x => ?_) (fun x => ?_)
  · simp [addMethod, upd, hx, ha]
  · simp [addMethod, upd, hx]
  · simp only [addMethod, upd, hx, if_true, methodOf, I.meth, true_and]
    by_cases e : x = name
    · simp [e]
    · simp [e, Ne.symm e]
  · simp [addMethod, upd, hx, constOf, I.cons]

theorem setConst_good {h c name v} (I : Good h) (hc : Real h c) : Good (setConst h c name v) := by
  have hx := I.ext c hc
  refine inv_ext I hc (e := .setc c name v) rfl rfl (fun a ha => ?_) ?_ rfl (.inr ⟨_, _, rfl⟩) (fun x => ?_) (fun x => ?_)
  · simp [setConst, upd, hx, ha]
  · simp [setConst, upd, hx]
  · simp [setConst, upd, hx, methodOf, I.meth]
  · simp only [setConst, upd, hx, if_true, constOf, I.cons, true_and]
    by_cases e : x = name
    · simp [e]
    · simp [e, Ne.symm e]

/-! ## `include` and `prepend` of a module into itself do not end -/

/-- A link leads to `y`, which links to `z`, with nothing to skip. -/
theorem selfLoop : ∀ {n h m i}, (h.info m).upper = some i → (h.info i).prepended = (h.info m).prepended →
    (h.info m).prepended = false → m < h.next → i < h.next → includeLoop n h m i = none := by
  intro n
  induction n with
  | zero => intros; rfl
  | succ n ih =>
    intro h m i hu hp hf hm hi
    cases n with
    | zero => simp [includeLoop, upper, upperLoop]
    | succ n =>
    rw [includeLoop, upper, hu]
    simp only [upperLoop, hp, hf, Bool.not_false, if_true]
    show includeLoop (n + 1) ((generateIncluded h i).1.setUpper i (some h.next)) i h.next = none
    have ho : ∀ x, x ≠ h.next → (generateIncluded h i).1.obj x = h.obj x := fun x hx => by
      simp [generateIncluded, generateIncludedFrom, Heap.alloc, upd, hx]
    have hnew : (generateIncluded h i).1.info h.next = { h.info i with included := true } := by
      simp [generateIncluded, generateIncludedFrom, Heap.alloc, upd, Heap.info]
    have hinf : (generateIncluded h i).1.info i = h.info i := info_of_obj (ho i (by omega))
    have hnext : (generateIncluded h i).1.next = h.next + 1 := rfl
    apply ih
    · simp [setUpper_info]
    · rw [setUpper_info, if_neg (by omega), setUpper_info, if_pos rfl, hnew, hinf]
    · rw [setUpper_info, if_pos rfl, hinf]; simp [hp, hf]
    · rw [setUpper_next, hnext]; omega
    · rw [setUpper_next, hnext]; omega

/-! ## Reachable heaps -/

/-- The class graphs that programs can build.  A module is not included in itself: Ruby refuses that (this interpreter
does not: `selfLoop`). -/
inductive Reach : Heap → Prop
  | boot : Reach boot
  | newClass {h n sup g c} : Reach h → IsClass h sup → newClass n h sup = some (g, c) → Reach g
  | newModule {h} : Reach h → Reach (newModule h).1
  | newObject {h c} : Reach h → IsClass h c → Reach (newObject h c).1
  | singleton {h n a g s} : Reach h → (Real h a ∨ (h.obj a).info = none) → getSingleton n h a = some (g, s) → Reach g
  | incl {h n c m g} : Reach h → Real h c → IsModule h m → c ≠ m → appendInclude n h c m = some g → Reach g
  | prep {h n c m g} : Reach h → Real h c → IsModule h m → c ≠ m → appendPrepend n h c m = some g → Reach g
  | defm {h c name f} : Reach h → Real h c → Reach (addMethod h c name f)
  | setc {h c name v} : Reach h → Real h c → Reach (setConst h c name v)

theorem boot_class {c} (hc : c < 5) : IsClass boot c := by
  have : c = 0 ∨ c = 1 ∨ c = 2 ∨ c = 3 ∨ c = 4 := by omega
  rcases this with rfl | rfl | rfl | rfl | rfl <;> exact ⟨⟨by decide, _, rfl, rfl⟩, rfl⟩

theorem boot_good : Good boot := by
  have cases5 : ∀ c, Real boot c → c = 0 ∨ c = 1 ∨ c = 2 ∨ c = 3 ∨ c = 4 := fun c hc => by
    have : c < 5 := hc.1; omega
  have noM : ∀ a name, methodOf boot.log a name = none := fun a name => by simp [boot, methodOf]
  have noC : ∀ a name, constOf boot.log a name = none := fun a name => by simp [boot, constOf]
  refine ⟨⟨?_, ?_, ?_, ?_, ?_, ?_, ?_, ?_⟩, ?_, boot_class (by decide), boot_class (by decide)⟩
  · intro c hc; rcases cases5 c hc with rfl | rfl | rfl | rfl | rfl <;> rfl
  · intro c hc; rcases cases5 c hc with rfl | rfl | rfl | rfl | rfl <;> exact ⟨[], rfl, by simp, rfl⟩
  · intro c hc; rcases cases5 c hc with rfl | rfl | rfl | rfl | rfl <;> rfl
  · intro c s hs
    simp only [boot, superOf] at hs
    split at hs
    · rename_i e; subst e; cases hs; exact ⟨by decide, boot_class (by decide)⟩
    split at hs
    · rename_i e; subst e; cases hs; exact ⟨by decide, boot_class (by decide)⟩
    split at hs
    · rename_i e; subst e; cases hs; exact ⟨by decide, boot_class (by decide)⟩
    split at hs
    · rename_i e; subst e; cases hs; exact ⟨by decide, boot_class (by decide)⟩
    split at hs <;> cases hs
  · intro c hc hm; rcases cases5 c hc with rfl | rfl | rfl | rfl | rfl <;> cases hm
  · intro e he
    simp only [boot, List.mem_cons, List.not_mem_nil, or_false] at he
    rcases he with rfl | rfl | rfl | rfl | rfl <;> simp [Event.below, boot]
  · intro a name; rw [noM]; simp only [boot]; split <;> rfl
  · intro a name; rw [noC]; simp only [boot]; split <;> rfl
  · intro x
    have : (boot.obj x).cls < 5 := by simp only [boot]; split <;> decide
    exact boot_class this

theorem Grows.isClass {h g : Heap} (r : Grows h g) {a} (ha : IsClass h a) : IsClass g a :=
  ⟨(r.real ha.1).1, (r.real ha.1).2.trans ha.2⟩

theorem incl_good {h n c m g} (I : Good h) (hc : Real h c) (hm : IsModule h m) (hcm : c ≠ m)
    (e : appendInclude n h c m = some g) : Good g ∧ g.log = .incl c m :: h.log := by
  obtain ⟨g', e', I', l'⟩ := appendInclude_inv I.toInv hc hm.1 hm.2 hcm (n := n + h.next + 2) (by omega)
  have same : g' = g := by
    have e1 : (match includeLoop n ((generateIncluded h m).1.setUpper c (some h.next)) m h.next with
      | none => none
      | some (h', imodule) => some ((h'.setUpper imodule (h.info c).upper).record (.incl c m))) = some g := e
    have e2 : (match includeLoop (n + h.next + 2) ((generateIncluded h m).1.setUpper c (some h.next)) m h.next with
      | none => none
      | some (h', imodule) => some ((h'.setUpper imodule (h.info c).upper).record (.incl c m))) = some g' := e'
    rcases hl : includeLoop n ((generateIncluded h m).1.setUpper c (some h.next)) m h.next with _ | ⟨k, last⟩
    · rw [hl] at e1; cases e1
    · rw [includeLoop_le hl (show n ≤ n + h.next + 2 by omega)] at e2
      rw [hl] at e1
      exact Option.some.inj (e2.symm.trans e1)
  subst same
  have r := grows_include e
  exact ⟨⟨I', r.clsOK I.cls, r.isClass I.top, r.isClass I.modu⟩, l'⟩

theorem prep_good {h n c m g} (I : Good h) (hc : Real h c) (hm : IsModule h m) (hcm : c ≠ m)
    (e : appendPrepend n h c m = some g) : Good g ∧ g.log = .prep c m :: h.log := by
  obtain ⟨g', e', I', l'⟩ := appendPrepend_inv I.toInv hc hm.1 hm.2 hcm (n := n + h.next + 2) (by omega)
  have same : g' = g := by
    unfold appendPrepend at e e'
    simp only [show (generateIncluded h m).2 = h.next from rfl] at e e'
    rcases hl : includeLoop n ((generateIncluded h m).1.setUpper c (some h.next)) m h.next with _ | ⟨k, last⟩
    · rw [hl] at e; cases e
    · rw [includeLoop_le hl (show n ≤ n + h.next + 2 by omega)] at e'
      rw [hl] at e
      exact Option.some.inj (e'.symm.trans e)
  subst same
  have r := grows_prepend e
  exact ⟨⟨I', r.clsOK I.cls, r.isClass I.top, r.isClass I.modu⟩, l'⟩

theorem Reach.good {h : Heap} (r : Reach h) : Good h := by
  induction r with
  | boot => exact boot_good
  | newClass _ hs e ih => exact (newClass_good ih hs e).1
  | newModule _ ih => exact newModule_good ih
  | newObject _ hc ih => exact newObject_good ih hc
  | singleton _ ha e ih =>
    refine (getSingleton_good ih (fun i hi => ?_) e).1
    rcases ha with ha | ha
    · exact ha
    · rw [ha] at hi; cases hi
  | incl _ hc hm hcm e ih => exact (incl_good ih hc hm hcm e).1
  | prep _ hc hm hcm e ih => exact (prep_good ih hc hm hcm e).1
  | defm _ hc ih => exact addMethod_good ih hc
  | setc _ hc ih => exact setConst_good ih hc

/-! ## Running programs -/

/-- One step of a program that builds classes. -/
inductive Cmd
  | newClass (sup : Addr)
  | newModule
  | newObject (c : Addr)
  | singleton (a : Addr)
  | incl (c m : Addr)
  | prep (c m : Addr)
  | defm (c : Addr) (name : Id) (f : Fn)
  | setc (c : Addr) (name : Id) (v : Val)

def Heap.realB (h : Heap) (a : Addr) : Bool :=
  decide (a < h.next) && (match (h.obj a).info with
    | some i => !i.included
    | none => false)

theorem realB_iff {h : Heap} {a} : h.realB a = true ↔ Real h a := by
  simp only [Heap.realB, Real]
  cases (h.obj a).info <;> simp

/-- Runs a command with the given fuel, if its arguments are what the command needs. -/
def Cmd.run (n : Nat) (h : Heap) : Cmd → Option Heap
  | .newClass sup => if h.realB sup && !(h.info sup).isModule then (Verif.Class.newClass n h sup).map (·.1) else none
  | .newModule => some (Verif.Class.newModule h).1
  | .newObject c => if h.realB c && !(h.info c).isModule then some (Verif.Class.newObject h c).1 else none
  | .singleton a => if h.realB a || (h.obj a).info.isNone then (getSingleton n h a).map (·.1) else none
  | .incl c m => if h.realB c && h.realB m && (h.info m).isModule && c != m then appendInclude n h c m else none
  | .prep c m => if h.realB c && h.realB m && (h.info m).isModule && c != m then appendPrepend n h c m else none
  | .defm c name f => if h.realB c then some (addMethod h c name f) else none
  | .setc c name v => if h.realB c then some (setConst h c name v) else none

def runAll (n : Nat) : Heap → List Cmd → Option Heap
  | h, [] => some h
  | h, c :: cs => match c.run n h with
    | none => none
    | some g => runAll n g cs

theorem Cmd.run_reach {n h c g} (r : Reach h) (e : Cmd.run n h c = some g) : Reach g := by
  cases c <;> simp only [Cmd.run] at e
  case newModule => cases e; exact .newModule r
  all_goals
    split at e
    case isFalse => cases e
    rename_i hc
    simp only [Bool.and_eq_true, Bool.or_eq_true, Bool.not_eq_true', realB_iff, bne_iff_ne, Option.isNone_iff_eq_none] at hc
  case newClass =>
    simp only [Option.map_eq_some_iff, Prod.exists, exists_and_right, exists_eq_right] at e
    obtain ⟨c, e⟩ := e
    exact .newClass r hc e
  case newObject => cases e; exact .newObject r hc
  case singleton =>
    simp only [Option.map_eq_some_iff, Prod.exists, exists_and_right, exists_eq_right] at e
    obtain ⟨c, e⟩ := e
    exact .singleton r hc e
  case incl => exact .incl r hc.1.1.1 ⟨hc.1.1.2, hc.1.2⟩ hc.2 e
  case prep => exact .prep r hc.1.1.1 ⟨hc.1.1.2, hc.1.2⟩ hc.2 e
  case defm => cases e; exact .defm r hc
  case setc => cases e; exact .setc r hc

theorem runAll_reach {n} : ∀ {cs h g}, Reach h → runAll n h cs = some g → Reach g
  | [], _, _, r, e => by cases e; exact r
  | c :: cs, h, g, r, e => by
    rw [runAll] at e
    split at e
    · cases e
    · rename_i k hk
      exact runAll_reach (c.run_reach r hk) e

end Verif.Class
