import Verif.Class.Inv
/-! # `include` and `prepend` keep the shape -/
namespace Verif.Class

/-! ## Fuel -/

theorem upperLoop_mono {h : Heap} : ∀ {n u r}, upperLoop h n u = some r → upperLoop h (n + 1) u = some r
  | 0, _, _, e => by simp [upperLoop] at e
  | n + 1, none, _, e => by simpa [upperLoop] using e
  | n + 1, some m, r, e => by
    rw [upperLoop] at e ⊢
    split at e
    · rename_i hm; rw [if_pos hm]; exact e
    · rename_i hm; rw [if_neg hm]; exact upperLoop_mono e

theorem superLoop_mono {h : Heap} : ∀ {n u r}, superLoop h n u = some r → superLoop h (n + 1) u = some r
  | 0, _, _, e => by simp [superLoop] at e
  | n + 1, none, _, e => by simpa [superLoop] using e
  | n + 1, some m, r, e => by
    rw [superLoop] at e ⊢
    split at e
    · rename_i hm; rw [if_pos hm]; exact e
    · rename_i hm; rw [if_neg hm]; exact superLoop_mono e

theorem includeLoop_mono : ∀ {n h m i r}, includeLoop n h m i = some r → includeLoop (n + 1) h m i = some r
  | 0, _, _, _, _, e => by simp [includeLoop] at e
  | n + 1, h, m, i, r, e => by
    rw [includeLoop] at e ⊢
    rcases hu : upper n h m with _ | _ | y
    · simp [hu] at e
    · rw [hu] at e; rw [show upper (n + 1) h m = _ from upperLoop_mono hu]; exact e
    · rw [hu] at e; rw [show upper (n + 1) h m = _ from upperLoop_mono hu]
      exact includeLoop_mono e

theorem includeLoop_le {n k h m i r} (e : includeLoop n h m i = some r) : n ≤ k → includeLoop k h m i = some r := by
  intro hk
  induction hk with
  | refl => exact e
  | step _ ih => exact includeLoop_mono ih

/-! ## Heaps that differ in a few cells -/

/-- Extensions change at most by being told their owner. -/
def Keeps (h g : Heap) : Prop := ∀ e, (g.ext e).methods = (h.ext e).methods ∧ (g.ext e).consts = (h.ext e).consts ∧
  (g.ext e).singletonFor = (h.ext e).singletonFor ∧ ((g.ext e).origin = (h.ext e).origin ∨ (g.ext e).origin = some e)

theorem Keeps.refl (h : Heap) : Keeps h h := fun _ => ⟨rfl, rfl, rfl, .inl rfl⟩

theorem Keeps.trans {h g k : Heap} (a : Keeps h g) (b : Keeps g k) : Keeps h k := fun e => by
  obtain ⟨a1, a2, a3, a4⟩ := a e
  obtain ⟨b1, b2, b3, b4⟩ := b e
  refine ⟨b1.trans a1, b2.trans a2, b3.trans a3, ?_⟩
  rcases b4 with b4 | b4
  · rw [b4]; exact a4
  · exact .inr b4

theorem Keeps.of_ext {h g : Heap} (e : g.ext = h.ext) : Keeps h g := fun x => by rw [e]; exact ⟨rfl, rfl, rfl, .inl rfl⟩

theorem Copy.keep {h g : Heap} {x} (c : Copy h x) (k : Keeps h g) (hn : h.next ≤ g.next) (ho : (g.obj x).info = (h.obj x).info) :
    Copy g x := by
  obtain ⟨hx, i, e, a, a', b⟩ := c
  refine ⟨by omega, i, by rw [ho, e], a, by omega, ?_⟩
  rcases (k i.ext).2.2.2 with h1 | h1
  · rw [h1, b]
  · exact h1

@[simp] theorem setInfo_next (h : Heap) (a i) : (h.setInfo a i).next = h.next := rfl
@[simp] theorem setInfo_ext (h : Heap) (a i) : (h.setInfo a i).ext = h.ext := rfl
@[simp] theorem setInfo_log (h : Heap) (a i) : (h.setInfo a i).log = h.log := rfl
theorem setInfo_obj (h : Heap) (a i x) : (h.setInfo a i).obj x = if x = a then { h.obj a with info := some i } else h.obj x := rfl
theorem setInfo_info (h : Heap) (a i x) : (h.setInfo a i).info x = if x = a then i else h.info x := by
  simp only [Heap.info, setInfo_obj]; split <;> rfl
@[simp] theorem setUpper_next (h : Heap) (a u) : (h.setUpper a u).next = h.next := rfl
@[simp] theorem setUpper_ext (h : Heap) (a u) : (h.setUpper a u).ext = h.ext := rfl
@[simp] theorem setUpper_log (h : Heap) (a u) : (h.setUpper a u).log = h.log := rfl
theorem setUpper_obj (h : Heap) (a u x) :
    (h.setUpper a u).obj x = if x = a then { h.obj a with info := some { h.info a with upper := u } } else h.obj x := rfl
theorem setUpper_info (h : Heap) (a u x) :
    (h.setUpper a u).info x = if x = a then { h.info a with upper := u } else h.info x := setInfo_info ..

theorem gen_spec {h : Heap} {m o : Addr} (hm : m < h.next) (ho : o = (h.info m).ext) :
    (generateIncludedFrom h m o).2 = h.next ∧ (generateIncludedFrom h m o).1.next = h.next + 1 ∧
    (generateIncludedFrom h m o).1.log = h.log ∧
    (∀ x, x ≠ h.next → (generateIncludedFrom h m o).1.obj x = h.obj x) ∧
    ((generateIncludedFrom h m o).1.obj h.next).info = some { h.info m with included := true } ∧
    Keeps h (generateIncludedFrom h m o).1 ∧
    ((generateIncludedFrom h m o).1.ext (h.info m).ext).origin = some (h.info m).ext := by
  have hmi : (h.alloc { cls := (h.obj m).cls, info := some { h.info m with included := true } }).1.info m = h.info m := by
    simp [Heap.alloc, Heap.info, upd, Nat.ne_of_lt hm]
  subst ho
  refine ⟨rfl, rfl, rfl, fun x hx => ?_, ?_, fun e => ?_, ?_⟩
  · simp [generateIncludedFrom, Heap.alloc, upd, hx]
  · simp [generateIncludedFrom, Heap.alloc, upd]
  · have : (generateIncludedFrom h m (h.info m).ext).1.ext e =
      if e = (h.info m).ext then { h.ext (h.info m).ext with origin := some (h.info m).ext } else h.ext e := by
      unfold generateIncludedFrom
      simp only [hmi]
      rfl
    rw [this]
    split
    · rename_i he; subst he; exact ⟨rfl, rfl, rfl, .inr rfl⟩
    · exact ⟨rfl, rfl, rfl, .inl rfl⟩
  · unfold generateIncludedFrom
    simp only [hmi]
    simp [Heap.alloc, upd]

theorem info_of_obj {h g : Heap} {x} (e : g.obj x = h.obj x) : g.info x = h.info x := by simp [Heap.info, e]

/-! ## The copying loop -/

theorem includeLoop_spec : ∀ (n : Nat) {h : Heap} {m i : Addr} {l : List Addr}, Seg h (h.info m).upper l none → l.length + 1 < n →
    m < h.next → m ≠ i → i < h.next → (h.obj i).info.isSome → (∀ x ∈ l, Copy h x ∧ x ≠ i) →
    ∃ ys g last, includeLoop n h m i = some (g, last) ∧ h.next ≤ g.next ∧ g.log = h.log ∧ Keeps h g ∧
      (∀ x, x < h.next → x ≠ i → g.obj x = h.obj x) ∧
      (∃ u, (g.obj i).info = some { h.info i with upper := u }) ∧
      (∀ x, h.next ≤ x → x < g.next → Copy g x) ∧
      (∀ y ∈ ys, h.next ≤ y ∧ y < g.next ∧ (g.info y).prepended = false) ∧
      ys.map (fun y => (g.info y).ext) = (l.filter (vis h)).map (fun x => (h.info x).ext) ∧
      last ∈ i :: ys ∧
      ∀ (k : Heap) v, (∀ x ∈ i :: ys, x ≠ last → (k.info x).upper = (g.info x).upper) → (k.info last).upper = v →
        Seg k (some i) (i :: ys) v
  | n + 1, h, m, i, l, s, hn, hm, hmi, hi, hii, hl => by
    rcases upper_cases s (show l.length < n by omega) with ⟨a, b⟩ | ⟨y, l₂, a, p, q, r, hy, hsub⟩
    · refine ⟨[], h, i, by simp [includeLoop, a], Nat.le_refl _, rfl, .refl h, fun _ _ _ => rfl, ⟨(h.info i).upper, ?_⟩,
        fun x h1 h2 => by omega, by simp, by simp [b], by simp, fun k v _ h2 => ⟨rfl, h2⟩⟩
      obtain ⟨j, hj⟩ := Option.isSome_iff_exists.1 hii
      rw [hj, info_eq hj]
    · obtain ⟨cy, yi⟩ := hl y hy
      have hyn := cy.1
      have hvy : vis h y = true := by
        have : y ∈ l.filter (vis h) := by rw [q]; simp
        exact (List.mem_filter.1 this).2
      obtain ⟨g1, g2, g3, g4, g5, g6, g7⟩ := gen_spec (h := h) hyn cy.real
      have hcall : includeLoop (n + 1) h m i = includeLoop n
          ((generateIncluded h y).1.setUpper i (some h.next)) y h.next := by
        rw [includeLoop, a]
        show includeLoop n ((generateIncluded h y).1.setUpper i (some (generateIncluded h y).2)) y (generateIncluded h y).2 = _
        rw [show (generateIncluded h y).2 = h.next from rfl]
      generalize hg : generateIncluded h y = G at hcall
      rw [show generateIncludedFrom h y (realModule h y) = G from hg] at g1 g2 g3 g4 g5 g6 g7
      obtain ⟨h1, i1⟩ := G
      simp only at g1 g2 g3 g4 g5 g6 g7 hcall
      subst g1
      have o2 : ∀ x, x < h.next → x ≠ i → (h1.setUpper i (some h.next)).obj x = h.obj x := fun x hx hxi => by
        rw [setUpper_obj, if_neg hxi, g4 x (by omega)]
      have inf2 : ∀ x, x < h.next → x ≠ i → (h1.setUpper i (some h.next)).info x = h.info x := fun x hx hxi =>
        info_of_obj (o2 x hx hxi)
      have k2 : Keeps h (h1.setUpper i (some h.next)) := g6.trans (Keeps.of_ext rfl)
      have hin : (h1.setUpper i (some h.next)).info h.next = { h.info y with included := true } := by
        rw [setUpper_info, if_neg (by omega)]; exact info_eq g5
      have ic := includeLoop_spec n (h := h1.setUpper i (some h.next)) (m := y) (i := h.next) (l := l₂)
        (by
          rw [inf2 y hyn yi]
          exact p.congr fun x hx => by rw [inf2 x (hl x (hsub x hx)).1.1 (hl x (hsub x hx)).2])
        (by omega) (by rw [setUpper_next, g2]; omega) (by omega) (by rw [setUpper_next, g2]; omega)
        (by rw [setUpper_obj, if_neg (by omega), g5]; rfl)
        (fun x hx => by
          obtain ⟨cx, xi⟩ := hl x (hsub x hx)
          exact ⟨cx.keep k2 (by rw [setUpper_next, g2]; omega) (by rw [o2 x cx.1 xi]), by have := cx.1; omega⟩)
      obtain ⟨ys, g, last, e1, e2, e3, e4, e5, ⟨u, e6⟩, e7, e8, e9, e10, e11⟩ := ic
      rw [setUpper_next, g2] at e2 e5 e7 e8
      have ginext : g.info h.next = { h.info y with included := true, upper := u } := by
        rw [info_eq e6, hin]
      have hlast : h.next ≤ last := by
        rcases List.mem_cons.1 e10 with h' | h'
        · omega
        · have := (e8 _ h').1; omega
      have gi : g.info i = { h.info i with upper := some h.next } := by
        rw [info_of_obj (e5 i (by omega) (by omega)), setUpper_info, if_pos rfl, info_of_obj (g4 i (by omega))]
      refine ⟨h.next :: ys, g, last, hcall.trans e1, by omega, by rw [e3, setUpper_log, g3], k2.trans e4, ?_, ?_, ?_, ?_, ?_, ?_, ?_⟩
      · intro x hx hxi
        rw [e5 x (by omega) (by omega), o2 x hx hxi]
      · refine ⟨some h.next, ?_⟩
        rw [e5 i (by omega) (by omega), setUpper_obj, if_pos rfl]
        simp only
        rw [info_of_obj (g4 i (by omega))]
      · intro x hx1 hx2
        by_cases hx : x = h.next
        · subst hx
          refine ⟨hx2, _, e6, by simp [hin], by simp only [hin]; have := cy.ext_lt; omega, ?_⟩
          simp only [hin]
          have o1 : ((h1.setUpper i (some h.next)).ext (h.info y).ext).origin = some (h.info y).ext := by rw [setUpper_ext]; exact g7
          rcases (e4 (h.info y).ext).2.2.2 with t | t
          · rw [t, o1]
          · exact t
        · exact e7 x (by omega) hx2
      · intro z hz
        rcases List.mem_cons.1 hz with rfl | hz
        · refine ⟨by omega, by omega, ?_⟩
          rw [ginext]; simpa [vis] using hvy
        · obtain ⟨t1, t2, t3⟩ := e8 z hz
          exact ⟨by omega, t2, t3⟩
      · rw [q, List.map_cons, List.map_cons, e9, ginext]
        simp only [List.cons.injEq, true_and]
        have hv : ∀ x ∈ l₂, vis (h1.setUpper i (some h.next)) x = vis h x := fun x hx => by
          simp [vis, inf2 x (hl x (hsub x hx)).1.1 (hl x (hsub x hx)).2]
        rw [List.filter_congr hv]
        apply List.map_congr_left
        intro x hx
        have hx := List.mem_of_mem_filter hx
        rw [inf2 x (hl x (hsub x hx)).1.1 (hl x (hsub x hx)).2]
      · exact List.mem_cons_of_mem _ e10
      · intro k v hk hv
        refine ⟨rfl, ?_⟩
        rw [hk i (by simp) (by omega), gi]
        exact e11 k v (fun x hx hxl => hk x (List.mem_cons_of_mem _ hx) hxl) hv

/-! ## Splicing a list of copies between a class and what follows it -/

theorem inv_splice {h g : Heap} (I : Inv h) {c : Addr} (hc : Real h c) {e : Event} {u p}
    (hn : h.next ≤ g.next) (ho : ∀ x, x < h.next → x ≠ c → g.obj x = h.obj x)
    (hi : (g.obj c).info = some { h.info c with upper := u, prepended := p })
    (hk : Keeps h g) (hl : g.log = e :: h.log) (he : e = .incl c m ∨ e = .prep c m)
    (hnew : ∀ x, h.next ≤ x → x < g.next → Copy g x)
    (hb : ∃ l, Seg g u l (superOf h.log c) ∧ (∀ x ∈ l, Copy g x) ∧
      (l.filter (vis g)).map (fun x => (g.info x).ext) = between (e :: h.log) c)
    (hp : p = hpB (e :: h.log) c) : Inv g := by
  have cinf := info_eq hi
  have real_iff : ∀ a, Real g a ↔ Real h a := by
    intro a
    constructor
    · intro r
      have : a < h.next := by
        by_contra hlt
        exact (hnew a (by omega) r.1).not_real r
      by_cases hac : a = c
      · subst hac; exact hc
      · obtain ⟨_, i, e1, e2⟩ := r
        exact ⟨this, i, by rw [← ho a this hac]; exact e1, e2⟩
    · intro r
      by_cases hac : a = c
      · subst hac
        exact ⟨by have := r.1; omega, _, hi, by simp [r.included]⟩
      · obtain ⟨h1, i, e1, e2⟩ := r
        exact ⟨by omega, i, by rw [ho a h1 hac]; exact e1, e2⟩
  have hs : ∀ a, superOf g.log a = superOf h.log a := by
    intro a; rw [hl]; rcases he with rfl | rfl <;> rfl
  have hbt : ∀ a, a ≠ c → between g.log a = between h.log a := by
    intro a ha; rw [hl]
    rcases he with rfl | rfl <;> simp [between, Ne.symm ha]
  have hhp : ∀ a, a ≠ c → hpB g.log a = hpB h.log a := by
    intro a ha; rw [hl]
    rcases he with rfl | rfl <;> simp [hpB, Ne.symm ha]
  have oldinfo : ∀ a, a < h.next → a ≠ c → g.info a = h.info a := fun a h1 h2 => info_of_obj (ho a h1 h2)
  have copy_old : ∀ x, Copy h x → x ≠ c := by
    rintro x cx rfl; exact cx.not_real hc
  refine ⟨?_, ?_, ?_, ?_, ?_, ?_, ?_, ?_⟩
  · intro a ha
    rw [real_iff] at ha
    by_cases hac : a = c
    · subst hac; rw [cinf]; exact I.ext a hc
    · rw [oldinfo a ha.1 hac]; exact I.ext a ha
  · intro a ha
    rw [real_iff] at ha
    by_cases hac : a = c
    · subst hac
      rw [cinf, hs, hl]
      exact hb
    · obtain ⟨l, s, hc', e'⟩ := I.body a ha
      have inf : ∀ x ∈ l, g.info x = h.info x := fun x hx => oldinfo x (hc' x hx).1 (copy_old x (hc' x hx))
      refine ⟨l, ?_, ?_, ?_⟩
      · rw [oldinfo a ha.1 hac, hs]
        exact s.congr fun x hx => by rw [inf x hx]
      · intro x hx
        exact (hc' x hx).keep hk hn (by rw [ho x (hc' x hx).1 (copy_old x (hc' x hx))])
      · rw [hbt a hac, ← e', List.filter_congr (q := vis h) (fun x hx => by simp [vis, inf x hx])]
        exact List.map_congr_left fun x hx => by rw [inf x (List.mem_of_mem_filter hx)]
  · intro a ha
    rw [real_iff] at ha
    by_cases hac : a = c
    · subst hac; rw [cinf, hl]; exact hp
    · rw [oldinfo a ha.1 hac, hhp a hac]; exact I.hp a ha
  · intro a s ha
    rw [hs] at ha
    obtain ⟨h1, h2, h3⟩ := I.sup a s ha
    refine ⟨h1, (real_iff s).2 h2, ?_⟩
    by_cases hsc : s = c
    · subst hsc; rw [cinf]; exact h3
    · rw [oldinfo s h2.1 hsc]; exact h3
  · intro a ha hm
    rw [real_iff] at ha
    rw [hs]
    by_cases hac : a = c
    · subst hac; rw [cinf] at hm; exact I.mod a ha hm
    · rw [oldinfo a ha.1 hac] at hm; exact I.mod a ha hm
  · intro e' he'
    rw [hl] at he'
    rcases List.mem_cons.1 he' with rfl | he'
    · have := hc.1
      rcases he with rfl | rfl <;> simp only [Event.below] <;> omega
    · have := I.below e' he'
      revert this
      cases e' <;> simp only [Event.below] <;> omega
  · intro a name
    rw [(hk a).1, I.meth, hl]
    rcases he with rfl | rfl <;> rfl
  · intro a name
    rw [(hk a).2.1, I.cons, hl]
    rcases he with rfl | rfl <;> rfl

theorem copy_all {h : Heap} (I : Inv h) {c m : Addr} (hc : Real h c) (hm : Real h m) (hmod : (h.info m).isModule = true)
    (hcm : c ≠ m) {n} (hn : h.next + 1 < n) :
    ∃ ys g last, includeLoop n ((generateIncluded h m).1.setUpper c (some h.next)) m h.next = some (g, last) ∧
      h.next ≤ g.next ∧ g.log = h.log ∧ Keeps h g ∧ (∀ x, x < h.next → x ≠ c → g.obj x = h.obj x) ∧
      (g.obj c).info = some { h.info c with upper := some h.next } ∧
      (∀ x, h.next ≤ x → x < g.next → Copy g x) ∧
      (∀ y ∈ ys, h.next ≤ y ∧ y < g.next) ∧ last ∈ ys ∧
      (ys.filter (vis g)).map (fun x => (g.info x).ext) = shown h.log m ∧
      ∀ (k : Heap) v, (∀ x ∈ ys, x ≠ last → (k.info x).upper = (g.info x).upper) → (k.info last).upper = v →
        Seg k (some h.next) ys v := by
  obtain ⟨lm, sm, cm, em⟩ := I.body m hm
  rw [I.mod m hm hmod] at sm
  have hmn := hm.1
  have hcn := hc.1
  obtain ⟨g1, g2, g3, g4, g5, g6, g7⟩ := gen_spec (h := h) hmn (hm.real I)
  generalize hg : generateIncluded h m = G
  rw [show generateIncludedFrom h m (realModule h m) = G from hg] at g1 g2 g3 g4 g5 g6 g7
  obtain ⟨h1, i1⟩ := G
  simp only at g1 g2 g3 g4 g5 g6 g7 ⊢
  subst g1
  have o2 : ∀ x, x < h.next → x ≠ c → (h1.setUpper c (some h.next)).obj x = h.obj x := fun x hx hxi => by
    rw [setUpper_obj, if_neg hxi, g4 x (by omega)]
  have inf2 : ∀ x, x < h.next → x ≠ c → (h1.setUpper c (some h.next)).info x = h.info x := fun x hx hxi =>
    info_of_obj (o2 x hx hxi)
  have k2 : Keeps h (h1.setUpper c (some h.next)) := g6.trans (Keeps.of_ext rfl)
  have hin : (h1.setUpper c (some h.next)).info h.next = { h.info m with included := true } := by
    rw [setUpper_info, if_neg (by omega)]; exact info_eq g5
  have ne : ∀ x ∈ lm, x ≠ c := by rintro x hx rfl; exact (cm x hx).not_real hc
  have len : lm.length ≤ h.next := nodup_length sm.nodup fun x hx => (cm x hx).1
  obtain ⟨ys, g, last, e1, e2, e3, e4, e5, ⟨u, e6⟩, e7, e8, e9, e10, e11⟩ :=
    includeLoop_spec n (h := h1.setUpper c (some h.next)) (m := m) (i := h.next) (l := lm)
      (by
        rw [inf2 m hmn (Ne.symm hcm)]
        exact sm.congr fun x hx => by rw [inf2 x (cm x hx).1 (ne x hx)])
      (by omega) (by rw [setUpper_next, g2]; omega) (by omega) (by rw [setUpper_next, g2]; omega)
      (by rw [setUpper_obj, if_neg (by omega), g5]; rfl)
      (fun x hx => ⟨(cm x hx).keep k2 (by rw [setUpper_next, g2]; omega) (by rw [o2 x (cm x hx).1 (ne x hx)]),
        by have := (cm x hx).1; omega⟩)
  rw [setUpper_next, g2] at e2 e5 e7 e8
  have gi : g.info h.next = { h.info m with included := true, upper := u } := by rw [info_eq e6, hin]
  refine ⟨h.next :: ys, g, last, e1, by omega, by rw [e3, setUpper_log, g3], k2.trans e4, ?_, ?_, ?_, ?_, e10, ?_, e11⟩
  · intro x hx hxc
    rw [e5 x (by omega) (by omega), o2 x hx hxc]
  · rw [e5 c (by omega) (by omega), setUpper_obj, if_pos rfl]
    simp only
    rw [info_of_obj (g4 c (by omega))]
  · intro x hx1 hx2
    by_cases hx : x = h.next
    · subst hx
      refine ⟨hx2, _, e6, by simp [hin], by simp only [hin]; rw [I.ext m hm]; omega, ?_⟩
      simp only [hin]
      have o1 : ((h1.setUpper c (some h.next)).ext (h.info m).ext).origin = some (h.info m).ext := by
        rw [setUpper_ext]; exact g7
      rcases (e4 (h.info m).ext).2.2.2 with t | t
      · rw [t, o1]
      · exact t
    · exact e7 x (by omega) hx2
  · intro y hy
    rcases List.mem_cons.1 hy with rfl | hy
    · exact ⟨Nat.le_refl _, by omega⟩
    · obtain ⟨t1, t2, _⟩ := e8 y hy
      exact ⟨by omega, t2⟩
  · have hys : ys.filter (vis g) = ys := List.filter_eq_self.2 fun y hy => by simp [vis, (e8 y hy).2.2]
    have hlm : lm.filter (vis (h1.setUpper c (some h.next))) = lm.filter (vis h) :=
      List.filter_congr fun x hx => by simp [vis, inf2 x (cm x hx).1 (ne x hx)]
    have e9' : ys.map (fun y => (g.info y).ext) = between h.log m := by
      rw [e9, hlm, ← em]
      exact List.map_congr_left fun x hx => by
        rw [inf2 x (cm x (List.mem_of_mem_filter hx)).1 (ne x (List.mem_of_mem_filter hx))]
    have hv : vis g h.next = !hpB h.log m := by simp [vis, gi, I.hp m hm]
    cases hb : hpB h.log m
    · rw [List.filter_cons_of_pos (by simp [hv, hb]), List.map_cons, hys, e9', gi]
      simp [shown, hb, I.ext m hm]
    · rw [List.filter_cons_of_neg (by simp [hv, hb]), hys, e9']
      simp [shown, hb]

theorem appendInclude_inv {h : Heap} (I : Inv h) {c m : Addr} (hc : Real h c) (hm : Real h m)
    (hmod : (h.info m).isModule = true) (hcm : c ≠ m) {n} (hn : h.next + 1 < n) :
    ∃ g, appendInclude n h c m = some g ∧ Inv g ∧ g.log = .incl c m :: h.log := by
  obtain ⟨ys, g, last, e1, e2, e3, e4, e5, e6, e7, e8, e9, e10, e11⟩ := copy_all I hc hm hmod hcm hn
  have hcall : appendInclude n h c m = some ((g.setUpper last (h.info c).upper).record (.incl c m)) := by
    unfold appendInclude
    show (match includeLoop n ((generateIncluded h m).1.setUpper c (some h.next)) m h.next with
      | none => none
      | some (h', imodule) => some ((h'.setUpper imodule (h.info c).upper).record (.incl c m))) = _
    rw [e1]
  refine ⟨_, hcall, ?_, by simp [Heap.record, e3]⟩
  have hlast := e8 last e9
  have hcn := hc.1
  obtain ⟨b, sb, cb, eb⟩ := I.body c hc
  generalize hk : (g.setUpper last (h.info c).upper).record (.incl c m) = k
  have ko : ∀ x, k.obj x = (g.setUpper last (h.info c).upper).obj x := fun x => by rw [← hk]; rfl
  have ki : ∀ x, k.info x = (g.setUpper last (h.info c).upper).info x := fun x => info_of_obj (ko x)
  have kn : k.next = g.next := by rw [← hk]; rfl
  have kold : ∀ x, x < h.next → x ≠ c → k.obj x = h.obj x := fun x hx hxc => by
    rw [ko, setUpper_obj, if_neg (by omega), e5 x hx hxc]
  have kk : Keeps g k := Keeps.of_ext (by rw [← hk]; rfl)
  have kcopy : ∀ x, h.next ≤ x → x < k.next → Copy k x := by
    intro x h1 h2
    rw [kn] at h2
    obtain ⟨hx, i, a1, a2, a2', a3⟩ := e7 x h1 h2
    by_cases hxl : x = last
    · subst hxl
      refine ⟨by omega, { i with upper := (h.info c).upper }, ?_, a2, by simp only; omega, ?_⟩
      · rw [ko, setUpper_obj, if_pos rfl]; simp [info_eq a1]
      · rw [← hk]; exact a3
    · refine ⟨by omega, i, ?_, a2, by omega, by rw [← hk]; exact a3⟩
      rw [ko, setUpper_obj, if_neg hxl, a1]
  have nec : ∀ x ∈ b, x ≠ c := by rintro x hx rfl; exact (cb x hx).not_real hc
  refine inv_splice I hc (m := m) (e := .incl c m) (u := some h.next) (p := (h.info c).prepended) (by omega) kold ?_ (e4.trans kk)
    (by rw [← hk]; simp [Heap.record, e3]) (.inl rfl) kcopy ⟨ys ++ b, ?_, ?_, ?_⟩ ?_
  · rw [ko, setUpper_obj, if_neg (by omega), e6]
  · refine (e11 k (h.info c).upper ?_ ?_).append (sb.congr fun x hx => ?_)
    · intro x _ hxl; rw [ki, setUpper_info, if_neg hxl]
    · rw [ki, setUpper_info, if_pos rfl]
    · rw [info_of_obj (kold x (cb x hx).1 (nec x hx))]
  · intro x hx
    rcases List.mem_append.1 hx with hx | hx
    · exact kcopy x (e8 x hx).1 (by rw [kn]; exact (e8 x hx).2)
    · exact (cb x hx).keep (e4.trans kk) (by omega) (by rw [kold x (cb x hx).1 (nec x hx)])
  · rw [List.filter_append, List.map_append]
    have p1 : ∀ x, (k.info x).ext = (g.info x).ext ∧ vis k x = vis g x := by
      intro x; simp only [vis, ki, setUpper_info]
      by_cases hxl : x = last <;> simp [hxl]
    have : (ys.filter (vis k)).map (fun x => (k.info x).ext) = shown h.log m := by
      rw [← e10, List.filter_congr (q := vis g) (fun x _ => (p1 x).2)]
      exact List.map_congr_left fun x _ => (p1 x).1
    rw [this]
    have : (b.filter (vis k)).map (fun x => (k.info x).ext) = between h.log c := by
      have inf : ∀ x ∈ b, k.info x = h.info x := fun x hx => info_of_obj (kold x (cb x hx).1 (nec x hx))
      rw [← eb, List.filter_congr (q := vis h) (fun x hx => by simp [vis, inf x hx])]
      exact List.map_congr_left fun x hx => by rw [inf x (List.mem_of_mem_filter hx)]
    rw [this]
    simp [between, shown]
  · rw [I.hp c hc]; rfl

theorem appendPrepend_inv {h : Heap} (I : Inv h) {c m : Addr} (hc : Real h c) (hm : Real h m)
    (hmod : (h.info m).isModule = true) (hcm : c ≠ m) {n} (hn : h.next + 1 < n) :
    ∃ g, appendPrepend n h c m = some g ∧ Inv g ∧ g.log = .prep c m :: h.log := by
  obtain ⟨ys, g, last, e1, e2, e3, e4, e5, e6, e7, e8, e9, e10, e11⟩ := copy_all I hc hm hmod hcm hn
  have hlast := e8 last e9
  have hcn := hc.1
  obtain ⟨b, sb, cb, eb⟩ := I.body c hc
  have nec : ∀ x ∈ b, x ≠ c := by rintro x hx rfl; exact (cb x hx).not_real hc
  have gc : g.info c = { h.info c with upper := some h.next } := info_eq e6
  rcases hpc : (h.info c).prepended with _ | _
  · -- the first prepend: a copy of the class itself goes behind the module
    obtain ⟨q1, q2, q3, q4, q5, q6, q7⟩ := gen_spec (h := g) (m := c) (o := c) (by omega) (by rw [gc]; exact (I.ext c hc).symm)
    generalize hD : generateIncludedFrom g c c = D at q1 q2 q3 q4 q5 q6 q7
    obtain ⟨g1, d⟩ := D
    simp only at q1 q2 q3 q4 q5 q6 q7
    subst q1
    have hcall : appendPrepend n h c m = some
        (let k := (g1.setUpper g.next (h.info c).upper).setUpper last (some g.next)
         ((k.setInfo c { k.info c with prepended := true }).record (.prep c m))) := by
      unfold appendPrepend
      show (match includeLoop n ((generateIncluded h m).1.setUpper c (some h.next)) m h.next with
        | none => none
        | some (h', imodule) => if !(h'.info c).prepended then
            some ((((((generateIncludedFrom h' c c).1.setUpper (generateIncludedFrom h' c c).2 (h.info c).upper).setUpper imodule
              (some (generateIncludedFrom h' c c).2)).setInfo c { (((generateIncludedFrom h' c c).1.setUpper (generateIncludedFrom h' c c).2 (h.info c).upper).setUpper imodule
              (some (generateIncludedFrom h' c c).2)).info c with prepended := true })).record (.prep c m))
          else some ((h'.setUpper imodule (h.info c).upper).record (.prep c m))) = _
      rw [e1]
      simp only [gc, hpc, hD, Bool.not_false, if_true]
    refine ⟨_, hcall, ?_, by simp [Heap.record, q3, e3]⟩
    generalize hk : (let k := (g1.setUpper g.next (h.info c).upper).setUpper last (some g.next)
         ((k.setInfo c { k.info c with prepended := true }).record (.prep c m))) = k
    have g1c : g1.obj c = g.obj c := q4 c (by omega)
    have ko : ∀ x, x ≠ c → k.obj x = ((g1.setUpper g.next (h.info c).upper).setUpper last (some g.next)).obj x := fun x hx => by
      rw [← hk]; simp [Heap.record, setInfo_obj, hx]
    have kc : (k.obj c).info = some { h.info c with upper := some h.next, prepended := true } := by
      rw [← hk]
      simp only [Heap.record, setInfo_obj, if_true, setUpper_info]
      rw [if_neg (by omega), if_neg (by omega), info_of_obj g1c, gc]
    have kn : k.next = g.next + 1 := by rw [← hk]; simp [Heap.record, q2]
    have kx : k.ext = g1.ext := by rw [← hk]; rfl
    have kold : ∀ x, x < h.next → x ≠ c → k.obj x = h.obj x := fun x hx hxc => by
      rw [ko x hxc, setUpper_obj, if_neg (by omega), setUpper_obj, if_neg (by omega), q4 x (by omega), e5 x hx hxc]
    have kd : (k.obj g.next).info = some { h.info c with included := true, upper := (h.info c).upper } := by
      rw [ko _ (by omega), setUpper_obj, if_neg (by omega), setUpper_obj, if_pos rfl]
      simp only
      rw [info_eq q5, gc]
    have kmid : ∀ x, h.next ≤ x → x < g.next → ∃ u, (k.obj x).info = some { g.info x with upper := u } ∧
        (x ≠ last → u = (g.info x).upper) ∧ (x = last → u = some g.next) := by
      intro x h1 h2
      have g1x : g1.obj x = g.obj x := q4 x (by omega)
      by_cases hxl : x = last
      · refine ⟨some g.next, ?_, fun hh => absurd hxl hh, fun _ => rfl⟩
        subst hxl
        rw [ko _ (by omega), setUpper_obj, if_pos rfl]
        simp only [setUpper_info]
        rw [if_neg (by omega), info_of_obj g1x]
      · refine ⟨(g.info x).upper, ?_, fun _ => rfl, fun hh => absurd hh hxl⟩
        rw [ko _ (by omega), setUpper_obj, if_neg hxl, setUpper_obj, if_neg (by omega), g1x]
        obtain ⟨_, i, a1, _⟩ := e7 x h1 h2
        rw [info_eq a1, a1]
    have kk : Keeps g k := q6.trans (Keeps.of_ext kx)
    have kcopy : ∀ x, h.next ≤ x → x < k.next → Copy k x := by
      intro x h1 h2
      rw [kn] at h2
      by_cases hxd : x = g.next
      · subst hxd
        refine ⟨by omega, _, kd, rfl, by simp only; rw [I.ext c hc]; omega, ?_⟩
        rw [kx]
        simpa [gc] using q7
      · obtain ⟨hx, i, a1, a2, a2', a3⟩ := e7 x h1 (by omega)
        obtain ⟨u, a4, _⟩ := kmid x h1 (by omega)
        refine ⟨by omega, _, a4, by rw [info_eq a1]; exact a2, by simp only [info_eq a1]; omega, ?_⟩
        simp only [info_eq a1]
        rcases (kk i.ext).2.2.2 with t | t
        · rw [t, a3]
        · exact t
    refine inv_splice I hc (m := m) (e := .prep c m) (u := some h.next) (p := true) (by omega) kold kc (e4.trans kk)
      (by rw [← hk]; simp [Heap.record, q3, e3]) (.inr rfl) kcopy ⟨ys ++ g.next :: b, ?_, ?_, ?_⟩ (by simp [hpB])
    · refine (e11 k (some g.next) ?_ ?_).append ⟨rfl, ?_⟩
      · intro x hx hxl
        obtain ⟨u, a4, a5, _⟩ := kmid x (e8 x hx).1 (e8 x hx).2
        rw [info_eq a4]; exact a5 hxl
      · obtain ⟨u, a4, _, a6⟩ := kmid last hlast.1 hlast.2
        rw [info_eq a4]; exact a6 rfl
      · rw [info_eq kd]
        exact sb.congr fun x hx => by rw [info_of_obj (kold x (cb x hx).1 (nec x hx))]
    · intro x hx
      rcases List.mem_append.1 hx with hx | hx
      · exact kcopy x (e8 x hx).1 (by have := (e8 x hx).2; omega)
      · rcases List.mem_cons.1 hx with rfl | hx
        · exact kcopy _ e2 (by omega)
        · exact (cb x hx).keep (e4.trans kk) (by omega) (by rw [kold x (cb x hx).1 (nec x hx)])
    · rw [List.filter_append, List.map_append]
      have p1 : ∀ x ∈ ys, (k.info x).ext = (g.info x).ext ∧ vis k x = vis g x := by
        intro x hx
        obtain ⟨u, a4, _⟩ := kmid x (e8 x hx).1 (e8 x hx).2
        simp [vis, info_eq a4]
      have t1 : (ys.filter (vis k)).map (fun x => (k.info x).ext) = shown h.log m := by
        rw [← e10, List.filter_congr (q := vis g) (fun x hx => (p1 x hx).2)]
        exact List.map_congr_left fun x hx => (p1 x (List.mem_of_mem_filter hx)).1
      have t2 : (b.filter (vis k)).map (fun x => (k.info x).ext) = between h.log c := by
        have inf : ∀ x ∈ b, k.info x = h.info x := fun x hx => info_of_obj (kold x (cb x hx).1 (nec x hx))
        rw [← eb, List.filter_congr (q := vis h) (fun x hx => by simp [vis, inf x hx])]
        exact List.map_congr_left fun x hx => by rw [inf x (List.mem_of_mem_filter hx)]
      rw [List.filter_cons_of_pos (by simp [vis, info_eq kd, hpc]), List.map_cons, t1, t2, info_eq kd]
      have hh : hpB h.log c = false := by rw [← I.hp c hc, hpc]
      simp [between, shown, hh, I.ext c hc]
  · -- a later prepend
    have hcall : appendPrepend n h c m = some ((g.setUpper last (h.info c).upper).record (.prep c m)) := by
      unfold appendPrepend
      show (match includeLoop n ((generateIncluded h m).1.setUpper c (some h.next)) m h.next with
        | none => none
        | some (h', imodule) => if !(h'.info c).prepended then
            some ((((((generateIncludedFrom h' c c).1.setUpper (generateIncludedFrom h' c c).2 (h.info c).upper).setUpper imodule
              (some (generateIncludedFrom h' c c).2)).setInfo c { (((generateIncludedFrom h' c c).1.setUpper (generateIncludedFrom h' c c).2 (h.info c).upper).setUpper imodule
              (some (generateIncludedFrom h' c c).2)).info c with prepended := true })).record (.prep c m))
          else some ((h'.setUpper imodule (h.info c).upper).record (.prep c m))) = _
      rw [e1]
      simp [gc, hpc]
    refine ⟨_, hcall, ?_, by simp [Heap.record, e3]⟩
    generalize hk : (g.setUpper last (h.info c).upper).record (.prep c m) = k
    have ko : ∀ x, k.obj x = (g.setUpper last (h.info c).upper).obj x := fun x => by rw [← hk]; rfl
    have ki : ∀ x, k.info x = (g.setUpper last (h.info c).upper).info x := fun x => info_of_obj (ko x)
    have kn : k.next = g.next := by rw [← hk]; rfl
    have kold : ∀ x, x < h.next → x ≠ c → k.obj x = h.obj x := fun x hx hxc => by
      rw [ko, setUpper_obj, if_neg (by omega), e5 x hx hxc]
    have kk : Keeps g k := Keeps.of_ext (by rw [← hk]; rfl)
    have kcopy : ∀ x, h.next ≤ x → x < k.next → Copy k x := by
      intro x h1 h2
      rw [kn] at h2
      obtain ⟨hx, i, a1, a2, a2', a3⟩ := e7 x h1 h2
      by_cases hxl : x = last
      · subst hxl
        refine ⟨by omega, { i with upper := (h.info c).upper }, ?_, a2, by simp only; omega, ?_⟩
        · rw [ko, setUpper_obj, if_pos rfl]; simp [info_eq a1]
        · rw [← hk]; exact a3
      · refine ⟨by omega, i, ?_, a2, by omega, by rw [← hk]; exact a3⟩
        rw [ko, setUpper_obj, if_neg hxl, a1]
    refine inv_splice I hc (m := m) (e := .prep c m) (u := some h.next) (p := (h.info c).prepended) (by omega) kold ?_ (e4.trans kk)
      (by rw [← hk]; simp [Heap.record, e3]) (.inr rfl) kcopy ⟨ys ++ b, ?_, ?_, ?_⟩ ?_
    · rw [ko, setUpper_obj, if_neg (by omega), e6]
    · refine (e11 k (h.info c).upper ?_ ?_).append (sb.congr fun x hx => ?_)
      · intro x _ hxl; rw [ki, setUpper_info, if_neg hxl]
      · rw [ki, setUpper_info, if_pos rfl]
      · rw [info_of_obj (kold x (cb x hx).1 (nec x hx))]
    · intro x hx
      rcases List.mem_append.1 hx with hx | hx
      · exact kcopy x (e8 x hx).1 (by rw [kn]; exact (e8 x hx).2)
      · exact (cb x hx).keep (e4.trans kk) (by omega) (by rw [kold x (cb x hx).1 (nec x hx)])
    · rw [List.filter_append, List.map_append]
      have p1 : ∀ x, (k.info x).ext = (g.info x).ext ∧ vis k x = vis g x := by
        intro x; simp only [vis, ki, setUpper_info]
        by_cases hxl : x = last <;> simp [hxl]
      have : (ys.filter (vis k)).map (fun x => (k.info x).ext) = shown h.log m := by
        rw [← e10, List.filter_congr (q := vis g) (fun x _ => (p1 x).2)]
        exact List.map_congr_left fun x _ => (p1 x).1
      rw [this]
      have : (b.filter (vis k)).map (fun x => (k.info x).ext) = between h.log c := by
        have inf : ∀ x ∈ b, k.info x = h.info x := fun x hx => info_of_obj (kold x (cb x hx).1 (nec x hx))
        rw [← eb, List.filter_congr (q := vis h) (fun x hx => by simp [vis, inf x hx])]
        exact List.map_congr_left fun x hx => by rw [inf x (List.mem_of_mem_filter hx)]
      rw [this]
      have hh : hpB h.log c = true := by rw [← I.hp c hc, hpc]
      simp [between, shown, hh]
    · simp [hpc, hpB]

end Verif.Class
