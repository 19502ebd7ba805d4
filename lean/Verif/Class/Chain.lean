import Verif.Class.Spec
import Mathlib.Data.List.Perm.Subperm
import Mathlib.Data.List.Nodup
/-! # Walking the class chain -/
namespace Verif.Class

/-- From the link `u`, the cells `l` are linked one after the other, and the last one links to `v`. -/
def Seg (h : Heap) : Option Addr → List Addr → Option Addr → Prop
  | u, [], v => u = v
  | u, x :: l, v => u = some x ∧ Seg h (h.info x).upper l v

/-- Not skipped by `upper`. -/
def vis (h : Heap) (x : Addr) : Bool := !(h.info x).prepended

theorem Seg.congr {h g : Heap} : ∀ {l u v}, Seg h u l v → (∀ x ∈ l, (g.info x).upper = (h.info x).upper) → Seg g u l v
  | [], _, _, s, _ => s
  | x :: l, _, _, ⟨a, b⟩, e =>
    ⟨a, by rw [e x (by simp)]; exact Seg.congr b fun y hy => e y (by simp [hy])⟩

theorem Seg.append {h : Heap} : ∀ {l l' u v w}, Seg h u l v → Seg h v l' w → Seg h u (l ++ l') w
  | [], _, _, _, _, s, t => by cases s; exact t
  | _ :: _, _, _, _, _, ⟨a, b⟩, t => ⟨a, b.append t⟩

theorem Seg.cons_none {h : Heap} {l u v} (s : Seg h u l (some v)) {l'} (t : Seg h (h.info v).upper l' none) :
    Seg h u (l ++ v :: l') none := s.append ⟨rfl, t⟩

theorem Seg.unique {h : Heap} : ∀ {l l' u}, Seg h u l none → Seg h u l' none → l = l'
  | [], [], _, _, _ => rfl
  | [], _ :: _, _, a, b => by cases a; cases b.1
  | _ :: _, [], _, a, b => by cases b; cases a.1
  | x :: l, y :: l', _, ⟨a, b⟩, ⟨c, d⟩ => by
    obtain rfl : x = y := by rw [a] at c; exact Option.some.inj c
    rw [b.unique d]

theorem Seg.suffix {h : Heap} : ∀ {l u} {x}, Seg h u l none → x ∈ l → ∃ l₁ l₂, l = l₁ ++ x :: l₂ ∧ Seg h (h.info x).upper l₂ none
  | y :: l, u, x, ⟨_, b⟩, hx => by
    rcases List.mem_cons.1 hx with rfl | hx
    · exact ⟨[], l, rfl, b⟩
    · obtain ⟨l₁, l₂, e, t⟩ := b.suffix hx
      exact ⟨y :: l₁, l₂, by simp [e], t⟩

theorem Seg.nodup {h : Heap} : ∀ {l u}, Seg h u l none → l.Nodup
  | [], _, _ => List.nodup_nil
  | x :: l, _, ⟨_, b⟩ => by
    refine List.nodup_cons.2 ⟨fun hx => ?_, b.nodup⟩
    obtain ⟨l₁, l₂, e, t⟩ := b.suffix hx
    have := b.unique t
    have := congrArg List.length this
    rw [e] at this; simp at this; omega

theorem nodup_length {l : List Nat} {n : Nat} (hn : l.Nodup) (hl : ∀ x ∈ l, x < n) : l.length ≤ n := by
  have : l.Subperm (List.range n) := hn.subperm fun x hx => List.mem_range.2 (hl x hx)
  simpa using this.length_le

theorem upperLoop_spec {h : Heap} : ∀ {l u n}, Seg h u l none → l.length < n →
    upperLoop h n u = some (l.filter (vis h)).head?
  | [], _, n + 1, s, _ => by cases s; simp [upperLoop]
  | x :: l, _, n + 1, ⟨a, b⟩, hn => by
    subst a
    simp only [upperLoop]
    by_cases hv : (h.info x).prepended = true
    · simp only [hv]
      rw [List.filter_cons_of_neg (by simp [vis, hv])]
      simpa using upperLoop_spec b (by simpa using hn)
    · rw [List.filter_cons_of_pos (by simp [vis, hv])]
      simp [hv]

theorem Seg.visible {h : Heap} : ∀ {l u} {y l'}, Seg h u l none → l.filter (vis h) = y :: l' →
    ∃ l₂, Seg h (h.info y).upper l₂ none ∧ l₂.filter (vis h) = l' ∧ l₂.length < l.length ∧ y ∈ l ∧ (∀ x ∈ l₂, x ∈ l)
  | x :: l, _, y, l', ⟨_, b⟩, e => by
    by_cases hv : vis h x = true
    · rw [List.filter_cons_of_pos hv] at e
      injection e with e1 e2
      subst e1
      exact ⟨l, b, e2, by simp, by simp, fun z hz => by simp [hz]⟩
    · rw [List.filter_cons_of_neg hv] at e
      obtain ⟨l₂, p, q, r, s, t⟩ := b.visible e
      exact ⟨l₂, p, q, by simp; omega, by simp [s], fun z hz => by simp [t z hz]⟩

/-- A walk along `upper` sees the visible cells of the chain, in order. -/
theorem upper_cases {h : Heap} {c l n} (s : Seg h (h.info c).upper l none) (hn : l.length < n) :
    (upper n h c = some none ∧ l.filter (vis h) = []) ∨
    ∃ y l₂, upper n h c = some (some y) ∧ Seg h (h.info y).upper l₂ none ∧ l.filter (vis h) = y :: l₂.filter (vis h) ∧
      l₂.length < l.length ∧ y ∈ l ∧ (∀ x ∈ l₂, x ∈ l) := by
  have := upperLoop_spec s hn
  rcases e : l.filter (vis h) with _ | ⟨y, l'⟩
  · left; exact ⟨by simpa [upper, e] using this, rfl⟩
  · right
    obtain ⟨l₂, p, q, r, t, z⟩ := s.visible e
    exact ⟨y, l₂, by simpa [upper, e] using this, p, by rw [q], r, t, z⟩

theorem ancestors_spec {h : Heap} : ∀ {n c l}, Seg h (h.info c).upper l none → l.length + 1 < n →
    ancestors h n c = some ((c :: l.filter (vis h)).map (realModule h))
  | n + 1, c, l, s, hn => by
    rcases upper_cases s (show l.length < n by omega) with ⟨a, b⟩ | ⟨y, l₂, a, p, q, r, _⟩
    · simp [ancestors, a, b]
    · simp [ancestors, a, q, ancestors_spec p (show l₂.length + 1 < n by omega)]

theorem includeModule_spec {h : Heap} {t : Addr} : ∀ {n c l}, Seg h (h.info c).upper l none → l.length + 1 < n →
    includeModule h t n c = some (decide (t ∈ (c :: l.filter (vis h)).map (realModule h)))
  | n + 1, c, l, s, hn => by
    by_cases hc : realModule h c = t
    · simp [includeModule, hc]
    rcases upper_cases s (show l.length < n by omega) with ⟨a, b⟩ | ⟨y, l₂, a, p, q, r, _⟩
    · simp [includeModule, a, b, hc]
      rintro rfl; exact hc rfl
    · rw [includeModule, if_neg hc, a]
      simp only
      rw [includeModule_spec p (show l₂.length + 1 < n by omega), q]
      have : ¬ t = realModule h c := fun e => hc e.symm
      simp [this]

theorem kindOf_spec {h : Heap} {t : Addr} : ∀ {n c l}, Seg h (h.info c).upper l none → l.length + 1 < n →
    kindOf h t n c = some (decide (t ∈ c :: l.filter (vis h)))
  | n + 1, c, l, s, hn => by
    by_cases hc : c = t
    · simp [kindOf, hc]
    rcases upper_cases s (show l.length < n by omega) with ⟨a, b⟩ | ⟨y, l₂, a, p, q, r, _⟩
    · have : ¬ t = c := fun e => hc e.symm
      simp [kindOf, a, b, hc, this]
    · rw [kindOf, if_neg hc, a]
      simp only
      rw [kindOf_spec p (show l₂.length + 1 < n by omega), q]
      have : ¬ t = c := fun e => hc e.symm
      simp [this]

/-- The first cell of the list whose method table has the name. -/
def firstIn (h : Heap) (name : Id) : List Addr → Option (Fn × Addr)
  | [] => none
  | c :: l => match (h.ext (h.info c).ext).methods name with
    | some f => some (f, c)
    | none => firstIn h name l

theorem searchLoop_false {h : Heap} {st : Addr} {name : Id} : ∀ {n c l}, Seg h (h.info c).upper l none → l.length + 1 < n →
    searchLoop h st name n c false = some (firstIn h name (c :: l.filter (vis h)))
  | n + 1, c, l, s, hn => by
    rcases hm : (h.ext (h.info c).ext).methods name with _ | f
    · rcases upper_cases s (show l.length < n by omega) with ⟨a, b⟩ | ⟨y, l₂, a, p, q, r, _⟩
      · simp [searchLoop, hm, a, b, firstIn]
      · simp only [searchLoop, hm, a, firstIn]
        rw [searchLoop_false p (show l₂.length + 1 < n by omega), q]
    · simp [searchLoop, hm, firstIn]

theorem searchLoop_true {h : Heap} {st : Addr} {name : Id} {l'} (s' : Seg h (h.info (h.obj st).cls).upper l' none) :
    ∀ {n c l}, Seg h (h.info c).upper l none → l.length + l'.length + 2 < n →
    searchLoop h st name n c true =
      some (firstIn h name (c :: l.filter (vis h) ++ (h.obj st).cls :: l'.filter (vis h)))
  | n + 1, c, l, s, hn => by
    rcases hm : (h.ext (h.info c).ext).methods name with _ | f
    · rcases upper_cases s (show l.length < n by omega) with ⟨a, b⟩ | ⟨y, l₂, a, p, q, r, _⟩
      · simp only [searchLoop, hm, a, b, firstIn, List.cons_append, List.nil_append]
        rw [if_pos trivial, searchLoop_false s' (by omega)]
        rfl
      · simp only [searchLoop, hm, a, firstIn, List.cons_append]
        rw [searchLoop_true s' p (show l₂.length + l'.length + 2 < n by omega), q]
    · simp [searchLoop, hm, firstIn]

theorem superLoop_spec {h : Heap} : ∀ {l u n v}, Seg h u l (some v) → (∀ x ∈ l, (h.info x).included = true) →
    (h.info v).included = false → l.length < n → superLoop h n u = some (some v)
  | [], _, n + 1, v, s, _, hv, _ => by cases s; simp [superLoop, hv]
  | x :: l, _, n + 1, v, ⟨a, b⟩, hl, hv, hn => by
    subst a
    simp only [superLoop, hl x (by simp)]
    simpa using superLoop_spec b (fun y hy => hl y (by simp [hy])) hv (by simpa using hn)

theorem superLoop_none {h : Heap} : ∀ {l u n}, Seg h u l none → (∀ x ∈ l, (h.info x).included = true) →
    l.length < n → superLoop h n u = some none
  | [], _, n + 1, s, _, _ => by cases s; simp [superLoop]
  | x :: l, _, n + 1, ⟨a, b⟩, hl, hn => by
    subst a
    simp only [superLoop, hl x (by simp)]
    simpa using superLoop_none b (fun y hy => hl y (by simp [hy])) (by simpa using hn)

end Verif.Class
