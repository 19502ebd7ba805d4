import Verif.Source.Spec
import Mathlib.Data.List.Basic
import Mathlib.Data.List.Count
/-!
# Source locations point at the right line (C51)
-/
namespace Verif.Source

/-- The state of the scan: `ps` are the newline positions from `top` on, ascending. -/
structure Scan (code : Bytes) (ps : List Nat) (idx top : Nat) : Prop where
  le : top ≤ code.length
  begins : top = 0 ∨ code[top - 1]? = some NL
  count : idx = (code.take top).count NL
  mem : ∀ p, p ∈ ps ↔ top ≤ p ∧ code[p]? = some NL
  sorted : ps.Pairwise (· < ·)

theorem newlines_scan (code : Bytes) : Scan code (newlines code) 0 0 := by
  refine ⟨Nat.zero_le _, Or.inl rfl, by simp, ?_, ?_⟩
  · intro p
    simp only [newlines, List.mem_filter, List.mem_range, decide_eq_true_eq, Nat.zero_le, true_and]
    constructor
    · rintro ⟨_, h⟩; exact h
    · intro h
      refine ⟨?_, h⟩
      by_contra hc
      rw [List.getElem?_eq_none (by omega)] at h
      exact absurd h (by simp)
  · exact List.Pairwise.filter _ List.pairwise_lt_range

theorem lt_of_nl {code : Bytes} {p : Nat} (h : code[p]? = some NL) : p < code.length := by
  by_contra hc
  rw [List.getElem?_eq_none (by omega)] at h
  exact absurd h (by simp)

theorem count_take_succ {code : Bytes} {top p : Nat} (h : top ≤ p) (hp : code[p]? = some NL)
    (hn : ∀ i, top ≤ i → i < p → code[i]? ≠ some NL) :
    (code.take (p + 1)).count NL = (code.take top).count NL + 1 := by
  have hlt := lt_of_nl hp
  obtain ⟨d, rfl⟩ := Nat.exists_eq_add_of_le h
  have e : code.take (top + d) = code.take top ++ (code.drop top).take d := List.take_add
  rw [List.take_add_one, hp, Option.toList_some, List.count_append, e, List.count_append]
  have : ((code.drop top).take d).count NL = 0 := by
    rw [List.count_eq_zero]
    intro hm
    obtain ⟨i, hi, he⟩ := List.getElem_of_mem hm
    rw [List.length_take, List.length_drop] at hi
    refine hn (top + i) (by omega) (by omega) ?_
    rw [List.getElem?_eq_getElem (by omega)]
    simpa using he
  simp [this]

theorem Scan.next {code : Bytes} {p : Nat} {ps : List Nat} {idx top : Nat} (s : Scan code (p :: ps) idx top) :
    IsLine code (idx + 1) top p ∧ code[p]? = some NL ∧ Scan code ps (idx + 1) (p + 1) := by
  have hp := (s.mem p).1 (by simp)
  have hlt := lt_of_nl hp.2
  have hs := List.pairwise_cons.1 s.sorted
  have hn : ∀ i, top ≤ i → i < p → code[i]? ≠ some NL := by
    intro i hi hip hc
    have := (s.mem i).2 ⟨hi, hc⟩
    rcases List.mem_cons.1 this with rfl | h
    · omega
    · have := hs.1 i h; omega
  refine ⟨⟨hp.1, by omega, hn, s.begins, Or.inr hp.2, by rw [s.count]⟩, hp.2, ?_⟩
  refine ⟨by omega, Or.inr (by simpa using hp.2), ?_, ?_, hs.2⟩
  · rw [count_take_succ hp.1 hp.2 hn, s.count]
  · intro q
    constructor
    · intro hq
      have h1 := (s.mem q).1 (List.mem_cons_of_mem _ hq)
      have h2 := hs.1 q hq
      exact ⟨by omega, h1.2⟩
    · rintro ⟨h1, h2⟩
      have := (s.mem q).2 ⟨by omega, h2⟩
      rcases List.mem_cons.1 this with rfl | h
      · omega
      · exact h

theorem closed_isLine {code : Bytes} {ps : List Nat} {idx top : Nat} (s : Scan code ps idx top) :
    ∀ L ∈ (closed ps idx top).1, IsLine code L.no L.top L.end ∧ code[L.end]? = some NL ∧ top ≤ L.top := by
  induction ps generalizing idx top with
  | nil => intro L h; simp [closed] at h
  | cons p ps ih =>
    obtain ⟨h1, h2, h3⟩ := s.next
    intro L hL
    simp only [closed, List.mem_cons] at hL
    rcases hL with rfl | hL
    · exact ⟨h1, h2, Nat.le_refl _⟩
    · obtain ⟨a, b, c⟩ := ih h3 L hL
      have := h1.1
      exact ⟨a, b, by omega⟩

/-- after the scan: `line_top` begins a stretch without newlines that reaches the end of the text -/
theorem closed_rest {code : Bytes} {ps : List Nat} {idx top : Nat} (s : Scan code ps idx top) :
    Scan code [] (idx + ps.length) (closed ps idx top).2 := by
  induction ps generalizing idx top with
  | nil => exact s
  | cons p ps ih =>
    have := ih s.next.2.2
    simp only [closed, List.length_cons]
    rwa [show idx + (ps.length + 1) = idx + 1 + ps.length by omega]

/-- exactly one line of the scan contains a given position -/
theorem closed_find {code : Bytes} {ps : List Nat} {idx top : Nat} (s : Scan code ps idx top) (p : Nat)
    (hp : top ≤ p) (hc : Closed code p) :
    ∃ L, (closed ps idx top).1.filter (fun L => L.end ≥ p ∧ L.top ≤ p) = [L] ∧ L.top ≤ p ∧ p ≤ L.end := by
  induction ps generalizing idx top with
  | nil =>
    obtain ⟨q, h1, h2⟩ := hc
    have := (s.mem q).2 ⟨by omega, h2⟩
    simp at this
  | cons x ps ih =>
    obtain ⟨h1, h2, h3⟩ := s.next
    by_cases hx : p ≤ x
    · refine ⟨⟨idx + 1, top, x⟩, ?_, hp, hx⟩
      simp only [closed]
      rw [List.filter_cons_of_pos (by simp; omega)]
      congr 1
      rw [List.filter_eq_nil_iff]
      intro L hL
      have := (closed_isLine h3 L hL).2.2
      simp; omega
    · obtain ⟨L, hL, ha, hb⟩ := ih h3 (by omega)
      refine ⟨L, ?_, ha, hb⟩
      simp only [closed]
      rw [List.filter_cons_of_neg (by simp; omega)]
      exact hL

theorem closed_rest_le {code : Bytes} {ps : List Nat} {idx top : Nat} (s : Scan code ps idx top) (q : Nat)
    (hq : code[q]? = some NL) (_hle : top ≤ q) : q < (closed ps idx top).2 := by
  by_contra hc
  have := ((closed_rest s).mem q).2 ⟨by omega, hq⟩
  simp at this

/-- **C51, partial**: a position on a line that ends with a newline is reported with exactly the one line that
contains it: its number, where it begins and where it ends.

Missing: the last line of a text without a newline at its end (`C51_last_line_fails`). -/
theorem C51_position_partial (code : Bytes) (p : Nat) (hc : Closed code p) :
    ∃ L, get_lines code p p = [L] ∧ IsLine code L.no L.top L.end ∧ L.top ≤ p ∧ p ≤ L.end := by
  obtain ⟨L, hL, ha, hb⟩ := closed_find (newlines_scan code) p (Nat.zero_le _) hc
  have hm : L ∈ (closed (newlines code) 0 0).1 := by
    have : L ∈ [L] := by simp
    rw [← hL] at this
    exact (List.mem_filter.1 this).1
  refine ⟨L, ?_, (closed_isLine (newlines_scan code) L hm).1, ha, hb⟩
  obtain ⟨q, h1, h2⟩ := hc
  have := closed_rest_le (newlines_scan code) q h2 (Nat.zero_le _)
  unfold get_lines
  simp only [hL]
  rw [if_neg (by omega)]

/-- **C51, partial**: a stretch that ends on a line closed by a newline is reported with exactly the lines it
touches: every line reported is a line of the text that meets the stretch, and every position of the stretch
lies on a reported line. -/
theorem C51_stretch_partial (code : Bytes) (l0 l1 : Nat) (hc : Closed code l1) :
    (∀ L ∈ get_lines code l0 l1, IsLine code L.no L.top L.end ∧ l0 ≤ L.end ∧ L.top ≤ l1) ∧
    (∀ p, l0 ≤ p → p ≤ l1 → ∃ L ∈ get_lines code l0 l1, L.top ≤ p ∧ p ≤ L.end) := by
  have e : get_lines code l0 l1 =
      (closed (newlines code) 0 0).1.filter (fun line => line.end ≥ l0 ∧ line.top ≤ l1) := by
    obtain ⟨q, h1, h2⟩ := hc
    have := closed_rest_le (newlines_scan code) q h2 (Nat.zero_le _)
    unfold get_lines
    simp only
    rw [if_neg (by omega)]
  constructor
  · intro L hL
    rw [e] at hL
    obtain ⟨h1, h2⟩ := List.mem_filter.1 hL
    simp only [ge_iff_le, decide_eq_true_eq] at h2
    exact ⟨(closed_isLine (newlines_scan code) L h1).1, h2.1, h2.2⟩
  · intro p h0 h1
    obtain ⟨q, hq, hn⟩ := hc
    obtain ⟨L, hL, ha, hb⟩ := closed_find (newlines_scan code) p (Nat.zero_le _) ⟨q, by omega, hn⟩
    have hm : L ∈ [L] := by simp
    rw [← hL] at hm
    refine ⟨L, ?_, ha, hb⟩
    rw [e, List.mem_filter]
    exact ⟨(List.mem_filter.1 hm).1, by simp; omega⟩

/-- The specification determines the line of a position. -/
theorem C51_line_unique (code : Bytes) (p n top e n' top' e' : Nat) (h : IsLine code n top e)
    (h' : IsLine code n' top' e') (hp : top ≤ p ∧ p ≤ e) (hp' : top' ≤ p ∧ p ≤ e') :
    n = n' ∧ top = top' ∧ e = e' := by
  have key : ∀ {n top e n' top' e'}, IsLine code n top e → IsLine code n' top' e' → (top ≤ p ∧ p ≤ e) →
      (top' ≤ p ∧ p ≤ e') → top' ≤ top ∧ e ≤ e' := by
    intro n top e n' top' e' h h' hp hp'
    obtain ⟨a1, a2, a3, a4, a5, a6⟩ := h
    obtain ⟨b1, b2, b3, b4, b5, b6⟩ := h'
    constructor
    · by_contra hc
      rcases b4 with b4 | b4
      · omega
      · exact a3 (top' - 1) (by omega) (by omega) b4
    · by_contra hc
      rcases b5 with b5 | b5
      · omega
      · exact a3 e' (by omega) (by omega) b5
  obtain ⟨k1, k2⟩ := key h h' hp hp'
  obtain ⟨k3, k4⟩ := key h' h hp' hp
  have : top = top' := by omega
  subst this
  exact ⟨h.2.2.2.2.2.trans h'.2.2.2.2.2.symm, rfl, by omega⟩

/-- **C51 is false on an unterminated last line**: whatever comes before it, it is reported as line 1. -/
theorem C51_last_line_fails (code : Bytes) (p : Nat) (hp : p < code.length) (hc : ¬ Closed code p) :
    ∃ L, get_lines code p p = [L] ∧ L.no = 1 ∧ ∃ n, IsLine code n L.top code.length ∧ L.top ≤ p ∧
      n = code.count NL + 1 := by
  have s := closed_rest (newlines_scan code)
  have htop : (closed (newlines code) 0 0).2 ≤ p := by
    rcases s.begins with h | h
    · omega
    · by_contra hlt
      exact hc ⟨_, by omega, h⟩
  have hn : ∀ i, (closed (newlines code) 0 0).2 ≤ i → code[i]? ≠ some NL := by
    intro i hi he
    have := (s.mem i).2 ⟨hi, he⟩
    simp at this
  have hf : (closed (newlines code) 0 0).1.filter (fun line => line.end ≥ p ∧ line.top ≤ p) = [] := by
    rw [List.filter_eq_nil_iff]
    intro L hL
    have h2 := (closed_isLine (newlines_scan code) L hL).2.1
    simp only [ge_iff_le, decide_eq_true_eq, not_and]
    intro h; exact absurd ⟨_, h, h2⟩ hc
  refine ⟨⟨1, (closed (newlines code) 0 0).2, code.length - 1⟩, ?_, rfl,
    (code.take (closed (newlines code) 0 0).2).count NL + 1, ?_, htop, ?_⟩
  · unfold get_lines
    simp only [hf]
    rw [if_pos (by omega)]; rfl
  · exact ⟨s.le, Nat.le_refl _, fun i hi _ => hn i hi, s.begins, Or.inl rfl, rfl⟩
  · congr 1
    conv_rhs => rw [← List.take_append_drop (closed (newlines code) 0 0).2 code, List.count_append]
    have : (code.drop (closed (newlines code) 0 0).2).count NL = 0 := by
      rw [List.count_eq_zero]
      intro hm
      obtain ⟨i, hi, he⟩ := List.getElem_of_mem hm
      rw [List.getElem_drop] at he
      refine hn ((closed (newlines code) 0 0).2 + i) (by omega) ?_
      rw [List.length_drop] at hi
      rw [List.getElem?_eq_getElem (by omega), he]
    omega

/-- In a text of ASCII characters every position is between characters. -/
theorem boundary_ascii {code : Bytes} (h : ∀ b ∈ code, b < 0x80) {i : Nat} (hi : i ≤ code.length) :
    boundary code i = true := by
  unfold boundary
  split
  · rfl
  · rw [List.getElem?_eq_getElem (by omega)]
    simp [h _ (List.getElem_mem (by omega : i < code.length))]

/-- **C51 (what is printed), partial**: for a stretch `p..q` inside one closed, non-empty line of an ASCII text
the heading has the number of the line, the text of the line is printed, and the carets stand under the
stretch. -/
theorem C51_shown_partial (width : Bytes → Nat) (code : Bytes) (hasc : ∀ b ∈ code, b < 0x80) (p q n top e : Nat)
    (hl : IsLine code n top e) (he : e < code.length) (htp : top ≤ p) (hpq : p ≤ q) (hqe : q < e)
    (hw : width [] = 0) :
    get_location width code p q = some (some n,
      [⟨(code.drop top).take (e - top), width ((code.drop top).take (p - top)),
        width ((code.drop p).take (q + 1 - p))⟩]) := by
  have hnl : code[e]? = some NL := by
    rcases hl.2.2.2.2.1 with h | h
    · omega
    · exact h
  have hcl : Closed code q := ⟨e, by omega, hnl⟩
  -- the only line reported
  have hlines : get_lines code p q = [⟨n, top, e⟩] := by
    obtain ⟨L, hL, hLl, ha, hb⟩ := C51_position_partial code p ⟨e, by omega, hnl⟩
    obtain ⟨h1, h2, h3⟩ := C51_line_unique code p _ _ _ _ _ _ hl hLl ⟨htp, by omega⟩ ⟨ha, hb⟩
    have hLe : L = ⟨n, top, e⟩ := by cases L; simp_all
    rw [hLe] at hL
    have hrest := closed_rest_le (newlines_scan code) e hnl (Nat.zero_le _)
    unfold get_lines at hL ⊢
    simp only at hL ⊢
    rw [if_neg (by omega)] at hL ⊢
    rw [← hL]
    apply List.filter_congr
    intro M hM
    have hMl := (closed_isLine (newlines_scan code) M hM).1
    simp only [ge_iff_le, decide_eq_decide]
    constructor
    · rintro ⟨h4, h5⟩
      refine ⟨h4, ?_⟩
      by_contra hc
      -- M begins inside the line
      rcases hMl.2.2.2.1 with h6 | h6
      · omega
      · exact hl.2.2.1 (M.top - 1) (by omega) (by omega) h6
    · rintro ⟨h4, h5⟩; exact ⟨h4, by omega⟩
  unfold get_location
  simp only [hlines]
  have hb : ∀ i, i ≤ code.length → boundary code i = true := fun i hi => boundary_ascii hasc hi
  have hs : ∀ a b, a ≤ b → b ≤ code.length → slice code a b = some ((code.drop a).take (b - a)) := by
    intro a b h1 h2
    unfold slice
    rw [if_pos ⟨h1, hb _ (by omega), hb _ h2⟩]
  have hnx : next_is_newline code e = some true := by
    unfold next_is_newline
    rw [hs _ _ (by omega) (Nat.le_refl _)]
    simp only [Option.bind_eq_bind, Option.bind_some, Option.some.injEq, decide_eq_true_eq]
    rw [List.head?_take, List.head?_drop, if_neg (by omega), hnl]
  have hshow : show_line width code p q ⟨n, top, e⟩ =
      some ⟨(code.drop top).take (e - top), width ((code.drop top).take (p - top)),
        width ((code.drop p).take (q + 1 - p))⟩ := by
    unfold show_line
    simp only [hnx, Option.bind_eq_bind, Option.bind_some]
    rw [if_pos (by exact ⟨trivial, by omega⟩), show e - 1 + 1 = e by omega, hs _ _ (by omega) (by omega)]
    have hmax : max p top = p := by omega
    have hmin : min q e = q := by omega
    simp only [Option.bind_some, hmax, hmin]
    rw [hs p (q + 1) (by omega) (by omega)]
    by_cases hpt : p ≤ top
    · have : p = top := by omega
      subst this
      simp [hw]
    · rw [if_neg hpt, hs top p (by omega) (by omega)]
      simp
  simp only [List.mapM_cons, List.mapM_nil, hshow, Option.bind_eq_bind, Option.bind_some, Option.pure_def]
  rfl

/-- **C51, lines of a closed text**: if the text ends with a newline, only lines closed by a newline are reported,
whatever the stretch, even one that reaches beyond the end. -/
theorem C51_terminated (code : Bytes) (l0 l1 : Nat) (h : code.getLast? = some NL) :
    ∀ L ∈ get_lines code l0 l1, IsLine code L.no L.top L.end ∧ code[L.end]? = some NL := by
  have hne : 0 < code.length := by
    cases code with
    | nil => simp at h
    | cons => simp
  have hlast : code[code.length - 1]? = some NL := by rw [← List.getLast?_eq_getElem?]; exact h
  have hr := closed_rest_le (newlines_scan code) _ hlast (Nat.zero_le _)
  intro L hL
  unfold get_lines at hL
  simp only at hL
  rw [if_neg (by omega)] at hL
  have := closed_isLine (newlines_scan code) L (List.mem_filter.1 hL).1
  exact ⟨this.1, this.2.1⟩

theorem closed_first {code : Bytes} {ps : List Nat} {idx top : Nat} (s : Scan code ps idx top) (p q : Nat)
    (hp : top ≤ p) (hpq : p ≤ q) (hc : Closed code p) :
    ∃ L rest, (closed ps idx top).1.filter (fun L => L.end ≥ p ∧ L.top ≤ q) = L :: rest ∧ L.top ≤ p ∧ p ≤ L.end := by
  induction ps generalizing idx top with
  | nil =>
    obtain ⟨q, h1, h2⟩ := hc
    have := (s.mem q).2 ⟨by omega, h2⟩
    simp at this
  | cons x ps ih =>
    obtain ⟨h1, h2, h3⟩ := s.next
    by_cases hx : p ≤ x
    · refine ⟨⟨idx + 1, top, x⟩, (closed ps (idx + 1) (x + 1)).1.filter (fun L => L.end ≥ p ∧ L.top ≤ q), ?_, hp, hx⟩
      simp only [closed]
      rw [List.filter_cons_of_pos (by simp; omega)]
    · obtain ⟨L, rest, hL, ha, hb⟩ := ih h3 (by omega)
      refine ⟨L, rest, ?_, ha, hb⟩
      simp only [closed]
      rw [List.filter_cons_of_neg (by simp; omega)]
      exact hL

/-- **C51, heading**: the first line reported for a stretch is the one on which the stretch begins. -/
theorem C51_heading_partial (code : Bytes) (l0 l1 : Nat) (h : l0 ≤ l1) (hc : Closed code l0) :
    ∃ L rest, get_lines code l0 l1 = L :: rest ∧ IsLine code L.no L.top L.end ∧ L.top ≤ l0 ∧ l0 ≤ L.end := by
  obtain ⟨L, rest, hL, ha, hb⟩ := closed_first (newlines_scan code) l0 l1 (Nat.zero_le _) h hc
  have hm : L ∈ L :: rest := by simp
  rw [← hL] at hm
  have hi := (closed_isLine (newlines_scan code) L (List.mem_filter.1 hm).1).1
  unfold get_lines
  simp only [hL]
  split
  · exact ⟨L, _, rfl, hi, ha, hb⟩
  · exact ⟨L, _, rfl, hi, ha, hb⟩

/-- **C51, each line of a longer stretch**: for a closed, non-empty line `top..e` of an ASCII text that the stretch
`l0..l1` touches, the text of the line is printed and the carets stand under that part of the stretch that lies
on the line (the newline counts as part of the line). -/
theorem C51_shown_each_partial (width : Bytes → Nat) (code : Bytes) (hasc : ∀ b ∈ code, b < 0x80) (l0 l1 n top e : Nat)
    (hl : IsLine code n top e) (he : e < code.length) (hte : top < e) (h0 : l0 ≤ e) (h1 : top ≤ l1) (h01 : l0 ≤ l1)
    (hw : width [] = 0) :
    ∃ first last, (∀ i, first ≤ i ∧ i ≤ last ↔ (top ≤ i ∧ i ≤ e ∧ l0 ≤ i ∧ i ≤ l1)) ∧ first ≤ last ∧
      show_line width code l0 l1 ⟨n, top, e⟩ = some ⟨(code.drop top).take (e - top),
        width ((code.drop top).take (first - top)), width ((code.drop first).take (last + 1 - first))⟩ := by
  refine ⟨max l0 top, min l1 e, by intro i; omega, by omega, ?_⟩
  have hnl : code[e]? = some NL := by
    rcases hl.2.2.2.2.1 with h | h
    · omega
    · exact h
  have hb : ∀ i, i ≤ code.length → boundary code i = true := fun i hi => boundary_ascii hasc hi
  have hs : ∀ a b, a ≤ b → b ≤ code.length → slice code a b = some ((code.drop a).take (b - a)) := by
    intro a b h1 h2
    unfold slice
    rw [if_pos ⟨h1, hb _ (by omega), hb _ h2⟩]
  have hnx : next_is_newline code e = some true := by
    unfold next_is_newline
    rw [hs _ _ (by omega) (Nat.le_refl _)]
    simp only [Option.bind_eq_bind, Option.bind_some, Option.some.injEq, decide_eq_true_eq]
    rw [List.head?_take, List.head?_drop, if_neg (by omega), hnl]
  unfold show_line
  simp only [hnx, Option.bind_eq_bind, Option.bind_some]
  rw [if_pos (by exact ⟨trivial, by omega⟩), show e - 1 + 1 = e by omega, hs _ _ (by omega) (by omega)]
  simp only [Option.bind_some]
  rw [hs (max l0 top) (min l1 e + 1) (by omega) (by omega)]
  by_cases hpt : l0 ≤ top
  · rw [if_pos hpt]
    have : max l0 top = top := by omega
    simp [this, hw]
  · rw [if_neg hpt, hs top l0 (by omega) (by omega)]
    have : max l0 top = l0 := by omega
    simp [this]

/-- **Reporting a location aborts the interpreter** on the last line of a text that ends, without a newline,
with a character of several bytes. -/
theorem C51_multibyte_end_fails :
    get_location List.length "é".toUTF8.toList 0 0 = none := by decide +kernel

/-! ## Cases that meet the hypotheses -/

example : get_lines "ab\ncd\nef".toUTF8.toList 4 4 = [⟨2, 3, 5⟩] := by decide +kernel
example : Closed "ab\ncd\nef".toUTF8.toList 4 := ⟨5, by decide, by decide +kernel⟩
example : get_location List.length "ab\ncde\nef\n".toUTF8.toList 4 5 =
    some (some 2, [⟨"cde".toUTF8.toList, 1, 2⟩]) := by decide +kernel
example : get_location List.length "ab\ncde\nefg\n".toUTF8.toList 4 8 =
    some (some 2, [⟨"cde".toUTF8.toList, 1, 3⟩, ⟨"efg".toUTF8.toList, 0, 2⟩]) := by decide +kernel
example : get_lines "ab\ncd\nef".toUTF8.toList 7 7 = [⟨1, 6, 7⟩] := by decide +kernel

end Verif.Source
