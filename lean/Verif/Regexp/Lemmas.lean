import Verif.Regexp.Spec
import Mathlib.Data.Nat.Find
import Mathlib.Data.List.Induction
/-! Helper lemmas for the properties of matching methods. -/
namespace Verif.Regexp

/-- Matches in order, inside the text. -/
def Ordered (t : Bytes) : Nat → List (Span × Bytes) → Prop
  | _, [] => True
  | p, (s, _) :: l => p ≤ s.start ∧ s.start ≤ s.stop ∧ s.stop ≤ t.length ∧ Ordered t s.stop l

theorem Ordered.mono {t : Bytes} : ∀ {l : List (Span × Bytes)} {p p'}, p' ≤ p → Ordered t p l →
    Ordered t p' l
  | [], _, _, _, _ => trivial
  | (_, _) :: _, _, _, h, ⟨a, b, c, d⟩ => ⟨Nat.le_trans h a, b, c, d⟩

theorem take_split (t : Bytes) {p s : Nat} (h : p ≤ s) :
    t.take s = t.take p ++ (t.take s).drop p := by
  have := List.take_append_drop p (t.take s)
  rw [List.take_take, Nat.min_eq_left h] at this
  exact this.symm

theorem replaceBackWith_eq (t : Bytes) : ∀ (l : List (Caps × Bytes)) (p : Nat), p ≤ t.length →
    Ordered t p (l.map fun x => (x.1.whole, x.2)) →
    replaceBackWith (l.map fun x => (x.1.whole, x.2)) t = some (t.take p ++ fill t p l)
  | [], p, _, _ => by simp [replaceBackWith, fill]
  | (c, r) :: l, p, hp, h => by
    obtain ⟨h1, h2, h3, h4⟩ := h
    simp only at h1 h2 h3 h4
    have ih := replaceBackWith_eq t l c.whole.stop h3 h4
    simp only [List.map_cons, replaceBackWith, ih, Option.bind_some]
    have hl : (t.take c.whole.stop).length = c.whole.stop := by simp; omega
    have ht : (t.take c.whole.stop ++ fill t c.whole.stop l).take c.whole.start
        = t.take c.whole.start := by
      rw [List.take_append_of_le_length (by omega), List.take_take, Nat.min_eq_left h2]
    have hd : (t.take c.whole.stop ++ fill t c.whole.stop l).drop c.whole.stop
        = fill t c.whole.stop l := by
      rw [List.drop_append_of_le_length (by omega), List.drop_eq_nil_of_le (by omega),
        List.nil_append]
    rw [replace_range, if_pos ⟨h2, by rw [List.length_append]; omega⟩, ht, hd, fill,
      ← List.append_assoc, ← List.append_assoc, ← take_split t h1]

theorem replaceBack_with (rep : Bytes) : ∀ (l : List Span) (t : Bytes),
    replaceBack rep l t = replaceBackWith (l.map (·, rep)) t
  | [], _ => rfl
  | s :: l, t => by simp [replaceBack, replaceBackWith, replaceBack_with rep l t]

/-- The matches of a pattern that fits are in order, whatever is put in their place. -/
theorem Matches.ordered {t : Bytes} {m : Pattern} (hf : Fits t m) {p : Nat} {l : List Caps}
    (h : Matches t m p l) : ∀ g : Nat → Bytes,
    Ordered t p ((l.zipIdx.map fun x => (x.1.whole, g x.2))) := by
  have key : ∀ (k : Nat) (g : Nat → Bytes), Ordered t p ((l.zipIdx k).map fun x => (x.1.whole, g x.2)) := by
    induction h with
    | none _ => intro k g; trivial
    | text hs _ hm _ _ ih =>
      intro k g
      have := hf.inside _ _ hm
      have h' := hf.starts _ _ hm
      exact ⟨by rw [h']; exact hs, by rw [h']; exact this.1, this.2, ih (k + 1) g⟩
    | empty hs _ hm he hn _ _ _ ih =>
      intro k g
      have := hf.inside _ _ hm
      have h' := hf.starts _ _ hm
      exact ⟨by rw [h']; exact hs, by rw [h']; exact this.1, this.2,
        (ih (k + 1) g).mono (by simp only; omega)⟩
  exact key 0

theorem Ordered.of_zip {t : Bytes} : ∀ {l : List (Caps × Bytes)} {p : Nat},
    Ordered t p ((l.map fun x => x.1).zipIdx.map fun x => (x.1.whole, ([] : Bytes))) →
    Ordered t p (l.map fun x => (x.1.whole, x.2)) := by
  have key : ∀ (l : List (Caps × Bytes)) (k p : Nat),
      Ordered t p (((l.map fun x => x.1).zipIdx k).map fun x => (x.1.whole, ([] : Bytes))) →
      Ordered t p (l.map fun x => (x.1.whole, x.2)) := by
    intro l
    induction l with
    | nil => intros; trivial
    | cons a l ih =>
      intro k p h
      obtain ⟨h1, h2, h3, h4⟩ := h
      exact ⟨h1, h2, h3, ih _ _ h4⟩
  intro l p h
  exact key l 0 p h

/-- A prefix of ordered ranges is ordered. -/
theorem Ordered.prefix_ {t : Bytes} : ∀ {l l' : List (Span × Bytes)} {p : Nat},
    Ordered t p (l ++ l') → Ordered t p l
  | [], _, _, _ => trivial
  | (_, _) :: _, _, _, ⟨a, b, c, d⟩ => ⟨a, b, c, Ordered.prefix_ d⟩

/-- Either nothing matches from `p` on or there is a leftmost match. -/
theorem leftmost (m : Pattern) (p : Nat) :
    (∀ q, p ≤ q → m q = none) ∨
    ∃ s c, p ≤ s ∧ (∀ q, p ≤ q → q < s → m q = none) ∧ m s = some c := by
  by_cases h : ∃ s, p ≤ s ∧ m s ≠ none
  · right
    have : ∃ k s, s - p = k ∧ p ≤ s ∧ m s ≠ none := by
      obtain ⟨s, h1, h2⟩ := h
      exact ⟨s - p, s, rfl, h1, h2⟩
    classical
    let k := Nat.find this
    obtain ⟨s, hk, h1, h2⟩ := Nat.find_spec this
    cases hc : m s with
    | none => exact absurd hc h2
    | some c =>
      refine ⟨s, c, h1, ?_, hc⟩
      intro q hq hqs
      cases hmq : m q with
      | none => rfl
      | some c' =>
        have := Nat.find_min this (m := q - p) (by omega) 
        exact absurd ⟨q, rfl, hq, by rw [hmq]; simp⟩ this
  · left
    intro q hq
    cases hm : m q with
    | none => rfl
    | some c => exact absurd ⟨q, hq, by rw [hm]; simp⟩ h

theorem getLast_or {α : Type} (c : α) (l : List α) (x : Option α) :
    (c :: l).getLast?.or x = l.getLast?.or (some c) := by
  rw [List.getLast?_cons]
  cases l.getLast? <;> rfl

theorem repeatLoop_eq {ε : Type} {t : Bytes} {m : Pattern} {re : Engine} (hf : Fits t m)
    (hr : Finds t m re) (hn : Narrow t m) :
    ∀ (k i : Nat), t.length + 1 - i ≤ k → (i ≤ t.length → Boundary t i) →
    ∃ l l', Matches t m i (l ++ l') ∧
      (∀ c ∈ l', m t.length = some c) ∧ l'.length ≤ 1 ∧
      ∀ fuel, k < fuel → ∀ range last, repeatLoop (ε := ε) t re fuel i range last =
        .ok (range ++ l.map Caps.whole, l.getLast?.or last) := by
  intro k
  induction k with
  | zero =>
    intro i hi hb
    refine ⟨[], [], .none ?_, by simp, by simp, ?_⟩
    · intro q hq
      cases hm : m q with
      | none => rfl
      | some c => have := hf.inside _ _ hm; omega
    · intro fuel hfu range last
      obtain ⟨fuel, rfl⟩ := Nat.exists_eq_succ_of_ne_zero (by omega : fuel ≠ 0)
      rw [repeatLoop, if_pos (by omega)]
      simp
  | succ k ih =>
    intro i hi hb
    rcases leftmost m i with hnone | ⟨s, c, his, hlt, hm⟩
    · refine ⟨[], [], .none hnone, by simp, by simp, ?_⟩
      intro fuel hfu range last
      obtain ⟨fuel, rfl⟩ := Nat.exists_eq_succ_of_ne_zero (by omega : fuel ≠ 0)
      rw [repeatLoop]
      by_cases hil : i ≥ t.length
      · rw [if_pos hil]; simp
      · rw [if_neg hil]
        have : captures_from_pos t re i = some .none := by
          rw [captures_from_pos, if_pos (by omega), hr.none i (hb (by omega)) (by omega) hnone]
        rw [this]
        simp
    · have hin := hf.inside _ _ hm
      have hst := hf.starts _ _ hm
      by_cases hil : i ≥ t.length
      · -- only an empty match at the end can be there, and it is not looked for
        have hs : s = t.length := by omega
        have hstop : c.whole.stop = t.length := by omega
        refine ⟨[], [c], ?_, ?_, by simp, ?_⟩
        · refine .empty (n := s + 1) his hlt hm (by omega) (by omega) (by omega) (by omega) (.none ?_)
          intro q hq
          cases hmq : m q with
          | none => rfl
          | some c' => have := hf.inside _ _ hmq; omega
        · intro c' hc'
          rw [List.mem_singleton.mp hc', ← hs, hm]
        · intro fuel hfu range last
          obtain ⟨fuel, rfl⟩ := Nat.exists_eq_succ_of_ne_zero (by omega : fuel ≠ 0)
          rw [repeatLoop, if_pos hil]; simp
      · have hcap : captures_from_pos t re i = some (.found c) := by
          rw [captures_from_pos, if_pos (by omega), hr.found i s c (hb (by omega)) his hlt hm]
        by_cases he : c.whole.stop = s
        · have hb' : s + 1 ≤ t.length → Boundary t (s + 1) := fun h => hn s c hm he (by omega)
          obtain ⟨l, l', h1, h2, h3, h4⟩ := ih (s + 1) (by omega) hb'
          refine ⟨c :: l, l', ?_, h2, h3, ?_⟩
          · exact .empty (n := s + 1) his hlt hm he (by omega) (by omega) hb' h1
          · intro fuel hfu range last
            obtain ⟨fuel, rfl⟩ := Nat.exists_eq_succ_of_ne_zero (by omega : fuel ≠ 0)
            rw [repeatLoop, if_neg hil, hcap]
            simp only
            rw [if_pos (by omega), he, h4 fuel (by omega)]
            simp only [List.map_cons, List.append_assoc, List.singleton_append, Res.ok.injEq,
              Prod.mk.injEq, true_and]
            exact (getLast_or c l last).symm
        · obtain ⟨l, l', h1, h2, h3, h4⟩ := ih c.whole.stop (by omega)
            (fun _ => (hf.between _ _ hm).2)
          refine ⟨c :: l, l', ?_, h2, h3, ?_⟩
          · exact .text his hlt hm (by omega) h1
          · intro fuel hfu range last
            obtain ⟨fuel, rfl⟩ := Nat.exists_eq_succ_of_ne_zero (by omega : fuel ≠ 0)
            rw [repeatLoop, if_neg hil, hcap]
            simp only
            rw [if_neg (by omega), h4 fuel (by omega)]
            simp only [List.map_cons, List.append_assoc, List.singleton_append, Res.ok.injEq,
              Prod.mk.injEq, true_and]
            exact (getLast_or c l last).symm

theorem get_captures_eq (c : Caps) (t : Bytes) : get_captures c t = dollars t c := rfl

theorem blockLoop_eq {σ ε : Type} {t : Bytes} {m : Pattern} {re : Engine} (hf : Fits t m)
    (hr : Finds t m re) (hn : Narrow t m) (hend : m t.length = none) (f : Specials → Block σ ε) :
    ∀ (k i : Nat), t.length + 1 - i ≤ k → i ≤ t.length → Boundary t i →
    ∃ l, Matches t m i l ∧
      ∀ fuel, k < fuel → ∀ range w, blockLoop t re f fuel i range w =
        match each t f l w with
        | (.ok rs, w') => (.ok (range ++ (l.zip rs).map fun x => (x.1.whole, x.2)), w')
        | (.error e, w') => (.raised e, w') := by
  intro k
  induction k with
  | zero => intro i hi hil; omega
  | succ k ih =>
    intro i hi hil hb
    rcases leftmost m i with hnone | ⟨s, c, his, hlt, hm⟩
    · refine ⟨[], .none hnone, ?_⟩
      intro fuel hfu range w
      obtain ⟨fuel, rfl⟩ := Nat.exists_eq_succ_of_ne_zero (by omega : fuel ≠ 0)
      have : captures_from_pos t re i = some .none := by
        rw [captures_from_pos, if_pos (by omega), hr.none i hb (by omega) hnone]
      rw [blockLoop, this]
      simp [each]
    · have hin := hf.inside _ _ hm
      have hst := hf.starts _ _ hm
      have hsl : s < t.length := by
        rcases Nat.lt_or_ge s t.length with h | h
        · exact h
        · have : s = t.length := by omega
          rw [this, hend] at hm; cases hm
      have hcap : captures_from_pos t re i = some (.found c) := by
        rw [captures_from_pos, if_pos (by omega), hr.found i s c hb his hlt hm]
      by_cases he : c.whole.stop = s
      · have hb' : Boundary t (s + 1) := hn s c hm he hsl
        obtain ⟨l, h1, h4⟩ := ih (s + 1) (by omega) (by omega) hb'
        refine ⟨c :: l, .empty (n := s + 1) his hlt hm he (by omega) (by omega) (fun _ => hb') h1, ?_⟩
        intro fuel hfu range w
        obtain ⟨fuel, rfl⟩ := Nat.exists_eq_succ_of_ne_zero (by omega : fuel ≠ 0)
        rw [blockLoop, hcap]
        simp only
        rw [if_pos (by omega), he, each, get_captures_eq]
        have hsl' : slice t c.whole.start s = matched t c := by rw [matched, slice, he]
        rw [hsl']
        rcases hfw : f (dollars t c) w (matched t c) with ⟨r | r, w'⟩
        · rfl
        · simp only [h4 fuel (by omega)]
          rcases each t f l w' with ⟨r' | r', w''⟩ <;> simp
      · obtain ⟨l, h1, h4⟩ := ih c.whole.stop (by omega) (by omega) (hf.between _ _ hm).2
        refine ⟨c :: l, .text his hlt hm (by omega) h1, ?_⟩
        intro fuel hfu range w
        obtain ⟨fuel, rfl⟩ := Nat.exists_eq_succ_of_ne_zero (by omega : fuel ≠ 0)
        rw [blockLoop, hcap]
        simp only
        rw [if_neg (by omega), each, get_captures_eq]
        have hsl' : slice t c.whole.start c.whole.stop = matched t c := rfl
        rw [hsl']
        rcases hfw : f (dollars t c) w (matched t c) with ⟨r | r, w'⟩
        · rfl
        · simp only [Nat.add_zero, h4 fuel (by omega)]
          rcases each t f l w' with ⟨r' | r', w''⟩ <;> simp

theorem item_eq (t : Bytes) (c : Caps) : item t c = shown t c := by
  rcases c with ⟨w, _ | ⟨g, gs⟩⟩ <;> rfl

theorem findLoop_eq {ε : Type} {t : Bytes} {m : Pattern} {re : Engine} (hf : Fits t m)
    (hr : Finds t m re) (hne : ∀ p c, m p = some c → p < c.whole.stop) :
    ∀ (k i : Nat), t.length + 1 - i ≤ k → i ≤ t.length → Boundary t i →
    ∃ l, Matches t m i l ∧
      ∀ fuel, k < fuel → ∀ ary last, findLoop (ε := ε) t re fuel i ary last =
        .ok (ary ++ l.map (shown t), l.getLast?.or last) := by
  intro k
  induction k with
  | zero => intro i hi hil; omega
  | succ k ih =>
    intro i hi hil hb
    rcases leftmost m i with hnone | ⟨s, c, his, hlt, hm⟩
    · refine ⟨[], .none hnone, ?_⟩
      intro fuel hfu ary last
      obtain ⟨fuel, rfl⟩ := Nat.exists_eq_succ_of_ne_zero (by omega : fuel ≠ 0)
      have : captures_from_pos t re i = some .none := by
        rw [captures_from_pos, if_pos (by omega), hr.none i hb (by omega) hnone]
      rw [findLoop, this]
      simp
    · have hin := hf.inside _ _ hm
      have hst := hf.starts _ _ hm
      have hgt := hne _ _ hm
      have hcap : captures_from_pos t re i = some (.found c) := by
        rw [captures_from_pos, if_pos (by omega), hr.found i s c hb his hlt hm]
      obtain ⟨l, h1, h4⟩ := ih c.whole.stop (by omega) (by omega) (hf.between _ _ hm).2
      refine ⟨c :: l, .text his hlt hm (by omega) h1, ?_⟩
      intro fuel hfu ary last
      obtain ⟨fuel, rfl⟩ := Nat.exists_eq_succ_of_ne_zero (by omega : fuel ≠ 0)
      rw [findLoop, hcap]
      simp only [h4 fuel (by omega), item_eq]
      rw [getLast_or]
      simp

/-- Expansion of a replacement written as pieces. -/
theorem expand_write (t : Bytes) (c : Caps) : ∀ (ps : List Piece),
    (∀ b, .text b ∈ ps → (0x5c : UInt8) ∉ b) →
    expand t c false (ps.flatMap Piece.write) = ps.flatMap (Piece.value t c) := by
  have htext : ∀ (b r : Bytes), (0x5c : UInt8) ∉ b →
      expand t c false (b ++ r) = b ++ expand t c false r := by
    intro b r hb
    induction b with
    | nil => rfl
    | cons x b ih =>
      rw [List.cons_append, expand, if_pos (by simp at hb; intro h; exact hb.1 h.symm),
        ih (by simp at hb; exact hb.2)]
      rfl
  intro ps
  induction ps with
  | nil => intro _; rfl
  | cons p ps ih =>
    intro h
    have ih := ih fun b hb => h b (List.mem_cons_of_mem _ hb)
    rw [List.flatMap_cons, List.flatMap_cons]
    cases p with
    | text b =>
      rw [Piece.write, htext _ _ (h b (List.mem_cons_self ..)), ih]
      rfl
    | group n =>
      rw [Piece.write, List.cons_append, List.cons_append, List.nil_append, expand,
        if_neg (by simp), expand, ih]
      congr 1
      clear h
      have h1 : (0x30 : UInt8) ≤ UInt8.ofNat (0x30 + n) ∧ UInt8.ofNat (0x30 + n) ≤ 0x39 := by
        revert n; decide
      have h2 : (UInt8.ofNat (0x30 + n)).toNat - 0x30 = n := by clear h1; revert n; decide
      rw [if_pos h1, h2]
      rcases n with ⟨_ | n, hn⟩
      · rfl
      · simp only [List.getElem?_cons_succ, Piece.value]
        rcases c.groups[n]? with _ | _ | s <;> rfl

theorem Matches.past {t : Bytes} {m : Pattern} (hf : Fits t m) {p : Nat} {l : List Caps}
    (h : Matches t m p l) (hp : t.length < p) : l = [] := by
  cases h with
  | none _ => rfl
  | text h1 _ h3 _ _ => have := hf.inside _ _ h3; omega
  | empty h1 _ h3 _ _ _ _ _ => have := hf.inside _ _ h3; omega

theorem first_unique {m : Pattern} {p s s' : Nat} {c c' : Caps} (h1 : p ≤ s)
    (h2 : ∀ q, p ≤ q → q < s → m q = none) (h3 : m s = some c) (h1' : p ≤ s')
    (h2' : ∀ q, p ≤ q → q < s' → m q = none) (h3' : m s' = some c') : s = s' ∧ c = c' := by
  have : s = s' := by
    rcases Nat.lt_trichotomy s s' with h | h | h
    · have := h2' s h1 h; rw [h3] at this; cases this
    · exact h
    · have := h2 s' h1' h; rw [h3'] at this; cases this
  subst this
  rw [h3] at h3'
  exact ⟨rfl, Option.some.inj h3'⟩

/-- The matches of a text are determined by the pattern. -/
theorem Matches.unique {t : Bytes} {m : Pattern} (hf : Fits t m) {p : Nat} {l : List Caps}
    (h : Matches t m p l) : ∀ {l'}, Matches t m p l' → l = l' := by
  induction h with
  | none h =>
    intro l' h'
    cases h' with
    | none _ => rfl
    | text h1 _ h3 _ _ => rw [h _ h1] at h3; cases h3
    | empty h1 _ h3 _ _ _ _ _ => rw [h _ h1] at h3; cases h3
  | text h1 h2 h3 h4 _ ih =>
    intro l' h'
    cases h' with
    | none h => rw [h _ h1] at h3; cases h3
    | text g1 g2 g3 g4 g5 =>
      obtain ⟨rfl, rfl⟩ := first_unique h1 h2 h3 g1 g2 g3
      rw [ih g5]
    | empty g1 g2 g3 g4 _ _ _ _ =>
      obtain ⟨rfl, rfl⟩ := first_unique h1 h2 h3 g1 g2 g3
      omega
  | @empty p s n c l h1 h2 h3 h4 h5 h6 h7 hm ih =>
    intro l' h'
    cases h' with
    | none h => rw [h _ h1] at h3; cases h3
    | text g1 g2 g3 g4 g5 =>
      obtain ⟨rfl, rfl⟩ := first_unique h1 h2 h3 g1 g2 g3
      omega
    | @empty _ _ n' _ _ g1 g2 g3 g4 g5 g6 g7 gm =>
      obtain ⟨rfl, rfl⟩ := first_unique h1 h2 h3 g1 g2 g3
      by_cases hn : t.length < n
      · by_cases hn' : t.length < n'
        · rw [hm.past hf hn, gm.past hf hn']
        · exact absurd (g7 (by omega)) (h6 n' g5 (by omega))
      · by_cases hn' : t.length < n'
        · exact absurd (h7 (by omega)) (g6 n h5 (by omega))
        · have : n = n' := by
            rcases Nat.lt_trichotomy n n' with h | h | h
            · exact absurd (h7 (by omega)) (g6 n h5 h)
            · exact h
            · exact absurd (g7 (by omega)) (h6 n' g5 h)
          subst this
          rw [ih gm]

theorem each_length {σ ε : Type} (t : Bytes) (f : Specials → Block σ ε) :
    ∀ (l : List Caps) (w : σ) {rs w'}, each t f l w = (.ok rs, w') → rs.length = l.length := by
  intro l
  induction l with
  | nil =>
    intro w rs w' h
    simp only [each, Prod.mk.injEq, Except.ok.injEq] at h
    rw [← h.1]; rfl
  | cons c l ih =>
    intro w rs w' h
    rw [each] at h
    rcases hf : f (dollars t c) w (matched t c) with ⟨e | r, w1⟩
    · rw [hf] at h; simp at h
    · rw [hf] at h
      simp only at h
      rcases he : each t f l w1 with ⟨e | r', w2⟩
      · rw [he] at h; simp at h
      · rw [he] at h
        simp only [Prod.mk.injEq, Except.ok.injEq] at h
        rw [← h.1, List.length_cons, List.length_cons, ih w1 he]

theorem charPos_eq : ∀ (t : Bytes) (p a n : Nat), p < t.length →
    (∃ b, t[p]? = some b ∧ isCont b = false) → charsBefore t p = n → charPos a t n = some (a + p) := by
  intro t
  induction t with
  | nil => intro p a n h; simp at h
  | cons x t ih =>
    intro p a n hp hb hn
    cases p with
    | zero =>
      obtain ⟨b, h1, h2⟩ := hb
      simp only [List.length_cons, Nat.zero_lt_succ, getElem?_pos, List.getElem_cons_zero,
        Option.some.injEq] at h1
      subst h1
      simp only [charsBefore, List.take_zero, List.filter_nil, List.length_nil] at hn
      subst hn
      rw [charPos, h2]
      simp
    | succ p =>
      simp only [List.getElem?_cons_succ] at hb
      rw [charPos.eq_def]
      simp only
      have hd : (decide ¬(0x80 ≤ x ∧ x < 0xc0)) = !isCont x := by
        rw [isCont, decide_not]
      rw [charsBefore, List.take_succ_cons, List.filter_cons, hd] at hn
      by_cases hx : isCont x = true
      · rw [if_pos hx, ih p (a + 1) n (by simpa using hp) hb (by simpa [hx, charsBefore] using hn)]
        congr 1; omega
      · rw [if_neg hx]
        simp only [Bool.not_eq_true] at hx
        simp only [hx, Bool.not_false, if_true, List.length_cons] at hn
        subst hn
        have := ih p (a + 1) _ (by simpa using hp) hb rfl
        rw [charsBefore] at this
        simp only [this]
        congr 1; omega

/-! A concrete matcher: trying one position after the other. -/

def searchFrom (m : Pattern) : Nat → Nat → Answer
  | 0, _ => .none
  | k + 1, p => match m p with
    | some c => .found c
    | none => searchFrom m k (p + 1)

def engine (t : Bytes) (m : Pattern) : Engine := fun p => searchFrom m (t.length + 1 - p) p

theorem searchFrom_found (m : Pattern) (s : Nat) (c : Caps) (hm : m s = some c) :
    ∀ (k p : Nat), p ≤ s → s < p + k → (∀ q, p ≤ q → q < s → m q = none) →
    searchFrom m k p = .found c := by
  intro k
  induction k with
  | zero => intro p h1 h2; omega
  | succ k ih =>
    intro p h1 h2 h3
    rw [searchFrom]
    by_cases h : p = s
    · rw [h, hm]
    · rw [h3 p (Nat.le_refl _) (by omega)]
      exact ih (p + 1) (by omega) (by omega) (fun q hq hqs => h3 q (by omega) hqs)

theorem searchFrom_none (m : Pattern) :
    ∀ (k p : Nat), (∀ q, p ≤ q → m q = none) → searchFrom m k p = .none := by
  intro k
  induction k with
  | zero => intros; rfl
  | succ k ih =>
    intro p h
    rw [searchFrom, h p (Nat.le_refl _)]
    exact ih (p + 1) (fun q hq => h q (by omega))

theorem finds_engine {t : Bytes} {m : Pattern} (hf : Fits t m) : Finds t m (engine t m) where
  found p s c _ h1 h2 h3 := by
    have := hf.inside _ _ h3
    exact searchFrom_found m s c h3 _ p h1 (by omega) h2
  none p _ _ h := searchFrom_none m _ p h

theorem boundary_ascii {t : Bytes} (h : ∀ b ∈ t, b < 0x80) {p : Nat} (hp : p ≤ t.length) :
    Boundary t p := by
  rcases Nat.lt_or_ge p t.length with hl | hl
  · right
    refine ⟨t[p], List.getElem?_eq_getElem hl, ?_⟩
    have := h t[p] (List.getElem_mem hl)
    rintro ⟨h1, _⟩
    exact absurd this (UInt8.not_lt.mpr h1)
  · left; omega

theorem fits_ascii {t : Bytes} {m : Pattern} (h : ∀ b ∈ t, b < 0x80)
    (hm : ∀ p c, m p = some c → c.whole.start = p ∧ p ≤ c.whole.stop ∧ c.whole.stop ≤ t.length) :
    Fits t m where
  begins := boundary_ascii h (Nat.zero_le _)
  starts p c e := (hm p c e).1
  inside p c e := (hm p c e).2
  between p c e := ⟨boundary_ascii h (by have := hm p c e; omega),
    boundary_ascii h (hm p c e).2.2⟩

/-- A pattern with given matches. -/
def only (l : List Caps) : Pattern := fun p => l.find? fun c => c.whole.start = p

theorem fits_only {t : Bytes} {l : List Caps} (h : ∀ b ∈ t, b < 0x80)
    (hl : ∀ c ∈ l, c.whole.start ≤ c.whole.stop ∧ c.whole.stop ≤ t.length) :
    Fits t (only l) :=
  fits_ascii h fun p c e => by
    have h1 := List.find?_some e
    have h2 := List.mem_of_find?_eq_some e
    simp only [decide_eq_true_eq] at h1
    have := hl c h2
    omega

end Verif.Regexp
