import Verif.Str.Lemmas
/-!
# join and split (C60)
-/
namespace Verif.Str

/-! ## Searching -/

theorem find_spec {sep s a b : Text} (h : find sep s = some (a, b)) :
    s = a ++ sep ++ b ∧ ∀ n, Occurs sep s n → a.length ≤ n := by
  induction s generalizing a b with
  | nil =>
    unfold find at h
    split at h
    · rename_i hp
      injection h with h; injection h with h1 h2; subst h1 h2
      rw [List.isPrefixOf_iff_prefix] at hp
      have := List.prefix_nil.1 hp
      subst this
      exact ⟨rfl, fun _ _ => Nat.zero_le _⟩
    · cases h
  | cons c cs ih =>
    unfold find at h
    split at h
    · rename_i hp
      injection h with h; injection h with h1 h2; subst h1 h2
      rw [List.isPrefixOf_iff_prefix] at hp
      obtain ⟨t, ht⟩ := hp
      refine ⟨?_, fun _ _ => Nat.zero_le _⟩
      rw [← ht]; simp
    · rename_i hp
      cases hf : find sep cs with
      | none => rw [hf] at h; cases h
      | some r =>
        obtain ⟨a', b'⟩ := r
        rw [hf] at h
        simp only [Option.map_some, Option.some.injEq, Prod.mk.injEq] at h
        obtain ⟨rfl, rfl⟩ := h
        obtain ⟨h1, h2⟩ := ih hf
        refine ⟨by rw [h1]; simp, ?_⟩
        rintro n ⟨rest, hr⟩
        cases n with
        | zero =>
          exfalso; apply hp
          rw [List.isPrefixOf_iff_prefix]
          exact ⟨rest, by simpa using hr.symm⟩
        | succ n =>
          have := h2 n ⟨rest, by simpa using hr⟩
          simp; omega

theorem find_none {sep s : Text} (hs : sep ≠ []) (h : find sep s = none) : ∀ n, ¬ Occurs sep s n := by
  induction s with
  | nil =>
    rintro n ⟨rest, hr⟩
    simp at hr
    exact hs hr.1
  | cons c cs ih =>
    unfold find at h
    split at h
    · cases h
    · rename_i hp
      cases hf : find sep cs with
      | some r => rw [hf] at h; cases h
      | none =>
        rintro n ⟨rest, hr⟩
        cases n with
        | zero =>
          apply hp
          rw [List.isPrefixOf_iff_prefix]
          exact ⟨rest, by simpa using hr.symm⟩
        | succ n => exact ih hf n ⟨rest, by simpa using hr⟩

theorem Clean.not_occurs {sep s : Text} (hs : sep ≠ []) (h : Clean sep s) (n : Nat) : ¬ Occurs sep s n := by
  rintro ⟨rest, hr⟩
  have hn : n ≤ s.length := by
    rcases Nat.lt_or_ge s.length n with hlt | hge
    · rw [List.drop_eq_nil_of_le (by omega)] at hr
      have := congrArg List.length hr
      have : 0 < sep.length := List.length_pos_iff.2 hs
      simp at *
      omega
    · exact hge
  have := h n ⟨rest ++ sep, by rw [List.drop_append_of_le_length hn, hr]; simp⟩
  subst this
  simp at hr
  exact hs hr.1

theorem find_clean {sep s : Text} (hs : sep ≠ []) (h : Clean sep s) (rest : Text) :
    find sep (s ++ sep ++ rest) = some (s, rest) := by
  cases hf : find sep (s ++ sep ++ rest) with
  | none => exact absurd ⟨rest, by simp⟩ (find_none hs hf s.length)
  | some r =>
    obtain ⟨a, b⟩ := r
    obtain ⟨h1, h2⟩ := find_spec hf
    have hle : a.length ≤ s.length := h2 s.length ⟨rest, by simp⟩
    have hocc : Occurs sep (s ++ sep) a.length := by
      have e := congrArg (List.drop a.length) h1
      rw [List.append_assoc a, List.drop_left, List.drop_append_of_le_length (by simp; omega)] at e
      have hp : sep <+: (s ++ sep).drop a.length := by
        have h3 : sep <+: List.drop a.length (s ++ sep) ++ rest := ⟨b, e.symm⟩
        exact List.prefix_of_prefix_length_le h3 (List.prefix_append _ _) (by simp; omega)
      obtain ⟨t, ht⟩ := hp
      exact ⟨t, ht.symm⟩
    have hl := h _ hocc
    have h4 : s = a := by
      have e := congrArg (List.take s.length) h1
      rw [List.append_assoc, List.take_left, List.append_assoc, ← hl, List.take_left] at e
      exact e
    subst h4
    simp only [List.append_assoc] at h1
    have h5 := List.append_cancel_left (List.append_cancel_left h1)
    rw [h5]

/-! ## Splitting what was put together -/

theorem splitn_between {sep : Text} (hs : sep ≠ []) (l : List Text) (hl : l ≠ []) (hc : ∀ s ∈ l, Clean sep s)
    (n : Nat) (hn : l.length ≤ n) : splitn sep n (between sep l) = l := by
  induction l generalizing n with
  | nil => exact absurd rfl hl
  | cons s rest ih =>
    cases rest with
    | nil =>
      unfold between
      match n, hn with
      | 1, _ => rfl
      | n + 2, _ =>
        unfold splitn
        cases hf : find sep s with
        | none => rfl
        | some r =>
          obtain ⟨a, b⟩ := r
          exact absurd ⟨b, by rw [(find_spec hf).1]; simp⟩ ((hc s (by simp)).not_occurs hs a.length)
    | cons t rest =>
      match n, hn with
      | 0, hn => simp at hn
      | 1, hn => simp at hn
      | n + 2, hn =>
        unfold between splitn
        rw [find_clean hs (hc s (by simp))]
        simp only
        rw [ih (by simp) (fun u hu => hc u (List.mem_cons_of_mem _ hu)) (n + 1) (by simp at hn ⊢; omega)]

theorem length_between {sep : Text} (hs : sep ≠ []) (l : List Text) : l.length ≤ (between sep l).length + 1 := by
  induction l with
  | nil => simp
  | cons s rest ih =>
    cases rest with
    | nil => simp
    | cons t rest =>
      unfold between
      have : 0 < sep.length := List.length_pos_iff.2 hs
      simp at ih ⊢; omega

theorem joinLoop_eq (sep res : Text) (hr : res ≠ []) (l : List Text) :
    joinLoop sep res l = between sep (res :: l) := by
  induction l generalizing res with
  | nil => rfl
  | cons s rest ih =>
    unfold joinLoop
    rw [if_neg (by simpa using hr), ih _ (by simp [hr])]
    unfold between
    cases rest with
    | nil => simp [between]
    | cons t rest => simp [between]

theorem join_eq (sep s : Text) (hs : s ≠ []) (l : List Text) : join (s :: l) sep = between sep (s :: l) := by
  unfold join joinLoop
  exact joinLoop_eq sep s hs l

theorem dropWhile_white {s : Text} (h : ∀ c ∈ s.head?, isAsciiWhitespace c = false) :
    s.dropWhile isAsciiWhitespace = s := by
  cases s with
  | nil => rfl
  | cons c cs => rw [List.dropWhile_cons_of_neg]; simp [h c (by simp)]

theorem head_between {sep s : Text} (hs : s ≠ []) (l : List Text) : (between sep (s :: l)).head? = s.head? := by
  cases s with
  | nil => exact absurd rfl hs
  | cons c cs => cases l <;> simp [between]

/-- What `split` does to its receiver when the separator is one blank. -/
def NoLeadingWhite (sep s : Text) : Prop := sep = [' '] → ∀ c ∈ s.head?, isAsciiWhitespace c = false

theorem dropEmptyEnd_spec (l : List Text) :
    (∃ k, l = dropEmptyEnd l ++ List.replicate k []) ∧ (dropEmptyEnd l).getLast? ≠ some [] := by
  have key : ∀ l : List Text, (∃ k, l = List.replicate k [] ++ l.dropWhile List.isEmpty) ∧
      (l.dropWhile List.isEmpty).head? ≠ some [] := by
    intro l
    induction l with
    | nil => exact ⟨⟨0, rfl⟩, by simp⟩
    | cons s rest ih =>
      cases s with
      | nil =>
        obtain ⟨⟨k, hk⟩, h2⟩ := ih
        rw [List.dropWhile_cons_of_pos (by rfl)]
        refine ⟨⟨k + 1, ?_⟩, h2⟩
        rw [List.replicate_succ, List.cons_append, ← hk]
      | cons c cs =>
        rw [List.dropWhile_cons_of_neg (by simp)]
        exact ⟨⟨0, rfl⟩, by simp⟩
  obtain ⟨⟨k, hk⟩, h2⟩ := key l.reverse
  unfold dropEmptyEnd
  refine ⟨⟨k, ?_⟩, by simpa [List.getLast?_reverse] using h2⟩
  have := congrArg List.reverse hk
  simpa using this

/-- **Joining and splitting gives the strings back** (limit −1: nothing is dropped).
Missing: lists that begin with an empty string, see `C60_leading_empty_fails`. -/
theorem C60_join_split_partial (sep s : Text) (l : List Text) (hsep : sep ≠ []) (hs : s ≠ [])
    (hc : ∀ t ∈ s :: l, Clean sep t) (hw : NoLeadingWhite sep s) (lim : Int) (hlim : lim < 0) :
    split (join (s :: l) sep) sep lim = s :: l := by
  rw [join_eq sep s hs]
  unfold split
  have e : (if sep = [' '] then (between sep (s :: l)).dropWhile isAsciiWhitespace else between sep (s :: l)) =
      between sep (s :: l) := by
    split
    · rename_i h
      exact dropWhile_white (by rw [head_between hs]; exact hw h)
    · rfl
  simp only [e]
  rw [if_pos hlim]
  exact splitn_between hsep _ (by simp) hc _ (length_between hsep _)

/-- Without a limit: the strings back, up to empty strings at the end. -/
theorem C60_join_split_default_partial (sep s : Text) (l : List Text) (hsep : sep ≠ []) (hs : s ≠ [])
    (hc : ∀ t ∈ s :: l, Clean sep t) (hw : NoLeadingWhite sep s) :
    (∃ k, s :: l = split (join (s :: l) sep) sep 0 ++ List.replicate k []) ∧
      (split (join (s :: l) sep) sep 0).getLast? ≠ some [] := by
  have h := C60_join_split_partial sep s l hsep hs hc hw (-1) (by omega)
  have e : split (join (s :: l) sep) sep 0 = dropEmptyEnd (s :: l) := by
    conv => rhs; rw [← h]
    unfold split
    simp
  rw [e]
  exact dropEmptyEnd_spec _

/-- A list of one empty string, and the empty list, come back as the empty list. -/
theorem C60_nothing (sep : Text) (hsep : sep ≠ []) : split (join [] sep) sep 0 = [] ∧ split (join [[]] sep) sep 0 = [] := by
  cases sep with
  | nil => exact absurd rfl hsep
  | cons c cs =>
    unfold split
    simp [join, joinLoop, splitAll, splitn, dropEmptyEnd]

/-- For a separator of one character `Clean` says that the string does not contain it. -/
theorem C60_clean_char (c : Char) (s : Text) : Clean [c] s ↔ c ∉ s := by
  constructor
  · intro h hm
    obtain ⟨a, b, rfl⟩ := List.append_of_mem hm
    have := h a.length ⟨b ++ [c], by simp⟩
    simp at this
  · rintro h n ⟨rest, hr⟩
    rcases Nat.lt_trichotomy n s.length with hlt | he | hgt
    · rw [List.drop_append_of_le_length (by omega)] at hr
      exfalso; apply h
      have : c ∈ s.drop n := by
        cases hd : s.drop n with
        | nil => have := congrArg List.length hd; simp at this; omega
        | cons d ds =>
          rw [hd] at hr
          simp at hr
          simp [hr.1]
      exact List.mem_of_mem_drop this
    · exact he
    · rw [List.drop_eq_nil_of_le (by simp; omega)] at hr
      simp at hr

/-- **Violation**: `join` leaves the separator out as long as the result is empty, so an empty string at the
front disappears without a trace. -/
theorem C60_leading_empty_fails :
    (∀ (l : List Text) (sep : Text), join ([] :: l) sep = join l sep) ∧
    ∃ (l : List Text) (sep : Text), sep ≠ [] ∧ (∀ s ∈ l, Clean sep s) ∧ split (join l sep) sep (-1) ≠ l := by
  refine ⟨fun l sep => rfl, [[], ['a']], [','], by decide, ?_, by decide⟩
  intro s hs
  rw [C60_clean_char]
  simp at hs
  rcases hs with rfl | rfl <;> decide

/-- … and `split` with a blank drops white space at the front. -/
theorem C60_leading_blank_fails :
    ∃ (l : List Text), (∀ s ∈ l, Clean [' '] s) ∧ l.head? ≠ some [] ∧ split (join l [' ']) [' '] (-1) ≠ l := by
  refine ⟨[['\t', 'a'], ['b']], ?_, by decide, by decide⟩
  intro s hs
  rw [C60_clean_char]
  simp at hs
  rcases hs with rfl | rfl <;> decide

/-! ## Putting together what was split -/

theorem between_splitn {sep : Text} (n : Nat) (s : Text) : between sep (splitn sep (n + 1) s) = s := by
  induction n generalizing s with
  | zero => rfl
  | succ n ih =>
    unfold splitn
    cases hf : find sep s with
    | none => rfl
    | some r =>
      obtain ⟨a, b⟩ := r
      simp only
      have h := ih b
      have h1 := (find_spec hf).1
      cases hl : splitn sep (n + 1) b with
      | nil =>
        exfalso
        cases n with
        | zero => simp [splitn] at hl
        | succ n =>
          unfold splitn at hl
          cases hb : find sep b <;> simp [hb] at hl
      | cons t rest => unfold between; rw [← hl, h]; exact h1.symm

theorem length_splitn (sep : Text) (n : Nat) (s : Text) : (splitn sep n s).length ≤ n := by
  induction n generalizing s with
  | zero => simp [splitn]
  | succ n ih =>
    cases n with
    | zero => simp [splitn]
    | succ n =>
      unfold splitn
      cases hf : find sep s with
      | none => simp
      | some r => obtain ⟨a, b⟩ := r; have := ih b; simp; omega

theorem head_splitn {sep s : Text} (hp : ¬ sep <+: s) (n : Nat) :
    ∃ a l, splitn sep (n + 1) s = a :: l ∧ (a = [] → s = []) := by
  cases n with
  | zero => exact ⟨s, [], rfl, id⟩
  | succ n =>
    unfold splitn
    cases hf : find sep s with
    | none => exact ⟨s, [], rfl, id⟩
    | some r =>
      obtain ⟨a, b⟩ := r
      refine ⟨a, _, rfl, ?_⟩
      rintro rfl
      have h1 := (find_spec hf).1
      exact absurd ⟨b, by simpa using h1.symm⟩ hp

/-- **Splitting and joining gives the string back**, for every limit but 0, if the string does not begin with
the separator (and the separator is not one blank). -/
theorem C60_split_join_partial (sep s : Text) (hsep : sep ≠ []) (hp : ¬ sep <+: s) (hb : sep ≠ [' ']) (lim : Int)
    (hlim : lim ≠ 0) : join (split s sep lim) sep = s := by
  have key : ∀ n, join (splitn sep (n + 1) s) sep = s := by
    intro n
    obtain ⟨a, l, h1, h2⟩ := head_splitn hp n
    have h3 := between_splitn (sep := sep) n s
    rw [h1] at h3 ⊢
    by_cases ha : a = []
    · have hs := h2 ha
      subst ha hs
      cases l with
      | nil => rfl
      | cons t rest =>
        unfold between at h3
        simp at h3
        exact absurd h3.1 hsep
    · rw [join_eq sep a ha]; exact h3
  unfold split
  simp only [if_neg hb]
  by_cases h : lim < 0
  · rw [if_pos h]; exact key _
  · rw [if_neg h, if_neg hlim]
    obtain ⟨n, hn⟩ : ∃ n, lim.toNat = n + 1 := ⟨lim.toNat - 1, by omega⟩
    rw [hn]; exact key n

/-- A positive limit bounds the number of parts. -/
theorem C60_limit (sep s : Text) (lim : Int) (h : 0 < lim) : ((split s sep lim).length : Int) ≤ lim := by
  unfold split
  simp only
  rw [if_neg (by omega), if_neg (by omega)]
  have := length_splitn sep lim.toNat (if sep = [' '] then s.dropWhile isAsciiWhitespace else s)
  omega

theorem parts_splitn {sep : Text} (hs : sep ≠ []) (n : Nat) (s : Text) (hn : s.length < n) :
    ∀ p ∈ splitn sep n s, ∀ i, ¬ Occurs sep p i := by
  have hpos : 0 < sep.length := List.length_pos_iff.2 hs
  induction n generalizing s with
  | zero => omega
  | succ n ih =>
    cases n with
    | zero =>
      simp [splitn]
      rintro i ⟨rest, hr⟩
      have : s = [] := List.eq_nil_of_length_eq_zero (by omega)
      subst this
      simp at hr
      exact hs hr.1
    | succ n =>
      unfold splitn
      cases hf : find sep s with
      | none => simpa using find_none hs hf
      | some r =>
        obtain ⟨a, b⟩ := r
        obtain ⟨h1, h2⟩ := find_spec hf
        have hlen := congrArg List.length h1
        simp at hlen
        simp only [List.mem_cons, forall_eq_or_imp]
        refine ⟨?_, ih b (by omega)⟩
        rintro i ⟨rest, hr⟩
        have hi : i < a.length := by
          rcases Nat.lt_or_ge i a.length with h | h
          · exact h
          · rw [List.drop_eq_nil_of_le h] at hr
            simp at hr
            exact absurd hr.1 hs
        have := h2 i ⟨rest ++ (sep ++ b), by
          rw [h1, List.append_assoc, List.drop_append_of_le_length (by omega), hr]; simp⟩
        omega

/-- The parts do not contain the separator. -/
theorem C60_parts (sep s : Text) (hsep : sep ≠ []) (lim : Int) (hlim : lim ≤ 0) :
    ∀ p ∈ split s sep lim, ∀ i, ¬ Occurs sep p i := by
  intro p hp
  unfold split at hp
  simp only at hp
  by_cases h : lim < 0
  · rw [if_pos h] at hp
    exact parts_splitn hsep _ _ (by omega) p hp
  · rw [if_neg h, if_pos (by omega)] at hp
    unfold dropEmptyEnd at hp
    rw [List.mem_reverse] at hp
    have := (List.dropWhile_suffix _).subset hp
    rw [List.mem_reverse] at this
    exact parts_splitn hsep _ _ (by omega) p this

/-! ## Cases that meet the hypotheses -/

example : Clean ['a', 'b'] ['x', 'b', 'a', 'c'] := by
  rintro n ⟨rest, hr⟩
  match n, hr with
  | 0, hr | 1, hr | 2, hr | 3, hr | 5, hr => simp at hr
  | 4, _ => rfl
  | n + 6, hr => rw [List.drop_eq_nil_of_le (by simp)] at hr; simp at hr
example : split (join [['x'], [], ['y']] [',', ' ']) [',', ' '] 0 = [['x'], [], ['y']] := by decide
example : split ['a', ',', 'b', ',', 'c'] [','] 2 = [['a'], ['b', ',', 'c']] := by decide

end Verif.Str
