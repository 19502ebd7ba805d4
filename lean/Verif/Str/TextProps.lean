import Verif.Str.Text
import Verif.Str.Lemmas
/-!
# Access to characters, padding, lines, stripping (C68, C69, C71, C72)
-/
namespace Verif.Str

theorem drop_take_nil_of_le (s : Text) (p n : Nat) (h : s.length ≤ p) : (s.drop p).take n = [] := by
  rw [List.drop_eq_nil_of_le h]; simp

theorem take_ne_nil (s : Text) (p n : Nat) (h : p < s.length) (hn : 0 < n) : (s.drop p).take n ≠ [] := by
  intro e
  have := congrArg List.length e
  simp at this
  omega

/-- The position an index means: from the front, or (negative) from the end. -/
def At (s : Text) (i : Int) (p : Nat) : Prop := p < s.length ∧ (i = p ∨ i = (p : Int) - s.length)

theorem conv_index_some (s : Text) (i : Int) (p : Nat) : conv_index i s.length = some p ↔ At s i p := by
  unfold conv_index At
  by_cases h : i ≥ 0
  · rw [if_pos h]
    by_cases h2 : i < s.length
    · rw [if_pos h2]; simp only [Option.some.injEq]; omega
    · rw [if_neg h2]; simp; omega
  · rw [if_neg h]
    simp only
    by_cases h2 : (s.length : Int) + i < 0
    · rw [if_pos h2]; simp; omega
    · rw [if_neg h2]; simp only [Option.some.injEq]; omega

theorem conv_index_none (s : Text) (i : Int) : conv_index i s.length = none ↔ ∀ p, ¬ At s i p := by
  cases h : conv_index i s.length with
  | none =>
    simp only [true_iff]
    intro p hp
    rw [(conv_index_some s i p).2 hp] at h
    cases h
  | some p => simp only [reduceCtorEq, false_iff]; exact fun h' => h' p ((conv_index_some s i p).1 h)

/-- **`s[i]`** is the character at the position, nil if there is none. -/
theorem C68_index (s : Text) (i : Int) :
    (∀ p, (h : At s i p) → index s i none = some [s[p]'h.1]) ∧ ((∀ p, ¬ At s i p) → index s i none = none) := by
  constructor
  · intro p h
    unfold index
    rw [(conv_index_some s i p).2 h]
    have := take_ne_nil s p 1 h.1 (by omega)
    simp only [List.isEmpty_iff, if_neg this]
    rw [List.drop_eq_getElem_cons h.1]
    rfl
  · intro h
    unfold index
    rw [(conv_index_none s i).2 h]

/-- **`s[i, n]`** is the `n` characters from the position on, as far as there are any. -/
theorem C68_index_length (s : Text) (i : Int) (n : Nat) (p : Nat) (h : At s i p) :
    index s i (some n) = some ((s.drop p).take n) := by
  unfold index
  rw [(conv_index_some s i p).2 h]
  simp only
  by_cases hn : (n : Int) = 0
  · rw [if_pos hn]
    have : n = 0 := by omega
    subst this; simp
  · rw [if_neg hn, if_neg (by omega)]
    have := take_ne_nil s p n h.1 (by omega)
    simp only [Int.toNat_natCast, List.isEmpty_iff, if_neg this]

theorem C68_index_length_outside (s : Text) (i n : Int) (h : (∀ p, ¬ At s i p) ∨ n < 0) :
    index s i (some n) = none := by
  unfold index
  cases hc : conv_index i s.length with
  | none => rfl
  | some p =>
    rcases h with h | h
    · exact absurd ((conv_index_some s i p).1 hc) (h p)
    · simp only
      rw [if_neg (by omega), if_pos h]

/-- **`s[a..b]`** is the characters from position `a` to position `b`.
Missing: ranges that exclude their end, and ends behind the last character; see the two theorems below. -/
theorem C68_range_partial (s : Text) (a b : Int) (p q : Nat) (ha : At s a p) (hb : At s b q) :
    indexRange s a b false = some ((s.take (q + 1)).drop p) := by
  unfold indexRange
  simp only
  rw [(conv_index_some s a p).2 ha, (conv_index_some s b q).2 hb]
  simp only
  by_cases h : p > q
  · rw [if_pos h, List.drop_eq_nil_of_le (by simp; omega)]
  · rw [if_neg h, List.drop_take, show q - p + 1 = q + 1 - p by omega]

/-- **Violation**: `s[a...b]` contains the character at `b`. -/
theorem C68_exclusive_range_fails : ∀ (s : Text) (a b : Int), indexRange s a b true = indexRange s a b false :=
  fun _ _ _ => rfl

/-- **Violation**: a range that reaches behind the end gives nil instead of the rest. -/
theorem C68_range_past_end_fails (s : Text) (b : Int) (h : s.length ≤ b) : indexRange s 0 b false = none := by
  have hb : conv_index b s.length = none := by
    rw [conv_index_none]
    rintro p ⟨h1, h2⟩
    omega
  unfold indexRange
  simp only [hb]
  cases conv_index 0 s.length <;> rfl

/-! ## Changing characters: the bytes that move are those of whole characters -/

theorem utf8_take_length (s : Text) (k : Nat) :
    (utf8 s).take (utf8 (s.take k)).length = utf8 (s.take k) ∧
    (utf8 s).drop (utf8 (s.take k)).length = utf8 (s.drop k) := by
  have h : utf8 s = utf8 (s.take k) ++ utf8 (s.drop k) := by rw [← utf8_append, List.take_append_drop]
  constructor
  · conv => lhs; rw [h]
    simp
  · conv => lhs; rw [h]
    simp

theorem replace_range_chars (s t : Text) (a b : Nat) :
    replace_range (utf8 s) (utf8 (s.take a)).length (utf8 (s.take b)).length (utf8 t) =
      utf8 (s.take a ++ t ++ s.drop b) := by
  unfold replace_range
  rw [(utf8_take_length s a).1, (utf8_take_length s b).2]
  simp [utf8_append]

theorem charAt_some {s : Text} {n : Nat} (h : n < s.length) :
    charAt s n = some ((utf8 (s.take n)).length, s[n]) := by
  unfold charAt; rw [List.getElem?_eq_getElem h]; rfl

theorem charAt_none {s : Text} {n : Nat} (h : s.length ≤ n) : charAt s n = none := by
  unfold charAt; rw [List.getElem?_eq_none h]; rfl

/-- where a stretch ends, in bytes -/
theorem stop_eq (s : Text) (n : Nat) :
    stopAt s n = (utf8 (s.take n)).length := by
  unfold stopAt
  by_cases h : n < s.length
  · rw [charAt_some h]
  · rw [charAt_none (by omega), List.take_of_length_le (by omega)]

/-- **`s[i] = t`** replaces the character at `i`; **`s[i, n] = t`** replaces `n` characters from `i` on.
Missing: negative indices (`C68_assign_negative_fails`) and `n = 0`. -/
theorem C68_assign_partial (s t : Text) (i : Nat) (hs : s.length < 2 ^ 63) (hi : i < s.length) :
    index_assign s i none t = .bytes (utf8 (s.take i ++ t ++ s.drop (i + 1))) ∧
    ∀ n : Nat, 0 < n → n < 2 ^ 63 →
      index_assign s i (some n) t = .bytes (utf8 (s.take i ++ t ++ s.drop (i + n))) := by
  have hu : asUsize (i : Int) = i := by unfold asUsize; omega
  constructor
  · unfold index_assign
    simp only [hu]
    rw [if_neg (by omega), charAt_some hi]
    simp only [stop_eq, Nat.add_zero, replace_range_chars]
  · intro n h0 hn
    have hu2 : asUsize (n : Int) = n := by unfold asUsize; omega
    unfold index_assign
    simp only [hu, hu2]
    rw [if_neg (by omega), if_neg (by omega), charAt_some hi]
    simp only [stop_eq, show i + (n - 1) + 1 = i + n by omega, replace_range_chars]

/-- An index behind the end raises IndexError and changes nothing. -/
theorem C68_assign_outside (s t : Text) (i : Nat) (h63 : i < 2 ^ 63) (hi : s.length ≤ i) :
    index_assign s i none t = .IndexError := by
  have hu : asUsize (i : Int) = i := by unfold asUsize; omega
  unfold index_assign
  simp only [hu]
  rw [if_pos (by omega)]

/-- **Violation**: a negative index, which means a character from the end, raises IndexError. -/
theorem C68_assign_negative_fails (s t : Text) (i : Int) (hs : s.length < 2 ^ 63) (h0 : i < 0) (h63 : -(2 ^ 63) ≤ i) :
    index_assign s i none t = .IndexError := by
  have hu : s.length ≤ asUsize i := by
    unfold asUsize
    have : i % 2 ^ 64 = i + 2 ^ 64 := by omega
    rw [this]; omega
  unfold index_assign
  simp only
  rw [if_pos hu]

theorem calc_idx_some (s : Text) (i : Int) (p : Nat) (h : At s i p) : calc_idx s i = some p := by
  unfold calc_idx
  obtain ⟨h1, h2⟩ := h
  by_cases h : i ≥ 0
  · rw [if_pos h]; congr 1; omega
  · rw [if_neg h]
    simp only
    rw [if_neg (by omega)]
    congr 1; omega

theorem calc_idx_outside (s : Text) (i : Int) (h : ∀ p, ¬ At s i p) (p : Nat) (hp : calc_idx s i = some p) :
    s.length ≤ p := by
  unfold calc_idx at hp
  by_cases hi : i ≥ 0
  · rw [if_pos hi] at hp
    injection hp with hp
    rcases Nat.lt_or_ge p s.length with hlt | hge
    · exact absurd ⟨hlt, Or.inl (by omega)⟩ (h p)
    · exact hge
  · rw [if_neg hi] at hp
    simp only at hp
    split at hp
    · cases hp
    · injection hp with hp
      rcases Nat.lt_or_ge p s.length with hlt | hge
      · exact absurd ⟨hlt, Or.inr (by omega)⟩ (h p)
      · exact hge

/-- **`slice!(i)`** takes the character at the position out; nil, and no change, if there is none. -/
theorem C68_slice (s : Text) (i : Int) :
    (∀ p, (h : At s i p) → slice1 s i = (some [s[p]'h.1], utf8 (s.take p ++ s.drop (p + 1)))) ∧
    ((∀ p, ¬ At s i p) → slice1 s i = (none, utf8 s)) := by
  constructor
  · intro p h
    unfold slice1
    rw [calc_idx_some s i p h]
    simp only [charAt_some h.1]
    have e : (utf8 (s.take p)).length + (utf8 [s[p]'h.1]).length = (utf8 (s.take (p + 1))).length := by
      rw [List.take_succ_eq_append_getElem h.1, utf8_append, List.length_append]
    have := replace_range_chars s [] p (p + 1)
    rw [e]
    congr 1
    simpa [utf8] using this
  · intro h
    unfold slice1
    cases hc : calc_idx s i with
    | none => rfl
    | some p => simp only [charAt_none (calc_idx_outside s i h p hc)]

/-- **`slice!(i, n)`** takes `n` characters out, from the position on. -/
theorem C68_slice_length (s : Text) (i : Int) (n : Nat) (hn : 0 < n) (p : Nat) (h : At s i p) :
    slice2 s i n = (some ((s.drop p).take n), utf8 (s.take p ++ s.drop (p + n))) := by
  unfold slice2
  rw [if_neg (by omega), calc_idx_some s i p h]
  have hne := take_ne_nil s p n h.1 hn
  simp only [Int.toNat_natCast, List.isEmpty_iff, if_neg hne]
  have key := replace_range_chars s [] p (p + n)
  simp only [show utf8 [] = [] from rfl, List.append_nil] at key
  have e := stop_eq s (p + n)
  unfold stopAt at e
  cases hc : charAt s (p + n) with
  | none => rw [hc] at e; simp only at e ⊢; rw [e, key]
  | some r => obtain ⟨a, b⟩ := r; rw [hc] at e; simp only at e ⊢; rw [e, key]

/-! ## Padding -/

/-- the padding text over and over -/
def Cyclic (padding p : Text) : Prop := ∀ i (h : i < p.length), padding[i % padding.length]? = some p[i]

theorem gen_pad_spec (padding : Text) (hp : padding ≠ []) (n : Nat) :
    (gen_pad padding n).length = n ∧ Cyclic padding (gen_pad padding n) := by
  have hL : 0 < padding.length := List.length_pos_iff.2 hp
  have key : ∀ (q r : Nat), r < padding.length →
      ((List.replicate q padding).flatten ++ padding.take r).length = q * padding.length + r ∧
      ∀ i, i < q * padding.length + r →
        ((List.replicate q padding).flatten ++ padding.take r)[i]? = padding[i % padding.length]? := by
    intro q r hr
    induction q with
    | zero =>
      refine ⟨by simp; omega, ?_⟩
      intro i hi
      simp only [Nat.zero_mul, Nat.zero_add] at hi
      simp only [List.replicate_zero, List.flatten_nil, List.nil_append]
      rw [List.getElem?_take, if_pos hi, Nat.mod_eq_of_lt (by omega)]
    | succ q ih =>
      obtain ⟨h1, h2⟩ := ih
      rw [List.replicate_succ, List.flatten_cons, List.append_assoc]
      refine ⟨by rw [List.length_append, h1, Nat.succ_mul]; omega, ?_⟩
      intro i hi
      rw [List.getElem?_append]
      split
      · rename_i hlt; rw [Nat.mod_eq_of_lt hlt]
      · rename_i hge
        rw [Nat.succ_mul] at hi
        rw [h2 _ (by omega), ← Nat.mod_eq_sub_mod (by omega)]
  obtain ⟨h1, h2⟩ := key (n / padding.length) (n % padding.length) (Nat.mod_lt _ hL)
  have hn : n / padding.length * padding.length + n % padding.length = n := by
    rw [Nat.mul_comm]; exact Nat.div_add_mod n padding.length
  rw [hn] at h1 h2
  refine ⟨h1, ?_⟩
  intro i hi
  unfold gen_pad at hi ⊢
  simp only at hi ⊢
  rw [h1] at hi
  rw [← h2 i hi, List.getElem?_eq_getElem]

/-- **`ljust`, `rjust`, `center`** give the string with padding up to the width: the result has as many
characters as asked for (never less than the string), the padding text runs on from its beginning, and
`center` puts the odd character to the right. -/
theorem C69_padding (s padding : Text) (width : Int) (hp : padding ≠ []) :
    (∃ r, ljust s width padding = .ok (s ++ r) ∧ Cyclic padding r ∧ ((s ++ r).length : Int) = max width s.length) ∧
    (∃ l, rjust s width padding = .ok (l ++ s) ∧ Cyclic padding l ∧ ((l ++ s).length : Int) = max width s.length) ∧
    (∃ l r, center s width padding = .ok (l ++ s ++ r) ∧ Cyclic padding l ∧ Cyclic padding r ∧
      ((l ++ s ++ r).length : Int) = max width s.length ∧ l.length ≤ r.length ∧ r.length ≤ l.length + 1) := by
  have hL : 0 < padding.length := List.length_pos_iff.2 hp
  have hnil : Cyclic padding [] := fun i h => by simp at h
  unfold ljust rjust center
  simp only [if_neg (show ¬ padding.length = 0 by omega)]
  by_cases hw : width ≤ 0 ∨ width.toNat ≤ s.length
  · simp only [if_pos hw]
    exact ⟨⟨[], by simp, hnil, by simp; omega⟩, ⟨[], by simp, hnil, by simp; omega⟩,
      ⟨[], [], by simp, hnil, hnil, by simp; omega, by simp, by simp⟩⟩
  · simp only [if_neg hw]
    obtain ⟨h1, h2⟩ := gen_pad_spec padding hp (width.toNat - s.length)
    obtain ⟨h3, h4⟩ := gen_pad_spec padding hp ((width.toNat - s.length) / 2)
    obtain ⟨h5, h6⟩ := gen_pad_spec padding hp (width.toNat - s.length - (width.toNat - s.length) / 2)
    refine ⟨⟨_, rfl, h2, by rw [List.length_append, h1]; omega⟩, ⟨_, rfl, h2, by rw [List.length_append, h1]; omega⟩,
      ⟨_, _, rfl, h4, h6, by rw [List.length_append, List.length_append, h3, h5]; omega, by omega, by omega⟩⟩

/-- An empty padding text is an error. -/
theorem C69_empty_padding (s : Text) (width : Int) :
    ljust s width [] = .raised ∧ rjust s width [] = .raised ∧ center s width [] = .raised := ⟨rfl, rfl, rfl⟩

/-! ## Lines -/

theorem linesGo_flatten (cur s : Text) : (linesGo cur s).flatten = cur ++ s := by
  induction s generalizing cur with
  | nil =>
    unfold linesGo
    cases cur <;> simp
  | cons c cs ih =>
    unfold linesGo
    split
    · simp [ih]
    · rw [ih]; simp

theorem linesGo_ne (cur s : Text) : ∀ l ∈ linesGo cur s, l ≠ [] := by
  induction s generalizing cur with
  | nil =>
    unfold linesGo
    cases cur <;> simp
  | cons c cs ih =>
    unfold linesGo
    split
    · simp only [List.mem_cons, forall_eq_or_imp]
      exact ⟨by simp, ih []⟩
    · exact ih _

theorem linesGo_newline (cur s : Text) (hc : '\n' ∉ cur) : ∀ l ∈ linesGo cur s, '\n' ∉ l.dropLast := by
  induction s generalizing cur with
  | nil =>
    unfold linesGo
    split
    · simp
    · simp only [List.mem_singleton, forall_eq]
      exact fun h => hc ((List.dropLast_subset _) h)
  | cons c cs ih =>
    unfold linesGo
    split
    · simp only [List.mem_cons, forall_eq_or_imp]
      exact ⟨by simpa using hc, ih [] (by simp)⟩
    · rename_i hne
      refine ih _ ?_
      simp only [List.mem_append, List.mem_singleton, not_or]
      exact ⟨hc, fun h => hne h.symm⟩

theorem linesGo_end (cur s : Text) : ∀ l ∈ (linesGo cur s).dropLast, l.getLast? = some '\n' := by
  induction s generalizing cur with
  | nil =>
    unfold linesGo
    split <;> simp
  | cons c cs ih =>
    unfold linesGo
    split
    · rename_i h
      subst h
      cases hl : linesGo [] cs with
      | nil => simp
      | cons a as =>
        rw [List.dropLast_cons_of_ne_nil (by simp)]
        simp only [List.mem_cons, forall_eq_or_imp]
        refine ⟨by simp, ?_⟩
        rw [← hl]; exact ih []
    · exact ih _

/-- **`lines`** cuts the string behind each newline: the lines put together are the string, no line is empty,
a newline is at most at the end of a line, and every line but the last ends with one. -/
theorem C71_lines (s : Text) :
    (lines s).flatten = s ∧ (∀ l ∈ lines s, l ≠ [] ∧ '\n' ∉ l.dropLast) ∧
    ∀ l ∈ (lines s).dropLast, l.getLast? = some '\n' :=
  ⟨linesGo_flatten [] s, fun l h => ⟨linesGo_ne [] s l h, linesGo_newline [] s (by simp) l h⟩, linesGo_end [] s⟩

/-! ## Stripping -/

theorem trimStart_spec (set : List Char) (s : Text) :
    ∃ a, s = a ++ trimStart set s ∧ (∀ c ∈ a, c ∈ set) ∧ ∀ c ∈ (trimStart set s).head?, c ∉ set := by
  unfold trimStart
  induction s with
  | nil => exact ⟨[], rfl, by simp, by simp⟩
  | cons c cs ih =>
    by_cases h : c ∈ set
    · obtain ⟨a, h1, h2, h3⟩ := ih
      rw [List.dropWhile_cons_of_pos (by simpa using h)]
      refine ⟨c :: a, by rw [List.cons_append, ← h1], ?_, h3⟩
      simpa using ⟨h, h2⟩
    · rw [List.dropWhile_cons_of_neg (by simpa using h)]
      exact ⟨[], rfl, by simp, by simpa using h⟩

theorem trimEnd_spec (set : List Char) (s : Text) :
    ∃ b, s = trimEnd set s ++ b ∧ (∀ c ∈ b, c ∈ set) ∧ ∀ c ∈ (trimEnd set s).getLast?, c ∉ set := by
  obtain ⟨a, h1, h2, h3⟩ := trimStart_spec set s.reverse
  unfold trimStart at h1 h3
  unfold trimEnd
  refine ⟨a.reverse, ?_, by simpa using h2, by simpa [List.getLast?_reverse] using h3⟩
  have := congrArg List.reverse h1
  simpa using this

/-- **`lstrip`, `rstrip`, `strip`** remove the white space at the ends (and NUL at the right end), all of it, and
nothing else. -/
theorem C72_strip (s : Text) :
    (∃ a, s = a ++ lstrip s ∧ (∀ c ∈ a, c ∈ white) ∧ ∀ c ∈ (lstrip s).head?, c ∉ white) ∧
    (∃ b, s = rstrip s ++ b ∧ (∀ c ∈ b, c ∈ white0) ∧ ∀ c ∈ (rstrip s).getLast?, c ∉ white0) ∧
    (∃ a b, s = a ++ strip s ++ b ∧ (∀ c ∈ a, c ∈ white) ∧ (∀ c ∈ b, c ∈ white0) ∧
      (∀ c ∈ (strip s).head?, c ∉ white) ∧ ∀ c ∈ (strip s).getLast?, c ∉ white0) := by
  refine ⟨trimStart_spec white s, trimEnd_spec white0 s, ?_⟩
  obtain ⟨b, h1, h2, h3⟩ := trimEnd_spec white0 s
  obtain ⟨a, h4, h5, h6⟩ := trimStart_spec white (trimEnd white0 s)
  refine ⟨a, b, ?_, h5, h2, h6, ?_⟩
  · unfold strip
    rw [← h4]; exact h1
  · intro c hc
    apply h3
    unfold strip at hc
    rw [h4, Option.mem_def, List.getLast?_append]
    rw [Option.mem_def] at hc
    rw [hc]; rfl

/-! ## Cases that meet the hypotheses -/

example : At ['a', 'é', 'c'] (-2) 1 := ⟨by decide, Or.inr (by decide)⟩
example : index ['a', 'é', 'c'] (-2) none = some ['é'] := by decide
example : index_assign ['a', 'é', 'c'] 1 none ['x', 'y'] = .bytes [97, 120, 121, 99] := by decide
example : slice2 ['a', 'é', 'c'] 1 5 = (some ['é', 'c'], [97]) := by decide
example : center ['a'] 6 ['1', '2', '3'] = .ok ['1', '2', 'a', '1', '2', '3'] := by decide
example : lines ['a', '\n', '\n', 'b'] = [['a', '\n'], ['\n'], ['b']] := by decide
example : strip [' ', 'a', ' ', 'b', '\x00', '\n'] = ['a', ' ', 'b'] := by decide

end Verif.Str
