import Verif.Str.Text
/-!
# `succ` counts (C70)

A string of decimal digits is a number; a string of lower-case (or upper-case) letters is a number too when the
letters are the digits 1 to 26.  `succ` adds one.
-/
namespace Verif.Str

/-- The number a digit string spells. -/
def decimal (s : Text) : Nat := s.foldl (fun n c => n * 10 + (c.toNat - '0'.toNat)) 0

/-- The place of a letter string in the list a, b, …, z, aa, ab, … (from 1); `first` is `a` or `A`. -/
def letters (first : Char) (s : Text) : Nat := s.foldl (fun n c => n * 26 + (c.toNat - first.toNat + 1)) 0

/-- A row of characters from `lo` to `hi` that `succ` runs through. -/
structure Alphabet (isAlnum : Char → Bool) (lo hi extra : Char) : Prop where
  order : lo.toNat < hi.toNat
  alnum : ∀ c, lo.toNat ≤ c.toNat → c.toNat ≤ hi.toNat → isAlnum c = true
  inner : ∀ (σ : Next) c, σ.carry = true → lo.toNat ≤ c.toNat → c.toNat < hi.toNat →
    ∃ d : Char, d.toNat = c.toNat + 1 ∧ nextStep isAlnum σ c = some { σ with carry := false, buf := σ.buf ++ [d] }
  last : ∀ (σ : Next), σ.carry = true →
    nextStep isAlnum σ hi = some { σ with last := σ.buf.length, buf := σ.buf ++ [lo] }
  fin : ∀ l i, (if lo = '0' then insertAt l i '1'
        else if lo = '０' then insertAt l i '１'
        else if lo = 'a' then insertAt l i 'a'
        else if lo = 'A' then insertAt l i 'A'
        else l) = insertAt l i extra

variable {isAlnum : Char → Bool} {lo hi extra : Char}

/-- Adding one to a number written with the last digit first. -/
inductive Inc (lo hi extra : Char) : List Char → List Char → Prop
  | full : Inc lo hi extra [] [extra]
  | carry {cs ds} : Inc lo hi extra cs ds → Inc lo hi extra (hi :: cs) (lo :: ds)
  | stop (c d : Char) (cs) : lo.toNat ≤ c.toNat → c.toNat < hi.toNat → d.toNat = c.toNat + 1 →
      Inc lo hi extra (c :: cs) (d :: cs)

theorem nextLoop_done (σ : Next) (h : σ.carry = false) (cs : List Char) :
    nextLoop isAlnum σ cs = some { σ with buf := σ.buf ++ cs } := by
  induction cs generalizing σ with
  | nil => simp [nextLoop]
  | cons c cs ih =>
    unfold nextLoop nextStep
    rw [h]
    simp only [Bool.false_eq_true, if_false, Option.bind_some]
    rw [ih _ rfl]
    simp

theorem toNat_inj {a b : Char} (h : a.toNat = b.toNat) : a = b := Char.ext (UInt32.toNat_inj.1 h)

theorem nextLoop_spec (A : Alphabet isAlnum lo hi extra) (cs : List Char)
    (hc : ∀ c ∈ cs, lo.toNat ≤ c.toNat ∧ c.toNat ≤ hi.toNat) (σ : Next) (h : σ.carry = true) :
    ∃ τ ds, nextLoop isAlnum σ cs = some τ ∧ Inc lo hi extra cs ds ∧
      (τ.carry = false → τ.buf = σ.buf ++ ds) ∧
      (τ.carry = true → τ.buf ++ [extra] = σ.buf ++ ds ∧
        (cs = [] → τ = σ) ∧ (cs ≠ [] → τ.last + 1 = τ.buf.length ∧ τ.buf[τ.last]? = some lo)) := by
  induction cs generalizing σ with
  | nil => exact ⟨σ, [extra], rfl, .full, by simp [h], by simp⟩
  | cons c cs ih =>
    obtain ⟨h1, h2⟩ := hc c (by simp)
    by_cases hh : c = hi
    · subst hh
      obtain ⟨τ, ds, e1, e2, e3, e4⟩ := ih (fun d hd => hc d (List.mem_cons_of_mem _ hd))
        { σ with last := σ.buf.length, buf := σ.buf ++ [lo] } h
      refine ⟨τ, lo :: ds, ?_, .carry e2, ?_, ?_⟩
      · unfold nextLoop; rw [A.last σ h]; exact e1
      · intro ht; rw [e3 ht]; simp
      · intro ht
        obtain ⟨f1, f2, f3⟩ := e4 ht
        refine ⟨by rw [f1]; simp, by simp, ?_⟩
        intro _
        by_cases hcs : cs = []
        · rw [f2 hcs]; simp
        · exact f3 hcs
    · have hlt : c.toNat < hi.toNat := by
        have : c.toNat ≠ hi.toNat := fun e => hh (toNat_inj e)
        omega
      obtain ⟨d, hd, hs⟩ := A.inner σ c h h1 hlt
      refine ⟨{ σ with carry := false, buf := σ.buf ++ [d] ++ cs }, d :: cs, ?_, .stop c d cs h1 hlt hd, ?_, ?_⟩
      · unfold nextLoop
        rw [hs, Option.bind_some]
        exact nextLoop_done _ rfl cs
      · intro _; simp
      · intro ht; simp at ht

/-- `succ` on a string over an alphabet is `Inc` from the end. -/
theorem str_next_spec (A : Alphabet isAlnum lo hi extra) (s : Text) (hs : s ≠ [])
    (hc : ∀ c ∈ s, lo.toNat ≤ c.toNat ∧ c.toNat ≤ hi.toNat) :
    ∃ t, str_next isAlnum s = some t ∧ Inc lo hi extra s.reverse t.reverse := by
  obtain ⟨τ, ds, e1, e2, e3, e4⟩ := nextLoop_spec A s.reverse (by simpa using hc) ⟨true, 0, []⟩ rfl
  have hne : s.reverse ≠ [] := by simpa using hs
  unfold str_next
  rw [if_neg (by simpa using hs), if_neg, e1]
  · simp only [Option.bind_eq_bind, Option.bind_some]
    by_cases ht : τ.carry = true
    · rw [if_pos ht]
      obtain ⟨f1, _, f3⟩ := e4 ht
      obtain ⟨g1, g2⟩ := f3 hne
      rw [g2]
      simp only [Option.bind_some, A.fin]
      refine ⟨_, rfl, ?_⟩
      have : insertAt τ.buf (τ.last + 1) extra = τ.buf ++ [extra] := by
        unfold insertAt; rw [g1]; simp
      rw [List.reverse_reverse, this, f1]
      simpa using e2
    · rw [if_neg ht]
      refine ⟨_, rfl, ?_⟩
      rw [List.reverse_reverse, e3 (by simpa using ht)]
      simpa using e2
  · intro hall
    rw [List.all_eq_true] at hall
    obtain ⟨c, hm⟩ := List.exists_mem_of_ne_nil _ hs
    have := hall c hm
    rw [A.alnum c (hc c hm).1 (hc c hm).2] at this
    cases this

/-- Value of a number whose last digit comes first. -/
def valueRev (base off : Nat) (lo : Char) : List Char → Nat
  | [] => 0
  | c :: cs => (c.toNat - lo.toNat + off) + base * valueRev base off lo cs

theorem valueRev_inc {base off : Nat} (hb : hi.toNat = lo.toNat + (base - 1)) (hb0 : 0 < base)
    (hx : extra.toNat - lo.toNat + off = 1) {cs ds : List Char} (h : Inc lo hi extra cs ds) :
    valueRev base off lo ds = valueRev base off lo cs + 1 := by
  induction h with
  | full => simp only [valueRev, hx]; omega
  | @carry cs ds _ ih =>
    simp only [valueRev, ih, Nat.mul_add]
    generalize base * valueRev base off lo cs = x
    omega
  | stop c d cs h1 h2 h3 =>
    simp only [valueRev]
    omega

theorem foldl_eq (base off : Nat) (lo : Char) (s : Text) :
    s.foldl (fun n c => n * base + (c.toNat - lo.toNat + off)) 0 = valueRev base off lo s.reverse := by
  have key : ∀ r : List Char, r.foldr (fun c n => n * base + (c.toNat - lo.toNat + off)) 0 = valueRev base off lo r := by
    intro r
    induction r with
    | nil => rfl
    | cons c cs ih => rw [List.foldr_cons, ih]; simp only [valueRev]; rw [Nat.mul_comm base]; omega
  rw [← List.foldr_reverse]
  exact key _

theorem inc_mem {cs ds : List Char} (ho : lo.toNat < hi.toNat)
    (hx : lo.toNat ≤ extra.toNat ∧ extra.toNat ≤ hi.toNat) (h : Inc lo hi extra cs ds)
    (hc : ∀ c ∈ cs, lo.toNat ≤ c.toNat ∧ c.toNat ≤ hi.toNat) : ∀ d ∈ ds, lo.toNat ≤ d.toNat ∧ d.toNat ≤ hi.toNat := by
  induction h with
  | full => simpa using hx
  | carry _ ih =>
    simp only [List.mem_cons, forall_eq_or_imp] at hc ⊢
    exact ⟨by omega, ih hc.2⟩
  | stop c d cs h1 h2 h3 =>
    simp only [List.mem_cons, forall_eq_or_imp] at hc ⊢
    exact ⟨by omega, hc.2⟩

theorem inc_length {cs ds : List Char} (h : Inc lo hi extra cs ds) :
    ds.length = cs.length ∨ (ds.length = cs.length + 1 ∧ ∀ c ∈ cs, c = hi) := by
  induction h with
  | full => exact Or.inr ⟨rfl, by simp⟩
  | carry _ ih =>
    rcases ih with h | ⟨h, h'⟩
    · exact Or.inl (by simp [h])
    · exact Or.inr ⟨by simp [h], by simpa using h'⟩
  | stop => exact Or.inl rfl

/-- What `char::is_alphanumeric` says about the ASCII digits and letters. -/
def AsciiAlnum (isAlnum : Char → Bool) : Prop :=
  ∀ c : Char, ('0'.toNat ≤ c.toNat ∧ c.toNat ≤ '9'.toNat) ∨ ('a'.toNat ≤ c.toNat ∧ c.toNat ≤ 'z'.toNat) ∨
    ('A'.toNat ≤ c.toNat ∧ c.toNat ≤ 'Z'.toNat) → isAlnum c = true

theorem succ_char_ascii (c : Char) (h : c.toNat < 0x7f) : ∃ d, succ_char c = some d ∧ d.toNat = c.toNat + 1 := by
  unfold succ_char
  have h1 : c.toNat ≠ 127 := by omega
  have h2 : c.toNat ≠ 57279 := by omega
  have h3 : c.toNat ≠ 15712191 := by omega
  have h4 : c.toNat ≠ 4103061439 := by omega
  simp only [h1, h2, h3, h4, if_false]
  rw [if_pos]
  · refine ⟨_, rfl, ?_⟩
    have hv : (c.toNat + 1).isValidChar := Or.inl (by omega)
    unfold Char.ofNat
    rw [dif_pos hv]
    rfl
  · exact Or.inl (by omega)

theorem char_le {a b : Char} : a ≤ b ↔ a.toNat ≤ b.toNat := by
  rw [Char.le_def, UInt32.le_iff_toNat_le]; rfl

theorem between_iff (a c b : Char) : between? a c b = true ↔ a.toNat ≤ c.toNat ∧ c.toNat ≤ b.toNat := by
  unfold between?; simp [char_le]

theorem alphabet_digits (h : AsciiAlnum isAlnum) : Alphabet isAlnum '0' '9' '1' where
  order := by decide
  alnum c h1 h2 := h c (Or.inl ⟨h1, h2⟩)
  inner σ c hc h1 h2 := by
    obtain ⟨d, hd, hd2⟩ := succ_char_ascii c (by have : '9'.toNat = 57 := rfl; omega)
    refine ⟨d, hd2, ?_⟩
    unfold nextStep
    rw [if_pos hc, if_pos, hd]
    · rfl
    · have : between? '0' c '8' = true := by
        rw [between_iff]; have : '9'.toNat = 57 := rfl; have : '8'.toNat = 56 := rfl; omega
      simp [this]
  last σ hc := by
    unfold nextStep
    rw [if_pos hc, if_neg (by decide), if_pos rfl]
  fin l i := rfl

theorem alphabet_lower (h : AsciiAlnum isAlnum) : Alphabet isAlnum 'a' 'z' 'a' where
  order := by decide
  alnum c h1 h2 := h c (Or.inr (Or.inl ⟨h1, h2⟩))
  inner σ c hc h1 h2 := by
    obtain ⟨d, hd, hd2⟩ := succ_char_ascii c (by have : 'z'.toNat = 122 := rfl; omega)
    refine ⟨d, hd2, ?_⟩
    unfold nextStep
    rw [if_pos hc, if_pos, hd]
    · rfl
    · have : between? 'a' c 'y' = true := by
        rw [between_iff]; have : 'z'.toNat = 122 := rfl; have : 'y'.toNat = 121 := rfl; omega
      simp [this]
  last σ hc := by
    unfold nextStep
    rw [if_pos hc, if_neg (by decide), if_neg (by decide), if_neg (by decide), if_pos rfl]
  fin l i := by simp only [show ('a' = '0') = False by decide, show ('a' = '０') = False by decide, if_false, if_true]

theorem alphabet_upper (h : AsciiAlnum isAlnum) : Alphabet isAlnum 'A' 'Z' 'A' where
  order := by decide
  alnum c h1 h2 := h c (Or.inr (Or.inr ⟨h1, h2⟩))
  inner σ c hc h1 h2 := by
    obtain ⟨d, hd, hd2⟩ := succ_char_ascii c (by have : 'Z'.toNat = 90 := rfl; omega)
    refine ⟨d, hd2, ?_⟩
    unfold nextStep
    rw [if_pos hc, if_pos, hd]
    · rfl
    · have : between? 'A' c 'Y' = true := by
        rw [between_iff]; have : 'Z'.toNat = 90 := rfl; have : 'Y'.toNat = 89 := rfl; omega
      simp [this]
  last σ hc := by
    unfold nextStep
    rw [if_pos hc, if_neg (by decide), if_neg (by decide), if_neg (by decide), if_neg (by decide), if_pos rfl]
  fin l i := by
    simp only [show ('A' = '0') = False by decide, show ('A' = '０') = False by decide,
      show ('A' = 'a') = False by decide, if_false, if_true]

/-- characters from `lo` to `hi` only -/
def Over (lo hi : Char) (s : Text) : Prop := ∀ c ∈ s, lo.toNat ≤ c.toNat ∧ c.toNat ≤ hi.toNat

/-- **Digits**: `succ` of a decimal number is the next number; it has the same number of digits unless all were
nines. -/
theorem C70_digits (h : AsciiAlnum isAlnum) (s : Text) (hs : s ≠ []) (hd : Over '0' '9' s) :
    ∃ t, str_next isAlnum s = some t ∧ Over '0' '9' t ∧ decimal t = decimal s + 1 ∧
      (t.length = s.length ∨ (t.length = s.length + 1 ∧ ∀ c ∈ s, c = '9')) := by
  obtain ⟨t, h1, h2⟩ := str_next_spec (alphabet_digits h) s hs hd
  refine ⟨t, h1, ?_, ?_, ?_⟩
  · have := inc_mem (by decide) (by decide) h2 (by simpa [Over] using hd)
    simpa [Over] using this
  · have e := fun s => foldl_eq 10 0 '0' s
    have := valueRev_inc (base := 10) (off := 0) (by decide) (by decide) (by decide) h2
    rw [← e, ← e] at this
    exact this
  · have := inc_length h2
    simpa using this

/-- **Letters**: `succ` of a string of lower-case letters is the next one in the list a, …, z, aa, ab, …;
likewise upper-case letters. -/
theorem C70_letters (h : AsciiAlnum isAlnum) (s : Text) (hs : s ≠ []) :
    (Over 'a' 'z' s → ∃ t, str_next isAlnum s = some t ∧ Over 'a' 'z' t ∧ letters 'a' t = letters 'a' s + 1) ∧
    (Over 'A' 'Z' s → ∃ t, str_next isAlnum s = some t ∧ Over 'A' 'Z' t ∧ letters 'A' t = letters 'A' s + 1) := by
  constructor
  · intro hd
    obtain ⟨t, h1, h2⟩ := str_next_spec (alphabet_lower h) s hs hd
    refine ⟨t, h1, ?_, ?_⟩
    · have := inc_mem (by decide) (by decide) h2 (by simpa [Over] using hd)
      simpa [Over] using this
    · have e := fun s => foldl_eq 26 1 'a' s
      have := valueRev_inc (base := 26) (off := 1) (by decide) (by decide) (by decide) h2
      rw [← e, ← e] at this
      exact this
  · intro hd
    obtain ⟨t, h1, h2⟩ := str_next_spec (alphabet_upper h) s hs hd
    refine ⟨t, h1, ?_, ?_⟩
    · have := inc_mem (by decide) (by decide) h2 (by simpa [Over] using hd)
      simpa [Over] using this
    · have e := fun s => foldl_eq 26 1 'A' s
      have := valueRev_inc (base := 26) (off := 1) (by decide) (by decide) (by decide) h2
      rw [← e, ← e] at this
      exact this

/-- `n` times `succ` -/
def succs (isAlnum : Char → Bool) : Nat → Text → Option Text
  | 0, s => some s
  | n + 1, s => (str_next isAlnum s).bind (succs isAlnum n)

/-- Counting: `n` times `succ` adds `n`; so the strings met on the way are all different. -/
theorem C70_count (h : AsciiAlnum isAlnum) (n : Nat) (s : Text) (hs : s ≠ []) (hd : Over '0' '9' s) :
    ∃ t, succs isAlnum n s = some t ∧ decimal t = decimal s + n := by
  induction n generalizing s with
  | zero => exact ⟨s, rfl, rfl⟩
  | succ n ih =>
    obtain ⟨t, h1, h2, h3, h4⟩ := C70_digits h s hs hd
    have ht : t ≠ [] := by
      rintro rfl
      have : s.length = 0 := by simp at h4; omega
      exact hs (List.eq_nil_of_length_eq_zero this)
    obtain ⟨u, h5, h6⟩ := ih t ht h2
    exact ⟨u, by unfold succs; rw [h1]; exact h5, by omega⟩

/-- **Violation**: `succ` of the character U+10FFFF alone, and of U+D7FF alone, panics; the tables of
`succ_char` hold UTF-8 byte values where code points are meant. -/
theorem C70_last_char_fails : str_next Char.isAlphanum [Char.ofNat 0x10FFFF] = none ∧
    str_next Char.isAlphanum [Char.ofNat 0xD7FF] = none := by decide +kernel

/-! ## Cases that meet the hypotheses -/

example : AsciiAlnum Char.isAlphanum := by
  intro c h
  simp only [Char.isAlphanum, Char.isAlpha, Char.isUpper, Char.isLower, Char.isDigit, Bool.or_eq_true,
    Bool.and_eq_true, decide_eq_true_eq]
  rcases h with h | h | h
  · exact Or.inr ⟨h.1, h.2⟩
  · exact Or.inl (Or.inr ⟨h.1, h.2⟩)
  · exact Or.inl (Or.inl ⟨h.1, h.2⟩)
example : str_next Char.isAlphanum ['1', '9', '9'] = some ['2', '0', '0'] := by decide
example : str_next Char.isAlphanum ['z', 'z'] = some ['a', 'a', 'a'] := by decide
example : str_next Char.isAlphanum ['A', 'z'] = some ['B', 'a'] := by decide
example : decimal ['1', '9', '9'] = 199 ∧ letters 'a' ['z', 'z'] = 702 := by decide

end Verif.Str
