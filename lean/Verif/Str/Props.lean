import Verif.Str.Lemmas
/-!
# Concatenation and comparison of strings (C47, C48)
-/
namespace Verif.Str
open RString

theorem as_bytes_from (s : Text) : (from_ s).as_bytes = utf8 s := by
  unfold from_; split <;> rfl

theorem as_bytes_from_bytes (b : Bytes) : (from_bytes b).as_bytes = b := by
  unfold from_bytes
  cases h : from_utf8 b with
  | none => rfl
  | some s => simp only [as_bytes_from]; exact utf8_of_from_utf8 h

theorem as_bytes_Str (s : Text) : (RString.Str s).as_bytes = utf8 s := rfl
theorem as_bytes_SmallStr (s : Text) : (RString.SmallStr s).as_bytes = utf8 s := rfl
theorem as_bytes_Bytes (b : Bytes) : (RString.Bytes b).as_bytes = b := rfl

theorem as_bytes_append (a b : RString) : (a.append b).as_bytes = a.as_bytes ++ b.as_bytes := by
  cases a <;> cases b <;>
    simp only [append, as_bytes_from, as_bytes_from_bytes, utf8_append, as_bytes_Str, as_bytes_SmallStr, as_bytes_Bytes]

/-- **`s + t` is the bytes of `s` followed by the bytes of `t`**, whatever representation the two have. -/
theorem C47_add (s t : RString) : ∃ r, add s (.str t) = .ok r ∧ r.as_bytes = s.as_bytes ++ t.as_bytes :=
  ⟨_, rfl, as_bytes_append s t⟩

/-- **`s << t`** likewise, when `t` is another object. -/
theorem C47_concat (s t : RString) : ∃ r, concat s (.str t) = .ok r ∧ r.as_bytes = s.as_bytes ++ t.as_bytes :=
  ⟨_, rfl, as_bytes_append s t⟩

/-- `s << i` appends one byte. -/
theorem C47_concat_byte (s : RString) (i : Int) (h0 : 0 ≤ i) (h1 : i < 256) :
    ∃ r b, concat s (.int i) = .ok r ∧ r.as_bytes = s.as_bytes ++ [b] ∧ (b.toNat : Int) = i := by
  refine ⟨_, lowByte i, rfl, as_bytes_append s _, ?_⟩
  unfold lowByte
  rw [UInt8.toNat_ofNat']
  omega

/-- A sequence of appends, to any string: all the bytes in order. -/
theorem C47_appends (s : RString) (ts : List RString) :
    (ts.foldl RString.append s).as_bytes = s.as_bytes ++ ts.flatMap RString.as_bytes := by
  induction ts generalizing s with
  | nil => simp
  | cons t ts ih => rw [List.foldl_cons, ih, as_bytes_append]; simp

/-- **`s * n`** is the bytes of `s`, `n` times. -/
theorem C47_mul (s : RString) (n : Nat) :
    ∃ r, mul s n = .ok r ∧ r.as_bytes = (List.replicate n s.as_bytes).flatten := by
  have key : ∀ t : Text, utf8 (List.replicate n t).flatten = (List.replicate n (utf8 t)).flatten := by
    intro t
    induction n with
    | zero => rfl
    | succ n ih => simp only [List.replicate_succ, List.flatten_cons, utf8_append, ih]
  unfold mul
  rw [if_neg (by omega)]
  cases s <;> refine ⟨_, rfl, ?_⟩ <;> 
    simp [as_bytes_from, as_bytes_from_bytes, key, as_bytes_Str, as_bytes_SmallStr, as_bytes_Bytes]

/-- **Usable as text exactly when the bytes are text**: reading a string as text succeeds exactly when its
bytes are the encoding of some characters; it gives these characters, and does not change the bytes. -/
theorem C47_usable (s : RString) :
    (IsText s.as_bytes → ∃ t s', s.as_string = .ok (t, s') ∧ utf8 t = s.as_bytes ∧ s'.as_bytes = s.as_bytes) ∧
    (¬ IsText s.as_bytes → s.as_string = .raised) := by
  cases s with
  | Str s => exact ⟨fun _ => ⟨s, _, rfl, rfl, rfl⟩, fun h => absurd ⟨s, rfl⟩ h⟩
  | SmallStr s => exact ⟨fun _ => ⟨s, _, rfl, rfl, rfl⟩, fun h => absurd ⟨s, rfl⟩ h⟩
  | Bytes b =>
    constructor
    · intro h
      obtain ⟨t, ht⟩ := (isText_iff b).1 h
      refine ⟨t, from_ t, by simp [as_string, ht], utf8_of_from_utf8 ht, ?_⟩
      rw [as_bytes_from, utf8_of_from_utf8 ht]; rfl
    · intro h
      have : from_utf8 b = none := by
        cases e : from_utf8 b with
        | none => rfl
        | some t => exact absurd ((isText_iff b).2 ⟨t, e⟩) h
      simp [as_string, this]

/-- … in particular the concatenation of two strings. -/
theorem C47_concat_usable (s t : RString) :
    (∃ u r, (s.append t).as_string = .ok (u, r)) ↔ IsText (s.as_bytes ++ t.as_bytes) := by
  have h := C47_usable (s.append t)
  rw [as_bytes_append] at h
  constructor
  · rintro ⟨u, r, e⟩
    by_cases ht : IsText (s.as_bytes ++ t.as_bytes)
    · exact ht
    · rw [h.2 ht] at e; cases e
  · intro ht
    obtain ⟨u, r, e, _⟩ := h.1 ht
    exact ⟨u, r, e⟩

/-- A small string always fits into its buffer, in every string built by the operations. -/
def Fits : RString → Prop
  | .SmallStr s => (utf8 s).length ≤ SMALL_STRING_CAPACITY
  | _ => True

theorem fits_from (s : Text) : Fits (from_ s) := by
  unfold from_; split
  · assumption
  · trivial

theorem fits_from_bytes (b : Bytes) : Fits (from_bytes b) := by
  unfold from_bytes; cases from_utf8 b
  · trivial
  · exact fits_from _

theorem C47_fits (a b : RString) : Fits (a.append b) := by
  cases a <;> cases b <;> simp only [append] <;> first | trivial | exact fits_from _ | exact fits_from_bytes _

/-- The result of `*` fits as well; a negative count is an error. -/
theorem C47_mul_fits (s : RString) (n : Int) : (∀ r, mul s n = .ok r → Fits r) ∧ (n < 0 → mul s n = .raised) := by
  constructor
  · intro r h
    unfold mul at h
    split at h
    · cases h
    · cases s <;> cases h <;> first | exact fits_from _ | exact fits_from_bytes _
  · intro h
    unfold mul; rw [if_pos h]

/-- **Usable everywhere**: if at least one of the parts was text, a result that is text can be used by every method,
also by those that panic on raw bytes (`as_str`).

Missing: two parts of raw bytes (`C47_joined_bytes_fails`). -/
theorem C47_as_text_partial (a b : RString) (h : (∀ x, a ≠ .Bytes x) ∨ (∀ x, b ≠ .Bytes x))
    (ht : IsText (a.as_bytes ++ b.as_bytes)) : ∃ t, (a.append b).as_str = .ok t ∧ utf8 t = a.as_bytes ++ b.as_bytes := by
  have key : ∀ x, IsText x → ∃ t, (from_bytes x).as_str = .ok t ∧ utf8 t = x := by
    intro x hx
    obtain ⟨t, e⟩ := (isText_iff x).1 hx
    refine ⟨t, ?_, utf8_of_from_utf8 e⟩
    unfold from_bytes
    rw [e]
    simp only [from_]
    split <;> rfl
  have kf : ∀ t, (from_ t).as_str = .ok t := by
    intro t; unfold from_; split <;> rfl
  cases a with
  | Str l =>
    cases b with
    | Str r => exact ⟨l ++ r, rfl, utf8_append _ _⟩
    | SmallStr r => exact ⟨l ++ r, rfl, utf8_append _ _⟩
    | Bytes r => exact key _ ht
  | SmallStr l =>
    cases b with
    | Str r => exact ⟨l ++ r, rfl, utf8_append _ _⟩
    | SmallStr r => exact ⟨l ++ r, kf _, utf8_append _ _⟩
    | Bytes r => exact key _ ht
  | Bytes l =>
    cases b with
    | Str r => exact key _ ht
    | SmallStr r => exact key _ ht
    | Bytes r =>
      rcases h with h | h
      · exact absurd rfl (h l)
      · exact absurd rfl (h r)

/-- **Violation**: `s << s` leaves a small string unchanged instead of doubling it. -/
theorem C47_self_append_fails (s : Text) (_ : (utf8 s).length ≤ SMALL_STRING_CAPACITY) (hs : s ≠ []) :
    ∃ r, (RString.SmallStr s).append_self = some r ∧ r.as_bytes ≠ utf8 s ++ utf8 s := by
  refine ⟨_, rfl, ?_⟩
  rw [as_bytes_from, utf8_append]
  intro e
  have := List.append_cancel_left e
  have h2 := utf8_inj (s := []) (t := s) (by rw [← this])
  exact hs h2.symm

/-- **Violation**: two strings that are not text each may make text together; the result is then still
unusable for the methods that read text with `as_str` (`strip`, `ord`, `succ`, the separator of `join` and
`split`, …): they panic. -/
theorem C47_joined_bytes_fails :
    ∃ a b : RString, IsText (a.append b).as_bytes ∧ (a.append b).as_str = .panic := by
  refine ⟨.Bytes [0xC3], .Bytes [0xA9], ⟨['é'], by decide⟩, rfl⟩

/-! ## Comparison -/

/-- The first difference of two byte strings, if there is one before either ends. -/
def firstDiff : Bytes → Bytes → Option Ordering
  | a :: as, b :: bs => if cmpByte a b = .eq then firstDiff as bs else some (cmpByte a b)
  | _, _ => none

theorem cmpByte_eq {a b : UInt8} : cmpByte a b = .eq ↔ a = b := by
  unfold cmpByte
  by_cases h : a < b
  · simp only [h, if_true]
    refine ⟨fun h => (by cases h), ?_⟩
    rintro rfl
    exact absurd h (UInt8.lt_irrefl a)
  · by_cases e : a = b <;> simp [h, e]

theorem cmpByte_lt {a b : UInt8} : cmpByte a b = .lt ↔ a.toNat < b.toNat := by
  unfold cmpByte
  by_cases h : a < b
  · simp only [h, if_true, true_iff]; exact h
  · have h' : ¬ a.toNat < b.toNat := h
    by_cases e : a = b <;> simp [h, e, h']

theorem cmpByte_gt {a b : UInt8} : cmpByte a b = .gt ↔ b.toNat < a.toNat := by
  have h1 := cmpByte_lt (a := a) (b := b)
  have h2 := cmpByte_eq (a := a) (b := b)
  have h3 : a = b ↔ a.toNat = b.toNat := UInt8.toNat_inj.symm
  cases e : cmpByte a b with
  | lt => have := h1.1 e; simp; omega
  | eq => have := h2.1 e; subst this; simp
  | gt =>
    rw [e] at h1 h2
    simp at h1 h2
    have : a.toNat ≠ b.toNat := fun h => h2 (h3.2 h)
    simp only [true_iff]
    omega

theorem cmpLoop_eq (p q l r : Bytes) (h : p.length = q.length) :
    cmpLoop (p ++ l) (q ++ r) p.length (min l.length r.length) = .ok (firstDiff l r) := by
  induction l generalizing p q r with
  | nil => simp [cmpLoop, firstDiff]
  | cons a as ih =>
    cases r with
    | nil => simp [cmpLoop, firstDiff]
    | cons b bs =>
      have hm : min (a :: as).length (b :: bs).length = min as.length bs.length + 1 := by simp
      rw [hm]
      unfold cmpLoop firstDiff
      have e1 : (p ++ a :: as)[p.length]? = some a := by simp
      have e2 : (q ++ b :: bs)[p.length]? = some b := by rw [h]; simp
      simp only [e1, e2]
      split
      · have := ih (p ++ [a]) (q ++ [b]) bs (by simp [h])
        simpa using this
      · rfl

theorem firstDiff_lt {l r : Bytes} (h : firstDiff l r = some .lt) : Less l r := by
  induction l generalizing r with
  | nil => simp [firstDiff] at h
  | cons a as ih =>
    cases r with
    | nil => simp [firstDiff] at h
    | cons b bs =>
      unfold firstDiff at h
      split at h
      · rename_i e; rw [cmpByte_eq] at e; subst e; exact .later a (ih h)
      · rename_i e; injection h with h; exact .here as bs (cmpByte_lt.1 h)

theorem firstDiff_gt {l r : Bytes} (h : firstDiff l r = some .gt) : Less r l := by
  induction l generalizing r with
  | nil => simp [firstDiff] at h
  | cons a as ih =>
    cases r with
    | nil => simp [firstDiff] at h
    | cons b bs =>
      unfold firstDiff at h
      split at h
      · rename_i e; rw [cmpByte_eq] at e; subst e; exact .later a (ih h)
      · rename_i e; injection h with h; exact .here bs as (cmpByte_gt.1 h)

theorem firstDiff_ne {l r : Bytes} : firstDiff l r ≠ some .eq := by
  induction l generalizing r with
  | nil => simp [firstDiff]
  | cons a as ih =>
    cases r with
    | nil => simp [firstDiff]
    | cons b bs =>
      unfold firstDiff
      split
      · exact ih
      · rename_i e; intro h; injection h with h; exact e h

theorem firstDiff_none {l r : Bytes} (h : firstDiff l r = none) :
    (l.length = r.length → l = r) ∧ (l.length < r.length → Less l r) ∧ (r.length < l.length → Less r l) := by
  induction l generalizing r with
  | nil =>
    cases r with
    | nil => simp
    | cons b bs => simp; exact .prefix b bs
  | cons a as ih =>
    cases r with
    | nil => simp; exact .prefix a as
    | cons b bs =>
      unfold firstDiff at h
      split at h
      · rename_i e; rw [cmpByte_eq] at e; subst e
        obtain ⟨h1, h2, h3⟩ := ih h
        simp only [List.length_cons]
        exact ⟨fun e => by rw [h1 (by omega)], fun e => .later a (h2 (by omega)), fun e => .later a (h3 (by omega))⟩
      · cases h

theorem Less.irrefl {l : Bytes} : ¬ Less l l := by
  intro h
  induction l with
  | nil => cases h
  | cons a as ih =>
    cases h with
    | here _ _ h => omega
    | later _ h => exact ih h

theorem Less.trans {a b c : Bytes} (h : Less a b) (h' : Less b c) : Less a c := by
  induction h generalizing c with
  | «prefix» b bs => cases h' <;> exact .prefix _ _
  | here as bs h =>
    cases h' with
    | here _ _ h2 => exact .here _ _ (by omega)
    | later _ h2 => exact .here _ _ h
  | later a h ih =>
    cases h' with
    | here _ _ h2 => exact .here _ _ h2
    | later _ h2 => exact .later _ (ih h2)

theorem Less.asymm {a b : Bytes} (h : Less a b) : ¬ Less b a := fun h' => Less.irrefl (h.trans h')

theorem string_cmp_spec (l r : Bytes) :
    ∃ o, string_cmp l r = .ok o ∧ (o = .lt → Less l r) ∧ (o = .eq → l = r) ∧ (o = .gt → Less r l) := by
  have key := cmpLoop_eq [] [] l r rfl
  simp only [List.nil_append, List.length_nil] at key
  unfold string_cmp
  by_cases hl : l.length ≥ r.length
  · rw [if_pos hl]
    rw [Nat.min_eq_right hl] at key
    rw [key]
    cases hd : firstDiff l r with
    | some o =>
      refine ⟨o, rfl, ?_, ?_, ?_⟩
      · rintro rfl; exact firstDiff_lt hd
      · rintro rfl; exact absurd hd firstDiff_ne
      · rintro rfl; exact firstDiff_gt hd
    | none =>
      obtain ⟨h1, h2, h3⟩ := firstDiff_none hd
      by_cases e : l.length = r.length
      · exact ⟨.eq, by simp [e], by simp, fun _ => h1 e, by simp⟩
      · exact ⟨.gt, by simp [e], by simp, by simp, fun _ => h3 (by omega)⟩
  · rw [if_neg hl]
    rw [Nat.min_eq_left (by omega)] at key
    rw [key]
    cases hd : firstDiff l r with
    | some o =>
      refine ⟨o, rfl, ?_, ?_, ?_⟩
      · rintro rfl; exact firstDiff_lt hd
      · rintro rfl; exact absurd hd firstDiff_ne
      · rintro rfl; exact firstDiff_gt hd
    | none =>
      obtain ⟨h1, h2, h3⟩ := firstDiff_none hd
      exact ⟨.lt, rfl, fun _ => h2 (by omega), by simp, by simp⟩

/-- **`s <=> t` is the lexicographic order of the bytes.** -/
theorem C48_lexicographic (s t : RString) :
    ∃ o, cmp s (.str t) = .ok (some o) ∧ (o = .lt ↔ Less s.as_bytes t.as_bytes) ∧
      (o = .eq ↔ s.as_bytes = t.as_bytes) ∧ (o = .gt ↔ Less t.as_bytes s.as_bytes) := by
  obtain ⟨o, h0, h1, h2, h3⟩ := string_cmp_spec s.as_bytes t.as_bytes
  refine ⟨o, by simp only [cmp, h0], ?_, ?_, ?_⟩
  · refine ⟨h1, fun h => ?_⟩
    cases o with
    | lt => rfl
    | eq => rw [h2 rfl] at h; exact absurd h Less.irrefl
    | gt => exact absurd h (h3 rfl).asymm
  · refine ⟨h2, fun h => ?_⟩
    cases o with
    | lt => have := h1 rfl; rw [h] at this; exact absurd this Less.irrefl
    | eq => rfl
    | gt => have := h3 rfl; rw [h] at this; exact absurd this Less.irrefl
  · refine ⟨h3, fun h => ?_⟩
    cases o with
    | lt => exact absurd h (h1 rfl).asymm
    | eq => rw [h2 rfl] at h; exact absurd h Less.irrefl
    | gt => rfl

/-- `s <=> t` is 0 exactly when `s == t`. -/
theorem C48_consistent_eq (s t : RString) : cmp s (.str t) = .ok (some .eq) ↔ eq s t = true := by
  obtain ⟨o, h0, _, h2, _⟩ := C48_lexicographic s t
  rw [h0]
  simp [eq, ← h2]

/-- Swapping the sides swaps the result. -/
theorem C48_antisymmetric (s t : RString) (o : Ordering) (h : cmp s (.str t) = .ok (some o)) :
    cmp t (.str s) = .ok (some o.swap) := by
  obtain ⟨o₁, e1, a1, a2, a3⟩ := C48_lexicographic s t
  obtain ⟨o₂, e2, b1, b2, b3⟩ := C48_lexicographic t s
  rw [e1] at h
  injection h with h; injection h with h; subst h
  rw [e2]
  congr 2
  cases o₁ with
  | lt => exact b3.2 (a1.1 rfl)
  | eq => exact b2.2 (a2.1 rfl).symm
  | gt => exact b1.2 (a3.1 rfl)

/-- `<=` is transitive (with the previous theorems: a total order). -/
theorem C48_transitive (s t u : RString) (h1 : le s (.str t) = .ok true) (h2 : le t (.str u) = .ok true) :
    le s (.str u) = .ok true := by
  obtain ⟨o₁, e1, a1, a2, a3⟩ := C48_lexicographic s t
  obtain ⟨o₂, e2, b1, b2, b3⟩ := C48_lexicographic t u
  obtain ⟨o₃, e3, c1, c2, c3⟩ := C48_lexicographic s u
  unfold le compareWith at *
  rw [e1] at h1
  rw [e2] at h2
  rw [e3]
  simp only [Res.ok.injEq] at h1 h2 ⊢
  cases o₁ with
  | gt => cases h1
  | eq =>
    have h := a2.1 rfl
    cases o₂ with
    | gt => cases h2
    | eq => rw [c2.2 (h.trans (b2.1 rfl))]; rfl
    | lt => rw [c1.2 (by rw [h]; exact b1.1 rfl)]; rfl
  | lt =>
    have h := a1.1 rfl
    cases o₂ with
    | gt => cases h2
    | eq => rw [c1.2 (by rw [← b2.1 rfl]; exact h)]; rfl
    | lt => rw [c1.2 (h.trans (b1.1 rfl))]; rfl

/-- `<`, `<=`, `>`, `>=` agree with `<=>`. -/
theorem C48_operators (s t : RString) :
    (lt s (.str t) = .ok true ↔ Less s.as_bytes t.as_bytes) ∧
    (gt s (.str t) = .ok true ↔ Less t.as_bytes s.as_bytes) ∧
    (le s (.str t) = .ok true ↔ ¬ Less t.as_bytes s.as_bytes) ∧
    (ge s (.str t) = .ok true ↔ ¬ Less s.as_bytes t.as_bytes) := by
  obtain ⟨o, h0, h1, h2, h3⟩ := C48_lexicographic s t
  unfold lt gt le ge compareWith
  rw [h0, ← h1, ← h3]
  cases o <;> simp [Ordering.isLT, Ordering.isGT, Ordering.isLE, Ordering.isGE]

/-- The result does not depend on the representation. -/
theorem C48_representation (s s' t t' : RString) (hs : s.as_bytes = s'.as_bytes) (ht : t.as_bytes = t'.as_bytes) :
    cmp s (.str t) = cmp s' (.str t') ∧ eq s t = eq s' t' := by
  simp only [cmp, eq, hs, ht, and_self]

/-- Comparison with something that is not a string: `<=>` gives nil, the operators raise. -/
theorem C48_not_string (s : RString) (a : Arg) (h : ∀ t, a ≠ .str t) :
    cmp s a = .ok none ∧ lt s a = .raised ∧ le s a = .raised ∧ gt s a = .raised ∧ ge s a = .raised := by
  cases a with
  | str t => exact absurd rfl (h t)
  | int i => exact ⟨rfl, rfl, rfl, rfl, rfl⟩
  | other => exact ⟨rfl, rfl, rfl, rfl, rfl⟩

/-! ## Cases that meet the hypotheses -/

example : (RString.SmallStr ['a']).append (.Bytes [0xC3]) = .Bytes [0x61, 0xC3] := by decide +kernel
example : cmp (.SmallStr ['a', 'b']) (.str (.SmallStr ['a'])) = .ok (some .gt) := by decide
example : cmp (.SmallStr ['a', 'b']) (.str (.Bytes [0x61, 0xC3])) = .ok (some .lt) := by decide
example : ¬ IsText [0xC3] := by
  rw [isText_iff]
  have : from_utf8 [0xC3] = none := by decide +kernel
  simp [this]
example : (utf8 ['a', 'b']).length ≤ SMALL_STRING_CAPACITY ∧ ['a', 'b'] ≠ ([] : Text) := by decide

end Verif.Str
