import Verif.Str.Numbers
import Verif.Str.Split
/-! # C89: strings taken apart, searched and trimmed -/
namespace Verif.Str

/-! ## Model -/

/-- `expect_string` (value/value.rs:657-663): a string whose bytes are no text raises an ArgumentError. -/
def expecting {α : Type} (s : RString) (f : Text → α) : Res α :=
  match s.as_string with
  | .ok (t, _) => .ok (f t)
  | .raised => .raised
  | .panic => .panic

/-- `as_string().unwrap()` (value/value.rs:647-655): panics on raw bytes. -/
def unwrapping {α : Type} (s : RString) (f : Text → α) : Res α :=
  match s.as_str with
  | .ok t => .ok (f t)
  | .raised => .raised
  | .panic => .panic

/-- `String#size` (builtin/string.rs:780-784). -/
def size (s : RString) : Res Nat := expecting s List.length

/-- `String#chars` (builtin/string.rs:829-837). -/
def chars (s : RString) : Res (List Text) := expecting s fun t => t.map fun c => [c]

/-- `String#codepoints` (builtin/string.rs:1209-1219). -/
def codepoints (s : RString) : Res (List Nat) := unwrapping s fun t => t.map Char.toNat

/-- `String#empty?` (builtin/string.rs:1199-1207). -/
def isEmpty (s : RString) : Bool := s.len = 0

/-- `String#sum` (builtin/string.rs:852-860); the sum is a `u64`. -/
def sum (s : RString) : Nat := (s.as_bytes.foldl (fun n b => n + b.toNat) 0) % 2 ^ 64 % 2 ^ 16

/-- `String#each_char` (builtin/string.rs:839-850): the block is called with one character after the other; it may raise. -/
def each_char {σ ε : Type} (f : Text → σ → Except ε σ) : Text → σ → Except ε σ
  | [], s => .ok s
  | c :: cs, s => match f [c] s with
    | .ok s => each_char f cs s
    | .error e => .error e

/-- `String#start_with?` (builtin/string.rs:421-428). -/
def start_with (s arg : Text) : Bool := arg.isPrefixOf s

/-- `String#end_with?` (builtin/string.rs:430-437). -/
def end_with (s arg : Text) : Bool := arg.isSuffixOf s

/-- `String#include?` (builtin/string.rs:557-564), `str::contains`. -/
def include? (s arg : Text) : Bool := (find arg s).isSome

/-- `String#count` (builtin/string.rs:1178-1188). -/
def count (s arg : Text) : Nat := arg.foldl (fun n ch => n + s.countP (ch == ·)) 0

/-- `str::replace` for a text that is not empty: what is between its occurrences, with the other text in their places. -/
def replaceAll (sep by_ s : Text) : Text := between by_ (splitAll sep s)

/-- `String#tr` (builtin/string.rs:769-778), for a first argument that is not empty. -/
def tr (s from_ to_ : Text) : Text := replaceAll from_ to_ s

/-- `trim_end_matches` with a text: it is removed from the end as long as it is there (the empty text never is).  The number:
fuel, the length of the text. -/
def trimEndText (rs : Text) : Nat → Text → Text
  | 0, s => s
  | n + 1, s => if rs ≠ [] ∧ rs.isSuffixOf s then trimEndText rs n (s.take (s.length - rs.length)) else s

/-- `String#chomp` (builtin/string.rs:919-933). -/
def chomp (s : Text) (rs : Text := ['\n']) : Text := trimEndText rs s.length s

/-! ## C89 -/

/-- A string that holds a text. -/
theorem expecting_from {α : Type} (t : Text) (f : Text → α) : expecting (.from_ t) f = .ok (f t) := by
  rw [expecting, as_string_from]

theorem unwrapping_from {α : Type} (t : Text) (f : Text → α) : unwrapping (.from_ t) f = .ok (f t) := by
  have : (RString.from_ t).as_str = .ok t := by unfold RString.from_; split <;> rfl
  rw [unwrapping, this]

/-- `chars` gives the characters one by one; joined they are the string; there are `size` of them; and `codepoints` are their
numbers, from which the string can be told. -/
theorem C89_chars (t : Text) : ∃ l, chars (.from_ t) = .ok l ∧ (∀ c ∈ l, c.length = 1) ∧ join l [] = t ∧ size (.from_ t) = .ok l.length ∧
    codepoints (.from_ t) = .ok (l.map fun c => (c.headD 'a').toNat) := by
  refine ⟨t.map fun c => [c], expecting_from _ _, by simp, ?_, ?_, ?_⟩
  · have : ∀ (l : Text) (r : Text), joinLoop [] r (l.map fun c => [c]) = r ++ l := by
      intro l
      induction l with
      | nil => simp [joinLoop]
      | cons c l ih =>
        intro r
        rw [List.map_cons, joinLoop, ih]
        split
        · rename_i h; rw [List.isEmpty_iff.1 h]; rfl
        · simp
    rw [join, this]; rfl
  · rw [size, expecting_from]; simp
  · rw [codepoints, unwrapping_from, List.map_map]; rfl

theorem C89_codepoints_injective {s t : Text} {l : List Nat} (hs : codepoints (.from_ s) = .ok l) (ht : codepoints (.from_ t) = .ok l) :
    s = t := by
  rw [codepoints, unwrapping_from] at hs ht
  cases hs
  have h : s.map Char.toNat = t.map Char.toNat := (Res.ok.inj ht).symm
  have inj : ∀ a b : Char, a.toNat = b.toNat → a = b := fun a b h => Char.ext (UInt32.toNat_inj.1 h)
  exact (List.map_inj_right (fun x y => inj x y)).1 h

/-- `each_char` calls the block with the characters in order, up to an exception. -/
theorem C89_each_char {σ ε : Type} (f : Text → σ → Except ε σ) (t : Text) (s : σ) :
    each_char f t s = (t.map fun c => [c]).foldlM (fun s c => f c s) s := by
  induction t generalizing s with
  | nil => rfl
  | cons c t ih =>
    rw [each_char, List.map_cons, List.foldlM_cons]
    cases f [c] s with
    | ok s => exact ih s
    | error e => rfl

/-- `empty?` holds of the string without bytes; `sum` is the sum of the bytes modulo 65536 (as long as it is below 2^64). -/
theorem C89_empty_sum (s : RString) : (isEmpty s = true ↔ s.as_bytes = []) ∧
    ((s.as_bytes.map UInt8.toNat).sum < 2 ^ 64 → sum s = (s.as_bytes.map UInt8.toNat).sum % 65536) := by
  have hl : s.len = s.as_bytes.length := by cases s <;> rfl
  refine ⟨by simp [isEmpty, hl], ?_⟩
  intro h
  have : ∀ (l : Bytes) (n : Nat), l.foldl (fun n b => n + b.toNat) n = n + (l.map UInt8.toNat).sum := by
    intro l
    induction l with
    | nil => simp
    | cons b l ih => intro n; simp [ih, Nat.add_assoc]
  rw [sum, this, Nat.zero_add, Nat.mod_eq_of_lt h]
  rfl

/-- `start_with?`, `end_with?` and `include?` tell whether the text is at the start, at the end, somewhere. -/
theorem C89_search (s p : Text) : (start_with s p = true ↔ ∃ b, s = p ++ b) ∧ (end_with s p = true ↔ ∃ a, s = a ++ p) ∧
    (include? s p = true ↔ ∃ a b, s = a ++ p ++ b) := by
  refine ⟨?_, ?_, ?_⟩
  · rw [start_with, List.isPrefixOf_iff_prefix]
    exact ⟨fun ⟨b, h⟩ => ⟨b, h.symm⟩, fun ⟨b, h⟩ => ⟨b, h.symm⟩⟩
  · rw [end_with, List.isSuffixOf_iff_suffix]
    exact ⟨fun ⟨b, h⟩ => ⟨b, h.symm⟩, fun ⟨b, h⟩ => ⟨b, h.symm⟩⟩
  · rw [include?]
    constructor
    · intro h
      obtain ⟨⟨a, b⟩, h⟩ := Option.isSome_iff_exists.1 h
      exact ⟨a, b, (find_spec h).1⟩
    · rintro ⟨a, b, rfl⟩
      cases hf : find p (a ++ p ++ b) with
      | some _ => rfl
      | none =>
        exfalso
        by_cases hp : p = []
        · subst hp
          have : ∀ s : Text, find [] s ≠ none := by intro s; cases s <;> simp [find]
          exact this _ hf
        · exact find_none hp hf a.length ⟨b, by simp⟩

example : start_with "hello".toList "he".toList = true ∧ include? "hello".toList "ll".toList = true ∧
    include? "hello".toList "lo!".toList = false := by decide

/-- `count` is the number of characters of the string that are in the set given, if the set is given without repetitions.
Missing: repetitions, ranges and negation (`C89_count_fails`). -/
theorem C89_count_partial (s arg : Text) (h : arg.Nodup) : count s arg = s.countP (arg.contains ·) := by
  have key : ∀ (arg : Text), arg.Nodup → ∀ n, arg.foldl (fun n ch => n + s.countP (ch == ·)) n = n + s.countP (arg.contains ·) := by
    intro arg
    induction arg with
    | nil => intro _ n; simp
    | cons c arg ih =>
      intro h n
      rw [List.nodup_cons] at h
      rw [List.foldl_cons, ih h.2, Nat.add_assoc]
      congr 1
      clear ih
      induction s with
      | nil => rfl
      | cons d s ih' =>
        simp only [List.countP_cons]
        have e : (if (c :: arg).contains d then 1 else 0) = (if (c == d) then 1 else 0) + (if arg.contains d then 1 else 0) := by
          by_cases hcd : c = d
          · subst hcd
            have : arg.contains c = false := by simpa using h.1
            simp [h.1]
          · have h1 : (c == d) = false := by simpa using hcd
            have h2 : (c :: arg).contains d = arg.contains d := by
              rw [List.contains_cons]
              have : (d == c) = false := by simpa using Ne.symm hcd
              rw [this]; rfl
            rw [h1, h2]; simp
        rw [e, ← ih']; omega
  rw [count, key arg h]; simp

example : count "hello world".toList "lo".toList = 5 := by decide

/-- A character given twice is counted twice (`"hello".count("ll")` is 4, in Ruby 2); a range is not seen (`"hello".count("a-z")`
is 0, in Ruby 5). -/
theorem C89_count_fails : count "hello".toList "ll".toList = 4 ∧ count "hello".toList "a-z".toList = 0 := by decide

/-- One character for one other: each is replaced. -/
theorem C89_tr_partial (s : Text) (a b : Char) : tr s [a] [b] = s.map fun c => if c = a then b else c := by
  have hfind : ∀ x y : Text, a ∉ x → find [a] (x ++ a :: y) = some (x, y) := by
    intro x y
    induction x with
    | nil => intro _; simp [find, List.isPrefixOf]
    | cons c x ih =>
      intro h
      have h' : ¬ a = c ∧ a ∉ x := by simpa using h
      have : ([a].isPrefixOf (c :: (x ++ a :: y))) = false := by simp [List.isPrefixOf, h'.1]
      rw [List.cons_append, find, this, ih h'.2]; rfl
  have hnone : ∀ s : Text, a ∉ s → find [a] s = none := by
    intro s h
    cases hf : find [a] s with
    | none => rfl
    | some q =>
      obtain ⟨x, y⟩ := q
      have := (find_spec hf).1
      rw [this] at h; simp at h
  have key : ∀ (n : Nat) (s : Text), s.length ≤ n → between [b] (splitn [a] (n + 1) s) = s.map fun c => if c = a then b else c := by
    intro n
    induction n with
    | zero =>
      intro s hs
      have : s = [] := List.eq_nil_of_length_eq_zero (by omega)
      subst this; rfl
    | succ n ih =>
      intro s hs
      rw [splitn]
      by_cases hm : a ∈ s
      · obtain ⟨x, y, hsplit, hax⟩ := List.eq_append_cons_of_mem hm
        rw [hsplit, hfind x y hax]
        simp only
        have hlen : y.length ≤ n := by
          have := congrArg List.length hsplit
          simp at this; omega
        have hy' := ih y hlen
        have hxa : ∀ c ∈ x, c ≠ a := by
          rintro c hc rfl; exact hax hc
        have hne : splitn [a] (n + 1) y ≠ [] := by
          cases n <;> simp only [splitn]
          · simp
          · cases find [a] y <;> simp
        obtain ⟨q, qs, hq⟩ := List.exists_cons_of_ne_nil hne
        rw [hq] at hy' ⊢
        simp only [between, List.map_append, List.map_cons, if_true, List.append_assoc]
        rw [hy']
        have : x.map (fun c => if c = a then b else c) = x := by
          conv => rhs; rw [← List.map_id x]
          apply List.map_congr_left
          intro c hc
          rw [if_neg (hxa c hc)]; rfl
        rw [this]; rfl
      · rw [hnone s hm]
        simp only [between]
        conv => lhs; rw [← List.map_id s]
        apply List.map_congr_left
        intro c hc
        rw [if_neg]
        · rfl
        · rintro rfl; exact hm hc
  exact key s.length s (Nat.le_refl _)

/-- `tr` replaces the first text with the second instead of characters with characters: `"hello".tr("el", "ip")` is `hiplo` (Ruby:
`hippo`), and `"hello".tr("a-y", "b-z")` is `hello` (Ruby: `ifmmp`). -/
theorem C89_tr_fails : tr "hello".toList "el".toList "ip".toList = "hiplo".toList ∧
    tr "hello".toList "a-y".toList "b-z".toList = "hello".toList := by decide

/-- What `chomp` does: it removes the text given (a newline, if nothing is given) from the end, as often as it is there. -/
theorem C89_chomp_removes (s rs : Text) (hrs : rs ≠ []) :
    ∃ k, s = chomp s rs ++ (List.replicate k rs).flatten ∧ ¬ rs <:+ chomp s rs := by
  have key : ∀ (n : Nat) (s : Text), s.length ≤ n → ∃ k, s = trimEndText rs n s ++ (List.replicate k rs).flatten ∧
      ¬ rs <:+ trimEndText rs n s := by
    intro n
    induction n with
    | zero =>
      intro s hs
      have : s = [] := List.eq_nil_of_length_eq_zero (by omega)
      subst this
      exact ⟨0, rfl, fun h => hrs (List.suffix_nil.1 h)⟩
    | succ n ih =>
      intro s hs
      rw [trimEndText]
      split
      · rename_i h
        obtain ⟨a, ha⟩ := List.isSuffixOf_iff_suffix.1 h.2
        have hpos : 0 < rs.length := List.length_pos_iff.2 hrs
        have hlen := congrArg List.length ha
        rw [List.length_append] at hlen
        have ht : s.take (s.length - rs.length) = a := by
          rw [← ha]; simp
        rw [ht]
        obtain ⟨k, h1, h2⟩ := ih a (by omega)
        refine ⟨k + 1, ?_, h2⟩
        conv => lhs; rw [← ha, h1]
        rw [List.append_assoc, List.replicate_succ']
        simp
      · rename_i h
        refine ⟨0, by simp, ?_⟩
        intro h'
        exact h ⟨hrs, List.isSuffixOf_iff_suffix.2 h'⟩
  exact key s.length s (Nat.le_refl _)

/-- So a line loses its newline, and a text that does not end in a newline is left alone. -/
theorem C89_chomp_partial (s : Text) (h : ¬ ['\n'] <:+ s) : chomp (s ++ ['\n']) = s ∧ chomp s = s := by
  have h0 : chomp s = s := by
    unfold chomp
    cases hs : s.length with
    | zero => rfl
    | succ n =>
      rw [trimEndText, if_neg]
      rintro ⟨-, h'⟩
      exact h (List.isSuffixOf_iff_suffix.1 h')
  refine ⟨?_, h0⟩
  unfold chomp
  have hl : (s ++ ['\n']).length = s.length + 1 := by simp
  rw [hl, trimEndText, if_pos ⟨by simp, List.isSuffixOf_iff_suffix.2 ⟨s, rfl⟩⟩]
  have ht : (s ++ ['\n']).take ((s ++ ['\n']).length - ['\n'].length) = s := by simp
  rw [ht]
  exact h0

example : chomp "ab\n".toList = "ab".toList ∧ chomp "ab".toList = "ab".toList ∧ chomp "abab".toList "ab".toList = [] := by decide

/-- More than one line end is removed (`"a\n\n".chomp` is `a`; in Ruby only the last one is), and of `\r\n` the first character stays. -/
theorem C89_chomp_fails : chomp "a\n\n".toList = "a".toList ∧ chomp "a\r\n".toList = "a\r".toList := by decide

/-- Strings of raw bytes: some of these methods raise an exception, the others abort the interpreter. -/
theorem C89_bytes_fails : ∃ s : RString, s = pack [255] ∧ size s = .raised ∧ chars s = .raised ∧ codepoints s = .panic := by
  refine ⟨_, rfl, ?_, ?_, ?_⟩ <;> decide +kernel

end Verif.Str
