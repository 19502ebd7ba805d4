import Verif.Regexp.Lemmas
/-!
# C79: `sub`, `gsub`, `scan`, `=~` and `match` act on the matches, from left to right

`Fits t m` and `Finds t m re` are the contract of the matcher (crate `fancy_regex`): `m` says what
the pattern matches in the text `t`, and asked at a position between characters the matcher finds
the leftmost match from there on.  `Matches t m 0 l` says that `l` are the matches of the text, from
left to right; there is exactly one such list.
-/
namespace Verif.Regexp

/-- The bytes of an ASCII string. -/
def ascii (s : String) : Bytes := s.toList.map fun c => UInt8.ofNat c.toNat

/-- There is exactly one list of matches. -/
theorem C79_matches_unique (t : Bytes) (m : Pattern) (hf : Fits t m) (l l' : List Caps)
    (h : Matches t m 0 l) (h' : Matches t m 0 l') : l = l' := h.unique hf h'

/-- `gsub(pattern, text)` puts the text in the place of every match, from left to right, and leaves
everything else as it is; it reports whether there was a match, and `$&`… are those of the last one.
What is missing: an empty match at the very end of the text (`rest`) may be passed over; the
replacement is taken literally, `\1` is not expanded; empty matches are allowed only before one-byte
characters (`Narrow`).  See the `_fails` theorems. -/
theorem C79_gsub_replaces_matches_partial {ε : Type} (t : Bytes) (m : Pattern) (re : Engine)
    (hf : Fits t m) (hr : Finds t m re) (hn : Narrow t m) (rep : Bytes) :
    ∃ l rest, Matches t m 0 (l ++ rest) ∧
      (rest = [] ∨ ∃ c, rest = [c] ∧ m t.length = some c) ∧
      ∀ fuel, t.length + 1 < fuel → replace_repeat (ε := ε) fuel t re rep =
        .ok (fill t 0 (l.map (·, rep)), decide (l ≠ []), l.getLast?.map (dollars t)) := by
  obtain ⟨l, l', h1, h2, h3, h4⟩ := repeatLoop_eq (ε := ε) hf hr hn (t.length + 1) 0 (by omega)
    (fun _ => hf.begins)
  refine ⟨l, l', h1, ?_, ?_⟩
  · match l', h2, h3 with
    | [], _, _ => exact .inl rfl
    | [c], h, _ => exact .inr ⟨c, rfl, h c (by simp)⟩
    | _ :: _ :: _, _, h => simp at h
  · intro fuel hfu
    rw [replace_repeat, h4 fuel hfu]
    simp only [List.nil_append, Option.or_none, replaceBack_with, List.map_map]
    have hord : Ordered t 0 ((l.map fun c => (c, rep)).map fun x => (x.1.whole, x.2)) := by
      apply Ordered.of_zip
      have := (h1.ordered hf) fun _ => []
      rw [List.zipIdx_append, List.map_append] at this
      have hp := this.prefix_
      rw [List.map_map]
      have hid : ((fun x : Caps × Bytes => x.1) ∘ fun c => (c, rep)) = id := rfl
      rw [hid, List.map_id]
      exact hp
    have := replaceBackWith_eq t (l.map (·, rep)) 0 (Nat.zero_le _) hord
    simp only [List.map_map, List.take_zero, List.nil_append] at this
    have he : (fun x : Span => (x, rep)) ∘ Caps.whole
        = (fun x : Caps × Bytes => (x.1.whole, x.2)) ∘ fun x => (x, rep) := rfl
    rw [he, this]
    simp only [Res.ok.injEq, Prod.mk.injEq, true_and]
    constructor
    · cases l <;> simp
    · cases l.getLast? <;> simp [get_captures_eq]

/-- `"a,b,,c"`, a pattern matching each `,`. -/
example : ∃ (t : Bytes) (m : Pattern) (re : Engine), Fits t m ∧ Finds t m re ∧ Narrow t m ∧
    replace_repeat (ε := Unit) 9 t re (ascii "; ") = .ok (ascii "a; b; ; c", true,
      some ⟨some (ascii ","), some (ascii "c"), []⟩) := by
  have hf : Fits (ascii "a,b,,c") (only [⟨⟨1, 2⟩, []⟩, ⟨⟨3, 4⟩, []⟩, ⟨⟨4, 5⟩, []⟩]) :=
    fits_only (by decide) (by decide)
  exact ⟨_, _, _, hf, finds_engine hf, fun _ _ _ _ h => boundary_ascii (by decide) h, by decide⟩

/-- A pattern that matches the empty text everywhere in `"abc"`, like `/x*/`. -/
def everywhere : Pattern :=
  only [⟨⟨0, 0⟩, []⟩, ⟨⟨1, 1⟩, []⟩, ⟨⟨2, 2⟩, []⟩, ⟨⟨3, 3⟩, []⟩]

theorem fits_everywhere : Fits (ascii "abc") everywhere := fits_only (by decide) (by decide)

theorem narrow_everywhere : Narrow (ascii "abc") everywhere :=
  fun _ _ _ _ hp => boundary_ascii (by decide) hp

theorem matches_everywhere : Matches (ascii "abc") everywhere 0
    [⟨⟨0, 0⟩, []⟩, ⟨⟨1, 1⟩, []⟩, ⟨⟨2, 2⟩, []⟩, ⟨⟨3, 3⟩, []⟩] := by
  have hl : (ascii "abc").length = 3 := by decide
  have hb : ∀ {p}, p ≤ 3 → Boundary (ascii "abc") p := fun hp => boundary_ascii (by decide) hp
  refine .empty (s := 0) (n := 1) (by omega) (by omega) rfl rfl (by omega) (by omega)
    (fun _ => hb (by omega)) ?_
  refine .empty (s := 1) (n := 2) (by omega) (by omega) rfl rfl (by omega) (by omega)
    (fun _ => hb (by omega)) ?_
  refine .empty (s := 2) (n := 3) (by omega) (by omega) rfl rfl (by omega) (by omega)
    (fun _ => hb (by omega)) ?_
  refine .empty (s := 3) (n := 4) (by omega) (by omega) rfl rfl (by omega) (by omega)
    (fun h => by omega) ?_
  refine .none fun q hq => ?_
  cases hc : everywhere q with
  | none => rfl
  | some c =>
    have := fits_everywhere.inside _ _ hc
    omega

/-- **Violation**: `"abc".gsub(/x*/, "-")` answers `-a-b-c` and not `-a-b-c-`: the fourth match, at
the end, is not replaced (regexp.rs:302 stops at the end of the text). -/
theorem C79_gsub_every_match_fails : ∃ (t : Bytes) (m : Pattern) (re : Engine) (rep : Bytes)
    (l : List Caps), Fits t m ∧ Finds t m re ∧ Narrow t m ∧ Matches t m 0 l ∧
    fill t 0 (l.map (·, rep)) = ascii "-a-b-c-" ∧
    ∀ fuel, t.length + 1 < fuel → ∃ sp,
      replace_repeat (ε := Unit) fuel t re rep = .ok (ascii "-a-b-c", true, sp) := by
  refine ⟨_, _, _, ascii "-", _, fits_everywhere, finds_engine fits_everywhere, narrow_everywhere,
    matches_everywhere, by decide, ?_⟩
  intro fuel hf
  obtain ⟨k, rfl⟩ := Nat.exists_eq_add_of_lt hf
  exact ⟨some ⟨some [], some (ascii "c"), []⟩, by
    rw [show (ascii "abc").length + 1 + k + 1 = k + 5 by
      have : (ascii "abc").length = 3 := by decide
      omega]
    rfl⟩

/-- **Violation**: `"ab".gsub(/(a)/, '<\1>')` answers `<\1>b` and not `<a>b`: `gsub` does not expand
`\1`, which `sub` does. -/
theorem C79_gsub_expands_groups_fails : ∃ (t : Bytes) (m : Pattern) (re : Engine)
    (ps : List Piece), Fits t m ∧ Finds t m re ∧ Narrow t m ∧
    Matches t m 0 [⟨⟨0, 1⟩, [some ⟨0, 1⟩]⟩] ∧
    ps.flatMap Piece.write = ascii "<\\1>" ∧
    ps.flatMap (Piece.value t ⟨⟨0, 1⟩, [some ⟨0, 1⟩]⟩) = ascii "<a>" ∧
    ∀ fuel, t.length + 1 < fuel → ∃ sp,
      replace_repeat (ε := Unit) fuel t re (ps.flatMap Piece.write) =
        .ok (ascii "<\\1>b", true, sp) := by
  have hf : Fits (ascii "ab") (only [⟨⟨0, 1⟩, [some ⟨0, 1⟩]⟩]) := fits_only (by decide) (by decide)
  have hl : (ascii "ab").length = 2 := by decide
  refine ⟨_, _, _, [.text (ascii "<"), .group 1, .text (ascii ">")], hf, finds_engine hf,
    fun _ _ _ _ hp => boundary_ascii (by decide) hp, ?_, by decide, by decide, ?_⟩
  · refine .text (s := 0) (by omega) (by omega) rfl (by decide) (.none fun q hq => ?_)
    have : q ≠ 0 := by intro h; subst h; exact absurd hq (by decide)
    rw [only, List.find?_eq_none]
    intro c hc
    rw [List.mem_singleton.mp hc]
    simpa using fun h => this h.symm
  · intro fuel hfu
    obtain ⟨k, rfl⟩ := Nat.exists_eq_add_of_lt hfu
    exact ⟨some ⟨some (ascii "a"), some (ascii "b"), [some (ascii "a")]⟩, by
      rw [hl, show 2 + 1 + k + 1 = k + 4 by omega]
      rfl⟩

/-- `gsub(pattern) { … }` calls the block once for each match, from left to right, with the text of
the match and with `$&`, `$1`… those of the match, and puts the results in the place of the matches;
an exception of the block ends it.
What is missing: a pattern that matches the empty text at the end of the text, and empty matches
before characters of more than one byte. -/
theorem C79_gsub_block_partial {σ ε : Type} (t : Bytes) (m : Pattern) (re : Engine)
    (hf : Fits t m) (hr : Finds t m re) (hn : Narrow t m) (hend : m t.length = none)
    (f : Specials → Block σ ε) :
    ∃ l, Matches t m 0 l ∧ ∀ fuel, t.length + 1 < fuel → ∀ w,
      replace_all_block fuel t re f w =
        match each t f l w with
        | (.ok rs, w') => (.ok (fill t 0 (l.zip rs), decide (l ≠ [])), w')
        | (.error e, w') => (.raised e, w') := by
  obtain ⟨l, h1, h4⟩ := blockLoop_eq hf hr hn hend f (t.length + 1) 0 (by omega) (by omega)
    hf.begins
  refine ⟨l, h1, ?_⟩
  intro fuel hfu w
  rw [replace_all_block, h4 fuel hfu]
  rcases he : each t f l w with ⟨e | rs, w'⟩
  · rfl
  · have hlen : rs.length = l.length := each_length t f l w he
    simp only [List.nil_append]
    have hord : Ordered t 0 ((l.zip rs).map fun x => (x.1.whole, x.2)) := by
      apply Ordered.of_zip
      rw [List.map_fst_zip (by omega)]
      exact (h1.ordered hf) fun _ => []
    rw [replaceBackWith_eq t _ 0 (Nat.zero_le _) hord]
    simp only [List.take_zero, List.nil_append, Prod.mk.injEq, Res.ok.injEq, true_and, and_true]
    rw [List.length_map, List.length_zip, hlen, Nat.min_self]
    cases l <;> simp

/-- `"a1b22".gsub(/\d+/) { |s| … }` with a block that writes down what it is given. -/
example : ∃ (t : Bytes) (m : Pattern) (re : Engine), Fits t m ∧ Finds t m re ∧ Narrow t m ∧
    m t.length = none ∧
    replace_all_block (σ := List Bytes) (ε := Unit) 9 t re
      (fun _ w s => (.ok (ascii "<" ++ s ++ ascii ">"), w ++ [s])) [] =
      (.ok (ascii "a<1>b<22>", true), [ascii "1", ascii "22"]) := by
  have hf : Fits (ascii "a1b22") (only [⟨⟨1, 2⟩, []⟩, ⟨⟨3, 5⟩, []⟩, ⟨⟨4, 5⟩, []⟩]) :=
    fits_only (by decide) (by decide)
  exact ⟨_, _, _, hf, finds_engine hf, fun _ _ _ _ h => boundary_ascii (by decide) h, by decide,
    by decide⟩

/-- **Violation**: `"abc".gsub(/x*/) { "-" }` asks the matcher for a position after the end of the
text (regexp.rs:141-150 has no test for the end), whatever the block does. -/
theorem C79_gsub_block_end_fails : ∃ (t : Bytes) (m : Pattern) (re : Engine), Fits t m ∧
    Finds t m re ∧ Narrow t m ∧ (∃ l, Matches t m 0 l) ∧
    ∀ fuel, t.length + 1 < fuel →
      replace_all_block (σ := Unit) (ε := Unit) fuel t re (fun _ w _ => (.ok (ascii "-"), w)) () =
        (.beyond, ()) := by
  refine ⟨_, _, _, fits_everywhere, finds_engine fits_everywhere, narrow_everywhere,
    ⟨_, matches_everywhere⟩, ?_⟩
  intro fuel hf
  obtain ⟨k, rfl⟩ := Nat.exists_eq_add_of_lt hf
  rw [show (ascii "abc").length + 1 + k + 1 = k + 5 by
    have : (ascii "abc").length = 3 := by decide
    omega]
  rfl

/-- `scan(pattern)` answers the matches from left to right: their texts, or their groups if the
pattern has groups; `$&`… are those of the last one.
What is missing: patterns that match the empty text. -/
theorem C79_scan_lists_matches_partial {ε : Type} (t : Bytes) (m : Pattern) (re : Engine)
    (hf : Fits t m) (hr : Finds t m re) (hne : ∀ p c, m p = some c → p < c.whole.stop) :
    ∃ l, Matches t m 0 l ∧ ∀ fuel, t.length + 1 < fuel →
      find_all (ε := ε) fuel t re = .ok (l.map (shown t), l.getLast?.map (dollars t)) := by
  obtain ⟨l, h1, h4⟩ := findLoop_eq (ε := ε) hf hr hne (t.length + 1) 0 (by omega) (by omega)
    hf.begins
  refine ⟨l, h1, ?_⟩
  intro fuel hfu
  rw [find_all, h4 fuel hfu]
  simp only [List.nil_append, Option.or_none, Res.ok.injEq, Prod.mk.injEq, true_and]
  cases l.getLast? <;> simp [get_captures_eq]

/-- `"k=1,l=2".scan(/(\w)=(\d)/)`. -/
example : ∃ (t : Bytes) (m : Pattern) (re : Engine), Fits t m ∧ Finds t m re ∧
    (∀ p c, m p = some c → p < c.whole.stop) ∧
    find_all (ε := Unit) 9 t re = .ok
      ([.list [some (ascii "k"), some (ascii "1")], .list [some (ascii "l"), some (ascii "2")]],
        some ⟨some (ascii "l=2"), some [], [some (ascii "l"), some (ascii "2")]⟩) := by
  have hf : Fits (ascii "k=1,l=2") (only [⟨⟨0, 3⟩, [some ⟨0, 1⟩, some ⟨2, 3⟩]⟩,
    ⟨⟨4, 7⟩, [some ⟨4, 5⟩, some ⟨6, 7⟩]⟩]) := fits_only (by decide) (by decide)
  refine ⟨_, _, _, hf, finds_engine hf, ?_, by decide⟩
  intro p c h
  have h1 := List.find?_some h
  have h2 := List.mem_of_find?_eq_some h
  simp only [List.mem_cons, List.not_mem_nil, or_false] at h2
  rcases h2 with rfl | rfl <;> simp at h1 <;> subst h1 <;> decide

/-- **Violation**: `"abc".scan(/x*/)` never ends: after an empty match the next search starts at the
same place (regexp.rs:243). -/
theorem C79_scan_stops_fails : ∃ (t : Bytes) (m : Pattern) (re : Engine), Fits t m ∧ Finds t m re ∧
    (∃ l, Matches t m 0 l) ∧ ∀ fuel, find_all (ε := Unit) fuel t re = .spin := by
  refine ⟨_, _, _, fits_everywhere, finds_engine fits_everywhere, ⟨_, matches_everywhere⟩, ?_⟩
  intro fuel
  have key : ∀ fuel ary last, findLoop (ε := Unit) (ascii "abc") (engine (ascii "abc") everywhere)
      fuel 0 ary last = .spin := by
    intro fuel
    induction fuel with
    | zero => intros; rfl
    | succ n ih =>
      intro ary last
      rw [findLoop, show captures_from_pos (ascii "abc") (engine (ascii "abc") everywhere) 0
        = some (.found ⟨⟨0, 0⟩, []⟩) from rfl]
      exact ih _ _
  rw [find_all, key]

/-- `sub(pattern, replacement)` replaces the first match and nothing else; in the replacement `\0` is
the text of the match and `\1`… its groups. `$&`… are those of the match.
What is missing: other uses of the backslash in the replacement. -/
theorem C79_sub_replaces_first_match_partial {ε : Type} (t : Bytes) (m : Pattern) (re : Engine)
    (hf : Fits t m) (hr : Finds t m re) (ps : List Piece)
    (hp : ∀ b, .text b ∈ ps → (0x5c : UInt8) ∉ b) :
    (∀ s c, (∀ q, q < s → m q = none) → m s = some c →
      replace_once (ε := ε) t re (ps.flatMap Piece.write) =
        .ok (t.take c.whole.start ++ ps.flatMap (Piece.value t c) ++ t.drop c.whole.stop, some c,
          some (dollars t c))) ∧
    ((∀ q, m q = none) → replace_once (ε := ε) t re (ps.flatMap Piece.write) =
        .ok (t, none, none)) := by
  constructor
  · intro s c h1 h2
    have hcap : captures_from_pos t re 0 = some (.found c) := by
      rw [captures_from_pos, if_pos (Nat.zero_le _),
        hr.found 0 s c hf.begins (Nat.zero_le _) (fun q _ => h1 q) h2]
    have h3 := hf.inside _ _ h2
    have h4 := hf.starts _ _ h2
    rw [replace_once, hcap]
    simp only
    rw [replace_range, if_pos (by omega), expand_write t c ps hp]
    rfl
  · intro h
    rw [replace_once, captures_from_pos, if_pos (Nat.zero_le _),
      hr.none 0 hf.begins (Nat.zero_le _) (fun q _ => h q)]

/-- `"key: v".sub(/(\w+): (\w)/, '\2<\1>')`. -/
example : ∃ (t : Bytes) (m : Pattern) (re : Engine) (ps : List Piece), Fits t m ∧ Finds t m re ∧
    (∀ b, .text b ∈ ps → (0x5c : UInt8) ∉ b) ∧ ps.flatMap Piece.write = ascii "\\2<\\1>" ∧
    ∃ c sp, replace_once (ε := Unit) t re (ps.flatMap Piece.write) = .ok (ascii "v<key>", some c, sp) := by
  have hf : Fits (ascii "key: v") (only [⟨⟨0, 6⟩, [some ⟨0, 3⟩, some ⟨5, 6⟩]⟩]) :=
    fits_only (by decide) (by decide)
  refine ⟨_, _, _, [.group 2, .text (ascii "<"), .group 1, .text (ascii ">")], hf, finds_engine hf,
    ?_, by decide, _, _, rfl⟩
  intro b hb
  simp only [List.mem_cons, List.not_mem_nil, or_false, reduceCtorEq, false_or,
    Piece.text.injEq] at hb
  rcases hb with rfl | rfl <;> decide

/-- **Violation**: a backslash before anything but a digit disappears: `"a".sub("a", '\d')` answers
`d`, where Ruby keeps `\d`. -/
theorem C79_sub_keeps_backslash_fails : ∃ (t : Bytes) (m : Pattern) (re : Engine), Fits t m ∧
    Finds t m re ∧ ∃ c sp, replace_once (ε := Unit) t re (ascii "\\d") = .ok (ascii "d", some c, sp) := by
  have hf : Fits (ascii "a") (only [⟨⟨0, 1⟩, []⟩]) := fits_only (by decide) (by decide)
  exact ⟨_, _, _, hf, finds_engine hf, _, _, rfl⟩

/-- `sub(pattern) { … }` calls the block for the first match only and puts its result in the place of
the match. -/
theorem C79_sub_block {σ ε : Type} (t : Bytes) (m : Pattern) (re : Engine)
    (hf : Fits t m) (hr : Finds t m re) (f : Specials → Block σ ε) (w : σ) :
    (∀ s c, (∀ q, q < s → m q = none) → m s = some c →
      replace_one_block t re f w =
        match f (dollars t c) w (matched t c) with
        | (.ok r, w') => (.ok (t.take c.whole.start ++ r ++ t.drop c.whole.stop, true), w')
        | (.error e, w') => (.raised e, w')) ∧
    ((∀ q, m q = none) → replace_one_block t re f w = (.ok (t, false), w)) := by
  constructor
  · intro s c h1 h2
    have hcap : captures_from_pos t re 0 = some (.found c) := by
      rw [captures_from_pos, if_pos (Nat.zero_le _),
        hr.found 0 s c hf.begins (Nat.zero_le _) (fun q _ => h1 q) h2]
    have h3 := hf.inside _ _ h2
    have h4 := hf.starts _ _ h2
    rw [replace_one_block, hcap]
    simp only [get_captures_eq, show slice t c.whole.start c.whole.stop = matched t c from rfl]
    rcases f (dollars t c) w (matched t c) with ⟨e | r, w'⟩
    · rfl
    · simp only
      rw [replace_range, if_pos (by omega)]
  · intro h
    rw [replace_one_block, captures_from_pos, if_pos (Nat.zero_le _),
      hr.none 0 hf.begins (Nat.zero_le _) (fun q _ => h q)]

example : ∃ (t : Bytes) (m : Pattern) (re : Engine), Fits t m ∧ Finds t m re ∧
    replace_one_block (σ := List Bytes) (ε := Unit) t re
      (fun sp w s => (.ok (s ++ s), w ++ [s, sp.post.getD []])) [] =
      (.ok (ascii "a11b22", true), [ascii "1", ascii "b22"]) := by
  have hf : Fits (ascii "a1b22") (only [⟨⟨1, 2⟩, []⟩, ⟨⟨3, 5⟩, []⟩]) :=
    fits_only (by decide) (by decide)
  exact ⟨_, _, _, hf, finds_engine hf, by decide⟩

/-- `text =~ pattern` answers nil if there is no match, and the position of the first match where
the characters before it have one byte each.
What is missing: other texts; the position is in bytes. -/
theorem C79_match_position_partial {ε : Type} (t : Bytes) (m : Pattern) (re : Engine)
    (hf : Fits t m) (hr : Finds t m re) :
    (∀ s c, (∀ q, q < s → m q = none) → m s = some c → (∀ b ∈ t.take s, b < 0x80) →
      rmatch (ε := ε) t re = .ok (some (charsBefore t s), some (dollars t c))) ∧
    ((∀ q, m q = none) → rmatch (ε := ε) t re = .ok (none, none)) := by
  constructor
  · intro s c h1 h2 ha
    have hcap : captures_from_pos t re 0 = some (.found c) := by
      rw [captures_from_pos, if_pos (Nat.zero_le _),
        hr.found 0 s c hf.begins (Nat.zero_le _) (fun q _ => h1 q) h2]
    have h3 := hf.inside _ _ h2
    have h4 := hf.starts _ _ h2
    rw [rmatch, hcap]
    simp only [get_captures_eq, h4]
    have : charsBefore t s = s := by
      rw [charsBefore, List.filter_eq_self.mpr, List.length_take]
      · omega
      · intro b hb
        have := ha b hb
        simp only [not_and, decide_eq_true_eq]
        intro h
        exact absurd this (UInt8.not_lt.mpr h)
    rw [this]
  · intro h
    rw [rmatch, captures_from_pos, if_pos (Nat.zero_le _),
      hr.none 0 hf.begins (Nat.zero_le _) (fun q _ => h q)]

example : ∃ (t : Bytes) (m : Pattern) (re : Engine), Fits t m ∧ Finds t m re ∧
    ∃ sp, rmatch (ε := Unit) t re = .ok (some 3, sp) := by
  have hf : Fits (ascii "foobar") (only [⟨⟨3, 6⟩, []⟩]) := fits_only (by decide) (by decide)
  exact ⟨_, _, _, hf, finds_engine hf, _, rfl⟩

/-- **Violation**: `"あa" =~ /a/` answers 3 and not 1: the position is counted in bytes. -/
theorem C79_match_position_fails : ∃ (t : Bytes) (m : Pattern) (re : Engine) (c : Caps), Fits t m ∧
    Finds t m re ∧ (∀ q, q < 3 → m q = none) ∧ m 3 = some c ∧ charsBefore t 3 = 1 ∧
    ∃ sp, rmatch (ε := Unit) t re = .ok (some 3, sp) := by
  have hf : Fits [0xe3, 0x81, 0x82, 0x61] (only [⟨⟨3, 4⟩, []⟩]) := by
    have hm : ∀ p c, only [⟨⟨3, 4⟩, []⟩] p = some c → p = 3 ∧ c = ⟨⟨3, 4⟩, []⟩ := by
      intro p c h
      have h1 := List.find?_some h
      have h2 := List.mem_of_find?_eq_some h
      rw [List.mem_singleton.mp h2] at h1 ⊢
      simp at h1
      exact ⟨h1.symm, rfl⟩
    refine ⟨.inr ⟨0xe3, rfl, by decide⟩, ?_, ?_, ?_⟩
    · intro p c h
      obtain ⟨rfl, rfl⟩ := hm p c h
      rfl
    · intro p c h
      obtain ⟨rfl, rfl⟩ := hm p c h
      decide
    · intro p c h
      obtain ⟨rfl, rfl⟩ := hm p c h
      exact ⟨.inr ⟨0x61, rfl, by decide⟩, .inl rfl⟩
  exact ⟨_, _, _, _, hf, finds_engine hf, by decide, rfl, by decide, _, rfl⟩

/-- `text.match(pattern, n)` answers the texts of the match and of its groups, for the first match at
or after the n-th character, and nil if there is none.
What is missing: a group that takes no part in the match; `n` past the last character with a pattern
that matches the empty text. -/
theorem C79_match_groups_partial {ε : Type} (t : Bytes) (m : Pattern) (re : Engine)
    (hr : Finds t m re) (n p : Nat) (hp : Boundary t p) (hpl : p < t.length)
    (hn : charsBefore t p = n) :
    (∀ s c, p ≤ s → (∀ q, p ≤ q → q < s → m q = none) → m s = some c →
      (∀ g ∈ c.groups, g ≠ none) →
      match_one (ε := ε) t re n =
        .ok (some (matched t c :: (dollars t c).groups.map fun g => g.getD []))) ∧
    ((∀ q, p ≤ q → m q = none) → match_one (ε := ε) t re n = .ok none) := by
  have hpos : charPos 0 t n = some p := by
    have := charPos_eq t p 0 n hpl ?_ hn
    · simpa using this
    · rcases hp with h | ⟨b, h1, h2⟩
      · omega
      · exact ⟨b, h1, by simpa [isCont] using h2⟩
  constructor
  · intro s c h1 h2 h3 h4
    have hcap : captures_from_pos t re p = some (.found c) := by
      rw [captures_from_pos, if_pos (by omega), hr.found p s c hp h1 h2 h3]
    have hall : ∀ gs : List (Option Span), (∀ g ∈ gs, g ≠ none) → allGroups t gs = some
        ((gs.map fun g => g.map fun s => (t.take s.stop).drop s.start).map fun g => g.getD []) := by
      intro gs hg
      induction gs with
      | nil => rfl
      | cons g gs ih =>
        cases g with
        | none => exact absurd rfl (hg none (by simp))
        | some s => rw [allGroups, ih fun g h => hg g (by simp [h])]; rfl
    rw [match_one, hpos]
    simp only [hcap]
    rw [allGroups, hall _ h4]
    rfl
  · intro h
    rw [match_one, hpos]
    simp only
    rw [captures_from_pos, if_pos (by omega), hr.none p hp (by omega) h]

example : ∃ (t : Bytes) (m : Pattern) (re : Engine), Fits t m ∧ Finds t m re ∧
    Boundary t 1 ∧ charsBefore t 1 = 1 ∧
    match_one (ε := Unit) t re 1 = .ok (some [ascii "k=1", ascii "k", ascii "1"]) := by
  have hf : Fits (ascii "  k=1") (only [⟨⟨2, 5⟩, [some ⟨2, 3⟩, some ⟨4, 5⟩]⟩]) :=
    fits_only (by decide) (by decide)
  exact ⟨_, _, _, hf, finds_engine hf, boundary_ascii (by decide) (by decide), by decide, by decide⟩

/-- **Violation**: `"a".match(/a(b)?/)` is a Rust panic: every group is unwrapped (regexp.rs:194). -/
theorem C79_match_optional_group_fails : ∃ (t : Bytes) (m : Pattern) (re : Engine), Fits t m ∧
    Finds t m re ∧ (∃ c, m 0 = some c) ∧ match_one (ε := Unit) t re 0 = .panic := by
  have hf : Fits (ascii "a") (only [⟨⟨0, 1⟩, [none]⟩]) := fits_only (by decide) (by decide)
  exact ⟨_, _, _, hf, finds_engine hf, ⟨_, rfl⟩, by decide⟩

/-- After a match, `$1`, `$2`… are the texts of its groups, nil for a group that took no part and for a number that the
pattern does not have. -/
theorem C79_dollar_n (t : Bytes) (c : Caps) (n : Nat) :
    (∀ s, c.groups[n]? = some (some s) →
      get_special_matches (get_captures c t) (n + 1) = some ((t.take s.stop).drop s.start)) ∧
    ((∀ s, c.groups[n]? ≠ some (some s)) → get_special_matches (get_captures c t) (n + 1) = none) := by
  have h : (get_captures c t).groups[n]? = (c.groups[n]?).map fun g => g.map fun s => slice t s.start s.stop := by
    rw [get_captures, List.getElem?_map]
  constructor
  · intro s hs
    rw [get_special_matches, Nat.add_sub_cancel, h, hs]
    rfl
  · intro hs
    rw [get_special_matches, Nat.add_sub_cancel, h]
    rcases hg : c.groups[n]? with _ | _ | s
    · rfl
    · rfl
    · exact absurd hg (hs s)

example : get_special_matches (get_captures ⟨⟨1, 5⟩, [some ⟨1, 2⟩, none, some ⟨4, 5⟩]⟩ (ascii "_k=1x")) 3 = some (ascii "x") ∧
    get_special_matches (get_captures ⟨⟨1, 5⟩, [some ⟨1, 2⟩, none, some ⟨4, 5⟩]⟩ (ascii "_k=1x")) 2 = none := by decide

/-- Searching from `p` on, match after match, comes to position `q`. -/
inductive Comes (t : Bytes) (re : Engine) : Nat → Nat → Prop
  | here (p) : Comes t re p p
  | text {p q c} : p < t.length → re p = .found c → c.whole.start < c.whole.stop → Comes t re c.whole.stop q → Comes t re p q
  | empty {p q c} : p < t.length → re p = .found c → c.whole.start = c.whole.stop → Comes t re (c.whole.stop + 1) q → Comes t re p q

/-- If the matcher gives up (an error, as for too much backtracking) at any of the places where it is asked, then `gsub`
raises; it does not answer a text in which some of the matches are replaced. -/
theorem C79_gsub_reports_errors {ε : Type} (t : Bytes) (re : Engine) (rep : Bytes) (q : Nat) (h : Comes t re 0 q)
    (hq : q < t.length) (he : re q = .error) : ∃ k, ∀ fuel, k ≤ fuel → replace_repeat (ε := ε) fuel t re rep = .internal := by
  have key : ∀ p, Comes t re p q → ∃ k, ∀ fuel, k ≤ fuel → ∀ range last,
      repeatLoop (ε := ε) t re fuel p range last = .internal := by
    intro p hp
    induction hp with
    | here p =>
      refine ⟨1, fun fuel hf range last => ?_⟩
      obtain ⟨fuel, rfl⟩ : ∃ k, fuel = k + 1 := ⟨fuel - 1, by omega⟩
      rw [repeatLoop, if_neg (by omega), captures_from_pos, if_pos (by omega), he]
    | text h1 h2 h3 _ ih =>
      obtain ⟨k, ih⟩ := ih h hq he
      refine ⟨k + 1, fun fuel hf range last => ?_⟩
      obtain ⟨fuel, rfl⟩ : ∃ k, fuel = k + 1 := ⟨fuel - 1, by omega⟩
      rw [repeatLoop, if_neg (by omega), captures_from_pos, if_pos (by omega), h2]
      dsimp only
      rw [if_neg (by omega)]
      exact ih fuel (by omega) _ _
    | empty h1 h2 h3 _ ih =>
      obtain ⟨k, ih⟩ := ih h hq he
      refine ⟨k + 1, fun fuel hf range last => ?_⟩
      obtain ⟨fuel, rfl⟩ : ∃ k, fuel = k + 1 := ⟨fuel - 1, by omega⟩
      rw [repeatLoop, if_neg (by omega), captures_from_pos, if_pos (by omega), h2]
      dsimp only
      rw [if_pos (by omega)]
      exact ih fuel (by omega) _ _
  obtain ⟨k, hk⟩ := key 0 h
  exact ⟨k, fun fuel hf => by rw [replace_repeat, hk fuel hf]⟩

example : Comes (ascii "a-b") (fun p => if p = 0 then .found ⟨⟨0, 1⟩, []⟩ else .error) 0 1 :=
  .text (by decide) rfl (by decide) (.here 1)

end Verif.Regexp
