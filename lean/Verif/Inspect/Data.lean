import Verif.Lexer.Inspect
import Verif.Str.Numbers
/-! # C95: what `inspect` shows of data

Arrays, hashes, ranges, integers, strings, symbols, `nil`, `true` and `false`, nested to any depth.  The data are trees: an array
that contains itself is in the last section only.  Floats, complex numbers, regular expressions and objects are left out, and so are
programs that redefine `inspect` of arrays. -/
namespace Verif.Inspect
open Verif.Lexer (Chars)

/-! ## Model -/

mutual
/-- Data that are not ranges. -/
inductive Atom
  | nil
  | bool (b : Bool)
  | int (i : Int)
  | str (s : Chars)
  | sym (s : Chars)
  | arr (ds : Datas)
  | hash (ps : Pairs)
/-- Data; the ends of a range are not ranges. -/
inductive Data
  | atom (a : Atom)
  | range (start stop : Atom) (exclude : Bool)
inductive Datas
  | nil
  | cons (d : Data) (ds : Datas)
/-- The entries of a hash, in the order of insertion. -/
inductive Pairs
  | nil
  | cons (k v : Data) (ps : Pairs)
end

mutual
/-- `val_inspect` (vm/executor.rs:757-790), and `Array#inspect` (builtin/array.rs:137-158) to which it leads for an array. -/
def Atom.inspect : Atom → Chars
  | .nil => ['n', 'i', 'l']
  | .bool true => ['t', 'r', 'u', 'e']
  | .bool false => ['f', 'a', 'l', 's', 'e']
  | .int i => Str.int_to_s i
  | .str s => Lexer.inspect s
  | .sym s => ':' :: s
  | .arr .nil => ['[', ']']
  | .arr (.cons d ds) => '[' :: (ds.inspect d.inspect ++ [']'])
  | .hash .nil => ['{', '}']
  | .hash (.cons k v ps) => '{' :: (ps.inspect (k.inspect ++ ['=', '>'] ++ v.inspect) ++ ['}'])
/-- `val_inspect`, `RangeInfo::inspect` (builtin/range.rs:30-35). -/
def Data.inspect : Data → Chars
  | .atom a => a.inspect
  | .range a b e => a.inspect ++ (if e then ['.', '.', '.'] else ['.', '.']) ++ b.inspect
/-- The loop of `Array#inspect` (builtin/array.rs:150-152). -/
def Datas.inspect (result : Chars) : Datas → Chars
  | .nil => result
  | .cons d ds => ds.inspect (result ++ [',', ' '] ++ d.inspect)
/-- The loop of `HashInfo::to_s` (value/hash.rs:286-306). -/
def Pairs.inspect (result : Chars) : Pairs → Chars
  | .nil => result
  | .cons k v ps => ps.inspect (result ++ [',', ' '] ++ k.inspect ++ ['=', '>'] ++ v.inspect)
end

/-! ## Specification -/

/-- Symbols written with characters that do not end a literal. -/
def Word (s : Chars) : Prop := ∀ c ∈ s, c ∉ [',', ']', '}', '=', '.']

mutual
/-- All symbols in the data are words. -/
def Atom.Plain : Atom → Prop
  | .sym s => Word s
  | .arr ds => ds.Plain
  | .hash ps => ps.Plain
  | _ => True
def Data.Plain : Data → Prop
  | .atom a => a.Plain
  | .range a b _ => a.Plain ∧ b.Plain
def Datas.Plain : Datas → Prop
  | .nil => True
  | .cons d ds => d.Plain ∧ ds.Plain
def Pairs.Plain : Pairs → Prop
  | .nil => True
  | .cons k v ps => k.Plain ∧ v.Plain ∧ ps.Plain
end

/-! ## Helpers: strings -/

/-- Reads back one character. -/
def decode1 : Chars → Option (Char × Chars)
  | '\\' :: 'x' :: a :: b :: r => some (Char.ofNat ((a.toNat - 48) * 10 + (b.toNat - 48)), r)
  | '\\' :: 'a' :: r => some ('\x07', r)
  | '\\' :: 'b' :: r => some ('\x08', r)
  | '\\' :: 't' :: r => some ('\x09', r)
  | '\\' :: 'n' :: r => some ('\x0a', r)
  | '\\' :: 'v' :: r => some ('\x0b', r)
  | '\\' :: 'f' :: r => some ('\x0c', r)
  | '\\' :: 'r' :: r => some ('\x0d', r)
  | '\\' :: 'e' :: r => some ('\x1b', r)
  | '\\' :: c :: r => some (c, r)
  | '"' :: _ => none
  | c :: r => some (c, r)
  | [] => none

theorem small_cases {c : Char} (h : '\x00' ≤ c ∧ c ≤ '\x06') : c = '\x00' ∨ c = '\x01' ∨ c = '\x02' ∨ c = '\x03' ∨ c = '\x04' ∨ c = '\x05' ∨ c = '\x06' := by
  have h1 : c.toNat ≤ 6 := by
    have := h.2
    rw [Char.le_def, UInt32.le_iff_toNat_le] at this
    exact this
  have : c = Char.ofNat c.toNat := (Char.ofNat_toNat c).symm
  rw [this]
  generalize c.toNat = n at h1
  have : n = 0 ∨ n = 1 ∨ n = 2 ∨ n = 3 ∨ n = 4 ∨ n = 5 ∨ n = 6 := by omega
  rcases this with rfl | rfl | rfl | rfl | rfl | rfl | rfl <;> decide

theorem decode1_write (c : Char) (r : Chars) : decode1 (Lexer.write_char c ++ r) = some (c, r) := by
  rw [Lexer.write_char]
  split
  · rename_i h; rcases h with rfl | rfl | rfl <;> rfl
  split
  · rename_i h; rcases small_cases h with rfl | rfl | rfl | rfl | rfl | rfl | rfl <;> rfl
  split; · rename_i h; subst h; rfl
  split; · rename_i h; subst h; rfl
  split; · rename_i h; subst h; rfl
  split; · rename_i h; subst h; rfl
  split; · rename_i h; subst h; rfl
  split; · rename_i h; subst h; rfl
  split; · rename_i h; subst h; rfl
  split; · rename_i h; subst h; rfl
  rename_i h _ _ _ _ _ _ _ _ _
  have h1 : c ≠ '\\' := fun e => h (.inr (.inr e))
  have h2 : c ≠ '"' := fun e => h (.inr (.inl e))
  rw [List.singleton_append]
  unfold decode1
  split <;> simp_all

theorem write_apart : ∀ {s s' : Chars} {r r' : Chars}, Lexer.write s ++ '"' :: r = Lexer.write s' ++ '"' :: r' → s = s' ∧ r = r'
  | [], [], _, _, h => by simpa [Lexer.write] using h
  | [], c :: s', r, r', h => by
    have := congrArg decode1 h
    rw [Lexer.write, Lexer.write, List.append_assoc, decode1_write] at this
    cases this
  | c :: s, [], r, r', h => by
    have := congrArg decode1 h
    rw [Lexer.write, Lexer.write, List.append_assoc, decode1_write] at this
    cases this
  | c :: s, c' :: s', r, r', h => by
    have := congrArg decode1 h
    rw [Lexer.write, Lexer.write, List.append_assoc, List.append_assoc, decode1_write, decode1_write] at this
    simp only [Option.some.injEq, Prod.mk.injEq] at this
    obtain ⟨e0, h'⟩ := this
    obtain ⟨e1, e2⟩ := write_apart h'
    exact ⟨by rw [e0, e1], e2⟩

/-! ## Helpers: integers and symbols -/

/-- What can come after data. -/
def Stop (cs : List Char) (r : Chars) : Prop := ∀ c t, r = c :: t → c ∈ cs

/-- … after a datum, and after an end of a range. -/
abbrev stops : List Char := [',', ']', '}', '=']
abbrev stops' : List Char := [',', ']', '}', '=', '.']

theorem span_apart {p : Char → Bool} : ∀ {s s' r r' : Chars}, (∀ c ∈ s, p c = true) → (∀ c ∈ s', p c = true) →
    (∀ c t, r = c :: t → p c = false) → (∀ c t, r' = c :: t → p c = false) → s ++ r = s' ++ r' → s = s' ∧ r = r'
  | [], [], _, _, _, _, _, _, h => ⟨rfl, h⟩
  | [], c :: s', _, _, _, h2, h3, _, h => by
    have := h3 c (s' ++ _) h
    rw [h2 c (by simp)] at this; cases this
  | c :: s, [], _, _, h1, _, _, h4, h => by
    have := h4 c (s ++ _) h.symm
    rw [h1 c (by simp)] at this; cases this
  | c :: s, c' :: s', _, _, h1, h2, h3, h4, h => by
    simp only [List.cons_append, List.cons.injEq] at h
    obtain ⟨rfl, h⟩ := h
    obtain ⟨rfl, rfl⟩ := span_apart (fun d hd => h1 d (by simp [hd])) (fun d hd => h2 d (by simp [hd])) h3 h4 h
    exact ⟨rfl, rfl⟩

theorem mem_int {i : Int} {c : Char} (h : c ∈ Str.int_to_s i) : c = '-' ∨ c.isDigit = true := by
  rw [Str.int_to_s, List.mem_append] at h
  rcases h with h | h
  · rw [Str.sign] at h
    split at h
    · exact .inl (by simpa using h)
    · cases h
  · obtain ⟨_, _, _, _, h4⟩ := Str.digits_spell (upper := false) (base := 10) (by omega) (by omega) i.natAbs
    obtain ⟨d, hd, rfl⟩ := h4 c h
    have : ∀ d : Fin 10, (Str.digitOf false d.1).isDigit = true := by decide
    exact .inr (this ⟨d, hd⟩)

theorem int_ne (i : Int) : Str.int_to_s i ≠ [] := by
  rw [Str.int_to_s]
  intro h
  exact Str.digits_ne (List.append_eq_nil_iff.1 h).2

theorem int_apart {i j : Int} {r r' : Chars} (hr : Stop stops' r) (hr' : Stop stops' r')
    (h : Str.int_to_s i ++ r = Str.int_to_s j ++ r') : i = j ∧ r = r' := by
  have hp : ∀ (i : Int) c, c ∈ Str.int_to_s i → (c == '-' || c.isDigit) = true := by
    intro i c hc
    rcases mem_int hc with rfl | hd
    · rfl
    · simp [hd]
  have hq : ∀ r, Stop stops' r → ∀ c t, r = c :: t → (c == '-' || c.isDigit) = false := by
    intro r hr c t e
    have := hr c t e
    simp only [List.mem_cons, List.not_mem_nil, or_false] at this
    rcases this with rfl | rfl | rfl | rfl | rfl <;> rfl
  obtain ⟨h1, h2⟩ := span_apart (p := fun c => c == '-' || c.isDigit) (hp i) (hp j) (hq r hr) (hq r' hr') h
  exact ⟨Str.C87_to_s_injective h1, h2⟩

theorem word_apart {s s' : Chars} {r r' : Chars} (hs : Word s) (hs' : Word s') (hr : Stop stops' r) (hr' : Stop stops' r')
    (h : s ++ r = s' ++ r') : s = s' ∧ r = r' :=
  span_apart (p := fun c => decide (c ∉ stops')) (fun c hc => decide_eq_true (hs c hc)) (fun c hc => decide_eq_true (hs' c hc))
    (fun c t e => decide_eq_false (fun hn => hn (hr c t e))) (fun c t e => decide_eq_false (fun hn => hn (hr' c t e))) h

/-! ## Helpers: nested data -/

/-- The text of the elements after the first. -/
def Datas.tail : Datas → Chars
  | .nil => []
  | .cons d ds => ',' :: ' ' :: (d.inspect ++ ds.tail)

def Pairs.tail : Pairs → Chars
  | .nil => []
  | .cons k v ps => ',' :: ' ' :: (k.inspect ++ '=' :: '>' :: (v.inspect ++ ps.tail))

theorem datas_inspect : ∀ (ds : Datas) (r : Chars), ds.inspect r = r ++ ds.tail
  | .nil, r => by simp [Datas.inspect, Datas.tail]
  | .cons d ds, r => by rw [Datas.inspect, datas_inspect ds, Datas.tail]; simp

theorem pairs_inspect : ∀ (ps : Pairs) (r : Chars), ps.inspect r = r ++ ps.tail
  | .nil, r => by simp [Pairs.inspect, Pairs.tail]
  | .cons k v ps, r => by rw [Pairs.inspect, pairs_inspect ps, Pairs.tail]; simp

/-- The kinds of data have different first characters. -/
def kind (c : Char) : Nat :=
  if c = 'n' then 0 else if c = 't' then 1 else if c = 'f' then 2 else if c = '"' then 4 else if c = ':' then 5 else
  if c = '[' then 6 else if c = '{' then 7 else if c = '-' || c.isDigit then 3 else 8

def Atom.kind : Atom → Nat
  | .nil => 0
  | .bool true => 1
  | .bool false => 2
  | .int _ => 3
  | .str _ => 4
  | .sym _ => 5
  | .arr _ => 6
  | .hash _ => 7

theorem kind_digit {c : Char} (h : c = '-' ∨ c.isDigit = true) : kind c = 3 := by
  rcases h with rfl | h
  · rfl
  · unfold kind
    have : c ≠ 'n' ∧ c ≠ 't' ∧ c ≠ 'f' ∧ c ≠ '"' ∧ c ≠ ':' ∧ c ≠ '[' ∧ c ≠ '{' := by
      refine ⟨?_, ?_, ?_, ?_, ?_, ?_, ?_⟩ <;> (rintro rfl; revert h; decide)
    obtain ⟨a, b, c1, d, e, f, g⟩ := this
    simp [*]

theorem atom_head (a : Atom) : ∃ c t, a.inspect = c :: t ∧ kind c = a.kind := by
  cases a with
  | nil => exact ⟨_, _, by rw [Atom.inspect], rfl⟩
  | bool b => cases b <;> exact ⟨_, _, by rw [Atom.inspect], rfl⟩
  | int i =>
    rw [Atom.inspect]
    cases h : Str.int_to_s i with
    | nil => exact absurd h (int_ne i)
    | cons c t => exact ⟨c, t, rfl, kind_digit (mem_int (i := i) (by rw [h]; simp))⟩
  | str s => exact ⟨_, _, by rw [Atom.inspect, Lexer.inspect], rfl⟩
  | sym s => exact ⟨_, _, by rw [Atom.inspect], rfl⟩
  | arr ds => cases ds <;> exact ⟨_, _, by rw [Atom.inspect], rfl⟩
  | hash ps => cases ps <;> exact ⟨_, _, by rw [Atom.inspect], rfl⟩

theorem same_kind {a a' : Atom} {r r' : Chars} (h : a.inspect ++ r = a'.inspect ++ r') : a.kind = a'.kind := by
  obtain ⟨c, t, h1, h2⟩ := atom_head a
  obtain ⟨c', t', h1', h2'⟩ := atom_head a'
  rw [h1, h1'] at h
  simp only [List.cons_append, List.cons.injEq] at h
  rw [← h2, ← h2', h.1]

theorem data_head (d : Data) : ∃ c t, d.inspect = c :: t ∧ kind c < 8 := by
  have : ∀ a : Atom, a.kind < 8 := by intro a; cases a <;> simp [Atom.kind]; rename_i b; cases b <;> simp
  cases d with
  | atom a => obtain ⟨c, t, h1, h2⟩ := atom_head a; exact ⟨c, t, by rw [Data.inspect, h1], h2 ▸ this a⟩
  | range a b e =>
    obtain ⟨c, t, h1, h2⟩ := atom_head a
    exact ⟨c, _, by rw [Data.inspect, h1, List.cons_append, List.cons_append], h2 ▸ this a⟩

theorem stop_dot {r : Chars} (h : Stop stops r) : Stop stops' r := fun c t e => by
  have := h c t e
  simp only [List.mem_cons, List.not_mem_nil, or_false] at this ⊢
  rcases this with rfl | rfl | rfl | rfl <;> simp

theorem stop_cons {cs : List Char} {c : Char} {t : Chars} (h : c ∈ cs) : Stop cs (c :: t) := fun d u e => by cases e; exact h

theorem stop_tail_datas (ds : Datas) (r : Chars) : Stop stops (ds.tail ++ ']' :: r) := by
  cases ds with
  | nil => exact stop_cons (by decide)
  | cons d ds => exact stop_cons (by decide)

theorem stop_tail_pairs (ps : Pairs) (r : Chars) : Stop stops (ps.tail ++ '}' :: r) := by
  cases ps with
  | nil => exact stop_cons (by decide)
  | cons k v ps => exact stop_cons (by decide)

mutual
theorem atom_apart : ∀ {a a' : Atom} {r r' : Chars}, a.Plain → a'.Plain → Stop stops' r → Stop stops' r' →
    a.inspect ++ r = a'.inspect ++ r' → a = a' ∧ r = r'
  | .nil, a', r, r', _, _, _, _, h => by
    have k := same_kind h
    cases a' with
    | nil => rw [Atom.inspect] at h; exact ⟨rfl, by simpa using h⟩
    | bool b => cases b <;> cases k
    | _ => cases k
  | .bool true, a', r, r', _, _, _, _, h => by
    have k := same_kind h
    cases a' with
    | bool b =>
      cases b with
      | true => rw [Atom.inspect] at h; exact ⟨rfl, by simpa using h⟩
      | false => cases k
    | _ => cases k
  | .bool false, a', r, r', _, _, _, _, h => by
    have k := same_kind h
    cases a' with
    | bool b =>
      cases b with
      | false => rw [Atom.inspect] at h; exact ⟨rfl, by simpa using h⟩
      | true => cases k
    | _ => cases k
  | .int i, a', r, r', _, _, hr, hr', h => by
    have k := same_kind h
    cases a' with
    | int j =>
      rw [Atom.inspect, Atom.inspect] at h
      obtain ⟨rfl, rfl⟩ := int_apart hr hr' h
      exact ⟨rfl, rfl⟩
    | bool b => cases b <;> cases k
    | _ => cases k
  | .str s, a', r, r', _, _, _, _, h => by
    have k := same_kind h
    cases a' with
    | str s' =>
      rw [Atom.inspect, Atom.inspect, Lexer.inspect, Lexer.inspect] at h
      simp only [List.cons_append, List.append_assoc, List.cons.injEq, true_and, List.nil_append] at h
      obtain ⟨rfl, rfl⟩ := write_apart h
      exact ⟨rfl, rfl⟩
    | bool b => cases b <;> cases k
    | _ => cases k
  | .sym s, a', r, r', hp, hp', hr, hr', h => by
    have k := same_kind h
    cases a' with
    | sym s' =>
      rw [Atom.inspect, Atom.inspect] at h
      simp only [List.cons_append, List.cons.injEq, true_and] at h
      rw [Atom.Plain] at hp hp'
      obtain ⟨rfl, rfl⟩ := word_apart hp hp' hr hr' h
      exact ⟨rfl, rfl⟩
    | bool b => cases b <;> cases k
    | _ => cases k
  | .arr .nil, a', r, r', _, _, _, _, h => by
    have k := same_kind h
    cases a' with
    | arr ds' =>
      cases ds' with
      | nil => rw [Atom.inspect] at h; exact ⟨rfl, by simpa using h⟩
      | cons d' ds' =>
        rw [Atom.inspect, Atom.inspect, datas_inspect] at h
        obtain ⟨c, t, h1, h2⟩ := data_head d'
        rw [h1] at h
        simp only [List.cons_append, List.cons.injEq, true_and] at h
        rw [← h.1] at h2; cases h2 with | _ => contradiction
    | bool b => cases b <;> cases k
    | _ => cases k
  | .arr (.cons d ds), a', r, r', hp, hp', _, _, h => by
    have k := same_kind h
    cases a' with
    | arr ds' =>
      cases ds' with
      | nil =>
        rw [Atom.inspect, Atom.inspect, datas_inspect] at h
        obtain ⟨c, t, h1, h2⟩ := data_head d
        rw [h1] at h
        simp only [List.cons_append, List.cons.injEq, true_and] at h
        rw [h.1] at h2; cases h2 with | _ => contradiction
      | cons d' ds' =>
        rw [Atom.inspect, Atom.inspect, datas_inspect, datas_inspect] at h
        simp only [List.cons_append, List.append_assoc, List.cons.injEq, true_and, List.nil_append] at h
        simp only [Atom.Plain, Datas.Plain] at hp hp'
        obtain ⟨e1, h⟩ := data_apart hp.1 hp'.1 (stop_tail_datas ds r) (stop_tail_datas ds' r') h
        obtain ⟨e2, e3⟩ := datas_apart hp.2 hp'.2 h
        exact ⟨by rw [e1, e2], e3⟩
    | bool b => cases b <;> cases k
    | _ => cases k
  | .hash .nil, a', r, r', _, _, _, _, h => by
    have k := same_kind h
    cases a' with
    | hash ps' =>
      cases ps' with
      | nil => rw [Atom.inspect] at h; exact ⟨rfl, by simpa using h⟩
      | cons k' v' ps' =>
        rw [Atom.inspect, Atom.inspect, pairs_inspect] at h
        obtain ⟨c, t, h1, h2⟩ := data_head k'
        rw [h1] at h
        simp only [List.cons_append, List.cons.injEq, true_and] at h
        rw [← h.1] at h2; cases h2 with | _ => contradiction
    | bool b => cases b <;> cases k
    | _ => cases k
  | .hash (.cons k v ps), a', r, r', hp, hp', _, _, h => by
    have kk := same_kind h
    cases a' with
    | hash ps' =>
      cases ps' with
      | nil =>
        rw [Atom.inspect, Atom.inspect, pairs_inspect] at h
        obtain ⟨c, t, h1, h2⟩ := data_head k
        rw [h1] at h
        simp only [List.cons_append, List.cons.injEq, true_and] at h
        rw [h.1] at h2; cases h2 with | _ => contradiction
      | cons k' v' ps' =>
        rw [Atom.inspect, Atom.inspect, pairs_inspect, pairs_inspect] at h
        simp only [List.cons_append, List.append_assoc, List.cons.injEq, true_and, List.nil_append] at h
        simp only [Atom.Plain, Pairs.Plain] at hp hp'
        obtain ⟨e1, h⟩ := data_apart hp.1 hp'.1 (stop_cons (by decide)) (stop_cons (by decide)) h
        simp only [List.cons.injEq, true_and] at h
        obtain ⟨e2, h⟩ := data_apart hp.2.1 hp'.2.1 (stop_tail_pairs ps r) (stop_tail_pairs ps' r') h
        obtain ⟨e3, e4⟩ := pairs_apart hp.2.2 hp'.2.2 h
        exact ⟨by rw [e1, e2, e3], e4⟩
    | bool b => cases b <;> cases kk
    | _ => cases kk

theorem data_apart : ∀ {d d' : Data} {r r' : Chars}, d.Plain → d'.Plain → Stop stops r → Stop stops r' →
    d.inspect ++ r = d'.inspect ++ r' → d = d' ∧ r = r'
  | .atom a, .atom a', r, r', hp, hp', hr, hr', h => by
    rw [Data.inspect, Data.inspect] at h
    simp only [Data.Plain] at hp hp'
    obtain ⟨e1, e2⟩ := atom_apart hp hp' (stop_dot hr) (stop_dot hr') h
    exact ⟨by rw [e1], e2⟩
  | .atom a, .range a' b' x', r, r', hp, hp', hr, hr', h => by
    rw [Data.inspect, Data.inspect] at h
    simp only [Data.Plain] at hp hp'
    have hd : Stop stops' ((if x' then ['.', '.', '.'] else ['.', '.']) ++ (b'.inspect ++ r')) := by
      cases x' <;> exact stop_cons (by decide)
    simp only [List.append_assoc] at h
    obtain ⟨_, e2⟩ := atom_apart hp hp'.1 (stop_dot hr) hd h
    exfalso
    cases x'
    · exact absurd (hr _ _ e2) (by decide)
    · exact absurd (hr _ _ e2) (by decide)
  | .range a b x, .atom a', r, r', hp, hp', hr, hr', h => by
    rw [Data.inspect, Data.inspect] at h
    simp only [Data.Plain] at hp hp'
    have hd : Stop stops' ((if x then ['.', '.', '.'] else ['.', '.']) ++ (b.inspect ++ r)) := by
      cases x <;> exact stop_cons (by decide)
    simp only [List.append_assoc] at h
    obtain ⟨_, e2⟩ := atom_apart hp.1 hp' hd (stop_dot hr') h
    exfalso
    cases x
    · exact absurd (hr' _ _ e2.symm) (by decide)
    · exact absurd (hr' _ _ e2.symm) (by decide)
  | .range a b x, .range a' b' x', r, r', hp, hp', hr, hr', h => by
    rw [Data.inspect, Data.inspect] at h
    simp only [Data.Plain] at hp hp'
    have hd : ∀ (x : Bool) (b : Atom) (r : Chars), Stop stops' ((if x then ['.', '.', '.'] else ['.', '.']) ++ (b.inspect ++ r)) := by
      intro x b r; cases x <;> exact stop_cons (by decide)
    simp only [List.append_assoc] at h
    obtain ⟨e1, h⟩ := atom_apart hp.1 hp'.1 (hd x b r) (hd x' b' r') h
    have hx : x = x' ∧ b.inspect ++ r = b'.inspect ++ r' := by
      obtain ⟨c, t, h1, h2⟩ := atom_head b
      obtain ⟨c', t', h1', h2'⟩ := atom_head b'
      have hk : ∀ a : Atom, a.kind < 8 := by intro a; cases a <;> simp [Atom.kind]; rename_i b; cases b <;> simp
      have hb := hk b
      have hb' := hk b'
      rw [h1, h1'] at h ⊢
      cases x <;> cases x' <;> simp at h ⊢
      · exact h
      · rw [h.1] at h2; rw [← h2] at hb; exact absurd hb (by decide)
      · rw [← h.1] at h2'; rw [← h2'] at hb'; exact absurd hb' (by decide)
      · exact h
    obtain ⟨e2, h⟩ := hx
    obtain ⟨e3, e4⟩ := atom_apart hp.2 hp'.2 (stop_dot hr) (stop_dot hr') h
    exact ⟨by rw [e1, e2, e3], e4⟩

theorem datas_apart : ∀ {ds ds' : Datas} {r r' : Chars}, ds.Plain → ds'.Plain →
    ds.tail ++ ']' :: r = ds'.tail ++ ']' :: r' → ds = ds' ∧ r = r'
  | .nil, .nil, _, _, _, _, h => ⟨rfl, by simpa [Datas.tail] using h⟩
  | .nil, .cons d ds, _, _, _, _, h => by simp [Datas.tail] at h
  | .cons d ds, .nil, _, _, _, _, h => by simp [Datas.tail] at h
  | .cons d ds, .cons d' ds', r, r', hp, hp', h => by
    simp only [Datas.tail, List.cons_append, List.append_assoc, List.cons.injEq, true_and] at h
    simp only [Datas.Plain] at hp hp'
    obtain ⟨e1, h⟩ := data_apart hp.1 hp'.1 (stop_tail_datas ds r) (stop_tail_datas ds' r') h
    obtain ⟨e2, e3⟩ := datas_apart hp.2 hp'.2 h
    exact ⟨by rw [e1, e2], e3⟩

theorem pairs_apart : ∀ {ps ps' : Pairs} {r r' : Chars}, ps.Plain → ps'.Plain →
    ps.tail ++ '}' :: r = ps'.tail ++ '}' :: r' → ps = ps' ∧ r = r'
  | .nil, .nil, _, _, _, _, h => ⟨rfl, by simpa [Pairs.tail] using h⟩
  | .nil, .cons k v ps, _, _, _, _, h => by simp [Pairs.tail] at h
  | .cons k v ps, .nil, _, _, _, _, h => by simp [Pairs.tail] at h
  | .cons k v ps, .cons k' v' ps', r, r', hp, hp', h => by
    simp only [Pairs.tail, List.cons_append, List.append_assoc, List.cons.injEq, true_and] at h
    simp only [Pairs.Plain] at hp hp'
    obtain ⟨e1, h⟩ := data_apart hp.1 hp'.1 (stop_cons (by decide)) (stop_cons (by decide)) h
    simp only [List.cons.injEq, true_and] at h
    obtain ⟨e2, h⟩ := data_apart hp.2.1 hp'.2.1 (stop_tail_pairs ps r) (stop_tail_pairs ps' r') h
    obtain ⟨e3, e4⟩ := pairs_apart hp.2.2 hp'.2.2 h
    exact ⟨by rw [e1, e2, e3], e4⟩
end

/-! ## Model: arrays that contain themselves -/

/-- An element of an array in the heap: an integer, or the array at an address. -/
inductive Ref
  | int (i : Int)
  | arr (a : Nat)
  deriving DecidableEq

/-- The texts of the elements with commas between them (builtin/array.rs:149-153). -/
def commas : List Chars → Chars
  | [] => []
  | [t] => t
  | t :: u :: ts => t ++ [',', ' '] ++ commas (u :: ts)

/-- `Array#inspect` and `checked_inspect` (builtin/array.rs:137-158), with at most `n` calls inside each other; `none`: more. -/
def inspectAt (heap : Nat → List Ref) : Nat → Ref → Option Chars
  | 0, _ => none
  | _ + 1, .int i => some (Str.int_to_s i)
  | n + 1, .arr a =>
    match (heap a).mapM fun e => if e = .arr a then some ['[', '.', '.', '.', ']'] else inspectAt heap n e with
    | some ts => some ('[' :: (commas ts ++ [']']))
    | none => none

/-! ## Specification: data in the heap -/

mutual
/-- The value in the heap is this data, made of integers and arrays. -/
inductive Holds (heap : Nat → List Ref) : Ref → Data → Prop
  | int (i : Int) : Holds heap (.int i) (.atom (.int i))
  | arr {a : Nat} {ds : Datas} : Elems heap (heap a) ds → Holds heap (.arr a) (.atom (.arr ds))
inductive Elems (heap : Nat → List Ref) : List Ref → Datas → Prop
  | nil : Elems heap [] .nil
  | cons {e : Ref} {es : List Ref} {d : Data} {ds : Datas} : Holds heap e d → Elems heap es ds → Elems heap (e :: es) (.cons d ds)
end

/-! ## Helpers: data in the heap -/

mutual
theorem holds_fun {heap : Nat → List Ref} : ∀ {r : Ref} {d d' : Data}, Holds heap r d → Holds heap r d' → d = d'
  | _, _, _, .int i, h => by cases h; rfl
  | _, _, _, .arr h, h' => by
    cases h' with
    | arr h' => rw [elems_fun h h']
theorem elems_fun {heap : Nat → List Ref} : ∀ {es : List Ref} {ds ds' : Datas}, Elems heap es ds → Elems heap es ds' → ds = ds'
  | _, _, _, .nil, h => by cases h; rfl
  | _, _, _, .cons h hs, h' => by
    cases h' with
    | cons h' hs' => rw [holds_fun h h', elems_fun hs hs']
end

/-- No array of the heap that is data has itself among its elements, the elements of its elements and so on. -/
theorem elems_smaller {heap : Nat → List Ref} {r : Ref} {d : Data} (h : Holds heap r d) : ∀ {es : List Ref} {ds : Datas},
    Elems heap es ds → r ∈ es → sizeOf d < sizeOf ds
  | _, _, .nil, hm => by cases hm
  | _, _, .cons h1 hs, hm => by
    rcases List.mem_cons.mp hm with rfl | hm
    · rw [holds_fun h h1]; simp; omega
    · have := elems_smaller h hs hm
      simp; omega

def Datas.texts : Datas → List Chars
  | .nil => []
  | .cons d ds => d.inspect :: ds.texts

theorem commas_append (x t : Chars) : ∀ ts, commas ((x ++ t) :: ts) = x ++ commas (t :: ts)
  | [] => rfl
  | u :: ts => by simp [commas]

theorem inspect_texts : ∀ (ds : Datas) (r : Chars), ds.inspect r = commas (r :: ds.texts)
  | .nil, r => by simp [Datas.inspect, Datas.texts, commas]
  | .cons d ds, r => by
    rw [Datas.inspect, inspect_texts ds, commas_append, Datas.texts, commas]

theorem arr_inspect (ds : Datas) : Atom.inspect (.arr ds) = '[' :: (commas ds.texts ++ [']']) := by
  cases ds with
  | nil => simp [Atom.inspect, Datas.texts, commas]
  | cons d ds => rw [Atom.inspect, inspect_texts]; rfl

theorem mapM_same {α β : Type} {f g : α → Option β} : ∀ {l : List α}, (∀ x ∈ l, f x = g x) → l.mapM f = l.mapM g
  | [], _ => rfl
  | x :: xs, h => by
    rw [List.mapM_cons, List.mapM_cons, h x List.mem_cons_self, mapM_same (fun y hy => h y (List.mem_cons_of_mem _ hy))]

mutual
theorem inspect_holds {heap : Nat → List Ref} : ∀ {r : Ref} {d : Data}, Holds heap r d →
    ∃ k, ∀ n ≥ k, inspectAt heap n r = some d.inspect
  | _, _, .int i => ⟨1, fun n hn => by
      obtain ⟨n, rfl⟩ : ∃ m, n = m + 1 := ⟨n - 1, by omega⟩
      simp [inspectAt, Data.inspect, Atom.inspect]⟩
  | _, _, .arr (a := a) (ds := ds) h => by
    obtain ⟨k, hk⟩ := inspect_elems h
    refine ⟨k + 1, fun n hn => ?_⟩
    obtain ⟨n, rfl⟩ : ∃ m, n = m + 1 := ⟨n - 1, by omega⟩
    have hne : Ref.arr a ∉ heap a := fun hm => by
      have := elems_smaller (.arr h) h hm
      simp at this
      omega
    have : (heap a).mapM (fun e => if e = .arr a then some ['[', '.', '.', '.', ']'] else inspectAt heap n e) = some ds.texts := by
      rw [← hk n (by omega)]
      refine mapM_same fun e he => ?_
      rw [if_neg (fun (hq : e = Ref.arr a) => hne (hq ▸ he))]
    rw [inspectAt, this, Data.inspect, arr_inspect]
theorem inspect_elems {heap : Nat → List Ref} : ∀ {es : List Ref} {ds : Datas}, Elems heap es ds →
    ∃ k, ∀ n ≥ k, es.mapM (inspectAt heap n) = some ds.texts
  | _, _, .nil => ⟨0, fun n _ => rfl⟩
  | _, _, .cons h hs => by
    obtain ⟨k, hk⟩ := inspect_holds h
    obtain ⟨k', hk'⟩ := inspect_elems hs
    refine ⟨k + k', fun n hn => ?_⟩
    rw [List.mapM_cons, hk n (by omega), hk' n (by omega)]
    rfl
end

/-! ## C95 -/

/-- **C95.** Data with the same `inspect` are the same: kind, value, order and nesting can be seen.  Missing: symbols whose name has
a comma, a bracket, an equals sign or a dot (`C95_symbol_fails`). -/
theorem C95_apart_partial {d d' : Data} (hp : d.Plain) (hp' : d'.Plain) (h : d.inspect = d'.inspect) : d = d' :=
  (data_apart (r := []) (r' := []) hp hp' (fun _ _ e => by cases e) (fun _ _ e => by cases e) (by simpa using h)).1

/-- `[1, "a\n", {:k=>nil..2}]` -/
def sample : Data :=
  .atom (.arr (.cons (.atom (.int 1)) (.cons (.atom (.str ['a', '\n']))
    (.cons (.atom (.hash (.cons (.atom (.sym ['k'])) (.range .nil (.int 2) false) .nil))) .nil))))

example : sample.Plain ∧ sample.inspect = "[1, \"a\\n\", {:k=>nil..2}]".toList := by
  refine ⟨?_, ?_⟩
  · simp [sample, Data.Plain, Atom.Plain, Datas.Plain, Pairs.Plain, Word]
  · decide +kernel

/-- **C95.** Strings are told from everything else, and from each other, whatever their characters are. -/
theorem C95_strings {s : Chars} {d : Data} (hp : d.Plain) (h : Data.inspect (.atom (.str s)) = d.inspect) : d = .atom (.str s) :=
  (C95_apart_partial (d := .atom (.str s)) trivial hp h).symm

example : (Data.atom (.str "[1, 2]".toList)).Plain := trivial

/-- `[:"a, :b"]` and `[:a, :b]` look the same: symbols are written without quotes. -/
theorem C95_symbol_fails : ∃ d d' : Data, d ≠ d' ∧ d.inspect = d'.inspect := by
  refine ⟨.atom (.arr (.cons (.atom (.sym ['a', ',', ' ', ':', 'b'])) .nil)),
    .atom (.arr (.cons (.atom (.sym ['a'])) (.cons (.atom (.sym ['b'])) .nil))), ?_, by decide +kernel⟩
  intro h; cases h

/-- **C95.** An array in the heap that contains itself nowhere is shown as the data it holds, however the arrays in it are shared,
once the calls may go deep enough. -/
theorem C95_heap {heap : Nat → List Ref} {r : Ref} {d : Data} (h : Holds heap r d) :
    ∃ k, ∀ n ≥ k, inspectAt heap n r = some d.inspect := inspect_holds h

/-- `a = [7]; [a, 8, a]` -/
example : ∃ (heap : Nat → List Ref) (d : Data), Holds heap (.arr 0) d ∧ d.inspect = "[[7], 8, [7]]".toList := by
  have h1 : Holds (fun n => if n = 0 then [.arr 1, .int 8, .arr 1] else [.int 7]) (.arr 1) (.atom (.arr (.cons (.atom (.int 7)) .nil))) :=
    .arr (.cons (.int 7) .nil)
  exact ⟨_, _, .arr (.cons h1 (.cons (.int 8) (.cons h1 .nil))), by decide +kernel⟩

/-- **C95.** An array that is an element of itself is shown as `[...]` there. -/
theorem C95_self (heap : Nat → List Ref) (a : Nat) (h : heap a = [.arr a]) (n : Nat) :
    inspectAt heap (n + 1) (.arr a) = some "[[...]]".toList := by
  rw [inspectAt, h]
  simp [commas]

example : ∃ heap : Nat → List Ref, heap 3 = [.arr 3] := ⟨fun n => [.arr n], rfl⟩

/-- But two arrays that contain each other are not noticed: however deep the calls may go, `inspect` does not come to an end.  The
program is killed by the overflow of the machine stack. -/
theorem C95_cycle_fails : ∃ heap : Nat → List Ref, ∀ n, inspectAt heap n (.arr 0) = none := by
  let heap : Nat → List Ref := fun a => [.arr (1 - a)]
  have : ∀ n, inspectAt heap n (.arr 0) = none ∧ inspectAt heap n (.arr 1) = none := by
    intro n
    induction n with
    | zero => exact ⟨rfl, rfl⟩
    | succ n ih =>
      constructor
      · rw [inspectAt]; simp [heap, ih.2]
      · rw [inspectAt]; simp [heap, ih.1]
  exact ⟨heap, fun n => (this n).1⟩

end Verif.Inspect
