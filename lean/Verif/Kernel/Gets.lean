/-! # C128: reading lines with `gets` -/
namespace Verif.Gets

/-! ## Model -/

/-- What is left of the standard input: characters, and bytes that belong to no character (`none`). -/
abbrev Input := List (Option Char)

/-- The outcome of `gets`: a string, or a RuntimeError. -/
inductive Out
  | str (s : List Char)
  | error
  deriving DecidableEq, Repr

/-- `BufRead::read_until(b'\n')`, which `Stdin::read_line` calls (std::io): up to and with the next newline, or to the end;
and the rest. -/
def read_until : Input → Input × Input
  | [] => ([], [])
  | c :: r => if c = some '\n' then ([c], r) else ((c :: (read_until r).1), (read_until r).2)

/-- The text of some input; `none`: it is not valid UTF-8. -/
def text : Input → Option (List Char)
  | [] => some []
  | some c :: r => (text r).map (c :: ·)
  | none :: _ => none

/-- `Kernel#gets` (builtin/kernel.rs:60-67).  Simplified: the input is not interrupted, and the system reports no errors. -/
def gets (i : Input) : Out × Input :=
  match text (read_until i).1 with
  | some s => (.str s, (read_until i).2)
  | none => (.error, (read_until i).2)

/-- `n` calls: their results, and what is left. -/
def gets_times : Nat → Input → List Out × Input
  | 0, i => ([], i)
  | n + 1, i => ((gets i).1 :: (gets_times n (gets i).2).1, (gets_times n (gets i).2).2)

/-- `while line = gets; …; end`: a string is true (value/value.rs: `to_bool`), so the loop goes on for ever unless `gets`
raises.  The first number: how many rounds are looked at; `none`: the loop has not ended by then. -/
def while_gets : Nat → Input → Option (List Out)
  | 0, _ => none
  | n + 1, i => match (gets i).1 with
    | .error => some [.error]
    | .str s => (while_gets n (gets i).2).map (.str s :: ·)

/-! ## Specification -/

/-- `ls` are the lines of a text: together they are the text, each is not empty and has a newline just at its end, but for
the last one, which may have none. -/
structure Lines (t : List Char) (ls : List (List Char)) : Prop where
  all : ls.flatten = t
  full : ∀ l ∈ ls, l ≠ []
  inner : ∀ l ∈ ls, '\n' ∉ l.dropLast
  ends : ∀ l ∈ ls.dropLast, l.getLast? = some '\n'

/-! ## Helpers -/

theorem text_map (t : List Char) : text (t.map some) = some t := by
  induction t with
  | nil => rfl
  | cons c t ih => simp [text, ih]

theorem read_line {l r : List Char} (h1 : '\n' ∉ l) : read_until ((l ++ '\n' :: r).map some) =
    ((l ++ ['\n']).map some, r.map some) := by
  induction l with
  | nil => simp [read_until]
  | cons c l ih =>
    simp only [List.mem_cons, not_or] at h1
    have ih := ih h1.2
    simp only [List.cons_append, List.map_cons, read_until]
    rw [if_neg (by simpa using fun q => h1.1 q.symm), ih]

theorem read_end {l : List Char} (h1 : '\n' ∉ l) : read_until (l.map some) = (l.map some, []) := by
  induction l with
  | nil => rfl
  | cons c l ih =>
    simp only [List.mem_cons, not_or] at h1
    simp only [List.map_cons, read_until]
    rw [if_neg (by simpa using fun q => h1.1 q.symm), ih h1.2]

theorem gets_line {l r : List Char} (h1 : '\n' ∉ l) :
    gets ((l ++ '\n' :: r).map some) = (.str (l ++ ['\n']), r.map some) := by
  simp only [gets, read_line h1, text_map]

theorem gets_end {l : List Char} (h1 : '\n' ∉ l) : gets (l.map some) = (.str l, []) := by
  simp only [gets, read_end h1, text_map]

theorem Lines.tail {t l : List Char} {ls : List (List Char)} (h : Lines t (l :: ls)) : Lines ls.flatten ls := by
  refine ⟨rfl, fun x hx => h.full x (List.mem_cons_of_mem _ hx), fun x hx => h.inner x (List.mem_cons_of_mem _ hx),
    fun x hx => h.ends x ?_⟩
  cases ls with
  | nil => cases hx
  | cons a b => rw [List.dropLast_cons_of_ne_nil (by simp)]; exact List.mem_cons_of_mem _ hx

theorem Lines.head {t l : List Char} {ls : List (List Char)} (h : Lines t (l :: ls)) :
    gets (t.map some) = (.str l, ls.flatten.map some) := by
  have ht : t = l ++ ls.flatten := by rw [← h.all]; rfl
  have hi := h.inner l List.mem_cons_self
  have key : l.getLast? = some '\n' → gets (t.map some) = (.str l, ls.flatten.map some) := by
    intro e
    obtain ⟨l', hl⟩ := List.getLast?_eq_some_iff.1 e
    rw [hl, List.dropLast_concat] at hi
    have := gets_line (r := ls.flatten) hi
    rw [ht, hl]
    simpa using this
  cases ls with
  | cons a b => exact key (h.ends l (by rw [List.dropLast_cons_of_ne_nil (by simp)]; exact List.mem_cons_self))
  | nil =>
    by_cases e : l.getLast? = some '\n'
    · exact key e
    · have hn : '\n' ∉ l := by
        intro q
        have hl := List.dropLast_concat_getLast (h.full l List.mem_cons_self)
        rw [← hl, List.mem_append, List.mem_singleton] at q
        rcases q with q | q
        · exact hi q
        · exact e (by rw [List.getLast?_eq_some_getLast (h.full l List.mem_cons_self), ← q])
      have := gets_end hn
      rw [ht]
      simpa using this

theorem lines_exist : ∀ (n : Nat) (t : List Char), t.length < n → ∃ ls, Lines t ls := by
  intro n
  induction n with
  | zero => intro t h; omega
  | succ n ih =>
    intro t h
    by_cases hm : '\n' ∈ t
    · obtain ⟨a, b, e, ha⟩ := List.eq_append_cons_of_mem hm
      obtain ⟨ls, hl⟩ := ih b (by rw [e] at h; simp at h; omega)
      refine ⟨(a ++ ['\n']) :: ls, by rw [e, List.flatten_cons, hl.all]; simp, ?_, ?_, ?_⟩
      · intro l h
        rcases List.mem_cons.1 h with rfl | h
        · simp
        · exact hl.full l h
      · intro l h
        rcases List.mem_cons.1 h with rfl | h
        · rw [List.dropLast_concat]; exact ha
        · exact hl.inner l h
      · intro l h
        cases ls with
        | nil => cases h
        | cons x y =>
          rw [List.dropLast_cons_of_ne_nil (by simp)] at h
          rcases List.mem_cons.1 h with rfl | h
          · simp
          · exact hl.ends l h
    · by_cases ht : t = []
      · exact ⟨[], by rw [ht]; rfl, by simp, by simp, by simp⟩
      · refine ⟨[t], by simp, by simpa using ht, ?_, by simp⟩
        intro l h
        rw [List.mem_singleton.1 h]
        exact fun q => hm (List.dropLast_subset _ q)

theorem lines_unique : ∀ (ls ls' : List (List Char)) (t : List Char), Lines t ls → Lines t ls' → ls' = ls := by
  intro ls
  induction ls with
  | nil =>
    intro ls' t h h'
    cases ls' with
    | nil => rfl
    | cons l r =>
      have := h.all.trans h'.all.symm
      simp only [List.flatten_nil, List.flatten_cons] at this
      exact absurd (List.append_eq_nil_iff.1 this.symm).1 (h'.full l List.mem_cons_self)
  | cons l ls ih =>
    intro ls' t h h'
    cases ls' with
    | nil =>
      have := h.all.trans h'.all.symm
      simp only [List.flatten_nil, List.flatten_cons] at this
      exact absurd (List.append_eq_nil_iff.1 this).1 (h.full l List.mem_cons_self)
    | cons l' r =>
      have := h.head.symm.trans h'.head
      simp only [Prod.mk.injEq, Out.str.injEq] at this
      have hf : ls.flatten = r.flatten := by
        have := congrArg (List.map fun x : Option Char => x.getD ' ') this.2
        simpa [Function.comp_def] using this
      rw [this.1, ih r ls.flatten h.tail (by rw [hf]; exact h'.tail)]

/-! ## C128 -/

/-- **C128**: as many calls of `gets` as the text has lines return its lines, in order, and leave nothing. -/
theorem C128_lines {t : List Char} {ls : List (List Char)} (h : Lines t ls) :
    gets_times ls.length (t.map some) = (ls.map .str, []) := by
  induction ls generalizing t with
  | nil => rw [← h.all]; rfl
  | cons l ls ih => simp only [List.length_cons, gets_times, h.head, ih h.tail, List.map_cons]

/-- **C128**: every text has lines, in just one way. -/
theorem C128_unique (t : List Char) : ∃ ls, Lines t ls ∧ ∀ ls', Lines t ls' → ls' = ls := by
  obtain ⟨ls, h⟩ := lines_exist _ t (Nat.lt_succ_self _)
  exact ⟨ls, h, fun ls' h' => lines_unique ls ls' t h h'⟩

/-- **C128**: whatever the input is, each call takes the characters up to the next newline, no less and no more. -/
theorem C128_rest (i : Input) : (read_until i).1 ++ (read_until i).2 = i ∧ some '\n' ∉ (read_until i).1.dropLast ∧
    (gets i).2 = (read_until i).2 ∧ (i ≠ [] → (gets i).2.length < i.length) := by
  have e : (read_until i).1 ++ (read_until i).2 = i := by
    induction i with
    | nil => rfl
    | cons c r ih =>
      simp only [read_until]
      split
      · rfl
      · simp [ih]
  have hg : (gets i).2 = (read_until i).2 := by
    simp only [gets]
    split <;> rfl
  refine ⟨e, ?_, hg, fun hi => ?_⟩
  · clear e hg
    induction i with
    | nil => simp [read_until]
    | cons c r ih =>
      simp only [read_until]
      split
      · simp
      · rename_i hc
        cases hr : (read_until r).1 with
        | nil => simp
        | cons a b =>
          rw [List.dropLast_cons_of_ne_nil (by simp), List.mem_cons, not_or]
          exact ⟨fun q => hc q.symm, by rw [← hr]; exact ih⟩
  · rw [hg]
    have hl := congrArg List.length e
    rw [List.length_append] at hl
    have : (read_until i).1 ≠ [] := by
      cases i with
      | nil => exact absurd rfl hi
      | cons c r => simp only [read_until]; split <;> simp
    have := List.length_pos_iff.2 this
    omega

/-- **C128**: a line that is not valid UTF-8 raises a RuntimeError, and the next call reads the line behind it. -/
theorem C128_invalid {a b : Input} {r : Input} (h : some '\n' ∉ a ++ b) :
    gets (a ++ none :: (b ++ some '\n' :: r)) = (.error, r) := by
  have hr : ∀ l : Input, some '\n' ∉ l → read_until (l ++ some '\n' :: r) = (l ++ [some '\n'], r) := by
    intro l hl
    induction l with
    | nil => simp [read_until]
    | cons c l ih =>
      simp only [List.mem_cons, not_or] at hl
      simp only [List.cons_append, read_until]
      rw [if_neg (fun q => hl.1 q.symm), ih hl.2]
  have ht : ∀ l m : Input, text (l ++ none :: m) = none := by
    intro l m
    induction l with
    | nil => rfl
    | cons c l ih => cases c <;> simp [text, ih]
  simp only [List.mem_append, not_or] at h
  have := hr (a ++ none :: b) (by simp [h.1, h.2])
  rw [List.append_assoc, List.cons_append] at this
  simp only [gets, this, List.append_assoc, List.cons_append, ht]

/-- **C128 fails** at the end of the input: `gets` returns the empty string, where Ruby returns nil, again and again. -/
theorem C128_end_fails (n : Nat) : gets_times n [] = (List.replicate n (.str []), []) := by
  induction n with
  | zero => rfl
  | succ n ih =>
    have : gets [] = (.str [], []) := rfl
    simp only [gets_times, this, ih, List.replicate_succ]

/-- **C128 fails** for the loop `while line = gets`: it never ends, whatever text is given. -/
theorem C128_loop_fails (t : List Char) (n : Nat) : while_gets n (t.map some) = none := by
  induction n generalizing t with
  | zero => rfl
  | succ n ih =>
    obtain ⟨ls, h⟩ := lines_exist _ t (Nat.lt_succ_self _)
    cases ls with
    | nil =>
      rw [← h.all]
      have : gets (([] : List (List Char)).flatten.map some) = (.str [], ([] : List Char).map some) := rfl
      simp only [while_gets, this, ih]; rfl
    | cons l ls => simp only [while_gets, h.head, ih]; rfl

/-! ## Instances -/

example : Lines "ab\n\nc".toList ["ab\n".toList, "\n".toList, "c".toList] := by
  constructor <;> decide
example : gets_times 4 ("ab\n\nc".toList.map some) =
    ([.str "ab\n".toList, .str "\n".toList, .str "c".toList, .str []], []) := by decide +kernel

end Verif.Gets
