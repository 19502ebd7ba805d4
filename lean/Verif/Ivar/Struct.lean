import Verif.Ivar.Props
/-! # C104: structs

`Struct.new` and the objects of the classes it makes (builtin/structobj.rs). -/
namespace Verif.Ivar.Struct

variable {V : Type}

/-! ## Model -/

/-- An argument of `Struct.new`. -/
inductive Arg
  | str (s : Name)
  | sym (s : Name)
  | other
  deriving DecidableEq, Repr

/-- What `Struct.new` raises. -/
inductive Trap
  | argumentError
  | nameError
  | typeError
  deriving DecidableEq, Repr

/-- A class that `Struct.new` made, or one below it: its name and its own variable `/members`. -/
structure Cls where
  name : Option Name
  members : Option (List Name)
  deriving DecidableEq, Repr

/-- The symbols among the arguments (builtin/structobj.rs:39-50): the first that is none raises. -/
def symbols : List Arg → Except Trap (List Name)
  | [] => .ok []
  | .sym s :: as => (symbols as).map (s :: ·)
  | _ :: _ => .error .typeError

/-- `Struct.new` without a block (builtin/structobj.rs:10-52).  The accessors are those of `Ivar/Model`. -/
def structNew (args : List Arg) : Except Trap Cls :=
  match args with
  | [] => .error .argumentError
  | .str s :: as =>
    match s with
    | c :: _ => if c.isUpper then (symbols as).map fun m => ⟨some ("Struct::".toList ++ s), some m⟩ else .error .nameError
    | [] => .error .nameError
  | as => (symbols as).map fun m => ⟨none, some m⟩

/-- `S.new(*vs)`: a new object (`builtin::class::new`), then `initialize` (builtin/structobj.rs:64-79), which takes `/members` from
the class itself: `unwrap` panics if it has none. -/
def create (nil : V) (c : Cls) (h : Heap V) (vs : List V) : Heap V × Reply V :=
  let r := h.alloc ⟨none⟩
  match c.members with
  | none => (r.1, .panic)
  | some ms =>
    match step nil r.1 (.structInit (.obj r.2) ms vs) with
    | (h, .done) => (h, .object (.obj r.2))
    | o => o

/-- The loop of `inspect` (builtin/structobj.rs:106-113). -/
def inspectLoop (insp : V → Name) (nil : Name) (r : RVal V) : Name → List Name → Name
  | acc, [] => acc
  | acc, m :: ms =>
    inspectLoop insp nil r (acc ++ ' ' :: ivarName m ++ '=' :: (match r.get_var (ivarName m) with | some v => insp v | none => nil)) ms

/-- `inspect` (builtin/structobj.rs:82-117); `none`: an internal error.  `insp` is the inspection of a value, here one that does not
raise. -/
def inspect (insp : V → Name) (nil : Name) (c : Cls) (r : RVal V) : Option Name :=
  match c.members with
  | none => none
  | some ms => some (inspectLoop insp nil r ("#<struct ".toList ++ c.name.getD []) ms ++ ['>'])

/-! ## Helpers -/

theorem symbols_ok {as : List Arg} {ms : List Name} : symbols as = .ok ms ↔ as = ms.map .sym := by
  induction as generalizing ms with
  | nil => cases ms <;> simp [symbols]
  | cons a as ih =>
    cases a with
    | sym s =>
      rw [symbols]
      rcases h : symbols as with e | l
      · simp only [Except.map, reduceCtorEq, false_iff]
        intro e'
        cases ms with
        | nil => cases e'
        | cons m ms =>
          simp only [List.map_cons, List.cons.injEq] at e'
          rw [ih.2 e'.2] at h; cases h
      · simp only [Except.map, Except.ok.injEq]
        have := ih.1 h
        subst this
        constructor
        · rintro rfl; rfl
        · intro e'
          cases ms with
          | nil => cases e'
          | cons m ms =>
            simp only [List.map_cons, List.cons.injEq, Arg.sym.injEq] at e'
            rw [← e'.1]
            congr 1
            exact (List.map_injective_iff.2 (fun _ _ h => by simpa using h) e'.2)
    | str s => cases ms <;> simp [symbols]
    | other => cases ms <;> simp [symbols]

theorem fold_get {ms : List Name} (hd : ms.Nodup) : ∀ (vs : List V) (r : RVal V) (n : Name),
    ((ms.zip vs).foldl (fun r e => r.set_var (ivarName e.1) e.2) r).get_var n =
      match (ms.zip vs).find? (fun e => ivarName e.1 == n) with
      | some e => some e.2
      | none => r.get_var n := by
  induction ms with
  | nil => intro vs r n; rfl
  | cons m ms ih =>
    intro vs r n
    cases vs with
    | nil => rfl
    | cons v vs =>
      rw [List.zip_cons_cons, List.foldl_cons, ih (List.nodup_cons.1 hd).2, List.find?_cons]
      by_cases hm : ivarName m = n
      · subst hm
        have : (ms.zip vs).find? (fun e => ivarName e.1 == ivarName m) = none := by
          rw [List.find?_eq_none]
          rintro ⟨a, b⟩ hab
          have ha := (List.of_mem_zip hab).1
          simp only [ivarName, beq_iff_eq, List.cons.injEq, true_and]
          rintro rfl
          exact (List.nodup_cons.1 hd).1 ha
        rw [this]
        simp [RVal.get_set]
      · have hb : (ivarName m == n) = false := by simpa using hm
        simp only [hb, RVal.get_set, Ne.symm hm, if_false]

theorem find_zip {ms : List Name} (hd : ms.Nodup) : ∀ {vs : List V} {i : Nat} {m : Name}, ms[i]? = some m →
    ((ms.zip vs).find? (fun e => ivarName e.1 == ivarName m)).map (·.2) = vs[i]? := by
  induction ms with
  | nil => intro vs i m h; simp at h
  | cons a ms ih =>
    intro vs i m h
    cases vs with
    | nil => simp
    | cons v vs =>
      rw [List.zip_cons_cons, List.find?_cons]
      cases i with
      | zero => simp only [List.getElem?_cons_zero, Option.some.injEq] at h; subst h; simp
      | succ i =>
        rw [List.getElem?_cons_succ] at h
        have : (ivarName a == ivarName m) = false := by
          simp only [ivarName, beq_eq_false_iff_ne, ne_eq, List.cons.injEq, true_and]
          rintro rfl
          exact (List.nodup_cons.1 hd).1 (List.mem_of_getElem? h)
        simp only [this, List.getElem?_cons_succ]
        exact ih (List.nodup_cons.1 hd).2 h

/-! ## C104 -/

/-- `Struct.new` makes a class exactly if its arguments are symbols, possibly after a string with a capital first letter, and not
nothing; the class has these members.

`_partial`: a member may be named twice (`C104_duplicate_fails`). -/
theorem C104_class_partial (args : List Arg) (c : Cls) : structNew args = .ok c ↔
    (∃ ms, ms ≠ [] ∧ args = ms.map .sym ∧ c = ⟨none, some ms⟩) ∨
    (∃ ch s ms, ch.isUpper = true ∧ args = .str (ch :: s) :: ms.map .sym ∧ c = ⟨some ("Struct::".toList ++ ch :: s), some ms⟩) := by
  have mapok : ∀ (x : Except Trap (List Name)) (f : List Name → Cls), x.map f = .ok c ↔ ∃ ms, x = .ok ms ∧ f ms = c := by
    intro x f; cases x <;> simp [Except.map]
  unfold structNew
  split
  · simp only [reduceCtorEq, false_iff, not_or, not_exists]
    refine ⟨?_, ?_⟩
    · rintro ms ⟨h1, h2, _⟩
      cases ms with
      | nil => exact h1 rfl
      | cons _ _ => cases h2
    · rintro ch s ms ⟨_, h2, _⟩; cases h2
  · rename_i s as
    have no : ∀ ms : List Name, Arg.str s :: as ≠ ms.map .sym := by
      intro ms h; cases ms <;> simp at h
    split
    · rename_i ch s'
      split
      · rename_i hu
        rw [mapok]
        constructor
        · rintro ⟨ms, h, rfl⟩
          exact .inr ⟨ch, s', ms, hu, by rw [symbols_ok.1 h], rfl⟩
        · rintro (⟨ms, _, h, _⟩ | ⟨ch', s'', ms, _, h, rfl⟩)
          · exact absurd h (no ms)
          · simp only [List.cons.injEq, Arg.str.injEq] at h
            obtain ⟨⟨rfl, rfl⟩, h⟩ := h
            exact ⟨ms, symbols_ok.2 h, rfl⟩
      · rename_i hu
        simp only [reduceCtorEq, false_iff, not_or, not_exists]
        refine ⟨?_, ?_⟩
        · rintro ms ⟨_, h, _⟩; exact no ms h
        · rintro ch' s'' ms ⟨h, h', _⟩
          simp only [List.cons.injEq, Arg.str.injEq] at h'
          rw [← h'.1.1] at h; exact hu h
    · simp only [reduceCtorEq, false_iff, not_or, not_exists]
      refine ⟨?_, ?_⟩
      · rintro ms ⟨_, h, _⟩; exact no ms h
      · rintro ch' s'' ms ⟨h, h', _⟩
        simp at h'
  · rename_i h1 h2
    rw [mapok]
    constructor
    · rintro ⟨ms, h, rfl⟩
      have := symbols_ok.1 h
      subst this
      refine .inl ⟨ms, ?_, rfl, rfl⟩
      rintro rfl
      exact h1 rfl
    · rintro (⟨ms, _, h, rfl⟩ | ⟨ch', s'', ms, _, h, rfl⟩)
      · exact ⟨ms, symbols_ok.2 h, rfl⟩
      · exact absurd h (h2 _ _)

/-- `S.new(*vs)` is a new object whose members have the given values in order, and nil beyond them; no other object changes.

`_partial`: with distinct members, and of the class that `Struct.new` made itself (`C104_subclass_fails`). -/
theorem C104_create_partial (nil : V) (c : Cls) (h : Heap V) {ms : List Name} (hc : c.members = some ms) (hd : ms.Nodup) (vs : List V)
    (hl : vs.length ≤ ms.length) :
    ∃ h', create nil c h vs = (h', .object (.obj h.next)) ∧
      (∀ (i : Nat) m, ms[i]? = some m → (step nil h' (.reader (.obj h.next) m)).2 = .value (vs[i]?.getD nil)) ∧
      (∀ o, o ≠ h.next → h'.obj o = h.obj o) := by
  refine ⟨_, by simp only [create, hc, step, Nat.not_lt.2 hl, if_false]; rfl, ?_, ?_⟩
  · intro i m hm
    simp only [step, Heap.put, Heap.alloc, if_true, fold_get hd, Reply.value.injEq]
    have := find_zip hd (vs := vs) hm
    rcases hz : (ms.zip vs).find? (fun e => ivarName e.1 == ivarName m) with _ | e
    · rw [hz] at this
      rw [← this]
      simp only [hz]
      rfl
    · rw [hz] at this
      rw [← this]
      simp only [hz]
      rfl
  · intro o ho
    simp [Heap.put, Heap.alloc, ho]

/-- Too many values raise, and change nothing but that there is a new object without variables. -/
theorem C104_too_many (nil : V) (c : Cls) (h : Heap V) {ms : List Name} (hc : c.members = some ms) (vs : List V) (hl : ms.length < vs.length) :
    create nil c h vs = ((h.alloc ⟨none⟩).1, .raised) := by
  simp only [create, hc, step, hl, if_true]

/-- `x.m = v` changes this member of this object and nothing else. -/
theorem C104_write (nil : V) (h : Heap V) (o o' : Nat) (m m' : Name) (v : V) :
    (step nil (step nil h (.writer (.obj o) m v)).1 (.reader (.obj o') m')).2 =
      if o' = o ∧ m' = m then .value v else (step nil h (.reader (.obj o') m')).2 := by
  by_cases ho : o' = o
  · subst ho
    by_cases hm : m' = m
    · subst hm; simp [step, Heap.put, RVal.get_set]
    · simp [step, Heap.put, RVal.get_set, ivarName, hm]
  · simp [step, Heap.put, ho]

/-- `inspect` shows the name and every member in order with its value. -/
theorem C104_inspect (insp : V → Name) (nil : Name) (c : Cls) (r : RVal V) {ms : List Name} (hc : c.members = some ms) :
    inspect insp nil c r = some ("#<struct ".toList ++ c.name.getD [] ++
      (ms.map fun m => " @".toList ++ m ++ "=".toList ++ ((r.get_var ('@' :: m)).map insp).getD nil).flatten ++ ">".toList) := by
  have loop : ∀ ms acc, inspectLoop insp nil r acc ms = acc ++
      (ms.map fun m => " @".toList ++ m ++ "=".toList ++ ((r.get_var ('@' :: m)).map insp).getD nil).flatten := by
    intro ms
    induction ms with
    | nil => intro acc; simp [inspectLoop]
    | cons m ms ih =>
      intro acc
      rw [inspectLoop, ih]
      have e : (match r.get_var (ivarName m) with | some v => insp v | none => nil) = ((r.get_var ('@' :: m)).map insp).getD nil := by
        rw [ivarName]; rcases r.get_var ('@' :: m) with _ | v <;> rfl
      rw [e]
      simp [ivarName]
  simp [inspect, hc, loop]

/-! ## Examples and differences -/

example : structNew [.str "P".toList, .sym "a".toList, .sym "b".toList] = .ok ⟨some "Struct::P".toList, some ["a".toList, "b".toList]⟩ := by rfl

example : ["a".toList, "b".toList].Nodup ∧ [1].length ≤ ["a".toList, "b".toList].length := by decide

/-- A member can be named twice; the last value counts. -/
theorem C104_duplicate_fails : structNew [.sym "a".toList, .sym "a".toList] = .ok ⟨none, some ["a".toList, "a".toList]⟩ ∧
    ∀ nil : Nat, (step nil (create nil ⟨none, some ["a".toList, "a".toList]⟩ empty [1, 2]).1 (.reader (.obj 0) "a".toList)).2 = .value 2 :=
  ⟨rfl, fun _ => rfl⟩

/-- `class P < Struct.new(:a); end; P.new(1)` stops the interpreter. -/
theorem C104_subclass_fails (nil : V) (h : Heap V) (name : Option Name) (vs : List V) : (create nil ⟨name, none⟩ h vs).2 = .panic := rfl

end Verif.Ivar.Struct
