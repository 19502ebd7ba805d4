import Mathlib.Data.List.Basic
import Mathlib.Data.List.Nodup
/-! # C109: texts evaluated in a binding

`binding`, `Binding#eval`, `Kernel#eval` with a binding, `Binding#local_variables` and `local_variable_defined?`: the
words in which a binding keeps its own variables, and the frames of the method it was made in. -/
namespace Verif.Eval

abbrev Name := Nat

/-! ## Model -/

/-- A text given to `eval`, as far as variables go.  It reads and assigns variables by name, calls a method written in
Ruby, evaluates a further text in the same binding, raises or ends with a value; what it does next may depend on
everything read so far.  The names a text assigns are given with it, in their order in the text: the parser makes
variables of them whether the assignments are run or not. -/
inductive Prog (V : Type)
  | done (v : V)
  | raise
  | get (n : Name) (k : V → Prog V)
  | set (n : Name) (v : V) (k : Prog V)
  | call (k : Prog V)
  | eval (decl : List Name) (p : Prog V) (k : V → Prog V)

/-- How the evaluation of a text ends.  `undefined`: words outside the binding are used; `wrongCode`: the machine goes on
in the code of another text; `panic`: an assertion fails. -/
inductive Res (V : Type)
  | value (v : V)
  | raised
  | nameError
  | undefined
  | wrongCode
  | panic
  deriving DecidableEq, Repr

/-- A frame of the method, moved to the heap: the names of its variables and their values. -/
structure Scope (V : Type) where
  table : List Name
  vals : Nat → V

/-- A binding (`HeapCtxRef::new_binding`, vm/executor/frame/heap.rs:81-105).  `mem` are the words of its box below the
environment pointer, which is word 65; word 64 is self.  `len` is the number of variables in the flag word, `table` the
variable table of the code it points to (`EV_ISEQ`), `iseq` the number of this code, `fresh` the number of the next code,
`outers` the frames it was made in, innermost first. -/
structure St (V : Type) where
  mem : Nat → V
  len : Nat
  table : List Name
  iseq : Nat
  fresh : Nat
  outers : List (Scope V)

variable {V : Type}

def upd (m : Nat → V) (a : Nat) (v : V) : Nat → V := fun x => if x = a then v else m x

/-- `binding` (builtin/kernel.rs:452-457, vm/executor.rs:978-982, vm/executor/frame/heap.rs:81-105): 64 words of nil, the
last of them self, and no variables. -/
def create (nil me : V) (outers : List (Scope V)) : St V :=
  ⟨upd (fun _ => nil) 63 me, 0, [], 0, 1, outers⟩

/-- The first loop of `EnvFrame::set_iseq` (vm/executor/frame.rs:335-339). -/
def copyWords (m : Nat → V) (old new : Nat) : Nat → Nat → V
  | 0 => m
  | n + 1 => copyWords (upd m new (m old)) (old + 1) (new + 1) n

/-- The second loop (vm/executor/frame.rs:340-342): the pointer is not advanced. -/
def fillWords (nil : V) (m : Nat → V) (new : Nat) : Nat → Nat → V
  | 0 => m
  | n + 1 => fillWords nil (upd m new nil) new n

/-- `EnvFrame::set_iseq` (vm/executor/frame.rs:329-345): the words of self and of the variables move down, the new
variables lie above them. -/
def set_iseq (nil : V) (s : St V) (table : List Name) : Except (Res V) (St V) :=
  let new_len := table.length
  if new_len < s.len then .error .panic
  else if 63 < new_len then .error .undefined
  else
    let m := copyWords s.mem (63 - s.len) (63 - new_len) (s.len + 1)
    let m := fillWords nil m (63 - new_len + (s.len + 1)) (new_len - s.len)
    .ok { s with mem := m, len := new_len, table := table, iseq := s.fresh, fresh := s.fresh + 1 }

/-- `Parser::is_local_var` (ruruby-parse/src/parser.rs:172-191). -/
def isLocal (table : List Name) (outers : List (Scope V)) (n : Name) : Bool :=
  table.contains n || outers.any fun o => o.table.contains n

/-- The table after parsing (ruruby-parse/src/parser.rs:49-57, 117-129): the one of the binding, to which each name that
the text assigns is added unless it is known. -/
def parse (table : List Name) (outers : List (Scope V)) : List Name → List Name
  | [] => table
  | n :: decl => parse (if isLocal table outers n then table else table ++ [n]) outers decl

/-- `LvarTable::get_lvarid` (ruruby-common/src/lvar_collector.rs:174-176). -/
def lvarid (table : List Name) (n : Name) : Option Nat := table.findIdx? (· == n)

/-- The second part of `Codegen::get_local_var` (codegen.rs:1693-1700). -/
def externVar : List (Scope V) → Name → Nat → Option (Nat × Nat)
  | [], _, _ => none
  | o :: os, n, d => match lvarid o.table n with
    | some i => some (d, i)
    | none => externVar os n (d + 1)

/-- `Codegen::get_local_var` (codegen.rs:1682-1701). -/
def resolve (table : List Name) (outers : List (Scope V)) (n : Name) : Option (Nat × Nat) :=
  match lvarid table n with
  | some i => some (0, i)
  | none => externVar outers n 1

/-- Assign variable `i` of the frame `d` above the binding. -/
def setOuter : List (Scope V) → Nat → Nat → V → List (Scope V)
  | [], _, _, _ => []
  | o :: os, 0, i, v => { o with vals := upd o.vals i v } :: os
  | o :: os, d + 1, i, v => o :: setOuter os d i v

/-- `VM::eval_binding` (vm/executor/method.rs:341-353) and the text itself.  `table` is the variable table with which the
text was compiled, `id` the number of its code.  A variable is read and assigned at its place
(vm/executor/opt_core.rs:233-256); the local frame pointer is always `64 - len`, since it is set on entry
(vm/executor/frame.rs:512-523) and again when a builtin function returns (vm/executor/frame.rs:657-666).  When a method
returns, the machine goes on in the code that the environment points to (`unwind_frame`, vm/executor/frame.rs:639-655);
after a builtin function in the code it came from (vm/executor/method.rs:545-557).  Simplified: blocks in texts, and texts
that do not parse, which change nothing, are left out. -/
def run (nil : V) : List Name → Nat → Prog V → St V → Res V × St V
  | _, _, .done v, s => (.value v, s)
  | _, _, .raise, s => (.raised, s)
  | table, id, .get n k, s => match resolve table s.outers n with
    | none => (.nameError, s)
    | some (0, i) => run nil table id (k (s.mem (64 - s.len + i))) s
    | some (d + 1, i) => match s.outers[d]? with
      | some o => run nil table id (k (o.vals i)) s
      | none => (.undefined, s)
  | table, id, .set n v k, s => match resolve table s.outers n with
    | none => (.nameError, s)
    | some (0, i) => run nil table id k { s with mem := upd s.mem (64 - s.len + i) v }
    | some (d + 1, i) => run nil table id k { s with outers := setOuter s.outers d i v }
  | table, id, .call k, s => if s.iseq = id then run nil table id k s else (.wrongCode, s)
  | table, id, .eval decl p k, s => match set_iseq nil s (parse s.table s.outers decl) with
    | .error e => (e, s)
    | .ok s1 => match run nil s1.table s1.iseq p s1 with
      | (.value v, s2) => run nil table id (k v) s2
      | (r, s2) => (r, s2)

/-- `enumerate_local_vars` (vm/executor/frame.rs:318-327) into an `IndexSet`. -/
def local_variables (s : St V) : List Name :=
  (s.table ++ (s.outers.map (·.table)).flatten).foldl (fun acc n => if acc.contains n then acc else acc ++ [n]) []

/-- What a program does with a binding: evaluate a text in it, ask for the names of the variables, ask for one; and what
the method does with its own variables, which it knows by the number of the frame and their number in it. -/
inductive Op (V : Type)
  | eval (decl : List Name) (p : Prog V)
  | names
  | isDefined (n : Name)
  | assign (d i : Nat) (v : V)
  | read (d i : Nat)

inductive Reply (V : Type)
  | res (r : Res V)
  | names (l : List Name)
  | bool (b : Bool)
  | done
  deriving DecidableEq, Repr

/-- builtin/binding.rs:25-42, 61-80. -/
def step (nil : V) (s : St V) : Op V → Reply V × St V
  | .eval decl p => match set_iseq nil s (parse s.table s.outers decl) with
    | .error e => (.res e, s)
    | .ok s1 => let r := run nil s1.table s1.iseq p s1; (.res r.1, r.2)
  | .names => (.names (local_variables s), s)
  | .isDefined n => (.bool ((local_variables s).contains n), s)
  | .assign d i v => (.done, { s with outers := setOuter s.outers d i v })
  | .read d i => match s.outers[d]? with
    | some o => if i < o.table.length then (.res (.value (o.vals i)), s) else (.res .undefined, s)
    | none => (.res .undefined, s)

def runs (nil : V) (s : St V) : List (Op V) → List (Reply V)
  | [] => []
  | o :: os => let r := step nil s o; r.1 :: runs nil r.2 os

/-! ## Specification

Scopes are lists of named variables: one that belongs to the binding, and those of the method around it. -/

abbrev Vars (V : Type) := List (Name × V)

/-- Assign the variable named `n`. -/
def Vars.assign (n : Name) (v : V) : Vars V → Vars V
  | [] => []
  | (m, w) :: l => if m = n then (m, v) :: l else (m, w) :: assign n v l

/-- The variables that a text sees.  `unset` has no influence on anything: it records the variables that were new in a
text beside another new one and have not been assigned since. -/
structure Scopes (V : Type) where
  own : Vars V
  outers : List (Vars V)
  unset : List Name

/-- The value of the variable that `n` names: the innermost one. -/
def Scopes.lookup (a : Scopes V) (n : Name) : Option V :=
  (a.own ++ a.outers.flatten).lookup n

def assignFirst (n : Name) (v : V) : List (Vars V) → List (Vars V)
  | [] => []
  | o :: os => if n ∈ o.map Prod.fst then o.assign n v :: os else o :: assignFirst n v os

/-- Assign the innermost variable named `n`. -/
def Scopes.assign (a : Scopes V) (n : Name) (v : V) : Scopes V :=
  let a := { a with unset := a.unset.filter (· ≠ n) }
  if n ∈ a.own.map Prod.fst then { a with own := a.own.assign n v } else { a with outers := assignFirst n v a.outers }

/-- The names that a text assigns become variables of the binding, with value nil, unless they are variables already. -/
def Scopes.declare (nil : V) (a : Scopes V) : List Name → Scopes V
  | [] => a
  | n :: decl => Scopes.declare nil (match a.lookup n with
    | some _ => a
    | none => { a with own := a.own ++ [(n, nil)] }) decl

/-- The same, keeping the record. -/
def Scopes.enter (nil : V) (a : Scopes V) (decl : List Name) : Scopes V :=
  let b := a.declare nil decl
  { b with unset := a.unset ++ (b.own.drop (a.own.length + 1)).map Prod.fst }

def Scopes.names (a : Scopes V) : List Name := (a.own ++ a.outers.flatten).map Prod.fst

/-- What evaluating a text should do, if `known` are the names that are variables when it is parsed. -/
def meaning (nil : V) : List Name → Prog V → Scopes V → Res V × Scopes V
  | _, .done v, a => (.value v, a)
  | _, .raise, a => (.raised, a)
  | known, .get n k, a => match known.contains n, a.lookup n with
    | true, some v => meaning nil known (k v) a
    | _, _ => (.nameError, a)
  | known, .set n v k, a => if known.contains n then meaning nil known k (a.assign n v) else (.nameError, a)
  | known, .call k, a => meaning nil known k a
  | known, .eval decl p k, a => match meaning nil (a.enter nil decl).names p (a.enter nil decl) with
    | (.value v, a2) => meaning nil known (k v) a2
    | (r, a2) => (r, a2)

/-- Assign variable number `i` of the frame `d` around the binding. -/
def Scopes.assignAt (a : Scopes V) (d i : Nat) (v : V) : Scopes V :=
  { a with outers := a.outers.modify d fun o => o.modify i fun e => (e.1, v) }

/-- What each operation should answer and do.  The names of variables are answered without repetition. -/
def answer (nil : V) (a : Scopes V) : Op V → Reply V × Scopes V
  | .eval decl p => let r := meaning nil (a.enter nil decl).names p (a.enter nil decl); (.res r.1, r.2)
  | .names => (.names (a.names.foldl (fun acc n => if acc.contains n then acc else acc ++ [n]) []), a)
  | .isDefined n => (.bool (a.names.contains n), a)
  | .assign d i v => (.done, a.assignAt d i v)
  | .read d i => match a.outers[d]? with
    | some o => match o[i]? with
      | some e => (.res (.value e.2), a)
      | none => (.res .undefined, a)
    | none => (.res .undefined, a)

def answers (nil : V) (a : Scopes V) : List (Op V) → List (Reply V)
  | [] => []
  | o :: os => (answer nil a o).1 :: answers nil (answer nil a o).2 os

/-- The frames of a method with these variables. -/
def frames (nil : V) (l : List (Vars V)) : List (Scope V) :=
  l.map fun o => ⟨o.map Prod.fst, fun i => (o[i]?.map Prod.snd).getD nil⟩

/-- The conditions under which the code is right (`nested`: this text has evaluated another one in the binding).
* A variable that was new beside another new one is not read before it is assigned.
* After a nested evaluation, a text calls no more methods written in Ruby.
* The binding never has more than 63 variables of its own. -/
def Careful (nil : V) : List Name → Bool → Prog V → Scopes V → Prop
  | _, _, .done _, _ => True
  | _, _, .raise, _ => True
  | known, nested, .get n k, a => n ∉ a.unset ∧ ∀ v, a.lookup n = some v → Careful nil known nested (k v) a
  | known, nested, .set n v k, a => Careful nil known nested k (a.assign n v)
  | known, nested, .call k, a => nested = false ∧ Careful nil known nested k a
  | known, _, .eval decl p k, a =>
    (a.enter nil decl).own.length ≤ 63 ∧
    Careful nil (a.enter nil decl).names false p (a.enter nil decl) ∧
    ∀ v a2, meaning nil (a.enter nil decl).names p (a.enter nil decl) = (.value v, a2) →
      Careful nil known true (k v) a2

/-- Histories that meet the conditions. -/
def CarefulOps (nil : V) (a : Scopes V) : List (Op V) → Prop
  | [] => True
  | o :: os => (match o with
    | .eval decl p => (a.enter nil decl).own.length ≤ 63 ∧
        Careful nil (a.enter nil decl).names false p (a.enter nil decl)
    | _ => True) ∧ CarefulOps nil (answer nil a o).2 os

/-! ## Helpers -/

theorem copyWords_spec (m : Nat → V) : ∀ (n old new : Nat), new ≤ old →
    (∀ j, j < n → copyWords m old new n (new + j) = m (old + j)) ∧
    (∀ x, x < new ∨ new + n ≤ x → copyWords m old new n x = m x) := by
  intro n
  induction n generalizing m with
  | zero => exact fun old new _ => ⟨fun j h => by omega, fun x _ => rfl⟩
  | succ n ih =>
    intro old new h
    obtain ⟨h1, h2⟩ := ih (upd m new (m old)) (old + 1) (new + 1) (by omega)
    refine ⟨fun j hj => ?_, fun x hx => ?_⟩
    · rw [copyWords]
      cases j with
      | zero =>
        rw [h2 _ (by omega)]
        simp [upd]
      | succ j =>
        have := h1 j (by omega)
        rw [show new + (j + 1) = new + 1 + j by omega, this]
        simp only [upd]
        rw [if_neg (by omega)]
        congr 1
        omega
    · rw [copyWords]
      rw [h2 x (by omega)]
      simp only [upd]
      rw [if_neg (by omega)]

theorem fillWords_spec (nil : V) (new : Nat) : ∀ (n : Nat) (m : Nat → V) (x : Nat),
    fillWords nil m new n x = if x = new ∧ 0 < n then nil else m x := by
  intro n
  induction n with
  | zero => intro m x; simp [fillWords]
  | succ n ih =>
    intro m x
    rw [fillWords, ih]
    by_cases h : x = new
    · subst h
      simp [upd]
    · simp [h, upd]

def OuterRel (o : Scope V) (o' : Vars V) : Prop :=
  o.table = o'.map Prod.fst ∧ ∀ i (h : i < o'.length), o.vals i = o'[i].2

structure Rel (s : St V) (a : Scopes V) : Prop where
  tbl : s.table = a.own.map Prod.fst
  len : s.len = a.own.length
  small : s.len ≤ 63
  mem : ∀ i (h : i < a.own.length), a.own[i].1 ∉ a.unset → s.mem (64 - s.len + i) = a.own[i].2
  outers : List.Forall₂ OuterRel s.outers a.outers
  nodup : (a.own.map Prod.fst).Nodup
  disj : ∀ n ∈ a.own.map Prod.fst, n ∉ a.outers.flatten.map Prod.fst

theorem lookup_isSome (l : Vars V) (n : Name) : (l.lookup n).isSome = (l.map Prod.fst).contains n := by
  induction l with
  | nil => rfl
  | cons e l ih =>
    obtain ⟨m, v⟩ := e
    simp only [List.lookup, List.map_cons, List.contains_cons]
    by_cases h : n = m
    · subst h; simp
    · have : (n == m) = false := by simpa using h
      rw [this]; simpa using ih

theorem lookup_idx {l : Vars V} {n : Name} {i : Nat} (h : lvarid (l.map Prod.fst) n = some i) :
    ∃ hi : i < l.length, l[i].1 = n ∧ l.lookup n = some l[i].2 := by
  induction l generalizing i with
  | nil => cases h
  | cons e l ih =>
    obtain ⟨m, v⟩ := e
    simp only [lvarid, List.map_cons, List.findIdx?_cons] at h
    by_cases hm : m = n
    · subst hm
      simp at h
      subst h
      exact ⟨by simp, rfl, by simp [List.lookup]⟩
    · have e1 : (m == n) = false := by simpa using hm
      have e2 : (n == m) = false := by simpa using Ne.symm hm
      rw [e1] at h
      simp only [Bool.false_eq_true, if_false, Option.map_eq_some_iff] at h
      obtain ⟨j, hj, rfl⟩ := h
      obtain ⟨h1, h2, h3⟩ := ih hj
      exact ⟨by simpa using h1, by simpa using h2, by simp [List.lookup, e2, h3]⟩

theorem lvarid_none {t : List Name} {n : Name} : lvarid t n = none ↔ n ∉ t := by
  simp only [lvarid, List.findIdx?_eq_none_iff]
  constructor
  · intro h hn
    have := h n hn
    simp at this
  · intro h x hx
    simp only [beq_eq_false_iff_ne, ne_eq]
    rintro rfl
    exact h hx

theorem lookup_none {l : Vars V} {n : Name} : l.lookup n = none ↔ n ∉ l.map Prod.fst := by
  have := lookup_isSome l n
  rw [← Option.not_isSome_iff_eq_none, this]
  simp

theorem lookup_append (l l' : Vars V) (n : Name) : (l ++ l').lookup n = (l.lookup n).or (l'.lookup n) := by
  induction l with
  | nil => rfl
  | cons e l ih =>
    obtain ⟨m, v⟩ := e
    by_cases h : n = m
    · subst h; simp [List.lookup]
    · have e2 : (n == m) = false := by simpa using h
      simp [List.lookup, e2, ih]

theorem assign_idx {l : Vars V} {n : Name} {i : Nat} {v : V} (h : lvarid (l.map Prod.fst) n = some i) :
    l.assign n v = l.set i (n, v) := by
  induction l generalizing i with
  | nil => cases h
  | cons e l ih =>
    obtain ⟨m, w⟩ := e
    simp only [lvarid, List.map_cons, List.findIdx?_cons] at h
    by_cases hm : m = n
    · subst hm
      simp at h
      subst h
      simp [Vars.assign]
    · have e1 : (m == n) = false := by simpa using hm
      rw [e1] at h
      simp only [Bool.false_eq_true, if_false, Option.map_eq_some_iff] at h
      obtain ⟨j, hj, rfl⟩ := h
      simp [Vars.assign, hm, ih hj]

/-- A variable of a surrounding frame. -/
theorem externVar_spec {os : List (Scope V)} {as : List (Vars V)} (R : List.Forall₂ OuterRel os as) (n : Name) : ∀ k,
    (externVar os n k = none ∧ n ∉ as.flatten.map Prod.fst) ∨
    ∃ d i o, externVar os n k = some (k + d, i) ∧ os[d]? = some o ∧ as.flatten.lookup n = some (o.vals i) ∧
      ∀ v, List.Forall₂ OuterRel (setOuter os d i v) (assignFirst n v as) := by
  induction R with
  | nil => exact fun k => .inl ⟨rfl, by simp⟩
  | @cons o o' os as h R ih =>
    intro k
    simp only [externVar]
    rcases hl : lvarid o.table n with _ | i
    · have hn := lvarid_none.1 hl
      rw [h.1] at hn
      rcases ih (k + 1) with ⟨h1, h2⟩ | ⟨d, i, q, h1, h2, h3, h4⟩
      · refine .inl ⟨h1, ?_⟩
        simp only [List.flatten_cons, List.map_append, List.mem_append, not_or]
        exact ⟨hn, h2⟩
      · refine .inr ⟨d + 1, i, q, ?_, by simpa using h2, ?_, fun v => ?_⟩
        · simp only [h1]; congr 2; omega
        · rw [List.flatten_cons, lookup_append, lookup_none.2 hn]; simpa using h3
        · simp only [setOuter, assignFirst]
          rw [if_neg hn]
          exact .cons h (h4 v)
    · have hl' := hl
      rw [h.1] at hl'
      obtain ⟨h1, h2, h3⟩ := lookup_idx hl'
      refine .inr ⟨0, i, o, by simp, rfl, ?_, fun v => ?_⟩
      · rw [List.flatten_cons, lookup_append, h3, h.2 i h1]; rfl
      · simp only [setOuter, assignFirst]
        have hin : n ∈ o'.map Prod.fst := by
          rw [← h2]; exact List.mem_map.2 ⟨_, List.getElem_mem h1, rfl⟩
        rw [if_pos hin]
        refine .cons ?_ R
        have ea : o'.assign n v = o'.set i (n, v) := assign_idx hl'
        refine ⟨?_, fun j hj => ?_⟩
        · rw [ea, List.map_set, h.1]
          apply List.ext_getElem (by simp)
          intro j hj _
          rw [List.getElem_set]
          split
          · rename_i hij; subst hij; simpa using h2
          · rfl
        · have hj' : j < o'.length := by simpa [ea] using hj
          simp only [ea, List.getElem_set, upd]
          by_cases hij : j = i
          · subst hij; simp
          · rw [if_neg hij, if_neg (Ne.symm hij)]; exact h.2 j hj'


theorem outer_names {os : List (Scope V)} {as : List (Vars V)} (R : List.Forall₂ OuterRel os as) (n : Name) :
    (os.any fun o => o.table.contains n) = (as.flatten.map Prod.fst).contains n := by
  induction R with
  | nil => rfl
  | cons h _ ih =>
    rw [List.any_cons, List.flatten_cons, List.map_append, ih, h.1, Bool.eq_iff_iff]
    simp

theorem isLocal_lookup {t : List Name} {os : List (Scope V)} {a : Scopes V} (ht : t = a.own.map Prod.fst)
    (R : List.Forall₂ OuterRel os a.outers) (n : Name) : isLocal t os n = (a.lookup n).isSome := by
  unfold isLocal Scopes.lookup
  rw [lookup_isSome, outer_names R, ht, List.map_append, Bool.eq_iff_iff]
  simp

theorem isLocal_names {t : List Name} {os : List (Scope V)} {a : Scopes V} (ht : t = a.own.map Prod.fst)
    (R : List.Forall₂ OuterRel os a.outers) (n : Name) : a.names.contains n = isLocal t os n := by
  rw [isLocal_lookup ht R]
  unfold Scopes.lookup Scopes.names
  rw [lookup_isSome]

theorem declare_spec (nil : V) {os : List (Scope V)} : ∀ (decl : List Name) (a : Scopes V) (t : List Name),
    t = a.own.map Prod.fst → List.Forall₂ OuterRel os a.outers → (a.own.map Prod.fst).Nodup →
    (∀ n ∈ a.own.map Prod.fst, n ∉ a.outers.flatten.map Prod.fst) →
    ∃ new : List Name, (a.declare nil decl).own = a.own ++ new.map (·, nil) ∧ (a.declare nil decl).outers = a.outers ∧
      parse t os decl = (a.declare nil decl).own.map Prod.fst ∧
      ((a.declare nil decl).own.map Prod.fst).Nodup ∧
      ∀ n ∈ (a.declare nil decl).own.map Prod.fst, n ∉ a.outers.flatten.map Prod.fst
  | [], a, t, ht, R, hn, hd => ⟨[], by simp [Scopes.declare], rfl, ht, hn, hd⟩
  | n :: decl, a, t, ht, R, hn, hd => by
    rw [Scopes.declare, parse, isLocal_lookup ht R]
    rcases hl : a.lookup n with _ | v
    · have hl' := hl
      unfold Scopes.lookup at hl'
      rw [lookup_none, List.map_append, List.mem_append, not_or] at hl'
      obtain ⟨new, h1, h2, h3, h4, h5⟩ := declare_spec nil decl { a with own := a.own ++ [(n, nil)] } (t ++ [n])
        (by simp [ht]) R (by
          rw [List.map_append, List.nodup_append]
          refine ⟨hn, by simp, ?_⟩
          intro x hx y hy
          simp only [List.map_cons, List.map_nil, List.mem_singleton] at hy
          subst hy
          rintro rfl
          exact hl'.1 hx) (by
          intro m hm
          rw [List.map_append, List.mem_append] at hm
          rcases hm with hm | hm
          · exact hd m hm
          · simp only [List.map_cons, List.map_nil, List.mem_singleton] at hm
            subst hm
            exact hl'.2)
      refine ⟨n :: new, ?_, h2, ?_, h4, h5⟩
      · simp only [h1]; simp
      · simpa using h3
    · simpa using declare_spec nil decl a t ht R hn hd

theorem enter_spec {nil : V} {s : St V} {a : Scopes V} (R : Rel s a) {decl : List Name}
    (h : (a.enter nil decl).own.length ≤ 63) :
    ∃ s1, set_iseq nil s (parse s.table s.outers decl) = .ok s1 ∧ Rel s1 (a.enter nil decl) ∧ s1.outers = s.outers ∧
      s.table <+: s1.table := by
  obtain ⟨new, h1, h2, h3, h4, h5⟩ := declare_spec nil decl a s.table R.tbl R.outers R.nodup R.disj
  have hlen : (a.declare nil decl).own.length = a.own.length + new.length := by rw [h1]; simp
  have hle : (a.declare nil decl).own.length ≤ 63 := h
  have hp : (parse s.table s.outers decl).length = a.own.length + new.length := by rw [h3, List.length_map, hlen]
  unfold set_iseq
  simp only [hp]
  rw [if_neg (by rw [R.len]; omega), if_neg (by omega)]
  refine ⟨_, rfl, ⟨h3, ?_, ?_, ?_, ?_, h4, ?_⟩, rfl, ?_⟩
  · exact hlen.symm
  · show a.own.length + new.length ≤ 63
    omega
  · intro i hi hu
    have hi : i < (a.declare nil decl).own.length := hi
    have hu : (a.declare nil decl).own[i].1 ∉
      a.unset ++ ((a.declare nil decl).own.drop (a.own.length + 1)).map Prod.fst := hu
    show fillWords nil _ _ _ (64 - (a.own.length + new.length) + i) = (a.declare nil decl).own[i].2
    obtain ⟨c1, c2⟩ := copyWords_spec s.mem (s.len + 1) (63 - s.len) (63 - (a.own.length + new.length)) (by rw [R.len]; omega)
    rw [fillWords_spec]
    have hl := R.len
    have hs := R.small
    by_cases hi' : i < a.own.length
    · rw [if_neg (by omega)]
      have := c1 (i + 1) (by omega)
      rw [show 64 - (a.own.length + new.length) + i = 63 - (a.own.length + new.length) + (i + 1) by omega, this]
      have e : (a.declare nil decl).own[i] = a.own[i] := by
        simp only [h1]; exact List.getElem_append_left hi'
      rw [e, show 63 - s.len + (i + 1) = 64 - s.len + i by omega]
      refine R.mem i hi' ?_
      rw [e] at hu
      exact fun hh => hu (List.mem_append_left _ hh)
    · have e : (a.declare nil decl).own[i].2 = nil := by
        simp only [h1]
        rw [List.getElem_append_right (by omega)]
        simp
      rw [e]
      by_cases hi2 : i = a.own.length
      · rw [if_pos (by omega)]
      · exfalso
        apply hu
        refine List.mem_append_right _ (List.mem_map.2 ⟨_, ?_, rfl⟩)
        rw [List.mem_iff_getElem]
        exact ⟨i - (a.own.length + 1), by rw [List.length_drop]; omega, by
          rw [List.getElem_drop]
          congr 1
          omega⟩
  · show List.Forall₂ OuterRel s.outers (a.declare nil decl).outers
    rw [h2]; exact R.outers
  · intro n hn
    show n ∉ (a.declare nil decl).outers.flatten.map Prod.fst
    rw [h2]
    exact h5 n hn
  · show s.table <+: parse s.table s.outers decl
    rw [h3, h1, R.tbl, List.map_append]
    exact List.prefix_append _ _

/-- The variable a name stands for, in the code and in the specification. -/
theorem resolve_spec {s : St V} {a : Scopes V} (R : Rel s a) {t : List Name} (ht : t <+: s.table) (n : Name) :
    (resolve t s.outers n = none ∧ isLocal t s.outers n = false) ∨
    (isLocal t s.outers n = true ∧
      ((∃ i, ∃ h : i < a.own.length, resolve t s.outers n = some (0, i) ∧ a.own[i].1 = n ∧ a.lookup n = some a.own[i].2 ∧
          n ∈ a.own.map Prod.fst ∧ ∀ v, a.own.assign n v = a.own.set i (n, v)) ∨
       ∃ d i o, resolve t s.outers n = some (d + 1, i) ∧ s.outers[d]? = some o ∧ a.lookup n = some (o.vals i) ∧
          n ∉ a.own.map Prod.fst ∧ ∀ v, List.Forall₂ OuterRel (setOuter s.outers d i v) (assignFirst n v a.outers))) := by
  unfold resolve
  rcases hl : lvarid t n with _ | i
  · have hn := lvarid_none.1 hl
    rcases externVar_spec R.outers n 1 with ⟨h1, h2⟩ | ⟨d, i, o, h1, h2, h3, h4⟩
    · refine .inl ⟨h1, ?_⟩
      unfold isLocal
      rw [outer_names R.outers, Bool.eq_false_iff]
      intro h
      simp only [Bool.or_eq_true, List.contains_iff_mem] at h
      exact h.elim hn h2
    · have hin : n ∈ a.outers.flatten.map Prod.fst := by
        have := lookup_isSome a.outers.flatten n
        rw [h3] at this
        simpa using this.symm
      have hno : n ∉ a.own.map Prod.fst := fun h => R.disj n h hin
      refine .inr ⟨?_, .inr ⟨d, i, o, ?_, h2, ?_, hno, h4⟩⟩
      · unfold isLocal
        rw [outer_names R.outers]
        simp only [Bool.or_eq_true, List.contains_iff_mem]
        exact .inr hin
      · simp only [h1]; rw [Nat.add_comm]
      · unfold Scopes.lookup
        rw [lookup_append, lookup_none.2 hno, h3]; rfl
  · have hs : lvarid s.table n = some i := by
      obtain ⟨l, hl'⟩ := ht
      rw [← hl']
      unfold lvarid at hl ⊢
      rw [List.findIdx?_append, hl]; rfl
    rw [R.tbl] at hs
    obtain ⟨h1, h2, h3⟩ := lookup_idx hs
    have hin : n ∈ a.own.map Prod.fst := by
      rw [← h2]; exact List.mem_map.2 ⟨_, List.getElem_mem h1, rfl⟩
    refine .inr ⟨?_, .inl ⟨i, h1, rfl, h2, ?_, hin, fun v => assign_idx hs⟩⟩
    · unfold isLocal
      have : n ∈ t := by
        by_contra hh
        rw [lvarid_none.2 hh] at hl
        cases hl
      simp [this]
    · unfold Scopes.lookup
      rw [lookup_append, h3]; rfl

theorem tables_eq {os os' : List (Scope V)} {as as' : List (Vars V)} (R : List.Forall₂ OuterRel os as)
    (R' : List.Forall₂ OuterRel os' as') (h : as.flatten.map Prod.fst = as'.flatten.map Prod.fst) (t : List Name) (n : Name) :
    isLocal t os n = isLocal t os' n := by
  unfold isLocal
  rw [outer_names R, outer_names R', h]

theorem assignVars_names (n : Name) (v : V) (l : Vars V) : (l.assign n v).map Prod.fst = l.map Prod.fst := by
  induction l with
  | nil => rfl
  | cons e l ih =>
    obtain ⟨m, w⟩ := e
    simp only [Vars.assign]
    split
    · rfl
    · simp [ih]

theorem assignFirst_names (n : Name) (v : V) (as : List (Vars V)) :
    (assignFirst n v as).flatten.map Prod.fst = as.flatten.map Prod.fst := by
  induction as with
  | nil => rfl
  | cons o os ih =>
    simp only [assignFirst]
    split
    · simp only [List.flatten_cons, List.map_append, assignVars_names]
    · simp only [List.flatten_cons, List.map_append, ih]

theorem assign_rel {s : St V} {a : Scopes V} (R : Rel s a) {n : Name} {v : V} :
    (∀ i (h : i < a.own.length), a.own[i].1 = n → n ∈ a.own.map Prod.fst → (∀ v, a.own.assign n v = a.own.set i (n, v)) →
      Rel { s with mem := upd s.mem (64 - s.len + i) v } (a.assign n v)) ∧
    (∀ d i, n ∉ a.own.map Prod.fst → (∀ v, List.Forall₂ OuterRel (setOuter s.outers d i v) (assignFirst n v a.outers)) →
      Rel { s with outers := setOuter s.outers d i v } (a.assign n v)) := by
  constructor
  · intro i h hn hin ha
    have e : a.assign n v = ⟨a.own.set i (n, v), a.outers, a.unset.filter (· ≠ n)⟩ := by
      unfold Scopes.assign
      rw [if_pos hin, ← ha v]
    have en : (a.own.set i (n, v)).map Prod.fst = a.own.map Prod.fst := by rw [← ha v, assignVars_names]
    rw [e]
    refine ⟨R.tbl.trans en.symm, R.len.trans (by simp), R.small, ?_, R.outers, by rw [en]; exact R.nodup, by
      intro m hm
      simp only [en] at hm
      exact R.disj m hm⟩
    intro j hj hu
    have hj' : j < a.own.length := by simpa using hj
    have hl := R.len
    have hs := R.small
    simp only [upd, List.getElem_set]
    by_cases hij : j = i
    · subst hij; simp
    · rw [if_neg (by omega), if_neg (Ne.symm hij)]
      refine R.mem j hj' fun hm => hu ?_
      simp only [List.getElem_set, if_neg (Ne.symm hij)]
      rw [List.mem_filter]
      refine ⟨hm, ?_⟩
      have : a.own[j].1 ≠ n := fun hh => by
        have e1 : (a.own.map Prod.fst)[j]'(by simpa using hj') = (a.own.map Prod.fst)[i]'(by simpa using h) := by
          simp [hh, hn]
        exact hij ((List.Nodup.getElem_inj_iff R.nodup).1 e1)
      simpa using this
  · intro d i hno hf
    have e : a.assign n v = ⟨a.own, assignFirst n v a.outers, a.unset.filter (· ≠ n)⟩ := by
      unfold Scopes.assign
      rw [if_neg hno]
    rw [e]
    refine ⟨R.tbl, R.len, R.small, ?_, hf v, R.nodup, ?_⟩
    · intro j hj hu
      refine R.mem j hj fun hm => hu ?_
      rw [List.mem_filter]
      refine ⟨hm, ?_⟩
      have : a.own[j].1 ≠ n := fun hh => hno (by rw [← hh]; exact List.mem_map.2 ⟨_, List.getElem_mem hj, rfl⟩)
      simpa using this
    · intro m hm
      show m ∉ (assignFirst n v a.outers).flatten.map Prod.fst
      rw [assignFirst_names]
      exact R.disj m hm

theorem assign_outer_names (a : Scopes V) (n : Name) (v : V) :
    (a.assign n v).outers.flatten.map Prod.fst = a.outers.flatten.map Prod.fst := by
  unfold Scopes.assign
  simp only
  split
  · rfl
  · exact assignFirst_names _ _ _

/-- Running a text does what it means. -/
theorem run_spec {nil : V} (p : Prog V) : ∀ {t : List Name} {id : Nat} {nested : Bool} {s : St V} {a : Scopes V} {known : List Name},
    Rel s a → t <+: s.table → (∀ n, known.contains n = isLocal t s.outers n) → (nested = false → s.iseq = id) →
    Careful nil known nested p a →
    (run nil t id p s).1 = (meaning nil known p a).1 ∧ Rel (run nil t id p s).2 (meaning nil known p a).2 ∧
      s.table <+: (run nil t id p s).2.table ∧
      (meaning nil known p a).2.outers.flatten.map Prod.fst = a.outers.flatten.map Prod.fst := by
  induction p with
  | done v => intro t id nested s a known R _ _ _ _; exact ⟨rfl, R, List.prefix_refl _, rfl⟩
  | raise => intro t id nested s a known R _ _ _ _; exact ⟨rfl, R, List.prefix_refl _, rfl⟩
  | get n k ih =>
    intro t id nested s a known R ht hk hn hc
    obtain ⟨hu, hc⟩ := hc
    rw [run, meaning, hk]
    rcases resolve_spec R ht n with ⟨h1, h2⟩ | ⟨h2, ⟨i, hi, h1, h3, h4, _, _⟩ | ⟨d, i, o, h1, h3, h4, _, _⟩⟩
    · rw [h1, h2]
      exact ⟨rfl, R, List.prefix_refl _, rfl⟩
    · rw [h1, h2, h4]
      have := R.mem i hi (by rw [h3]; exact hu)
      simp only [this]
      exact ih _ R ht hk hn (hc _ h4)
    · rw [h1, h2, h4]
      simp only [h3]
      exact ih _ R ht hk hn (hc _ h4)
  | set n v k ih =>
    intro t id nested s a known R ht hk hn hc
    rw [run, meaning, hk]
    rcases resolve_spec R ht n with ⟨h1, h2⟩ | ⟨h2, ⟨i, hi, h1, h3, h4, h5, h6⟩ | ⟨d, i, o, h1, h3, h4, h5, h6⟩⟩
    · rw [h1, h2]
      exact ⟨rfl, R, List.prefix_refl _, rfl⟩
    · rw [h1, h2]
      have R' := (assign_rel R (n := n) (v := v)).1 i hi h3 h5 h6
      have := ih R' ht hk hn hc
      exact ⟨this.1, this.2.1, this.2.2.1, this.2.2.2.trans (assign_outer_names a n v)⟩
    · rw [h1, h2]
      have R' := (assign_rel R (n := n) (v := v)).2 d i h5 h6
      have := ih R' ht (fun m => (hk m).trans (tables_eq R.outers R'.outers (assign_outer_names a n v).symm t m)) hn hc
      exact ⟨this.1, this.2.1, this.2.2.1, this.2.2.2.trans (assign_outer_names a n v)⟩
  | call k ih =>
    intro t id nested s a known R ht hk hn hc
    rw [run, meaning, if_pos (hn hc.1)]
    exact ih R ht hk hn hc.2
  | eval decl p k ihp ihk =>
    intro t id nested s a known R ht hk hn hc
    obtain ⟨h63, hp, hkc⟩ := hc
    obtain ⟨s1, e1, R1, ho, hpre⟩ := enter_spec R h63
    rw [run, meaning, e1]
    simp only
    have hk1 : ∀ n, (a.enter nil decl).names.contains n = isLocal s1.table s1.outers n :=
      fun n => isLocal_names R1.tbl R1.outers n
    obtain ⟨r1, r2, r3, r4⟩ := ihp R1 (List.prefix_refl _) hk1 (fun _ => rfl) hp
    have hon : (a.enter nil decl).outers = a.outers :=
      (declare_spec nil decl a s.table R.tbl R.outers R.nodup R.disj).choose_spec.2.1
    rw [hon] at r4
    rcases hr : run nil s1.table s1.iseq p s1 with ⟨r, s2⟩
    rcases hm : meaning nil (a.enter nil decl).names p (a.enter nil decl) with ⟨r', a2⟩
    rw [hr, hm] at r1 r2
    rw [hr] at r3
    rw [hm] at r4
    simp only at r1 r2 r3 r4
    subst r1
    have ht2 : s.table <+: s2.table := hpre.trans r3
    cases r with
    | value v =>
      have := ihk v (nested := true) r2 (ht.trans ht2)
        (fun n => (hk n).trans (tables_eq R.outers r2.outers r4.symm t n)) (fun h => by cases h) (hkc v a2 hm) (id := id)
      exact ⟨this.1, this.2.1, ht2.trans this.2.2.1, this.2.2.2.trans r4⟩
    | _ => exact ⟨rfl, r2, ht2, r4⟩


theorem frames_rel (nil : V) (l : List (Vars V)) : List.Forall₂ OuterRel (frames nil l) l := by
  induction l with
  | nil => exact .nil
  | cons o l ih => exact .cons ⟨rfl, fun i h => by simp [h]⟩ ih

theorem setOuter_rel {os : List (Scope V)} {as : List (Vars V)} (R : List.Forall₂ OuterRel os as) (i : Nat) (v : V) :
    ∀ d, List.Forall₂ OuterRel (setOuter os d i v) (as.modify d fun o => o.modify i fun e => (e.1, v)) ∧
      (as.modify d fun o => o.modify i fun e => (e.1, v)).flatten.map Prod.fst = as.flatten.map Prod.fst := by
  induction R with
  | nil => intro d; cases d <;> exact ⟨.nil, rfl⟩
  | @cons o o' os as h R ih =>
    intro d
    have names : (o'.modify i fun e => (e.1, v)).map Prod.fst = o'.map Prod.fst := by
      apply List.ext_getElem (by simp)
      intro j hj _
      simp only [List.getElem_map, List.getElem_modify]
      split <;> rfl
    cases d with
    | zero =>
      simp only [setOuter, List.modify_zero_cons]
      refine ⟨.cons ⟨by rw [names]; exact h.1, fun j hj => ?_⟩ R, by simp [names]⟩
      simp only [upd, List.getElem_modify]
      by_cases hij : j = i
      · subst hij; simp
      · rw [if_neg hij, if_neg (Ne.symm hij)]
        exact h.2 j (by simpa using hj)
    | succ d =>
      simp only [setOuter, List.modify_succ_cons]
      refine ⟨.cons h (ih d).1, ?_⟩
      rw [List.flatten_cons, List.map_append, (ih d).2, List.flatten_cons, List.map_append]

theorem outer_tables {os : List (Scope V)} {as : List (Vars V)} (R : List.Forall₂ OuterRel os as) :
    (os.map (·.table)).flatten = as.flatten.map Prod.fst := by
  induction R with
  | nil => rfl
  | cons h _ ih => rw [List.map_cons, List.flatten_cons, ih, h.1, List.flatten_cons, List.map_append]

theorem outer_at {os : List (Scope V)} {as : List (Vars V)} (R : List.Forall₂ OuterRel os as) : ∀ d : Nat,
    (os[d]? = none ∧ as[d]? = none) ∨ ∃ o o', os[d]? = some o ∧ as[d]? = some o' ∧ OuterRel o o' := by
  induction R with
  | nil => intro d; exact .inl ⟨rfl, rfl⟩
  | @cons o o' _ _ h _ ih =>
    intro d
    cases d with
    | zero => exact .inr ⟨o, o', rfl, rfl, h⟩
    | succ d => simpa using ih d

theorem mem_uniq (l : List Name) : ∀ (acc : List Name) (n : Name),
    n ∈ l.foldl (fun acc n => if acc.contains n then acc else acc ++ [n]) acc ↔ n ∈ acc ∨ n ∈ l := by
  induction l with
  | nil => intro acc n; simp
  | cons m l ih =>
    intro acc n
    rw [List.foldl_cons, ih]
    split
    · rename_i h
      have h : m ∈ acc := by simpa using h
      simp only [List.mem_cons]
      constructor
      · tauto
      · rintro (h' | rfl | h')
        · exact .inl h'
        · exact .inl h
        · exact .inr h'
    · simp only [List.mem_append, List.mem_singleton, List.mem_cons]
      tauto

theorem runs_spec {nil : V} : ∀ (ops : List (Op V)) {s : St V} {a : Scopes V}, Rel s a → CarefulOps nil a ops →
    runs nil s ops = answers nil a ops
  | [], _, _, _, _ => rfl
  | o :: ops, s, a, R, hc => by
    obtain ⟨hc1, hc2⟩ := hc
    have nm : local_variables s = a.names.foldl (fun acc n => if acc.contains n then acc else acc ++ [n]) [] := by
      unfold local_variables Scopes.names
      rw [R.tbl, outer_tables R.outers, List.map_append]
    rw [runs, answers]
    suffices h : (step nil s o).1 = (answer nil a o).1 ∧ Rel (step nil s o).2 (answer nil a o).2 by
      rw [h.1, runs_spec ops h.2 hc2]
    cases o with
    | eval decl p =>
      obtain ⟨s1, e1, R1, ho, hpre⟩ := enter_spec R hc1.1
      simp only [step, answer, e1]
      have := run_spec p (id := s1.iseq) R1 (List.prefix_refl _) (fun n => isLocal_names R1.tbl R1.outers n) (fun _ => rfl) hc1.2
      exact ⟨by rw [this.1], this.2.1⟩
    | names => exact ⟨by simp only [step, answer, nm], R⟩
    | isDefined n =>
      refine ⟨?_, R⟩
      simp only [step, answer, nm, Reply.bool.injEq]
      rw [Bool.eq_iff_iff, List.contains_iff_mem, mem_uniq]
      simp
    | assign d i v =>
      obtain ⟨h1, h2⟩ := setOuter_rel R.outers i v d
      refine ⟨rfl, ⟨R.tbl, R.len, R.small, R.mem, h1, R.nodup, fun n hn => ?_⟩⟩
      show n ∉ (a.outers.modify d fun o => o.modify i fun e => (e.1, v)).flatten.map Prod.fst
      rw [h2]
      exact R.disj n hn
    | read d i =>
      rcases outer_at R.outers d with ⟨h1, h2⟩ | ⟨o, o', h1, h2, h3⟩
      · simp only [step, answer, h1, h2]; exact ⟨by simp, R⟩
      · simp only [step, answer, h1, h2]
        by_cases hi : i < o'.length
        · rw [if_pos (by rw [h3.1]; simpa using hi), List.getElem?_eq_getElem hi, h3.2 i hi]
          exact ⟨by simp, R⟩
        · rw [if_neg (by rw [h3.1]; simpa using hi), List.getElem?_eq_none (by omega)]
          exact ⟨by simp, R⟩

theorem create_rel (nil me : V) (l : List (Vars V)) : Rel (create nil me (frames nil l)) ⟨[], l, []⟩ :=
  ⟨rfl, rfl, Nat.zero_le _, fun i h => absurd h (Nat.not_lt_zero i), frames_rel nil l, List.nodup_nil, fun _ hn => nomatch hn⟩

/-- Texts that evaluate no further text. -/
def Plain : Prog V → Prop
  | .done _ => True
  | .raise => True
  | .get _ k => ∀ v, Plain (k v)
  | .set _ _ k => Plain k
  | .call k => Plain k
  | .eval .. => False

theorem plain_careful {nil : V} (p : Prog V) : ∀ {known : List Name} {a : Scopes V}, Plain p → a.unset = [] →
    Careful nil known false p a ∧ (meaning nil known p a).2.unset = [] ∧
      (meaning nil known p a).2.own.length = a.own.length := by
  induction p with
  | done v => exact fun _ hu => ⟨trivial, hu, rfl⟩
  | raise => exact fun _ hu => ⟨trivial, hu, rfl⟩
  | get n k ih =>
    intro known a hp hu
    refine ⟨⟨by simp [hu], fun v _ => (ih v (hp v) hu).1⟩, ?_⟩
    rw [meaning]
    split
    · exact (ih _ (hp _) hu).2
    · exact ⟨hu, rfl⟩
  | set n v k ih =>
    intro known a hp hu
    have hu' : (a.assign n v).unset = [] := by
      unfold Scopes.assign
      simp only [hu]
      split <;> rfl
    have hl : (a.assign n v).own.length = a.own.length := by
      unfold Scopes.assign
      simp only
      split
      · have := congrArg List.length (assignVars_names n v a.own)
        simpa using this
      · rfl
    have := ih (known := known) hp hu'
    refine ⟨this.1, ?_⟩
    rw [meaning]
    split
    · exact ⟨this.2.1, this.2.2.trans hl⟩
    · exact ⟨hu, rfl⟩
  | call k ih =>
    intro known a hp hu
    exact ⟨⟨rfl, (ih hp hu).1⟩, (ih hp hu).2⟩
  | eval => intro known a hp; cases hp

theorem declare_le (nil : V) : ∀ (decl : List Name) (a : Scopes V),
    (a.declare nil decl).own.length ≤ a.own.length + decl.length ∧ (a.declare nil decl).unset = a.unset
  | [], a => ⟨by simp [Scopes.declare], rfl⟩
  | n :: decl, a => by
    rw [Scopes.declare]
    split
    · exact ⟨Nat.le_trans (declare_le nil decl _).1 (by simp), (declare_le nil decl _).2⟩
    · exact ⟨Nat.le_trans (declare_le nil decl _).1 (by simp; omega), (declare_le nil decl _).2⟩

theorem simple_careful {nil : V} : ∀ (ops : List (Op V)) {a : Scopes V}, a.unset = [] → a.own.length + ops.length ≤ 63 →
    (∀ o ∈ ops, ∀ decl p, o = .eval decl p → decl.length ≤ 1 ∧ Plain p) → CarefulOps nil a ops
  | [], _, _, _, _ => trivial
  | o :: ops, a, hu, hl, hs => by
    simp only [List.length_cons] at hl
    have rest : ∀ b : Scopes V, b.unset = [] → b.own.length ≤ a.own.length + 1 → CarefulOps nil b ops := fun b h1 h2 =>
      simple_careful ops h1 (by omega) (fun o ho => hs o (List.mem_cons_of_mem _ ho))
    cases o with
    | eval decl p =>
      obtain ⟨h1, h2⟩ := hs _ (List.mem_cons_self ..) decl p rfl
      obtain ⟨d1, d2⟩ := declare_le nil decl a
      have eu : (a.enter nil decl).unset = [] := by
        show a.unset ++ ((a.declare nil decl).own.drop (a.own.length + 1)).map Prod.fst = []
        rw [hu, List.drop_eq_nil_of_le (by omega)]
        rfl
      have el : (a.enter nil decl).own.length ≤ a.own.length + 1 := by
        show (a.declare nil decl).own.length ≤ _
        omega
      obtain ⟨c1, c2, c3⟩ := plain_careful (nil := nil) (known := (a.enter nil decl).names) p h2 eu
      exact ⟨⟨by omega, c1⟩, rest _ c2 (by show List.length (meaning nil _ p _).2.own ≤ _; omega)⟩
    | names => exact ⟨trivial, rest _ hu (by simp [answer])⟩
    | isDefined n => exact ⟨trivial, rest _ hu (by simp [answer])⟩
    | assign d i v => exact ⟨trivial, rest _ hu (by simp [answer, Scopes.assignAt])⟩
    | read d i =>
      refine ⟨trivial, rest _ ?_ ?_⟩ <;> (simp only [answer]; split <;> try split) <;> first | exact hu | exact Nat.le_succ _

/-! ## C109 -/

/-- **C109**.  Whatever texts are evaluated in a binding, one after the other and inside one another, and whatever the
method does with its variables meanwhile: every text reads and assigns the variables of the method and those that
earlier texts made, names that texts assign stay variables of the binding, and the names of the variables are as told.
(Part: under the conditions of `CarefulOps`; the `_fails` theorems show that each is needed.) -/
theorem C109_eval_partial (nil me : V) (method : List (Vars V)) (ops : List (Op V))
    (h : CarefulOps nil ⟨[], method, []⟩ ops) :
    runs nil (create nil me (frames nil method)) ops = answers nil ⟨[], method, []⟩ ops :=
  runs_spec ops (create_rel nil me method) h

/-- The same for up to 63 operations with texts that make at most one new variable each and evaluate no further texts in
the binding: no other condition is needed. -/
theorem C109_one_new_variable_partial (nil me : V) (method : List (Vars V)) (ops : List (Op V)) (hl : ops.length ≤ 63)
    (hs : ∀ o ∈ ops, ∀ decl p, o = .eval decl p → decl.length ≤ 1 ∧ Plain p) :
    runs nil (create nil me (frames nil method)) ops = answers nil ⟨[], method, []⟩ ops :=
  C109_eval_partial nil me method ops (simple_careful ops rfl (by simpa using hl) hs)

/-- The answers by example: with the method's variable 7, `eval "x = y; y = 5; x"` where `y` (20) is the method's; `x`
(10) is there in the next text, `y` is changed for the method. -/
example : answers (0 : Nat) ⟨[], [[(20, 7)]], []⟩
    [.eval [10, 20] (.get 20 fun v => .set 10 v (.set 20 5 (.get 10 .done))), .eval [] (.get 10 .done), .read 0 0,
      .names, .isDefined 11] =
    [.res (.value 7), .res (.value 7), .res (.value 5), .names [10, 20], .bool false] := rfl

/-- The conditions are met by these operations, with nested evaluation and several new variables. -/
example : CarefulOps (0 : Nat) ⟨[], [[(20, 7)]], []⟩
    [.eval [10, 11] (.set 10 1 (.set 11 2 (.call (.eval [12] (.set 12 4 (.get 11 .done)) fun v => .set 10 v (.get 10 .done))))),
      .eval [] (.get 12 .done)] := by
  simp [CarefulOps, Careful, Scopes.enter, Scopes.declare, Scopes.lookup, Scopes.assign, Scopes.names, meaning, answer,
    Vars.assign, List.lookup]

example : runs (0 : Nat) (create 0 99 (frames 0 [[(20, 7)]]))
    [.eval [10, 11] (.set 10 1 (.set 11 2 (.call (.eval [12] (.set 12 4 (.get 11 .done)) fun v => .set 10 v (.get 10 .done))))),
      .eval [] (.get 12 .done)] = [.res (.value 2), .res (.value 4)] := by decide +kernel

/-- A second new variable of a text is not nil before it is assigned: in a fresh binding,
`binding.eval("a = 1 if false; b = 1 if false; b")` is self (vm/executor/frame.rs:340-342). -/
theorem C109_second_new_variable_fails (nil me : V) :
    runs nil (create nil me (frames nil [])) [.eval [0, 1] (.get 1 .done)] = [.res (.value me)] ∧
    answers nil ⟨[], [], []⟩ [.eval [0, 1] (.get 1 .done)] = [.res (.value nil)] := ⟨rfl, rfl⟩

example : runs (0 : Nat) (create 0 99 (frames 0 [])) [.eval [0, 1] (.get 1 .done)] = [.res (.value 99)] := by decide +kernel

/-- A 64th variable is written before the beginning of the binding's words. -/
theorem C109_many_variables_fails : ∃ ops : List (Op Nat),
    runs 0 (create 0 99 (frames 0 [])) ops = [.res .undefined] ∧ answers 0 ⟨[], [], []⟩ ops = [.res (.value 0)] :=
  ⟨[.eval (List.range 64) (.done 0)], by decide +kernel, by decide +kernel⟩

/-- A text that evaluates another in the same binding and then calls a method goes on in the other one's code
(vm/executor/frame.rs:646-648: the code of the environment, which the inner evaluation has replaced). -/
theorem C109_nested_call_fails : ∃ ops : List (Op Nat),
    runs 0 (create 0 99 (frames 0 [])) ops = [.res .wrongCode] ∧ answers 0 ⟨[], [], []⟩ ops = [.res (.value 2)] :=
  ⟨[.eval [] (.eval [] (.done 1) fun _ => .call (.done 2))], by decide +kernel, by decide +kernel⟩

end Verif.Eval
