import Verif.Ivar.Spec
import Mathlib.Data.List.Nodup
/-!
# Instance variables are independent per object and name (C57), class variables (C67)
-/
namespace Verif.Ivar

variable {V : Type}

def Table.WF (t : Table V) : Prop := (t.map Prod.fst).Nodup

theorem lookup_none {t : Table V} {n : Name} : List.lookup n t = none ↔ n ∉ t.map Prod.fst := by
  induction t with
  | nil => simp
  | cons e t ih =>
    obtain ⟨m, v⟩ := e
    by_cases h : n = m
    · subst h; simp
    · have : (n == m) = false := by simpa using h
      rw [List.lookup_cons, this]
      simp only [ih, List.map_cons, List.mem_cons, not_or]
      exact ⟨fun h' => ⟨h, h'⟩, fun h' => h'.2⟩

theorem lookup_map_put {t : Table V} {n m : Name} {v : V} (hn : n ∈ t.map Prod.fst) :
    List.lookup m (t.map (fun e => if e.1 = n then (n, v) else e)) = if m = n then some v else List.lookup m t := by
  induction t with
  | nil => simp at hn
  | cons e t ih =>
    obtain ⟨k, w⟩ := e
    rw [List.map_cons, List.lookup_cons, List.lookup_cons]
    by_cases hk : k = n
    · subst hk
      simp only [if_true]
      by_cases hm : m = k
      · subst hm; simp
      · have : (m == k) = false := by simpa using hm
        simp only [this, hm, if_false]
        clear ih hn
        induction t with
        | nil => simp
        | cons e t ih =>
          obtain ⟨a, b⟩ := e
          rw [List.map_cons, List.lookup_cons, List.lookup_cons]
          by_cases ha : a = k
          · subst ha; simp only [if_true, this]; exact ih
          · simp only [ha, if_false]; rw [ih]
    · simp only [hk, if_false]
      have hn' : n ∈ t.map Prod.fst := by
        simp only [List.map_cons, List.mem_cons] at hn
        rcases hn with h | h
        · exact absurd h.symm hk
        · exact h
      rw [ih hn']
      by_cases hm : m = n
      · subst hm
        have : (m == k) = false := by
          simp only [beq_eq_false_iff_ne]; exact fun h => hk h.symm
        simp [this]
      · simp [hm]

theorem Table.get_insert (t : Table V) (n m : Name) (v : V) :
    (t.insert n v).get m = if m = n then some v else t.get m := by
  unfold Table.insert Table.get
  split
  · rename_i h
    exact lookup_map_put (by simpa using h)
  · rw [List.lookup_cons]
    by_cases h : m = n
    · subst h; simp
    · have : (m == n) = false := by simpa using h
      simp [this, h]

theorem Table.WF.insert {t : Table V} (h : t.WF) (n : Name) (v : V) : (t.insert n v).WF := by
  unfold Table.insert
  split
  · unfold Table.WF at h ⊢
    rw [List.map_map]
    have : (Prod.fst ∘ fun (e : Name × V) => if e.1 = n then (n, v) else e) = Prod.fst := by
      funext e
      simp only [Function.comp]
      split
      · rename_i h; exact h.symm
      · rfl
    rw [this]; exact h
  · rename_i hn
    unfold Table.WF at h ⊢
    rw [List.map_cons, List.nodup_cons]
    exact ⟨by simpa using hn, h⟩

theorem RVal.get_set (r : RVal V) (n m : Name) (v : V) :
    (r.set_var n v).get_var m = if m = n then some v else r.get_var m := by
  unfold RVal.set_var
  cases ht : r.var_table with
  | none =>
    simp only [RVal.get_var, ht]
    rw [Table.get_insert]; rfl
  | some t =>
    simp only [RVal.get_var, ht]
    exact Table.get_insert ..

def RVal.WF (r : RVal V) : Prop := ∀ t, r.var_table = some t → t.WF

theorem RVal.WF.set {r : RVal V} (h : r.WF) (n : Name) (v : V) : (r.set_var n v).WF := by
  unfold RVal.set_var
  cases ht : r.var_table with
  | none =>
    intro t e; injection e with e; subst e
    exact Table.WF.insert (t := []) (by unfold Table.WF; exact List.nodup_nil) n v
  | some t' =>
    intro t e; injection e with e; subst e
    exact (h t' ht).insert n v

/-- the heap holds the variables of the store -/
structure Holds (h : Heap V) (s : Store V) : Prop where
  var : ∀ o n, (h.obj o).get_var n = s.var o n
  next : h.next = s.next
  wf : ∀ o, (h.obj o).WF

theorem Holds.write {h : Heap V} {s : Store V} (H : Holds h s) (o : Nat) (n : Name) (v : V) :
    Holds (h.put o ((h.obj o).set_var n v)) (s.write o n v) := by
  refine ⟨?_, H.next, ?_⟩
  · intro o' n'
    simp only [Heap.put, Store.write]
    by_cases ho : o' = o
    · subst ho
      simp only [if_true, RVal.get_set, true_and]
      rw [H.var]
    · simp only [ho, if_false, false_and]; exact H.var o' n'
  · intro o'
    simp only [Heap.put]
    split
    · exact (H.wf o).set n v
    · exact H.wf o'

theorem Holds.fresh {h : Heap V} {s : Store V} (H : Holds h s) (r : RVal V) (f : Name → Option V)
    (hr : ∀ n, r.get_var n = f n) (hw : r.WF) : Holds (h.alloc r).1 (s.fresh f) := by
  refine ⟨?_, by simp [Heap.alloc, Store.fresh, H.next], ?_⟩
  · intro o n
    simp only [Heap.alloc, Heap.put, Store.fresh, H.next]
    split
    · exact hr n
    · exact H.var o n
  · intro o
    simp only [Heap.alloc, Heap.put]
    split
    · exact hw
    · exact H.wf o

theorem Holds.writes {h : Heap V} {s : Store V} (H : Holds h s) (o : Nat) (l : List (Name × V)) :
    Holds (h.put o (l.foldl (fun r e => r.set_var (ivarName e.1) e.2) (h.obj o)))
      (l.foldl (fun s e => s.write o ('@' :: e.1) e.2) s) := by
  induction l generalizing h s with
  | nil =>
    have : h.put o (h.obj o) = h := by
      unfold Heap.put; congr 1; funext x; split
      · rename_i e; rw [e]
      · rfl
    rw [List.foldl_nil, List.foldl_nil, this]; exact H
  | cons e l ih =>
    have := ih (H.write o ('@' :: e.1) e.2)
    have e1 : (h.put o ((h.obj o).set_var ('@' :: e.1) e.2)).obj o = (h.obj o).set_var ('@' :: e.1) e.2 := by
      simp [Heap.put]
    rw [e1] at this
    have e2 : ∀ r r', (h.put o r).put o r' = h.put o r' := by
      intro r r'
      unfold Heap.put; congr 1; funext x
      by_cases hx : x = o <;> simp [hx]
    rw [e2] at this
    exact this

theorem step_spec (nil : V) {h : Heap V} {s : Store V} (H : Holds h s) (op : Op V) (ho : op.onObject) :
    ∃ s', Spec nil s op (step nil h op).2 s' ∧ Holds (step nil h op).1 s' := by
  cases op with
  | new =>
    refine ⟨s.fresh (fun _ => none), ?_, H.fresh ⟨none⟩ _ (fun _ => rfl) (fun t e => by cases e)⟩
    have : (step nil h (.new : Op V)).2 = .object (.obj s.next) := by simp [step, Heap.alloc, H.next]
    rw [this]; exact .new s
  | dup x =>
    cases x with
    | packed => exact absurd rfl ho
    | obj o =>
      refine ⟨s.fresh (s.var o), ?_, H.fresh ⟨(h.obj o).var_table⟩ _ (fun n => H.var o n) (H.wf o)⟩
      have : (step nil h (.dup (.obj o) : Op V)).2 = .object (.obj s.next) := by simp [step, Heap.alloc, H.next]
      rw [this]; exact .dup s o
  | get x n =>
    cases x with
    | packed => exact absurd rfl ho
    | obj o =>
      refine ⟨s, ?_, H⟩
      simp only [step, H.var]; exact .get s o n
  | set x n v =>
    cases x with
    | packed => exact absurd rfl ho
    | obj o => exact ⟨_, .set s o n v, H.write o n v⟩
  | isUndefined x n =>
    cases x with
    | packed => exact absurd rfl ho
    | obj o =>
      refine ⟨s, .isUndefined s o n _ ?_, H⟩
      rw [H.var]; exact Option.isNone_iff_eq_none
  | reader x a =>
    cases x with
    | packed => exact absurd rfl ho
    | obj o =>
      refine ⟨s, ?_, H⟩
      simp only [step, H.var]; exact .reader s o a
  | writer x a v =>
    cases x with
    | packed => exact absurd rfl ho
    | obj o => exact ⟨_, .writer s o a v, H.write o _ v⟩
  | ivGet x n =>
    cases x with
    | packed => exact absurd rfl ho
    | obj o =>
      refine ⟨s, ?_, H⟩
      have : (step nil h (.ivGet (.obj o) n)).2 = .value (s.read nil o n) := by
        simp only [step, H.var, Store.read]
        cases s.var o n <;> rfl
      rw [this]; exact .ivGet s o n
  | ivSet x n v =>
    cases x with
    | packed => exact absurd rfl ho
    | obj o => exact ⟨_, .ivSet s o n v, H.write o n v⟩
  | names x =>
    cases x with
    | packed => exact absurd rfl ho
    | obj o =>
      refine ⟨s, ?_, H⟩
      have hv := H.var o
      have hw := H.wf o
      simp only [step]
      cases ht : (h.obj o).var_table with
      | none =>
        refine .names s o [] List.nodup_nil ?_
        intro n
        have := hv n
        simp only [RVal.get_var, ht] at this
        simp [← this]
      | some t =>
        refine .names s o _ (List.Nodup.filter _ (hw t ht)) ?_
        intro n
        have := hv n
        simp only [RVal.get_var, ht] at this
        rw [← this, List.mem_filter]
        unfold Table.get
        rw [Ne, lookup_none, not_not]
        constructor
        · rintro ⟨h1, h2⟩
          refine ⟨?_, h1⟩
          cases n with
          | nil => simp at h2
          | cons c m => simp at h2; exact ⟨m, by rw [h2]⟩
        · rintro ⟨⟨m, rfl⟩, h1⟩
          exact ⟨h1, by simp⟩
  | structInit x ms vs =>
    cases x with
    | packed => exact absurd rfl ho
    | obj o =>
      by_cases hl : ms.length < vs.length
      · refine ⟨s, ?_, ?_⟩
        · simp only [step, hl, if_true]; exact .structMany s o ms vs hl
        · simp only [step, hl, if_true]; exact H
      · refine ⟨(ms.zip vs).foldl (fun s e => s.write o ('@' :: e.1) e.2) s, ?_, ?_⟩
        · simp only [step, hl, if_false]; exact .struct s o ms vs (by omega)
        · simp only [step, hl, if_false]; exact H.writes o _

/-- the empty heap -/
def empty : Heap V := ⟨fun _ => ⟨none⟩, 0⟩
/-- the empty store -/
def none_set : Store V := ⟨fun _ _ => none, 0⟩

/-- **C57, partial**: every history of operations on variables of objects on the heap is answered as the
independent variables of the specification are.

Missing: values that are held in the word itself (`C57_packed_fails`). -/
theorem C57_histories_partial (nil : V) (ops : List (Op V)) (ho : ∀ op ∈ ops, op.onObject) :
    ∃ s, Specs nil none_set ops (run nil empty ops).2 s := by
  have key : ∀ (ops : List (Op V)) (h : Heap V) (s : Store V), Holds h s → (∀ op ∈ ops, op.onObject) →
      ∃ s', Specs nil s ops (run nil h ops).2 s' := by
    intro ops
    induction ops with
    | nil => intro h s _ _; exact ⟨s, .nil s⟩
    | cons op ops ih =>
      intro h s H ho
      obtain ⟨s', h1, h2⟩ := step_spec nil H op (ho op (by simp))
      obtain ⟨s'', h3⟩ := ih _ s' h2 (fun x hx => ho x (List.mem_cons_of_mem _ hx))
      exact ⟨s'', .cons _ _ _ _ _ _ _ h1 h3⟩
  exact key ops empty none_set ⟨fun _ _ => rfl, rfl, fun _ t e => by cases e⟩ ho

/-- **C57 (in one sentence)**: after writing variable `n` of object `o`, reading any variable of any object
gives the written value if it is the same object and the same name, and what it gave before otherwise. -/
theorem C57_read_after_write (nil : V) (h : Heap V) (o o' : Nat) (n n' : Name) (v : V) :
    (step nil (step nil h (.set (.obj o) n v)).1 (.get (.obj o') n')).2 =
      .value (if o' = o ∧ n' = n then v else ((h.obj o').get_var n').getD nil) := by
  simp only [step, Heap.put]
  by_cases ho : o' = o
  · subst ho
    simp only [if_true, RVal.get_set, true_and]
    split <;> rfl
  · simp [ho]

/-- **C57 (accessors)**: `attr_writer :s` followed by `@s`, and `@s = v` followed by `attr_reader :s`. -/
theorem C57_accessors (nil : V) (h : Heap V) (o : Nat) (s : Name) (v : V) :
    (step nil (step nil h (.writer (.obj o) s v)).1 (.get (.obj o) ('@' :: s))).2 = .value v ∧
    (step nil (step nil h (.set (.obj o) ('@' :: s) v)).1 (.reader (.obj o) s)).2 = .value v := by
  simp [step, Heap.put, ivarName, RVal.get_set]

/-- **C57 is false for integers, symbols and nil**: using an instance variable in their methods reads memory at
an address that is none, and an `attr_writer` aborts. -/
theorem C57_packed_fails (nil : V) (h : Heap V) (n : Name) (v : V) :
    (step nil h (.get .packed n)).2 = .undefined ∧ (step nil h (.set .packed n v)).2 = .undefined ∧
    (step nil h (.writer .packed n v)).2 = .panic := ⟨rfl, rfl, rfl⟩

/-! ## Class variables -/

/-- The nearest class of the chain that has the variable. -/
def Nearest (s : Store V) (n : Name) (chain : List Nat) (c : Nat) : Prop :=
  ∃ before after, chain = before ++ c :: after ∧ s.var c n ≠ none ∧ ∀ d ∈ before, s.var d n = none

theorem RVal.set_if {r : RVal V} {n : Name} {v : V} :
    r.set_var_if_exists n v = if r.get_var n = none then none else some (r.set_var n v) := by
  unfold RVal.set_var_if_exists RVal.get_var RVal.set_var
  cases r.var_table with
  | none => rfl
  | some t =>
    simp only
    cases t.get n <;> simp

/-- **C67 (reading a class variable)** gives the value of the nearest class above that has it; if none has it,
a NameError is raised. -/
theorem C67_read (h : Heap V) (s : Store V) (H : Holds h s) (n : Name) (chain : List Nat) :
    (∀ c, Nearest s n chain c → get_class_var h n chain = s.var c n) ∧
    ((∀ c ∈ chain, s.var c n = none) → get_class_var h n chain = none) := by
  constructor
  · rintro c ⟨before, after, rfl, hc, hb⟩
    induction before with
    | nil =>
      simp only [List.nil_append, get_class_var, H.var]
      cases hv : s.var c n with
      | none => exact absurd hv hc
      | some v => rfl
    | cons d ds ih =>
      simp only [List.cons_append, get_class_var, H.var, hb d (by simp)]
      exact ih (fun d hd => hb d (List.mem_cons_of_mem _ hd))
  · intro hn
    induction chain with
    | nil => rfl
    | cons d ds ih =>
      simp only [get_class_var, H.var, hn d (by simp)]
      exact ih (fun d hd => hn d (List.mem_cons_of_mem _ hd))

/-- **C67 (writing a class variable)** changes it in the nearest class above that has it, or makes it in the
class itself; nothing else changes. -/
theorem C67_write (h : Heap V) (s : Store V) (H : Holds h s) (n : Name) (v : V) (org : Nat) (chain : List Nat) :
    (∀ c, Nearest s n chain c → Holds (set_class_var h n v org chain) (s.write c n v)) ∧
    ((∀ c ∈ chain, s.var c n = none) → Holds (set_class_var h n v org chain) (s.write org n v)) := by
  constructor
  · rintro c ⟨before, after, rfl, hc, hb⟩
    induction before with
    | nil =>
      simp only [List.nil_append, set_class_var, RVal.set_if, H.var]
      rw [if_neg hc]
      exact H.write c n v
    | cons d ds ih =>
      simp only [List.cons_append, set_class_var, RVal.set_if, H.var, hb d (by simp), if_true]
      exact ih (fun d hd => hb d (List.mem_cons_of_mem _ hd))
  · intro hn
    induction chain with
    | nil => exact H.write org n v
    | cons d ds ih =>
      simp only [set_class_var, RVal.set_if, H.var, hn d (by simp), if_true]
      exact ih (fun d hd => hn d (List.mem_cons_of_mem _ hd))

/-- **C67 (shared)**: what one class of a hierarchy writes, every class below the class that holds the
variable reads, unless a class between has a variable of that name. -/
theorem C67_shared (h : Heap V) (s : Store V) (H : Holds h s) (n : Name) (v : V) (org c : Nat)
    (chain chain' : List Nat) (hw : Nearest s n chain c) (hr : Nearest s n chain' c) :
    get_class_var (set_class_var h n v org chain) n chain' = some v := by
  have H' := (C67_write h s H n v org chain).1 c hw
  have hn : Nearest (s.write c n v) n chain' c := by
    obtain ⟨b, a, e, h1, h2⟩ := hr
    refine ⟨b, a, e, by simp [Store.write], ?_⟩
    intro d hd
    have hdc : d ≠ c := by
      intro hdc; subst hdc; exact h1 (h2 d hd)
    simp [Store.write, hdc, h2 d hd]
  rw [(C67_read _ _ H' n chain').1 c hn]
  simp [Store.write]

/-! ## Cases that meet the hypotheses -/

/-- two objects, one a copy of the other, drift apart -/
example : (run 0 empty
    [.new, .set (.obj 0) "@a".toList 1, .dup (.obj 0), .writer (.obj 1) "a".toList 2, .get (.obj 0) "@a".toList,
     .reader (.obj 1) "a".toList, .reader (.obj 1) "b".toList, .isUndefined (.obj 0) "@b".toList,
     .names (.obj 1)]).2 matches
    [.object (.obj 0), .done, .object (.obj 1), .value 2, .value 1, .value 2, .value 0, .bool true,
     .names [['@', 'a']]] := by decide +kernel

example : Nearest (⟨fun o n => if o = 1 ∧ n = "@@x".toList then some 5 else none, 3⟩ : Store Nat) "@@x".toList
    [2, 1, 0] 1 := ⟨[2], [0], rfl, by decide, by decide⟩

end Verif.Ivar
