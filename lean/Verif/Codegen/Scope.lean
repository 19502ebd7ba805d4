import Verif.Codegen.Leaf
import Verif.Codegen.Plain
/-!
# C34: a local variable reference reaches the innermost enclosing definition
-/
namespace Verif.Codegen

/-! ## Variable tables -/

/-- `LvarCollector::insert`; `ruruby-common/src/lvar_collector.rs:80-88`. -/
def lvInsert (t : List Id) (id : Id) : List Id × Nat :=
  match get_lvarid t id with
  | some i => (t, i)
  | none => (t ++ [id], (t ++ [id]).length - 1)

/-- `LvarCollector::insert_new` (also parameters, keyword, block and delegate parameters);
`lvar_collector.rs:92-126`. -/
def lvInsertNew (t : List Id) (id : Id) : List Id × Option Nat :=
  match get_lvarid t id with
  | some _ => (t, none)
  | none => (t ++ [id], some ((t ++ [id]).length - 1))

/-- The two ways a name enters a table. -/
inductive LvOp | insert (id : Id) | insertNew (id : Id)

/-- Apply an operation. -/
def LvOp.apply (t : List Id) : LvOp → List Id
  | .insert id => (lvInsert t id).1
  | .insertNew id => (lvInsertNew t id).1

theorem lvInsert_table (t : List Id) (id : Id) : (lvInsert t id).1 = if id ∈ t then t else t ++ [id] := by
  unfold lvInsert
  rcases h : get_lvarid t id with _ | i
  · rw [if_neg (lvarid_none h)]
  · rw [if_pos (lvarid_some h).1]

theorem lvInsertNew_table (t : List Id) (id : Id) : (lvInsertNew t id).1 = if id ∈ t then t else t ++ [id] := by
  unfold lvInsertNew
  rcases h : get_lvarid t id with _ | i
  · rw [if_neg (lvarid_none h)]
  · rw [if_pos (lvarid_some h).1]

theorem LvOp.prefix (t : List Id) (op : LvOp) : t <+: op.apply t := by
  cases op with
  | insert id => show t <+: (lvInsert t id).1; rw [lvInsert_table]; split <;> simp
  | insertNew id => show t <+: (lvInsertNew t id).1; rw [lvInsertNew_table]; split <;> simp

theorem ops_prefix (ops : List LvOp) : ∀ t, t <+: ops.foldl LvOp.apply t := by
  induction ops with
  | nil => intro t; exact List.prefix_refl _
  | cons op ops ih => intro t; exact (LvOp.prefix t op).trans (ih _)

theorem nodup_snoc {t : List Id} {id : Id} (h : t.Nodup) (hn : id ∉ t) : (t ++ [id]).Nodup := by
  rw [List.nodup_append]
  exact ⟨h, by simp, by intro a ha b hb; simp at hb; subst hb; rintro rfl; exact hn ha⟩

theorem LvOp.nodup {t : List Id} (h : t.Nodup) (op : LvOp) : (op.apply t).Nodup := by
  cases op with
  | insert id => show ((lvInsert t id).1).Nodup; rw [lvInsert_table]; split
                 · exact h
                 · exact nodup_snoc h ‹_›
  | insertNew id => show ((lvInsertNew t id).1).Nodup; rw [lvInsertNew_table]; split
                    · exact h
                    · exact nodup_snoc h ‹_›

theorem lvarid_iff {t : List Id} (h : t.Nodup) {id : Id} {j : Nat} : get_lvarid t id = some j ↔ t[j]? = some id := by
  unfold get_lvarid
  rw [List.findIdx?_eq_some_iff_getElem]
  constructor
  · rintro ⟨hl, he, -⟩
    rw [List.getElem?_eq_getElem hl]; simpa using he
  · intro hj
    obtain ⟨hl, he⟩ := List.getElem?_eq_some_iff.1 hj
    refine ⟨hl, by simpa using he, ?_⟩
    intro i hi hc
    have hc : t[i] = id := by simpa using hc
    have := List.pairwise_iff_getElem.1 h i j (by omega) hl hi
    exact this (hc.trans he.symm)

theorem externVar_none {ext : List (List Id)} {idx : Nat} {id : Id} (h : externVar ext idx id = none) :
    ∀ t ∈ ext, id ∉ t := by
  induction ext generalizing idx with
  | nil => simp
  | cons t ts ih =>
    unfold externVar at h
    split at h
    · cases h
    · rename_i hj
      intro t' ht'
      rcases List.mem_cons.1 ht' with rfl | ht'
      · exact lvarid_none hj
      · exact ih h t' ht'

theorem scopeVar_none {ss : List Scope} {ext : List (List Id)} {i idx : Nat} {id : Id}
    (h : scopeVar (ss ++ [bottom]) ext i idx id = none) : ∀ t ∈ visible ss ext, id ∉ t := by
  induction ss generalizing i idx with
  | nil =>
    simp only [List.nil_append, scopeVar, bottom, get_lvarid, List.findIdx?_nil] at h
    rw [visible]
    exact externVar_none (by simpa using h)
  | cons s ss ih =>
    rw [List.cons_append] at h
    unfold scopeVar at h
    unfold visible
    split at h
    · cases h
    · rename_i hj
      split at h
      · rename_i hk
        rw [if_pos hk]
        intro t ht; simp at ht; subst ht; exact lvarid_none hj
      · rename_i hk
        rw [if_neg hk]
        intro t ht
        rcases List.mem_cons.1 ht with rfl | ht
        · exact lvarid_none hj
        · exact ih h t ht

/-! ## The property -/

/-- **C34, tables.**  However parameters and variables are entered into the table of a scope, no name has
two slots and no slot two names, … -/
theorem C34_slots_are_distinct (ops : List LvOp) (id id' : Id) (j j' : Nat)
    (h : get_lvarid (ops.foldl LvOp.apply []) id = some j) (h' : get_lvarid (ops.foldl LvOp.apply []) id' = some j') :
    id = id' ↔ j = j' := by
  have hn : (ops.foldl LvOp.apply []).Nodup := by
    have : ∀ (ops : List LvOp) t, t.Nodup → (ops.foldl LvOp.apply t).Nodup := by
      intro ops
      induction ops with
      | nil => exact fun t h => h
      | cons op ops ih => exact fun t h => ih _ (op.nodup h)
    exact this ops [] (by simp)
  constructor
  · rintro rfl; rw [h] at h'; cases h'; rfl
  · rintro rfl
    rw [lvarid_iff hn] at h h'
    rw [h] at h'; cases h'; rfl

/-- … and a slot once given to a name stays with it. -/
theorem C34_slots_are_stable (t : List Id) (ops : List LvOp) (id : Id) (j : Nat) (h : get_lvarid t id = some j) :
    get_lvarid (ops.foldl LvOp.apply t) id = some j := by
  obtain ⟨r, hr⟩ := ops_prefix ops t
  rw [← hr]
  unfold get_lvarid at *
  rw [List.findIdx?_append, h]; rfl

/-- `insert` answers the slot the name has from then on. -/
theorem C34_insert_answers_slot (t : List Id) (id : Id) :
    get_lvarid (lvInsert t id).1 id = some (lvInsert t id).2 := by
  unfold lvInsert
  rcases h : get_lvarid t id with _ | i
  · have := lvarid_none h
    unfold get_lvarid at *
    simp [List.findIdx?_append, h]
  · exact h

example : (lvInsert [5, 7] 7).2 = 1 ∧ (lvInsert [5, 7] 9) = ([5, 7, 9], 2) := by decide

/-- `insert_new` (parameters) answers the slot the name has from then on, and nothing exactly when the name is taken. -/
theorem C34_insert_new_answers_slot (t : List Id) (id : Id) :
    ((lvInsertNew t id).2 = none ↔ id ∈ t) ∧ ∀ j, (lvInsertNew t id).2 = some j → get_lvarid (lvInsertNew t id).1 id = some j := by
  unfold lvInsertNew
  rcases h : get_lvarid t id with _ | i
  · have hn := lvarid_none h
    refine ⟨by simp [hn], ?_⟩
    intro j hj
    unfold get_lvarid at *
    simp only [Option.some.injEq] at hj
    simp [List.findIdx?_append, h, ← hj]
  · exact ⟨by simp [(lvarid_some h).1], by simp⟩

example : (lvInsertNew [5, 7] 7).2 = none ∧ lvInsertNew [5, 7] 9 = ([5, 7, 9], some 2) := by decide

/-- **C34, references.**  In nested scopes (innermost first; a method hides everything outside), a name is
compiled into a reference to slot `j` of the `k`-th scope iff that is where the innermost table that has the
name has it first. -/
theorem C34_innermost_definition (x : Ctx) (id : Id) (k j : Nat) :
    get_local_var x id = some (k, j) ↔
      (∀ k' < k, ∀ t, (visible x.scopes x.extern)[k']? = some t → id ∉ t) ∧
      ∃ t, (visible x.scopes x.extern)[k]? = some t ∧ t[j]? = some id ∧ ∀ j' < j, t[j']? ≠ some id := by
  -- the place is determined by the right-hand side
  have key : ∀ k j : Nat, x.place id = (k, j) → (∃ t ∈ visible x.scopes x.extern, id ∈ t) →
      (∀ k' < k, ∀ t, (visible x.scopes x.extern)[k']? = some t → id ∉ t) ∧
      ∃ t, (visible x.scopes x.extern)[k]? = some t ∧ t[j]? = some id ∧ ∀ j' < j, t[j']? ≠ some id := by
    intro k j hp hm
    unfold Ctx.place position at hp
    simp only [Prod.mk.injEq] at hp
    obtain ⟨hk, hj⟩ := hp
    obtain ⟨hlt, hmem⟩ := findIdx_lt hm
    rw [hk] at hlt hmem hj
    have hmem := hmem _ (List.getElem?_eq_getElem hlt)
    rw [List.getElem?_eq_getElem hlt, Option.getD_some] at hj
    refine ⟨?_, _, List.getElem?_eq_getElem hlt, ?_, ?_⟩
    · intro k' hk' t ht
      have := List.not_of_lt_findIdx (hk ▸ hk' : k' < List.findIdx (fun x => decide (id ∈ x)) (visible x.scopes x.extern))
      obtain ⟨h1, h2⟩ := List.getElem?_eq_some_iff.1 ht
      rw [h2] at this; simpa using this
    · have hl := List.idxOf_lt_length_of_mem hmem
      rw [List.getElem?_eq_some_iff]
      subst hj
      exact ⟨hl, List.getElem_idxOf hl⟩
    · intro j' hj' hc
      obtain ⟨h1, h2⟩ := List.getElem?_eq_some_iff.1 hc
      rw [← hj] at hj'
      have := List.not_of_lt_findIdx (p := (· == id)) hj'
      rw [h2] at this; simp at this
  have uniq : ∀ k j k2 j2 : Nat,
      ((∀ k' < k, ∀ t, (visible x.scopes x.extern)[k']? = some t → id ∉ t) ∧
      ∃ t, (visible x.scopes x.extern)[k]? = some t ∧ t[j]? = some id ∧ ∀ j' < j, t[j']? ≠ some id) →
      ((∀ k' < k2, ∀ t, (visible x.scopes x.extern)[k']? = some t → id ∉ t) ∧
      ∃ t, (visible x.scopes x.extern)[k2]? = some t ∧ t[j2]? = some id ∧ ∀ j' < j2, t[j']? ≠ some id) →
      k = k2 ∧ j = j2 := by
    rintro k j k2 j2 ⟨a1, t, a2, a3, a4⟩ ⟨b1, t2, b2, b3, b4⟩
    have : k = k2 := by
      rcases Nat.lt_trichotomy k k2 with h | h | h
      · exact absurd (List.mem_of_getElem? a3) (b1 k h t a2)
      · exact h
      · exact absurd (List.mem_of_getElem? b3) (a1 k2 h t2 b2)
    subst this
    rw [a2] at b2; cases b2
    refine ⟨rfl, ?_⟩
    rcases Nat.lt_trichotomy j j2 with h | h | h
    · exact absurd a3 (b4 j h)
    · exact h
    · exact absurd b3 (a4 j2 h)
  constructor
  · intro h
    obtain ⟨_, h2, t, h3, h4⟩ := scopeVar_place h
    have ht : t ∈ visible x.scopes x.extern := List.mem_of_getElem? h3
    refine key k j h2 ?_
    by_contra hc
    have hfind : (visible x.scopes x.extern).findIdx (id ∈ ·) = (visible x.scopes x.extern).length := by
      rw [List.findIdx_eq_length]
      intro t' ht'
      simp only [decide_eq_false_iff_not]
      exact fun hm => hc ⟨t', ht', hm⟩
    have h2' : (position (visible x.scopes x.extern) id).1 = k := by
      have := congrArg Prod.fst h2; simpa using this
    unfold position at h2'
    simp only at h2'
    rw [hfind] at h2'
    have := (List.getElem?_eq_some_iff.1 h3).1
    omega
  · intro h
    obtain ⟨a1, t, a2, a3, a4⟩ := h
    have hmem : ∃ t ∈ visible x.scopes x.extern, id ∈ t := ⟨t, List.mem_of_getElem? a2, List.mem_of_getElem? a3⟩
    rcases hg : get_local_var x id with _ | ⟨k2, j2⟩
    · obtain ⟨t, h1, h2⟩ := hmem
      exact absurd h2 (scopeVar_none hg t h1)
    · obtain ⟨_, h2, _⟩ := scopeVar_place hg
      obtain ⟨rfl, rfl⟩ := uniq k j k2 j2 ⟨a1, t, a2, a3, a4⟩ (key k2 j2 h2 hmem)
      rfl

/-- Distinct names never refer to the same slot of the same scope. -/
theorem C34_distinct_variables (x : Ctx) (id id' : Id) (p : Nat × Nat) (h : get_local_var x id = some p)
    (h' : get_local_var x id' = some p) : id = id' := by
  obtain ⟨k, j⟩ := p
  rw [C34_innermost_definition] at h h'
  obtain ⟨-, t, h1, h2, -⟩ := h
  obtain ⟨-, t', h1', h2', -⟩ := h'
  rw [h1] at h1'; cases h1'
  rw [h2] at h2'; cases h2'; rfl

/-- A block in a block in a method in a class body: `5` is found in the inner block, `6` in the method, and `9`
of the class body is invisible. -/
example : let x : Ctx := ⟨[⟨[4, 5], .block⟩, ⟨[5, 7], .block⟩, ⟨[8, 6], .method⟩, ⟨[9], .class_⟩], [], id, 0⟩
    get_local_var x 5 = some (0, 1) ∧ get_local_var x 6 = some (2, 1) ∧ get_local_var x 9 = none := by decide

end Verif.Codegen
