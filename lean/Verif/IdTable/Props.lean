import Verif.IdTable.Model
/-! # C13: symbols are interned -/
namespace Verif.IdTable

/-- Invariant of the table: the reverse map and the vector agree. -/
structure Inv (t : Table) : Prop where
  len : 40 ≤ t.table.length
  sound : ∀ s i, t.rev_table s = some i → t.table[i]? = some s
  reservedIds : ∀ p ∈ reserved, t.rev_table p.1 = some p.2

theorem inv_new : Inv Table.new := by
  have hrev : ∀ s i, Table.new.rev_table s = some i → (s, i) ∈ reserved := by
    intro s i h
    have key : ∀ (l : List (String × Nat)) (t0 : Table),
        ∀ s i, (l.foldl (fun t p => t.set_ident_id p.1 p.2) t0).rev_table s = some i →
          (s, i) ∈ l ∨ t0.rev_table s = some i := by
      intro l
      induction l with
      | nil => intro t0 s i h; exact Or.inr h
      | cons p l ih =>
        intro t0 s i h
        rcases ih _ s i h with h | h
        · exact Or.inl (by simp [h])
        · simp only [Table.set_ident_id, insertRev] at h
          split at h
          · rename_i e
            left; simp at h; subst h; subst e; simp
          · exact Or.inr h
    rcases key reserved _ s i h with h | h
    · exact h
    · simp at h
  refine ⟨by decide +kernel, ?_, ?_⟩
  · intro s i h
    have hm := hrev s i h
    have : ∀ p ∈ reserved, Table.new.table[p.2]? = some p.1 := by decide +kernel
    exact this (s, i) hm
  · decide +kernel

theorem get_spec {t : Table} (hi : Inv t) (hl : t.table.length < 4294967296) (s : String) :
    ∃ id t', t.get_ident_id s = some (id, t') ∧ Inv t' ∧ t'.rev_table s = some id ∧
      t'.table.length ≤ t.table.length + 1 ∧
      (∀ x i, t.rev_table x = some i → t'.rev_table x = some i) ∧
      (∀ (i : Nat) x, t.table[i]? = some x → t'.table[i]? = some x) := by
  unfold Table.get_ident_id
  cases h : t.rev_table s with
  | some id => exact ⟨id, t, rfl, hi, h, by omega, fun _ _ h => h, fun _ _ h => h⟩
  | none =>
    have e : t.table.length % 4294967296 = t.table.length := Nat.mod_eq_of_lt hl
    have e2 : identFrom t.table.length = some t.table.length := by
      unfold identFrom; rw [if_neg]; have := hi.len; omega
    simp only [e, e2]
    have hmono : ∀ x i, t.rev_table x = some i → insertRev t.rev_table s t.table.length x = some i := by
      intro x i hx
      unfold insertRev
      rw [if_neg]
      · exact hx
      · intro e; subst e; rw [h] at hx; cases hx
    have htab : ∀ (i : Nat) x, t.table[i]? = some x → (t.table ++ [s])[i]? = some x := by
      intro i x hx
      have hlt : i < t.table.length := by
        rw [List.getElem?_eq_some_iff] at hx; exact hx.1
      rw [List.getElem?_append_left hlt]; exact hx
    refine ⟨_, _, rfl, ⟨by simp; have := hi.len; omega, ?_, ?_⟩, by simp [insertRev], by simp, hmono, htab⟩
    · intro x i hx
      simp only [insertRev] at hx
      split at hx
      · rename_i e; subst e; simp at hx; subst hx; simp
      · exact htab i x (hi.sound x i hx)
    · intro p hp; exact hmono _ _ (hi.reservedIds p hp)

theorem run_spec (names : List String) : ∀ {t : Table}, Inv t → t.table.length + names.length < 4294967296 →
    ∃ ids t', run t names = some (ids, t') ∧ Inv t' ∧
      ids.length = names.length ∧
      (∀ k, k < names.length → ∀ n, names[k]? = some n → ∃ id, ids[k]? = some id ∧ t'.rev_table n = some id) ∧
      (∀ x i, t.rev_table x = some i → t'.rev_table x = some i) ∧
      (∀ (i : Nat) x, t.table[i]? = some x → t'.table[i]? = some x) := by
  induction names with
  | nil => intro t hi _; exact ⟨[], t, rfl, hi, rfl, by simp, fun _ _ h => h, fun _ _ h => h⟩
  | cons n ns ih =>
    intro t hi hl
    simp only [List.length_cons] at hl
    obtain ⟨id, t1, e1, hi1, hr1, hl1, hm1, ht1⟩ := get_spec hi (by omega) n
    obtain ⟨ids, t2, e2, hi2, hlen2, hids2, hm2, ht2⟩ := ih hi1 (by omega)
    refine ⟨id :: ids, t2, by simp [run, e1, e2], hi2, by simp [hlen2], ?_, fun x i h => hm2 x i (hm1 x i h),
      fun i x h => ht2 i x (ht1 i x h)⟩
    intro k hk m hm
    cases k with
    | zero =>
      simp at hm; subst hm
      exact ⟨id, by simp, hm2 _ _ hr1⟩
    | succ k =>
      simp at hm
      obtain ⟨id', h1, h2⟩ := hids2 k (by simpa using hk) m hm
      exact ⟨id', by simpa using h1, h2⟩

/-- C13.  Take any sequence of names interned since start-up (fewer than 2^32 - 40 of them).  No call
fails; for any two calls, the identifiers are equal exactly when the names are; and at the end, whatever
was interned in between, every identifier reads back as the name it was made from. -/
theorem C13_interning (names : List String) (hlen : names.length + 40 < 4294967296) :
    ∃ ids t, run Table.new names = some (ids, t) ∧ ids.length = names.length ∧
      (∀ j k (hj : j < names.length) (hk : k < names.length), ids[j]? = ids[k]? ↔ names[j] = names[k]) ∧
      (∀ k (hk : k < names.length), ∃ id, ids[k]? = some id ∧ t.get_name id = some names[k]) := by
  have h40 : Table.new.table.length = 40 := by decide +kernel
  obtain ⟨ids, t, e, hi, hl, hids, _, _⟩ := run_spec names inv_new (by omega)
  have hk' : ∀ k (hk : k < names.length), ∃ id, ids[k]? = some id ∧ t.rev_table names[k] = some id :=
    fun k hk => hids k hk names[k] (List.getElem?_eq_getElem hk)
  refine ⟨ids, t, e, hl, ?_, ?_⟩
  · intro j k hj hk
    obtain ⟨a, ha1, ha2⟩ := hk' j hj
    obtain ⟨b, hb1, hb2⟩ := hk' k hk
    rw [ha1, hb1]
    constructor
    · intro h
      simp at h
      subst h
      have h1 := hi.sound _ _ ha2
      have h2 := hi.sound _ _ hb2
      rw [h1] at h2; simpa using h2
    · intro h
      rw [h, hb2] at ha2
      exact ha2.symm
  · intro k hk
    obtain ⟨id, h1, h2⟩ := hk' k hk
    exact ⟨id, h1, hi.sound _ _ h2⟩

example : (run Table.new ["foo", "bar", "foo", "each", ""]).map (·.1) = some [40, 41, 40, 27, 42] := by
  decide +kernel

/-- C13: the numbers the interpreter has built in stand for the names they are declared for, after every
history, and interning such a name gives that number. -/
theorem C13_reserved (names : List String) (hlen : names.length + 41 < 4294967296) (s : String) (i : Nat)
    (h : (s, i) ∈ reserved) :
    ∃ ids t, run Table.new names = some (ids, t) ∧ t.get_name i = some s ∧ t.get_ident_id s = some (i, t) := by
  have h40 : Table.new.table.length = 40 := by decide +kernel
  obtain ⟨ids, t, e, hi, _, _, _, _⟩ := run_spec names inv_new (by omega)
  have hr := hi.reservedIds _ h
  exact ⟨ids, t, e, hi.sound _ _ hr, by simp [Table.get_ident_id, hr]⟩

example : ("[]=", 22) ∈ reserved := by decide +kernel

/-- C13: a derived identifier (`add_postfix`, `add_prefix`) is the identifier of the concatenated name. -/
theorem C13_derived (names : List String) (hlen : names.length + 41 < 4294967296) (k : Nat) (hk : k < names.length)
    (suffix : String) :
    ∃ ids t id, run Table.new names = some (ids, t) ∧ ids[k]? = some id ∧
      t.add_postfix id suffix = t.get_ident_id (names[k] ++ suffix) ∧
      t.add_prefix id suffix = t.get_ident_id (suffix ++ names[k]) := by
  obtain ⟨ids, t, e, _, _, h⟩ := C13_interning names (by omega)
  obtain ⟨id, h1, h2⟩ := h k hk
  exact ⟨ids, t, id, e, h1, by simp [Table.add_postfix, h2], by simp [Table.add_prefix, h2]⟩

end Verif.IdTable
