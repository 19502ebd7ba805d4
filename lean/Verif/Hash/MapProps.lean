import Verif.Hash.Map
import Mathlib.Data.List.Perm.Basic
import Mathlib.Data.List.Basic
import Mathlib.Data.List.Induction
import Mathlib.Order.Basic
/-! # C17 (finite map), C18 (insertion order) -/
namespace Verif.Hash
variable {K V : Type} (eq : K → K → Bool)

/-- The operations of a history. -/
inductive Op (K V : Type) where
  | store (k : K) (v : V)
  | delete (k : K)
  | clear

def step (m : List (K × V)) : Op K V → List (K × V)
  | .store k v => insert eq m k v
  | .delete k => (remove eq m k).2
  | .clear => []

/-- The hash after a history (first operation first), from an empty one. -/
def run (ops : List (Op K V)) : List (K × V) := ops.foldl (step eq) []

/-- What the history says about a key, *most recent operation first*: the value most recently stored under an equal
key and not deleted since. -/
def latest : List (Op K V) → K → Option V
  | [], _ => none
  | .store k v :: ops, x => if eq k x then some v else latest ops x
  | .delete k :: ops, x => if eq k x then none else latest ops x
  | .clear :: _, _ => none

structure IsEquiv : Prop where
  refl : ∀ x, eq x x = true
  symm : ∀ x y, eq x y = true → eq y x = true
  trans : ∀ x y z, eq x y = true → eq y z = true → eq x z = true

/-- No two entries have equal keys. -/
def Distinct (m : List (K × V)) : Prop := m.Pairwise (fun a b => eq a.1 b.1 = false)

variable {eq}

theorem IsEquiv.congr_left (h : IsEquiv eq) {x y : K} (hxy : eq x y = true) (z : K) : eq z x = eq z y := by
  cases h1 : eq z x with
  | true => rw [h.trans _ _ _ h1 hxy]
  | false =>
    cases h2 : eq z y with
    | false => rfl
    | true => rw [h.trans _ _ _ h2 (h.symm _ _ hxy)] at h1; exact absurd h1 (by simp)
theorem IsEquiv.congr_right (h : IsEquiv eq) {x y : K} (hxy : eq x y = true) (z : K) : eq x z = eq y z := by
  cases h1 : eq x z with
  | true => rw [h.trans _ _ _ (h.symm _ _ hxy) h1]
  | false =>
    cases h2 : eq y z with
    | false => rfl
    | true => rw [h.trans _ _ _ hxy h2] at h1; exact absurd h1 (by simp)

theorem get_insert (he : IsEquiv eq) (m : List (K × V)) (k : K) (v : V) (x : K) :
    get eq (insert eq m k v) x = if eq k x then some v else get eq m x := by
  induction m with
  | nil => simp [insert, get]
  | cons e m ih =>
    obtain ⟨k0, w⟩ := e
    unfold insert
    by_cases h : eq k0 k = true
    · rw [if_pos h]
      simp only [get]
      rw [he.congr_right h x]
      by_cases h2 : eq k x = true
      · simp [h2]
      · simp [h2]
    · rw [if_neg h]
      simp only [get]
      rw [ih]
      by_cases h2 : eq k x = true
      · rw [if_pos h2, if_pos h2]
        by_cases h3 : eq k0 x = true
        · exact absurd (he.trans _ _ _ h3 (he.symm _ _ h2)) h
        · rw [if_neg h3]
      · rw [if_neg h2, if_neg h2]

theorem mem_insert_key {m : List (K × V)} {k : K} {v : V} {e : K × V} (h : e ∈ insert eq m k v) :
    e.1 = k ∨ ∃ e' ∈ m, e'.1 = e.1 := by
  induction m with
  | nil => simp [insert] at h; exact Or.inl (by rw [h])
  | cons e0 m ih =>
    obtain ⟨k0, w⟩ := e0
    unfold insert at h
    split at h
    · rcases List.mem_cons.1 h with rfl | h
      · exact Or.inr ⟨(k0, w), by simp, rfl⟩
      · exact Or.inr ⟨e, by simp [h], rfl⟩
    · rcases List.mem_cons.1 h with rfl | h
      · exact Or.inr ⟨(k0, w), by simp, rfl⟩
      · rcases ih h with h | ⟨e', h1, h2⟩
        · exact Or.inl h
        · exact Or.inr ⟨e', by simp [h1], h2⟩

theorem distinct_insert {m : List (K × V)} (h : Distinct eq m) (k : K) (v : V) :
    Distinct eq (insert eq m k v) := by
  induction m with
  | nil => simp [insert, Distinct]
  | cons e0 m ih =>
    obtain ⟨k0, w⟩ := e0
    have h1 := List.pairwise_cons.1 h
    unfold insert
    split
    · exact List.pairwise_cons.2 ⟨h1.1, h1.2⟩
    · rename_i hk
      refine List.pairwise_cons.2 ⟨?_, ih h1.2⟩
      intro e he
      rcases mem_insert_key he with h2 | ⟨e', h2, h3⟩
      · rw [h2]; simpa using hk
      · rw [← h3]; exact h1.1 e' h2

/-- `get` on distinct entries does not depend on their order -/
theorem get_eq_some (he : IsEquiv eq) {m : List (K × V)} (h : Distinct eq m) (x : K) (v : V) :
    get eq m x = some v ↔ ∃ k, (k, v) ∈ m ∧ eq k x = true := by
  induction m with
  | nil => simp [get]
  | cons e m ih =>
    obtain ⟨k0, w⟩ := e
    have h1 := List.pairwise_cons.1 h
    simp only [get]
    by_cases hk : eq k0 x = true
    · rw [if_pos hk]
      constructor
      · intro e; simp at e; subst e; exact ⟨k0, by simp, hk⟩
      · rintro ⟨k, hm, hkx⟩
        rcases List.mem_cons.1 hm with e | hm
        · simp at e; simp [e.2]
        · have := h1.1 (k, v) hm
          simp only at this
          rw [he.trans _ _ _ hk (he.symm _ _ hkx)] at this
          exact absurd this (by simp)
    · rw [if_neg hk, ih h1.2]
      constructor
      · rintro ⟨k, hm, hkx⟩; exact ⟨k, by simp [hm], hkx⟩
      · rintro ⟨k, hm, hkx⟩
        rcases List.mem_cons.1 hm with e | hm
        · simp at e; rw [e.1] at hkx; exact absurd hkx hk
        · exact ⟨k, hm, hkx⟩

theorem get_none_iff (m : List (K × V)) (x : K) : get eq m x = none ↔ ∀ e ∈ m, eq e.1 x = false := by
  induction m with
  | nil => simp [get]
  | cons e m ih =>
    obtain ⟨k0, w⟩ := e
    simp only [get]
    by_cases hk : eq k0 x = true
    · simp [hk]
    · simp only [if_neg hk, ih, List.mem_cons, forall_eq_or_imp]
      simp [hk]

/-- Moving the last entry into the hole is a permutation of erasing. -/
theorem swapRemoveAt_perm {α : Type} (l : List α) (i : Nat) (h : i < l.length) :
    (swapRemoveAt l i).Perm (l.eraseIdx i) := by
  unfold swapRemoveAt
  have hne : l ≠ [] := by intro e; subst e; simp at h
  rw [List.getLast?_eq_some_getLast hne]
  simp only
  obtain ⟨init, z, rfl⟩ : ∃ init z, l = init ++ [z] := ⟨l.dropLast, l.getLast hne, (List.dropLast_append_getLast hne).symm⟩
  simp only [List.getLast_append_singleton, List.length_append, List.length_singleton] at *
  by_cases hi : i + 1 = init.length + 1
  · rw [if_pos hi]
    have : i = init.length := by omega
    subst this
    rw [List.dropLast_concat, List.eraseIdx_append_of_length_le (Nat.le_refl _)]
    simp
  · rw [if_neg hi]
    have hi' : i < init.length := by omega
    rw [List.set_append_left _ _ hi', List.dropLast_concat, List.eraseIdx_append_of_lt_length hi']
    rw [List.set_eq_take_append_cons_drop, if_pos hi', List.eraseIdx_eq_take_drop_succ]
    rw [List.append_assoc]
    apply List.Perm.append_left
    exact (List.perm_append_singleton z (List.drop (i+1) init)).symm

theorem indexOf_spec (m : List (K × V)) (x : K) :
    match indexOf eq m x with
    | none => ∀ e ∈ m, eq e.1 x = false
    | some i => ∃ a e b, m = a ++ e :: b ∧ a.length = i ∧ eq e.1 x = true ∧ ∀ e' ∈ a, eq e'.1 x = false := by
  induction m with
  | nil => simp [indexOf]
  | cons e m ih =>
    obtain ⟨k0, w⟩ := e
    unfold indexOf
    by_cases hk : eq k0 x = true
    · rw [if_pos hk]; exact ⟨[], (k0, w), m, rfl, rfl, hk, by simp⟩
    · rw [if_neg hk]
      cases hi : indexOf eq m x with
      | none =>
        rw [hi] at ih
        simp only [Option.map_none]
        intro e he
        rcases List.mem_cons.1 he with rfl | he
        · simpa using hk
        · exact ih e he
      | some i =>
        rw [hi] at ih
        obtain ⟨a, e, b, h1, h2, h3, h4⟩ := ih
        refine ⟨(k0, w) :: a, e, b, by rw [h1]; rfl, by simp [h2], h3, ?_⟩
        intro e' he'
        rcases List.mem_cons.1 he' with rfl | he'
        · simpa using hk
        · exact h4 e' he'

theorem distinct_perm (he : IsEquiv eq) {m n : List (K × V)} (h : Distinct eq m) (p : m.Perm n) : Distinct eq n := by
  refine (p.pairwise_iff ?_).1 h
  intro a b hab
  cases hba : eq b.1 a.1 with
  | false => rfl
  | true => rw [he.symm _ _ hba] at hab; exact absurd hab (by simp)

theorem remove_spec (he : IsEquiv eq) {m : List (K × V)} (h : Distinct eq m) (k : K) :
    (remove eq m k).1 = get eq m k ∧ Distinct eq (remove eq m k).2 ∧
    ∀ x, get eq (remove eq m k).2 x = if eq k x then none else get eq m x := by
  have hs := indexOf_spec (eq := eq) m k
  unfold remove
  cases hi : indexOf eq m k with
  | none =>
    rw [hi] at hs
    simp only
    refine ⟨((get_none_iff m k).2 hs).symm, h, ?_⟩
    intro x
    by_cases hk : eq k x = true
    · rw [if_pos hk]
      rw [get_none_iff]
      intro e hem
      rw [← he.congr_left hk]; exact hs e hem
    · rw [if_neg hk]
  | some i =>
    rw [hi] at hs
    obtain ⟨a, e, b, rfl, hl, hek, hna⟩ := hs
    simp only
    have hp : (swapRemoveAt (a ++ e :: b) i).Perm (a ++ b) := by
      have := swapRemoveAt_perm (a ++ e :: b) i (by simp; omega)
      rw [List.eraseIdx_append_of_length_le (by omega)] at this
      simpa [hl] using this
    have hd : Distinct eq (a ++ b) := List.Pairwise.sublist (by simp) h
    have hd' : Distinct eq (swapRemoveAt (a ++ e :: b) i) := distinct_perm he hd hp.symm
    refine ⟨?_, hd', ?_⟩
    · rw [← hl]
      simp only [List.getElem?_append_right (Nat.le_refl _), Nat.sub_self, List.getElem?_cons_zero, Option.map_some]
      symm
      rw [get_eq_some he h]
      exact ⟨e.1, by simp, hek⟩
    · intro x
      have key : ∀ v, get eq (swapRemoveAt (a ++ e :: b) i) x = some v ↔
          (if eq k x then none else get eq (a ++ e :: b) x) = some v := by
        intro v
        rw [get_eq_some he hd']
        by_cases hk : eq k x = true
        · rw [if_pos hk]
          constructor
          · rintro ⟨k', hm, hkx⟩
            have hm := hp.mem_iff.1 hm
            have h1 : eq k' k = true := he.trans _ _ _ hkx (he.symm _ _ hk)
            have h2 : eq k' e.1 = true := he.trans _ _ _ h1 (he.symm _ _ hek)
            rcases List.mem_append.1 hm with hm | hm
            · have := hna _ hm; simp only at this; rw [h1] at this; exact absurd this (by simp)
            · have h3 := (List.pairwise_append.1 h).2.1
              have := (List.pairwise_cons.1 h3).1 _ hm
              simp only at this
              rw [he.symm _ _ h2] at this; exact absurd this (by simp)
          · simp
        · rw [if_neg hk, get_eq_some he h]
          constructor
          · rintro ⟨k', hm, hkx⟩
            have hm := hp.mem_iff.1 hm
            exact ⟨k', by simp only [List.mem_append, List.mem_cons] at hm ⊢; rcases hm with h | h <;> simp [h], hkx⟩
          · rintro ⟨k', hm, hkx⟩
            refine ⟨k', hp.mem_iff.2 ?_, hkx⟩
            simp only [List.mem_append, List.mem_cons] at hm ⊢
            rcases hm with h | h | h
            · exact Or.inl h
            · exfalso
              have : e.1 = k' := by rw [← h]
              rw [this] at hek
              exact hk (he.trans _ _ _ (he.symm _ _ hek) hkx)
            · exact Or.inr h
      cases hg : get eq (swapRemoveAt (a ++ e :: b) i) x with
      | some v => exact ((key v).1 hg).symm
      | none =>
        cases hr : (if eq k x then none else get eq (a ++ e :: b) x) with
        | none => rfl
        | some v => rw [(key v).2 hr] at hg; exact absurd hg (by simp)

theorem run_inv (he : IsEquiv eq) (ops : List (Op K V)) :
    Distinct eq (run eq ops) ∧ ∀ x, get eq (run eq ops) x = latest eq ops.reverse x := by
  induction ops using List.reverseRecOn with
  | nil => exact ⟨by simp [run, Distinct], fun x => rfl⟩
  | append_singleton ops o ih =>
    obtain ⟨h1, h2⟩ := ih
    have e : run eq (ops ++ [o]) = step eq (run eq ops) o := by simp [run]
    rw [e, List.reverse_append, List.reverse_singleton, List.singleton_append]
    cases o with
    | store k v =>
      refine ⟨distinct_insert h1 k v, ?_⟩
      intro x
      simp only [step, latest]
      rw [get_insert he, h2]
    | delete k =>
      obtain ⟨_, h3, h4⟩ := remove_spec he h1 k
      refine ⟨h3, ?_⟩
      intro x
      simp only [step, latest]
      rw [h4, h2]
    | clear => exact ⟨by simp [step, Distinct], fun x => rfl⟩

/-- C17: after every history of stores, deletes and clears, looking up `x` gives the value most recently stored under
a key equal to `x` and not deleted since, or nothing. -/
theorem C17_lookup (he : IsEquiv eq) (ops : List (Op K V)) (x : K) :
    get eq (run eq ops) x = latest eq ops.reverse x ∧
    (contains_key eq (run eq ops) x = true ↔ (latest eq ops.reverse x).isSome = true) := by
  obtain ⟨_, h2⟩ := run_inv he ops
  refine ⟨h2 x, ?_⟩
  rw [← h2 x]
  cases hg : get eq (run eq ops) x with
  | none =>
    have := (get_none_iff _ _).1 hg
    simp [contains_key]
    intro a b hab; exact this (a, b) hab
  | some v =>
    have hn : ¬ ∀ e ∈ run eq ops, eq e.1 x = false := by
      rw [← get_none_iff, hg]; simp
    simp only [Option.isSome_some, iff_true, contains_key, List.any_eq_true]
    by_contra hc
    apply hn
    intro e hem
    cases h : eq e.1 x with
    | false => rfl
    | true => exact absurd ⟨e, hem, h⟩ hc

/-- C17: `size` counts the distinct keys: the keys are pairwise different, every key present in the history is equal
to one of them, and there are as many as `size` says. -/
theorem C17_size (he : IsEquiv eq) (ops : List (Op K V)) :
    ((keys (run eq ops)).Pairwise (fun a b => eq a b = false)) ∧
    (∀ x, (∃ k ∈ keys (run eq ops), eq k x = true) ↔ (latest eq ops.reverse x).isSome = true) ∧
    (keys (run eq ops)).length = (run eq ops).length := by
  obtain ⟨h1, h2⟩ := run_inv he ops
  refine ⟨?_, ?_, by simp [keys]⟩
  · unfold keys; rw [List.pairwise_map]; exact h1
  · intro x
    rw [← (C17_lookup he ops x).2]
    simp [keys, contains_key]

/-- C17: `delete` returns the value it removes, or nothing. -/
theorem C17_delete (he : IsEquiv eq) (ops : List (Op K V)) (k : K) :
    (remove eq (run eq ops) k).1 = latest eq ops.reverse k := by
  obtain ⟨h1, h2⟩ := run_inv he ops
  rw [(remove_spec he h1 k).1, h2]

/-- C17: `fetch` gives the stored value, and otherwise the block, then the default, then an error. -/
theorem C17_fetch (he : IsEquiv eq) (ops : List (Op K V)) (x : K) (b d : Bool) :
    fetch eq (run eq ops) x b d =
      match latest eq ops.reverse x with
      | some v => .value v
      | none => if b then .block else if d then .dflt else .notFound := by
  unfold fetch
  rw [(C17_lookup he ops x).1]
  cases latest eq ops.reverse x <;> rfl

theorem natEquiv : IsEquiv (fun a b : Nat => a == b) := ⟨by simp, by simp_all, by simp_all⟩

example : run (fun a b : Nat => a == b) [.store 1 10, .store 2 20, .delete 1, .store 1 11, .store 2 22] = [(2, 22), (1, 11)] := by
  decide

/-! ## C18 -/

/-- The keys that no equal key precedes. -/
def firsts (eq : K → K → Bool) : (before : List K) → List K → List K
  | _, [] => []
  | before, x :: xs =>
    if before.any (fun y => eq y x) then firsts eq (before ++ [x]) xs else x :: firsts eq (before ++ [x]) xs

theorem keys_insert_map (m : List (K × V)) (k : K) (v : V) :
    (insert eq m k v).map Prod.fst =
      if (m.map Prod.fst).any (fun y => eq y k) then m.map Prod.fst else m.map Prod.fst ++ [k] := by
  induction m with
  | nil => simp [insert]
  | cons e m ih =>
    obtain ⟨k0, w⟩ := e
    unfold insert
    rw [List.map_cons, List.any_cons]
    by_cases h : eq k0 k = true
    · simp [h]
    · rw [if_neg h, List.map_cons, ih]
      have h' : eq k0 k = false := by simpa using h
      by_cases hb : (List.map Prod.fst m).any (fun y => eq y k) = true
      · rw [if_pos hb, if_pos (by rw [hb]; simp)]
      · rw [if_neg hb, if_neg (by rw [h']; simpa using hb)]; rfl

theorem keys_insert (m : List (K × V)) (k : K) (v : V) :
    keys (insert eq m k v) = if (keys m).any (fun y => eq y k) then keys m else keys m ++ [k] :=
  keys_insert_map m k v

theorem keys_fold (he : IsEquiv eq) (es : List (K × V)) : ∀ (m : List (K × V)) (before : List K),
    (∀ x, (keys m).any (fun y => eq y x) = before.any (fun y => eq y x)) →
    keys (es.foldl (fun n e => insert eq n e.1 e.2) m) = keys m ++ firsts eq before (es.map Prod.fst) := by
  induction es with
  | nil => intro m before h; simp [firsts]
  | cons e es ih =>
    intro m before h
    obtain ⟨k, v⟩ := e
    simp only [List.foldl_cons, List.map_cons, firsts]
    have hk := keys_insert (eq := eq) m k v
    by_cases hb : before.any (fun y => eq y k) = true
    · rw [if_pos hb]
      rw [h k, if_pos hb] at hk
      rw [ih _ (before ++ [k]), hk]
      intro x
      rw [hk, h x, List.any_append]
      simp only [List.any_cons, List.any_nil, Bool.or_false]
      cases hkx : eq k x with
      | false => simp
      | true =>
        obtain ⟨y, hy, hyk⟩ := List.any_eq_true.1 hb
        simp only [Bool.or_true]
        exact List.any_eq_true.2 ⟨y, hy, he.trans _ _ _ hyk hkx⟩
    · rw [if_neg hb]
      rw [h k, if_neg hb] at hk
      rw [ih _ (before ++ [k]), hk]
      · simp
      · intro x; rw [hk, List.any_append, List.any_append, h x]

/-- C18: stores alone list the keys in the order in which they were first inserted; storing under a key already
present keeps its place.  With `delete` in the history this fails, see below. -/
theorem C18_order_partial (he : IsEquiv eq) (es : List (K × V)) :
    keys (run eq (es.map (fun e => Op.store e.1 e.2))) = firsts eq [] (es.map Prod.fst) := by
  have := keys_fold he es [] [] (by simp [keys])
  rw [run, List.foldl_map]
  simpa [keys, step] using this

/-- C18: `merge` keeps the receiver's order and appends the new keys in their order. -/
theorem C18_merge (he : IsEquiv eq) (m n : List (K × V)) :
    keys (merge eq m [n]) = keys m ++ firsts eq (keys m) (keys n) := by
  have := keys_fold he n m (keys m) (fun _ => rfl)
  simpa [merge, keys] using this

/-- C18: the values and entries are listed in the same order as the keys. -/
theorem C18_values (m : List (K × V)) : m = (keys m).zip (values m) := by
  unfold keys values
  rw [List.zip_map']; simp

/-- C18: what deleting does instead: nothing changes if the last key is deleted, and otherwise the last entry takes
the place of the deleted one. -/
theorem C18_delete_partial (he : IsEquiv eq) (a b : List (K × V)) (e : K × V) (h : Distinct eq (a ++ e :: b)) :
    (remove eq (a ++ e :: b) e.1).2 =
      match b.getLast? with
      | none => a
      | some z => a ++ z :: b.dropLast := by
  have hs := indexOf_spec (eq := eq) (a ++ e :: b) e.1
  unfold remove
  cases hi : indexOf eq (a ++ e :: b) e.1 with
  | none =>
    rw [hi] at hs
    have := hs e (by simp)
    rw [he.refl] at this; exact absurd this (by simp)
  | some i =>
    rw [hi] at hs
    obtain ⟨a', e', b', h1, h2, h3, h4⟩ := hs
    have hlen : a'.length = a.length := by
      by_contra hne
      rcases Nat.lt_or_gt_of_ne hne with hlt | hgt
      · -- e' lies in a: two equal keys
        have hx : (a ++ e :: b)[a'.length]? = some e' := by rw [h1]; simp
        rw [List.getElem?_append_left hlt] at hx
        have hm : e' ∈ a := List.mem_of_getElem? hx
        have := (List.pairwise_append.1 h).2.2 e' hm e (by simp)
        rw [h3] at this; exact absurd this (by simp)
      · have hx : (a' ++ e' :: b')[a.length]? = some e := by rw [← h1]; simp
        rw [List.getElem?_append_left hgt] at hx
        have hm : e ∈ a' := List.mem_of_getElem? hx
        have := h4 e hm
        rw [he.refl] at this; exact absurd this (by simp)
    have hi2 : i = a.length := by omega
    subst hi2
    simp only
    unfold swapRemoveAt
    cases b using List.reverseRecOn with
    | nil => simp
    | append_singleton b z =>
      have e1 : a ++ e :: (b ++ [z]) = (a ++ e :: b) ++ [z] := by simp
      rw [e1, List.getLast?_concat]
      simp only [List.length_append, List.length_cons, List.getLast?_concat, List.dropLast_concat]
      rw [if_neg (by omega), List.set_append_left _ _ (by simp), List.dropLast_concat]
      simp

/-- C18 fails when a key other than the last is deleted: the others change their order. -/
theorem C18_delete_fails :
    keys (run (fun a b : Nat => a == b) [.store 1 1, .store 2 2, .store 3 3, .delete 1]) = [3, 2] := by decide

/-! ## C64: hashes made from hashes -/

/-- C64: `merge` answers with the last argument that has the key. -/
theorem C64_merge (he : IsEquiv eq) (m n : List (K × V)) (hn : Distinct eq n) (x : K) :
    get eq (merge eq m [n]) x = (get eq n x).or (get eq m x) := by
  have key : ∀ (n m : List (K × V)), Distinct eq n →
      get eq (n.foldl (fun new e => insert eq new e.1 e.2) m) x = (get eq n x).or (get eq m x) := by
    intro n
    induction n with
    | nil => intro m _; simp [get]
    | cons e n ih =>
      intro m hd
      obtain ⟨k, v⟩ := e
      have hd1 := List.pairwise_cons.1 hd
      rw [List.foldl_cons, ih _ hd1.2, get_insert he]
      simp only [get]
      by_cases hk : eq k x = true
      · simp only [hk, if_true, Option.or_some]
        have : get eq n x = none := by
          rw [get_none_iff]
          intro e he'
          have := hd1.1 e he'
          cases h : eq e.1 x with
          | false => rfl
          | true => rw [he.trans _ _ _ hk (he.symm _ _ h)] at this; exact absurd this (by simp)
        simp [this]
      · simp [hk]
  simpa [merge] using key n m hn

theorem insert_fresh (m : List (K × V)) (k : K) (v : V) (h : ∀ e ∈ m, eq e.1 k = false) :
    insert eq m k v = m ++ [(k, v)] := by
  induction m with
  | nil => rfl
  | cons e m ih =>
    obtain ⟨k0, w⟩ := e
    unfold insert
    have := h (k0, w) (by simp)
    simp only at this
    rw [if_neg (by simp [this]), ih (fun e he => h e (by simp [he]))]; rfl

/-- A block run once for each entry, in order. -/
def runBlock {σ ε : Type} (f : K → V → σ → Except ε (Bool × σ)) : List (K × V) → σ → Except ε (List Bool × σ)
  | [], s => .ok ([], s)
  | (k, v) :: m, s => match f k v s with
    | .error e => .error e
    | .ok (b, s') => match runBlock f m s' with
      | .error e => .error e
      | .ok (bs, s'') => .ok (b :: bs, s'')

/-- C64: `select` and `reject` run the block once for each entry in order and keep, in order, exactly the entries for
which it answers accordingly. -/
theorem C64_select {σ ε : Type} (keep : Bool) (f : K → V → σ → Except ε (Bool × σ)) (m : List (K × V))
    (h : Distinct eq m) (s : σ) :
    selectH eq keep f m [] s =
      match runBlock f m s with
      | .error e => .error e
      | .ok (bs, s') => .ok (((m.zip bs).filter (fun p => p.2 == keep)).map Prod.fst, s') := by
  have key : ∀ (m res : List (K × V)) (s : σ), Distinct eq (res ++ m) →
      selectH eq keep f m res s =
      match runBlock f m s with
      | .error e => .error e
      | .ok (bs, s') => .ok (res ++ ((m.zip bs).filter (fun p => p.2 == keep)).map Prod.fst, s') := by
    intro m
    induction m with
    | nil => intro res s _; simp [selectH, runBlock]
    | cons e m ih =>
      intro res s hd
      obtain ⟨k, v⟩ := e
      unfold selectH runBlock
      cases f k v s with
      | error e => rfl
      | ok r =>
        obtain ⟨b, s'⟩ := r
        simp only
        by_cases hb : b = keep
        · subst hb
          have hfresh : ∀ e ∈ res, eq e.1 k = false := fun e hem => (List.pairwise_append.1 hd).2.2 e hem (k, v) (by simp)
          rw [if_pos rfl, insert_fresh _ _ _ hfresh, ih _ _ (by simpa using hd)]
          cases runBlock f m s' with
          | error e => rfl
          | ok r => simp
        · rw [if_neg hb, ih _ _ (List.Pairwise.sublist (by simp) hd)]
          cases runBlock f m s' with
          | error e => rfl
          | ok r => simp [hb]
  simpa using key m [] s (by simpa using h)

/-- C64: `compact` drops exactly the entries whose value is `nil`. -/
theorem C64_compact (isNil : V → Bool) (m : List (K × V)) :
    (compactH isNil m).Sublist m ∧ ∀ e, e ∈ compactH isNil m ↔ e ∈ m ∧ isNil e.2 = false := by
  exact ⟨List.filter_sublist, by intro e; simp [compactH]⟩

/-- C64: `invert`: looking up a value gives the *last* key that holds an equal value. -/
theorem C64_invert {W : Type} {eqw : W → W → Bool} (he : IsEquiv eqw) (m : List (K × W)) (x : W) :
    get eqw (invert eqw m) x = (m.reverse.find? (fun e => eqw e.2 x)).map Prod.fst := by
  unfold invert
  induction m using List.reverseRecOn with
  | nil => rfl
  | append_singleton m e ih =>
    rw [List.foldl_append, List.foldl_cons, List.foldl_nil, get_insert he, ih, List.reverse_append,
      List.reverse_singleton, List.singleton_append, List.find?_cons]
    cases eqw e.2 x <;> simp

/-- C64: `compare_by_identity` keeps every entry, in order, when identical keys are equal keys. -/
theorem C64_identity (ideq : K → K → Bool) (m : List (K × V)) (h : Distinct eq m)
    (hid : ∀ x y, ideq x y = true → eq x y = true) : compare_by_identity ideq m = m := by
  have key : ∀ (m res : List (K × V)), Distinct eq (res ++ m) →
      m.foldl (fun n e => insert ideq n e.1 e.2) res = res ++ m := by
    intro m
    induction m with
    | nil => intro res _; simp
    | cons e m ih =>
      intro res hd
      have hfresh : ∀ e' ∈ res, ideq e'.1 e.1 = false := by
        intro e' he'
        cases hc : ideq e'.1 e.1 with
        | false => rfl
        | true =>
          have := (List.pairwise_append.1 hd).2.2 e' he' e (by simp)
          rw [hid _ _ hc] at this; exact absurd this (by simp)
      rw [List.foldl_cons, insert_fresh _ _ _ hfresh, ih _ (by simpa using hd)]
      simp
  simpa [compare_by_identity] using key m [] (by simpa using h)

/-- C64 fails for `select` on an identity hash: it collects into an ordinary hash, so two entries whose keys are
equal but not identical become one. -/
theorem C64_select_identity_fails :
    selectH (σ := Unit) (ε := Unit) (fun a b : Nat × Nat => a.1 == b.1) true (fun _ _ s => .ok (true, s))
      [((7, 0), "a"), ((7, 1), "b")] [] () = .ok ([((7, 0), "b")], ()) := by rfl

example : merge (fun a b : Nat => a == b) [(1, 10), (2, 20)] [[(2, 21), (3, 30)]] = [(1, 10), (2, 21), (3, 30)] := by decide

end Verif.Hash
