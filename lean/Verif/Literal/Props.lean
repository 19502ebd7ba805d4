import Verif.Literal.Spec
import Mathlib.Data.List.Forall2
/-!
# Array, hash and string literals are fresh on every evaluation (C59)
-/
namespace Verif.Literal

theorem buildAll_imm (h : Heap) (l : List Lit) (hl : ∀ e ∈ l, e.Imm) :
    (buildAll h l).1 = h ∧ (Cell.arr (buildAll h l).2).refs = [] ∧
      ∀ h', List.Forall₂ (Denotes h') (buildAll h l).2 l := by
  induction l with
  | nil => exact ⟨rfl, rfl, fun _ => .nil⟩
  | cons e es ih =>
    have he := hl e (by simp)
    cases e with
    | imm n =>
      obtain ⟨h1, h2, h3⟩ := ih (fun e he => hl e (List.mem_cons_of_mem _ he))
      simp only [buildAll, build]
      refine ⟨h1, ?_, fun h' => .cons (.imm n) (h3 h')⟩
      simpa [Cell.refs] using h2
    | str _ => exact he.elim
    | arr _ => exact he.elim
    | hash _ => exact he.elim

theorem buildPairs_imm (h : Heap) (l : List (Lit × Lit)) (hl : ∀ e ∈ l, e.1.Imm ∧ e.2.Imm) :
    (buildPairs h l).1 = h ∧ (Cell.hash (buildPairs h l).2).refs = [] ∧
      ∀ h', List.Forall₂ (Denotes h') ((buildPairs h l).2.map Prod.fst) (l.map Prod.fst) ∧
        List.Forall₂ (Denotes h') ((buildPairs h l).2.map Prod.snd) (l.map Prod.snd) := by
  induction l with
  | nil => exact ⟨rfl, rfl, fun _ => ⟨.nil, .nil⟩⟩
  | cons e es ih =>
    obtain ⟨h1, h2, h3⟩ := ih (fun e he => hl e (List.mem_cons_of_mem _ he))
    obtain ⟨k, v⟩ := e
    have he := hl (k, v) (by simp)
    cases k with
    | imm n =>
      cases v with
      | imm m =>
        simp only [buildPairs, build]
        refine ⟨h1, ?_, fun h' => ⟨.cons (.imm n) (h3 h').1, .cons (.imm m) (h3 h').2⟩⟩
        simpa [Cell.refs] using h2
      | str _ => exact he.2.elim
      | arr _ => exact he.2.elim
      | hash _ => exact he.2.elim
    | str _ => exact he.1.elim
    | arr _ => exact he.1.elim
    | hash _ => exact he.1.elim

/-- A template: an object that says what the literal says and refers to nothing. -/
def Template (h : Heap) (v : V) (l : Lit) : Prop :=
  (∃ n, v = .imm n ∧ l = .imm n) ∨
  ∃ a, v = .ref a ∧ a < h.next ∧ (h.cell a).refs = [] ∧ ∀ h' a', h'.cell a' = h.cell a → Denotes h' (.ref a') l

theorem build_flat (h : Heap) (l : Lit) (hl : l.Flat) :
    h.next ≤ (build h l).1.next ∧ (∀ a < h.next, (build h l).1.cell a = h.cell a) ∧
      Template (build h l).1 (build h l).2 l ∧
      ((∀ a, (h.cell a).refs = []) → ∀ a, ((build h l).1.cell a).refs = []) := by
  cases l with
  | imm n => exact ⟨Nat.le_refl _, fun _ _ => rfl, Or.inl ⟨n, rfl, rfl⟩, fun h => h⟩
  | str s =>
    refine ⟨by simp [build, Heap.alloc], fun a ha => by simp [build, Heap.alloc]; omega, Or.inr ⟨h.next, rfl, ?_, ?_, ?_⟩, ?_⟩
    · simp [build, Heap.alloc]
    · simp [build, Heap.alloc, Cell.refs]
    · intro h' a' he
      simp [build, Heap.alloc] at he
      exact .str _ _ he
    · intro hh a
      simp only [build, Heap.alloc]
      split
      · rfl
      · exact hh a
  | arr l =>
    obtain ⟨h1, h2, h3⟩ := buildAll_imm h l hl
    simp only [build, h1]
    refine ⟨by simp [Heap.alloc], fun a ha => by simp [Heap.alloc]; omega, Or.inr ⟨h.next, rfl, ?_, ?_, ?_⟩, ?_⟩
    · simp [Heap.alloc]
    · simpa [Heap.alloc] using h2
    · intro h' a' he
      simp [Heap.alloc] at he
      exact .arr _ _ _ he (h3 h')
    · intro hh a
      simp only [Heap.alloc]
      split
      · exact h2
      · exact hh a
  | hash l =>
    obtain ⟨h1, h2, h3⟩ := buildPairs_imm h l hl
    simp only [build, h1]
    refine ⟨by simp [Heap.alloc], fun a ha => by simp [Heap.alloc]; omega, Or.inr ⟨h.next, rfl, ?_, ?_, ?_⟩, ?_⟩
    · simp [Heap.alloc]
    · simpa [Heap.alloc] using h2
    · intro h' a' he
      simp [Heap.alloc] at he
      exact .hash _ _ _ he (h3 h').1 (h3 h').2
    · intro hh a
      simp only [Heap.alloc]
      split
      · exact h2
      · exact hh a

theorem Template.mono {h h' : Heap} {v : V} {l : Lit} (T : Template h v l) (hn : h.next ≤ h'.next)
    (hc : ∀ a, v = .ref a → h'.cell a = h.cell a) : Template h' v l := by
  rcases T with T | ⟨a, hv, h1, h2, h3⟩
  · exact Or.inl T
  · refine Or.inr ⟨a, hv, by omega, by rw [hc a hv]; exact h2, ?_⟩
    intro h'' a' e
    exact h3 h'' a' (by rw [e, hc a hv])

theorem compile_flat (h : Heap) (lits : List Lit) (hl : ∀ l ∈ lits, l.Flat) :
    h.next ≤ (compile h lits).1.next ∧ (∀ a < h.next, (compile h lits).1.cell a = h.cell a) ∧
      List.Forall₂ (Template (compile h lits).1) (compile h lits).2 lits ∧
      ((∀ a, (h.cell a).refs = []) → ∀ a, ((compile h lits).1.cell a).refs = []) := by
  induction lits generalizing h with
  | nil => exact ⟨Nat.le_refl _, fun _ _ => rfl, .nil, fun h => h⟩
  | cons l ls ih =>
    obtain ⟨h1, h2, h3, h7⟩ := build_flat h l (hl l (by simp))
    obtain ⟨h4, h5, h6, h8⟩ := ih (build h l).1 (fun e he => hl e (List.mem_cons_of_mem _ he))
    simp only [compile]
    refine ⟨by omega, fun a ha => by rw [h5 a (by omega), h2 a ha], .cons ?_ h6, fun hh => h8 (h7 hh)⟩
    refine h3.mono h4 ?_
    intro a ha
    rcases h3 with ⟨n, hv, _⟩ | ⟨b, hv, hb, _⟩
    · rw [hv] at ha; exact absurd ha (by simp)
    · rw [hv] at ha; injection ha with ha; subst ha
      exact h5 b hb

structure Inv (lits : List Lit) (σ : St) : Prop where
  table : List.Forall₂ (Template σ.heap) σ.table lits
  known : ∀ a ∈ σ.known, a < σ.heap.next ∧ V.ref a ∉ σ.table
  inner : ∀ a, ∀ r ∈ (σ.heap.cell a).refs, r < σ.heap.next ∧ V.ref r ∉ σ.table

theorem forall₂_mono {A B : Type} {R S : A → B → Prop} {l : List A} {l' : List B} (h : List.Forall₂ R l l')
    (hs : ∀ a b, a ∈ l → R a b → S a b) : List.Forall₂ S l l' := by
  induction h with
  | nil => exact .nil
  | cons h t ih =>
    exact .cons (hs _ _ (by simp) h) (ih (fun a b ha => hs a b (List.mem_cons_of_mem _ ha)))

theorem Inv.lt {lits : List Lit} {σ : St} (I : Inv lits σ) {a : Nat} (h : V.ref a ∈ σ.table) : a < σ.heap.next := by
  have key : ∀ (t : List V) (ls : List Lit), List.Forall₂ (Template σ.heap) t ls → V.ref a ∈ t → a < σ.heap.next := by
    intro t ls hf
    induction hf with
    | nil => intro h; simp at h
    | cons h1 _ ih =>
      intro h
      rcases List.mem_cons.1 h with h | h
      · rcases h1 with ⟨n, hv, _⟩ | ⟨b, hv, hb, _⟩
        · rw [hv] at h; exact absurd h (by simp)
        · rw [hv] at h; injection h with h; omega
      · exact ih h
  exact key _ _ I.table h

theorem Inv.alloc {lits : List Lit} {σ : St} (I : Inv lits σ) (c : Cell)
    (hc : ∀ r ∈ c.refs, r < σ.heap.next ∧ V.ref r ∉ σ.table) :
    Inv lits { σ with heap := (σ.heap.alloc c).1, known := (σ.heap.alloc c).2 :: σ.known } := by
  have hnew : V.ref σ.heap.next ∉ σ.table := fun h => absurd (I.lt h) (by omega)
  refine ⟨?_, ?_, ?_⟩
  · refine forall₂_mono I.table (fun v l hv T => T.mono (by simp [Heap.alloc]) ?_)
    intro a ha
    subst ha
    have := I.lt hv
    simp [Heap.alloc]; omega
  · intro a ha
    rcases List.mem_cons.1 ha with rfl | ha
    · exact ⟨by simp [Heap.alloc], hnew⟩
    · have := I.known a ha
      exact ⟨by simp [Heap.alloc]; omega, this.2⟩
  · intro a r hr
    by_cases ha : a = σ.heap.next
    · simp only [Heap.alloc, ha, if_true] at hr
      have := hc r hr
      exact ⟨by simp [Heap.alloc]; omega, this.2⟩
    · simp only [Heap.alloc, ha, if_false] at hr
      have := I.inner a r hr
      exact ⟨by simp [Heap.alloc]; omega, this.2⟩

/-- what evaluating literal `i` gives -/
theorem Inv.eval {lits : List Lit} {σ : St} (I : Inv lits σ) (i : Nat) (l : Lit) (hl : lits[i]? = some l) :
    Inv lits (step σ (.eval i)).1 ∧ (step σ (.eval i)).1.table = σ.table ∧
    ∃ v, (step σ (.eval i)).2 = some v ∧ Denotes (step σ (.eval i)).1.heap v l ∧
      ∀ a, v = .ref a → σ.heap.next = a := by
  have hi : ∃ v, σ.table[i]? = some v ∧ Template σ.heap v l ∧ v ∈ σ.table := by
    have hlen := I.table.length_eq
    have hi : i < lits.length := by
      by_contra hc
      rw [List.getElem?_eq_none (by omega)] at hl
      exact absurd hl (by simp)
    refine ⟨σ.table[i]'(by omega), List.getElem?_eq_getElem _, ?_, List.getElem_mem _⟩
    have := I.table.get (i := i) (by omega) (by omega)
    rw [List.getElem?_eq_getElem hi] at hl
    injection hl with hl
    simpa [hl] using this
  obtain ⟨v, hv, T, hm⟩ := hi
  rcases T with ⟨n, rfl, rfl⟩ | ⟨a, rfl, h1, h2, h3⟩
  · simp only [step, hv, shallow_dup]
    exact ⟨I, trivial, _, rfl, .imm n, fun a h => absurd h (by simp)⟩
  · simp only [step, hv, shallow_dup]
    refine ⟨I.alloc _ (by rw [h2]; simp), trivial, _, rfl, ?_, ?_⟩
    · exact h3 _ _ (by simp [Heap.alloc])
    · intro b hb; cases hb; rfl

theorem Inv.step {lits : List Lit} {σ : St} (I : Inv lits σ) (op : Op) :
    Inv lits (step σ op).1 ∧ σ.heap.next ≤ (Literal.step σ op).1.heap.next := by
  cases op with
  | eval i =>
    cases hl : lits[i]? with
    | some l =>
      refine ⟨(I.eval i l hl).1, ?_⟩
      simp only [Literal.step]
      split
      · exact Nat.le_refl _
      · rename_i v _
        cases v <;> simp [shallow_dup, Heap.alloc]
    | none =>
      have : σ.table[i]? = none := by
        rw [List.getElem?_eq_none_iff] at hl ⊢
        rw [I.table.length_eq]; exact hl
      simp only [Literal.step, this]
      exact ⟨I, Nat.le_refl _⟩
  | read a =>
    simp only [Literal.step]
    split
    · rename_i ha
      refine ⟨⟨I.table, ?_, ?_⟩, Nat.le_refl _⟩
      · intro b hb
        rcases List.mem_append.1 hb with hb | hb
        · exact I.inner a b hb
        · exact I.known b hb
      · exact I.inner
    · exact ⟨I, Nat.le_refl _⟩
  | write a c =>
    simp only [Literal.step]
    split
    · rename_i hc
      refine ⟨⟨?_, ?_, ?_⟩, Nat.le_refl _⟩
      · refine forall₂_mono I.table (fun v l hv T => T.mono (Nat.le_refl _) ?_)
        intro b hb
        subst hb
        have hne : b ≠ a := fun e => (I.known a hc.1).2 (e ▸ hv)
        simp [hne]
      · exact I.known
      · intro b r hr
        by_cases hba : b = a
        · subst hba
          simp only [if_true] at hr
          exact I.known r (hc.2 r hr)
        · simp only [hba, if_false] at hr
          exact I.inner b r hr
    · exact ⟨I, Nat.le_refl _⟩
  | alloc c =>
    simp only [Literal.step]
    split
    · rename_i hc
      exact ⟨I.alloc c (fun r hr => I.known r (hc r hr)), by simp [Heap.alloc]⟩
    · exact ⟨I, Nat.le_refl _⟩

theorem Inv.start {lits : List Lit} (hl : ∀ l ∈ lits, l.Flat) : Inv lits (start lits) := by
  obtain ⟨_, _, h3, h4⟩ := compile_flat ⟨fun _ => .str [], 0⟩ lits hl
  refine ⟨h3, fun a ha => by simp [Literal.start] at ha, ?_⟩
  intro a r hr
  simp only [Literal.start] at hr
  rw [h4 (fun _ => rfl) a] at hr
  simp at hr

theorem Inv.run {lits : List Lit} (ops : List Op) {σ : St} (I : Inv lits σ) : Inv lits (run σ ops) := by
  induction ops generalizing σ with
  | nil => exact I
  | cons op ops ih => exact ih (I.step op).1

/-- **C59, partial**: in a program whose literals contain no strings, arrays or hashes inside other literals,
after every history — evaluations of literals, looking into objects, changing them in any way, making new ones
— evaluating literal `i` gives a value that is what is written, and, if it is an object, one that did not exist
before.

Missing: nested literals (`C59_nested_fails`). -/
theorem C59_fresh_partial (lits : List Lit) (hl : ∀ l ∈ lits, l.Flat) (ops : List Op) (i : Nat) (l : Lit)
    (hi : lits[i]? = some l) :
    let σ := run (start lits) ops
    ∃ v, (step σ (.eval i)).2 = some v ∧ Denotes (step σ (.eval i)).1.heap v l ∧
      ∀ a, v = .ref a → a ∉ σ.known ∧ a ≥ σ.heap.next := by
  intro σ
  have I : Inv lits σ := (Inv.start hl).run ops
  obtain ⟨_, _, v, h1, h2, h3⟩ := I.eval i l hi
  refine ⟨v, h1, h2, fun a ha => ?_⟩
  have := h3 a ha
  exact ⟨fun hk => absurd (I.known a hk).1 (by omega), by omega⟩

/-- The specification determines the contents: an object cannot be what two different flat literals say. -/
theorem C59_denotes_arr (h : Heap) (a : Nat) (l : List Int) :
    Denotes h (.ref a) (.arr (l.map .imm)) ↔ h.cell a = .arr (l.map .imm) := by
  have key : ∀ (vs : List V), List.Forall₂ (Denotes h) vs (l.map .imm) ↔ vs = l.map .imm := by
    induction l with
    | nil => intro vs; simp
    | cons n ns ih =>
      intro vs
      constructor
      · intro hf
        cases hf with
        | cons h1 h2 =>
          cases h1
          rw [(ih _).1 h2]; rfl
      · rintro rfl
        exact .cons (.imm n) ((ih _).2 rfl)
  constructor
  · intro hd
    cases hd with
    | arr _ vs _ h1 h2 => rw [h1, (key vs).1 h2]
  · intro hc
    exact .arr a _ _ hc ((key _).2 rfl)

/-- **C59 is false for nested literals**: `def f; [[1]]; end; f[0] << 2; f` gives `[[1, 2]]`.  The first result
is object 2, its element is object 0; after the change the second evaluation contains it again. -/
theorem C59_nested_fails :
    let lits := [Lit.arr [.arr [.imm 1]]]
    let σ := run (start lits) [.eval 0, .read 2, .write 0 (.arr [.imm 1, .imm 2])]
    (step σ (.eval 0)).2 = some (.ref 3) ∧ (step σ (.eval 0)).1.heap.cell 3 = .arr [.ref 0] ∧
    (step σ (.eval 0)).1.heap.cell 0 = .arr [.imm 1, .imm 2] ∧
    ¬ Denotes (step σ (.eval 0)).1.heap (.ref 3) (.arr [.arr [.imm 1]]) := by
  intro lits σ
  have h1 : (step σ (.eval 0)).1.heap.cell 3 = .arr [.ref 0] := by decide
  have h2 : (step σ (.eval 0)).1.heap.cell 0 = .arr [.imm 1, .imm 2] := by decide
  refine ⟨by decide, h1, h2, ?_⟩
  intro hd
  cases hd with
  | arr _ vs _ e hf =>
    rw [h1] at e; injection e with e; subst e
    cases hf with
    | cons hd _ =>
      cases hd with
      | arr _ vs _ e hf =>
        rw [h2] at e; injection e with e; subst e
        cases hf with
        | cons _ ht => cases ht

/-- The same for a string in an array: `def f; ["a"]; end; f[0] << "b"; f` gives `["ab"]`. -/
theorem C59_string_in_array_fails :
    let lits := [Lit.arr [.str [97]]]
    let σ := run (start lits) [.eval 0, .read 2, .write 0 (.str [97, 98])]
    ¬ Denotes (step σ (.eval 0)).1.heap (.ref 3) (.arr [.str [97]]) := by
  intro lits σ
  have h1 : (step σ (.eval 0)).1.heap.cell 3 = .arr [.ref 0] := by decide
  have h2 : (step σ (.eval 0)).1.heap.cell 0 = .str [97, 98] := by decide
  intro hd
  cases hd with
  | arr _ vs _ e hf =>
    rw [h1] at e; injection e with e; subst e
    cases hf with
    | cons hd _ =>
      cases hd with
      | str _ s e => rw [h2] at e; injection e with e; exact absurd e (by decide)

/-! ## Cases that meet the hypotheses -/

/-- `[1, 2]` evaluated, changed and evaluated again -/
example :
    let σ := run (start [.arr [.imm 1, .imm 2], .str [97]]) [.eval 0, .write 2 (.arr [.ref 2]), .eval 1, .read 2]
    (step σ (.eval 0)).2 = some (.ref 4) ∧ (step σ (.eval 0)).1.heap.cell 4 = .arr [.imm 1, .imm 2] := by decide
example : ∀ l ∈ [Lit.arr [.imm 1, .imm 2], .str [97]], l.Flat := by
  intro l hl; simp at hl; rcases hl with rfl | rfl <;> simp [Lit.Flat, Lit.Imm]

end Verif.Literal
