import Verif.Hash.Key
import Mathlib.Tactic.Tauto
/-! # C19: key equality is an equivalence that hashing respects -/
namespace Verif.Hash
open Verif.Value (Word isZeroBits)

mutual
/-- A key as it lies in the heap `h`: an address determines its object, and a float on the heap is not zero
(zero is always packed, `value.rs` `Value::float`). -/
def Key.Wf (h : Nat → Key) : Key → Prop
  | .imm _ => True
  | .big id n => h id = .big id n
  | .flo id b => h id = .flo id b ∧ isZeroBits b = false
  | .cpx id r i => h id = .cpx id r i ∧ r.Wf h ∧ i.Wf h
  | .str id s => h id = .str id s
  | .arr id es => h id = .arr id es ∧ es.Wf h
  | .rng id s e x => h id = .rng id s e x ∧ s.Wf h ∧ e.Wf h
  | .hash id ps => h id = .hash id ps ∧ ps.Wf h
  | .obj id => h id = .obj id
def Keys.Wf (h : Nat → Key) : Keys → Prop
  | .nil => True
  | .cons k ks => k.Wf h ∧ ks.Wf h
def Pairs.Wf (h : Nat → Key) : Pairs → Prop
  | .nil => True
  | .cons k v ps => k.Wf h ∧ v.Wf h ∧ ps.Wf h
end

mutual
/-- No hash occurs in the key. -/
def Key.plain : Key → Prop
  | .cpx _ r i => r.plain ∧ i.plain
  | .arr _ es => es.plain
  | .rng _ s e _ => s.plain ∧ e.plain
  | .hash _ _ => False
  | _ => True
def Keys.plain : Keys → Prop
  | .nil => True
  | .cons k ks => k.plain ∧ ks.plain
end

theorem same_id {h : Nat → Key} {a b : Key} (ha : a.Wf h) (hb : b.Wf h) (e : b.id = a.id) : a = b := by
  cases a <;> cases b <;> simp_all [Key.id, Key.Wf]

theorem f64eq_bits {a b : Word} (ha : isZeroBits a = false) (h : f64eq a b = true) : a = b := by
  simp [f64eq, ha] at h; exact h.2

variable (q : Int → Word → Bool)

mutual
theorem eql_stream {h : Nat → Key} : ∀ (a b : Key), a.Wf h → b.Wf h → a.plain → eql q a b = true → a.stream = b.stream
  | .imm w, b, ha, hb, _, he => by
    simp [eql] at he
    rw [same_id (a := .imm w) ha hb (by simpa [Key.id] using he)]
  | .big i n, b, ha, hb, _, he => by
    simp [eql] at he
    rcases he with he | he
    · rw [same_id ha hb (by simpa [Key.id] using he)]
    · cases b <;> simp at he; subst he; rfl
  | .flo i n, b, ha, hb, _, he => by
    simp [eql] at he
    rcases he with he | he
    · rw [same_id ha hb (by simpa [Key.id] using he)]
    · cases b <;> simp at he
      have := f64eq_bits ha.2 he
      subst this; rfl
  | .cpx i r1 i1, b, ha, hb, hp, he => by
    simp only [eql, Bool.or_eq_true, beq_iff_eq] at he
    rcases he with he | he
    · rw [same_id ha hb (by simpa [Key.id] using he)]
    · cases b <;> simp at he
      simp only [Key.Wf, Key.plain] at ha hb hp
      rw [Key.stream, Key.stream, eql_stream r1 _ ha.2.1 hb.2.1 hp.1 he.1, eql_stream i1 _ ha.2.2 hb.2.2 hp.2 he.2]
  | .str i s, b, ha, hb, _, he => by
    simp only [eql, Bool.or_eq_true, beq_iff_eq] at he
    rcases he with he | he
    · rw [same_id ha hb (by simpa [Key.id] using he)]
    · cases b <;> simp at he
      subst he; rfl
  | .arr i xs, b, ha, hb, hp, he => by
    simp only [eql, Bool.or_eq_true, beq_iff_eq] at he
    rcases he with he | he
    · rw [same_id ha hb (by simpa [Key.id] using he)]
    · cases b <;> simp at he
      simp only [Key.Wf, Key.plain] at ha hb hp
      rw [Key.stream, Key.stream, he.1, eqlAll_stream xs _ ha.2 hb.2 hp he.1 he.2]
  | .rng i s1 e1 x1, b, ha, hb, hp, he => by
    simp only [eql, Bool.or_eq_true, beq_iff_eq] at he
    rcases he with he | he
    · rw [same_id ha hb (by simpa [Key.id] using he)]
    · cases b <;> simp at he
      simp only [Key.Wf, Key.plain] at ha hb hp
      rw [Key.stream, Key.stream, he.2, eql_stream s1 _ ha.2.1 hb.2.1 hp.1 he.1.1,
        eql_stream e1 _ ha.2.2 hb.2.2 hp.2 he.1.2]
  | .hash i ps, b, ha, hb, hp, he => by simp [Key.plain] at hp
  | .obj i, b, ha, hb, _, he => by
    simp only [eql, beq_iff_eq] at he
    rw [same_id (a := .obj i) ha hb (by simpa [Key.id] using he)]
theorem eqlAll_stream {h : Nat → Key} : ∀ (a b : Keys), a.Wf h → b.Wf h → a.plain → a.length = b.length →
    eqlAll q a b = true → a.stream = b.stream
  | .nil, b, _, _, _, hl, _ => by cases b <;> simp_all [Keys.length]
  | .cons x xs, b, ha, hb, hp, hl, he => by
    cases b with
    | nil => simp [Keys.length] at hl
    | cons y ys =>
      simp only [eqlAll, Bool.and_eq_true] at he
      simp only [Keys.Wf, Keys.plain, Keys.length] at ha hb hp hl
      rw [Keys.stream, Keys.stream, eql_stream x y ha.1 hb.1 hp.1 he.1,
        eqlAll_stream xs ys ha.2 hb.2 hp.2 (by omega) he.2]
end

/-- C19, hashing: keys that are `eql?` feed the same tokens into the hasher, so they have the same hash value and are
found in the same place — for keys of any depth built from immediates, numbers, strings, arrays, ranges and other
objects.  Keys that contain a `Hash` are excluded, see `C19_hash_of_hash_fails`. -/
theorem C19_hash_partial (h : Nat → Key) (a b : Key) (ha : a.Wf h) (hb : b.Wf h) (hp : a.plain)
    (he : eql q a b = true) : a.stream = b.stream := eql_stream q a b ha hb hp he

/-- C19, reflexive: every key is `eql?` to itself. -/
theorem C19_refl (a : Key) : eql q a a = true := by
  cases a <;> simp [eql, Key.id]

theorem f64eq_symm (a b : Word) : f64eq a b = f64eq b a := by
  unfold f64eq
  by_cases h : a = b
  · subst h; rfl
  · have h1 : (a == b) = false := by simpa using h
    have h2 : (b == a) = false := by simpa using fun e => h e.symm
    rw [h1, h2]
    cases isNaNBits a <;> cases isNaNBits b <;> cases isZeroBits a <;> cases isZeroBits b <;> rfl

mutual
theorem eql_symm {h : Nat → Key} : ∀ (a b : Key), a.Wf h → b.Wf h → a.plain → eql q a b = true → eql q b a = true
  | .imm w, b, ha, hb, _, he => by
    simp [eql] at he
    rw [← same_id (a := .imm w) ha hb (by simpa [Key.id] using he)]; exact C19_refl q _
  | .big i n, b, ha, hb, _, he => by
    simp [eql] at he
    rcases he with he | he
    · rw [← same_id ha hb (by simpa [Key.id] using he)]; exact C19_refl q _
    · cases b <;> simp at he; subst he; simp [eql]
  | .flo i n, b, ha, hb, _, he => by
    simp [eql] at he
    rcases he with he | he
    · rw [← same_id ha hb (by simpa [Key.id] using he)]; exact C19_refl q _
    · cases b <;> simp at he
      rw [f64eq_symm] at he
      simp [eql, he]
  | .cpx i r1 i1, b, ha, hb, hp, he => by
    simp only [eql, Bool.or_eq_true, beq_iff_eq] at he
    rcases he with he | he
    · rw [← same_id ha hb (by simpa [Key.id] using he)]; exact C19_refl q _
    · cases b <;> simp at he
      simp only [Key.Wf, Key.plain] at ha hb hp
      simp [eql, eql_symm r1 _ ha.2.1 hb.2.1 hp.1 he.1, eql_symm i1 _ ha.2.2 hb.2.2 hp.2 he.2]
  | .str i s, b, ha, hb, _, he => by
    simp only [eql, Bool.or_eq_true, beq_iff_eq] at he
    rcases he with he | he
    · rw [← same_id ha hb (by simpa [Key.id] using he)]; exact C19_refl q _
    · cases b <;> simp at he
      subst he; simp [eql]
  | .arr i xs, b, ha, hb, hp, he => by
    simp only [eql, Bool.or_eq_true, beq_iff_eq] at he
    rcases he with he | he
    · rw [← same_id ha hb (by simpa [Key.id] using he)]; exact C19_refl q _
    · cases b <;> simp at he
      simp only [Key.Wf, Key.plain] at ha hb hp
      simp [eql, he.1, eqlAll_symm xs _ ha.2 hb.2 hp he.2]
  | .rng i s1 e1 x1, b, ha, hb, hp, he => by
    simp only [eql, Bool.or_eq_true, beq_iff_eq] at he
    rcases he with he | he
    · rw [← same_id ha hb (by simpa [Key.id] using he)]; exact C19_refl q _
    · cases b <;> simp at he
      simp only [Key.Wf, Key.plain] at ha hb hp
      simp [eql, he.2, eql_symm s1 _ ha.2.1 hb.2.1 hp.1 he.1.1, eql_symm e1 _ ha.2.2 hb.2.2 hp.2 he.1.2]
  | .hash i ps, b, ha, hb, hp, he => by simp [Key.plain] at hp
  | .obj i, b, ha, hb, _, he => by
    simp only [eql, beq_iff_eq] at he
    rw [← same_id (a := .obj i) ha hb (by simpa [Key.id] using he)]; exact C19_refl q _
theorem eqlAll_symm {h : Nat → Key} : ∀ (a b : Keys), a.Wf h → b.Wf h → a.plain →
    eqlAll q a b = true → eqlAll q b a = true
  | .nil, b, _, _, _, _ => by cases b <;> simp [eqlAll]
  | .cons x xs, b, ha, hb, hp, he => by
    cases b with
    | nil => simp [eqlAll]
    | cons y ys =>
      simp only [eqlAll, Bool.and_eq_true] at he
      simp only [Keys.Wf, Keys.plain] at ha hb hp
      simp [eqlAll, eql_symm x y ha.1 hb.1 hp.1 he.1, eqlAll_symm xs ys ha.2 hb.2 hp.2 he.2]
end

theorem C19_symm_partial (h : Nat → Key) (a b : Key) (ha : a.Wf h) (hb : b.Wf h) (hp : a.plain)
    (he : eql q a b = true) : eql q b a = true := eql_symm q a b ha hb hp he

theorem f64eq_trans {a b c : Word} (h1 : f64eq a b = true) (h2 : f64eq b c = true) : f64eq a c = true := by
  simp only [f64eq, Bool.and_eq_true, Bool.or_eq_true, beq_iff_eq, Bool.not_eq_true'] at *
  obtain ⟨⟨h1, h3⟩, h4⟩ := h1
  obtain ⟨⟨h5, h6⟩, h7⟩ := h2
  refine ⟨⟨h1, h6⟩, ?_⟩
  rcases h4 with rfl | h4 <;> rcases h7 with rfl | h7 <;> tauto

mutual
theorem eql_trans {h : Nat → Key} : ∀ (a b c : Key), a.Wf h → b.Wf h → c.Wf h → a.plain → b.plain →
    eql q a b = true → eql q b c = true → eql q a c = true
  | .imm w, b, c, ha, hb, hc, _, _, he, hf => by
    simp [eql] at he
    rw [same_id (a := .imm w) ha hb (by simpa [Key.id] using he)]; exact hf
  | .big i n, b, c, ha, hb, hc, _, _, he, hf => by
    simp [eql] at he
    rcases he with he | he
    · rw [same_id ha hb (by simpa [Key.id] using he)]; exact hf
    · cases b <;> simp at he
      subst he
      simp [eql] at hf
      rcases hf with hf | hf
      · rw [← same_id hb hc (by simpa [Key.id] using hf)]; simp [eql]
      · cases c <;> simp at hf; subst hf; simp [eql]
  | .flo i n, b, c, ha, hb, hc, _, _, he, hf => by
    simp [eql] at he
    rcases he with he | he
    · rw [same_id ha hb (by simpa [Key.id] using he)]; exact hf
    · cases b <;> simp at he
      simp [eql] at hf
      rcases hf with hf | hf
      · rw [← same_id hb hc (by simpa [Key.id] using hf)]; simp [eql, he]
      · cases c <;> simp at hf; simp [eql, f64eq_trans he hf]
  | .cpx i r1 i1, b, c, ha, hb, hc, hp, hq, he, hf => by
    simp only [eql, Bool.or_eq_true, beq_iff_eq] at he
    rcases he with he | he
    · rw [same_id ha hb (by simpa [Key.id] using he)]; exact hf
    · cases b <;> simp at he
      simp only [eql, Bool.or_eq_true, beq_iff_eq] at hf
      rcases hf with hf | hf
      · rw [← same_id hb hc (by simpa [Key.id] using hf)]; simp [eql, he]
      · cases c <;> simp at hf
        simp only [Key.Wf, Key.plain] at ha hb hc hp hq
        simp [eql, eql_trans r1 _ _ ha.2.1 hb.2.1 hc.2.1 hp.1 hq.1 he.1 hf.1,
          eql_trans i1 _ _ ha.2.2 hb.2.2 hc.2.2 hp.2 hq.2 he.2 hf.2]
  | .str i s, b, c, ha, hb, hc, _, _, he, hf => by
    simp [eql] at he
    rcases he with he | he
    · rw [same_id ha hb (by simpa [Key.id] using he)]; exact hf
    · cases b <;> simp at he
      subst he
      simp [eql] at hf
      rcases hf with hf | hf
      · rw [← same_id hb hc (by simpa [Key.id] using hf)]; simp [eql]
      · cases c <;> simp at hf; subst hf; simp [eql]
  | .arr i xs, b, c, ha, hb, hc, hp, hq, he, hf => by
    simp only [eql, Bool.or_eq_true, beq_iff_eq] at he
    rcases he with he | he
    · rw [same_id ha hb (by simpa [Key.id] using he)]; exact hf
    · cases b <;> simp at he
      simp only [eql, Bool.or_eq_true, beq_iff_eq] at hf
      rcases hf with hf | hf
      · rw [← same_id hb hc (by simpa [Key.id] using hf)]; simp [eql, he]
      · cases c <;> simp at hf
        simp only [Key.Wf, Key.plain] at ha hb hc hp hq
        simp [eql, he.1, hf.1, eqlAll_trans xs _ _ ha.2 hb.2 hc.2 hp hq he.1 hf.1 he.2 hf.2]
  | .rng i s1 e1 x1, b, c, ha, hb, hc, hp, hq, he, hf => by
    simp only [eql, Bool.or_eq_true, beq_iff_eq] at he
    rcases he with he | he
    · rw [same_id ha hb (by simpa [Key.id] using he)]; exact hf
    · cases b <;> simp at he
      simp only [eql, Bool.or_eq_true, beq_iff_eq] at hf
      rcases hf with hf | hf
      · rw [← same_id hb hc (by simpa [Key.id] using hf)]; simp [eql, he]
      · cases c <;> simp at hf
        simp only [Key.Wf, Key.plain] at ha hb hc hp hq
        simp [eql, he.2, hf.2, eql_trans s1 _ _ ha.2.1 hb.2.1 hc.2.1 hp.1 hq.1 he.1.1 hf.1.1,
          eql_trans e1 _ _ ha.2.2 hb.2.2 hc.2.2 hp.2 hq.2 he.1.2 hf.1.2]
  | .hash i ps, b, c, ha, hb, hc, hp, _, he, _ => by simp [Key.plain] at hp
  | .obj i, b, c, ha, hb, hc, _, _, he, hf => by
    simp only [eql, beq_iff_eq] at he
    rw [same_id (a := .obj i) ha hb (by simpa [Key.id] using he)]; exact hf
theorem eqlAll_trans {h : Nat → Key} : ∀ (a b c : Keys), a.Wf h → b.Wf h → c.Wf h → a.plain → b.plain →
    a.length = b.length → b.length = c.length →
    eqlAll q a b = true → eqlAll q b c = true → eqlAll q a c = true
  | .nil, b, c, _, _, _, _, _, _, _, _, _ => by cases c <;> simp [eqlAll]
  | .cons x xs, b, c, ha, hb, hc, hp, hq, h1, h2, he, hf => by
    cases b with
    | nil => simp [Keys.length] at h1
    | cons y ys =>
      cases c with
      | nil => simp [Keys.length] at h2
      | cons z zs =>
        simp only [eqlAll, Bool.and_eq_true] at he hf
        simp only [Keys.Wf, Keys.plain, Keys.length] at ha hb hc hp hq h1 h2
        simp [eqlAll, eql_trans x y z ha.1 hb.1 hc.1 hp.1 hq.1 he.1 hf.1,
          eqlAll_trans xs ys zs ha.2 hb.2 hc.2 hp.2 hq.2 (by omega) (by omega) he.2 hf.2]
end

theorem C19_trans_partial (h : Nat → Key) (a b c : Key) (ha : a.Wf h) (hb : b.Wf h) (hc : c.Wf h)
    (hp : a.plain) (hq : b.plain) (he : eql q a b = true) (hf : eql q b c = true) : eql q a c = true :=
  eql_trans q a b c ha hb hc hp hq he hf

mutual
theorem eql_veq : ∀ (a b : Key), eql q a b = true → veq q a b = true
  | .imm w, b, h => by
    simp only [eql] at h
    simp only [veq, h, Bool.true_or]
  | .big i n, b, h => by
    simp only [eql, veq, Bool.or_eq_true] at h ⊢
    rcases h with h | h
    · exact .inl h
    · right; cases b <;> simp_all
  | .flo i x, b, h => by
    simp only [eql, veq, Bool.or_eq_true] at h ⊢
    rcases h with h | h
    · exact .inl h
    · right; cases b <;> simp_all
  | .cpx i r1 i1, b, h => by
    simp only [eql, veq, Bool.or_eq_true] at h ⊢
    rcases h with h | h
    · exact .inl h
    · right
      cases b with
      | cpx j r2 i2 =>
        simp only [Bool.and_eq_true] at h ⊢
        exact ⟨eql_veq r1 r2 h.1, eql_veq i1 i2 h.2⟩
      | _ => simp at h
  | .str i s, b, h => by
    simp only [eql, veq, Bool.or_eq_true] at h ⊢
    rcases h with h | h
    · exact .inl h
    · right; cases b <;> simp_all
  | .arr i xs, b, h => by
    simp only [eql, veq, Bool.or_eq_true] at h ⊢
    rcases h with h | h
    · exact .inl h
    · right
      cases b with
      | arr j ys =>
        simp only [Bool.and_eq_true] at h ⊢
        exact ⟨h.1, eqlAll_veqAll xs ys h.2⟩
      | _ => simp at h
  | .rng i s1 e1 x1, b, h => by
    simp only [eql, veq, Bool.or_eq_true] at h ⊢
    rcases h with h | h
    · exact .inl h
    · right
      cases b with
      | rng j s2 e2 x2 =>
        simp only [Bool.and_eq_true] at h ⊢
        exact ⟨⟨h.2, eql_veq s1 s2 h.1.1⟩, eql_veq e1 e2 h.1.2⟩
      | _ => simp at h
  | .hash i ps, b, h => by
    simp only [eql, veq] at h ⊢
    exact h
  | .obj i, b, h => by
    simp only [eql, veq] at h ⊢
    exact h
theorem eqlAll_veqAll : ∀ (a b : Keys), eqlAll q a b = true → veqAll q a b = true
  | .nil, _, _ => by simp [veqAll]
  | .cons x xs, .nil, _ => by simp [veqAll]
  | .cons x xs, .cons y ys, h => by
    simp only [eqlAll, veqAll, Bool.and_eq_true] at h ⊢
    exact ⟨eql_veq x y h.1, eqlAll_veqAll xs ys h.2⟩
end

/-- C19: key equality is finer than `==`: keys that are `eql?` are `==`, whatever they contain (hashes included). -/
theorem C19_finer (a b : Key) (h : eql q a b = true) : veq q a b = true := eql_veq q a b h

/-- A real number: a fixnum, a float or a big integer. -/
def Key.Number : Key → Prop
  | .imm w => (Verif.Value.as_fixnum w).isSome ∨ (Verif.Value.as_flonum w).isSome
  | .big _ _ => True
  | .flo _ _ => True
  | _ => False

/-- The two are of the same kind. -/
def Key.Alike : Key → Key → Prop
  | .imm a, .imm b => a = b
  | .big _ _, .big _ _ => True
  | .flo _ _, .flo _ _ => True
  | .cpx _ _ _, .cpx _ _ _ => True
  | .str _ _, .str _ _ => True
  | .arr _ _, .arr _ _ => True
  | .rng _ _ _ _, .rng _ _ _ _ => True
  | .hash _ _, .hash _ _ => True
  | .obj i, .obj j => i = j
  | _, _ => False

theorem Key.Alike.refl : ∀ a : Key, a.Alike a
  | .imm _ => rfl
  | .big _ _ => trivial
  | .flo _ _ => trivial
  | .cpx _ _ _ => trivial
  | .str _ _ => trivial
  | .arr _ _ => trivial
  | .rng _ _ _ _ => trivial
  | .hash _ _ => trivial
  | .obj _ => rfl

/-- C19: values of different kinds are neither `==` nor equal as keys, unless both are numbers; and numbers of different kinds
are never equal as keys. -/
theorem C19_kinds (h : Nat → Key) (a b : Key) (ha : a.Wf h) (hb : b.Wf h) :
    (veq q a b = true → a.Alike b ∨ (a.Number ∧ b.Number)) ∧ (eql q a b = true → a.Alike b) := by
  have same : b.id = a.id → a.Alike b := fun e => by
    rw [same_id ha hb e]; exact Key.Alike.refl b
  constructor
  · intro he
    cases a with
    | imm w =>
      simp only [veq, Bool.or_eq_true, beq_iff_eq] at he
      rcases he with he | he
      · exact .inl (same he)
      · right
        cases b with
        | imm u =>
          simp only at he
          split at he
          · rename_i i f h1 h2
            exact ⟨.inl (by simp [h1]), .inr (by simp [h2])⟩
          · split at he
            · rename_i f i h1 h2
              exact ⟨.inr (by simp [h1]), .inl (by simp [h2])⟩
            · cases he
        | _ => simp at he
    | obj i =>
      simp only [veq, beq_iff_eq] at he
      exact .inl (same he)
    | _ =>
      simp only [veq, Bool.or_eq_true, beq_iff_eq] at he
      rcases he with he | he
      · exact .inl (same he)
      · cases b <;> simp_all [Key.Alike, Key.Number]
  · intro he
    cases a with
    | imm w =>
      simp only [eql, beq_iff_eq] at he
      exact same he
    | obj i =>
      simp only [eql, beq_iff_eq] at he
      exact same he
    | _ =>
      simp only [eql, Bool.or_eq_true, beq_iff_eq] at he
      rcases he with he | he
      · exact same he
      · cases b <;> simp_all [Key.Alike]

/-- C19 fails for hashes as keys: `{1=>2, 3=>4}` and `{3=>4, 1=>2}` are `eql?`, but the hasher is fed different
tokens (the entries in insertion order), so one is not found under the other. -/
theorem C19_hash_of_hash_fails :
    let one : Key := .imm 3#64; let two : Key := .imm 5#64; let three : Key := .imm 7#64; let four : Key := .imm 9#64
    let a : Key := .hash 1 (.cons one two (.cons three four .nil))
    let b : Key := .hash 2 (.cons three four (.cons one two .nil))
    eql q a b = true ∧ a.stream ≠ b.stream := by
  refine ⟨?_, by decide⟩
  simp [eql, pairsIn, pairFind, veq, Key.id, Pairs.length]

/-- C19 fails for strings: the same characters held in a `String` and in a small string are different keys.  Such
strings arise: `s[0, 39] = ""` on a string of 40 characters leaves a `String` of one (see `C47`). -/
theorem C19_string_fails :
    let a : Key := .str 1 (.str [97]); let b : Key := .str 2 (.small [97])
    veq q a b = true ∧ eql q a b = false := by
  simp [eql, veq, Key.id, RStr.as_bytes]

/-- Non-vacuity: two distinct nested keys that are `eql?`. -/
example : ∃ (h : Nat → Key) (a b : Key), a.Wf h ∧ b.Wf h ∧ a.plain ∧ a ≠ b ∧ eql q a b = true := by
  refine ⟨fun n => if n = 1 then .arr 1 (.cons (.str 3 (.small [97])) .nil) else if n = 2 then
      .arr 2 (.cons (.str 4 (.small [97])) .nil) else if n = 3 then .str 3 (.small [97]) else .str 4 (.small [97]),
    .arr 1 (.cons (.str 3 (.small [97])) .nil), .arr 2 (.cons (.str 4 (.small [97])) .nil), ?_, ?_, ?_, ?_, ?_⟩
  · simp [Key.Wf, Keys.Wf]
  · simp [Key.Wf, Keys.Wf]
  · simp [Key.plain, Keys.plain]
  · simp
  · simp [eql, eqlAll, Key.id, Keys.length]

end Verif.Hash
