import Verif.Args.Fill
/-! # Frames of method and block calls: lemmas -/
namespace Verif.Args

theorem clearKw_ok (is : List Nat) (l : List Val) (h : ∀ i ∈ is, i < l.length) :
    ∃ r, clearKw l is = .ok r ∧ r.length = l.length ∧
      ∀ i : Nat, r[i]? = if i ∈ is then some .uninit else l[i]? := by
  induction is generalizing l with
  | nil => exact ⟨l, rfl, rfl, by simp⟩
  | cons j is ih =>
    have hj : j < l.length := h j (by simp)
    obtain ⟨r, e, hl, hg⟩ := ih (l.set j .uninit) (by
      intro i hi; rw [List.length_set]; exact h i (by simp [hi]))
    refine ⟨r, ?_, by simpa using hl, ?_⟩
    · simp only [clearKw, write_ok hj, bind, Except.bind, e]
    · intro i
      rw [hg, set_get hj]
      by_cases h1 : i ∈ is
      · simp [h1]
      · by_cases h2 : i = j <;> simp [h1, h2]

/-- every keyword given has a slot, or there is a `**rest` parameter -/
def Known (c : Code) (ps : List (Nat × Val)) : Prop :=
  c.params.kwrest = true ∨ ∀ p ∈ ps, (c.params.keyword.lookup p.1).isSome

theorem fillKwLoop_ok (c : Code) (ps : List (Nat × Val)) (l : List Val) (acc : List (Nat × Val))
    (hk : (ps.map (·.1)).Nodup)
    (hs : ∀ k i, c.params.keyword.lookup k = some i → i < l.length)
    (hinj : ∀ k k' i, c.params.keyword.lookup k = some i → c.params.keyword.lookup k' = some i →
      k = k')
    (hkn : Known c ps) :
    ∃ r, fillKwLoop c l acc ps =
        .ok (r, acc ++ ps.filter (fun p => (c.params.keyword.lookup p.1).isNone)) ∧
      r.length = l.length ∧
      (∀ k v i, (k, v) ∈ ps → c.params.keyword.lookup k = some i → r[i]? = some v) ∧
      (∀ i : Nat, (∀ p ∈ ps, c.params.keyword.lookup p.1 ≠ some i) → r[i]? = l[i]?) := by
  induction ps generalizing l acc with
  | nil => exact ⟨l, by simp [fillKwLoop], rfl, by simp, by simp⟩
  | cons q ps ih =>
    obtain ⟨k, v⟩ := q
    simp only [List.map_cons, List.nodup_cons] at hk
    obtain ⟨hk1, hk2⟩ := hk
    have hkn' : Known c ps := by
      rcases hkn with h | h
      · exact Or.inl h
      · exact Or.inr (fun p hp => h p (by simp [hp]))
    cases hlk : c.params.keyword.lookup k with
    | some i =>
      have hi := hs k i hlk
      obtain ⟨r, e, hl, hg1, hg2⟩ := ih (l.set i v) acc hk2
        (by intro k j h; rw [List.length_set]; exact hs k j h) hkn'
      refine ⟨r, ?_, by simpa using hl, ?_, ?_⟩
      · simp only [fillKwLoop, hlk, write_ok hi, bind, Except.bind, e]
        simp [hlk]
      · intro k' v' i' hm hl'
        rcases List.mem_cons.mp hm with heq | hm
        · injection heq with h1 h2
          subst h1 h2
          rw [hl'] at hlk
          injection hlk with hlk
          subst hlk
          rw [hg2 i', set_get hi, if_pos rfl]
          intro p hp hp'
          have := hinj _ _ _ hp' hl'
          apply hk1
          rw [← this]
          exact List.mem_map_of_mem (f := (·.1)) hp
        · exact hg1 k' v' i' hm hl'
      · intro j hj
        rw [hg2 j (fun p hp => hj p (by simp [hp])), set_get hi, if_neg]
        rintro rfl
        exact hj (k, v) (by simp) hlk
    | none =>
      have hkw : c.params.kwrest = true := by
        rcases hkn with h | h
        · exact h
        · have := h (k, v) (by simp)
          simp [hlk] at this
      obtain ⟨r, e, hl, hg1, hg2⟩ := ih l (acc ++ [(k, v)]) hk2 hs hkn'
      refine ⟨r, ?_, hl, ?_, ?_⟩
      · simp only [fillKwLoop, hlk, hkw, if_true, e]
        simp [hlk]
      · intro k' v' i' hm hl'
        rcases List.mem_cons.mp hm with heq | hm
        · injection heq with h1 h2
          subst h1
          rw [hl'] at hlk
          cases hlk
        · exact hg1 k' v' i' hm hl'
      · intro j hj
        exact hg2 j (fun p hp => hj p (by simp [hp]))

theorem fillKwLoop_unknown (c : Code) (ps : List (Nat × Val)) (l : List Val)
    (acc : List (Nat × Val))
    (hs : ∀ k i, c.params.keyword.lookup k = some i → i < l.length) (hkn : ¬ Known c ps) :
    fillKwLoop c l acc ps = .error .keyword := by
  induction ps generalizing l acc with
  | nil => exact absurd (Or.inr (by simp)) hkn
  | cons q ps ih =>
    obtain ⟨k, v⟩ := q
    have hkw : c.params.kwrest = false := by
      cases h : c.params.kwrest
      · rfl
      · exact absurd (Or.inl h) hkn
    cases hlk : c.params.keyword.lookup k with
    | some i =>
      simp only [fillKwLoop, hlk, write_ok (hs k i hlk), bind, Except.bind]
      apply ih _ _ (by intro k j h; rw [List.length_set]; exact hs k j h)
      rintro (h | h)
      · exact hkn (Or.inl h)
      · apply hkn
        refine Or.inr (fun p hp => ?_)
        rcases List.mem_cons.mp hp with rfl | hp
        · simp [hlk]
        · exact h p hp
    | none => simp [fillKwLoop, hlk, hkw]

theorem kwTable_lookup_acc (kw : List (Nat × Bool)) (acc : List (Nat × Nat)) (i k : Nat)
    (h : k ∉ kw.map (·.1)) : (kwTable acc i kw).lookup k = acc.lookup k := by
  induction kw generalizing acc i with
  | nil => rfl
  | cons q kw ih =>
    simp only [List.map_cons, List.mem_cons, not_or] at h
    rw [kwTable, ih _ _ h.2]
    have : (k == q.1) = false := by simpa using h.1
    simp only [List.lookup, this]

theorem kwTable_lookup (kw : List (Nat × Bool)) (acc : List (Nat × Nat)) (i j k : Nat) (b : Bool)
    (hn : (kw.map (·.1)).Nodup) (h : kw[j]? = some (k, b)) :
    (kwTable acc i kw).lookup k = some (i + j) := by
  induction kw generalizing acc i j with
  | nil => simp at h
  | cons q kw ih =>
    simp only [List.map_cons, List.nodup_cons] at hn
    cases j with
    | zero =>
      simp only [List.getElem?_cons_zero, Option.some.injEq] at h
      subst h
      rw [kwTable, kwTable_lookup_acc _ _ _ _ hn.1]
      simp
    | succ j =>
      simp only [List.getElem?_cons_succ] at h
      rw [kwTable, ih _ _ _ hn.2 h]
      congr 1; omega

/-- every slot of the keyword table is the slot of a keyword parameter -/
theorem kwTable_lookup_some (kw : List (Nat × Bool)) (i k s : Nat)
    (hn : (kw.map (·.1)).Nodup) (h : (kwTable [] i kw).lookup k = some s) :
    ∃ j b, kw[j]? = some (k, b) ∧ s = i + j := by
  by_cases hk : k ∈ kw.map (·.1)
  · obtain ⟨⟨k', b⟩, hm, rfl⟩ := List.mem_map.mp hk
    obtain ⟨j, hj⟩ := List.getElem?_of_mem hm
    have := kwTable_lookup kw [] i j _ b hn hj
    simp only at h this
    rw [this] at h
    injection h with h
    exact ⟨j, b, hj, h.symm⟩
  · rw [kwTable_lookup_acc _ _ _ _ hk] at h
    simp at h

/-! ## Where the variables live -/

/-- the code of a definition with parameters `s` whose body has the further variables `locals` -/
def Sig.code (s : Sig) (locals : List Nat) : Code :=
  mkCode s.params { s.lvars with table := s.names ++ locals }

/-- the slots of the parameters -/
theorem slot_req {s : Sig} {locals : List Nat} {i n : Nat} (h : s.req[i]? = some n) :
    (s.code locals).lvar.table[i]? = some n := by
  have := (List.getElem?_eq_some_iff.mp h).1
  simp only [Sig.code, mkCode, Sig.names, List.append_assoc]
  rw [List.getElem?_append_left this, h]

theorem slot_opt {s : Sig} {locals : List Nat} {i n : Nat} (h : s.opt[i]? = some n) :
    (s.code locals).lvar.table[s.req.length + i]? = some n := by
  have := (List.getElem?_eq_some_iff.mp h).1
  simp only [Sig.code, mkCode, Sig.names, List.append_assoc]
  rw [List.getElem?_append_right (by omega), Nat.add_sub_cancel_left,
    List.getElem?_append_left this, h]

theorem slot_rest {s : Sig} {locals : List Nat} {n : Nat} (h : s.rest = some (some n)) :
    (s.code locals).lvar.table[s.req.length + s.opt.length]? = some n := by
  simp only [Sig.code, mkCode, Sig.names, List.append_assoc]
  rw [List.getElem?_append_right (by omega), Nat.add_sub_cancel_left,
    List.getElem?_append_right (by omega), Nat.sub_self, h]
  rfl

theorem slot_post {s : Sig} {locals : List Nat} {i n : Nat} (h : s.post[i]? = some n) :
    (s.code locals).lvar.table[s.req.length + s.opt.length + s.restLen + i]? = some n := by
  have := (List.getElem?_eq_some_iff.mp h).1
  have e : s.names ++ locals = (s.req ++ s.opt ++ s.rest.join.toList) ++ (s.post ++
      (s.kw.map (·.1) ++ s.kwrest.toList ++ s.block.toList ++ locals)) := by
    simp [Sig.names]
  simp only [Sig.code, mkCode]
  rw [e, List.getElem?_append_right (by simp [Sig.restLen]; omega)]
  rw [List.getElem?_append_left (by simp [Sig.restLen]; omega), ← h]
  congr 1
  simp [Sig.restLen]; omega

theorem slot_kw {s : Sig} {locals : List Nat} {i n : Nat} {b : Bool} (h : s.kw[i]? = some (n, b)) :
    (s.code locals).lvar.table[s.kwBase + i]? = some n := by
  have := (List.getElem?_eq_some_iff.mp h).1
  have e : s.names ++ locals = (s.req ++ s.opt ++ s.rest.join.toList ++ s.post) ++
      (s.kw.map (·.1) ++ (s.kwrest.toList ++ s.block.toList ++ locals)) := by
    simp [Sig.names]
  simp only [Sig.code, mkCode]
  rw [e, List.getElem?_append_right (by simp [Sig.kwBase, Sig.restLen]; omega)]
  have e2 : s.kwBase + i - (s.req ++ s.opt ++ s.rest.join.toList ++ s.post).length = i := by
    simp [Sig.kwBase, Sig.restLen]; omega
  rw [e2, List.getElem?_append_left (by simpa using this), List.getElem?_map, h]
  rfl

theorem slot_kwrest {s : Sig} {locals : List Nat} {n : Nat} (h : s.kwrest = some n) :
    (s.code locals).lvar.table[s.kwBase + s.kw.length]? = some n := by
  have e : s.names ++ locals = (s.req ++ s.opt ++ s.rest.join.toList ++ s.post ++
      s.kw.map (·.1)) ++ ([n] ++ (s.block.toList ++ locals)) := by
    simp [Sig.names, h]
  simp only [Sig.code, mkCode]
  rw [e, List.getElem?_append_right (by simp [Sig.kwBase, Sig.restLen]; omega)]
  have e2 : s.kwBase + s.kw.length - (s.req ++ s.opt ++ s.rest.join.toList ++ s.post ++
      s.kw.map (·.1)).length = 0 := by
    simp [Sig.kwBase, Sig.restLen]; omega
  rw [e2]; rfl

theorem slot_block {s : Sig} {locals : List Nat} {n : Nat} (h : s.block = some n) :
    (s.code locals).lvar.table[s.kwBase + s.kw.length + s.kwrest.toList.length]? = some n := by
  have e : s.names ++ locals = (s.req ++ s.opt ++ s.rest.join.toList ++ s.post ++
      s.kw.map (·.1) ++ s.kwrest.toList) ++ ([n] ++ locals) := by
    simp [Sig.names, h]
  simp only [Sig.code, mkCode]
  rw [e, List.getElem?_append_right (by simp [Sig.kwBase, Sig.restLen]; omega)]
  have e2 : s.kwBase + s.kw.length + s.kwrest.toList.length -
      (s.req ++ s.opt ++ s.rest.join.toList ++ s.post ++
      s.kw.map (·.1) ++ s.kwrest.toList).length = 0 := by
    simp [Sig.kwBase, Sig.restLen]; omega
  rw [e2]; rfl

theorem names_length (s : Sig) : s.names.length =
    s.kwBase + s.kw.length + s.kwrest.toList.length + s.block.toList.length := by
  simp [Sig.names, Sig.kwBase, Sig.restLen]; omega

theorem slot_local {s : Sig} {locals : List Nat} {i n : Nat} (h : locals[i]? = some n) :
    (s.code locals).lvar.table[s.names.length + i]? = some n := by
  simp only [Sig.code, mkCode]
  rw [List.getElem?_append_right (by omega), Nat.add_sub_cancel_left, h]

theorem code_lvars (s : Sig) (locals : List Nat) :
    (s.code locals).lvars = s.names.length + locals.length := by
  simp [Sig.code, mkCode]

/-- the slots of the keyword parameters are those of the keyword table, unless there is a bare `*` -/
def Sig.starOk (s : Sig) : Prop := s.rest = some none → s.kw = []

theorem kwPos_eq {s : Sig} (h : s.starOk) (hk : s.kw ≠ []) : s.kwPos = s.kwBase := by
  simp only [Sig.kwPos, Sig.kwBase, Sig.restLen]
  match hr : s.rest with
  | none => simp
  | some none => exact absurd (h hr) hk
  | some (some n) => simp

end Verif.Args
