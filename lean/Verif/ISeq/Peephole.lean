import Verif.ISeq.Lemmas
import Verif.ISeq.Machine
import Mathlib.Logic.Relation
/-! Helper lemmas: each rewrite of the peephole pass keeps the visible behaviour. -/
namespace Verif.ISeq
open Op

variable {S R : Type}

theorem inst_size_pos {op : Byte} {sz : Nat} (h : inst_size op = some sz) : 0 < sz := by
  unfold inst_size at h
  split_ifs at h <;> simp at h <;> omega

theorem size_jmp {op : Byte} (h : isJmp op = true) : inst_size op = some 5 := by
  revert h; revert op; decide +kernel
theorem size_cond {op : Byte} (h : isCond op = true) : inst_size op = some 5 := by
  revert h; revert op; decide +kernel
theorem size_condI {op : Byte} (h : isCondI op = true) : inst_size op = some 9 := by
  revert h; revert op; decide +kernel
theorem size_term {op : Byte} (h : isTerm op = true) : inst_size op = some 1 := by
  revert h; revert op; decide +kernel
theorem jmp_not_cond {op : Byte} (h : isJmp op = true) : isCond op = false ∧ isCondI op = false ∧ isTerm op = false := by
  revert h; revert op; decide +kernel
theorem cond_not {op : Byte} (h : isCond op = true) : isJmp op = false ∧ isCondI op = false ∧ isTerm op = false := by
  revert h; revert op; decide +kernel
theorem term_not {op : Byte} (h : isTerm op = true) : isJmp op = false ∧ isCond op = false ∧ isCondI op = false := by
  revert h; revert op; decide +kernel

/-- Instructions do not overlap. -/
theorem start_gap {c : Code} : ∀ q p op sz, Start c q → Start c p → p < q → c[p]? = some op →
    inst_size op = some sz → p + sz ≤ q := by
  intro q
  induction q using Nat.strong_induction_on with
  | _ q ih =>
    intro p op sz hq hp hlt hop hsz
    cases hq with
    | zero => omega
    | next pos op' sz' hpos hop' hsz' =>
      have h0 := inst_size_pos hsz'
      rcases Nat.lt_trichotomy p pos with h | h | h
      · have := ih pos (by omega) p op sz hpos hp h hop hsz; omega
      · subst h
        rw [hop] at hop'; cases hop'
        rw [hsz] at hsz'; cases hsz'
        exact Nat.le_refl _
      · have := ih p hlt pos op' sz' hp hpos h hop' hsz'; omega

/-! ### Reading agrees when the bytes agree -/

theorem readAt32_congr {c c1 : Code} {p : Nat} (h : ∀ i < 4, c1[p + i]? = c[p + i]?) :
    readAt32 c1 p = readAt32 c p := by
  have h0 := h 0 (by omega); have h1 := h 1 (by omega); have h2 := h 2 (by omega); have h3 := h 3 (by omega)
  simp only [Nat.add_zero] at h0
  unfold readAt32 read32 read8
  rw [h0]
  rcases c[p]? with _ | a
  · rfl
  · simp only [Option.map_some, Option.bind_eq_bind, Option.bind_some]
    rw [h1]
    rcases c[p + 1]? with _ | b
    · rfl
    · simp only [Option.map_some, Option.bind_some, Nat.add_assoc, Nat.reduceAdd]
      rw [h2]
      rcases c[p + 2]? with _ | d
      · rfl
      · simp only [Option.map_some, Option.bind_some, Nat.add_assoc, Nat.reduceAdd]
        rw [h3]

theorem operands_congr {c c1 : Code} {p n : Nat}
    (h : ∀ i < n, c1[p + i]? = c[p + i]?) : (c1.drop p).take n = (c.drop p).take n := by
  apply List.ext_getElem?
  intro i
  rw [List.getElem?_take, List.getElem?_take]
  split
  · rw [List.getElem?_drop, List.getElem?_drop]; exact h i ‹_›
  · rfl

theorem step_congr (M : Machine S R) {c c1 : Code} {p sz : Nat} {op : Byte} (hl : c1.length = c.length)
    (hop : c[p]? = some op) (hsz : inst_size op = some sz) (h : ∀ i < sz, c1[p + i]? = c[p + i]?) (s : S) :
    step M c1 p s = step M c p s := by
  have h0 : c1[p]? = c[p]? := h 0 (inst_size_pos hsz)
  simp only [step_eq]
  rw [h0, hop]
  dsimp only
  by_cases hj : isJmp op = true
  · have e : sz = 5 := by rw [size_jmp hj] at hsz; exact (Option.some.inj hsz).symm
    rw [if_pos hj, if_pos hj, readAt32_congr (c := c) (c1 := c1)]
    intro i hi; have := h (1 + i) (by omega); rwa [← Nat.add_assoc] at this
  rw [if_neg hj, if_neg hj]
  by_cases ht : isTerm op = true
  · rw [if_pos ht, if_pos ht]
  rw [if_neg ht, if_neg ht]
  by_cases hc : isCond op = true
  · have e : sz = 5 := by rw [size_cond hc] at hsz; exact (Option.some.inj hsz).symm
    rw [if_pos hc, if_pos hc, readAt32_congr (c := c) (c1 := c1)]
    intro i hi; have := h (1 + i) (by omega); rwa [← Nat.add_assoc] at this
  rw [if_neg hc, if_neg hc]
  by_cases hi : isCondI op = true
  · have e : sz = 9 := by rw [size_condI hi] at hsz; exact (Option.some.inj hsz).symm
    rw [if_pos hi, if_pos hi, readAt32_congr (c := c) (c1 := c1) (p := p + 1),
      readAt32_congr (c := c) (c1 := c1) (p := p + 5)]
    · intro i hi; have := h (5 + i) (by omega); rwa [← Nat.add_assoc] at this
    · intro i hi; have := h (1 + i) (by omega); rwa [← Nat.add_assoc] at this
  rw [if_neg hi, if_neg hi, hsz]
  dsimp only
  rw [hl, operands_congr (n := sz - 1)]
  intro i hi; have := h (1 + i) (by omega); rwa [← Nat.add_assoc] at this

/-! ### Chains of jumps -/

/-- One unconditional jump. -/
def J (c : Code) (a b : Nat) : Prop :=
  ∃ op d, c[a]? = some op ∧ isJmp op = true ∧ readAt32 c (a + 1) = some d ∧ b = addDisp (a + 5) d

/-- A chain of them. -/
abbrev Silent (c : Code) : Nat → Nat → Prop := Relation.ReflTransGen (J c)

theorem J_step (M : Machine S R) {c : Code} {a b : Nat} (h : J c a b) (s : S) :
    step M c a s = some (none, .at b s) := by
  obtain ⟨op, d, h1, h2, h3, rfl⟩ := h
  simp only [step_eq]
  rw [h1]; dsimp only
  rw [if_pos h2, h3]

theorem Shows.prepend {M : Machine S R} {c : Code} {a b : Nat} {s : S} {tr} (h : Silent c a b)
    (hs : Shows M c (.at b s) tr) : Shows M c (.at a s) tr := by
  induction h using Relation.ReflTransGen.head_induction_on with
  | refl => exact hs
  | head hj _ ih => exact .silent _ _ _ _ (J_step M hj s) ih

theorem chase_spec {c : Code} : ∀ fuel pos nc r, chase fuel c pos nc = some r →
    match r with
    | .dest d => Silent c pos d ∧ ∃ op, c[d]? = some op ∧ isJmp op = false
    | .inst t => ∃ d, Silent c pos d ∧ c[d]? = some t ∧ isTerm t = true := by
  intro fuel
  induction fuel with
  | zero => intro pos nc r h; simp [chase] at h
  | succ n ih =>
    intro pos nc r h
    unfold chase at h
    rcases hop : c[pos]? with _ | op
    · rw [hop] at h; simp at h
    rw [hop] at h; dsimp only at h
    by_cases hj : isJmp op = true
    · rw [if_pos hj, size_jmp hj] at h
      rcases hd : readAt32 c (pos + 1) with _ | d
      · rw [hd] at h; simp at h
      rw [hd] at h; dsimp only at h
      have := ih _ _ _ h
      have hJ : J c pos (addDisp (pos + 5) d) := ⟨op, d, hop, hj, hd, rfl⟩
      cases r with
      | dest d' => exact ⟨.head hJ this.1, this.2⟩
      | inst t => obtain ⟨d', h1, h2⟩ := this; exact ⟨d', .head hJ h1, h2⟩
    · rw [if_neg hj] at h
      have hj' : isJmp op = false := by simpa using hj
      split at h
      · rename_i ht
        split at h
        · cases h; exact ⟨pos, .refl, hop, ht⟩
        · cases h; exact ⟨.refl, op, hop, hj'⟩
      · cases h; exact ⟨.refl, op, hop, hj'⟩

/-! ### The invariant of the pass -/

/-- What the pass may have changed in `c` with respect to the original `c0`: displacements of jumps
(still to instructions), and unconditional jumps replaced by instructions that leave the
sequence. -/
structure Inv (c0 c : Code) : Prop where
  len : c.length = c0.length
  jmp : ∀ p op, Start c0 p → c0[p]? = some op → isJmp op = true →
    (c[p]? = some op ∧ ∀ d, readAt32 c (p + 1) = some d → Start c0 (addDisp (p + 5) d)) ∨
    (∃ t, c[p]? = some t ∧ isTerm t = true)
  cond : ∀ p op, Start c0 p → c0[p]? = some op → isCond op = true →
    c[p]? = some op ∧ ∀ d, readAt32 c (p + 1) = some d → Start c0 (addDisp (p + 5) d)
  other : ∀ p op sz, Start c0 p → c0[p]? = some op → isJmp op = false → isCond op = false →
    inst_size op = some sz → ∀ i < sz, c[p + i]? = c0[p + i]?

theorem Inv.refl {M : Machine S R} {c0 : Code} (w : WellFormed M c0) : Inv c0 c0 where
  len := rfl
  jmp p op hp hop hj := .inl ⟨hop, fun d hd => w.jumps p op d hp hop (.inl ((jumps_iff _).2 hj)) hd⟩
  cond p op hp hop hc := ⟨hop, fun d hd => w.jumps p op d hp hop (.inr ((branches_iff _).2 hc)) hd⟩
  other _ _ _ _ _ _ _ _ _ _ := rfl

/-- The instruction at a start of `c` lies within the bytes of the original one. -/
theorem Inv.size {c0 c : Code} (I : Inv c0 c) {p : Nat} {op0 : Byte} {sz0 : Nat} (hp : Start c0 p)
    (h0 : c0[p]? = some op0) (hs : inst_size op0 = some sz0) :
    ∃ op sz, c[p]? = some op ∧ inst_size op = some sz ∧ sz ≤ sz0 := by
  by_cases hj : isJmp op0 = true
  · have e : sz0 = 5 := by rw [size_jmp hj] at hs; exact (Option.some.inj hs).symm
    rcases I.jmp p op0 hp h0 hj with ⟨h, _⟩ | ⟨t, h, ht⟩
    · exact ⟨op0, 5, h, size_jmp hj, by omega⟩
    · exact ⟨t, 1, h, size_term ht, by omega⟩
  · have hj' : isJmp op0 = false := by simpa using hj
    by_cases hc : isCond op0 = true
    · exact ⟨op0, sz0, (I.cond p op0 hp h0 hc).1, hs, Nat.le_refl _⟩
    · have hc' : isCond op0 = false := by simpa using hc
      refine ⟨op0, sz0, ?_, hs, Nat.le_refl _⟩
      have := I.other p op0 sz0 hp h0 hj' hc' hs 0 (inst_size_pos hs)
      simpa [h0] using this

/-- Positions reached in one step from a start are starts. -/
theorem Inv.closed {M : Machine S R} {c0 c : Code} (w : WellFormed M c0) (I : Inv c0 c) {p : Nat} (hp : Start c0 p)
    {s : S} {e b s'} (h : step M c p s = some (e, .at b s')) : Start c0 b := by
  rcases h0 : c0[p]? with _ | op0
  · have : c[p]? = none := by
      rw [List.getElem?_eq_none_iff] at h0 ⊢; rw [I.len]; exact h0
    rw [step_eq] at h; rw [this] at h; simp at h
  obtain ⟨sz0, hs, hle⟩ := w.whole p op0 hp h0
  have hfall : Start c0 (p + sz0) := .next p op0 sz0 hp h0 hs
  by_cases hj : isJmp op0 = true
  · rcases I.jmp p op0 hp h0 hj with ⟨hc, ht⟩ | ⟨t, hc, ht⟩
    · rw [step_eq] at h; rw [hc] at h; dsimp only at h; rw [if_pos hj] at h
      rcases hd : readAt32 c (p + 1) with _ | d
      · rw [hd] at h; simp at h
      · rw [hd] at h; simp only [Option.some.injEq, Prod.mk.injEq, Conf.at.injEq] at h
        rw [← h.2.1]; exact ht d hd
    · rw [step_eq] at h; rw [hc] at h; dsimp only at h
      rw [if_neg (by simp [(term_not ht).1]), if_pos ht] at h
      simp at h
  have hj' : isJmp op0 = false := by simpa using hj
  by_cases hcd : isCond op0 = true
  · have e5 : sz0 = 5 := by rw [size_cond hcd] at hs; exact (Option.some.inj hs).symm
    subst e5
    obtain ⟨hc, ht⟩ := I.cond p op0 hp h0 hcd
    rw [step_eq] at h; rw [hc] at h; dsimp only at h
    rw [if_neg hj, if_neg (by simp [(cond_not hcd).2.2]), if_pos hcd] at h
    rcases hd : readAt32 c (p + 1) with _ | d
    · rw [hd] at h; simp at h
    rw [hd] at h; dsimp only at h
    rcases ho : M.test op0 none p s with o | ⟨b', s''⟩
    · rw [ho] at h; dsimp only at h
      simp only [Option.some.injEq, Prod.mk.injEq] at h
      cases o with
      | next s1 => simp only [Out.conf, Conf.at.injEq] at h; rw [← h.2.1]; exact hfall
      | goto q s1 =>
        simp only [Out.conf, Conf.at.injEq] at h; rw [← h.2.1]
        exact w.gotoTest p op0 none s q s1 hp h0 ho
      | halt r => simp [Out.conf] at h
    · rw [ho] at h
      simp only [Option.some.injEq, Prod.mk.injEq, Conf.at.injEq] at h
      rw [← h.2.1]
      split
      · exact hfall
      · exact ht d hd
  have hcd' : isCond op0 = false := by simpa using hcd
  have hb := I.other p op0 sz0 hp h0 hj' hcd' hs
  rw [step_congr M I.len h0 hs hb s] at h
  rw [step_eq] at h; rw [h0] at h; dsimp only at h
  rw [if_neg hj] at h
  by_cases ht : isTerm op0 = true
  · rw [if_pos ht] at h; simp at h
  rw [if_neg ht, if_neg hcd] at h
  by_cases hi : isCondI op0 = true
  · have e9 : sz0 = 9 := by rw [size_condI hi] at hs; exact (Option.some.inj hs).symm
    subst e9
    rw [if_pos hi] at h
    rcases h1 : readAt32 c0 (p + 1) with _ | i
    · rw [h1] at h; simp at h
    rcases h2 : readAt32 c0 (p + 5) with _ | d
    · rw [h1, h2] at h; simp at h
    rw [h1, h2] at h; dsimp only at h
    rcases ho : M.test op0 (some i) p s with o | ⟨b', s''⟩
    · rw [ho] at h; dsimp only at h
      simp only [Option.some.injEq, Prod.mk.injEq] at h
      cases o with
      | next s1 => simp only [Out.conf, Conf.at.injEq] at h; rw [← h.2.1]; exact hfall
      | goto q s1 =>
        simp only [Out.conf, Conf.at.injEq] at h; rw [← h.2.1]
        exact w.gotoTest p op0 (some i) s q s1 hp h0 ho
      | halt r => simp [Out.conf] at h
    · rw [ho] at h
      simp only [Option.some.injEq, Prod.mk.injEq, Conf.at.injEq] at h
      rw [← h.2.1]
      split
      · exact hfall
      · exact w.jumpsI p op0 d hp h0 ((branchesI_iff _).2 hi) h2
  rw [if_neg hi, hs] at h
  dsimp only at h
  rw [if_pos hle] at h
  simp only [Option.some.injEq, Prod.mk.injEq] at h
  rcases ho : M.exec op0 ((c0.drop (p + 1)).take (sz0 - 1)) p s with s1 | ⟨q, s1⟩ | r
  · rw [ho] at h; simp only [Out.conf, Conf.at.injEq] at h; rw [← h.2.1]; exact hfall
  · rw [ho] at h; simp only [Out.conf, Conf.at.injEq] at h; rw [← h.2.1]
    exact w.gotoExec p op0 sz0 s q s1 hp h0 hs ho
  · rw [ho] at h; simp [Out.conf] at h

theorem Inv.J_closed {M : Machine S R} {c0 c : Code} (w : WellFormed M c0) (I : Inv c0 c) {a b : Nat}
    (ha : Start c0 a) (h : J c a b) : Start c0 b := by
  obtain ⟨op, d, h1, h2, h3, rfl⟩ := h
  rcases h0 : c0[a]? with _ | op0
  · have : c[a]? = none := by
      rw [List.getElem?_eq_none_iff] at h0 ⊢; rw [I.len]; exact h0
    rw [this] at h1; cases h1
  by_cases hj : isJmp op0 = true
  · rcases I.jmp a op0 ha h0 hj with ⟨_, ht⟩ | ⟨t, hc, ht⟩
    · exact ht d h3
    · rw [h1] at hc; cases hc; rw [(term_not ht).1] at h2; cases h2
  · have hj' : isJmp op0 = false := by simpa using hj
    by_cases hc : isCond op0 = true
    · have := (I.cond a op0 ha h0 hc).1
      rw [h1] at this; cases this; rw [hj'] at h2; cases h2
    · have hc' : isCond op0 = false := by simpa using hc
      obtain ⟨sz, hs, _⟩ := w.whole a op0 ha h0
      have := I.other a op0 sz ha h0 hj' hc' hs 0 (inst_size_pos hs)
      simp only [Nat.add_zero] at this
      rw [h1, h0] at this; cases this; rw [hj'] at h2; cases h2

theorem Inv.silent_closed {M : Machine S R} {c0 c : Code} (w : WellFormed M c0) (I : Inv c0 c) {a b : Nat}
    (ha : Start c0 a) (h : Silent c a b) : Start c0 b := by
  induction h with
  | refl => exact ha
  | tail _ hj ih => exact I.J_closed w ih hj

/-! ### One rewrite -/

/-- Configurations of the code before and after a rewrite that behave alike: the new one may have
skipped some jumps of the old one. -/
inductive CR (c0 c : Code) : Conf S R → Conf S R → Prop
  | at (a b s) : Start c0 a → Silent c a b → CR c0 c (.at a s) (.at b s)
  | done (r) : CR c0 c (.done r) (.done r)

/-- Related results of one step. -/
inductive OR (c0 c : Code) : Option (Option (Event S R) × Conf S R) →
    Option (Option (Event S R) × Conf S R) → Prop
  | none : OR c0 c none none
  | some (e k k1) : CR c0 c k k1 → OR c0 c (some (e, k)) (some (e, k1))

/-- `c1` simulates `c`, one step against some jumps and one step. -/
def Sim (M : Machine S R) (c0 c c1 : Code) : Prop :=
  ∀ p s, Start c0 p → ∃ q, Silent c p q ∧ OR c0 c (step M c q s) (step M c1 p s)

/-- `Shows` with the number of steps. -/
inductive ShowsN (M : Machine S R) (c : Code) : Nat → Conf S R → List (Event S R) → Prop
  | nil (k) : ShowsN M c 0 k []
  | ended (r) : ShowsN M c 0 (.done r) [.ended r]
  | silent (n pos s k tr) : step M c pos s = some (none, k) → ShowsN M c n k tr → ShowsN M c (n + 1) (.at pos s) tr
  | event (n pos s e k tr) : step M c pos s = some (some e, k) → ShowsN M c n k tr →
      ShowsN M c (n + 1) (.at pos s) (e :: tr)

theorem Shows.count {M : Machine S R} {c : Code} {k tr} (h : Shows M c k tr) : ∃ n, ShowsN M c n k tr := by
  induction h with
  | nil k => exact ⟨0, .nil k⟩
  | ended r => exact ⟨0, .ended r⟩
  | silent pos s k tr hs _ ih => obtain ⟨n, h⟩ := ih; exact ⟨n + 1, .silent _ _ _ _ _ hs h⟩
  | event pos s e k tr hs _ ih => obtain ⟨n, h⟩ := ih; exact ⟨n + 1, .event _ _ _ _ _ _ hs h⟩

theorem ShowsN.skip {M : Machine S R} {c : Code} {a b : Nat} (h : Silent c a b) : ∀ {n s e tr},
    ShowsN M c n (.at a s) (e :: tr) → ∃ m ≤ n, ShowsN M c m (.at b s) (e :: tr) := by
  induction h using Relation.ReflTransGen.head_induction_on with
  | refl => intro n s e tr h; exact ⟨n, Nat.le_refl _, h⟩
  | head hj _ ih =>
    intro n s e tr h
    have hst := J_step M hj s
    cases h with
    | silent n _ _ k _ hs hk =>
      rw [hst] at hs
      simp only [Option.some.injEq, Prod.mk.injEq, true_and] at hs
      subst hs
      obtain ⟨m, hm, h'⟩ := ih hk
      exact ⟨m, by omega, h'⟩
    | event n _ _ _ k _ hs hk =>
      rw [hst] at hs
      simp at hs

theorem Sim.fwd {M : Machine S R} {c0 c c1 : Code} (w : WellFormed M c0) (I : Inv c0 c) (h : Sim M c0 c c1) :
    ∀ n k k1 tr, ShowsN M c n k tr → CR c0 c k k1 → Shows M c1 k1 tr := by
  intro n
  induction n using Nat.strong_induction_on with
  | _ n ih =>
    intro k k1 tr hk hr
    cases hr with
    | done r =>
      cases hk with
      | nil => exact .nil _
      | ended => exact .ended _
    | «at» a b s ha hab =>
      cases tr with
      | nil => exact .nil _
      | cons e tr =>
        obtain ⟨m, hm, hb⟩ := ShowsN.skip hab hk
        have hb0 := I.silent_closed w ha hab
        obtain ⟨q, hq, ho⟩ := h b s hb0
        obtain ⟨m', hm', hq'⟩ := ShowsN.skip hq hb
        cases hq' with
        | silent m'' _ _ k' _ hs hk' =>
          generalize hst1 : step M c1 b s = o1 at ho
          rw [hs] at ho
          cases ho with
          | some _ _ k1' hcr =>
            exact .silent _ _ _ _ hst1 (ih m'' (by omega) _ _ _ hk' hcr)
        | event m'' _ _ _ k' _ hs hk' =>
          generalize hst1 : step M c1 b s = o1 at ho
          rw [hs] at ho
          cases ho with
          | some _ _ k1' hcr =>
            exact .event _ _ _ _ _ hst1 (ih m'' (by omega) _ _ _ hk' hcr)

theorem Sim.bwd {M : Machine S R} {c0 c c1 : Code} (w : WellFormed M c0) (I : Inv c0 c) (h : Sim M c0 c c1)
    {k1 tr} (h1 : Shows M c1 k1 tr) : ∀ k, CR c0 c k k1 → Shows M c k tr := by
  induction h1 with
  | nil k1 => intro k _; exact .nil _
  | ended r => intro k hr; cases hr; exact .ended _
  | silent pos s k1' tr hs _ ih =>
    intro k hr
    cases hr with
    | «at» a _ _ ha hab =>
      have hb0 := I.silent_closed w ha hab
      obtain ⟨q, hq, ho⟩ := h pos s hb0
      generalize hst : step M c q s = o at ho
      rw [hs] at ho
      cases ho with
      | some _ k' _ hcr =>
        exact Shows.prepend (hab.trans hq) (.silent _ _ _ _ hst (ih _ hcr))
  | event pos s e k1' tr hs _ ih =>
    intro k hr
    cases hr with
    | «at» a _ _ ha hab =>
      have hb0 := I.silent_closed w ha hab
      obtain ⟨q, hq, ho⟩ := h pos s hb0
      generalize hst : step M c q s = o at ho
      rw [hs] at ho
      cases ho with
      | some _ k' _ hcr =>
        exact Shows.prepend (hab.trans hq) (.event _ _ _ _ _ hst (ih _ hcr))

/-- Same observations from every instruction boundary. -/
def Same (M : Machine S R) (c0 c c1 : Code) : Prop :=
  ∀ p s tr, Start c0 p → (Shows M c (.at p s) tr ↔ Shows M c1 (.at p s) tr)

theorem Sim.same {M : Machine S R} {c0 c c1 : Code} (w : WellFormed M c0) (I : Inv c0 c) (h : Sim M c0 c c1) :
    Same M c0 c c1 := by
  intro p s tr hp
  constructor
  · intro hs
    obtain ⟨n, hn⟩ := hs.count
    exact h.fwd w I n _ _ _ hn (.at p p s hp .refl)
  · intro hs
    exact h.bwd w I hs _ (.at p p s hp .refl)

/-- Steps at instructions not touched. -/
theorem OR.same {M : Machine S R} {c0 c : Code} (w : WellFormed M c0) (I : Inv c0 c) {p : Nat} (hp : Start c0 p) (s : S) :
    OR c0 c (step M c p s) (step M c p s) := by
  rcases h : step M c p s with _ | ⟨e, k⟩
  · exact .none
  · refine .some e k k ?_
    cases k with
    | «at» b s' => exact .at b b s' (I.closed w hp h) .refl
    | done r => exact .done r

/-- A rewrite of the five bytes at `p0` leaves every other instruction alone. -/
theorem step_elsewhere {M : Machine S R} {c0 c c1 : Code} (w : WellFormed M c0) (I : Inv c0 c)
    {p0 : Nat} {op0 : Byte} (h0 : Start c0 p0) (hop0 : c0[p0]? = some op0) (hsz : inst_size op0 = some 5)
    (hl : c1.length = c.length) (hsame : ∀ i, i < p0 ∨ p0 + 5 ≤ i → c1[i]? = c[i]?)
    {p : Nat} (hp : Start c0 p) (hne : p ≠ p0) (s : S) : step M c1 p s = step M c p s := by
  rcases h : c0[p]? with _ | op
  · have h' : c[p]? = none := by
      rw [List.getElem?_eq_none_iff] at h ⊢; rw [I.len]; exact h
    have h'' : c1[p]? = none := by
      rw [List.getElem?_eq_none_iff] at h' ⊢; rw [hl]; exact h'
    simp only [step_eq]; rw [h', h'']
  · obtain ⟨sz, hs, _⟩ := w.whole p op hp h
    obtain ⟨op', sz', h1, h2, h3⟩ := I.size hp h hs
    refine step_congr M hl h1 h2 (fun i hi => hsame _ ?_) s
    rcases Nat.lt_or_gt_of_ne hne with hlt | hgt
    · have := start_gap p0 p op sz h0 hp hlt h hs; omega
    · have := start_gap p p0 op0 5 hp h0 hgt hop0 hsz; omega

/-- Likewise for the invariant. -/
theorem Inv.elsewhere {c0 c c1 : Code} (I : Inv c0 c)
    {p0 : Nat} {op0 : Byte} (h0 : Start c0 p0) (hop0 : c0[p0]? = some op0) (hsz : inst_size op0 = some 5)
    (hl : c1.length = c.length) (hsame : ∀ i, i < p0 ∨ p0 + 5 ≤ i → c1[i]? = c[i]?)
    (hj : isJmp op0 = true → (c1[p0]? = some op0 ∧ ∀ d, readAt32 c1 (p0 + 1) = some d → Start c0 (addDisp (p0 + 5) d)) ∨
      (∃ t, c1[p0]? = some t ∧ isTerm t = true))
    (hc : isCond op0 = true → c1[p0]? = some op0 ∧ ∀ d, readAt32 c1 (p0 + 1) = some d → Start c0 (addDisp (p0 + 5) d))
    (hjc : isJmp op0 = true ∨ isCond op0 = true) : Inv c0 c1 := by
  have key : ∀ p op, Start c0 p → c0[p]? = some op → p ≠ p0 → ∀ sz, inst_size op = some sz →
      ∀ i < sz, c1[p + i]? = c[p + i]? := by
    intro p op hp hop hne sz hs i hi
    apply hsame
    rcases Nat.lt_or_gt_of_ne hne with hlt | hgt
    · have := start_gap p0 p op sz h0 hp hlt hop hs; omega
    · have := start_gap p p0 op0 5 hp h0 hgt hop0 hsz; omega
  refine ⟨hl.trans I.len, ?_, ?_, ?_⟩
  · intro p op hp hop hjp
    by_cases hne : p = p0
    · subst hne; rw [hop0] at hop; cases hop; exact hj hjp
    · have k := key p op hp hop hne 5 (size_jmp hjp)
      have k0 := k 0 (by omega); simp only [Nat.add_zero] at k0
      rcases I.jmp p op hp hop hjp with ⟨h1, h2⟩ | ⟨t, h1, h2⟩
      · refine .inl ⟨k0.trans h1, fun d hd => h2 d ?_⟩
        rw [← hd]; symm
        apply readAt32_congr
        intro i hi; have := k (1 + i) (by omega); rwa [← Nat.add_assoc] at this
      · exact .inr ⟨t, k0.trans h1, h2⟩
  · intro p op hp hop hcp
    by_cases hne : p = p0
    · subst hne; rw [hop0] at hop; cases hop; exact hc hcp
    · have k := key p op hp hop hne 5 (size_cond hcp)
      have k0 := k 0 (by omega); simp only [Nat.add_zero] at k0
      obtain ⟨h1, h2⟩ := I.cond p op hp hop hcp
      refine ⟨k0.trans h1, fun d hd => h2 d ?_⟩
      rw [← hd]; symm
      apply readAt32_congr
      intro i hi; have := k (1 + i) (by omega); rwa [← Nat.add_assoc] at this
  · intro p op sz hp hop hnj hnc hs i hi
    have hne : p ≠ p0 := by
      rintro rfl; rw [hop0] at hop; cases hop
      rcases hjc with h | h
      · rw [hnj] at h; cases h
      · rw [hnc] at h; cases h
    rw [key p op hp hop hne sz hs i hi]
    exact I.other p op sz hp hop hnj hnc hs i hi

/-! ### Effect of the two rewrites on bytes -/

theorem split5 {c : Code} {p : Nat} {op : Byte} (h : c[p]? = some op) (hl : p + 5 ≤ c.length) :
    ∃ (pre post : Code) (a b d e : Byte), c = pre ++ op :: a :: b :: d :: e :: post ∧ pre.length = p := by
  have hlt : p < c.length := by omega
  refine ⟨c.take p, c.drop (p + 5), c[p + 1]'(by omega), c[p + 2]'(by omega), c[p + 3]'(by omega),
    c[p + 4]'(by omega), ?_, by simp; omega⟩
  conv_lhs => rw [← List.take_append_drop p c]
  congr 1
  rw [List.drop_eq_getElem_cons hlt, List.drop_eq_getElem_cons (by omega), List.drop_eq_getElem_cons (by omega),
    List.drop_eq_getElem_cons (by omega), List.drop_eq_getElem_cons (by omega)]
  rw [List.getElem?_eq_getElem hlt] at h
  simp only [Option.some.injEq] at h
  rw [h]

theorem retarget_bytes {c : Code} {p d : Nat} {op : Byte} (h : c[p]? = some op) (hl : p + 5 ≤ c.length) :
    let c1 := write_disp c (p + 5) d
    c1.length = c.length ∧ (∀ i, i < p + 1 ∨ p + 5 ≤ i → c1[i]? = c[i]?) ∧
      readAt32 c1 (p + 1) = some (dispTo (p + 5) d) := by
  obtain ⟨pre, post, a, b, x, e, rfl, rfl⟩ := split5 h hl
  intro c1
  have hc1 : c1 = (pre ++ [op]) ++ (le32 (dispTo (pre.length + 5) d) ++ post) := by
    show write_disp _ _ _ = _
    rw [show pre ++ op :: a :: b :: x :: e :: post = (pre ++ [op]) ++ a :: b :: x :: e :: post by simp]
    exact write_disp_app _ _ _ _ _ _ _ _ (by simp)
  refine ⟨write_disp_length _ _ _, ?_, ?_⟩
  · intro i hi
    rw [hc1]
    simp only [le32]
    rcases hi with hi | hi
    · have hi' : i < (pre ++ [op]).length := by simp; omega
      rw [List.getElem?_append_left hi',
        show pre ++ op :: a :: b :: x :: e :: post = (pre ++ [op]) ++ (a :: b :: x :: e :: post) by simp,
        List.getElem?_append_left hi']
    · obtain ⟨j, rfl⟩ : ∃ j, i = pre.length + 5 + j := ⟨i - (pre.length + 5), by omega⟩
      rw [show (pre ++ [op]) ++ ([BitVec.setWidth 8 (dispTo (pre.length + 5) d),
            BitVec.setWidth 8 (dispTo (pre.length + 5) d >>> 8), BitVec.setWidth 8 (dispTo (pre.length + 5) d >>> 16),
            BitVec.setWidth 8 (dispTo (pre.length + 5) d >>> 24)] ++ post) =
          (pre ++ [op, BitVec.setWidth 8 (dispTo (pre.length + 5) d),
            BitVec.setWidth 8 (dispTo (pre.length + 5) d >>> 8), BitVec.setWidth 8 (dispTo (pre.length + 5) d >>> 16),
            BitVec.setWidth 8 (dispTo (pre.length + 5) d >>> 24)]) ++ post by simp,
        show pre ++ op :: a :: b :: x :: e :: post = (pre ++ [op, a, b, x, e]) ++ post by simp,
        List.getElem?_append_right (by simp), List.getElem?_append_right (by simp)]
      simp
  · rw [hc1]
    unfold readAt32
    rw [show pre.length + 1 = (pre ++ [op]).length by simp, read32_app]
    rfl

theorem terms_bytes {c : Code} {p : Nat} {t : Byte} (hl : p + 5 ≤ c.length) :
    let c1 := ((((c.set p t).set (p + 1) t).set (p + 2) t).set (p + 3) t).set (p + 4) t
    c1.length = c.length ∧ (∀ i, i < p ∨ p + 5 ≤ i → c1[i]? = c[i]?) ∧ c1[p]? = some t := by
  intro c1
  have hlt : p < c.length := by omega
  refine ⟨by simp [c1], ?_, ?_⟩
  · intro i hi
    simp only [c1, List.getElem?_set]
    rw [if_neg (by omega), if_neg (by omega), if_neg (by omega), if_neg (by omega), if_neg (by omega)]
  · simp [c1, hlt]

theorem opt_at {M : Machine S R} {c0 c c1 : Code} {fuel p0 : Nat} {op0 : Byte} (w : WellFormed M c0)
    (I : Inv c0 c) (h0 : Start c0 p0) (hop0 : c0[p0]? = some op0) (hop : c[p0]? = some op0)
    (h : optStep fuel c p0 op0 = some c1) :
    Inv c0 c1 ∧ Sim M c0 c c1 ∧ (∀ sz, inst_size op0 = some sz → ∀ i, p0 + sz ≤ i → c1[i]? = c[i]?) := by
  obtain ⟨sz0, hs0, hle0⟩ := w.whole p0 op0 h0 hop0
  have hlen := I.len
  have hshort := w.short
  unfold optStep at h
  by_cases hj : isJmp op0 = true
  · have hs := size_jmp hj
    rw [hs] at hs0; cases hs0
    rw [if_pos hj, hs] at h
    simp only [show p0 + 5 - 4 = p0 + 1 by omega] at h
    rcases hd : readAt32 c (p0 + 1) with _ | disp
    · rw [hd] at h; simp at h
    rw [hd] at h; dsimp only at h
    have hJ : J c p0 (addDisp (p0 + 5) disp) := ⟨op0, disp, hop, hj, hd, rfl⟩
    have hq0 := I.J_closed w h0 hJ
    rcases hch : chase fuel c (addDisp (p0 + 5) disp) true with _ | r
    · rw [hch] at h; simp at h
    rw [hch] at h
    have hsp := chase_spec _ _ _ _ hch
    cases r with
    | dest d =>
      simp only [Option.some.injEq] at h
      obtain ⟨hsil, opd, hopd, _⟩ := hsp
      have hd0 := I.silent_closed w hq0 hsil
      have hdl : d < c.length := by
        rw [List.getElem?_eq_some_iff] at hopd; exact hopd.1
      obtain ⟨b1, b2, b3⟩ := retarget_bytes (c := c) (p := p0) (d := d) hop (by omega)
      rw [h] at b1 b2 b3
      have htgt : addDisp (p0 + 5) (dispTo (p0 + 5) d) = d := by
        rw [addDisp_dispTo] <;> omega
      have hop1 : c1[p0]? = some op0 := by rw [b2 _ (by omega)]; exact hop
      have hsame : ∀ i, i < p0 ∨ p0 + 5 ≤ i → c1[i]? = c[i]? := fun i hi => b2 i (by omega)
      refine ⟨I.elsewhere h0 hop0 hs b1 hsame (fun _ => .inl ⟨hop1, ?_⟩) ?_ (.inl hj), ?_, ?_⟩
      · intro d' hd'; rw [b3] at hd'; cases hd'; rw [htgt]; exact hd0
      · intro hc; rw [(jmp_not_cond hj).1] at hc; cases hc
      · intro p s hp
        by_cases hne : p = p0
        · subst hne
          refine ⟨p, .refl, ?_⟩
          rw [J_step M hJ s, J_step M (⟨op0, _, hop1, hj, b3, rfl⟩ : J c1 p _) s, htgt]
          exact .some _ _ _ (.at _ _ _ hq0 hsil)
        · refine ⟨p, .refl, ?_⟩
          rw [step_elsewhere w I h0 hop0 hs b1 hsame hp hne s]
          exact OR.same w I hp s
      · intro sz hsz i hi
        rw [hs] at hsz; cases hsz
        exact b2 i (by omega)
    | inst t =>
      simp only [Option.some.injEq] at h
      obtain ⟨d, hsil, hopd, ht⟩ := hsp
      have hd0 := I.silent_closed w hq0 hsil
      obtain ⟨b1, b2, b3⟩ := terms_bytes (c := c) (p := p0) (t := t) (by omega)
      rw [h] at b1 b2 b3
      refine ⟨I.elsewhere h0 hop0 hs b1 b2 (fun _ => .inr ⟨t, b3, ht⟩) ?_ (.inl hj), ?_, ?_⟩
      · intro hc; rw [(jmp_not_cond hj).1] at hc; cases hc
      · intro p s hp
        by_cases hne : p = p0
        · subst hne
          refine ⟨d, .head hJ hsil, ?_⟩
          have e1 : step M c d s = some (some (.ran t [] s), .done (M.term t s)) := by
            simp only [step_eq]; rw [hopd]; dsimp only
            rw [if_neg (by simp [(term_not ht).1]), if_pos ht]
          have e2 : step M c1 p s = some (some (.ran t [] s), .done (M.term t s)) := by
            simp only [step_eq]; rw [b3]; dsimp only
            rw [if_neg (by simp [(term_not ht).1]), if_pos ht]
          rw [e1, e2]
          exact .some _ _ _ (.done _)
        · refine ⟨p, .refl, ?_⟩
          rw [step_elsewhere w I h0 hop0 hs b1 b2 hp hne s]
          exact OR.same w I hp s
      · intro sz hsz i hi
        rw [hs] at hsz; cases hsz
        exact b2 i (by omega)
  · rw [if_neg hj] at h
    by_cases hc : isCond op0 = true
    · have hs := size_cond hc
      rw [hs] at hs0; cases hs0
      rw [if_pos hc, hs] at h
      simp only [show p0 + 5 - 4 = p0 + 1 by omega] at h
      rcases hd : readAt32 c (p0 + 1) with _ | disp
      · rw [hd] at h; simp at h
      rw [hd] at h; dsimp only at h
      have hq0 := (I.cond p0 op0 h0 hop0 hc).2 disp hd
      rcases hch : chase fuel c (addDisp (p0 + 5) disp) false with _ | r
      · rw [hch] at h; simp at h
      rw [hch] at h
      have hsp := chase_spec _ _ _ _ hch
      cases r with
      | inst t => simp at h
      | dest d =>
        simp only [Option.some.injEq] at h
        obtain ⟨hsil, opd, hopd, _⟩ := hsp
        have hd0 := I.silent_closed w hq0 hsil
        have hdl : d < c.length := by
          rw [List.getElem?_eq_some_iff] at hopd; exact hopd.1
        obtain ⟨b1, b2, b3⟩ := retarget_bytes (c := c) (p := p0) (d := d) hop (by omega)
        rw [h] at b1 b2 b3
        have htgt : addDisp (p0 + 5) (dispTo (p0 + 5) d) = d := by
          rw [addDisp_dispTo] <;> omega
        have hop1 : c1[p0]? = some op0 := by rw [b2 _ (by omega)]; exact hop
        have hsame : ∀ i, i < p0 ∨ p0 + 5 ≤ i → c1[i]? = c[i]? := fun i hi => b2 i (by omega)
        have hfall : Start c0 (p0 + 5) := .next p0 op0 5 h0 hop0 hs
        refine ⟨I.elsewhere h0 hop0 hs b1 hsame ?_ (fun _ => ⟨hop1, ?_⟩) (.inr hc), ?_, ?_⟩
        · intro hj'; exact absurd hj' hj
        · intro d' hd'; rw [b3] at hd'; cases hd'; rw [htgt]; exact hd0
        · intro p s hp
          by_cases hne : p = p0
          · subst hne
            refine ⟨p, .refl, ?_⟩
            have hnt : ¬ isTerm op0 = true := by simp [(cond_not hc).2.2]
            simp only [step_eq]
            rw [hop, hop1]; dsimp only
            rw [if_neg hj, if_neg hj, if_neg hnt, if_neg hnt, if_pos hc, if_pos hc, hd, b3]
            dsimp only
            rcases ho : M.test op0 none p s with o | ⟨b', s''⟩
            · dsimp only
              refine .some _ _ _ ?_
              cases o with
              | next s1 => exact .at _ _ _ hfall .refl
              | goto q s1 => exact .at _ _ _ (w.gotoTest p op0 none s q s1 h0 hop0 ho) .refl
              | halt r => exact .done _
            · dsimp only
              refine .some _ _ _ ?_
              rw [htgt]
              split
              · exact .at _ _ _ hfall .refl
              · exact .at _ _ _ hq0 hsil
          · refine ⟨p, .refl, ?_⟩
            rw [step_elsewhere w I h0 hop0 hs b1 hsame hp hne s]
            exact OR.same w I hp s
        · intro sz hsz i hi
          rw [hs] at hsz; cases hsz
          exact b2 i (by omega)
    · rw [if_neg hc] at h
      cases h
      exact ⟨I, fun p s hp => ⟨p, .refl, OR.same w I hp s⟩, fun _ _ _ _ => rfl⟩

theorem optLoop_spec {M : Machine S R} {c0 : Code} (w : WellFormed M c0) (fuel : Nat) :
    ∀ n c pos c', Inv c0 c → Start c0 pos → (∀ i, pos ≤ i → c[i]? = c0[i]?) →
      optLoop fuel n c pos = some c' → Same M c0 c c' ∧ Inv c0 c' := by
  intro n
  induction n with
  | zero =>
    intro c pos c' I _ _ h
    simp only [optLoop, Option.some.injEq] at h; subst h
    exact ⟨fun _ _ _ _ => Iff.rfl, I⟩
  | succ n ih =>
    intro c pos c' I hpos hsame h
    unfold optLoop at h
    rcases hop : c[pos]? with _ | op
    · rw [hop] at h; cases h; exact ⟨fun _ _ _ _ => Iff.rfl, I⟩
    rw [hop] at h; dsimp only at h
    have hop0 : c0[pos]? = some op := by rw [← hsame pos (Nat.le_refl _)]; exact hop
    rcases hst : optStep fuel c pos op with _ | c1
    · rw [hst] at h; simp at h
    rcases hsz : inst_size op with _ | sz
    · rw [hst, hsz] at h; simp at h
    rw [hst, hsz] at h; dsimp only at h
    obtain ⟨I1, hsim, htail⟩ := opt_at w I hpos hop0 hop hst
    have h0 := inst_size_pos hsz
    obtain ⟨hS, hI⟩ := ih c1 (pos + sz) c' I1 (.next pos op sz hpos hop0 hsz)
      (fun i hi => by rw [htail sz hsz i hi]; exact hsame i (by omega)) h
    exact ⟨fun p s tr hp => (hsim.same w I p s tr hp).trans (hS p s tr hp), hI⟩

end Verif.ISeq
