import Verif.ISeq.Peephole
/-!
# C30: the peephole pass changes nothing an observer can see
-/
namespace Verif.ISeq
open Op

variable {S R : Type}

/-- **C30**.  For any well-formed code, any meaning of the instructions and any start state: the
optimized code shows exactly the same histories of instructions, operands, states and results as the
code before optimization — no matter whether the run ends, raises, or goes on forever. -/
theorem C30_optimize_same_histories (M : Machine S R) (c c' : Code) (w : WellFormed M c) (fuel : Nat)
    (h : optimize fuel c = some c') (s : S) (tr : List (Event S R)) :
    Shows M c' (.at 0 s) tr ↔ Shows M c (.at 0 s) tr :=
  ((optLoop_spec w fuel c.length c 0 c' (.refl w) .zero (fun _ _ => rfl) h).1 0 s tr .zero).symm

/-- **C30**, at other entry points: a run that enters at any instruction of the original code (a
rescue entry, a case label) is unchanged too; positions keep their meaning, since
nothing moves. -/
theorem C30_entry_points (M : Machine S R) (c c' : Code) (w : WellFormed M c) (fuel : Nat)
    (h : optimize fuel c = some c') :
    c'.length = c.length ∧
    ∀ pos, Start c pos → ∀ (s : S) (tr : List (Event S R)),
      Shows M c' (.at pos s) tr ↔ Shows M c (.at pos s) tr := by
  obtain ⟨h1, h2⟩ := optLoop_spec w fuel c.length c 0 c' (.refl w) .zero (fun _ _ => rfl) h
  exact ⟨h2.len, fun pos hp s tr => (h1 pos s tr hp).symm⟩

/-! ### The pass terminates and does not panic unless there is a cycle of unconditional jumps -/

/-- Following unconditional jumps from `p` ends at another instruction. -/
def Ends (c : Code) (p : Nat) : Prop := ∃ d op, Silent c p d ∧ c[d]? = some op ∧ isJmp op = false

theorem chase_mono {c : Code} : ∀ {f g pos nc r}, chase f c pos nc = some r → f ≤ g →
    chase g c pos nc = some r := by
  intro f
  induction f with
  | zero => intro g pos nc r h; simp [chase] at h
  | succ f ih =>
    intro g pos nc r h hle
    obtain ⟨g, rfl⟩ : ∃ g', g = g' + 1 := ⟨g - 1, by omega⟩
    unfold chase at h ⊢
    rcases hop : c[pos]? with _ | op
    · rw [hop] at h; simp at h
    rw [hop] at h
    dsimp only at h ⊢
    split
    · rename_i hj
      rw [if_pos hj] at h
      rcases hd : readAt32 c (pos + 1) with _ | d
      · rw [hd] at h; simp at h
      rcases hs : inst_size op with _ | sz
      · rw [hd, hs] at h; simp at h
      rw [hd, hs] at h
      dsimp only at h ⊢
      exact ih h (by omega)
    · rename_i hj
      rw [if_neg hj] at h
      exact h

theorem Ends.chased {c : Code} {p : Nat} (h : Ends c p) (nc : Bool) :
    ∃ f r, chase f c p nc = some r ∧ (nc = false → ∃ d, r = .dest d) := by
  obtain ⟨d, op, hs, hop, hj⟩ := h
  induction hs using Relation.ReflTransGen.head_induction_on with
  | refl =>
    have hj' : ¬ isJmp op = true := by simp [hj]
    by_cases ht : isTerm op = true
    · cases nc
      · exact ⟨1, .dest d, by unfold ISeq.chase; rw [hop]; dsimp only; rw [if_neg hj', if_pos ht]; rfl,
          fun _ => ⟨d, rfl⟩⟩
      · exact ⟨1, .inst op, by unfold ISeq.chase; rw [hop]; dsimp only; rw [if_neg hj', if_pos ht]; rfl,
          by simp⟩
    · exact ⟨1, .dest d, by unfold ISeq.chase; rw [hop]; dsimp only; rw [if_neg hj', if_neg ht],
        fun _ => ⟨d, rfl⟩⟩
  | @head a b hj _ ih =>
    obtain ⟨f, r, h1, h2⟩ := ih
    refine ⟨f + 1, r, ?_, h2⟩
    obtain ⟨op, dd, e1, e2, e3, e4⟩ := hj
    unfold ISeq.chase
    rw [e1]; dsimp only
    rw [if_pos e2, e3, size_jmp e2]
    dsimp only
    rw [← e4]; exact h1

theorem readAt32_some {c : Code} {p : Nat} (h : p + 4 ≤ c.length) : ∃ v, readAt32 c p = some v := by
  unfold readAt32
  rw [read32_of c p c[p] c[p + 1] c[p + 2] c[p + 3]]
  · exact ⟨_, rfl⟩
  all_goals rw [List.getElem?_eq_getElem]

/-- Chains still end after a rewrite. -/
theorem Ends.kept {M : Machine S R} {c0 c c1 : Code} {fuel p0 : Nat} {op0 : Byte} (w : WellFormed M c0)
    (I : Inv c0 c) (h0 : Start c0 p0) (hop0 : c0[p0]? = some op0) (hop : c[p0]? = some op0)
    (h : optStep fuel c p0 op0 = some c1) {p : Nat} (hp : Start c0 p) (he : Ends c p) : Ends c1 p := by
  obtain ⟨sz0, hs0, hle0⟩ := w.whole p0 op0 h0 hop0
  have hlen := I.len
  have hshort := w.short
  obtain ⟨d, opd, hs, hopd, hjd⟩ := he
  -- what the rewrite does elsewhere
  have else_ : ∀ (c1 : Code), inst_size op0 = some 5 → (∀ i, i < p0 ∨ p0 + 5 ≤ i → c1[i]? = c[i]?) →
      ∀ q, Start c0 q → q ≠ p0 → ∀ op, c[q]? = some op → ∀ sz, inst_size op = some sz →
        ∀ i < sz, c1[q + i]? = c[q + i]? := by
    intro c1 hsz hsame q hq hne op hopq sz hszq i hi
    rcases hq0 : c0[q]? with _ | opq0
    · rw [List.getElem?_eq_none_iff] at hq0
      rw [List.getElem?_eq_some_iff] at hopq
      obtain ⟨hlt, _⟩ := hopq
      omega
    · obtain ⟨szq0, hszq0, _⟩ := w.whole q opq0 hq hq0
      obtain ⟨op', sz', h1, h2, h3⟩ := I.size hq hq0 hszq0
      rw [hopq] at h1; cases h1
      rw [hszq] at h2; cases h2
      apply hsame
      rcases Nat.lt_or_gt_of_ne hne with hlt | hgt
      · have := start_gap p0 q opq0 szq0 h0 hq hlt hq0 hszq0; omega
      · have := start_gap q p0 op0 5 hq h0 hgt hop0 hsz; omega
  -- generic step: given the effect at `p0`
  have generic : ∀ (c1 : Code), inst_size op0 = some 5 → (∀ i, i < p0 ∨ p0 + 5 ≤ i → c1[i]? = c[i]?) →
      ((∃ op1, c1[p0]? = some op1 ∧ isJmp op1 = false) ∨
        (∃ d' opd', J c1 p0 d' ∧ d' ≠ p0 ∧ Start c0 d' ∧ c[d']? = some opd' ∧ isJmp opd' = false)) → Ends c1 p := by
    intro c1 hsz hsame hat
    -- a non-jump elsewhere
    have stay : ∀ q, Start c0 q → q ≠ p0 → ∀ op, c[q]? = some op → c1[q]? = some op := by
      intro q hq hne op hq1
      rcases hq0 : c0[q]? with _ | opq0
      · rw [List.getElem?_eq_none_iff] at hq0
        rw [List.getElem?_eq_some_iff] at hq1
        obtain ⟨hlt, _⟩ := hq1
        omega
      · obtain ⟨szq0, hszq0, _⟩ := w.whole q opq0 hq hq0
        obtain ⟨op', sz', h1, h2, _⟩ := I.size hq hq0 hszq0
        rw [hq1] at h1; cases h1
        have := else_ c1 hsz hsame q hq hne op hq1 sz' h2 0 (inst_size_pos h2)
        simp only [Nat.add_zero] at this
        rw [this]; exact hq1
    have atp0 : Ends c1 p0 := by
      rcases hat with ⟨op1, h1, h2⟩ | ⟨d', opd', h1, h2, h3, h4, h5⟩
      · exact ⟨p0, op1, .refl, h1, h2⟩
      · exact ⟨d', opd', .single h1, stay d' h3 h2 opd' h4, h5⟩
    clear hat
    induction hs using Relation.ReflTransGen.head_induction_on with
    | refl =>
      by_cases hne : d = p0
      · subst hne; exact atp0
      · exact ⟨d, opd, .refl, stay d hp hne opd hopd, hjd⟩
    | @head a b hj _ ih =>
      by_cases hne : a = p0
      · subst hne; exact atp0
      · have hb := I.J_closed w hp hj
        obtain ⟨d2, opd2, q1, q2, q3⟩ := ih hb
        obtain ⟨op, dd, e1, e2, e3, e4⟩ := hj
        have k := else_ c1 hsz hsame a hp hne op e1 5 (size_jmp e2)
        have k0 := k 0 (by omega); simp only [Nat.add_zero] at k0
        refine ⟨d2, opd2, .head ⟨op, dd, k0.trans e1, e2, ?_, e4⟩ q1, q2, q3⟩
        rw [← e3]
        apply readAt32_congr
        intro i hi; have := k (1 + i) (by omega); rwa [← Nat.add_assoc] at this
  unfold optStep at h
  by_cases hj : isJmp op0 = true
  · have hsz := size_jmp hj
    rw [hsz] at hs0; cases hs0
    rw [if_pos hj, hsz] at h
    simp only [show p0 + 5 - 4 = p0 + 1 by omega] at h
    rcases hd : readAt32 c (p0 + 1) with _ | disp
    · rw [hd] at h; simp at h
    rw [hd] at h; dsimp only at h
    have hJ : J c p0 (addDisp (p0 + 5) disp) := ⟨op0, disp, hop, hj, hd, rfl⟩
    have hq0 := I.J_closed w h0 hJ
    rcases hch : chase fuel c (addDisp (p0 + 5) disp) true with _ | r
    · rw [hch] at h; simp at h
    rw [hch] at h
    have hsp := chase_spec _ _ _ _ hch
    cases r with
    | dest d' =>
      simp only [Option.some.injEq] at h
      obtain ⟨hsil, opd', hopd', hjd'⟩ := hsp
      have hdl : d' < c.length := by
        rw [List.getElem?_eq_some_iff] at hopd'; exact hopd'.1
      obtain ⟨b1, b2, b3⟩ := retarget_bytes (c := c) (p := p0) (d := d') hop (by omega)
      rw [h] at b1 b2 b3
      have htgt : addDisp (p0 + 5) (dispTo (p0 + 5) d') = d' := by
        rw [addDisp_dispTo] <;> omega
      refine generic c1 hsz (fun i hi => b2 i (by omega)) (.inr ⟨d', opd', ?_, ?_, I.silent_closed w hq0 hsil, hopd', hjd'⟩)
      · exact ⟨op0, _, by rw [b2 _ (by omega)]; exact hop, hj, b3, htgt.symm⟩
      · rintro rfl; rw [hop] at hopd'; cases hopd'; rw [hj] at hjd'; cases hjd'
    | inst t =>
      simp only [Option.some.injEq] at h
      obtain ⟨d', hsil, hopd', ht⟩ := hsp
      obtain ⟨b1, b2, b3⟩ := terms_bytes (c := c) (p := p0) (t := t) (by omega)
      rw [h] at b1 b2 b3
      exact generic c1 hsz b2 (.inl ⟨t, b3, (term_not ht).1⟩)
  · rw [if_neg hj] at h
    by_cases hc : isCond op0 = true
    · have hsz := size_cond hc
      rw [hsz] at hs0; cases hs0
      rw [if_pos hc, hsz] at h
      simp only [show p0 + 5 - 4 = p0 + 1 by omega] at h
      rcases hd : readAt32 c (p0 + 1) with _ | disp
      · rw [hd] at h; simp at h
      rw [hd] at h; dsimp only at h
      rcases hch : chase fuel c (addDisp (p0 + 5) disp) false with _ | r
      · rw [hch] at h; simp at h
      rw [hch] at h
      cases r with
      | inst t => simp at h
      | dest d' =>
        simp only [Option.some.injEq] at h
        obtain ⟨b1, b2, b3⟩ := retarget_bytes (c := c) (p := p0) (d := d') hop (by omega)
        rw [h] at b1 b2 b3
        refine generic c1 hsz (fun i hi => b2 i (by omega)) (.inl ⟨op0, ?_, by simpa using hj⟩)
        rw [b2 _ (by omega)]; exact hop
    · rw [if_neg hc] at h
      cases h
      exact ⟨d, opd, hs, hopd, hjd⟩

theorem optStep_mono {c c1 : Code} {f g p : Nat} {op : Byte} (h : optStep f c p op = some c1) (hle : f ≤ g) :
    optStep g c p op = some c1 := by
  unfold optStep at h ⊢
  split
  · rename_i hj
    rw [if_pos hj] at h
    rcases hs : inst_size op with _ | sz
    · rw [hs] at h; simp at h
    rw [hs] at h; dsimp only at h ⊢
    rcases hd : readAt32 c (p + sz - 4) with _ | d
    · rw [hd] at h; simp at h
    rw [hd] at h; dsimp only at h ⊢
    rcases hc : chase f c (addDisp (p + sz) d) true with _ | r
    · rw [hc] at h; simp at h
    rw [chase_mono hc hle]; rw [hc] at h; exact h
  · rename_i hj
    rw [if_neg hj] at h
    split
    · rename_i hcd
      rw [if_pos hcd] at h
      rcases hs : inst_size op with _ | sz
      · rw [hs] at h; simp at h
      rw [hs] at h; dsimp only at h ⊢
      rcases hd : readAt32 c (p + sz - 4) with _ | d
      · rw [hd] at h; simp at h
      rw [hd] at h; dsimp only at h ⊢
      rcases hc : chase f c (addDisp (p + sz) d) false with _ | r
      · rw [hc] at h; simp at h
      rw [chase_mono hc hle]; rw [hc] at h; exact h
    · rename_i hcd
      rw [if_neg hcd] at h
      exact h

theorem optLoop_mono {f g : Nat} (hle : f ≤ g) : ∀ {n c pos c'}, optLoop f n c pos = some c' →
    optLoop g n c pos = some c' := by
  intro n
  induction n with
  | zero => intro c pos c' h; exact h
  | succ n ih =>
    intro c pos c' h
    unfold optLoop at h ⊢
    rcases hop : c[pos]? with _ | op
    · rw [hop] at h; exact h
    rw [hop] at h; dsimp only at h ⊢
    rcases hst : optStep f c pos op with _ | c1
    · rw [hst] at h; simp at h
    rcases hsz : inst_size op with _ | sz
    · rw [hst, hsz] at h; simp at h
    rw [hst, hsz] at h
    rw [optStep_mono hst hle]
    exact ih h

/-- From every jump, following unconditional jumps ends at another instruction. -/
def NoCycle (c0 c : Code) : Prop :=
  ∀ p op d, Start c0 p → c[p]? = some op → isJmp op = true ∨ isCond op = true →
    readAt32 c (p + 1) = some d → Ends c (addDisp (p + 5) d)

theorem optStep_total {M : Machine S R} {c0 c : Code} (w : WellFormed M c0) (I : Inv c0 c) {p0 : Nat} {op0 : Byte}
    (h0 : Start c0 p0) (hop0 : c0[p0]? = some op0) (hop : c[p0]? = some op0) (he : NoCycle c0 c) :
    ∃ f c1, optStep f c p0 op0 = some c1 := by
  obtain ⟨sz0, hs0, hle0⟩ := w.whole p0 op0 h0 hop0
  have hlen := I.len
  by_cases hj : isJmp op0 = true
  · have hsz := size_jmp hj
    rw [hsz] at hs0; cases hs0
    obtain ⟨d, hd⟩ := readAt32_some (c := c) (p := p0 + 1) (by omega)
    obtain ⟨f, r, hr, _⟩ := (he p0 op0 d h0 hop (.inl hj) hd).chased true
    refine ⟨f, ?_⟩
    unfold optStep
    rw [if_pos hj, hsz]
    simp only [show p0 + 5 - 4 = p0 + 1 by omega, hd, hr]
    cases r with
    | dest d => exact ⟨_, rfl⟩
    | inst t => exact ⟨_, rfl⟩
  · by_cases hc : isCond op0 = true
    · have hsz := size_cond hc
      rw [hsz] at hs0; cases hs0
      obtain ⟨d, hd⟩ := readAt32_some (c := c) (p := p0 + 1) (by omega)
      obtain ⟨f, r, hr, hr'⟩ := (he p0 op0 d h0 hop (.inr hc) hd).chased false
      obtain ⟨d', rfl⟩ := hr' rfl
      refine ⟨f, ?_⟩
      unfold optStep
      rw [if_neg hj, if_pos hc, hsz]
      simp only [show p0 + 5 - 4 = p0 + 1 by omega, hd, hr]
      exact ⟨_, rfl⟩
    · exact ⟨0, c, by unfold optStep; rw [if_neg hj, if_neg hc]⟩

/-- The bytes of a rewrite: nothing outside the instruction at `p0`, and a jump left there leads to
the end of a chain. -/
theorem optStep_bytes {M : Machine S R} {c0 c c1 : Code} {fuel p0 : Nat} {op0 : Byte} (w : WellFormed M c0)
    (I : Inv c0 c) (h0 : Start c0 p0) (hop0 : c0[p0]? = some op0) (hop : c[p0]? = some op0)
    (h : optStep fuel c p0 op0 = some c1) :
    c1 = c ∨ (inst_size op0 = some 5 ∧ (∀ i, i < p0 ∨ p0 + 5 ≤ i → c1[i]? = c[i]?) ∧
      ((∃ t, c1[p0]? = some t ∧ isTerm t = true) ∨
       (∃ d v op, readAt32 c1 (p0 + 1) = some v ∧ addDisp (p0 + 5) v = d ∧ Start c0 d ∧ c[d]? = some op ∧
          isJmp op = false))) := by
  obtain ⟨sz0, hs0, hle0⟩ := w.whole p0 op0 h0 hop0
  have hlen := I.len
  have hshort := w.short
  unfold optStep at h
  by_cases hj : isJmp op0 = true
  · have hsz := size_jmp hj
    rw [hsz] at hs0; cases hs0
    rw [if_pos hj, hsz] at h
    simp only [show p0 + 5 - 4 = p0 + 1 by omega] at h
    rcases hd : readAt32 c (p0 + 1) with _ | disp
    · rw [hd] at h; simp at h
    rw [hd] at h; dsimp only at h
    have hq0 := I.J_closed w h0 ⟨op0, disp, hop, hj, hd, rfl⟩
    rcases hch : chase fuel c (addDisp (p0 + 5) disp) true with _ | r
    · rw [hch] at h; simp at h
    rw [hch] at h
    have hsp := chase_spec _ _ _ _ hch
    cases r with
    | dest d' =>
      simp only [Option.some.injEq] at h
      obtain ⟨hsil, opd', hopd', hjd'⟩ := hsp
      have hdl : d' < c.length := by
        rw [List.getElem?_eq_some_iff] at hopd'; exact hopd'.1
      obtain ⟨b1, b2, b3⟩ := retarget_bytes (c := c) (p := p0) (d := d') hop (by omega)
      rw [h] at b1 b2 b3
      refine .inr ⟨hsz, fun i hi => b2 i (by omega), .inr ⟨d', _, opd', b3, ?_, I.silent_closed w hq0 hsil, hopd', hjd'⟩⟩
      rw [addDisp_dispTo] <;> omega
    | inst t =>
      simp only [Option.some.injEq] at h
      obtain ⟨d', hsil, hopd', ht⟩ := hsp
      obtain ⟨b1, b2, b3⟩ := terms_bytes (c := c) (p := p0) (t := t) (by omega)
      rw [h] at b1 b2 b3
      exact .inr ⟨hsz, b2, .inl ⟨t, b3, ht⟩⟩
  · rw [if_neg hj] at h
    by_cases hc : isCond op0 = true
    · have hsz := size_cond hc
      rw [hsz] at hs0; cases hs0
      rw [if_pos hc, hsz] at h
      simp only [show p0 + 5 - 4 = p0 + 1 by omega] at h
      rcases hd : readAt32 c (p0 + 1) with _ | disp
      · rw [hd] at h; simp at h
      rw [hd] at h; dsimp only at h
      have hq0 := (I.cond p0 op0 h0 hop0 hc).2 disp hd
      rcases hch : chase fuel c (addDisp (p0 + 5) disp) false with _ | r
      · rw [hch] at h; simp at h
      rw [hch] at h
      have hsp := chase_spec _ _ _ _ hch
      cases r with
      | inst t => simp at h
      | dest d' =>
        simp only [Option.some.injEq] at h
        obtain ⟨hsil, opd', hopd', hjd'⟩ := hsp
        have hdl : d' < c.length := by
          rw [List.getElem?_eq_some_iff] at hopd'; exact hopd'.1
        obtain ⟨b1, b2, b3⟩ := retarget_bytes (c := c) (p := p0) (d := d') hop (by omega)
        rw [h] at b1 b2 b3
        refine .inr ⟨hsz, fun i hi => b2 i (by omega), .inr ⟨d', _, opd', b3, ?_, I.silent_closed w hq0 hsil, hopd', hjd'⟩⟩
        rw [addDisp_dispTo] <;> omega
    · rw [if_neg hc] at h
      cases h
      exact .inl rfl

theorem NoCycle.kept {M : Machine S R} {c0 c c1 : Code} {fuel p0 : Nat} {op0 : Byte} (w : WellFormed M c0)
    (I : Inv c0 c) (h0 : Start c0 p0) (hop0 : c0[p0]? = some op0) (hop : c[p0]? = some op0)
    (h : optStep fuel c p0 op0 = some c1) (he : NoCycle c0 c) : NoCycle c0 c1 := by
  have hl1 := (opt_at w I h0 hop0 hop h).1.len
  have hlen := I.len
  rcases optStep_bytes w I h0 hop0 hop h with rfl | ⟨hsz, hsame, hat⟩
  · exact he
  intro p op v hp hop1 hjc hv
  by_cases hne : p = p0
  · subst hne
    rcases hat with ⟨t, h1, h2⟩ | ⟨d, v', op', h1, h2, h3, h4, h5⟩
    · rw [hop1] at h1; cases h1
      rcases hjc with h | h
      · rw [(term_not h2).1] at h; cases h
      · rw [(term_not h2).2.1] at h; cases h
    · rw [hv] at h1; cases h1
      rw [h2]
      exact Ends.kept w I h0 hop0 hop h h3 ⟨d, op', .refl, h4, h5⟩
  · rcases hp0 : c0[p]? with _ | opp
    · rw [List.getElem?_eq_none_iff] at hp0
      rw [List.getElem?_eq_some_iff] at hop1
      obtain ⟨hlt, _⟩ := hop1
      omega
    obtain ⟨szp, hszp, _⟩ := w.whole p opp hp hp0
    obtain ⟨op', sz', e1, e2, e3⟩ := I.size hp hp0 hszp
    have hbytes : ∀ i < szp, c1[p + i]? = c[p + i]? := by
      intro i hi
      apply hsame
      rcases Nat.lt_or_gt_of_ne hne with hlt | hgt
      · have := start_gap p0 p opp szp h0 hp hlt hp0 hszp; omega
      · have := start_gap p p0 op0 5 hp h0 hgt hop0 hsz; omega
    have b0 := hbytes 0 (inst_size_pos hszp); simp only [Nat.add_zero] at b0
    have hopc : c[p]? = some op := by rw [← b0]; exact hop1
    rw [hopc] at e1; cases e1
    have hsz5 : sz' = 5 := by
      rcases hjc with h | h
      · rw [size_jmp h] at e2; exact (Option.some.inj e2).symm
      · rw [size_cond h] at e2; exact (Option.some.inj e2).symm
    have hvc : readAt32 c (p + 1) = some v := by
      rw [← hv]; symm
      apply readAt32_congr
      intro i hi; have := hbytes (1 + i) (by omega); rwa [← Nat.add_assoc] at this
    have ht : Start c0 (addDisp (p + 5) v) := by
      rcases hjc with hh | hh
      · exact I.J_closed w hp ⟨op, v, hopc, hh, hvc, rfl⟩
      · by_cases hjp : isJmp opp = true
        · rcases I.jmp p opp hp hp0 hjp with ⟨q1, q2⟩ | ⟨t, q1, q2⟩
          · exact q2 v hvc
          · rw [hopc] at q1; cases q1; rw [(term_not q2).2.1] at hh; cases hh
        · by_cases hcp : isCond opp = true
          · exact (I.cond p opp hp hp0 hcp).2 v hvc
          · have := I.other p opp szp hp hp0 (by simpa using hjp) (by simpa using hcp) hszp 0 (inst_size_pos hszp)
            simp only [Nat.add_zero] at this
            rw [hopc, hp0] at this; cases this; exact absurd hh hcp
    exact Ends.kept w I h0 hop0 hop h ht (he p op v hp hopc hjc hvc)

theorem optLoop_total {M : Machine S R} {c0 : Code} (w : WellFormed M c0) :
    ∀ n c pos, Inv c0 c → Start c0 pos → (∀ i, pos ≤ i → c[i]? = c0[i]?) → NoCycle c0 c →
      ∃ f c', optLoop f n c pos = some c' := by
  intro n
  induction n with
  | zero => intro c pos _ _ _ _; exact ⟨0, c, rfl⟩
  | succ n ih =>
    intro c pos I hpos hsame he
    rcases hop : c[pos]? with _ | op
    · exact ⟨0, c, by unfold optLoop; rw [hop]⟩
    have hop0 : c0[pos]? = some op := by rw [← hsame pos (Nat.le_refl _)]; exact hop
    obtain ⟨sz, hsz, _⟩ := w.whole pos op hpos hop0
    obtain ⟨f, c1, hst⟩ := optStep_total w I hpos hop0 hop he
    obtain ⟨I1, _, htail⟩ := opt_at w I hpos hop0 hop hst
    obtain ⟨f', c', h'⟩ := ih c1 (pos + sz) I1 (.next pos op sz hpos hop0 hsz)
      (fun i hi => by rw [htail sz hsz i hi]; exact hsame i (by omega))
      (NoCycle.kept w I hpos hop0 hop hst he)
    refine ⟨max f f', c', ?_⟩
    unfold optLoop
    rw [hop]; dsimp only
    rw [optStep_mono hst (Nat.le_max_left _ _), hsz]
    exact optLoop_mono (Nat.le_max_right _ _) h'

/-- **C30** (the pass completes).  If following unconditional jumps from each jump comes to an end
(the compiler emits no `JMP` cycle: the test of every loop is an instruction of its own), then the
pass terminates without an index panic. -/
theorem C30_optimize_completes (M : Machine S R) (c : Code) (w : WellFormed M c) (h : NoCycle c c) :
    ∃ fuel c', optimize fuel c = some c' :=
  optLoop_total w c.length c 0 (.refl w) .zero (fun _ _ => rfl) h

/-! ### A concrete program: `while x; break; end` followed by `return` -/

/-- A loop: `0: GET_LOCAL 0; 5: JMP_F 20; 10: JMP 15; 15: JMP 25; 20: JMP 25; 25: PUSH_NIL; 26: RETURN`;
chains of jumps are shortened, and a jump to `RETURN` becomes one. -/
def demo : Code :=
  [GET_LOCAL, 0, 0, 0, 0, JMP_F, 10, 0, 0, 0, JMP, 0, 0, 0, 0, JMP, 6, 0, 0, 0, JMP, 0, 0, 0, 0,
   PUSH_NIL, RETURN]

example : optimize 30 demo = some
    [GET_LOCAL, 0, 0, 0, 0, JMP_F, 15, 0, 0, 0, RETURN, RETURN, RETURN, RETURN, RETURN,
     RETURN, RETURN, RETURN, RETURN, RETURN, JMP, 0, 0, 0, 0, PUSH_NIL, RETURN] := by decide +kernel

/-- A toy meaning of instructions: the state is a counter; tests fail when it is zero. -/
def demoM : Machine Nat Nat where
  exec _ _ _ s := .next (s + 1)
  test _ _ _ s := .inr (s == 0, s)
  term _ s := s

theorem demo_starts {p : Nat} (h : Start demo p) : p ∈ [0, 5, 10, 15, 20, 25, 26, 27] := by
  induction h with
  | zero => decide
  | next pos op sz hp hop hsz ih =>
    simp only [List.mem_cons, List.not_mem_nil, or_false] at ih
    have key : ∀ q, q ∈ [0, 5, 10, 15, 20, 25, 26, 27] → ∀ op, demo[q]? = some op → ∀ sz, inst_size op = some sz →
        q + sz ∈ [0, 5, 10, 15, 20, 25, 26, 27] := by
      intro q hq op h1 sz h2
      simp only [List.mem_cons, List.not_mem_nil, or_false] at hq
      rcases hq with rfl | rfl | rfl | rfl | rfl | rfl | rfl | rfl <;>
        simp [demo] at h1 <;> subst h1 <;>
        (first
          | (rw [show inst_size GET_LOCAL = some 5 by decide] at h2; cases h2; decide)
          | (rw [show inst_size JMP_F = some 5 by decide] at h2; cases h2; decide)
          | (rw [show inst_size JMP = some 5 by decide] at h2; cases h2; decide)
          | (rw [show inst_size PUSH_NIL = some 1 by decide] at h2; cases h2; decide)
          | (rw [show inst_size RETURN = some 1 by decide] at h2; cases h2; decide))
    exact key pos (by simpa using ih) op hop sz hsz

theorem demo_start_mem {p : Nat} (h : p ∈ [0, 5, 10, 15, 20, 25, 26, 27]) : Start demo p := by
  have h0 : Start demo 0 := .zero
  have h5 : Start demo 5 := .next 0 GET_LOCAL 5 h0 (by decide) (by decide)
  have h10 : Start demo 10 := .next 5 JMP_F 5 h5 (by decide) (by decide)
  have h15 : Start demo 15 := .next 10 JMP 5 h10 (by decide) (by decide)
  have h20 : Start demo 20 := .next 15 JMP 5 h15 (by decide) (by decide)
  have h25 : Start demo 25 := .next 20 JMP 5 h20 (by decide) (by decide)
  have h26 : Start demo 26 := .next 25 PUSH_NIL 1 h25 (by decide) (by decide)
  have h27 : Start demo 27 := .next 26 RETURN 1 h26 (by decide) (by decide)
  simp only [List.mem_cons, List.not_mem_nil, or_false] at h
  rcases h with rfl | rfl | rfl | rfl | rfl | rfl | rfl | rfl <;> assumption

/-- The demo program meets the hypotheses of the theorems above. -/
theorem demo_wf : WellFormed demoM demo where
  short := by decide
  whole pos op hp hop := by
    have hp := demo_starts hp
    simp only [List.mem_cons, List.not_mem_nil, or_false] at hp
    rcases hp with rfl | rfl | rfl | rfl | rfl | rfl | rfl | rfl <;>
      simp [demo] at hop <;> subst hop
    · exact ⟨5, by decide, by decide⟩
    · exact ⟨5, by decide, by decide⟩
    · exact ⟨5, by decide, by decide⟩
    · exact ⟨5, by decide, by decide⟩
    · exact ⟨5, by decide, by decide⟩
    · exact ⟨1, by decide, by decide⟩
    · exact ⟨1, by decide, by decide⟩
  jumps pos op d hp hop hj hd := by
    have hp := demo_starts hp
    simp only [List.mem_cons, List.not_mem_nil, or_false] at hp
    apply demo_start_mem
    rcases hp with rfl | rfl | rfl | rfl | rfl | rfl | rfl | rfl <;>
      simp [demo] at hop <;> subst hop
    · exact absurd hj (by decide)
    · rw [show readAt32 demo (5 + 1) = some 10 by decide] at hd; cases hd; decide
    · rw [show readAt32 demo (10 + 1) = some 0 by decide] at hd; cases hd; decide
    · rw [show readAt32 demo (15 + 1) = some 6 by decide] at hd; cases hd; decide
    · rw [show readAt32 demo (20 + 1) = some 0 by decide] at hd; cases hd; decide
    · exact absurd hj (by decide)
    · exact absurd hj (by decide)
  jumpsI pos op d hp hop hj hd := by
    have hp := demo_starts hp
    simp only [List.mem_cons, List.not_mem_nil, or_false] at hp
    rcases hp with rfl | rfl | rfl | rfl | rfl | rfl | rfl | rfl <;>
      simp [demo] at hop <;> subst hop <;> exact absurd hj (by decide)
  gotoExec _ _ _ _ _ _ _ _ _ h := by simp [demoM] at h
  gotoTest _ _ _ _ _ _ _ _ h := by simp [demoM] at h

/-- And its jumps do not form a cycle. -/
theorem demo_noCycle : NoCycle demo demo := by
  intro p op d hp hop hj hd
  have hp := demo_starts hp
  simp only [List.mem_cons, List.not_mem_nil, or_false] at hp
  rcases hp with rfl | rfl | rfl | rfl | rfl | rfl | rfl | rfl <;>
    simp [demo] at hop <;> subst hop
  · exact absurd hj (by decide)
  · rw [show readAt32 demo (5 + 1) = some 10 by decide] at hd; cases hd
    exact ⟨25, PUSH_NIL, .single ⟨JMP, 0, by decide, by decide, by decide, by decide⟩, by decide, by decide⟩
  · rw [show readAt32 demo (10 + 1) = some 0 by decide] at hd; cases hd
    exact ⟨26, RETURN, .single ⟨JMP, 6, by decide, by decide, by decide, by decide⟩, by decide, by decide⟩
  · rw [show readAt32 demo (15 + 1) = some 6 by decide] at hd; cases hd
    exact ⟨26, RETURN, .refl, by decide, by decide⟩
  · rw [show readAt32 demo (20 + 1) = some 0 by decide] at hd; cases hd
    exact ⟨25, PUSH_NIL, .refl, by decide, by decide⟩
  · exact absurd hj (by decide)
  · exact absurd hj (by decide)

example : ∃ fuel c', optimize fuel demo = some c' := C30_optimize_completes demoM demo demo_wf demo_noCycle

example : ∀ s tr, Shows demoM [GET_LOCAL, 0, 0, 0, 0, JMP_F, 15, 0, 0, 0, RETURN, RETURN, RETURN, RETURN, RETURN,
     RETURN, RETURN, RETURN, RETURN, RETURN, JMP, 0, 0, 0, 0, PUSH_NIL, RETURN] (.at 0 s) tr ↔
    Shows demoM demo (.at 0 s) tr :=
  C30_optimize_same_histories demoM demo _ demo_wf 30 (by decide +kernel)

end Verif.ISeq
