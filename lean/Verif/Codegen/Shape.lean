import Verif.Codegen.Total
import Verif.ISeq.PeepholeProps
/-!
# The shape of compiled code

An invariant of the compiler: instructions fill the code, and every displacement in it leads to an instruction.  A
displacement that is still to be filled in is zero, and leads behind its own instruction.
-/
namespace Verif.Codegen
open Verif.ISeq Op
open Verif.Value (Val)

/-! ## Code -/

/-- Size of the instructions whose last four bytes are a displacement. -/
def slot (op : Byte) : Option Nat :=
  if isJmp op || isCond op then some 5
  else if isCondI op || op == OPT_CASE || op == OPT_CASE2 then some 9
  else none

theorem slot_size {op : Byte} {sz : Nat} (h : slot op = some sz) : inst_size op = some sz := by
  have : ∀ op : Byte, (slot op).isSome = true → inst_size op = slot op := by decide +kernel
  rw [this op (by rw [h]; rfl), h]

theorem slot_five {op : Byte} {sz : Nat} (h : slot op = some sz) : sz = 5 ∨ sz = 9 := by
  unfold slot at h
  split at h
  · exact .inl (Option.some.inj h).symm
  · split at h
    · exact .inr (Option.some.inj h).symm
    · cases h

/-- `s` is the end of an instruction with a displacement. -/
def Slot (c : Code) (s : Nat) : Prop := ∃ p op sz, Start c p ∧ c[p]? = some op ∧ slot op = some sz ∧ s = p + sz

/-- At `p` is an instruction that is not a jump. -/
def Solid (c : Code) (p : Nat) : Prop := ∃ op, Start c p ∧ c[p]? = some op ∧ isJmp op = false

/-- The instructions of the one are instructions of the other, at the same places. -/
def Le (c c' : Code) : Prop :=
  c.length ≤ c'.length ∧ ∀ p, Start c p → Start c' p ∧ ∀ op, c[p]? = some op → c'[p]? = some op

theorem Le.refl (c : Code) : Le c c := ⟨Nat.le_refl _, fun _ h => ⟨h, fun _ h => h⟩⟩

theorem Le.trans {a b c : Code} (h : Le a b) (k : Le b c) : Le a c :=
  ⟨h.1.trans k.1, fun p hp => ⟨(k.2 p (h.2 p hp).1).1, fun op ho => (k.2 p (h.2 p hp).1).2 op ((h.2 p hp).2 op ho)⟩⟩

theorem Slot.mono {c c' : Code} {s : Nat} (h : Slot c s) (l : Le c c') : Slot c' s := by
  obtain ⟨p, op, sz, h1, h2, h3, h4⟩ := h
  exact ⟨p, op, sz, (l.2 p h1).1, (l.2 p h1).2 op h2, h3, h4⟩

theorem Solid.mono {c c' : Code} {s : Nat} (h : Solid c s) (l : Le c c') : Solid c' s := by
  obtain ⟨op, h1, h2, h3⟩ := h
  exact ⟨op, (l.2 s h1).1, (l.2 s h1).2 op h2, h3⟩

/-- Instructions appended. -/
theorem start_app {c bs : Code} {op : Byte} (hw : Start c c.length) (hf : ∀ p, Start c p → p ≤ c.length)
    (hs : inst_size op = some (bs.length + 1)) :
    (∀ p, Start c p → Start (c ++ op :: bs) p) ∧
    (∀ p, Start (c ++ op :: bs) p → Start c p ∨ p = c.length + (bs.length + 1)) ∧
    Start (c ++ op :: bs) (c.length + (bs.length + 1)) := by
  have h1 : ∀ p, Start c p → Start (c ++ op :: bs) p := by
    intro p hp
    induction hp with
    | zero => exact .zero
    | next pos o sz _ ho hsz ih =>
      exact .next pos o sz ih (by rw [List.getElem?_append_left (by simpa using (List.getElem?_eq_some_iff.1 ho).1)]; exact ho)
        hsz
  refine ⟨h1, fun p hp => ?_, .next _ op _ (h1 _ hw) (by simp) hs⟩
  induction hp with
  | zero => exact .inl .zero
  | next pos o sz _ ho hsz ih =>
    rcases ih with ih | ih
    · rcases Nat.lt_or_ge pos c.length with hlt | hge
      · rw [List.getElem?_append_left hlt] at ho
        exact .inl (.next pos o sz ih ho hsz)
      · have hpos : pos = c.length := Nat.le_antisymm (hf pos ih) hge
        subst hpos
        rw [get_app] at ho
        cases ho
        rw [hs] at hsz
        cases hsz
        exact .inr rfl
    · have := (List.getElem?_eq_some_iff.1 ho).1
      simp only [List.length_append, List.length_cons] at this
      omega

/-- A displacement written. -/
theorem start_patch {c : Code} {s t : Nat} (h : Slot c s) (p : Nat) :
    Start (write_disp c s t) p ↔ Start c p := by
  obtain ⟨q, oq, zq, hq, hoq, hzq, rfl⟩ := h
  have hz := slot_five hzq
  have out : ∀ p, Start c p → (write_disp c (q + zq) t)[p]? = c[p]? := by
    intro p hp
    refine write_disp_get _ _ _ _ (by omega) ?_
    rcases Nat.lt_trichotomy p q with h | h | h
    · left; omega
    · left; omega
    · right; exact start_gap p q oq zq hp hq h hoq (slot_size hzq)
  constructor
  · intro hp
    induction hp with
    | zero => exact .zero
    | next pos o sz _ ho hsz ih => exact .next pos o sz ih (by rw [← out pos ih]; exact ho) hsz
  · intro hp
    induction hp with
    | zero => exact .zero
    | next pos o sz hpos ho hsz ih => exact .next pos o sz ih (by rw [out pos hpos]; exact ho) hsz

theorem get_patch {c : Code} {s t p : Nat} (h : Slot c s) (hp : Start c p) :
    (write_disp c s t)[p]? = c[p]? := by
  obtain ⟨q, oq, zq, hq, hoq, hzq, rfl⟩ := h
  have hz := slot_five hzq
  refine write_disp_get _ _ _ _ (by omega) ?_
  rcases Nat.lt_trichotomy p q with h | h | h
  · left; omega
  · left; omega
  · right; exact start_gap p q oq zq hp hq h hoq (slot_size hzq)

theorem Le.patch {c : Code} {s t : Nat} (h : Slot c s) : Le c (write_disp c s t) :=
  ⟨by rw [write_disp_len], fun p hp => ⟨(start_patch h p).2 hp, fun op ho => by rw [get_patch h hp]; exact ho⟩⟩

theorem Le.app {c bs : Code} {op : Byte} (hw : Start c c.length) (hf : ∀ p, Start c p → p ≤ c.length)
    (hs : inst_size op = some (bs.length + 1)) : Le c (c ++ op :: bs) :=
  ⟨by simp, fun p hp => ⟨(start_app hw hf hs).1 p hp, fun o ho => by
    rw [List.getElem?_append_left (List.getElem?_eq_some_iff.1 ho).1]; exact ho⟩⟩

/-! ## The invariant -/

/-- The displacements in a table of `OPT_CASE` or `OPT_CASE2`. -/
def tab (g : G) (op : Byte) (i : Nat) : Option (List (BitVec 32)) :=
  if op = OPT_CASE then (g.case1[i]?).join.map (·.map (·.2)) else (g.case2[i]?).join.map (·.2.2)

/-- The number of tables. -/
def tabs (g : G) (op : Byte) : Nat := if op = OPT_CASE then g.case1.length else g.case2.length

/-- Positions and indices of tables fit in 32 bits. -/
structure Bounded (g : G) : Prop where
  code : g.code.length < 2 ^ 31
  case1 : g.case1.length ≤ 2 ^ 32
  case2 : g.case2.length ≤ 2 ^ 32

/-- What holds of the code at any time.  `P op i p`: table `i`, of the instruction at `p`, is
not filled yet.  If `F`, jumps that go back go to
instructions that are not jumps. -/
structure Sound (F : Prop) (P : Byte → Nat → Nat → Prop) (g : G) : Prop where
  whole : Start g.code g.code.length
  fits : ∀ p, Start g.code p → p ≤ g.code.length
  sized : ∀ p op, Start g.code p → g.code[p]? = some op → ∃ sz, inst_size op = some sz
  slots : Bounded g → ∀ p op sz d, Start g.code p → g.code[p]? = some op → slot op = some sz →
    readAt32 g.code (p + sz - 4) = some d → Start g.code (addDisp (p + sz) d)
  back : F → Bounded g → ∀ p op d, Start g.code p → g.code[p]? = some op → isJmp op = true →
    readAt32 g.code (p + 1) = some d → p < addDisp (p + 5) d ∨ Solid g.code (addDisp (p + 5) d)
  loops : ∀ l ∈ g.loops, ∀ e ∈ l.escape, Slot g.code e.1
  jumps : ∀ d ∈ g.jumps, (∀ s ∈ d.rets, Slot g.code s) ∧ ∀ s ∈ d.mrets, Slot g.code s
  ex : ∀ en ∈ g.ex, Start g.code en.dest
  ref : Bounded g → ∀ p op i, Start g.code p → g.code[p]? = some op → op = OPT_CASE ∨ op = OPT_CASE2 →
    readAt32 g.code (p + 1) = some i → i.toNat < tabs g op ∧
      (P op i.toNat p ∨ ∃ ds, tab g op i.toNat = some ds ∧ ∀ d ∈ ds, Start g.code (addDisp (p + 9) d))
  uniq : Bounded g → ∀ p q op i, Start g.code p → Start g.code q → g.code[p]? = some op → g.code[q]? = some op →
    op = OPT_CASE ∨ op = OPT_CASE2 → readAt32 g.code (p + 1) = some i → readAt32 g.code (q + 1) = some i → p = q
  pend : ∀ op i p, P op i p → i < tabs g op ∧ (op = OPT_CASE ∨ op = OPT_CASE2) ∧ Start g.code p ∧
    g.code[p]? = some op ∧ readAt32 g.code (p + 1) = some (BitVec.ofNat 32 i)

theorem Sound.weaken {F : Prop} {P : Byte → Nat → Nat → Prop} {g : G} (h : Sound F P g) : Sound False P g :=
  { h with back := fun h => h.elim }

theorem Sound.end_of {F : Prop} {P : Byte → Nat → Nat → Prop} {g : G} (h : Sound F P g) {p : Nat} {op : Byte} {sz : Nat}
    (hp : Start g.code p) (ho : g.code[p]? = some op) (hs : inst_size op = some sz) : p + sz ≤ g.code.length :=
  h.fits _ (.next p op sz hp ho hs)

/-- The part of the state that is not code is as before. -/
structure Same (g g' : G) : Prop where
  case1 : g'.case1 = g.case1
  case2 : g'.case2 = g.case2
  loops : g'.loops = g.loops
  jumps : g'.jumps = g.jumps
  ex : g'.ex = g.ex

theorem Same.tab {g g' : G} (h : Same g g') (op : Byte) (i : Nat) : tab g' op i = tab g op i := by
  unfold Codegen.tab; rw [h.case1, h.case2]

theorem Same.tabs {g g' : G} (h : Same g g') (op : Byte) : tabs g' op = tabs g op := by
  unfold Codegen.tabs; rw [h.case1, h.case2]

theorem Same.bounded {g g' : G} (h : Same g g') (l : g.code.length ≤ g'.code.length) (b : Bounded g') : Bounded g :=
  ⟨Nat.lt_of_le_of_lt l b.code, by rw [← h.case1]; exact b.case1, by rw [← h.case2]; exact b.case2⟩

theorem readAt32_app {c bs : Code} {p : Nat} (h : p + 4 ≤ c.length) : readAt32 (c ++ bs) p = readAt32 c p :=
  readAt32_congr fun i hi => List.getElem?_append_left (by omega)

theorem case_size {op : Byte} (h : op = OPT_CASE ∨ op = OPT_CASE2) : inst_size op = some 9 ∧ slot op = some 9 := by
  rcases h with rfl | rfl <;> decide

theorem slot_jmp {op : Byte} (h : isJmp op = true) : slot op = some 5 := by
  unfold slot; rw [h]; rfl

/-- An instruction appended: what is to be known about its displacement, and its table. -/
theorem Sound.app {F : Prop} {P : Byte → Nat → Nat → Prop} {g g' : G} {op : Byte} {bs : Code} (h : Sound F P g)
    (hc : g'.code = g.code ++ op :: bs) (hs : Same g g') (hz : inst_size op = some (bs.length + 1))
    (hn : op ≠ OPT_CASE ∧ op ≠ OPT_CASE2)
    (hslot : Bounded g' → ∀ sz d, slot op = some sz → readAt32 g'.code (g.code.length + sz - 4) = some d →
      Start g'.code (addDisp (g.code.length + sz) d))
    (hback : F → Bounded g' → ∀ d, isJmp op = true → readAt32 g'.code (g.code.length + 1) = some d →
      g.code.length < addDisp (g.code.length + 5) d ∨ Solid g'.code (addDisp (g.code.length + 5) d)) :
    Sound F P g' ∧ Le g.code g'.code := by
  have le : Le g.code g'.code := hc ▸ Le.app h.whole h.fits hz
  have st := start_app h.whole h.fits hz
  have hlen : g'.code.length = g.code.length + (bs.length + 1) := by rw [hc]; simp
  have bd := hs.bounded le.1
  have old : ∀ p o, Start g'.code p → g'.code[p]? = some o → p = g.code.length ∧ o = op ∨
      Start g.code p ∧ g.code[p]? = some o := by
    intro p o hp ho
    rw [hc] at hp ho
    rcases st.2.1 p hp with h1 | h1
    · rcases Nat.lt_or_ge p g.code.length with hlt | hge
      · exact .inr ⟨h1, by rw [List.getElem?_append_left hlt] at ho; exact ho⟩
      · have hpos : p = g.code.length := Nat.le_antisymm (h.fits p h1) hge
        subst hpos
        rw [get_app] at ho
        exact .inl ⟨rfl, (Option.some.inj ho).symm⟩
    · have := (List.getElem?_eq_some_iff.1 ho).1
      simp only [List.length_append, List.length_cons] at this
      omega
  refine ⟨⟨by rw [hlen, hc]; exact st.2.2, fun p hp => ?_, fun p o hp ho => ?_, fun b p o sz d hp ho hz' hd => ?_,
    fun f b p o d hp ho hj hd => ?_, ?_, ?_, ?_, fun b p o i hp ho hcase hi => ?_,
    fun b p q o i hp hq ho hoq hcase hi hiq => ?_, fun o i p hP => ?_⟩, le⟩
  · rw [hc] at hp
    rcases st.2.1 p hp with h1 | h1
    · have := h.fits p h1; omega
    · omega
  · rcases old p o hp ho with ⟨-, rfl⟩ | ⟨h1, h2⟩
    · exact ⟨_, hz⟩
    · exact h.sized p o h1 h2
  · rcases old p o hp ho with ⟨rfl, rfl⟩ | ⟨h1, h2⟩
    · exact hslot b sz d hz' hd
    · have := h.end_of h1 h2 (slot_size hz')
      have := slot_five hz'
      rw [hc, readAt32_app (by omega)] at hd
      exact (le.2 _ (h.slots (bd b) p o sz d h1 h2 hz' hd)).1
  · rcases old p o hp ho with ⟨rfl, rfl⟩ | ⟨h1, h2⟩
    · exact hback f b d hj hd
    · have := h.end_of h1 h2 (size_jmp hj)
      rw [hc, readAt32_app (by omega)] at hd
      exact (h.back f (bd b) p o d h1 h2 hj hd).imp_right fun s => s.mono le
  · rw [hs.loops]
    exact fun l hl e he => (h.loops l hl e he).mono le
  · rw [hs.jumps]
    exact fun d hd => ⟨fun s hs => ((h.jumps d hd).1 s hs).mono le, fun s hs => ((h.jumps d hd).2 s hs).mono le⟩
  · rw [hs.ex]
    exact fun en he => (le.2 _ (h.ex en he)).1
  · rcases old p o hp ho with ⟨rfl, rfl⟩ | ⟨h1, h2⟩
    · exact absurd hcase (by simp [hn])
    · have := h.end_of h1 h2 (case_size hcase).1
      rw [hc, readAt32_app (by omega)] at hi
      obtain ⟨r1, r2⟩ := h.ref (bd b) p o i h1 h2 hcase hi
      rw [hs.tabs, hs.tab]
      exact ⟨r1, r2.imp_right fun ⟨ds, e, hds⟩ => ⟨ds, e, fun d hd => (le.2 _ (hds d hd)).1⟩⟩
  · rcases old p o hp ho with ⟨rfl, rfl⟩ | ⟨h1, h2⟩
    · exact absurd hcase (by simp [hn])
    rcases old q o hq hoq with ⟨rfl, rfl⟩ | ⟨k1, k2⟩
    · exact absurd hcase (by simp [hn])
    have := h.end_of h1 h2 (case_size hcase).1
    have := h.end_of k1 k2 (case_size hcase).1
    rw [hc, readAt32_app (by omega)] at hi hiq
    exact h.uniq (bd b) p q o i h1 k1 h2 k2 hcase hi hiq
  · obtain ⟨h1, h2, h3, h4, h5⟩ := h.pend o i p hP
    have := h.end_of h3 h4 (case_size h2).1
    rw [hs.tabs]
    exact ⟨h1, h2, (le.2 p h3).1, (le.2 p h3).2 _ h4, by rw [hc, readAt32_app (by omega)]; exact h5⟩

/-- A displacement filled in. -/
theorem Sound.patch {F : Prop} {P : Byte → Nat → Nat → Prop} {g g' : G} {s t : Nat} (h : Sound F P g)
    (hc : g'.code = write_disp g.code s t) (hs : Same g g') (hslot : Slot g.code s) (ht : Start g.code t)
    (hb : F → s ≤ t ∨ Solid g.code t) : Sound F P g' ∧ Le g.code g'.code := by
  have le : Le g.code g'.code := hc ▸ Le.patch hslot
  have hlen : g'.code.length = g.code.length := by rw [hc, write_disp_len]
  have bd := hs.bounded le.1
  have st : ∀ p, Start g'.code p ↔ Start g.code p := fun p => hc ▸ start_patch hslot p
  have gt : ∀ p, Start g.code p → g'.code[p]? = g.code[p]? := fun p hp => hc ▸ get_patch hslot hp
  obtain ⟨q, oq, zq, hq, hoq, hzq, rfl⟩ := id hslot
  have hz := slot_five hzq
  have hend := h.end_of hq hoq (slot_size hzq)
  have htl := h.fits t ht
  have site : readAt32 g'.code (q + zq - 4) = some (dispTo (q + zq) t) := hc ▸ write_disp_site _ _ _ (by omega) hend
  have goes : Bounded g' → addDisp (q + zq) (dispTo (q + zq) t) = t := by
    intro b
    have := b.code
    exact addDisp_dispTo _ _ (by omega) (by omega) (by omega)
  -- four bytes elsewhere
  have far : ∀ p n, (p + 4 + 4 ≤ q + zq + n ∧ n = 0 ∨ q + zq ≤ p) → readAt32 g'.code p = readAt32 g.code p := by
    intro p n hp
    refine readAt32_congr fun i hi => ?_
    rw [hc]
    exact write_disp_get _ _ _ _ (by omega) (by omega)
  have other : ∀ p o sz, Start g.code p → g.code[p]? = some o → inst_size o = some sz → p ≠ q →
      p + sz ≤ q ∨ q + zq ≤ p := by
    intro p o sz hp ho hsz hne
    rcases Nat.lt_or_gt_of_ne hne with hlt | hgt
    · exact .inl (start_gap q p o sz hq hp hlt ho hsz)
    · exact .inr (start_gap p q oq zq hp hq hgt hoq (slot_size hzq))
  have near : ∀ p o, o = OPT_CASE ∨ o = OPT_CASE2 → Start g.code p → g.code[p]? = some o → readAt32 g'.code (p + 1) = readAt32 g.code (p + 1) := by
    intro p o hcase hp ho
    have h9 := (case_size hcase).1
    by_cases hpq : p = q
    · subst hpq
      rw [hoq] at ho
      cases ho
      rw [(case_size hcase).2] at hzq
      cases hzq
      exact far _ 0 (by omega)
    · exact far _ 0 (by rcases other p o 9 hp ho h9 hpq with h | h <;> omega)
  refine ⟨⟨by rw [hlen]; exact (st _).2 h.whole, fun p hp => ?_, fun p o hp ho => ?_, fun b p o sz d hp ho hz' hd => ?_,
    fun f b p o d hp ho hj hd => ?_, ?_, ?_, ?_, fun b p o i hp ho hcase hi => ?_,
    fun b p q' o i hp hq' ho hoq' hcase hi hiq => ?_, fun o i p hP => ?_⟩, le⟩
  · rw [hlen]; exact h.fits p ((st p).1 hp)
  · have hp' := (st p).1 hp
    rw [gt p hp'] at ho
    exact h.sized p o hp' ho
  · have hp' := (st p).1 hp
    rw [gt p hp'] at ho
    rw [st]
    have h5 := slot_five hz'
    by_cases hpq : p = q
    · subst hpq
      rw [hoq] at ho
      cases ho
      rw [hzq] at hz'
      cases hz'
      rw [site] at hd
      cases hd
      rw [goes b]
      exact ht
    · rw [far _ 0 (by rcases other p o sz hp' ho (slot_size hz') hpq with h | h <;> omega)] at hd
      exact h.slots (bd b) p o sz d hp' ho hz' hd
  · have hp' := (st p).1 hp
    rw [gt p hp'] at ho
    have h5 := slot_jmp hj
    by_cases hpq : p = q
    · subst hpq
      rw [hoq] at ho
      cases ho
      rw [hzq] at h5
      cases h5
      rw [show p + 1 = p + 5 - 4 by omega, site] at hd
      cases hd
      rw [goes b]
      exact (hb f).imp (by omega) fun s => s.mono le
    · rw [far _ 0 (by rcases other p o 5 hp' ho (size_jmp hj) hpq with h | h <;> omega)] at hd
      exact (h.back f (bd b) p o d hp' ho hj hd).imp_right fun s => s.mono le
  · rw [hs.loops]
    exact fun l hl e he => (h.loops l hl e he).mono le
  · rw [hs.jumps]
    exact fun d hd => ⟨fun s hs => ((h.jumps d hd).1 s hs).mono le, fun s hs => ((h.jumps d hd).2 s hs).mono le⟩
  · rw [hs.ex]
    exact fun en he => (le.2 _ (h.ex en he)).1
  · have hp' := (st p).1 hp
    rw [gt p hp'] at ho
    rw [near p o hcase hp' ho] at hi
    obtain ⟨r1, r2⟩ := h.ref (bd b) p o i hp' ho hcase hi
    rw [hs.tabs, hs.tab]
    exact ⟨r1, r2.imp_right fun ⟨ds, e, hds⟩ => ⟨ds, e, fun d hd => (le.2 _ (hds d hd)).1⟩⟩
  · have hp' := (st p).1 hp
    have hq'' := (st q').1 hq'
    rw [gt p hp'] at ho
    rw [gt q' hq''] at hoq'
    rw [near p o hcase hp' ho] at hi
    rw [near q' o hcase hq'' hoq'] at hiq
    exact h.uniq (bd b) p q' o i hp' hq'' ho hoq' hcase hi hiq
  · obtain ⟨h1, h2, h3, h4, h5⟩ := h.pend o i p hP
    rw [hs.tabs]
    exact ⟨h1, h2, (le.2 p h3).1, (le.2 p h3).2 _ h4, by rw [near p o h2 h3 h4]; exact h5⟩

/-- Changes that leave the code and its tables alone. -/
theorem Sound.book {F : Prop} {P : Byte → Nat → Nat → Prop} {g g' : G} (h : Sound F P g) (hc : g'.code = g.code)
    (h1 : g'.case1 = g.case1) (h2 : g'.case2 = g.case2) (hl : ∀ l ∈ g'.loops, ∀ e ∈ l.escape, Slot g.code e.1)
    (hj : ∀ d ∈ g'.jumps, (∀ s ∈ d.rets, Slot g.code s) ∧ ∀ s ∈ d.mrets, Slot g.code s)
    (he : ∀ en ∈ g'.ex, Start g.code en.dest) : Sound F P g' := by
  have bd : Bounded g' → Bounded g := fun b => ⟨hc ▸ b.code, h1 ▸ b.case1, h2 ▸ b.case2⟩
  have t1 : ∀ op i, tab g' op i = tab g op i := fun op i => by unfold tab; rw [h1, h2]
  have t2 : ∀ op, tabs g' op = tabs g op := fun op => by unfold tabs; rw [h1, h2]
  refine ⟨?_, ?_, ?_, ?_, ?_, ?_, ?_, ?_, ?_, ?_, ?_⟩
  all_goals simp only [hc, t1, t2]
  · exact h.whole
  · exact h.fits
  · exact h.sized
  · exact fun b => h.slots (bd b)
  · exact fun f b => h.back f (bd b)
  · exact hl
  · exact hj
  · exact he
  · exact fun b => h.ref (bd b)
  · exact fun b => h.uniq (bd b)
  · exact h.pend

end Verif.Codegen
