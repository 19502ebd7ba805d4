import Verif.Codegen.VM
import Verif.ISeq.Lemmas
import Mathlib.Data.List.Perm.Basic
/-!
# How the code under construction relates to the finished code

While a body is compiled, the displacements of forward jumps are holes that are filled in later.  `Stp`
describes one step of the compiler seen from the finished code: whatever finished code agrees with the
compiler's state after the step agrees with the state before it and has the bytes the step
emitted.
-/
namespace Verif.Codegen
open Verif.ISeq Op
open Verif.Value (Val)

variable {W X : Type}

/-! ### The monad -/

theorem bindM {α β : Type} {m : M α} {f : α → M β} {g : G} {r : β × G} :
    (m >>= f) g = .ok r ↔ ∃ a g1, m g = .ok (a, g1) ∧ f a g1 = .ok r := by
  show (match m g with | .ok (a, g') => f a g' | .error e => .error e) = _ ↔ _
  rcases h : m g with e | ⟨a, g1⟩
  · simp
  · simp

theorem pureM {α : Type} {a b : α} {g g' : G} : (pure a : M α) g = .ok (b, g') ↔ a = b ∧ g = g' := by
  show (Except.ok (a, g) : Except Err (α × G)) = _ ↔ _
  simp

/-! ### Holes -/

/-- Jumps recorded for an enclosing construct to resolve. -/
def pend (g : G) : List Nat :=
  g.loops.flatMap (fun l => l.escape.map (·.1)) ++ g.jumps.flatMap (fun d => d.rets ++ d.mrets)

/-- Four-byte holes that end at these positions do not overlap. -/
def Disj (a b : Nat) : Prop := a + 4 ≤ b ∨ b + 4 ≤ a

theorem Disj.symm {a b : Nat} (h : Disj a b) : Disj b a := Or.symm h

/-- The holes are inside the code and do not overlap.  `L`: holes known only to the part of the compiler
that is running. -/
structure Inv (g : G) (L : List Nat) : Prop where
  bd : ∀ s ∈ L ++ pend g, 4 ≤ s ∧ s ≤ g.code.length
  dj : (L ++ pend g).Pairwise Disj

/-- The finished code agrees with the code so far, except in holes. -/
def Agr (c : Code) (g : G) (L : List Nat) : Prop :=
  g.code.length ≤ c.length ∧
  ∀ i < g.code.length, (∀ s ∈ L ++ pend g, i + 4 < s ∨ s ≤ i) → c[i]? = g.code[i]?

/-- The finished tables contain those so far. -/
structure Fit (K : Env W X) (g : G) : Prop where
  ex : g.ex <+: K.ex
  consts : g.consts <+: K.consts
  case1 : ∀ (i : Nat) m, g.case1[i]? = some (some m) → K.case1[i]? = some (some m)
  case2 : ∀ (i : Nat) m, g.case2[i]? = some (some m) → K.case2[i]? = some (some m)

/-- Bytes of an instruction at a position. -/
def At (c : Code) (pos : Nat) (op : Byte) (args : List Operand) : Prop :=
  ∀ i b, (op :: (args.map opBytes).flatten)[i]? = some b → c[pos + i]? = some b

/-- The displacement that ends at `s` leads to `t`. -/
def Site (c : Code) (s t : Nat) : Prop := readAt32 c (s - 4) = some (dispTo s t)

/-- How the record of pending jumps of one loop grows. -/
def LoopExt (a b : Nat) (l l' : Loop) : Prop :=
  l'.top = l.top ∧ ∃ E, l'.escape = l.escape ++ E ∧ (∀ e ∈ E, a < e.1 ∧ e.1 ≤ b) ∧ (l.top = true → E = [])

/-- How the record of pending returns of one `begin` grows. -/
def JumpExt (a b : Nat) (d d' : JumpDest) : Prop :=
  d'.has_ensure = d.has_ensure ∧ (∃ E, d'.rets = d.rets ++ E ∧ ∀ e ∈ E, a < e ∧ e ≤ b) ∧
    ∃ E, d'.mrets = d.mrets ++ E ∧ ∀ e ∈ E, a < e ∧ e ≤ b

/-- Only the innermost element of a stack changes. -/
inductive HeadExt {α : Type} (r : α → α → Prop) : List α → List α → Prop
  | nil : HeadExt r [] []
  | cons {a b l} : r a b → HeadExt r (a :: l) (b :: l)

/-- One state of the compiler is later than another, at the same nesting: pending jumps and exception
table entries have been added, none removed; new entries lie within the new code. -/
structure Grow (g g' : G) : Prop where
  len : g.code.length ≤ g'.code.length
  loops : HeadExt (LoopExt g.code.length g'.code.length) g.loops g'.loops
  jumps : HeadExt (JumpExt g.code.length g'.code.length) g.jumps g'.jumps
  ex : ∃ l, g'.ex = g.ex ++ l ∧ ∀ en ∈ l, g.code.length ≤ en.start ∧ en.stop < g'.code.length

/-- The same, and the tables outside the body have only been appended to. -/
structure Ext (g g' : G) : Prop extends Grow g g' where
  consts : g.consts <+: g'.consts
  case1 : g.case1 <+: g'.case1
  case2 : g.case2 <+: g'.case2

theorem LoopExt.refl (a b : Nat) (l : Loop) : LoopExt a b l l := ⟨rfl, [], by simp, by simp, by simp⟩
theorem JumpExt.refl (a b : Nat) (l : JumpDest) : JumpExt a b l l :=
  ⟨rfl, ⟨[], by simp, by simp⟩, [], by simp, by simp⟩

theorem HeadExt.refl {α : Type} {r : α → α → Prop} (h : ∀ a, r a a) (l : List α) : HeadExt r l l := by
  cases l with
  | nil => exact .nil
  | cons a l => exact .cons (h a)

theorem HeadExt.trans {α : Type} {r1 r2 r3 : α → α → Prop} (h : ∀ a b c, r1 a b → r2 b c → r3 a c)
    {l1 l2 l3 : List α} (h1 : HeadExt r1 l1 l2) (h2 : HeadExt r2 l2 l3) : HeadExt r3 l1 l3 := by
  cases h1 with
  | nil => cases h2; exact .nil
  | cons hab => cases h2 with
    | cons hbc => exact .cons (h _ _ _ hab hbc)

theorem Grow.refl (g : G) : Grow g g :=
  ⟨Nat.le_refl _, HeadExt.refl (LoopExt.refl _ _) _, HeadExt.refl (JumpExt.refl _ _) _, [], by simp, by simp⟩

theorem Ext.refl (g : G) : Ext g g :=
  ⟨.refl g, List.prefix_refl _, List.prefix_refl _, List.prefix_refl _⟩

theorem Grow.trans {a b c : G} (h : Grow a b) (k : Grow b c) : Grow a c where
  len := Nat.le_trans h.len k.len
  loops := by
    refine HeadExt.trans ?_ h.loops k.loops
    intro l1 l2 l3 ⟨t1, E1, e1, b1, p1⟩ ⟨t2, E2, e2, b2, p2⟩
    have := h.len; have := k.len
    refine ⟨t2.trans t1, E1 ++ E2, by rw [e2, e1, List.append_assoc], ?_, fun ht => by
      rw [p1 ht, p2 (t1.trans ht)]; rfl⟩
    intro e he
    rcases List.mem_append.1 he with he | he
    · have := b1 e he; omega
    · have := b2 e he; omega
  jumps := by
    refine HeadExt.trans ?_ h.jumps k.jumps
    intro l1 l2 l3 ⟨t1, ⟨E1, e1, b1⟩, F1, f1, c1⟩ ⟨t2, ⟨E2, e2, b2⟩, F2, f2, c2⟩
    have := h.len; have := k.len
    refine ⟨t2.trans t1, ⟨E1 ++ E2, by rw [e2, e1, List.append_assoc], ?_⟩, F1 ++ F2,
      by rw [f2, f1, List.append_assoc], ?_⟩
    · intro e he
      rcases List.mem_append.1 he with he | he
      · have := b1 e he; omega
      · have := b2 e he; omega
    · intro e he
      rcases List.mem_append.1 he with he | he
      · have := c1 e he; omega
      · have := c2 e he; omega
  ex := by
    obtain ⟨l, e, b⟩ := h.ex
    obtain ⟨l', e', b'⟩ := k.ex
    have := h.len; have := k.len
    refine ⟨l ++ l', by rw [e', e, List.append_assoc], ?_⟩
    intro en he
    rcases List.mem_append.1 he with he | he
    · have := b en he; omega
    · have := b' en he; omega

theorem Ext.trans {a b c : G} (h : Ext a b) (k : Ext b c) : Ext a c where
  toGrow := h.toGrow.trans k.toGrow
  consts := h.consts.trans k.consts
  case1 := h.case1.trans k.case1
  case2 := h.case2.trans k.case2

/-- A change of the code alone (or of the cache counter). -/
theorem Ext.code {g g' : G} (h : g.code.length ≤ g'.code.length) (h1 : g'.loops = g.loops)
    (h2 : g'.jumps = g.jumps) (h3 : g.consts <+: g'.consts) (h4 : g.case1 <+: g'.case1) (h5 : g.case2 <+: g'.case2)
    (h6 : g'.ex = g.ex) : Ext g g' where
  len := h
  loops := by rw [h1]; exact HeadExt.refl (LoopExt.refl _ _) _
  jumps := by rw [h2]; exact HeadExt.refl (JumpExt.refl _ _) _
  consts := h3
  case1 := h4
  case2 := h5
  ex := ⟨[], by simp [h6], by simp⟩

theorem Fit.mono {K : Env W X} {g g' : G} (h : Ext g g') (f : Fit K g') : Fit K g where
  ex := by obtain ⟨l, e, _⟩ := h.ex; exact List.IsPrefix.trans ⟨l, e.symm⟩ f.ex
  consts := h.consts.trans f.consts
  case1 i m hm := f.case1 i m (by
    obtain ⟨t, ht⟩ := h.case1
    have hi : i < g.case1.length := (List.getElem?_eq_some_iff.1 hm).1
    rw [← ht, List.getElem?_append_left hi]; exact hm)
  case2 i m hm := f.case2 i m (by
    obtain ⟨t, ht⟩ := h.case2
    have hi : i < g.case2.length := (List.getElem?_eq_some_iff.1 hm).1
    rw [← ht, List.getElem?_append_left hi]; exact hm)

/-! ### Steps -/

/-- What the finished code and tables must satisfy. -/
abbrev Fact (W X : Type) := Code → Env W X → Prop

/-- A step of the compiler, from state `g` with local holes `L` to `g'` with `L'`. -/
structure Stp (g : G) (L : List Nat) (g' : G) (L' : List Nat) (F : Fact W X) : Prop where
  inv : Inv g L → Inv g' L'
  back : Inv g L → ∀ c K, Agr c g' L' → Fit K g' → Agr c g L ∧ Fit K g ∧ F c K

theorem Stp.trans {g1 g2 g3 : G} {L1 L2 L3 : List Nat} {F1 F2 : Fact W X} (h : Stp g1 L1 g2 L2 F1)
    (k : Stp g2 L2 g3 L3 F2) : Stp g1 L1 g3 L3 (fun c K => F1 c K ∧ F2 c K) where
  inv i := k.inv (h.inv i)
  back i c K a f := by
    obtain ⟨a2, f2, x2⟩ := k.back (h.inv i) c K a f
    obtain ⟨a1, f1, x1⟩ := h.back i c K a2 f2
    exact ⟨a1, f1, x1, x2⟩

theorem Stp.mono {g g' : G} {L L' : List Nat} {F F' : Fact W X} (h : Stp g L g' L' F)
    (hF : ∀ c K, F c K → F' c K) : Stp g L g' L' F' where
  inv := h.inv
  back i c K a f := by
    obtain ⟨a1, f1, x1⟩ := h.back i c K a f
    exact ⟨a1, f1, hF c K x1⟩

theorem Stp.refl (g : G) (L : List Nat) : Stp (W := W) (X := X) g L g L (fun _ _ => True) :=
  ⟨id, fun _ _ _ a f => ⟨a, f, trivial⟩⟩

/-- The facts may use what is known of the finished tables and code. -/
theorem Stp.monoFit {g g' : G} {L L' : List Nat} {F F' : Fact W X} (h : Stp g L g' L' F)
    (hF : ∀ c K, Fit K g' → g'.code.length ≤ c.length → F c K → F' c K) : Stp g L g' L' F' where
  inv := h.inv
  back i c K a f := by
    obtain ⟨a1, f1, x1⟩ := h.back i c K a f
    exact ⟨a1, f1, hF c K f a.1 x1⟩

/-- Holes may be renamed and reordered. -/
theorem Inv.perm {g g' : G} {L L' : List Nat} (i : Inv g L) (hc : g'.code.length = g.code.length)
    (h : (L ++ pend g).Perm (L' ++ pend g')) : Inv g' L' where
  bd s hs := by rw [hc]; exact i.bd s (h.mem_iff.2 hs)
  dj := i.dj.perm h (fun {a b} => Disj.symm)

theorem Agr.perm {c : Code} {g g' : G} {L L' : List Nat} (a : Agr c g' L') (hc : g'.code = g.code)
    (h : (L ++ pend g).Perm (L' ++ pend g')) : Agr c g L := by
  obtain ⟨a1, a2⟩ := a
  rw [hc] at a1 a2
  exact ⟨a1, fun i hi hs => a2 i hi fun s hm => hs s (h.mem_iff.2 hm)⟩

/-- Book-keeping that does not touch the code. -/
theorem Stp.book {g g' : G} {L L' : List Nat} (hc : g'.code = g.code)
    (h : (L ++ pend g).Perm (L' ++ pend g')) (hf : ∀ K : Env W X, Fit K g' → Fit K g) :
    Stp (W := W) (X := X) g L g' L' (fun _ _ => True) where
  inv i := i.perm (by rw [hc]) h
  back _ _ K a f := ⟨a.perm hc h, hf K f, trivial⟩

/-- Appending bytes; the last `h` of them may be a hole. -/
theorem Stp.app {g g' : G} {L : List Nat} (bs : Code) (hc : g'.code = g.code ++ bs) (hp : pend g' = pend g)
    (hf : ∀ K : Env W X, Fit K g' → Fit K g) :
    Stp (W := W) (X := X) g L g' L (fun c _ => ∀ i b, bs[i]? = some b → c[g.code.length + i]? = some b) where
  inv i := ⟨fun s hs => by
      rw [hp] at hs; have := i.bd s hs; rw [hc]; simp only [List.length_append]; omega, by rw [hp]; exact i.dj⟩
  back inv c K a f := by
    obtain ⟨a1, a2⟩ := a
    rw [hc, List.length_append] at a1
    rw [hc, hp] at a2
    simp only [List.length_append] at a2
    refine ⟨⟨by omega, fun i hi hs => ?_⟩, hf K f, fun i b hb => ?_⟩
    · rw [a2 i (by omega) hs, List.getElem?_append_left hi]
    · have hi : i < bs.length := (List.getElem?_eq_some_iff.1 hb).1
      rw [a2 (g.code.length + i) (by omega)
        (fun s hs => by have := inv.bd s hs; omega), app_off]
      exact hb

/-- Emitting a jump with a hole. -/
theorem Stp.hole {g g' : G} {L : List Nat} (bs : Code) (hc : g'.code = g.code ++ (bs ++ [0, 0, 0, 0]))
    (hp : pend g' = pend g) (hf : ∀ K : Env W X, Fit K g' → Fit K g) :
    Stp (W := W) (X := X) g L g' (g'.code.length :: L)
      (fun c _ => ∀ i b, bs[i]? = some b → c[g.code.length + i]? = some b) where
  inv i := by
    have hlen : g'.code.length = g.code.length + bs.length + 4 := by rw [hc]; simp [Nat.add_assoc]
    constructor
    · intro s hs
      rw [hp] at hs
      rcases List.mem_cons.1 hs with rfl | hs
      · omega
      · have := i.bd s hs; omega
    · rw [hp, List.cons_append]
      refine List.pairwise_cons.2 ⟨?_, i.dj⟩
      intro s hs
      have := i.bd s hs
      unfold Disj; omega
  back inv c K a f := by
    obtain ⟨a1, a2⟩ := a
    have hlen : g'.code.length = g.code.length + bs.length + 4 := by rw [hc]; simp [Nat.add_assoc]
    rw [hp] at a2
    refine ⟨⟨by omega, fun i hi hs => ?_⟩, hf K f, fun i b hb => ?_⟩
    · rw [a2 i (by omega), hc, List.getElem?_append_left hi]
      intro s hm
      rcases List.mem_cons.1 hm with rfl | hm
      · left; omega
      · exact hs s hm
    · have hi : i < bs.length := (List.getElem?_eq_some_iff.1 hb).1
      rw [a2 (g.code.length + i) (by omega), hc, app_off, List.getElem?_append_left hi]
      · exact hb
      · intro s hm
        rcases List.mem_cons.1 hm with rfl | hm
        · left; omega
        · right; have := inv.bd s hm; omega

theorem write_disp_get (c : Code) (s t i : Nat) (h4 : 4 ≤ s) (h : i + 4 < s ∨ s ≤ i) :
    (write_disp c s t)[i]? = c[i]? := by
  unfold write_disp
  simp only
  repeat rw [List.getElem?_set_ne (by omega)]

theorem write_disp_site (c : Code) (s t : Nat) (h4 : 4 ≤ s) (h : s ≤ c.length) :
    Site (write_disp c s t) s t := by
  have hd : c = c.take (s - 4) ++ c.drop (s - 4) := (List.take_append_drop _ _).symm
  have hl : 4 ≤ (c.drop (s - 4)).length := by simp; omega
  rcases hdd : c.drop (s - 4) with _ | ⟨a, _ | ⟨b, _ | ⟨d, _ | ⟨e, post⟩⟩⟩⟩
  all_goals rw [hdd] at hl hd
  all_goals simp only [List.length_nil, List.length_cons] at hl
  all_goals try omega
  have hp : (c.take (s - 4)).length = s - 4 := by simp; omega
  unfold Site readAt32
  conv => lhs; rw [hd]
  rw [write_disp_app _ a b d e post s t (by omega)]
  have := read32_app (c.take (s - 4)) (dispTo s t) post
  rw [hp] at this
  rw [this]; rfl

theorem read32_congr {c c' : Code} {p : Nat} (h0 : c'[p]? = c[p]?) (h1 : c'[p + 1]? = c[p + 1]?)
    (h2 : c'[p + 1 + 1]? = c[p + 1 + 1]?) (h3 : c'[p + 1 + 1 + 1]? = c[p + 1 + 1 + 1]?) :
    read32 c' p = read32 c p := by
  unfold read32 read8
  simp only [Option.bind_eq_bind]
  rw [h0]
  cases c[p]? with
  | none => rfl
  | some b0 =>
    simp only [Option.map_some, Option.bind_some]
    rw [h1]
    cases c[p + 1]? with
    | none => rfl
    | some b1 =>
      simp only [Option.map_some, Option.bind_some]
      rw [h2]
      cases c[p + 1 + 1]? with
      | none => rfl
      | some b2 =>
        simp only [Option.map_some, Option.bind_some]
        rw [h3]

theorem Site.congr {c c' : Code} {s t : Nat} (h : ∀ i, s ≤ i + 4 → i < s → c'[i]? = c[i]?) (h4 : 4 ≤ s)
    (hs : Site c s t) : Site c' s t := by
  unfold Site readAt32 at hs ⊢
  rw [read32_congr (h _ (by omega) (by omega)) (h _ (by omega) (by omega)) (h _ (by omega) (by omega))
    (h _ (by omega) (by omega))]
  exact hs

/-- Filling a hole. -/
theorem Stp.patch {g g' : G} {L : List Nat} (s t : Nat) (hc : g'.code = write_disp g.code s t)
    (hp : pend g' = pend g) (hf : ∀ K : Env W X, Fit K g' → Fit K g) :
    Stp (W := W) (X := X) g (s :: L) g' L (fun c _ => Site c s t) where
  inv i := by
    constructor
    · intro s' hs'
      rw [hp] at hs'
      rw [hc, write_disp_length]
      exact i.bd s' (List.mem_cons_of_mem _ hs')
    · rw [hp]; have := i.dj; rw [List.cons_append] at this; exact (List.pairwise_cons.1 this).2
  back inv c K a f := by
    obtain ⟨a1, a2⟩ := a
    rw [hc, write_disp_length] at a1
    rw [hc, write_disp_length, hp] at a2
    have hb := inv.bd s (by simp)
    refine ⟨⟨a1, fun i hi hs => ?_⟩, hf K f, ?_⟩
    · rw [a2 i hi (fun s' hm => hs s' (List.mem_cons_of_mem _ hm)), write_disp_get _ _ _ _ hb.1 (hs s (by simp))]
    · refine Site.congr (c := write_disp g.code s t) ?_ hb.1 (write_disp_site _ _ _ hb.1 hb.2)
      intro i h1 h2
      refine a2 i (by omega) ?_
      intro s' hm
      have hd := inv.dj
      rw [List.cons_append] at hd
      have := (List.pairwise_cons.1 hd).1 s' hm
      unfold Disj at this
      omega

/-! ### The primitives of the compiler -/

theorem Fit.same {K : Env W X} {g g' : G} (h1 : g'.ex = g.ex) (h2 : g'.consts = g.consts)
    (h3 : g'.case1 = g.case1) (h4 : g'.case2 = g.case2) (f : Fit K g') : Fit K g :=
  ⟨h1 ▸ f.ex, h2 ▸ f.consts, h3 ▸ f.case1, h4 ▸ f.case2⟩

theorem emitM_ok {op : Byte} {args : List Operand} {g g' : G} {u : Unit} (h : emitM op args g = .ok (u, g')) :
    g' = { g with code := emit g.code op args } := by
  simp only [emitM, Except.ok.injEq, Prod.mk.injEq, true_and] at h
  exact h.symm

/-- A step together with the growth it causes. -/
structure Step (g : G) (L : List Nat) (g' : G) (L' : List Nat) (F : Fact W X) : Prop where
  stp : Stp g L g' L' F
  ext : Ext g g'

theorem Step.trans {g1 g2 g3 : G} {L1 L2 L3 : List Nat} {F1 F2 : Fact W X} (h : Step g1 L1 g2 L2 F1)
    (k : Step g2 L2 g3 L3 F2) : Step g1 L1 g3 L3 (fun c K => F1 c K ∧ F2 c K) :=
  ⟨h.stp.trans k.stp, h.ext.trans k.ext⟩

theorem Step.mono {g g' : G} {L L' : List Nat} {F F' : Fact W X} (h : Step g L g' L' F)
    (hF : ∀ c K, F c K → F' c K) : Step g L g' L' F' := ⟨h.stp.mono hF, h.ext⟩

/-- The facts may use what is known of the finished tables and code. -/
theorem Step.fit {g g' : G} {L L' : List Nat} {F F' : Fact W X} (h : Step g L g' L' F)
    (hF : ∀ c K, Fit K g' → g'.code.length ≤ c.length → F c K → F' c K) : Step g L g' L' F' :=
  ⟨h.stp.monoFit hF, h.ext⟩

theorem Step.refl (g : G) (L : List Nat) : Step (W := W) (X := X) g L g L (fun _ _ => True) :=
  ⟨.refl _ _, .refl _⟩

theorem emitM_step {op : Byte} {args : List Operand} {g g' : G} {u : Unit} (L : List Nat)
    (h : emitM op args g = .ok (u, g')) :
    Step (W := W) (X := X) g L g' L (fun c _ => At c g.code.length op args) := by
  have h := emitM_ok h
  subst h
  refine ⟨Stp.app (op :: (args.map opBytes).flatten) (emit_eq _ _ _) rfl (fun K => Fit.same rfl rfl rfl rfl), ?_⟩
  exact Ext.code (by simp [emit_eq]) rfl rfl (List.prefix_refl _) (List.prefix_refl _) (List.prefix_refl _) rfl

/-- Length of an instruction. -/
def szOf (args : List Operand) : Nat := 1 + ((args.map opBytes).flatten).length

theorem emitM_len {op : Byte} {args : List Operand} {g g' : G} {u : Unit} (h : emitM op args g = .ok (u, g')) :
    g'.code.length = g.code.length + szOf args := by
  rw [emitM_ok h]; simp [emit_eq, szOf]; omega

theorem jumpM_ok {op : Byte} {g g' : G} {s : Nat} (h : jumpM op g = .ok (s, g')) :
    g' = { g with code := g.code ++ ([op] ++ [0, 0, 0, 0]) } ∧ s = g.code.length + 5 ∧ s = g'.code.length := by
  simp only [jumpM, gen_jump, push32, push8, Except.ok.injEq, Prod.mk.injEq] at h
  obtain ⟨h1, h2⟩ := h
  subst h2
  subst h1
  simp [le32]

theorem jumpM_step {op : Byte} {g g' : G} {s : Nat} (L : List Nat) (h : jumpM op g = .ok (s, g')) :
    Step (W := W) (X := X) g L g' (s :: L) (fun c _ => c[g.code.length]? = some op) := by
  obtain ⟨h1, h2, h3⟩ := jumpM_ok h
  subst h3
  refine ⟨(Stp.hole (L := L) [op] (by rw [h1]) (by rw [h1]; rfl) (fun K => Fit.same ?_ ?_ ?_ ?_)).mono ?_, ?_⟩
  any_goals (rw [h1]; done)
  · intro c K hh; exact hh 0 op rfl
  · rw [h1]
    exact Ext.code (by simp) rfl rfl (List.prefix_refl _) (List.prefix_refl _) (List.prefix_refl _) rfl

theorem patchM_ok {s t : Nat} {g g' : G} {u : Unit} (h : patchM s t g = .ok (u, g')) :
    g' = { g with code := write_disp g.code s t } := by
  simp only [patchM, Except.ok.injEq, Prod.mk.injEq, true_and] at h
  exact h.symm

theorem patchM_step {s t : Nat} {g g' : G} {u : Unit} (L : List Nat) (h : patchM s t g = .ok (u, g')) :
    Step (W := W) (X := X) g (s :: L) g' L (fun c _ => Site c s t) := by
  have h := patchM_ok h
  subst h
  refine ⟨Stp.patch s t rfl rfl (fun K => Fit.same rfl rfl rfl rfl), ?_⟩
  exact Ext.code (by simp [write_disp_length]) rfl rfl (List.prefix_refl _) (List.prefix_refl _) (List.prefix_refl _) rfl

theorem patchCurM_eq (s : Nat) (g : G) : patchCurM s g = patchM s g.code.length g := rfl

theorem patchCurM_step {s : Nat} {g g' : G} {u : Unit} (L : List Nat) (h : patchCurM s g = .ok (u, g')) :
    Step (W := W) (X := X) g (s :: L) g' L (fun c _ => Site c s g.code.length) := patchM_step L h

theorem patchCurM_len {s : Nat} {g g' : G} {u : Unit} (h : patchCurM s g = .ok (u, g')) :
    g'.code.length = g.code.length := by rw [patchM_ok h]; exact write_disp_length _ _ _

theorem patchM_len {s t : Nat} {g g' : G} {u : Unit} (h : patchM s t g = .ok (u, g')) :
    g'.code.length = g.code.length := by rw [patchM_ok h]; exact write_disp_length _ _ _

theorem patchAllM_step {ss : List Nat} {g g' : G} {u : Unit} (L : List Nat) (h : patchAllM ss g = .ok (u, g')) :
    Step (W := W) (X := X) g (ss ++ L) g' L (fun c _ => ∀ s ∈ ss, Site c s g.code.length) ∧
      g'.code.length = g.code.length := by
  induction ss generalizing g u with
  | nil =>
    obtain ⟨_, rfl⟩ := pureM.1 h
    exact ⟨(Step.refl _ _).mono (by simp), rfl⟩
  | cons s ss ih =>
    obtain ⟨a, g1, h1, h2⟩ := bindM.1 h
    obtain ⟨st, hl⟩ := ih h2
    have hl1 := patchCurM_len h1
    refine ⟨((patchCurM_step _ h1).trans st).mono ?_, by omega⟩
    intro c K ⟨e1, e2⟩ s' hs'
    rcases List.mem_cons.1 hs' with rfl | hs'
    · exact e1
    · rw [← hl1]; exact e2 s' hs'

theorem jmpBackM_step {pos : Nat} {g g' : G} {u : Unit} (L : List Nat) (h : jmpBackM pos g = .ok (u, g')) :
    Step (W := W) (X := X) g L g' L
      (fun c _ => At c g.code.length JMP_BACK [.o32 (dispTo g.code.length pos - 5)]) ∧
    g'.code.length = g.code.length + 5 := by
  simp only [jmpBackM, Except.ok.injEq, Prod.mk.injEq, true_and] at h
  have hc : g'.code = g.code ++ (JMP_BACK :: le32 (dispTo g.code.length pos - 5)) := by
    rw [← h]
    show g.code ++ [JMP_BACK] ++ le32 _ = _
    rw [List.append_assoc]; rfl
  refine ⟨⟨(Stp.app (g := g) (g' := g') (L := L) _ hc (by rw [← h]; rfl)
    (fun K => Fit.same (by rw [← h]) (by rw [← h]) (by rw [← h]) (by rw [← h]))).mono ?_, ?_⟩, by
      rw [hc]; simp [le32]⟩
  · intro c K hh i b hb
    exact hh i b (by simpa [opBytes] using hb)
  · exact Ext.code (by rw [hc]; simp) (by rw [← h]) (by rw [← h]) (by rw [← h]; exact List.prefix_refl _)
      (by rw [← h]; exact List.prefix_refl _) (by rw [← h]; exact List.prefix_refl _) (by rw [← h])

theorem curM_ok {g g' : G} {n : Nat} (h : curM g = .ok (n, g')) : g' = g ∧ n = g.code.length := by
  simp only [curM, Except.ok.injEq, Prod.mk.injEq] at h
  exact ⟨h.2.symm, h.1.symm⟩

end Verif.Codegen
