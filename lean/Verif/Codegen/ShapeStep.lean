import Verif.Codegen.Shape
/-!
# Steps of the compiler keep the shape
-/
namespace Verif.Codegen
open Verif.ISeq Op
open Verif.Value (Val)

variable {F : Prop} {α β : Type} {c0 : Code}

/-- From states whose code extends `c0` the step keeps the invariant and only adds instructions; what it returns
satisfies `Q`. -/
def Keep (F : Prop) (c0 : Code) (m : M α) (Q : α → Code → Prop) : Prop :=
  ∀ P g a g', Le c0 g.code → Sound F P g → m g = .ok (a, g') → Sound F P g' ∧ Le g.code g'.code ∧ Q a g'.code

/-- Nothing to say. -/
abbrev Any' : α → Code → Prop := fun _ _ => True

theorem Keep.bind {m : M α} {f : α → M β} {Q : α → Code → Prop} {R : β → Code → Prop} (h : Keep F c0 m Q)
    (k : ∀ a c1, Le c0 c1 → Q a c1 → Keep F c1 (f a) R) : Keep F c0 (m >>= f) R := by
  intro P g b g' hl hs he
  obtain ⟨a, g1, e1, e2⟩ := bindM.1 he
  obtain ⟨s1, l1, q1⟩ := h P g a g1 hl hs e1
  obtain ⟨s2, l2, q2⟩ := k a g1.code (hl.trans l1) q1 P g1 b g' (.refl _) s1 e2
  exact ⟨s2, l1.trans l2, q2⟩

theorem Keep.pure {Q : α → Code → Prop} (a : α) (h : ∀ c1, Le c0 c1 → Q a c1) : Keep F c0 (pure a : M α) Q := by
  intro P g b g' hl hs he
  obtain ⟨rfl, rfl⟩ := pureM.1 he
  exact ⟨hs, .refl _, h _ hl⟩

theorem Keep.done : Keep F c0 (Pure.pure () : M Unit) Any' := .pure _ fun _ _ => trivial

theorem Keep.of {m : M α} {Q R : α → Code → Prop} (h : Keep F c0 m Q) (k : ∀ a c1, Le c0 c1 → Q a c1 → R a c1) :
    Keep F c0 m R := by
  intro P g a g' hl hs he
  obtain ⟨s1, l1, q1⟩ := h P g a g' hl hs he
  exact ⟨s1, l1, k a _ (hl.trans l1) q1⟩

theorem Keep.when {m : M Unit} (b : Bool) (h : Keep F c0 m Any') : Keep F c0 (whenM b m) Any' := by
  cases b
  · exact .done
  · exact h

theorem Keep.fail {e : Err} {Q : α → Code → Prop} : Keep F c0 (failM e : M α) Q := by
  intro P g a g' hl hs he
  cases he

/-- Sizes agree. -/
def fitsOp (op : Byte) (args : List Operand) : Prop := vmOperands op = some (args.map Operand.width)

theorem fitsOp.size {op : Byte} {args : List Operand} (h : fitsOp op args) :
    inst_size op = some ((args.map opBytes).flatten.length + 1) := by
  have : ∀ op : Byte, inst_size op = (vmOperands op).map fun ws => 1 + (ws.map fun w => w.bits / 8).sum := by
    decide +kernel
  rw [this op, h]
  simp only [Option.map_some, Option.some.injEq, List.map_map]
  have : ∀ l : List Operand, (l.map ((fun w => w.bits / 8) ∘ Operand.width)).sum = (l.map opBytes).flatten.length := by
    intro l
    induction l with
    | nil => rfl
    | cons o l ih => simp only [List.map_cons, List.sum_cons, ih, List.flatten_cons, List.length_append,
        opBytes_length, Function.comp_apply]
  rw [this]; omega

theorem Keep.emit {op : Byte} {args : List Operand} (h : fitsOp op args) (hn : slot op = none) :
    Keep F c0 (emitM op args) Any' := by
  intro P g a g' hl hs he
  cases he
  obtain ⟨s, l⟩ := hs.app (g' := { g with code := ISeq.emit g.code op args }) (emit_eq g.code op args)
    ⟨rfl, rfl, rfl, rfl, rfl⟩ h.size
    (by constructor <;> (rintro rfl; exact absurd hn (by decide)))
    (fun _ sz d h => by rw [hn] at h; cases h)
    (fun _ _ d h => by rw [slot_jmp h] at hn; cases hn)
  exact ⟨s, l, trivial⟩

/-- An instruction with its operands. -/
macro "ins" : term => `(Keep.emit (by first | rfl | decide) (by first | rfl | decide))

theorem addDisp_zero {n : Nat} (h : n < 2 ^ 31) : addDisp n 0 = n := by
  have := addDisp_dispTo n n (by omega) (by omega) (by omega)
  rwa [show dispTo n n = 0 by unfold dispTo; rw [Int.sub_self]; rfl] at this

/-- An instruction with a displacement to be filled in. -/
theorem hole {P : Byte → Nat → Nat → Prop} {g g' : G} {op : Byte} {bs : Code} (h : Sound F P g)
    (hc : g'.code = g.code ++ op :: (bs ++ [0, 0, 0, 0])) (hs : Same g g')
    (hz : slot op = some (bs.length + 5)) (hn : op ≠ OPT_CASE ∧ op ≠ OPT_CASE2) :
    Sound F P g' ∧ Le g.code g'.code ∧ Slot g'.code g'.code.length := by
  have hz' := slot_size hz
  have hlen : g'.code.length = g.code.length + (bs.length + 5) := by rw [hc]; simp
  have zero : readAt32 g'.code (g.code.length + (bs.length + 5) - 4) = some 0 := by
    unfold readAt32
    have := read32_app (g.code ++ op :: bs) 0 []
    rw [show g.code.length + (bs.length + 5) - 4 = (g.code ++ op :: bs).length by simp; omega,
      show g'.code = (g.code ++ op :: bs) ++ (le32 0 ++ []) by rw [hc]; simp [le32], this]
    rfl
  have st := start_app (bs := bs ++ [0, 0, 0, 0]) h.whole h.fits (by rw [hz']; simp)
  have ends : Start g'.code (g.code.length + (bs.length + 5)) := by
    rw [hc]
    have := st.2.2
    simpa using this
  have here : Start g'.code g.code.length := by rw [hc]; exact st.1 _ h.whole
  obtain ⟨s, l⟩ := h.app hc hs (by rw [hz']; simp) hn
    (fun b sz d h hd => by
      rw [hz] at h
      cases h
      rw [zero] at hd
      cases hd
      rw [addDisp_zero (by have := b.code; omega)]
      exact ends)
    (fun _ b d h hd => by
      rw [slot_jmp h] at hz
      have : bs.length = 0 := by have := Option.some.inj hz; omega
      rw [show g.code.length + (bs.length + 5) - 4 = g.code.length + 1 by omega] at zero
      rw [zero] at hd
      cases hd
      left
      rw [addDisp_zero (by have := b.code; omega)]
      omega)
  exact ⟨s, l, g.code.length, op, _, here, by rw [hc]; simp, hz, hlen⟩

theorem Keep.jump {op : Byte} (hz : slot op = some 5) : Keep F c0 (jumpM op) (fun s c => Slot c s) := by
  intro P g a g' hl hs he
  cases he
  have hc : push32 (push8 g.code op) 0 = g.code ++ op :: ([] ++ [0, 0, 0, 0]) := by simp [push32, push8, le32]
  obtain ⟨s, l, q⟩ := hole (g' := { g with code := push32 (push8 g.code op) 0 }) hs hc ⟨rfl, rfl, rfl, rfl, rfl⟩ hz
    (by constructor <;> (rintro rfl; exact absurd hz (by decide)))
  exact ⟨s, l, q⟩

theorem Keep.jmp : Keep F c0 (jumpM JMP) (fun s c => Slot c s) := Keep.jump (by decide)
theorem Keep.jmpF : Keep F c0 (jumpM JMP_F) (fun s c => Slot c s) := Keep.jump (by decide)
theorem Keep.jmpT : Keep F c0 (jumpM JMP_T) (fun s c => Slot c s) := Keep.jump (by decide)

theorem Keep.jumpI {op : Byte} {i : BitVec 32} (hz : slot op = some 9) (hn : op ≠ OPT_CASE ∧ op ≠ OPT_CASE2) :
    Keep F c0 (do emitM op [.o32 i, .o32 0]; curM) (fun s c => Slot c s) := by
  intro P g a g' hl hs he
  cases he
  have hc : ISeq.emit g.code op [.o32 i, .o32 0] = g.code ++ op :: (le32 i ++ [0, 0, 0, 0]) := by
    rw [emit_eq]; simp [opBytes, le32]
  obtain ⟨s, l, q⟩ := hole (g' := { g with code := ISeq.emit g.code op [.o32 i, .o32 0] }) hs hc
    ⟨rfl, rfl, rfl, rfl, rfl⟩ (by rw [hz]; rfl) hn
  exact ⟨s, l, q⟩

theorem Keep.jumpC {op : Byte} (hz : slot op = some 5) :
    Keep F c0 (do emitM op [.o32 0]; curM) (fun s c => Slot c s) := by
  intro P g a g' hl hs he
  cases he
  have hc : ISeq.emit g.code op [.o32 0] = g.code ++ op :: ([] ++ [0, 0, 0, 0]) := by
    rw [emit_eq]; simp [opBytes, le32]
  obtain ⟨s, l, q⟩ := hole (g' := { g with code := ISeq.emit g.code op [.o32 0] }) hs hc
    ⟨rfl, rfl, rfl, rfl, rfl⟩ (by rw [hz]; rfl) (by constructor <;> (rintro rfl; exact absurd hz (by decide)))
  exact ⟨s, l, q⟩

theorem Keep.cur : Keep F c0 curM (fun p c => Start c p ∧ p ≤ c.length) := by
  intro P g a g' hl hs he
  obtain ⟨rfl, rfl⟩ := curM_ok he
  exact ⟨hs, .refl _, hs.whole, Nat.le_refl _⟩

theorem Slot.le {P : Byte → Nat → Nat → Prop} {g : G} {s : Nat} (hs : Sound F P g) (h : Slot g.code s) : s ≤ g.code.length := by
  obtain ⟨p, op, sz, h1, h2, h3, rfl⟩ := h
  exact hs.end_of h1 h2 (slot_size h3)

theorem Keep.patchCur {s : Nat} (h : Slot c0 s) : Keep F c0 (patchCurM s) Any' := by
  intro P g a g' hl hs he
  cases he
  obtain ⟨s1, l1⟩ := hs.patch (g' := { g with code := write_disp_from_cur g.code s }) rfl ⟨rfl, rfl, rfl, rfl, rfl⟩
    (h.mono hl) hs.whole (fun _ => .inl (Slot.le hs (h.mono hl)))
  exact ⟨s1, l1, trivial⟩

theorem Keep.patch {s t : Nat} (h : Slot c0 s) (ht : Start c0 t) (hb : F → Solid c0 t) : Keep F c0 (patchM s t) Any' := by
  intro P g a g' hl hs he
  cases he
  obtain ⟨s1, l1⟩ := hs.patch (g' := { g with code := write_disp g.code s t }) rfl ⟨rfl, rfl, rfl, rfl, rfl⟩
    (h.mono hl) (hl.2 _ ht).1 (fun f => .inr ((hb f).mono hl))
  exact ⟨s1, l1, trivial⟩

theorem Keep.patchAll {c0 : Code} : ∀ {ss : List Nat}, (∀ s ∈ ss, Slot c0 s) → Keep F c0 (patchAllM ss) Any'
  | [], _ => .done
  | s :: ss, h => (Keep.patchCur (h s (by simp))).bind fun _ _ l _ => Keep.patchAll fun t ht => (h t (by simp [ht])).mono l

theorem Keep.patchOpt {c0 : Code} : ∀ {s : Option Nat}, (∀ p ∈ s, Slot c0 p) → Keep F c0 (patchOpt s) Any'
  | none, _ => .done
  | some _, h => .patchCur (h _ rfl)

theorem Keep.escapes {p : Nat} {c0 : Code} : ∀ {es : List (Nat × EK)}, (∀ e ∈ es, Slot c0 e.1) → Start c0 p →
    (F → Solid c0 p) → Keep F c0 (patchEscapes p es) Any'
  | [], _, _, _ => .done
  | (s, .brk) :: _, h, hp, hb => (Keep.patchCur (h (s, .brk) (by simp))).bind fun _ _ l _ =>
      Keep.escapes (fun t ht => (h t (by simp [ht])).mono l) (l.2 _ hp).1 fun f => (hb f).mono l
  | (s, .nxt) :: _, h, hp, hb => (Keep.patch (h (s, .nxt) (by simp)) hp hb).bind fun _ _ l _ =>
      Keep.escapes (fun t ht => (h t (by simp [ht])).mono l) (l.2 _ hp).1 fun f => (hb f).mono l

theorem back_disp {n p : Nat} (hn : n + 5 < 2 ^ 31) (hp : p ≤ n) : addDisp (n + 5) (dispTo n p - 5) = p := by
  have : dispTo n p - 5 = dispTo (n + 5) p := by
    unfold dispTo
    rw [show ((p : Int) - ((n + 5 : Nat) : Int)) = (p - n) - 5 by push_cast; omega]
    apply BitVec.eq_of_toInt_eq
    rw [BitVec.toInt_sub, BitVec.toInt_ofInt, BitVec.toInt_ofInt]
    simp
  rw [this, addDisp_dispTo] <;> omega

theorem Keep.jmpBack {p : Nat} (hp : Start c0 p) (hb : F → Solid c0 p) : Keep F c0 (jmpBackM p) Any' := by
  intro P g a g' hl hs he
  cases he
  have hpl := hs.fits p (hl.2 p hp).1
  have hc : gen_jmp_back g.code p = g.code ++ JMP_BACK :: le32 (dispTo g.code.length p - 5) := by
    simp [gen_jmp_back, push32, push8]
  have le : Le g.code (gen_jmp_back g.code p) := hc ▸ Le.app hs.whole hs.fits (by simp [le32_length]; decide)
  have rd : readAt32 (gen_jmp_back g.code p) (g.code.length + 5 - 4) = some (dispTo g.code.length p - 5) := by
    unfold readAt32
    have := read32_app (g.code ++ [JMP_BACK]) (dispTo g.code.length p - 5) []
    rw [show g.code.length + 5 - 4 = (g.code ++ [JMP_BACK]).length by simp,
      show gen_jmp_back g.code p = (g.code ++ [JMP_BACK]) ++ (le32 (dispTo g.code.length p - 5) ++ []) by rw [hc]; simp,
      this]
    rfl
  have hlen : (gen_jmp_back g.code p).length = g.code.length + 5 := by rw [hc]; simp [le32_length]
  obtain ⟨s, l⟩ := hs.app (g' := { g with code := gen_jmp_back g.code p }) hc
    ⟨rfl, rfl, rfl, rfl, rfl⟩ (by simp [le32_length]; decide) (by decide)
    (fun b sz d h hd => by
      have : sz = 5 := by have : slot JMP_BACK = some 5 := by decide
                          rw [this] at h; exact (Option.some.inj h).symm
      subst this
      dsimp only at hd
      rw [rd] at hd
      cases hd
      have := b.code
      dsimp only at this
      rw [back_disp (by omega) hpl]
      exact (le.2 _ (hl.2 p hp).1).1)
    (fun f b d h hd => by
      dsimp only at hd
      rw [show g.code.length + 1 = g.code.length + 5 - 4 by omega, rd] at hd
      cases hd
      have := b.code
      dsimp only at this
      right
      rw [back_disp (by omega) hpl]
      exact ((hb f).mono hl).mono le)
  exact ⟨s, l, trivial⟩

theorem Keep.book {m : M α} {Q : α → Code → Prop} {h : G → G} {r : G → α}
    (hm : ∀ g a g', m g = .ok (a, g') → a = r g ∧ g' = h g)
    (hc : ∀ g, (h g).code = g.code ∧ (h g).case1 = g.case1 ∧ (h g).case2 = g.case2)
    (hk : ∀ g, Le c0 g.code → ∀ P, Sound F P g → (∀ l ∈ (h g).loops, ∀ e ∈ l.escape, Slot g.code e.1) ∧
      (∀ d ∈ (h g).jumps, (∀ s ∈ d.rets, Slot g.code s) ∧ ∀ s ∈ d.mrets, Slot g.code s) ∧
      (∀ en ∈ (h g).ex, Start g.code en.dest) ∧ Q (r g) g.code) : Keep F c0 m Q := by
  intro P g a g' hl hs he
  obtain ⟨rfl, rfl⟩ := hm g a g' he
  obtain ⟨k1, k2, k3, k4⟩ := hk g hl P hs
  obtain ⟨c1, c2, c3⟩ := hc g
  exact ⟨hs.book c1 c2 c3 k1 k2 k3, c1 ▸ .refl _, c1 ▸ k4⟩

theorem Keep.const {v : Const} : Keep F c0 (genConst v) Any' := by
  intro P g a g' hl hs he
  unfold genConst at he
  split at he
  · obtain ⟨s, l, -⟩ := (ins : Keep F c0 (emitM CONST_VAL [u32 g.consts.length]) Any') P { g with consts := g.consts ++ [v] } a g' hl
      (hs.book rfl rfl rfl hs.loops hs.jumps hs.ex) he
    exact ⟨s, l, trivial⟩
  · cases he

theorem Keep.num {v : Val} : Keep F c0 (genNum v) Any' := by
  unfold genNum
  split
  · exact ins
  · exact Keep.const

theorem Keep.lit {l : Lit} : Keep F c0 (genLit l) Any' := by
  cases l with
  | nil => exact ins
  | bool b => exact ins
  | int i => exact Keep.num
  | big n => exact Keep.const
  | flt b => exact Keep.num
  | str s => exact Keep.const
  | sym id => exact ins

theorem Keep.carray {l : List Lit} : Keep F c0 (genCArray l) Any' := by
  unfold genCArray
  split
  · exact ins
  · exact Keep.const

theorem Keep.getLocal {x : Ctx} {id : Id} : Keep F c0 (emitGetLocal x id) Any' := by
  unfold emitGetLocal
  split
  · exact .fail
  · split <;> exact ins

theorem Keep.setLocal {x : Ctx} {id : Id} : Keep F c0 (emitSetLocal x id) Any' := by
  unfold emitSetLocal
  split
  · exact .fail
  · split <;> exact ins

theorem Keep.getVar {x : Ctx} {v : Var} : Keep F c0 (emitGetVar x v) Any' := by
  cases v with
  | lvar id => exact Keep.getLocal
  | ivar id => exact ins
  | gvar id => exact ins

theorem Keep.setVar {x : Ctx} {v : Var} : Keep F c0 (emitSetVar x v) Any' := by
  cases v with
  | lvar id => exact Keep.setLocal
  | ivar id => exact ins
  | gvar id => exact ins

theorem Keep.setVars {x : Ctx} {c0 : Code} : ∀ {vs : List Var}, Keep F c0 (emitSetVars x vs) Any'
  | [] => .done
  | _ :: _ => by rw [emitSetVars]; exact Keep.setVar.bind fun _ _ _ _ => Keep.setVars

theorem Keep.send {m : Id} {n : Nat} {uv : Bool} {b : BitVec 32} : Keep F c0 (emitOptSend m n uv b) Any' := by
  intro P g a g' hl hs he
  have k : Keep F c0 (emitM (if uv then OPT_SEND else OPT_SEND_N)
    [.o32 m, .o16 (BitVec.ofNat 16 n), .o32 b, u32 g.caches]) Any' := by cases uv <;> exact ins
  obtain ⟨s, l, -⟩ := k P { g with caches := g.caches + 1 } a g' hl (hs.book rfl rfl rfl hs.loops hs.jumps hs.ex) he
  exact ⟨s, l, trivial⟩

theorem Keep.bin {op : BinOp} {imm : Option (BitVec 32)} {l r : M Unit} (hl : Keep F c0 l Any')
    (hr : ∀ c1, Keep F c1 r Any') : Keep F c0 (genBin op imm l r) Any' := by
  have two : Keep F c0 (do l; r; emitM op.op []) Any' := by
    refine hl.bind fun _ c1 _ _ => (hr c1).bind fun _ _ _ _ => ?_
    rcases op with _ | _ | _ | _ | _ | _ | _ | _ | _ | _ | _ | _ | _ | o
    case c => cases o <;> exact ins
    all_goals exact ins
  unfold genBin
  cases imm with
  | none =>
    cases op.opI <;> exact two
  | some i =>
    rcases op with _ | _ | _ | _ | _ | _ | _ | _ | _ | _ | _ | _ | _ | o
    case c => cases o <;> exact hl.bind fun _ _ _ _ => ins
    case add => exact hl.bind fun _ _ _ _ => ins
    case sub => exact hl.bind fun _ _ _ _ => ins
    all_goals exact two

theorem Keep.jfCmp {o : CmpOp} {imm : Option (BitVec 32)} {l r : M Unit} (hl : Keep F c0 l Any')
    (hr : ∀ c1, Keep F c1 r Any') : Keep F c0 (genJFCmp o imm l r) (fun s c => Slot c s) := by
  unfold genJFCmp
  cases imm with
  | some i => exact hl.bind fun _ _ _ _ => Keep.jumpI (by cases o <;> rfl) (by cases o <;> decide)
  | none => exact hl.bind fun _ c1 _ _ => (hr c1).bind fun _ _ _ _ => Keep.jumpC (by cases o <;> rfl)

theorem Keep.jf {c : M Unit} (h : Keep F c0 c Any') : Keep F c0 (genJF c) (fun s c => Slot c s) :=
  h.bind fun _ _ _ _ => Keep.jmpF

theorem Keep.pushLoop : Keep F c0 pushLoop Any' :=
  .book (h := fun g => { g with loops := ⟨false, []⟩ :: g.loops }) (r := fun _ => ())
    (fun g a g' h => by cases h; exact ⟨rfl, rfl⟩) (fun _ => ⟨rfl, rfl, rfl⟩)
    fun g _ P s => ⟨by
      intro l hl
      rcases List.mem_cons.1 hl with rfl | hl
      · simp
      · exact s.loops l hl, s.jumps, s.ex, trivial⟩

theorem Keep.popLoop : Keep F c0 popLoop (fun es c => ∀ e ∈ es, Slot c e.1) := by
  intro P g a g' hl hs he
  unfold Codegen.popLoop at he
  cases hg : g.loops with
  | nil => rw [hg] at he; cases he
  | cons l ls =>
    rw [hg] at he
    cases he
    exact ⟨hs.book rfl rfl rfl (fun l hl => hs.loops l (by rw [hg]; exact List.mem_cons_of_mem _ hl)) hs.jumps hs.ex,
      .refl _, hs.loops l (by rw [hg]; exact List.mem_cons_self)⟩

theorem Keep.addEscape {p : Nat} {k : EK} (hp : Slot c0 p) : Keep F c0 (addEscape p k) Any' := by
  intro P g a g' hl hs he
  unfold Codegen.addEscape at he
  cases hg : g.loops with
  | nil => rw [hg] at he; cases he
  | cons l ls =>
    rw [hg] at he
    cases he
    refine ⟨hs.book rfl rfl rfl (fun l' hl' => ?_) hs.jumps hs.ex, .refl _, trivial⟩
    rcases List.mem_cons.1 hl' with rfl | hl'
    · intro e hm
      rcases List.mem_append.1 hm with hm | hm
      · exact hs.loops l (by rw [hg]; exact List.mem_cons_self) e hm
      · rw [List.mem_singleton.1 hm]; exact hp.mono hl
    · exact hs.loops l' (by rw [hg]; exact List.mem_cons_of_mem _ hl')

theorem Keep.brk {x : Ctx} {m : M Unit} (h : Keep F c0 m Any') : Keep F c0 (genBreak x m) Any' := by
  intro P g a g' hl hs he
  unfold genBreak at he
  cases hg : g.loops with
  | nil => rw [hg] at he; cases he
  | cons l ls =>
    rw [hg] at he
    dsimp only at he
    split at he
    · by_cases hk : x.kind = some .block
      · rw [hk] at he
        exact (h.bind fun _ _ _ _ => (ins : Keep F _ _ Any')) P g a g' hl hs he
      · rcases hx : x.kind with _ | _ | _ | _ | _
        case some.block => exact absurd hx hk
        all_goals rw [hx] at he; cases he
    · exact (h.bind fun _ _ _ _ => Keep.jmp.bind fun _ _ _ q => Keep.addEscape q) P g a g' hl hs he

theorem Keep.nxt {x : Ctx} {m m' : M Unit} (h : Keep F c0 m Any') (h' : Keep F c0 m' Any') :
    Keep F c0 (genNext x m m') Any' := by
  intro P g a g' hl hs he
  unfold genNext at he
  cases hg : g.loops with
  | nil => rw [hg] at he; cases he
  | cons l ls =>
    rw [hg] at he
    dsimp only at he
    split at he
    · by_cases hk : x.kind = some .block
      · rw [hk] at he
        exact (h.bind fun _ _ _ _ => (ins : Keep F _ _ Any')) P g a g' hl hs he
      · rcases hx : x.kind with _ | _ | _ | _ | _
        case some.block => exact absurd hx hk
        all_goals rw [hx] at he; cases he
    · exact (h'.bind fun _ _ _ _ => Keep.jmp.bind fun _ _ _ q => Keep.addEscape q) P g a g' hl hs he

theorem Keep.ret {x : Ctx} : Keep F c0 (genRet x) Any' := by
  have hr : Keep F c0 (emitM (if x.kind = some .block then MRETURN else RETURN) []) Any' := by split <;> exact ins
  intro P g a g' hl hs he
  unfold genRet at he
  cases hd : g.jumps with
  | nil => rw [hd] at he; exact hr P g a g' hl hs he
  | cons d ds =>
    rw [hd] at he
    dsimp only at he
    split at he
    · cases hj : jumpM JMP g with
      | error e => rw [hj] at he; cases he
      | ok r =>
        obtain ⟨dest, g1⟩ := r
        rw [hj] at he
        cases he
        obtain ⟨s1, l1, q1⟩ := Keep.jmp P g dest g1 hl hs hj
        have hg1 : g1.jumps = d :: ds := by rw [← hd]; cases hj; rfl
        have hd1 := s1.jumps d (by rw [hg1]; exact List.mem_cons_self)
        refine ⟨s1.book rfl rfl rfl s1.loops (fun e he => ?_) s1.ex, l1, trivial⟩
        rcases List.mem_cons.1 he with rfl | he
        · split
          · refine ⟨hd1.1, fun s hs => ?_⟩
            rcases List.mem_append.1 hs with hs | hs
            · exact hd1.2 s hs
            · rw [List.mem_singleton.1 hs]; exact q1
          · refine ⟨fun s hs => ?_, hd1.2⟩
            rcases List.mem_append.1 hs with hs | hs
            · exact hd1.1 s hs
            · rw [List.mem_singleton.1 hs]; exact q1
        · exact s1.jumps e (by rw [hg1]; exact List.mem_cons_of_mem _ he)
    · exact hr P g a g' hl hs he

theorem Keep.pushJD {e : Bool} : Keep F c0 (pushJumpDest e) Any' :=
  .book (h := fun g => { g with jumps := ⟨e, [], []⟩ :: g.jumps }) (r := fun _ => ())
    (fun g a g' h => by cases h; exact ⟨rfl, rfl⟩) (fun _ => ⟨rfl, rfl, rfl⟩)
    fun g _ P s => ⟨s.loops, by
      intro l hl
      rcases List.mem_cons.1 hl with rfl | hl
      · simp
      · exact s.jumps l hl, s.ex, trivial⟩

theorem Keep.popJD : Keep F c0 popJumpDest (fun d c => (∀ s ∈ d.rets, Slot c s) ∧ ∀ s ∈ d.mrets, Slot c s) := by
  intro P g a g' hl hs he
  unfold Codegen.popJumpDest at he
  cases hg : g.jumps with
  | nil => rw [hg] at he; cases he
  | cons l ls =>
    rw [hg] at he
    cases he
    exact ⟨hs.book rfl rfl rfl hs.loops (fun l hl => hs.jumps l (by rw [hg]; exact List.mem_cons_of_mem _ hl)) hs.ex,
      .refl _, hs.jumps _ (by rw [hg]; exact List.mem_cons_self)⟩

theorem Keep.pushEx {a b d : Nat} (hd : Start c0 d) : Keep F c0 (pushEx a b d) Any' :=
  .book (h := fun g => { g with ex := g.ex ++ [⟨a, b, d⟩] }) (r := fun _ => ())
    (fun g a g' h => by cases h; exact ⟨rfl, rfl⟩) (fun _ => ⟨rfl, rfl, rfl⟩)
    fun g l P s => ⟨s.loops, s.jumps, by
      intro en he
      rcases List.mem_append.1 he with he | he
      · exact s.ex en he
      · rw [List.mem_singleton.1 he]; exact (l.2 d hd).1
      , trivial⟩

theorem Keep.retPaths {jd : JumpDest} {m : M Unit} (h : ∀ c1, Keep F c1 m Any') (hr : ∀ s ∈ jd.rets, Slot c0 s)
    (hm : ∀ s ∈ jd.mrets, Slot c0 s) : Keep F c0 (genReturnPaths jd m) Any' := by
  have one : ∀ c1 op (k : Unit → M Unit), op = RETURN ∨ op = MRETURN → (∀ u c2, Le c1 c2 → Keep F c2 (k u) Any') →
      Keep F c1 (m >>= fun _ => emitM op [] >>= k) Any' := by
    intro c1 op k ho hk
    refine (h c1).bind fun _ _ l _ => ?_
    rcases ho with rfl | rfl <;> exact (ins : Keep F _ _ Any').bind fun u c2 l2 _ => hk u c2 (l.trans l2)
  unfold genReturnPaths
  split
  · exact .done
  · refine Keep.jmp.bind fun s c1 l1 q => (Keep.patchAll fun s hs => (hr s hs).mono l1).bind fun _ c2 l2 _ => ?_
    have k2 : ∀ c3, Le c2 c3 → Keep F c3 (do
        patchAllM jd.mrets
        if jd.mrets.isEmpty then Pure.pure () else do
          m
          emitM MRETURN []
        patchCurM s) Any' := by
      intro c3 l3
      have l123 := (l1.trans l2).trans l3
      refine (Keep.patchAll fun s hs => (hm s hs).mono l123).bind fun _ c4 l4 _ => ?_
      cases jd.mrets.isEmpty
      · exact one c4 MRETURN _ (.inr rfl) fun _ _ l => Keep.patchCur (q.mono (((l2.trans l3).trans l4).trans l))
      · exact Keep.patchCur (q.mono ((l2.trans l3).trans l4))
    cases jd.rets.isEmpty
    · exact one c2 RETURN _ (.inl rfl) fun _ c3 l3 => k2 c3 l3
    · exact k2 c2 (.refl _)

theorem Keep.repeat {m : M Unit} (h : ∀ c1, Keep F c1 m Any') {c0 : Code} : ∀ n, Keep F c0 (repeatM n m) Any'
  | 0 => .done
  | n + 1 => (h c0).bind fun _ _ _ _ => Keep.repeat h n

theorem Keep.manyTail {x : Ctx} {ts : List Var} {n : Nat} {uv : Bool} : Keep F c0 (genManyTail x ts n uv) Any' := by
  unfold genManyTail
  cases uv with
  | true =>
    exact (Keep.repeat (fun _ => ins) _).bind fun _ _ _ _ => (ins : Keep F _ _ Any').bind fun _ _ _ _ =>
      (Keep.repeat (fun _ => ins) _).bind fun _ _ _ _ => Keep.setVars.bind fun _ _ _ _ => ins
  | false => exact (Keep.repeat (fun _ => ins) _).bind fun _ _ _ _ => Keep.setVars

/-! ## Tables -/

/-- The displacement leads from `s` to an instruction. -/
def Leads (c : Code) (s : Nat) (d : BitVec 32) : Prop := c.length < 2 ^ 31 → Start c (addDisp s d)

theorem Leads.mono {c c' : Code} {s : Nat} {d : BitVec 32} (h : Leads c s d) (l : Le c c') : Leads c' s d :=
  fun b => (l.2 _ (h (Nat.lt_of_le_of_lt l.1 b))).1

theorem Leads.of {c : Code} {s p : Nat} (hp : Start c p) (hl : p ≤ c.length) (hs : s ≤ c.length) :
    Leads c s (dispTo s p) := fun b => by rwa [addDisp_dispTo _ _ (by omega) (by omega) (by omega)]

/-- With a table that is not filled. -/
def plus (P : Byte → Nat → Nat → Prop) (op : Byte) (i p : Nat) : Byte → Nat → Nat → Prop :=
  fun op' i' p' => P op' i' p' ∨ op' = op ∧ i' = i ∧ p' = p

/-- The instruction of a new table. -/
theorem Sound.newCase {P : Byte → Nat → Nat → Prop} {g g' : G} {op : Byte} {i : Nat} (h : Sound F P g)
    (hop : op = OPT_CASE ∨ op = OPT_CASE2) (hi : i = tabs g op)
    (hc : g'.code = g.code ++ op :: (le32 (BitVec.ofNat 32 i) ++ [0, 0, 0, 0]))
    (hl : g'.loops = g.loops) (hj : g'.jumps = g.jumps) (he : g'.ex = g.ex)
    (ht : ∀ o j, tab g' o j = tab g o j) (hn : ∀ o, tabs g' o = if o = op ∨ (o ≠ OPT_CASE ∧ op ≠ OPT_CASE) then tabs g o + 1 else tabs g o)
    (hb : Bounded g' → Bounded g ∧ i < 2 ^ 32) :
    Sound F (plus P op i g.code.length) g' ∧ Le g.code g'.code ∧ Slot g'.code g'.code.length := by
  have hsz := (case_size hop).1
  have hslot := (case_size hop).2
  have nj : isJmp op = false := by rcases hop with rfl | rfl <;> decide
  have hz : inst_size op = some ((le32 (BitVec.ofNat 32 i) ++ [0, 0, 0, 0]).length + 1) := by
    rw [hsz]; simp [le32_length]
  have le : Le g.code g'.code := hc ▸ Le.app h.whole h.fits hz
  have st := start_app h.whole h.fits hz
  have hlen : g'.code.length = g.code.length + 9 := by rw [hc]; simp [le32_length]
  have hlen' : g.code.length + ((le32 (BitVec.ofNat 32 i) ++ [0, 0, 0, 0]).length + 1) = g.code.length + 9 := by
    simp [le32_length]
  rw [hlen'] at st
  have mono : ∀ o, tabs g o ≤ tabs g' o := fun o => by rw [hn]; split <;> omega
  have grow : i < tabs g' op := by rw [hn, if_pos (.inl rfl), hi]; omega
  have here : Start g'.code g.code.length := by rw [hc]; exact st.1 _ h.whole
  have ends : Start g'.code (g.code.length + 9) := by rw [hc]; exact st.2.2
  have at' : g'.code[g.code.length]? = some op := by rw [hc]; simp
  have rid : readAt32 g'.code (g.code.length + 1) = some (BitVec.ofNat 32 i) := by
    unfold readAt32
    have := read32_app (g.code ++ [op]) (BitVec.ofNat 32 i) [0, 0, 0, 0]
    rw [show g.code.length + 1 = (g.code ++ [op]).length by simp,
      show g'.code = (g.code ++ [op]) ++ (le32 (BitVec.ofNat 32 i) ++ [0, 0, 0, 0]) by rw [hc]; simp, this]
    rfl
  have rz : readAt32 g'.code (g.code.length + 9 - 4) = some 0 := by
    unfold readAt32
    have := read32_app (g.code ++ op :: le32 (BitVec.ofNat 32 i)) 0 []
    rw [show g.code.length + 9 - 4 = (g.code ++ op :: le32 (BitVec.ofNat 32 i)).length by simp [le32_length],
      show g'.code = (g.code ++ op :: le32 (BitVec.ofNat 32 i)) ++ (le32 0 ++ []) by rw [hc]; simp [le32], this]
    rfl
  have old : ∀ p o, Start g'.code p → g'.code[p]? = some o → p = g.code.length ∧ o = op ∨
      Start g.code p ∧ g.code[p]? = some o := by
    intro p o hp ho
    rw [hc] at hp ho
    rcases st.2.1 p hp with h1 | h1
    · rcases Nat.lt_or_ge p g.code.length with hlt | hge
      · exact .inr ⟨h1, by rw [List.getElem?_append_left hlt] at ho; exact ho⟩
      · have hpos : p = g.code.length := Nat.le_antisymm (h.fits p h1) hge
        subst hpos
        rw [get_app] at ho
        exact .inl ⟨rfl, (Option.some.inj ho).symm⟩
    · have := (List.getElem?_eq_some_iff.1 ho).1
      rw [← hc] at this
      omega
  have toNat : Bounded g' → (BitVec.ofNat 32 i).toNat = i := fun b => by
    rw [BitVec.toNat_ofNat]; exact Nat.mod_eq_of_lt (hb b).2
  refine ⟨⟨by rw [hlen]; exact ends, fun p hp => ?_, fun p o hp ho => ?_, fun b p o sz d hp ho hz' hd => ?_,
    fun f b p o d hp ho hj hd => ?_, ?_, ?_, ?_, fun b p o j hp ho hcase hj => ?_,
    fun b p q o j hp hq ho hoq hcase hj hjq => ?_, fun o j p hP => ?_⟩, le,
    g.code.length, op, 9, here, at', hslot, hlen⟩
  · rw [hc] at hp
    rcases st.2.1 p hp with h1 | h1
    · have := h.fits p h1; omega
    · omega
  · rcases old p o hp ho with ⟨-, rfl⟩ | ⟨h1, h2⟩
    · exact ⟨_, hsz⟩
    · exact h.sized p o h1 h2
  · rcases old p o hp ho with ⟨rfl, rfl⟩ | ⟨h1, h2⟩
    · rw [hslot] at hz'
      cases hz'
      rw [rz] at hd
      cases hd
      rw [addDisp_zero (by have := b.code; omega)]
      exact ends
    · have := h.end_of h1 h2 (slot_size hz')
      have := slot_five hz'
      rw [hc, readAt32_app (by omega)] at hd
      exact (le.2 _ (h.slots (hb b).1 p o sz d h1 h2 hz' hd)).1
  · rcases old p o hp ho with ⟨rfl, rfl⟩ | ⟨h1, h2⟩
    · rw [nj] at hj; cases hj
    · have := h.end_of h1 h2 (size_jmp hj)
      rw [hc, readAt32_app (by omega)] at hd
      exact (h.back f (hb b).1 p o d h1 h2 hj hd).imp_right fun s => s.mono le
  · rw [hl]
    exact fun l hl e he => (h.loops l hl e he).mono le
  · rw [hj]
    exact fun d hd => ⟨fun s hs => ((h.jumps d hd).1 s hs).mono le, fun s hs => ((h.jumps d hd).2 s hs).mono le⟩
  · rw [he]
    exact fun en he => (le.2 _ (h.ex en he)).1
  · rcases old p o hp ho with ⟨rfl, rfl⟩ | ⟨h1, h2⟩
    · rw [rid] at hj
      cases hj
      rw [toNat b]
      exact ⟨grow, .inl (.inr ⟨rfl, rfl, rfl⟩)⟩
    · have := h.end_of h1 h2 (case_size hcase).1
      rw [hc, readAt32_app (by omega)] at hj
      obtain ⟨r1, r2⟩ := h.ref (hb b).1 p o j h1 h2 hcase hj
      rw [ht]
      refine ⟨Nat.lt_of_lt_of_le r1 (mono o), ?_⟩
      exact r2.imp .inl fun ⟨ds, e, hds⟩ => ⟨ds, e, fun d hd => (le.2 _ (hds d hd)).1⟩
  · rcases old p o hp ho with ⟨rfl, rfl⟩ | ⟨h1, h2⟩
    · rcases old q o hq hoq with ⟨rfl, -⟩ | ⟨k1, k2⟩
      · rfl
      · have := h.end_of k1 k2 (case_size hcase).1
        rw [rid] at hj
        cases hj
        rw [hc, readAt32_app (by omega)] at hjq
        have := (h.ref (hb b).1 q o _ k1 k2 hcase hjq).1
        rw [toNat b] at this
        omega
    · have := h.end_of h1 h2 (case_size hcase).1
      rw [hc, readAt32_app (by omega)] at hj
      rcases old q o hq hoq with ⟨rfl, rfl⟩ | ⟨k1, k2⟩
      · rw [rid] at hjq
        cases hjq
        have := (h.ref (hb b).1 p o _ h1 h2 hcase hj).1
        rw [toNat b] at this
        omega
      · have := h.end_of k1 k2 (case_size hcase).1
        rw [hc, readAt32_app (by omega)] at hjq
        exact h.uniq (hb b).1 p q o j h1 k1 h2 k2 hcase hj hjq
  · rcases hP with hP | ⟨rfl, rfl, rfl⟩
    · obtain ⟨h1, h2, h3, h4, h5⟩ := h.pend o j p hP
      have := h.end_of h3 h4 (case_size h2).1
      exact ⟨Nat.lt_of_lt_of_le h1 (mono o), h2, (le.2 p h3).1, (le.2 p h3).2 _ h4,
        by rw [hc, readAt32_app (by omega)]; exact h5⟩
    · exact ⟨grow, hop, here, at', rid⟩

/-- A table filled. -/
theorem Sound.setCase {P : Byte → Nat → Nat → Prop} {g g' : G} {op : Byte} {i p : Nat} {ds : List (BitVec 32)}
    (h : Sound F (plus P op i p) g) (hc : g'.code = g.code) (hl : g'.loops = g.loops) (hj : g'.jumps = g.jumps)
    (he : g'.ex = g.ex) (hn : ∀ o, tabs g' o = tabs g o) (hb : Bounded g' → Bounded g)
    (hi : tab g' op i = some ds)
    (ht : ∀ o j, o = OPT_CASE ∨ o = OPT_CASE2 → ¬ (o = op ∧ j = i) → tab g' o j = tab g o j)
    (hd : ∀ d ∈ ds, Leads g.code (p + 9) d) : Sound F P g' := by
  obtain ⟨p1, p2, p3, p4, p5⟩ := h.pend op i p (.inr ⟨rfl, rfl, rfl⟩)
  refine ⟨?_, ?_, ?_, ?_, ?_, ?_, ?_, ?_, ?_, ?_, ?_⟩
  all_goals simp only [hc, hn, hl, hj, he]
  · exact h.whole
  · exact h.fits
  · exact h.sized
  · exact fun b => h.slots (hb b)
  · exact fun f b => h.back f (hb b)
  · exact h.loops
  · exact h.jumps
  · exact h.ex
  · intro b q o j hq ho hcase hj
    obtain ⟨r1, r2⟩ := h.ref (hb b) q o j hq ho hcase hj
    refine ⟨r1, ?_⟩
    by_cases hsame : o = op ∧ j.toNat = i
    · obtain ⟨rfl, hji⟩ := hsame
      have hjj : j = BitVec.ofNat 32 i := by rw [← hji]; simp
      rw [hjj] at hj
      have := h.uniq (hb b) q p o _ hq p3 ho p4 hcase hj p5
      subst this
      exact .inr ⟨ds, by rw [hji]; exact hi, fun d hm => hd d hm (hb b).code⟩
    · rw [ht o j.toNat hcase hsame]
      rcases r2 with (r2 | ⟨r2, r3, -⟩) | r2
      · exact .inl r2
      · exact absurd ⟨r2, r3⟩ hsame
      · exact .inr r2
  · exact fun b => h.uniq (hb b)
  · exact fun o j q hP => h.pend o j q (.inl hP)

theorem Keep.case1 {γ : Type} {inner : Nat → M γ} {mapOf : γ → CaseMap} {rest : Nat → γ → M β} {Q : Nat → γ → Code → Prop}
    {R : β → Code → Prop}
    (hin : ∀ s c1, Le c0 c1 → Slot c1 s → s ≤ c1.length → Keep F c1 (inner s) (Q s))
    (hm : ∀ s r c1, Q s r c1 → ∀ e ∈ mapOf r, Leads c1 s e.2)
    (hrest : ∀ s r c1, Le c0 c1 → Slot c1 s → Q s r c1 → Keep F c1 (rest s r) R) :
    Keep F c0 (newCase1 >>= fun p => inner p.2 >>= fun r => setCase1 p.1 (mapOf r) >>= fun _ => rest p.2 r) R := by
  intro P g b g' hl hs he
  obtain ⟨⟨id, s⟩, g1, e1, he⟩ := bindM.1 he
  obtain ⟨r, g2, e2, he⟩ := bindM.1 he
  obtain ⟨_, g3, e3, he⟩ := bindM.1 he
  dsimp only at e2 e3 he
  cases e1
  have hlen : (ISeq.emit g.code OPT_CASE [u32 g.case1.length, .o32 0]).length = g.code.length + 9 := by
    rw [emit_eq]; simp [opBytes, le32_length, u32]
  obtain ⟨s1, l1, q1⟩ := hs.newCase (g' := { g with case1 := g.case1 ++ [none], code := ISeq.emit g.code OPT_CASE [u32 g.case1.length, .o32 0] })
    (op := OPT_CASE) (i := g.case1.length) (.inl rfl) rfl (by rw [emit_eq]; simp [opBytes, u32, le32]) rfl rfl rfl
    (fun o j => by
      unfold tab
      dsimp only
      split
      · rcases Nat.lt_trichotomy j g.case1.length with h | h | h
        · rw [List.getElem?_append_left h]
        · subst h; simp
        · rw [List.getElem?_eq_none (by simp; omega), List.getElem?_eq_none (by omega)]
      · rfl)
    (fun o => by
      unfold tabs
      dsimp only
      by_cases ho : o = OPT_CASE
      · rw [if_pos ho, if_pos (.inl ho), if_pos ho]; simp
      · rw [if_neg ho, if_neg (by simp [ho]), if_neg ho])
    (fun b => ⟨⟨by have := b.code; dsimp only at this; omega, by have := b.case1; simp at this; omega, b.case2⟩,
      by have := b.case1; simp at this; omega⟩)
  obtain ⟨s2, l2, q2⟩ := hin _ _ (hl.trans l1) q1 (Nat.le_refl _) _ _ _ _ (.refl _) s1 e2
  cases e3
  have hid := (s2.pend OPT_CASE g.case1.length g.code.length (.inr ⟨rfl, rfl, rfl⟩)).1
  have hid' : g.case1.length < g2.case1.length := hid
  have s3 := s2.setCase (g' := { g2 with case1 := g2.case1.set g.case1.length (some (mapOf r)) })
    (ds := (mapOf r).map (·.2)) rfl rfl rfl rfl
    (fun o => by unfold tabs; dsimp only; rw [List.length_set])
    (fun b => ⟨b.code, by have := b.case1; simpa using this, b.case2⟩)
    (by unfold tab; rw [if_pos rfl]; dsimp only; rw [List.getElem?_set_self hid']; rfl)
    (fun o j _ hne => by
      unfold tab
      dsimp only
      split
      · rename_i ho
        rw [List.getElem?_set_ne (fun h => hne ⟨ho, h.symm⟩)]
      · rfl)
    (fun d hd => by
      obtain ⟨e, he, rfl⟩ := List.mem_map.1 hd
      have := hm _ r _ q2 e he
      rw [hlen] at this
      exact this)
  obtain ⟨s4, l4, q4⟩ := hrest _ r g2.code ((hl.trans l1).trans l2) (q1.mono l2) q2 P { g2 with case1 := g2.case1.set g.case1.length (some (mapOf r)) } b g' (.refl _) s3 he
  exact ⟨s4, (l1.trans l2).trans l4, q4⟩

theorem Keep.case2 {γ : Type} {inner : Nat → M γ} {mapOf : Nat → γ → Nat → CaseMap2} {rest : Nat → γ → M β} {Q : Nat → γ → Code → Prop}
    {R : β → Code → Prop}
    (hin : ∀ s c1, Le c0 c1 → Slot c1 s → s ≤ c1.length → Keep F c1 (inner s) (Q s))
    (hm : ∀ s r c1, Q s r c1 → s ≤ c1.length → Start c1 c1.length → ∀ e ∈ (mapOf s r c1.length).2.2, Leads c1 s e)
    (hrest : ∀ s r c1, Le c0 c1 → Slot c1 s → Q s r c1 → Keep F c1 (rest s r) R) :
    Keep F c0 (newCase2 >>= fun p => inner p.2 >>= fun r => curM >>= fun cur =>
      setCase2 p.1 (mapOf p.2 r cur) >>= fun _ => rest p.2 r) R := by
  intro P g b g' hl hs he
  obtain ⟨⟨id, s⟩, g1, e1, he⟩ := bindM.1 he
  obtain ⟨r, g2, e2, he⟩ := bindM.1 he
  obtain ⟨cur, g2', e2', he⟩ := bindM.1 he
  obtain ⟨_, g3, e3, he⟩ := bindM.1 he
  obtain ⟨rfl, rfl⟩ := curM_ok e2'
  dsimp only at e2 e3 he
  cases e1
  have hne : OPT_CASE2 ≠ OPT_CASE := by decide
  have hlen : (ISeq.emit g.code OPT_CASE2 [u32 g.case2.length, .o32 0]).length = g.code.length + 9 := by
    rw [emit_eq]; simp [opBytes, le32_length, u32]
  obtain ⟨s1, l1, q1⟩ := hs.newCase (g' := { g with case2 := g.case2 ++ [none], code := ISeq.emit g.code OPT_CASE2 [u32 g.case2.length, .o32 0] })
    (op := OPT_CASE2) (i := g.case2.length) (.inr rfl) (by unfold tabs; rw [if_neg hne])
    (by rw [emit_eq]; simp [opBytes, u32, le32]) rfl rfl rfl
    (fun o j => by
      unfold tab
      dsimp only
      split
      · rfl
      · rcases Nat.lt_trichotomy j g.case2.length with h | h | h
        · rw [List.getElem?_append_left h]
        · subst h; simp
        · rw [List.getElem?_eq_none (by simp; omega), List.getElem?_eq_none (by omega)])
    (fun o => by
      unfold tabs
      dsimp only
      by_cases ho : o = OPT_CASE
      · rw [if_pos ho, if_neg (by subst ho; exact fun h => by rcases h with h | h; exact hne h.symm; exact h.1 rfl), if_pos ho]
      · rw [if_neg ho, if_pos (.inr ⟨ho, hne⟩), if_neg ho]; simp)
    (fun b => ⟨⟨by have := b.code; dsimp only at this; omega, b.case1, by have := b.case2; simp at this; omega⟩,
      by have := b.case2; simp at this; omega⟩)
  obtain ⟨s2, l2, q2⟩ := hin _ _ (hl.trans l1) q1 (Nat.le_refl _) _ _ _ _ (.refl _) s1 e2
  cases e3
  have hid := (s2.pend OPT_CASE2 g.case2.length g.code.length (.inr ⟨rfl, rfl, rfl⟩)).1
  have hid' : g.case2.length < g2'.case2.length := hid
  have s3 := s2.setCase (g' := { g2' with case2 := g2'.case2.set g.case2.length (some (mapOf _ r g2'.code.length)) })
    (ds := (mapOf _ r g2'.code.length).2.2) rfl rfl rfl rfl
    (fun o => by unfold tabs; dsimp only; rw [List.length_set])
    (fun b => ⟨b.code, b.case1, by have := b.case2; simpa using this⟩)
    (by unfold tab; rw [if_neg hne]; dsimp only; rw [List.getElem?_set_self hid']; rfl)
    (fun o j hcase hne' => by
      unfold tab
      dsimp only
      split
      · rfl
      · rename_i ho
        rw [List.getElem?_set_ne (fun h => hne' ⟨hcase.resolve_left ho, h.symm⟩)])
    (fun d hd => by
      have := hm _ r _ q2 l2.1 s2.whole d hd
      rw [hlen] at this
      exact this)
  obtain ⟨s4, l4, q4⟩ := hrest _ r g2'.code ((hl.trans l1).trans l2) (q1.mono l2) q2 P { g2' with case2 := g2'.case2.set g.case2.length (some (mapOf _ r g2'.code.length)) } b g' (.refl _) s3 he
  exact ⟨s4, (l1.trans l2).trans l4, q4⟩

/-! ## Loops -/

/-- The first thing that is emitted is an instruction that is not a jump. -/
def Fst (m : M α) : Prop :=
  ∀ P g a g', Sound False P g → m g = .ok (a, g') → Solid g'.code g.code.length

theorem Keep.loop {m : M α} {rest : Nat → α → M β} {Q : α → Code → Prop} {R : β → Code → Prop} (hm : Keep F c0 m Q)
    (hf : F → Fst m)
    (hrest : ∀ p a c1, Le c0 c1 → Start c1 p → (F → Solid c1 p) → Q a c1 → Keep F c1 (rest p a) R) :
    Keep F c0 (curM >>= fun p => m >>= fun a => rest p a) R := by
  intro P g b g' hl hs he
  obtain ⟨p, g1, e1, he⟩ := bindM.1 he
  obtain ⟨a, g2, e2, he⟩ := bindM.1 he
  obtain ⟨rfl, rfl⟩ := curM_ok e1
  obtain ⟨s2, l2, q2⟩ := hm P g1 a g2 hl hs e2
  obtain ⟨s3, l3, q3⟩ := hrest g1.code.length a g2.code (hl.trans l2) (l2.2 _ hs.whole).1
    (fun f => hf f P g1 a g2 hs.weaken e2) q2 P g2 b g' (.refl _) s2 he
  exact ⟨s3, l2.trans l3, q3⟩

end Verif.Codegen
