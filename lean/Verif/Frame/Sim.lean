import Verif.Frame.Closures

/-!
# The simulation
-/
namespace Verif.Frame
open Verif.Frame.Spec

variable {σ : VM} {α : Mach} {G : Ghost}

/-- How a step changes the frames. -/
inductive Kind where
  | stay
  | open (k : Nat) (use : Bool)
  | close

/-- calls open a frame, returns and exceptions close one -/
def Op.kind : Op → Kind
  | .callMethod args _ _ u _ => .open (args + 1) u
  | .callNative args _ => .open (args + 1) true
  | .callProc _ _ args _ u => .open args u
  | .yield args _ u => .open args u
  | .iterate args _ u => .open args u
  | .ret _ => .close
  | .raise => .close
  | .retNative _ => .close
  | _ => .stay

theorem sim {op α' o} (h : Inv σ α G) (hs : Spec.step α op = some (α', o)) :
    Sim (step σ op) α' o (fun _ G' => match op.kind with
      | .stay => G'.gs = G.gs
      | .open _ _ => ∃ x, G'.gs = x :: G.gs
      | .close => G'.gs = G.gs.tail) := by
  cases op with
  | push v => exact sim_push h hs
  | pop => exact sim_pop h hs
  | jump n => exact sim_jump h hs
  | self => exact sim_self h hs
  | getLocal i => exact sim_getLocal h hs
  | setLocal i v => exact sim_setLocal h hs
  | getDyn k i => exact sim_getDyn h hs
  | setDyn k i v => exact sim_setDyn h hs
  | callMethod args code locals u b => exact sim_callMethod h hs
  | callNative args b => exact sim_callNative h hs
  | callProc p s args locals u => exact sim_callProc h hs
  | yield args locals u => exact sim_yield h hs
  | iterate args locals u => exact sim_iterate h hs
  | ret b => exact sim_ret h hs
  | raise => exact sim_raise h hs
  | retNative v => exact sim_retNative h hs
  | clear => exact sim_clear h hs
  | createProc code => exact sim_createProc h hs
  | blockToProc => exact sim_blockToProc h hs
  | binding => exact sim_binding h hs

theorem sim_run {ops α' outs} (h : Inv σ α G) (hs : Spec.run α ops = some (α', outs)) :
    run σ ops = .error .overflow ∨ ∃ σ' G', run σ ops = .ok (σ', outs) ∧ Inv σ' α' G' := by
  induction ops generalizing σ α G outs with
  | nil =>
    simp only [Spec.run, Option.some.injEq, Prod.mk.injEq] at hs
    obtain ⟨rfl, rfl⟩ := hs
    exact Or.inr ⟨σ, G, rfl, h⟩
  | cons op ops ih =>
    unfold Spec.run at hs
    cases h1 : Spec.step α op with
    | none => rw [h1] at hs; cases hs
    | some r =>
      obtain ⟨α1, o⟩ := r
      rw [h1] at hs
      dsimp only at hs
      cases h2 : Spec.run α1 ops with
      | none => rw [h2] at hs; cases hs
      | some r2 =>
        obtain ⟨α2, os⟩ := r2
        rw [h2] at hs
        simp only [Option.some.injEq, Prod.mk.injEq] at hs
        obtain ⟨rfl, rfl⟩ := hs
        rcases sim h h1 with e1 | ⟨σ1, G1, e1, hi, _⟩
        · left; simp only [run, e1, bind, Except.bind]
        · rcases ih hi h2 with e2 | ⟨σ2, G2, e2, hi2⟩
          · left; simp only [run, e1, e2, bind, Except.bind]
          · right; exact ⟨σ2, G2, by simp only [run, e1, e2, bind, Except.bind], hi2⟩

/-- the ghost data of the initial state -/
def initGhost (base : Nat) : Ghost :=
  { gs := [⟨0, base + 1, 0, false, none, true, []⟩],
    sk := [⟨0, 0, none, 0, 0, none, false⟩],
    loc := fun _ => base + 1, cap := fun _ => false, hb := fun _ => none }

theorem init_inv {base : Nat} (hb : 1 ≤ base) : Inv (initVM base) Spec.init (initGhost base) := by
  have hg0 : ∀ g ∈ (initGhost base).gs, g = ⟨0, base + 1, 0, false, none, true, []⟩ := by
    intro g hg; simpa [initGhost] using hg
  have hsk : ∀ (e : Nat) S, (initGhost base).sk[e]? = some S → e = 0 ∧ S = ⟨0, 0, none, 0, 0, none, false⟩ := by
    intro e S h
    cases e with
    | zero => simp [initGhost] at h; exact ⟨rfl, h.symm⟩
    | succ e => simp [initGhost] at h
  constructor
  · rfl
  · constructor
    · exact hb
    · simp [initVM]
    · intro g hg; rw [hg0 g hg]; exact ⟨_, rfl, rfl, rfl⟩
    · intro g hg; rw [hg0 g hg]; simp [initVM, STACK_SIZE, hdr]; omega
    · simp [initGhost]
    · intro g hg g' hg' _; rw [hg0 g hg, hg0 g' hg']
    · intro g hg _; rw [hg0 g hg]; rfl
    · intro e he; simp [initGhost] at he
    · intro e e' S S' he; simp [initGhost] at he
    · intro e S h _; obtain ⟨rfl, rfl⟩ := hsk e S h; rfl
    · intro e S o h ho; obtain ⟨rfl, rfl⟩ := hsk e S h; cases ho
    · intro g hg S o h ho; obtain ⟨_, rfl⟩ := hsk _ S h; cases ho
    · intro e S h; obtain ⟨rfl, rfl⟩ := hsk e S h; trivial
    · intro g hg _ hr; rw [hg0 g hg] at hr; cases hr
    · intro g hg x hx; rw [hg0 g hg] at hx; cases hx
    · intro g hg g' hg' hx; rw [hg0 g hg] at hx; cases hx
    · intro g hg g' hg' S S' o h _ ho; obtain ⟨_, rfl⟩ := hsk _ S h; cases ho
    · intro g hg S o h ho; obtain ⟨_, rfl⟩ := hsk _ S h; cases ho
  · intro e E he _
    cases e with
    | succ e => simp [Spec.init] at he
    | zero =>
      simp [Spec.init] at he
      subst he
      constructor <;> simp [initGhost, initVM, EV_EP, EV_FLAG] <;> grind
  · intro g hg
    rw [hg0 g hg]
    refine ⟨?_, by simp [initVM, initGhost, EV_EP]; omega⟩
    intro S h
    obtain ⟨_, rfl⟩ := hsk _ S h
    simp [initVM]
  · simp [Links, initGhost]
  · refine ⟨rfl, rfl, rfl, rfl, by simp, ⟨false, by simp [initVM, EV_FLAG]; omega, by simp⟩, trivial⟩
  · simp [initGhost, FPc]
  · simp [initVM, STACK_SIZE]
  · refine ⟨rfl, rfl, by simp⟩
  · exact ⟨rfl, by simp [Spec.init]⟩
  · exact ⟨rfl, rfl, rfl⟩
  · intro f hf p hp
    simp [Spec.init] at hf
    subst hf; cases hp
  · intro e E p he hp
    cases e with
    | succ e => simp [Spec.init] at he
    | zero => simp [Spec.init] at he; subst he; cases hp

end Verif.Frame
