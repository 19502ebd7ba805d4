import Verif.Frame.Sim

/-!
# When the stack overflows
-/
namespace Verif.Frame

/-- if the result is a stack overflow then `P` -/
def Ov {A : Type} (r : Except Err A) (P : Prop) : Prop := r = .error .overflow → P

theorem Ov.bind {A B : Type} {r : Except Err A} {f : A → Except Err B} {P : Prop} (h : Ov r P)
    (hf : ∀ a, r = .ok a → Ov (f a) P) : Ov (r >>= f) P := by
  intro h1
  cases hr : r with
  | error e =>
    rw [hr] at h1
    simp only [Bind.bind, Except.bind, Except.error.injEq] at h1
    subst h1
    exact h hr
  | ok a =>
    rw [hr] at h1
    exact hf a hr h1

theorem Ov.ok {A : Type} {a : A} {P : Prop} : Ov (.ok a) P := fun h => by cases h

theorem Ov.fault {A : Type} {P : Prop} : Ov (.error .fault : Except Err A) P := fun h => by cases h

theorem ov_asVal {s P} : Ov (asVal s) P := by unfold asVal; split <;> first | exact Ov.ok | exact Ov.fault
theorem ov_asPtr {s P} : Ov (asPtr s) P := by unfold asPtr; split <;> first | exact Ov.ok | exact Ov.fault
theorem ov_asAddr {s P} : Ov (asAddr s) P := by unfold asAddr; split <;> first | exact Ov.ok | exact Ov.fault
theorem ov_asLen {s P} : Ov (asLen s) P := by unfold asLen; split <;> first | exact Ov.ok | exact Ov.fault
theorem ov_asRuby {s P} : Ov (asRuby s) P := by unfold asRuby; split <;> first | exact Ov.ok | exact Ov.fault
theorem ov_asDiscard {s P} : Ov (asDiscard s) P := by unfold asDiscard; split <;> first | exact Ov.ok | exact Ov.fault
theorem ov_asPc {s P} : Ov (asPc s) P := by unfold asPc; split <;> first | exact Ov.ok | exact Ov.fault
theorem ov_asIseq {s P} : Ov (asIseq s) P := by unfold asIseq; split <;> first | exact Ov.ok | exact Ov.fault
theorem ov_asBlk {s P} : Ov (asBlk s) P := by unfold asBlk; split <;> first | exact Ov.ok | exact Ov.fault

theorem ov_getLfp {m ep P} : Ov (getLfp m ep) P := Ov.bind ov_asLen (fun _ _ => Ov.ok)
theorem ov_prevSp {m ep P} : Ov (prevSp m ep) P := Ov.bind ov_asLen (fun _ _ => Ov.ok)

variable {σ σ' : VM}

theorem ov_push {s} : Ov (σ.push s) (σ.base + STACK_SIZE ≤ σ.sp) := by
  intro h; unfold VM.push at h; split at h
  · cases h
  · omega

theorem push_st {s} (h : σ.push s = .ok σ') : σ'.sp = σ.sp + 1 ∧ σ'.base = σ.base := by
  unfold VM.push at h; split at h
  · cases h; exact ⟨rfl, rfl⟩
  · cases h

theorem pushAll_st {ss} (h : σ.pushAll ss = .ok σ') : σ'.sp = σ.sp + ss.length ∧ σ'.base = σ.base := by
  induction ss generalizing σ with
  | nil => cases h; exact ⟨rfl, rfl⟩
  | cons s ss ih =>
    unfold VM.pushAll at h
    cases h1 : σ.push s with
    | error e => rw [h1] at h; cases h
    | ok τ =>
      rw [h1] at h
      obtain ⟨h2, h3⟩ := push_st h1
      obtain ⟨h4, h5⟩ := ih h
      simp only [List.length_cons]
      exact ⟨by omega, by omega⟩

theorem ov_pushAll {ss} : Ov (σ.pushAll ss) (σ.base + STACK_SIZE < σ.sp + ss.length) := by
  induction ss generalizing σ with
  | nil => exact Ov.ok
  | cons s ss ih =>
    refine Ov.bind ?_ ?_
    · intro h
      have := ov_push h
      simp only [List.length_cons]; omega
    · intro τ h1 h
      obtain ⟨h2, h3⟩ := push_st h1
      have := ih h
      simp only [List.length_cons]; omega

theorem savePc_st (h : σ.savePc = .ok σ') : σ'.sp = σ.sp ∧ σ'.base = σ.base := by
  unfold VM.savePc at h
  cases h1 : asRuby (σ.mem (σ.cfp + EV_FLAG)) with
  | error e => rw [h1] at h; cases h
  | ok b => rw [h1] at h; cases b <;> (cases h; exact ⟨rfl, rfl⟩)

theorem ov_savePc {P} : Ov σ.savePc P := by
  refine Ov.bind ov_asRuby ?_
  intro b _
  cases b <;> exact Ov.ok

theorem setLocals_st {args vs} (h : σ.setLocals args vs = .ok σ') :
    σ'.sp = σ.sp - args + vs.length ∧ σ'.base = σ.base := by
  have := pushAll_st h
  simpa using this

theorem ov_setLocals {args vs} : Ov (σ.setLocals args vs) (σ.base + STACK_SIZE < σ.sp - args + vs.length) := by
  intro h
  have := ov_pushAll h
  simpa using this

theorem ov_pushMethodFrame {u code len b} :
    Ov (σ.pushMethodFrame u code len b) (σ.base + STACK_SIZE < σ.sp + 9) := by
  refine Ov.bind ov_asVal (fun r _ => Ov.bind ov_savePc (fun τ h1 => Ov.bind ?_ (fun τ2 h2 => ?_)))
  · intro h
    obtain ⟨k1, k2⟩ := savePc_st h1
    have := ov_push h
    omega
  · obtain ⟨k1, k2⟩ := savePc_st h1
    obtain ⟨k3, k4⟩ := push_st h2
    refine Ov.bind ?_ (fun τ3 h3 => Ov.bind ?_ (fun _ _ => Ov.ok))
    · intro h
      have := ov_pushAll h
      simp only [List.length_cons, List.length_nil] at this
      omega
    · intro h
      obtain ⟨k5, k6⟩ := pushAll_st h3
      have := ov_pushAll h
      simp only [List.length_cons, List.length_nil] at this k5 k6
      omega

theorem ov_pushBlockFrame {p u o code len} :
    Ov (σ.pushBlockFrame p u o code len) (σ.base + STACK_SIZE < σ.sp + 9) := by
  refine Ov.bind ov_asVal (fun r _ => Ov.bind ov_savePc (fun τ h1 => Ov.bind ?_ (fun τ2 h2 => ?_)))
  · intro h
    obtain ⟨k1, k2⟩ := savePc_st h1
    have := ov_push h
    omega
  · obtain ⟨k1, k2⟩ := savePc_st h1
    obtain ⟨k3, k4⟩ := push_st h2
    refine Ov.bind ov_asAddr (fun mfp _ => Ov.bind ?_ (fun τ3 h3 => Ov.bind ?_ (fun _ _ => Ov.ok)))
    · intro h
      have := ov_pushAll h
      simp only [List.length_cons, List.length_nil] at this
      omega
    · intro h
      obtain ⟨k5, k6⟩ := pushAll_st h3
      have := ov_pushAll h
      simp only [List.length_cons, List.length_nil] at this k5 k6
      omega

theorem ov_pushNativeFrame {n} : Ov (σ.pushNativeFrame n) (σ.base + STACK_SIZE < σ.sp + 4) := by
  refine Ov.bind ?_ (fun s _ => Ov.bind ?_ (fun τ h1 => ?_))
  · intro h
    cases hv : asVal (σ.mem (σ.sp - n - 1)) with
    | error e =>
      rw [hv] at h
      simp only [Except.map, Except.error.injEq] at h
      subst h
      exact (ov_asVal (P := False) hv).elim
    | ok v => rw [hv] at h; cases h
  · intro h
    have := ov_push h
    omega
  · obtain ⟨k1, k2⟩ := push_st h1
    intro h
    have := ov_pushAll h
    simp only [List.length_cons, List.length_nil] at this
    omega

theorem insertBelow_st {args v} (h : σ.insertBelow args v = .ok σ') :
    σ'.sp = σ.sp + 1 ∧ σ'.base = σ.base := by
  unfold VM.insertBelow at h; split at h
  · cases h; exact ⟨rfl, rfl⟩
  · cases h

theorem ov_insertBelow {args v} : Ov (σ.insertBelow args v) (σ.base + STACK_SIZE ≤ σ.sp) := by
  intro h; unfold VM.insertBelow at h; split at h
  · cases h
  · omega

theorem ov_invokeBlock {args code o vs u} :
    Ov (σ.invokeBlock args code o vs u) (σ.base + STACK_SIZE < σ.sp + vs.length + 9) := by
  refine Ov.bind ov_asAddr (fun a _ => Ov.bind ?_ (fun τ h1 => ?_))
  · intro h
    have := ov_setLocals h
    omega
  · intro h
    obtain ⟨k1, k2⟩ := setLocals_st h1
    have := ov_pushBlockFrame h
    omega

theorem ov_enter {args v code o vs u} :
    Ov (do (← σ.insertBelow args v).invokeBlock args code o vs u)
      (σ.base + STACK_SIZE < σ.sp + vs.length + 10) := by
  refine Ov.bind ?_ (fun τ h1 => ?_)
  · intro h
    have := ov_insertBelow h
    omega
  · intro h
    obtain ⟨k1, k2⟩ := insertBelow_st h1
    have := ov_invokeBlock h
    omega

theorem ov_ownBlock {P} : Ov σ.ownBlock P := by
  refine Ov.bind ov_asRuby (fun b _ => ?_)
  cases b
  · simp only [Bool.false_eq_true, if_false]
    split <;> exact Ov.ok
  · exact Ov.bind ov_asAddr (fun _ _ => Ov.bind ov_asAddr (fun _ _ => ov_asBlk))

theorem ov_blockArg {b P} : Ov (σ.blockArg b) P := by
  cases b with
  | own => exact ov_ownBlock
  | _ => exact Ov.ok

theorem ov_blockOuter {b P} : Ov (σ.blockOuter b) P := by
  unfold VM.blockOuter
  split
  · exact Ov.bind ov_asAddr (fun _ _ => Ov.ok)
  · split
    · exact Ov.ok
    · exact Ov.fault
  · exact Ov.ok

theorem ov_dupFrame {c o P} : Ov (σ.dupFrame c o) P := by
  refine Ov.bind ov_asLen (fun _ _ => ?_)
  cases o with
  | none => exact Ov.ok
  | some o => exact Ov.bind ov_asAddr (fun _ _ => Ov.ok)

theorem ov_moveEp {P} : ∀ {fuel : Nat} {σ : VM} {ep : Nat}, Ov (σ.moveEp fuel ep) P := by
  intro fuel
  induction fuel with
  | zero => intro σ ep; exact Ov.fault
  | succ fuel ih =>
    intro σ ep
    unfold VM.moveEp
    split
    · exact Ov.ok
    · refine Ov.bind ov_asPtr (fun o _ => ?_)
      cases o with
      | none =>
        refine Ov.bind Ov.ok (fun x _ => Ov.bind ov_dupFrame (fun y _ => ?_))
        dsimp only
        split
        · exact Ov.bind ov_getLfp (fun _ _ => Ov.ok)
        · exact Ov.ok
      | some o =>
        refine Ov.bind ih (fun _ _ => Ov.bind Ov.ok (fun x _ => Ov.bind ov_dupFrame (fun y _ => ?_)))
        dsimp only
        split
        · exact Ov.bind ov_getLfp (fun _ _ => Ov.ok)
        · exact Ov.ok

theorem ov_procobj {a b c P} : Ov (σ.procobj a b c) P :=
  Ov.bind (Ov.bind ov_asAddr (fun _ _ => ov_moveEp)) (fun _ _ => Ov.ok)

theorem ov_callerCfp {m P} : ∀ {fuel c : Nat}, Ov (callerCfp m fuel c) P := by
  intro fuel
  induction fuel with
  | zero => intro c; exact Ov.fault
  | succ fuel ih =>
    intro c
    refine Ov.bind ov_asAddr (fun p _ => Ov.bind ov_asRuby (fun b _ => ?_))
    cases b
    · exact ih
    · exact Ov.ok

theorem ov_outerFrame {m P} : ∀ {k ep : Nat}, Ov (outerFrame m ep k) P := by
  intro k
  induction k with
  | zero => intro ep; exact Ov.ok
  | succ k ih => intro ep; exact Ov.bind ov_asAddr (fun _ _ => ih)

theorem ov_dynLocal {k P} : Ov (σ.dynLocal k) P :=
  Ov.bind ov_asAddr (fun _ _ => Ov.bind ov_outerFrame (fun _ _ => ov_getLfp))

theorem ov_unwind {P} : Ov σ.unwind P := by
  refine Ov.bind ov_asAddr (fun _ _ => Ov.bind ov_prevSp (fun _ _ => Ov.bind ov_asAddr (fun _ _ =>
    Ov.bind ov_getLfp (fun _ _ => Ov.bind ov_asRuby (fun b _ => ?_)))))
  cases b
  · exact Ov.ok
  · exact Ov.bind ov_asIseq (fun _ _ => Ov.bind ov_asPc (fun _ _ => Ov.ok))

theorem prevSp_lt {m c n} (h : prevSp m c = .ok n) : n ≤ c := by
  unfold prevSp at h
  cases h1 : asLen (m (c + EV_FLAG)) with
  | error e => rw [h1] at h; cases h
  | ok l =>
    rw [h1] at h
    simp only [bind, Except.bind, Except.ok.injEq] at h
    omega

theorem unwind_st (h : σ.unwind = .ok σ') : σ'.sp ≤ σ.cfp ∧ σ'.base = σ.base := by
  unfold VM.unwind at h
  cases h1 : asAddr (σ.mem σ.cfp) with
  | error e => rw [h1] at h; cases h
  | ok c =>
  rw [h1] at h
  simp only [bind, Except.bind] at h
  cases h2 : prevSp σ.mem σ.cfp with
  | error e => rw [h2] at h; cases h
  | ok sp =>
  rw [h2] at h
  have hlt := prevSp_lt h2
  dsimp only at h
  split at h
  · cases h
  · split at h
    · cases h
    · split at h
      · cases h
      · split at h
        · split at h
          · cases h
          · split at h
            · cases h
            · cases h; exact ⟨hlt, rfl⟩
        · cases h; exact ⟨hlt, rfl⟩

theorem unwindNative_st {c} (h : σ.unwindNative c = .ok σ') : σ'.sp ≤ σ.cfp ∧ σ'.base = σ.base := by
  unfold VM.unwindNative at h
  simp only [bind, Except.bind] at h
  cases h2 : prevSp σ.mem σ.cfp with
  | error e => rw [h2] at h; cases h
  | ok sp =>
  rw [h2] at h
  have hlt := prevSp_lt h2
  dsimp only at h
  split at h
  · cases h
  · split at h
    · cases h
    · cases h; exact ⟨hlt, rfl⟩

/-- an upper bound for the number of slots a step needs above the top of the stack -/
def Op.need : Op → Nat
  | .push _ => 1
  | .callMethod _ _ locals _ _ => locals.length + 9
  | .callNative _ _ => 4
  | .callProc _ _ _ locals _ => locals.length + 10
  | .yield _ locals _ => locals.length + 10
  | .iterate _ locals _ => locals.length + 10
  | _ => 0

theorem ov_step {op} : Ov (step σ op) (σ.base + STACK_SIZE < σ.sp + op.need ∨ σ.base + STACK_SIZE ≤ σ.cfp) := by
  cases op with
  | push v =>
    refine Ov.bind ?_ (fun _ _ => Ov.ok)
    intro h; have := ov_push h; simp only [Op.need]; left; omega
  | pop => exact Ov.bind (Ov.bind ov_asVal (fun _ _ => Ov.ok)) (fun _ _ => Ov.ok)
  | jump n => exact Ov.ok
  | self => exact Ov.bind ov_asVal (fun _ _ => Ov.ok)
  | getLocal i => exact Ov.bind ov_asVal (fun _ _ => Ov.ok)
  | setLocal i v => exact Ov.ok
  | getDyn k i => exact Ov.bind ov_dynLocal (fun _ _ => Ov.bind ov_asVal (fun _ _ => Ov.ok))
  | setDyn k i v => exact Ov.bind ov_dynLocal (fun _ _ => Ov.ok)
  | callMethod args code locals u b =>
    refine Ov.bind (Ov.bind ov_blockArg (fun _ _ => Ov.bind ?_ (fun τ h1 => ?_))) (fun _ _ => Ov.ok)
    · intro h; have := ov_setLocals h; simp only [Op.need]; left; omega
    · intro h
      obtain ⟨k1, k2⟩ := setLocals_st h1
      have := ov_pushMethodFrame h
      simp only [Op.need]; left; omega
  | callNative args b =>
    refine Ov.bind (Ov.bind ov_blockArg (fun _ _ => Ov.bind ov_blockOuter (fun _ _ =>
      Ov.bind ov_savePc (fun τ h1 => Ov.bind ?_ (fun _ _ => Ov.ok))))) (fun _ _ => Ov.ok)
    intro h
    obtain ⟨k1, k2⟩ := savePc_st h1
    have := ov_pushNativeFrame h
    simp only [Op.need]; left; omega
  | callProc p s args locals u =>
    refine Ov.bind ?_ (fun _ _ => Ov.ok)
    unfold VM.callProc
    split
    · intro h; left; exact ov_enter h
    · exact Ov.fault
  | yield args locals u =>
    refine Ov.bind ov_ownBlock (fun b _ => ?_)
    cases b with
    | none => exact Ov.fault
    | some b =>
      refine Ov.bind ?_ (fun _ _ => Ov.ok)
      cases b with
      | lit code f =>
        refine Ov.bind ov_asAddr (fun _ _ => Ov.bind ov_asVal (fun _ _ => ?_))
        intro h; left; exact ov_enter h
      | proc p =>
        unfold VM.yieldTo
        dsimp only
        split
        · intro h; left; exact ov_enter h
        · exact Ov.fault
  | iterate args locals u =>
    refine Ov.bind ?_ (fun _ _ => Ov.ok)
    unfold VM.iterate
    split
    · split
      · refine Ov.bind ov_asVal (fun _ _ => ?_)
        intro h; left; exact ov_enter h
      · split
        · intro h; left; exact ov_enter h
        · exact Ov.fault
      · exact Ov.fault
    · exact Ov.fault
  | ret b =>
    refine Ov.bind ov_asDiscard (fun d _ => Ov.bind (Ov.bind ov_asVal (fun _ _ => Ov.ok)) (fun x hx =>
      Ov.bind ov_unwind (fun τ h1 => ?_)))
    obtain ⟨k1, k2⟩ := unwind_st h1
    have hx2 : x.2.cfp = σ.cfp ∧ x.2.base = σ.base := by
      unfold VM.pop at hx
      cases hv : asVal (σ.mem (σ.sp - 1)) with
      | error e => rw [hv] at hx; cases hx
      | ok v => rw [hv] at hx; cases hx; exact ⟨rfl, rfl⟩
    split
    · exact Ov.ok
    · split
      · exact Ov.ok
      · refine Ov.bind ?_ (fun _ _ => Ov.ok)
        intro h
        have := ov_push h
        right; omega
  | raise => exact Ov.bind ov_unwind (fun _ _ => Ov.ok)
  | retNative v =>
    cases hn : σ.natives with
    | nil =>
      simp only [step, hn]
      exact Ov.fault
    | cons n ns =>
      simp only [step, hn]
      refine Ov.bind ?_ (fun τ h1 => ?_)
      · exact Ov.bind ov_prevSp (fun _ _ => Ov.bind ov_asAddr (fun _ _ => Ov.bind ov_getLfp (fun _ _ => Ov.ok)))
      · obtain ⟨k1, k2⟩ := unwindNative_st h1
        cases v with
        | some v =>
          refine Ov.bind ?_ (fun _ _ => Ov.ok)
          intro h
          have := ov_push h
          simp only at this
          right; omega
        | none => exact Ov.ok
  | clear =>
    refine Ov.bind (Ov.bind ov_asRuby (fun b _ => ?_)) (fun _ _ => Ov.ok)
    cases b <;> exact Ov.ok
  | createProc code => exact Ov.bind ov_asVal (fun _ _ => Ov.bind ov_procobj (fun _ _ => Ov.ok))
  | blockToProc =>
    refine Ov.bind ov_ownBlock (fun b _ => ?_)
    cases b with
    | none => exact Ov.fault
    | some b =>
      refine Ov.bind ?_ (fun _ _ => Ov.ok)
      cases b with
      | lit code f => exact Ov.bind ov_asVal (fun _ _ => ov_procobj)
      | proc p => exact Ov.ok
  | binding => exact Ov.bind ov_callerCfp (fun _ _ => Ov.bind ov_procobj (fun _ _ => Ov.ok))

end Verif.Frame
