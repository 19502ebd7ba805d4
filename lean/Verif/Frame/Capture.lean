import Verif.Frame.Pop

/-!
# Moving frames to the heap
-/
namespace Verif.Frame
open Verif.Frame.Spec

/-- As `EnvOK`, but the pointers to other environments may be out of date if `t`. -/
structure EnvW (t : Prop) (m : Nat → Slot) (G : Ghost) (e : Nat) (E : Env) : Prop where
  self : m (G.loc e - 1) = .val E.self
  recv : m (G.loc e - E.vars.length - 2) = .val E.self
  ep : m (G.loc e + EV_EP) = .ptr (some (G.loc e))
  flag : ∃ d, m (G.loc e + EV_FLAG) = .flag E.vars.length E.ruby d
  vars : ∀ (i : Nat) v, E.vars[i]? = some v → m (G.loc e - E.vars.length - 1 + i) = .val v
  mfp : ¬ t → E.ruby = true → m (G.loc e + EV_MFP) = .ptr (some (G.loc E.meth))
  outer : ¬ t → E.ruby = true → m (G.loc e + EV_OUTER) = .ptr (E.outer.map G.loc)
  iseq : E.ruby = true → m (G.loc e + EV_ISEQ) = .iseq E.iseq
  blk : E.ruby = true → m (G.loc e + EV_BLK) = .blk (G.hb e)

/-- As `Inv`, but the environments in `T` may contain out-of-date pointers. -/
structure InvT (T : Nat → Prop) (σ : VM) (α : Mach) (G : Ghost) : Prop where
  sk : α.envs.map Env.sk = G.sk
  shape : Shape σ.base σ.hp G
  envs : ∀ (e : Nat) E, α.envs[e]? = some E → Live G e → EnvW (T e) σ.mem G e E
  ctl : Ctl σ.mem G
  links : Links σ.mem G.gs
  ops : FOps σ.mem σ.sp G.gs α.frames
  pcs : FPc σ.mem G.gs.tail α.frames.tail
  spLe : σ.sp ≤ σ.base + STACK_SIZE
  regs : Regs σ G G.gs α.frames
  procs : Procs G σ.procs α.procs
  nats : Nats σ.base σ.procs G G.gs α.frames σ.natives
  heldP : ∀ f ∈ α.frames, ∀ p, f.held = some (.proc p) → p < α.procs.length
  blkP : ∀ (e : Nat) E p, α.envs[e]? = some E → E.blk = some (.proc p) → p < α.procs.length
  stale : ∀ e, T e → G.cap e = false

variable {σ : VM} {α : Mach} {G : Ghost}

theorem Inv.toT (h : Inv σ α G) : InvT (fun _ => False) σ α G where
  sk := h.sk
  shape := h.shape
  envs := fun e E he hl => by
    have := h.envs e E he hl
    exact ⟨this.self, this.recv, this.ep, this.flag, this.vars, fun _ => this.mfp, fun _ => this.outer,
      this.iseq, this.blk⟩
  ctl := h.ctl
  links := h.links
  ops := h.ops
  pcs := h.pcs
  spLe := h.spLe
  regs := h.regs
  procs := h.procs
  nats := h.nats
  heldP := h.heldP
  blkP := h.blkP
  stale := fun _ h => h.elim

theorem InvT.toInv {T : Nat → Prop} (h : InvT T σ α G) (hT : ∀ e, ¬ T e) : Inv σ α G where
  sk := h.sk
  shape := h.shape
  envs := fun e E he hl => by
    have := h.envs e E he hl
    exact ⟨this.self, this.recv, this.ep, this.flag, this.vars, this.mfp (hT e), this.outer (hT e),
      this.iseq, this.blk⟩
  ctl := h.ctl
  links := h.links
  ops := h.ops
  pcs := h.pcs
  spLe := h.spLe
  regs := h.regs
  procs := h.procs
  nats := h.nats
  heldP := h.heldP
  blkP := h.blkP

theorem InvT.weaken {T T' : Nat → Prop} (h : InvT T σ α G) (hT : ∀ e, T e → T' e)
    (hc : ∀ e, T' e → G.cap e = false) : InvT T' σ α G where
  sk := h.sk
  shape := h.shape
  envs := fun e E he hl => by
    have := h.envs e E he hl
    exact ⟨this.self, this.recv, this.ep, this.flag, this.vars, fun n => this.mfp (fun t => n (hT e t)),
      fun n => this.outer (fun t => n (hT e t)), this.iseq, this.blk⟩
  ctl := h.ctl
  links := h.links
  ops := h.ops
  pcs := h.pcs
  spLe := h.spLe
  regs := h.regs
  procs := h.procs
  nats := h.nats
  heldP := h.heldP
  blkP := h.blkP
  stale := hc

theorem InvT.sk_of {T : Nat → Prop} (h : InvT T σ α G) {e : Nat} {E} (he : α.envs[e]? = some E) :
    G.sk[e]? = some E.sk := by
  rw [← h.sk, List.getElem?_map, he]; rfl

theorem InvT.of_sk {T : Nat → Prop} (h : InvT T σ α G) {e : Nat} {S} (he : G.sk[e]? = some S) :
    ∃ E, α.envs[e]? = some E ∧ E.sk = S := by
  rw [← h.sk, List.getElem?_map] at he
  cases hx : α.envs[e]? with
  | none => rw [hx] at he; simp at he
  | some E => rw [hx] at he; exact ⟨E, rfl, by simpa using he⟩

/-! ## One frame -/

def Ghost.capture (G : Ghost) (e a : Nat) : Ghost :=
  { G with
    cap := fun x => if x = e then true else G.cap x,
    loc := fun x => if x = e then a else G.loc x }

theorem Shape.capture {base hp : Nat} (h : Shape base hp G) {e S} (hS : G.sk[e]? = some S)
    (hr : S.ruby = true) (hc : G.cap e = false) (ho : ∀ o, S.outer = some o → G.cap o = true) :
    Shape base (hp + (S.len + 10)) (G.capture e (hp + S.len + 2)) := by
  have hcm : ∀ x, (G.capture e (hp + S.len + 2)).cap x = false → G.cap x = false := by
    intro x hx
    simp only [Ghost.capture] at hx
    split at hx
    · cases hx
    · exact hx
  have hcm' : ∀ x, G.cap x = true → (G.capture e (hp + S.len + 2)).cap x = true := by
    intro x hx
    simp only [Ghost.capture]
    split
    · rfl
    · exact hx
  constructor
  · exact h.base1
  · have := h.hpLo; omega
  · exact h.frame
  · exact h.room
  · exact h.sep
  · exact h.inj
  · intro g hg hcap
    simp only [Ghost.capture] at hcap ⊢
    split at hcap
    · cases hcap
    · rename_i hne
      rw [if_neg hne]
      exact h.own g hg hcap
  · intro x hx
    by_cases hxe : x = e
    · subst hxe
      refine ⟨S, hS, hr, ?_, ?_, ?_, ?_⟩
      · simp only [Ghost.capture, if_pos]; have := h.hpLo; omega
      · simp only [Ghost.capture, if_pos]; omega
      · intro o hoo; exact hcm' o (ho o hoo)
      · cases hout : S.outer with
        | none => rw [h.root x S hS hout]; simp [Ghost.capture]
        | some o =>
          obtain ⟨_, _, O, h2, _, h3⟩ := h.tree x S o hS hout
          obtain ⟨O', h4, _, _, _, _, h5⟩ := h.caps o (ho o hout)
          rw [h2] at h4; cases h4
          rw [h3]; exact hcm' _ h5
    · have hcx : G.cap x = true := by simpa [Ghost.capture, hxe] using hx
      obtain ⟨S', h1, h2, h3, h4, h5, h6⟩ := h.caps x hcx
      refine ⟨S', h1, h2, ?_, ?_, fun o ho => hcm' o (h5 o ho), hcm' _ h6⟩
      · simpa [Ghost.capture, hxe] using h3
      · simp only [Ghost.capture, if_neg hxe]; omega
  · intro x y Sx Sy hx hy hne hSx hSy
    by_cases hxe : x = e <;> by_cases hye : y = e
    · exact absurd (hxe.trans hye.symm) hne
    · right
      subst hxe
      have hcy : G.cap y = true := by simpa [Ghost.capture, hye] using hy
      obtain ⟨S', h1, h2, h3, h4, _⟩ := h.caps y hcy
      have h0 : G.sk[x]? = some Sx := hSx
      rw [hS] at h0; cases h0
      simp only [Ghost.capture, if_pos, if_neg hye]
      omega
    · left
      subst hye
      have hcx : G.cap x = true := by simpa [Ghost.capture, hxe] using hx
      obtain ⟨S', h1, h2, h3, h4, _⟩ := h.caps x hcx
      have h0 : G.sk[y]? = some Sy := hSy
      rw [hS] at h0; cases h0
      simp only [Ghost.capture, if_pos, if_neg hxe]
      omega
    · have hcx : G.cap x = true := by simpa [Ghost.capture, hxe] using hx
      have hcy : G.cap y = true := by simpa [Ghost.capture, hye] using hy
      simp only [Ghost.capture, if_neg hxe, if_neg hye]
      exact h.capSep x y Sx Sy hcx hcy hne hSx hSy
  · exact h.root
  · exact h.tree
  · intro g hg S' o hS' ho'
    rcases h.outerLive g hg S' o hS' ho' with h1 | h1
    · exact Or.inl (hcm' o h1)
    · exact Or.inr h1
  · exact h.hbs
  · exact h.handle
  · exact h.accLive
  · exact h.accTrans
  · intro g hg g' hg' Sg Sg' o h1 h2 h3 h4 h5
    exact h.only g hg g' hg' Sg Sg' o h1 h2 h3 h4 (hcm o h5)
  · intro g hg Sg o h1 h2 h3
    exact h.noAcc g hg Sg o h1 h2 (hcm o h3)

/-- The memory after `dup_frame`. -/
structure Dup (m m' : Nat → Slot) (cur hp n ep mfp : Nat) (outer : Option Nat) : Prop where
  old : ∀ x, x < hp → x ≠ cur + EV_EP → x ≠ cur + EV_MFP → x ≠ cur + EV_OUTER → m' x = m x
  copy : ∀ j, j < n + 10 → j ≠ n + 2 + EV_EP → j ≠ n + 2 + EV_MFP → j ≠ n + 2 + EV_OUTER →
    m' (hp + j) = m (cur - n - 2 + j)
  ep1 : m' (cur + EV_EP) = .ptr (some ep)
  ep2 : m' (ep + EV_EP) = .ptr (some ep)
  mfp1 : m' (cur + EV_MFP) = .ptr (some mfp)
  mfp2 : m' (ep + EV_MFP) = .ptr (some mfp)
  out1 : m' (cur + EV_OUTER) = .ptr outer
  out2 : m' (ep + EV_OUTER) = .ptr outer

theorem dupFrame_ok {σ : VM} {cur n r d} {outer : Option Nat} {mfp : Nat}
    (hf : σ.mem (cur + EV_FLAG) = .flag n r d) (hlt : cur + 8 ≤ σ.hp)
    (hmfp : match outer with
      | none => mfp = σ.hp + n + 2
      | some o => σ.mem (o + EV_MFP) = .ptr (some mfp) ∧ o + 8 ≤ σ.hp ∧ cur + 8 ≤ o) :
    ∃ m', σ.dupFrame cur outer = .ok (σ.hp + n + 2, { σ with mem := m', hp := σ.hp + (n + 10) }) ∧
      Dup σ.mem m' cur σ.hp n (σ.hp + n + 2) mfp outer := by
  refine ⟨upd (upd (upd (upd (upd (upd (copySlots σ.mem (cur - n - 2) σ.hp (n + 10))
    (σ.hp + n + 2 + EV_EP) (.ptr (some (σ.hp + n + 2)))) (cur + EV_EP) (.ptr (some (σ.hp + n + 2))))
    (σ.hp + n + 2 + EV_MFP) (.ptr (some mfp))) (cur + EV_MFP) (.ptr (some mfp)))
    (σ.hp + n + 2 + EV_OUTER) (.ptr outer)) (cur + EV_OUTER) (.ptr outer), ?_, ?_⟩
  · cases outer with
    | none =>
      dsimp only at hmfp
      subst hmfp
      simp only [VM.dupFrame, hf, asLen, bind, Except.bind, CONT_FRAME_LEN, RUBY_FRAME_LEN]
    | some o =>
      dsimp only at hmfp
      obtain ⟨h1, h2, h3⟩ := hmfp
      have : upd (upd (copySlots σ.mem (cur - n - 2) σ.hp (n + 10))
          (σ.hp + n + 2 + EV_EP) (.ptr (some (σ.hp + n + 2)))) (cur + EV_EP)
          (.ptr (some (σ.hp + n + 2))) (o + EV_MFP) = .ptr (some mfp) := by
        unfold EV_EP EV_MFP at *
        rw [upd_ne _ _ (by omega), upd_ne _ _ (by omega)]
        unfold copySlots
        rw [if_neg (by omega)]
        exact h1
      simp only [VM.dupFrame, hf, asLen, bind, Except.bind, CONT_FRAME_LEN, RUBY_FRAME_LEN]
      rw [show n + 2 + 3 + 5 = n + 10 from by omega, this]
      rfl
  · unfold EV_EP EV_MFP EV_OUTER
    constructor
    · intro x h1 h2 h3 h4
      unfold EV_EP at h2
      unfold EV_MFP at h3
      unfold EV_OUTER at h4
      rw [upd_ne _ _ (by omega), upd_ne _ _ (by omega), upd_ne _ _ (by omega), upd_ne _ _ (by omega),
        upd_ne _ _ (by omega), upd_ne _ _ (by omega)]
      unfold copySlots
      rw [if_neg (by omega)]
    · intro j h1 h2 h3 h4
      unfold EV_EP at h2
      unfold EV_MFP at h3
      unfold EV_OUTER at h4
      rw [upd_ne _ _ (by omega), upd_ne _ _ (by omega), upd_ne _ _ (by omega), upd_ne _ _ (by omega),
        upd_ne _ _ (by omega), upd_ne _ _ (by omega)]
      unfold copySlots
      rw [if_pos (by omega)]
      congr 1; omega
    all_goals simp only [EV_EP, EV_MFP, EV_OUTER]
    · rw [upd_ne _ _ (by omega), upd_ne _ _ (by omega), upd_ne _ _ (by omega), upd_ne _ _ (by omega),
        upd_same]
    · rw [upd_ne _ _ (by omega), upd_ne _ _ (by omega), upd_ne _ _ (by omega), upd_ne _ _ (by omega),
        upd_ne _ _ (by omega), upd_same]
    · rw [upd_ne _ _ (by omega), upd_ne _ _ (by omega), upd_same]
    · rw [upd_ne _ _ (by omega), upd_ne _ _ (by omega), upd_ne _ _ (by omega), upd_same]
    · rw [upd_same]
    · rw [upd_ne _ _ (by omega), upd_same]

theorem InvT.capture1 {T : Nat → Prop} (h : InvT T σ α G) {g0} (hg0 : g0 ∈ G.gs) {E}
    (hE : α.envs[g0.env]? = some E) (hr : E.ruby = true) (hc : G.cap g0.env = false)
    (ho : ∀ o, E.outer = some o → G.cap o = true)
    (hT : ∀ (e : Nat) S, G.sk[e]? = some S → Live G e → G.cap e = false → e ≠ g0.env →
      (S.outer = some g0.env ∨ S.meth = g0.env) → T e) :
    ∃ σ', (do
        let (heapEp, σ) ← σ.dupFrame g0.c (E.outer.map G.loc)
        if σ.cfp = g0.c then .ok (heapEp, { σ with lfp := ← getLfp σ.mem heapEp })
        else .ok (heapEp, σ)) = Except.ok (σ.hp + g0.n + 2, σ') ∧
      InvT (fun x => T x ∧ x ≠ g0.env) σ' α (G.capture g0.env (σ.hp + g0.n + 2)) ∧
      σ'.procs = σ.procs ∧ σ'.base = σ.base ∧ σ'.natives = σ.natives ∧ σ'.cfp = σ.cfp ∧ σ'.sp = σ.sp ∧
      σ'.pc = σ.pc ∧ σ'.iseq = σ.iseq := by
  have hs := h.shape
  have hS := h.sk_of hE
  obtain ⟨S0, s1, s2, s3⟩ := hs.frame g0 hg0
  rw [hS] at s1; cases s1
  have s2 : E.vars.length = g0.n := s2
  have hgr : g0.ruby = true := s3.symm.trans hr
  have hloc := hs.own g0 hg0 hc
  have hroom := hs.room g0 hg0
  rw [hgr] at hroom
  simp only [hdr_true] at hroom
  have hlive : Live G g0.env := Or.inr ⟨g0, hg0, rfl⟩
  have h0 := h.envs _ _ hE hlive
  obtain ⟨d, hfl⟩ := h0.flag
  rw [hloc, s2, hr] at hfl
  have hhp := hs.hpLo
  -- the environment of the method
  have hmeth : E.meth = g0.env ∧ E.outer = none ∨ (∃ o O, E.outer = some o ∧ α.envs[o]? = some O ∧
      G.cap o = true ∧ E.meth = O.meth ∧ G.cap E.meth = true ∧ O.ruby = true) := by
    cases hout : E.outer with
    | none => exact Or.inl ⟨hs.root _ _ hS hout, rfl⟩
    | some o =>
      right
      obtain ⟨_, _, O, h2, h3, h4⟩ := hs.tree _ _ o hS hout
      obtain ⟨O', hO, rfl⟩ := h.of_sk h2
      have hco := ho o hout
      obtain ⟨O2, h5, _, _, _, _, h6⟩ := hs.caps o hco
      rw [h2] at h5; cases h5
      exact ⟨o, O', rfl, hO, hco, h4, by
        have : E.meth = O'.meth := h4
        rw [this]; exact h6, h3⟩
  obtain ⟨mfp, hmfp, hmfpv⟩ : ∃ mfp, (match E.outer.map G.loc with
      | none => mfp = σ.hp + g0.n + 2
      | some o => σ.mem (o + EV_MFP) = .ptr (some mfp) ∧ o + 8 ≤ σ.hp ∧ g0.c + 8 ≤ o) ∧
      mfp = (G.capture g0.env (σ.hp + g0.n + 2)).loc E.meth := by
    rcases hmeth with ⟨h1, h2⟩ | ⟨o, O, h1, h2, h3, h4, h5, h6⟩
    · refine ⟨σ.hp + g0.n + 2, ?_, ?_⟩
      · rw [h2]; rfl
      · rw [h1]; simp [Ghost.capture]
    · refine ⟨G.loc E.meth, ?_, ?_⟩
      · rw [h1]
        dsimp only [Option.map]
        have hO := h.envs o O h2 (Or.inl h3)
        have hnt : ¬ T o := by intro ht; have := h.stale o ht; rw [h3] at this; cases this
        obtain ⟨S', k1, k2, k3, k4, _⟩ := hs.caps o h3
        refine ⟨?_, k4, by omega⟩
        rw [hO.mfp hnt h6, ← h4]
      · have : E.meth ≠ g0.env := by intro hx; rw [hx, hc] at h5; cases h5
        simp [Ghost.capture, this]
  obtain ⟨m', e1, hd⟩ := dupFrame_ok (σ := σ) (cur := g0.c) (n := g0.n) (r := true) (d := d)
    (outer := E.outer.map G.loc) (mfp := mfp) hfl (by omega) hmfp
  -- the slots that change
  have hold : ∀ x, x < σ.hp → x ≠ g0.c + 1 → x ≠ g0.c + 3 → x ≠ g0.c + 4 → m' x = σ.mem x := hd.old
  have hshape := hs.capture hS hr hc ho
  have hlen : E.sk.len = g0.n := s2
  rw [hlen] at hshape
  -- the new frame
  have hEnew : EnvW (T g0.env ∧ g0.env ≠ g0.env) m' (G.capture g0.env (σ.hp + g0.n + 2)) g0.env E := by
    have hl1 : (G.capture g0.env (σ.hp + g0.n + 2)).loc g0.env = σ.hp + g0.n + 2 := by
      simp [Ghost.capture]
    have hcopy : ∀ j, j < g0.n + 10 → j ≠ g0.n + 3 → j ≠ g0.n + 5 → j ≠ g0.n + 6 →
        m' (σ.hp + j) = σ.mem (g0.c - g0.n - 2 + j) := hd.copy
    constructor
    · rw [hl1]
      have := hcopy (g0.n + 1) (by omega) (by omega) (by omega) (by omega)
      rw [show σ.hp + g0.n + 2 - 1 = σ.hp + (g0.n + 1) by omega, this,
        show g0.c - g0.n - 2 + (g0.n + 1) = g0.c - 1 by omega, ← hloc]
      exact h0.self
    · rw [hl1, s2]
      have := hcopy 0 (by omega) (by omega) (by omega) (by omega)
      rw [show σ.hp + g0.n + 2 - g0.n - 2 = σ.hp + 0 by omega, this]
      have h2 := h0.recv
      rw [hloc, s2] at h2
      exact h2
    · rw [hl1]; exact hd.ep2
    · rw [hl1]
      refine ⟨d, ?_⟩
      have := hcopy (g0.n + 4) (by omega) (by omega) (by omega) (by omega)
      rw [show σ.hp + g0.n + 2 + EV_FLAG = σ.hp + (g0.n + 4) by unfold EV_FLAG; omega, this,
        show g0.c - g0.n - 2 + (g0.n + 4) = g0.c + EV_FLAG by unfold EV_FLAG; omega, hfl, s2, hr]
    · intro i v hv
      have hi := (List.getElem?_eq_some_iff.1 hv).1
      rw [hl1, s2]
      rw [s2] at hi
      have := hcopy (1 + i) (by omega) (by omega) (by omega) (by omega)
      rw [show σ.hp + g0.n + 2 - g0.n - 1 + i = σ.hp + (1 + i) by omega, this]
      have h2 := h0.vars i v hv
      rw [hloc, s2] at h2
      rw [← h2]; congr 1; omega
    · intro _ _
      rw [hl1, hd.mfp2, hmfpv]
    · intro _ _
      rw [hl1, hd.out2]
      cases hout : E.outer with
      | none => rfl
      | some o =>
        have : o ≠ g0.env := by intro hx; have := ho o hout; rw [hx, hc] at this; cases this
        simp [Ghost.capture, this]
    · intro _
      rw [hl1]
      have := hcopy (g0.n + 8) (by omega) (by omega) (by omega) (by omega)
      rw [show σ.hp + g0.n + 2 + EV_ISEQ = σ.hp + (g0.n + 8) by unfold EV_ISEQ; omega, this,
        show g0.c - g0.n - 2 + (g0.n + 8) = g0.c + EV_ISEQ by unfold EV_ISEQ; omega, ← hloc]
      exact h0.iseq hr
    · intro _
      rw [hl1]
      have := hcopy (g0.n + 9) (by omega) (by omega) (by omega) (by omega)
      rw [show σ.hp + g0.n + 2 + EV_BLK = σ.hp + (g0.n + 9) by unfold EV_BLK; omega, this,
        show g0.c - g0.n - 2 + (g0.n + 9) = g0.c + EV_BLK by unfold EV_BLK; omega, ← hloc]
      exact h0.blk hr
  -- the other environments
  have hEold : ∀ (e : Nat) E', e ≠ g0.env → α.envs[e]? = some E' → Live G e →
      EnvW (T e ∧ e ≠ g0.env) m' (G.capture g0.env (σ.hp + g0.n + 2)) e E' := by
    intro e E' hne he hl
    have hS' := h.sk_of he
    have hroom' := hs.live_room hl hS'
    have hd' := hs.disj hl hlive hne hS' hS
    have hk := h.envs e E' he hl
    simp only [Env.sk] at hroom' hd'
    rw [hloc, hr, s2] at hd'
    simp only [hdr_true] at hd'
    have hbnd : G.loc e + hdr E'.ruby ≤ σ.hp := by
      by_cases hce : G.cap e = true
      · obtain ⟨S', k1, k2, k3, k4, _⟩ := hs.caps e hce
        have := hdr_le E'.ruby
        omega
      · rcases hl with hl | ⟨g, hg, rfl⟩
        · exact absurd hl hce
        · obtain ⟨S2, t1, t2, t3⟩ := hs.frame g hg
          rw [hS'] at t1; cases t1
          rw [hs.own g hg (by simpa using hce)]
          have := (hs.room g hg).2.2
          have t3 : E'.ruby = g.ruby := t3
          rw [t3]; omega
    have hl1 : (G.capture g0.env (σ.hp + g0.n + 2)).loc e = G.loc e := by simp [Ghost.capture, hne]
    have hkeep : ∀ x, G.loc e - E'.vars.length - 2 ≤ x → x < G.loc e + hdr E'.ruby →
        m' x = σ.mem x := by
      intro x a1 a2
      apply hold x (by omega) <;> omega
    have h3 := hdr_ge E'.ruby
    have hlocs : ∀ x, G.loc x = (G.capture g0.env (σ.hp + g0.n + 2)).loc x ∨ x = g0.env := by
      intro x
      by_cases hx : x = g0.env
      · exact Or.inr hx
      · left; simp [Ghost.capture, hx]
    have hnot : ¬ (T e ∧ e ≠ g0.env) → E'.meth ≠ g0.env ∧ E'.outer ≠ some g0.env := by
      intro hnt
      have hnt : ¬ T e := fun t => hnt ⟨t, hne⟩
      by_cases hce : G.cap e = true
      · obtain ⟨S2, t1, _, _, _, t2, t3⟩ := hs.caps e hce
        rw [hS'] at t1; cases t1
        constructor
        · intro hx
          have : E'.sk.meth = g0.env := hx
          rw [this, hc] at t3; cases t3
        · intro hx
          have := t2 g0.env hx
          rw [hc] at this; cases this
      · have hce : G.cap e = false := by simpa using hce
        constructor
        · intro hx
          exact hnt (hT e _ hS' hl hce hne (Or.inr hx))
        · intro hx
          exact hnt (hT e _ hS' hl hce hne (Or.inl hx))
    constructor
    · rw [hl1, hkeep _ (by omega) (by omega)]; exact hk.self
    · rw [hl1, hkeep _ (by omega) (by omega)]; exact hk.recv
    · rw [hl1, hkeep _ (by omega) (by simp [EV_EP]; omega)]; exact hk.ep
    · rw [hl1, hkeep _ (by omega) (by simp [EV_FLAG]; omega)]; exact hk.flag
    · intro i v hv
      have hi := (List.getElem?_eq_some_iff.1 hv).1
      rw [hl1, hkeep _ (by omega) (by omega)]; exact hk.vars i v hv
    · intro hnt hr'
      rw [hl1, hkeep _ (by omega) (by rw [hr']; simp [EV_MFP])]
      rw [hk.mfp (fun t => hnt ⟨t, hne⟩) hr']
      rcases hlocs E'.meth with hx | hx
      · rw [hx]
      · exact absurd hx (hnot hnt).1
    · intro hnt hr'
      rw [hl1, hkeep _ (by omega) (by rw [hr']; simp [EV_OUTER])]
      rw [hk.outer (fun t => hnt ⟨t, hne⟩) hr']
      cases hout : E'.outer with
      | none => rfl
      | some o =>
        rcases hlocs o with hx | hx
        · simp [hx]
        · rw [hx] at hout; exact absurd hout (hnot hnt).2
    · intro hr'
      rw [hl1, hkeep _ (by omega) (by rw [hr']; simp [EV_ISEQ])]; exact hk.iseq hr'
    · intro hr'
      rw [hl1, hkeep _ (by omega) (by rw [hr']; simp [EV_BLK])]; exact hk.blk hr'
  -- registers
  obtain ⟨g, gs, hg⟩ : ∃ g gs, G.gs = g :: gs := by
    have := h.regs
    cases hG : G.gs with
    | nil => rw [hG] at hg0; cases hg0
    | cons g gs => exact ⟨g, gs, rfl⟩
  have hgm : g ∈ G.gs := by rw [hg]; exact List.mem_cons_self ..
  obtain ⟨f, fs, hf⟩ : ∃ f fs, α.frames = f :: fs := by
    have := h.regs
    rw [hg] at this
    cases hF : α.frames with
    | nil => rw [hF] at this; exact this.elim
    | cons f fs => exact ⟨f, fs, rfl⟩
  have hrg := h.regs
  rw [hf, hg] at hrg
  have mk : ∀ lfp', lfp' + g.n + 1 = (G.capture g0.env (σ.hp + g0.n + 2)).loc g.env →
      InvT (fun x => T x ∧ x ≠ g0.env)
        { σ with mem := m', hp := σ.hp + (g0.n + 10), lfp := lfp' } α
        (G.capture g0.env (σ.hp + g0.n + 2)) := by
    intro lfp' hlfp'
    have hcapm : ∀ e, G.cap e = true → (G.capture g0.env (σ.hp + g0.n + 2)).cap e = true ∧
        (G.capture g0.env (σ.hp + g0.n + 2)).loc e = G.loc e := by
      intro e he
      have : e ≠ g0.env := by intro hx; rw [hx, hc] at he; cases he
      simp [Ghost.capture, this, he]
    constructor
    · exact h.sk
    · exact hshape
    · intro e E' he hl
      by_cases hee : e = g0.env
      · subst hee
        rw [hE] at he; cases he
        exact hEnew
      · refine hEold e E' hee he ?_
        rcases hl with hl | hl
        · left; simpa [Ghost.capture, hee] using hl
        · exact Or.inr hl
    · intro a ha
      have hra := hs.room a ha
      have h3 := hdr_ge a.ruby
      obtain ⟨c1, c2⟩ := h.ctl a ha
      have hne : ∀ x, a.c - 1 ≤ x → x < a.c + 3 → a ≠ g0 → m' x = σ.mem x := by
        intro x b1 b2 b3
        rcases hs.lt_or ha hg0 with hx | hx | hx
        · exact absurd hx b3
        · rw [hgr] at hx; simp at hx
          apply hold x (by omega) <;> omega
        · apply hold x (by omega) <;> omega
      by_cases hag : a = g0
      · subst hag
        constructor
        · intro S hS1
          dsimp only
          rw [hold _ (by omega) (by omega) (by omega) (by omega)]
          exact c1 S hS1
        · refine hd.ep1.trans ?_
          simp [Ghost.capture]
      · constructor
        · intro S hS1
          dsimp only
          rw [hne _ (by omega) (by omega) hag]
          exact c1 S hS1
        · dsimp only
          rw [hne _ (by unfold EV_EP; omega) (by unfold EV_EP; omega) hag, c2]
          have : a.env ≠ g0.env := fun hx => hag (hs.inj a ha g0 hg0 hx)
          simp [Ghost.capture, this]
    · refine Links_congr h.links ?_
      intro a ha
      have hra := hs.room a ha
      have h3 := hdr_ge a.ruby
      rcases hs.lt_or ha hg0 with rfl | hx | hx
      · apply hold _ (by omega) <;> omega
      · rw [hgr] at hx; simp at hx
        apply hold _ (by omega) <;> omega
      · apply hold _ (by omega) <;> omega
    · refine FOps_congr h.ops ?_
      intro x hx
      have h1 := InOps_lt hs hx h.spLe
      have h2 := not_inOps hs hx hg0
      rw [hgr] at h2
      simp only [EV_FLAG, hdr_true, GF.p] at h2
      apply hold x (by omega) <;> omega
    · refine FPc_congr h.pcs ?_
      intro a ha har
      have ha' := List.mem_of_mem_tail ha
      have hra := hs.room a ha'
      rw [har] at hra
      simp only [hdr_true] at hra
      unfold EV_PC
      rcases hs.lt_or ha' hg0 with rfl | hx | hx
      · apply hold _ (by omega) <;> omega
      · rw [hgr] at hx; simp at hx
        apply hold _ (by omega) <;> omega
      · rw [har] at hx; simp at hx
        apply hold _ (by omega) <;> omega
    · exact h.spLe
    · show Regs _ _ G.gs α.frames
      rw [hf, hg]
      refine ⟨hrg.1, hlfp', hrg.2.2⟩
    · exact Procs_mono h.procs hcapm
    · exact Nats_mono h.nats (fun _ _ h => h) (fun _ _ h => h) hcapm
    · exact h.heldP
    · exact h.blkP
    · intro e he
      simp [Ghost.capture, he.2, h.stale e he.1]
  have hep2 : m' (σ.hp + g0.n + 2 + EV_FLAG) = .flag g0.n true d := by
    have := hd.copy (g0.n + 4) (by omega) (by unfold EV_EP; omega) (by unfold EV_MFP; omega)
      (by unfold EV_OUTER; omega)
    rw [show σ.hp + g0.n + 2 + EV_FLAG = σ.hp + (g0.n + 4) by unfold EV_FLAG; omega, this, ← hfl]
    congr 1; unfold EV_FLAG; omega
  by_cases hcf : σ.cfp = g0.c
  · have hgg : g = g0 := hs.eq_of_c hgm hg0 (hrg.1.symm.trans hcf)
    refine ⟨{ σ with mem := m', hp := σ.hp + (g0.n + 10), lfp := σ.hp + g0.n + 2 - g0.n - 1 }, ?_,
      mk _ ?_, rfl, rfl, rfl, rfl, rfl, rfl, rfl⟩
    · simp only [e1, bind, Except.bind, hcf, if_true, getLfp, hep2, asLen]
    · rw [hgg]; simp only [Ghost.capture, if_true]; omega
  · refine ⟨{ σ with mem := m', hp := σ.hp + (g0.n + 10) }, ?_, mk σ.lfp ?_, rfl, rfl, rfl, rfl, rfl, rfl,
      rfl⟩
    · simp only [e1, bind, Except.bind, hcf, if_false]
    · have : g.env ≠ g0.env := by
        intro hx
        have := hs.inj g hgm g0 hg0 hx
        exact hcf (by rw [hrg.1, this])
      simp only [Ghost.capture, if_neg this]
      exact hrg.2.1

/-! ## A chain of frames -/

/-- The environments that a capture of `e` moves, innermost first. -/
inductive Ch (G : Ghost) : Nat → List Nat → Prop
  | cap {e} : G.cap e = true → Ch G e []
  | root {e g S} : g ∈ G.gs → g.env = e → G.sk[e]? = some S → S.ruby = true → G.cap e = false →
      S.outer = none → Ch G e [e]
  | step {e g S o l} : g ∈ G.gs → g.env = e → G.sk[e]? = some S → S.ruby = true → G.cap e = false →
      S.outer = some o → Ch G o l → Ch G e (e :: l)

theorem Ch.exists {base hp : Nat} (h : Shape base hp G) {e S} (hl : Live G e)
    (hS : G.sk[e]? = some S) (hr : S.ruby = true) : ∃ l, Ch G e l := by
  induction e using Nat.strongRecOn generalizing S with
  | ind e ih =>
    by_cases hc : G.cap e = true
    · exact ⟨[], .cap hc⟩
    · rcases hl with hl | ⟨g, hg, rfl⟩
      · exact absurd hl hc
      · have hc : G.cap g.env = false := by simpa using hc
        cases ho : S.outer with
        | none => exact ⟨_, .root hg rfl hS hr hc ho⟩
        | some o =>
          obtain ⟨_, h1, O, h2, h3, _⟩ := h.tree _ _ o hS ho
          have hlo : Live G o := by
            rcases h.outerLive g hg S o hS ho with h4 | ⟨g', h4, h5, _⟩
            · exact Or.inl h4
            · exact Or.inr ⟨g', h4, h5⟩
          obtain ⟨l, hl⟩ := ih o h1 hlo h2 h3
          exact ⟨_, .step hg rfl hS hr hc ho hl⟩

theorem Ch.le {base hp : Nat} (h : Shape base hp G) {e l} (hl : Ch G e l) : ∀ x ∈ l, x ≤ e := by
  induction hl with
  | cap _ => simp
  | root => simp
  | step hg he hS hr hc ho _ ih =>
    intro x hx
    rcases List.mem_cons.1 hx with rfl | hx
    · exact Nat.le_refl _
    · have := ih x hx
      have := (h.tree _ _ _ hS ho).2.1
      omega

theorem Ch.uncap {e l} (hl : Ch G e l) : ∀ x ∈ l, G.cap x = false ∧ ∃ g ∈ G.gs, g.env = x := by
  induction hl with
  | cap _ => simp
  | root hg he hS hr hc ho =>
    intro x hx
    rw [List.mem_singleton] at hx
    subst hx
    exact ⟨hc, _, hg, he⟩
  | step hg he hS hr hc ho _ ih =>
    intro x hx
    rcases List.mem_cons.1 hx with rfl | hx
    · exact ⟨hc, _, hg, he⟩
    · exact ih x hx

theorem Ch.pred {e l} (hl : Ch G e l) : ∀ y ∈ l, y = e ∨ ∃ z ∈ l, ∃ S, G.sk[z]? = some S ∧
    S.outer = some y := by
  induction hl with
  | cap _ => simp
  | root => intro y hy; left; simpa using hy
  | step hg he hS hr hc ho _ ih =>
    intro y hy
    rcases List.mem_cons.1 hy with rfl | hy
    · exact Or.inl rfl
    · right
      rcases ih y hy with h1 | ⟨z, h1, h2⟩
      · subst h1
        exact ⟨_, List.mem_cons_self .., _, hS, ho⟩
      · exact ⟨z, List.mem_cons_of_mem _ h1, h2⟩

/-- `G'` is `G` after the environments in `l` have been moved. -/
structure Ext (G G' : Ghost) (l : List Nat) : Prop where
  gs : G'.gs = G.gs
  sk : G'.sk = G.sk
  hb : G'.hb = G.hb
  cap : ∀ x, G'.cap x = true ↔ G.cap x = true ∨ x ∈ l
  loc : ∀ x, x ∉ l → G'.loc x = G.loc x

/-- registers that a capture does not change -/
structure Same (σ σ' : VM) : Prop where
  procs : σ'.procs = σ.procs
  base : σ'.base = σ.base
  natives : σ'.natives = σ.natives
  cfp : σ'.cfp = σ.cfp
  sp : σ'.sp = σ.sp
  pc : σ'.pc = σ.pc
  iseq : σ'.iseq = σ.iseq

theorem Same.rfl {σ : VM} : Same σ σ := ⟨_root_.rfl, _root_.rfl, _root_.rfl, _root_.rfl, _root_.rfl, _root_.rfl, _root_.rfl⟩

theorem Same.trans {a b c : VM} (h : Same a b) (k : Same b c) : Same a c :=
  ⟨k.1.trans h.1, k.2.trans h.2, k.3.trans h.3, k.4.trans h.4, k.5.trans h.5, k.6.trans h.6,
    k.7.trans h.7⟩

theorem InvT.move : ∀ (fuel : Nat) {σ : VM} {G : Ghost} {T : Nat → Prop} {e : Nat} {l : List Nat},
    InvT T σ α G → Ch G e l → 1 ≤ fuel → (G.cap e = false → ∀ g ∈ G.gs, g.env = e → g.c + 1 ≤ fuel) →
    (∀ x ∈ l, ¬ T x) →
    (∀ (e' : Nat) S, G.sk[e']? = some S → Live G e' → G.cap e' = false → e' ∉ l →
      ∀ x ∈ l, (S.outer = some x ∨ S.meth = x) → T e') →
    ∃ σ' G', σ.moveEp fuel (G.loc e) = .ok (G'.loc e, σ') ∧ InvT T σ' α G' ∧ Ext G G' l ∧ Same σ σ' := by
  intro fuel
  induction fuel with
  | zero => intro _ _ _ _ _ _ _ h; omega
  | succ fuel ih =>
    intro σ G T e l h hl _ hfuel hnT hA
    have hs := h.shape
    -- the tail of the computation
    have fin : ∀ (g : GF) (S : Sk) (σ1 : VM) (G1 : Ghost) (l1 : List Nat), g ∈ G.gs → g.env = e →
        G.sk[e]? = some S → S.ruby = true → G.cap e = false → l = e :: l1 → e ∉ l1 →
        InvT (fun x => T x ∨ x = e) σ1 α G1 → Ext G G1 l1 → Same σ σ1 →
        (∀ o, S.outer = some o → G1.cap o = true) →
        ∃ σ' G', (do
          let (heapEp, σ) ← σ1.dupFrame (G.loc e) (S.outer.map G1.loc)
          if σ.cfp = G.loc e then .ok (heapEp, { σ with lfp := ← getLfp σ.mem heapEp })
          else .ok (heapEp, σ)) = Except.ok (G'.loc e, σ') ∧ InvT T σ' α G' ∧ Ext G G' l ∧ Same σ σ' := by
      intro g S σ1 G1 l1 hg he hS hr hc hl1 hne h1 hx hsm ho
      subst he
      have hc1 : G1.cap g.env = false := by
        cases hq : G1.cap g.env with
        | false => rfl
        | true =>
          rcases (hx.cap _).1 hq with h2 | h2
          · rw [hc] at h2; cases h2
          · exact absurd h2 hne
      obtain ⟨E, hE, rfl⟩ := h.of_sk hS
      have hg1 : g ∈ G1.gs := by rw [hx.gs]; exact hg
      obtain ⟨σ', e1, h2, h3⟩ := h1.capture1 hg1 hE hr hc1 ho (by
        intro e' S' k1 k2 k3 k4 k5
        left
        rw [hx.sk] at k1
        have k3' : ¬ (G.cap e' = true ∨ e' ∈ l1) := by
          intro hq; have := (hx.cap e').2 hq; rw [k3] at this; cases this
        have k6 : G.cap e' = false := by
          cases hq : G.cap e' with
          | false => rfl
          | true => exact absurd (Or.inl hq) k3'
        refine hA e' S' k1 ?_ k6 ?_ g.env (by rw [hl1]; exact List.mem_cons_self ..) k5
        · rcases k2 with k2 | k2
          · rw [k3] at k2; cases k2
          · rw [hx.gs] at k2; exact Or.inr k2
        · rw [hl1]
          intro hq
          rcases List.mem_cons.1 hq with hq | hq
          · exact k4 hq
          · exact k3' (Or.inr hq))
      obtain ⟨p1, p2, p3, p4, p5, p6, p7⟩ := h3
      refine ⟨σ', G1.capture g.env (σ1.hp + g.n + 2), ?_, ?_, ?_, hsm.trans ⟨p1, p2, p3, p4, p5, p6, p7⟩⟩
      · rw [hs.own g hg hc]
        refine (show _ from e1).trans ?_
        simp [Ghost.capture]
      · refine h2.weaken ?_ ?_
        · intro x hq
          rcases hq with ⟨hq | hq, hq'⟩
          · exact hq
          · exact absurd hq hq'
        · intro x hq
          have q1 : x ∉ l := fun hq' => hnT x hq' hq
          have q2 := h.stale x hq
          rw [hl1] at q1
          simp only [List.mem_cons, not_or] at q1
          simp only [Ghost.capture, if_neg q1.1]
          cases hq : G1.cap x with
          | false => rfl
          | true =>
            rcases (hx.cap _).1 hq with h2 | h2
            · rw [q2] at h2; cases h2
            · exact absurd h2 q1.2
      · subst hl1
        constructor
        · exact hx.gs
        · exact hx.sk
        · exact hx.hb
        · intro x
          simp only [Ghost.capture, List.mem_cons]
          by_cases hq : x = g.env
          · simp [hq]
          · rw [if_neg hq, hx.cap x]; simp [hq]
        · intro x hq
          simp only [List.mem_cons, not_or] at hq
          simp only [Ghost.capture, if_neg hq.1]
          exact hx.loc x hq.2
    cases hl with
    | cap hc =>
      obtain ⟨S, _, _, h1, _⟩ := hs.caps e hc
      refine ⟨σ, G, ?_, h, ⟨rfl, rfl, rfl, by simp, by simp⟩, Same.rfl⟩
      unfold VM.moveEp
      rw [if_pos (by omega)]
    | root hg he hS hr hc ho =>
      rename_i g S
      obtain ⟨σ', G', e1, h1⟩ := fin g S σ G [] hg he hS hr hc rfl (by simp)
        (h.weaken (fun _ => Or.inl) (by
          intro x hx
          rcases hx with hx | rfl
          · exact h.stale x hx
          · exact hc)) ⟨rfl, rfl, rfl, by simp, by simp⟩ Same.rfl (by rw [ho]; simp)
      refine ⟨σ', G', ?_, h1⟩
      obtain ⟨E, hE, rfl⟩ := h.of_sk hS
      have hlive : Live G e := Or.inr ⟨g, hg, he⟩
      have h2 := (h.envs e E hE hlive).outer (hnT e (by simp)) hr
      have ho' : E.outer = none := ho
      rw [ho'] at h2
      have hin : σ.base ≤ G.loc e ∧ G.loc e < σ.base + STACK_SIZE := by
        subst he
        rw [hs.own g hg hc]
        have := hs.room g hg
        have := hdr_ge g.ruby
        omega
      unfold VM.moveEp
      rw [if_neg (by omega), h2]
      rw [ho] at e1
      simpa only [asPtr, Option.map, bind, Except.bind] using e1
    | step hg he hS hr hc ho hl' =>
      rename_i g S o l1
      have hne : e ∉ l1 := by
        intro hq
        have := hl'.le hs e hq
        have := (hs.tree _ _ _ hS ho).2.1
        omega
      obtain ⟨E, hE, rfl⟩ := h.of_sk hS
      have hroom := hs.room g hg
      have hb1 := hs.base1
      obtain ⟨σ1, G1, e0, h1, hx, hsm⟩ := ih (σ := σ) (G := G) (T := fun x => T x ∨ x = e) (e := o)
        (l := l1) (h.weaken (fun _ => Or.inl) (by
          intro x hx
          rcases hx with hx | rfl
          · exact h.stale x hx
          · exact hc)) hl' (by have := hfuel hc g hg he; omega) (by
          intro hco g' hg' he'
          have hf := hfuel hc g hg he
          rcases hs.outerLive g hg _ o (by rw [he]; exact hS) ho with h4 | ⟨g'', h4, h5, h6⟩
          · rw [hco] at h4; cases h4
          · have := hs.inj g' hg' g'' h4 (he'.trans h5.symm)
            subst this
            omega) (by
          intro x hx hT
          rcases hT with hT | rfl
          · exact hnT x (List.mem_cons_of_mem _ hx) hT
          · exact hne hx) (by
          intro e' S' k1 k2 k3 k4 x hx hxx
          by_cases hee : e' = e
          · exact Or.inr hee
          · left
            refine hA e' S' k1 k2 k3 ?_ x (List.mem_cons_of_mem _ hx) hxx
            intro hq
            rcases List.mem_cons.1 hq with hq | hq
            · exact hee hq
            · exact k4 hq)
      have hco : G1.cap o = true := by
        cases hl' with
        | cap hq => exact (hx.cap _).2 (Or.inl hq)
        | root => exact (hx.cap _).2 (Or.inr (List.mem_cons_self ..))
        | step => exact (hx.cap _).2 (Or.inr (List.mem_cons_self ..))
      obtain ⟨σ', G', e1, h2⟩ := fin g E.sk σ1 G1 l1 hg he hS hr hc rfl hne h1 hx hsm (by
        intro o' ho'
        rw [ho] at ho'; cases ho'
        exact hco)
      refine ⟨σ', G', ?_, h2⟩
      have hlive : Live G e := Or.inr ⟨g, hg, he⟩
      have h2 := (h.envs e E hE hlive).outer (hnT e (by simp)) hr
      have ho' : E.outer = some o := ho
      rw [ho'] at h2
      have hin : σ.base ≤ G.loc e ∧ G.loc e < σ.base + STACK_SIZE := by
        subst he
        rw [hs.own g hg hc]
        have := hdr_ge g.ruby
        omega
      unfold VM.moveEp
      rw [if_neg (by omega), h2]
      rw [ho] at e1
      simp only [asPtr, Option.map, bind, Except.bind, e0] at e1 ⊢
      exact e1

/-- The top frame is the highest. -/
theorem Shape.top_max {base hp : Nat} (h : Shape base hp G) {g gs} (hg : G.gs = g :: gs) {a}
    (ha : a ∈ G.gs) : a.c ≤ g.c := by
  rw [hg] at ha
  rcases List.mem_cons.1 ha with rfl | ha
  · exact Nat.le_refl _
  · have := h.sep
    rw [hg, List.pairwise_cons] at this
    have := this.1 a ha
    omega

theorem Shape.no_child {base hp : Nat} (hs : Shape base hp G) {g gs} (hg : G.gs = g :: gs) {x l}
    (hx : x = g.env ∨ x ∈ g.acc) (hl : Ch G x l) :
    (∀ (e' : Nat) S, G.sk[e']? = some S → Live G e' → G.cap e' = false → e' ∉ l →
      ∀ y ∈ l, (S.outer = some y ∨ S.meth = y) → False) := by
  have hgm : g ∈ G.gs := by rw [hg]; exact List.mem_cons_self ..
  -- no other environment has its outer in the chain
  have h1 : ∀ (e' : Nat) S, G.sk[e']? = some S → Live G e' → G.cap e' = false → e' ∉ l →
      ∀ y ∈ l, S.outer = some y → False := by
    intro e' S hS hlive hc hnl y hy ho
    rcases hlive with hlive | ⟨a, ha, rfl⟩
    · rw [hc] at hlive; cases hlive
    · obtain ⟨hcy, _⟩ := hl.uncap y hy
      rcases hl.pred y hy with rfl | ⟨z, hz, Sz, hSz, hoz⟩
      · rcases hx with rfl | hx
        · rcases hs.outerLive a ha S _ hS ho with h2 | ⟨g', h2, h3, h4⟩
          · rw [hcy] at h2; cases h2
          · have := hs.inj g' h2 g hgm h3
            subst this
            have := hs.top_max hg ha
            omega
        · exact hs.noAcc a ha S y hS ho hcy g hgm (hs.top_max hg ha) hx
      · obtain ⟨_, b, hb, rfl⟩ := hl.uncap z hz
        have := hs.only a ha b hb S Sz y hS hSz ho hoz hcy
        subst this
        exact hnl hz
  intro e'
  induction e' using Nat.strongRecOn with
  | ind e' ih =>
    intro S hS hlive hc hnl y hy hor
    rcases hor with ho | hm
    · exact h1 e' S hS hlive hc hnl y hy ho
    · cases ho : S.outer with
      | none =>
        have := hs.root e' S hS ho
        rw [hm] at this; subst this
        exact hnl hy
      | some o =>
        obtain ⟨_, h2, O, h3, h4, h5⟩ := hs.tree e' S o hS ho
        obtain ⟨hcy, _⟩ := hl.uncap y hy
        by_cases hco : G.cap o = true
        · obtain ⟨O', h6, _, _, _, _, h7⟩ := hs.caps o hco
          rw [h3] at h6; cases h6
          rw [← h5, hm, hcy] at h7; cases h7
        · have hco : G.cap o = false := by simpa using hco
          by_cases hol : o ∈ l
          · exact h1 e' S hS hlive hc hnl o hol ho
          · have hlo : Live G o := by
              rcases hlive with hlive | ⟨a, ha, rfl⟩
              · rw [hc] at hlive; cases hlive
              · rcases hs.outerLive a ha S o hS ho with h6 | ⟨g', h6, h7, _⟩
                · exact Or.inl h6
                · exact Or.inr ⟨g', h6, h7⟩
            exact ih o h2 O h3 hlo hco hol y hy (Or.inr (h5.symm.trans hm))

/-- `move_cfp_to_heap`: the environment of the frame, and those it refers to, are in the heap after it. -/
theorem Inv.capture (h : Inv σ α G) {g gs} (hg : G.gs = g :: gs) {a} (ha : a ∈ G.gs)
    (hr : a.ruby = true) (hx : a.env = g.env ∨ a.env ∈ g.acc) :
    ∃ σ' G' l, σ.moveCfp a.c = .ok (G'.loc a.env, σ') ∧ Inv σ' α G' ∧ Ext G G' l ∧ Same σ σ' ∧
      G'.cap a.env = true ∧ (∀ x ∈ l, G.cap x = false) := by
  have hs := h.shape
  obtain ⟨S, h1, h2, h3⟩ := hs.frame a ha
  obtain ⟨l, hl⟩ := Ch.exists hs (Or.inr ⟨a, ha, rfl⟩) h1 (h3.trans hr)
  have hb := hs.base1
  obtain ⟨σ', G', e1, k1, k2, k3⟩ := h.toT.move (σ.base + STACK_SIZE) hl (by omega) (by
    intro _ g' hg' he'
    have := hs.inj g' hg' a ha he'
    subst this
    have := hs.room g' hg'
    have := hdr_ge g'.ruby
    omega) (by simp) (by
    intro e' S' q1 q2 q3 q4 y q5 q6
    exact hs.no_child hg hx hl e' S' q1 q2 q3 q4 y q5 q6)
  refine ⟨σ', G', l, ?_, k1.toInv (by simp), k2, k3, ?_, fun x hx => (hl.uncap x hx).1⟩
  · unfold VM.moveCfp
    rw [(h.ctl a ha).2]
    simpa only [asAddr, bind, Except.bind] using e1
  · cases hl with
    | cap hq => exact (k2.cap _).2 (Or.inl hq)
    | root => exact (k2.cap _).2 (Or.inr (List.mem_cons_self ..))
    | step => exact (k2.cap _).2 (Or.inr (List.mem_cons_self ..))

end Verif.Frame
