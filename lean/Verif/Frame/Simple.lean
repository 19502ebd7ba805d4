import Verif.Frame.Inv

/-!
# Steps within one frame
-/
namespace Verif.Frame
open Verif.Frame.Spec

/-- simulation of one step: the machine stops for lack of stack space, or goes on in step with the
specification -/
def Sim (r : Except Err (VM × Option Nat)) (α' : Mach) (o : Option Nat) (P : VM → Ghost → Prop) : Prop :=
  r = .error .overflow ∨ ∃ σ' G', r = .ok (σ', o) ∧ Inv σ' α' G' ∧ P σ' G'

section
variable {σ : VM} {α : Mach} {G : Ghost}

theorem Inv.sk_of (h : Inv σ α G) {e : Nat} {E} (he : α.envs[e]? = some E) :
    G.sk[e]? = some E.sk := by
  rw [← h.sk, List.getElem?_map, he]; rfl

theorem Inv.of_sk (h : Inv σ α G) {e : Nat} {S} (he : G.sk[e]? = some S) :
    ∃ E, α.envs[e]? = some E ∧ E.sk = S := by
  rw [← h.sk, List.getElem?_map] at he
  cases hx : α.envs[e]? with
  | none => rw [hx] at he; simp at he
  | some E => rw [hx] at he; exact ⟨E, rfl, by simpa using he⟩

theorem Inv.top (h : Inv σ α G) {f fs} (hf : α.frames = f :: fs) :
    ∃ g gs E, G.gs = g :: gs ∧ g ∈ G.gs ∧ f.env = g.env ∧ α.envs[f.env]? = some E ∧
      G.sk[g.env]? = some E.sk ∧ E.vars.length = g.n ∧ E.ruby = g.ruby ∧ Live G g.env := by
  have hr := h.regs
  rw [hf] at hr
  cases hg : G.gs with
  | nil => rw [hg] at hr; exact hr.elim
  | cons g gs =>
    have hm : g ∈ G.gs := by rw [hg]; exact List.mem_cons_self ..
    have ho := h.ops
    rw [hf, hg] at ho
    obtain ⟨S, hS, h1, h2⟩ := h.shape.frame g hm
    obtain ⟨E, hE, rfl⟩ := h.of_sk hS
    exact ⟨g, gs, E, rfl, by simp, ho.1, by rw [ho.1]; exact hE, hS, h1, h2, Or.inr ⟨g, hm, rfl⟩⟩

theorem InOps_lt_sp {base hp} (hs : Shape base hp G) {sp x}
    (hsp : ∀ g ∈ G.gs, g.c + hdr g.ruby ≤ sp) (h : InOps sp G.gs x) : x < sp := by
  obtain ⟨g, hg, h1, h2⟩ := InOps_spec hs (fun _ h => h) hs.sep h
  have h3 := hdr_ge g.ruby
  have := hsp g hg
  rcases h1 with h1 | ⟨h1, h4 | ⟨g', hg', h4⟩⟩
  · unfold EV_FLAG at h1; omega
  · exact h4
  · have := h2 g' hg' h4
    have := hsp g' hg'
    unfold GF.p at *; omega

/-- every frame lies below the stack pointer -/
theorem Inv.below (h : Inv σ α G) : ∀ g ∈ G.gs, g.c + hdr g.ruby ≤ σ.sp := by
  intro g hg
  have ho := h.ops
  cases hG : G.gs with
  | nil => rw [hG] at hg; cases hg
  | cons a gs =>
    rw [hG] at ho hg
    cases hf : α.frames with
    | nil => rw [hf] at ho; exact ho.elim
    | cons f fs =>
      rw [hf] at ho
      obtain ⟨-, -, -, h4, -⟩ := ho
      rcases List.mem_cons.1 hg with rfl | hg
      · omega
      · have := h.shape.sep
        rw [hG, List.pairwise_cons] at this
        have := this.1 g hg
        omega

/-- memory that is the same below `sp'` and on the heap -/
theorem EnvOK_keep {base hp : Nat} (hs : Shape base hp G) {m m' : Nat → Slot} {sp : Nat}
    (hsp : ∀ g ∈ G.gs, g.c + hdr g.ruby ≤ sp)
    (hm : ∀ x, x < sp ∨ base + STACK_SIZE ≤ x → m' x = m x) {e E}
    (hS : G.sk[e]? = some E.sk) (hl : Live G e) (h : EnvOK m G e E) : EnvOK m' G e E := by
  have hroom := hs.live_room hl hS
  refine EnvOK_congr h hroom ?_
  intro x h1 h2
  apply hm
  by_cases hc : G.cap e = true
  · obtain ⟨S', h3, _, h4, _⟩ := hs.caps e hc
    rw [hS] at h3; cases h3
    right; simp only [Env.sk] at h4; omega
  · rcases hl with hl | ⟨g, hg, rfl⟩
    · exact absurd hl hc
    · left
      have := hsp g hg
      obtain ⟨S', h3, h4, h5⟩ := hs.frame g hg
      rw [hS] at h3; cases h3
      rw [hs.own g hg (by simpa using hc)] at h2
      simp only [Env.sk] at h5
      rw [h5] at h2
      omega

theorem Ctl_congr {m m' : Nat → Slot} (h : Ctl m G)
    (hm : ∀ g ∈ G.gs, m' (g.c - 1) = m (g.c - 1) ∧ m' (g.c + EV_EP) = m (g.c + EV_EP)) : Ctl m' G := by
  intro g hg
  obtain ⟨h1, h2⟩ := h g hg
  obtain ⟨h3, h4⟩ := hm g hg
  rw [h3, h4]
  exact ⟨h1, h2⟩

theorem Regs_ops {σ' : VM} {f fs} {gs : List GF} (h : Regs σ G gs (f :: fs)) (f' : Fr)
    (h1 : σ'.cfp = σ.cfp) (h2 : σ'.lfp = σ.lfp) (h3 : σ'.iseq = σ.iseq)
    (h4 : ∀ g ∈ gs.head?, g.ruby = true → σ.pc = f.pc → σ'.pc = f'.pc) : Regs σ' G gs (f' :: fs) := by
  cases gs with
  | nil => exact h.elim
  | cons g gs =>
    obtain ⟨a, b, c⟩ := h
    refine ⟨by rw [h1]; exact a, by rw [h2]; exact b, fun hr => ?_⟩
    obtain ⟨d, S, e, k⟩ := c hr
    exact ⟨h4 g (by simp) hr d, S, e, by rw [h3]; exact k⟩

theorem Nats_ops {base ps} {gs : List GF} {f f' : Fr} {fs ns} (h : Nats base ps G gs (f :: fs) ns) :
    Nats base ps G gs (f' :: fs) ns := by
  match gs, fs with
  | [], _ => simp [Nats] at h
  | [g], [] => exact h
  | [g], _ :: _ => simp [Nats] at h
  | g :: g' :: gs, [] => simp [Nats] at h
  | g :: g' :: gs, f2 :: fs => exact h

/-- Only the operands of the top frame and memory above them change. -/
theorem Inv.setOps (h : Inv σ α G) {f fs} (hf : α.frames = f :: fs) {g gs} (hg : G.gs = g :: gs)
    (ops : List Nat) (m' : Nat → Slot) (sp' : Nat) (hsp : sp' = g.c + hdr g.ruby + ops.length)
    (hle : sp' ≤ σ.base + STACK_SIZE)
    (hm : ∀ x, x < g.c + hdr g.ruby ∨ σ.base + STACK_SIZE ≤ x → m' x = σ.mem x)
    (ho : ∀ (i : Nat) v, ops.reverse[i]? = some v → m' (g.c + hdr g.ruby + i) = .val v) :
    Inv { σ with mem := m', sp := sp' } { α with frames := { f with ops := ops } :: fs } G := by
  have hs := h.shape
  have hgm : g ∈ G.gs := by rw [hg]; exact List.mem_cons_self ..
  have hb : ∀ a ∈ G.gs, a.c + hdr a.ruby ≤ g.c + hdr g.ruby := by
    intro a ha
    rw [hg] at ha
    rcases List.mem_cons.1 ha with rfl | ha
    · omega
    · have := hs.sep
      rw [hg, List.pairwise_cons] at this
      have := this.1 a ha
      omega
  have hfr := h.ops
  rw [hf, hg] at hfr
  obtain ⟨h1, h2, h3, h4, h5, h6, h7⟩ := hfr
  constructor
  · exact h.sk
  · exact hs
  · intro e E he hl
    exact EnvOK_keep hs hb hm (h.sk_of he) hl (h.envs e E he hl)
  · refine Ctl_congr h.ctl ?_
    intro a ha
    have h10 := hb a ha
    have h11 := hs.room a ha
    have h12 := hdr_ge a.ruby
    exact ⟨hm _ (Or.inl (by omega)), hm _ (Or.inl (by unfold EV_EP; omega))⟩
  · refine Links_congr h.links ?_
    intro a ha
    have h10 := hb a ha
    have h12 := hdr_ge a.ruby
    exact hm _ (Or.inl (by omega))
  · rw [hg]
    refine ⟨h1, h2, h3, hsp, ho, ?_, ?_⟩
    · obtain ⟨d, h8, h9⟩ := h6
      refine ⟨d, ?_, h9⟩
      rw [← h8]
      have h12 := hdr_ge g.ruby
      exact hm _ (Or.inl (by unfold EV_FLAG; omega))
    · refine FOps_congr h7 ?_
      intro x hx
      apply hm
      left
      have : InOps σ.sp G.gs x := by rw [hg]; exact Or.inr (Or.inr hx)
      have hr := hs.room g hgm
      have hnot := not_inOps hs this hgm
      have hsub : ∀ y ∈ gs, y ∈ G.gs := fun y hy => by rw [hg]; exact List.mem_cons_of_mem _ hy
      have hsp2 := hs.sep
      rw [hg, List.pairwise_cons] at hsp2
      obtain ⟨g0, hg0, a1, a2⟩ := InOps_spec hs hsub hsp2.2 hx
      have a3 := hsp2.1 g0 hg0
      have a4 := hdr_ge g0.ruby
      have a5 := hdr_ge g.ruby
      rcases a1 with a1 | ⟨a1, a1 | ⟨g1, hg1, a1⟩⟩
      · unfold EV_FLAG at a1; omega
      · unfold GF.p at a1; omega
      · have a6 := a2 g1 hg1 a1
        have a7 := hsp2.1 g1 hg1
        have a8 := hs.room g1 (hsub g1 hg1)
        unfold GF.p at a6; omega
  · have hp := h.pcs
    rw [hf, hg] at hp
    rw [hg]
    refine FPc_congr hp ?_
    intro a ha hr
    have ha' : a ∈ G.gs := by rw [hg]; exact List.mem_cons_of_mem _ ha
    have h10 := hb a ha'
    rw [hr] at h10
    exact hm _ (Or.inl (by unfold EV_PC; simp at h10; omega))
  · exact hle
  · have := h.regs
    rw [hf] at this
    exact Regs_ops this _ rfl rfl rfl (fun g _ _ hp => hp)
  · exact h.procs
  · have := h.nats
    rw [hf] at this
    exact Nats_ops this
  · intro f' hf' p hp
    rcases List.mem_cons.1 hf' with rfl | hf'
    · exact h.heldP f (by rw [hf]; exact List.mem_cons_self ..) p hp
    · exact h.heldP f' (by rw [hf]; exact List.mem_cons_of_mem _ hf') p hp
  · exact h.blkP

theorem upd_same (m : Nat → Slot) (a s) : upd m a s a = s := by simp [upd]
theorem upd_ne (m : Nat → Slot) {a x : Nat} (s) (h : x ≠ a) : upd m a s x = m x := by simp [upd, h]

/-- `VM.push` on related states -/
theorem Inv.pushVal (h : Inv σ α G) {f fs} (hf : α.frames = f :: fs) (v : Nat) :
    σ.push (.val v) = .error .overflow ∨ ∃ σ', σ.push (.val v) = .ok σ' ∧
      Inv σ' { α with frames := { f with ops := v :: f.ops } :: fs } G := by
  obtain ⟨g, gs, E, hg, hgm, hfe, hE, hS, hn, hr, hl⟩ := h.top hf
  unfold VM.push
  split
  · right
    refine ⟨_, rfl, ?_⟩
    have hfr := h.ops
    rw [hf, hg] at hfr
    obtain ⟨h1, h2, h3, h4, h5, h6, h7⟩ := hfr
    refine h.setOps hf hg (v :: f.ops) _ _ ?_ ?_ ?_ ?_
    · simp; omega
    · omega
    · intro x hx
      exact upd_ne _ _ (by omega)
    · intro i w hw
      simp only [List.reverse_cons] at hw
      by_cases hi : i < f.ops.length
      · rw [List.getElem?_append_left (by simpa using hi)] at hw
        rw [upd_ne _ _ (by omega)]
        exact h5 i w hw
      · have hi2 : i = f.ops.length := by
          have := (List.getElem?_eq_some_iff.1 hw).1
          simp at this; omega
        subst hi2
        rw [List.getElem?_append_right (by simp)] at hw
        simp at hw
        subst hw
        rw [← h4, upd_same]
  · exact Or.inl rfl

theorem sim_push (h : Inv σ α G) {v α' o} (hs : Spec.step α (.push v) = some (α', o)) :
    Sim (step σ (.push v)) α' o (fun _ G' => G'.gs = G.gs) := by
  unfold Spec.step at hs
  split at hs
  · cases hs
  · rename_i f fs hf
    split at hs
    · cases hs
    · cases hs
      rcases h.pushVal hf v with e | ⟨σ', e, hi⟩
      · left; simp [step, e, bind, Except.bind]
      · right; exact ⟨σ', G, by simp [step, e, bind, Except.bind], hi, rfl⟩

theorem Inv.popVal (h : Inv σ α G) {f fs v ops} (hf : α.frames = f :: fs) (ho : f.ops = v :: ops) :
    σ.pop = .ok (v, { σ with sp := σ.sp - 1 }) ∧
      Inv { σ with sp := σ.sp - 1 } { α with frames := { f with ops := ops } :: fs } G := by
  obtain ⟨g, gs, E, hg, hgm, hfe, hE, hS, hn, hr, hl⟩ := h.top hf
  have hfr := h.ops
  rw [hf, hg] at hfr
  obtain ⟨h1, h2, h3, h4, h5, h6, h7⟩ := hfr
  rw [ho] at h4 h5
  have hv : σ.mem (σ.sp - 1) = .val v := by
    have := h5 ops.length v (by simp)
    rw [← this]; congr 1; simp at h4; omega
  refine ⟨by simp [VM.pop, hv, asVal, bind, Except.bind], ?_⟩
  refine h.setOps hf hg ops σ.mem _ ?_ ?_ ?_ ?_
  · simp at h4; omega
  · have := h.spLe; omega
  · intro x hx; rfl
  · intro i w hw
    refine h5 i w ?_
    simp only [List.reverse_cons]
    rw [List.getElem?_append_left (List.getElem?_eq_some_iff.1 hw).1]
    exact hw

theorem sim_pop (h : Inv σ α G) {α' o} (hs : Spec.step α .pop = some (α', o)) :
    Sim (step σ .pop) α' o (fun _ G' => G'.gs = G.gs) := by
  unfold Spec.step at hs
  split at hs
  · cases hs
  · rename_i f fs hf
    split at hs
    · cases hs
    · dsimp only at hs
      split at hs
      · rename_i v ops ho
        cases hs
        obtain ⟨e, hi⟩ := h.popVal hf ho
        right; exact ⟨_, G, by simp only [step, e, bind, Except.bind], hi, rfl⟩
      · cases hs

theorem sim_clear (h : Inv σ α G) {α' o} (hs : Spec.step α .clear = some (α', o)) :
    Sim (step σ .clear) α' o (fun _ G' => G'.gs = G.gs) := by
  unfold Spec.step at hs
  split at hs
  · cases hs
  · rename_i f fs hf
    split at hs
    · cases hs
    · cases hs
      obtain ⟨g, gs, E, hg, hgm, hfe, hE, hS, hn, hr, hl⟩ := h.top hf
      have hfr := h.ops
      have hrg := h.regs
      rw [hf, hg] at hfr hrg
      obtain ⟨h1, h2, h3, h4, h5, ⟨d, h6, _⟩, h7⟩ := hfr
      have hc := hrg.1
      right
      refine ⟨{ σ with sp := g.c + hdr g.ruby }, G, ?_, ?_, rfl⟩
      · simp only [step, VM.clear, hc, h6, asRuby, bind, Except.bind]
        cases g.ruby <;> simp [CONT_FRAME_LEN, RUBY_FRAME_LEN]
      · refine h.setOps hf hg [] σ.mem _ ?_ ?_ ?_ ?_
        · simp
        · have := (h.shape.room g hgm).2.2; omega
        · intros; rfl
        · simp

theorem sim_jump (h : Inv σ α G) {n α' o} (hs : Spec.step α (.jump n) = some (α', o)) :
    Sim (step σ (.jump n)) α' o (fun _ G' => G'.gs = G.gs) := by
  unfold Spec.step at hs
  split at hs
  · cases hs
  · rename_i f fs hf
    split at hs
    · cases hs
    · dsimp only at hs
      split at hs
      · cases hs
        right
        refine ⟨{ σ with pc := n }, G, rfl, ?_, rfl⟩
        constructor
        · exact h.sk
        · exact h.shape
        · exact h.envs
        · exact h.ctl
        · exact h.links
        · have := h.ops
          rw [hf] at this
          cases hG : G.gs with
          | nil => rw [hG] at this; exact this.elim
          | cons g gs => rw [hG] at this; exact this
        · have := h.pcs
          rw [hf] at this
          exact this
        · exact h.spLe
        · have := h.regs
          rw [hf] at this
          exact Regs_ops this _ rfl rfl rfl (fun g _ _ hp => rfl)
        · exact h.procs
        · have := h.nats
          rw [hf] at this
          exact Nats_ops this
        · intro f' hf' p hp
          rcases List.mem_cons.1 hf' with rfl | hf'
          · exact h.heldP f (by rw [hf]; exact List.mem_cons_self ..) p hp
          · exact h.heldP f' (by rw [hf]; exact List.mem_cons_of_mem _ hf') p hp
        · exact h.blkP
      · cases hs

/-- where the variables of the current frame are -/
theorem Inv.lfp_eq (h : Inv σ α G) {f fs} (hf : α.frames = f :: fs) {E} (hE : α.envs[f.env]? = some E) :
    Live G f.env ∧ EnvOK σ.mem G f.env E ∧ σ.lfp = G.loc f.env - E.vars.length - 1 ∧
      E.vars.length + 2 ≤ G.loc f.env := by
  obtain ⟨g, gs, E', hg, hgm, hfe, hE', hS, hn, hr, hl⟩ := h.top hf
  rw [hE] at hE'; cases hE'
  rw [← hfe] at hl
  have hrg := h.regs
  rw [hf, hg] at hrg
  have hl' := hrg.2.1
  rw [← hfe] at hl' hS
  have hroom := h.shape.live_room hl hS
  refine ⟨hl, h.envs _ _ hE hl, ?_, hroom⟩
  rw [hn]; omega

theorem sim_self (h : Inv σ α G) {α' o} (hs : Spec.step α .self = some (α', o)) :
    Sim (step σ .self) α' o (fun _ G' => G'.gs = G.gs) := by
  unfold Spec.step at hs
  split at hs
  · cases hs
  · rename_i f fs hf
    split at hs
    · cases hs
    · rename_i E hE
      cases hs
      obtain ⟨hl, he, hlfp, hroom⟩ := h.lfp_eq hf hE
      right
      refine ⟨σ, G, ?_, h, rfl⟩
      have : σ.lfp - 1 = G.loc f.env - E.vars.length - 2 := by omega
      simp [step, this, he.recv, asVal, bind, Except.bind]

theorem sim_getLocal (h : Inv σ α G) {i α' o} (hs : Spec.step α (.getLocal i) = some (α', o)) :
    Sim (step σ (.getLocal i)) α' o (fun _ G' => G'.gs = G.gs) := by
  unfold Spec.step at hs
  split at hs
  · cases hs
  · rename_i f fs hf
    split at hs
    · cases hs
    · rename_i E hE
      dsimp only at hs
      split at hs
      · rename_i v hv
        cases hs
        obtain ⟨hl, he, hlfp, hroom⟩ := h.lfp_eq hf hE
        right
        refine ⟨σ, G, ?_, h, rfl⟩
        simp [step, hlfp, he.vars i v hv, asVal, bind, Except.bind]
      · cases hs

/-- Assigning a variable of a live environment. -/
theorem Inv.setVar (h : Inv σ α G) {e E i} (hl : Live G e) (hE : α.envs[e]? = some E)
    (hi : i < E.vars.length) (v : Nat) :
    Inv { σ with mem := upd σ.mem (G.loc e - E.vars.length - 1 + i) (.val v) }
      { α with envs := α.envs.set e { E with vars := E.vars.set i v } } G := by
  have hs := h.shape
  have hS := h.sk_of hE
  have hroom := hs.live_room hl hS
  have hroom : E.vars.length + 2 ≤ G.loc e := hroom
  generalize ha : G.loc e - E.vars.length - 1 + i = a
  -- the slot is not a control slot or an operand of any frame
  have hout : ∀ g ∈ G.gs, (g.c - 1 ≤ a → g.c + hdr g.ruby ≤ a) := by
    intro g hg h1
    have hrg := hs.room g hg
    by_cases hc : G.cap e = true
    · obtain ⟨S, h2, _, h3, _⟩ := hs.caps e hc
      rw [hS] at h2; cases h2
      simp only [Env.sk] at h3
      omega
    · rcases hl with hl | ⟨g0, hg0, rfl⟩
      · exact absurd hl hc
      obtain ⟨S, h2, h4, h5⟩ := hs.frame g0 hg0
      rw [hS] at h2; cases h2
      simp only [Env.sk] at h4
      rw [hs.own g0 hg0 (by simpa using hc)] at ha hroom
      rcases hs.lt_or hg hg0 with rfl | hh | hh
      · omega
      · have := hdr_ge g0.ruby; omega
      · omega
  have hops : ∀ x, InOps σ.sp G.gs x → x ≠ a := by
    intro x hx hxa
    subst hxa
    have hlt := InOps_lt hs hx h.spLe
    by_cases hc : G.cap e = true
    · obtain ⟨S, h2, _, h3, _⟩ := hs.caps e hc
      rw [hS] at h2; cases h2
      simp only [Env.sk] at h3
      omega
    · rcases hl with hl | ⟨g0, hg0, rfl⟩
      · exact absurd hl hc
      obtain ⟨S, h2, h4, h5⟩ := hs.frame g0 hg0
      rw [hS] at h2; cases h2
      simp only [Env.sk] at h4
      rw [hs.own g0 hg0 (by simpa using hc)] at ha hroom
      have := (not_inOps hs hx hg0).1
      unfold GF.p EV_FLAG at this
      omega
  constructor
  · show (α.envs.set e { E with vars := E.vars.set i v }).map Env.sk = G.sk
    rw [← h.sk, List.map_set]
    have : ({ E with vars := E.vars.set i v } : Env).sk = E.sk := by simp [Env.sk]
    rw [this]
    apply List.ext_getElem?
    intro j
    rw [List.getElem?_set]
    split
    · rename_i hj
      subst hj
      split
      · rw [List.getElem?_map, hE]; rfl
      · rename_i hlen
        rw [List.getElem?_eq_none (by simpa using hlen)]
    · rfl
  · exact hs
  · intro e' E' he' hl'
    by_cases hee : e' = e
    · subst hee
      rw [List.getElem?_set_self (List.getElem?_eq_some_iff.1 hE).1] at he'
      cases he'
      have h0 := h.envs e' E hE hl
      show EnvOK (upd σ.mem a _) _ _ _
      have h3 := hdr_ge E.ruby
      constructor
      · rw [upd_ne _ _ (by omega)]; exact h0.self
      · rw [List.length_set, upd_ne _ _ (by omega)]; exact h0.recv
      · rw [upd_ne _ _ (by omega)]; exact h0.ep
      · rw [upd_ne _ _ (by omega), List.length_set]; exact h0.flag
      · intro j w hw
        rw [List.length_set]
        rw [List.getElem?_set] at hw
        split at hw
        · rename_i hij
          subst hij
          rw [ha, upd_same]
          cases hw; rfl
        · rename_i hij
          rw [upd_ne _ _ (by omega)]
          exact h0.vars j w hw
      · intro hr; rw [upd_ne _ _ (by omega)]; exact h0.mfp hr
      · intro hr; rw [upd_ne _ _ (by omega)]; exact h0.outer hr
      · intro hr; rw [upd_ne _ _ (by omega)]; exact h0.iseq hr
      · intro hr; rw [upd_ne _ _ (by omega)]; exact h0.blk hr
    · have he'' : α.envs[e']? = some E' := by
        rw [List.getElem?_set_ne (fun hh => hee hh.symm)] at he'
        exact he'
      have hS' := h.sk_of he''
      have hroom' := hs.live_room hl' hS'
      refine EnvOK_congr (h.envs e' E' he'' hl') hroom' ?_
      intro x h1 h2
      refine upd_ne _ _ ?_
      have hd := hs.disj hl hl' (fun hh => hee hh.symm) hS hS'
      simp only [Env.sk] at hd hroom'
      have := hdr_ge E.ruby
      rcases hd with hd | hd <;> omega
  · refine Ctl_congr h.ctl ?_
    intro g hg
    have h1 := hout g hg
    have h2 := hdr_ge g.ruby
    have h3 := hs.room g hg
    exact ⟨upd_ne _ _ (by omega), upd_ne _ _ (by unfold EV_EP; omega)⟩
  · refine Links_congr h.links ?_
    intro g hg
    have h1 := hout g hg
    have h2 := hdr_ge g.ruby
    have h3 := hs.room g hg
    exact upd_ne _ _ (by omega)
  · exact FOps_congr h.ops (fun x hx => upd_ne _ _ (hops x hx))
  · refine FPc_congr h.pcs ?_
    intro g hg hr
    have hg' := List.mem_of_mem_tail hg
    have h1 := hout g hg'
    have h3 := hs.room g hg'
    rw [hr] at h1
    simp at h1
    exact upd_ne _ _ (by unfold EV_PC; omega)
  · exact h.spLe
  · have := h.regs
    revert this
    cases G.gs <;> cases α.frames <;> simp [Regs]
  · exact h.procs
  · exact h.nats
  · exact h.heldP
  · intro e' E' p he' hb
    by_cases hee : e' = e
    · subst hee
      rw [List.getElem?_set_self (List.getElem?_eq_some_iff.1 hE).1] at he'
      cases he'
      exact h.blkP e' E p hE hb
    · rw [List.getElem?_set_ne (fun hh => hee hh.symm)] at he'
      exact h.blkP e' E' p he' hb

theorem sim_setLocal (h : Inv σ α G) {i v α' o} (hs : Spec.step α (.setLocal i v) = some (α', o)) :
    Sim (step σ (.setLocal i v)) α' o (fun _ G' => G'.gs = G.gs) := by
  unfold Spec.step at hs
  split at hs
  · cases hs
  · rename_i f fs hf
    split at hs
    · cases hs
    · rename_i E hE
      dsimp only at hs
      split at hs
      · rename_i hi
        cases hs
        obtain ⟨hl, he, hlfp, hroom⟩ := h.lfp_eq hf hE
        right
        refine ⟨_, G, rfl, ?_, rfl⟩
        have := h.setVar hl hE hi v
        rw [← hlfp] at this
        exact this
      · cases hs

/-- the outer environment of a live environment is live -/
theorem Inv.outer_live (h : Inv σ α G) {e E o} (hl : Live G e) (hE : α.envs[e]? = some E)
    (ho : E.outer = some o) : Live G o := by
  have hS := h.sk_of hE
  by_cases hc : G.cap e = true
  · obtain ⟨S, h1, _, _, _, h2, _⟩ := h.shape.caps e hc
    rw [hS] at h1; cases h1
    exact Or.inl (h2 o ho)
  · rcases hl with hl | ⟨g, hg, rfl⟩
    · exact absurd hl hc
    · rcases h.shape.outerLive g hg _ o hS ho with h1 | ⟨g', hg', h1, _⟩
      · exact Or.inl h1
      · exact Or.inr ⟨g', hg', h1⟩

theorem Inv.outward (h : Inv σ α G) : ∀ {k e e'}, Live G e → Spec.outward α.envs e k = some e' →
    e < α.envs.length →
    outerFrame σ.mem (G.loc e) k = .ok (G.loc e') ∧ Live G e' := by
  intro k
  induction k with
  | zero => intro e e' hl ho _; cases ho; exact ⟨rfl, hl⟩
  | succ k ih =>
    intro e e' hl ho hlt
    have hE : α.envs[e]? = some α.envs[e] := List.getElem?_eq_getElem hlt
    simp only [Spec.outward, hE] at ho
    split at ho
    · rename_i o hout
      have hr : α.envs[e].ruby = true := (h.shape.tree e _ o (h.sk_of hE) hout).1
      obtain ⟨-, hoe, O, hO, -⟩ := h.shape.tree e _ o (h.sk_of hE) hout
      obtain ⟨E', hE', -⟩ := h.of_sk hO
      have he := (h.envs e _ hE hl).outer hr
      rw [hout] at he
      have := ih (h.outer_live hl hE hout) ho (List.getElem?_eq_some_iff.1 hE').1
      refine ⟨?_, this.2⟩
      simp [outerFrame, he, asAddr, bind, Except.bind, this.1]
    · cases ho

theorem Inv.dyn (h : Inv σ α G) {f fs} (hf : α.frames = f :: fs) {k e E}
    (ho : Spec.outward α.envs f.env k = some e) (hE : α.envs[e]? = some E) :
    σ.dynLocal k = .ok (G.loc e - E.vars.length - 1) ∧ Live G e := by
  obtain ⟨g, gs, E', hg, hgm, hfe, hE', hS, hn, hr, hl⟩ := h.top hf
  rw [← hfe] at hl
  obtain ⟨h1, h2⟩ := h.outward hl ho (List.getElem?_eq_some_iff.1 hE').1
  have hrg := h.regs
  rw [hf, hg] at hrg
  have hc := hrg.1
  have hep := (h.ctl g hgm).2
  rw [← hfe] at hep
  obtain ⟨d, hd⟩ := (h.envs e E hE h2).flag
  refine ⟨?_, h2⟩
  simp [VM.dynLocal, hc, hep, asAddr, bind, Except.bind, h1, getLfp, hd, asLen]

theorem sim_getDyn (h : Inv σ α G) {k i α' o} (hs : Spec.step α (.getDyn k i) = some (α', o)) :
    Sim (step σ (.getDyn k i)) α' o (fun _ G' => G'.gs = G.gs) := by
  unfold Spec.step at hs
  split at hs
  · cases hs
  · rename_i f fs hf
    split at hs
    · cases hs
    · rename_i E hE
      dsimp only at hs
      split at hs
      · cases hs
      · rename_i e ho
        split at hs
        · rename_i E' hE'
          split at hs
          · rename_i v hv
            cases hs
            obtain ⟨h1, h2⟩ := h.dyn hf ho hE'
            right
            refine ⟨σ, G, ?_, h, rfl⟩
            simp [step, h1, (h.envs e E' hE' h2).vars i v hv, asVal, bind, Except.bind]
          · cases hs
        · cases hs

theorem sim_setDyn (h : Inv σ α G) {k i v α' o} (hs : Spec.step α (.setDyn k i v) = some (α', o)) :
    Sim (step σ (.setDyn k i v)) α' o (fun _ G' => G'.gs = G.gs) := by
  unfold Spec.step at hs
  split at hs
  · cases hs
  · rename_i f fs hf
    split at hs
    · cases hs
    · rename_i E hE
      dsimp only at hs
      split at hs
      · cases hs
      · rename_i e ho
        split at hs
        · rename_i E' hE'
          split at hs
          · rename_i hi
            cases hs
            obtain ⟨h1, h2⟩ := h.dyn hf ho hE'
            right
            refine ⟨_, G, ?_, h.setVar h2 hE' hi v, rfl⟩
            simp [step, h1, bind, Except.bind]
          · cases hs
        · cases hs

end
end Verif.Frame
