import Verif.Frame.Blocks

/-!
# Making Procs and bindings
-/
namespace Verif.Frame
open Verif.Frame.Spec

variable {σ : VM} {α : Mach} {G : Ghost}

/-- A new entry in the table of Procs. -/
theorem Inv.addProc (h : Inv σ α G) (P : ProcInfo) (Q : Spec.Proc) (h1 : P.self = Q.self)
    (h2 : P.method = Q.method) (h3 : P.outer = G.loc Q.env) (h4 : G.cap Q.env = true) :
    Inv { σ with procs := σ.procs ++ [P] } { α with procs := α.procs ++ [Q] } G where
  sk := h.sk
  shape := h.shape
  envs := h.envs
  ctl := h.ctl
  links := h.links
  ops := h.ops
  pcs := h.pcs
  spLe := h.spLe
  regs := by
    have := h.regs
    revert this
    cases G.gs <;> cases α.frames <;> exact id
  procs := by
    obtain ⟨hl, hp⟩ := h.procs
    refine ⟨by simp [hl], ?_⟩
    intro p Q' hq
    simp only at hq
    by_cases hlt : p < α.procs.length
    · rw [List.getElem?_append_left hlt] at hq
      obtain ⟨P', k1, k2⟩ := hp p Q' hq
      exact ⟨P', by simp only; rw [List.getElem?_append_left (by omega)]; exact k1, k2⟩
    · have hpl := (List.getElem?_eq_some_iff.1 hq).1
      simp only [List.length_append, List.length_cons, List.length_nil] at hpl
      have : p = α.procs.length := by omega
      subst this
      simp at hq
      subst hq
      refine ⟨P, ?_, h1, h2, h3, h4⟩
      simp only
      rw [← hl]; simp
  nats := by
    refine Nats_mono h.nats ?_ (fun _ _ h => h) (fun _ h => ⟨h, rfl⟩)
    intro p i hi
    have := (List.getElem?_eq_some_iff.1 hi).1
    simp only
    rw [List.getElem?_append_left this]; exact hi
  heldP := fun f hf p hp => by
    have := h.heldP f hf p hp
    simp only [List.length_append, List.length_cons, List.length_nil]; omega
  blkP := fun e E p hE hb => by
    have := h.blkP e E p hE hb
    simp only [List.length_append, List.length_cons, List.length_nil]; omega

theorem Inv.procobj (h : Inv σ α G) {g gs} (hg : G.gs = g :: gs) {a} (ha : a ∈ G.gs)
    (hr : a.ruby = true) (hx : a.env = g.env ∨ a.env ∈ g.acc) (slf code : Nat) :
    ∃ σ' G', σ.procobj slf code a.c = .ok (α.procs.length, σ') ∧
      Inv σ' { α with procs := α.procs ++ [⟨slf, code, a.env⟩] } G' ∧ G'.gs = G.gs := by
  obtain ⟨σ', G', l, e1, h1, h2, h3, h4, _⟩ := h.capture hg ha hr hx
  refine ⟨{ σ' with procs := σ'.procs ++ [⟨slf, code, G'.loc a.env⟩] }, G', ?_, ?_, h2.gs⟩
  · simp only [VM.procobj, e1, bind, Except.bind, h3.procs, h.procs.1]
  · exact h1.addProc _ _ rfl rfl rfl h4

theorem sim_createProc (h : Inv σ α G) {code α' o}
    (hs : Spec.step α (.createProc code) = some (α', o)) :
    Sim (step σ (.createProc code)) α' o (fun _ G' => G'.gs = G.gs) := by
  cases hf : α.frames with
  | nil => simp [Spec.step, hf] at hs
  | cons f fs =>
    obtain ⟨g, gs, E, hg, hgm, hfe, hE, hS, hn, hr, hl⟩ := h.top hf
    simp only [Spec.step, hf, hE] at hs
    split at hs
    · rename_i hEr
      simp only [Option.some.injEq, Prod.mk.injEq] at hs
      obtain ⟨rfl, rfl⟩ := hs
      obtain ⟨hcfp, _⟩ := h.flag_top hg
      have hEg : α.envs[g.env]? = some E := by rw [← hfe]; exact hE
      have hok := h.envs _ E hEg hl
      have hlfp := h.regs
      rw [hf, hg] at hlfp
      have hroom := h.shape.live_room hl hS
      have hself : σ.mem (σ.lfp - 1) = .val E.self := by
        rw [← hok.recv]
        congr 1
        have := hlfp.2.1
        omega
      obtain ⟨σ', G', e1, h1, h2⟩ := h.procobj hg hgm (by rw [← hr]; exact hEr) (Or.inl rfl) E.self code
      right
      refine ⟨σ', G', ?_, ?_, h2⟩
      · simp only [step, hself, asVal, bind, Except.bind, hcfp, e1]
      · rw [hfe]; rw [hf] at h1; exact h1
    · cases hs

theorem sim_blockToProc (h : Inv σ α G) {α' o}
    (hs : Spec.step α .blockToProc = some (α', o)) :
    Sim (step σ .blockToProc) α' o (fun _ G' => G'.gs = G.gs) := by
  cases hf : α.frames with
  | nil => simp [Spec.step, hf] at hs
  | cons f fs =>
    obtain ⟨g, gs, E, hg, hgm, hfe, hE, hS, hn, hr, hl⟩ := h.top hf
    simp only [Spec.step, hf, hE] at hs
    cases hob : Spec.ownBlock α f with
    | none => rw [hob] at hs; cases hs
    | some ob =>
      cases ob with
      | none => rw [hob] at hs; cases hs
      | some sb =>
        rw [hob] at hs
        obtain ⟨b', k1, k2⟩ := h.ownBlock hf hg hob
        cases b' with
        | none => cases sb <;> exact k2.elim
        | some b' =>
          cases sb with
          | proc p =>
            simp only [Option.some.injEq, Prod.mk.injEq] at hs
            obtain ⟨rfl, rfl⟩ := hs
            cases b' with
            | lit _ _ => exact k2.elim
            | proc q =>
              obtain ⟨rfl, _⟩ := k2
              right
              exact ⟨σ, G, by simp only [step, k1, VM.createProc, bind, Except.bind], h, rfl⟩
          | lit code e =>
            dsimp only at hs
            cases hD : α.envs[e]? with
            | none => rw [hD] at hs; cases hs
            | some D =>
              rw [hD] at hs
              simp only [Option.some.injEq, Prod.mk.injEq] at hs
              obtain ⟨rfl, rfl⟩ := hs
              cases b' with
              | proc _ => exact k2.elim
              | lit code' f' =>
                obtain ⟨rfl, h1, g', h2, rfl, h4, h5⟩ := k2
                obtain ⟨σ', G', e1, h6, h7⟩ := h.procobj hg h2 h5 h1 D.self code
                right
                refine ⟨σ', G', ?_, ?_, h7⟩
                · have hself := (h.ctl g' h2).1 D.sk (h.sk_of hD)
                  have hself : σ.mem (g'.c - 1) = .val D.self := hself
                  simp only [step, k1, VM.createProc, bind, Except.bind, ← h4, hself, asVal, e1]
                · rw [hf] at h6; exact h6

theorem callerCfp_ok {base hp : Nat} {procs : List ProcInfo} {m : Nat → Slot} {envs : List Env}
    (hsk : envs.map Env.sk = G.sk) (hs : Shape base hp G) :
    ∀ (gs' : List GF) (fs' : List Fr) (g : GF) (f : Fr) (sp : Nat) (ns : List Native) (fuel : Nat) (r : Fr),
      (∀ x ∈ g :: gs', x ∈ G.gs) →
      g.ruby = false → FOps m sp (g :: gs') (f :: fs') → Links m (g :: gs') →
      Nats base procs G (g :: gs') (f :: fs') ns →
      (g :: gs').Pairwise (fun g g' => g'.c + hdr g'.ruby + g.n + 2 ≤ g.c) →
      g.c + 1 ≤ fuel → Spec.caller envs fs' = some r →
      ∃ a ∈ gs', callerCfp m fuel g.c = .ok a.c ∧ a.env = r.env ∧ a.ruby = true ∧ a.env ∈ g.acc := by
  intro gs'
  induction gs' with
  | nil =>
    intro fs' g f sp ns fuel r hm hgr hF hL hN hP hfu hc
    cases fs' with
    | nil => simp [Spec.caller] at hc
    | cons f' fs' => exact hN.elim
  | cons g' gs' ih =>
    intro fs' g f sp ns fuel r hm hgr hF hL hN hP hfu hc
    cases fs' with
    | nil => exact hN.elim
    | cons f' fs' =>
      obtain ⟨_, _, _, _, _, _, hF'⟩ := hF
      obtain ⟨hL1, hL2⟩ := hL
      have hF2 := hF'
      obtain ⟨q1, _, _, _, _, ⟨d, q2, _⟩, _⟩ := hF'
      unfold Nats at hN
      rw [if_neg (by rw [hgr]; simp)] at hN
      cases ns with
      | nil => exact hN.elim
      | cons n ns =>
        obtain ⟨_, _, _, n1, n2, n3⟩ := hN
        rw [List.pairwise_cons] at hP
        have hp := hP.1 g' (List.mem_cons_self ..)
        cases fuel with
        | zero => omega
        | succ fuel =>
          have hg'm := hm g' (by simp)
          obtain ⟨S, s1, s2, s3⟩ := hs.frame g' hg'm
          have hEx : ∃ E, envs[g'.env]? = some E ∧ E.ruby = g'.ruby := by
            rw [← hsk, List.getElem?_map] at s1
            cases hq : envs[g'.env]? with
            | none => rw [hq] at s1; simp at s1
            | some E =>
              rw [hq] at s1
              simp at s1
              subst s1
              exact ⟨E, rfl, s3⟩
          obtain ⟨E, hE, hEr⟩ := hEx
          unfold Spec.caller at hc
          rw [q1, hE] at hc
          dsimp only at hc
          have hstep : callerCfp m (fuel + 1) g.c =
              if g'.ruby = true then .ok g'.c else callerCfp m fuel g'.c := by
            rw [callerCfp, hL1]
            simp only [asAddr, bind, Except.bind, q2, asRuby]
          by_cases hgr' : g'.ruby = true
          · rw [if_pos (by rw [hEr]; exact hgr')] at hc
            simp only [Option.some.injEq] at hc
            subst hc
            refine ⟨g', List.mem_cons_self .., ?_, q1.symm, hgr', n1⟩
            rw [hstep, if_pos hgr']
          · rw [if_neg (by rw [hEr]; exact hgr')] at hc
            obtain ⟨a, a1, a2, a3, a4, a5⟩ := ih fs' g' f' g.p ns fuel r
              (fun x hx => hm x (List.mem_cons_of_mem _ hx)) (by simpa using hgr') hF2 hL2 n3 hP.2 (by omega) hc
            refine ⟨a, List.mem_cons_of_mem _ a1, ?_, a3, a4, n2 _ a5⟩
            rw [hstep, if_neg hgr', a2]

theorem sim_binding (h : Inv σ α G) {α' o}
    (hs : Spec.step α .binding = some (α', o)) :
    Sim (step σ .binding) α' o (fun _ G' => G'.gs = G.gs) := by
  cases hf : α.frames with
  | nil => simp [Spec.step, hf] at hs
  | cons f fs =>
    obtain ⟨g, gs, E, hg, hgm, hfe, hE, hS, hn, hr, hl⟩ := h.top hf
    simp only [Spec.step, hf, hE] at hs
    split at hs
    · cases hs
    · rename_i hEr
      cases hc : Spec.caller α.envs fs with
      | none => rw [hc] at hs; cases hs
      | some r =>
        rw [hc] at hs
        simp only [Option.some.injEq, Prod.mk.injEq] at hs
        obtain ⟨rfl, rfl⟩ := hs
        obtain ⟨hcfp, _⟩ := h.flag_top hg
        have h1 := h.ops
        have h2 := h.links
        have h3 := h.nats
        have h4 := h.shape.sep
        rw [hf, hg] at h1 h3
        rw [hg] at h2 h4
        have hroom := h.shape.room g hgm
        have hb3 := hdr_ge g.ruby
        obtain ⟨a, a1, a2, a3, a4, a5⟩ := callerCfp_ok h.sk h.shape gs fs g f σ.sp σ.natives
          (σ.base + STACK_SIZE) r (by rw [hg]; exact fun _ h => h) (by rw [← hr]; simpa using hEr) h1 h2 h3 h4
          (by omega) hc
        obtain ⟨σ', G', e1, k1, k2⟩ := h.procobj hg (a := a) (by rw [hg]; exact List.mem_cons_of_mem _ a1) a4
          (Or.inr a5) 0 0
        right
        refine ⟨σ', G', ?_, ?_, k2⟩
        · simp only [step, hcfp, a2, bind, Except.bind, e1]
        · rw [← a3]; rw [hf] at k1; exact k1

end Verif.Frame
