import Verif.Frame.Calls

/-!
# Calls of blocks and Procs
-/
namespace Verif.Frame
open Verif.Frame.Spec

variable {σ : VM} {α : Mach} {G : Ghost}

theorem Inv.live_or (h : Inv σ α G) {g gs} (hg : G.gs = g :: gs) {e E} (hl : Live G e)
    (hE : α.envs[e]? = some E) : G.loc e + hdr E.ruby ≤ g.c + hdr g.ruby ∨ σ.base + STACK_SIZE ≤ G.loc e := by
  have hs := h.shape
  by_cases hc : G.cap e = true
  · right
    obtain ⟨S, _, _, h1, _⟩ := hs.caps e hc
    omega
  · left
    rcases hl with hl | ⟨g', hg', rfl⟩
    · exact absurd hl hc
    · obtain ⟨S, h1, h2, h3⟩ := hs.frame g' hg'
      rw [h.sk_of hE] at h1; cases h1
      have h3 : E.ruby = g'.ruby := h3
      rw [hs.own g' hg' (by simpa using hc), h3]
      rw [hg] at hg'
      rcases List.mem_cons.1 hg' with rfl | hg'
      · exact Nat.le_refl _
      · have := hs.sep
        rw [hg, List.pairwise_cons] at this
        have := this.1 g' hg'
        omega

/-- Entering a block whose outer environment is `e`; `a` is an address of a frame for it. -/
theorem Inv.enterBlock (h : Inv σ α G) {f fs} (hf : α.frames = f :: fs) {g gs} (hg : G.gs = g :: gs)
    {e O} (hO : α.envs[e]? = some O) (hl : Live G e) (hr : O.ruby = true)
    (slf code args : Nat) (locals : List Nat) (use cy : Bool) (acc : List Nat) (a : Nat)
    (hk : args ≤ f.ops.length)
    (ha : σ.mem (a + EV_EP) = .ptr (some (G.loc e)))
    (ha' : a + 1 < g.c + hdr g.ruby ∨ σ.base + STACK_SIZE ≤ a + 1)
    (hacc : ∀ x ∈ acc, ∃ g' ∈ G.gs, g'.env = x)
    (htrans : ∀ g' ∈ G.gs, g'.env ∈ acc → ∀ y ∈ g'.acc, y ∈ acc)
    (hno : ∀ g' ∈ G.gs, ∀ S' o, G.sk[g'.env]? = some S' → S'.outer = some o → G.cap o = false →
      o ∉ acc)
    (hnew : G.cap e = false → e ∉ acc ∧
      ∀ g' ∈ G.gs, ∀ S', G.sk[g'.env]? = some S' → S'.outer ≠ some e)
    (hhandle : cy = true → ∀ M code e' f, G.sk[O.meth]? = some M → M.blk = some (.lit code e') →
      G.hb O.meth = some (.lit code f) →
      e' ∈ acc ∧ ∃ g' ∈ G.gs, g'.env = e' ∧ g'.c = σ.base + f ∧ g'.ruby = true) :
    (do (← σ.insertBelow args slf).invokeBlock args code a locals use) = .error .overflow ∨
    ∃ σ' G', (do (← σ.insertBelow args slf).invokeBlock args code a locals use) = .ok σ' ∧
      Inv σ' (Spec.enter α f fs (f.ops.drop args) ⟨slf, locals, some e, O.meth, code, none, true⟩ use none cy)
        G' ∧ ∃ x, G'.gs = x :: G.gs := by
  have hgm : g ∈ G.gs := by rw [hg]; exact List.mem_cons_self ..
  obtain ⟨hcfp, d, hfl⟩ := h.flag_top hg
  obtain ⟨hsp, hops⟩ := h.opAt hf hg
  have hb3 := hdr_ge g.ruby
  have hroom := h.shape.room g hgm
  obtain ⟨p, hp⟩ : ∃ p, p = g.c + hdr g.ruby + (f.ops.length - args) := ⟨_, rfl⟩
  have hsp' : σ.sp - args = p := by omega
  have hspp : σ.sp = p + args := by omega
  have hle := h.spLe
  simp only [VM.insertBelow, hsp', bind, Except.bind]
  by_cases hlt : ¬ σ.sp < σ.base + STACK_SIZE
  · left; simp only [if_neg hlt]
  have hlt : σ.sp < σ.base + STACK_SIZE := Decidable.not_not.1 hlt
  simp only [if_pos hlt]
  -- memory after the insertion
  generalize hm1 : upd (copySlots σ.mem p (p + 1) args) p (.val slf) = m1
  have hlow : ∀ x, x < p → m1 x = σ.mem x := by
    intro x hx
    rw [← hm1, upd_ne _ _ (by omega)]
    unfold copySlots
    rw [if_neg (by omega)]
  have hhi : ∀ x, σ.base + STACK_SIZE ≤ x → m1 x = σ.mem x := by
    intro x hx
    rw [← hm1, upd_ne _ _ (by omega)]
    unfold copySlots
    rw [if_neg (by omega)]
  have hmp : m1 p = .val slf := by rw [← hm1, upd_same]
  simp only [VM.invokeBlock]
  have ha1 : m1 (a + EV_EP) = .ptr (some (G.loc e)) := by
    unfold EV_EP at ha ⊢
    rcases ha' with hx | hx
    · rw [hlow _ (by omega), ha]
    · rw [hhi _ hx, ha]
  rw [ha1]
  simp only [asAddr, bind, Except.bind]
  have hpp : σ.sp + 1 - args = p + 1 := by omega
  rcases setLocals_ok (vs := locals) (p := p) (args := args) (σ := { σ with mem := m1, sp := σ.sp + 1 })
    (by dsimp only; omega) (by dsimp only; omega) with h1 | ⟨h1, h2⟩
  · left; rw [h1]
  rw [h1]
  dsimp only at h2 ⊢
  rw [hpp, show p + 1 - 1 = p from rfl]
  have hlo := h.live_or hg hl hO
  rw [hr] at hlo
  simp only [hdr_true] at hlo
  have hmfp : wr m1 (p + 1) (locals.map Slot.val) (G.loc e + EV_MFP) = .ptr (some (G.loc O.meth)) := by
    rw [← (h.envs e O hO hl).mfp hr]
    unfold EV_MFP
    rcases hlo with hx | hx
    · rw [wr_lt (by omega), hlow _ (by omega)]
    · rw [wr_ge (by rw [List.length_map]; omega), hhi _ (by omega)]
  have hgc : g.ruby = true → g.c + 8 ≤ p := by
    intro hq; rw [hq] at hp; simp only [hdr_true] at hp; omega
  have hne2 : g.ruby = true → G.loc e + EV_MFP ≠ g.c + EV_PC := by
    intro hq
    unfold EV_MFP EV_PC
    rcases hlo with hx | hx
    · rw [hq] at hx; simp only [hdr_true] at hx
      by_cases hc : G.cap e = true
      · obtain ⟨S, _, _, h9, _⟩ := h.shape.caps e hc
        omega
      · rcases hl with hl | ⟨g', hg', rfl⟩
        · exact absurd hl hc
        · rw [h.shape.own g' hg' (by simpa using hc)]
          rcases h.shape.lt_or hg' hgm with rfl | hx | hx
          · omega
          · rw [hq] at hx; simp only [hdr_true] at hx; omega
          · have := hdr_ge g'.ruby
            have h3 : O.ruby = g'.ruby := by
              obtain ⟨S, k1, k2, k3⟩ := h.shape.frame g' hg'
              rw [h.sk_of hO] at k1; cases k1
              exact k3
            rw [← h3, hr] at hx; simp only [hdr_true] at hx
            omega
    · omega
  rcases pushBlockFrame_ok (u := use) (code := code) (p := p) (n := locals.length) (gn := g.n)
    (gr := g.ruby) (d := d) (recv := slf) (mfp := G.loc O.meth) (outer := G.loc e)
    (σ := { σ with mem := wr m1 (p + 1) (locals.map Slot.val), sp := p + 1 + locals.length })
    rfl (by dsimp only; rw [wr_lt (by omega)]; exact hmp)
    (by dsimp only; rw [hcfp] at hfl ⊢; rw [wr_lt (by unfold EV_FLAG; omega), hlow _ (by unfold EV_FLAG; omega)]; exact hfl)
    hmfp
    (by unfold EV_MFP; rcases hlo with hx | hx <;> omega)
    (by dsimp only; rw [hcfp]; exact hne2) with h3 | ⟨h3, h4⟩
  · left; rw [h3]
  right
  dsimp only at h4
  have hOS := h.sk_of hO
  have heL : e < G.sk.length := (List.getElem?_eq_some_iff.1 hOS).1
  obtain ⟨_, M0, hM0, _⟩ := h.meth_live hl hO hr
  have hmL : O.meth < G.sk.length := (List.getElem?_eq_some_iff.1 (h.sk_of hM0)).1
  have hskl : G.sk.length = α.envs.length := by rw [← h.sk]; simp
  refine ⟨_, G.push (Env.sk ⟨slf, locals, some e, O.meth, code, none, true⟩)
    (p + locals.length + 2) none cy acc none, h3, ?_, ⟨_, rfl⟩⟩
  refine h.enter hf hg ⟨slf, locals, some e, O.meth, code, none, true⟩ args hk use none
    cy acc none _ p (p + locals.length + 2)
    [.ptr (some g.c), .ptr (some (p + locals.length + 2)), .flag locals.length true (!use),
      .ptr (some (G.loc O.meth)), .ptr (some (G.loc e)), .pc 0, .iseq code, .blk none] hp rfl h4 ?_ rfl rfl
    rfl rfl rfl rfl (fun _ => ⟨rfl, rfl⟩) ?_ rfl rfl ⟨_, rfl, fun _ => rfl⟩ ?_ ?_ (by simp) (by simp)
  · refine h.shape.push hg _ _ _ _ _ _ (by simp only [Env.sk]; omega) h4 (by simp [Env.sk]) ?_ trivial hacc
      htrans hno ?_ ?_
    · intro o ho
      simp only [Env.sk, Option.some.injEq] at ho
      subst ho
      exact ⟨rfl, ⟨O.sk, hOS, hr, rfl⟩, hl⟩
    · intro o ho
      simp only [Env.sk, Option.some.injEq] at ho
      subst ho
      exact hnew
    · intro hcy _ M code' e' f' hM hMb hh
      have hh : (if O.meth = G.sk.length then none else G.hb O.meth) = some (Blk.lit code' f') := hh
      have hM : (G.sk ++ [Env.sk ⟨slf, locals, some e, O.meth, code, none, true⟩])[O.meth]? = some M := hM
      rw [if_neg (by omega)] at hh
      rw [List.getElem?_append_left hmL] at hM
      exact hhandle hcy M code' e' f' hM hMb hh
  · dsimp only
    rw [hcfp]
    refine Pushed.build (fun x hx => by rw [wr_lt (by omega), hlow x hx]) (fun x hx => by
      rw [wr_ge (by rw [List.length_map]; omega), hhi x hx]) ?_ ?_ hgc ?_
    · rw [wr_lt (by omega)]; exact hmp
    · intro i v hv
      exact wr_get (by rw [List.getElem?_map, hv]; rfl)
    · simp only [List.length_cons, List.length_nil]; omega
  · intro _
    refine ⟨?_, rfl, rfl, rfl⟩
    rw [if_neg (by simp only; omega)]; rfl
  · exact h.nats_ruby hf hg _ rfl _ _ _ _ _ _ _

/-- Calling a Proc. -/
theorem Inv.enterProc (h : Inv σ α G) {f fs} (hf : α.frames = f :: fs) {g gs} (hg : G.gs = g :: gs)
    {q : Nat} {Q : Spec.Proc} (hQ : α.procs[q]? = some Q) (slf args : Nat) (locals : List Nat) (use : Bool) {α'}
    (hs : Spec.callBlock α f fs slf Q.method Q.env args locals use false = some α') :
    ∃ P, σ.procs[q]? = some P ∧ P.self = Q.self ∧
    ((do (← σ.insertBelow args slf).invokeBlock args P.method P.outer locals use) = .error .overflow ∨
    ∃ σ' G', (do (← σ.insertBelow args slf).invokeBlock args P.method P.outer locals use) = .ok σ' ∧
      Inv σ' α' G' ∧ ∃ x, G'.gs = x :: G.gs) := by
  obtain ⟨P, h1, h2, h3, h4, h5⟩ := h.procs.2 q Q hQ
  refine ⟨P, h1, h2, ?_⟩
  unfold Spec.callBlock at hs
  cases hO : α.envs[Q.env]? with
  | none => rw [hO] at hs; cases hs
  | some O =>
    rw [hO] at hs
    dsimp only at hs
    split at hs
    · rename_i hk
      simp only [Option.some.injEq] at hs
      subst hs
      obtain ⟨S, k1, k2, k3, _⟩ := h.shape.caps _ h5
      rw [h.sk_of hO] at k1; cases k1
      have := h.enterBlock hf hg hO (Or.inl h5) k2 slf Q.method args locals use false [] (G.loc Q.env) hk
        (h.envs _ O hO (Or.inl h5)).ep (Or.inr (by omega)) (by simp) (by simp) (by simp)
        (by rw [h5]; simp) (by simp)
      rw [h3, h4]
      exact this
    · cases hs

/-- the ghost frame of a frame found by its environment -/
theorem FOps_find {m : Nat → Slot} {sp : Nat} {gs : List GF} {fs : List Fr} {e : Nat} {hfr : Fr}
    (h : FOps m sp gs fs)
    (hh : fs.find? (fun x => x.env = e) = some hfr) :
    ∃ g' ∈ gs, g'.env = e ∧ g'.canYield = hfr.canYield := by
  induction gs generalizing sp fs with
  | nil => cases fs with
    | nil => simp at hh
    | cons => exact h.elim
  | cons g gs ih =>
    cases fs with
    | nil => exact h.elim
    | cons f fs =>
      obtain ⟨h1, h2, _, _, _, _, h7⟩ := h
      rw [List.find?_cons] at hh
      split at hh
      · rename_i hq
        simp only [Option.some.injEq] at hh
        subst hh
        simp only [decide_eq_true_eq] at hq
        exact ⟨g, List.mem_cons_self .., h1.symm.trans hq, h2.symm⟩
      · obtain ⟨g', k1, k2⟩ := ih h7 hh
        exact ⟨g', List.mem_cons_of_mem _ k1, k2⟩

/-- Calling a literal block of environment `e`. -/
theorem Inv.enterLit (h : Inv σ α G) {f fs} (hf : α.frames = f :: fs) {g gs} (hg : G.gs = g :: gs)
    {g'} (hg' : g' ∈ G.gs) (hr : g'.ruby = true) (hin : g'.env = g.env ∨ g'.env ∈ g.acc)
    (a : Nat) (ha : σ.mem (a + EV_EP) = .ptr (some (G.loc g'.env)))
    (ha' : a + 1 < g.c + hdr g.ruby ∨ σ.base + STACK_SIZE ≤ a + 1)
    (code args : Nat) (locals : List Nat) (use : Bool) {α'}
    (hs : Spec.yieldTo α f fs (.lit code g'.env) args locals use = some α') :
    ∃ D, α.envs[g'.env]? = some D ∧
    ((do (← σ.insertBelow args D.self).invokeBlock args code a locals use) = .error .overflow ∨
    ∃ σ' G', (do (← σ.insertBelow args D.self).invokeBlock args code a locals use) = .ok σ' ∧
      Inv σ' α' G' ∧ ∃ x, G'.gs = x :: G.gs) := by
  have hgm : g ∈ G.gs := by rw [hg]; exact List.mem_cons_self ..
  have hsh := h.shape
  unfold Spec.yieldTo at hs
  dsimp only at hs
  split at hs
  · rename_i D hfr hD hfind
    refine ⟨D, hD, ?_⟩
    unfold Spec.callBlock at hs
    rw [hD] at hs
    dsimp only at hs
    split at hs
    · rename_i hk
      simp only [Option.some.injEq] at hs
      subst hs
      have ho := h.ops
      rw [hf] at ho
      obtain ⟨g'', q1, q2, q3⟩ := FOps_find ho hfind
      have := hsh.inj g'' q1 g' hg' q2
      subst this
      obtain ⟨S, k1, k2, k3⟩ := hsh.frame g'' hg'
      rw [h.sk_of hD] at k1; cases k1
      have hDr : D.ruby = true := (show D.ruby = g''.ruby from k3).trans hr
      have hsub : ∀ y ∈ g''.acc, y ∈ g.acc := by
        intro y hy
        rcases hin with hin | hin
        · have := hsh.inj g'' hg' g hgm hin
          subst this
          exact hy
        · exact hsh.accTrans g hgm g'' hg' hin y hy
      refine h.enterBlock hf hg hD (Or.inr ⟨g'', hg', rfl⟩) hDr D.self code args locals use hfr.canYield
        g''.acc a hk ha ha' ?_ ?_ ?_ ?_ ?_
      · intro x hx
        obtain ⟨b, b1, b2, _⟩ := hsh.accLive g'' hg' x hx
        exact ⟨b, b1, b2⟩
      · intro b hb hbx y hy
        exact hsh.accTrans g'' hg' b hb hbx y hy
      · intro b hb S' o hS' ho hc hx
        exact hsh.noAcc b hb S' o hS' ho hc g hgm (hsh.top_max hg hb) (hsub o hx)
      · intro hc
        constructor
        · intro hx
          obtain ⟨b, b1, b2, b3⟩ := hsh.accLive g'' hg' _ hx
          have := hsh.inj b b1 g'' hg' b2
          subst this
          omega
        · intro b hb S' hS' ho
          rcases hin with hin | hin
          · rcases hsh.outerLive b hb S' _ hS' ho with b1 | ⟨b', b1, b2, b3⟩
            · rw [hc] at b1; cases b1
            · have e1 := hsh.inj b' b1 g hgm (b2.trans hin)
              subst e1
              have := hsh.top_max hg hb
              omega
          · exact hsh.noAcc b hb S' _ hS' ho hc g hgm (hsh.top_max hg hb) hin
      · intro hcy M code' e' f' hM hMb hh
        obtain ⟨b1, b, b2, b3, b4, _, b5⟩ := hsh.handle g'' hg' (q3.trans hcy) hr D.sk M code' e' f'
          (h.sk_of hD) hM hMb hh
        exact ⟨b1, b, b2, b3, b4, b5⟩
    · cases hs
  · cases hs

theorem Sim.of_enter {r : Except Err VM} {α' : Mach} {P : VM → Ghost → Prop}
    (h : r = .error .overflow ∨ ∃ σ' G', r = .ok σ' ∧ Inv σ' α' G' ∧ P σ' G') :
    Sim (do .ok (← r, none)) α' none P := by
  rcases h with h | ⟨σ', G', h1, h2⟩
  · left; rw [h]; rfl
  · right; exact ⟨σ', G', by rw [h1]; rfl, h2⟩

theorem sim_callProc (h : Inv σ α G) {p s args locals u α' o}
    (hs : Spec.step α (.callProc p s args locals u) = some (α', o)) :
    Sim (step σ (.callProc p s args locals u)) α' o (fun _ G' => ∃ x, G'.gs = x :: G.gs) := by
  cases hf : α.frames with
  | nil => simp [Spec.step, hf] at hs
  | cons f fs =>
    obtain ⟨g, gs, E, hg, hgm, hfe, hE, hS, hn, hr, hl⟩ := h.top hf
    simp only [Spec.step, hf, hE] at hs
    cases hQ : α.procs[p]? with
    | none => rw [hQ] at hs; cases hs
    | some Q =>
      rw [hQ] at hs
      dsimp only at hs
      cases hcb : Spec.callBlock α f fs (s.getD Q.self) Q.method Q.env args locals u false with
      | none => rw [hcb] at hs; cases hs
      | some α1 =>
        rw [hcb] at hs
        simp only [Option.some.injEq, Prod.mk.injEq] at hs
        obtain ⟨rfl, rfl⟩ := hs
        obtain ⟨P, h1, h2, h3⟩ := h.enterProc hf hg hQ _ args locals u hcb
        refine Sim.of_enter ?_
        simp only [VM.callProc, h1, h2]
        exact h3

/-- a block, given by its handle -/
theorem Inv.yieldTo (h : Inv σ α G) {f fs} (hf : α.frames = f :: fs) {g gs} (hg : G.gs = g :: gs)
    {sb b} (hb : BlkRel σ.base α G g (some sb) (some b)) {args locals u α'}
    (hs : Spec.yieldTo α f fs sb args locals u = some α') :
    σ.yieldTo b args locals u = .error .overflow ∨
    ∃ σ' G', σ.yieldTo b args locals u = .ok σ' ∧ Inv σ' α' G' ∧ ∃ x, G'.gs = x :: G.gs := by
  cases sb with
  | proc p =>
    cases b with
    | lit _ _ => exact hb.elim
    | proc q =>
      obtain ⟨rfl, hlt⟩ := hb
      unfold Spec.yieldTo at hs
      dsimp only at hs
      cases hQ : α.procs[p]? with
      | none => rw [hQ] at hs; cases hs
      | some Q =>
        rw [hQ] at hs
        dsimp only at hs
        obtain ⟨P, h1, h2, h3⟩ := h.enterProc hf hg hQ _ args locals u hs
        simp only [VM.yieldTo, h1, h2]
        exact h3
  | lit code e =>
    cases b with
    | proc _ => exact hb.elim
    | lit code' f' =>
      obtain ⟨rfl, h1, g', h2, rfl, h4, h5⟩ := hb
      have hlv : Live G g'.env := Or.inr ⟨g', h2, rfl⟩
      have hex : ∃ D, α.envs[g'.env]? = some D := by
        obtain ⟨S, k1, _⟩ := h.shape.frame g' h2
        obtain ⟨D, k2, _⟩ := h.of_sk k1
        exact ⟨D, k2⟩
      obtain ⟨D, hD⟩ := hex
      have hok := h.envs _ D hD hlv
      have hDr : D.ruby = true := by
        obtain ⟨S, k1, k2, k3⟩ := h.shape.frame g' h2
        rw [h.sk_of hD] at k1; cases k1
        exact (show D.ruby = g'.ruby from k3).trans h5
      have hlo := h.live_or hg hlv hD
      rw [hDr] at hlo
      simp only [hdr_true] at hlo
      obtain ⟨D', hD', hres⟩ := h.enterLit hf hg h2 h5 h1 (G.loc g'.env) hok.ep
        (by rcases hlo with hx | hx
            · left; omega
            · right; omega) code args locals u hs
      rw [hD] at hD'; cases hD'
      simp only [VM.yieldTo]
      rw [← h4, (h.ctl g' h2).2]
      simp only [asAddr, bind, Except.bind]
      rw [hok.self]
      simp only [asVal, bind, Except.bind] at hres ⊢
      exact hres

theorem sim_yield (h : Inv σ α G) {args locals u α' o}
    (hs : Spec.step α (.yield args locals u) = some (α', o)) :
    Sim (step σ (.yield args locals u)) α' o (fun _ G' => ∃ x, G'.gs = x :: G.gs) := by
  cases hf : α.frames with
  | nil => simp [Spec.step, hf] at hs
  | cons f fs =>
    obtain ⟨g, gs, E, hg, hgm, hfe, hE, hS, hn, hr, hl⟩ := h.top hf
    simp only [Spec.step, hf, hE] at hs
    cases hob : Spec.ownBlock α f with
    | none => rw [hob] at hs; cases hs
    | some ob =>
      cases ob with
      | none => rw [hob] at hs; cases hs
      | some sb =>
        rw [hob] at hs
        dsimp only at hs
        cases hy : Spec.yieldTo α f fs sb args locals u with
        | none => rw [hy] at hs; cases hs
        | some α1 =>
          rw [hy] at hs
          simp only [Option.some.injEq, Prod.mk.injEq] at hs
          obtain ⟨rfl, rfl⟩ := hs
          obtain ⟨b', k1, k2⟩ := h.ownBlock hf hg hob
          cases b' with
          | none => cases sb <;> exact k2.elim
          | some b' =>
            have hres := Sim.of_enter (h.yieldTo hf hg k2 hy)
            simp only [step, k1, bind, Except.bind] at hres ⊢
            exact hres

theorem sim_iterate (h : Inv σ α G) {args locals u α' o}
    (hs : Spec.step α (.iterate args locals u) = some (α', o)) :
    Sim (step σ (.iterate args locals u)) α' o (fun _ G' => ∃ x, G'.gs = x :: G.gs) := by
  cases hf : α.frames with
  | nil => simp [Spec.step, hf] at hs
  | cons f fs =>
    obtain ⟨g, gs, E, hg, hgm, hfe, hE, hS, hn, hr, hl⟩ := h.top hf
    simp only [Spec.step, hf, hE] at hs
    cases hEr : E.ruby with
    | true => rw [hEr] at hs; cases hs
    | false =>
    cases hfh : f.held with
    | none => rw [hEr, hfh] at hs; cases hs
    | some sb =>
    rw [hEr, hfh] at hs
    dsimp only at hs
    cases hy : Spec.yieldTo α f fs sb args locals u with
    | none => rw [hy] at hs; cases hs
    | some α1 =>
      rw [hy] at hs
      simp only [Option.some.injEq, Prod.mk.injEq] at hs
      obtain ⟨rfl, rfl⟩ := hs
      have ho := h.ops
      rw [hf, hg] at ho
      obtain ⟨-, -, hheld, -⟩ := ho
      have hnt := h.nats
      rw [hf, hg] at hnt
      have hgr : g.ruby = false := by rw [← hr]; exact hEr
      refine Sim.of_enter ?_
      cases gs with
      | nil =>
        cases fs with
        | nil => rw [hheld, hnt.2.1] at hfh; cases hfh
        | cons f' fs => exact hnt.elim
      | cons g1 gs =>
        cases fs with
        | nil => exact hnt.elim
        | cons f' fs =>
          unfold Nats at hnt
          rw [if_neg (by rw [hgr]; simp)] at hnt
          cases hnn : σ.natives with
          | nil => rw [hnn] at hnt; exact hnt.elim
          | cons n ns =>
            rw [hnn] at hnt
            obtain ⟨_, _, h3, _⟩ := hnt
            unfold HeldOK at h3
            rw [← hheld, hfh] at h3
            cases sb with
            | proc p =>
              dsimp only at h3
              obtain ⟨k1, i, k2, k3⟩ := h3
              unfold Spec.yieldTo at hy
              dsimp only at hy
              cases hQ : α.procs[p]? with
              | none => rw [hQ] at hy; cases hy
              | some Q =>
                rw [hQ] at hy
                dsimp only at hy
                obtain ⟨P, q1, q2, q3⟩ := h.enterProc hf hg hQ _ args locals u hy
                rw [k2] at q1; cases q1
                simp only [VM.iterate, hnn, k1, k3, k2, q2]
                exact q3
            | lit code e =>
              dsimp only at h3
              obtain ⟨k1, g', k2, rfl, k4, f'', a, k5, k6, k7, k8⟩ := h3
              have hg'm : g' ∈ G.gs := by rw [hg]; exact List.mem_cons_of_mem _ k2
              have hlv : Live G g'.env := Or.inr ⟨g', hg'm, rfl⟩
              obtain ⟨S, s1, s2, s3⟩ := h.shape.frame g' hg'm
              obtain ⟨D, hD, rfl⟩ := h.of_sk s1
              have hok := h.envs _ D hD hlv
              have hctl := h.ctl g' hg'm
              have haself : σ.mem (a - 1) = .val D.self := by
                rcases k8 with rfl | ⟨_, rfl⟩
                · exact hctl.1 _ s1
                · exact hok.self
              have haep : σ.mem (a + EV_EP) = .ptr (some (G.loc g'.env)) := by
                rcases k8 with rfl | ⟨_, rfl⟩
                · exact hctl.2
                · exact hok.ep
              have haw : a + 1 < g.c + hdr g.ruby ∨ σ.base + STACK_SIZE ≤ a + 1 := by
                rcases k8 with rfl | ⟨hc, rfl⟩
                · left
                  have := h.shape.top_max hg hg'm
                  have := hdr_ge g.ruby
                  omega
                · right
                  obtain ⟨S', _, _, t1, _⟩ := h.shape.caps _ hc
                  omega
              obtain ⟨D', hD', hres⟩ := h.enterLit hf hg hg'm k4 (Or.inr k1) a haep haw code args locals u hy
              rw [hD] at hD'; cases hD'
              simp only [VM.iterate, hnn, k5, k7, haself, asVal, bind, Except.bind] at hres ⊢
              exact hres

end Verif.Frame
