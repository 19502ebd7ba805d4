import Verif.Frame.Push

/-!
# Leaving frames
-/
namespace Verif.Frame
open Verif.Frame.Spec

theorem Shape.pop {base hp : Nat} {G : Ghost} (h : Shape base hp G) {g gs} (hg : G.gs = g :: gs) :
    Shape base hp { G with gs := gs } := by
  have hsub : ∀ a ∈ gs, a ∈ G.gs := fun a ha => by rw [hg]; exact List.mem_cons_of_mem _ ha
  have hsep := h.sep
  rw [hg, List.pairwise_cons] at hsep
  have hex : ∀ a ∈ gs, ∀ b ∈ G.gs, b.c < a.c → b ∈ gs := by
    intro a ha b hb hlt
    rw [hg] at hb
    rcases List.mem_cons.1 hb with rfl | hb
    · have := hsep.1 a ha; omega
    · exact hb
  constructor
  · exact h.base1
  · exact h.hpLo
  · exact fun a ha => h.frame a (hsub a ha)
  · exact fun a ha => h.room a (hsub a ha)
  · exact hsep.2
  · exact fun a ha b hb => h.inj a (hsub a ha) b (hsub b hb)
  · exact fun a ha => h.own a (hsub a ha)
  · exact h.caps
  · exact h.capSep
  · exact h.root
  · exact h.tree
  · intro a ha S o hS ho
    rcases h.outerLive a (hsub a ha) S o hS ho with h1 | ⟨g', h1, h2, h3⟩
    · exact Or.inl h1
    · exact Or.inr ⟨g', hex a ha g' h1 h3, h2, h3⟩
  · exact h.hbs
  · intro a ha hc hr S M code e f hS hM hb hf
    obtain ⟨h1, g', h2, h3, h4, h5, h6⟩ := h.handle a (hsub a ha) hc hr S M code e f hS hM hb hf
    exact ⟨h1, g', hex a ha g' h2 h5, h3, h4, h5, h6⟩
  · intro a ha x hx
    obtain ⟨g', h1, h2, h3⟩ := h.accLive a (hsub a ha) x hx
    exact ⟨g', hex a ha g' h1 h3, h2, h3⟩
  · exact fun a ha b hb => h.accTrans a (hsub a ha) b (hsub b hb)
  · exact fun a ha b hb => h.only a (hsub a ha) b (hsub b hb)
  · exact fun a ha S o hS ho hc b hb => h.noAcc a (hsub a ha) S o hS ho hc b (hsub b hb)

section
variable {σ : VM} {α : Mach} {G : Ghost}

theorem Inv.pop (h : Inv σ α G) {f f' fs g g' gs} (hf : α.frames = f :: f' :: fs)
    (hg : G.gs = g :: g' :: gs) (σ' : VM) (hm : σ'.mem = σ.mem) (hbase : σ'.base = σ.base)
    (hhp : σ'.hp = σ.hp) (hprocs : σ'.procs = σ.procs) (hsp : σ'.sp = g.p) (hcfp : σ'.cfp = g'.c)
    (hlfp : σ'.lfp + g'.n + 1 = G.loc g'.env)
    (hpc : g'.ruby = true → σ'.pc = f'.pc ∧ ∃ S, G.sk[g'.env]? = some S ∧ σ'.iseq = S.iseq)
    (hn : Nats σ.base σ.procs G (g' :: gs) (f' :: fs) σ'.natives) :
    Inv σ' { α with frames := f' :: fs } { G with gs := g' :: gs } := by
  have hs := h.shape
  have hgm : g ∈ G.gs := by rw [hg]; exact List.mem_cons_self ..
  have hsub : ∀ a ∈ g' :: gs, a ∈ G.gs := fun a ha => by rw [hg]; exact List.mem_cons_of_mem _ ha
  have hops := h.ops
  rw [hf, hg] at hops
  obtain ⟨h1, h2, h3, h4, h5, h6, h7⟩ := hops
  have hpcs := h.pcs
  rw [hf, hg] at hpcs
  constructor
  · exact h.sk
  · rw [hbase, hhp]; exact hs.pop hg
  · intro e E he hl
    rw [hm]
    have hl' : Live G e := by
      rcases hl with hl | ⟨a, ha, hae⟩
      · exact Or.inl hl
      · exact Or.inr ⟨a, hsub a ha, hae⟩
    have := h.envs e E he hl'
    exact ⟨this.self, this.recv, this.ep, this.flag, this.vars, this.mfp, this.outer, this.iseq, this.blk⟩
  · intro a ha
    rw [hm]
    exact h.ctl a (hsub a ha)
  · rw [hm]
    have := h.links
    rw [hg] at this
    exact this.2
  · rw [hm, hsp]; exact h7
  · rw [hm]; exact hpcs.2
  · rw [hsp, hbase]
    have := h.spLe
    have := hdr_ge g.ruby
    unfold GF.p; omega
  · exact ⟨hcfp, hlfp, hpc⟩
  · rw [hprocs]; exact h.procs
  · rw [hbase, hprocs]
    exact Nats_mono hn (fun _ _ h => h) (fun _ _ h => h) (fun _ h => ⟨h, rfl⟩)
  · intro f2 hf2
    exact h.heldP f2 (by rw [hf]; exact List.mem_cons_of_mem _ hf2)
  · exact h.blkP

theorem Inv.two (h : Inv σ α G) {f f' fs} (hf : α.frames = f :: f' :: fs) :
    ∃ g g' gs, G.gs = g :: g' :: gs := by
  have hops := h.ops
  rw [hf] at hops
  match hg : G.gs with
  | [] => rw [hg] at hops; exact hops.elim
  | [_] => rw [hg] at hops; exact hops.2.2.2.2.2.2.elim
  | g :: g' :: gs => exact ⟨g, g', gs, rfl⟩

/-- `unwind_frame` on related states -/
theorem Inv.unwind (h : Inv σ α G) {f f' fs E} (hf : α.frames = f :: f' :: fs)
    (hE : α.envs[f.env]? = some E) (hr : E.ruby = true) :
    ∃ σ', σ.unwind = .ok σ' ∧
      Inv σ' { α with frames := f' :: fs } { G with gs := G.gs.tail } := by
  obtain ⟨g, g', gs, hg⟩ := h.two hf
  have hgm : g ∈ G.gs := by rw [hg]; exact List.mem_cons_self ..
  have hgm' : g' ∈ G.gs := by rw [hg]; simp
  have hops := h.ops
  rw [hf, hg] at hops
  obtain ⟨h1, h2, h3, h4, h5, ⟨d, h6, -⟩, ⟨k1, k2, k3, k4, k5, ⟨d', k6, -⟩, k7⟩⟩ := hops
  have hlk := h.links
  rw [hg] at hlk
  have hrg := h.regs
  rw [hf, hg] at hrg
  obtain ⟨S', s1, s2, s3⟩ := h.shape.frame g' hgm'
  obtain ⟨E', hE', rfl⟩ := h.of_sk s1
  have hgr : g.ruby = true := by
    obtain ⟨S, t1, t2, t3⟩ := h.shape.frame g hgm
    rw [← h1, h.sk_of hE] at t1
    cases t1
    rw [← t3]; exact hr
  have hlive : Live G g'.env := Or.inr ⟨g', hgm', rfl⟩
  have henv := h.envs _ _ hE' hlive
  obtain ⟨d2, hfl⟩ := henv.flag
  have hroom := h.shape.live_room hlive s1
  have hpcs := h.pcs
  rw [hf, hg] at hpcs
  have hnat := h.nats
  rw [hf, hg] at hnat
  unfold Nats at hnat
  rw [if_pos hgr] at hnat
  have hn' : E'.vars.length = g'.n := s2
  have hr' : E'.ruby = g'.ruby := s3
  rw [hg]
  by_cases hgr' : g'.ruby = true
  · refine ⟨{ σ with
      sp := g.p, cfp := g'.c, lfp := G.loc g'.env - g'.n - 1, iseq := E'.iseq, pc := f'.pc }, ?_, ?_⟩
    · simp only [VM.unwind, hrg.1, hlk.1, asAddr, prevSp, h6, asLen, (h.ctl g' hgm').2, getLfp, hfl, k6,
        asRuby, hgr', bind, Except.bind, if_true, henv.iseq (hr'.trans hgr'), asIseq, hpcs.1 hgr', asPc,
        hn', GF.p]
    · refine h.pop hf hg _ rfl rfl rfl rfl rfl rfl ?_ ?_ hnat
      · dsimp; simp only [Env.sk] at hroom; omega
      · intro _
        exact ⟨rfl, _, s1, rfl⟩
  · refine ⟨{ σ with sp := g.p, cfp := g'.c, lfp := G.loc g'.env - g'.n - 1 }, ?_, ?_⟩
    · simp only [VM.unwind, hrg.1, hlk.1, asAddr, prevSp, h6, asLen, (h.ctl g' hgm').2, getLfp, hfl, k6,
        asRuby, hgr', bind, Except.bind, hn', GF.p]
      simp
    · refine h.pop hf hg _ rfl rfl rfl rfl rfl rfl ?_ ?_ hnat
      · dsimp; simp only [Env.sk] at hroom; omega
      · intro hx; exact absurd hx hgr'

theorem sim_raise (h : Inv σ α G) {α' o} (hs : Spec.step α .raise = some (α', o)) :
    Sim (step σ .raise) α' o (fun _ G' => G'.gs = G.gs.tail) := by
  unfold Spec.step at hs
  split at hs
  · cases hs
  · rename_i f fs hf
    split at hs
    · cases hs
    · rename_i E hE
      dsimp only at hs
      split at hs
      · rename_i f' fs' hr
        cases hs
        obtain ⟨σ', e, hi⟩ := h.unwind hf hE hr
        right
        exact ⟨σ', _, by simp [step, e, bind, Except.bind], hi, rfl⟩
      · cases hs

theorem sim_ret (h : Inv σ α G) {b α' o} (hs : Spec.step α (.ret b) = some (α', o)) :
    Sim (step σ (.ret b)) α' o (fun _ G' => G'.gs = G.gs.tail) := by
  unfold Spec.step at hs
  split at hs
  · cases hs
  · rename_i f fs hf
    split at hs
    · cases hs
    · rename_i E hE
      dsimp only at hs
      split at hs
      · rename_i v ops f' fs' hr ho
        obtain ⟨g, gs, E', hg, hgm, hfe, hE', hS, hn, hr', hl⟩ := h.top hf
        rw [hE] at hE'; cases hE'
        have hops := h.ops
        have hrg := h.regs
        rw [hf, hg] at hops hrg
        obtain ⟨-, -, -, -, -, ⟨d, h6, h7⟩, -⟩ := hops
        have hd := h7 (hr'.symm.trans hr)
        have hfl : σ.mem (σ.cfp + EV_FLAG) = .flag g.n g.ruby d := by rw [hrg.1]; exact h6
        obtain ⟨e1, hi1⟩ := h.popVal hf ho
        obtain ⟨σ2, e2, hi2⟩ := hi1.unwind (f := { f with ops := ops }) (f' := f') (fs := fs') rfl
          (E := E) hE hr
        have e3 : step σ (.ret b) = (if b = true then .ok (σ2, some v) else
            if d = true then .ok (σ2, none) else (σ2.push (.val v)).bind (fun s => .ok (s, none))) := by
          simp only [step, hfl, asDiscard, bind, Except.bind, e1, e2]
        rw [e3, hd]
        split at hs
        · rename_i hb
          cases hs
          rw [if_pos hb]
          exact Or.inr ⟨σ2, _, rfl, hi2, rfl⟩
        · rename_i hb
          rw [if_neg hb]
          split at hs
          · rename_i hu
            cases hs
            rw [hu]
            rcases hi2.pushVal rfl v with e | ⟨σ3, e, hi3⟩
            · left; simp [e, Except.bind]
            · right; exact ⟨σ3, _, by simp [e, Except.bind], hi3, rfl⟩
          · rename_i hu
            cases hs
            have : f.use = false := by simpa using hu
            rw [this]
            exact Or.inr ⟨σ2, _, rfl, hi2, rfl⟩
      · cases hs

theorem sim_retNative (h : Inv σ α G) {v α' o} (hs : Spec.step α (.retNative v) = some (α', o)) :
    Sim (step σ (.retNative v)) α' o (fun _ G' => G'.gs = G.gs.tail) := by
  unfold Spec.step at hs
  split at hs
  · cases hs
  · rename_i f fs hf
    split at hs
    · cases hs
    · rename_i E hE
      dsimp only at hs
      split at hs
      · rename_i f' fs' hr
        obtain ⟨g, g', gs, hg⟩ := h.two hf
        have hgm : g ∈ G.gs := by rw [hg]; exact List.mem_cons_self ..
        have hgm' : g' ∈ G.gs := by rw [hg]; simp
        have hops := h.ops
        rw [hf, hg] at hops
        obtain ⟨h1, h2, h3, h4, h5, ⟨d, h6, -⟩, ⟨k1, k2, k3, k4, k5, ⟨d', k6, -⟩, k7⟩⟩ := hops
        have hrg := h.regs
        rw [hf, hg] at hrg
        obtain ⟨S', s1, s2, s3⟩ := h.shape.frame g' hgm'
        obtain ⟨E', hE', rfl⟩ := h.of_sk s1
        have hgr : g.ruby = false := by
          obtain ⟨S, t1, t2, t3⟩ := h.shape.frame g hgm
          rw [← h1, h.sk_of hE] at t1
          cases t1
          rw [← t3]; exact hr
        have hlive : Live G g'.env := Or.inr ⟨g', hgm', rfl⟩
        have henv := h.envs _ _ hE' hlive
        obtain ⟨d2, hfl⟩ := henv.flag
        have hroom := h.shape.live_room hlive s1
        have hnat := h.nats
        rw [hf, hg] at hnat
        unfold Nats at hnat
        rw [if_neg (by rw [hgr]; simp)] at hnat
        cases hns : σ.natives with
        | nil => rw [hns] at hnat; exact hnat.elim
        | cons n ns =>
          rw [hns] at hnat
          obtain ⟨n1, n2, n3, n4, n5, n6⟩ := hnat
          have hn' : E'.vars.length = g'.n := s2
          obtain ⟨σ2, hσ2⟩ : ∃ s : VM, s = { σ with
              sp := g.p, cfp := g'.c, lfp := G.loc g'.env - g'.n - 1, pc := n.pc, iseq := n.iseq,
              natives := ns } := ⟨_, rfl⟩
          have hi : Inv σ2 { α with frames := f' :: fs' }
                { G with gs := g' :: gs } := by
            rw [hσ2]
            refine h.pop hf hg _ rfl rfl rfl rfl rfl rfl ?_ ?_ n6
            · dsimp; simp only [Env.sk] at hroom; omega
            · intro hx; exact n2 hx
          have e3 : step σ (.retNative v) = (match v with
              | some v => σ2.push (.val v) |>.bind
                  (fun s => .ok (s, none))
              | none => .ok (σ2, none)) := by
            rw [hσ2]
            simp only [step, hns, VM.unwindNative, prevSp, hrg.1, h6, asLen, n1, (h.ctl g' hgm').2,
              asAddr, getLfp, hfl, bind, Except.bind, hn', GF.p]
            cases v <;> rfl
          rw [e3, hg]
          cases v with
          | none =>
            cases hs
            exact Or.inr ⟨_, _, rfl, hi, rfl⟩
          | some v =>
            cases hs
            rcases hi.pushVal rfl v with e | ⟨σ3, e, hi3⟩
            · left; simp only [e, Except.bind]
            · right; exact ⟨σ3, _, by simp only [e, Except.bind], hi3, rfl⟩
      · cases hs

end
end Verif.Frame
