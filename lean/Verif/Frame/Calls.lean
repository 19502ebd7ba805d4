import Verif.Frame.Capture

/-!
# Calls
-/
namespace Verif.Frame
open Verif.Frame.Spec

variable {σ : VM} {α : Mach} {G : Ghost}

/-! ## Writing a list of slots -/

def wr (m : Nat → Slot) (a : Nat) : List Slot → Nat → Slot
  | [] => m
  | s :: ss => wr (upd m a s) (a + 1) ss

theorem wr_lt {ss : List Slot} : ∀ {m a x}, x < a → wr m a ss x = m x := by
  induction ss with
  | nil => intros; rfl
  | cons s ss ih => intro m a x h; rw [wr, ih (by omega), upd_ne _ _ (by omega)]

theorem wr_ge {ss : List Slot} : ∀ {m a x}, a + ss.length ≤ x → wr m a ss x = m x := by
  induction ss with
  | nil => intros; rfl
  | cons s ss ih =>
    intro m a x h
    simp only [List.length_cons] at h
    rw [wr, ih (by omega), upd_ne _ _ (by omega)]

theorem wr_get {ss : List Slot} : ∀ {m a} {i : Nat} {s}, ss[i]? = some s → wr m a ss (a + i) = s := by
  induction ss with
  | nil => intro m a i s h; simp at h
  | cons s ss ih =>
    intro m a i t h
    cases i with
    | zero =>
      rw [wr, wr_lt (by omega)]
      simp at h
      simp [upd, h]
    | succ i =>
      simp at h
      rw [wr, show a + (i + 1) = a + 1 + i by omega]
      exact ih h

theorem pushAll_ok : ∀ (ss : List Slot) (σ : VM), σ.sp ≤ σ.base + STACK_SIZE →
    σ.pushAll ss = .error .overflow ∨
    (σ.pushAll ss = .ok { σ with mem := wr σ.mem σ.sp ss, sp := σ.sp + ss.length } ∧
      σ.sp + ss.length ≤ σ.base + STACK_SIZE) := by
  intro ss
  induction ss with
  | nil => intro σ h; right; exact ⟨rfl, h⟩
  | cons s ss ih =>
    intro σ h
    unfold VM.pushAll VM.push
    by_cases hlt : σ.sp < σ.base + STACK_SIZE
    · simp only [if_pos hlt, bind, Except.bind]
      rcases ih { σ with mem := upd σ.mem σ.sp s, sp := σ.sp + 1 } (by dsimp only; omega) with h1 | ⟨h1, h2⟩
      · left; exact h1
      · right
        rw [h1]
        simp only [List.length_cons] at h2 ⊢
        refine ⟨?_, by omega⟩
        simp only [wr]
        congr 2; omega
    · left
      simp only [if_neg hlt, bind, Except.bind]

/-! ## The three kinds of frames -/

/-- memory after `save_next_pc` -/
def sv (m : Nat → Slot) (c : Nat) (r : Bool) (pc : Nat) : Nat → Slot :=
  if r = true then upd m (c + EV_PC) (.pc pc) else m

theorem sv_ne {m c r pc x} (h : r = true → x ≠ c + EV_PC) : sv m c r pc x = m x := by
  unfold sv; split
  · rename_i hr; exact upd_ne _ _ (h hr)
  · rfl

theorem savePc_eq {n r d} (h : σ.mem (σ.cfp + EV_FLAG) = .flag n r d) :
    σ.savePc = .ok { σ with mem := sv σ.mem σ.cfp r σ.pc } := by
  simp only [VM.savePc, h, asRuby, bind, Except.bind, sv]
  cases r <;> rfl

theorem pushMethodFrame_ok {p n gn gr d recv} {u : Bool} {code : Nat} {b : Option Blk}
    (hsp : σ.sp = p + 1 + n) (hrecv : σ.mem p = .val recv)
    (hfl : σ.mem (σ.cfp + EV_FLAG) = .flag gn gr d) :
    σ.pushMethodFrame u code n b = .error .overflow ∨
    (σ.pushMethodFrame u code n b = .ok { σ with
        mem := wr (sv σ.mem σ.cfp gr σ.pc) (p + 1 + n)
          [.val recv, .ptr (some σ.cfp), .ptr (some (p + n + 2)), .flag n true (!u),
            .ptr (some (p + n + 2)), .ptr none, .pc 0, .iseq code, .blk b],
        sp := p + n + 2 + 8, cfp := p + n + 2, lfp := p + 1, pc := 0, iseq := code } ∧
      p + n + 2 + 8 ≤ σ.base + STACK_SIZE) := by
  have h1 : p + 1 + n - n - 1 = p := by omega
  have h2 : p + 1 + n + 1 = p + n + 2 := by omega
  simp only [VM.pushMethodFrame, hsp, h1, hrecv, asVal, savePc_eq hfl, bind, Except.bind, VM.push]
  by_cases hlt : p + 1 + n < σ.base + STACK_SIZE
  · simp only [if_pos hlt, VM.pushControl]
    rcases pushAll_ok [.ptr (some σ.cfp), .ptr (some (p + 1 + n + 1)), .flag n true (!u)]
      { σ with mem := upd (sv σ.mem σ.cfp gr σ.pc) (p + 1 + n) (.val recv), sp := p + 1 + n + 1,
               cfp := p + 1 + n + 1 } (by dsimp only; omega) with h3 | ⟨h3, h4⟩
    · left; rw [h3]
    · rw [h3]
      simp only [List.length_cons, List.length_nil] at h4 ⊢
      rcases pushAll_ok [.ptr (some (p + 1 + n + 1)), .ptr none, .pc 0, .iseq code, .blk b]
        { σ with
          mem := (wr (upd (sv σ.mem σ.cfp gr σ.pc) (p + 1 + n) (.val recv)) (p + 1 + n + 1)
            [.ptr (some σ.cfp), .ptr (some (p + 1 + n + 1)), .flag n true (!u)])
          sp := p + 1 + n + 1 + (0 + 1 + 1 + 1), cfp := p + 1 + n + 1 } (by dsimp only; omega) with h5 | ⟨h5, h6⟩
      · left; rw [h5]
      · right
        rw [h5]
        simp only [List.length_cons, List.length_nil] at h6 ⊢
        refine ⟨?_, by omega⟩
        simp only [wr, h2]
  · left; simp only [if_neg hlt]

theorem pushBlockFrame_ok {p n gn gr d recv mfp outer} {u : Bool} {code : Nat}
    (hsp : σ.sp = p + 1 + n) (hrecv : σ.mem p = .val recv)
    (hfl : σ.mem (σ.cfp + EV_FLAG) = .flag gn gr d)
    (hmfp : σ.mem (outer + EV_MFP) = .ptr (some mfp))
    (hne : outer + EV_MFP ≠ p + 1 + n) (hne' : gr = true → outer + EV_MFP ≠ σ.cfp + EV_PC) :
    σ.pushBlockFrame p u outer code n = .error .overflow ∨
    (σ.pushBlockFrame p u outer code n = .ok { σ with
        mem := wr (sv σ.mem σ.cfp gr σ.pc) (p + 1 + n)
          [.val recv, .ptr (some σ.cfp), .ptr (some (p + n + 2)), .flag n true (!u),
            .ptr (some mfp), .ptr (some outer), .pc 0, .iseq code, .blk none],
        sp := p + n + 2 + 8, cfp := p + n + 2, lfp := p + 1, pc := 0, iseq := code } ∧
      p + n + 2 + 8 ≤ σ.base + STACK_SIZE) := by
  have h2 : p + 1 + n + 1 = p + n + 2 := by omega
  simp only [VM.pushBlockFrame, hrecv, asVal, savePc_eq hfl, bind, Except.bind, VM.push, hsp]
  by_cases hlt : p + 1 + n < σ.base + STACK_SIZE
  · simp only [if_pos hlt, VM.pushControl]
    rw [upd_ne _ _ hne, sv_ne hne', hmfp]
    simp only [asAddr]
    rcases pushAll_ok [.ptr (some σ.cfp), .ptr (some (p + 1 + n + 1)), .flag n true (!u)]
      { σ with mem := upd (sv σ.mem σ.cfp gr σ.pc) (p + 1 + n) (.val recv), sp := p + 1 + n + 1,
               cfp := p + 1 + n + 1 } (by dsimp only; omega) with h3 | ⟨h3, h4⟩
    · left; rw [h3]
    · rw [h3]
      simp only [List.length_cons, List.length_nil] at h4 ⊢
      rcases pushAll_ok [.ptr (some mfp), .ptr (some outer), .pc 0, .iseq code, .blk none]
        { σ with
          mem := (wr (upd (sv σ.mem σ.cfp gr σ.pc) (p + 1 + n) (.val recv)) (p + 1 + n + 1)
            [.ptr (some σ.cfp), .ptr (some (p + 1 + n + 1)), .flag n true (!u)])
          sp := p + 1 + n + 1 + (0 + 1 + 1 + 1), cfp := p + 1 + n + 1 } (by dsimp only; omega) with h5 | ⟨h5, h6⟩
      · left; rw [h5]
      · right
        rw [h5]
        simp only [List.length_cons, List.length_nil] at h6 ⊢
        refine ⟨?_, by omega⟩
        simp only [wr, h2]
  · left; simp only [if_neg hlt]

theorem pushNativeFrame_ok {p n recv}
    (hsp : σ.sp = p + 1 + n) (hrecv : σ.mem p = .val recv) :
    σ.pushNativeFrame n = .error .overflow ∨
    (σ.pushNativeFrame n = .ok { σ with
        mem := wr σ.mem (p + 1 + n)
          [.val recv, .ptr (some σ.cfp), .ptr (some (p + n + 2)), .flag n false false],
        sp := p + n + 2 + 3, cfp := p + n + 2, lfp := p + 1 } ∧
      p + n + 2 + 3 ≤ σ.base + STACK_SIZE) := by
  have h1 : p + 1 + n - n - 1 = p := by omega
  have h2 : p + 1 + n + 1 = p + n + 2 := by omega
  simp only [VM.pushNativeFrame, hsp, h1, hrecv, asVal, Except.map, bind, Except.bind, VM.push]
  by_cases hlt : p + 1 + n < σ.base + STACK_SIZE
  · simp only [if_pos hlt, VM.pushControl]
    rcases pushAll_ok [.ptr (some σ.cfp), .ptr (some (p + 1 + n + 1)), .flag n false false]
      { σ with mem := upd σ.mem (p + 1 + n) (.val recv), sp := p + 1 + n + 1, lfp := p + 1,
               cfp := p + 1 + n + 1 } (by dsimp only; omega) with h3 | ⟨h3, h4⟩
    · left; rw [h3]
    · right
      rw [h3]
      simp only [List.length_cons, List.length_nil] at h4 ⊢
      refine ⟨?_, by omega⟩
      simp only [wr, h2]
  · left; simp only [if_neg hlt]

theorem setLocals_ok {p args : Nat} {vs : List Nat} (hsp : σ.sp = p + 1 + args)
    (hle : σ.sp ≤ σ.base + STACK_SIZE) :
    σ.setLocals args vs = .error .overflow ∨
    (σ.setLocals args vs = .ok { σ with
        mem := wr σ.mem (p + 1) (vs.map Slot.val), sp := p + 1 + vs.length } ∧
      p + 1 + vs.length ≤ σ.base + STACK_SIZE) := by
  unfold VM.setLocals
  have h1 : σ.sp - args = p + 1 := by omega
  rw [h1]
  rcases pushAll_ok (vs.map Slot.val) { σ with sp := p + 1 } (by dsimp only; omega) with h | ⟨h, h2⟩
  · exact Or.inl h
  · right
    simp only [List.length_map] at h h2
    exact ⟨h, h2⟩

/-- What the memory looks like after a frame has been built. -/
theorem Pushed.build {m m0 : Nat → Slot} {lim p gc : Nat} {gr : Bool} {pc slf : Nat} {vs : List Nat}
    {tl : List Slot} (h0 : ∀ x, x < p → m0 x = m x) (h1 : ∀ x, lim ≤ x → m0 x = m x)
    (hr : m0 p = .val slf) (hv : ∀ (i : Nat) v, vs[i]? = some v → m0 (p + 1 + i) = .val v)
    (hgc : gr = true → gc + 8 ≤ p) (hlim : p + vs.length + 2 + tl.length ≤ lim) :
    Pushed m (wr (sv m0 gc gr pc) (p + 1 + vs.length) (.val slf :: tl)) lim p gc gr pc slf vs tl := by
  have hsv : ∀ x, p ≤ x → sv m0 gc gr pc x = m0 x := by
    intro x hx
    apply sv_ne
    intro h
    have := hgc h
    unfold EV_PC; omega
  constructor
  · intro x hx
    rw [wr_lt (by omega)]
    unfold sv
    by_cases hg : gr = true
    · simp only [hg, if_true, true_and]
      by_cases hxe : x = gc + EV_PC
      · rw [hxe, upd_same, if_pos rfl]
      · rw [upd_ne _ _ hxe, if_neg hxe, h0 x hx]
    · rw [if_neg hg, if_neg (fun h => hg h.1), h0 x hx]
  · rw [wr_lt (by omega), hsv _ (Nat.le_refl _), hr]
  · intro x hx
    rw [wr_ge (by simp only [List.length_cons]; omega), hsv _ (by omega), h1 x hx]
  · intro i v hi
    have := (List.getElem?_eq_some_iff.1 hi).1
    rw [wr_lt (by omega), hsv _ (by omega), hv i v hi]
  · exact wr_get (i := 0) (by simp)
  · intro i s hi
    rw [show p + vs.length + 2 + i = p + 1 + vs.length + (i + 1) by omega]
    exact wr_get (by simpa using hi)

/-! ## Blocks -/

theorem Inv.flag_top (h : Inv σ α G) {g gs} (hg : G.gs = g :: gs) :
    σ.cfp = g.c ∧ ∃ d, σ.mem (σ.cfp + EV_FLAG) = .flag g.n g.ruby d := by
  have h1 := h.regs
  have h2 := h.ops
  rw [hg] at h1 h2
  cases hf : α.frames with
  | nil => rw [hf] at h1; exact h1.elim
  | cons f fs =>
    rw [hf] at h1 h2
    obtain ⟨-, -, -, -, -, ⟨d, h6, -⟩, -⟩ := h2
    exact ⟨h1.1, d, by rw [h1.1]; exact h6⟩

/-- the environment of the method is live -/
theorem Inv.meth_live (h : Inv σ α G) {e E} (hl : Live G e) (hE : α.envs[e]? = some E)
    (hr : E.ruby = true) : Live G E.meth ∧ ∃ M, α.envs[E.meth]? = some M ∧ M.ruby = true ∧
      M.meth = E.meth := by
  induction e using Nat.strongRecOn generalizing E with
  | ind e ih =>
    have hS := h.sk_of hE
    cases ho : E.outer with
    | none =>
      have h1 : E.meth = e := h.shape.root e _ hS ho
      rw [h1]
      exact ⟨hl, E, hE, hr, h1⟩
    | some o =>
      obtain ⟨_, h1, O, h2, h3, h4⟩ := h.shape.tree e _ o hS ho
      obtain ⟨O', hO, rfl⟩ := h.of_sk h2
      have h4 : E.meth = O'.meth := h4
      rw [h4]
      exact ih o h1 (h.outer_live hl hE ho) hO h3

/-- A block of the specification and the handle for it, as seen from frame `g`. -/
def BlkRel (base : Nat) (α : Mach) (G : Ghost) (g : GF) : Option SBlk → Option Blk → Prop
  | none, none => True
  | some (.proc p), some (.proc q) => p = q ∧ p < α.procs.length
  | some (.lit code e), some (.lit code' f) => code = code' ∧ (e = g.env ∨ e ∈ g.acc) ∧
      ∃ g' ∈ G.gs, g'.env = e ∧ g'.c = base + f ∧ g'.ruby = true
  | _, _ => False

theorem BlkRel.shape {base g b b'} (h : BlkRel base α G g b b') : BlkShape b b' := by
  unfold BlkRel at h
  split at h
  · trivial
  · exact h.1
  · exact h.1
  · exact h.elim

theorem Inv.ownBlock (h : Inv σ α G) {f fs} (hf : α.frames = f :: fs) {g gs} (hg : G.gs = g :: gs)
    {b} (hb : Spec.ownBlock α f = some b) :
    ∃ b', σ.ownBlock = .ok b' ∧ BlkRel σ.base α G g b b' := by
  obtain ⟨g1, gs1, E, hg1, hgm, hfe, hE, hS, hn, hr, hl⟩ := h.top hf
  rw [hg] at hg1; cases hg1
  obtain ⟨hcfp, d, hfl⟩ := h.flag_top hg
  have ho := h.ops
  rw [hf, hg] at ho
  obtain ⟨-, hcy, hheld, -⟩ := ho
  unfold Spec.ownBlock at hb
  rw [hE] at hb
  dsimp only at hb
  by_cases hrt : E.ruby = true
  · rw [if_pos hrt] at hb
    have hEg : α.envs[g.env]? = some E := by rw [← hfe]; exact hE
    obtain ⟨hml, M, hM, hMr, hMm⟩ := h.meth_live hl hEg hrt
    rw [hM] at hb
    dsimp only at hb
    have k1 := (h.ctl g hgm).2
    have k2 := (h.envs g.env E hEg hl).mfp hrt
    have k3 := (h.envs _ M hM hml).blk hMr
    refine ⟨G.hb E.meth, ?_, ?_⟩
    · rw [hcfp] at hfl
      have hgr : g.ruby = true := by rw [← hr]; exact hrt
      simp only [VM.ownBlock, hcfp, hfl, asRuby, bind, Except.bind, hgr, if_true, k1, asAddr, k2, k3,
        asBlk]
    · have hsh := h.shape.hbs _ _ (h.sk_of hM)
      cases hMb : M.blk with
      | none =>
        rw [hMb] at hb
        simp only [Option.some.injEq] at hb
        subst hb
        have : M.sk.blk = none := hMb
        rw [this] at hsh
        cases hh : G.hb E.meth with
        | none => trivial
        | some b' => rw [hh] at hsh; exact hsh.elim
      | some sb =>
        have hsb : M.sk.blk = some sb := hMb
        rw [hsb] at hsh
        rw [hMb] at hb
        cases sb with
        | proc p =>
          simp only [Option.some.injEq] at hb
          subst hb
          cases hh : G.hb E.meth with
          | none => rw [hh] at hsh; exact hsh.elim
          | some b' =>
            rw [hh] at hsh
            cases b' with
            | lit _ _ => exact hsh.elim
            | proc q => exact ⟨hsh, h.blkP _ M p hM hMb⟩
        | lit code e =>
          dsimp only at hb
          by_cases hfc : f.canYield = true
          · rw [if_pos hfc] at hb
            simp only [Option.some.injEq] at hb
            subst hb
            cases hh : G.hb E.meth with
            | none => rw [hh] at hsh; exact hsh.elim
            | some b' =>
              rw [hh] at hsh
              cases b' with
              | proc _ => exact hsh.elim
              | lit code' f' =>
                have hcc : code = code' := hsh
                subst hcc
                have h9 := h.shape.handle g hgm (by rw [← hcy]; exact hfc) (by rw [← hr]; exact hrt)
                  E.sk M.sk code e f' hS (h.sk_of hM) hMb hh
                obtain ⟨h10, g', h11, h12, h13, _, h14⟩ := h9
                exact ⟨rfl, Or.inr h10, g', h11, h12, h13, h14⟩
          · rw [if_neg hfc] at hb; cases hb
  · rw [if_neg hrt] at hb
    have hgr : g.ruby = false := by rw [← hr]; simpa using hrt
    simp only [Option.some.injEq] at hb
    rw [hheld] at hb
    subst hb
    have hnt := h.nats
    rw [hf, hg] at hnt
    have hpb := h.heldP f (by rw [hf]; exact List.mem_cons_self ..)
    rw [hheld] at hpb
    cases gs with
    | nil =>
      cases fs with
      | nil =>
        obtain ⟨_, h2, h3⟩ := hnt
        refine ⟨none, ?_, by rw [h2]; trivial⟩
        simp only [VM.ownBlock, hfl, asRuby, bind, Except.bind, hgr, h3]
        rfl
      | cons f' fs => exact hnt.elim
    | cons g' gs =>
      cases fs with
      | nil => exact hnt.elim
      | cons f' fs =>
        unfold Nats at hnt
        rw [if_neg (by rw [hgr]; simp)] at hnt
        cases hnn : σ.natives with
        | nil => rw [hnn] at hnt; exact hnt.elim
        | cons n ns =>
          rw [hnn] at hnt
          obtain ⟨_, _, h3, h4, h5, _⟩ := hnt
          refine ⟨n.blk, ?_, ?_⟩
          · simp only [VM.ownBlock, hfl, asRuby, bind, Except.bind, hgr, hnn]
            rfl
          · unfold HeldOK at h3
            cases hh : g.held with
            | none => rw [hh] at h3; dsimp only at h3; rw [h3]; trivial
            | some sb =>
              rw [hh] at h3
              cases sb with
              | proc p =>
                dsimp only at h3
                rw [h3.1]
                exact ⟨rfl, hpb p hh⟩
              | lit code e =>
                dsimp only at h3
                obtain ⟨h6, g'', h7, h8, h9, f'', a, h10, h11, _⟩ := h3
                rw [h10]
                exact ⟨rfl, Or.inr h6, g'', by rw [hg]; exact List.mem_cons_of_mem _ h7, h8, h11, h9⟩

theorem Inv.blockArg (h : Inv σ α G) {f fs} (hf : α.frames = f :: fs) {g gs} (hg : G.gs = g :: gs)
    {ba b} (hb : Spec.blockArg α f ba = some b) :
    ∃ b', σ.blockArg ba = .ok b' ∧ BlkRel σ.base α G g b b' := by
  cases ba with
  | none =>
    simp only [Spec.blockArg, Option.some.injEq] at hb
    subst hb
    exact ⟨none, rfl, trivial⟩
  | own => exact h.ownBlock hf hg hb
  | proc p =>
    simp only [Spec.blockArg] at hb
    split at hb
    · simp only [Option.some.injEq] at hb
      subst hb
      exact ⟨_, rfl, rfl, by assumption⟩
    · cases hb
  | lit code =>
    obtain ⟨g1, gs1, E, hg1, hgm, hfe, hE, hS, hn, hr, hl⟩ := h.top hf
    rw [hg] at hg1; cases hg1
    obtain ⟨hcfp, _⟩ := h.flag_top hg
    simp only [Spec.blockArg, hE] at hb
    split at hb
    · rename_i hrt
      simp only [Option.some.injEq] at hb
      subst hb
      refine ⟨_, rfl, rfl, Or.inl hfe, g, hgm, hfe.symm, ?_, by rw [← hr]; exact hrt⟩
      have := h.shape.room g hgm
      omega
    · cases hb

/-! ## Entering a method or a builtin function -/

theorem Shape.pushCall {base hp : Nat} (hs : Shape base hp G) {g gs} (hg : G.gs = g :: gs) (S : Sk)
    (c : Nat) (held : Option SBlk) (b : Option Blk)
    (hc : g.c + hdr g.ruby + S.len + 2 ≤ c) (hlim : c + hdr S.ruby ≤ base + STACK_SIZE)
    (hout : S.outer = none) (hmeth : S.meth = G.sk.length) (hb : BlkRel base α G g S.blk b) :
    Shape base hp (G.push S c held true (g.env :: g.acc) b) := by
  have hgm : g ∈ G.gs := by rw [hg]; exact List.mem_cons_self ..
  refine hs.push hg S c held true _ b hc hlim (fun _ => hmeth) (by rw [hout]; simp) hb.shape ?_ ?_ ?_
    (by rw [hout]; simp) ?_
  · intro x hx
    rcases List.mem_cons.1 hx with rfl | hx
    · exact ⟨g, hgm, rfl⟩
    · obtain ⟨g', h1, h2, _⟩ := hs.accLive g hgm x hx
      exact ⟨g', h1, h2⟩
  · intro g' hg' hx y hy
    rcases List.mem_cons.1 hx with hx | hx
    · have := hs.inj g' hg' g hgm hx
      subst this
      exact List.mem_cons_of_mem _ hy
    · exact List.mem_cons_of_mem _ (hs.accTrans g hgm g' hg' hx y hy)
  · intro g' hg' S' o hS' ho hco hx
    rcases List.mem_cons.1 hx with hx | hx
    · rcases hs.outerLive g' hg' S' o hS' ho with h1 | ⟨g'', h1, h2, h3⟩
      · rw [hco] at h1; cases h1
      · have := hs.inj g'' h1 g hgm (h2.trans hx)
        subst this
        have := hs.top_max hg hg'
        omega
    · exact hs.noAcc g' hg' S' o hS' ho hco g hgm (hs.top_max hg hg') hx
  · intro _ _ M code e f hM hMb hh
    rw [hmeth, get_new] at hM
    cases hM
    rw [if_pos hmeth] at hh
    subst hh
    rw [hMb] at hb
    obtain ⟨_, h1, g', h2, h3, h4, h5⟩ := hb
    exact ⟨by rcases h1 with rfl | h1 <;> simp [*], g', h2, h3, h4, h5⟩

theorem Inv.opAt (h : Inv σ α G) {f fs} (hf : α.frames = f :: fs) {g gs} (hg : G.gs = g :: gs) :
    σ.sp = g.c + hdr g.ruby + f.ops.length ∧
    ∀ (i : Nat) v, f.ops[i]? = some v → σ.mem (g.c + hdr g.ruby + (f.ops.length - 1 - i)) = .val v := by
  have ho := h.ops
  rw [hf, hg] at ho
  obtain ⟨-, -, -, h1, h2, -⟩ := ho
  refine ⟨h1, ?_⟩
  intro i v hi
  apply h2
  have := (List.getElem?_eq_some_iff.1 hi).1
  rw [List.getElem?_reverse (by omega)]
  rw [← hi]; congr 1; omega

theorem Inv.nats_ruby (h : Inv σ α G) {f fs} (hf : α.frames = f :: fs) {g gs} (hg : G.gs = g :: gs)
    (E : Env) (hr : E.ruby = true) (ops : List Nat) (use : Bool) (held : Option SBlk) (cy : Bool) (c : Nat)
    (acc : List Nat) (b : Option Blk) :
    Nats σ.base σ.procs (G.push E.sk c held cy acc b) (G.push E.sk c held cy acc b).gs
      (Spec.enter α f fs ops E use held cy).frames σ.natives := by
  have hn := h.nats
  rw [hf] at hn
  have h1 : Nats σ.base σ.procs G G.gs ({ f with ops := ops } :: fs) σ.natives := Nats_ops hn
  have h2 : Nats σ.base σ.procs (G.push E.sk c held cy acc b) G.gs ({ f with ops := ops } :: fs)
      σ.natives := by
    refine Nats_mono h1 (fun _ _ h => h) (fun _ _ h => get_old h) ?_
    intro e he
    refine ⟨he, ?_⟩
    have := h.shape.cap_lt he
    simp only [Ghost.push]
    rw [if_neg (by omega)]
  show Nats _ _ _ (⟨G.sk.length, c, E.sk.len, E.sk.ruby, held, cy, acc⟩ :: G.gs) _ _
  rw [hg] at h2 ⊢
  unfold Spec.enter Nats
  dsimp only
  rw [if_pos (show E.sk.ruby = true from hr)]
  exact h2

theorem sim_callMethod (h : Inv σ α G) {args code locals u ba α' o}
    (hs : Spec.step α (.callMethod args code locals u ba) = some (α', o)) :
    Sim (step σ (.callMethod args code locals u ba)) α' o (fun _ G' => ∃ x, G'.gs = x :: G.gs) := by
  cases hf : α.frames with
  | nil => simp [Spec.step, hf] at hs
  | cons f fs =>
    obtain ⟨g, gs, E, hg, hgm, hfe, hE, hS, hn, hr, hl⟩ := h.top hf
    simp only [Spec.step, hf, hE] at hs
    split at hs
    · rename_i recv blk hrecv hblk
      simp only [Option.some.injEq, Prod.mk.injEq] at hs
      obtain ⟨rfl, rfl⟩ := hs
      obtain ⟨b', hb1, hb2⟩ := h.blockArg hf hg hblk
      obtain ⟨hcfp, d, hfl⟩ := h.flag_top hg
      obtain ⟨hsp, hops⟩ := h.opAt hf hg
      have hk := (List.getElem?_eq_some_iff.1 hrecv).1
      have hb3 := hdr_ge g.ruby
      have hroom := h.shape.room g hgm
      obtain ⟨p, hp⟩ : ∃ p, p = g.c + hdr g.ruby + (f.ops.length - (args + 1)) := ⟨_, rfl⟩
      have hsp' : σ.sp = p + 1 + args := by omega
      have hmp : σ.mem p = .val recv := by
        rw [← hops args recv hrecv]; congr 1; omega
      simp only [Sim, step, VM.callMethod, hb1, bind, Except.bind]
      rcases setLocals_ok (vs := locals) hsp' h.spLe with h1 | ⟨h1, h2⟩
      · left; rw [h1]
      rw [h1]
      dsimp only
      rcases pushMethodFrame_ok (u := u) (code := code) (b := b') (p := p) (n := locals.length) (gn := g.n)
        (gr := g.ruby) (d := d) (recv := recv)
        (σ := { σ with mem := wr σ.mem (p + 1) (locals.map Slot.val), sp := p + 1 + locals.length })
        rfl (by dsimp only; rw [wr_lt (by omega)]; exact hmp)
        (by dsimp only; rw [wr_lt (by rw [hcfp]; unfold EV_FLAG; omega)]; exact hfl) with h3 | ⟨h3, h4⟩
      · left; rw [h3]
      right
      rw [h3]
      have hskl : G.sk.length = α.envs.length := by rw [← h.sk]; simp
      refine ⟨_, G.push (Env.sk ⟨recv, locals, none, α.envs.length, code, blk, true⟩)
        (p + locals.length + 2) none true (g.env :: g.acc) b', rfl, ?_, ⟨_, rfl⟩⟩
      refine h.enter hf hg ⟨recv, locals, none, α.envs.length, code, blk, true⟩ (args + 1) (by omega) u none
        true (g.env :: g.acc) b' _ p (p + locals.length + 2)
        [.ptr (some g.c), .ptr (some (p + locals.length + 2)), .flag locals.length true (!u),
          .ptr (some (p + locals.length + 2)), .ptr none, .pc 0, .iseq code, .blk b'] hp rfl h4 ?_ rfl rfl
        rfl rfl rfl rfl (fun _ => ⟨rfl, rfl⟩) ?_ rfl rfl ⟨_, rfl, fun _ => rfl⟩ ?_ ?_ (by simp) ?_
      · exact h.shape.pushCall hg _ _ _ _ (by simp only [Env.sk]; omega) h4 rfl hskl.symm hb2
      · dsimp only
        rw [hcfp]
        refine Pushed.build (fun x hx => wr_lt (by omega)) (fun x hx => wr_ge (by
          rw [List.length_map]; omega)) ?_ ?_ ?_ ?_
        · rw [wr_lt (by omega)]; exact hmp
        · intro i v hv
          exact wr_get (by rw [List.getElem?_map, hv]; rfl)
        · intro hq; rw [hq] at hp; simp only [hdr_true] at hp; omega
        · simp only [List.length_cons, List.length_nil]; omega
      · intro _
        refine ⟨?_, rfl, rfl, rfl⟩
        rw [if_pos hskl.symm]; rfl
      · exact h.nats_ruby hf hg _ rfl _ _ _ _ _ _ _
      · intro q hq
        simp only at hq
        subst hq
        cases b' with
        | none => exact hb2.elim
        | some b' =>
          cases b' with
          | lit _ _ => exact hb2.elim
          | proc q' => exact hb2.2
    · cases hs

theorem sim_callNative (h : Inv σ α G) {args ba α' o}
    (hs : Spec.step α (.callNative args ba) = some (α', o)) :
    Sim (step σ (.callNative args ba)) α' o (fun _ G' => ∃ x, G'.gs = x :: G.gs) := by
  cases hf : α.frames with
  | nil => simp [Spec.step, hf] at hs
  | cons f fs =>
    obtain ⟨g, gs, E, hg, hgm, hfe, hE, hS, hn, hr, hl⟩ := h.top hf
    simp only [Spec.step, hf, hE] at hs
    split at hs
    · rename_i recv blk hrecv hblk
      simp only [Option.some.injEq, Prod.mk.injEq] at hs
      obtain ⟨rfl, rfl⟩ := hs
      obtain ⟨b', hb1, hb2⟩ := h.blockArg hf hg hblk
      obtain ⟨hcfp, d, hfl⟩ := h.flag_top hg
      obtain ⟨hsp, hops⟩ := h.opAt hf hg
      have hk := (List.getElem?_eq_some_iff.1 hrecv).1
      have hb3 := hdr_ge g.ruby
      have hroom := h.shape.room g hgm
      obtain ⟨p, hp⟩ : ∃ p, p = g.c + hdr g.ruby + (f.ops.length - (args + 1)) := ⟨_, rfl⟩
      have hsp' : σ.sp = p + 1 + args := by omega
      have hmp : σ.mem p = .val recv := by
        rw [← hops args recv hrecv]; congr 1; omega
      have hgc : g.ruby = true → g.c + 8 ≤ p := by
        intro hq; rw [hq] at hp; simp only [hdr_true] at hp; omega
      -- what the function remembers of its block
      obtain ⟨out, ho1, ho2⟩ : ∃ out, σ.blockOuter b' = (Except.ok out : Except Err (Option Nat)) ∧
          HeldOK σ.base σ.procs (G.push (Env.sk ⟨recv, (f.ops.take args).reverse, none, α.envs.length, 0,
            none, false⟩) (p + args + 2) blk true (g.env :: g.acc) none)
            ⟨G.sk.length, p + args + 2, (f.ops.take args).reverse.length, false, blk, true,
              g.env :: g.acc⟩ G.gs ⟨σ.iseq, σ.pc, σ.cfp, b', out⟩ := by
        cases b' with
        | none =>
          refine ⟨none, rfl, ?_⟩
          cases blk with
          | none => rfl
          | some sb => cases sb <;> exact hb2.elim
        | some b' =>
          cases blk with
          | none => exact hb2.elim
          | some sb =>
            cases b' with
            | proc q =>
              cases sb with
              | lit _ _ => exact hb2.elim
              | proc q' =>
                obtain ⟨rfl, hlt⟩ := hb2
                obtain ⟨P, hP, _⟩ := h.procs.2 q' _ (List.getElem?_eq_getElem hlt)
                exact ⟨some P.outer, by simp only [VM.blockOuter, hP], rfl, P, hP, rfl⟩
            | lit code' f' =>
              cases sb with
              | proc _ => exact hb2.elim
              | lit code e =>
                obtain ⟨rfl, h1, g', h2, h3, h4, h5⟩ := hb2
                refine ⟨some (G.loc e), ?_, ?_⟩
                · simp only [VM.blockOuter]
                  rw [← h4, (h.ctl g' h2).2, h3]; rfl
                · refine ⟨by rcases h1 with rfl | h1 <;> simp [*], g', h2, h3, h5, f', G.loc e, rfl, h4,
                    rfl, ?_⟩
                  by_cases hc : G.cap e = true
                  · right
                    refine ⟨hc, ?_⟩
                    have := h.shape.cap_lt hc
                    simp only [Ghost.push]
                    rw [if_neg (by omega)]
                  · left
                    rw [← h3]
                    exact h.shape.own g' h2 (by rw [h3]; simpa using hc)
      have hlen : (f.ops.take args).reverse.length = args := by
        simp; omega
      simp only [Sim, step, VM.callNative, hb1, ho1, savePc_eq hfl, bind, Except.bind]
      rcases pushNativeFrame_ok (p := p) (n := args) (recv := recv)
        (σ := { σ with mem := sv σ.mem σ.cfp g.ruby σ.pc }) hsp'
        (by dsimp only; rw [hcfp, sv_ne (fun hq => by have := hgc hq; unfold EV_PC; omega)]; exact hmp)
        with h3 | ⟨h3, h4⟩
      · left; rw [h3]
      right
      rw [h3]
      have hskl : G.sk.length = α.envs.length := by rw [← h.sk]; simp
      refine ⟨_, G.push (Env.sk ⟨recv, (f.ops.take args).reverse, none, α.envs.length, 0, none, false⟩)
        (p + args + 2) blk true (g.env :: g.acc) none, rfl, ?_, ⟨_, rfl⟩⟩
      refine h.enter hf hg ⟨recv, (f.ops.take args).reverse, none, α.envs.length, 0, none, false⟩
        (args + 1) (by omega) true blk true (g.env :: g.acc) none _ p (p + args + 2)
        [.ptr (some g.c), .ptr (some (p + args + 2)), .flag args false false] hp (by rw [hlen]) h4 ?_ rfl rfl
        rfl rfl rfl rfl (by simp) ?_ rfl rfl ⟨_, by rw [hlen]; rfl, by simp⟩ (by simp) ?_ ?_ (by simp)
      · refine h.shape.pushCall (α := α) hg _ _ _ _ ?_ h4 rfl hskl.symm trivial
        simp only [Env.sk, hlen]; omega
      · dsimp only
        rw [hcfp]
        have := Pushed.build (m := σ.mem) (m0 := σ.mem) (lim := σ.base + STACK_SIZE) (p := p) (gc := g.c)
          (gr := g.ruby) (pc := σ.pc) (slf := recv) (vs := (f.ops.take args).reverse)
          (tl := [.ptr (some g.c), .ptr (some (p + args + 2)), .flag args false false])
          (fun _ _ => rfl) (fun _ _ => rfl) hmp ?_ hgc ?_
        · rw [hlen] at this
          exact this
        · intro i v hv
          have hi := (List.getElem?_eq_some_iff.1 hv).1
          rw [hlen] at hi
          rw [List.getElem?_reverse (by simp; omega)] at hv
          have hv2 : f.ops[args - 1 - i]? = some v := by
            rw [List.getElem?_take] at hv
            split at hv
            · rw [← hv]; congr 1; simp; omega
            · cases hv
          rw [← hops _ v hv2]; congr 1; omega
        · rw [hlen]; simp only [List.length_cons, List.length_nil]; omega
      · have hnt := h.nats
        rw [hf] at hnt
        have h5 : Nats σ.base σ.procs (G.push (Env.sk ⟨recv, (f.ops.take args).reverse, none,
            α.envs.length, 0, none, false⟩) (p + args + 2) blk true (g.env :: g.acc) none) G.gs
            ({ f with ops := f.ops.drop (args + 1) } :: fs) σ.natives := by
          refine Nats_mono (Nats_ops hnt) (fun _ _ h => h) (fun _ _ h => get_old h) ?_
          intro e he
          refine ⟨he, ?_⟩
          have := h.shape.cap_lt he
          simp only [Ghost.push]
          rw [if_neg (by omega)]
        show Nats _ _ _ (⟨G.sk.length, p + args + 2, (f.ops.take args).reverse.length, false, blk, true,
          g.env :: g.acc⟩ :: G.gs) _ _
        rw [hg] at h5 ho2 ⊢
        unfold Spec.enter Nats
        dsimp only
        rw [if_neg (by simp)]
        refine ⟨hcfp, ?_, ho2, by simp, fun y hy => List.mem_cons_of_mem _ hy, h5⟩
        intro hgr
        have hrg := h.regs
        rw [hf, hg] at hrg
        obtain ⟨r1, S', r2, r3⟩ := hrg.2.2 hgr
        exact ⟨r1, S', get_old r2, r3⟩
      · intro q hq
        subst hq
        cases b' with
        | none => exact hb2.elim
        | some b' =>
          cases b' with
          | lit _ _ => exact hb2.elim
          | proc q' => exact hb2.2
    · cases hs

end Verif.Frame
