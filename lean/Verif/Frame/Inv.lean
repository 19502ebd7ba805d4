import Verif.Frame.Spec
import Mathlib.Tactic.SplitIfs

/-!
# The relation between the frame stack and the environments of the specification

`Ghost` records, for a reachable state, where every environment is (`loc`), whether it has been moved to
the heap (`cap`), and for every frame its place and the frames whose environments can still be the target of
a yield or a capture while it runs (`acc`).
-/
namespace Verif.Frame
open Verif.Frame.Spec

/-- the part of an environment that never changes -/
structure Sk where
  self : Nat
  len : Nat
  outer : Option Nat
  meth : Nat
  iseq : Nat
  blk : Option SBlk
  ruby : Bool

def Spec.Env.sk (E : Env) : Sk := ⟨E.self, E.vars.length, E.outer, E.meth, E.iseq, E.blk, E.ruby⟩

structure GF where
  env : Nat
  c : Nat
  n : Nat
  ruby : Bool
  held : Option SBlk
  canYield : Bool
  acc : List Nat

structure Ghost where
  gs : List GF
  sk : List Sk
  loc : Nat → Nat
  cap : Nat → Bool
  hb : Nat → Option Blk

def hdr (ruby : Bool) : Nat := if ruby then 8 else 3

/-- the lowest slot of a frame -/
def GF.p (g : GF) : Nat := g.c - g.n - 2

def Live (G : Ghost) (e : Nat) : Prop := G.cap e = true ∨ ∃ g ∈ G.gs, g.env = e

def BlkShape : Option SBlk → Option Blk → Prop
  | none, none => True
  | some (.proc p), some (.proc q) => p = q
  | some (.lit code _), some (.lit code' _) => code = code'
  | _, _ => False

/-- Facts about the ghost data, without memory. -/
structure Shape (base hp : Nat) (G : Ghost) : Prop where
  base1 : 1 ≤ base
  hpLo : base + STACK_SIZE ≤ hp
  frame : ∀ g ∈ G.gs, ∃ S, G.sk[g.env]? = some S ∧ S.len = g.n ∧ S.ruby = g.ruby
  room : ∀ g ∈ G.gs, g.n + 2 ≤ g.c ∧ base ≤ g.c ∧ g.c + hdr g.ruby ≤ base + STACK_SIZE
  sep : G.gs.Pairwise (fun g g' => g'.c + hdr g'.ruby + g.n + 2 ≤ g.c)
  inj : ∀ g ∈ G.gs, ∀ g' ∈ G.gs, g.env = g'.env → g = g'
  own : ∀ g ∈ G.gs, G.cap g.env = false → G.loc g.env = g.c
  caps : ∀ e, G.cap e = true → ∃ S, G.sk[e]? = some S ∧ S.ruby = true ∧
    base + STACK_SIZE + S.len + 2 ≤ G.loc e ∧ G.loc e + 8 ≤ hp ∧
    (∀ o, S.outer = some o → G.cap o = true) ∧ G.cap S.meth = true
  capSep : ∀ e e' S S', G.cap e = true → G.cap e' = true → e ≠ e' → G.sk[e]? = some S →
    G.sk[e']? = some S' → G.loc e + 10 + S'.len ≤ G.loc e' ∨ G.loc e' + 10 + S.len ≤ G.loc e
  root : ∀ (e : Nat) S, G.sk[e]? = some S → S.outer = none → S.meth = e
  tree : ∀ (e : Nat) S o, G.sk[e]? = some S → S.outer = some o →
    S.ruby = true ∧ o < e ∧ ∃ O, G.sk[o]? = some O ∧ O.ruby = true ∧ S.meth = O.meth
  outerLive : ∀ g ∈ G.gs, ∀ S o, G.sk[g.env]? = some S → S.outer = some o → G.cap o = true ∨
    ∃ g' ∈ G.gs, g'.env = o ∧ g'.c < g.c
  hbs : ∀ (e : Nat) S, G.sk[e]? = some S → BlkShape S.blk (G.hb e)
  handle : ∀ g ∈ G.gs, g.canYield = true → g.ruby = true → ∀ S M code e f, G.sk[g.env]? = some S →
    G.sk[S.meth]? = some M → M.blk = some (.lit code e) → G.hb S.meth = some (.lit code f) →
    e ∈ g.acc ∧ ∃ g' ∈ G.gs, g'.env = e ∧ g'.c = base + f ∧ g'.c < g.c ∧ g'.ruby = true
  accLive : ∀ g ∈ G.gs, ∀ x ∈ g.acc, ∃ g' ∈ G.gs, g'.env = x ∧ g'.c < g.c
  accTrans : ∀ g ∈ G.gs, ∀ g' ∈ G.gs, g'.env ∈ g.acc → ∀ y ∈ g'.acc, y ∈ g.acc
  only : ∀ g ∈ G.gs, ∀ g' ∈ G.gs, ∀ S S' o, G.sk[g.env]? = some S → G.sk[g'.env]? = some S' →
    S.outer = some o → S'.outer = some o → G.cap o = false → g = g'
  noAcc : ∀ g ∈ G.gs, ∀ S o, G.sk[g.env]? = some S → S.outer = some o → G.cap o = false →
    ∀ h ∈ G.gs, g.c ≤ h.c → o ∉ h.acc

/-- The slots of an environment. -/
structure EnvOK (m : Nat → Slot) (G : Ghost) (e : Nat) (E : Env) : Prop where
  self : m (G.loc e - 1) = .val E.self
  recv : m (G.loc e - E.vars.length - 2) = .val E.self
  ep : m (G.loc e + EV_EP) = .ptr (some (G.loc e))
  flag : ∃ d, m (G.loc e + EV_FLAG) = .flag E.vars.length E.ruby d
  vars : ∀ (i : Nat) v, E.vars[i]? = some v → m (G.loc e - E.vars.length - 1 + i) = .val v
  mfp : E.ruby = true → m (G.loc e + EV_MFP) = .ptr (some (G.loc E.meth))
  outer : E.ruby = true → m (G.loc e + EV_OUTER) = .ptr (E.outer.map G.loc)
  iseq : E.ruby = true → m (G.loc e + EV_ISEQ) = .iseq E.iseq
  blk : E.ruby = true → m (G.loc e + EV_BLK) = .blk (G.hb e)

/-- Operands and flags of the frames, from the top; `sp` is the top of the operands. -/
def FOps (m : Nat → Slot) : Nat → List GF → List Fr → Prop
  | sp, g :: gs, f :: fs =>
    f.env = g.env ∧ f.canYield = g.canYield ∧ f.held = g.held ∧
    sp = g.c + hdr g.ruby + f.ops.length ∧
    (∀ (i : Nat) v, f.ops.reverse[i]? = some v → m (g.c + hdr g.ruby + i) = .val v) ∧
    (∃ d, m (g.c + EV_FLAG) = .flag g.n g.ruby d ∧ (g.ruby = true → d = !f.use)) ∧
    FOps m g.p gs fs
  | _, [], [] => True
  | _, _, _ => False

/-- The slots holding operands and flags. -/
def InOps : Nat → List GF → Nat → Prop
  | sp, g :: gs, x => x = g.c + EV_FLAG ∨ (g.c + hdr g.ruby ≤ x ∧ x < sp) ∨ InOps g.p gs x
  | _, [], _ => False

/-- Saved positions. -/
def FPc (m : Nat → Slot) : List GF → List Fr → Prop
  | g :: gs, f :: fs => (g.ruby = true → m (g.c + EV_PC) = .pc f.pc) ∧ FPc m gs fs
  | _, _ => True

/-- Links to the previous frames. -/
def Links (m : Nat → Slot) : List GF → Prop
  | g :: g' :: gs => m g.c = .ptr (some g'.c) ∧ Links m (g' :: gs)
  | _ => True

/-- Self values and environment pointers of frames. -/
def Ctl (m : Nat → Slot) (G : Ghost) : Prop :=
  ∀ g ∈ G.gs, (∀ S, G.sk[g.env]? = some S → m (g.c - 1) = .val S.self) ∧
    m (g.c + EV_EP) = .ptr (some (G.loc g.env))

/-- The block kept by a builtin function, in frame `g` above the frames `gs`. -/
def HeldOK (base : Nat) (procs : List ProcInfo) (G : Ghost) (g : GF) (gs : List GF) (n : Native) :
    Prop :=
  match g.held with
  | none => n.blk = none
  | some (.proc p) => n.blk = some (.proc p) ∧ ∃ i, procs[p]? = some i ∧ n.outer = some i.outer
  | some (.lit code e) => e ∈ g.acc ∧ ∃ g' ∈ gs, g'.env = e ∧ g'.ruby = true ∧ ∃ f a,
      n.blk = some (.lit code f) ∧ g'.c = base + f ∧ n.outer = some a ∧
      (a = g'.c ∨ (G.cap e = true ∧ a = G.loc e))

/-- The variables of the running builtin functions. -/
def Nats (base : Nat) (procs : List ProcInfo) (G : Ghost) : List GF → List Fr → List Native → Prop
  | g :: g' :: gs, _ :: f' :: fs, ns =>
    if g.ruby = true then Nats base procs G (g' :: gs) (f' :: fs) ns
    else
      match ns with
      | [] => False
      | n :: ns =>
        n.cfp = g'.c ∧
        (g'.ruby = true → n.pc = f'.pc ∧ ∃ S, G.sk[g'.env]? = some S ∧ n.iseq = S.iseq) ∧
        HeldOK base procs G g (g' :: gs) n ∧
        g'.env ∈ g.acc ∧ (∀ y ∈ g'.acc, y ∈ g.acc) ∧
        Nats base procs G (g' :: gs) (f' :: fs) ns
  | [g], [_], ns => g.ruby = false ∧ g.held = none ∧ ns = []
  | _, _, _ => False

def Procs (G : Ghost) (ps : List ProcInfo) (qs : List Spec.Proc) : Prop :=
  ps.length = qs.length ∧ ∀ (p : Nat) Q, qs[p]? = some Q → ∃ P, ps[p]? = some P ∧ P.self = Q.self ∧
    P.method = Q.method ∧ P.outer = G.loc Q.env ∧ G.cap Q.env = true

/-- The registers. -/
def Regs (σ : VM) (G : Ghost) : List GF → List Fr → Prop
  | g :: _, f :: _ => σ.cfp = g.c ∧ σ.lfp + g.n + 1 = G.loc g.env ∧
    (g.ruby = true → σ.pc = f.pc ∧ ∃ S, G.sk[g.env]? = some S ∧ σ.iseq = S.iseq)
  | _, _ => False

structure Inv (σ : VM) (α : Mach) (G : Ghost) : Prop where
  sk : α.envs.map Env.sk = G.sk
  shape : Shape σ.base σ.hp G
  envs : ∀ (e : Nat) E, α.envs[e]? = some E → Live G e → EnvOK σ.mem G e E
  ctl : Ctl σ.mem G
  links : Links σ.mem G.gs
  ops : FOps σ.mem σ.sp G.gs α.frames
  pcs : FPc σ.mem G.gs.tail α.frames.tail
  spLe : σ.sp ≤ σ.base + STACK_SIZE
  regs : Regs σ G G.gs α.frames
  procs : Procs G σ.procs α.procs
  nats : Nats σ.base σ.procs G G.gs α.frames σ.natives
  heldP : ∀ f ∈ α.frames, ∀ p, f.held = some (.proc p) → p < α.procs.length
  blkP : ∀ (e : Nat) E p, α.envs[e]? = some E → E.blk = some (.proc p) → p < α.procs.length

/-! ## Changing memory -/

theorem FOps_congr {m m' : Nat → Slot} {sp gs fs} (h : FOps m sp gs fs)
    (hm : ∀ x, InOps sp gs x → m' x = m x) : FOps m' sp gs fs := by
  induction gs generalizing sp fs with
  | nil => cases fs <;> simp_all [FOps]
  | cons g gs ih =>
    cases fs with
    | nil => simp [FOps] at h
    | cons f fs =>
      obtain ⟨h1, h2, h3, h4, h5, h6, h7⟩ := h
      refine ⟨h1, h2, h3, h4, ?_, ?_, ?_⟩
      · intro i v hv
        rw [hm]
        · exact h5 i v hv
        · right; left
          have : i < f.ops.length := by
            have := (List.getElem?_eq_some_iff.1 hv).1
            simpa using this
          omega
      · rw [hm]
        · exact h6
        · left; rfl
      · exact ih h7 (fun x hx => hm x (Or.inr (Or.inr hx)))

theorem FPc_congr {m m' : Nat → Slot} {gs fs} (h : FPc m gs fs)
    (hm : ∀ g ∈ gs, g.ruby = true → m' (g.c + EV_PC) = m (g.c + EV_PC)) : FPc m' gs fs := by
  induction gs generalizing fs with
  | nil => simp [FPc]
  | cons g gs ih =>
    cases fs with
    | nil => simp [FPc]
    | cons f fs =>
      obtain ⟨h1, h2⟩ := h
      refine ⟨fun hr => ?_, ih h2 (fun g hg => hm g (List.mem_cons_of_mem _ hg))⟩
      rw [hm g (List.mem_cons_self ..) hr]; exact h1 hr

theorem Links_congr {m m' : Nat → Slot} {gs} (h : Links m gs)
    (hm : ∀ g ∈ gs, m' g.c = m g.c) : Links m' gs := by
  induction gs with
  | nil => simp [Links]
  | cons g gs ih =>
    cases gs with
    | nil => simp [Links]
    | cons g' gs =>
      obtain ⟨h1, h2⟩ := h
      exact ⟨by rw [hm g (List.mem_cons_self ..)]; exact h1,
        ih h2 (fun g hg => hm g (List.mem_cons_of_mem _ hg))⟩

theorem EnvOK_congr {m m' : Nat → Slot} {G e E} (h : EnvOK m G e E)
    (hn : E.vars.length + 2 ≤ G.loc e)
    (hm : ∀ x, G.loc e - E.vars.length - 2 ≤ x → x < G.loc e + hdr E.ruby → m' x = m x) :
    EnvOK m' G e E := by
  have h3 : 3 ≤ hdr E.ruby := by unfold hdr; split <;> omega
  have h8 : E.ruby = true → hdr E.ruby = 8 := by intro h; simp [hdr, h]
  constructor
  · rw [hm _ (by omega) (by omega)]; exact h.self
  · rw [hm _ (by omega) (by omega)]; exact h.recv
  · rw [hm _ (by omega) (by simp [EV_EP]; omega)]; exact h.ep
  · rw [hm _ (by omega) (by simp [EV_FLAG]; omega)]; exact h.flag
  · intro i v hv
    have := (List.getElem?_eq_some_iff.1 hv).1
    rw [hm _ (by omega) (by omega)]; exact h.vars i v hv
  · intro hr; have := h8 hr; rw [hm _ (by omega) (by simp [EV_MFP]; omega)]; exact h.mfp hr
  · intro hr; have := h8 hr; rw [hm _ (by omega) (by simp [EV_OUTER]; omega)]; exact h.outer hr
  · intro hr; have := h8 hr; rw [hm _ (by omega) (by simp [EV_ISEQ]; omega)]; exact h.iseq hr
  · intro hr; have := h8 hr; rw [hm _ (by omega) (by simp [EV_BLK]; omega)]; exact h.blk hr

theorem hdr_ge (b : Bool) : 3 ≤ hdr b := by cases b <;> decide
theorem hdr_le (b : Bool) : hdr b ≤ 8 := by cases b <;> decide
@[simp] theorem hdr_true : hdr true = 8 := rfl
@[simp] theorem hdr_false : hdr false = 3 := rfl

/-! ## Geometry -/

namespace Shape
variable {base hp : Nat} {G : Ghost}

theorem lt_or (h : Shape base hp G) {g g' : GF} (hg : g ∈ G.gs) (hg' : g' ∈ G.gs) :
    g = g' ∨ g'.c + hdr g'.ruby + g.n + 2 ≤ g.c ∨ g.c + hdr g.ruby + g'.n + 2 ≤ g'.c := by
  by_cases e : g = g'
  · exact Or.inl e
  · right
    have := h.sep
    have key : ∀ l : List GF, l.Pairwise (fun g g' => g'.c + hdr g'.ruby + g.n + 2 ≤ g.c) →
        g ∈ l → g' ∈ l → g'.c + hdr g'.ruby + g.n + 2 ≤ g.c ∨ g.c + hdr g.ruby + g'.n + 2 ≤ g'.c := by
      intro l hl
      induction l with
      | nil => simp
      | cons a l ih =>
        rw [List.pairwise_cons] at hl
        intro h1 h2
        rcases List.mem_cons.1 h1 with h3 | h3 <;> rcases List.mem_cons.1 h2 with h4 | h4
        · exact absurd (h3.trans h4.symm) e
        · subst h3; exact Or.inl (hl.1 _ h4)
        · subst h4; exact Or.inr (hl.1 _ h3)
        · exact ih hl.2 h3 h4
    exact key _ h.sep hg hg'

theorem eq_of_c (h : Shape base hp G) {g g' : GF} (hg : g ∈ G.gs) (hg' : g' ∈ G.gs)
    (e : g.c = g'.c) : g = g' := by
  rcases h.lt_or hg hg' with h | h | h
  · exact h
  · omega
  · omega

/-- a live environment has room for its variables -/
theorem live_room (h : Shape base hp G) {e S} (hl : Live G e) (hS : G.sk[e]? = some S) :
    S.len + 2 ≤ G.loc e := by
  by_cases hc : G.cap e = true
  · obtain ⟨S', h1, _, h2, _⟩ := h.caps e hc
    rw [hS] at h1; cases h1; omega
  · rcases hl with hl | ⟨g, hg, rfl⟩
    · exact absurd hl hc
    · obtain ⟨S', h1, h2, _⟩ := h.frame g hg
      rw [hS] at h1; cases h1
      have := h.room g hg
      rw [h.own g hg (by simpa using hc)]; omega

/-- regions of different live environments do not overlap -/
theorem disj (h : Shape base hp G) {e e' S S'} (hl : Live G e) (hl' : Live G e') (hne : e ≠ e')
    (hS : G.sk[e]? = some S) (hS' : G.sk[e']? = some S') :
    G.loc e + hdr S.ruby + S'.len + 2 ≤ G.loc e' ∨ G.loc e' + hdr S'.ruby + S.len + 2 ≤ G.loc e := by
  have b8 := hdr_le S.ruby
  have b8' := hdr_le S'.ruby
  by_cases hc : G.cap e = true <;> by_cases hc' : G.cap e' = true
  · rcases h.capSep e e' S S' hc hc' hne hS hS' with h | h <;> omega
  · obtain ⟨T, h1, _, h2, _⟩ := h.caps e hc
    rw [hS] at h1; cases h1
    rcases hl' with hl | ⟨g, hg, rfl⟩
    · exact absurd hl hc'
    · obtain ⟨S2, h3, h4, h5⟩ := h.frame g hg
      rw [hS'] at h3; cases h3
      have := h.room g hg
      rw [h.own g hg (by simpa using hc')]
      rw [h5]; omega
  · obtain ⟨T, h1, _, h2, _⟩ := h.caps e' hc'
    rw [hS'] at h1; cases h1
    rcases hl with hl | ⟨g, hg, rfl⟩
    · exact absurd hl hc
    · obtain ⟨S2, h3, h4, h5⟩ := h.frame g hg
      rw [hS] at h3; cases h3
      have := h.room g hg
      rw [h.own g hg (by simpa using hc)]
      rw [h5]; omega
  · rcases hl with hl | ⟨g, hg, rfl⟩
    · exact absurd hl hc
    rcases hl' with hl | ⟨g', hg', rfl⟩
    · exact absurd hl hc'
    obtain ⟨S2, h3, h4, h5⟩ := h.frame g hg
    rw [hS] at h3; cases h3
    obtain ⟨S2, h3, h6, h7⟩ := h.frame g' hg'
    rw [hS'] at h3; cases h3
    rw [h.own g hg (by simpa using hc), h.own g' hg' (by simpa using hc'), h5, h7, h4, h6]
    rcases h.lt_or hg hg' with rfl | h | h
    · exact absurd rfl hne
    · right; omega
    · left; omega

end Shape

/-- slots with operands lie in a frame, above its header and below the next frame -/
theorem InOps_spec {base hp G} (hs : Shape base hp G) : ∀ {gs sp x}, (∀ g ∈ gs, g ∈ G.gs) →
    gs.Pairwise (fun g g' => g'.c + hdr g'.ruby + g.n + 2 ≤ g.c) → InOps sp gs x →
    ∃ g ∈ gs, (x = g.c + EV_FLAG ∨ (g.c + hdr g.ruby ≤ x ∧ (x < sp ∨ ∃ g' ∈ gs, g.c < g'.c))) ∧
      ∀ g' ∈ gs, g.c < g'.c → x < g'.p := by
  intro gs
  induction gs with
  | nil => intro sp x _ _ h; exact h.elim
  | cons a gs ih =>
    intro sp x hm hp h
    rw [List.pairwise_cons] at hp
    rcases h with h | h | h
    · refine ⟨a, List.mem_cons_self .., Or.inl h, ?_⟩
      intro g' hg' hlt
      rcases List.mem_cons.1 hg' with rfl | hg'
      · omega
      · have := hp.1 _ hg'; have := hdr_ge g'.ruby; omega
    · refine ⟨a, List.mem_cons_self .., Or.inr ⟨h.1, Or.inl h.2⟩, ?_⟩
      intro g' hg' hlt
      rcases List.mem_cons.1 hg' with rfl | hg'
      · omega
      · have := hp.1 _ hg'; have := hdr_ge g'.ruby; omega
    · obtain ⟨g, hg, h1, h2⟩ := ih (fun g hg => hm g (List.mem_cons_of_mem _ hg)) hp.2 h
      have hgc := hp.1 g hg
      have ha := hs.room a (hm a (List.mem_cons_self ..))
      have h3 := hdr_ge g.ruby
      refine ⟨g, List.mem_cons_of_mem _ hg, ?_, ?_⟩
      · rcases h1 with h1 | ⟨h1, h4⟩
        · exact Or.inl h1
        · exact Or.inr ⟨h1, Or.inr ⟨a, List.mem_cons_self .., by omega⟩⟩
      · intro g' hg' hlt
        rcases List.mem_cons.1 hg' with rfl | hg'
        · rcases h1 with h1 | ⟨h1, h4 | ⟨g2, hg2, h4⟩⟩
          · unfold GF.p; unfold EV_FLAG at h1; omega
          · exact h4
          · have := h2 g2 hg2 h4
            have := hp.1 g2 hg2
            unfold GF.p at *; omega
        · exact h2 g' hg' hlt

/-- No operand slot lies in the part of a frame below its control slots. -/
theorem not_inOps {base hp G} (hs : Shape base hp G) {sp x g} (h : InOps sp G.gs x)
    (hg : g ∈ G.gs) : ¬ (g.p ≤ x ∧ x < g.c + EV_FLAG) ∧ ¬ (g.c + EV_FLAG < x ∧ x < g.c + hdr g.ruby) := by
  obtain ⟨g0, hg0, h1, h2⟩ := InOps_spec hs (fun _ h => h) hs.sep h
  have h3 := hdr_ge g0.ruby
  have h3' := hdr_ge g.ruby
  have hr := hs.room g hg
  unfold EV_FLAG at *
  rcases hs.lt_or hg0 hg with rfl | hl | hl
  · rcases h1 with h1 | h1 <;> constructor <;> intro hx <;> unfold GF.p at * <;> omega
  · have hr0 := hs.room g0 hg0
    have : g.c < g0.c := by omega
    rcases h1 with h1 | h1 <;> constructor <;> intro hx <;> unfold GF.p at * <;> omega
  · have := h2 g hg (by omega)
    constructor <;> intro hx <;> unfold GF.p at * <;> omega

theorem InOps_lt {base hp G} (hs : Shape base hp G) {sp x} (h : InOps sp G.gs x)
    (hsp : sp ≤ base + STACK_SIZE) : x < base + STACK_SIZE := by
  obtain ⟨g, hg, h1, h2⟩ := InOps_spec hs (fun _ h => h) hs.sep h
  have hr := hs.room g hg
  have h3 := hdr_ge g.ruby
  rcases h1 with h1 | ⟨h1, h4 | ⟨g', hg', h4⟩⟩
  · unfold EV_FLAG at h1; omega
  · omega
  · have := h2 g' hg' h4
    have := hs.room g' hg'
    unfold GF.p at *; omega

end Verif.Frame
