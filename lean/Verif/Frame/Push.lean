import Verif.Frame.Simple

/-!
# Entering frames
-/
namespace Verif.Frame
open Verif.Frame.Spec

/-! ## The ghost data -/

def Ghost.push (G : Ghost) (S : Sk) (c : Nat) (held : Option SBlk) (cy : Bool) (acc : List Nat)
    (b : Option Blk) : Ghost :=
  { gs := ⟨G.sk.length, c, S.len, S.ruby, held, cy, acc⟩ :: G.gs,
    sk := G.sk ++ [S],
    loc := fun e => if e = G.sk.length then c else G.loc e,
    cap := G.cap,
    hb := fun e => if e = G.sk.length then b else G.hb e }

theorem get_push {l : List Sk} {S T : Sk} {e : Nat} (h : (l ++ [S])[e]? = some T) :
    (e < l.length ∧ l[e]? = some T) ∨ (e = l.length ∧ T = S) := by
  by_cases he : e < l.length
  · rw [List.getElem?_append_left he] at h; exact Or.inl ⟨he, h⟩
  · rw [List.getElem?_append_right (by omega)] at h
    have : e - l.length = 0 := by
      have := (List.getElem?_eq_some_iff.1 h).1; simp at this; omega
    rw [this] at h
    simp at h
    exact Or.inr ⟨by omega, h.symm⟩

theorem get_old {l : List Sk} {S T : Sk} {e : Nat} (h : l[e]? = some T) : (l ++ [S])[e]? = some T := by
  rw [List.getElem?_append_left (List.getElem?_eq_some_iff.1 h).1]; exact h

theorem get_new {l : List Sk} {S : Sk} : (l ++ [S])[l.length]? = some S := by
  rw [List.getElem?_append_right (by omega)]; simp

namespace Shape
variable {base hp : Nat} {G : Ghost}

theorem env_lt (h : Shape base hp G) {g} (hg : g ∈ G.gs) : g.env < G.sk.length := by
  obtain ⟨S, hS, -⟩ := h.frame g hg
  exact (List.getElem?_eq_some_iff.1 hS).1

theorem cap_lt (h : Shape base hp G) {e} (hc : G.cap e = true) : e < G.sk.length := by
  obtain ⟨S, hS, -⟩ := h.caps e hc
  exact (List.getElem?_eq_some_iff.1 hS).1

theorem cap_new (h : Shape base hp G) : G.cap G.sk.length = false := by
  cases hc : G.cap G.sk.length
  · rfl
  · exact absurd (h.cap_lt hc) (by omega)

theorem push (h : Shape base hp G) {g gs} (hg : G.gs = g :: gs) (S : Sk) (c : Nat)
    (held : Option SBlk) (cy : Bool) (acc : List Nat) (b : Option Blk)
    (hc : g.c + hdr g.ruby + S.len + 2 ≤ c) (hlim : c + hdr S.ruby ≤ base + STACK_SIZE)
    (hroot : S.outer = none → S.meth = G.sk.length)
    (htree : ∀ o, S.outer = some o → S.ruby = true ∧
      (∃ O, G.sk[o]? = some O ∧ O.ruby = true ∧ S.meth = O.meth) ∧ Live G o)
    (hhb : BlkShape S.blk b)
    (hacc : ∀ x ∈ acc, ∃ g' ∈ G.gs, g'.env = x)
    (htrans : ∀ g' ∈ G.gs, g'.env ∈ acc → ∀ y ∈ g'.acc, y ∈ acc)
    (hno : ∀ g' ∈ G.gs, ∀ S' o, G.sk[g'.env]? = some S' → S'.outer = some o → G.cap o = false →
      o ∉ acc)
    (hnew : ∀ o, S.outer = some o → G.cap o = false → o ∉ acc ∧
      ∀ g' ∈ G.gs, ∀ S', G.sk[g'.env]? = some S' → S'.outer ≠ some o)
    (hhandle : cy = true → S.ruby = true → ∀ M code e f, (G.sk ++ [S])[S.meth]? = some M →
      M.blk = some (.lit code e) →
      (if S.meth = G.sk.length then b else G.hb S.meth) = some (.lit code f) →
      e ∈ acc ∧ ∃ g' ∈ G.gs, g'.env = e ∧ g'.c = base + f ∧ g'.ruby = true) :
    Shape base hp (G.push S c held cy acc b) := by
  have hgm : g ∈ G.gs := by rw [hg]; exact List.mem_cons_self ..
  have hbelow : ∀ a ∈ G.gs, a.c + hdr a.ruby + S.len + 2 ≤ c := by
    intro a ha
    rw [hg] at ha
    rcases List.mem_cons.1 ha with rfl | ha
    · exact hc
    · have := h.sep
      rw [hg, List.pairwise_cons] at this
      have := this.1 a ha
      omega
  have hcl : ∀ a ∈ G.gs, a.c < c := by
    intro a ha
    have := hbelow a ha
    omega
  have hold : ∀ a ∈ G.gs, ∀ T, (G.sk ++ [S])[a.env]? = some T → G.sk[a.env]? = some T := by
    intro a ha T hT
    rw [List.getElem?_append_left (h.env_lt ha)] at hT
    exact hT
  have hcn := h.cap_new
  have hmeth : ∀ (e : Nat) T, G.sk[e]? = some T → T.meth < G.sk.length := by
    intro e
    induction e using Nat.strongRecOn with
    | ind e ih =>
      intro T hT
      cases ho : T.outer with
      | none => rw [h.root e T hT ho]; exact (List.getElem?_eq_some_iff.1 hT).1
      | some o =>
        obtain ⟨_, h1, O, h2, _, h3⟩ := h.tree e T o hT ho
        rw [h3]; exact ih o h1 O h2
  constructor
  · exact h.base1
  · exact h.hpLo
  · intro a ha
    rcases List.mem_cons.1 ha with rfl | ha
    · exact ⟨S, get_new, rfl, rfl⟩
    · obtain ⟨T, h1, h2⟩ := h.frame a ha
      exact ⟨T, get_old h1, h2⟩
  · intro a ha
    rcases List.mem_cons.1 ha with rfl | ha
    · have := h.room g hgm
      exact ⟨by dsimp; omega, by dsimp; omega, hlim⟩
    · exact h.room a ha
  · refine List.pairwise_cons.2 ⟨?_, h.sep⟩
    intro a ha
    exact hbelow a ha
  · intro a ha a' ha' e
    rcases List.mem_cons.1 ha with rfl | ha <;> rcases List.mem_cons.1 ha' with rfl | ha'
    · rfl
    · have := h.env_lt ha'; simp at e; omega
    · have := h.env_lt ha; simp at e; omega
    · exact h.inj a ha a' ha' e
  · intro a ha hcap
    rcases List.mem_cons.1 ha with rfl | ha
    · simp [Ghost.push]
    · have := h.env_lt ha
      simp only [Ghost.push]
      rw [if_neg (by omega)]
      exact h.own a ha hcap
  · intro e he
    obtain ⟨T, h1, h2, h3, h4, h5, h6⟩ := h.caps e he
    refine ⟨T, get_old h1, h2, ?_, ?_, h5, h6⟩
    · simp only [Ghost.push]
      rw [if_neg (by have := h.cap_lt he; omega)]; exact h3
    · simp only [Ghost.push]
      rw [if_neg (by have := h.cap_lt he; omega)]; exact h4
  · intro e e' T T' he he' hne hT hT'
    have l1 := h.cap_lt he
    have l2 := h.cap_lt he'
    simp only [Ghost.push]
    rw [if_neg (by omega), if_neg (by omega)]
    refine h.capSep e e' T T' he he' hne ?_ ?_
    · simp only [Ghost.push] at hT
      rw [List.getElem?_append_left l1] at hT; exact hT
    · simp only [Ghost.push] at hT'
      rw [List.getElem?_append_left l2] at hT'; exact hT'
  · intro e T hT ho
    rcases get_push hT with ⟨_, h1⟩ | ⟨h1, rfl⟩
    · exact h.root e T h1 ho
    · rw [h1]; exact hroot ho
  · intro e T o hT ho
    rcases get_push hT with ⟨_, h1⟩ | ⟨h1, rfl⟩
    · obtain ⟨a1, a2, O, a3, a4⟩ := h.tree e T o h1 ho
      exact ⟨a1, a2, O, get_old a3, a4⟩
    · obtain ⟨a1, ⟨O, a2, a3⟩, a4⟩ := htree o ho
      exact ⟨a1, by have := (List.getElem?_eq_some_iff.1 a2).1; omega, O, get_old a2, a3⟩
  · intro a ha T o hT ho
    rcases List.mem_cons.1 ha with rfl | ha
    · have : T = S := by
        have h0 : (G.sk ++ [S])[G.sk.length]? = some T := hT
        rw [get_new] at h0; cases h0; rfl
      subst this
      rcases (htree o ho).2.2 with h1 | ⟨g', hg', h1⟩
      · exact Or.inl h1
      · exact Or.inr ⟨g', List.mem_cons_of_mem _ hg', h1, hcl g' hg'⟩
    · rcases h.outerLive a ha T o (hold a ha T hT) ho with h1 | ⟨g', hg', h1⟩
      · exact Or.inl h1
      · exact Or.inr ⟨g', List.mem_cons_of_mem _ hg', h1⟩
  · intro e T hT
    simp only [Ghost.push]
    rcases get_push hT with ⟨h0, h1⟩ | ⟨h1, rfl⟩
    · rw [if_neg (by omega)]; exact h.hbs e T h1
    · rw [if_pos h1]; exact hhb
  · intro a ha hcy hr T M code e f hT hM hb hf
    rcases List.mem_cons.1 ha with rfl | ha
    · have : T = S := by
        have h0 : (G.sk ++ [S])[G.sk.length]? = some T := hT
        rw [get_new] at h0; cases h0; rfl
      subst this
      obtain ⟨h1, g', h2, h3, h4, h5⟩ := hhandle hcy hr M code e f hM hb hf
      exact ⟨h1, g', List.mem_cons_of_mem _ h2, h3, h4, hcl g' h2, h5⟩
    · have hT' := hold a ha T hT
      have hlt := hmeth _ T hT'
      simp only [Ghost.push] at hM hf
      rw [List.getElem?_append_left hlt] at hM
      rw [if_neg (by omega)] at hf
      obtain ⟨h1, g', h2, h3⟩ := h.handle a ha hcy hr T M code e f hT' hM hb hf
      exact ⟨h1, g', List.mem_cons_of_mem _ h2, h3⟩
  · intro a ha x hx
    rcases List.mem_cons.1 ha with rfl | ha
    · obtain ⟨g', h1, h2⟩ := hacc x hx
      exact ⟨g', List.mem_cons_of_mem _ h1, h2, hcl g' h1⟩
    · obtain ⟨g', h1, h2⟩ := h.accLive a ha x hx
      exact ⟨g', List.mem_cons_of_mem _ h1, h2⟩
  · intro a ha a' ha' hmem y hy
    rcases List.mem_cons.1 ha with rfl | ha <;> rcases List.mem_cons.1 ha' with rfl | ha'
    · exact hy
    · exact htrans a' ha' hmem y hy
    · obtain ⟨g', h1, h2, _⟩ := h.accLive a ha _ hmem
      have := h.env_lt h1
      simp at h2; omega
    · exact h.accTrans a ha a' ha' hmem y hy
  · intro a ha a' ha' T T' o hT hT' ho ho' hco
    rcases List.mem_cons.1 ha with rfl | ha <;> rcases List.mem_cons.1 ha' with rfl | ha'
    · rfl
    · have h0 : (G.sk ++ [S])[G.sk.length]? = some T := hT
      rw [get_new] at h0; cases h0
      exact absurd ho' ((hnew o ho hco).2 a' ha' T' (hold a' ha' T' hT'))
    · have h0 : (G.sk ++ [S])[G.sk.length]? = some T' := hT'
      rw [get_new] at h0; cases h0
      exact absurd ho ((hnew o ho' hco).2 a ha T (hold a ha T hT))
    · exact h.only a ha a' ha' T T' o (hold a ha T hT) (hold a' ha' T' hT') ho ho' hco
  · intro a ha T o hT ho hco k hk hle
    rcases List.mem_cons.1 ha with rfl | ha <;> rcases List.mem_cons.1 hk with rfl | hk
    · have h0 : (G.sk ++ [S])[G.sk.length]? = some T := hT
      rw [get_new] at h0; cases h0
      exact (hnew o ho hco).1
    · have := hcl k hk
      simp at hle; omega
    · exact hno a ha T o (hold a ha T hT) ho hco
    · exact h.noAcc a ha T o (hold a ha T hT) ho hco k hk hle

end Shape

/-! ## Memory of a new frame -/

/-- `m'` is `m` with a frame entered above the slot `p`, which holds its `self`; the frame below is at
`gc`. -/
structure Pushed (m m' : Nat → Slot) (lim p gc : Nat) (gruby : Bool) (pc slf : Nat) (vs : List Nat)
    (tl : List Slot) : Prop where
  low : ∀ x, x < p → m' x = if gruby = true ∧ x = gc + EV_PC then .pc pc else m x
  recv : m' p = .val slf
  hi : ∀ x, lim ≤ x → m' x = m x
  vars : ∀ (i : Nat) v, vs[i]? = some v → m' (p + 1 + i) = .val v
  self : m' (p + 1 + vs.length) = .val slf
  tail : ∀ (i : Nat) s, tl[i]? = some s → m' (p + vs.length + 2 + i) = s

theorem Procs_mono {G G' : Ghost} {ps qs} (h : Procs G ps qs)
    (hm : ∀ e, G.cap e = true → G'.cap e = true ∧ G'.loc e = G.loc e) : Procs G' ps qs := by
  refine ⟨h.1, fun p Q hQ => ?_⟩
  obtain ⟨P, h1, h2, h3, h4, h5⟩ := h.2 p Q hQ
  exact ⟨P, h1, h2, h3, by rw [(hm _ h5).2]; exact h4, (hm _ h5).1⟩

theorem Nats_mono {base ps ps' G G'} {gs : List GF} {fs ns} (h : Nats base ps G gs fs ns)
    (hps : ∀ (p : Nat) i, ps[p]? = some i → ps'[p]? = some i)
    (hsk : ∀ (e : Nat) S, G.sk[e]? = some S → G'.sk[e]? = some S)
    (hm : ∀ e, G.cap e = true → G'.cap e = true ∧ G'.loc e = G.loc e) : Nats base ps' G' gs fs ns := by
  induction gs generalizing fs ns with
  | nil => simp [Nats] at h
  | cons g gs ih =>
    match gs, fs with
    | [], [] => simp [Nats] at h
    | [], [f] => exact h
    | [], _ :: _ :: _ => simp [Nats] at h
    | g' :: gs, [] => simp [Nats] at h
    | g' :: gs, [_] => simp [Nats] at h
    | g' :: gs, f :: f' :: fs =>
      unfold Nats at h ⊢
      split
      · rename_i hr
        rw [if_pos hr] at h
        exact ih h
      · rename_i hr
        rw [if_neg hr] at h
        cases ns with
        | nil => exact h
        | cons n ns =>
          dsimp only at h ⊢
          obtain ⟨h1, h2, h3, h4, h5, h6⟩ := h
          refine ⟨h1, ?_, ?_, h4, h5, ih h6⟩
          · intro hr
            obtain ⟨a, S, b, c⟩ := h2 hr
            exact ⟨a, S, hsk _ _ b, c⟩
          · unfold HeldOK at h3 ⊢
            split
            · rename_i hh; rw [hh] at h3; exact h3
            · rename_i p hh
              rw [hh] at h3
              obtain ⟨a, i, b, c⟩ := h3
              exact ⟨a, i, hps _ _ b, c⟩
            · rename_i code e hh
              rw [hh] at h3
              obtain ⟨a, g2, b, c, d, f0, a0, e1, e2, e3, e4⟩ := h3
              refine ⟨a, g2, b, c, d, f0, a0, e1, e2, e3, ?_⟩
              rcases e4 with e4 | ⟨e4, e5⟩
              · exact Or.inl e4
              · exact Or.inr ⟨(hm _ e4).1, by rw [(hm _ e4).2]; exact e5⟩

section
variable {σ : VM} {α : Mach} {G : Ghost}

theorem Inv.enter (h : Inv σ α G) {f fs} (hf : α.frames = f :: fs) {g gs} (hg : G.gs = g :: gs)
    (E : Env) (k : Nat) (hk : k ≤ f.ops.length) (use : Bool) (held : Option SBlk) (cy : Bool)
    (acc : List Nat) (b : Option Blk) (σ' : VM) (p c : Nat) (tail : List Slot)
    (hp : p = g.c + hdr g.ruby + (f.ops.length - k)) (hc : c = p + E.vars.length + 2)
    (hlim : c + hdr E.ruby ≤ σ.base + STACK_SIZE)
    (hshape : Shape σ.base σ.hp (G.push E.sk c held cy acc b))
    (hbase : σ'.base = σ.base) (hhp : σ'.hp = σ.hp) (hprocs : σ'.procs = σ.procs)
    (hsp : σ'.sp = c + hdr E.ruby) (hcfp : σ'.cfp = c) (hlfp : σ'.lfp = p + 1)
    (hpc : E.ruby = true → σ'.pc = 0 ∧ σ'.iseq = E.iseq)
    (hmem : Pushed σ.mem σ'.mem (σ.base + STACK_SIZE) p g.c g.ruby σ.pc E.self E.vars tail)
    (ht0 : tail[0]? = some (.ptr (some g.c))) (ht1 : tail[1]? = some (.ptr (some c)))
    (ht2 : ∃ d, tail[2]? = some (.flag E.vars.length E.ruby d) ∧ (E.ruby = true → d = !use))
    (ht3 : E.ruby = true → tail[3]? = some (.ptr (some (if E.meth = G.sk.length then c else G.loc E.meth)))
      ∧ tail[4]? = some (.ptr (E.outer.map G.loc)) ∧ tail[6]? = some (.iseq E.iseq) ∧
      tail[7]? = some (.blk b))
    (hnats : Nats σ'.base σ'.procs (G.push E.sk c held cy acc b) (G.push E.sk c held cy acc b).gs
      (Spec.enter α f fs (f.ops.drop k) E use held cy).frames σ'.natives)
    (hheld : ∀ p, held = some (.proc p) → p < α.procs.length)
    (hblk : ∀ p, E.blk = some (.proc p) → p < α.procs.length) :
    Inv σ' (Spec.enter α f fs (f.ops.drop k) E use held cy) (G.push E.sk c held cy acc b) := by
  have hs := h.shape
  have hlen : α.envs.length = G.sk.length := by rw [← h.sk]; simp
  have hgm : g ∈ G.gs := by rw [hg]; exact List.mem_cons_self ..
  have hb : ∀ a ∈ G.gs, a.c + hdr a.ruby ≤ g.c + hdr g.ruby := by
    intro a ha
    rw [hg] at ha
    rcases List.mem_cons.1 ha with rfl | ha
    · omega
    · have := hs.sep
      rw [hg, List.pairwise_cons] at this
      have := this.1 a ha
      omega
  have hfr := h.ops
  rw [hf, hg] at hfr
  obtain ⟨h1, h2, h3, h4, h5, h6, h7⟩ := hfr
  have hrg := h.regs
  rw [hf, hg] at hrg
  -- slots of old frames other than the saved position of the top frame
  have hkeep : ∀ x, x < p → x ≠ g.c + EV_PC → σ'.mem x = σ.mem x := by
    intro x hx hne
    rw [hmem.low x hx, if_neg (by intro hh; exact hne hh.2)]
  have hkeep' : ∀ x, x < p → g.ruby = false → σ'.mem x = σ.mem x := by
    intro x hx hne
    rw [hmem.low x hx, if_neg (by rw [hne]; simp)]
  constructor
  · simp only [Spec.enter, Ghost.push, List.map_append, List.map_cons, List.map_nil, h.sk]
  · rw [hbase, hhp]; exact hshape
  · intro e E' he hl
    by_cases hee : e = G.sk.length
    · subst hee
      have : E' = E := by
        simp only [Spec.enter] at he
        rw [← hlen, List.getElem?_append_right (by omega)] at he
        simpa using he.symm
      subst this
      have hloc : (G.push E'.sk c held cy acc b).loc G.sk.length = c := by simp [Ghost.push]
      have hl2 : ∀ x, x ≠ G.sk.length → (G.push E'.sk c held cy acc b).loc x = G.loc x := by
        intro x hx; simp [Ghost.push, hx]
      constructor
      · rw [hloc]
        have := hmem.self
        rw [← this]; congr 1; omega
      · rw [hloc]
        have := hmem.recv
        rw [← this]; congr 1; omega
      · rw [hloc]
        have := hmem.tail 1 _ ht1
        rw [← this]; congr 1; rw [hc]; rfl
      · rw [hloc]
        obtain ⟨d, h8, h9⟩ := ht2
        refine ⟨d, ?_⟩
        have := hmem.tail 2 _ h8
        rw [← this]; congr 1; rw [hc]; rfl
      · intro i v hv
        rw [hloc]
        have := hmem.vars i v hv
        rw [← this]; congr 1; omega
      · intro hr
        rw [hloc]
        have := hmem.tail 3 _ (ht3 hr).1
        refine Eq.trans (congrArg σ'.mem ?_) (this.trans ?_)
        · rw [hc]; rfl
        · by_cases hm : E'.meth = G.sk.length
          · rw [if_pos hm, hm, hloc]
          · rw [if_neg hm, hl2 _ hm]
      · intro hr
        rw [hloc]
        have := hmem.tail 4 _ (ht3 hr).2.1
        refine Eq.trans (congrArg σ'.mem ?_) (this.trans ?_)
        · rw [hc]; rfl
        · cases ho : E'.outer with
          | none => rfl
          | some o =>
            have := (hshape.tree G.sk.length E'.sk o get_new ho).2.1
            simp only [Option.map]
            rw [hl2 o (by omega)]
      · intro hr
        rw [hloc, hc]
        exact hmem.tail 6 _ (ht3 hr).2.2.1
      · intro hr
        rw [hloc, hc]
        refine (hmem.tail 7 _ (ht3 hr).2.2.2).trans ?_
        simp [Ghost.push]
    · have hel : e < α.envs.length := by
        have := (List.getElem?_eq_some_iff.1 he).1
        simp [Spec.enter] at this
        omega
      have he' : α.envs[e]? = some E' := by
        simp only [Spec.enter] at he
        rw [List.getElem?_append_left hel] at he; exact he
      have hl' : Live G e := by
        rcases hl with hl | ⟨a, ha, hae⟩
        · exact Or.inl hl
        · rcases List.mem_cons.1 ha with rfl | ha
          · exact absurd hae.symm hee
          · exact Or.inr ⟨a, ha, hae⟩
      have hS := h.sk_of he'
      have h0 := h.envs e E' he' hl'
      have hroom := hs.live_room hl' hS
      -- the slots of this environment do not contain the saved position
      have h10 : ∀ x, G.loc e - E'.vars.length - 2 ≤ x → x < G.loc e + hdr E'.ruby →
          x ≠ g.c + EV_PC → σ'.mem x = σ.mem x := by
        intro x a1 a2 a3
        by_cases hcp : G.cap e = true
        · obtain ⟨S', b1, _, b2, _⟩ := hs.caps e hcp
          rw [hS] at b1; cases b1
          simp only [Env.sk] at b2
          exact hmem.hi x (by omega)
        · rcases hl' with hl' | ⟨a, ha, rfl⟩
          · exact absurd hl' hcp
          · obtain ⟨S', b1, b2, b3⟩ := hs.frame a ha
            rw [hS] at b1; cases b1
            rw [hs.own a ha (by simpa using hcp)] at a1 a2
            simp only [Env.sk] at b3
            rw [b3] at a2
            have := hb a ha
            exact hkeep x (by omega) a3
      have hloc : (G.push E.sk c held cy acc b).loc e = G.loc e := by simp [Ghost.push, hee]
      have hE'l : ∀ x, x < G.sk.length → (G.push E.sk c held cy acc b).loc x = G.loc x := by
        intro x hx
        simp only [Ghost.push]
        rw [if_neg (by omega)]
      have h3' := hdr_ge E'.ruby
      simp only [Env.sk] at hroom
      -- can the saved position be one of the slots of `e`?
      have hne : ∀ x, G.loc e - E'.vars.length - 2 ≤ x → x < G.loc e + hdr E'.ruby →
          x ≠ G.loc e + EV_PC → σ'.mem x = σ.mem x := by
        intro x a1 a2 a3
        by_cases hx : x = g.c + EV_PC
        · subst hx
          by_cases hgr : g.ruby = true
          · by_cases hcp : G.cap e = true
            · exact h10 _ a1 a2 (by
                obtain ⟨S', b1, _, b2, _⟩ := hs.caps e hcp
                rw [hS] at b1; cases b1
                simp only [Env.sk] at b2
                have := (hs.room g hgm).2.2
                rw [hgr] at this
                simp at this
                unfold EV_PC at *
                omega)
            · rcases hl' with hl' | ⟨a, ha, rfl⟩
              · exact absurd hl' hcp
              · obtain ⟨S', b1, b2, b3⟩ := hs.frame a ha
                rw [hS] at b1; cases b1
                rw [hs.own a ha (by simpa using hcp)] at a1 a2 a3
                simp only [Env.sk] at b2 b3
                rw [b3] at a2
                rw [b2] at a1
                have hra := hs.room a ha
                rcases hs.lt_or hgm ha with rfl | hh | hh
                · exact absurd rfl a3
                · omega
                · rw [hgr] at hh
                  simp at hh
                  unfold EV_PC at *
                  omega
          · exact (by
              have hgf : g.ruby = false := by simpa using hgr
              by_cases hcp : G.cap e = true
              · obtain ⟨S', b1, _, b2, _⟩ := hs.caps e hcp
                rw [hS] at b1; cases b1
                simp only [Env.sk] at b2
                exact hmem.hi _ (by omega)
              · rcases hl' with hl' | ⟨a, ha, rfl⟩
                · exact absurd hl' hcp
                · obtain ⟨S', b1, b2, b3⟩ := hs.frame a ha
                  rw [hS] at b1; cases b1
                  rw [hs.own a ha (by simpa using hcp)] at a1 a2 a3
                  simp only [Env.sk] at b2 b3
                  rw [b3] at a2
                  have := hb a ha
                  exact hkeep' _ (by omega) hgf)
        · exact h10 x a1 a2 hx
      constructor
      · rw [hloc, hne _ (by omega) (by omega) (by unfold EV_PC; omega)]; exact h0.self
      · rw [hloc, hne _ (by omega) (by omega) (by unfold EV_PC; omega)]; exact h0.recv
      · rw [hloc, hne _ (by omega) (by simp [EV_EP]; omega) (by simp [EV_PC, EV_EP])]; exact h0.ep
      · rw [hloc, hne _ (by omega) (by simp [EV_FLAG]; omega) (by simp [EV_PC, EV_FLAG])]; exact h0.flag
      · intro i v hv
        have hi := (List.getElem?_eq_some_iff.1 hv).1
        rw [hloc, hne _ (by omega) (by omega) (by unfold EV_PC; omega)]
        exact h0.vars i v hv
      · intro hr
        rw [hloc, hne _ (by omega) (by rw [hr]; simp [EV_MFP]) (by simp [EV_PC, EV_MFP])]
        rw [h0.mfp hr]
        have : E'.meth < G.sk.length := by
          have key : ∀ (e : Nat) T, G.sk[e]? = some T → T.meth < G.sk.length := by
            intro e
            induction e using Nat.strongRecOn with
            | ind e ih =>
              intro T hT
              cases ho : T.outer with
              | none => rw [hs.root e T hT ho]; exact (List.getElem?_eq_some_iff.1 hT).1
              | some o =>
                obtain ⟨_, h1, O, h2, _, h3⟩ := hs.tree e T o hT ho
                rw [h3]; exact ih o h1 O h2
          exact key e _ hS
        rw [hE'l _ this]
      · intro hr
        rw [hloc, hne _ (by omega) (by rw [hr]; simp [EV_OUTER]) (by simp [EV_PC, EV_OUTER])]
        rw [h0.outer hr]
        cases ho : E'.outer with
        | none => rfl
        | some o =>
          obtain ⟨-, -, O, hO, -⟩ := hs.tree e _ o hS ho
          simp only [Option.map]
          rw [hE'l o (List.getElem?_eq_some_iff.1 hO).1]
      · intro hr
        rw [hloc, hne _ (by omega) (by rw [hr]; simp [EV_ISEQ]) (by simp [EV_PC, EV_ISEQ])]
        exact h0.iseq hr
      · intro hr
        rw [hloc, hne _ (by omega) (by rw [hr]; simp [EV_BLK]) (by simp [EV_PC, EV_BLK])]
        rw [h0.blk hr]
        simp [Ghost.push, hee]
  · intro a ha
    rcases List.mem_cons.1 ha with rfl | ha
    · refine ⟨fun S hS => ?_, ?_⟩
      · have h0 : (G.sk ++ [E.sk])[G.sk.length]? = some S := hS
        rw [get_new] at h0; cases h0
        have := hmem.self
        show σ'.mem (c - 1) = _
        rw [hc]
        have : p + E.vars.length + 2 - 1 = p + 1 + E.vars.length := by omega
        rw [this]; exact hmem.self
      · show σ'.mem (c + EV_EP) = .ptr (some ((G.push E.sk c held cy acc b).loc G.sk.length))
        have : (G.push E.sk c held cy acc b).loc G.sk.length = c := by simp [Ghost.push]
        rw [this, ← hmem.tail 1 _ ht1]
        congr 1; rw [hc]; rfl
    · have hra := hs.room a ha
      have h3' := hdr_ge a.ruby
      have hba := hb a ha
      have hal := hs.env_lt ha
      obtain ⟨c1, c2⟩ := h.ctl a ha
      have hnp : ∀ x, a.c - 1 ≤ x → x < a.c + 3 → x ≠ g.c + EV_PC := by
        intro x b1 b2 b3
        subst b3
        unfold EV_PC at b1 b2
        rcases hs.lt_or hgm ha with rfl | hh | hh
        · omega
        · omega
        · have := hdr_ge g.ruby
          by_cases hgr : g.ruby = true
          · rw [hgr] at hh; simp at hh; omega
          · omega
      refine ⟨fun S hS => ?_, ?_⟩
      · have h0 : (G.sk ++ [E.sk])[a.env]? = some S := hS
        rw [List.getElem?_append_left hal] at h0
        rw [hmem.low _ (by omega)]
        split
        · rename_i hh
          have := hdr_ge g.ruby
          rcases hs.lt_or hgm ha with rfl | hx | hx
          · unfold EV_PC at hh; omega
          · unfold EV_PC at hh; omega
          · rw [hh.1] at hx; simp at hx; unfold EV_PC at hh; omega
        · exact c1 S h0
      · rw [hmem.low _ (by unfold EV_EP; omega)]
        have hl2 : (G.push E.sk c held cy acc b).loc a.env = G.loc a.env := by
          simp only [Ghost.push]; rw [if_neg (by omega)]
        split
        · rename_i hh
          rcases hs.lt_or hgm ha with rfl | hx | hx
          · unfold EV_PC EV_EP at hh; omega
          · unfold EV_PC EV_EP at hh; omega
          · rw [hh.1] at hx; simp at hx; unfold EV_PC EV_EP at hh; omega
        · rw [hl2]; exact c2
  · show Links σ'.mem (_ :: G.gs)
    rw [hg]
    refine ⟨?_, ?_⟩
    · show σ'.mem c = _
      rw [hc]
      exact hmem.tail 0 _ ht0
    · have := h.links
      rw [hg] at this
      refine Links_congr this ?_
      intro a ha
      rw [← hg] at ha
      have hba := hb a ha
      have h3' := hdr_ge a.ruby
      have hra := hs.room a ha
      rw [hmem.low _ (by omega)]
      rw [if_neg]
      rintro ⟨b1, b2⟩
      unfold EV_PC at b2
      rcases hs.lt_or hgm ha with rfl | hh | hh
      · omega
      · omega
      · rw [b1] at hh; simp at hh; omega
  · have hpe : (⟨G.sk.length, c, E.sk.len, E.sk.ruby, held, cy, acc⟩ : GF).p = p := by
      simp only [GF.p, Env.sk]; omega
    refine ⟨hlen, rfl, rfl, ?_, ?_, ?_, ?_⟩
    · show σ'.sp = c + hdr E.ruby + ([] : List Nat).length
      rw [hsp]; simp
    · simp
    · obtain ⟨d, h8, h9⟩ := ht2
      refine ⟨d, ?_, h9⟩
      show σ'.mem (c + EV_FLAG) = _
      rw [hc]
      exact hmem.tail 2 _ h8
    · rw [hpe, hg]
      have hkpc : ∀ x, InOps σ.sp G.gs x → ¬ (g.ruby = true ∧ x = g.c + EV_PC) := by
        intro x hx hh
        have := (not_inOps hs hx hgm).2
        rw [hh.1] at this
        simp at this
        unfold EV_FLAG at this
        unfold EV_PC at hh
        omega
      refine ⟨h1, h2, h3, ?_, ?_, ?_, ?_⟩
      · simp; omega
      · intro i v hv
        have hi : i < f.ops.length - k := by
          have := (List.getElem?_eq_some_iff.1 hv).1
          simpa using this
        rw [hmem.low _ (by omega), if_neg]
        · refine h5 i v ?_
          rw [← hv, List.reverse_drop]
          rw [List.getElem?_take_of_lt (by omega)]
        · refine hkpc _ ?_
          rw [hg]
          exact Or.inr (Or.inl ⟨by omega, by omega⟩)
      · obtain ⟨d, h8, h9⟩ := h6
        refine ⟨d, ?_, h9⟩
        have := hdr_ge g.ruby
        rw [hmem.low _ (by unfold EV_FLAG; omega), if_neg]
        · exact h8
        · refine hkpc _ ?_
          rw [hg]; exact Or.inl rfl
      · refine FOps_congr h7 ?_
        intro x hx
        have hin : InOps σ.sp G.gs x := by rw [hg]; exact Or.inr (Or.inr hx)
        have hxlt : x < g.c := by
          have hsub : ∀ y ∈ gs, y ∈ G.gs := fun y hy => by rw [hg]; exact List.mem_cons_of_mem _ hy
          have hsp2 := hs.sep
          rw [hg, List.pairwise_cons] at hsp2
          obtain ⟨g0, hg0, a1, a2⟩ := InOps_spec hs hsub hsp2.2 hx
          have a3 := hsp2.1 g0 hg0
          have a4 := hdr_ge g0.ruby
          have hr := hs.room g hgm
          rcases a1 with a1 | ⟨a1, a1 | ⟨g1, hg1, a1⟩⟩
          · unfold EV_FLAG at a1; omega
          · unfold GF.p at a1; omega
          · have a6 := a2 g1 hg1 a1
            have a7 := hsp2.1 g1 hg1
            have a8 := hs.room g1 (hsub g1 hg1)
            unfold GF.p at a6; omega
        have := hdr_ge g.ruby
        rw [hmem.low _ (by omega), if_neg (hkpc x hin)]
  · show FPc σ'.mem G.gs ({ f with ops := f.ops.drop k } :: fs)
    rw [hg]
    refine ⟨fun hr => ?_, ?_⟩
    · rw [hr] at hp
      simp at hp
      rw [hmem.low _ (by unfold EV_PC; omega), if_pos ⟨hr, rfl⟩]
      rw [(hrg.2.2 hr).1]
    · have hp' := h.pcs
      rw [hf, hg] at hp'
      refine FPc_congr hp' ?_
      intro a ha har
      have ha' : a ∈ G.gs := by rw [hg]; exact List.mem_cons_of_mem _ ha
      have hsp2 := hs.sep
      rw [hg, List.pairwise_cons] at hsp2
      have := hsp2.1 a ha
      rw [har] at this
      simp at this
      have := hdr_ge g.ruby
      exact hkeep _ (by unfold EV_PC; omega) (by unfold EV_PC; omega)
  · rw [hsp, hbase]; exact hlim
  · refine ⟨hcfp, ?_, ?_⟩
    · show σ'.lfp + E.vars.length + 1 = (G.push E.sk c held cy acc b).loc G.sk.length
      have : (G.push E.sk c held cy acc b).loc G.sk.length = c := by simp [Ghost.push]
      rw [this, hlfp]; omega
    · intro hr
      exact ⟨(hpc hr).1, E.sk, get_new, (hpc hr).2⟩
  · rw [hprocs]
    refine Procs_mono h.procs ?_
    intro e he
    refine ⟨he, ?_⟩
    simp only [Ghost.push]
    rw [if_neg (by have := hs.cap_lt he; omega)]
  · exact hnats
  · intro f' hf' q hq
    rcases List.mem_cons.1 hf' with rfl | hf'
    · exact hheld q hq
    rcases List.mem_cons.1 hf' with rfl | hf'
    · exact h.heldP f (by rw [hf]; exact List.mem_cons_self ..) q hq
    · exact h.heldP f' (by rw [hf]; exact List.mem_cons_of_mem _ hf') q hq
  · intro e E' q he hq
    by_cases hee : e < α.envs.length
    · simp only [Spec.enter] at he
      rw [List.getElem?_append_left hee] at he
      exact h.blkP e E' q he hq
    · simp only [Spec.enter] at he
      rw [List.getElem?_append_right (by omega)] at he
      have : e - α.envs.length = 0 := by
        have := (List.getElem?_eq_some_iff.1 he).1; simp at this; omega
      rw [this] at he
      simp at he
      subst he
      exact hblk q hq

end
end Verif.Frame
