import Verif.Frame.Overflow

/-!
# What steps do to the frames of the specification
-/
namespace Verif.Frame
open Verif.Frame.Spec

variable {σ : VM} {α : Mach} {G : Ghost}

/-- the values the caller finds on its operand stack when the frame `f` is left by the step -/
def Spec.left (f : Fr) : Op → List Nat
  | .ret toRust => if toRust then [] else if f.use then f.ops.head?.toList else []
  | .retNative v => v.toList
  | _ => []

theorem enter_eq {E : Env} {f : Fr} {rest ops use held cy} :
    (enter α f rest ops E use held cy).frames = ⟨α.envs.length, [], 0, use, held, cy⟩ :: { f with ops := ops } :: rest := rfl

theorem callBlock_frames {f rest self code o args locals use cy α'}
    (h : callBlock α f rest self code o args locals use cy = some α') :
    args ≤ f.ops.length ∧ ∃ n E, α'.frames = n :: { f with ops := f.ops.drop args } :: rest ∧ n.use = use ∧
      α'.envs = α.envs ++ [E] := by
  unfold callBlock at h
  split at h
  · cases h
  · split at h
    · cases h
      exact ⟨by assumption, _, _, rfl, rfl, rfl⟩
    · cases h

theorem yieldTo_frames {f rest b args locals use α'}
    (h : yieldTo α f rest b args locals use = some α') :
    args ≤ f.ops.length ∧ ∃ n E, α'.frames = n :: { f with ops := f.ops.drop args } :: rest ∧ n.use = use ∧
      α'.envs = α.envs ++ [E] := by
  unfold yieldTo at h
  split at h
  · split at h
    · exact callBlock_frames h
    · cases h
  · split at h
    · exact callBlock_frames h
    · cases h

/-- how the frames change -/
def FramesStep (α : Mach) (op : Op) (α' : Mach) : Prop :=
  ∃ f rest, α.frames = f :: rest ∧
    match op.kind with
    | .stay => ∃ f', α'.frames = f' :: rest ∧ f'.use = f.use
    | .open k u => k ≤ f.ops.length ∧ ∃ n, α'.frames = n :: { f with ops := f.ops.drop k } :: rest ∧ n.use = u
    | .close => ∃ g rest', rest = g :: rest' ∧
        α'.frames = { g with ops := Spec.left f op ++ g.ops } :: rest'

/-- how the environments change -/
def EnvStep (α : Mach) (op : Op) (α' : Mach) : Prop :=
  ∃ l, (α'.envs.map Env.sk = α.envs.map Env.sk ++ l) ∧
    ((∀ k i v, op ≠ .setDyn k i v) → ∀ (e : Nat) E, α.envs[e]? = some E →
      ((∃ i v, op = .setLocal i v) → ∀ f rest, α.frames = f :: rest → f.env ≠ e) → α'.envs[e]? = some E)

theorem envStep_app {op : Op} {α' : Mach} {E : Env} (h : α'.envs = α.envs ++ [E]) : EnvStep α op α' := by
  refine ⟨[E.sk], by simp [h], ?_⟩
  intro _ e E' he _
  rw [h, List.getElem?_append_left (List.getElem?_eq_some_iff.1 he).1]; exact he

theorem envStep_same {op : Op} {α' : Mach} (h : α'.envs = α.envs) : EnvStep α op α' :=
  ⟨[], by simp [h], by intro _ e E he _; rw [h]; exact he⟩

theorem map_set_sk {l : List Env} {e E E'} (h : l[e]? = some E) (he : E'.sk = E.sk) :
    (l.set e E').map Env.sk = l.map Env.sk := by
  apply List.ext_getElem?
  intro i
  rw [List.getElem?_map, List.getElem?_map, List.getElem?_set]
  split
  · rename_i hi; subst hi
    split
    · simp [h, he]
    · rename_i hlt; rw [h]; have := (List.getElem?_eq_some_iff.1 h).1; omega
  · rfl

theorem step_frames {op α' o} (hs : Spec.step α op = some (α', o)) :
    FramesStep α op α' ∧ EnvStep α op α' := by
  unfold Spec.step at hs
  cases hf : α.frames with
  | nil => rw [hf] at hs; cases hs
  | cons f rest =>
  rw [hf] at hs
  dsimp only at hs
  cases hE : α.envs[f.env]? with
  | none => rw [hE] at hs; cases hs
  | some E =>
  rw [hE] at hs
  dsimp only at hs
  cases op with
  | push v => cases hs; exact ⟨⟨f, rest, hf, _, rfl, rfl⟩, envStep_same rfl⟩
  | pop =>
    dsimp only at hs
    split at hs
    · cases hs; exact ⟨⟨f, rest, hf, _, rfl, rfl⟩, envStep_same rfl⟩
    · cases hs
  | jump n =>
    dsimp only at hs
    split at hs
    · cases hs; exact ⟨⟨f, rest, hf, _, rfl, rfl⟩, envStep_same rfl⟩
    · cases hs
  | self => cases hs; exact ⟨⟨f, rest, hf, f, hf, rfl⟩, envStep_same rfl⟩
  | getLocal i =>
    dsimp only at hs
    split at hs
    · cases hs; exact ⟨⟨f, rest, hf, f, hf, rfl⟩, envStep_same rfl⟩
    · cases hs
  | setLocal i v =>
    dsimp only at hs
    split at hs
    · cases hs
      refine ⟨⟨f, rest, hf, f, by first | exact hf | rfl, rfl⟩, [], ?_, ?_⟩
      · rw [List.append_nil]; exact map_set_sk hE (by simp [Env.sk])
      · intro _ e E' he hne
        have := hne ⟨i, v, rfl⟩ f rest hf
        dsimp only
        rw [List.getElem?_set_ne this]; exact he
    · cases hs
  | getDyn k i =>
    dsimp only at hs
    split at hs
    · cases hs
    · split at hs
      · split at hs
        · cases hs; exact ⟨⟨f, rest, hf, f, hf, rfl⟩, envStep_same rfl⟩
        · cases hs
      · cases hs
  | setDyn k i v =>
    dsimp only at hs
    split at hs
    · cases hs
    · split at hs
      · split at hs
        · rename_i hE' _
          cases hs
          refine ⟨⟨f, rest, hf, f, by first | exact hf | rfl, rfl⟩, [], ?_, ?_⟩
          · rw [List.append_nil]; exact map_set_sk hE' (by simp [Env.sk])
          · intro h; exact (h k i v rfl).elim
        · cases hs
      · cases hs
  | callMethod args code locals u b =>
    dsimp only at hs
    split at hs
    · rename_i h1 _
      cases hs
      have := (List.getElem?_eq_some_iff.1 h1).1
      exact ⟨⟨f, rest, hf, by omega, _, rfl, rfl⟩, envStep_app rfl⟩
    · cases hs
  | callNative args b =>
    dsimp only at hs
    split at hs
    · rename_i h1 _
      cases hs
      have := (List.getElem?_eq_some_iff.1 h1).1
      exact ⟨⟨f, rest, hf, by omega, _, rfl, rfl⟩, envStep_app rfl⟩
    · cases hs
  | callProc p s args locals u =>
    dsimp only at hs
    split at hs
    · split at hs
      · rename_i h1
        cases hs
        obtain ⟨k1, n, E', k2, k3, k4⟩ := callBlock_frames h1
        exact ⟨⟨f, rest, hf, k1, n, k2, k3⟩, envStep_app k4⟩
      · cases hs
    · cases hs
  | yield args locals u =>
    dsimp only at hs
    split at hs
    · split at hs
      · rename_i h1
        cases hs
        obtain ⟨k1, n, E', k2, k3, k4⟩ := yieldTo_frames h1
        exact ⟨⟨f, rest, hf, k1, n, k2, k3⟩, envStep_app k4⟩
      · cases hs
    · cases hs
  | iterate args locals u =>
    dsimp only at hs
    split at hs
    · split at hs
      · rename_i h1
        cases hs
        obtain ⟨k1, n, E', k2, k3, k4⟩ := yieldTo_frames h1
        exact ⟨⟨f, rest, hf, k1, n, k2, k3⟩, envStep_app k4⟩
      · cases hs
    · cases hs
  | ret toRust =>
    dsimp only at hs
    split at hs
    · rename_i ho
      split at hs
      · rename_i ht
        cases hs
        exact ⟨⟨f, _, hf, _, _, rfl, by simp [Spec.left, ht]⟩, envStep_same rfl⟩
      · rename_i ht
        split at hs
        · rename_i hu
          cases hs
          exact ⟨⟨f, _, hf, _, _, rfl, by simp [Spec.left, ht, hu, ho]⟩, envStep_same rfl⟩
        · rename_i hu
          cases hs
          exact ⟨⟨f, _, hf, _, _, rfl, by simp [Spec.left, ht, hu]⟩, envStep_same rfl⟩
    · cases hs
  | raise =>
    dsimp only at hs
    split at hs
    · cases hs
      exact ⟨⟨f, _, hf, _, _, rfl, by simp [Spec.left]⟩, envStep_same rfl⟩
    · cases hs
  | retNative v =>
    dsimp only at hs
    split at hs
    · split at hs
      · cases hs
        exact ⟨⟨f, _, hf, _, _, rfl, by simp [Spec.left]⟩, envStep_same rfl⟩
      · cases hs
        exact ⟨⟨f, _, hf, _, _, rfl, by simp [Spec.left]⟩, envStep_same rfl⟩
    · cases hs
  | clear => cases hs; exact ⟨⟨f, rest, hf, _, rfl, rfl⟩, envStep_same rfl⟩
  | createProc code =>
    dsimp only at hs
    split at hs
    · cases hs; exact ⟨⟨f, rest, hf, f, by first | exact hf | rfl, rfl⟩, envStep_same rfl⟩
    · cases hs
  | blockToProc =>
    dsimp only at hs
    split at hs
    · split at hs
      · cases hs; exact ⟨⟨f, rest, hf, f, by first | exact hf | rfl, rfl⟩, envStep_same rfl⟩
      · cases hs
    · cases hs; exact ⟨⟨f, rest, hf, f, hf, rfl⟩, envStep_same rfl⟩
    · cases hs
  | binding =>
    dsimp only at hs
    split at hs
    · cases hs
    · split at hs
      · cases hs; exact ⟨⟨f, rest, hf, f, by first | exact hf | rfl, rfl⟩, envStep_same rfl⟩
      · cases hs

/-- the depth of the call after the steps, if no step leaves the call (depth 1) -/
def depth : Nat → List Op → Option Nat
  | d, [] => some d
  | d, op :: ops =>
    match op.kind with
    | .stay => depth d ops
    | .open _ _ => depth (d + 1) ops
    | .close =>
      match d with
      | d + 2 => depth (d + 1) ops
      | _ => none

theorem body_ok {ops : List Op} {α' outs d d'} (h : Inv σ α G) (hs : Spec.run α ops = some (α', outs))
    (hd : depth d ops = some d')
    {xs f tl ys y gt} (hf : α.frames = xs ++ f :: tl) (hx : xs.length + 1 = d)
    (hg : G.gs = ys ++ y :: gt) (hy : ys.length + 1 = d)
    {σ'} (hr : run σ ops = .ok (σ', outs)) :
    ∃ G' xs' f' ys' y', Inv σ' α' G' ∧ α'.frames = xs' ++ f' :: tl ∧ xs'.length + 1 = d' ∧ f'.use = f.use ∧
      G'.gs = ys' ++ y' :: gt ∧ ys'.length + 1 = d' ∧ (∃ l, G'.sk = G.sk ++ l) ∧
      ((∀ op ∈ ops, ∀ k i v, op ≠ .setDyn k i v) → ∀ g ∈ gt, ∀ E, α.envs[g.env]? = some E →
        α'.envs[g.env]? = some E) := by
  induction ops generalizing σ α G outs d xs f ys y with
  | nil =>
    simp only [Spec.run, Option.some.injEq, Prod.mk.injEq] at hs
    simp only [run, Except.ok.injEq, Prod.mk.injEq] at hr
    simp only [depth, Option.some.injEq] at hd
    obtain ⟨rfl, rfl⟩ := hs
    obtain ⟨rfl, _⟩ := hr
    subst hd
    exact ⟨G, xs, f, ys, y, h, hf, hx, rfl, hg, hy, ⟨[], by simp⟩, fun _ g _ E hE => hE⟩
  | cons op ops ih =>
    unfold Spec.run at hs
    cases h1 : Spec.step α op with
    | none => rw [h1] at hs; cases hs
    | some r =>
    obtain ⟨α1, o⟩ := r
    rw [h1] at hs
    dsimp only at hs
    cases h2 : Spec.run α1 ops with
    | none => rw [h2] at hs; cases hs
    | some r2 =>
    obtain ⟨α2, os⟩ := r2
    rw [h2] at hs
    simp only [Option.some.injEq, Prod.mk.injEq] at hs
    obtain ⟨rfl, rfl⟩ := hs
    rcases sim h h1 with e1 | ⟨σ1, G1, e1, hi, hp⟩
    · simp only [run, e1, bind, Except.bind] at hr; cases hr
    obtain ⟨⟨f0, rest, hf0, hk⟩, l, hsk, henv⟩ := step_frames h1
    have hr1 : run σ1 ops = .ok (σ', os) := by
      simp only [run, e1, bind, Except.bind] at hr
      cases h3 : run σ1 ops with
      | error e => rw [h3] at hr; cases hr
      | ok x => rw [h3] at hr; simp only [Except.ok.injEq, Prod.mk.injEq, List.cons.injEq] at hr
                obtain ⟨rfl, _, rfl⟩ := hr; rfl
    have hskG : G1.sk = G.sk ++ l := by rw [← h.sk, ← hi.sk]; exact hsk
    -- the running frame is not below the call
    have hnot : ∀ g ∈ gt, f0.env ≠ g.env := by
      intro g hgm he
      have hops := h.ops
      have hsep := h.shape.sep
      rw [hf0] at hops
      cases hgs : G.gs with
      | nil => rw [hgs] at hg; cases ys <;> cases hg
      | cons g0 gr =>
        rw [hgs] at hops hsep
        have h4 : f0.env = g0.env := hops.1
        have hgr : g ∈ gr := by
          rw [hgs] at hg
          cases ys with
          | nil => simp only [List.nil_append, List.cons.injEq] at hg; rw [hg.2]; exact hgm
          | cons z ys =>
            simp only [List.cons_append, List.cons.injEq] at hg
            rw [hg.2]; exact List.mem_append_right _ (List.mem_cons_of_mem _ hgm)
        have h5 := h.shape.inj g0 (by rw [hgs]; exact List.mem_cons_self ..) g
          (by rw [hgs]; exact List.mem_cons_of_mem _ hgr) (by rw [← h4]; exact he)
        rw [List.pairwise_cons] at hsep
        have := hsep.1 g hgr
        rw [← h5] at this
        have := hdr_ge g0.ruby
        omega
    have fin : ∀ {d1 xs1 f1 ys1 y1}, α1.frames = xs1 ++ f1 :: tl → xs1.length + 1 = d1 → f1.use = f.use →
        G1.gs = ys1 ++ y1 :: gt → ys1.length + 1 = d1 → depth d1 ops = some d' →
    ∃ G' xs' f' ys' y', Inv σ' α2 G' ∧ α2.frames = xs' ++ f' :: tl ∧ xs'.length + 1 = d' ∧ f'.use = f.use ∧
      G'.gs = ys' ++ y' :: gt ∧ ys'.length + 1 = d' ∧ (∃ l, G'.sk = G.sk ++ l) ∧
      ((∀ op' ∈ op :: ops, ∀ k i v, op' ≠ .setDyn k i v) → ∀ g ∈ gt, ∀ E, α.envs[g.env]? = some E →
        α2.envs[g.env]? = some E) := by
      intro d1 xs1 f1 ys1 y1 k1 k2 k3 k4 k5 k6
      obtain ⟨G', xs', f', ys', y', m1, m2, m3, m4, m5, m6, ⟨l', m7⟩, m8⟩ := ih hi h2 k6 k1 k2 k4 k5 hr1
      refine ⟨G', xs', f', ys', y', m1, m2, m3, m4.trans k3, m5, m6, ⟨l ++ l', ?_⟩, ?_⟩
      · rw [m7, hskG, List.append_assoc]
      · intro hno g hgm E hE
        refine m8 (fun op hop => hno op (List.mem_cons_of_mem _ hop)) g hgm E ?_
        refine henv (hno op (List.mem_cons_self ..)) g.env E hE ?_
        intro _ f2 rest2 hf2
        rw [hf0] at hf2
        cases hf2
        exact hnot g hgm
    unfold depth at hd
    cases hkind : op.kind with
    | stay =>
      rw [hkind] at hk hp hd
      dsimp only at hk hp hd
      obtain ⟨f', k1, k2⟩ := hk
      cases xs with
      | nil =>
        simp only [List.nil_append] at hf
        rw [hf0] at hf
        cases hf
        exact fin (xs1 := []) k1 hx k2 (hp.trans hg) hy hd
      | cons x xs =>
        simp only [List.cons_append] at hf
        rw [hf0] at hf
        simp only [List.cons.injEq] at hf
        exact fin (xs1 := f' :: xs) (by rw [k1, hf.2]; rfl) hx rfl (hp.trans hg) hy hd
    | «open» k u =>
      rw [hkind] at hk hp hd
      dsimp only at hk hp hd
      obtain ⟨_, n, k1, k2⟩ := hk
      obtain ⟨z, hz⟩ := hp
      cases xs with
      | nil =>
        simp only [List.nil_append] at hf
        rw [hf0] at hf
        cases hf
        exact fin (xs1 := [n]) (ys1 := z :: ys) k1 (by simp at hx ⊢; omega) rfl (by rw [hz, hg]; rfl)
          (by simp at hy ⊢; omega) hd
      | cons x xs =>
        simp only [List.cons_append] at hf
        rw [hf0] at hf
        simp only [List.cons.injEq] at hf
        exact fin (xs1 := n :: _ :: xs) (ys1 := z :: ys) (by rw [k1, hf.2]; rfl)
          (by simp at hx ⊢; omega) rfl (by rw [hz, hg]; rfl) (by simp at hy ⊢; omega) hd
    | close =>
      rw [hkind] at hk hp hd
      dsimp only at hk hp hd
      obtain ⟨g, rest', k1, k2⟩ := hk
      match d, hd with
      | d0 + 2, hd =>
        dsimp only at hd
        cases ys with
        | nil => simp at hy
        | cons z ys =>
          rw [hg] at hp
          simp only [List.cons_append, List.tail_cons] at hp
          match xs, hx, hf with
          | [x], hx, hf =>
            simp only [List.cons_append, List.nil_append] at hf
            rw [hf0, k1] at hf
            cases hf
            exact fin (xs1 := []) k2 (by simpa using hx) rfl hp (by simpa using hy) hd
          | x :: x2 :: xs, hx, hf =>
            simp only [List.cons_append] at hf
            rw [hf0, k1] at hf
            simp only [List.cons.injEq] at hf
            exact fin (xs1 := _ :: xs) (by rw [k2, hf.2.2]; rfl) (by simpa using hx) rfl hp (by simpa using hy) hd

end Verif.Frame
