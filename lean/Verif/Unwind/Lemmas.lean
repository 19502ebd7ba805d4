import Verif.Unwind.Steps
import Verif.Methods.Lemmas
/-!
# From one frame to several
-/
namespace Verif.Unwind
open Verif.Codegen (Id Env World St R S Entry Eff execOp testOp pushE dropE pushB fail truthy Steps Ctx G Node Const CaseMap
  CaseMap2 gen_iseq Loaded Supported Plain eval Bounded CtxOK outcome)
open Verif.ISeq (Byte Out optimize)
open Verif.Methods (Code Tables slots find_related)
open Verif.Value (Val)

variable {W X F : Type}

/-! ## Compiled methods -/

/-- `c` is what the compiler makes of the method `f`, with the tables `T`. -/
structure Built (rb : Bool) (T : Tables) (f : Method) (c : Code) (g : G) : Prop where
  id : c.id = f.id
  arity : c.arity = f.arity
  ctx : CtxOK f.ctx
  method : f.ctx.kind = some .method
  compiled : ∃ consts case1 case2 caches, gen_iseq f.ctx f.body (.start consts case1 case2 caches) = .ok ((), g)
  optimized : ∃ fuel, optimize fuel g.code = some c.code
  ex : c.ex = g.ex
  consts : g.consts <+: T.consts
  case1 : ∀ (i : Nat) m, g.case1[i]? = some (some m) → T.case1[i]? = some (some m)
  case2 : ∀ (i : Nat) m, g.case2[i]? = some (some m) → T.case2[i]? = some (some m)
  small : Bounded g
  supported : Supported false f.body true true true
  plain : rb = true → Plain f.ctx f.body true

/-- The method and its code. -/
def Compiles (rb : Bool) (T : Tables) (f : Method) (c : Code) : Prop := ∃ g, Built rb T f c g

theorem Built.steps {rb : Bool} {T : Tables} {f : Method} {c : Code} {g : G} (hB : Built rb T f c g) (hT : T.Room)
    (K : World W X) (me : Val) {n : Nat} {σ σ' : St W} {r : Codegen.Res X}
    (h : eval K me rb f.ctx n f.body true σ = some (r, σ')) :
    Steps (env K T c.ex me) c.code (.at 0 ⟨[], σ⟩) (.done (outcome f.ctx r σ')) := by
  obtain ⟨consts, case1, case2, caches, hg⟩ := hB.compiled
  obtain ⟨fuel, ho⟩ := hB.optimized
  have hl : Loaded g (env K T c.ex me) := ⟨hB.ex, hB.consts, hB.case1, hB.case2⟩
  have hC : Codegen.Compiled f.ctx f.body g (env K T c.ex me) :=
    ⟨hB.ctx, ⟨_, _, _, _, hg⟩, hl, ⟨hB.small.code, hT.consts, hT.case1, hT.case2⟩⟩
  refine (Codegen.C78_optimized_code_ends_alike hg hB.small hl ho _ _).2 ?_
  cases rb with
  | true => exact Codegen.C31_compiled_code_does_what_ruby_does_partial hC hB.supported (hB.plain rfl) h
  | false => exact Codegen.C31_compiled_code_agrees_partial hC hB.supported h

theorem slots_start (k : Nat) (vs : List Val) : slots k vs = start vs := by
  funext i j
  cases i with
  | zero =>
    rw [slots, start, List.getElem?_append]
    split
    · rfl
    · rename_i h
      rw [List.getElem?_replicate, List.getElem?_eq_none (by omega)]
      split <;> rfl
  | succ i => rfl

/-! ## Flags -/

def flagR : R (W × Bool) X → Bool
  | .ret _ σ => σ.w.2
  | .mret _ σ => σ.w.2
  | .brk _ σ => σ.w.2
  | .err _ σ => σ.w.2
  | .stuck => false

def flagC : ISeq.Conf (S (W × Bool)) (R (W × Bool) X) → Bool
  | .at _ s => s.st.w.2
  | .done r => flagR r

def untagR : R (W × F) X → R W X
  | .ret v σ => .ret v (untag σ)
  | .mret v σ => .mret v (untag σ)
  | .brk v σ => .brk v (untag σ)
  | .err x σ => .err x (untag σ)
  | .stuck => .stuck

def untagC : ISeq.Conf (S (W × F)) (R (W × F) X) → ISeq.Conf (S W) (R W X)
  | .at p s => .at p ⟨s.stack, untag s.st⟩
  | .done r => .done (untagR r)

theorem untagC_tagC (b : F) (k : ISeq.Conf (S W) (R W X)) : untagC (tagC b k) = k := by
  rcases k with ⟨p, s⟩ | r
  · rfl
  · cases r <;> rfl

theorem flagC_tagC (k : ISeq.Conf (S W) (R W X)) : flagC (tagC false k) = false := by
  rcases k with ⟨p, s⟩ | r
  · rfl
  · cases r <;> rfl

theorem fail_flag {K : World W X} {send : Id → Val → List Val → St (W × Bool) → Eff (W × Bool) X Val} {T : Tables}
    {ex : List Entry} {me : Val} (pc n : Nat) (x : X) (σ : St (W × Bool)) :
    flagC ((fail (env (via K send) T ex me) pc x σ).conf n) = σ.w.2 := by
  unfold fail
  dsimp only [env]
  split <;> rfl

theorem after_flag {K : World W X} {send : Id → Val → List Val → St (W × Bool) → Eff (W × Bool) X Val} {T : Tables}
    {ex : List Entry} {me : Val} (keep : Bool) (pc : Nat) (st : List Val) (e : Eff (W × Bool) X Val) :
    flagC (after (env (via K send) T ex me) keep pc st e) = e.2.w.2 := by
  rcases e with ⟨_ | v, σ⟩ <;> cases keep
  · exact fail_flag _ _ _ _
  · exact fail_flag _ _ _ _
  · rfl
  · rfl

section
variable {base : Val → World W X} {P : List Method} {wrong : X} {rb : Bool} {n d : Nat} {me o : Val} {m : Id} {vs : List Val}
  {σ : St (W × Bool)}

theorem call_none (h : P.find? (·.id = m) = none) :
    call base P wrong rb n d me m o vs σ = through ((base me).send m o vs) σ := by
  rw [call.eq_def]
  dsimp only
  rw [h]
  rfl

theorem call_zero {f : Method} (h : P.find? (·.id = m) = some f) : call base P wrong rb n 0 me m o vs σ = cut σ := by
  rw [call.eq_def]
  dsimp only
  rw [h]

theorem call_succ {f : Method} (h : P.find? (·.id = m) = some f) :
    call base P wrong rb n (d + 1) me m o vs σ =
      if vs.length ≠ f.arity then (.error wrong, σ)
      else back σ (eval (world base P wrong rb n d o) o rb f.ctx n f.body true ⟨start vs, σ.w⟩) := by
  rw [call.eq_def]
  dsimp only
  rw [h]
  rfl

theorem back_flag (a : Codegen.Ans (W × Bool) X) (h : (back σ a).2.w.2 = true) : σ.w.2 = true := by
  unfold back at h
  split at h
  all_goals
    simp only [resume, cut, Bool.and_eq_true] at h
    try exact h.1
  cases h

theorem call_flag (h : (call base P wrong rb n d me m o vs σ).2.w.2 = true) : σ.w.2 = true := by
  rcases hf : P.find? (·.id = m) with _ | f
  · rw [call_none hf] at h
    exact h
  · cases d with
    | zero =>
      rw [call_zero hf] at h
      cases h
    | succ d =>
      rw [call_succ hf] at h
      split at h
      · exact h
      · exact back_flag _ h
end

/-- A flag that is down stays down. -/
theorem sticky {base : Val → World W X} {P : List Method} {wrong : X} {rb : Bool} {n d : Nat} {me : Val} {T : Tables}
    {ex : List Entry} {c : ISeq.Code} {k : ISeq.Conf (S (W × Bool)) (R (W × Bool) X)} {r : R (W × Bool) X}
    (h : Steps (env (world base P wrong rb n d me) T ex me) c k (.done r)) : flagR r = true → flagC k = true := by
  induction h using Relation.ReflTransGen.head_induction_on with
  | refl => exact id
  | head h1 _ ih =>
    intro hr
    have hk := ih hr
    obtain ⟨p, ⟨stack, σ⟩, ev, rfl, hs⟩ := h1
    by_contra hσ
    have hb : σ.w.2 = false := by simpa [flagC] using hσ
    have hσ' : σ = tag false (untag σ) := by rw [← hb]; rfl
    rcases hc : calling c p stack with _ | ⟨keep, m, o, vs, st⟩
    · have := calling_none (K := base me) (send := call base P wrong rb n d me) (T := T) (ex := ex) (me := me)
        (s := ⟨stack, untag σ⟩) hc false
      rw [tagS, ← hσ', show env (via (base me) (call base P wrong rb n d me)) T ex me = env (world base P wrong rb n d me) T ex me
        from rfl, hs] at this
      obtain ⟨r', -, h2⟩ := Option.map_eq_some_iff.1 this.symm
      dsimp only at h2
      rw [← h2, flagC_tagC] at hk
      cases hk
    · have := calling_some hc (env (world base P wrong rb n d me) T ex me) σ
      rw [hs] at this
      have h3 := Option.some.inj this
      dsimp only at h3
      rw [h3, show env (world base P wrong rb n d me) T ex me = env (via (base me) (call base P wrong rb n d me)) T ex me from rfl,
        after_flag] at hk
      rw [call_flag hk] at hb
      cases hb

/-! ## Frames -/

theorem Runs.trans {base : Val → World W X} {T : Tables} {M : List Code} {wrong : X} {k1 k2 k3 : Conf W X}
    (h : Runs base T M wrong k1 k2) (h' : Runs base T M wrong k2 k3) : Runs base T M wrong k1 k3 := by
  induction h with
  | refl => exact h'
  | step h1 _ ih => exact .step h1 (ih h')

theorem unwind_fail {base : Val → World W X} {send : Id → Val → List Val → St (W × Bool) → Eff (W × Bool) X Val} {T : Tables}
    (x : X) (loc : Nat → Nat → Val) (f : Frame) (fs : List Frame) (k : Nat) (w : W) (b : Bool) :
    unwind base x loc (f :: fs) w =
      within base f fs (untagC ((fail (env (via (base f.self) send) T f.ex f.self) f.pc x ⟨f.locals, (w, b)⟩).conf k)) := by
  rw [unwind]
  unfold fail
  dsimp only [env]
  cases f.ex.find? (·.include f.pc) with
  | some en => rfl
  | none =>
    dsimp only [ISeq.Out.conf, untagC, within, untagR]
    cases fs with
    | nil => rfl
    | cons g fs => rfl

theorem Runs.of_eq {base : Val → World W X} {T : Tables} {M : List Code} {wrong : X} {k1 k2 : Conf W X} (h : k1 = k2) :
    Runs base T M wrong k1 k2 := h ▸ .refl _

theorem within_after {base : Val → World W X} {E : Env (W × Bool) X} {f f' : Frame} {fs : List Frame} {keep : Bool}
    {pc : Nat} {st : List Val} {x : X} {σ : St (W × Bool)} (h1 : f'.code = f.code) (h2 : f'.ex = f.ex) (h3 : f'.self = f.self)
    (h4 : f'.keep = f.keep) :
    within base f' fs (untagC ((fail E pc x σ).conf pc)) = within base f fs (untagC (after E keep pc st (.error x, σ))) := by
  have : after E keep pc st (.error x, σ) = (fail E pc x σ).conf pc := by cases keep <;> rfl
  rw [this]
  rcases (fail E pc x σ).conf pc with ⟨p, s⟩ | r
  · obtain ⟨_, _, _, _, _, _, _⟩ := f
    obtain ⟨_, _, _, _, _, _, _⟩ := f'
    dsimp only at h1 h2 h3 h4
    subst h1 h2 h3 h4
    rfl
  · simp only [untagC, within, h4]

/-- What one frame does with calls answered by the specification, the interpreter does with frames. -/
theorem frames {base : Val → World W X} {P : List Method} {M : List Code} {wrong : X} {rb : Bool} {n : Nat} {T : Tables}
    (hT : T.Room) (hM : List.Forall₂ (Compiles rb T) P M) : ∀ (d : Nat) (me : Val) (f : Frame) (fs : List Frame)
    (k : ISeq.Conf (S (W × Bool)) (R (W × Bool) X)) (r : R (W × Bool) X),
    Steps (env (world base P wrong rb n d me) T f.ex me) f.code k (.done r) → flagR r = true → f.self = me →
    Runs base T M wrong (within base f fs (untagC k)) (leave base f.keep (untagR r) fs) := by
  have hp : ∀ m : Id, ∀ f ∈ P, ∀ c, Compiles rb T f c → decide (f.id = m) = decide (c.id = m) := by
    rintro m f - c ⟨_, h⟩
    rw [h.id]
  intro d
  induction d using Nat.strong_induction_on with
  | _ d ihd =>
  intro me f fs k r h hr hme
  induction h using Relation.ReflTransGen.head_induction_on with
  | refl => exact .refl _
  | head h1 h2 ih =>
    rename_i k0 k1
    obtain ⟨p, ⟨stack, σ⟩, ev, rfl, hs⟩ := h1
    have hk1 : flagC k1 = true := sticky h2 hr
    refine Runs.trans ?_ ih
    subst hme
    obtain ⟨b, hb⟩ : ∃ b, σ.w.2 = b := ⟨_, rfl⟩
    have hσ : σ = tag b (untag σ) := by rw [← hb]; rfl
    -- an instruction that makes no frame
    have hplain : (ISeq.step (Codegen.machine (env (world base P wrong rb n d f.self) T f.ex f.self)) f.code p
          ⟨stack, σ⟩).map (·.2) = (ISeq.step (Codegen.machine (env (base f.self) T f.ex f.self)) f.code p
          ⟨stack, untag σ⟩).map (fun r => tagC b r.2) →
        plain base T { f with pc := p, stack := stack, locals := σ.locals } fs σ.w.1 = some (within base f fs (untagC k1)) := by
      intro h
      rw [hs] at h
      obtain ⟨r', h3, h4⟩ := Option.map_eq_some_iff.1 h.symm
      dsimp only at h4
      rw [plain]
      refine Option.map_eq_some_iff.2 ⟨r', h3, ?_⟩
      rw [← h4, untagC_tagC]
      rcases r'.2 with ⟨p', s'⟩ | q <;> rfl
    have hone : ∀ k', step base T M wrong (.run { f with pc := p, stack := stack, locals := σ.locals } fs σ.w.1) = some k' →
        Runs base T M wrong k' (within base f fs (untagC k1)) →
        Runs base T M wrong (within base f fs (untagC (.at p ⟨stack, σ⟩))) (within base f fs (untagC k1)) :=
      fun k' h h' => .step h h'
    rcases hc : calling f.code p stack with _ | ⟨keep, m, o, vs, st⟩
    · refine hone _ ?_ (.refl _)
      rw [step]
      dsimp only
      rw [hc]
      refine hplain ?_
      have := calling_none (K := base f.self) (send := call base P wrong rb n d f.self) (T := T) (ex := f.ex) (me := f.self)
        (s := ⟨stack, untag σ⟩) hc b
      rw [tagS, ← hσ] at this
      exact this
    · rcases find_related (p := (·.id = m)) (q := (·.id = m)) hM (hp m) with ⟨g1, g2⟩ | ⟨fn, -, c, -, g1, g2, g, hB⟩
      · refine hone _ ?_ (.refl _)
        rw [step]
        dsimp only
        rw [hc]
        dsimp only
        rw [g2]
        refine hplain ?_
        have := calling_other (K := base f.self) (send := call base P wrong rb n d f.self) (T := T) (ex := f.ex) (me := f.self)
          (s := ⟨stack, untag σ⟩) hc b (call_none g1)
        rw [tagS, ← hσ] at this
        exact this
      · have h3 : k1 = after (env (via (base f.self) (call base P wrong rb n d f.self)) T f.ex f.self) keep (p + 15) st
            (call base P wrong rb n d f.self m o vs σ) := by
          have := calling_some hc (env (world base P wrong rb n d f.self) T f.ex f.self) σ
          rw [hs] at this
          exact Option.some.inj this
        rw [h3, after_flag] at hk1
        cases d with
        | zero => rw [call_zero g1] at hk1; cases hk1
        | succ d =>
          rw [call_succ g1] at h3 hk1
          have hstep : ∀ k', (if vs.length ≠ c.arity then
                some (unwind base wrong σ.locals ({ f with pc := p + 15, stack := stack, locals := σ.locals } :: fs) σ.w.1)
              else some (.run ⟨c.code, c.ex, o, 0, [], slots c.lvars vs, keep⟩
                ({ f with pc := p + 15, stack := st, locals := σ.locals } :: fs) σ.w.1)) = some k' →
              step base T M wrong (.run { f with pc := p, stack := stack, locals := σ.locals } fs σ.w.1) = some k' := by
            intro k' h
            rw [step]
            dsimp only
            rw [hc]
            dsimp only
            rw [g2]
            exact h
          by_cases hlen : vs.length ≠ fn.arity
          · refine hone _ (hstep _ (if_pos (by rw [hB.arity]; exact hlen))) ?_
            rw [if_pos hlen] at h3
            rw [h3, unwind_fail (send := call base P wrong rb n (d + 1) f.self) (T := T) wrong _ _ _ (p + 15) _ b]
            refine Runs.of_eq ?_
            dsimp only
            rw [show (⟨σ.locals, (σ.w.1, b)⟩ : St (W × Bool)) = σ from hσ.symm]
            exact within_after (keep := keep) rfl rfl rfl rfl
          · refine hone _ (hstep _ (if_neg (by rw [hB.arity]; exact hlen))) ?_
            rw [if_neg hlen] at h3 hk1
            have hcal : ∀ res σ', eval (world base P wrong rb n d o) o rb fn.ctx n fn.body true ⟨start vs, σ.w⟩ = some (res, σ') →
                flagR (outcome fn.ctx res σ') = true →
                Runs base T M wrong (.run ⟨c.code, c.ex, o, 0, [], slots c.lvars vs, keep⟩
                  ({ f with pc := p + 15, stack := st, locals := σ.locals } :: fs) σ.w.1)
                  (leave base keep (untagR (outcome fn.ctx res σ')) ({ f with pc := p + 15, stack := st, locals := σ.locals } :: fs)) := by
              intro res σ' he hfl
              have := ihd d (Nat.lt_succ_self d) o ⟨c.code, c.ex, o, 0, [], slots c.lvars vs, keep⟩
                ({ f with pc := p + 15, stack := st, locals := σ.locals } :: fs) _ _ (hB.steps hT _ o he) hfl rfl
              rw [slots_start]
              rw [slots_start] at this
              exact this
            have hkind : fn.ctx.kind ≠ some .block := by rw [hB.method]; simp
            unfold back at h3 hk1
            split at hk1
            · rename_i v σ' he
              rw [he] at h3
              simp only [resume, Bool.and_eq_true] at hk1
              refine (hcal _ _ he hk1.2).trans (.of_eq ?_)
              rw [h3]
              cases keep <;> rfl
            · rename_i v cr σ' he
              rw [he] at h3
              simp only [resume, Bool.and_eq_true] at hk1
              refine (hcal _ _ he (by rw [outcome, if_neg hkind]; exact hk1.2)).trans (.of_eq ?_)
              rw [h3, outcome, if_neg hkind]
              cases keep <;> rfl
            · rename_i x σ' he
              rw [he] at h3
              simp only [resume, Bool.and_eq_true] at hk1
              refine (hcal _ _ he hk1.2).trans (.of_eq ?_)
              rw [h3]
              show unwind base x σ'.locals _ σ'.w.1 = _
              rw [unwind_fail (send := call base P wrong rb n (d + 1) f.self) (T := T) x _ _ _ (p + 15) _ (σ.w.2 && σ'.w.2)]
              exact within_after (keep := keep) rfl rfl rfl rfl
            · cases hk1

end Verif.Unwind
