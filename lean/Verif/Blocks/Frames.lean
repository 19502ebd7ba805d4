import Verif.Blocks.Lemmas
/-!
# The interpreter with frames does what the specification says
-/
namespace Verif.Blocks
open Verif.Codegen (Id Env World St R S Entry Eff execOp testOp pushE dropE pushB fail truthy Steps Ctx G Node Const CaseMap
  CaseMap2 gen_iseq Loaded Supported Plain eval Bounded CtxOK outcome Ans)
open Verif.ISeq (Byte Out optimize)
open Verif.Methods (Code Tables slots find_related)
open Verif.Unwind (env tag untag through flagged tagS tagR tagO tagC tagE untagR untagC untagC_tagC after Compiles slots_start)
open Verif.Value (Val)

variable {W X : Type} {base : Val → World W X} {P : Program} {M : Image} {err : Errors X} {rb : Bool} {n : Nat} {T : Tables}

/-- The frame where `k` says it is. -/
theorem at_at (f : Frame) (fs : List Frame) (p : Nat) (stack : List Val) (σ : St (Full W)) :
    at_ base f fs (.at p ⟨stack, σ⟩) = .run { f with pc := p, stack := stack } fs (store f.sees σ.locals σ.w.2.1) σ.w.1 := rfl

/-- The caller goes on. -/
theorem at_ok (f : Frame) (fs : List Frame) (E : Env (Full W) X) (keep : Bool) (pc : Nat) (st : List Val) (v : Val) (s : Cells)
    (w : W) (b : Bool) :
    at_ base f fs (after E keep pc st (.ok v, ⟨look f.sees s, (w, (s, b))⟩)) =
      .run { f with pc := pc, stack := if keep then v :: st else st } fs s w := by
  cases keep <;>
  · show Conf.run _ _ (store f.sees (look f.sees s) s) _ = _
    rw [store_look]
    rfl

theorem frames (hM : Built rb T P M) : ∀ (d : Nat) (f : Frame) (fs : List Frame)
    (k : ISeq.Conf (S (Full W)) (R (Full W) X)) (r : R (Full W) X),
    Steps (env (world base P err rb n d fs.length f.self f.sees f.given) T f.ex f.self) f.code k (.done r) → flagR r = true →
    Desc f.sees → (∀ i ∈ f.sees, i < fs.length + 1) → f.given.Ok fs.length →
    Runs base T M err (at_ base f fs k) (at_ base f fs (.done r)) := by
  intro d
  induction d using Nat.strong_induction_on with
  | _ d ihd =>
  intro f fs k r hst hr hd hlt hg
  rw [world_eq] at hst
  induction hst using Relation.ReflTransGen.head_induction_on with
  | refl => exact .refl _
  | head h1 h2 ih =>
    rename_i k0 k1
    obtain ⟨p, ⟨stack, σ⟩, ev, rfl, hs⟩ := h1
    have hk1 : flagC k1 = true := sticky h2 hr
    refine Runs.trans ?_ ih
    obtain ⟨l, w, s, b⟩ := σ
    generalize hL : layer base P err rb n (inner base P err rb n d) fs.length f.self f.sees f.given = L at hs
    have hv : L = via (base f.self) L.send L.sendB L.yield_ := by rw [← hL]; rfl
    have hone : ∀ k', step base T M err (.run { f with pc := p, stack := stack } fs (store f.sees l s) w) = some k' →
        Runs base T M err k' (at_ base f fs k1) → Runs base T M err (at_ base f fs (.at p ⟨stack, ⟨l, w, s, b⟩⟩)) (at_ base f fs k1) :=
      fun k' h h' => .step h h'
    -- an instruction that makes no frame
    have hplain : (ISeq.step (Codegen.machine (env L T f.ex f.self)) f.code p ⟨stack, ⟨l, w, s, b⟩⟩).map (·.2) =
          (ISeq.step (Codegen.machine (env (base f.self) T f.ex f.self)) f.code p ⟨stack, ⟨l, w⟩⟩).map
            (fun r => tagC (s, b) r.2) →
        plain base T { f with pc := p, stack := stack } fs (store f.sees l s) w = some (at_ base f fs k1) := by
      intro h
      rw [hs] at h
      obtain ⟨r', h3, h4⟩ := Option.map_eq_some_iff.1 h.symm
      dsimp only at h4
      rw [plain]
      dsimp only
      rw [look_store hd]
      refine Option.map_eq_some_iff.2 ⟨r', h3, ?_⟩
      rw [← h4, at_tagC, ← within_store hd l s]
      rcases r'.2 with ⟨p', s'⟩ | q <;> rfl
    -- a frame that is called
    have hcall : ∀ (fc : Frame) (f' : Frame) (d' : Nat) (st : List Val) (pc : Nat) (keep : Bool) (vs : List Val)
        (a : Eff (Full W) X Val) (res : Codegen.Res X) (σ' : St (Full W)) (x : Ctx),
        d' < d → f' = { f with pc := pc, stack := st } → fc.pc = 0 → fc.stack = [] → fc.keep = keep →
        Desc fc.sees → (∀ i ∈ fc.sees, i < fs.length + 2) → fc.given.Ok (fs.length + 1) →
        Steps (env (world base P err rb n d' (fs.length + 1) fc.self fc.sees fc.given) T fc.ex fc.self) fc.code
          (.at 0 ⟨[], enter f.sees fc.sees vs ⟨l, w, s, b⟩⟩) (.done (outcome x res σ')) →
        k1 = after (env L T f.ex f.self) keep pc st a → fc.sees.headD 0 = fs.length + 1 →
        (∃ v, a = (.ok v, resume f.sees fc.sees ⟨l, w, s, b⟩ σ') ∧ outcome x res σ' = .ret v σ') ∨
          (∃ e, a = (.error e, resume f.sees fc.sees ⟨l, w, s, b⟩ σ') ∧ outcome x res σ' = .err e σ') →
        Runs base T M err (.run fc (f' :: fs) (fresh (fs.length + 1) vs (store f.sees l s)) w) (at_ base f fs k1) := by
      intro fc f' d' st pc keep vs a res σ' x hd' hf' hpc hstk hkp hdc hltc hgc hS hk hhd ha
      have hσ' : σ'.w.2.2 = true := by
        rcases ha with ⟨v, rfl, -⟩ | ⟨e, rfl, -⟩ <;>
        · rw [hk, hv, (after_aux _ _ _ _).1] at hk1
          simp only [resume, Bool.and_eq_true] at hk1
          exact hk1.2
      have hrun := ihd d' hd' fc (f' :: fs) _ _ hS
        (by rcases ha with ⟨v, -, ho⟩ | ⟨e, -, ho⟩ <;> rw [ho] <;> exact hσ') hdc hltc hgc
      rw [at_at] at hrun
      dsimp only [enter] at hrun
      rw [store_look, hhd] at hrun
      have hfc : { fc with pc := 0, stack := [] } = fc := by
        obtain ⟨_, _, _, _, _, _, _, _, _⟩ := fc
        dsimp only at hpc hstk
        rw [hpc, hstk]
      rw [hfc] at hrun
      refine hrun.trans (.of_eq ?_)
      rcases ha with ⟨v, rfl, ho⟩ | ⟨e, rfl, ho⟩
      · rw [ho, hk]
        dsimp only [resume]
        rw [at_ok]
        show leave base fc.keep (.ret v (untag σ')) (f' :: fs) _ = _
        rw [hkp, hf']
        rfl
      · rw [ho, hk, hv]
        show unwind base e σ'.locals (f' :: fs) (store fc.sees σ'.locals σ'.w.2.1) σ'.w.1 = _
        exact unwind_fail e _ f f' fs pc _ _ _ keep st st hf'
    rcases hc : calling f.code p stack with _ | ⟨keep, bn, m, o, vs, st⟩
    · rcases hy : yielding f.code p stack with _ | ⟨vs, st⟩
      · refine hone _ ?_ (.refl _)
        rw [step]
        dsimp only
        rw [hc]
        dsimp only
        rw [hy]
        refine hplain ?_
        have := plain_tag (K := base f.self) (send := L.send) (sendB := L.sendB) (yld := L.yield_) (T := T)
          (ex := f.ex) (me := f.self) (s := ⟨stack, ⟨l, w⟩⟩) hc hy (s, b)
        rw [← hv] at this
        exact this
      · -- `yield`
        have h3 : k1 = after (env L T f.ex f.self) true (p + 5) st (L.yield_ vs ⟨l, w, s, b⟩) := by
          have := yielding_some hy (env L T f.ex f.self) ⟨l, w, s, b⟩
          rw [hs] at this
          exact Option.some.inj this
        have hyl : L.yield_ vs ⟨l, w, s, b⟩ = (layer base P err rb n (inner base P err rb n d) fs.length f.self f.sees
          f.given).yield_ vs ⟨l, w, s, b⟩ := by rw [hL]
        have hstep : ∀ gv, f.given = gv → ∀ k', (match (generalizing := false) gv with
            | .none => some (unwind base err.noBlock (look f.sees (store f.sees l s)) ({ f with pc := p + 5, stack := stack } :: fs)
                (store f.sees l s) w)
            | .block b me sees up =>
              match M.blocks.find? (·.id = b) with
              | none => some (.done .stuck)
              | some c =>
                some (.run ⟨c.code, c.ex, me, 0, [], true, (fs.length + 1) :: sees, up, false⟩
                  ({ f with pc := p + 5, stack := st } :: fs)
                  (push (fs.length + 1) c.lvars (prepare (base f.self) c.req vs ⟨look f.sees (store f.sees l s), w⟩) (store f.sees l s)) w))
              = some k' →
            step base T M err (.run { f with pc := p, stack := stack } fs (store f.sees l s) w) = some k' := by
          intro gv hgv k' h
          subst hgv
          rw [step]
          dsimp only
          rw [hc]
          dsimp only
          rw [hy]
          exact h
        rw [hv] at h3
        rw [h3, (after_aux _ _ _ _).1] at hk1
        rw [← hv] at h3
        simp only [layer] at hyl
        rcases hgv : f.given with _ | ⟨bn, me', sees, up⟩
        · have hstep := hstep _ hgv
          rw [hgv] at hyl
          dsimp only at hyl hstep
          refine hone _ (hstep _ rfl) (.of_eq ?_)
          rw [h3, hyl, look_store hd, hv,
            unwind_fail (send := L.send) (sendB := L.sendB) (yld := L.yield_) (T := T) err.noBlock l f _ fs (p + 5) (store f.sees l s) w b
              true st stack rfl, look_store hd]
          simp only [at_, (after_aux _ _ _ _).2]
          rw [within_store hd]
          congr 1
          unfold after
          simp only [if_true, pushE]
          unfold fail
          dsimp only [env]
          cases f.ex.find? (·.include (p + 5)) <;> rfl
        · have hstep := hstep _ hgv
          rw [hgv] at hyl hg
          dsimp only at hyl hstep
          rcases find_block hM bn with ⟨g1, g2⟩ | ⟨bl, c, g1, g2, gb, hB⟩
          · rw [g1] at hyl
            rw [hyl] at hk1
            cases hk1
          · rw [g1] at hyl
            rw [g2] at hstep
            dsimp only at hyl hstep
            refine hone _ (hstep _ rfl) ?_
            rw [push_fresh, prepare_args, look_store hd, hB.params]
            unfold runBlock at hyl
            rcases d with _ | d
            · simp only [inner] at hyl
              rw [hyl] at hk1
              cases hk1
            · simp only [inner] at hyl
              obtain ⟨hg1, hg2, hg3⟩ := hg
              have hdc : Desc ((fs.length + 1) :: sees) :=
                ⟨by simp, List.pairwise_cons.2 ⟨fun i hi => by have := hg2 i hi; omega, hg1.2⟩⟩
              have hltc : ∀ i ∈ (fs.length + 1) :: sees, i < fs.length + 2 := by
                intro i hi
                rcases List.mem_cons.1 hi with rfl | hi
                · omega
                · have := hg2 i hi; omega
              have hkind : bl.ctx.kind = some .block := hB.block
              rw [hyl] at h3 hk1
              have key : ∀ res σ', eval (world base P err rb n d (fs.length + 1) me' ((fs.length + 1) :: sees) up) me' rb bl.ctx n
                  bl.body true (enter f.sees ((fs.length + 1) :: sees) (blockArgs (base f.self) bl.params vs ⟨l, w⟩) ⟨l, w, s, b⟩) =
                    some (res, σ') → _ :=
                fun res σ' he => hcall ⟨c.code, c.ex, me', 0, [], true, (fs.length + 1) :: sees, up, false⟩ _ d st (p + 5) true
                  (blockArgs (base f.self) bl.params vs ⟨l, w⟩) _ res σ' bl.ctx (by omega) rfl rfl rfl rfl hdc hltc (hg3.mono (by omega))
                  (hB.steps hM.room _ me' he) h3 rfl
              unfold backB at h3 hk1 key
              split at hk1
              · rename_i v σ' he
                exact key _ _ he (.inl ⟨v, by simp only [untag] at he ⊢; rw [he], rfl⟩)
              · rename_i v σ' he
                exact key _ _ he (.inl ⟨v, by simp only [untag] at he ⊢; rw [he], rfl⟩)
              · rename_i e σ' he
                exact key _ _ he (.inr ⟨e, by simp only [untag] at he ⊢; rw [he], rfl⟩)
              · cases hk1
    · -- a call
      have h3 : k1 = after (env L T f.ex f.self) keep (p + 15) st (L.call bn m o vs ⟨l, w, s, b⟩) := by
        have := calling_some hc (env L T f.ex f.self) ⟨l, w, s, b⟩
        rw [hs] at this
        exact Option.some.inj this
      rcases find_method hM m with ⟨g1, g2⟩ | ⟨fn, c, g1, g2, gm, hB⟩
      · refine hone _ ?_ (.refl _)
        rw [step]
        dsimp only
        rw [hc]
        dsimp only
        rw [g2]
        refine hplain ?_
        have := calling_other (K := base f.self) (send := L.send) (sendB := L.sendB) (yld := L.yield_) (T := T)
          (ex := f.ex) (me := f.self) (s := ⟨stack, ⟨l, w⟩⟩) hc (s, b) (by rw [← hv, ← hL]; exact call_none g1)
        rw [← hv] at this
        exact this
      · have hstep : ∀ k', (if vs.length ≠ c.arity then
              some (unwind base err.wrong (look f.sees (store f.sees l s)) ({ f with pc := p + 15, stack := stack } :: fs)
                (store f.sees l s) w)
            else some (.run ⟨c.code, c.ex, o, 0, [], keep, [fs.length + 1], give bn f.self f.sees f.given, true⟩
              ({ f with pc := p + 15, stack := st } :: fs) (push (fs.length + 1) c.lvars vs (store f.sees l s)) w)) = some k' →
            step base T M err (.run { f with pc := p, stack := stack } fs (store f.sees l s) w) = some k' := by
          intro k' h
          rw [step]
          dsimp only
          rw [hc]
          dsimp only
          rw [g2]
          exact h
        have hcl : L.call bn m o vs ⟨l, w, s, b⟩ = callMethod err rb n (inner base P err rb n d) fs.length f.sees
          (give bn f.self f.sees f.given) fn o vs ⟨l, w, s, b⟩ := by rw [← hL]; exact call_some g1
        rw [hv] at h3
        rw [h3, (after_aux _ _ _ _).1, ← hv] at hk1
        rw [← hv] at h3
        unfold callMethod at hcl
        rcases d with _ | d
        · simp only [inner] at hcl
          rw [hcl] at hk1
          cases hk1
        · simp only [inner] at hcl
          by_cases hlen : vs.length ≠ fn.arity
          · rw [if_pos hlen] at hcl
            refine hone _ (hstep _ (if_pos (by rw [hB.arity]; exact hlen))) (.of_eq ?_)
            rw [h3, hcl, look_store hd, hv,
              unwind_fail (send := L.send) (sendB := L.sendB) (yld := L.yield_) (T := T) err.wrong l f _ fs (p + 15) (store f.sees l s) w b
                keep st stack rfl, look_store hd]
            simp only [at_, (after_aux _ _ _ _).2]
            rw [within_store hd]
            congr 1
            unfold after
            simp only [pushE, dropE, ite_self]
            unfold fail
            dsimp only [env]
            cases f.ex.find? (·.include (p + 15)) <;> rfl
          · rw [if_neg hlen] at hcl
            refine hone _ (hstep _ (if_neg (by rw [hB.arity]; exact hlen))) ?_
            rw [push_fresh]
            have hkind : fn.ctx.kind ≠ some .block := by rw [hB.method]; simp
            have hgo : (give bn f.self f.sees f.given).Ok (fs.length + 1) := by
              unfold give
              split
              · trivial
              · exact ⟨hd, hlt, hg.mono (by omega)⟩
            rw [hcl] at h3 hk1
            have key : ∀ res σ', eval (world base P err rb n d (fs.length + 1) o [fs.length + 1] (give bn f.self f.sees f.given)) o rb
                fn.ctx n fn.body true (enter f.sees [fs.length + 1] vs ⟨l, w, s, b⟩) = some (res, σ') → _ :=
              fun res σ' he => hcall ⟨c.code, c.ex, o, 0, [], keep, [fs.length + 1], give bn f.self f.sees f.given, true⟩ _ d st (p + 15)
                keep vs _ res σ' fn.ctx (by omega) rfl rfl rfl rfl ⟨by simp, by simp⟩ (by simp) hgo (hB.steps hM.room _ o he) h3 rfl
            unfold back at h3 hk1 key
            split at hk1
            · rename_i v σ' he
              exact key _ _ he (.inl ⟨v, by rw [he], rfl⟩)
            · rename_i v cr σ' he
              exact key _ _ he (.inl ⟨v, by rw [he], by rw [outcome, if_neg hkind]⟩)
            · rename_i e σ' he
              exact key _ _ he (.inr ⟨e, by rw [he], rfl⟩)
            · cases hk1

end Verif.Blocks
