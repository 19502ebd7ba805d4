import Verif.Blocks.Frames
import Verif.Unwind.Props
/-!
# C83: methods with blocks

The specification evaluates source trees with blocks (`Spec`); the model is the interpreter with a frame for each call and each
run of a block (`Model`).
-/
namespace Verif.Blocks
open Verif.Codegen (Id Env World St R S Entry Eff Steps Ctx G Node Nodes Const CaseMap CaseMap2 gen_iseq Supported Plain Tame eval
  Bounded CtxOK outcome LegalBody Res)
open Verif.ISeq (optimize)
open Verif.Methods (Code Tables slots)
open Verif.Unwind (env tag untag through Compiles tagC after)
open Verif.Value (Val)

variable {W X : Type}

/-! ## Programs -/

/-- The frame of the program. -/
def mainFrame (c : Code) (self : Val) : Frame := ⟨c.code, c.ex, self, 0, [], true, [0], .none, true⟩

/-- **C83** (programs; part: the supported syntax of C31; required parameters only; no block ends with `break` or `return`).

Compile and optimize the methods and blocks of `P` and the program `main`.  If the evaluation of the source ends with `r`, with
nothing cut off, then the interpreter, starting with the frame of the program, ends in the same way: same value or exception,
same variables and objects. -/
theorem C83_blocks_do_what_the_source_says_partial {base : Val → World W X} {P : Program} {M : Image} {main : Unwind.Method}
    {c : Code} {err : Errors X} {rb : Bool} {T : Tables} (hM : Built rb T P M) (hc : Compiles rb T main c) (n d : Nat)
    (self : Val) (σ : St W) (r : Res X) (σ' : St (Full W))
    (hr : run base P err rb n d self main.ctx main.body σ = some (r, σ')) (hf : σ'.w.2.2 = true) :
    Runs base T M err (.run (mainFrame c self) [] (fun _ => σ.locals) σ.w) (.done (outcome main.ctx r (untag σ'))) := by
  obtain ⟨g, hB⟩ := hc
  have h1 := hB.steps hM.room (world base P err rb n d 0 self [0] .none) self hr
  have h2 := frames (base := base) (err := err) (n := n) hM d (mainFrame c self) [] _ _ h1
    (by cases r <;> first | exact hf | (rw [outcome]; split <;> exact hf)) ⟨by simp [mainFrame], by simp [mainFrame]⟩
    (by simp [mainFrame]) trivial
  have h3 : at_ base (mainFrame c self) [] (.at 0 ⟨[], ⟨σ.locals, (σ.w, (fun _ => σ.locals, true))⟩⟩) =
      .run (mainFrame c self) [] (fun _ => σ.locals) σ.w := by
    rw [at_at]
    have : store (mainFrame c self).sees σ.locals (fun _ => σ.locals) = fun _ => σ.locals := by
      funext i
      simp only [mainFrame, store, ite_self]
    rw [this]
    rfl
  have h4 : at_ base (mainFrame c self) [] (.done (outcome main.ctx r σ')) = .done (outcome main.ctx r (untag σ')) := by
    cases r <;> first | rfl | (rw [outcome, outcome]; split <;> rfl)
  rw [h3, h4] at h2
  exact h2

/-! ## Variables of other calls -/

/-- The calls whose variables the block of a method sees, and the blocks further out. -/
def Given.reach : Given → List Nat
  | .none => []
  | .block _ _ c up => c ++ up.reach

/-- Variables that are not in sight stay as they are. -/
theorem store_outside : ∀ {c : List Nat} {l : Nat → Nat → Val} {s : Cells} {i : Nat}, i ∉ c → store c l s i = s i
  | [], _, _, _, _ => rfl
  | [h], l, s, i, hi => if_neg (by simpa using hi)
  | h :: h' :: c, l, s, i, hi => by
    rw [store_other (by rintro rfl; simp at hi)]
    exact store_outside fun hc => hi (List.mem_cons_of_mem _ hc)

section
variable {base : Val → World W X} {P : Program} {M : Image} {err : Errors X} {rb : Bool} {n : Nat} {T : Tables}

theorem outcome_aux (x : Ctx) (r : Res X) (σ : St (Full W)) : flagR (outcome x r σ) = σ.w.2.2 ∧ cellsR (outcome x r σ) = σ.w.2.1 := by
  cases r <;> first | exact ⟨rfl, rfl⟩ | (rw [outcome]; split <;> exact ⟨rfl, rfl⟩)

/-- Code changes variables in its own sight, of the block of its method, and of calls that it makes. -/
theorem untouched (hM : Built rb T P M) : ∀ (d h : Nat) (me : Val) (c : List Nat) (g : Given) (ex : List Entry) (code : ISeq.Code)
    (k : ISeq.Conf (S (Full W)) (R (Full W) X)) (r : R (Full W) X),
    Steps (env (world base P err rb n d h me c g) T ex me) code k (.done r) → flagR r = true →
    ∀ i, i ≤ h → i ∉ c → i ∉ g.reach → cellsR r i = cellsC k i := by
  intro d
  induction d using Nat.strong_induction_on with
  | _ d ihd =>
  intro h me c g ex code k r hst hr i hi hic hig
  rw [world_eq] at hst
  induction hst using Relation.ReflTransGen.head_induction_on with
  | refl => rfl
  | head h1 h2 ih =>
    rename_i k0 k1
    rw [ih]
    obtain ⟨p, ⟨stack, l, w, s, b⟩, ev, rfl, hs⟩ := h1
    have hk1 : flagC k1 = true := sticky h2 hr
    generalize hL : layer base P err rb n (inner base P err rb n d) h me c g = L at hs
    have hv : L = via (base me) L.send L.sendB L.yield_ := by rw [← hL]; rfl
    have htag : ∀ k : ISeq.Conf (S W) (R W X), flagC (tagC (s, b) k) = true → cellsC (tagC (s, b) k) = s := by
      rintro (⟨p, s⟩ | r) h
      · rfl
      · cases r <;> first | rfl | cases h
    have hplain : (ISeq.step (Codegen.machine (env L T ex me)) code p ⟨stack, ⟨l, w, s, b⟩⟩).map (·.2) =
          (ISeq.step (Codegen.machine (env (base me) T ex me)) code p ⟨stack, ⟨l, w⟩⟩).map
            (fun r => tagC (s, b) r.2) → cellsC k1 i = s i := by
      intro h
      rw [hs] at h
      obtain ⟨r', h3, h4⟩ := Option.map_eq_some_iff.1 h.symm
      dsimp only at h4
      rw [← h4] at hk1 ⊢
      rw [htag _ hk1]
    -- a call
    have hcall : ∀ (c' : List Nat) (vs : List Val) (a : Eff (Full W) X Val) (σ' : St (Full W)) (keep : Bool) (pc : Nat)
        (st : List Val), k1 = after (env L T ex me) keep pc st a → a.2 = resume c c' ⟨l, w, s, b⟩ σ' → i ∉ c' →
        σ'.w.2.1 i = (enter c c' vs ⟨l, w, s, b⟩).w.2.1 i → c'.headD 0 = h + 1 → cellsC k1 i = s i := by
      intro c' vs a σ' keep pc st h3 ha hc' hsame hh
      rw [h3, hv, (after_aux _ _ _ _).2, ha]
      dsimp only [resume]
      rw [store_outside hc', hsame]
      dsimp only [enter]
      rw [hh, fresh, if_neg (by omega), store_outside hic]
    have hresume : ∀ (c' : List Nat) (σ' : St (Full W)) (keep : Bool) (pc : Nat) (st : List Val) (a : Eff (Full W) X Val),
        k1 = after (env L T ex me) keep pc st a → a.2 = resume c c' ⟨l, w, s, b⟩ σ' → σ'.w.2.2 = true := by
      intro c' σ' keep pc st a h3 ha
      rw [h3, hv, (after_aux _ _ _ _).1, ha] at hk1
      simp only [resume, Bool.and_eq_true] at hk1
      exact hk1.2
    show cellsC k1 i = s i
    rcases hc : calling code p stack with _ | ⟨keep, bn, m, o, vs, st⟩
    · rcases hy : yielding code p stack with _ | ⟨vs, st⟩
      · refine hplain ?_
        have := plain_tag (K := base me) (send := L.send) (sendB := L.sendB) (yld := L.yield_) (T := T)
          (ex := ex) (me := me) (s := ⟨stack, ⟨l, w⟩⟩) hc hy (s, b)
        rw [← hv] at this
        exact this
      · have h3 : k1 = after (env L T ex me) true (p + 5) st (L.yield_ vs ⟨l, w, s, b⟩) := by
          have := yielding_some hy (env L T ex me) ⟨l, w, s, b⟩
          rw [hs] at this
          exact Option.some.inj this
        have hyl : L.yield_ vs ⟨l, w, s, b⟩ =
          (layer base P err rb n (inner base P err rb n d) h me c g).yield_ vs ⟨l, w, s, b⟩ := by rw [hL]
        have hfl : (L.yield_ vs ⟨l, w, s, b⟩).2.w.2.2 = true := by rw [h3, hv, (after_aux _ _ _ _).1] at hk1; exact hk1
        simp only [layer] at hyl
        rcases g with _ | ⟨bn, me', sees, up⟩
        · dsimp only at hyl
          rw [h3, hv, (after_aux _ _ _ _).2, hyl]
        · dsimp only at hyl
          rcases find_block hM bn with ⟨g1, g2⟩ | ⟨bl, cb, g1, g2, gb, hB⟩
          · rw [g1] at hyl
            rw [hyl] at hfl
            cases hfl
          · rw [g1] at hyl
            unfold runBlock at hyl
            rcases d with _ | d
            · simp only [inner] at hyl
              rw [hyl] at hfl
              cases hfl
            · simp only [inner] at hyl
              rw [Given.reach, List.mem_append, not_or] at hig
              have key : ∀ res σ', eval (world base P err rb n d (h + 1) me' ((h + 1) :: sees) up) me' rb bl.ctx n
                  bl.body true (enter c ((h + 1) :: sees) (blockArgs (base me) bl.params vs ⟨l, w⟩) ⟨l, w, s, b⟩) =
                    some (res, σ') → (L.yield_ vs ⟨l, w, s, b⟩).2 = resume c ((h + 1) :: sees) ⟨l, w, s, b⟩ σ' → cellsC k1 i = s i := by
                intro res σ' he ha
                have hn : i ∉ (h + 1) :: sees := by
                  simp only [List.mem_cons, not_or]
                  exact ⟨by omega, hig.1⟩
                refine hcall ((h + 1) :: sees) (blockArgs (base me) bl.params vs ⟨l, w⟩) _ σ' true (p + 5) st h3 ha hn ?_ rfl
                have := ihd d (by omega) (h + 1) me' ((h + 1) :: sees) up _ _ _ _ (hB.steps hM.room _ me' he)
                  (by rw [(outcome_aux _ _ _).1]; exact hresume _ _ _ _ _ _ h3 ha) i (by omega) hn hig.2
                rw [(outcome_aux _ _ _).2] at this
                exact this
              rw [hyl] at key hfl
              unfold backB at key hfl
              split at hfl
              · rename_i v σ' he
                exact key _ _ he (by simp only [untag] at he ⊢; rw [he])
              · rename_i v σ' he
                exact key _ _ he (by simp only [untag] at he ⊢; rw [he])
              · rename_i e σ' he
                exact key _ _ he (by simp only [untag] at he ⊢; rw [he])
              · cases hfl
    · have h3 : k1 = after (env L T ex me) keep (p + 15) st (L.call bn m o vs ⟨l, w, s, b⟩) := by
        have := calling_some hc (env L T ex me) ⟨l, w, s, b⟩
        rw [hs] at this
        exact Option.some.inj this
      rcases find_method hM m with ⟨g1, g2⟩ | ⟨fn, cm, g1, g2, gm, hB⟩
      · refine hplain ?_
        have := calling_other (K := base me) (send := L.send) (sendB := L.sendB) (yld := L.yield_) (T := T)
          (ex := ex) (me := me) (s := ⟨stack, ⟨l, w⟩⟩) hc (s, b) (by rw [← hv, ← hL]; exact call_none g1)
        rw [← hv] at this
        exact this
      · have hcl : L.call bn m o vs ⟨l, w, s, b⟩ = callMethod err rb n (inner base P err rb n d) h c
          (give bn me c g) fn o vs ⟨l, w, s, b⟩ := by rw [← hL]; exact call_some g1
        have hfl : (L.call bn m o vs ⟨l, w, s, b⟩).2.w.2.2 = true := by
          rw [h3, hv, (after_aux _ _ _ _).1, ← hv] at hk1; exact hk1
        unfold callMethod at hcl
        rcases d with _ | d
        · simp only [inner] at hcl
          rw [hcl] at hfl
          cases hfl
        · simp only [inner] at hcl
          split at hcl
          · rw [h3, hv, (after_aux _ _ _ _).2, ← hv, hcl]
          · have hng : i ∉ (give bn me c g).reach := by
              unfold give
              split
              · simp [Given.reach]
              · simp only [Given.reach, List.mem_append, not_or]
                exact ⟨hic, hig⟩
            have key : ∀ res σ', eval (world base P err rb n d (h + 1) o [h + 1] (give bn me c g)) o rb
                fn.ctx n fn.body true (enter c [h + 1] vs ⟨l, w, s, b⟩) = some (res, σ') →
                (L.call bn m o vs ⟨l, w, s, b⟩).2 = resume c [h + 1] ⟨l, w, s, b⟩ σ' → cellsC k1 i = s i := by
              intro res σ' he ha
              have hn : i ∉ [h + 1] := by simp only [List.mem_singleton]; omega
              refine hcall [h + 1] vs _ σ' keep (p + 15) st h3 ha hn ?_ rfl
              have := ihd d (by omega) (h + 1) o [h + 1] _ _ _ _ _ (hB.steps hM.room _ o he)
                (by rw [(outcome_aux _ _ _).1]; exact hresume _ _ _ _ _ _ h3 ha) i (by omega) hn hng
              rw [(outcome_aux _ _ _).2] at this
              exact this
            rw [hcl] at key hfl
            unfold back at key hfl
            split at hfl
            · rename_i v σ' he
              exact key _ _ he (by rw [he])
            · rename_i v cr σ' he
              exact key _ _ he (by rw [he])
            · rename_i e σ' he
              exact key _ _ he (by rw [he])
            · cases hfl

/-- **C83** (variables; part, as above).  A call without a block does not change the variables at the place of the call. -/
theorem C83_call_without_block_keeps_variables_partial (hM : Built rb T P M) {d h : Nat} {me o : Val} {c : List Nat} {g : Given}
    {m : Id} {vs : List Val} {σ : St (Full W)} (hc : Desc c) (hh : ∀ i ∈ c, i ≤ h) (hm : P.method m ≠ none)
    (hf : ((world base P err rb n d h me c g).send m o vs σ).2.w.2.2 = true) :
    ((world base P err rb n d h me c g).send m o vs σ).2.locals = σ.locals := by
  obtain ⟨fn, g1⟩ := Option.ne_none_iff_exists'.1 hm
  have hcl : (world base P err rb n d h me c g).send m o vs σ =
      callMethod err rb n (inner base P err rb n d) h c .none fn o vs σ := by
    rw [world_eq]
    simp only [layer, g1]
  rw [hcl] at hf ⊢
  obtain ⟨cm, -, gm, hB⟩ : ∃ cm, M.methods.find? (·.id = m) = some cm ∧ Compiles rb T fn cm := by
    rcases find_method hM m with ⟨g1', -⟩ | ⟨f, c, h1, h2, h3⟩
    · rw [g1'] at g1; cases g1
    · rw [h1] at g1
      cases g1
      exact ⟨c, h2, h3⟩
  unfold callMethod at hf ⊢
  rcases d with _ | d
  · cases hf
  · simp only [inner] at hf ⊢
    split
    · rfl
    · rename_i hlen
      rw [if_neg hlen] at hf
      have key : ∀ res σ', eval (world base P err rb n d (h + 1) o [h + 1] .none) o rb
          fn.ctx n fn.body true (enter c [h + 1] vs σ) = some (res, σ') → σ'.w.2.2 = true →
          look c (store [h + 1] σ'.locals σ'.w.2.1) = σ.locals := by
        intro res σ' he hfl
        rw [← look_store hc σ.locals σ.w.2.1]
        refine look_congr fun i hi => ?_
        have hn : i ∉ [h + 1] := by
          have := hh i hi
          simp only [List.mem_singleton]; omega
        rw [store_outside hn]
        have := untouched hM d (h + 1) o [h + 1] .none _ _ _ _ (hB.steps hM.room _ o he)
          (by rw [(outcome_aux _ _ _).1]; exact hfl) i (by have := hh i hi; omega) hn (by simp [Given.reach])
        rw [(outcome_aux _ _ _).2] at this
        rw [this]
        show fresh (h + 1) vs (store c σ.locals σ.w.2.1) i = _
        rw [fresh, if_neg (by simpa using hn)]
      unfold back at hf ⊢
      split at hf
      · rename_i v σ' he
        simp only [resume, Bool.and_eq_true] at hf
        exact key _ _ he hf.2
      · rename_i v cr σ' he
        simp only [resume, Bool.and_eq_true] at hf
        exact key _ _ he hf.2
      · rename_i e σ' he
        simp only [resume, Bool.and_eq_true] at hf
        exact key _ _ he hf.2
      · cases hf
end

/-! ## Programs compile -/

/-- The conditions on a block. -/
structure Block.Fine (rb : Bool) (bl : Block) : Prop where
  ctx : CtxOK bl.ctx
  block : bl.ctx.kind = some .block
  legal : LegalBody bl.ctx bl.body
  tame : Tame bl.body
  supported : Supported false bl.body true true true
  plain : rb = true → Plain bl.ctx bl.body true
  small : bl.body.weight + 1 < 2 ^ 27

/-- Room that the code of blocks takes in the tables, at most. -/
def room : List Block → Nat
  | [] => 0
  | f :: fs => f.body.weight + 1 + room fs

theorem blocks_compile {rb : Bool} : ∀ (B : List Block) (_ : ∀ f ∈ B, f.Fine rb) (consts : List Const)
    (case1 : List (Option CaseMap)) (case2 : List (Option CaseMap2)),
    consts.length + room B < 2 ^ 32 → case1.length + room B < 2 ^ 32 → case2.length + room B < 2 ^ 32 →
    ∃ (M : List BlockCode) (T : Tables), List.Forall₂ (CompilesB rb T) B M ∧ T.Room ∧ consts <+: T.consts ∧ case1 <+: T.case1 ∧
      case2 <+: T.case2
  | [], _, consts, case1, case2, h1, h2, h3 => by
    rw [room] at h1 h2 h3
    exact ⟨[], ⟨consts, case1, case2⟩, .nil, ⟨by dsimp only; omega, by dsimp only; omega, by dsimp only; omega⟩, List.prefix_refl _,
      List.prefix_refl _, List.prefix_refl _⟩
  | f :: fs, hF, consts, case1, case2, h1, h2, h3 => by
    rw [room] at h1 h2 h3
    have hS := hF f (by simp)
    have hsm := hS.small
    obtain ⟨g, hg⟩ := (Codegen.C65_accepts_exactly_the_legal f.ctx f.body consts case1 case2 0 (by omega)).2 hS.legal
    obtain ⟨z1, z2, z3, z4⟩ := Codegen.C65_size_of_code f.ctx f.body consts case1 case2 0 g (by omega) hg
    have hb : Bounded g := ⟨by omega, by omega, by omega⟩
    obtain ⟨fuel, code, ho⟩ := Codegen.C78_optimizer_completes_partial hg hb hS.tame
    obtain ⟨M, T, k1, k2, k3, k4, k5⟩ := blocks_compile fs (fun f h => hF f (by simp [h])) g.consts g.case1 g.case2
      (by omega) (by omega) (by omega)
    obtain ⟨y1, y2, y3⟩ := Methods.iseq_ext hS.ctx hg
    refine ⟨⟨f.id, f.params, f.params, code, g.ex⟩ :: M, T, .cons ⟨g, ?_⟩ k1, k2, y1.trans k3, y2.trans k4, y3.trans k5⟩
    exact ⟨rfl, rfl, hS.ctx, hS.block, ⟨_, _, _, _, hg⟩, ⟨fuel, ho⟩, rfl, k3, fun i m h => Methods.prefix_get k4 h,
      fun i m h => Methods.prefix_get k5 h, hb, hS.supported, hS.plain⟩


/-- **C83** (the premises can be met).  Methods and blocks are compiled and optimized one after the other. -/
theorem C83_programs_compile {rb : Bool} (P : Program) (h : ∀ f ∈ P.methods, f.Fine rb) (h' : ∀ f ∈ P.blocks, f.Fine rb)
    (hs : Unwind.room P.methods + room P.blocks < 2 ^ 31) : ∃ M T, Built rb T P M := by
  have main : ∀ (ms : List Unwind.Method), (∀ f ∈ ms, f.Fine rb) → ∀ (consts : List Const) (case1 : List (Option CaseMap))
      (case2 : List (Option CaseMap2)), consts.length + Unwind.room ms + room P.blocks < 2 ^ 32 →
      case1.length + Unwind.room ms + room P.blocks < 2 ^ 32 → case2.length + Unwind.room ms + room P.blocks < 2 ^ 32 →
      ∃ (M : Image) (T : Tables), Built rb T ⟨ms, P.blocks⟩ M ∧ consts <+: T.consts ∧ case1 <+: T.case1 ∧ case2 <+: T.case2 := by
    intro ms
    induction ms with
    | nil =>
      intro _ consts case1 case2 h1 h2 h3
      rw [Unwind.room] at h1 h2 h3
      obtain ⟨M, T, k1, k2, k3, k4, k5⟩ := blocks_compile P.blocks h' consts case1 case2 (by omega) (by omega) (by omega)
      exact ⟨⟨[], M⟩, T, ⟨k2, .nil, k1⟩, k3, k4, k5⟩
    | cons f fs ih =>
      intro hF consts case1 case2 h1 h2 h3
      rw [Unwind.room] at h1 h2 h3
      have hS := hF f (by simp)
      have hsm := hS.small
      obtain ⟨g, hg⟩ := (Codegen.C65_accepts_exactly_the_legal f.ctx f.body consts case1 case2 0 (by omega)).2 hS.legal
      obtain ⟨z1, z2, z3, z4⟩ := Codegen.C65_size_of_code f.ctx f.body consts case1 case2 0 g (by omega) hg
      have hb : Bounded g := ⟨by omega, by omega, by omega⟩
      obtain ⟨fuel, code, ho⟩ := Codegen.C78_optimizer_completes_partial hg hb hS.tame
      obtain ⟨M, T, k1, k3, k4, k5⟩ := ih (fun f h => hF f (by simp [h])) g.consts g.case1 g.case2
        (by omega) (by omega) (by omega)
      obtain ⟨y1, y2, y3⟩ := Methods.iseq_ext hS.ctx hg
      refine ⟨⟨⟨f.id, f.arity, f.arity, code, g.ex⟩ :: M.methods, M.blocks⟩, T, ⟨k1.room, .cons ⟨g, ?_⟩ k1.methods, k1.blocks⟩, y1.trans k3,
        y2.trans k4, y3.trans k5⟩
      exact ⟨rfl, rfl, hS.ctx, hS.method, ⟨_, _, _, _, hg⟩, ⟨fuel, ho⟩, rfl, k3, fun i m h => Methods.prefix_get k4 h,
        fun i m h => Methods.prefix_get k5 h, hb, hS.supported, hS.plain⟩
  obtain ⟨M, T, k, -⟩ := main P.methods h [] [] [] (by simp; omega) (by simp; omega) (by simp; omega)
  exact ⟨M, T, k⟩

end Verif.Blocks
