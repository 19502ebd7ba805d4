import Verif.Blocks.Steps
import Verif.Unwind.Lemmas
/-!
# From one frame to several, with blocks
-/
namespace Verif.Blocks
open Verif.Codegen (Id Env World St R S Entry Eff execOp testOp pushE dropE pushB fail truthy Steps Ctx G Node Const CaseMap
  CaseMap2 gen_iseq Loaded Supported Plain eval Bounded CtxOK outcome Ans)
open Verif.ISeq (Byte Out optimize)
open Verif.Methods (Code Tables slots find_related)
open Verif.Unwind (env tag untag through flagged tagS tagR tagO tagC tagE untagR untagC untagC_tagC after Compiles slots_start)
open Verif.Value (Val)

variable {W X : Type}

/-! ## Variables -/

/-- Numbers of calls, the innermost (latest) first. -/
def Desc (c : List Nat) : Prop := c ≠ [] ∧ c.Pairwise (· > ·)

theorem look_congr : ∀ {c : List Nat} {s s' : Cells}, (∀ i ∈ c, s i = s' i) → look c s = look c s'
  | [], _, _, _ => rfl
  | [h], _, _, e => e h (by simp)
  | h :: h' :: c, s, s', e => by
    funext k
    cases k with
    | zero => exact congrFun (e h (by simp)) 0
    | succ k => exact congrFun (look_congr (c := h' :: c) fun i hi => e i (by simp [hi])) k

theorem store_congr : ∀ {c : List Nat} {l : Nat → Nat → Val} {s s' : Cells} {i : Nat}, s i = s' i → store c l s i = store c l s' i
  | [], _, _, _, _, e => e
  | [h], l, s, s', i, e => by
    simp only [store]
    split
    · rfl
    · exact e
  | h :: h' :: c, l, s, s', i, e => by
    simp only [store]
    split
    · rename_i hi
      subst hi
      rw [e]
    · exact store_congr e

theorem store_other {h : Nat} {h' : Nat} {c : List Nat} {l : Nat → Nat → Val} {s : Cells} {i : Nat} (hi : i ≠ h) :
    store (h :: h' :: c) l s i = store (h' :: c) (fun k => l (k + 1)) s i := by
  rw [store]
  exact if_neg hi

theorem store_self {h : Nat} {h' : Nat} {c : List Nat} {l : Nat → Nat → Val} {s : Cells} :
    store (h :: h' :: c) l s h = fun k => match k with | 0 => l 0 | k + 1 => s h (k + 1) := by
  rw [store]
  exact if_pos rfl

theorem look_store : ∀ {c : List Nat} (_ : Desc c) (l : Nat → Nat → Val) (s : Cells), look c (store c l s) = l
  | [], h, _, _ => absurd rfl h.1
  | [h], _, l, s => by simp [look, store]
  | h :: h' :: c, hd, l, s => by
    have hp := List.pairwise_cons.1 hd.2
    funext k
    cases k with
    | zero => simp [look, store]
    | succ k =>
      show look (h' :: c) (store (h :: h' :: c) l s) k = _
      rw [look_congr (s' := store (h' :: c) (fun k => l (k + 1)) s)
        fun i hi => store_other (by have := hp.1 i hi; omega), look_store ⟨by simp, hp.2⟩]

theorem store_look : ∀ (c : List Nat) (s : Cells), store c (look c s) s = s
  | [], _ => rfl
  | [h], s => by
    funext i
    simp only [store, look]
    split
    · rename_i hi; rw [hi]
    · rfl
  | h :: h' :: c, s => by
    funext i
    by_cases hi : i = h
    · subst hi
      rw [store_self]
      funext k
      cases k <;> rfl
    · rw [store_other hi]
      show store (h' :: c) (look (h' :: c) s) s i = _
      rw [store_look]

theorem store_store : ∀ {c : List Nat} (_ : Desc c) (l l' : Nat → Nat → Val) (s : Cells), store c l (store c l' s) = store c l s
  | [], h, _, _, _ => absurd rfl h.1
  | [h], _, l, l', s => by
    funext i
    simp only [store]
    split <;> rfl
  | h :: h' :: c, hd, l, l', s => by
    have hp := List.pairwise_cons.1 hd.2
    funext i
    by_cases hi : i = h
    · subst hi
      rw [store_self, store_self, store_self]
    · rw [store_other hi, store_other hi, store_congr (s' := store (h' :: c) (fun k => l' (k + 1)) s) (store_other hi), store_store ⟨by simp, hp.2⟩]

theorem push_fresh (h k : Nat) (vs : List Val) (s : Cells) : push h k vs s = fresh h vs s := by
  unfold push fresh
  rw [slots_start]

theorem prepare_args (K : World W X) (req : Nat) (vs : List Val) (σ : St W) : prepare K req vs σ = blockArgs K req vs σ := by
  have key : ∀ l : List Val, (if req < l.length then l.take req else l) = l.take req := by
    intro l
    split
    · rfl
    · rw [List.take_of_length_le (by omega)]
  unfold prepare blockArgs
  dsimp only
  rw [key]
  congr 1
  rcases vs with _ | ⟨v, _ | ⟨v', vs⟩⟩
  · rfl
  · simp only [List.length_cons, List.length_nil, true_and, List.headD_cons]
    split
    · cases K.asArray v σ <;> rfl
    · rfl
  · simp

/-- The block comes from calls before number `h`. -/
def Given.Ok : Given → Nat → Prop
  | .none, _ => True
  | .block _ _ c up, h => Desc c ∧ (∀ i ∈ c, i < h) ∧ up.Ok h

theorem Given.Ok.mono : ∀ {g : Given} {h h' : Nat}, g.Ok h → h ≤ h' → g.Ok h'
  | .none, _, _, _, _ => trivial
  | .block _ _ _ _, _, _, ⟨a, b, c⟩, hl => ⟨a, fun i hi => Nat.lt_of_lt_of_le (b i hi) hl, c.mono hl⟩

/-! ## Compiled programs -/

/-- `c` is what the compiler makes of the block `bl`, with the tables `T`. -/
structure BuiltB (rb : Bool) (T : Tables) (bl : Block) (c : BlockCode) (g : G) : Prop where
  id : c.id = bl.id
  params : c.req = bl.params
  ctx : CtxOK bl.ctx
  block : bl.ctx.kind = some .block
  compiled : ∃ consts case1 case2 caches, gen_iseq bl.ctx bl.body (.start consts case1 case2 caches) = .ok ((), g)
  optimized : ∃ fuel, optimize fuel g.code = some c.code
  ex : c.ex = g.ex
  consts : g.consts <+: T.consts
  case1 : ∀ (i : Nat) m, g.case1[i]? = some (some m) → T.case1[i]? = some (some m)
  case2 : ∀ (i : Nat) m, g.case2[i]? = some (some m) → T.case2[i]? = some (some m)
  small : Bounded g
  supported : Supported false bl.body true true true
  plain : rb = true → Plain bl.ctx bl.body true

/-- The block and its code. -/
def CompilesB (rb : Bool) (T : Tables) (bl : Block) (c : BlockCode) : Prop := ∃ g, BuiltB rb T bl c g

theorem BuiltB.steps {rb : Bool} {T : Tables} {bl : Block} {c : BlockCode} {g : G} (hB : BuiltB rb T bl c g) (hT : T.Room)
    (K : World W X) (me : Val) {n : Nat} {σ σ' : St W} {r : Codegen.Res X}
    (h : eval K me rb bl.ctx n bl.body true σ = some (r, σ')) :
    Steps (env K T c.ex me) c.code (.at 0 ⟨[], σ⟩) (.done (outcome bl.ctx r σ')) := by
  obtain ⟨consts, case1, case2, caches, hg⟩ := hB.compiled
  obtain ⟨fuel, ho⟩ := hB.optimized
  have hl : Loaded g (env K T c.ex me) := ⟨hB.ex, hB.consts, hB.case1, hB.case2⟩
  have hC : Codegen.Compiled bl.ctx bl.body g (env K T c.ex me) :=
    ⟨hB.ctx, ⟨_, _, _, _, hg⟩, hl, ⟨hB.small.code, hT.consts, hT.case1, hT.case2⟩⟩
  refine (Codegen.C78_optimized_code_ends_alike hg hB.small hl ho _ _).2 ?_
  cases rb with
  | true => exact Codegen.C31_compiled_code_does_what_ruby_does_partial hC hB.supported (hB.plain rfl) h
  | false => exact Codegen.C31_compiled_code_agrees_partial hC hB.supported h

/-- The program and its code. -/
structure Built (rb : Bool) (T : Tables) (P : Program) (M : Image) : Prop where
  room : T.Room
  methods : List.Forall₂ (Compiles rb T) P.methods M.methods
  blocks : List.Forall₂ (CompilesB rb T) P.blocks M.blocks

/-! ## What is added to the state -/

def flagR : R (Full W) X → Bool
  | .ret _ σ | .mret _ σ | .brk _ σ | .err _ σ => σ.w.2.2
  | .stuck => false

def flagC : ISeq.Conf (S (Full W)) (R (Full W) X) → Bool
  | .at _ s => s.st.w.2.2
  | .done r => flagR r

def cellsR : R (Full W) X → Cells
  | .ret _ σ | .mret _ σ | .brk _ σ | .err _ σ => σ.w.2.1
  | .stuck => fun _ _ _ => Value.nil

def cellsC : ISeq.Conf (S (Full W)) (R (Full W) X) → Cells
  | .at _ s => s.st.w.2.1
  | .done r => cellsR r

theorem flagC_tagC (s : Cells) (k : ISeq.Conf (S W) (R W X)) : flagC (tagC (s, false) k) = false := by
  rcases k with ⟨p, s⟩ | r
  · rfl
  · cases r <;> rfl

/-- The interpreter, when the running frame is where `k` says. -/
def at_ (base : Val → World W X) (f : Frame) (fs : List Frame) (k : ISeq.Conf (S (Full W)) (R (Full W) X)) : Conf W X :=
  within base f fs (cellsC k) (untagC k)

theorem within_store {base : Val → World W X} {f : Frame} {fs : List Frame} (hd : Desc f.sees) (l : Nat → Nat → Val) (s : Cells)
    (k : ISeq.Conf (S W) (R W X)) : within base f fs (store f.sees l s) k = within base f fs s k := by
  rcases k with ⟨p, t⟩ | r
  · simp only [within, store_store hd]
  · cases r <;> simp only [within, store_store hd]

theorem at_tagC {base : Val → World W X} {f : Frame} {fs : List Frame} (s : Cells) (b : Bool) (k : ISeq.Conf (S W) (R W X)) :
    at_ base f fs (tagC (s, b) k) = within base f fs s k := by
  rw [at_, untagC_tagC]
  rcases k with ⟨p, t⟩ | r
  · rfl
  · cases r <;> rfl

section
variable {K : World W X} {send : Id → Val → List Val → St (Full W) → Eff (Full W) X Val}
  {sendB : BitVec 32 → Id → Val → List Val → St (Full W) → Eff (Full W) X Val}
  {yld : List Val → St (Full W) → Eff (Full W) X Val} {T : Tables} {ex : List Entry} {me : Val}

theorem fail_aux (pc n : Nat) (x : X) (σ : St (Full W)) :
    flagC ((fail (env (via K send sendB yld) T ex me) pc x σ).conf n) = σ.w.2.2 ∧
      cellsC ((fail (env (via K send sendB yld) T ex me) pc x σ).conf n) = σ.w.2.1 := by
  unfold fail
  dsimp only [env]
  split <;> exact ⟨rfl, rfl⟩

theorem after_aux (keep : Bool) (pc : Nat) (st : List Val) (e : Eff (Full W) X Val) :
    flagC (after (env (via K send sendB yld) T ex me) keep pc st e) = e.2.w.2.2 ∧
      cellsC (after (env (via K send sendB yld) T ex me) keep pc st e) = e.2.w.2.1 := by
  rcases e with ⟨_ | v, σ⟩ <;> cases keep
  · exact fail_aux _ _ _ _
  · exact fail_aux _ _ _ _
  · exact ⟨rfl, rfl⟩
  · exact ⟨rfl, rfl⟩
end

/-! ## The specification, one step -/

section
variable {base : Val → World W X} {P : Program} {err : Errors X} {rb : Bool} {n : Nat}

/-- What calls inside do. -/
def inner (base : Val → World W X) (P : Program) (err : Errors X) (rb : Bool) (n : Nat) :
    Nat → Option (Nat → Val → List Nat → Given → World (Full W) X)
  | 0 => none
  | d + 1 => some (world base P err rb n d)

theorem world_eq (d : Nat) : world base P err rb n d = layer base P err rb n (inner base P err rb n d) := by
  cases d <;> rfl

/-- The block that a call gives to the method. -/
def give (b : BitVec 32) (me : Val) (c : List Nat) (g : Given) : Given := if b = 0 then .none else .block b me c g

theorem call_none {I : Option (Nat → Val → List Nat → Given → World (Full W) X)} {h : Nat} {me : Val} {c : List Nat} {g : Given}
    {b : BitVec 32} {m : Id} {o : Val} {vs : List Val} {σ : St (Full W)} (hm : P.method m = none) :
    (layer base P err rb n I h me c g).call b m o vs σ = through ((base me).call b m o vs) σ := by
  unfold World.call
  split
  · simp only [layer, hm]
  · simp only [layer, hm]

theorem call_some {I : Option (Nat → Val → List Nat → Given → World (Full W) X)} {h : Nat} {me : Val} {c : List Nat} {g : Given}
    {b : BitVec 32} {m : Id} {o : Val} {vs : List Val} {σ : St (Full W)} {f : Unwind.Method} (hm : P.method m = some f) :
    (layer base P err rb n I h me c g).call b m o vs σ = callMethod err rb n I h c (give b me c g) f o vs σ := by
  unfold World.call give
  split
  · simp only [layer, hm]
  · simp only [layer, hm]

theorem back_flag {c c' : List Nat} {σ : St (Full W)} (a : Ans (Full W) X) (h : (back c c' σ a).2.w.2.2 = true) :
    σ.w.2.2 = true := by
  unfold back at h
  split at h
  all_goals
    simp only [resume, cut, Bool.and_eq_true] at h
    try exact h.1
  cases h

theorem backB_flag {c c' : List Nat} {σ : St (Full W)} (a : Ans (Full W) X) (h : (backB c c' σ a).2.w.2.2 = true) :
    σ.w.2.2 = true := by
  unfold backB at h
  split at h
  all_goals
    simp only [resume, cut, Bool.and_eq_true] at h
    try exact h.1
  cases h

theorem call_flag {I : Option (Nat → Val → List Nat → Given → World (Full W) X)} {h : Nat} {me : Val} {c : List Nat} {g : Given}
    {b : BitVec 32} {m : Id} {o : Val} {vs : List Val} {σ : St (Full W)}
    (hf : ((layer base P err rb n I h me c g).call b m o vs σ).2.w.2.2 = true) : σ.w.2.2 = true := by
  rcases hm : P.method m with _ | f
  · rw [call_none hm] at hf
    exact hf
  · rw [call_some hm] at hf
    unfold callMethod at hf
    split at hf
    · cases hf
    · split at hf
      · exact hf
      · exact back_flag _ hf

theorem yield_flag {I : Option (Nat → Val → List Nat → Given → World (Full W) X)} {h : Nat} {me : Val} {c : List Nat} {g : Given}
    {vs : List Val} {σ : St (Full W)}
    (hf : ((layer base P err rb n I h me c g).yield_ vs σ).2.w.2.2 = true) : σ.w.2.2 = true := by
  simp only [layer] at hf
  split at hf
  · exact hf
  · split at hf
    · cases hf
    · unfold runBlock at hf
      split at hf
      · cases hf
      · exact backB_flag _ hf

/-- A flag that is down stays down. -/
theorem sticky {I : Option (Nat → Val → List Nat → Given → World (Full W) X)} {h : Nat} {me : Val} {sees : List Nat} {g : Given}
    {T : Tables} {ex : List Entry} {c : ISeq.Code} {k : ISeq.Conf (S (Full W)) (R (Full W) X)} {r : R (Full W) X}
    (hs : Steps (env (layer base P err rb n I h me sees g) T ex me) c k (.done r)) : flagR r = true → flagC k = true := by
  induction hs using Relation.ReflTransGen.head_induction_on with
  | refl => exact id
  | head h1 _ ih =>
    intro hr
    have hk := ih hr
    obtain ⟨p, ⟨stack, σ⟩, ev, rfl, hs⟩ := h1
    by_contra hσ
    have hb : σ.w.2.2 = false := by simpa [flagC] using hσ
    have hσ' : σ = tag (σ.w.2.1, false) (untag σ) := by rw [← hb]; rfl
    have hv : layer base P err rb n I h me sees g = via (base me) (layer base P err rb n I h me sees g).send
      (layer base P err rb n I h me sees g).sendB (layer base P err rb n I h me sees g).yield_ := rfl
    rcases hc : calling c p stack with _ | ⟨keep, b, m, o, vs, st⟩
    · rcases hy : yielding c p stack with _ | ⟨vs, st⟩
      · have := plain_tag (K := base me) (send := (layer base P err rb n I h me sees g).send)
          (sendB := (layer base P err rb n I h me sees g).sendB) (yld := (layer base P err rb n I h me sees g).yield_) (T := T)
          (ex := ex) (me := me) (s := ⟨stack, untag σ⟩) hc hy (σ.w.2.1, false)
        rw [tagS, ← hσ', ← hv, hs] at this
        obtain ⟨r', -, h2⟩ := Option.map_eq_some_iff.1 this.symm
        dsimp only at h2
        rw [← h2, flagC_tagC] at hk
        cases hk
      · have := yielding_some hy (env (layer base P err rb n I h me sees g) T ex me) σ
        rw [hs] at this
        have h3 := Option.some.inj this
        dsimp only at h3
        rw [h3, hv, (after_aux _ _ _ _).1] at hk
        have := yield_flag hk
        rw [hb] at this
        cases this
    · have := calling_some hc (env (layer base P err rb n I h me sees g) T ex me) σ
      rw [hs] at this
      have h3 := Option.some.inj this
      dsimp only at h3
      rw [h3, hv, (after_aux _ _ _ _).1] at hk
      have := call_flag hk
      rw [hb] at this
      cases this
end

/-! ## Frames -/

theorem Runs.trans {base : Val → World W X} {T : Tables} {M : Image} {err : Errors X} {k1 k2 k3 : Conf W X}
    (h : Runs base T M err k1 k2) (h' : Runs base T M err k2 k3) : Runs base T M err k1 k3 := by
  induction h with
  | refl => exact h'
  | step h1 _ ih => exact .step h1 (ih h')

theorem Runs.of_eq {base : Val → World W X} {T : Tables} {M : Image} {err : Errors X} {k1 k2 : Conf W X} (h : k1 = k2) :
    Runs base T M err k1 k2 := h ▸ .refl _

/-- An error in a frame. -/
theorem unwind_fail {base : Val → World W X} {send : Id → Val → List Val → St (Full W) → Eff (Full W) X Val}
    {sendB : BitVec 32 → Id → Val → List Val → St (Full W) → Eff (Full W) X Val}
    {yld : List Val → St (Full W) → Eff (Full W) X Val} {T : Tables} (x : X) (loc : Nat → Nat → Val) (f f' : Frame)
    (fs : List Frame) (pc : Nat) (s : Cells) (w : W) (b : Bool) (keep : Bool) (st : List Val) (stack : List Val)
    (hf' : f' = { f with pc := pc, stack := stack }) :
    unwind base x loc (f' :: fs) s w =
      at_ base f fs (after (env (via (base f.self) send sendB yld) T f.ex f.self) keep pc st
        (.error x, ⟨look f.sees s, (w, (s, b))⟩)) := by
  subst hf'
  have : after (env (via (base f.self) send sendB yld) T f.ex f.self) keep pc st (.error x, ⟨look f.sees s, (w, (s, b))⟩) =
    (fail (env (via (base f.self) send sendB yld) T f.ex f.self) pc x ⟨look f.sees s, (w, (s, b))⟩).conf pc := by cases keep <;> rfl
  rw [this, at_, (fail_aux _ _ _ _).2, unwind]
  unfold fail
  dsimp only [env]
  cases f.ex.find? (·.include pc) with
  | some en => rfl
  | none =>
    dsimp only [ISeq.Out.conf, untagC, within, untagR, untag]
    rw [store_look]
    cases fs with
    | nil => rfl
    | cons g fs => rfl

theorem find_method {rb : Bool} {T : Tables} {P : Program} {M : Image} (hM : Built rb T P M) (m : Id) :
    (P.method m = none ∧ M.methods.find? (·.id = m) = none) ∨
      ∃ f c, P.method m = some f ∧ M.methods.find? (·.id = m) = some c ∧ Compiles rb T f c := by
  rcases find_related (p := (·.id = m)) (q := (·.id = m)) hM.methods (by rintro f - c ⟨_, h⟩; rw [h.id]) with
    ⟨g1, g2⟩ | ⟨f, -, c, -, g1, g2, g⟩
  · exact .inl ⟨g1, g2⟩
  · exact .inr ⟨f, c, g1, g2, g⟩

theorem find_block {rb : Bool} {T : Tables} {P : Program} {M : Image} (hM : Built rb T P M) (b : BitVec 32) :
    (P.block b = none ∧ M.blocks.find? (·.id = b) = none) ∨
      ∃ f c, P.block b = some f ∧ M.blocks.find? (·.id = b) = some c ∧ CompilesB rb T f c := by
  rcases find_related (p := (·.id = b)) (q := (·.id = b)) hM.blocks (by rintro f - c ⟨_, h⟩; rw [h.id]) with
    ⟨g1, g2⟩ | ⟨f, -, c, -, g1, g2, g⟩
  · exact .inl ⟨g1, g2⟩
  · exact .inr ⟨f, c, g1, g2, g⟩

end Verif.Blocks
