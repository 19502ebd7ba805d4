import Verif.Methods.Model
import Verif.Methods.Mono
import Mathlib.Data.List.Forall2
/-!
# Lemmas for C82
-/
namespace Verif.Methods
open Verif.Lexer (Chars)
open Verif.Parser (Node stripAll)
open Verif.Pipeline (Names lower lowerAll context Room Placed Has context_knows)
open Verif.ISeq (optimize)
open Verif.Codegen (Id Env World St R Ctx G Const CaseMap CaseMap2 Entry gen_iseq Loaded Steps Supported Plain Tame Legal eval
  Bounded)
open Verif.Meaning (slot getVar_slot)
open Verif.Meaning.Named
open Verif.Value (Val)

variable {W X : Type}

/-! ## The frame -/

theorem bind_eq : ∀ (ps : List Chars) (vs : List Val) (y : Chars), vs.length = ps.length →
    bind ps vs y = vs[ps.idxOf y]?.getD Value.nil
  | [], [], y, _ => by simp [bind]
  | p :: ps, v :: vs, y, h => by
    rw [bind, List.idxOf_cons]
    by_cases hy : p = y
    · subst hy; simp
    · rw [if_neg (Ne.symm hy), bind_eq ps vs y (by simpa using h), beq_eq_false_iff_ne.2 hy]
      simp

/-- The slots of parameters have the arguments, the others `nil`. -/
theorem slots_bind {others ps : List Chars} {vs : List Val} {n : Nat} (h : vs.length = ps.length) (y : Chars) :
    slots n vs 0 (slot (others ++ ps.reverse) y) = bind ps vs y := by
  rw [bind_eq ps vs y h, slots, slot]
  simp only [List.reverse_append, List.reverse_reverse]
  rw [List.idxOf_append]
  split
  · rename_i hy
    rw [List.getElem?_append_left (by rw [h]; exact List.idxOf_lt_length_of_mem hy)]
  · rename_i hy
    rw [List.idxOf_eq_length hy, List.getElem?_append_right (by omega), List.getElem?_replicate, ← h]
    split <;> simp

/-! ## A `begin` without clauses -/

theorem eval_begin {K : World W X} {self : Val} {x : Ctx} {n : Nat} {e : Codegen.Node} {u : Bool} {σ σ' : St W}
    {r : Codegen.Res X} (h : eval K self true x n e u σ = some (r, σ')) :
    ∃ r', eval K self true x n (.begin_ e .nil .none .none) u σ = some (r', σ') ∧
      (∀ o : Out X, Agree u o r → Agree u o r') := by
  have he (v : Val) (σ : St W) : Codegen.evalElse K self true x n .none v u σ = some (.val v, σ) := by rw [Codegen.evalElse]
  have ho : Codegen.evalOpt K self true x n .none = fun σ => some (.val Value.nil, σ) := by
    funext σ; rw [Codegen.evalOpt]
  rw [eval, h, ho]
  cases r <;> simp only [Codegen.beginSem, he] <;> exact ⟨_, rfl, fun o h => by cases o <;> exact h⟩

/-! ## Compiled methods -/

/-- `c` is what the compiler makes of the method `f`, with the tables `T`. -/
structure Built (nm : Names) (setter : Id → Id) (T : Tables) (f : Method) (c : Code) (others : List Chars) (l : List Node)
    (e : Codegen.Node) (g : G) : Prop where
  id : c.id = nm f.name
  arity : c.arity = f.params.length
  lvars : c.lvars = (others ++ f.params.reverse).length
  tree : stripAll l = f.body
  lower : lower nm (.CompStmt l) = some e
  gen : ∃ consts case1 case2 caches, gen_iseq (context nm (others ++ f.params.reverse) setter) (.begin_ e .nil .none .none)
    (.start consts case1 case2 caches) = .ok ((), g)
  code : ∃ fuel, optimize fuel g.code = some c.code
  ex : c.ex = g.ex
  consts : g.consts <+: T.consts
  case1 : ∀ (i : Nat) m, g.case1[i]? = some (some m) → T.case1[i]? = some (some m)
  case2 : ∀ (i : Nat) m, g.case2[i]? = some (some m) → T.case2[i]? = some (some m)
  known : Legal (Has (others ++ f.params.reverse) nm) True true e
  supported : Supported false e true true true
  plain : Plain (context nm (others ++ f.params.reverse) setter) e true
  vars : (others ++ f.params.reverse).length < 2 ^ 32
  small : Bounded g
  names : ∀ y, ∀ z ∈ others ++ f.params.reverse, nm y = nm z → y = z

structure Tables.Room (T : Tables) : Prop where
  consts : T.consts.length ≤ 2 ^ 32
  case1 : T.case1.length < 2 ^ 32
  case2 : T.case2.length < 2 ^ 32

theorem body_runs {nm : Names} {setter : Id → Id} {T : Tables} {f : Method} {c : Code} {others : List Chars} {l : List Node}
    {e : Codegen.Node} {g : G} (hB : Built nm setter T f c others l e g) (hT : T.Room) {O : Objects W X} {K : World W X}
    (hA : Acts O K nm setter) {me : Val} {n : Nat} {vs : List Val} (hvs : vs.length = f.params.length) {w : W} {answer : End X}
    {s : State W} (hp : body O me n f.body ⟨bind f.params vs, w⟩ = some (answer, s)) :
    ∃ σ', Steps ⟨K, me, c.ex, T.consts, T.case1, T.case2⟩ c.code (.at 0 ⟨[], ⟨slots c.lvars vs, w⟩⟩) (.done (ending σ' answer)) ∧
      σ'.w = s.w := by
  obtain ⟨consts, case1, case2, caches, hg⟩ := hB.gen
  obtain ⟨fuel, ho⟩ := hB.code
  obtain ⟨ns, h1, rfl⟩ : ∃ ns, lowerAll nm l = some ns ∧ e = .seq ns := by
    have := hB.lower
    rw [Pipeline.lower] at this
    obtain ⟨ns, h4, h5⟩ := Pipeline.map_some this
    exact ⟨ns, h4, h5⟩
  have hl : Pipeline.lower nm (.CompStmt f.body) = some (.seq ns.flat) := by
    rw [← hB.tree, Pipeline.lower, Pipeline.lowerAll_strip, h1]; rfl
  have hslot := fun y => slots_bind (others := others) (n := c.lvars) hvs y
  have hk := hB.known
  have hpl := hB.plain
  have hv := hB.vars
  have hid := hB.names
  generalize others ++ f.params.reverse = vars at *
  have hid' : ∀ y ∈ vars, ∀ z ∈ vars, nm y = nm z → y = z := fun y _ z hz => hid y z hz
  have hplace : ∀ y ∈ vars, ∀ σ : St W, σ.locals ((context nm vars setter).place (nm y)).1
      ((context nm vars setter).place (nm y)).2 = σ.locals 0 (slot vars y) :=
    fun y hy σ => getVar_slot (K := K) hy hid' σ
  have hV : Vars nm vars (context nm vars setter) :=
    ⟨hid, fun y hy => ⟨_, List.mem_cons_self, List.mem_map_of_mem (by simpa using hy)⟩⟩
  have hleg : Legal (Has vars nm) True true (.seq ns.flat) := by
    rw [Legal] at hk ⊢
    exact (Codegen.legalAll_flat ns true).2 hk
  have hm : Match (context nm vars setter) nm vars ⟨bind f.params vs, w⟩ ⟨slots c.lvars vs, w⟩ :=
    ⟨rfl, fun y hy => by rw [hplace y hy]; exact hslot y⟩
  have hS := does (self := me) (n := n) (x := context nm vars setter) hA hV (.CompStmt f.body) true _ hl hleg _ _ hm
  rw [run] at hS
  have hloaded : Loaded g (Env.mk K me c.ex T.consts T.case1 T.case2) := ⟨hB.ex, hB.consts, hB.case1, hB.case2⟩
  have key : ∀ o, runSeq O me n f.body true ⟨bind f.params vs, w⟩ = some (o, s) → ∃ r σ',
      Steps ⟨K, me, c.ex, T.consts, T.case1, T.case2⟩ c.code (.at 0 ⟨[], ⟨slots c.lvars vs, w⟩⟩)
        (.done (Codegen.outcome (context nm vars setter) r σ')) ∧ Agree true o r ∧ σ'.w = s.w := by
    intro o ho'
    obtain ⟨r, σ', e, a, m⟩ := hS o s ho'
    rw [eval, Codegen.evalSeq_flat] at e
    obtain ⟨r', e', a'⟩ := eval_begin (e := .seq ns) (by rw [eval]; exact e)
    refine ⟨r', σ', ?_, a' _ a, m.world⟩
    refine (Codegen.C78_optimized_code_ends_alike hg hB.small hloaded ho _ _).2 ?_
    refine Codegen.C31_compiled_code_does_what_ruby_does_partial (K := Env.mk K me c.ex T.consts T.case1 T.case2)
      (e := .begin_ (.seq ns) .nil .none .none) ⟨⟨?_, ?_⟩, ⟨_, _, _, _, hg⟩, hloaded,
        ⟨hB.small.code, hT.consts, hT.case1, hT.case2⟩⟩ ?_ ?_ (n := n) e'
    · simp [context]
    · simpa [context, Codegen.visible] using hv
    · rw [Supported]
      exact ⟨fun h => by simp [Codegen.Rescues.isEmpty] at h, hB.supported, by simp [Codegen.SupRescues], by simp [Codegen.SupOpt], by simp [Codegen.SupOpt]⟩
    · rw [Plain]
      exact ⟨rfl, hpl, by simp [Codegen.PlainRescues], by simp [Codegen.PlainOpt]⟩
  have hk : (context nm vars setter).kind = some .method := rfl
  unfold body at hp
  split at hp <;> cases hp
  · rename_i v ho
    obtain ⟨r, σ', st, a, w⟩ := key _ ho
    cases r <;> try exact a.elim
    obtain rfl := a rfl
    exact ⟨σ', st, w⟩
  · rename_i v ho
    obtain ⟨r, σ', st, a, w⟩ := key _ ho
    cases r <;> try exact a.elim
    obtain rfl := a
    rw [Codegen.outcome, hk, if_neg (by simp)] at st
    exact ⟨σ', st, w⟩
  · rename_i v ho
    obtain ⟨r, σ', st, a, w⟩ := key _ ho
    cases r <;> try exact a.elim
    obtain rfl := a
    exact ⟨σ', st, w⟩

/-! ## Calls -/

/-- Calls, as the interpreter answers them. -/
def vcall (O : Val → Objects W X) (M : List Code) (nm : Names) (invoke : Code → Val → List Val → W → Except X Val × W) (me : Val)
    (m : Chars) (o : Val) (vs : List Val) (w : W) : Except X Val × W :=
  match M.find? (·.id = nm m) with
  | none => (O me).call m o vs w
  | some c => invoke c o vs w

theorem acts {O : Val → Objects W X} {base : Val → World W X} {nm : Names} {setter : Id → Id}
    (hA : ∀ me, Acts (O me) (base me) nm setter) (M : List Code) (invoke : Code → Val → List Val → W → Except X Val × W)
    (me : Val) : Acts (via (O me) (vcall O M nm invoke me)) (world base M invoke me) nm setter :=
  { hA me with
    send := fun m o vs σ => by
      simp only [world, via, vcall]
      split
      · rename_i h; rw [h]; exact (hA me).send m o vs σ
      · rename_i h; rw [h] }

theorem find_related {α β : Type} {R : α → β → Prop} {p : α → Bool} {q : β → Bool} : ∀ {l : List α} {m : List β},
    List.Forall₂ R l m → (∀ a ∈ l, ∀ b, R a b → p a = q b) →
    (l.find? p = none ∧ m.find? q = none) ∨ ∃ a ∈ l, ∃ b ∈ m, l.find? p = some a ∧ m.find? q = some b ∧ R a b
  | [], [], _, _ => .inl ⟨rfl, rfl⟩
  | a :: l, b :: m, .cons h hs, hp => by
    have hab := hp a (by simp) b h
    rw [List.find?_cons, List.find?_cons, ← hab]
    cases p a
    · rcases find_related hs (fun a ha => hp a (by simp [ha])) with h | ⟨x, hx, y, hy, h1, h2, h3⟩
      · exact .inl h
      · exact .inr ⟨x, by simp [hx], y, by simp [hy], h1, h2, h3⟩
    · exact .inr ⟨a, by simp, b, by simp, rfl, rfl, h⟩

theorem body_mono {stop : X} {c c' : Chars → Val → List Val → W → Except X Val × W} (hc : LeCall stop c c') {O : Objects W X}
    {me : Val} {n : Nat} {l : List Node} {s s' : State W} {a : End X} (h : body (via O c) me n l s = some (a, s'))
    (ha : a ≠ .raises stop) : body (via O c') me n l s = some (a, s') := by
  have hm := monoSeq (O := O) (self := me) (n := n) hc l true s
  unfold body at h
  split at h <;> cases h
  all_goals
    rename_i h
    rw [body, hm _ _ h (by first | (intro q; cases q; exact ha rfl) | simp)]

/-- The method and its code. -/
def Compiles (nm : Names) (setter : Id → Id) (T : Tables) (f : Method) (c : Code) : Prop :=
  ∃ others l e g, Built nm setter T f c others l e g

section
variable {O : Val → Objects W X} {P : List Method} {wrong stop : X} {n d : Nat} {me o : Val} {m : Chars} {vs : List Val} {w : W}

theorem call_none (h : P.find? (·.name = m) = none) : call O P wrong stop n d me m o vs w = (O me).call m o vs w := by
  rw [call.eq_def]
  dsimp only
  rw [h]

theorem call_zero {f : Method} (h : P.find? (·.name = m) = some f) :
    call O P wrong stop n 0 me m o vs w = (.error stop, w) := by
  rw [call.eq_def]
  dsimp only
  rw [h]

theorem call_succ {f : Method} (h : P.find? (·.name = m) = some f) :
    call O P wrong stop n (d + 1) me m o vs w =
      if vs.length ≠ f.params.length then (.error wrong, w)
      else
        match body (via (O o) (call O P wrong stop n d o)) o n f.body ⟨bind f.params vs, w⟩ with
        | some (.returns v, s) => (.ok v, s.w)
        | some (.raises x, s) => (.error x, s.w)
        | none => (.error stop, w) := by
  rw [call.eq_def]
  dsimp only
  rw [h]
  rfl
end

open Classical in
theorem calls {O : Val → Objects W X} {base : Val → World W X} {nm : Names} {setter : Id → Id} {T : Tables} (hT : T.Room)
    {P : List Method} {M : List Code} (hA : ∀ me, Acts (O me) (base me) nm setter)
    (hM : List.Forall₂ (Compiles nm setter T) P M) (hnm : ∀ f ∈ P, ∀ m, nm m = nm f.name → m = f.name) (wrong stop : X) (n : Nat) :
    ∀ d me, LeCall stop (call O P wrong stop n d me) (vcall O M nm (invoke base T M wrong stop d) me) := by
  have hp : ∀ m, ∀ f ∈ P, ∀ c, Compiles nm setter T f c → decide (f.name = m) = decide (c.id = nm m) := by
    rintro m f hf c ⟨_, _, _, _, h⟩
    rw [h.id]
    simp only [decide_eq_decide]
    exact ⟨fun h => by rw [h], fun h => (hnm f hf m h.symm).symm⟩
  intro d
  induction d with
  | zero =>
    intro me m o vs w hne
    rcases find_related (p := (·.name = m)) (q := (·.id = nm m)) hM (hp m) with ⟨h1, h2⟩ | ⟨f, hf, c, -, h1, h2, h3⟩
    · rw [call_none h1, vcall, h2]
    · rw [call_zero h1] at hne
      exact absurd rfl hne
  | succ d ih =>
    intro me m o vs w hne
    rcases find_related (p := (·.name = m)) (q := (·.id = nm m)) hM (hp m) with ⟨h1, h2⟩ | ⟨f, hf, c, -, h1, h2, h3⟩
    · rw [call_none h1, vcall, h2]
    · rw [call_succ h1] at hne ⊢
      rw [vcall, h2]
      dsimp only at hne ⊢
      obtain ⟨others, l, e, g, hB⟩ := h3
      rw [invoke, hB.arity]
      by_cases hlen : vs.length ≠ f.params.length
      · rw [if_pos hlen, if_pos hlen]
      · rw [if_neg hlen] at hne ⊢
        rw [if_neg hlen]
        have hrun : ∀ a s, body (via (O o) (call O P wrong stop n d o)) o n f.body ⟨bind f.params vs, w⟩ = some (a, s) →
            a ≠ .raises stop → ∀ σ : St W, σ.w = s.w → (if h : ∃ r, Steps (env base T M (invoke base T M wrong stop d) c.ex o) c.code
              (.at 0 ⟨[], ⟨slots c.lvars vs, w⟩⟩) (.done r) then result stop w h.choose else (.error stop, w)) =
              result stop w (ending σ a) := by
          intro a s hb ha σ hσ
          obtain ⟨σ', st, hw⟩ := body_runs hB hT (acts hA M (invoke base T M wrong stop d) o) (by simpa using hlen)
            (body_mono (ih o) hb ha)
          have hex : ∃ r, Steps (env base T M (invoke base T M wrong stop d) c.ex o) c.code
              (.at 0 ⟨[], ⟨slots c.lvars vs, w⟩⟩) (.done r) := ⟨_, st⟩
          rw [dif_pos hex, hex.choose_spec.done_unique st]
          cases a <;> simp only [ending, result, hσ, hw]
        split at hne
        · rename_i v s hb
          exact hrun _ _ hb (by simp) ⟨fun _ _ => Value.nil, s.w⟩ rfl
        · rename_i x s hb
          exact hrun _ _ hb (by rintro ⟨⟩; exact hne rfl) ⟨fun _ _ => Value.nil, s.w⟩ rfl
        · exact absurd rfl hne

end Verif.Methods
