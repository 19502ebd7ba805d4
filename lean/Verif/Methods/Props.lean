import Verif.Methods.Lemmas
/-!
# C82: programs with methods do what they say

Methods that call each other and themselves.  The specification runs trees by names (`Spec`); the model runs the code that
the compiler and its last pass made of each method, in a frame of its own (`Model`).
-/
namespace Verif.Methods
open Verif.Lexer (Chars Unicode)
open Verif.Parser (Node Lines Parses stripAll)
open Verif.Pipeline (Names lower context Room Placed Has)
open Verif.ISeq (optimize)
open Verif.Codegen (Id Env World St R Ctx G Const CaseMap CaseMap2 gen_iseq Loaded Steps Supported Plain Tame Legal)
open Verif.Meaning (slot)
open Verif.Meaning.Named
open Verif.Value (Val)

variable {W X : Type}

/-! ## Calls -/

/-- **C82** (calls; part: methods with required parameters only, whose bodies are those of C78).

Let `M` be the compiled methods of the program `P`.  Whatever a call comes to according to `call`, with calls nested at most
`d` deep, running the code of the methods comes to: the same value or exception, and the same objects afterwards. -/
theorem C82_calls_do_what_methods_say_partial {O : Val → Objects W X} {base : Val → World W X} {nm : Names} {setter : Id → Id}
    {T : Tables} (hT : T.Room) {P : List Method} {M : List Code} (hA : ∀ me, Acts (O me) (base me) nm setter)
    (hM : List.Forall₂ (Compiles nm setter T) P M) (hnm : ∀ f ∈ P, ∀ m, nm m = nm f.name → m = f.name) (wrong stop : X)
    (n d : Nat) (me : Val) (m : Chars) (o : Val) (vs : List Val) (σ : St W)
    (hr : (call O P wrong stop n d me m o vs σ.w).1 ≠ .error stop) :
    (world base M (invoke base T M wrong stop d) me).send (nm m) o vs σ = lift σ (call O P wrong stop n d me m o vs σ.w) := by
  rw [(acts hA M (invoke base T M wrong stop d) me).send]
  exact congrArg _ (calls hT hA hM hnm wrong stop n d me m o vs σ.w hr)

/-- **C82** (programs; part, as above and as C78).

Take a program text and the statements that it stands for.  The parser reads it, the compiler accepts what the parser makes of
it, and the last pass completes.  Run the code where the methods `P` are defined: whatever the program comes to according to
`program`, running the code comes to, and afterwards the objects and the variables are as they should be. -/
theorem C82_programs_with_methods_do_what_they_say_partial (U : Unicode) (nm : Names) (setter : Id → Id) {text : Chars}
    {l : List Node} {vars : List Chars} {e : Codegen.Node} (ht : Lines false [] text l vars)
    (hid : ∀ y, ∀ z ∈ vars, nm y = nm z → y = z)
    (hl : lower nm (.CompStmt l) = some e) (hs : Supported false e true true true) (hp : Plain (context nm vars setter) e true)
    (hj : Placed e) (htame : Tame e) (hv : vars.length < 2 ^ 32) (hw : e.weight + 1 < 2 ^ 27)
    (consts : List Const) (case1 : List (Option CaseMap)) (case2 : List (Option CaseMap2)) (caches : Nat)
    (hc : consts.length + e.weight < 2 ^ 32) (h1 : case1.length + e.weight < 2 ^ 32) (h2 : case2.length + e.weight < 2 ^ 32) :
    ∃ tree c g fuel code, Parses U text tree vars ∧ lower nm tree = some c ∧
      gen_iseq (context nm vars setter) c (.start consts case1 case2 caches) = .ok ((), g) ∧
      optimize fuel g.code = some code ∧
      ∀ (O : Val → Objects W X) (base : Val → World W X) (T : Tables) (P : List Method) (M : List Code) (wrong stop : X),
        (∀ me, Acts (O me) (base me) nm setter) → T.Room → List.Forall₂ (Compiles nm setter T) P M →
        (∀ f ∈ P, ∀ m, nm m = nm f.name → m = f.name) →
        ∀ (n d : Nat) (self : Val), Loaded g (machine base T M wrong stop d g.ex self) →
        ∀ σ : St W, (∀ i, σ.locals 0 i = Value.nil) → ∀ answer s,
        program O P wrong stop n d self l σ.w = some (answer, s) → answer ≠ .raises stop →
        ∃ σ', Steps (machine base T M wrong stop d g.ex self) code (.at 0 ⟨[], σ⟩) (.done (ending σ' answer)) ∧ σ'.w = s.w ∧
          ∀ y ∈ vars, σ'.locals 0 (slot vars y) = s.vars y := by
  obtain ⟨tree, c, g, fuel, code, q1, q2, q3, q4, q5⟩ := C78_programs_do_what_they_say_partial (W := W) (X := X) U nm setter
    ht hid hl hs hp hj htame hv hw consts case1 case2 caches hc h1 h2
  refine ⟨tree, c, g, fuel, code, q1, q2, q3, q4, fun O base T P M wrong stop hA hT hM hnm n d self hK σ hσ answer s hp ha => ?_⟩
  refine q5 (machine base T M wrong stop d g.ex self) (via (O self) (vcall O M nm (invoke base T M wrong stop d) self))
    (acts hA M _ self) hK ⟨hT.consts, hT.case1, hT.case2⟩ n σ hσ answer s ?_
  exact body_mono (s := ⟨fun _ => Value.nil, σ.w⟩) (calls hT hA hM hnm wrong stop n d self) hp ha

/-- **C82** (the bound on the depth of calls is no part of the meaning).  A call that is answered with calls nested at most
`d` deep has the same answer with any larger bound. -/
theorem C82_depth_does_not_matter (O : Val → Objects W X) (P : List Method) (wrong stop : X) (n : Nat) {d d' : Nat} (h : d ≤ d')
    (me : Val) (m : Chars) (o : Val) (vs : List Val) (w : W) (hr : (call O P wrong stop n d me m o vs w).1 ≠ .error stop) :
    call O P wrong stop n d' me m o vs w = call O P wrong stop n d me m o vs w := by
  have key : ∀ d me, LeCall stop (call O P wrong stop n d me) (call O P wrong stop n (d + 1) me) := by
    intro d
    induction d with
    | zero =>
      intro me m o vs w hr
      rcases h : P.find? (·.name = m) with _ | f
      · rw [call_none h, call_none h]
      · rw [call_zero h] at hr
        exact absurd rfl hr
    | succ d ih =>
      intro me m o vs w hr
      rcases h : P.find? (·.name = m) with _ | f
      · rw [call_none h, call_none h]
      · rw [call_succ h] at hr ⊢
        rw [call_succ h]
        split
        · rfl
        · rename_i hlen
          rw [if_neg hlen] at hr
          split at hr
          · rename_i v s hb
            rw [body_mono (ih o) hb (by simp)]
          · rename_i x s hb
            rw [body_mono (ih o) hb (by rintro ⟨⟩; exact hr rfl)]
          · exact absurd rfl hr
  induction d', h using Nat.le_induction with
  | base => rfl
  | succ d' h ih => rw [key d' me m o vs w (by rw [ih]; exact hr), ih]

/-! ## Methods compile -/

/-- A method, the other variables of its body (the last first), the parser's tree for its body, and the compiler's tree. -/
structure Source where
  method : Method
  others : List Chars
  trees : List Node
  e : Codegen.Node

/-- Variables: parameters in order, then the others. -/
def Source.vars (S : Source) : List Chars := S.others ++ S.method.params.reverse

/-- The conditions on a body of C78. -/
structure Source.Fine (S : Source) (nm : Names) (setter : Id → Id) : Prop where
  tree : stripAll S.trees = S.method.body
  lower : lower nm (.CompStmt S.trees) = some S.e
  known : Legal (Has S.vars nm) True true S.e
  placed : Placed S.e
  supported : Supported false S.e true true true
  plain : Plain (context nm S.vars setter) S.e true
  tame : Tame S.e
  vars : S.vars.length < 2 ^ 32
  names : ∀ y, ∀ z ∈ S.vars, nm y = nm z → y = z
  small : S.e.weight + 7 < 2 ^ 27

theorem prefix_get {α : Type} {a b : List α} (h : a <+: b) {i : Nat} {x : α} (hx : a[i]? = some x) : b[i]? = some x := by
  obtain ⟨t, rfl⟩ := h
  rw [List.getElem?_append_left (List.getElem?_eq_some_iff.1 hx).1, hx]

theorem iseq_ext {x : Ctx} (hx : Codegen.CtxOK x) {e : Codegen.Node} {consts : List Const} {case1 : List (Option CaseMap)}
    {case2 : List (Option CaseMap2)} {caches : Nat} {g : G}
    (h : gen_iseq x e (.start consts case1 case2 caches) = .ok ((), g)) :
    consts <+: g.consts ∧ case1 <+: g.case1 ∧ case2 <+: g.case2 := by
  obtain ⟨_, g1, h1, h2⟩ := Codegen.bindM.1 h
  have s1 := ((Codegen.good (W := Unit) (X := Unit) hx e).1 true) _ _ _ h1 []
  have s2 := Codegen.emitM_step (W := Unit) (X := Unit) [] h2
  have := s1.ext.trans s2.ext
  exact ⟨this.consts, this.case1, this.case2⟩

/-- Room that the code of methods takes in the tables, at most. -/
def room : List Source → Nat
  | [] => 0
  | S :: Ss => S.e.weight + 7 + room Ss

/-- As `C82_methods_compile_partial`, with the parts and sizes. -/
theorem methods_build (nm : Names) (setter : Id → Id) : ∀ (Ss : List Source) (_ : ∀ S ∈ Ss, S.Fine nm setter)
    (consts : List Const) (case1 : List (Option CaseMap)) (case2 : List (Option CaseMap2)),
    consts.length + room Ss < 2 ^ 32 → case1.length + room Ss < 2 ^ 32 → case2.length + room Ss < 2 ^ 32 →
    ∃ (M : List Code) (T : Tables), List.Forall₂ (fun S c => ∃ g, Built nm setter T S.method c S.others S.trees S.e g) Ss M ∧
      (T.consts.length ≤ consts.length + room Ss ∧ T.case1.length ≤ case1.length + room Ss ∧
        T.case2.length ≤ case2.length + room Ss) ∧
      consts <+: T.consts ∧ case1 <+: T.case1 ∧ case2 <+: T.case2
  | [], _, consts, case1, case2, h1, h2, h3 => by
    rw [room] at h1 h2 h3
    exact ⟨[], ⟨consts, case1, case2⟩, .nil, ⟨Nat.le_add_right _ _, Nat.le_add_right _ _, Nat.le_add_right _ _⟩, List.prefix_refl _, List.prefix_refl _, List.prefix_refl _⟩
  | S :: Ss, hF, consts, case1, case2, h1, h2, h3 => by
    rw [room] at h1 h2 h3
    have hS := hF S (by simp)
    have hwt : (Codegen.Node.begin_ S.e .nil .none .none).weight = S.e.weight + 6 := by
      simp [Codegen.Node.weight, Codegen.Rescues.weight, Codegen.OptNode.weight]
    have hleg : Codegen.LegalBody (context nm S.vars setter) (.begin_ S.e .nil .none .none) := by
      rw [Codegen.LegalBody, Pipeline.context_knows, Legal]
      have hkind : ((context nm S.vars setter).kind = some .block) = False := by simp [Ctx.kind, context]
      rw [hkind]
      refine ⟨Codegen.legal_parts S.e hS.known hS.placed, by rw [Codegen.LegalRescues]; trivial, ?_, ?_⟩ <;>
        (rw [Codegen.LegalOpt]; trivial)
    obtain ⟨g, hg⟩ := (Codegen.C65_accepts_exactly_the_legal (context nm S.vars setter) (.begin_ S.e .nil .none .none) consts case1
      case2 0 (by omega)).2 hleg
    obtain ⟨z1, z2, z3, z4⟩ := Codegen.C65_size_of_code (context nm S.vars setter) (.begin_ S.e .nil .none .none) consts case1
      case2 0 g (by omega) hg
    rw [hwt] at z1 z2 z3 z4
    have hsm := hS.small
    have hb : Codegen.Bounded g := ⟨by omega, by omega, by omega⟩
    have htame : Tame (.begin_ S.e .nil .none .none) := by
      simp [Tame, Codegen.TameRescues, Codegen.TameOpt, hS.tame]
    obtain ⟨fuel, code, ho⟩ := Codegen.C78_optimizer_completes_partial hg hb htame
    obtain ⟨M, T, k1, k2, k3, k4, k5⟩ := methods_build nm setter Ss (fun S h => hF S (by simp [h])) g.consts g.case1 g.case2
      (by omega) (by omega) (by omega)
    have hx : Codegen.CtxOK (context nm S.vars setter) :=
      ⟨by simp [context], by simpa [context, Codegen.visible] using hS.vars⟩
    obtain ⟨y1, y2, y3⟩ := iseq_ext hx hg
    refine ⟨⟨nm S.method.name, S.method.params.length, S.vars.length, code, g.ex⟩ :: M, T, .cons ⟨g, ?_⟩ k1,
      ⟨?_, ?_, ?_⟩, y1.trans k3, y2.trans k4, y3.trans k5⟩
    rotate_left
    · rw [room]; omega
    · rw [room]; omega
    · rw [room]; omega
    exact ⟨rfl, rfl, rfl, hS.tree, hS.lower, ⟨_, _, _, _, hg⟩, ⟨fuel, ho⟩, rfl, k3,
      fun i m h => prefix_get k4 h, fun i m h => prefix_get k5 h,
      hS.known, hS.supported, hS.plain, hS.vars, hb, hS.names⟩

/-- **C82** (methods compile; part, as above).  One after the other, the methods are compiled and optimized; the tables
only grow. -/
theorem C82_methods_compile_partial (nm : Names) (setter : Id → Id) : ∀ (Ss : List Source) (_ : ∀ S ∈ Ss, S.Fine nm setter)
    (consts : List Const) (case1 : List (Option CaseMap)) (case2 : List (Option CaseMap2)),
    consts.length + room Ss < 2 ^ 32 → case1.length + room Ss < 2 ^ 32 → case2.length + room Ss < 2 ^ 32 →
    ∃ M T, List.Forall₂ (Compiles nm setter T) (Ss.map Source.method) M ∧ T.Room ∧ consts <+: T.consts ∧ case1 <+: T.case1 ∧
      case2 <+: T.case2 := by
  intro Ss hF consts case1 case2 h1 h2 h3
  obtain ⟨M, T, k1, ⟨k2, k3, k4⟩, k5⟩ := methods_build nm setter Ss hF consts case1 case2 h1 h2 h3
  refine ⟨M, T, List.forall₂_map_left_iff.2 (k1.imp fun S c ⟨g, h⟩ => ⟨_, _, _, g, h⟩), ⟨by omega, by omega, by omega⟩, k5⟩

end Verif.Methods
