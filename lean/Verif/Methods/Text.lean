import Verif.Methods.Props
/-!
# C82: from the text of a program with methods to what its code does

`def f(…) … end ; def g(…) … end ; statements`.
-/
namespace Verif.Methods
open Verif.Lexer (Chars Unicode)
open Verif.Parser (Node Lines Line Statement Expr Arg Parses strip stripAll VarName defText word)
open Verif.Pipeline (Names lower context Room Placed Has)
open Verif.ISeq (optimize)
open Verif.Codegen (Id Env World St R Ctx G Const CaseMap CaseMap2 gen_iseq Loaded Steps Supported Plain Tame Legal)
open Verif.Meaning (slot)
open Verif.Meaning.Named
open Verif.Value (Val)

variable {W X : Type}

/-! ## Texts -/

/-- The definition of a method in a text: its name, its parameters, the text of its body, the statements that this text
stands for, and the other variables of the body (the last first). -/
structure Definition where
  name : Chars
  params : List Chars
  text : Chars
  body : List Node
  others : List Chars

namespace Definition

def vars (d : Definition) : List Chars := d.others ++ d.params.reverse

/-- What it defines. -/
def method (d : Definition) : Method := ⟨d.name, d.params, d.body⟩

/-- Its text is one of the grammar of C49. -/
structure Reads (d : Definition) : Prop where
  name : VarName d.name
  params : ∀ x ∈ d.params, VarName x
  distinct : d.params.Nodup
  body : Lines false d.params.reverse d.text d.body d.vars

/-- The conditions of C78 on the body, with the compiler's tree for it. -/
structure Fine (d : Definition) (nm : Names) (setter : Id → Id) (e : Codegen.Node) : Prop where
  lower : lower nm (.CompStmt d.body) = some e
  placed : Placed e
  supported : Supported false e true true true
  plain : Plain (context nm d.vars setter) e true
  tame : Tame e
  vars : d.vars.length < 2 ^ 32
  names : ∀ y, ∀ z ∈ d.vars, nm y = nm z → y = z
  small : e.weight + 7 < 2 ^ 27

end Definition

/-- The text of definitions, and statements after them. -/
def source : List Definition → Chars → Chars
  | [], s => s
  | d :: ds, s => defText d.name d.params (d.text ++ word ";") ++ (word ";" ++ source ds s)

/-- The definition in a node of the parser, without statement lists around it. -/
def unwrap : Node → Node
  | .CompStmt [e] => unwrap e
  | e => e

/-- `c` is the code for the parser's node `t`, a definition. -/
def Made (nm : Names) (setter : Id → Id) (t : Node) (c : Code) : Prop :=
  ∃ name params vars b e g fuel consts case1 case2 caches, unwrap t = .Def name params (.CompStmt b) vars ∧ c.id = nm name ∧
    c.arity = params.length ∧ c.lvars = vars.length ∧ lower nm (.CompStmt b) = some e ∧
    gen_iseq (context nm vars setter) (.begin_ e .nil .none .none) (.start consts case1 case2 caches) = .ok ((), g) ∧
    optimize fuel g.code = some c.code ∧ c.ex = g.ex

/-! ## Lemmas -/

theorem unwrap_def (n : Chars) (ps vs : List Chars) (l : List Node) : ∀ (t : Node), strip t = .Def n ps (.CompStmt l) vs →
    ∃ b, unwrap t = .Def n ps (.CompStmt b) vs ∧ stripAll b = l := by
  intro t
  fun_induction unwrap t with
  | case1 e ih =>
    intro h
    exact ih h
  | case2 t hne =>
    intro h
    cases t
    case CompStmt ls =>
      rcases ls with _ | ⟨a, _ | ⟨b, ls⟩⟩
      · cases h
      · exact absurd rfl (hne a)
      · cases h
    case Def n' ps' b vs' =>
      cases b <;> cases h
      exact ⟨_, rfl, rfl⟩
    all_goals cases h

theorem source_lines {ds : List Definition} (hr : ∀ d ∈ ds, d.Reads) {text : Chars} {l : List Node} {vars : List Chars}
    (ht : Lines false [] text l vars) :
    Lines false [] (source ds text) (ds.map (fun d => .Def d.name d.params (.CompStmt d.body) d.vars) ++ l) vars := by
  induction ds with
  | nil => exact ht
  | cons d ds ih =>
    have h := hr d (by simp)
    exact .more (.statement (.expr (.arg (.defn h.name h.params h.distinct h.body)))) (ih fun d hd => hr d (by simp [hd]))

theorem stripAll_append {l a b : List Node} : stripAll l = a ++ b → ∃ l₁ l₂, l = l₁ ++ l₂ ∧ stripAll l₁ = a ∧ stripAll l₂ = b := by
  induction a generalizing l with
  | nil => exact fun h => ⟨[], l, rfl, rfl, h⟩
  | cons x a ih =>
    intro h
    rcases l with _ | ⟨y, l⟩
    · cases h
    · rw [stripAll, List.cons_append] at h
      obtain ⟨h1, h2⟩ := List.cons.inj h
      obtain ⟨l₁, l₂, rfl, h3, h4⟩ := ih h2
      exact ⟨y :: l₁, l₂, rfl, by rw [stripAll, h1, h3], h4⟩

/-- Room that the code of definitions takes, at most. -/
def space : List Codegen.Node → Nat
  | [] => 0
  | e :: es => e.weight + 7 + space es

theorem sources (nm : Names) (setter : Id → Id) {ds : List Definition} {es : List Codegen.Node} {ts : List Node}
    (hr : ∀ d ∈ ds, d.Reads) (hf : List.Forall₂ (fun d e => d.Fine nm setter e) ds es)
    (ht : stripAll ts = ds.map (fun d => .Def d.name d.params (.CompStmt d.body) d.vars)) :
    ∃ Ss : List Source, (∀ S ∈ Ss, S.Fine nm setter) ∧ room Ss = space es ∧ Ss.map Source.method = ds.map Definition.method ∧
      List.Forall₂ (fun t (S : Source) => unwrap t = .Def S.method.name S.method.params (.CompStmt S.trees) S.vars) ts Ss := by
  induction hf generalizing ts with
  | nil =>
    rcases ts with _ | ⟨t, ts⟩
    · exact ⟨[], by simp, rfl, rfl, .nil⟩
    · cases ht
  | @cons d e ds es hd hds ih =>
    rcases ts with _ | ⟨t, ts⟩
    · cases ht
    rw [stripAll, List.map_cons] at ht
    obtain ⟨h1, h2⟩ := List.cons.inj ht
    obtain ⟨Ss, k1, k2, k3, k4⟩ := ih (fun d h => hr d (by simp [h])) h2
    obtain ⟨b, h3, h4⟩ := unwrap_def _ _ _ _ t h1
    obtain ⟨ns, h5, h6⟩ := Pipeline.lower_program h4 hd.lower
    subst h6
    have hwt : (Codegen.Node.seq ns.flat).weight = (Codegen.Node.seq ns).weight := by
      rw [Codegen.Node.weight, Codegen.Node.weight, Codegen.seqWeight_flat]
    refine ⟨⟨d.method, d.others, b, .seq ns⟩ :: Ss, ?_, ?_, ?_, .cons h3 k4⟩
    · intro S hS
      rcases List.mem_cons.1 hS with rfl | hS
      · refine ⟨h4, h5, ?_, ?_, ?_, ?_, ?_, hd.vars, hd.names, ?_⟩
        · have := Pipeline.lines_legal (hr d (by simp)).body hd.lower
          rw [Legal, Codegen.legalAll_flat] at this
          rw [Legal]
          exact this
        · have := hd.placed
          rw [Placed, Legal, Codegen.legalAll_flat] at this
          rw [Placed, Legal]
          exact this
        · have := hd.supported
          rw [Supported, Codegen.supSeq_flat] at this
          rw [Supported]
          exact this
        · have := hd.plain
          rw [Plain, Codegen.plainSeq_flat] at this
          rw [Plain]
          exact this
        · have := hd.tame
          rw [Tame, Codegen.tameAll_flat] at this
          rw [Tame]
          exact this
        · have := hd.small
          rw [hwt] at this
          exact this
      · exact k1 S hS
    · rw [room, space, k2, hwt]
    · rw [List.map_cons, List.map_cons, k3]

theorem Built.mono {nm : Names} {setter : Id → Id} {T T' : Tables} {f : Method} {c : Code} {others : List Chars} {l : List Node}
    {e : Codegen.Node} {g : G} (h : Built nm setter T f c others l e g) (h1 : T.consts <+: T'.consts)
    (h2 : T.case1 <+: T'.case1) (h3 : T.case2 <+: T'.case2) : Built nm setter T' f c others l e g :=
  { h with
    consts := h.consts.trans h1
    case1 := fun i m q => prefix_get h2 (h.case1 i m q)
    case2 := fun i m q => prefix_get h3 (h.case2 i m q) }

/-! ## The theorem -/

/-- **C82** (from the text; part, as the theorems before; the definitions come first and are not inside of others).

Take the text of a program: definitions of methods, and then statements.  The parser reads it.  The compiler accepts what the
parser makes of each definition and of the statements, and the last pass completes.  Run the code of the statements where the
methods have been defined, a later definition instead of an earlier one of the same name: whatever the program comes to
according to `program`, running the code comes to, and afterwards the objects and the variables are as they should be. -/
theorem C82_texts_with_methods_do_what_they_say_partial (U : Unicode) (nm : Names) (setter : Id → Id) {ds : List Definition}
    {es : List Codegen.Node} (hr : ∀ d ∈ ds, d.Reads) (hf : List.Forall₂ (fun d e => d.Fine nm setter e) ds es)
    (hnm : ∀ d ∈ ds, ∀ m, nm m = nm d.name → m = d.name)
    {text : Chars} {l : List Node} {vars : List Chars} {e : Codegen.Node} (ht : Lines false [] text l vars)
    (hid : ∀ y, ∀ z ∈ vars, nm y = nm z → y = z)
    (hl : lower nm (.CompStmt l) = some e) (hs : Supported false e true true true) (hp : Plain (context nm vars setter) e true)
    (hj : Placed e) (htame : Tame e) (hv : vars.length < 2 ^ 32) (hw : e.weight + 1 < 2 ^ 27)
    (hroom : space es + e.weight + 1 < 2 ^ 32) :
    ∃ ts l' M c consts case1 case2 g fuel code, Parses U (source ds text) (.CompStmt (ts ++ l')) vars ∧
      List.Forall₂ (Made nm setter) ts M ∧ lower nm (.CompStmt l') = some c ∧
      gen_iseq (context nm vars setter) c (.start consts case1 case2 0) = .ok ((), g) ∧ optimize fuel g.code = some code ∧
      ∀ (O : Val → Objects W X) (base : Val → World W X) (wrong stop : X), (∀ me, Acts (O me) (base me) nm setter) →
        ∀ (n d : Nat) (self : Val) (σ : St W), (∀ i, σ.locals 0 i = Value.nil) → ∀ answer s,
        program O (ds.map Definition.method).reverse wrong stop n d self l σ.w = some (answer, s) → answer ≠ .raises stop →
        ∃ σ', Steps (machine base ⟨g.consts, g.case1, g.case2⟩ M.reverse wrong stop d g.ex self) code (.at 0 ⟨[], σ⟩)
            (.done (ending σ' answer)) ∧ σ'.w = s.w ∧ ∀ y ∈ vars, σ'.locals 0 (slot vars y) = s.vars y := by
  obtain ⟨l₀, p1, p2⟩ := Parser.C49_statements U (source_lines hr ht)
  obtain ⟨ts, l', rfl, p3, p4⟩ := stripAll_append p1
  obtain ⟨Ss, s1, s2, s3, s4⟩ := sources nm setter hr hf p3
  obtain ⟨M, T, k1, ⟨k2, k3, k4⟩, -⟩ := methods_build nm setter Ss s1 [] [] [] (by rw [s2]; simp; omega) (by rw [s2]; simp; omega)
    (by rw [s2]; simp; omega)
  rw [s2] at k2 k3 k4
  simp only [List.length_nil, Nat.zero_add] at k2 k3 k4
  obtain ⟨c, g, fuel, code, q2, q3, q4, q5⟩ := tree_does_named (W := W) (X := X) nm setter p4 hid hl
    (Pipeline.lines_legal ht hl) hs hp hj htame hv hw T.consts T.case1 T.case2 0 (by omega) (by omega) (by omega)
  refine ⟨ts, l', M, c, _, _, _, g, fuel, code, p2, ?_, q2, q3, q4, ?_⟩
  · clear s1 s2 s3 k2 k3 k4 q2 q3 q4 q5 p1 p2 p3
    induction s4 generalizing M with
    | nil => cases k1; exact .nil
    | cons h _ ih =>
      cases k1 with
      | cons h' k1 =>
        obtain ⟨g, B⟩ := h'
        obtain ⟨_, _, _, _, hg⟩ := B.gen
        obtain ⟨_, ho⟩ := B.code
        exact .cons ⟨_, _, _, _, _, _, _, _, _, _, _, h, B.id, B.arity, B.lvars, B.lower, hg, ho, B.ex⟩ (ih _ k1)
  · intro O base wrong stop hA n d self σ hσ answer s hprog ha
    have hx : Codegen.CtxOK (context nm vars setter) := ⟨by simp [context], by simpa [context, Codegen.visible] using hv⟩
    obtain ⟨y1, y2, y3⟩ := iseq_ext hx q3
    have hwt : c.weight = e.weight := by
      obtain ⟨ns, h3, rfl⟩ := Pipeline.lower_program p4 hl
      rw [h3] at q2
      cases q2
      rw [Codegen.Node.weight, Codegen.Node.weight, Codegen.seqWeight_flat]
    obtain ⟨z1, z2, z3, z4⟩ := Codegen.C65_size_of_code (context nm vars setter) c T.consts T.case1 T.case2 0 g (by omega) q3
    have hT : Tables.Room ⟨g.consts, g.case1, g.case2⟩ :=
      ⟨by simp only; omega, by simp only; omega, by simp only; omega⟩
    have hM : List.Forall₂ (Compiles nm setter ⟨g.consts, g.case1, g.case2⟩) (ds.map Definition.method).reverse M.reverse := by
      rw [List.forall₂_reverse_iff, ← s3, List.forall₂_map_left_iff]
      exact k1.imp fun S c ⟨g', h⟩ => ⟨_, _, _, g', h.mono y1 y2 y3⟩
    have hnm' : ∀ f ∈ (ds.map Definition.method).reverse, ∀ m, nm m = nm f.name → m = f.name := by
      intro f hf m h
      obtain ⟨d, hd, rfl⟩ := List.mem_map.1 (List.mem_reverse.1 hf)
      exact hnm d hd m h
    refine q5 (machine base ⟨g.consts, g.case1, g.case2⟩ M.reverse wrong stop d g.ex self)
      (via (O self) (vcall O M.reverse nm (invoke base ⟨g.consts, g.case1, g.case2⟩ M.reverse wrong stop d) self))
      (acts hA M.reverse _ self) ⟨rfl, List.prefix_refl _, fun _ _ h => h, fun _ _ h => h⟩ ⟨hT.consts, hT.case1, hT.case2⟩ n σ hσ
      answer s ?_
    exact body_mono (s := ⟨fun _ => Value.nil, σ.w⟩) (calls hT hA hM hnm' wrong stop n d self) hprog ha

end Verif.Methods
