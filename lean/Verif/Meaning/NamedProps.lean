import Verif.Meaning.NamedTree
import Verif.Meaning.Props
/-!
# C76 and C78 again, against a specification by names

From the text of a program to what the optimized code does to objects and variables.  The specification (`Named`) runs the
tree that the text stands for; names are names, and nothing of the compiler's trees, identifiers and slots is in it.
-/
namespace Verif.Meaning.Named
open Verif.Lexer (Chars BinOp Unicode)
open Verif.Parser (Node Lines Parses)
open Verif.Pipeline (Names lower context Room Placed Has)
open Verif.ISeq (optimize)
open Verif.Codegen (Id Env World St R Ctx Const CaseMap CaseMap2 gen_iseq Loaded Steps Supported Plain Tame Legal)
open Verif.Value (Val)

variable {W X : Type}

/-- How the interpreter ends when the program comes to this. -/
def ending (σ : St W) : End X → R W X
  | .returns v => .ret v σ
  | .raises x => .err x σ

/-- As `Pipeline.tree_does_final`, by names. -/
theorem tree_does_named (id : Names) (setter : Id → Id) {l l' : List Node}
    {vars : List Chars} {e : Codegen.Node} (hstrip : Parser.stripAll l' = l) (hid : ∀ y, ∀ z ∈ vars, id y = id z → y = z)
    (hl : lower id (.CompStmt l) = some e) (hleg : Legal (Has vars id) True true e)
    (hs : Supported false e true true true) (hp : Plain (context id vars setter) e true)
    (hj : Placed e) (htame : Tame e) (hv : vars.length < 2 ^ 32) (hw : e.weight + 1 < 2 ^ 27)
    (consts : List Const) (case1 : List (Option CaseMap)) (case2 : List (Option CaseMap2)) (caches : Nat)
    (hc : consts.length + e.weight < 2 ^ 32) (h1 : case1.length + e.weight < 2 ^ 32) (h2 : case2.length + e.weight < 2 ^ 32) :
    ∃ c g fuel code, lower id (.CompStmt l') = some c ∧
      gen_iseq (context id vars setter) c (.start consts case1 case2 caches) = .ok ((), g) ∧
      optimize fuel g.code = some code ∧
      ∀ (K : Env W X) (O : Objects W X), Acts O K.world id setter → Loaded g K → Room K → ∀ n (σ : St W),
        (∀ i, σ.locals 0 i = Value.nil) → ∀ answer s, program O K.self n l σ.w = some (answer, s) →
        ∃ σ', Steps K code (.at 0 ⟨[], σ⟩) (.done (ending σ' answer)) ∧ σ'.w = s.w ∧
          ∀ y ∈ vars, σ'.locals 0 (slot vars y) = s.vars y := by
  obtain ⟨c, g, fuel, code, q2, q3, q4, q5⟩ := Pipeline.tree_does_final (W := W) (X := X) id setter
    hstrip hl hleg hs hp hj htame hv hw consts case1 case2 caches hc h1 h2
  refine ⟨c, g, fuel, code, q2, q3, q4, fun K O hA hK hR n σ hσ answer s hp => ?_⟩
  have hid' : ∀ y ∈ vars, ∀ z ∈ vars, id y = id z → y = z := fun y _ z hz => hid y z hz
  have hplace : ∀ y ∈ vars, ∀ σ : St W, σ.locals ((context id vars setter).place (id y)).1
      ((context id vars setter).place (id y)).2 = σ.locals 0 (slot vars y) :=
    fun y hy σ => getVar_slot (K := K.world) hy hid' σ
  have hV : Vars id vars (context id vars setter) :=
    ⟨hid, fun y hy => ⟨_, List.mem_cons_self, List.mem_map_of_mem (by simpa using hy)⟩⟩
  have hm : Match (context id vars setter) id vars ⟨fun _ => Value.nil, σ.w⟩ σ :=
    ⟨rfl, fun y hy => by rw [hplace y hy]; exact hσ _⟩
  have hS := does (self := K.self) (n := n) (x := context id vars setter) hA hV (.CompStmt l) true e hl hleg _ _ hm
  rw [run] at hS
  have key : ∀ o, runSeq O K.self n l true ⟨fun _ => Value.nil, σ.w⟩ = some (o, s) → ∃ r σ',
      Steps K code (.at 0 ⟨[], σ⟩) (.done (Codegen.outcome (context id vars setter) r σ')) ∧ Agree true o r ∧
        σ'.w = s.w ∧ ∀ y ∈ vars, σ'.locals 0 (slot vars y) = s.vars y := by
    intro o ho
    obtain ⟨r, σ', e, a, m⟩ := hS o s ho
    exact ⟨r, σ', q5 K hK hR n σ r σ' e, a, m.world, fun y hy => by rw [← hplace y hy]; exact m.locals y hy⟩
  have hk : (context id vars setter).kind = some .method := rfl
  unfold program at hp
  split at hp <;> cases hp
  · rename_i v ho
    obtain ⟨r, σ', st, a, w, m⟩ := key _ ho
    cases r <;> try exact a.elim
    obtain rfl := a rfl
    exact ⟨σ', st, w, m⟩
  · rename_i v ho
    obtain ⟨r, σ', st, a, w, m⟩ := key _ ho
    cases r <;> try exact a.elim
    obtain rfl := a
    rw [Codegen.outcome, hk, if_neg (by simp)] at st
    exact ⟨σ', st, w, m⟩
  · rename_i v ho
    obtain ⟨r, σ', st, a, w, m⟩ := key _ ho
    cases r <;> try exact a.elim
    obtain rfl := a
    exact ⟨σ', st, w, m⟩

/-- **C78** (part; as `Pipeline.C78_text_does_what_it_says_partial`, against the specification by names).

Take a program text, and the statements that it stands for.  The parser reads the text; the compiler accepts what the parser
makes of it; the optimizer completes; and whatever the program comes to according to `program`, running the code from
the start comes to: it returns that value or raises that exception.  Afterwards the objects are as they should be, and
each variable has the value that it should have. -/
theorem C78_programs_do_what_they_say_partial (U : Unicode) (id : Names) (setter : Id → Id) {text : Chars} {l : List Node}
    {vars : List Chars} {e : Codegen.Node} (ht : Lines false [] text l vars) (hid : ∀ y, ∀ z ∈ vars, id y = id z → y = z)
    (hl : lower id (.CompStmt l) = some e) (hs : Supported false e true true true) (hp : Plain (context id vars setter) e true)
    (hj : Placed e) (htame : Tame e) (hv : vars.length < 2 ^ 32) (hw : e.weight + 1 < 2 ^ 27)
    (consts : List Const) (case1 : List (Option CaseMap)) (case2 : List (Option CaseMap2)) (caches : Nat)
    (hc : consts.length + e.weight < 2 ^ 32) (h1 : case1.length + e.weight < 2 ^ 32) (h2 : case2.length + e.weight < 2 ^ 32) :
    ∃ tree c g fuel code, Parses U text tree vars ∧ lower id tree = some c ∧
      gen_iseq (context id vars setter) c (.start consts case1 case2 caches) = .ok ((), g) ∧
      optimize fuel g.code = some code ∧
      ∀ (K : Env W X) (O : Objects W X), Acts O K.world id setter → Loaded g K → Room K → ∀ n (σ : St W),
        (∀ i, σ.locals 0 i = Value.nil) → ∀ answer s, program O K.self n l σ.w = some (answer, s) →
        ∃ σ', Steps K code (.at 0 ⟨[], σ⟩) (.done (ending σ' answer)) ∧ σ'.w = s.w ∧
          ∀ y ∈ vars, σ'.locals 0 (slot vars y) = s.vars y := by
  obtain ⟨l', k1, k2⟩ := Parser.C49_statements U ht
  obtain ⟨c, g, fuel, code, h⟩ := tree_does_named (W := W) (X := X) id setter k1 hid hl (Pipeline.lines_legal ht hl) hs hp hj htame hv
    hw consts case1 case2 caches hc h1 h2
  exact ⟨_, c, g, fuel, code, k2, h⟩

/-! ## An example -/

namespace Demo
open Verif.Parser
open Verif.Codegen (Toy)

abbrev x : Chars := ['x']
abbrev y : Chars := ['y']

/-- A numbering of names. -/
def name : Names := fun s =>
  if s = x then 10 else if s = y then 11 else if s = ['p'] then Toy.pId else if s = "raise".toList then Toy.raiseId else 0

def text : Chars := " x = [ 2 , 3 ] ; y = x[ 0 ] + x[ 1 ] ; p( y , x ) ; y += 1".toList

def trees : List Node :=
  [.MulAssign [.Ident x] [.Array [.Integer 2, .Integer 3] true],
   .MulAssign [.Ident y] [.BinOp .Add (.Index (.LocalVar x) [.Integer 0]) (.Index (.LocalVar x) [.Integer 1])],
   .Send .SelfValue ['p'] [.LocalVar y, .LocalVar x] false,
   .AssignOp .Add (.LocalVar y) (.Integer 1)]

theorem reads : Lines false [] text trees [y, x] := by
  have i (Γ) (n : Int) (h : -Lexer.i64Max ≤ n) (h' : n ≤ Lexer.i64Max) : Tree Γ (.Integer n) Γ := .int h h'
  have hx (Γ) (h : x ∈ Γ) : Tree Γ (.LocalVar x) Γ := .lvar var_x h
  have hy (Γ) (h : y ∈ Γ) : Tree Γ (.LocalVar y) Γ := .lvar var_y h
  have var_p : VarName ['p'] := ⟨.ident (.plain (c := 'p') (t := []) (.inl (by decide)) (by simp)) (by intro r; cases r <;> decide)
    (by rintro c t h; cases h; decide), by decide⟩
  refine Pipeline.Demo.Lines.cast
    (.more (.statement (.expr (.arg (.tree (.assignNew var_x (by decide) (.array (.cons (i _ 2 (by decide) (by decide))
      (.cons (i _ 3 (by decide) (by decide)) .nil)) rfl))))))
    (.more (.statement (.expr (.arg (.tree (.assignNew var_y (by decide) (.bin (op := .Add)
      (.index (hx _ (by decide)) (.cons (i _ 0 (by decide) (by decide)) .nil))
      (.index (hx _ (by decide)) (.cons (i _ 1 (by decide) (by decide)) .nil))))))))
    (.more (.statement (.expr (.arg (.tree (.call (.inl var_p) (.cons (hy _ (by decide)) (.cons (hx _ (by decide)) .nil)))))))
    (.one (.statement (.expr (.arg (.tree (.assignOp (op := .Add) (by decide) .lvar (hy _ (by decide))
      (i _ 1 (by decide) (by decide)))))))))) ) (by decide +kernel) rfl rfl

/-- Objects of the toy world, by name. -/
def objects : Objects Toy Val where
  op o a b w := match o with
    | .Add => (Toy.bin .add a b ⟨fun _ _ => Value.nil, w⟩).map (fun r => r) (·.w)
    | .Sub => (Toy.bin .sub a b ⟨fun _ _ => Value.nil, w⟩).map (fun r => r) (·.w)
    | .TEq => (Toy.bin .teq a b ⟨fun _ _ => Value.nil, w⟩).map (fun r => r) (·.w)
    | _ => (.ok Value.nil, w)
  test o a b w := (Toy.cmp (match o with
    | .Eq => .eq | .Ne => .ne | .Gt => .gt | .Ge => .ge | .Lt => .lt | _ => .le) a b ⟨fun _ _ => Value.nil, w⟩).map (fun r => r) (·.w)
  unary _ v w := (.ok v, w)
  ivar _ _ := Value.nil
  setIvar _ _ w := w
  gvar _ _ := Value.nil
  setGvar _ _ w := w
  call m _ args w :=
    if m = ['p'] then (.ok Value.nil, { w with out := w.out ++ args })
    else if m = "raise".toList then (.error (args.head?.getD Value.nil), w)
    else (.ok Value.nil, w)
  range a b _ w := (.ok (.obj w.arrays.length), { w with arrays := w.arrays ++ [[a, b]] })
  index v i w := (Toy.index v i ⟨fun _ _ => Value.nil, w⟩).map (fun r => r) (·.w)
  setIndex _ _ _ w := (.ok (), w)
  array vs w := (.obj w.arrays.length, { w with arrays := w.arrays ++ [vs] })
  elements v w := Toy.asArray v ⟨fun _ _ => Value.nil, w⟩
  string _ w := (.obj w.arrays.length, { w with arrays := w.arrays ++ [[]] })

theorem bin_lift (o : Codegen.BinOp) (a b : Val) (σ : St Toy) :
    Toy.bin o a b σ = lift σ ((Toy.bin o a b ⟨fun _ _ => Value.nil, σ.w⟩).map (fun r => r) (·.w)) := by
  unfold Toy.bin
  split <;> rfl

theorem cmp_lift (o : Codegen.CmpOp) (a b : Val) (σ : St Toy) :
    Toy.cmp o a b σ = lift σ ((Toy.cmp o a b ⟨fun _ _ => Value.nil, σ.w⟩).map (fun r => r) (·.w)) := by
  unfold Toy.cmp
  split <;> rfl

theorem other_lift {o : Codegen.BinOp} (h : o ≠ .add ∧ o ≠ .sub ∧ o ≠ .teq) (a b : Val) (σ : St Toy) :
    Toy.bin o a b σ = (.ok Value.nil, σ) := by
  unfold Toy.bin
  split <;> first | rfl | simp_all

theorem name_eq (m : Chars) : name (m ++ ['=']) = 0 := by
  have h (t : Chars) (ht : t.getLast? ≠ some '=') : m ++ ['='] ≠ t := by rintro rfl; simp at ht
  unfold name
  rw [if_neg (h _ (by decide)), if_neg (h _ (by decide)), if_neg (h _ (by decide)), if_neg (h _ (by decide))]

theorem send_lift (m : Chars) (o : Val) (vs : List Val) (σ : St Toy) :
    Toy.world.send (name m) o vs σ = lift σ (objects.call m o vs σ.w) := by
  have hp : name m = Toy.pId ↔ m = ['p'] := by
    unfold name
    constructor
    · intro h
      split at h; · cases h
      split at h; · cases h
      split at h
      · assumption
      · split at h <;> cases h
    · rintro rfl; decide
  have hr : name m = Toy.raiseId ↔ m = "raise".toList := by
    unfold name
    constructor
    · intro h
      split at h; · cases h
      split at h; · cases h
      split at h; · cases h
      split at h
      · assumption
      · cases h
    · rintro rfl; decide
  simp only [Toy.world, objects, hp, hr]
  split
  · rfl
  · split <;> rfl

theorem acts : Acts objects Toy.world name (fun _ => 0) where
  add a b σ := bin_lift .add a b σ
  sub a b σ := bin_lift .sub a b σ
  teq a b σ := bin_lift .teq a b σ
  mul a b σ := other_lift (o := .mul) (by decide) a b σ
  div a b σ := other_lift (o := .div) (by decide) a b σ
  rem a b σ := other_lift (o := .rem) (by decide) a b σ
  exp a b σ := other_lift (o := .exp) (by decide) a b σ
  shr a b σ := other_lift (o := .shr) (by decide) a b σ
  shl a b σ := other_lift (o := .shl) (by decide) a b σ
  band a b σ := other_lift (o := .band) (by decide) a b σ
  bor a b σ := other_lift (o := .bor) (by decide) a b σ
  bxor a b σ := other_lift (o := .bxor) (by decide) a b σ
  compare a b σ := other_lift (o := .cmp) (by decide) a b σ
  eq a b σ := cmp_lift .eq a b σ
  ne a b σ := cmp_lift .ne a b σ
  gt a b σ := cmp_lift .gt a b σ
  ge a b σ := cmp_lift .ge a b σ
  lt a b σ := cmp_lift .lt a b σ
  le a b σ := cmp_lift .le a b σ
  neg _ _ := rfl
  pos _ _ := rfl
  bitnot _ _ := rfl
  getI _ _ := rfl
  setI _ _ _ := rfl
  getG _ _ := rfl
  setG _ _ _ := rfl
  send := send_lift
  setter m := (name_eq m).symm
  range _ _ _ _ := rfl
  index v i σ := by
    show Toy.index v i σ = lift σ ((Toy.index v i ⟨fun _ _ => Value.nil, σ.w⟩).map (fun r => r) (·.w))
    unfold Toy.index
    have : Toy.asArray v σ = Toy.asArray v ⟨fun _ _ => Value.nil, σ.w⟩ := by cases v <;> rfl
    rw [this]
    split <;> rfl
  setIndex _ _ _ _ := rfl
  array _ _ := rfl
  elements v σ := by cases v <;> rfl
  string _ _ := rfl

theorem names (a : Chars) (b : Chars) (hb : b ∈ [y, x]) (h : name a = name b) : a = b := by
  simp only [List.mem_cons, List.not_mem_nil, or_false] at hb
  have hy : name y = 11 := by decide
  have hx : name x = 10 := by decide
  unfold name at h
  rcases hb with rfl | rfl
  · have : name y = 11 := hy
    unfold name at this
    rw [this] at h
    split at h; · cases h
    split at h
    · assumption
    · split at h; · cases h
      split at h <;> cases h
  · have : name x = 10 := hx
    unfold name at this
    rw [this] at h
    split at h
    · assumption
    · split at h; · cases h
      split at h; · cases h
      split at h <;> cases h

/-- What the program comes to: it prints `5` and the array, and ends with `6`. -/
theorem result : program objects Value.nil 10 trees ⟨[], []⟩ =
    some (.returns (Value.integer 6), ⟨((State.mk (fun _ => Value.nil) (Toy.mk [] [])).set x (.obj 0)).set y (Value.integer 5)
      |>.set y (Value.integer 6) |>.vars, ⟨[[Value.integer 2, Value.integer 3]], [Value.integer 5, .obj 0]⟩⟩) := by
  rfl

/-- The compiler's tree. -/
def tree : Codegen.Node := .seq (.of [.assign (.lvar 10) (.carray [.int 2, .int 3]),
  .assign (.lvar 11) (.binop .add (.index (.lvar 10) (.lit (.int 0))) (.index (.lvar 10) (.lit (.int 1)))),
  .send .self Toy.pId (.of [.lvar 11, .lvar 10]),
  .assign (.lvar 11) (.binop .add (.lvar 11) (.lit (.int 1)))])

theorem lowers : lower name (.CompStmt trees) = some tree := by rfl

/-- The text is read, compiled and optimized; the code prints `5` and the array `[2, 3]`, leaves `6` in `y`, and returns it. -/
example (U : Unicode) : ∃ tree c g fuel code, Parses U text tree [y, x] ∧ lower name tree = some c ∧
    gen_iseq (context name [y, x] (fun _ => 0)) c (.start [] [] [] 0) = .ok ((), g) ∧ optimize fuel g.code = some code ∧
    ∀ K : Env Toy Val, K.world = Toy.world → K.self = Value.nil → Loaded g K → Room K → ∃ σ,
      Steps K code (.at 0 ⟨[], Toy.init⟩) (.done (.ret (Value.integer 6) σ)) ∧
      σ.w = ⟨[[Value.integer 2, Value.integer 3]], [Value.integer 5, .obj 0]⟩ ∧ σ.locals 0 0 = .obj 0 ∧
      σ.locals 0 1 = Value.integer 6 := by
  obtain ⟨t, c, g, fuel, code, h1, h2, h3, h4, h5⟩ := C78_programs_do_what_they_say_partial (W := Toy) (X := Val) U name (fun _ => 0)
    reads names lowers
    (by simp [Codegen.Lit.packed, tree, Codegen.Nodes.of, Supported, Codegen.SupSeq, Codegen.SupAll, Codegen.Nodes.length, Codegen.Lit.silent]; try decide)
    (by simp [tree, Codegen.Nodes.of, Codegen.Plain, Codegen.PlainSeq, Codegen.PlainAll])
    (by simp [tree, Codegen.Nodes.of, Placed, Legal, Codegen.LegalAll, Codegen.knownVar])
    (by simp [tree, Codegen.Nodes.of, Tame, Codegen.TameAll])
    (by decide) (by decide +kernel) [] [] [] 0 (by decide +kernel) (by decide +kernel) (by decide +kernel)
  refine ⟨t, c, g, fuel, code, h1, h2, h3, h4, fun K hw hs hK hR => ?_⟩
  obtain ⟨σ, q1, q2, q3⟩ := h5 K objects (hw ▸ acts) hK hR 10 Toy.init (fun _ => rfl) _ _ (hs ▸ result)
  exact ⟨σ, q1, q2, q3 x (by decide), q3 y (by decide)⟩

end Demo

end Verif.Meaning.Named
