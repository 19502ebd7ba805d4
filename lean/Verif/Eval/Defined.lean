import Mathlib.Tactic.Common
/-! # C111: `defined?` -/
namespace Verif.Eval.Defined

/-! ## Model -/

/-- The nodes that `defined?` distinguishes (ruruby-parse/src/node.rs:8-115). Simplified: keyword arguments and blocks of calls are part
of what a call evaluates and not looked at by `defined?`; `other` is every remaining node. -/
inductive Node
  | localVar (id : String)
  | ident (id : String)
  | gvar (id : String)
  | ivar (id : String)
  | cvar (id : String)
  | const (id : String)
  | topConst (id : String)
  | scope (parent : Node) (id : String)
  | array (elems : List Node)
  | assignOp (lhs : Node) (rhs : Node)
  | mulAssign (lhs : List Node) (rhs : List Node)
  | binOp (op : String) (lhs rhs : Node)
  | unOp (op : String) (node : Node)
  | index (base : Node) (index : List Node)
  | send (receiver : Node) (args : List Node) (method : String)
  | bool (b : Bool)
  | nil
  | me
  | other (n : Nat)

/-- What surrounds the expression: worlds `W` and values `V`. The code of an expression is one step here: it pushes a value, or it raises
and leaves what it had pushed (codegen.rs `gen`; C31 is about that code). -/
structure Lang (W V : Type) where
  eval : Node → W → Except (List V) V × W
  /-- `get_local_var`: the variables in scope at compile time. -/
  local? : String → Bool
  /-- `is_uninitialized` of the local (value/value.rs:501-503). -/
  unset : String → W → Bool
  setNil : String → W → W
  gvar : String → W → Bool
  ivar : String → W → Bool
  cvar : String → W → Bool
  /-- `find_const(id).is_ok()`, which may load a file. -/
  const : String → W → Bool × W
  /-- `get_scope(parent, id).is_ok()` of a class or module. -/
  scope : V → String → W → Bool × W
  /-- `search_method(id).is_some()` of the class of the value. -/
  method : V → String → W → Bool
  me : V
  object : V
  exception : V
  ofBool : Bool → V
  truthy : V → Bool
  truthy_ofBool : ∀ b, truthy (ofBool b) = b
  nil : V
  str : String → V

/-- The instructions (vm/vm_inst.rs). `jmpT none` and `jmp none` are jumps whose label is still open. -/
inductive Inst
  | checkLocal (id : String)
  | checkMethod (id : String)
  | checkGvar (id : String)
  | checkIvar (id : String)
  | checkConst (id : String)
  | checkScope (id : String)
  | pushSelf
  | getObject
  | pushNil
  | setLocal (id : String)
  | eval (n : Node)
  | jmpT (dest : Option Nat)
  | jmp (dest : Option Nat)
  | str (s : String)
  | pop

/-- The code so far and the list `exceptions`; `nil_labels` are the open jumps. -/
structure Gen where
  code : List Inst
  exceptions : List (Nat × Nat)

/-- `iseq.push` -/
def Gen.push (g : Gen) (is : List Inst) : Gen := { g with code := g.code ++ is }

/-- The left side of an assignment inside `defined?` (defined.rs:106-125): a local is set to nil. -/
def assignNil (g : Gen) : Node → Gen
  | .localVar id => g.push [.pushNil, .setLocal id]
  | .ident id => g.push [.pushNil, .setLocal id]
  | _ => g

mutual
/-- `check_defined` (codegen/defined.rs:34-175). -/
def check (loc : String → Bool) : Node → Gen → Gen
  | .localVar id, g => if loc id then g.push [.checkLocal id, .jmpT none] else g.push [.jmp none]
  | .ident id, g => g.push [.pushSelf, .checkMethod id, .jmpT none]
  | .gvar id, g => g.push [.checkGvar id, .jmpT none]
  | .ivar id, g => g.push [.checkIvar id, .jmpT none]
  | .const id, g => g.push [.checkConst id, .jmpT none]
  | .topConst id, g => g.push [.getObject, .checkScope id, .jmpT none]
  | .scope parent id, g => (check loc parent g).push [.eval parent, .checkScope id, .jmpT none]
  | .array elems, g => checkAll loc elems g
  | .assignOp lhs _, g => assignNil g lhs
  | .mulAssign lhs _, g => lhs.foldl assignNil g
  | .binOp op lhs rhs, g => (check loc rhs (check loc lhs g)).push [.eval lhs, .checkMethod op, .jmpT none]
  | .unOp op node, g => (check loc node g).push [.eval node, .checkMethod op, .jmpT none]
  | .index base is, g => (checkAll loc is (check loc base g)).push [.eval base, .checkMethod "[]", .jmpT none]
  | .send receiver args method, g =>
    let g := checkAll loc args (check loc receiver g)
    let start := g.code.length
    let g := g.push [.eval receiver]
    let stop := g.code.length
    { g with exceptions := g.exceptions ++ [(start, stop)] }.push [.checkMethod method, .jmpT none]
  | _, g => g
/-- The loops over elements, indexes and arguments. -/
def checkAll (loc : String → Bool) : List Node → Gen → Gen
  | [], g => g
  | n :: ns, g => checkAll loc ns (check loc n g)
end

/-- `defined_str` (codegen/defined.rs:179-211). -/
def defined_str : Node → String
  | .localVar _ => "local-variable"
  | .ident _ => "method"
  | .gvar _ => "global-variable"
  | .cvar _ => "class variable"
  | .const _ | .topConst _ | .scope .. => "constant"
  | .ivar _ => "instance-variable"
  | .mulAssign [.index ..] _ => "method"
  | .mulAssign .. => "assignment"
  | .assignOp .. => "assignment"
  | .binOp .. | .unOp .. | .index .. | .send .. => "method"
  | .bool true => "true"
  | .bool false => "false"
  | .nil => "nil"
  | .me => "self"
  | _ => "expression"

/-- The open jumps get their destination (`write_disp_from_cur`). -/
def Inst.close (dest : Nat) : Inst → Inst
  | .jmpT none => .jmpT (some dest)
  | .jmp none => .jmp (some dest)
  | i => i

/-- The code of `defined?` with its exception table: ranges and the one destination. -/
structure Prog where
  code : List Inst
  table : List (Nat × Nat)
  dest : Nat

/-- `gen_defined` (codegen/defined.rs:5-28). Simplified: it stands at the start of a sequence, and what follows the code is not shown. -/
def gen_defined (loc : String → Bool) (content : Node) : Prog :=
  let g := check loc content ⟨[], []⟩
  let p := g.code.length
  -- after STRING and JMP comes `pos` with POP, then PUSH_NIL with the labels
  { code := g.code.map (Inst.close (p + 3)) ++ [.str (defined_str content), .jmp (some (p + 4)), .pop, .pushNil]
    table := g.exceptions
    dest := p + 2 }

/-- The machine: position, stack, world. -/
structure St (W V : Type) where
  pc : Nat
  stack : List V
  w : W

inductive Next (W V : Type)
  | go (s : St W V)
  | raised (s : St W V)
  | stuck

variable {W V : Type}

/-- One instruction (vm/executor/opt_core.rs:257-346, 483-489 and the usual ones); an exception looks for the first range of the table around
it and continues there with the exception on the stack, which is not cleared (vm/executor.rs:438-452; `ExceptionType::Continue`). -/
def step (L : Lang W V) (P : Prog) (s : St W V) : Next W V :=
  match P.code[s.pc]?, s.stack with
  | some (.checkLocal id), st => .go ⟨s.pc + 1, L.ofBool (L.unset id s.w) :: st, s.w⟩
  | some (.checkMethod id), v :: st => .go ⟨s.pc + 1, L.ofBool (!L.method v id s.w) :: st, s.w⟩
  | some (.checkGvar id), st => .go ⟨s.pc + 1, L.ofBool (!L.gvar id s.w) :: st, s.w⟩
  | some (.checkIvar id), st => .go ⟨s.pc + 1, L.ofBool (!L.ivar id s.w) :: st, s.w⟩
  | some (.checkConst id), st => .go ⟨s.pc + 1, L.ofBool (!(L.const id s.w).1) :: st, (L.const id s.w).2⟩
  | some (.checkScope id), v :: st => .go ⟨s.pc + 1, L.ofBool (!(L.scope v id s.w).1) :: st, (L.scope v id s.w).2⟩
  | some .pushSelf, st => .go ⟨s.pc + 1, L.me :: st, s.w⟩
  | some .getObject, st => .go ⟨s.pc + 1, L.object :: st, s.w⟩
  | some .pushNil, st => .go ⟨s.pc + 1, L.nil :: st, s.w⟩
  | some (.setLocal id), _ :: st => .go ⟨s.pc + 1, st, L.setNil id s.w⟩
  | some (.eval n), st =>
    match L.eval n s.w with
    | (.ok v, w) => .go ⟨s.pc + 1, v :: st, w⟩
    | (.error left, w) =>
      if P.table.any fun e => e.1 ≤ s.pc && s.pc < e.2 then .go ⟨P.dest, L.exception :: (left ++ st), w⟩
      else .raised ⟨s.pc, left ++ st, w⟩
  | some (.jmpT (some d)), v :: st => .go ⟨if L.truthy v then d else s.pc + 1, st, s.w⟩
  | some (.jmp (some d)), st => .go ⟨d, st, s.w⟩
  | some (.str x), st => .go ⟨s.pc + 1, L.str x :: st, s.w⟩
  | some .pop, _ :: st => .go ⟨s.pc + 1, st, s.w⟩
  | _, _ => .stuck

/-- Running for some steps. -/
inductive Steps (L : Lang W V) (P : Prog) : St W V → St W V → Prop
  | refl (s) : Steps L P s s
  | cons {s t u} : step L P s = .go t → Steps L P t u → Steps L P s u

/-- `defined?(content)` ends with this value on top of this stack. -/
def Gives (L : Lang W V) (content : Node) (st : List V) (w : W) (st' : List V) (w' : W) : Prop :=
  Steps L (gen_defined L.local? content) ⟨0, st, w⟩ ⟨(gen_defined L.local? content).code.length, st', w'⟩

/-- It ends with an exception. -/
def Raises (L : Lang W V) (content : Node) (st : List V) (w : W) : Prop :=
  ∃ s t, Steps L (gen_defined L.local? content) ⟨0, st, w⟩ s ∧ step L (gen_defined L.local? content) s = .raised t

/-! ## Specification -/

/-- The owner of a method or constant is evaluated; if that raises, nothing is defined. -/
def owner (L : Lang W V) (n : Node) (w : W) (k : V → W → Bool × W) : Bool × W :=
  match L.eval n w with
  | (.ok v, w) => k v w
  | (.error _, w) => (false, w)

/-- Go on only if it is defined. -/
def if' (r : Bool × W) (k : W → Bool × W) : Bool × W := if r.1 then k r.2 else r

mutual
/-- Ruby's meaning of "defined": every part is defined, and the last owner has the method or constant. Assignments, literals and the
short circuits are always defined. -/
def isDefined (L : Lang W V) : Node → W → Bool × W
  | .localVar id, w => (L.local? id, w)
  | .ident id, w => (L.method L.me id w, w)
  | .gvar id, w => (L.gvar id w, w)
  | .ivar id, w => (L.ivar id w, w)
  | .cvar id, w => (L.cvar id w, w)
  | .const id, w => L.const id w
  | .topConst id, w => L.scope L.object id w
  | .scope parent id, w => if' (isDefined L parent w) fun w => owner L parent w fun v w => L.scope v id w
  | .array elems, w => allDefined L elems w
  | .binOp op lhs rhs, w =>
    if op = "&&" ∨ op = "||" then (true, w)
    else if' (isDefined L lhs w) fun w => if' (isDefined L rhs w) fun w => owner L lhs w fun v w => (L.method v op w, w)
  | .unOp op n, w => if' (isDefined L n w) fun w => owner L n w fun v w => (L.method v op w, w)
  | .index base is, w => if' (isDefined L base w) fun w => if' (allDefined L is w) fun w => owner L base w fun v w => (L.method v "[]" w, w)
  | .send receiver args m, w =>
    if' (isDefined L receiver w) fun w => if' (allDefined L args w) fun w => owner L receiver w fun v w => (L.method v m w, w)
  | _, w => (true, w)
/-- All of them, in order, up to the first that is not. -/
def allDefined (L : Lang W V) : List Node → W → Bool × W
  | [], w => (true, w)
  | n :: ns, w => if' (isDefined L n w) fun w => allDefined L ns w
end

/-- Ruby's words. -/
def word : Node → String
  | .localVar _ => "local-variable"
  | .gvar _ => "global-variable"
  | .ivar _ => "instance-variable"
  | .cvar _ => "class variable"
  | .const _ | .topConst _ | .scope .. => "constant"
  | .ident _ | .unOp .. | .index .. | .send .. => "method"
  | .binOp op _ _ => if op = "&&" ∨ op = "||" then "expression" else "method"
  | .mulAssign [.index ..] _ | .mulAssign [.send ..] _ => "method"
  | .assignOp .. | .mulAssign .. => "assignment"
  | .bool true => "true"
  | .bool false => "false"
  | .nil => "nil"
  | .me => "self"
  | .array _ | .other _ => "expression"

/-- A left side that is neither a local nor an attribute. -/
def Plain : Node → Prop
  | .localVar _ | .ident _ | .send .. | .index .. => False
  | _ => True

/-- In the worlds of `I` the expression evaluates to a value. -/
def Quiet (L : Lang W V) (I : W → Prop) (n : Node) : Prop := ∀ w, I w → ∃ v w', L.eval n w = (.ok v, w')

/-- In the worlds of `I`, if the expression raises it leaves nothing on the stack. -/
def Clean (L : Lang W V) (I : W → Prop) (n : Node) : Prop := ∀ w l w', I w → L.eval n w = (.error l, w') → l = []

mutual
/-- The expressions for which the claim is proved: locals are set (optional parameters
are not, before their default is evaluated), no class variables, no short circuits, no assignments to
locals or attributes; owners of operators, indexes and constants do not raise, and receivers that raise leave nothing behind. -/
def Careful (L : Lang W V) (I : W → Prop) : Node → Prop
  | .localVar id => ∀ w, I w → L.unset id w = false
  | .cvar _ => False
  | .scope p _ => Careful L I p ∧ Quiet L I p
  | .array es => CarefulAll L I es
  | .assignOp lhs _ => Plain lhs
  | .mulAssign lhs _ => ∀ n ∈ lhs, Plain n
  | .binOp op l r => op ≠ "&&" ∧ op ≠ "||" ∧ Careful L I l ∧ Careful L I r ∧ Quiet L I l
  | .unOp _ n => Careful L I n ∧ Quiet L I n
  | .index b is => Careful L I b ∧ CarefulAll L I is ∧ Quiet L I b
  | .send r as _ => Careful L I r ∧ CarefulAll L I as ∧ Clean L I r
  | _ => True
def CarefulAll (L : Lang W V) (I : W → Prop) : List Node → Prop
  | [] => True
  | n :: ns => Careful L I n ∧ CarefulAll L I ns
end

/-- What `defined?` runs keeps the worlds in `I`. -/
structure Keeps (L : Lang W V) (I : W → Prop) : Prop where
  eval : ∀ n w, I w → I (L.eval n w).2
  const : ∀ id w, I w → I (L.const id w).2
  scope : ∀ v id w, I w → I (L.scope v id w).2

/-! ## Helpers -/

theorem Steps.trans {L : Lang W V} {P : Prog} {s t u : St W V} (h : Steps L P s t) (h' : Steps L P t u) : Steps L P s u := by
  induction h with
  | refl => exact h'
  | cons e _ ih => exact .cons e (ih h')

theorem Steps.one {L : Lang W V} {P : Prog} {s t : St W V} (h : step L P s = .go t) : Steps L P s t := .cons h (.refl _)

theorem assign_plain (g : Gen) {n : Node} (h : Plain n) : assignNil g n = g := by
  cases n <;> first | rfl | exact h.elim

theorem assigns_plain {ns : List Node} (h : ∀ n ∈ ns, Plain n) (g : Gen) : ns.foldl assignNil g = g := by
  induction ns generalizing g with
  | nil => rfl
  | cons n ns ih =>
    rw [List.foldl_cons, assign_plain g (h n (by simp))]
    exact ih (fun m hm => h m (by simp [hm])) g

/-- `g'` goes on from `g`. -/
def Ext (g g' : Gen) : Prop := (∃ c, g'.code = g.code ++ c) ∧ ∃ x, g'.exceptions = g.exceptions ++ x

theorem Ext.refl (g : Gen) : Ext g g := ⟨⟨[], by simp⟩, ⟨[], by simp⟩⟩
theorem Ext.push (g : Gen) (is : List Inst) : Ext g (g.push is) := ⟨⟨is, rfl⟩, ⟨[], by simp [Gen.push]⟩⟩
theorem Ext.trans {a b c : Gen} (h : Ext a b) (h' : Ext b c) : Ext a c := by
  obtain ⟨⟨x, hx⟩, ⟨y, hy⟩⟩ := h
  obtain ⟨⟨x', hx'⟩, ⟨y', hy'⟩⟩ := h'
  exact ⟨⟨x ++ x', by rw [hx', hx, List.append_assoc]⟩, ⟨y ++ y', by rw [hy', hy, List.append_assoc]⟩⟩

theorem assign_ext (g : Gen) (n : Node) : Ext g (assignNil g n) := by
  cases n <;> first | exact Ext.refl g | exact Ext.push g _

theorem assigns_ext (ns : List Node) (g : Gen) : Ext g (ns.foldl assignNil g) := by
  induction ns generalizing g with
  | nil => exact Ext.refl g
  | cons n ns ih => exact (assign_ext g n).trans (ih _)

/-- The end of a call. -/
def sendEnd (g : Gen) (receiver : Node) (method : String) : Gen :=
  ⟨g.code ++ [.eval receiver] ++ [.checkMethod method, .jmpT none], g.exceptions ++ [(g.code.length, g.code.length + 1)]⟩

theorem send_eq (loc : String → Bool) (r : Node) (as : List Node) (m : String) (g : Gen) :
    check loc (.send r as m) g = sendEnd (checkAll loc as (check loc r g)) r m := by
  rw [check]
  simp [sendEnd, Gen.push]

theorem sendEnd_ext (g : Gen) (r : Node) (m : String) : Ext g (sendEnd g r m) :=
  ⟨⟨_, by rw [sendEnd, List.append_assoc]⟩, ⟨_, rfl⟩⟩

mutual
theorem check_ext (loc : String → Bool) : ∀ (n : Node) (g : Gen), Ext g (check loc n g)
  | .localVar id, g => by rw [check]; split <;> exact Ext.push g _
  | .ident _, g => by rw [check]; exact Ext.push g _
  | .gvar _, g => by rw [check]; exact Ext.push g _
  | .ivar _, g => by rw [check]; exact Ext.push g _
  | .cvar _, g => by rw [check] <;> first | exact Ext.refl g | simp
  | .const _, g => by rw [check]; exact Ext.push g _
  | .topConst _, g => by rw [check]; exact Ext.push g _
  | .scope p _, g => by rw [check]; exact (check_ext loc p g).trans (Ext.push _ _)
  | .array es, g => by rw [check]; exact checkAll_ext loc es g
  | .assignOp l _, g => by rw [check]; exact assign_ext g l
  | .mulAssign l _, g => by rw [check]; exact assigns_ext l g
  | .binOp _ l r, g => by rw [check]; exact ((check_ext loc l g).trans (check_ext loc r _)).trans (Ext.push _ _)
  | .unOp _ n, g => by rw [check]; exact (check_ext loc n g).trans (Ext.push _ _)
  | .index b is, g => by rw [check]; exact ((check_ext loc b g).trans (checkAll_ext loc is _)).trans (Ext.push _ _)
  | .send r as m, g => by rw [send_eq]; exact ((check_ext loc r g).trans (checkAll_ext loc as _)).trans (sendEnd_ext _ _ _)
  | .bool _, g => by rw [check] <;> first | exact Ext.refl g | simp
  | .nil, g => by rw [check] <;> first | exact Ext.refl g | simp
  | .me, g => by rw [check] <;> first | exact Ext.refl g | simp
  | .other _, g => by rw [check] <;> first | exact Ext.refl g | simp
theorem checkAll_ext (loc : String → Bool) : ∀ (ns : List Node) (g : Gen), Ext g (checkAll loc ns g)
  | [], g => by rw [checkAll]; exact Ext.refl g
  | n :: ns, g => by rw [checkAll]; exact (check_ext loc n g).trans (checkAll_ext loc ns _)
end

/-- The finished program begins with this code. -/
structure Fits (P : Prog) (g : Gen) : Prop where
  code : ∃ rest, P.code = g.code.map (Inst.close (P.dest + 1)) ++ rest
  table : ∀ e ∈ g.exceptions, e ∈ P.table

theorem Fits.of_ext {P : Prog} {g g' : Gen} (h : Fits P g') (x : Ext g g') : Fits P g := by
  obtain ⟨⟨c, hc⟩, ⟨y, hy⟩⟩ := x
  obtain ⟨rest, hr⟩ := h.code
  refine ⟨⟨c.map (Inst.close (P.dest + 1)) ++ rest, by rw [hr, hc]; simp⟩, fun e he => h.table e (by rw [hy]; simp [he])⟩

theorem Fits.fetch {P : Prog} {g g' : Gen} {is : List Inst} (h : Fits P g') (e : g'.code = g.code ++ is) (i : Nat) {x : Inst} (hi : is[i]? = some x) :
    P.code[g.code.length + i]? = some (x.close (P.dest + 1)) := by
  obtain ⟨rest, hr⟩ := h.code
  have hl : i < is.length := (List.getElem?_eq_some_iff.1 hi).1
  rw [hr, e, List.getElem?_append_left (by simp; omega), List.map_append, List.getElem?_append_right (by simp), List.length_map,
    Nat.add_sub_cancel_left, List.getElem?_map, hi]
  rfl

theorem jump (L : Lang W V) {P : Prog} {p d : Nat} (b : Bool) (st : List V) (w : W) (h : P.code[p]? = some (.jmpT (some d))) :
    Steps L P ⟨p, L.ofBool (!b) :: st, w⟩ ⟨if b then p + 1 else d, st, w⟩ := by
  refine Steps.one ?_
  rw [step]
  simp only [h, L.truthy_ofBool]
  cases b <;> rfl

/-- An owner is evaluated and checked. -/
theorem owned (L : Lang W V) {P : Prog} {I : W → Prop} (K : Keeps L I) {p : Nat} {n : Node} {k : V → W → Bool × W}
    (hd : P.code[P.dest]? = some .pop)
    (h0 : P.code[p]? = some (.eval n))
    (h1 : ∀ v st w, step L P ⟨p + 1, v :: st, w⟩ = .go ⟨p + 2, L.ofBool (!(k v w).1) :: st, (k v w).2⟩)
    (hk : ∀ v w, I w → I (k v w).2)
    (h2 : P.code[p + 2]? = some (.jmpT (some (P.dest + 1))))
    (hc : Quiet L I n ∨ (Clean L I n ∧ (p, p + 1) ∈ P.table)) (st : List V) (w : W) (hI : I w) :
    I (owner L n w k).2 ∧ Steps L P ⟨p, st, w⟩ ⟨if (owner L n w k).1 then p + 3 else P.dest + 1, st, (owner L n w k).2⟩ := by
  have hw := K.eval n w hI
  rcases he : L.eval n w with ⟨_ | v, w'⟩
  · rename_i left
    rcases hc with hq | ⟨hcl, ht⟩
    · obtain ⟨v, w'', hv⟩ := hq w hI
      rw [he] at hv
      cases hv
    · have : left = [] := hcl w left w' hI he
      subst this
      rw [he] at hw
      simp only [owner, he]
      refine ⟨hw, .cons (t := ⟨P.dest, L.exception :: st, w'⟩) ?_ (Steps.one ?_)⟩
      · have ha : (P.table.any fun e => decide (e.1 ≤ p) && decide (p < e.2)) = true := List.any_eq_true.2 ⟨_, ht, by simp⟩
        rw [step]
        simp only [h0, he, ha]
        rfl
      · rw [step]
        simp only [hd]
        rfl
  · rw [he] at hw
    simp only [owner, he]
    refine ⟨hk v w' hw, .cons (t := ⟨p + 1, v :: st, w'⟩) ?_ (.cons (h1 v st w') (jump L (p := p + 2) _ st _ h2))⟩
    rw [step]
    simp only [h0, he]

/-- A check without an owner. -/
theorem unowned (L : Lang W V) {P : Prog} {p : Nat} {b : Bool} {st : List V} {w w' : W}
    (h0 : step L P ⟨p, st, w⟩ = .go ⟨p + 1, L.ofBool (!b) :: st, w'⟩)
    (h1 : P.code[p + 1]? = some (.jmpT (some (P.dest + 1)))) :
    Steps L P ⟨p, st, w⟩ ⟨if b then p + 2 else P.dest + 1, st, w'⟩ :=
  .cons h0 (jump L (p := p + 1) b st w' h1)

/-- One part after the other. -/
theorem both (L : Lang W V) {P : Prog} {I : W → Prop} {a b c : Nat} {st : List V} {w : W} {r : Bool × W} {k : W → Bool × W}
    (h : I r.2 ∧ Steps L P ⟨a, st, w⟩ ⟨if r.1 then b else P.dest + 1, st, r.2⟩)
    (h' : I r.2 → I (k r.2).2 ∧ Steps L P ⟨b, st, r.2⟩ ⟨if (k r.2).1 then c else P.dest + 1, st, (k r.2).2⟩) :
    I (if' r k).2 ∧ Steps L P ⟨a, st, w⟩ ⟨if (if' r k).1 then c else P.dest + 1, st, (if' r k).2⟩ := by
  obtain ⟨r1, r2⟩ := r
  cases r1
  · exact h
  · exact ⟨(h' h.1).1, h.2.trans (h' h.1).2⟩

theorem step_method (L : Lang W V) {P : Prog} {p : Nat} {m : String} (h : P.code[p]? = some (.checkMethod m)) (v : V) (st : List V) (w : W) :
    step L P ⟨p, v :: st, w⟩ = .go ⟨p + 1, L.ofBool (!L.method v m w) :: st, w⟩ := by
  rw [step]; simp only [h]

theorem step_scope (L : Lang W V) {P : Prog} {p : Nat} {m : String} (h : P.code[p]? = some (.checkScope m)) (v : V) (st : List V) (w : W) :
    step L P ⟨p, v :: st, w⟩ = .go ⟨p + 1, L.ofBool (!(L.scope v m w).1) :: st, (L.scope v m w).2⟩ := by
  rw [step]; simp only [h]

/-- What the check of one node has to do. -/
def Checks (L : Lang W V) (P : Prog) (I : W → Prop) (g g' : Gen) (r : W → Bool × W) : Prop :=
  ∀ st w, I w → I (r w).2 ∧ Steps L P ⟨g.code.length, st, w⟩ ⟨if (r w).1 then g'.code.length else P.dest + 1, st, (r w).2⟩

theorem nothing (L : Lang W V) (P : Prog) (I : W → Prop) (g : Gen) : Checks L P I g g fun w => (true, w) :=
  fun _ _ hI => ⟨hI, .refl _⟩

/-- The end of a call, an operator or an index. -/
theorem method_end (L : Lang W V) {P : Prog} {I : W → Prop} (K : Keeps L I) (hd : P.code[P.dest]? = some .pop) {g g' : Gen} {n : Node} {m : String}
    (hf : Fits P g') (e : g'.code = g.code ++ [.eval n, .checkMethod m, .jmpT none])
    (hc : Quiet L I n ∨ (Clean L I n ∧ (g.code.length, g.code.length + 1) ∈ P.table)) :
    Checks L P I g g' fun w => owner L n w fun v w => (L.method v m w, w) := by
  intro st w hI
  rw [e, List.length_append]
  exact owned L K hd (hf.fetch e 0 rfl) (step_method L (hf.fetch e 1 rfl)) (fun _ _ h => h) (hf.fetch e 2 rfl) hc st w hI

theorem push_length (g : Gen) (is : List Inst) : (g.push is).code.length = g.code.length + is.length := by simp [Gen.push]

mutual
theorem check_runs (L : Lang W V) {P : Prog} {I : W → Prop} (K : Keeps L I) (hd : P.code[P.dest]? = some .pop) :
    ∀ (n : Node) (g : Gen), Fits P (check L.local? n g) → Careful L I n → Checks L P I g (check L.local? n g) (isDefined L n)
  | .localVar id, g, hf, hc => by
    intro st w hI
    rw [check] at hf ⊢
    rw [isDefined]
    rw [Careful] at hc
    by_cases h : L.local? id = true
    · simp only [if_pos h, push_length] at hf ⊢
      refine ⟨hI, ?_⟩
      refine unowned L (b := true) ?_ (hf.fetch (g := g) rfl 1 rfl)
      have := hf.fetch (g := g) rfl 0 rfl
      rw [step]
      simp only [Nat.add_zero] at this
      simp [this, Inst.close, hc w hI]
    · simp only [if_neg h] at hf ⊢
      refine ⟨hI, ?_⟩
      have := hf.fetch (g := g) rfl 0 rfl
      simp only [Nat.add_zero] at this
      refine Steps.one ?_
      rw [step]
      simp [this, Inst.close]
  | .ident id, g, hf, hc => by
    intro st w hI
    rw [check] at hf ⊢
    rw [isDefined]
    refine ⟨hI, .cons (t := ⟨g.code.length + 1, L.me :: st, w⟩) ?_ ?_⟩
    · have := hf.fetch (g := g) rfl 0 rfl
      simp only [Nat.add_zero] at this
      rw [step]; simp [this, Inst.close]
    · rw [push_length]
      refine .cons (step_method L (hf.fetch (g := g) rfl 1 rfl) L.me st w) (jump L (p := g.code.length + 2) _ st w (hf.fetch (g := g) rfl 2 rfl))
  | .gvar id, g, hf, hc => by
    intro st w hI
    rw [check] at hf ⊢
    rw [isDefined, push_length]
    refine ⟨hI, unowned L ?_ (hf.fetch (g := g) rfl 1 rfl)⟩
    have := hf.fetch (g := g) rfl 0 rfl
    simp only [Nat.add_zero] at this
    rw [step]; simp [this, Inst.close]
  | .ivar id, g, hf, hc => by
    intro st w hI
    rw [check] at hf ⊢
    rw [isDefined, push_length]
    refine ⟨hI, unowned L ?_ (hf.fetch (g := g) rfl 1 rfl)⟩
    have := hf.fetch (g := g) rfl 0 rfl
    simp only [Nat.add_zero] at this
    rw [step]; simp [this, Inst.close]
  | .cvar id, g, hf, hc => by simp [Careful] at hc
  | .const id, g, hf, hc => by
    intro st w hI
    rw [check] at hf ⊢
    rw [isDefined, push_length]
    refine ⟨K.const id w hI, unowned L ?_ (hf.fetch (g := g) rfl 1 rfl)⟩
    have := hf.fetch (g := g) rfl 0 rfl
    simp only [Nat.add_zero] at this
    rw [step]; simp [this, Inst.close]
  | .topConst id, g, hf, hc => by
    intro st w hI
    rw [check] at hf ⊢
    rw [isDefined]
    refine ⟨K.scope _ id w hI, .cons (t := ⟨g.code.length + 1, L.object :: st, w⟩) ?_ ?_⟩
    · have := hf.fetch (g := g) rfl 0 rfl
      simp only [Nat.add_zero] at this
      rw [step]; simp [this, Inst.close]
    · rw [push_length]
      refine .cons (step_scope L (hf.fetch (g := g) rfl 1 rfl) L.object st w) (jump L (p := g.code.length + 2) _ st _ (hf.fetch (g := g) rfl 2 rfl))
  | .scope p id, g, hf, hc => by
    intro st w hI
    rw [Careful] at hc
    rw [check] at hf ⊢
    rw [isDefined]
    refine both L (check_runs L K hd p g (hf.of_ext (Ext.push _ _)) hc.1 st w hI) fun hI => ?_
    rw [push_length]
    exact owned L K hd (hf.fetch (g := check L.local? p g) rfl 0 rfl) (step_scope L (hf.fetch (g := check L.local? p g) rfl 1 rfl)) (fun v w h => K.scope v id w h)
      (hf.fetch (g := check L.local? p g) rfl 2 rfl) (.inl hc.2) st _ hI
  | .array es, g, hf, hc => by
    rw [Careful] at hc
    rw [check] at hf ⊢
    intro st w hI
    rw [isDefined]
    exact checkAll_runs L K hd es g hf hc st w hI
  | .assignOp l r, g, hf, hc => by
    rw [Careful] at hc
    rw [check, assign_plain g hc]
    intro st w hI
    rw [isDefined] <;> first | exact nothing L P I g st w hI | simp
  | .mulAssign l r, g, hf, hc => by
    rw [Careful] at hc
    rw [check, assigns_plain hc g]
    intro st w hI
    rw [isDefined] <;> first | exact nothing L P I g st w hI | simp
  | .binOp op l r, g, hf, hc => by
    intro st w hI
    rw [Careful] at hc
    obtain ⟨o1, o2, hl, hr, hq⟩ := hc
    rw [check] at hf ⊢
    rw [isDefined, if_neg (by simp [o1, o2])]
    refine both L (check_runs L K hd l g (hf.of_ext ((check_ext _ r _).trans (Ext.push _ _))) hl st w hI) fun hI => ?_
    refine both L (check_runs L K hd r _ (hf.of_ext (Ext.push _ _)) hr st _ hI) fun hI => ?_
    exact method_end L K hd hf rfl (.inl hq) st _ hI
  | .unOp op n, g, hf, hc => by
    intro st w hI
    rw [Careful] at hc
    rw [check] at hf ⊢
    rw [isDefined]
    refine both L (check_runs L K hd n g (hf.of_ext (Ext.push _ _)) hc.1 st w hI) fun hI => ?_
    exact method_end L K hd hf rfl (.inl hc.2) st _ hI
  | .index b is, g, hf, hc => by
    intro st w hI
    rw [Careful] at hc
    obtain ⟨hb, hs, hq⟩ := hc
    rw [check] at hf ⊢
    rw [isDefined]
    refine both L (check_runs L K hd b g (hf.of_ext ((checkAll_ext _ is _).trans (Ext.push _ _))) hb st w hI) fun hI => ?_
    refine both L (checkAll_runs L K hd is _ (hf.of_ext (Ext.push _ _)) hs st _ hI) fun hI => ?_
    exact method_end L K hd hf rfl (.inl hq) st _ hI
  | .send r as m, g, hf, hc => by
    intro st w hI
    rw [Careful] at hc
    obtain ⟨hr, ha, hq⟩ := hc
    rw [send_eq] at hf ⊢
    rw [isDefined]
    refine both L (check_runs L K hd r g (hf.of_ext ((checkAll_ext _ as _).trans (sendEnd_ext _ _ _))) hr st w hI) fun hI => ?_
    refine both L (checkAll_runs L K hd as _ (hf.of_ext (sendEnd_ext _ _ _)) ha st _ hI) fun hI => ?_
    refine method_end L K hd hf (by simp [sendEnd]) (.inr ⟨hq, hf.table _ (by simp [sendEnd])⟩) st _ hI
  | .bool _, g, hf, hc => by
    rw [check] <;> first | (intro st w hI; rw [isDefined] <;> first | exact nothing L P I g st w hI | simp) | simp
  | .nil, g, hf, hc => by
    rw [check] <;> first | (intro st w hI; rw [isDefined] <;> first | exact nothing L P I g st w hI | simp) | simp
  | .me, g, hf, hc => by
    rw [check] <;> first | (intro st w hI; rw [isDefined] <;> first | exact nothing L P I g st w hI | simp) | simp
  | .other _, g, hf, hc => by
    rw [check] <;> first | (intro st w hI; rw [isDefined] <;> first | exact nothing L P I g st w hI | simp) | simp
theorem checkAll_runs (L : Lang W V) {P : Prog} {I : W → Prop} (K : Keeps L I) (hd : P.code[P.dest]? = some .pop) :
    ∀ (ns : List Node) (g : Gen), Fits P (checkAll L.local? ns g) → CarefulAll L I ns → Checks L P I g (checkAll L.local? ns g) (allDefined L ns)
  | [], g, hf, hc => by
    rw [checkAll]
    intro st w hI
    rw [allDefined]
    exact nothing L P I g st w hI
  | n :: ns, g, hf, hc => by
    intro st w hI
    rw [CarefulAll] at hc
    rw [checkAll] at hf ⊢
    rw [allDefined]
    refine both L (check_runs L K hd n g (hf.of_ext (checkAll_ext _ ns _)) hc.1 st w hI) fun hI => ?_
    exact checkAll_runs L K hd ns _ hf hc.2 st _ hI
end

theorem word_careful (L : Lang W V) (I : W → Prop) (n : Node) (h : Careful L I n) : defined_str n = word n := by
  cases n with
  | binOp op l r => rw [Careful] at h; simp [defined_str, word, h.1, h.2.1]
  | mulAssign l r =>
    rw [Careful] at h
    rcases l with _ | ⟨a, _ | ⟨b, l⟩⟩
    · rfl
    · have := h a (by simp)
      cases a <;> first | rfl | exact this.elim
    · cases a <;> rfl
  | bool b => cases b <;> rfl
  | _ => rfl

theorem gen_fits (loc : String → Bool) (n : Node) : Fits (gen_defined loc n) (check loc n ⟨[], []⟩) :=
  ⟨⟨_, rfl⟩, fun _ h => h⟩

theorem gen_end (loc : String → Bool) (n : Node) (i : Nat) :
    (gen_defined loc n).code[(check loc n ⟨[], []⟩).code.length + i]? =
      [Inst.str (defined_str n), .jmp (some ((check loc n ⟨[], []⟩).code.length + 4)), .pop, .pushNil][i]? := by
  simp only [gen_defined]
  rw [List.getElem?_append_right (by simp), List.length_map, Nat.add_sub_cancel_left]

theorem gen_length (loc : String → Bool) (n : Node) : (gen_defined loc n).code.length = (check loc n ⟨[], []⟩).code.length + 4 := by
  simp [gen_defined]

/-- From the end of the checks, or from the labels. -/
theorem finish (L : Lang W V) (n : Node) (b : Bool) (st : List V) (w : W) :
    Steps L (gen_defined L.local? n) ⟨if b then (check L.local? n ⟨[], []⟩).code.length else (gen_defined L.local? n).dest + 1, st, w⟩
      ⟨(gen_defined L.local? n).code.length, (if b then L.str (defined_str n) else L.nil) :: st, w⟩ := by
  rw [gen_length]
  have e := gen_end L.local? n
  cases b
  · refine Steps.one ?_
    have h : (gen_defined L.local? n).code[(gen_defined L.local? n).dest + 1]? = some .pushNil := e 3
    rw [step]
    simp only [Bool.false_eq_true, if_false, h]
    rfl
  · refine .cons (t := ⟨(check L.local? n ⟨[], []⟩).code.length + 1, L.str (defined_str n) :: st, w⟩) ?_ (Steps.one ?_)
    · have := e 0
      simp only [Nat.add_zero] at this
      rw [step]
      simp [this]
    · have := e 1
      rw [step]
      simp [this]

/-! ## C111 -/

/-- `defined?` of an expression gives the word for its kind if every part is defined and nil if not; it raises nothing, leaves the stack as
it was, and runs nothing but the owners up to the first part that is not defined.

Partial: for careful expressions. -/
theorem C111_result_partial (L : Lang W V) (I : W → Prop) (K : Keeps L I) (n : Node) (hc : Careful L I n) (st : List V) (w : W) (hI : I w) :
    Gives L n st w ((if (isDefined L n w).1 then L.str (word n) else L.nil) :: st) (isDefined L n w).2 := by
  have hd : (gen_defined L.local? n).code[(gen_defined L.local? n).dest]? = some .pop := gen_end L.local? n 2
  have := (check_runs L K hd n ⟨[], []⟩ (gen_fits _ n) hc st w hI).2
  rw [← word_careful L I n hc]
  exact this.trans (finish L n _ st _)

/-! A small language: worlds count the evaluations, every object has the method `m`, and expressions `other n` raise from 10 on; those from 20 on
leave a value. -/
namespace Toy
inductive Val | nil | bool (b : Bool) | str (s : String) | obj | left
  deriving DecidableEq, Repr

def eval : Node → Nat → Except (List Val) Val × Nat
  | .other n, w => (if n < 10 then .ok .obj else if n < 20 then .error [] else .error [.left], w + 1)
  | _, w => (.ok .obj, w + 1)

def lang : Lang Nat Val where
  eval := eval
  local? id := id == "x" || id == "y"
  unset id _ := id == "y"
  setNil _ _ := 1000
  gvar id _ := id == "$g"
  ivar id _ := id == "@i"
  cvar _ _ := false
  const id w := (id == "C", w)
  scope _ id w := (id == "D", w)
  method _ id _ := id == "m" || id == "+"
  me := .obj
  object := .obj
  exception := .obj
  ofBool := .bool
  truthy v := v == .bool true
  truthy_ofBool b := by cases b <;> rfl
  nil := .nil
  str := .str

theorem keeps : Keeps lang fun _ => True := ⟨fun _ _ _ => trivial, fun _ _ _ => trivial, fun _ _ _ _ => trivial⟩
end Toy

open Toy in
/-- `defined?(x.m(C::D).m)`, `defined?(x.n)` and `defined?(f.m)` where `f` raises. -/
example : Gives lang (.send (.send (.localVar "x") [.scope (.const "C") "D"] "m") [] "m") [.left] 0 [.str "method", .left] 3 ∧
    Gives lang (.send (.localVar "x") [] "n") [] 0 [.nil] 1 ∧ Gives lang (.send (.other 10) [] "m") [] 0 [.nil] 1 := by
  refine ⟨?_, ?_, ?_⟩
  · refine C111_result_partial lang (fun _ => True) keeps _ ?_ _ 0 trivial
    simp [Careful, CarefulAll, Clean, Quiet, lang, eval]
  · refine C111_result_partial lang (fun _ => True) keeps _ ?_ _ 0 trivial
    simp [Careful, CarefulAll, Clean, lang, eval]
  · refine C111_result_partial lang (fun _ => True) keeps _ ?_ _ 0 trivial
    simp [Careful, CarefulAll, Clean, lang, eval]

/-- Running for a number of steps. -/
def runs (L : Lang W V) (P : Prog) : Nat → St W V → Option (St W V)
  | 0, s => some s
  | k + 1, s =>
    match step L P s with
    | .go t => runs L P k t
    | _ => none

theorem runs_steps {L : Lang W V} {P : Prog} {k : Nat} {s t : St W V} (h : runs L P k s = some t) : Steps L P s t := by
  induction k generalizing s with
  | zero => cases h; exact .refl _
  | succ k ih =>
    rw [runs] at h
    split at h
    · rename_i e
      exact .cons e (ih h)
    · cases h

/-- `defined?(x += 1)` sets `x` to nil. -/
theorem C111_assignment_fails (L : Lang W V) (id : String) (r : Node) (st : List V) (w : W) :
    Gives L (.assignOp (.localVar id) r) st w (L.str "assignment" :: st) (L.setNil id w) :=
  runs_steps (k := 4) rfl

/-- `defined?(f.g(1) + 2)`: when an operand raises the exception is not caught, and there is no result. -/
theorem C111_operand_fails (L : Lang W V) (k : Nat) (op : String) (r : Node) (st l : List V) (w w' : W)
    (hr : (check L.local? r ⟨[], []⟩) = ⟨[], []⟩) (h : L.eval (.other k) w = (.error l, w')) :
    Raises L (.binOp op (.other k) r) st w := by
  have e : check L.local? (.binOp op (.other k) r) ⟨[], []⟩ = ⟨[.eval (.other k), .checkMethod op, .jmpT none], []⟩ := by
    rw [check]
    have : check L.local? (.other k) ⟨[], []⟩ = ⟨[], []⟩ := by rw [check] <;> simp
    rw [this, hr]
    rfl
  refine ⟨⟨0, st, w⟩, ⟨0, l ++ st, w'⟩, .refl _, ?_⟩
  simp [step, gen_defined, e, h, Inst.close]

open Toy in
example : Raises lang (.binOp "+" (.other 10) .me) [] 0 := C111_operand_fails lang 10 "+" .me [] [] 0 1 (by rw [check] <;> simp) rfl

/-- `[0, defined?(f(1, g).m)]` where `g` raises: the 1 stays on the stack below the result, where the array takes it for its first element. -/
theorem C111_leftover_fails (L : Lang W V) (k : Nat) (m : String) (v : V) (st : List V) (w w' : W) (h : L.eval (.other k) w = (.error [v], w')) :
    Gives L (.send (.other k) [] m) st w (L.nil :: v :: st) w' := by
  have e : check L.local? (.send (.other k) [] m) ⟨[], []⟩ = ⟨[.eval (.other k), .checkMethod m, .jmpT none], [(0, 1)]⟩ := by
    rw [send_eq, checkAll]
    have : check L.local? (.other k) ⟨[], []⟩ = ⟨[], []⟩ := by rw [check] <;> simp
    rw [this]
    rfl
  refine runs_steps (k := 3) ?_
  simp [runs, step, gen_defined, e, h, Inst.close]

open Toy in
example : Gives lang (.send (.other 20) [] "m") [.obj] 0 [.nil, .left, .obj] 1 := C111_leftover_fails lang 20 "m" _ _ 0 1 rfl

/-- `defined?(1 && 2)` is nil: it looks for a method `&&`. -/
theorem C111_short_circuit_fails : Gives Toy.lang (.binOp "&&" (.other 1) (.other 2)) [] 0 [.nil] 1 ∧
    (isDefined Toy.lang (.binOp "&&" (.other 1) (.other 2)) 0).1 = true :=
  ⟨runs_steps (k := 4) (by rfl), by rw [isDefined]; rfl⟩

/-- `def f(x = defined?(y), y = 1)`: `defined?(y)` is nil although `y` is a local variable: parameters are not set before their default\nis evaluated (vm/executor/frame/arg_handler.rs:198-216). -/
theorem C111_unset_local_fails : Gives Toy.lang (.localVar "y") [] 0 [.nil] 0 ∧ (isDefined Toy.lang (.localVar "y") 0).1 = true :=
  ⟨runs_steps (k := 3) (by rfl), by rw [isDefined]; rfl⟩

/-- `defined?(@@x)` is "class variable" whether there is one or not. -/
theorem C111_class_variable_fails (L : Lang W V) (id : String) (st : List V) (w : W) : Gives L (.cvar id) st w (L.str "class variable" :: st) w :=
  runs_steps (k := 2) rfl

end Verif.Eval.Defined
