import Verif.Meaning.Spec
import Verif.Pipeline.Final
import Mathlib.Data.List.Nodup
/-!
# Programs over integers are in the part of the language that is compiled faithfully
-/
namespace Verif.Meaning
open Verif.Lexer (Chars BinOp)
open Verif.Parser (Node)
open Verif.Pipeline (Names lower lowerAll lowerVars lowerVar bin un both three massign)
open Verif.Codegen (Id Ctx Nodes Supported SupSeq SupAll SupFirst SupMassign Plain PlainSeq PlainAll PlainFirst PlainMassign
  Legal LegalAll Tame TameAll Front FrontSeq FrontFirst knownVar)

/-- What is known of a compiled tree. -/
structure Low (x : Ctx) (j u : Bool) (size : Nat) (c : Codegen.Node) : Prop where
  sup : ∀ A em d, (j = true → A = true ∧ d = true) → Supported A c u em d
  plain : Plain x c u
  placed : ∀ A, (j = true → A = true) → Legal (fun _ => True) False A c
  tame : Tame c
  front : j = false → Front c u
  weight : c.weight ≤ 20 * size

structure LowSeq (x : Ctx) (j u : Bool) (size : Nat) (c : Nodes) : Prop where
  sup : ∀ A em d, (j = true → A = true ∧ d = true) → SupSeq A c u em d
  plain : PlainSeq x c u
  placed : ∀ A, (j = true → A = true) → LegalAll (fun _ => True) False A c
  tame : TameAll c
  front : j = false → FrontSeq c u
  weight : c.seqWeight ≤ 20 * size + 1

/-- Values: how many, and their size. -/
inductive LowAll (x : Ctx) : Nat → Nat → Nodes → Prop
  | nil : LowAll x 0 0 .nil
  | cons {s k t n ns} : Low x false true s n → LowAll x k t ns → LowAll x (k + 1) (s + t) (.cons n ns)

/-- The operators of `Spec`, in the compiler. -/
theorem bin_op {op : BinOp} (h : op ∈ binOps) (id : Names) : ∃ o, ∀ a b, bin id op a b = .binop o a b := by
  simp only [binOps, List.mem_cons, List.not_mem_nil, or_false] at h
  rcases h with rfl | rfl | rfl | rfl | rfl | rfl | rfl | rfl | rfl | rfl | rfl | rfl | rfl <;>
    exact ⟨_, fun _ _ => rfl⟩

theorem opAssigns_sub {op : BinOp} (h : op ∈ opAssigns) : op ∈ binOps := by
  simp only [opAssigns, List.mem_cons, List.not_mem_nil, or_false] at h
  rcases h with rfl | rfl | rfl | rfl | rfl <;> decide

variable {x : Ctx} {id : Names} {vars : List Chars}

theorem Low.binop {j u : Bool} {s t : Nat} {a b : Codegen.Node} {o : Codegen.BinOp} (ha : Low x false true s a)
    (hb : Low x false true t b) : Low x j u (1 + s + t) (.binop o a b) where
  sup A em d _ := by
    rw [Supported]
    exact ⟨ha.sup _ _ _ (by simp), hb.sup _ _ _ (by simp)⟩
  plain := by rw [Plain]; exact ⟨ha.plain, hb.plain⟩
  placed A _ := by rw [Legal]; exact ⟨ha.placed _ (by simp), hb.placed _ (by simp)⟩
  tame := by rw [Tame]; exact ⟨ha.tame, hb.tame⟩
  front _ := by rw [Front]; exact ha.front rfl
  weight := by rw [Codegen.Node.weight]; have := ha.weight; have := hb.weight; omega

theorem Low.logic {j u : Bool} {s t : Nat} {a b : Codegen.Node} (ha : Low x false true s a)
    (hb : Low x j u t b) : Low x j u (1 + s + t) (.land a b) ∧ Low x j u (1 + s + t) (.lor a b) := by
  constructor <;> exact
   {sup := fun A em d h => by rw [Supported]; exact ⟨ha.sup _ _ _ (by simp), hb.sup _ _ _ h⟩
    plain := by rw [Plain]; exact ⟨ha.plain, hb.plain⟩
    placed := fun A h => by rw [Legal]; exact ⟨ha.placed _ (by simp), hb.placed _ h⟩
    tame := by rw [Tame]; exact ⟨ha.tame, hb.tame⟩
    front := fun _ => by rw [Front]; exact ha.front rfl
    weight := by rw [Codegen.Node.weight]; have := ha.weight; have := hb.weight; omega}

theorem Low.assign {j u : Bool} {s t : Nat} {y : Id} {a : Codegen.Node} (ha : Low x false true s a) (h : s + 1 ≤ t) :
    Low x j u t (.assign (.lvar y) a) where
  sup A em d _ := by rw [Supported]; exact ha.sup _ _ _ (by simp)
  plain := by rw [Plain]; exact ha.plain
  placed A _ := by rw [Legal]; exact ⟨trivial, ha.placed _ (by simp)⟩
  tame := by rw [Tame]; exact ha.tame
  front _ := by rw [Front]; exact ha.front rfl
  weight := by rw [Codegen.Node.weight]; have := ha.weight; omega

theorem Low.lvar {j u : Bool} {y : Id} {s : Nat} (h : 1 ≤ s) : Low x j u s (.lvar y) where
  sup A em d _ := by rw [Supported]; trivial
  plain := by rw [Plain]; trivial
  placed A _ := by rw [Legal]; trivial
  tame := by rw [Tame]; trivial
  front _ := by rw [Front]; trivial
  weight := by rw [Codegen.Node.weight]; omega

theorem Low.lit {j u : Bool} {l : Codegen.Lit} (h : u = true ∨ l.silent = true) : Low x j u 1 (.lit l) where
  sup A em d _ := by rw [Supported]; exact h
  plain := by rw [Plain]; trivial
  placed A _ := by rw [Legal]; trivial
  tame := by rw [Tame]; trivial
  front _ := by rw [Front]; trivial
  weight := by rw [Codegen.Node.weight]; omega

theorem lowerVars_of : ∀ {ts : List Node} {xs : List Chars}, ts.map nameOf = xs.map some →
    lowerVars id ts = some (xs.map fun y => .lvar (id y))
  | [], [], _ => rfl
  | [], _ :: _, h => by simp at h
  | _ :: _, [], h => by simp at h
  | t :: ts, y :: ys, h => by
    simp only [List.map_cons, List.cons.injEq] at h
    have ht : lowerVar id t = some (.lvar (id y)) := by
      have h1 := h.1
      unfold nameOf at h1
      split at h1 <;> simp at h1 <;> subst h1 <;> rfl
    rw [lowerVars, ht, lowerVars_of h.2]
    rfl

theorem LowAll.len {k t : Nat} {c : Nodes} (h : LowAll x k t c) : c.length = k := by
  induction h with
  | nil => rfl
  | cons _ _ ih => simp only [Nodes.length, ih]

theorem LowAll.sup {k t : Nat} {c : Nodes} (h : LowAll x k t c) (A : Bool) :
    ∀ k', k ≤ k' → ∀ em d, SupFirst A c k' em d := by
  induction h with
  | nil => intro _ _ em d; rw [SupFirst]; trivial
  | cons h _ ih =>
    intro k' hk em d
    rw [SupFirst, decide_eq_true (by omega)]
    exact ⟨h.sup _ _ _ (by simp), ih _ (by omega) _ _⟩

theorem LowAll.plain {k t : Nat} {c : Nodes} (h : LowAll x k t c) : ∀ k', k ≤ k' → PlainFirst x c k' := by
  induction h with
  | nil => intro _ _; rw [PlainFirst]; trivial
  | cons h _ ih =>
    intro k' hk
    rw [PlainFirst, decide_eq_true (by omega)]
    exact ⟨h.plain, ih _ (by omega)⟩

theorem LowAll.placed {k t : Nat} {c : Nodes} (h : LowAll x k t c) (A : Bool) :
    LegalAll (fun _ => True) False A c := by
  induction h with
  | nil => rw [LegalAll]; trivial
  | cons h _ ih => rw [LegalAll]; exact ⟨h.placed _ (by simp), ih⟩

theorem LowAll.tame {k t : Nat} {c : Nodes} (h : LowAll x k t c) : TameAll c := by
  induction h with
  | nil => rw [TameAll]; trivial
  | cons h _ ih => rw [TameAll]; exact ⟨h.tame, ih⟩

theorem LowAll.weight {k t : Nat} {c : Nodes} (h : LowAll x k t c) : c.weight ≤ 20 * t + 4 * k := by
  induction h with
  | nil => rw [Nodes.weight]
  | cons h _ ih => rw [Nodes.weight]; have := h.weight; omega

/-- The variables of the context. -/
structure Vars (id : Names) (vars : List Chars) (x : Ctx) : Prop where
  inj : ∀ y ∈ vars, ∀ z ∈ vars, id y = id z → y = z
  known : ∀ y ∈ vars, ∃ t ∈ Codegen.visible x.scopes x.extern, id y ∈ t

theorem Low.massign {j : Bool} {k t : Nat} {c : Nodes} {xs : List Chars} (hv : Vars id vars x) (hx : xs.Nodup) (hs : xs ⊆ vars)
    (hl : xs.length = k) (h2 : 2 ≤ k) (h : LowAll x k t c) : Low x j false (1 + k + t) (.massign (xs.map fun y => .lvar (id y)) c) := by
  have hm : (xs.map fun y => Codegen.Var.lvar (id y)).length = k := by simpa using hl
  have hne : (xs.map fun y => Codegen.Var.lvar (id y)) ≠ [] := by
    intro h; rw [h] at hm; simp at hm; omega
  cases h with
  | nil => omega
  | cons h1 h2' =>
    cases h2' with
    | nil => omega
    | @cons s2 k2 t2 n2 ns2 h3 h4 =>
      refine { sup := ?_, plain := ?_, placed := ?_, tame := ?_, front := ?_, weight := ?_ }
      · intro A em d _
        rw [Supported, SupMassign, hm, decide_eq_true (by omega)]
        exact ⟨h1.sup _ _ _ (by simp), (LowAll.cons h3 h4).sup A _ (by omega) _ _⟩
      · rw [Plain, PlainMassign, hm, decide_eq_true (by omega)]
        refine ⟨⟨h1.plain, (LowAll.cons h3 h4).plain _ (by omega)⟩, .inr ⟨xs.map id, by simp, ?_, ?_⟩⟩
        · exact List.Nodup.map_on (fun a ha b hb => hv.inj a (hs ha) b (hs hb)) hx
        · intro i hi
          obtain ⟨y, hy, rfl⟩ := List.mem_map.1 hi
          exact hv.known y (hs hy)
      · intro A _
        rw [Legal]
        refine ⟨?_, (LowAll.cons h1 (.cons h3 h4)).placed A⟩
        intro v hv
        obtain ⟨y, _, rfl⟩ := List.mem_map.1 hv
        trivial
      · rw [Tame]
        exact (LowAll.cons h1 (.cons h3 h4)).tame
      · intro _
        rw [Front, FrontFirst]
        exact ⟨hne, by simp, h1.front rfl⟩
      · rw [Codegen.Node.weight, hm, (LowAll.cons h1 (.cons h3 h4)).len]
        have := (LowAll.cons h1 (.cons h3 h4)).weight
        omega

theorem ints_assignOp {op : BinOp} {l r : Node} {j u : Bool} (h : Ints vars j (.AssignOp op l r) u) :
    ∃ y, l = .LocalVar y ∧ op ∈ opAssigns ∧ y ∈ vars ∧ Ints vars false r true := by
  cases l <;> first | (rw [Ints] at h; exact ⟨_, rfl, h⟩) | simp [Ints] at h

mutual
theorem low (hv : Vars id vars x) : ∀ (e : Node) (j u : Bool), Ints vars j e u →
    ∃ c, lower id e = some c ∧ Low x j u (nodes e) c
  | .Nil, j, u, _ => ⟨_, rfl, .lit (.inr rfl)⟩
  | .Bool b, j, u, _ => ⟨_, rfl, .lit (.inr rfl)⟩
  | .Integer i, j, u, _ => ⟨_, rfl, .lit (.inr rfl)⟩
  | .Bignum i, j, u, h => ⟨_, rfl, .lit (.inl (by rw [Ints] at h; exact h.1))⟩
  | .LocalVar y, j, u, _ => ⟨_, rfl, .lvar (Nat.le_refl _)⟩
  | .BinOp op a b, j, u, h => by
    rw [Ints] at h
    rw [nodes]
    split at h
    · rename_i hop
      obtain ⟨a', h1, h2⟩ := low hv a _ _ h.1
      obtain ⟨b', h3, h4⟩ := low hv b _ _ h.2
      have h5 : lower id (.BinOp op a b) = some (bin id op a' b') := by rw [lower, h1, h3]; rfl
      have := h2.logic h4
      cases op <;> cases hop
      · exact ⟨_, h5, this.1⟩
      · exact ⟨_, h5, this.2⟩
    · obtain ⟨a', h1, h2⟩ := low hv a _ _ h.2.1
      obtain ⟨b', h3, h4⟩ := low hv b _ _ h.2.2
      have h5 : lower id (.BinOp op a b) = some (bin id op a' b') := by rw [lower, h1, h3]; rfl
      obtain ⟨o, ho⟩ := bin_op h.1 id
      rw [ho] at h5
      exact ⟨_, h5, h2.binop h4⟩
  | .UnOp op a, j, u, h => by
    rw [Ints] at h
    obtain ⟨a', h1, h2⟩ := low hv a _ _ h.2
    refine ⟨.unop (un op) a', by rw [lower, h1]; rfl, ?_⟩
    exact
     {sup := fun A em d _ => by rw [Supported]; exact h2.sup _ _ _ (by simp)
      plain := by
        rw [Plain]
        refine ⟨?_, h2.plain⟩
        rcases h.1 with rfl | rfl <;> simp [un]
      placed := fun A _ => by rw [Legal]; exact h2.placed _ (by simp)
      tame := by rw [Tame]; exact h2.tame
      front := fun _ => by rw [Front]; exact h2.front rfl
      weight := by rw [Codegen.Node.weight, nodes]; have := h2.weight; omega}
  | .If c a b, j, u, h => by
    rw [Ints] at h
    obtain ⟨c', k1, l1⟩ := low hv c _ _ h.1
    obtain ⟨a', k2, l2⟩ := low hv a _ _ h.2.1
    obtain ⟨b', k3, l3⟩ := low hv b _ _ h.2.2
    refine ⟨.ite c' a' b', by rw [lower, k1, k2, k3]; rfl, ?_⟩
    exact
     {sup := fun A em d g => by rw [Supported]; exact ⟨l1.sup _ _ _ (by simp), l2.sup _ _ _ g, l3.sup _ _ _ g⟩
      plain := by rw [Plain]; exact ⟨l1.plain, l2.plain, l3.plain⟩
      placed := fun A g => by rw [Legal]; exact ⟨l1.placed _ (by simp), l2.placed _ g, l3.placed _ g⟩
      tame := by rw [Tame]; exact ⟨l1.tame, l2.tame, l3.tame⟩
      front := fun _ => by rw [Front]; exact l1.front rfl
      weight := by rw [Codegen.Node.weight, nodes]; have := l1.weight; have := l2.weight; have := l3.weight; omega}
  | .While c b w, j, u, h => by
    rw [Ints] at h
    obtain ⟨c', k1, l1⟩ := low hv c _ _ h.1
    obtain ⟨b', k2, l2⟩ := low hv b _ _ h.2
    refine ⟨.while_ c' b' w, by rw [lower, k1, k2]; rfl, ?_⟩
    exact
     {sup := fun A em d _ => by rw [Supported]; exact ⟨l1.sup _ _ _ (by simp), l2.sup _ _ _ (by simp)⟩
      plain := by rw [Plain]; exact ⟨l1.plain, l2.plain⟩
      placed := fun A g => by rw [Legal]; exact ⟨l1.placed _ (by simp), l2.placed _ (by simp)⟩
      tame := by rw [Tame]; exact ⟨l1.front rfl, l1.tame, l2.tame⟩
      front := fun _ => by rw [Front]; exact l1.front rfl
      weight := by rw [Codegen.Node.weight, nodes]; have := l1.weight; have := l2.weight; omega}
  | .CompStmt l, j, u, h => by
    rw [Ints] at h
    obtain ⟨c, k, g⟩ := lowSeq hv l _ _ h
    refine ⟨.seq c, by rw [lower, k]; rfl, ?_⟩
    exact
     {sup := fun A em d q => by rw [Supported]; exact g.sup _ _ _ q
      plain := by rw [Plain]; exact g.plain
      placed := fun A q => by rw [Legal]; exact g.placed _ q
      tame := by rw [Tame]; exact g.tame
      front := fun q => by rw [Front]; exact g.front q
      weight := by rw [Codegen.Node.weight, nodes]; have := g.weight; omega}
  | .MulAssign [t] [r], j, u, h => by
    rw [Ints] at h
    obtain ⟨⟨y, hy, _⟩, hr⟩ := h
    obtain ⟨c, k, g⟩ := low hv r _ _ hr
    refine ⟨.assign (.lvar (id y)) c, ?_, g.assign (by simp only [nodes, nodesAll, List.length_singleton]; omega)⟩
    rw [lower]
    unfold nameOf at hy
    split at hy <;> cases hy <;> rw [Pipeline.assign, k] <;> rfl
  | .MulAssign (t1 :: t2 :: ts) (r1 :: r2 :: rs), j, u, h => by
    rw [Ints] at h
    · obtain ⟨rfl, hl, h2, ⟨xs, hx, hn, hs⟩, hr⟩ := h
      obtain ⟨c, k, g⟩ := lowAll hv (r1 :: r2 :: rs) hr
      have hxl : xs.length = (r1 :: r2 :: rs).length := by
        have := congrArg List.length hx
        simp only [List.length_map] at this
        rw [← hl, this]
      refine ⟨.massign (xs.map fun y => .lvar (id y)) c, ?_, ?_⟩
      · rw [lower]
        · rw [lowerVars_of hx, k]; rfl
        · intro _ _ q; simp at q
      · rw [nodes, hl]
        exact .massign hv hn hs hxl h2 g
    · intro _ _ q; simp at q
  | .MulAssign [] rs, j, u, h => by
    rw [Ints] at h
    · have h1 := h.2.1; have h2 := h.2.2.1; simp at h1; simp [← h1] at h2
    · intro _ _ q; simp at q
  | .MulAssign (_ :: _) [], j, u, h => by
    rw [Ints] at h
    · have h2 := h.2.2.1; simp at h2
    · intro _ _ _ q; simp at q
  | .MulAssign (_ :: _ :: _) [r], j, u, h => by
    rw [Ints] at h
    · have h2 := h.2.2.1; simp at h2
    · intro _ _ q; simp at q
  | .MulAssign [_] (_ :: _ :: _), j, u, h => by
    rw [Ints] at h
    · have h2 := h.2.1; simp at h2
    · intro _ _ _ q; simp at q
  | .AssignOp op l r, j, u, h => by
    obtain ⟨y, rfl, h⟩ := ints_assignOp h
    obtain ⟨c, k, g⟩ := low hv r _ _ h.2.2
    obtain ⟨o, ho⟩ := bin_op (opAssigns_sub h.1) id
    refine ⟨.assign (.lvar (id y)) (.binop o (.lvar (id y)) c), ?_, ?_⟩
    · rw [lower, lower, k, Pipeline.assign]; simp only [both, Option.map, ho]
    · have b : Low x false true (1 + 1 + nodes r) (.binop o (.lvar (id y)) c) := Low.binop (.lvar (Nat.le_refl _)) g
      refine
       {sup := fun A em d _ => by rw [Supported]; exact b.sup _ _ _ (by simp)
        plain := by rw [Plain]; exact b.plain
        placed := fun A _ => by rw [Legal]; exact ⟨trivial, b.placed _ (by simp)⟩
        tame := by rw [Tame]; exact b.tame
        front := fun _ => by rw [Front]; exact b.front rfl
        weight := ?_}
      simp only [Codegen.Node.weight, nodes]; have := g.weight; omega
  | .Break e, j, u, h => by
    rw [Ints] at h
    obtain ⟨c, k, g⟩ := low hv e _ _ h.2
    refine ⟨.brk c, by rw [lower, k]; rfl, ?_⟩
    exact
     {sup := fun A em d q => by rw [Supported]; exact ⟨fun _ => (q h.1).2, g.sup _ _ _ (by simp)⟩
      plain := by rw [Plain]; exact g.plain
      placed := fun A q => by rw [Legal]; exact ⟨.inl (q h.1), g.placed _ (by simp)⟩
      tame := by rw [Tame]; exact g.tame
      front := fun _ => by rw [Front]; exact g.front rfl
      weight := by rw [Codegen.Node.weight, nodes]; have := g.weight; omega}
  | .Next e, j, u, h => by
    rw [Ints] at h
    obtain ⟨hj, rfl, rfl⟩ := h
    refine ⟨.nxt (.lit .nil), by rfl, ?_⟩
    exact
     {sup := fun A em d q => by rw [Supported, Supported]; exact ⟨.inl rfl, fun _ => ⟨(q hj).2, rfl, rfl⟩⟩
      plain := by rw [Plain, Plain]; trivial
      placed := fun A q => by rw [Legal, Legal]; exact ⟨.inl (q hj), trivial⟩
      tame := by rw [Tame, Tame]; trivial
      front := fun q => by rw [hj] at q; cases q
      weight := by simp [Codegen.Node.weight, nodes]}
  | .Return e, j, u, h => by
    rw [Ints] at h
    obtain ⟨c, k, g⟩ := low hv e _ _ h
    refine ⟨.ret c, by rw [lower, k]; rfl, ?_⟩
    exact
     {sup := fun A em d q => by rw [Supported]; exact g.sup _ _ _ (by simp)
      plain := by rw [Plain]; exact g.plain
      placed := fun A q => by rw [Legal]; exact g.placed _ (by simp)
      tame := by rw [Tame]; exact g.tame
      front := fun _ => by rw [Front]; exact g.front rfl
      weight := by rw [Codegen.Node.weight, nodes]; have := g.weight; omega}
  | .SelfValue, _, _, h => by simp [Ints] at h
  | .Float _ _, _, _, h => by simp [Ints] at h
  | .Imaginary _, _, _, h => by simp [Ints] at h
  | .String _, _, _, h => by simp [Ints] at h
  | .Range _ _ _ _, _, _, h => by simp [Ints] at h
  | .Array _ _, _, _, h => by simp [Ints] at h
  | .Ident _, _, _, h => by simp [Ints] at h
  | .InstanceVar _, _, _, h => by simp [Ints] at h
  | .GlobalVar _, _, _, h => by simp [Ints] at h
  | .SpecialVar _, _, _, h => by simp [Ints] at h
  | .ClassVar _, _, _, h => by simp [Ints] at h
  | .Const _ _, _, _, h => by simp [Ints] at h
  | .Scope _ _, _, _, h => by simp [Ints] at h
  | .Index _ _, _, _, h => by simp [Ints] at h
  | .Splat _, _, _, h => by simp [Ints] at h
  | .Rescue _ _, _, _, h => by simp [Ints] at h
  | .Send _ _ _ _, _, _, h => by simp [Ints] at h
  | .Defined _, _, _, h => by simp [Ints] at h

theorem lowSeq (hv : Vars id vars x) : ∀ (l : List Node) (j u : Bool), IntsSeq vars j l u →
    ∃ c, lowerAll id l = some c ∧ LowSeq x j u (nodesAll l) c
  | [], j, u, _ => ⟨.nil, rfl,
     {sup := fun A em d _ => by rw [SupSeq]; trivial
      plain := by rw [PlainSeq]; trivial
      placed := fun A _ => by rw [LegalAll]; trivial
      tame := by rw [TameAll]; trivial
      front := fun _ => by rw [FrontSeq]; trivial
      weight := by simp [Nodes.seqWeight]}⟩
  | [e], j, u, h => by
    rw [IntsSeq] at h
    obtain ⟨c, k, g⟩ := low hv e _ _ h
    refine ⟨.cons c .nil, by rw [lowerAll, k]; rfl, ?_⟩
    exact
     {sup := fun A em d q => by rw [SupSeq]; exact g.sup _ _ _ q
      plain := by rw [PlainSeq]; exact g.plain
      placed := fun A q => by rw [LegalAll, LegalAll]; exact ⟨g.placed _ q, trivial⟩
      tame := by rw [TameAll, TameAll]; exact ⟨g.tame, trivial⟩
      front := fun q => by rw [FrontSeq]; exact g.front q
      weight := by rw [Nodes.seqWeight, nodesAll]; have := g.weight; omega}
  | e :: f :: l, j, u, h => by
    rw [IntsSeq] at h
    · obtain ⟨c, k, g⟩ := low hv e _ _ h.1
      obtain ⟨cs, ks, gs⟩ := lowSeq hv (f :: l) _ _ h.2
      cases cs with
      | nil =>
        rw [lowerAll] at ks
        split at ks <;> cases ks
      | cons c2 cs =>
        refine ⟨.cons c (.cons c2 cs), by rw [lowerAll, k, ks], ?_⟩
        exact
         {sup := fun A em d q => by rw [SupSeq]; exact ⟨g.sup _ _ _ q, gs.sup _ _ _ q⟩
          plain := by rw [PlainSeq]; exact ⟨g.plain, gs.plain⟩
          placed := fun A q => by rw [LegalAll]; exact ⟨g.placed _ q, gs.placed _ q⟩
          tame := by rw [TameAll]; exact ⟨g.tame, gs.tame⟩
          front := fun q => by rw [FrontSeq]; exact ⟨g.front q, gs.front q⟩
          weight := by rw [Nodes.seqWeight, nodesAll]; have := g.weight; have := gs.weight; omega}
    · simp

theorem lowAll (hv : Vars id vars x) : ∀ (l : List Node), IntsAll vars l →
    ∃ c, lowerAll id l = some c ∧ LowAll x l.length (nodesAll l) c
  | [], _ => ⟨.nil, rfl, .nil⟩
  | e :: l, h => by
    rw [IntsAll] at h
    obtain ⟨c, k, g⟩ := low hv e _ _ h.1
    obtain ⟨cs, ks, gs⟩ := lowAll hv l h.2
    exact ⟨.cons c cs, by rw [lowerAll, k, ks], .cons g gs⟩
end

end Verif.Meaning
